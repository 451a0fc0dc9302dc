import Mathlib.Data.List.Forall2
import Verif.Model.HeapMxml
import Verif.Props.HeapCopy

/-!
# C186: the clone of a log is saved as the same file and has the same summary

XLog.clone copies the maps, the events and the traces, shares the attributes, and gives the events new identifiers.  Saving and summarising
do not look at identifiers.
-/

set_option linter.unusedSectionVars false

namespace Opy

section
variable {F : Type}

/-! ## Specification -/

/-- What a log shows without the identifiers of its events: the entries of all maps with the attribute objects themselves. -/
structure Skeleton where
  attrs : List (Str × Ref)
  extensions : List Ext
  classifiers : List Classifier
  globalTrace : List Ref
  globalEvent : List Ref
  features : List (Str × Str)
  traces : List (Option (List (Str × Ref) × List (Option (List (Str × Ref)))))

/-- The skeleton of what a log shows. -/
def LogView.skeleton (v : LogView) : Skeleton :=
  ⟨v.attrs, v.extensions, v.classifiers, v.globalTrace, v.globalEvent, v.features,
    v.traces.map fun t => t.map fun t => (t.attrs, t.events.map fun e => e.map EventView.attrs)⟩

/-- The object is a log with this skeleton. -/
def HasSkeleton (h : Heap F) (l : Ref) (s : Skeleton) : Prop := ∃ v, viewLog h l = some v ∧ v.skeleton = s

/-! ## Attributes of a heap that has grown -/

/-- All objects are still there, unchanged. -/
def Grown (h h' : Heap F) : Prop := ∀ r o, h.get r = some o → h'.get r = some o

theorem Grown.refl (h : Heap F) : Grown h h := fun _ _ g => g

theorem Keeps.grown {h h' : Heap F} (hk : Keeps h.size h h') : Grown h h' := fun r o g => by rw [hk.old r (get_lt g)]; exact g

/-- All entries are attributes. -/
def AllAttrs (h : Heap F) (d : List (Str × Ref)) : Prop := ∀ p ∈ d, IsA h p.2 .attr

theorem allAttrs_map {h : Heap F} (hw : WellFormed h) {m : Ref} {d : List (Str × Ref)} (g : h.get m = some (.map d)) : AllAttrs h d := (hw m _ g).2

section
variable [PyFloat F] {h h' : Heap F}

theorem grown_bare (hg : Grown h h') {r : Ref} (hr : IsA h r .attr) : bareAttr h' r = bareAttr h r := by
  obtain ⟨k, key, e, v, m, c, g⟩ := isA_attr hr
  simp only [bareAttr, g, hg _ _ g]

theorem grown_own (hw : WellFormed h) (hg : Grown h h') {r : Ref} (hr : IsA h r .attr) :
    ∃ d, ownEntries h r = .ok d ∧ ownEntries h' r = .ok d ∧ AllAttrs h d := by
  obtain ⟨k, key, e, v, m, c, g⟩ := isA_attr hr
  obtain ⟨d, gd⟩ := isA_map (hw r _ g).1
  exact ⟨d, by simp only [ownEntries, mapOf, g, bind, Except.bind, entries, gd],
    by simp only [ownEntries, mapOf, hg _ _ g, bind, Except.bind, entries, hg _ _ gd], allAttrs_map hw gd⟩

theorem AllAttrs.get {d : List (Str × Ref)} (hd : AllAttrs h d) {k : Str} {r : Ref} (g : dget k d = some r) : IsA h r .attr := by
  induction d with
  | nil => simp [dget] at g
  | cons p d ih =>
    obtain ⟨n, s⟩ := p
    simp only [dget] at g
    split at g
    · cases g; exact hd _ List.mem_cons_self
    · exact ih (fun q hq => hd q (List.mem_cons_of_mem _ hq)) g

theorem eachXml_congr {f g : Ref → Except PyErr Xml} : ∀ {rs : List Ref}, (∀ r ∈ rs, f r = g r) → eachXml f rs = eachXml g rs
  | [], _ => rfl
  | r :: rs, hf => by
    simp only [eachXml, hf r List.mem_cons_self, eachXml_congr fun s hs => hf s (List.mem_cons_of_mem _ hs)]

theorem grown_add (hw : WellFormed h) (hg : Grown h h') : ∀ (n : Nat) {rs : List Ref}, (∀ r ∈ rs, IsA h r .attr) →
    addAttributes h' n rs = addAttributes h n rs
  | 0, rs, _ => by simp only [addAttributes]
  | n + 1, rs, hr => by
    simp only [addAttributes]
    refine eachXml_congr fun r hm => ?_
    obtain ⟨k, key, e, v, m, c, g⟩ := isA_attr (hr r hm)
    obtain ⟨d, gd⟩ := isA_map (hw r _ g).1
    simp only [g, hg _ _ g, entries, gd, hg _ _ gd, bind, Except.bind]
    rw [grown_add hw hg n (hw r _ g).2, grown_add hw hg n (rs := d.map (·.2)) (by
      intro s hs
      obtain ⟨p, hp, rfl⟩ := List.mem_map.1 hs
      exact allAttrs_map hw gd p hp)]

theorem grown_members (hg : Grown h h') {f f' : Ref → Except PyErr Str} : ∀ {sep : Str} {rs : List Ref}, (∀ r ∈ rs, IsA h r .attr ∧ f' r = f r) →
    membersStr h' f' sep rs = membersStr h f sep rs
  | _, [], _ => rfl
  | sep, r :: rs, hr => by
    simp only [membersStr, grown_bare hg (hr r List.mem_cons_self).1, (hr r List.mem_cons_self).2,
      grown_members hg fun s hs => hr s (List.mem_cons_of_mem _ hs)]

theorem grown_str (hw : WellFormed h) (hg : Grown h h') : ∀ (n : Nat) {r : Ref}, IsA h r .attr → strAt h' n r = strAt h n r
  | 0, r, _ => by simp only [strAt]
  | n + 1, r, hr => by
    obtain ⟨k, key, e, v, m, c, g⟩ := isA_attr hr
    simp only [strAt, g, hg _ _ g]
    rw [grown_members hg (f := strAt h n) (f' := strAt h' n) fun s hs => ⟨(hw r _ g).2 s hs, grown_str hw hg n ((hw r _ g).2 s hs)⟩]

theorem grown_print (hw : WellFormed h) (hg : Grown h h') (n : Nat) {d : List (Str × Ref)} (hd : AllAttrs h d) (k : Str) :
    printAt h' n d k = printAt h n d k := by
  unfold printAt
  cases g : dget k d with
  | none => rfl
  | some r => simp only [grown_str hw hg n (hd.get g)]

theorem grown_parts (hw : WellFormed h) (hg : Grown h h') (n : Nat) {d : List (Str × Ref)} (hd : AllAttrs h d) :
    ∀ ks, partsAt h' n d ks = partsAt h n d ks
  | [] => rfl
  | k :: ks => by simp only [partsAt, grown_print hw hg n hd, grown_parts hw hg n hd ks]

theorem grown_identity (hw : WellFormed h) (hg : Grown h h') (n : Nat) {d : List (Str × Ref)} (hd : AllAttrs h d) (c : Classifier) :
    identityAt h' n c d = identityAt h n c d := by
  unfold identityAt
  simp only [grown_print hw hg n hd, grown_parts hw hg n hd]

theorem grown_classes (hw : WellFormed h) (hg : Grown h h') (n : Nat) {d : List (Str × Ref)} (hd : AllAttrs h d) :
    ∀ cs, classesAt h' n d cs = classesAt h n d cs
  | [] => rfl
  | (c, m) :: cs => by simp only [classesAt, grown_identity hw hg n hd, grown_classes hw hg n hd cs]

theorem grown_bounds (hg : Grown h h') {d : List (Str × Ref)} (hd : AllAttrs h d) (b : TimeBounds) : boundsAt h' b d = boundsAt h b d := by
  unfold boundsAt
  cases g : dget timeKey d with
  | none => rfl
  | some r =>
    obtain ⟨k, key, e, v, m, c, g'⟩ := isA_attr (hd.get g)
    simp only [g', hg _ _ g']

theorem grown_metaLoop (hg : Grown h h') {f f' : AttrInfo → Ref → Except PyErr AttrInfo} : ∀ {d : List (Str × Ref)} {mi : AttrInfo}, AllAttrs h d →
    (∀ p ∈ d, ∀ mi, f' mi p.2 = f mi p.2) → metaLoop h' f' mi d = metaLoop h f mi d
  | [], _, _, _ => rfl
  | (n, r) :: d, mi, hd, hf => by
    simp only [metaLoop, grown_bare hg (hd _ List.mem_cons_self), hf _ List.mem_cons_self,
      grown_metaLoop hg (fun p hp => hd p (List.mem_cons_of_mem _ hp)) fun p hp => hf p (List.mem_cons_of_mem _ hp)]

theorem grown_meta (hw : WellFormed h) (hg : Grown h h') : ∀ (n : Nat) {r : Ref} {mi : AttrInfo}, IsA h r .attr → metaAt h' n mi r = metaAt h n mi r
  | 0, _, _, _ => by simp only [metaAt]
  | n + 1, r, mi, hr => by
    obtain ⟨d, g, g', hd⟩ := grown_own hw hg hr
    simp only [metaAt, g, g', bind, Except.bind]
    exact grown_metaLoop hg hd fun p hp mi => grown_meta hw hg n (hd p hp)

theorem grown_level (hw : WellFormed h) (hg : Grown h h') (n : Nat) : ∀ {d : List (Str × Ref)} {info mi : AttrInfo}, AllAttrs h d →
    levelLoop h' n info mi d = levelLoop h n info mi d
  | [], _, _, _ => rfl
  | (k, r) :: d, info, mi, hd => by
    simp only [levelLoop, grown_bare hg (hd _ List.mem_cons_self), grown_meta hw hg n (hd _ List.mem_cons_self),
      grown_level hw hg n fun p hp => hd p (List.mem_cons_of_mem _ hp)]

theorem grown_value (hg : Grown h h') {d : List (Str × Ref)} (hd : AllAttrs h d) (k : Str) : valueUnder h' d k = valueUnder h d k := by
  unfold valueUnder
  cases g : dget k d with
  | none => rfl
  | some r => simp only [grown_bare hg (hd.get g)]

theorem grown_refUnder (hg : Grown h h') {d : List (Str × Ref)} (hd : AllAttrs h d) : refUnder h' d = refUnder h d := by
  simp only [refUnder, grown_value hg hd]

theorem grown_ref (hw : WellFormed h) (hg : Grown h h') {r : Ref} (hr : IsA h r .attr) : refAt h' r = refAt h r := by
  obtain ⟨d, g, g', hd⟩ := grown_own hw hg hr
  simp only [refAt, g, g', bind, Except.bind, grown_refUnder hg hd]

theorem grown_dataKids (hw : WellFormed h) (hg : Grown h h') (n : Nat) : ∀ {d : List (Str × Ref)}, AllAttrs h d → dataKidsAt h' n d = dataKidsAt h n d
  | [], _ => rfl
  | (k, r) :: d, hd => by
    have hr := hd _ List.mem_cons_self
    obtain ⟨d', g, g', hd'⟩ := grown_own hw hg hr
    simp only [dataKidsAt, grown_bare hg hr, grown_ref hw hg hr, grown_str hw hg n hr, g, g',
      grown_dataKids hw hg n fun p hp => hd p (List.mem_cons_of_mem _ hp)]

theorem grown_data (hw : WellFormed h) (hg : Grown h h') (n : Nat) {d : List (Str × Ref)} (hd : AllAttrs h d) : dataAt h' n d = dataAt h n d := by
  simp only [dataAt, grown_dataKids hw hg n hd]

theorem grown_name (hg : Grown h h') {d : List (Str × Ref)} (hd : AllAttrs h d) : nameUnder h' d = nameUnder h d := by
  simp only [nameUnder, grown_value hg hd]

theorem grown_id (hg : Grown h h') {d : List (Str × Ref)} (hd : AllAttrs h d) : idUnder h' d = idUnder h d := by
  simp only [idUnder, grown_name hg hd]

theorem grown_type (hw : WellFormed h) (hg : Grown h h') {d : List (Str × Ref)} (hd : AllAttrs h d) : typeAt h' d = typeAt h d := by
  unfold typeAt
  cases g : dget py!"lifecycle:transition" d with
  | none => rfl
  | some r => simp only [grown_bare hg (hd.get g), grown_ref hw hg (hd.get g)]

theorem grown_originator (hw : WellFormed h) (hg : Grown h h') {d : List (Str × Ref)} (hd : AllAttrs h d) : originatorAt h' d = originatorAt h d := by
  unfold originatorAt
  have key : ∀ r, (dget py!"org:resource" d).or ((dget py!"org:role" d).or (dget py!"org:group" d)) = some r → IsA h r .attr := by
    intro r hr
    simp only [Option.or_eq_some_iff] at hr
    rcases hr with g | ⟨_, g | ⟨_, g⟩⟩
    · exact hd.get g
    · exact hd.get g
    · exact hd.get g
  cases g : (dget py!"org:resource" d).or ((dget py!"org:role" d).or (dget py!"org:group" d)) with
  | none => rfl
  | some r => simp only [grown_bare hg (key r g), grown_ref hw hg (key r g)]

theorem grown_timestamp (hw : WellFormed h) (hg : Grown h h') {d : List (Str × Ref)} (hd : AllAttrs h d) : timestampAt h' d = timestampAt h d := by
  unfold timestampAt
  cases g : dget py!"time:timestamp" d with
  | none => rfl
  | some r => simp only [grown_bare hg (hd.get g), grown_ref hw hg (hd.get g)]

/-! ## Elements with the same entries -/

/-- The element of a log with these extensions and these elements after them. -/
def logElem (es : List Ext) (rest : List Xml) : Xml := .elem py!"log" versionAttrs (es.map extXml ++ rest)

/-- Events with the same entries. -/
def AlikeEvent (h h' : Heap F) (e e' : Ref) : Prop := ∃ d, ownEntries h e = .ok d ∧ ownEntries h' e' = .ok d ∧ AllAttrs h d

/-- Traces with the same entries, and the same in their events. -/
def AlikeTrace (h h' : Heap F) (t t' : Ref) : Prop :=
  ∃ m es m' es', h.get t = some (.trace m es) ∧ h'.get t' = some (.trace m' es') ∧ AlikeEvent h h' t t' ∧ List.Forall₂ (AlikeEvent h h') es es'

/-- Logs with these extensions, which have the same entries, and the same in their traces. -/
def AlikeLog (h h' : Heap F) (l l' : Ref) (es es' : List Ext) : Prop :=
  ∃ lo lo', h.get l = some (.log lo) ∧ h'.get l' = some (.log lo') ∧ AlikeEvent h h' l l' ∧ (lo.extensions = es ∧ lo'.extensions = es') ∧
    lo'.classifiers = lo.classifiers ∧ lo'.globalTrace = lo.globalTrace ∧ lo'.globalEvent = lo.globalEvent ∧ List.Forall₂ (AlikeTrace h h') lo.traces lo'.traces

theorem eachXml_alike {P : Ref → Ref → Prop} {f g : Ref → Except PyErr Xml} (hf : ∀ r s, P r s → g s = f r) {rs ss : List Ref} (h : List.Forall₂ P rs ss) :
    eachXml g ss = eachXml f rs := by
  induction h with
  | nil => rfl
  | cons a _ ih => simp only [eachXml, hf _ _ a, ih]

theorem eachNode_alike {P : Ref → Ref → Prop} {f g : Ref → Except PyErr MNode} (hf : ∀ r s, P r s → g s = f r) {rs ss : List Ref} (h : List.Forall₂ P rs ss) :
    eachNode g ss = eachNode f rs := by
  induction h with
  | nil => rfl
  | cons a _ ih => simp only [eachNode, hf _ _ a, ih]

theorem addOwn_own (h : Heap F) (n : Nat) (x : Ref) : addOwn h n x = (ownEntries h x).bind fun d => addAttributes h n (d.map (·.2)) := by
  unfold addOwn ownEntries
  cases mapOf h x with
  | error e => rfl
  | ok m => rfl

theorem alike_addOwn (hw : WellFormed h) (hg : Grown h h') (n : Nat) {e e' : Ref} (ha : AlikeEvent h h' e e') : addOwn h' n e' = addOwn h n e := by
  obtain ⟨d, g, g', hd⟩ := ha
  rw [addOwn_own, addOwn_own, g, g']
  exact grown_add hw hg n (by
    intro s hs
    obtain ⟨p, hp, rfl⟩ := List.mem_map.1 hs
    exact hd p hp)

theorem alike_xes (hw : WellFormed h) (hg : Grown h h') (n : Nat) {l l' : Ref} {es es' : List Ext} (ha : AlikeLog h h' l l' es es') :
    ∃ R : Except PyErr (List Xml), saveObjects h n l = R.map (logElem es) ∧ saveObjects h' n l' = R.map (logElem es') := by
  obtain ⟨lo, lo', g, g', hd, ⟨rfl, rfl⟩, e2, e3, e4, ht⟩ := ha
  have hl := hw l _ g
  refine ⟨(do
    let gt ← globalElems h n py!"trace" lo.globalTrace
    let ge ← globalElems h n py!"event" lo.globalEvent
    let as ← addOwn h n l
    let ts ← eachXml (traceElem h n) lo.traces
    .ok (gt ++ ge ++ lo.classifiers.map classifierXml ++ as ++ ts)), ?_, ?_⟩
  · simp only [saveObjects, g]
    cases globalElems h n py!"trace" lo.globalTrace <;> [rfl; skip]
    cases globalElems h n py!"event" lo.globalEvent <;> [rfl; skip]
    cases addOwn h n l <;> [rfl; skip]
    cases eachXml (traceElem h n) lo.traces <;> [rfl; skip]
    simp [bind, Except.bind, Except.map, logElem]
  · have ht' : eachXml (traceElem h' n) lo'.traces = eachXml (traceElem h n) lo.traces := by
      refine eachXml_alike ?_ ht
      rintro t t' ⟨m, es, m', es', gt, gt', ho, he⟩
      simp only [traceElem, alike_addOwn hw hg n ho, gt, gt']
      rw [eachXml_alike (f := eventElem h n) (g := eventElem h' n) ?_ he]
      intro e e' hee
      simp only [eventElem, alike_addOwn hw hg n hee]
    have g1 : globalElems h' n py!"trace" lo.globalTrace = globalElems h n py!"trace" lo.globalTrace := by simp only [globalElems, grown_add hw hg n hl.2.1]
    have g2 : globalElems h' n py!"event" lo.globalEvent = globalElems h n py!"event" lo.globalEvent := by simp only [globalElems, grown_add hw hg n hl.2.2.1]
    simp only [saveObjects, g', e2, e3, e4, alike_addOwn hw hg n hd, ht', g1, g2]
    cases globalElems h n py!"trace" lo.globalTrace <;> [rfl; skip]
    cases globalElems h n py!"event" lo.globalEvent <;> [rfl; skip]
    cases addOwn h n l <;> [rfl; skip]
    cases eachXml (traceElem h n) lo.traces <;> [rfl; skip]
    simp [bind, Except.bind, Except.map, logElem]

theorem alike_mxml (hw : WellFormed h) (hg : Grown h h') (n : Nat) {l l' : Ref} {es es' : List Ext} (ha : AlikeLog h h' l l' es es') : saveMxmlAt h' n l' = saveMxmlAt h n l := by
  obtain ⟨lo, lo', g, g', ⟨d, o, o', hd⟩, _, _, _, _, ht⟩ := ha
  simp only [saveMxmlAt, g, g', o, o', bind, Except.bind, grown_id hg hd, grown_refUnder hg hd, grown_data hw hg n hd]
  rw [eachNode_alike (f := instanceAt h n) (g := instanceAt h' n) ?_ ht]
  rintro t t' ⟨m, es, m', es', gt, gt', ⟨d, o, o', hd⟩, he⟩
  simp only [instanceAt, o, o', bind, Except.bind, grown_id hg hd, grown_refUnder hg hd, grown_data hw hg n hd, traceEvents, gt, gt']
  rw [eachNode_alike (f := entryAt h n) (g := entryAt h' n) ?_ he]
  rintro e e' ⟨d, o, o', hd⟩
  simp only [entryAt, o, o', bind, Except.bind, grown_data hw hg n hd, grown_refUnder hg hd, grown_name hg hd, grown_type hw hg hd,
    grown_originator hw hg hd, grown_timestamp hw hg hd]

theorem alike_events (hw : WellFormed h) (hg : Grown h h') (n : Nat) {es es' : List Ref} (he : List.Forall₂ (AlikeEvent h h') es es') :
    ∀ i tb, eventsAt h' n i tb es' = eventsAt h n i tb es := by
  induction he with
  | nil => intro i tb; rfl
  | cons a _ ih =>
    intro i tb
    obtain ⟨d, o, o', hd⟩ := a
    simp only [eventsAt, levelAt, o, o', bind, Except.bind, grown_level hw hg n hd, grown_classes hw hg n hd, grown_bounds hg hd, ih]

theorem alike_traces (hw : WellFormed h) (hg : Grown h h') (n : Nat) {ts ts' : List Ref} (ht : List.Forall₂ (AlikeTrace h h') ts ts') :
    ∀ i, tracesAt h' n i ts' = tracesAt h n i ts := by
  induction ht with
  | nil => intro i; rfl
  | cons a _ ih =>
    intro i
    obtain ⟨m, es, m', es', gt, gt', ⟨d, o, o', hd⟩, he⟩ := a
    simp only [tracesAt, levelAt, o, o', bind, Except.bind, grown_level hw hg n hd, traceEvents, gt, gt', alike_events hw hg n he, ih]

theorem alike_info (hw : WellFormed h) (hg : Grown h h') (n : Nat) {l l' : Ref} {es es' : List Ext} (ha : AlikeLog h h' l l' es es') (d : Option Classifier) (cs : List Classifier) :
    infoAt h' n l' d cs = infoAt h n l d cs := by
  obtain ⟨lo, lo', g, g', ⟨d', o, o', hd⟩, _, _, _, _, ht⟩ := ha
  simp only [infoAt, g, g', levelAt, o, o', bind, Except.bind, grown_level hw hg n hd, alike_traces hw hg n ht]

/-! ## Logs with the same skeleton -/

theorem forall2_of_map {α β γ : Type} {f : α → γ} {g : β → γ} : ∀ {xs : List α} {ys : List β}, ys.map g = xs.map f → List.Forall₂ (fun x y => x ∈ xs ∧ g y = f x) xs ys
  | [], [], _ => .nil
  | [], _ :: _, he => by simp at he
  | _ :: _, [], he => by simp at he
  | x :: xs, y :: ys, he => by
    simp only [List.map_cons, List.cons.injEq] at he
    exact .cons ⟨List.mem_cons_self, he.1⟩ ((forall2_of_map he.2).imp fun a b hab => ⟨List.mem_cons_of_mem _ hab.1, hab.2⟩)

theorem viewMap_some {m : Ref} {d : List (Str × Ref)} (hv : viewMap h m = some d) : h.get m = some (.map d) := by
  unfold viewMap at hv
  split at hv
  · next d' g => cases hv; exact g
  · cases hv

theorem event_own {e : Ref} {w : EventView} (hv : viewEvent h e = some w) : ∃ u m, h.get e = some (.event u m) ∧ h.get m = some (.map w.attrs) := by
  unfold viewEvent at hv
  split at hv
  · next i m g =>
    obtain ⟨d, hd, rfl⟩ := Option.map_eq_some_iff.1 hv
    exact ⟨i, m, g, viewMap_some hd⟩
  · cases hv

theorem trace_own {t : Ref} {w : TraceView} (hv : viewTrace h t = some w) :
    ∃ m es, h.get t = some (.trace m es) ∧ h.get m = some (.map w.attrs) ∧ w.events = es.map (viewEvent h) := by
  unfold viewTrace at hv
  split at hv
  · next m es g =>
    obtain ⟨d, hd, rfl⟩ := Option.map_eq_some_iff.1 hv
    exact ⟨m, es, g, viewMap_some hd, rfl⟩
  · cases hv

theorem log_own {l : Ref} {w : LogView} (hv : viewLog h l = some w) : ∃ lo, h.get l = some (.log lo) ∧ h.get lo.map = some (.map w.attrs) ∧
    w = ⟨w.attrs, lo.extensions, lo.classifiers, lo.globalTrace, lo.globalEvent, lo.features, lo.traces.map (viewTrace h)⟩ := by
  unfold viewLog at hv
  split at hv
  · next lo g =>
    obtain ⟨d, hd, rfl⟩ := Option.map_eq_some_iff.1 hv
    exact ⟨lo, g, viewMap_some hd, rfl⟩
  · cases hv

theorem isEvent_view {e : Ref} (he : IsEvent h e) : ∃ w, viewEvent h e = some w := by
  obtain ⟨u, m, d, g, gd, _⟩ := he
  exact ⟨_, by simp only [viewEvent, g, viewMap, gd, Option.map_some]; rfl⟩

theorem isTrace_view {t : Ref} (ht : IsTrace h t) : ∃ w, viewTrace h t = some w := by
  obtain ⟨m, es, d, g, gd, _⟩ := ht
  exact ⟨_, by simp only [viewTrace, g, viewMap, gd, Option.map_some]; rfl⟩

theorem alike_of_skeleton (hw : WellFormed h) {l l' : Ref} {s : Skeleton} {es : List Ext} (h1 : HasSkeleton h l s)
    (h2 : HasSkeleton h' l' { s with extensions := es }) : AlikeLog h h' l l' s.extensions es := by
  obtain ⟨v, hv, rfl⟩ := h1
  obtain ⟨v', hv', hs⟩ := h2
  obtain ⟨lo, g, gd, e⟩ := log_own hv
  obtain ⟨lo', g', gd', e'⟩ := log_own hv'
  generalize v.attrs = d at gd e
  generalize v'.attrs = d' at gd' e'
  subst e e'
  simp only [LogView.skeleton, Skeleton.mk.injEq] at hs
  obtain ⟨q1, q2, q3, q4, q5, _, q7⟩ := hs
  subst q1
  refine ⟨lo, lo', g, g', ⟨d', ?_, ?_, allAttrs_map hw gd⟩, ⟨rfl, q2⟩, q3, q4, q5, ?_⟩
  · simp only [ownEntries, mapOf, g, bind, Except.bind, entries, gd]
  · simp only [ownEntries, mapOf, g', bind, Except.bind, entries, gd']
  rw [List.map_map, List.map_map] at q7
  refine (forall2_of_map q7).imp ?_
  rintro t t' ⟨ht, hq⟩
  obtain ⟨w, hwt⟩ := isTrace_view (hw.trace ((hw l _ g).2.2.2 t ht))
  simp only [Function.comp, hwt, Option.map_some] at hq
  obtain ⟨w', hwt', hq⟩ := Option.map_eq_some_iff.1 hq
  simp only [Prod.mk.injEq] at hq
  obtain ⟨m, es, gt, gm, ee⟩ := trace_own hwt
  obtain ⟨m', es', gt', gm', ee'⟩ := trace_own hwt'
  rw [hq.1] at gm'
  refine ⟨m, es, m', es', gt, gt', ⟨w.attrs, ?_, ?_, allAttrs_map hw gm⟩, ?_⟩
  · simp only [ownEntries, mapOf, gt, bind, Except.bind, entries, gm]
  · simp only [ownEntries, mapOf, gt', bind, Except.bind, entries, gm']
  have q := hq.2
  rw [ee, ee', List.map_map, List.map_map] at q
  refine (forall2_of_map q).imp ?_
  rintro a b ⟨ha, hab⟩
  obtain ⟨x, hx⟩ := isEvent_view (hw.event ((hw t _ gt).2 a ha))
  simp only [Function.comp, hx, Option.map_some] at hab
  obtain ⟨y, hy, hxy⟩ := Option.map_eq_some_iff.1 hab
  obtain ⟨u, n, g1, g2⟩ := event_own hx
  obtain ⟨u', n', g1', g2'⟩ := event_own hy
  rw [hxy] at g2'
  refine ⟨x.attrs, ?_, ?_, allAttrs_map hw g2⟩
  · simp only [ownEntries, mapOf, g1, bind, Except.bind, entries, g2]
  · simp only [ownEntries, mapOf, g1', bind, Except.bind, entries, g2']

theorem relabel_events (rnd : Nat → Uuid) : ∀ (es : List (Option EventView)) (idx : List Nat), es.length = idx.length →
    (List.zipWith (fun e i => e.map (fun w => (⟨rnd i, w.attrs⟩ : EventView))) es idx).map (fun e => e.map EventView.attrs) = es.map fun e => e.map EventView.attrs
  | [], _, _ => by simp
  | e :: es, [], hl => by simp at hl
  | e :: es, i :: idx, hl => by
    simp only [List.zipWith_cons_cons, List.map_cons, relabel_events rnd es idx (by simpa using hl), Option.map_map]
    rfl

theorem relabel_traces (rnd : Nat → Uuid) : ∀ (ts : List (Option TraceView)) (idx : List (List Nat)),
    ts.map (fun t => t.map (fun t => t.events.length)) = idx.map (fun ix => some ix.length) →
    (List.zipWith (fun t ix => t.map (fun w => TraceView.relabel rnd w ix)) ts idx).map (fun t => t.map fun t => (t.attrs, t.events.map fun e => e.map EventView.attrs)) =
      ts.map fun t => t.map fun t => (t.attrs, t.events.map fun e => e.map EventView.attrs)
  | [], _, _ => by simp
  | t :: ts, [], hl => by simp at hl
  | t :: ts, i :: idx, hl => by
    simp only [List.map_cons, List.cons.injEq] at hl
    simp only [List.zipWith_cons_cons, List.map_cons, relabel_traces rnd ts idx hl.2]
    obtain ⟨w, rfl, hw⟩ := Option.map_eq_some_iff.1 hl.1
    simp only [Option.map_some, TraceView.relabel, relabel_events rnd _ _ hw]

/-! ## C186 -/

/-- Both objects are saved as the same files and have the same summaries, or the same exceptions are raised, whatever the limit on nested calls is. -/
def SameResults (h : Heap F) (l : Ref) (h' : Heap F) (l' : Ref) : Prop :=
  ∀ n, saveObjects h' n l' = saveObjects h n l ∧ (∀ modern, saveObjectsText modern h' n l' = saveObjectsText modern h n l) ∧
    saveMxmlAt h' n l' = saveMxmlAt h n l ∧ ∀ d cs, infoAt h' n l' d cs = infoAt h n l d cs

/-- The same, but the extensions are declared in the orders `es` and `es'`. -/
def SameResultsUpTo (es es' : List Ext) (h : Heap F) (l : Ref) (h' : Heap F) (l' : Ref) : Prop :=
  ∀ n, (∃ R : Except PyErr (List Xml), saveObjects h n l = R.map (logElem es) ∧ saveObjects h' n l' = R.map (logElem es')) ∧
    saveMxmlAt h' n l' = saveMxmlAt h n l ∧ ∀ d cs, infoAt h' n l' d cs = infoAt h n l d cs

/-- What is saved and summarised depends on the skeleton and the attributes only, and on the order of the extensions only their declarations. -/
theorem c186_skeleton (hw : WellFormed h) (hg : Grown h h') {l l' : Ref} {s : Skeleton} {es : List Ext} (h1 : HasSkeleton h l s)
    (h2 : HasSkeleton h' l' { s with extensions := es }) :
    SameResultsUpTo s.extensions es h l h' l' ∧ (es = s.extensions → SameResults h l h' l') := by
  have ha := alike_of_skeleton hw h1 h2
  refine ⟨fun n => ⟨alike_xes hw hg n ha, alike_mxml hw hg n ha, alike_info hw hg n ha⟩, ?_⟩
  rintro rfl n
  obtain ⟨R, r1, r2⟩ := alike_xes hw hg n ha
  have e := r2.trans r1.symm
  exact ⟨e, fun modern => by simp only [saveObjectsText, e], alike_mxml hw hg n ha, alike_info hw hg n ha⟩

/-- C186: cloning a log succeeds; the clone and the log have the skeleton that the log had, and all that was there stays as it was. -/
theorem c186_clone (rnd : Nat → Uuid) (hw : WellFormed h) {l : Ref} (hl : IsA h l .log) :
    ∃ c h' s, cloneLog rnd h l = .ok (c, h') ∧ h.size ≤ c ∧ c ≠ l ∧ Grown h h' ∧ HasSkeleton h l s ∧ HasSkeleton h' l s ∧ HasSkeleton h' c s := by
  obtain ⟨c, h', idx, v, r1, r2, -, r4, -, -, -, -, r9, r10, r11⟩ := cloneLog_ok rnd (hw.log hl)
  obtain ⟨c', h'', v', idx', s1, s2, s3, -⟩ := c34_log rnd (hw.log hl)
  rw [r1] at s1
  cases s1
  rw [r9] at s2
  cases s2
  obtain ⟨o, g, _⟩ := hl
  have := get_lt g
  refine ⟨c, h', v.skeleton, r1, by omega, by omega, r4.grown, ⟨v, r9, rfl⟩, ⟨v, s3, rfl⟩, ⟨_, r11, ?_⟩⟩
  simp only [LogView.skeleton, LogView.relabel, relabel_traces rnd _ _ r10]

/-- C186: the clone is saved and summarised as the log was before, if its set enumerates the extensions in the same order (see `c186_order`). -/
theorem c186_results (rnd : Nat → Uuid) (hw : WellFormed h) {l : Ref} (hl : IsA h l .log) :
    ∃ c h', cloneLog rnd h l = .ok (c, h') ∧ c ≠ l ∧ SameResults h l h' c ∧ SameResults h l h' l := by
  obtain ⟨c, h', s, q1, -, q2, q3, q4, q5, q6⟩ := c186_clone rnd hw hl
  exact ⟨c, h', q1, q2, (c186_skeleton hw q3 q4 q6).2 rfl, (c186_skeleton hw q3 q4 q5).2 rfl⟩

/-- The heap in which the set of the extensions of this log is enumerated in another order. -/
def reorder (h : Heap F) (c : Ref) (es : List Ext) : Heap F :=
  match h.get c with
  | some (.log lo) => h.put c (.log { lo with extensions := es })
  | _ => h

theorem reorder_get {c : Ref} {lo : LogObj} (g : h.get c = some (.log lo)) (es : List Ext) (r : Ref) :
    (reorder h c es).get r = if r = c then some (.log { lo with extensions := es }) else h.get r := by
  simp only [reorder, g]
  split
  · next e => subst e; exact get_put_self _ (get_lt g)
  · next e => exact get_put_ne _ e

theorem reorder_views {c : Ref} {lo : LogObj} (g : h.get c = some (.log lo)) (es : List Ext) :
    viewMap (reorder h c es) = viewMap h ∧ viewTrace (reorder h c es) = viewTrace h := by
  have key := reorder_get g es
  have hm : viewMap (reorder h c es) = viewMap h := by
    funext m
    by_cases e : m = c
    · subst e; simp only [viewMap, key, if_true, g]
    · simp only [viewMap, key, if_neg e]
  have he : viewEvent (reorder h c es) = viewEvent h := by
    funext m
    by_cases e : m = c
    · subst e; simp only [viewEvent, key, if_true, g]
    · simp only [viewEvent, key, if_neg e, hm]
  refine ⟨hm, funext fun m => ?_⟩
  by_cases e : m = c
  · subst e; simp only [viewTrace, key, if_true, g]
  · simp only [viewTrace, key, if_neg e, hm, he]

theorem reorder_skeleton {c : Ref} {s : Skeleton} (hs : HasSkeleton h c s) (es : List Ext) : HasSkeleton (reorder h c es) c { s with extensions := es } := by
  obtain ⟨v, hv, rfl⟩ := hs
  obtain ⟨lo, g, -, -⟩ := log_own hv
  obtain ⟨hm, ht⟩ := reorder_views g es
  unfold viewLog at hv
  rw [g] at hv
  obtain ⟨d, h1, rfl⟩ := Option.map_eq_some_iff.1 hv
  exact ⟨_, by simp only [viewLog, reorder_get g es, if_true, hm, h1, Option.map_some, ht]; rfl, rfl⟩

theorem reorder_other {c l : Ref} {lo : LogObj} (g : h.get c = some (.log lo)) (hn : c ≠ l) {s : Skeleton} (hs : HasSkeleton h l s) (es : List Ext) :
    HasSkeleton (reorder h c es) l s := by
  obtain ⟨v, hv, rfl⟩ := hs
  obtain ⟨hm, ht⟩ := reorder_views g es
  exact ⟨v, by simp only [viewLog, reorder_get g es, if_neg (Ne.symm hn), hm, ht]; exact hv, rfl⟩

/-- C186: in whatever order the new set of the clone enumerates the extensions, the file of the clone differs only in the order in which it
declares them; MXML file, summary and exceptions are the same, and those of the log are as before. -/
theorem c186_order (rnd : Nat → Uuid) (hw : WellFormed h) {l : Ref} (hl : IsA h l .log) :
    ∃ c h' lo, cloneLog rnd h l = .ok (c, h') ∧ c ≠ l ∧ h.get l = some (.log lo) ∧ ∀ es, es.Perm lo.extensions →
      SameResultsUpTo lo.extensions es h l (reorder h' c es) c ∧ SameResults h l (reorder h' c es) l := by
  obtain ⟨c, h', s, q1, qs, q2, q3, q4, q5, q6⟩ := c186_clone rnd hw hl
  obtain ⟨v, hv, rfl⟩ := q4
  obtain ⟨lo, g, gd, e⟩ := log_own hv
  have hx : v.skeleton.extensions = lo.extensions := by rw [e]; rfl
  refine ⟨c, h', lo, q1, q2, g, fun es _ => ?_⟩
  obtain ⟨v', hv', e'⟩ := id q6
  obtain ⟨lo', g', -, -⟩ := log_own hv'
  have hg : Grown h (reorder h' c es) := by
    intro r o gr
    have := get_lt gr
    rw [reorder_get g', if_neg (by omega)]
    exact q3 r o gr
  refine ⟨hx ▸ (c186_skeleton hw hg ⟨v, hv, rfl⟩ (reorder_skeleton q6 es)).1, ?_⟩
  exact (c186_skeleton (es := v.skeleton.extensions) hw hg ⟨v, hv, rfl⟩ (reorder_other g' q2 q5 es)).2 rfl

/-- C186: the same for programs. -/
theorem c186_program {env : ApiEnv} {h0 : Heap F} (h0w : WellFormed h0) (hP : ProtosOk h0 env.protos) (hr : Reaches env h0 h) {l : Ref}
    (hl : IsA h l .log) : ∃ c h' lo, cloneLog env.rnd h l = .ok (c, h') ∧ c ≠ l ∧ h.get l = some (.log lo) ∧ ∀ es, es.Perm lo.extensions →
      SameResultsUpTo lo.extensions es h l (reorder h' c es) c ∧ SameResults h l (reorder h' c es) l :=
  c186_order env.rnd (c159_reachable h0w hP hr).1 hl

/-- C186: this stays so whatever happens to attributes, through the log, the clone or otherwise, as long as the maps, events and traces of the two
stay as they are. -/
theorem c186_later {h2 : Heap F} (hw : WellFormed h2) {l c : Ref} {s : Skeleton} (h1 : HasSkeleton h2 l s) (h3 : HasSkeleton h2 c s) : SameResults h2 l h2 c :=
  (c186_skeleton hw (Grown.refl h2) h1 h3).2 rfl

end

end

/-! ## Examples -/

/-- Cloning the log with shared objects (object 6 of `exShared`), then setting the value of its attribute through the clone; the texts of the file
of the log before and after that, and of the clone after that. -/
def cloneThenSet : Option (Str × Str × Str) :=
  match cloneLog (fun n => ⟨n % 16, Nat.lt_of_lt_of_le (Nat.mod_lt _ (by decide)) (by decide)⟩) exShared 6 with
  | .ok (c, h1) =>
    match viewLog h1 c with
    | some v =>
      match dget py!"b" v.attrs with
      | some a =>
        match setValue h1 a (.str py!"y") with
        | .ok h2 =>
          match saveObjectsText false h1 2 6, saveObjectsText false h2 2 6, saveObjectsText false h2 2 c with
          | .ok x, .ok y, .ok z => some (x, y, z)
          | _, _, _ => none
        | _ => none
      | _ => none
    | _ => none
  | _ => none

/-- C186: so a clone does not keep what the log was.  A value that is set through the clone is in the file of the log. -/
theorem c186_values_refuted : ∃ x y, cloneThenSet = some (x, y, y) ∧ x ≠ y := by
  have h : (cloneThenSet.map fun p => (decide (p.1 ≠ p.2.1), decide (p.2.1 = p.2.2))) = some (true, true) := by decide +kernel
  obtain ⟨⟨x, y, z⟩, h1, h2⟩ := Option.map_eq_some_iff.1 h
  simp only [Prod.mk.injEq, decide_eq_true_eq] at h2
  obtain ⟨h2, rfl⟩ := h2
  exact ⟨x, y, h1, h2⟩

/-- The theorems apply to this log, which can be saved. -/
example : WellFormed exShared ∧ IsA exShared 6 .log ∧ (saveObjectsText false exShared 2 6).isOk = true := by
  exact ⟨goodB_sound (by decide +kernel), isAB_sound (by decide +kernel), by decide +kernel⟩

/-- ... and to one with an attribute within itself, which cannot. -/
example : ∃ c h', cloneLog (fun _ => ⟨0, by decide⟩) exCycle 44 = .ok (c, h') ∧ c ≠ 44 ∧ ∀ n y, saveObjects h' n c ≠ .ok y := by
  have g : exCycle.get 43 = some (.attr .literal py!"a" none (.str []) 42 []) := by decide +kernel
  have gm : exCycle.get 42 = some (.map [(py!"a", 43)]) := by decide +kernel
  have hl : HasLoop exCycle 44 :=
    ⟨43, 43, .log ⟨42, _, py!"a", by decide +kernel, gm, by simp⟩, Or.inl rfl, .single (.nested (n := py!"a") g rfl gm (by simp))⟩
  obtain ⟨c, h', q1, q2, q3, -⟩ := c186_results (fun _ => ⟨0, by decide⟩) (h := exCycle) (goodB_sound (by decide +kernel)) (l := 44) (isAB_sound (by decide +kernel))
  exact ⟨c, h', q1, q2, fun n y hy => c169_loop hl n y ((q3 n).1 ▸ hy)⟩

/-- A log with two extensions. -/
def exTwoExts : Heap ToyFloat := ⟨[.map [], .log ⟨0, [⟨py!"A", py!"a", py!"u"⟩, ⟨py!"B", py!"b", py!"v"⟩], [], [], [], [], []⟩], 0⟩

/-- The file of its clone when the new set enumerates the extensions in this order. -/
def cloneFile (es : List Ext) : Option Str :=
  match cloneLog (fun _ => ⟨0, by decide⟩) exTwoExts 1 with
  | .ok (c, h') => (saveObjectsText false (reorder h' c es) 1 c).toOption
  | .error _ => none

/-- C186: the files need not be the same: another order of the set shows in the file of the clone. -/
theorem c186_file_refuted : WellFormed exTwoExts ∧ IsA exTwoExts 1 .log ∧ ∃ es x y, es.Perm [⟨py!"A", py!"a", py!"u"⟩, ⟨py!"B", py!"b", py!"v"⟩] ∧
    (saveObjectsText false exTwoExts 1 1).toOption = some x ∧ cloneFile es = some y ∧ x ≠ y := by
  refine ⟨goodB_sound (by decide +kernel), isAB_sound (by decide +kernel), [⟨py!"B", py!"b", py!"v"⟩, ⟨py!"A", py!"a", py!"u"⟩], ?_⟩
  have h : (match (saveObjectsText false exTwoExts 1 1).toOption, cloneFile [⟨py!"B", py!"b", py!"v"⟩, ⟨py!"A", py!"a", py!"u"⟩] with
    | some x, some y => decide (x ≠ y) | _, _ => false) = true := by decide +kernel
  split at h
  · next x y e1 e2 => exact ⟨x, y, List.Perm.swap _ _ _, e1, e2, of_decide_eq_true h⟩
  · cases h

end Opy
