import Verif.Props.MxmlFile
import Verif.Props.Analyse
import Verif.Props.AlphaRun
/-
Property C162: what the event classes, the time bounds and the input of the alpha algorithm are when a log was saved as MXML and
loaded again.
-/
set_option linter.unusedSectionVars false
namespace Opy

section
variable {F : Type} [PyFloat F]

/-! ## Specification -/

/-- What is stored under the key, if anything, is a literal attribute with a text. -/
def TextUnder (k : Str) (m : AttrMap F) : Prop := ∀ a, dget k m = some a → a.kind = .literal ∧ ∃ s, a.val = .str s

/-- The name of an event, empty if it has none. -/
def nameOf (m : AttrMap F) : Str := (textAt py!"concept:name" m).getD []

/-- The name a file gives back: line ends are written alike, white space around the name is gone. -/
def nameAfter (m : AttrMap F) : Str := strip (normEol (nameOf m))

/-- The class of an event that has none of the attributes the classifier asks for. -/
def blankClass (c : Classifier) : Str := if c.keys.length = 2 then py!"&&" else []

/-- The traces that have events. -/
def withEvents (log : Log F) : List (Trace F) := log.traces.filter (fun t => t.events ≠ [])

/-! ## The class of an event that was loaded -/

theorem printAttr_under {e : Event F} {k : Str} (h : TextUnder k e.attrs) : printAttr e k = .ok (textAt k e.attrs) := by
  unfold printAttr textAt
  cases hd : dget k e.attrs with
  | none => rfl
  | some a =>
    obtain ⟨h1, s, h2⟩ := h a hd
    cases a with
    | mk kind key ext val m coll =>
      simp only [Attr.kind, Attr.val] at h1 h2
      subst h1; subst h2
      simp [attrStr, getValue, pyStr, Attr.kind, Attr.val, Kind.isCollection]

theorem dget_eventBack_name (ws tx : Str → Str) (m : AttrMap F) : dget py!"concept:name" (eventBack ws tx m) =
    (dget py!"concept:name" (nameBack (F := F) (((textAt py!"concept:name" m).map fun n => strip (tx n)).getD []))) := by
  simp only [eventBack, dget_append]
  rw [dget_refBack (by decide)]
  simp [dget, lit]

theorem strip_nil : strip ([] : Str) = [] := by simp [strip, lstrip, rstrip]

theorem nameAfter_eq (m : AttrMap F) : ((textAt py!"concept:name" m).map fun n => strip (normEol n)).getD [] = nameAfter m := by
  unfold nameAfter nameOf
  cases textAt py!"concept:name" m with
  | none =>
    have h : strip (normEol []) = [] := by decide
    simp [h]
  | some n => rfl

theorem print_name (ws : Str → Str) (m : AttrMap F) (id : Uuid) : printAttr (⟨id, eventBack ws normEol m⟩ : Event F) py!"concept:name" =
    .ok (if nameAfter m = [] then none else some (nameAfter m)) := by
  have hs : strip (nameAfter m) = nameAfter m := by unfold nameAfter; exact strip_strip _
  unfold printAttr
  simp only [dget_eventBack_name, nameAfter_eq, nameBack, hs]
  by_cases h : nameAfter m = []
  · simp only [h, if_pos, dget]
  · simp [h, dget, lit, attrStr, pyStr]

theorem print_transition (ws tx : Str → Str) (m : AttrMap F) (id : Uuid) :
    printAttr (⟨id, eventBack ws tx m⟩ : Event F) py!"lifecycle:transition" = .ok (some (transitionBack m)) := by
  have h : dget py!"lifecycle:transition" (eventBack ws tx m) =
      some (lit py!"lifecycle:transition" (some lifecycleExt) (transitionBack m) (typeRefBack ws m)).2 := by
    have hn : ∀ n, dget py!"lifecycle:transition" (nameBack (F := F) n) = none := fun n => by
      unfold nameBack; split <;> simp [dget, lit]
    simp only [eventBack, dget_append, hn]
    rw [dget_refBack (by decide)]
    simp [dget, lit]
  unfold printAttr
  rw [h]
  simp [lit, attrStr, pyStr]

theorem print_other (ws tx : Str → Str) (m : AttrMap F) (id : Uuid) {k : Str} (h1 : k ≠ py!"concept:name") (h2 : k ≠ py!"lifecycle:transition")
    (h3 : k ≠ py!"semantic:modelReference") : printAttr (⟨id, eventBack ws tx m⟩ : Event F) k = .ok none := by
  have h : dget k (eventBack ws tx m) = none := by
    have hn : ∀ n, dget k (nameBack (F := F) n) = none := fun n => by
      unfold nameBack; split <;> simp [dget, lit, Ne.symm h1]
    simp only [eventBack, dget_append, hn]
    rw [dget_refBack h3]
    simp [dget, lit, Ne.symm h2]
  unfold printAttr
  rw [h]

/-- The class by name of an event that came back. -/
theorem identity_name (ws : Str → Str) (m : AttrMap F) (id : Uuid) :
    classIdentity nameClassifier (⟨id, eventBack ws normEol m⟩ : Event F) = .ok (nameAfter m) := by
  simp only [classIdentity, nameClassifier, print_name, bind, Except.bind]
  by_cases h : nameAfter m = [] <;> simp [h]

theorem identity_standard (ws : Str → Str) (m : AttrMap F) (id : Uuid) :
    classIdentity standardClassifier (⟨id, eventBack ws normEol m⟩ : Event F) = .ok (nameAfter m ++ py!"&&" ++ transitionBack m) := by
  simp only [classIdentity, standardClassifier, print_name, print_transition, bind, Except.bind]
  by_cases h : nameAfter m = [] <;> simp [h]

theorem identity_transition (ws tx : Str → Str) (m : AttrMap F) (id : Uuid) :
    classIdentity lifeTransClassifier (⟨id, eventBack ws tx m⟩ : Event F) = .ok (transitionBack m) := by
  simp only [classIdentity, lifeTransClassifier, print_transition, bind, Except.bind]

theorem identityParts_none {e : Event F} : ∀ {ks : List Str}, (∀ k ∈ ks, printAttr e k = .ok none) → identityParts e ks = .ok []
  | [], _ => rfl
  | k :: ks, h => by
    simp [identityParts, h k (by simp), identityParts_none (fun k hk => h k (List.mem_cons_of_mem _ hk)), bind, Except.bind]

theorem identity_blank {e : Event F} {c : Classifier} (h : ∀ k ∈ c.keys, printAttr e k = .ok none) : classIdentity c e = .ok (blankClass c) := by
  unfold classIdentity blankClass
  split
  · rename_i k hk
    simp [hk, h k (by simp [hk]), bind, Except.bind]
  · rename_i k1 k2 hk
    simp [hk, h k1 (by simp [hk]), h k2 (by simp [hk]), bind, Except.bind]
  · rename_i h1 h2
    rw [identityParts_none h]
    have : c.keys.length ≠ 2 := fun hl => by
      obtain ⟨a, b, hab⟩ := List.length_eq_two.1 hl
      exact h2 a b hab
    simp [this, bind, Except.bind, join]

/-! ## The file -/

/-- What comes back from every MXML file this library wrote. -/
theorem mxml_loaded (rnd : Nat → Uuid) {modern : Bool} {log : Log F} {text : Str} (hs : saveMxml modern log = .ok text) :
    ∃ l : Log F, loadMxml rnd text = .ok [l] ∧ l.traces.map (fun t => t.events.map Event.attrs) =
      (withEvents log).map (fun t => t.events.map fun e => eventBack (valueBack modern) normEol e.attrs) := by
  obtain ⟨x, hx, hs'⟩ := bind_ok.1 hs
  obtain ⟨g, b⟩ := saveTree_spec modern mxmlComments_ok (serializeMxml_fine hx).1
  by_cases hl : LegalNode x
  · obtain ⟨text', s, h1, h2, h3⟩ := g hl
    rw [h1] at hs'
    cases hs'
    obtain ⟨l, h4, _, h6, _⟩ := c47_exact rnd (valueBack_plain modern) normEol_plain log x hx s h3
    refine ⟨l, by simp only [loadMxml, h2, bind, Except.bind, h4], ?_⟩
    have := congrArg (List.map Prod.snd) h6
    simpa [List.map_map, Function.comp_def, withEvents] using this
  · rw [b hl] at hs'
    cases hs'

theorem loaded_identities {modern : Bool} {log l : Log F} (h : l.traces.map (fun t => t.events.map Event.attrs) =
      (withEvents log).map (fun t => t.events.map fun e => eventBack (valueBack modern) normEol e.attrs)) {c : Classifier}
    {f : AttrMap F → Except PyErr Str} (hf : ∀ t ∈ log.traces, ∀ e ∈ t.events, ∀ id,
      classIdentity c (⟨id, eventBack (valueBack modern) normEol e.attrs⟩ : Event F) = f e.attrs) :
    l.traces.map (fun t => t.events.map (classIdentity c)) = (withEvents log).map (fun t => t.events.map fun e => f e.attrs) := by
  have hid : ∀ e : Event F, classIdentity c e = classIdentity c ⟨⟨0, by decide⟩, e.attrs⟩ := fun e => by
    have hp : ∀ k, printAttr e k = printAttr (⟨⟨0, by decide⟩, e.attrs⟩ : Event F) k := fun _ => rfl
    have hi : ∀ ks, identityParts e ks = identityParts (⟨⟨0, by decide⟩, e.attrs⟩ : Event F) ks := fun ks => by
      induction ks with
      | nil => rfl
      | cons k ks ih => simp only [identityParts, ih, hp]
    unfold classIdentity
    simp only [hp, hi]
  have := congrArg (List.map (List.map fun m => classIdentity c (⟨⟨0, by decide⟩, m⟩ : Event F))) h
  simp only [List.map_map, Function.comp_def] at this
  simp only [← hid] at this
  rw [this]
  refine List.map_congr_left fun t ht => List.map_congr_left fun e he => ?_
  exact hf t (List.mem_of_mem_filter ht) e he _

theorem clusterIds_given {c : Classifier} {f : Event F → Str} : ∀ {es : List (Event F)}, (∀ e ∈ es, classIdentity c e = .ok (f e)) →
    clusterIds c es = .ok (es.map f)
  | [], _ => rfl
  | e :: es, h => by
    simp [clusterIds, h e (by simp), clusterIds_given (fun e he => h e (List.mem_cons_of_mem _ he)), bind, Except.bind]

theorem logIds_given {c : Classifier} {f : Event F → Str} : ∀ {ts : List (Trace F)}, (∀ t ∈ ts, ∀ e ∈ t.events, classIdentity c e = .ok (f e)) →
    logIds c ts = .ok (ts.map fun t => t.events.map f)
  | [], _ => rfl
  | t :: ts, h => by
    simp [logIds, clusterIds_given (h t (by simp)), logIds_given (fun t ht => h t (List.mem_cons_of_mem _ ht)), bind, Except.bind]

theorem logIds_of_map {c : Classifier} : ∀ {ts : List (Trace F)} {is : List (List Str)},
    ts.map (fun t => t.events.map (classIdentity c)) = is.map (fun i => i.map .ok) → logIds c ts = .ok is
  | [], [], _ => rfl
  | [], _ :: _, h => by simp at h
  | _ :: _, [], h => by simp at h
  | t :: ts, i :: is, h => by
    simp only [List.map_cons, List.cons.injEq] at h
    have h1 : ∀ {es : List (Event F)} {ss : List Str}, es.map (classIdentity c) = ss.map .ok → clusterIds c es = .ok ss := by
      intro es
      induction es with
      | nil => intro ss hs; cases ss with
        | nil => rfl
        | cons _ _ => simp at hs
      | cons e es ih => intro ss hs; cases ss with
        | nil => simp at hs
        | cons s ss =>
          simp only [List.map_cons, List.cons.injEq] at hs
          simp [clusterIds, hs.1, ih hs.2, bind, Except.bind]
    simp [logIds, h1 h.1, logIds_of_map h.2, bind, Except.bind]

theorem registerTraces_withEvents {c : Classifier} (ts : List (Trace F)) : ∀ m : ClassMap,
    registerTraces c m (ts.filter (fun t => t.events ≠ [])) = registerTraces c m ts := by
  induction ts with
  | nil => intro m; rfl
  | cons t ts ih =>
    intro m
    by_cases h : t.events = []
    · have hn : ¬ ((fun t : Trace F => decide (t.events ≠ [])) t = true) := by simp [h]
      rw [List.filter_cons_of_neg (p := fun t : Trace F => decide (t.events ≠ [])) hn, ih]
      simp [registerTraces, h, registerEvents, bind, Except.bind]
    · have hp : (fun t : Trace F => decide (t.events ≠ [])) t = true := by simp [h]
      rw [List.filter_cons_of_pos (p := fun t : Trace F => decide (t.events ≠ [])) hp]
      simp only [registerTraces, ih]

/-! ## C162 -/

/-- The name classifier before saving. -/
theorem identity_named {e : Event F} (h : TextUnder py!"concept:name" e.attrs) : classIdentity nameClassifier e = .ok (nameOf e.attrs) := by
  simp only [classIdentity, nameClassifier, printAttr_under h, bind, Except.bind, nameOf]
  cases textAt py!"concept:name" e.attrs <;> rfl

/-- **C162, names.** Every MXML file the library wrote loads, and the classes by name of its events are the names of the events of the
log without the white space around them, line ends being written alike; traces without events are gone. -/
theorem c162_names (rnd : Nat → Uuid) {modern : Bool} {log : Log F} {text : Str} (hs : saveMxml modern log = .ok text) :
    ∃ l : Log F, loadMxml rnd text = .ok [l] ∧
      logIds nameClassifier l.traces = .ok ((withEvents log).map fun t => t.events.map fun e => nameAfter e.attrs) := by
  obtain ⟨l, h1, h2⟩ := mxml_loaded rnd hs
  refine ⟨l, h1, logIds_of_map ?_⟩
  rw [loaded_identities h2 (f := fun m => .ok (nameAfter m)) (fun t _ e _ id => identity_name _ _ id)]
  simp [List.map_map, Function.comp_def]

/-- ... by name and transition: the transition is the one that comes back (C47). -/
theorem c162_standard (rnd : Nat → Uuid) {modern : Bool} {log : Log F} {text : Str} (hs : saveMxml modern log = .ok text) :
    ∃ l : Log F, loadMxml rnd text = .ok [l] ∧ logIds standardClassifier l.traces =
      .ok ((withEvents log).map fun t => t.events.map fun e => nameAfter e.attrs ++ py!"&&" ++ transitionBack e.attrs) := by
  obtain ⟨l, h1, h2⟩ := mxml_loaded rnd hs
  refine ⟨l, h1, logIds_of_map ?_⟩
  rw [loaded_identities h2 (f := fun m => .ok (nameAfter m ++ py!"&&" ++ transitionBack m)) (fun t _ e _ id => identity_standard _ _ id)]
  simp [List.map_map, Function.comp_def]

/-- **C162, as far as it holds.** When the names have no white space around them and no carriage return, the classes by name and their
sizes are those of the log, and the alpha algorithm is given the traces of the log that have events. -/
theorem c162_same_partial (rnd : Nat → Uuid) {modern : Bool} {log : Log F} {text : Str} (hs : saveMxml modern log = .ok text)
    (hn : ∀ t ∈ log.traces, ∀ e ∈ t.events, TextUnder py!"concept:name" e.attrs ∧ strip (nameOf e.attrs) = nameOf e.attrs ∧ '\r' ∉ nameOf e.attrs) :
    ∃ l : Log F, loadMxml rnd text = .ok [l] ∧ deriveClasses nameClassifier l = deriveClasses nameClassifier log ∧
      logIds nameClassifier l.traces = logIds nameClassifier (withEvents log) := by
  obtain ⟨l, h1, h2⟩ := mxml_loaded rnd hs
  have h3 : l.traces.map (fun t => t.events.map (classIdentity nameClassifier)) =
      (withEvents log).map (fun t => t.events.map (classIdentity nameClassifier)) := by
    rw [loaded_identities h2 (f := fun m => .ok (nameAfter m)) (fun t _ e _ id => identity_name _ _ id)]
    refine List.map_congr_left fun t ht => List.map_congr_left fun e he => ?_
    obtain ⟨k1, k2, k3⟩ := hn t (List.mem_of_mem_filter ht) e he
    rw [identity_named k1, nameAfter, normEol_clean k3, k2]
  refine ⟨l, h1, ?_, logIds_by_identity h3⟩
  unfold deriveClasses
  rw [registerTraces_by_identity [] h3, withEvents, registerTraces_withEvents]

/-- ... and by name and transition when each event also has a known transition in lower case. -/
theorem c162_both_partial (rnd : Nat → Uuid) {modern : Bool} {log : Log F} {text : Str} (hs : saveMxml modern log = .ok text)
    (hn : ∀ t ∈ log.traces, ∀ e ∈ t.events, TextUnder py!"concept:name" e.attrs ∧ strip (nameOf e.attrs) = nameOf e.attrs ∧ '\r' ∉ nameOf e.attrs)
    (ht : ∀ t ∈ log.traces, ∀ e ∈ t.events, TextUnder py!"lifecycle:transition" e.attrs ∧ ∃ v ∈ [py!"schedule", py!"assign", py!"withdraw",
      py!"reassign", py!"start", py!"suspend", py!"resume", py!"pi_abort", py!"ate_abort", py!"complete", py!"autoskip", py!"manualskip"],
      textAt py!"lifecycle:transition" e.attrs = some v) :
    ∃ l : Log F, loadMxml rnd text = .ok [l] ∧ deriveClasses standardClassifier l = deriveClasses standardClassifier log ∧
      logIds standardClassifier l.traces = logIds standardClassifier (withEvents log) := by
  obtain ⟨l, h1, h2⟩ := mxml_loaded rnd hs
  have h3 : l.traces.map (fun t => t.events.map (classIdentity standardClassifier)) =
      (withEvents log).map (fun t => t.events.map (classIdentity standardClassifier)) := by
    rw [loaded_identities h2 (f := fun m => .ok (nameAfter m ++ py!"&&" ++ transitionBack m)) (fun t _ e _ id => identity_standard _ _ id)]
    refine List.map_congr_left fun t ht' => List.map_congr_left fun e he => ?_
    obtain ⟨k1, k2, k3⟩ := hn t (List.mem_of_mem_filter ht') e he
    obtain ⟨j1, v, j2, j3⟩ := ht t (List.mem_of_mem_filter ht') e he
    have hv : transitionBack e.attrs = v := by
      have : ∀ v ∈ [py!"schedule", py!"assign", py!"withdraw",
        py!"reassign", py!"start", py!"suspend", py!"resume", py!"pi_abort", py!"ate_abort", py!"complete", py!"autoskip", py!"manualskip"],
        pyLower (strip v) = v := by decide
      unfold transitionBack
      simp only [j3, this v j2]
      rw [if_pos j2]
    simp only [classIdentity, standardClassifier, printAttr_under k1, printAttr_under j1, j3, hv, bind, Except.bind, nameAfter,
      normEol_clean k3, k2]
    unfold nameOf
    cases textAt py!"concept:name" e.attrs <;> rfl
  refine ⟨l, h1, ?_, logIds_by_identity h3⟩
  unfold deriveClasses
  rw [registerTraces_by_identity [] h3, withEvents, registerTraces_withEvents]

/-- **C162, as far as it fails.** A classifier that asks for other attributes puts all events of the file into one class. -/
theorem c162_one_class (rnd : Nat → Uuid) {modern : Bool} {log : Log F} {text : Str} (hs : saveMxml modern log = .ok text) {c : Classifier}
    (hc : ∀ k ∈ c.keys, k ≠ py!"concept:name" ∧ k ≠ py!"lifecycle:transition" ∧ k ≠ py!"semantic:modelReference") :
    ∃ l : Log F, loadMxml rnd text = .ok [l] ∧ deriveClasses c l =
      .ok (if allEvents log = [] then [] else [(blankClass c, ⟨blankClass c, 0, (allEvents log).length⟩)]) := by
  obtain ⟨l, h1, h2⟩ := mxml_loaded rnd hs
  have h3 := loaded_identities h2 (c := c) (f := fun _ => .ok (blankClass c)) (fun t _ e _ id => identity_blank fun k hk =>
    print_other _ _ _ id (hc k hk).1 (hc k hk).2.1 (hc k hk).2.2)
  have h4 : IdentitiesOf c l (List.replicate (allEvents log).length (blankClass c)) := by
    have h5 := congrArg List.flatten h3
    have h6 : (allEvents l).map (classIdentity c) = (l.traces.map (fun t => t.events.map (classIdentity c))).flatten := by
      simp [allEvents, List.map_flatten, List.map_map, Function.comp_def]
    have h7 : ((withEvents log).map fun t => t.events.map fun _ => (Except.ok (blankClass c) : Except PyErr Str)).flatten =
        List.replicate (allEvents log).length (Except.ok (blankClass c)) := by
      unfold withEvents allEvents
      induction log.traces with
      | nil => rfl
      | cons t ts ih =>
        by_cases h : t.events = []
        · have hn : ¬ ((fun t : Trace F => decide (t.events ≠ [])) t = true) := by simp [h]
          rw [List.filter_cons_of_neg (p := fun t : Trace F => decide (t.events ≠ [])) hn, ih]
          simp [h]
        · have hp : (fun t : Trace F => decide (t.events ≠ [])) t = true := by simp [h]
          rw [List.filter_cons_of_pos (p := fun t : Trace F => decide (t.events ≠ [])) hp]
          rw [List.map_cons, List.flatten_cons, ih, List.map_const', List.map_cons, List.flatten_cons, List.length_append,
            List.replicate_append_replicate]
    unfold IdentitiesOf
    rw [h6, h5, h7, List.map_replicate]
  obtain ⟨K, k1, k2, k3⟩ := derive_table h4
  refine ⟨l, h1, ?_⟩
  rw [k1]
  by_cases he : allEvents log = []
  · have : K = [] := List.eq_nil_iff_forall_not_mem.2 fun s hs' => by
      have := (k3 s).1 hs'
      simp [he] at this
    simp [he, this, classTable]
  · have hl : (allEvents log).length ≠ 0 := by simpa using he
    have hm : ∀ s, s ∈ K ↔ s = blankClass c := fun s => by rw [k3, List.mem_replicate]; exact ⟨fun h => h.2, fun h => ⟨hl, h⟩⟩
    have : K = [blankClass c] := by
      cases K with
      | nil => simpa using (hm (blankClass c)).2 rfl
      | cons a K =>
        have ha := (hm a).1 (by simp)
        subst ha
        cases K with
        | nil => rfl
        | cons b K =>
          have hb := (hm b).1 (by simp)
          have := sorted_nodup k2
          simp [hb] at this
    simp [he, this, classTable]

theorem bounds_none {es : List (Event F)} (h : ∀ e ∈ es, dget timeKey e.attrs = none) : ∀ b, boundsAfter b es = .ok b := by
  induction es with
  | nil => intro b; rfl
  | cons e es ih =>
    intro b
    simp [boundsAfter, TimeBounds.registerEvent, h e (by simp), ih (fun e he => h e (List.mem_cons_of_mem _ he)), bind, Except.bind]

/-- ... and no trace of the file has any time bounds. -/
theorem c162_no_times (rnd : Nat → Uuid) {modern : Bool} {log : Log F} {text : Str} (hs : saveMxml modern log = .ok text) :
    ∃ l : Log F, loadMxml rnd text = .ok [l] ∧ ∀ t ∈ l.traces, ∀ b, boundsAfter b t.events = .ok b := by
  obtain ⟨l, h1, h2⟩ := mxml_loaded rnd hs
  refine ⟨l, h1, fun t ht => bounds_none fun e he => ?_⟩
  have hm : t.events.map Event.attrs ∈ l.traces.map (fun t => t.events.map Event.attrs) := List.mem_map.2 ⟨t, ht, rfl⟩
  rw [h2] at hm
  obtain ⟨t0, _, h4⟩ := List.mem_map.1 hm
  have h5 : e.attrs ∈ t0.events.map (fun e => eventBack (valueBack modern) normEol e.attrs) := by
    rw [h4]; exact List.mem_map.2 ⟨e, he, rfl⟩
  obtain ⟨e0, _, h6⟩ := List.mem_map.1 h5
  have := print_other (F := F) (valueBack modern) normEol e0.attrs e.id (k := timeKey) (by decide) (by decide) (by decide)
  rw [h6] at this
  unfold printAttr at this
  cases hd : dget timeKey e.attrs with
  | none => rfl
  | some a =>
    simp only [hd] at this
    split at this <;> simp at this

end

/-! ## Examples -/

/-- A log of two cases; two events by different resources, whose names differ in white space only, and a case without events. -/
def mxTwo : Log ToyFloat :=
  { mxLog with traces := [⟨[lit py!"concept:name" none py!"case 1" []], [
      ⟨⟨1, by decide⟩, [lit py!"concept:name" none py!"check" [], lit py!"org:resource" none py!"Ann" [],
        lit py!"lifecycle:transition" none py!"start" []]⟩,
      ⟨⟨2, by decide⟩, [lit py!"concept:name" none py!"check " [], lit py!"org:resource" none py!"Bob" [],
        lit py!"lifecycle:transition" none py!"complete" []]⟩]⟩,
    ⟨[lit py!"concept:name" none py!"case 2" []], []⟩] }

theorem mxTwo_saved : ∃ text, saveMxml false mxTwo = .ok text := by
  obtain ⟨x, hx⟩ : ∃ x, serializeMxml mxTwo = .ok x := ⟨_, rfl⟩
  have h : ∀ s ∈ [py!"L", py!"case 1", py!"case 2", py!"check", py!"check ", py!"Ann", py!"Bob", py!"start", py!"complete"], LegalText s :=
    fun s hs => legalText_plain (by revert s; decide)
  have hl : LegalMxml mxTwo := by
    refine ⟨?_, ?_⟩
    · simp only [mxTwo, mxLog, LegalShown, lit, List.mem_singleton, forall_eq, Attr.val, pyStr, attrStr, Except.ok.injEq, Attr.attrs,
        List.not_mem_nil, false_implies, implies_true, and_true]
      exact ⟨h _ (by simp), fun s hs => hs ▸ h _ (by simp)⟩
    · simp only [mxTwo, LegalShown, lit, List.mem_cons, List.not_mem_nil, or_false, forall_eq_or_imp, forall_eq, Attr.val, pyStr, attrStr,
        Except.ok.injEq, Attr.attrs, false_implies, implies_true, and_true]
      refine ⟨⟨⟨h _ (by simp), fun s hs => hs ▸ h _ (by simp)⟩,
        ⟨⟨h _ (by simp), fun s hs => hs ▸ h _ (by simp)⟩, ⟨h _ (by simp), fun s hs => hs ▸ h _ (by simp)⟩, h _ (by simp), fun s hs => hs ▸ h _ (by simp)⟩,
        ⟨h _ (by simp), fun s hs => hs ▸ h _ (by simp)⟩, ⟨h _ (by simp), fun s hs => hs ▸ h _ (by simp)⟩, h _ (by simp), fun s hs => hs ▸ h _ (by simp)⟩,
        h _ (by simp), fun s hs => hs ▸ h _ (by simp)⟩
  obtain ⟨text, l, h1, _⟩ := c113_file (fun _ => ⟨0, by decide⟩) false mxTwo x hx hl
  exact ⟨text, h1⟩

/-- Two classes by resource become one. -/
theorem c162_resource_refuted : ¬ ∀ (log l : Log ToyFloat) (text : Str), saveMxml false log = .ok text →
    loadMxml (fun _ => ⟨0, by decide⟩) text = .ok [l] → deriveClasses resourceClassifier l = deriveClasses resourceClassifier log := by
  intro h
  obtain ⟨text, h1⟩ := mxTwo_saved
  obtain ⟨l, h2, h3⟩ := c162_one_class (fun _ => ⟨0, by decide⟩) h1 (c := resourceClassifier) (by decide)
  have h4 := h mxTwo l text h1 h2
  rw [h3] at h4
  have h5 : (deriveClasses resourceClassifier mxTwo).map List.length = .ok 2 := by decide +kernel
  rw [← h4] at h5
  simp [Except.map] at h5
  split at h5 <;> simp at h5

/-- Two classes by name become one, too. -/
theorem c162_name_refuted : ¬ ∀ (log l : Log ToyFloat) (text : Str), saveMxml false log = .ok text →
    loadMxml (fun _ => ⟨0, by decide⟩) text = .ok [l] →
      logIds nameClassifier l.traces = logIds nameClassifier (withEvents log) := by
  intro h
  obtain ⟨text, h1⟩ := mxTwo_saved
  obtain ⟨l, h2, h3⟩ := c162_names (fun _ => ⟨0, by decide⟩) h1
  have h4 := h mxTwo l text h1 h2
  rw [h3] at h4
  revert h4
  decide +kernel

example : ((withEvents mxTwo).map fun t => t.events.map fun e => nameAfter e.attrs) = [[py!"check", py!"check"]] ∧
    ((withEvents mxTwo).map fun t => t.events.map fun e => nameOf e.attrs) = [[py!"check", py!"check "]] ∧
    ((withEvents mxTwo).map fun t => t.events.map fun e => transitionBack e.attrs) = [[py!"start", py!"complete"]] := by decide +kernel

/-- All hypotheses of `c162_both_partial` at once. -/
example : ∃ (text : Str) (l : Log ToyFloat), saveMxml false mxLog = .ok text ∧ loadMxml (fun _ => ⟨0, by decide⟩) text = .ok [l] ∧
    deriveClasses standardClassifier l = .ok [(py!"register&&start", ⟨py!"register&&start", 0, 1⟩)] ∧
    logIds standardClassifier l.traces = .ok [[py!"register&&start"]] := by
  obtain ⟨x, hx⟩ : ∃ x, serializeMxml mxLog = .ok x := ⟨_, rfl⟩
  obtain ⟨text, _, h1, _⟩ := c113_file (fun _ => ⟨0, by decide⟩) false mxLog x hx mxLog_legal
  obtain ⟨l, h2, h3, h4⟩ := c162_both_partial (fun _ => ⟨0, by decide⟩) h1
    (by simp [mxLog, TextUnder, nameOf, textAt, lit, dget, getValue, Attr.kind, Attr.val, Kind.isCollection]; decide)
    (by simp [mxLog, TextUnder, textAt, lit, dget, getValue, Attr.kind, Attr.val, Kind.isCollection])
  exact ⟨text, l, h1, h2, by rw [h3]; decide +kernel, by rw [h4]; decide +kernel⟩

end Opy
