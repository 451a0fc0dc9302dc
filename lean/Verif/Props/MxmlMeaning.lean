import Verif.Props.MxmlFile
import Verif.Props.XesMeaning
set_option linter.unusedSectionVars false
namespace Opy

section
variable {F : Type} [PyFloat F]

/-! ## Spec: what an MXML document says -/

/-- The content of an element that holds at most a text. -/
def saysText (s : Str) : List MNode := if s = [] then [] else [.text s]

/-- The model reference of an element. -/
def refSays (as : List (Str × Str)) : List (Attr F) :=
  match as.lookup py!"modelReference" with
  | some s => if s = [] then [] else [.mk .literal py!"semantic:modelReference" (some semanticExt) (.str s) [] []]
  | none => []

/-- A name; blank names do not count. -/
def nameSays (s : Str) : List (Attr F) :=
  if strip s = [] then [] else [.mk .literal py!"concept:name" (some conceptExt) (.str s) [] []]

/-- A data attribute; blank values do not count. -/
def dataSays (as : List (Str × Str)) (name v : Str) : List (Attr F) :=
  if strip v = [] then [] else [.mk .literal (strip name) none (.str (strip v)) (keyed (refSays as)) []]

/-- The type of an entry: the attribute `unknowntype` if it says something, otherwise the text. -/
def typeSays (as : List (Str × Str)) (v : Str) : List (Attr F) :=
  let u := xmlAttr py!"unknowntype" [] as
  let x := if u = [] ∨ u = py!"UNKNOWN" then strip v else u
  if x = [] then [] else [.mk .literal py!"lifecycle:transition" (some lifecycleExt) (.str x) (keyed (refSays as)) []]

/-- The originator of an entry. -/
def originatorSays (as : List (Str × Str)) (v : Str) : List (Attr F) :=
  [.mk .literal py!"org:resource" (some orgExt) (.str (if strip v = [] then py!"UNKNOWN" else strip v)) (keyed (refSays as)) []]

/-- The names that mean something. -/
def mxmlTags : List Str :=
  [py!"WorkflowLog", py!"Source", py!"Process", py!"ProcessInstance", py!"AuditTrailEntry", py!"Attribute", py!"EventType",
   py!"WorkflowModelElement", py!"Timestamp", py!"Originator"]

mutual
/-- The data attributes in an element; elements of other names (`Data`) may be around them. -/
inductive DataSays : MNode → List (Attr F) → Prop
  | attribute {as : List (Str × Str)} {name v : Str} : as.lookup py!"name" = some name →
    DataSays (.elem py!"Attribute" as (saysText v)) (dataSays as name v)
  | around {t : Str} {as : List (Str × Str)} {ks : List MNode} {cs : List (Attr F)} : t ∉ mxmlTags → DataSaysAll ks cs → DataSays (.elem t as ks) cs
  | nothing {t : Str} {as : List (Str × Str)} {v : Str} : t ∉ mxmlTags → DataSays (.elem t as (saysText v)) []
/-- The same for a list of elements. -/
inductive DataSaysAll : List MNode → List (Attr F) → Prop
  | nil : DataSaysAll [] []
  | cons {x : MNode} {xs : List MNode} {a b : List (Attr F)} : DataSays x a → DataSaysAll xs b → DataSaysAll (x :: xs) (a ++ b)
end

/-- The attributes that the content of an entry says, in order. -/
inductive EntrySays : List MNode → List (Attr F) → Prop
  | nil : EntrySays [] []
  | name {as : List (Str × Str)} {v : Str} {ks : List MNode} {cs : List (Attr F)} : EntrySays ks cs →
    EntrySays (.elem py!"WorkflowModelElement" as (saysText v) :: ks) (refSays as ++ nameSays (strip v) ++ cs)
  | type {as : List (Str × Str)} {v : Str} {ks : List MNode} {cs : List (Attr F)} : EntrySays ks cs →
    EntrySays (.elem py!"EventType" as (saysText v) :: ks) (typeSays as v ++ cs)
  | originator {as : List (Str × Str)} {v : Str} {ks : List MNode} {cs : List (Attr F)} : EntrySays ks cs →
    EntrySays (.elem py!"Originator" as (saysText v) :: ks) (originatorSays as v ++ cs)
  | time {as : List (Str × Str)} {v : Str} {d : DateTime} {ks : List MNode} {cs : List (Attr F)} : DateSays (strip v) d → EntrySays ks cs →
    EntrySays (.elem py!"Timestamp" as (saysText v) :: ks) (.mk .timestamp py!"time:timestamp" (some timeExt) (.dt d) [] [] :: cs)
  | noTime {as : List (Str × Str)} {v : Str} {ks : List MNode} {cs : List (Attr F)} : (∀ d, ¬ DateSays (strip v) d) → ¬ HugeZone (strip v) → EntrySays ks cs →
    EntrySays (.elem py!"Timestamp" as (saysText v) :: ks) cs
  | data {k : MNode} {a : List (Attr F)} {ks : List MNode} {cs : List (Attr F)} : DataSays k a → EntrySays ks cs → EntrySays (k :: ks) (a ++ cs)

/-- The content of an instance: its data attributes and its events.  Data must not stand before the first entry (see C51); `seen` tells
whether there was one. -/
inductive InstSays : Bool → List MNode → List (Attr F) → List (AttrMap F) → Prop
  | nil {seen : Bool} : InstSays seen [] [] []
  | entry {seen : Bool} {as : List (Str × Str)} {ks r : List MNode} {cs ds : List (Attr F)} {es : List (AttrMap F)} : EntrySays ks cs →
    InstSays true r ds es → InstSays seen (.elem py!"AuditTrailEntry" as ks :: r) ds (keyed cs :: es)
  | data {seen : Bool} {k : MNode} {r : List MNode} {a ds : List (Attr F)} {es : List (AttrMap F)} : DataSays k a → (seen = true ∨ a = []) →
    InstSays seen r ds es → InstSays seen (k :: r) (a ++ ds) es

/-- What the start tag of an instance says. -/
def instanceSays (as : List (Str × Str)) : List (Attr F) :=
  let d := xmlAttr py!"description" [] as
  nameSays (xmlAttr py!"id" py!"None" as) ++ (if strip d = [] then [] else [.mk .literal py!"description" none (.str d) [] []]) ++ refSays as

/-- The content of a process: its data attributes and its traces; instances without entries do not count.  Data must not stand before the
first trace. -/
inductive ProcSays : Bool → List MNode → List (Attr F) → List (AttrMap F × List (AttrMap F)) → Prop
  | nil {seen : Bool} : ProcSays seen [] [] []
  | inst {seen : Bool} {as : List (Str × Str)} {ks r : List MNode} {ds ds' : List (Attr F)} {es : List (AttrMap F)}
    {ts : List (AttrMap F × List (AttrMap F))} : InstSays false ks ds es → es ≠ [] → ProcSays true r ds' ts →
    ProcSays seen (.elem py!"ProcessInstance" as ks :: r) ds' ((keyed (instanceSays as ++ ds), es) :: ts)
  | empty {seen : Bool} {as : List (Str × Str)} {ks r : List MNode} {ds ds' : List (Attr F)}
    {ts : List (AttrMap F × List (AttrMap F))} : InstSays false ks ds [] → ProcSays seen r ds' ts →
    ProcSays seen (.elem py!"ProcessInstance" as ks :: r) ds' ts
  | data {seen : Bool} {k : MNode} {r : List MNode} {a ds : List (Attr F)} {ts : List (AttrMap F × List (AttrMap F))} : DataSays k a →
    (seen = true ∨ a = []) → ProcSays seen r ds ts → ProcSays seen (k :: r) (a ++ ds) ts

/-- What the start tag of a process says. -/
def processSays (as : List (Str × Str)) : List (Attr F) :=
  let d := xmlAttr py!"description" [] as
  nameSays (xmlAttr py!"id" [] as) ++ [.mk .literal py!"lifecycle:model" (some lifecycleExt) (.str py!"standard") [] []] ++
    (if d = [] then [] else [.mk .literal py!"description" none (.str d) [] []]) ++ refSays as

/-- What a source says. -/
def sourceSays (as : List (Str × Str)) (cs : List (Attr F)) : Attr F :=
  .mk .literal py!"source" none (match as.lookup py!"program" with | some s => .str s | none => .none) (keyed (refSays as ++ cs)) []

/-- The content of a document: its logs.  `src` is the last source so far, which every following process gets. -/
inductive TopSays : Option (Attr F) → List MNode → List (AttrMap F × List (AttrMap F × List (AttrMap F))) → Prop
  | nil {src : Option (Attr F)} : TopSays src [] []
  | source {src : Option (Attr F)} {as : List (Str × Str)} {ks r : List MNode} {cs : List (Attr F)} {ls} : DataSaysAll ks cs →
    TopSays (some (sourceSays as cs)) r ls → TopSays src (.elem py!"Source" as ks :: r) ls
  | process {src : Option (Attr F)} {as : List (Str × Str)} {ks r : List MNode} {ds : List (Attr F)} {ts ls} : ProcSays false ks ds ts →
    TopSays src r ls → TopSays src (.elem py!"Process" as ks :: r) ((keyed (src.toList ++ processSays as ++ ds), ts) :: ls)
  | nothing {src : Option (Attr F)} {k : MNode} {r : List MNode} {ls} : DataSays (F := F) k [] → TopSays src r ls → TopSays src (k :: r) ls

/-- The content of a log, without the identifiers of events. -/
def logSeen (l : Log F) : AttrMap F × List (AttrMap F × List (AttrMap F)) := (l.attrs, l.traces.map fun t => (t.attrs, t.events.map Event.attrs))

/-- What every log from an MXML document has. -/
structure MxmlLegacy (l : Log F) : Prop where
  extensions : l.extensions = [conceptExt, orgExt, lifecycleExt, semanticExt, timeExt]
  classifiers : l.classifiers = [⟨py!"MXML Legacy Classifier", [py!"concept:name", py!"lifecycle:transition"]⟩,
        ⟨py!"Event Name", [py!"concept:name"]⟩, ⟨py!"Resource", [py!"org:resource"]⟩]
  globalTrace : l.globalTrace = [.mk .literal py!"concept:name" (some conceptExt) (.str py!"UNKNOWN") [] []]
  globalEvent : l.globalEvent = [.mk .literal py!"concept:name" (some conceptExt) (.str py!"UNKNOWN") [] [],
    .mk .literal py!"lifecycle:transition" (some lifecycleExt) (.str py!"complete") [] []]
  features : l.features = []

/-! ## Attribute maps -/

/-- Storing attributes one after the other. -/
def put (m : AttrMap F) (cs : List (Attr F)) : AttrMap F := cs.foldl (fun m a => dset a.key a m) m

theorem put_nil (cs : List (Attr F)) : put [] cs = keyed cs := by
  have := foldl_dset_keyed cs [] (by simp [dkeys])
  have e : (keyed cs).filter (fun p => decide (p.1 ∉ dkeys ([] : AttrMap F))) = keyed cs := by
    rw [List.filter_eq_self]; intro p _; simp [dkeys]
  rw [e] at this
  exact this

theorem put_append (m : AttrMap F) (a b : List (Attr F)) : put m (a ++ b) = put (put m a) b := by simp [put, List.foldl_append]

theorem dget_lookup (k : Str) : ∀ as : List (Str × Str), dget k as = as.lookup k
  | [] => rfl
  | (a, b) :: r => by
    simp only [dget, List.lookup]
    by_cases h : a = k
    · simp [h]
    · have : (k == a) = false := by simpa using fun e => h e.symm
      simp [h, this, dget_lookup k r]

theorem addRef_put (as : List (Str × Str)) (m : AttrMap F) : addRef as m = put m (refSays as) := by
  unfold addRef modelRef refSays
  rw [dget_lookup]
  cases as.lookup py!"modelReference" with
  | none => rfl
  | some s => by_cases h : s = [] <;> simp [h, put] <;> rfl

theorem assignName_put (n : Str) (m : AttrMap F) : assignName (some n) m = put m (nameSays n) := by
  unfold assignName nameSays
  simp only [given_strip]
  by_cases h : strip n = [] <;> simp [h, put] <;> rfl

theorem xa_id (as : List (Str × Str)) : xa id as = as := by simp [xa]

/-- Between elements. -/
def mst (b : List Str) (logs : List (MLog F)) (p : Option (MLog F)) (i : Option (Trace F)) (e : Option (Event F)) (srcs : List (Attr F)) (src : Option Nat)
    (so : Bool) (ts lts : Option DateTime) (n : Nat) : MxmlSt F := ⟨b, logs, p, i, e, srcs, src, none, none, none, so, ts, lts, n⟩

/-! ## Data attributes -/

/-- Another buffer and open attribute. -/
def setGen (g : Option (Attr F)) (b : List Str) (st : MxmlSt F) : MxmlSt F := { st with generic := g, buffer := b }

theorem route_gen (st : MxmlSt F) (a : Attr F) (g : Option (Attr F)) (b : List Str) :
    routeAttribute (setGen g b st) a = (routeAttribute st a).map (setGen g b) := by
  have h1 : routeSource (setGen g b st) a = (routeSource st a).map (setGen g b) := by
    obtain ⟨_, _, _, _, _, _, so, _, _, _, o, _⟩ := st
    cases so <;> cases o <;> rfl
  have h2 : routeProcess (setGen g b st) a = (routeProcess st a).map (setGen g b) := by
    unfold routeProcess
    have : (setGen g b st).process = st.process := rfl
    rw [this]
    cases st.process with
    | none => exact h1
    | some p =>
      simp only
      split
      · rfl
      · exact h1
  unfold routeAttribute
  have h3 : (setGen g b st).entry = st.entry := rfl
  have h4 : (setGen g b st).inst = st.inst := rfl
  rw [h3, h4]
  cases st.entry with
  | some e => rfl
  | none =>
    cases st.inst with
    | none => exact h2
    | some t =>
      simp only
      split
      · rfl
      · exact h2

/-- The attributes of an element go where they go one by one. -/
def routeAll (st : MxmlSt F) : List (Attr F) → Except PyErr (MxmlSt F)
  | [] => .ok st
  | a :: cs => (routeAttribute st a).bind fun s => routeAll s cs

theorem routeAll_gen (g : Option (Attr F)) (b : List Str) : ∀ (cs : List (Attr F)) (st : MxmlSt F),
    routeAll (setGen g b st) cs = (routeAll st cs).map (setGen g b)
  | [], _ => rfl
  | a :: cs, st => by
    simp only [routeAll, route_gen]
    cases routeAttribute st a with
    | error e => rfl
    | ok s => exact routeAll_gen g b cs s

theorem routeAll_append : ∀ (a b : List (Attr F)) (st : MxmlSt F), routeAll st (a ++ b) = (routeAll st a).bind fun s => routeAll s b
  | [], _, _ => rfl
  | a :: cs, b, st => by
    simp only [List.cons_append, routeAll]
    cases routeAttribute st a with
    | error e => rfl
    | ok s => exact routeAll_append cs b s

theorem unknown_tag (rnd : Nat → Uuid) {t : Str} (ht : t ∉ mxmlTags) (st : MxmlSt F) :
    (∀ as, mxmlStart rnd st t as = .ok st) ∧ mxmlStop st t = .ok (setBuf [] st) := by
  simp only [mxmlTags, List.mem_cons, List.not_mem_nil, or_false, not_or] at ht
  obtain ⟨h1, h2, h3, h4, h5, h6, h7, h8, h9, h10⟩ := ht
  constructor
  · intro as; simp only [mxmlStart, h1, h2, h3, h4, h5, h6, h7, h8, h10, if_false]
  · simp only [mxmlStop, mxmlStopBody, h1, h3, h4, h5, h6, h7, h8, h9, h10, if_false, bind, Except.bind, setBuf]

theorem plain_id : PlainFixed id := fun _ _ => rfl

/-- An element with a text: the text is what is in the buffer at its end. -/
theorem run_leaf {rnd : Nat → Uuid} {t : Str} {as : List (Str × Str)} {v : Str} {s : List MSax} (hr : Reads id id (.elem t as (saysText v)) s)
    (st : MxmlSt F) (hb : Blank st.buffer) {s1 : MxmlSt F} (h1 : mxmlStart rnd st t as = .ok s1) (hb1 : s1.buffer = st.buffer) :
    ∃ b, strip (join [] b) = strip v ∧ mxmlRun rnd st s = mxmlStop (setBuf b s1) t := by
  obtain ⟨s', hk, hrun⟩ := run_elem (F := F) (rnd := rnd) hr
  obtain ⟨b, h2, h3⟩ := run_text rnd plain_id hk s1 (by rw [hb1]; exact hb)
  refine ⟨b, h3, ?_⟩
  rw [hrun, xa_id, h1]
  simp only [Except.bind, h2]

theorem run_data_leaf {rnd : Nat → Uuid} {as : List (Str × Str)} {name v : Str} (hn : as.lookup py!"name" = some name) {s : List MSax}
    (hr : Reads id id (.elem py!"Attribute" as (saysText v)) s) (st st' : MxmlSt F) (hb : Blank st.buffer)
    (h : routeAll st (dataSays as name v) = .ok st') : mxmlRun rnd st s = .ok (setGen none [] st') := by
  have h1 : mxmlStart rnd st py!"Attribute" as = .ok { st with generic := some (literalOf (strip name) (.str py!"DEFAULT_VALUE") (addRef as [])) } := by
    have : mxmlStart rnd st py!"Attribute" as = startAttribute st as := by simp [mxmlStart]
    rw [this]
    simp only [startAttribute, dget_lookup, hn]
  obtain ⟨b, h2, h3⟩ := run_leaf hr st hb h1 rfl
  rw [h3]
  have e : ∀ s' : MxmlSt F, mxmlStopBody s' py!"Attribute" = stopAttribute s' := by intro s'; simp [mxmlStopBody]
  simp only [mxmlStop, e, stopAttribute, bufText_setBuf, h2]
  by_cases hv : strip v = []
  · simp only [dataSays, hv, if_true, routeAll, Except.ok.injEq] at h
    subst h
    simp only [hv, List.length_nil, Nat.lt_irrefl, if_false, bind, Except.bind]
    rfl
  · simp only [dataSays, hv, if_false, routeAll] at h
    have hl := List.length_pos_iff.2 hv
    have ew : withVal (.str (strip v)) (literalOf (F := F) (strip name) (.str py!"DEFAULT_VALUE") (addRef as [])) =
        .mk .literal (strip name) none (.str (strip v)) (keyed (refSays as)) [] := by
      rw [addRef_put, put_nil]
      rfl
    have es : setBuf b { st with generic := some (literalOf (strip name) (.str py!"DEFAULT_VALUE") (addRef as [])) } =
        setGen (some (literalOf (strip name) (.str py!"DEFAULT_VALUE") (addRef as []))) b st := rfl
    rw [es]
    have eg : (setGen (some (literalOf (strip name) (.str py!"DEFAULT_VALUE") (addRef as []))) b st).generic =
      some (literalOf (strip name) (.str py!"DEFAULT_VALUE") (addRef as [])) := rfl
    simp only [hl, if_true, eg, ew, route_gen]
    cases hra : routeAttribute st (.mk .literal (strip name) none (.str (strip v)) (keyed (refSays as)) []) with
    | error e => rw [hra] at h; cases h
    | ok s2 =>
      rw [hra] at h
      simp only [Except.bind, Except.ok.injEq] at h
      subst h
      rfl

theorem setGen_setGen (g g' : Option (Attr F)) (b b' : List Str) (st : MxmlSt F) : setGen g b (setGen g' b' st) = setGen g b st := rfl

theorem setGen_self {st : MxmlSt F} (hg : st.generic = none) : setGen none st.buffer st = st := by
  cases st; simp only at hg; subst hg; rfl

mutual
theorem run_data {rnd : Nat → Uuid} : ∀ {k : MNode} {cs : List (Attr F)}, DataSays k cs → ∀ {s : List MSax}, Reads id id k s → ∀ (st st' : MxmlSt F),
    Blank st.buffer → st.generic = none → routeAll st cs = .ok st' → mxmlRun rnd st s = .ok (setGen none [] st')
  | _, _, .attribute hn, _, hr, st, st', hb, hg, h => run_data_leaf hn hr st st' hb h
  | _, _, .around ht hks, _, hr, st, st', hb, hg, h => by
    obtain ⟨s', hk, hrun⟩ := run_elem (F := F) (rnd := rnd) hr
    obtain ⟨b, h1, _⟩ := run_dataAll (rnd := rnd) hks hk st st' hb hg h
    rw [hrun, (unknown_tag rnd ht st).1]
    simp only [Except.bind, h1]
    rw [(unknown_tag rnd ht _).2]
    rfl
  | _, _, .nothing ht, _, hr, st, st', hb, hg, h => by
    obtain ⟨b, _, h1⟩ := run_leaf hr st hb ((unknown_tag rnd ht st).1 _) rfl
    simp only [routeAll, Except.ok.injEq] at h
    subst h
    rw [h1, (unknown_tag rnd ht _).2]
    have := setGen_self hg
    simp only [setBuf, setGen, Except.ok.injEq]
    rw [hg]
theorem run_dataAll {rnd : Nat → Uuid} : ∀ {ks : List MNode} {cs : List (Attr F)}, DataSaysAll ks cs → ∀ {s : List MSax}, ReadsAll id id ks s →
    ∀ (st st' : MxmlSt F), Blank st.buffer → st.generic = none → routeAll st cs = .ok st' →
    ∃ b, mxmlRun rnd st s = .ok (setGen none b st') ∧ Blank b
  | _, _, .nil, _, hr, st, st', hb, hg, h => by
    cases hr with
    | nil hgap =>
      obtain ⟨b, h1, h2⟩ := run_gap rnd _ hgap st
      simp only [routeAll, Except.ok.injEq] at h
      subst h
      refine ⟨_, ?_, blank_append hb h2⟩
      rw [h1]
      simp only [setBuf, setGen, Except.ok.injEq]
      rw [hg]
  | _, _, .cons hx hxs, _, hr, st, st', hb, hg, h => by
    cases hr with
    | cons hgap hn hns =>
      obtain ⟨b, h1, h2⟩ := run_gap rnd _ hgap st
      rw [routeAll_append] at h
      cases hra : routeAll st _ with
      | error e => rw [hra] at h; cases h
      | ok s2 =>
        rw [hra] at h
        have e1 : setBuf (st.buffer ++ b) st = setGen none (st.buffer ++ b) st := by
          simp only [setBuf, setGen]; rw [hg]
        have h3 := run_data (rnd := rnd) hx hn (setBuf (st.buffer ++ b) st) (setGen none (st.buffer ++ b) s2) (blank_append hb h2) hg (by
          rw [e1, routeAll_gen, hra]; rfl)
        obtain ⟨b', h4, h5⟩ := run_dataAll (rnd := rnd) hxs hns (setGen none [] s2) (setGen none [] st') blank_nil rfl (by
          rw [routeAll_gen]
          simp only [Except.bind] at h
          rw [h]
          rfl)
        refine ⟨b', ?_, h5⟩
        simp only [mxmlRun_append, h1, Except.bind, h3, setGen_setGen, h4]
end

/-! ## Entries -/

theorem setBuf_mst (b b' : List Str) (logs : List (MLog F)) (p : Option (MLog F)) (i : Option (Trace F)) (e : Option (Event F)) (srcs : List (Attr F))
    (src : Option Nat) (so : Bool) (ts lts : Option DateTime) (n : Nat) :
    setBuf b (mst b' logs p i e srcs src so ts lts n) = mst b logs p i e srcs src so ts lts n := rfl

/-- A time, if any, has an offset. -/
def AwareO (t : Option DateTime) : Prop := ∀ d, t = some d → d.tz ≠ none

theorem routeAll_entry (b : List Str) (logs : List (MLog F)) (p : Option (MLog F)) (i : Option (Trace F)) (srcs : List (Attr F)) (src : Option Nat)
    (so : Bool) (ts lts : Option DateTime) (n : Nat) (u : Uuid) : ∀ (cs : List (Attr F)) (m : AttrMap F),
    routeAll (mst b logs p i (some ⟨u, m⟩) srcs src so ts lts n) cs = .ok (mst b logs p i (some ⟨u, put m cs⟩) srcs src so ts lts n)
  | [], _ => rfl
  | a :: cs, m => by
    simp only [routeAll]
    exact routeAll_entry b logs p i srcs src so ts lts n u cs (dset a.key a m)

theorem typeSays_eq (as : List (Str × Str)) (v : Str) : typeSays (F := F) as v =
    match as.lookup py!"unknowntype" with
    | some u => if u = [] ∨ u = py!"UNKNOWN" then
        (if strip v = [] then [] else [.mk .literal py!"lifecycle:transition" (some lifecycleExt) (.str (strip v)) (keyed (refSays as)) []])
      else [.mk .literal py!"lifecycle:transition" (some lifecycleExt) (.str u) (keyed (refSays as)) []]
    | none => if strip v = [] then [] else [.mk .literal py!"lifecycle:transition" (some lifecycleExt) (.str (strip v)) (keyed (refSays as)) []] := by
  unfold typeSays xmlAttr
  cases as.lookup py!"unknowntype" with
  | none => simp
  | some u =>
    simp only [Option.getD_some]
    by_cases h : u = [] ∨ u = py!"UNKNOWN"
    · simp [h]
    · have : u ≠ [] := fun e => h (.inl e)
      simp only [if_neg h]
      rw [if_neg this]

/-- One element of an entry. -/
theorem run_entry_item {rnd : Nat → Uuid} {t : Str} {as : List (Str × Str)} {v : Str} {s : List MSax} (hr : Reads id id (.elem t as (saysText v)) s)
    {a : List (Attr F)}
    (ha : t = py!"WorkflowModelElement" ∧ a = refSays as ++ nameSays (strip v) ∨ t = py!"EventType" ∧ a = typeSays as v ∨
      t = py!"Originator" ∧ a = originatorSays as v ∨
      t = py!"Timestamp" ∧ ((∃ d, parseDateTime (strip v) = .ok (some d) ∧ a = [.mk .timestamp py!"time:timestamp" (some timeExt) (.dt d) [] []]) ∨
        parseDateTime (strip v) = .ok none ∧ a = []))
    (b : List Str) (logs : List (MLog F)) (p : Option (MLog F)) (i : Option (Trace F)) (srcs : List (Attr F)) (src : Option Nat)
    (so : Bool) (ts lts : Option DateTime) (n : Nat) (u : Uuid) (m : AttrMap F) (hb : Blank b) (hts : AwareO ts) :
    ∃ ts', mxmlRun rnd (mst b logs p i (some ⟨u, m⟩) srcs src so ts lts n) s = .ok (mst [] logs p i (some ⟨u, put m a⟩) srcs src so ts' lts n) ∧
      AwareO ts' := by
  rcases ha with ⟨rfl, rfl⟩ | ⟨rfl, rfl⟩ | ⟨rfl, rfl⟩ | ⟨rfl, ha⟩
  · have h1 : mxmlStart rnd (mst b logs p i (some ⟨u, m⟩) srcs src so ts lts n) py!"WorkflowModelElement" as =
        .ok (mst b logs p i (some ⟨u, put m (refSays as)⟩) srcs src so ts lts n) := by
      have : ∀ st : MxmlSt F, mxmlStart rnd st py!"WorkflowModelElement" as = startElementName st as := by intro st; simp [mxmlStart]
      rw [this, ← addRef_put]
      unfold startElementName addRef
      cases modelRef as <;> rfl
    obtain ⟨b', h2, h3⟩ := run_leaf hr _ hb h1 rfl
    refine ⟨ts, ?_, hts⟩
    rw [h3, setBuf_mst]
    have : ∀ st : MxmlSt F, mxmlStopBody st py!"WorkflowModelElement" = stopElementName st := by intro st; simp [mxmlStopBody]
    have hbt : bufText (mst b' logs p i (some ⟨u, put m (refSays as)⟩) srcs src so ts lts n) = strip v := h2
    simp only [mxmlStop, this, stopElementName, hbt, put_append, ← assignName_put]
    cases hgv : given (some (strip v)) with
    | true => rfl
    | false =>
      have : assignName (some (strip v)) (put m (refSays as)) = put m (refSays as) := by simp [assignName, hgv]
      rw [this]
      rfl
  · have h1 : mxmlStart rnd (mst b logs p i (some ⟨u, m⟩) srcs src so ts lts n) py!"EventType" as =
        .ok (startEventType (mst b logs p i (some ⟨u, m⟩) srcs src so ts lts n) as) := by simp [mxmlStart]
    obtain ⟨b', h2, h3⟩ := run_leaf hr _ hb h1 rfl
    refine ⟨ts, ?_, hts⟩
    rw [h3]
    have : ∀ st : MxmlSt F, mxmlStopBody st py!"EventType" = stopEventType st := by intro st; simp [mxmlStopBody]
    have hbt : bufText (setBuf b' (startEventType (mst b logs p i (some ⟨u, m⟩) srcs src so ts lts n) as)) = strip v := h2
    simp only [mxmlStop, this, stopEventType, hbt]
    simp only [startEventType, setBuf, dget_lookup, addRef_put, put_nil, typeSays_eq]
    cases as.lookup py!"unknowntype" with
    | none =>
      by_cases hv : strip v = []
      · simp only [hv]; rfl
      · have hl := List.length_pos_iff.2 hv
        simp only [hv, hl, if_true, if_false]; rfl
    | some x =>
      by_cases hx : x = []
      · subst hx
        by_cases hv : strip v = []
        · simp only [hv]; rfl
        · have hl := List.length_pos_iff.2 hv
          simp only [hv, hl, if_true, if_false]; rfl
      · by_cases hx2 : x = py!"UNKNOWN"
        · subst hx2
          by_cases hv : strip v = []
          · simp only [hv]; rfl
          · have hl := List.length_pos_iff.2 hv
            simp only [hv, hl, if_true, if_false]; rfl
        · have : pyEq (Attr.val (F := F) (.mk .literal py!"lifecycle:transition" (some lifecycleExt) (.str x) (keyed (refSays as)) [])) (.str py!"UNKNOWN") = false := by
            simp [Attr.val, pyEq, hx2]
          simp only [hx, hx2, or_self, if_false, this, Bool.false_eq_true]
          rfl
  · have h1 : mxmlStart rnd (mst b logs p i (some ⟨u, m⟩) srcs src so ts lts n) py!"Originator" as =
        .ok (startOriginator (mst b logs p i (some ⟨u, m⟩) srcs src so ts lts n) as) := by simp [mxmlStart]
    obtain ⟨b', h2, h3⟩ := run_leaf hr _ hb h1 rfl
    refine ⟨ts, ?_, hts⟩
    rw [h3]
    have : ∀ st : MxmlSt F, mxmlStopBody st py!"Originator" = stopOriginator st := by intro st; simp [mxmlStopBody]
    have hbt : bufText (setBuf b' (startOriginator (mst b logs p i (some ⟨u, m⟩) srcs src so ts lts n) as)) = strip v := h2
    simp only [mxmlStop, this, stopOriginator, hbt]
    simp only [startOriginator, setBuf, addRef_put, put_nil, originatorSays]
    by_cases hv : strip v = []
    · simp only [hv]; rfl
    · have hl := List.length_pos_iff.2 hv
      simp only [hv, hl, if_true, if_false]; rfl
  · have h1 : mxmlStart rnd (mst b logs p i (some ⟨u, m⟩) srcs src so ts lts n) py!"Timestamp" as =
        .ok (mst b logs p i (some ⟨u, m⟩) srcs src so ts lts n) := by simp [mxmlStart]
    obtain ⟨b', h2, h3⟩ := run_leaf hr _ hb h1 rfl
    rw [h3, setBuf_mst]
    have : ∀ st : MxmlSt F, mxmlStopBody st py!"Timestamp" = stopTimestamp st := by intro st; simp [mxmlStopBody]
    have hbt : bufText (mst b' logs p i (some ⟨u, m⟩) srcs src so ts lts n) = strip v := h2
    simp only [mxmlStop, this, stopTimestamp, hbt]
    rcases ha with ⟨d, hd, rfl⟩ | ⟨hd, rfl⟩
    · refine ⟨some d, ?_, ?_⟩
      · simp only [hd, bind, Except.bind]; rfl
      · rintro d' ⟨⟩; exact (c06_result_good hd).2
    · refine ⟨none, ?_, ?_⟩
      · simp only [hd, bind, Except.bind]; rfl
      · rintro d' ⟨⟩

/-- The content of an entry. -/
theorem run_entry_content {rnd : Nat → Uuid} {ks : List MNode} {cs : List (Attr F)} (h : EntrySays ks cs) : ∀ {s : List MSax}, ReadsAll id id ks s →
    ∀ (b : List Str) (logs : List (MLog F)) (p : Option (MLog F)) (i : Option (Trace F)) (srcs : List (Attr F)) (src : Option Nat)
    (so : Bool) (ts lts : Option DateTime) (n : Nat) (u : Uuid) (m : AttrMap F), Blank b → AwareO ts →
    ∃ b' ts', mxmlRun rnd (mst b logs p i (some ⟨u, m⟩) srcs src so ts lts n) s = .ok (mst b' logs p i (some ⟨u, put m cs⟩) srcs src so ts' lts n) ∧
      Blank b' ∧ AwareO ts' := by
  have step : ∀ {k : MNode} {ks : List MNode} {a cs : List (Attr F)},
      (∀ {s : List MSax}, Reads id id k s → ∀ (b : List Str) (logs : List (MLog F)) (p : Option (MLog F)) (i : Option (Trace F)) (srcs : List (Attr F)) (src : Option Nat)
        (so : Bool) (ts lts : Option DateTime) (n : Nat) (u : Uuid) (m : AttrMap F), Blank b → AwareO ts →
        ∃ ts', mxmlRun rnd (mst b logs p i (some ⟨u, m⟩) srcs src so ts lts n) s = .ok (mst [] logs p i (some ⟨u, put m a⟩) srcs src so ts' lts n) ∧
          AwareO ts') →
      (∀ {s : List MSax}, ReadsAll id id ks s →
        ∀ (b : List Str) (logs : List (MLog F)) (p : Option (MLog F)) (i : Option (Trace F)) (srcs : List (Attr F)) (src : Option Nat)
        (so : Bool) (ts lts : Option DateTime) (n : Nat) (u : Uuid) (m : AttrMap F), Blank b → AwareO ts →
        ∃ b' ts', mxmlRun rnd (mst b logs p i (some ⟨u, m⟩) srcs src so ts lts n) s = .ok (mst b' logs p i (some ⟨u, put m cs⟩) srcs src so ts' lts n) ∧
          Blank b' ∧ AwareO ts') →
      ∀ {s : List MSax}, ReadsAll id id (k :: ks) s →
        ∀ (b : List Str) (logs : List (MLog F)) (p : Option (MLog F)) (i : Option (Trace F)) (srcs : List (Attr F)) (src : Option Nat)
        (so : Bool) (ts lts : Option DateTime) (n : Nat) (u : Uuid) (m : AttrMap F), Blank b → AwareO ts →
        ∃ b' ts', mxmlRun rnd (mst b logs p i (some ⟨u, m⟩) srcs src so ts lts n) s = .ok (mst b' logs p i (some ⟨u, put m (a ++ cs)⟩) srcs src so ts' lts n) ∧
          Blank b' ∧ AwareO ts' := by
    intro k ks a cs h1 h2 s hr b logs p i srcs src so ts lts n u m hb hts
    cases hr with
    | cons hgap hn hns =>
      obtain ⟨g, h3, h4⟩ := run_gap rnd _ hgap (mst b logs p i (some ⟨u, m⟩) srcs src so ts lts n)
      obtain ⟨ts', h5, h6⟩ := h1 hn (b ++ g) logs p i srcs src so ts lts n u m (blank_append hb h4) hts
      obtain ⟨b', ts'', h7, h8, h9⟩ := h2 hns [] logs p i srcs src so ts' lts n u (put m a) blank_nil h6
      refine ⟨b', ts'', ?_, h8, h9⟩
      rw [mxmlRun_append, h3]
      simp only [Except.bind]
      rw [setBuf_mst, mxmlRun_append]
      change (Except.bind (mxmlRun rnd (mst (b ++ g) logs p i (some ⟨u, m⟩) srcs src so ts lts n) _) _) = _
      rw [h5]
      simp only [Except.bind]
      rw [h7, put_append]
  induction h with
  | nil =>
    intro s hr b logs p i srcs src so ts lts n u m hb hts
    cases hr with
    | nil hgap =>
      obtain ⟨g, h3, h4⟩ := run_gap rnd _ hgap (mst b logs p i (some ⟨u, m⟩) srcs src so ts lts n)
      exact ⟨_, ts, h3, blank_append hb h4, hts⟩
  | name _ ih => exact step (fun hr => run_entry_item hr (.inl ⟨rfl, rfl⟩)) ih
  | type _ ih => exact step (fun hr => run_entry_item hr (.inr (.inl ⟨rfl, rfl⟩))) ih
  | originator _ ih => exact step (fun hr => run_entry_item hr (.inr (.inr (.inl ⟨rfl, rfl⟩)))) ih
  | time hd _ ih => exact step (fun hr => run_entry_item hr (.inr (.inr (.inr ⟨rfl, .inl ⟨_, c124_exact.2 hd, rfl⟩⟩)))) ih
  | noTime hd hh _ ih => exact step (fun hr => run_entry_item hr (.inr (.inr (.inr ⟨rfl, .inr ⟨c124_none.2 ⟨hd, hh⟩, rfl⟩⟩)))) ih
  | data hk _ ih =>
    exact step (fun hr b logs p i srcs src so ts lts n u m hb hts =>
      ⟨ts, run_data hk hr _ _ hb rfl (routeAll_entry b logs p i srcs src so ts lts n u _ m), hts⟩) ih

theorem aware_none : AwareO none := by rintro d ⟨⟩

theorem aware_lt {l t : DateTime} (hl : l.tz ≠ none) (ht : t.tz ≠ none) : ∃ g, l.lt t = .ok g := by
  unfold DateTime.lt
  cases h1 : l.tz with
  | none => exact absurd h1 hl
  | some _ => cases h2 : t.tz with
    | none => exact absurd h2 ht
    | some _ => exact ⟨decide (l.instant < t.instant), by simp⟩

/-- An entry. -/
theorem run_entry_elem {rnd : Nat → Uuid} {as : List (Str × Str)} {ks : List MNode} {cs : List (Attr F)} (h : EntrySays ks cs) {s : List MSax}
    (hr : Reads id id (.elem py!"AuditTrailEntry" as ks) s)
    (b : List Str) (logs : List (MLog F)) (p : Option (MLog F)) (t : Trace F) (srcs : List (Attr F)) (src : Option Nat)
    (so : Bool) (ts lts : Option DateTime) (n : Nat) (hb : Blank b) (hts : AwareO ts) (hlts : AwareO lts) :
    ∃ ts' lts', mxmlRun rnd (mst b logs p (some t) none srcs src so ts lts n) s =
      .ok (mst [] logs p (some ⟨t.attrs, t.events ++ [⟨rnd n, keyed cs⟩]⟩) none srcs src so ts' lts' (n + 1)) ∧ AwareO ts' ∧ AwareO lts' := by
  obtain ⟨s', hk, hrun⟩ := run_elem (F := F) (rnd := rnd) hr
  obtain ⟨b', ts', h1, h2, h3⟩ := run_entry_content (rnd := rnd) h hk b logs p (some t) srcs src so ts lts (n + 1) (rnd n) [] hb hts
  have h0 : ∀ st : MxmlSt F, mxmlStart rnd st py!"AuditTrailEntry" (xa id as) = .ok (startEntry rnd st) := by intro st; simp [mxmlStart]
  have hsb : ∀ st' : MxmlSt F, mxmlStopBody st' py!"AuditTrailEntry" = stopEntry st' := by intro st'; simp [mxmlStopBody]
  rw [put_nil] at h1
  have e0 : startEntry rnd (mst b logs p (some t) none srcs src so ts lts n) = mst b logs p (some t) (some ⟨rnd n, []⟩) srcs src so ts lts (n + 1) := rfl
  rw [hrun, h0, e0]
  simp only [Except.bind, h1, mxmlStop, hsb]
  unfold stopEntry
  cases ts' with
  | none => exact ⟨none, lts, rfl, h3, hlts⟩
  | some d =>
    cases lts with
    | none => exact ⟨some d, some d, rfl, h3, h3⟩
    | some l =>
      obtain ⟨g, hg⟩ := aware_lt (hlts l rfl) (h3 d rfl)
      have e1 : (mst b' logs p (some t) (some ⟨rnd n, keyed cs⟩) srcs src so (some d) (some l) (n + 1)).timestamp = some d := rfl
      have e2 : (mst b' logs p (some t) (some ⟨rnd n, keyed cs⟩) srcs src so (some d) (some l) (n + 1)).lastTimestamp = some l := rfl
      simp only [e1, e2, hg]
      cases g with
      | true => exact ⟨some d, some d, rfl, h3, h3⟩
      | false => exact ⟨some d, some l, rfl, h3, hlts⟩

/-! ## Instances -/

theorem routeAll_trace (b : List Str) (logs : List (MLog F)) (p : Option (MLog F)) (es : List (Event F)) (srcs : List (Attr F)) (src : Option Nat)
    (so : Bool) (ts lts : Option DateTime) (n : Nat) : ∀ (cs : List (Attr F)) (m : AttrMap F), (es ≠ [] ∨ cs = []) →
    routeAll (mst b logs p (some ⟨m, es⟩) none srcs src so ts lts n) cs = .ok (mst b logs p (some ⟨put m cs, es⟩) none srcs src so ts lts n)
  | [], _, _ => rfl
  | a :: cs, m, h => by
    have he : es ≠ [] := h.elim id (by intro h; cases h)
    have hl := List.length_pos_iff.2 he
    have e : routeAttribute (mst b logs p (some ⟨m, es⟩) none srcs src so ts lts n) a =
        .ok (mst b logs p (some ⟨dset a.key a m, es⟩) none srcs src so ts lts n) := by
      simp only [routeAttribute, mst, hl, if_true]
    simp only [routeAll, e]
    exact routeAll_trace b logs p es srcs src so ts lts n cs (dset a.key a m) (.inl he)

/-- The content of an instance. -/
theorem run_inst_content {rnd : Nat → Uuid} {seen : Bool} {ks : List MNode} {ds : List (Attr F)} {es : List (AttrMap F)} (h : InstSays seen ks ds es) :
    ∀ {s : List MSax}, ReadsAll id id ks s →
    ∀ (b : List Str) (logs : List (MLog F)) (p : Option (MLog F)) (m : AttrMap F) (ev : List (Event F)) (srcs : List (Attr F)) (src : Option Nat)
    (so : Bool) (ts lts : Option DateTime) (n : Nat), Blank b → AwareO ts → AwareO lts → (seen = true → ev ≠ []) →
    ∃ b' ts' lts' n' evs, mxmlRun rnd (mst b logs p (some ⟨m, ev⟩) none srcs src so ts lts n) s =
      .ok (mst b' logs p (some ⟨put m ds, ev ++ evs⟩) none srcs src so ts' lts' n') ∧
      Blank b' ∧ AwareO ts' ∧ AwareO lts' ∧ evs.map Event.attrs = es := by
  induction h with
  | nil =>
    intro s hr b logs p m ev srcs src so ts lts n hb hts hlts _
    cases hr with
    | nil hgap =>
      obtain ⟨g, h3, h4⟩ := run_gap rnd _ hgap (mst b logs p (some ⟨m, ev⟩) none srcs src so ts lts n)
      refine ⟨_, ts, lts, n, [], ?_, blank_append hb h4, hts, hlts, rfl⟩
      rw [h3, List.append_nil]
      rfl
  | @entry _ _ _ _ cs _ _ he _ ih =>
    intro s hr b logs p m ev srcs src so ts lts n hb hts hlts _
    cases hr with
    | cons hgap hn hns =>
      obtain ⟨g, h3, h4⟩ := run_gap rnd _ hgap (mst b logs p (some ⟨m, ev⟩) none srcs src so ts lts n)
      obtain ⟨ts1, lts1, h5, h6, h7⟩ := run_entry_elem (rnd := rnd) he hn (b ++ g) logs p ⟨m, ev⟩ srcs src so ts lts n (blank_append hb h4) hts hlts
      obtain ⟨b', ts', lts', n', evs, h8, h9, h10, h11, h12⟩ := ih hns [] logs p m (ev ++ [⟨rnd n, keyed cs⟩]) srcs src so ts1 lts1 (n + 1) blank_nil h6 h7 (by simp)
      refine ⟨b', ts', lts', n', ⟨rnd n, keyed cs⟩ :: evs, ?_, h9, h10, h11, by rw [List.map_cons, h12]⟩
      rw [mxmlRun_append, h3]
      simp only [Except.bind]
      rw [setBuf_mst, mxmlRun_append]
      change (Except.bind (mxmlRun rnd (mst (b ++ g) logs p (some ⟨m, ev⟩) none srcs src so ts lts n) _) _) = _
      rw [h5]
      simp only [Except.bind]
      rw [h8]
      simp
  | @data _ _ _ a _ _ hk hd _ ih =>
    intro s hr b logs p m ev srcs src so ts lts n hb hts hlts hs
    cases hr with
    | cons hgap hn hns =>
      obtain ⟨g, h3, h4⟩ := run_gap rnd _ hgap (mst b logs p (some ⟨m, ev⟩) none srcs src so ts lts n)
      have h5 := run_data (rnd := rnd) hk hn (mst (b ++ g) logs p (some ⟨m, ev⟩) none srcs src so ts lts n) _ (blank_append hb h4) rfl
        (routeAll_trace (b ++ g) logs p ev srcs src so ts lts n _ m (hd.elim (fun h => .inl (hs h)) .inr))
      obtain ⟨b', ts', lts', n', evs, h8, h9, h10, h11, h12⟩ := ih hns [] logs p (put m a) ev srcs src so ts lts n blank_nil hts hlts hs
      refine ⟨b', ts', lts', n', evs, ?_, h9, h10, h11, h12⟩
      rw [mxmlRun_append, h3]
      simp only [Except.bind]
      rw [setBuf_mst, mxmlRun_append]
      change (Except.bind (mxmlRun rnd (mst (b ++ g) logs p (some ⟨m, ev⟩) none srcs src so ts lts n) _) _) = _
      rw [h5]
      simp only [Except.bind]
      rw [put_append]
      exact h8

theorem startInstance_put (b : List Str) (logs : List (MLog F)) (p : Option (MLog F)) (srcs : List (Attr F)) (src : Option Nat)
    (so : Bool) (ts lts : Option DateTime) (n : Nat) (as : List (Str × Str)) :
    startInstance (mst b logs p none none srcs src so ts lts n) as =
      mst b logs p (some ⟨put [] (instanceSays as), []⟩) none srcs src so ts lts n := by
  have h1 : addRef as (description (fun d => 0 < (strip d).length) as (assignName (some ((dget py!"id" as).getD py!"None")) [])) =
      put ([] : AttrMap F) (instanceSays as) := by
    unfold instanceSays
    rw [addRef_put, put_append, put_append, assignName_put, dget_lookup]
    congr 1
    unfold description xmlAttr
    rw [dget_lookup]
    cases as.lookup py!"description" with
    | none =>
      have : strip ([] : Str) = [] := rfl
      simp [put, this]
    | some d =>
      by_cases hd : strip d = []
      · simp [hd, put]
      · have := List.length_pos_iff.2 hd
        simp [hd, this, put]
        rfl
  simp only [startInstance, h1]
  rfl

/-- An instance. -/
theorem run_inst_elem {rnd : Nat → Uuid} {as : List (Str × Str)} {ks : List MNode} {ds : List (Attr F)} {es : List (AttrMap F)}
    (h : InstSays false ks ds es) {s : List MSax} (hr : Reads id id (.elem py!"ProcessInstance" as ks) s)
    (b : List Str) (logs : List (MLog F)) (p : MLog F) (srcs : List (Attr F)) (src : Option Nat)
    (so : Bool) (ts lts : Option DateTime) (n : Nat) (hb : Blank b) (hts : AwareO ts) (hlts : AwareO lts) :
    ∃ ts' n' tr, mxmlRun rnd (mst b logs (some p) none none srcs src so ts lts n) s =
      .ok (mst [] logs (some (if es = [] then p else { p with traces := p.traces ++ [tr] })) none none srcs src so ts' none n') ∧ AwareO ts' ∧
      tr.attrs = keyed (instanceSays as ++ ds) ∧ tr.events.map Event.attrs = es := by
  obtain ⟨s', hk, hrun⟩ := run_elem (F := F) (rnd := rnd) hr
  obtain ⟨b', ts', lts', n', evs, h1, h2, h3, h4, h5⟩ := run_inst_content (rnd := rnd) h hk b logs (some p) (put [] (instanceSays as)) [] srcs src so ts lts n
    hb hts hlts (by simp)
  have h0 : ∀ st : MxmlSt F, mxmlStart rnd st py!"ProcessInstance" (xa id as) = .ok (startInstance st as) := by intro st; rw [xa_id]; simp [mxmlStart]
  have hsb : ∀ st' : MxmlSt F, mxmlStopBody st' py!"ProcessInstance" = stopInstance st' := by intro st'; simp [mxmlStopBody]
  refine ⟨ts', n', ⟨put (put [] (instanceSays as)) ds, evs⟩, ?_, h3, by rw [← put_append, put_nil], h5⟩
  rw [hrun, h0, startInstance_put]
  simp only [Except.bind, h1, mxmlStop, hsb, List.nil_append]
  have he : (0 < evs.length) ↔ ¬ es = [] := by rw [List.length_pos_iff, ← h5, ne_eq, List.map_eq_nil_iff]
  unfold stopInstance
  by_cases hes : es = []
  · have hl : ¬ 0 < evs.length := fun h => he.1 h hes
    simp only [mst, hl, hes, if_true, if_false]
    rfl
  · have hl := he.2 hes
    simp only [mst, hl, hes, if_true, if_false]
    rfl

/-! ## Processes -/

/-- Storing attributes one after the other in the map of a log under construction. -/
def putRef (m : List (Str × MRef F)) (cs : List (Attr F)) : List (Str × MRef F) := cs.foldl (fun m a => dset a.key (.own a) m) m

theorem routeAll_process (b : List Str) (logs : List (MLog F)) (srcs : List (Attr F)) (src : Option Nat)
    (so : Bool) (ts lts : Option DateTime) (n : Nat) : ∀ (cs : List (Attr F)) (p : MLog F), (p.traces ≠ [] ∨ cs = []) →
    routeAll (mst b logs (some p) none none srcs src so ts lts n) cs = .ok (mst b logs (some { p with attrs := putRef p.attrs cs }) none none srcs src so ts lts n)
  | [], _, _ => rfl
  | a :: cs, p, h => by
    have he : p.traces ≠ [] := h.elim id (by intro h; cases h)
    have hl := List.length_pos_iff.2 he
    have e : routeAttribute (mst b logs (some p) none none srcs src so ts lts n) a =
        .ok (mst b logs (some { p with attrs := dset a.key (.own a) p.attrs }) none none srcs src so ts lts n) := by
      simp only [routeAttribute, routeProcess, mst, hl, if_true]
    simp only [routeAll, e]
    exact routeAll_process b logs srcs src so ts lts n cs { p with attrs := dset a.key (.own a) p.attrs } (.inl he)

/-- The content of a process. -/
theorem run_proc_content {rnd : Nat → Uuid} {seen : Bool} {ks : List MNode} {ds : List (Attr F)} {tt : List (AttrMap F × List (AttrMap F))}
    (h : ProcSays seen ks ds tt) : ∀ {s : List MSax}, ReadsAll id id ks s →
    ∀ (b : List Str) (logs : List (MLog F)) (p : MLog F) (srcs : List (Attr F)) (src : Option Nat)
    (so : Bool) (ts lts : Option DateTime) (n : Nat), Blank b → AwareO ts → AwareO lts → (seen = true → p.traces ≠ []) →
    ∃ b' ts' lts' n' trs, mxmlRun rnd (mst b logs (some p) none none srcs src so ts lts n) s =
      .ok (mst b' logs (some { p with attrs := putRef p.attrs ds, traces := p.traces ++ trs }) none none srcs src so ts' lts' n') ∧
      Blank b' ∧ AwareO ts' ∧ AwareO lts' ∧ trs.map (fun t => (t.attrs, t.events.map Event.attrs)) = tt := by
  induction h with
  | nil =>
    intro s hr b logs p srcs src so ts lts n hb hts hlts _
    cases hr with
    | nil hgap =>
      obtain ⟨g, h3, h4⟩ := run_gap rnd _ hgap (mst b logs (some p) none none srcs src so ts lts n)
      refine ⟨_, ts, lts, n, [], ?_, blank_append hb h4, hts, hlts, rfl⟩
      rw [h3, List.append_nil]
      rfl
  | inst hi hne _ ih =>
    intro s hr b logs p srcs src so ts lts n hb hts hlts _
    cases hr with
    | cons hgap hn hns =>
      obtain ⟨g, h3, h4⟩ := run_gap rnd _ hgap (mst b logs (some p) none none srcs src so ts lts n)
      obtain ⟨ts1, n1, tr, h5, h6, h6a, h6b⟩ := run_inst_elem (rnd := rnd) hi hn (b ++ g) logs p srcs src so ts lts n (blank_append hb h4) hts hlts
      simp only [hne, if_false] at h5
      obtain ⟨b', ts', lts', n', trs, h8, h9, h10, h11, h12⟩ := ih hns [] logs { p with traces := p.traces ++ [tr] } srcs src so ts1 none n1 blank_nil h6
        aware_none (by simp)
      refine ⟨b', ts', lts', n', tr :: trs, ?_, h9, h10, h11, by rw [List.map_cons, h12, h6a, h6b]⟩
      rw [mxmlRun_append, h3]
      simp only [Except.bind]
      rw [setBuf_mst, mxmlRun_append]
      change (Except.bind (mxmlRun rnd (mst (b ++ g) logs (some p) none none srcs src so ts lts n) _) _) = _
      rw [h5]
      simp only [Except.bind]
      rw [h8]
      simp
  | empty hi _ ih =>
    intro s hr b logs p srcs src so ts lts n hb hts hlts hs
    cases hr with
    | cons hgap hn hns =>
      obtain ⟨g, h3, h4⟩ := run_gap rnd _ hgap (mst b logs (some p) none none srcs src so ts lts n)
      obtain ⟨ts1, n1, tr, h5, h6, h6a, h6b⟩ := run_inst_elem (rnd := rnd) hi hn (b ++ g) logs p srcs src so ts lts n (blank_append hb h4) hts hlts
      simp only [if_true] at h5
      obtain ⟨b', ts', lts', n', trs, h8, h9⟩ := ih hns [] logs p srcs src so ts1 none n1 blank_nil h6 aware_none hs
      refine ⟨b', ts', lts', n', trs, ?_, h9⟩
      rw [mxmlRun_append, h3]
      simp only [Except.bind]
      rw [setBuf_mst, mxmlRun_append]
      change (Except.bind (mxmlRun rnd (mst (b ++ g) logs (some p) none none srcs src so ts lts n) _) _) = _
      rw [h5]
      exact h8
  | @data _ _ _ a _ _ hk hd _ ih =>
    intro s hr b logs p srcs src so ts lts n hb hts hlts hs
    cases hr with
    | cons hgap hn hns =>
      obtain ⟨g, h3, h4⟩ := run_gap rnd _ hgap (mst b logs (some p) none none srcs src so ts lts n)
      have h5 := run_data (rnd := rnd) hk hn (mst (b ++ g) logs (some p) none none srcs src so ts lts n) _ (blank_append hb h4) rfl
        (routeAll_process (b ++ g) logs srcs src so ts lts n _ p (hd.elim (fun h => .inl (hs h)) .inr))
      obtain ⟨b', ts', lts', n', trs, h8, h9⟩ := ih hns [] logs { p with attrs := putRef p.attrs a } srcs src so ts lts n blank_nil hts hlts hs
      refine ⟨b', ts', lts', n', trs, ?_, h9⟩
      rw [mxmlRun_append, h3]
      simp only [Except.bind]
      rw [setBuf_mst, mxmlRun_append]
      change (Except.bind (mxmlRun rnd (mst (b ++ g) logs (some p) none none srcs src so ts lts n) _) _) = _
      rw [h5]
      simp only [putRef, List.foldl_append] at h8 ⊢
      exact h8

/-- The attribute map of a log as it is seen. -/
def seeAll (srcs : List (Attr F)) (m : List (Str × MRef F)) : AttrMap F := m.filterMap fun p => p.2.see srcs p.1

/-- All sources it refers to are there. -/
def RefsIn (srcs : List (Attr F)) (m : List (Str × MRef F)) : Prop := ∀ p ∈ m, ∀ i, p.2 = .source i → i < srcs.length

theorem see_dset {srcs : List (Attr F)} (k : Str) (a : Attr F) : ∀ {m : List (Str × MRef F)}, RefsIn srcs m →
    seeAll srcs (dset k (.own a) m) = dset k a (seeAll srcs m) ∧ RefsIn srcs (dset k (.own a) m)
  | [], _ => by
    refine ⟨rfl, ?_⟩
    intro p hp i hi
    simp only [dset, List.mem_singleton] at hp
    subst hp
    cases hi
  | (k', r) :: m, h => by
    have hm : RefsIn srcs m := fun p hp => h p (List.mem_cons_of_mem _ hp)
    obtain ⟨h1, h2⟩ := see_dset k a hm
    have hv : ∃ x, r.see srcs k' = some (k', x) := by
      cases r with
      | own x => exact ⟨x, rfl⟩
      | source i =>
        have := h _ (List.mem_cons_self ..) i rfl
        exact ⟨srcs[i], by simp [MRef.see, this]⟩
    obtain ⟨x, hx⟩ := hv
    by_cases hk : k' = k
    · subst hk
      constructor
      · simp only [seeAll, List.filterMap_cons, hx, dset, if_true]
        rfl
      · intro p hp i hi
        simp only [dset, if_true, List.mem_cons] at hp
        rcases hp with rfl | hp
        · cases hi
        · exact hm p hp i hi
    · constructor
      · simp only [seeAll, dset, hk, if_false, List.filterMap_cons, hx] at h1 ⊢
        rw [h1]
      · intro p hp i hi
        simp only [dset, hk, if_false, List.mem_cons] at hp
        rcases hp with rfl | hp
        · exact h _ (List.mem_cons_self ..) i hi
        · exact h2 p hp i hi

theorem see_putRef {srcs : List (Attr F)} : ∀ (cs : List (Attr F)) {m : List (Str × MRef F)}, RefsIn srcs m →
    seeAll srcs (putRef m cs) = put (seeAll srcs m) cs ∧ RefsIn srcs (putRef m cs)
  | [], _, h => ⟨rfl, h⟩
  | a :: cs, m, h => by
    obtain ⟨h1, h2⟩ := see_dset a.key a h
    obtain ⟨h3, h4⟩ := see_putRef cs h2
    refine ⟨?_, h4⟩
    have : put (seeAll srcs m) (a :: cs) = put (dset a.key a (seeAll srcs m)) cs := rfl
    rw [this, ← h1]
    exact h3

theorem put_nodup : ∀ (cs : List (Attr F)) (m : AttrMap F), (cs.map Attr.key).Nodup → (∀ a ∈ cs, a.key ∉ dkeys m) → put m cs = m ++ cs.map fun a => (a.key, a)
  | [], m, _, _ => by simp [put]
  | a :: cs, m, h1, h2 => by
    have : put m (a :: cs) = put (dset a.key a m) cs := rfl
    rw [this, dset_eq_append _ (h2 a (List.mem_cons_self ..))]
    simp only [List.map_cons, List.nodup_cons, List.mem_map, not_exists, not_and] at h1
    rw [put_nodup cs _ h1.2 ?_]
    · simp
    · intro x hx
      have := h2 x (List.mem_cons_of_mem _ hx)
      simp only [dkeys, List.map_append, List.map_cons, List.map_nil, List.mem_append, List.mem_singleton, not_or] at this ⊢
      exact ⟨this, h1.1 x hx⟩

theorem ownAll_putRef : ∀ (cs : List (Attr F)) (m : List (Str × MRef F)), ownAll (cs.map fun a => (a.key, a)) m = putRef m cs
  | [], _ => rfl
  | a :: cs, m => by
    have h1 : ownAll ((a :: cs).map fun a => (a.key, a)) m = ownAll (cs.map fun a => (a.key, a)) (dset a.key (.own a) m) := rfl
    rw [h1, ownAll_putRef cs]
    rfl

theorem processSays_keys (as : List (Str × Str)) : ((processSays (F := F) as).map Attr.key).Nodup := by
  unfold processSays nameSays refSays
  simp only
  cases as.lookup py!"modelReference" with
  | none => repeat' split
            all_goals simp [Attr.key]
  | some r =>
    by_cases hr : r = []
    · repeat' split
      all_goals simp [Attr.key]
    · repeat' split
      all_goals simp [Attr.key]

/-- The map of a log at the start of a process. -/
def baseRefs (src : Option Nat) : List (Str × MRef F) := match src with
  | some i => [(py!"source", .source i)]
  | none => []

/-- The log at the start of a process. -/
def startLog (src : Option Nat) (as : List (Str × Str)) : MLog F where
  attrs := putRef (baseRefs src) (processSays as)
  extensions := [conceptExt, orgExt, lifecycleExt, semanticExt, timeExt]
  classifiers := []
  globalTrace := []
  globalEvent := []
  traces := []

theorem startProcess_put (b : List Str) (logs : List (MLog F)) (srcs : List (Attr F)) (src : Option Nat)
    (so : Bool) (ts lts : Option DateTime) (n : Nat) (as : List (Str × Str)) :
    startProcess (mst b logs none none none srcs src so ts lts n) as = mst b logs (some (startLog src as)) none none srcs src so ts lts n := by
  have h1 : addRef as (description (fun d => 0 < (pyLower d).length) as (assignModel (some py!"standard") (assignName (dget py!"id" as) []))) =
      put ([] : AttrMap F) (processSays as) := by
    unfold processSays
    rw [addRef_put, put_append, put_append, put_append]
    congr 1
    have e1 : assignName (dget py!"id" as) ([] : AttrMap F) = put [] (nameSays (xmlAttr py!"id" [] as)) := by
      rw [dget_lookup]
      unfold xmlAttr
      cases as.lookup py!"id" with
      | none => rfl
      | some x => exact assignName_put x []
    have e2 : ∀ m : AttrMap F, assignModel (some py!"standard") m =
        put m [.mk .literal py!"lifecycle:model" (some lifecycleExt) (.str py!"standard") [] []] := by
      intro m; rfl
    rw [e1, e2]
    unfold description xmlAttr
    rw [dget_lookup]
    cases as.lookup py!"description" with
    | none => simp [put]
    | some d =>
      by_cases hd : d = []
      · simp [hd, put, pyLower_length]
      · have := List.length_pos_iff.2 hd
        simp [hd, this, put, pyLower_length]
        rfl
  have h2 : put ([] : AttrMap F) (processSays as) = (processSays as).map fun a => (a.key, a) := by
    rw [put_nodup _ _ (processSays_keys as) (by simp [dkeys])]
    rfl
  simp only [startProcess, h1, h2, ownAll_putRef]
  rfl

/-! ## Documents -/

theorem toLog_more {srcs : List (Attr F)} {l : MLog F} (h : RefsIn srcs l.attrs) (more : List (Attr F)) : l.toLog (srcs ++ more) = l.toLog srcs := by
  have : l.attrs.filterMap (fun p => p.2.see (srcs ++ more) p.1) = l.attrs.filterMap (fun p => p.2.see srcs p.1) := by
    obtain ⟨m, _, _, _, _, _⟩ := l
    simp only at h ⊢
    induction m with
    | nil => rfl
    | cons p m ih =>
      obtain ⟨k, r⟩ := p
      have e : r.see (srcs ++ more) k = r.see srcs k := by
        cases r with
        | own a => rfl
        | source i =>
          have := h _ (List.mem_cons_self ..) i rfl
          simp [MRef.see, List.getElem?_append_left this]
      simp only [List.filterMap_cons, e, ih fun p hp => h p (List.mem_cons_of_mem _ hp)]
  simp only [MLog.toLog, this]

/-- The source that the reader holds is the one said. -/
def SrcOk (said : Option (Attr F)) (srcs : List (Attr F)) (src : Option Nat) : Prop :=
  match src with
  | none => said = none
  | some i => ∃ a, said = some a ∧ srcs[i]? = some a ∧ a.key = py!"source"

theorem base_see {said : Option (Attr F)} {srcs : List (Attr F)} {src : Option Nat} (h : SrcOk said srcs src) :
    seeAll srcs (baseRefs src) = put [] said.toList ∧ RefsIn srcs (baseRefs src) := by
  cases src with
  | none =>
    cases h
    exact ⟨rfl, by intro p hp; cases hp⟩
  | some i =>
    obtain ⟨a, rfl, h1, h2⟩ := h
    constructor
    · simp only [seeAll, baseRefs, List.filterMap_cons, MRef.see, h1, Option.map_some, List.filterMap_nil, Option.toList_some, put, List.foldl_cons, List.foldl_nil, dset, h2]
    · intro p hp j hj
      simp only [baseRefs, List.mem_singleton] at hp
      subst hp
      cases hj
      exact (List.getElem?_eq_some_iff.1 h1).1

/-- A process. -/
theorem run_proc_elem {rnd : Nat → Uuid} {as : List (Str × Str)} {ks : List MNode} {ds : List (Attr F)} {tt : List (AttrMap F × List (AttrMap F))}
    (h : ProcSays false ks ds tt) {s : List MSax} (hr : Reads id id (.elem py!"Process" as ks) s) {said : Option (Attr F)}
    (b : List Str) (logs : List (MLog F)) (srcs : List (Attr F)) (src : Option Nat) (hsrc : SrcOk said srcs src)
    (so : Bool) (ts lts : Option DateTime) (n : Nat) (hb : Blank b) (hts : AwareO ts) (hlts : AwareO lts) :
    ∃ ts' lts' n' l, mxmlRun rnd (mst b logs none none none srcs src so ts lts n) s =
      .ok (mst [] (logs ++ [l]) none none none srcs src so ts' lts' n') ∧ AwareO ts' ∧ AwareO lts' ∧ RefsIn srcs l.attrs ∧
      logSeen (l.toLog srcs) = (keyed (said.toList ++ processSays as ++ ds), tt) ∧ MxmlLegacy (l.toLog srcs) := by
  obtain ⟨s', hk, hrun⟩ := run_elem (F := F) (rnd := rnd) hr
  obtain ⟨b', ts', lts', n', trs, h1, h2, h3, h4, h5⟩ := run_proc_content (rnd := rnd) h hk b logs (startLog src as) srcs src so ts lts n
    hb hts hlts (by simp)
  have h0 : ∀ st : MxmlSt F, mxmlStart rnd st py!"Process" (xa id as) = .ok (startProcess st as) := by intro st; rw [xa_id]; simp [mxmlStart]
  have hsb : ∀ st' : MxmlSt F, mxmlStopBody st' py!"Process" = stopProcess st' := by intro st'; simp [mxmlStopBody]
  obtain ⟨e1, e2⟩ := base_see hsrc
  obtain ⟨e3, e4⟩ := see_putRef (processSays as) e2
  obtain ⟨e5, e6⟩ := see_putRef ds e4
  refine ⟨ts', lts', n', ⟨putRef (putRef (baseRefs src) (processSays as)) ds, [conceptExt, orgExt, lifecycleExt, semanticExt, timeExt], mxmlClassifiers,
    [cloned .literal py!"concept:name" conceptExt (.str py!"UNKNOWN")],
    [cloned .literal py!"concept:name" conceptExt (.str py!"UNKNOWN"), cloned .literal py!"lifecycle:transition" lifecycleExt (.str py!"complete")], trs⟩,
    ?_, h3, h4, e6, ?_, ⟨rfl, rfl, rfl, rfl, rfl⟩⟩
  · rw [hrun, h0, startProcess_put]
    simp only [Except.bind, h1, mxmlStop, hsb]
    rfl
  · simp only [logSeen, MLog.toLog, h5]
    have : (putRef (putRef (baseRefs src) (processSays as)) ds).filterMap (fun p => p.2.see srcs p.1) = keyed (said.toList ++ processSays as ++ ds) := by
      rw [← put_nil, put_append, put_append, ← e1, ← e3, ← e5]
      rfl
    rw [this]

theorem modify_last (f : Attr F → Attr F) (l : List (Attr F)) (a : Attr F) : (l ++ [a]).modify l.length f = l ++ [f a] := by
  induction l with
  | nil => rfl
  | cons x l ih => simpa [List.modify_succ_cons] using ih

theorem routeAll_source (b : List Str) (logs : List (MLog F)) (srcs : List (Attr F)) (ts lts : Option DateTime) (n : Nat) (v : PyVal F) :
    ∀ (cs : List (Attr F)) (m : AttrMap F),
    routeAll (mst b logs none none none (srcs ++ [.mk .literal py!"source" none v m []]) (some srcs.length) true ts lts n) cs =
      .ok (mst b logs none none none (srcs ++ [.mk .literal py!"source" none v (put m cs) []]) (some srcs.length) true ts lts n)
  | [], _ => rfl
  | a :: cs, m => by
    have e : routeAttribute (mst b logs none none none (srcs ++ [.mk .literal py!"source" none v m []]) (some srcs.length) true ts lts n) a =
        .ok (mst b logs none none none (srcs ++ [.mk .literal py!"source" none v (dset a.key a m) []]) (some srcs.length) true ts lts n) := by
      simp only [routeAttribute, routeProcess, routeSource, mst, if_true, modify_last]
      rfl
    simp only [routeAll, e]
    exact routeAll_source b logs srcs ts lts n v cs (dset a.key a m)

/-- A source. -/
theorem run_source_elem {rnd : Nat → Uuid} {as : List (Str × Str)} {ks : List MNode} {cs : List (Attr F)}
    (h : DataSaysAll ks cs) {s : List MSax} (hr : Reads id id (.elem py!"Source" as ks) s)
    (b : List Str) (logs : List (MLog F)) (srcs : List (Attr F)) (src : Option Nat)
    (so : Bool) (ts lts : Option DateTime) (n : Nat) (hb : Blank b) :
    mxmlRun rnd (mst b logs none none none srcs src so ts lts n) s =
      .ok (mst [] logs none none none (srcs ++ [sourceSays as cs]) (some srcs.length) true ts lts n) := by
  obtain ⟨s', hk, hrun⟩ := run_elem (F := F) (rnd := rnd) hr
  have h0 : ∀ st : MxmlSt F, mxmlStart rnd st py!"Source" (xa id as) = .ok (startSource st as) := by intro st; rw [xa_id]; simp [mxmlStart]
  have hsb : ∀ st' : MxmlSt F, mxmlStopBody st' py!"Source" = .ok st' := by intro st'; simp [mxmlStopBody]
  have e0 : startSource (mst b logs none none none srcs src so ts lts n) as =
      mst b logs none none none (srcs ++ [.mk .literal py!"source" none (match as.lookup py!"program" with | some s => .str s | none => .none)
        (put [] (refSays as)) []]) (some srcs.length) true ts lts n := by
    simp only [startSource, dget_lookup, addRef_put]
    cases as.lookup py!"program" <;> rfl
  obtain ⟨b', h1, _⟩ := run_dataAll (rnd := rnd) h hk _ _ (by exact hb) rfl (routeAll_source b logs srcs ts lts n
    (match as.lookup py!"program" with | some s => .str s | none => .none) cs (put [] (refSays as)))
  rw [hrun, h0, e0]
  simp only [Except.bind, h1, mxmlStop, hsb]
  rw [← put_append, put_nil]
  rfl

/-- The content of a document. -/
theorem run_top {rnd : Nat → Uuid} {said : Option (Attr F)} {ks : List MNode} {ls : List (AttrMap F × List (AttrMap F × List (AttrMap F)))}
    (h : TopSays said ks ls) : ∀ {s : List MSax}, ReadsAll id id ks s →
    ∀ (b : List Str) (logs : List (MLog F)) (srcs : List (Attr F)) (src : Option Nat)
    (so : Bool) (ts lts : Option DateTime) (n : Nat), Blank b → AwareO ts → AwareO lts → SrcOk said srcs src →
    ∃ b' new more src' so' ts' lts' n', mxmlRun rnd (mst b logs none none none srcs src so ts lts n) s =
      .ok (mst b' (logs ++ new) none none none (srcs ++ more) src' so' ts' lts' n') ∧
      new.map (fun l => logSeen (l.toLog (srcs ++ more))) = ls ∧ ∀ l ∈ new, MxmlLegacy (l.toLog (srcs ++ more)) := by
  induction h with
  | nil =>
    intro s hr b logs srcs src so ts lts n hb hts hlts hsrc
    cases hr with
    | nil hgap =>
      obtain ⟨g, h3, h4⟩ := run_gap rnd _ hgap (mst b logs none none none srcs src so ts lts n)
      refine ⟨b ++ g, [], [], src, so, ts, lts, n, ?_, rfl, by simp⟩
      rw [h3, List.append_nil, List.append_nil]
      rfl
  | @source _ as _ _ cs _ hd _ ih =>
    intro s hr b logs srcs src so ts lts n hb hts hlts hsrc
    cases hr with
    | cons hgap hn hns =>
      obtain ⟨g, h3, h4⟩ := run_gap rnd _ hgap (mst b logs none none none srcs src so ts lts n)
      have h5 := run_source_elem (rnd := rnd) hd hn (b ++ g) logs srcs src so ts lts n (blank_append hb h4)
      obtain ⟨b', new, more, src', so', ts', lts', n', h6, h7, h8⟩ := ih hns [] logs (srcs ++ [sourceSays as cs]) (some srcs.length) true ts lts n
        blank_nil hts hlts ⟨_, rfl, by simp, rfl⟩
      refine ⟨b', new, sourceSays as cs :: more, src', so', ts', lts', n', ?_, ?_, ?_⟩
      · rw [mxmlRun_append, h3]
        simp only [Except.bind]
        rw [setBuf_mst, mxmlRun_append]
        change (Except.bind (mxmlRun rnd (mst (b ++ g) logs none none none srcs src so ts lts n) _) _) = _
        rw [h5]
        simp only [Except.bind, h6, List.append_assoc, List.singleton_append]
      · simpa using h7
      · simpa using h8
  | process hp _ ih =>
    intro s hr b logs srcs src so ts lts n hb hts hlts hsrc
    cases hr with
    | cons hgap hn hns =>
      obtain ⟨g, h3, h4⟩ := run_gap rnd _ hgap (mst b logs none none none srcs src so ts lts n)
      obtain ⟨ts1, lts1, n1, l, h5, h5a, h5b, h5c, h5d, h5e⟩ := run_proc_elem (rnd := rnd) hp hn (b ++ g) logs srcs src hsrc so ts lts n (blank_append hb h4) hts hlts
      obtain ⟨b', new, more, src', so', ts', lts', n', h6, h7, h8⟩ := ih hns [] (logs ++ [l]) srcs src so ts1 lts1 n1 blank_nil h5a h5b hsrc
      refine ⟨b', l :: new, more, src', so', ts', lts', n', ?_, ?_, ?_⟩
      · rw [mxmlRun_append, h3]
        simp only [Except.bind]
        rw [setBuf_mst, mxmlRun_append]
        change (Except.bind (mxmlRun rnd (mst (b ++ g) logs none none none srcs src so ts lts n) _) _) = _
        rw [h5]
        simp only [Except.bind, h6, List.append_assoc, List.singleton_append]
      · rw [List.map_cons, h7, toLog_more h5c, h5d]
      · intro x hx
        rcases List.mem_cons.1 hx with rfl | hx
        · rw [toLog_more h5c]; exact h5e
        · exact h8 x hx
  | nothing hk _ ih =>
    intro s hr b logs srcs src so ts lts n hb hts hlts hsrc
    cases hr with
    | cons hgap hn hns =>
      obtain ⟨g, h3, h4⟩ := run_gap rnd _ hgap (mst b logs none none none srcs src so ts lts n)
      have h5 := run_data (rnd := rnd) hk hn (mst (b ++ g) logs none none none srcs src so ts lts n) _ (blank_append hb h4) rfl rfl
      obtain ⟨b', new, more, src', so', ts', lts', n', h6, h7⟩ := ih hns [] logs srcs src so ts lts n blank_nil hts hlts hsrc
      refine ⟨b', new, more, src', so', ts', lts', n', ?_, h7⟩
      rw [mxmlRun_append, h3]
      simp only [Except.bind]
      rw [setBuf_mst, mxmlRun_append]
      change (Except.bind (mxmlRun rnd (mst (b ++ g) logs none none none srcs src so ts lts n) _) _) = _
      rw [h5]
      exact h6

/-! ## C117 -/

/-- C117: a document is loaded as the logs it says, however its text is cut into pieces. -/
theorem c117_document (rnd : Nat → Uuid) {as : List (Str × Str)} {ks : List MNode} {ls : List (AttrMap F × List (AttrMap F × List (AttrMap F)))}
    (h : TopSays none ks ls) {s : List MSax} (hr : Reads id id (.elem py!"WorkflowLog" as ks) s) :
    ∃ logs : List (Log F), mxmlParse rnd s = .ok logs ∧ logs.map logSeen = ls ∧ ∀ l ∈ logs, MxmlLegacy l := by
  obtain ⟨s', hk, hrun⟩ := run_elem (F := F) (rnd := rnd) hr
  obtain ⟨b', new, more, src', so', ts', lts', n', h1, h2, h3⟩ := run_top (rnd := rnd) h hk [] [] [] none false none none 0 blank_nil aware_none aware_none rfl
  have h0 : ∀ st : MxmlSt F, mxmlStart rnd st py!"WorkflowLog" (xa id as) = .ok st := by intro st; simp [mxmlStart]
  have hsb : ∀ st' : MxmlSt F, mxmlStopBody st' py!"WorkflowLog" = .ok st' := by intro st'; simp [mxmlStopBody]
  have e : MxmlSt.init F = mst [] [] none none none [] none false none none 0 := rfl
  refine ⟨new.map fun l => l.toLog more, ?_, ?_, ?_⟩
  · unfold mxmlParse
    rw [hrun, h0, e]
    simp only [Except.bind, h1, mxmlStop, hsb]
    rfl
  · rw [List.map_map]
    exact h2
  · intro l hl
    obtain ⟨x, hx, rfl⟩ := List.mem_map.1 hl
    exact h3 x hx

/-- ... on the text of a file. -/
theorem c117_text (rnd : Nat → Uuid) {text : Str} {es : List MSax} {as : List (Str × Str)} {ks : List MNode}
    {ls : List (AttrMap F × List (AttrMap F × List (AttrMap F)))} (ht : readXml text = .ok es)
    (he : Reads id id (.elem py!"WorkflowLog" as ks) es) (h : TopSays none ks ls) :
    ∃ logs : List (Log F), loadMxml rnd text = .ok logs ∧ logs.map logSeen = ls ∧ ∀ l ∈ logs, MxmlLegacy l := by
  obtain ⟨logs, h1, h2⟩ := c117_document (F := F) rnd h he
  exact ⟨logs, by simp only [loadMxml, ht, bind, Except.bind, h1], h2⟩

/-- ... and a document says one thing only. -/
theorem c117_unique {ks : List MNode} {ls ls' : List (AttrMap F × List (AttrMap F × List (AttrMap F)))} (h : TopSays none ks ls)
    (h' : TopSays none ks ls') : ls = ls' := by
  obtain ⟨a, h1, h2, _⟩ := c117_document (F := F) (fun _ => ⟨0, by decide⟩) h (say_reads (.elem py!"WorkflowLog" [] ks))
  obtain ⟨b, h3, h4, _⟩ := c117_document (F := F) (fun _ => ⟨0, by decide⟩) h' (say_reads (.elem py!"WorkflowLog" [] ks))
  rw [h1] at h3
  cases h3
  rw [← h2, ← h4]

end

/-! ## Example -/

/-- Two processes, an instance without entries, an entry with its elements in an unusual order. -/
def mxDoc : List MNode :=
  [.elem py!"Source" [(py!"program", py!"p")] [.elem py!"Data" [] [.elem py!"Attribute" [(py!"name", py!"s")] [.text py!"1"]]],
   .elem py!"Process" [(py!"id", py!"P")] [
     .elem py!"ProcessInstance" [(py!"id", py!"empty")] [],
     .elem py!"ProcessInstance" [(py!"description", py!"d")] [
       .elem py!"AuditTrailEntry" [] [
         .elem py!"Originator" [] [.text py!" Ann "],
         .elem py!"EventType" [(py!"unknowntype", py!"x")] [.text py!"unknown"],
         .elem py!"Data" [] [.elem py!"Attribute" [(py!"name", py!"k")] [.text py!"v"], .elem py!"Attribute" [(py!"name", py!"k")] [.text py!"w"]],
         .elem py!"WorkflowModelElement" [(py!"modelReference", py!"r")] [.text py!"A"]],
       .elem py!"Data" [] [.elem py!"Attribute" [(py!"name", py!"t")] [.text py!"2"]]],
     .elem py!"Data" [] [.elem py!"Attribute" [(py!"name", py!"l")] [.text py!"3"]]],
   .elem py!"Process" [(py!"id", py!"Q")] []]

/-- What it says. -/
def mxDocSays : List (AttrMap ToyFloat × List (AttrMap ToyFloat × List (AttrMap ToyFloat))) :=
  let src := lit py!"source" none py!"p" [lit py!"s" none py!"1" []]
  let std := lit py!"lifecycle:model" (some lifecycleExt) py!"standard" []
  [([src, lit py!"concept:name" (some conceptExt) py!"P" [], std, lit py!"l" none py!"3" []],
    [([lit py!"concept:name" (some conceptExt) py!"None" [], lit py!"description" none py!"d" [], lit py!"t" none py!"2" []],
      [[lit py!"org:resource" (some orgExt) py!"Ann" [], lit py!"lifecycle:transition" (some lifecycleExt) py!"x" [], lit py!"k" none py!"w" [],
        lit py!"semantic:modelReference" (some semanticExt) py!"r" [], lit py!"concept:name" (some conceptExt) py!"A" []]])]),
   ([src, lit py!"concept:name" (some conceptExt) py!"Q" [], std], [])]

theorem mxDoc_says : TopSays none mxDoc mxDocSays := by
  have data : ∀ n v : Str, v ≠ [] → DataSays (F := ToyFloat) (.elem py!"Attribute" [(py!"name", n)] [.text v]) (dataSays [(py!"name", n)] n v) := by
    intro n v hv
    have := DataSays.attribute (F := ToyFloat) (as := [(py!"name", n)]) (name := n) (v := v) rfl
    simpa only [saysText, if_neg hv] using this
  have one : ∀ n v : Str, v ≠ [] → DataSays (F := ToyFloat) (.elem py!"Data" [] [.elem py!"Attribute" [(py!"name", n)] [.text v]])
      (dataSays [(py!"name", n)] n v ++ []) := fun n v hv => .around (by decide) (.cons (data n v hv) .nil)
  exact .source (.cons (one py!"s" py!"1" (by decide)) .nil) (.process
    (.empty .nil (.inst (.entry (.originator (v := py!" Ann ") (.type (v := py!"unknown") (.data (.around (by decide) (.cons (data py!"k" py!"v" (by decide))
      (.cons (data py!"k" py!"w" (by decide)) .nil))) (.name (v := py!"A") .nil))))
      (.data (one py!"t" py!"2" (by decide)) (.inl rfl) .nil)) (by simp)
      (.data (one py!"l" py!"3" (by decide)) (.inl rfl) .nil)))
    (.process .nil .nil))

/-- C117 applies to it. -/
example : ∃ logs : List (Log ToyFloat), mxmlParse (fun _ => ⟨0, by decide⟩) (MNode.elem py!"WorkflowLog" [] mxDoc).say = .ok logs ∧
    logs.map logSeen = mxDocSays := by
  obtain ⟨logs, h1, h2, _⟩ := c117_document (F := ToyFloat) (fun _ => ⟨0, by decide⟩) mxDoc_says (say_reads (.elem py!"WorkflowLog" [] mxDoc))
  exact ⟨logs, h1, h2⟩

/-- ... and to the text of a file. -/
example : ∃ logs : List (Log ToyFloat),
    loadMxml (fun _ => ⟨0, by decide⟩) py!"<?xml version='1.0'?><!-- two --><WorkflowLog><Process id='Q'></Process><Process id='&lt;'/></WorkflowLog>" = .ok logs ∧
    logs.map logSeen = [([lit py!"concept:name" (some conceptExt) py!"Q" [], lit py!"lifecycle:model" (some lifecycleExt) py!"standard" []], []),
      ([lit py!"concept:name" (some conceptExt) py!"<" [], lit py!"lifecycle:model" (some lifecycleExt) py!"standard" []], [])] := by
  have h : (match readXml py!"<?xml version='1.0'?><!-- two --><WorkflowLog><Process id='Q'></Process><Process id='&lt;'/></WorkflowLog>" with
      | .ok es => decide (es = (MNode.elem py!"WorkflowLog" [] [.elem py!"Process" [(py!"id", py!"Q")] [], .elem py!"Process" [(py!"id", py!"<")] []]).say)
      | .error _ => false) = true := by decide +kernel
  split at h
  case h_2 => exact nomatch h
  rename_i es h1
  have h2 := of_decide_eq_true h
  obtain ⟨logs, h3, h4, _⟩ := c117_text (F := ToyFloat) (fun _ => ⟨0, by decide⟩) h1 (by rw [h2]; exact say_reads _) (.process .nil (.process .nil .nil))
  exact ⟨logs, h3, h4⟩

end Opy
