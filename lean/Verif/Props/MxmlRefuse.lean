import Verif.Props.MxmlMeaning
set_option linter.unusedSectionVars false
namespace Opy

/-! # Which MXML documents are refused, and with which exception (C154)

The outcome of a document is stated on its elements, in the order of the document: the first fault
decides, whatever comes behind it. -/

/-! ## Spec -/

/-- Which elements are open. -/
structure MxmlPlace where
  process : Bool
  inst : Bool
  entry : Bool

/-- No type is stated by the attributes of an `EventType` element. -/
def NoType (as : List (Str × Str)) : Prop := ∀ u, as.lookup py!"unknowntype" = some u → u = [] ∨ u = py!"UNKNOWN"

/-- No model reference is stated. -/
def NoRef (as : List (Str × Str)) : Prop := ∀ r, as.lookup py!"modelReference" = some r → r = []

/-- Elements that neither need nor open anything. -/
def Harmless (t : Str) : Prop := t ∉ mxmlTags ∨ t = py!"WorkflowLog" ∨ t = py!"Source"

mutual
/-- There is an audit trail entry in the element. -/
def holdsEntry : MNode → Bool
  | .text _ => false
  | .elem t _ ks => t = py!"AuditTrailEntry" || holdEntries ks
/-- The same for a list. -/
def holdEntries : List MNode → Bool
  | [] => false
  | k :: ks => holdsEntry k || holdEntries ks
end

mutual
/-- What becomes of an element at a place: `none` if it is read, otherwise the exception. -/
inductive MEnds : MxmlPlace → MNode → Option PyErr → Prop
  /-- A data attribute has a name. -/
  | attribute {c : MxmlPlace} {as : List (Str × Str)} {n v : Str} : as.lookup py!"name" = some n → MEnds c (.elem py!"Attribute" as (saysText v)) none
  /-- A data attribute without a name, whatever is in it. -/
  | nameless {c : MxmlPlace} {as : List (Str × Str)} {ks : List MNode} : as.lookup py!"name" = none → MEnds c (.elem py!"Attribute" as ks) (some .attributeError)
  /-- A type, in an entry; elsewhere it must be empty. -/
  | type {c : MxmlPlace} {as : List (Str × Str)} {v : Str} : (c.entry = true ∨ strip v = [] ∧ NoType as) → MEnds c (.elem py!"EventType" as (saysText v)) none
  | strayType {c : MxmlPlace} {as : List (Str × Str)} {v : Str} : c.entry = false → (strip v ≠ [] ∨ ¬ NoType as) →
      MEnds c (.elem py!"EventType" as (saysText v)) (some .attributeError)
  /-- A name, in an entry; elsewhere it must be empty. -/
  | name {c : MxmlPlace} {as : List (Str × Str)} {v : Str} : (c.entry = true ∨ strip v = [] ∧ NoRef as) →
      MEnds c (.elem py!"WorkflowModelElement" as (saysText v)) none
  | strayName {c : MxmlPlace} {as : List (Str × Str)} {v : Str} : c.entry = false → strip v ≠ [] →
      MEnds c (.elem py!"WorkflowModelElement" as (saysText v)) (some .attributeError)
  | strayRef {c : MxmlPlace} {as : List (Str × Str)} {ks : List MNode} : c.entry = false → ¬ NoRef as →
      MEnds c (.elem py!"WorkflowModelElement" as ks) (some .attributeError)
  /-- An originator must be in an entry. -/
  | originator {c : MxmlPlace} {as : List (Str × Str)} {v : Str} : c.entry = true → MEnds c (.elem py!"Originator" as (saysText v)) none
  | strayOriginator {c : MxmlPlace} {as : List (Str × Str)} {v : Str} : c.entry = false → MEnds c (.elem py!"Originator" as (saysText v)) (some .attributeError)
  /-- A time must be in an entry; a text that is no time is ignored; a zone offset of absurd size is an overflow. -/
  | time {c : MxmlPlace} {as : List (Str × Str)} {v : Str} {d : DateTime} : c.entry = true → DateSays (strip v) d → MEnds c (.elem py!"Timestamp" as (saysText v)) none
  | noTime {c : MxmlPlace} {as : List (Str × Str)} {v : Str} : (∀ d, ¬ DateSays (strip v) d) → ¬ HugeZone (strip v) →
      MEnds c (.elem py!"Timestamp" as (saysText v)) none
  | strayTime {c : MxmlPlace} {as : List (Str × Str)} {v : Str} {d : DateTime} : c.entry = false → DateSays (strip v) d →
      MEnds c (.elem py!"Timestamp" as (saysText v)) (some .attributeError)
  | hugeZone {c : MxmlPlace} {as : List (Str × Str)} {v : Str} : HugeZone (strip v) → MEnds c (.elem py!"Timestamp" as (saysText v)) (some .overflowError)
  /-- Elements of other names, the root and sources: what is in them counts. -/
  | around {c : MxmlPlace} {t : Str} {as : List (Str × Str)} {ks : List MNode} {o : Option PyErr} : Harmless t → MEndsAll c ks o → MEnds c (.elem t as ks) o
  | nothing {c : MxmlPlace} {t : Str} {as : List (Str × Str)} {v : Str} : Harmless t → MEnds c (.elem t as (saysText v)) none
  /-- An entry must be in an instance. -/
  | entry {c : MxmlPlace} {as : List (Str × Str)} {ks : List MNode} {o : Option PyErr} : c.entry = false → MEndsAll { c with entry := true } ks o →
      (c.inst = true ∨ o ≠ none) → MEnds c (.elem py!"AuditTrailEntry" as ks) o
  | strayEntry {c : MxmlPlace} {as : List (Str × Str)} {ks : List MNode} : c.entry = false → c.inst = false → MEndsAll { c with entry := true } ks none →
      MEnds c (.elem py!"AuditTrailEntry" as ks) (some .attributeError)
  /-- An instance with entries must be in a process. -/
  | inst {c : MxmlPlace} {as : List (Str × Str)} {ks : List MNode} {o : Option PyErr} : c.entry = false → c.inst = false → MEndsAll { c with inst := true } ks o →
      (c.process = true ∨ o ≠ none ∨ holdEntries ks = false) → MEnds c (.elem py!"ProcessInstance" as ks) o
  | strayInst {c : MxmlPlace} {as : List (Str × Str)} {ks : List MNode} : c.entry = false → c.inst = false → c.process = false →
      MEndsAll { c with inst := true } ks none → holdEntries ks = true → MEnds c (.elem py!"ProcessInstance" as ks) (some .attributeError)
  /-- A process. -/
  | process {c : MxmlPlace} {as : List (Str × Str)} {ks : List MNode} {o : Option PyErr} : c.entry = false → c.inst = false → c.process = false →
      MEndsAll { c with process := true } ks o → MEnds c (.elem py!"Process" as ks) o
/-- The first fault decides. -/
inductive MEndsAll : MxmlPlace → List MNode → Option PyErr → Prop
  | nil {c : MxmlPlace} : MEndsAll c [] none
  | stop {c : MxmlPlace} {x : MNode} {xs : List MNode} {e : PyErr} : MEnds c x (some e) → MEndsAll c (x :: xs) (some e)
  | next {c : MxmlPlace} {x : MNode} {xs : List MNode} {o : Option PyErr} : MEnds c x none → MEndsAll c xs o → MEndsAll c (x :: xs) o
end

/-- The leaves of a document. -/
def mxmlLeaves : List Str := [py!"Attribute", py!"EventType", py!"WorkflowModelElement", py!"Timestamp", py!"Originator"]

mutual
/-- The usual nesting, for level 0 in an entry, 1 in an instance, 2 in a process, 3 elsewhere: no process, instance or entry is in
another of its kind or in something that belongs into it.  Parts may be missing: an entry may stand directly in a process, a name
directly in an instance. -/
inductive MNested : Nat → MNode → Prop
  | leaf {n : Nat} {t : Str} {as : List (Str × Str)} {v : Str} : t ∈ mxmlLeaves → MNested n (.elem t as (saysText v))
  | around {n : Nat} {t : Str} {as : List (Str × Str)} {ks : List MNode} : Harmless t → MNestedAll n ks → MNested n (.elem t as ks)
  | nothing {n : Nat} {t : Str} {as : List (Str × Str)} {v : Str} : Harmless t → MNested n (.elem t as (saysText v))
  | entry {n : Nat} {as : List (Str × Str)} {ks : List MNode} : 1 ≤ n → MNestedAll 0 ks → MNested n (.elem py!"AuditTrailEntry" as ks)
  | inst {n : Nat} {as : List (Str × Str)} {ks : List MNode} : 2 ≤ n → MNestedAll 1 ks → MNested n (.elem py!"ProcessInstance" as ks)
  | process {n : Nat} {as : List (Str × Str)} {ks : List MNode} : 3 ≤ n → MNestedAll 2 ks → MNested n (.elem py!"Process" as ks)
/-- The same for a list. -/
inductive MNestedAll : Nat → List MNode → Prop
  | nil {n : Nat} : MNestedAll n []
  | cons {n : Nat} {x : MNode} {xs : List MNode} : MNested n x → MNestedAll n xs → MNestedAll n (x :: xs)
end

/-- Nothing is open. -/
def MxmlPlace.top : MxmlPlace := ⟨false, false, false⟩

/-! ## Proof -/

section
variable {F : Type} [PyFloat F]

/-- What is known of the handler at a place; `ev` says whether the open instance has an event. -/
structure AtPlace (c : MxmlPlace) (ev : Bool) (st : MxmlSt F) : Prop where
  process : st.process.isSome = c.process
  inst : st.inst.isSome = c.inst
  events : ∀ t, st.inst = some t → decide (0 < t.events.length) = ev
  entry : st.entry.isSome = c.entry
  source : st.sourceOpen = true → st.source.isSome = true
  time : AwareO st.timestamp
  last : AwareO st.lastTimestamp
  buf : Blank st.buffer

/-- The handler run over callbacks from a state. -/
def MxmlDoes (rnd : Nat → Uuid) (c : MxmlPlace) (ev : Bool) (st : MxmlSt F) (s : List MSax) : Option PyErr → Prop
  | some e => mxmlRun rnd st s = .error e
  | none => ∃ st', mxmlRun rnd st s = .ok st' ∧ AtPlace c ev st'

theorem AtPlace.setBuf {c : MxmlPlace} {ev : Bool} {st : MxmlSt F} (h : AtPlace c ev st) {b : List Str} (hb : Blank b) : AtPlace c ev (setBuf b st) :=
  ⟨h.process, h.inst, h.events, h.entry, h.source, h.time, h.last, hb⟩

theorem AtPlace.stopped {c : MxmlPlace} {ev : Bool} {st : MxmlSt F} (h : AtPlace c ev st) : AtPlace c ev { st with buffer := [] } :=
  ⟨h.process, h.inst, h.events, h.entry, h.source, h.time, h.last, blank_nil⟩

/-- Storing a data attribute never fails and opens or closes nothing. -/
theorem route_at {c : MxmlPlace} {ev : Bool} {st : MxmlSt F} (h : AtPlace c ev st) (a : Attr F) : ∃ st', routeAttribute st a = .ok st' ∧ AtPlace c ev st' ∧
    st'.buffer = st.buffer := by
  have hs : ∃ st', routeSource st a = .ok st' ∧ AtPlace c ev st' ∧ st'.buffer = st.buffer := by
    unfold routeSource
    cases hso : st.sourceOpen with
    | false => exact ⟨st, by simp, h, rfl⟩
    | true =>
      obtain ⟨i, hi⟩ := Option.isSome_iff_exists.1 (h.source hso)
      exact ⟨{ st with sources := st.sources.modify i (fun s => withAttrs (dset a.key a s.attrs) s) }, by simp [hi, hso],
        ⟨h.process, h.inst, h.events, h.entry, h.source, h.time, h.last, h.buf⟩, rfl⟩
  have hp : ∃ st', routeProcess st a = .ok st' ∧ AtPlace c ev st' ∧ st'.buffer = st.buffer := by
    unfold routeProcess
    cases hpr : st.process with
    | none => exact hs
    | some p =>
      simp only
      split
      · exact ⟨_, rfl, ⟨by rw [← h.process, hpr]; rfl, h.inst, h.events, h.entry, h.source, h.time, h.last, h.buf⟩, rfl⟩
      · exact hs
  unfold routeAttribute
  cases he : st.entry with
  | some e => exact ⟨_, rfl, ⟨h.process, h.inst, h.events, by rw [← h.entry, he]; rfl, h.source, h.time, h.last, h.buf⟩, rfl⟩
  | none =>
    cases hi : st.inst with
    | none => exact hp
    | some t =>
      simp only
      split
      · exact ⟨_, rfl, ⟨h.process, by rw [← h.inst, hi]; rfl, fun t' ht' => by
          cases ht'; exact h.events t hi, by rw [← h.entry, he], h.source, h.time, h.last, h.buf⟩, rfl⟩
      · exact hp

theorem intoEntry_at {c : MxmlPlace} {ev : Bool} {st : MxmlSt F} (h : AtPlace c ev st) (a : Attr F) :
    (c.entry = true → ∃ st', intoEntry st a = .ok st' ∧ AtPlace c ev st') ∧ (c.entry = false → intoEntry st a = .error .attributeError) := by
  unfold intoEntry
  cases he : st.entry with
  | some e => exact ⟨fun _ => ⟨_, rfl, ⟨h.process, h.inst, h.events, by rw [← h.entry, he]; rfl, h.source, h.time, h.last, h.buf⟩⟩, fun hc => by
      have h' := h.entry
      rw [he, hc] at h'
      exact absurd h' (by simp)⟩
  | none =>
    refine ⟨fun hc => ?_, fun _ => rfl⟩
    have h' := h.entry
    rw [he, hc] at h'
    exact absurd h' (by simp)

theorem entry_at {c : MxmlPlace} {ev : Bool} {st : MxmlSt F} (h : AtPlace c ev st) : (c.entry = true → ∃ e, st.entry = some e) ∧ (c.entry = false → st.entry = none) := by
  refine ⟨fun hc => Option.isSome_iff_exists.1 (by rw [h.entry, hc]), fun hc => ?_⟩
  have := h.entry
  rw [hc] at this
  simpa using this

theorem pyEq_unknown (u : Str) (m : AttrMap F) :
    pyEq (Attr.val (.mk .literal py!"lifecycle:transition" (some lifecycleExt) (.str u) m [])) (.str py!"UNKNOWN") = decide (u = py!"UNKNOWN") := by
  simp only [Attr.val, pyEq]
  rw [Bool.eq_iff_iff]
  simp

/-- The leaves that are read. -/
theorem leaf_ok {rnd : Nat → Uuid} {c : MxmlPlace} {ev : Bool} {st : MxmlSt F} (h : AtPlace c ev st) {t : Str} {as : List (Str × Str)} {v : Str} {s : List MSax}
    (hr : Reads id id (.elem t as (saysText v)) s) {s1 : MxmlSt F} (h1 : mxmlStart rnd st t as = .ok s1) (hb1 : s1.buffer = st.buffer)
    (h2 : ∀ b, strip (join [] b) = strip v → ∃ s2, mxmlStopBody (setBuf b s1) t = .ok s2 ∧ AtPlace c ev { s2 with buffer := [] }) :
    MxmlDoes rnd c ev st s none := by
  obtain ⟨b, h3, h4⟩ := run_leaf hr st h.buf h1 hb1
  obtain ⟨s2, h5, h6⟩ := h2 b h3
  exact ⟨{ s2 with buffer := [] }, by rw [h4, mxmlStop, h5]; rfl, h6⟩

/-- The leaves that are refused. -/
theorem leaf_error {rnd : Nat → Uuid} {c : MxmlPlace} {ev : Bool} {st : MxmlSt F} (h : AtPlace c ev st) {t : Str} {as : List (Str × Str)} {v : Str} {s : List MSax}
    (hr : Reads id id (.elem t as (saysText v)) s) {s1 : MxmlSt F} (h1 : mxmlStart rnd st t as = .ok s1) (hb1 : s1.buffer = st.buffer) {e : PyErr}
    (h2 : ∀ b, strip (join [] b) = strip v → mxmlStopBody (setBuf b s1) t = .error e) :
    MxmlDoes rnd c ev st s (some e) := by
  obtain ⟨b, h3, h4⟩ := run_leaf hr st h.buf h1 hb1
  show mxmlRun rnd st s = _
  rw [h4, mxmlStop, h2 b h3]
  rfl

theorem start_error {rnd : Nat → Uuid} {c : MxmlPlace} {ev : Bool} {st : MxmlSt F} {t : Str} {as : List (Str × Str)} {ks : List MNode} {s : List MSax}
    (hr : Reads id id (.elem t as ks) s) {e : PyErr} (h1 : mxmlStart rnd st t as = .error e) : MxmlDoes rnd c ev st s (some e) := by
  obtain ⟨s', _, hrun⟩ := run_elem (F := F) (rnd := rnd) hr
  show mxmlRun rnd st s = _
  rw [hrun, xa_id, h1]
  rfl

/-- An element with elements in it. -/
theorem elem_does {rnd : Nat → Uuid} {c c' : MxmlPlace} {ev2 ev' : Bool} {st : MxmlSt F} {t : Str} {as : List (Str × Str)} {ks : List MNode}
    {s : List MSax} (hr : Reads id id (.elem t as ks) s) {s1 : MxmlSt F} (h1 : mxmlStart rnd st t as = .ok s1) {o o' : Option PyErr}
    (hk : ∀ {s'}, ReadsAll id id ks s' → MxmlDoes rnd c' ev2 s1 s' o) (he : ∀ e, o = some e → o' = o)
    (hn : o = none → ∀ s2 : MxmlSt F, AtPlace c' ev2 s2 →
      match o' with
      | some e => mxmlStopBody s2 t = .error e
      | none => ∃ s3, mxmlStopBody s2 t = .ok s3 ∧ AtPlace c ev' { s3 with buffer := [] }) : MxmlDoes rnd c ev' st s o' := by
  obtain ⟨s', hs', hrun⟩ := run_elem (F := F) (rnd := rnd) hr
  have hd := hk hs'
  cases o with
  | some e =>
    rw [he e rfl]
    show mxmlRun rnd st s = _
    rw [hrun, xa_id, h1]
    simp only [Except.bind]
    have : mxmlRun rnd s1 s' = .error e := hd
    rw [this]
  | none =>
    obtain ⟨s2, h2, h3⟩ := hd
    have h4 := hn rfl s2 h3
    cases o' with
    | some e =>
      show mxmlRun rnd st s = _
      rw [hrun, xa_id, h1]
      simp only [Except.bind, h2, mxmlStop]
      simp only at h4
      rw [h4]
      rfl
    | none =>
      obtain ⟨s3, h5, h6⟩ := h4
      refine ⟨{ s3 with buffer := [] }, ?_, h6⟩
      rw [hrun, xa_id, h1]
      simp only [Except.bind, h2, mxmlStop, h5]
      rfl

theorem harmless_start (rnd : Nat → Uuid) {t : Str} (ht : Harmless t) {c : MxmlPlace} {ev : Bool} {st : MxmlSt F} (h : AtPlace c ev st) (as : List (Str × Str)) :
    (∃ s1, mxmlStart rnd st t as = .ok s1 ∧ s1.buffer = st.buffer ∧ AtPlace c ev s1) ∧ ∀ s2 : MxmlSt F, mxmlStopBody s2 t = .ok s2 := by
  rcases ht with ht | rfl | rfl
  · refine ⟨⟨st, (unknown_tag rnd ht st).1 as, rfl, h⟩, fun s2 => ?_⟩
    simp only [mxmlTags, List.mem_cons, List.not_mem_nil, or_false, not_or] at ht
    obtain ⟨h1, h2, h3, h4, h5, h6, h7, h8, h9, h10⟩ := ht
    simp only [mxmlStopBody, h1, h3, h4, h5, h6, h7, h8, h9, h10, if_false]
  · exact ⟨⟨st, by simp [mxmlStart], rfl, h⟩, fun s2 => by simp [mxmlStopBody]⟩
  · exact ⟨⟨startSource st as, by simp [mxmlStart], rfl, ⟨h.process, h.inst, h.events, h.entry, fun _ => rfl, h.time, h.last, h.buf⟩⟩,
      fun s2 => by simp [mxmlStopBody]⟩

theorem noType_spec (as : List (Str × Str)) : ∃ u : Str, (∀ st : MxmlSt F, startEventType st as =
    { st with eventType := some (.mk .literal py!"lifecycle:transition" (some lifecycleExt) (.str u) (addRef as []) []) }) ∧ (u = py!"UNKNOWN" ↔ NoType as) := by
  refine ⟨_, fun st => rfl, ?_⟩
  rw [dget_lookup]
  unfold NoType
  cases as.lookup py!"unknowntype" with
  | none => simp
  | some u =>
    by_cases hu : u = []
    · simp [hu]
    · simp [hu]

theorem modelRef_none (as : List (Str × Str)) : modelRef as = none ↔ NoRef as := by
  unfold modelRef NoRef
  rw [dget_lookup]
  cases as.lookup py!"modelReference" with
  | none => simp
  | some u => by_cases hu : u = [] <;> simp [hu]

theorem appendEntry_at {c : MxmlPlace} {ev : Bool} {st : MxmlSt F} (h : AtPlace c ev st) (he : c.entry = true) (lts : Option DateTime) (hl : AwareO lts) :
    (c.inst = true → ∃ st', appendEntry st = .ok st' ∧ AtPlace { c with entry := false } true { st' with entry := none, lastTimestamp := lts, buffer := [] } ∧
      AtPlace { c with entry := false } true { st' with entry := none, buffer := [] }) ∧
    (c.inst = false → appendEntry st = .error .attributeError) := by
  obtain ⟨e, hst⟩ := (entry_at h).1 he
  unfold appendEntry
  rw [hst]
  cases hi : st.inst with
  | none =>
    refine ⟨fun hc => ?_, fun _ => rfl⟩
    have h' := h.inst
    rw [hi, hc] at h'
    exact absurd h' (by simp)
  | some t =>
    have h' := h.inst
    rw [hi] at h'
    refine ⟨fun hc => ⟨_, rfl, ?_, ?_⟩, fun hc => ?_⟩
    · exact ⟨h.process, h', fun t' ht' => by cases ht'; simp, rfl, h.source, h.time, hl, blank_nil⟩
    · exact ⟨h.process, h', fun t' ht' => by cases ht'; simp, rfl, h.source, h.time, h.last, blank_nil⟩
    · rw [hc] at h'
      exact absurd h' (by simp)

theorem stopEntry_at {c : MxmlPlace} {ev : Bool} {st : MxmlSt F} (h : AtPlace c ev st) (he : c.entry = true) :
    (c.inst = true → ∃ st', stopEntry st = .ok st' ∧ AtPlace { c with entry := false } true { st' with buffer := [] }) ∧
    (c.inst = false → stopEntry st = .error .attributeError) := by
  have key := fun lts hl => appendEntry_at h he lts hl
  unfold stopEntry
  cases ht : st.timestamp with
  | none =>
    refine ⟨fun hc => ?_, fun hc => ?_⟩
    · obtain ⟨s, h1, _, h3⟩ := (key none aware_none).1 hc
      exact ⟨_, by simp only [h1]; rfl, h3⟩
    · simp only [(key none aware_none).2 hc]; rfl
  | some d =>
    have hd : AwareO (some d) := ht ▸ h.time
    cases hl : st.lastTimestamp with
    | none =>
      refine ⟨fun hc => ?_, fun hc => ?_⟩
      · obtain ⟨s, h1, h2, h3⟩ := (key (some d) hd).1 hc
        exact ⟨_, by simp only [h1]; rfl, h2⟩
      · simp only [(key none aware_none).2 hc]; rfl
    | some l =>
      have hl' : AwareO (some l) := hl ▸ h.last
      obtain ⟨g, hg⟩ := aware_lt (hl' l rfl) (hd d rfl)
      refine ⟨fun hc => ?_, fun hc => ?_⟩
      · obtain ⟨s, h1, h2, h3⟩ := (key (some d) hd).1 hc
        cases g with
        | true => exact ⟨_, by simp only [hg, h1]; rfl, h2⟩
        | false => exact ⟨_, by simp only [hg, h1]; rfl, h3⟩
      · simp only [hg, (key none aware_none).2 hc]; rfl

mutual
theorem mends_does (rnd : Nat → Uuid) : ∀ {c : MxmlPlace} {x : MNode} {o : Option PyErr}, MEnds c x o → ∀ {s : List MSax}, Reads id id x s →
    ∀ (ev : Bool) (st : MxmlSt F), AtPlace c ev st → MxmlDoes rnd c (ev || holdsEntry x) st s o
  | c, _, _, .attribute (as := as) (n := n) (v := v) hn, s, hr, ev, st, h => by
    have h1 : mxmlStart rnd st py!"Attribute" as = .ok { st with generic := some (literalOf (strip n) (.str py!"DEFAULT_VALUE") (addRef as [])) } := by
      have : mxmlStart rnd st py!"Attribute" as = startAttribute st as := by simp [mxmlStart]
      rw [this]
      simp only [startAttribute, dget_lookup, hn]
    have ee : (ev || holdsEntry (.elem py!"Attribute" as (saysText v))) = ev := by
      simp only [holdsEntry, saysText]; split <;> simp [holdEntries, holdsEntry]
    rw [ee]
    refine leaf_ok h hr h1 rfl fun b hb => ?_
    have e : mxmlStopBody (setBuf b { st with generic := some (literalOf (strip n) (.str py!"DEFAULT_VALUE") (addRef as [])) }) py!"Attribute" =
      stopAttribute (setBuf b { st with generic := some (literalOf (strip n) (.str py!"DEFAULT_VALUE") (addRef as [])) }) := by simp [mxmlStopBody]
    rw [e]
    simp only [stopAttribute, bufText_setBuf, hb]
    by_cases hv : strip v = []
    · simp only [hv, List.length_nil, Nat.lt_irrefl, if_false]
      exact ⟨_, rfl, ⟨h.process, h.inst, h.events, h.entry, h.source, h.time, h.last, blank_nil⟩⟩
    · simp only [List.length_pos_iff.2 hv, if_true]
      obtain ⟨s2, h5, h6, _⟩ := route_at h (withVal (.str (strip v)) (literalOf (strip n) (.str py!"DEFAULT_VALUE") (addRef as [])))
      have eg := route_gen st (withVal (.str (strip v)) (literalOf (strip n) (.str py!"DEFAULT_VALUE") (addRef as [])))
        (some (literalOf (strip n) (.str py!"DEFAULT_VALUE") (addRef as []))) b
      rw [h5] at eg
      refine ⟨{ setGen (some (literalOf (strip n) (.str py!"DEFAULT_VALUE") (addRef as []))) b s2 with generic := none }, ?_,
        ⟨h6.process, h6.inst, h6.events, h6.entry, h6.source, h6.time, h6.last, blank_nil⟩⟩
      change (Except.bind (routeAttribute (setGen _ b st) _) _) = _
      rw [eg]
      rfl
  | c, _, _, .nameless (as := as) hn, s, hr, ev, st, h => by
    refine start_error hr ?_
    have : mxmlStart rnd st py!"Attribute" as = startAttribute st as := by simp [mxmlStart]
    rw [this]
    simp only [startAttribute, dget_lookup, hn]
  | c, _, _, .type (as := as) (v := v) hc, s, hr, ev, st, h => by
    obtain ⟨u, hu, hn⟩ := noType_spec (F := F) as
    have h1 : mxmlStart rnd st py!"EventType" as = .ok (startEventType st as) := by simp [mxmlStart]
    have ee : (ev || holdsEntry (.elem py!"EventType" as (saysText v))) = ev := by
      simp only [holdsEntry, saysText]; split <;> simp [holdEntries, holdsEntry]
    rw [ee]
    rw [hu] at h1
    refine leaf_ok h hr h1 rfl fun b hb => ?_
    have e : ∀ s' : MxmlSt F, mxmlStopBody s' py!"EventType" = stopEventType s' := by intro s'; simp [mxmlStopBody]
    rw [e]
    unfold stopEventType
    rw [bufText_setBuf, hb]
    simp only [setBuf, pyEq_unknown]
    rcases hc with he | ⟨hv, hno⟩
    · obtain ⟨x, hx⟩ := (entry_at h).1 he
      have done : ∀ m : AttrMap F, AtPlace c ev { st with entry := some ⟨x.id, m⟩, eventType := none, buffer := [] } :=
        fun m => ⟨h.process, h.inst, h.events, by simp [he], h.source, h.time, h.last, blank_nil⟩
      simp only [intoEntry, hx]
      by_cases h2 : u = py!"UNKNOWN"
      · by_cases hv : strip v = []
        · simp only [h2, hv, decide_true, if_true, List.length_nil, Nat.lt_irrefl, if_false]
          exact ⟨_, rfl, done x.attrs⟩
        · simp only [h2, List.length_pos_iff.2 hv, decide_true, if_true]
          exact ⟨_, rfl, done _⟩
      · simp only [h2, decide_false, Bool.false_eq_true, if_false]
        exact ⟨_, rfl, done _⟩
    · simp only [hn.2 hno, hv, decide_true, if_true, List.length_nil, Nat.lt_irrefl, if_false]
      exact ⟨_, rfl, ⟨h.process, h.inst, h.events, h.entry, h.source, h.time, h.last, blank_nil⟩⟩
  | c, _, _, .strayType (as := as) (v := v) he hc, s, hr, ev, st, h => by
    obtain ⟨u, hu, hn⟩ := noType_spec (F := F) as
    have h1 : mxmlStart rnd st py!"EventType" as = .ok (startEventType st as) := by simp [mxmlStart]
    rw [hu] at h1
    refine leaf_error h hr h1 rfl fun b hb => ?_
    have e : ∀ s' : MxmlSt F, mxmlStopBody s' py!"EventType" = stopEventType s' := by intro s'; simp [mxmlStopBody]
    rw [e]
    unfold stopEventType
    rw [bufText_setBuf, hb]
    simp only [setBuf, pyEq_unknown, intoEntry, (entry_at h).2 he]
    by_cases h2 : u = py!"UNKNOWN"
    · have hv := hc.resolve_right (fun hh => hh (hn.1 h2))
      simp only [h2, List.length_pos_iff.2 hv, decide_true, if_true]
      rfl
    · simp only [h2, decide_false, Bool.false_eq_true, if_false]
      rfl
  | c, _, _, .name (as := as) (v := v) hc, s, hr, ev, st, h => by
    have ee : (ev || holdsEntry (.elem py!"WorkflowModelElement" as (saysText v))) = ev := by
      simp only [holdsEntry, saysText]; split <;> simp [holdEntries, holdsEntry]
    rw [ee]
    have es : mxmlStart rnd st py!"WorkflowModelElement" as = startElementName st as := by simp [mxmlStart]
    have e : ∀ s' : MxmlSt F, mxmlStopBody s' py!"WorkflowModelElement" = stopElementName s' := by intro s'; simp [mxmlStopBody]
    have hgv : given (some (strip v)) = true ↔ strip v ≠ [] := by simp [given, strip_strip, List.length_pos_iff]
    rcases hc with he | ⟨hv, hno⟩
    · obtain ⟨x, hx⟩ := (entry_at h).1 he
      have h1 : mxmlStart rnd st py!"WorkflowModelElement" as = .ok { st with entry := some { x with attrs := addRef as x.attrs } } := by
        rw [es]
        unfold startElementName addRef
        cases modelRef as with
        | none => simp only; rw [← hx]
        | some r => simp only [hx]
      refine leaf_ok h hr h1 rfl fun b hb => ?_
      rw [e]
      unfold stopElementName
      rw [bufText_setBuf, hb]
      split
      · exact ⟨_, rfl, ⟨h.process, h.inst, h.events, by simp [he], h.source, h.time, h.last, blank_nil⟩⟩
      · exact ⟨_, rfl, ⟨h.process, h.inst, h.events, by simp [setBuf, he], h.source, h.time, h.last, blank_nil⟩⟩
    · have h1 : mxmlStart rnd st py!"WorkflowModelElement" as = .ok st := by
        rw [es, startElementName, (modelRef_none as).2 hno]
      refine leaf_ok h hr h1 rfl fun b hb => ?_
      rw [e]
      unfold stopElementName
      rw [bufText_setBuf, hb, if_neg (fun hg => hgv.1 hg hv)]
      exact ⟨_, rfl, h.stopped⟩
  | c, _, _, .strayName (as := as) (v := v) he hv, s, hr, ev, st, h => by
    have es : mxmlStart rnd st py!"WorkflowModelElement" as = startElementName st as := by simp [mxmlStart]
    have e : ∀ s' : MxmlSt F, mxmlStopBody s' py!"WorkflowModelElement" = stopElementName s' := by intro s'; simp [mxmlStopBody]
    have hgv : given (some (strip v)) = true := by simp [given, strip_strip, List.length_pos_iff, hv]
    cases hm : modelRef as with
    | some r =>
      refine start_error hr ?_
      rw [es, startElementName, hm]
      simp only [(entry_at h).2 he]
    | none =>
      have h1 : mxmlStart rnd st py!"WorkflowModelElement" as = .ok st := by rw [es, startElementName, hm]
      refine leaf_error h hr h1 rfl fun b hb => ?_
      rw [e]
      unfold stopElementName
      rw [bufText_setBuf, hb, if_pos hgv]
      simp only [setBuf, (entry_at h).2 he]
  | c, _, _, .strayRef (as := as) he hc, s, hr, ev, st, h => by
    refine start_error hr ?_
    have : mxmlStart rnd st py!"WorkflowModelElement" as = startElementName st as := by simp [mxmlStart]
    rw [this, startElementName]
    cases hm : modelRef as with
    | none => exact absurd ((modelRef_none as).1 hm) hc
    | some r => simp only [(entry_at h).2 he]
  | c, _, _, .originator (as := as) (v := v) he, s, hr, ev, st, h => by
    have ee : (ev || holdsEntry (.elem py!"Originator" as (saysText v))) = ev := by
      simp only [holdsEntry, saysText]; split <;> simp [holdEntries, holdsEntry]
    rw [ee]
    have h1 : mxmlStart rnd st py!"Originator" as = .ok (startOriginator st as) := by simp [mxmlStart]
    refine leaf_ok h hr h1 rfl fun b hb => ?_
    have e : ∀ s' : MxmlSt F, mxmlStopBody s' py!"Originator" = stopOriginator s' := by intro s'; simp [mxmlStopBody]
    obtain ⟨x, hx⟩ := (entry_at h).1 he
    rw [e]
    simp only [stopOriginator, startOriginator, setBuf, intoEntry, hx]
    exact ⟨_, rfl, ⟨h.process, h.inst, h.events, by simp [he], h.source, h.time, h.last, blank_nil⟩⟩
  | c, _, _, .strayOriginator (as := as) (v := v) he, s, hr, ev, st, h => by
    have h1 : mxmlStart rnd st py!"Originator" as = .ok (startOriginator st as) := by simp [mxmlStart]
    refine leaf_error h hr h1 rfl fun b hb => ?_
    have e : ∀ s' : MxmlSt F, mxmlStopBody s' py!"Originator" = stopOriginator s' := by intro s'; simp [mxmlStopBody]
    rw [e]
    simp only [stopOriginator, startOriginator, setBuf, intoEntry, (entry_at h).2 he]
    rfl
  | c, _, _, .time (as := as) (v := v) (d := d) he hd, s, hr, ev, st, h => by
    have h1 : mxmlStart rnd st py!"Timestamp" as = .ok st := by simp [mxmlStart]
    have ee : (ev || holdsEntry (.elem py!"Timestamp" as (saysText v))) = ev := by
      simp only [holdsEntry, saysText]; split <;> simp [holdEntries, holdsEntry]
    rw [ee]
    refine leaf_ok h hr h1 rfl fun b hb => ?_
    have e : ∀ s' : MxmlSt F, mxmlStopBody s' py!"Timestamp" = stopTimestamp s' := by intro s'; simp [mxmlStopBody]
    obtain ⟨x, hx⟩ := (entry_at h).1 he
    rw [e, stopTimestamp, bufText_setBuf, hb, c124_exact.2 hd]
    simp only [bind, Except.bind, intoEntry, setBuf, hx]
    exact ⟨_, rfl, ⟨h.process, h.inst, h.events, by simp [he], h.source, fun d' hd' => by
      cases hd'; exact (c06_result_good (c124_exact.2 hd)).2, h.last, blank_nil⟩⟩
  | c, _, _, .noTime (as := as) (v := v) hd hz, s, hr, ev, st, h => by
    have h1 : mxmlStart rnd st py!"Timestamp" as = .ok st := by simp [mxmlStart]
    have ee : (ev || holdsEntry (.elem py!"Timestamp" as (saysText v))) = ev := by
      simp only [holdsEntry, saysText]; split <;> simp [holdEntries, holdsEntry]
    rw [ee]
    refine leaf_ok h hr h1 rfl fun b hb => ?_
    have e : ∀ s' : MxmlSt F, mxmlStopBody s' py!"Timestamp" = stopTimestamp s' := by intro s'; simp [mxmlStopBody]
    rw [e, stopTimestamp, bufText_setBuf, hb, c124_none.2 ⟨hd, hz⟩]
    exact ⟨_, rfl, ⟨h.process, h.inst, h.events, h.entry, h.source, aware_none, h.last, blank_nil⟩⟩
  | c, _, _, .strayTime (as := as) (v := v) (d := d) he hd, s, hr, ev, st, h => by
    have h1 : mxmlStart rnd st py!"Timestamp" as = .ok st := by simp [mxmlStart]
    refine leaf_error h hr h1 rfl fun b hb => ?_
    have e : ∀ s' : MxmlSt F, mxmlStopBody s' py!"Timestamp" = stopTimestamp s' := by intro s'; simp [mxmlStopBody]
    rw [e, stopTimestamp, bufText_setBuf, hb, c124_exact.2 hd]
    simp only [bind, Except.bind, intoEntry, setBuf, (entry_at h).2 he]
  | c, _, _, .hugeZone (as := as) (v := v) hz, s, hr, ev, st, h => by
    have h1 : mxmlStart rnd st py!"Timestamp" as = .ok st := by simp [mxmlStart]
    refine leaf_error h hr h1 rfl fun b hb => ?_
    have e : ∀ s' : MxmlSt F, mxmlStopBody s' py!"Timestamp" = stopTimestamp s' := by intro s'; simp [mxmlStopBody]
    rw [e, stopTimestamp, bufText_setBuf, hb, c05_exact.2 ⟨rfl, hz⟩]
    rfl
  | c, _, o, .around (t := t) (as := as) (ks := ks) ht hk, s, hr, ev, st, h => by
    obtain ⟨⟨s1, h1, h2, h3⟩, h4⟩ := harmless_start rnd ht h as
    have hne : t ≠ py!"AuditTrailEntry" := by
      rcases ht with ht | rfl | rfl
      · rintro rfl; exact ht (by decide)
      · decide
      · decide
    have ee : holdsEntry (.elem t as ks) = holdEntries ks := by simp [holdsEntry, hne]
    rw [ee]
    refine elem_does (o := o) hr h1 (fun hs => mendsAll_does rnd hk hs ev s1 h3) (fun _ _ => rfl) (fun ho s2 h5 => ?_)
    subst ho
    exact ⟨s2, h4 s2, h5.stopped⟩
  | c, _, _, .nothing (t := t) (as := as) (v := v) ht, s, hr, ev, st, h => by
    obtain ⟨⟨s1, h1, h2, h3⟩, h4⟩ := harmless_start rnd ht h as
    have hne : t ≠ py!"AuditTrailEntry" := by
      rcases ht with ht | rfl | rfl
      · rintro rfl; exact ht (by decide)
      · decide
      · decide
    have ee : (ev || holdsEntry (.elem t as (saysText v))) = ev := by
      simp only [holdsEntry, saysText]; split <;> simp [holdEntries, holdsEntry, hne]
    rw [ee]
    exact leaf_ok h hr h1 h2 fun b hb => ⟨_, h4 _, ⟨h3.process, h3.inst, h3.events, h3.entry, h3.source, h3.time, h3.last, blank_nil⟩⟩
  | c, _, o, .entry (as := as) (ks := ks) he hk hi, s, hr, ev, st, h => by
    have h1 : mxmlStart rnd st py!"AuditTrailEntry" as = .ok (startEntry rnd st) := by simp [mxmlStart]
    have h3 : AtPlace { c with entry := true } ev (startEntry rnd st) := ⟨h.process, h.inst, h.events, rfl, h.source, h.time, h.last, h.buf⟩
    have hsb : ∀ st' : MxmlSt F, mxmlStopBody st' py!"AuditTrailEntry" = stopEntry st' := by intro st'; simp [mxmlStopBody]
    have ee : (ev || holdsEntry (.elem py!"AuditTrailEntry" as ks)) = true := by simp [holdsEntry]
    have ec : { c with entry := false } = c := by cases c; simp only at he; subst he; rfl
    rw [ee]
    refine elem_does (o := o) hr h1 (fun hs => mendsAll_does rnd hk hs ev _ h3) (fun _ _ => rfl) (fun ho s2 h5 => ?_)
    subst ho
    rw [hsb]
    have := (stopEntry_at h5 rfl).1 (hi.resolve_right (by simp))
    simp only at this
    rwa [ec] at this
  | c, _, _, .strayEntry (as := as) (ks := ks) he hi hk, s, hr, ev, st, h => by
    have h1 : mxmlStart rnd st py!"AuditTrailEntry" as = .ok (startEntry rnd st) := by simp [mxmlStart]
    have h3 : AtPlace { c with entry := true } ev (startEntry rnd st) := ⟨h.process, h.inst, h.events, rfl, h.source, h.time, h.last, h.buf⟩
    have hsb : ∀ st' : MxmlSt F, mxmlStopBody st' py!"AuditTrailEntry" = stopEntry st' := by intro st'; simp [mxmlStopBody]
    refine elem_does (o := none) (o' := some .attributeError) hr h1 (fun hs => mendsAll_does rnd hk hs ev _ h3) (fun _ h' => by cases h') (fun _ s2 h5 => ?_)
    simp only
    rw [hsb]
    exact (stopEntry_at h5 rfl).2 hi
  | c, _, o, .inst (as := as) (ks := ks) he hi hk hp, s, hr, ev, st, h => by
    have h1 : mxmlStart rnd st py!"ProcessInstance" as = .ok (startInstance st as) := by simp [mxmlStart]
    have h3 : AtPlace { c with inst := true } false (startInstance st as) := ⟨h.process, rfl, fun t ht => by cases ht; rfl, h.entry, h.source, h.time, h.last, h.buf⟩
    have hsb : ∀ st' : MxmlSt F, mxmlStopBody st' py!"ProcessInstance" = stopInstance st' := by intro st'; simp [mxmlStopBody]
    refine elem_does (o := o) hr h1 (fun hs => mendsAll_does rnd hk hs false _ h3) (fun _ _ => rfl) (fun ho s2 h5 => ?_)
    subst ho
    rw [hsb]
    obtain ⟨t, ht⟩ := Option.isSome_iff_exists.1 h5.inst
    unfold stopInstance
    rw [ht]
    simp only
    split
    · next hlen =>
      have hev := h5.events t ht
      simp only [hlen, decide_true, Bool.false_or] at hev
      have hpr : c.process = true := by
        rcases hp with hp | hp | hp
        · exact hp
        · exact absurd rfl hp
        · rw [hp] at hev; cases hev
      obtain ⟨p, hpp⟩ := Option.isSome_iff_exists.1 (h5.process.trans hpr)
      rw [hpp]
      exact ⟨_, rfl, ⟨by simp [hpr], by simp [hi], (fun _ h' => by cases h'), h5.entry, h5.source, h5.time, aware_none, blank_nil⟩⟩
    · exact ⟨_, rfl, ⟨h5.process, by simp [hi], (fun _ h' => by cases h'), h5.entry, h5.source, h5.time, aware_none, blank_nil⟩⟩
  | c, _, _, .strayInst (as := as) (ks := ks) he hi hp hk hh, s, hr, ev, st, h => by
    have h1 : mxmlStart rnd st py!"ProcessInstance" as = .ok (startInstance st as) := by simp [mxmlStart]
    have h3 : AtPlace { c with inst := true } false (startInstance st as) := ⟨h.process, rfl, fun t ht => by cases ht; rfl, h.entry, h.source, h.time, h.last, h.buf⟩
    have hsb : ∀ st' : MxmlSt F, mxmlStopBody st' py!"ProcessInstance" = stopInstance st' := by intro st'; simp [mxmlStopBody]
    refine elem_does (o := none) (o' := some .attributeError) hr h1 (fun hs => mendsAll_does rnd hk hs false _ h3) (fun _ h' => by cases h') (fun _ s2 h5 => ?_)
    simp only
    rw [hsb]
    obtain ⟨t, ht⟩ := Option.isSome_iff_exists.1 h5.inst
    have hev := h5.events t ht
    rw [hh] at hev
    have hlen : 0 < t.events.length := by simpa using hev
    have hpn : s2.process = none := by have := h5.process; rw [show ({ c with inst := true } : MxmlPlace).process = c.process from rfl, hp] at this; simpa using this
    unfold stopInstance
    simp only [ht, hlen, if_true, hpn]
  | c, _, o, .process (as := as) (ks := ks) he hi hp hk, s, hr, ev, st, h => by
    have h1 : mxmlStart rnd st py!"Process" as = .ok (startProcess st as) := by simp [mxmlStart]
    have h3 : AtPlace { c with process := true } ev (startProcess st as) := ⟨rfl, h.inst, h.events, h.entry, h.source, h.time, h.last, h.buf⟩
    have hsb : ∀ st' : MxmlSt F, mxmlStopBody st' py!"Process" = stopProcess st' := by intro st'; simp [mxmlStopBody]
    refine elem_does (o := o) hr h1 (fun hs => mendsAll_does rnd hk hs ev _ h3) (fun _ _ => rfl) (fun ho s2 h5 => ?_)
    subst ho
    rw [hsb]
    obtain ⟨p, hpp⟩ := Option.isSome_iff_exists.1 h5.process
    unfold stopProcess
    rw [hpp]
    refine ⟨_, rfl, ⟨by simp [hp], h5.inst, fun t ht => ?_, h5.entry, h5.source, h5.time, h5.last, blank_nil⟩⟩
    have := h5.inst
    rw [show s2.inst = some t from ht, show ({ c with process := true } : MxmlPlace).inst = c.inst from rfl, hi] at this
    cases this
theorem mendsAll_does (rnd : Nat → Uuid) : ∀ {c : MxmlPlace} {xs : List MNode} {o : Option PyErr}, MEndsAll c xs o → ∀ {s : List MSax}, ReadsAll id id xs s →
    ∀ (ev : Bool) (st : MxmlSt F), AtPlace c ev st → MxmlDoes rnd c (ev || holdEntries xs) st s o
  | _, _, _, .nil, s, hr, ev, st, h => by
    cases hr with
    | nil hg =>
      obtain ⟨b, h1, h2⟩ := run_gap rnd _ hg st
      exact ⟨_, h1, by simpa [holdEntries] using h.setBuf (blank_append h.buf h2)⟩
  | _, _, _, .stop hx, s, hr, ev, st, h => by
    cases hr with
    | cons hg hn hns =>
      obtain ⟨b, h1, h2⟩ := run_gap rnd _ hg st
      have h3 := mends_does rnd hx hn ev _ (h.setBuf (blank_append h.buf h2))
      show mxmlRun rnd st _ = _
      rw [mxmlRun_append, h1]
      simp only [Except.bind]
      rw [mxmlRun_append]
      simp only [MxmlDoes] at h3
      rw [h3]
      rfl
  | _, _, o, .next hx hxs, s, hr, ev, st, h => by
    cases hr with
    | @cons g sx _ _ _ hg hn hns =>
      obtain ⟨b, h1, h2⟩ := run_gap rnd _ hg st
      obtain ⟨s1, h3, h4⟩ := mends_does rnd hx hn ev _ (h.setBuf (blank_append h.buf h2))
      have h5 := mendsAll_does rnd hxs hns _ s1 h4
      have e : ∀ s', mxmlRun rnd st (g ++ (sx ++ s')) = mxmlRun rnd s1 s' := by
        intro s'
        rw [mxmlRun_append, h1]
        simp only [Except.bind]
        rw [mxmlRun_append, h3]
        rfl
      rw [Bool.or_assoc] at h5
      cases o with
      | some e' => exact (e _).trans h5
      | none =>
        obtain ⟨s2, h6, h7⟩ := h5
        exact ⟨s2, (e _).trans h6, h7⟩
end

theorem init_at : AtPlace .top false (MxmlSt.init F) :=
  ⟨rfl, rfl, (fun _ h => by cases h), rfl, (fun h => by cases h), aware_none, aware_none, blank_nil⟩

/-- C154: a document without faults is loaded; at a fault the parser raises the exception that belongs to it, whatever follows. -/
theorem c154_document (rnd : Nat → Uuid) {x : MNode} {o : Option PyErr} (h : MEnds .top x o) {s : List MSax} (hr : Reads id id x s) :
    match o with
    | none => ∃ logs : List (Log F), mxmlParse rnd s = .ok logs
    | some e => mxmlParse (F := F) rnd s = .error e := by
  have h1 := mends_does rnd h hr false (MxmlSt.init F) init_at
  unfold mxmlParse
  cases o with
  | none =>
    obtain ⟨st, h2, _⟩ := h1
    exact ⟨_, by rw [h2]; rfl⟩
  | some e =>
    have h2 : mxmlRun rnd (MxmlSt.init F) s = .error e := h1
    simp only [h2]
    rfl

/-- C154 for the text of a file. -/
theorem c154_text (rnd : Nat → Uuid) {text : Str} {es : List MSax} {x : MNode} {o : Option PyErr} (ht : readXml text = .ok es) (he : Reads id id x es)
    (h : MEnds .top x o) :
    match o with
    | none => ∃ logs : List (Log F), loadMxml rnd text = .ok logs
    | some e => loadMxml (F := F) rnd text = .error e := by
  have h1 := c154_document (F := F) rnd h he
  cases o with
  | none =>
    obtain ⟨logs, h2⟩ := h1
    exact ⟨logs, by simp only [loadMxml, ht, bind, Except.bind, h2]⟩
  | some e => simp only [loadMxml, ht, bind, Except.bind, h1]

end

mutual
theorem nested_ends : ∀ {n : Nat} {x : MNode}, MNested n x → ∀ (c : MxmlPlace), (1 ≤ n → c.entry = false) → (2 ≤ n → c.inst = false) → (3 ≤ n → c.process = false) →
    ∃ o, MEnds c x o ∧ (o = none ∨ o = some .attributeError ∨ o = some .overflowError)
  | n, _, .leaf (t := t) (as := as) (v := v) ht, c, h1, h2, h3 => by
    simp only [mxmlLeaves, List.mem_cons, List.not_mem_nil, or_false] at ht
    rcases ht with rfl | rfl | rfl | rfl | rfl
    · cases hn : as.lookup py!"name" with
      | none => exact ⟨_, .nameless hn, .inr (.inl rfl)⟩
      | some m => exact ⟨_, .attribute hn, .inl rfl⟩
    · cases he : c.entry with
      | true => exact ⟨_, .type (.inl he), .inl rfl⟩
      | false =>
        by_cases hc : strip v = [] ∧ NoType as
        · exact ⟨_, .type (.inr hc), .inl rfl⟩
        · exact ⟨_, .strayType he ((Decidable.em (strip v = [])).elim (fun hv => .inr fun hn => hc ⟨hv, hn⟩) .inl), .inr (.inl rfl)⟩
    · cases he : c.entry with
      | true => exact ⟨_, .name (.inl he), .inl rfl⟩
      | false =>
        by_cases hv : strip v = []
        · by_cases hn : NoRef as
          · exact ⟨_, .name (.inr ⟨hv, hn⟩), .inl rfl⟩
          · exact ⟨_, .strayRef he hn, .inr (.inl rfl)⟩
        · exact ⟨_, .strayName he hv, .inr (.inl rfl)⟩
    · cases hp : parseDateTime (strip v) with
      | error e => exact ⟨_, .hugeZone (c05_exact.1 hp).2, .inr (.inr rfl)⟩
      | ok r =>
        cases r with
        | none => exact ⟨_, .noTime (c124_none.1 hp).1 (c124_none.1 hp).2, .inl rfl⟩
        | some d =>
          cases he : c.entry with
          | true => exact ⟨_, .time he (c124_exact.1 hp), .inl rfl⟩
          | false => exact ⟨_, .strayTime he (c124_exact.1 hp), .inr (.inl rfl)⟩
    · cases he : c.entry with
      | true => exact ⟨_, .originator he, .inl rfl⟩
      | false => exact ⟨_, .strayOriginator he, .inr (.inl rfl)⟩
  | _, _, .around ht hk, c, h1, h2, h3 => by
    obtain ⟨o, ho, hw⟩ := nestedAll_ends hk c h1 h2 h3
    exact ⟨o, .around ht ho, hw⟩
  | _, _, .nothing ht, c, h1, h2, h3 => ⟨_, .nothing ht, .inl rfl⟩
  | _, _, .entry hn hk, c, h1, h2, h3 => by
    obtain ⟨o, ho, hw⟩ := nestedAll_ends hk { c with entry := true } (fun h => absurd h (by omega)) (fun h => absurd h (by omega)) (fun h => absurd h (by omega))
    cases hi : c.inst with
    | true => exact ⟨o, .entry (h1 hn) ho (.inl hi), hw⟩
    | false =>
      cases o with
      | none => exact ⟨_, .strayEntry (h1 hn) hi ho, .inr (.inl rfl)⟩
      | some e => exact ⟨_, .entry (h1 hn) ho (.inr (by simp)), hw⟩
  | _, _, .inst (ks := ks) hn hk, c, h1, h2, h3 => by
    obtain ⟨o, ho, hw⟩ := nestedAll_ends hk { c with inst := true } (fun h => h1 (by omega)) (fun h => absurd h (by omega)) (fun h => absurd h (by omega))
    have he := h1 (by omega)
    have hi := h2 hn
    cases o with
    | some e => exact ⟨_, .inst he hi ho (.inr (.inl (by simp))), hw⟩
    | none =>
      cases hh : holdEntries ks with
      | false => exact ⟨_, .inst he hi ho (.inr (.inr hh)), hw⟩
      | true =>
        cases hp : c.process with
        | true => exact ⟨_, .inst he hi ho (.inl hp), hw⟩
        | false => exact ⟨_, .strayInst he hi hp ho hh, .inr (.inl rfl)⟩
  | _, _, .process hn hk, c, h1, h2, h3 => by
    obtain ⟨o, ho, hw⟩ := nestedAll_ends hk { c with process := true } (fun h => h1 (by omega)) (fun h => h2 (by omega)) (fun h => absurd h (by omega))
    exact ⟨o, .process (h1 (by omega)) (h2 (by omega)) (h3 hn) ho, hw⟩
theorem nestedAll_ends : ∀ {n : Nat} {xs : List MNode}, MNestedAll n xs → ∀ (c : MxmlPlace), (1 ≤ n → c.entry = false) → (2 ≤ n → c.inst = false) →
    (3 ≤ n → c.process = false) → ∃ o, MEndsAll c xs o ∧ (o = none ∨ o = some .attributeError ∨ o = some .overflowError)
  | _, _, .nil, c, _, _, _ => ⟨none, .nil, .inl rfl⟩
  | _, _, .cons hx hxs, c, h1, h2, h3 => by
    obtain ⟨o, ho, hw⟩ := nested_ends hx c h1 h2 h3
    cases o with
    | some e => exact ⟨_, .stop ho, hw⟩
    | none =>
      obtain ⟨o', ho', hw'⟩ := nestedAll_ends hxs c h1 h2 h3
      exact ⟨o', .next ho ho', hw'⟩
end

/-- C154: for the usual nesting the spec says what happens, ... -/
theorem c154_all {x : MNode} (h : MNested 3 x) : ∃ o, MEnds .top x o ∧ (o = none ∨ o = some .attributeError ∨ o = some .overflowError) :=
  nested_ends h .top (fun _ => rfl) (fun _ => rfl) (fun _ => rfl)

section
variable {F : Type} [PyFloat F]

/-- ... and only one thing happens, so that a document is loaded exactly if there is no fault in it. -/
theorem c154_exact (rnd : Nat → Uuid) {x : MNode} (h : MNested 3 x) {s : List MSax} (hr : Reads id id x s) :
    ((∃ logs : List (Log F), mxmlParse rnd s = .ok logs) ↔ MEnds .top x none) ∧ ∀ e, mxmlParse (F := F) rnd s = .error e ↔ MEnds .top x (some e) := by
  obtain ⟨o, ho, _⟩ := c154_all h
  have hd := fun o' (ho' : MEnds .top x o') => c154_document (F := F) rnd ho' hr
  refine ⟨⟨fun ⟨logs, hl⟩ => ?_, fun h' => hd _ h'⟩, fun e => ⟨fun he => ?_, fun h' => hd _ h'⟩⟩
  · cases o with
    | none => exact ho
    | some e => rw [show mxmlParse rnd s = .error e from hd _ ho] at hl; cases hl
  · cases o with
    | none => obtain ⟨logs, hl⟩ := hd _ ho; rw [hl] at he; cases he
    | some e' => rw [show mxmlParse rnd s = .error e' from hd _ ho] at he; cases he; exact ho

end

/-! ## Examples -/

/-- What `load` gives. -/
def mxmlEnd (s : Str) : Option PyErr :=
  match loadMxml (F := ToyFloat) (fun _ => ⟨0, by decide⟩) s with
  | .ok _ => none
  | .error e => some e

/-- A document with a fault: the data attribute of the second entry has no name. -/
def faultyMxml : MNode := .elem py!"WorkflowLog" [] [.elem py!"Process" [(py!"id", py!"p")] [.elem py!"ProcessInstance" [(py!"id", py!"1")] [
  .elem py!"AuditTrailEntry" [] [.elem py!"WorkflowModelElement" [] [.text py!"A"]],
  .elem py!"AuditTrailEntry" [] [.elem py!"Data" [] [.elem py!"Attribute" [] [.text py!"x"]], .elem py!"WorkflowModelElement" [] [.text py!"B"]]]]]

example : MEnds .top faultyMxml (some .attributeError) :=
  .around (.inr (.inl rfl)) (.stop (.process rfl rfl rfl (.stop (.inst rfl rfl (.next
    (.entry rfl (.next (.name (v := py!"A") (.inl rfl)) .nil) (.inl rfl))
    (.stop (.entry rfl (.stop (.around (.inl (by decide)) (.stop (.nameless rfl)))) (.inl rfl)))) (.inl rfl)))))

example : MNested 3 faultyMxml :=
  .around (.inr (.inl rfl)) (.cons (.process (by decide) (.cons (.inst (by decide) (.cons
    (.entry (by decide) (.cons (.leaf (v := py!"A") (by decide)) .nil))
    (.cons (.entry (by decide) (.cons (.around (.inl (by decide)) (.cons (.leaf (v := py!"x") (by decide)) .nil))
      (.cons (.leaf (v := py!"B") (by decide)) .nil))) .nil))) .nil)) .nil)

/-- Texts of files: a good one; a data attribute without a name; an absurd zone; a name, an originator and a time outside an entry; an empty
name outside an entry does no harm; an entry outside an instance; an instance with an entry outside a process, and one without. -/
example : [
    py!"<WorkflowLog><Process id='p'><ProcessInstance id='1'><AuditTrailEntry><Timestamp>2020-02-29T23:05:07+99:00</Timestamp></AuditTrailEntry></ProcessInstance></Process></WorkflowLog>",
    py!"<WorkflowLog><Process id='p'><Data><Attribute>x</Attribute></Data></Process></WorkflowLog>",
    py!"<WorkflowLog><Process><ProcessInstance><AuditTrailEntry><Timestamp>2020-02-29T23:05:07+99999999999999:00</Timestamp></AuditTrailEntry></ProcessInstance></Process></WorkflowLog>",
    py!"<WorkflowLog><Process><ProcessInstance><WorkflowModelElement>A</WorkflowModelElement></ProcessInstance></Process></WorkflowLog>",
    py!"<WorkflowLog><Process><Originator/></Process></WorkflowLog>",
    py!"<WorkflowLog><Timestamp>2020-02-29T23:05:07Z</Timestamp></WorkflowLog>",
    py!"<WorkflowLog><Process><WorkflowModelElement> </WorkflowModelElement><EventType/><Timestamp>now</Timestamp></Process></WorkflowLog>",
    py!"<WorkflowLog><Process><AuditTrailEntry/></Process></WorkflowLog>",
    py!"<WorkflowLog><ProcessInstance><AuditTrailEntry/></ProcessInstance></WorkflowLog>",
    py!"<WorkflowLog><ProcessInstance/></WorkflowLog>"].map mxmlEnd =
  [none, some .attributeError, some .overflowError, some .attributeError, some .attributeError, some .attributeError, none, some .attributeError,
    some .attributeError, none] := by decide +kernel

end Opy
