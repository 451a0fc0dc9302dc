import Verif.Props.MxmlTrip
set_option linter.unusedSectionVars false
namespace Opy

section
variable {F : Type} [PyFloat F]

/-! ## C51 -/

/-- The events of `<Attribute name="n">v</Attribute>`. -/
def attrEvents (n v : Str) : List MSax := [.start py!"Attribute" [(py!"name", n)], .chars v, .stop py!"Attribute"]

/-- The attribute such an element stands for. -/
def dataAttr (n v : Str) : Attr F := .mk .literal (strip n) none (.str (strip v)) [] []

theorem run_attrEvents (rnd : Nat → Uuid) (st : MxmlSt F) (n v : Str) (hb : Blank st.buffer) (hv : strip v ≠ []) :
    mxmlRun rnd st (attrEvents n v) =
      (routeAttribute (setBuf (st.buffer ++ [v]) { st with generic := some (literalOf (strip n) (.str py!"DEFAULT_VALUE") []) })
        (dataAttr n v)).map (fun s => { s with generic := none, buffer := [] }) := by
  have h1 : mxmlStart rnd st py!"Attribute" [(py!"name", n)] =
      .ok { st with generic := some (literalOf (strip n) (.str py!"DEFAULT_VALUE") []) } := by
    simp [mxmlStart, startAttribute, dget, addRef, modelRef]
  have h2 : ∀ st', mxmlStopBody (F := F) st' py!"Attribute" = stopAttribute st' := by intro st'; simp [mxmlStopBody]
  have h3 : bufText (setBuf (st.buffer ++ [v]) { st with generic := some (literalOf (strip n) (.str py!"DEFAULT_VALUE") []) }) = strip v := by
    rw [bufText_setBuf, join_nil_append]
    have := strip_space_append_space (a := join [] st.buffer) (s := v) (b := []) hb (by simp)
    simpa [join] using this
  have h4 : 0 < (strip v).length := List.length_pos_iff.2 hv
  have h5 : withVal (.str (strip v)) (literalOf (F := F) (strip n) (.str py!"DEFAULT_VALUE") []) = dataAttr n v := rfl
  have h6 : mxmlRun rnd st (attrEvents n v) =
      (mxmlStop (setBuf (st.buffer ++ [v]) { st with generic := some (literalOf (strip n) (.str py!"DEFAULT_VALUE") []) })
        py!"Attribute").bind Except.ok := by
    simp only [attrEvents, mxmlRun, mxmlStep, h1, bind, Except.bind]
    rfl
  rw [h6]
  simp only [mxmlStop, h2, stopAttribute, h3, h4, if_true]
  simp only [setBuf, h5, bind, Except.bind]
  cases routeAttribute _ (dataAttr n v) <;> rfl

/-- What an attribute element must leave alone: everything but the named parts. -/
structure Untouched (st st' : MxmlSt F) : Prop where
  logs : st'.logs = st.logs
  eventType : st'.eventType = st.eventType
  originator : st'.originator = st.originator
  source : st'.source = st.source
  sourceOpen : st'.sourceOpen = st.sourceOpen
  timestamps : st'.timestamp = st.timestamp ∧ st'.lastTimestamp = st.lastTimestamp
  drawn : st'.drawn = st.drawn

/-- **C51, entries.** While an entry is open its data attributes go to it, and nowhere else. -/
theorem c51_entry_partial (rnd : Nat → Uuid) (st : MxmlSt F) (n v : Str) (hb : Blank st.buffer) (hv : strip v ≠ [])
    (e : Event F) (he : st.entry = some e) :
    ∃ st', mxmlRun rnd st (attrEvents n v) = .ok st' ∧ Untouched st st' ∧
      st'.entry = some { e with attrs := dset (strip n) (dataAttr n v) e.attrs } ∧
      st'.inst = st.inst ∧ st'.process = st.process ∧ st'.sources = st.sources := by
  rw [run_attrEvents rnd st n v hb hv]
  simp only [routeAttribute, setBuf, he, Except.map]
  exact ⟨_, rfl, ⟨rfl, rfl, rfl, rfl, rfl, ⟨rfl, rfl⟩, rfl⟩, rfl, rfl, rfl, rfl⟩

/-- **C51, traces with events.** -/
theorem c51_trace_partial (rnd : Nat → Uuid) (st : MxmlSt F) (n v : Str) (hb : Blank st.buffer) (hv : strip v ≠ [])
    (he : st.entry = none) (t : Trace F) (ht : st.inst = some t) (hne : t.events ≠ []) :
    ∃ st', mxmlRun rnd st (attrEvents n v) = .ok st' ∧ Untouched st st' ∧ st'.entry = none ∧
      st'.inst = some { t with attrs := dset (strip n) (dataAttr n v) t.attrs } ∧
      st'.process = st.process ∧ st'.sources = st.sources := by
  rw [run_attrEvents rnd st n v hb hv]
  have := List.length_pos_iff.2 hne
  simp only [routeAttribute, setBuf, he, ht, this, if_true, Except.map]
  exact ⟨_, rfl, ⟨rfl, rfl, rfl, rfl, rfl, ⟨rfl, rfl⟩, rfl⟩, rfl, rfl, rfl, rfl⟩

/-- No trace to take the attribute: none is open, or the open one has no events yet. -/
def NoTrace (st : MxmlSt F) : Prop := ∀ t, st.inst = some t → t.events = []

/-- No log to take the attribute: none is open, or the open one has no traces yet. -/
def NoLog (st : MxmlSt F) : Prop := ∀ p, st.process = some p → p.traces = []

/-- **C51, violated.** As long as the open trace has no events it does not get its attributes: they go to
the log if that has traces already. -/
theorem c51_misplaced (rnd : Nat → Uuid) (st : MxmlSt F) (n v : Str) (hb : Blank st.buffer) (hv : strip v ≠ [])
    (he : st.entry = none) (ht : NoTrace st) (p : MLog F) (hp : st.process = some p) (hne : p.traces ≠ []) :
    ∃ st', mxmlRun rnd st (attrEvents n v) = .ok st' ∧ Untouched st st' ∧ st'.entry = none ∧ st'.inst = st.inst ∧
      st'.process = some { p with attrs := dset (strip n) (.own (dataAttr n v)) p.attrs } ∧ st'.sources = st.sources := by
  rw [run_attrEvents rnd st n v hb hv]
  have hpos := List.length_pos_iff.2 hne
  cases hi : st.inst with
  | none =>
    simp only [routeAttribute, routeProcess, setBuf, he, hp, hpos, if_true, Except.map]
    exact ⟨_, rfl, ⟨rfl, rfl, rfl, rfl, rfl, ⟨rfl, rfl⟩, rfl⟩, rfl, rfl, rfl, rfl⟩
  | some t =>
    have := ht t hi
    simp only [routeAttribute, routeProcess, setBuf, he, hp, hpos, this, List.length_nil, Nat.lt_irrefl, if_false, if_true, Except.map]
    exact ⟨_, rfl, ⟨rfl, rfl, rfl, rfl, rfl, ⟨rfl, rfl⟩, rfl⟩, rfl, rfl, rfl, rfl⟩

/-- **C51, violated.** If the log has no traces either, the attribute is nested into the source attribute
(even if the `Source` element has ended long ago), and lost if there was no `Source` element. -/
theorem c51_lost (rnd : Nat → Uuid) (st : MxmlSt F) (n v : Str) (hb : Blank st.buffer) (hv : strip v ≠ [])
    (he : st.entry = none) (ht : NoTrace st) (hp : NoLog st) (ho : st.sourceOpen = true → st.source.isSome = true) :
    ∃ st', mxmlRun rnd st (attrEvents n v) = .ok st' ∧ Untouched st st' ∧ st'.entry = none ∧ st'.inst = st.inst ∧
      st'.process = st.process ∧
      (st.sourceOpen = false → st'.sources = st.sources) ∧
      (st.sourceOpen = true → ∀ i a, st.source = some i → st.sources[i]? = some a →
        st'.sources[i]? = some (.mk a.kind a.key a.ext a.val (dset (strip n) (dataAttr n v) a.attrs) a.coll)) := by
  rw [run_attrEvents rnd st n v hb hv]
  have key : ∀ s : MxmlSt F, s.entry = none → NoTrace s → NoLog s → ∀ a, routeAttribute s a = routeSource s a := by
    intro s h1 h2 h3 a
    have h4 : routeProcess s a = routeSource s a := by
      unfold routeProcess
      cases hs : s.process with
      | none => rfl
      | some p => simp [h3 p hs]
    unfold routeAttribute
    rw [h1]
    simp only
    cases hs : s.inst with
    | none => exact h4
    | some t => simp [h2 t hs, h4]
  rw [key _ (by exact he) (by exact ht) (by exact hp)]
  cases hso : st.sourceOpen with
  | false =>
    simp only [routeSource, setBuf, Bool.false_eq_true, if_false, Except.map]
    exact ⟨_, rfl, ⟨rfl, rfl, rfl, rfl, hso.symm ▸ rfl, ⟨rfl, rfl⟩, rfl⟩, he, rfl, rfl, fun _ => rfl, fun h => by simp at h⟩
  | true =>
    cases hsr : st.source with
    | none => have := ho hso; rw [hsr] at this; simp at this
    | some i =>
      simp only [routeSource, setBuf, if_true, Except.map]
      refine ⟨_, rfl, ⟨rfl, rfl, rfl, hsr.symm ▸ rfl, hso.symm ▸ rfl, ⟨rfl, rfl⟩, rfl⟩, he, rfl, rfl, fun h => by simp at h, ?_⟩
      intro _ j a hj ha
      simp only [Option.some.injEq] at hj
      subst hj
      rw [List.getElem?_modify_eq, ha]
      obtain ⟨k, key, e, v', m, c⟩ := a
      rfl

end

section
variable {F : Type} [PyFloat F]

/-! ## C80 -/

/-- **C80, violated.** A finished log that holds the source attribute changes with every data attribute
that a later process states before it has traces. -/
theorem c80_leaks (rnd : Nat → Uuid) (st : MxmlSt F) (n v : Str) (hb : Blank st.buffer) (hv : strip v ≠ [])
    (he : st.entry = none) (ht : NoTrace st) (hp : NoLog st) (ho : st.sourceOpen = true)
    (i : Nat) (hi : st.source = some i) (a : Attr F) (ha : st.sources[i]? = some a)
    (l : MLog F) (hl : l ∈ st.logs) (k : Str) (hk : (k, MRef.source i) ∈ l.attrs) :
    ∃ st', mxmlRun rnd st (attrEvents n v) = .ok st' ∧ l ∈ st'.logs ∧
      ∃ b, (k, b) ∈ (l.toLog st'.sources).attrs ∧ dget (strip n) b.attrs = some (dataAttr n v) := by
  obtain ⟨st', h1, h2, _, _, _, _, h7⟩ := c51_lost rnd st n v hb hv he ht hp (fun _ => by rw [hi]; rfl)
  refine ⟨st', h1, by rw [h2.logs]; exact hl, ?_⟩
  refine ⟨.mk a.kind a.key a.ext a.val (dset (strip n) (dataAttr n v) a.attrs) a.coll, ?_, ?_⟩
  · simp only [MLog.toLog, List.mem_filterMap]
    exact ⟨_, hk, by simp [MRef.see, h7 ho i a hi ha]⟩
  · simp [Attr.attrs, dget_dset_self]

/-! ## C81 -/

/-- **C81, violated.** Text that stands before the start tag of an element counts as text inside it. -/
theorem c81_leaks (rnd : Nat → Uuid) (st : MxmlSt F) (t a b : Str) (as : List (Str × Str)) (rest : List MSax) :
    mxmlRun rnd st (.chars a :: .start t as :: .chars b :: rest) = mxmlRun rnd st (.start t as :: .chars a :: .chars b :: rest) := by
  simp only [mxmlRun, mxmlStep, bind, Except.bind]
  have h := start_buf rnd st t as (st.buffer ++ [a])
  have h2 : mxmlStart rnd { st with buffer := st.buffer ++ [a] } t as = (mxmlStart rnd st t as).map (setBuf (st.buffer ++ [a])) := h
  have h3 := start_buf rnd st t as st.buffer
  rw [setBuf_self] at h3
  rw [h2]
  cases hs : mxmlStart rnd st t as with
  | error e => rfl
  | ok s =>
    rw [hs] at h3
    have h4 : s = setBuf st.buffer s := by simpa [Except.map] using h3
    have h5 : s.buffer = st.buffer := by rw [h4]; rfl
    simp only [Except.map, setBuf, h5]

/-- **C81, what holds.** No text before an end tag counts for anything that follows: the buffer of texts is empty.  Missing: text between an
end tag and the next start tag (false, see `c81_leaks`). -/
theorem c81_end_partial (rnd : Nat → Uuid) (st s : MxmlSt F) (t : Str) (xs : List MSax) (h : mxmlRun rnd st (xs ++ [.stop t]) = .ok s) :
    s.buffer = [] := by
  obtain ⟨s1, _, h⟩ := mxmlRun_append_ok h
  obtain ⟨s2, h1, h⟩ := mxmlRun_cons_ok h
  cases h
  simp only [mxmlStep, mxmlStop] at h1
  obtain ⟨s3, _, h1⟩ := bind_ok.1 h1
  cases h1
  rfl

end

/-! ## Cases -/

/-- The attribute keys and values of the result: per log its own, then per trace its own. -/
def mxSeen (r : Except PyErr (List (Log ToyFloat))) : List (List (Str × List Str) × List (List Str)) :=
  match r with
  | .ok ls => ls.map fun l => (l.attrs.map fun p => (p.1, dkeys p.2.attrs), l.traces.map fun t => dkeys t.attrs)
  | .error _ => []

/-- Two instances, each with one data attribute that stands before the entry. -/
def c51Doc : MNode :=
  .elem py!"WorkflowLog" [] [.elem py!"Process" [(py!"id", py!"P")] [
    .elem py!"ProcessInstance" [(py!"id", py!"1")] [
      .elem py!"Data" [] [.elem py!"Attribute" [(py!"name", py!"a")] [.text py!"x"]], .elem py!"AuditTrailEntry" [] []],
    .elem py!"ProcessInstance" [(py!"id", py!"2")] [
      .elem py!"Data" [] [.elem py!"Attribute" [(py!"name", py!"b")] [.text py!"y"]], .elem py!"AuditTrailEntry" [] []]]]

/-- **C51, refuted.** The attribute of the first trace is lost, that of the second is in the log. -/
theorem c51_refuted : mxSeen (mxmlParse (fun _ => ⟨0, by decide⟩) c51Doc.say) =
    [([(py!"concept:name", []), (py!"lifecycle:model", []), (py!"b", [])], [[py!"concept:name"], [py!"concept:name"]])] := by
  decide +kernel

/-- A source and two processes, the second with a data attribute. -/
def c80Doc : MNode :=
  .elem py!"WorkflowLog" [] [.elem py!"Source" [(py!"program", py!"p")] [],
    .elem py!"Process" [(py!"id", py!"P")] [],
    .elem py!"Process" [(py!"id", py!"Q")] [.elem py!"Data" [] [.elem py!"Attribute" [(py!"name", py!"a")] [.text py!"x"]]]]

/-- **C80, refuted.** The attribute of the second process is found in the first log. -/
theorem c80_refuted : mxSeen (mxmlParse (fun _ => ⟨0, by decide⟩) c80Doc.say) =
    [([(py!"source", [py!"a"]), (py!"concept:name", []), (py!"lifecycle:model", [])], []),
     ([(py!"source", [py!"a"]), (py!"concept:name", []), (py!"lifecycle:model", [])], [])] := by
  decide +kernel

/-- The names of the events of the result. -/
def mxNames (r : Except PyErr (List (Log ToyFloat))) : List (List (List (Option Str))) :=
  match r with
  | .ok ls => ls.map fun l => l.traces.map fun t => t.events.map fun e => textAt py!"concept:name" e.attrs
  | .error _ => []

/-- An entry with text before the name. -/
def c81Doc : MNode :=
  .elem py!"WorkflowLog" [] [.elem py!"Process" [(py!"id", py!"P")] [.elem py!"ProcessInstance" [(py!"id", py!"1")] [
    .elem py!"AuditTrailEntry" [] [.text py!"junk ", .elem py!"WorkflowModelElement" [] [.text py!"register"]]]]]

/-- **C81, refuted.** -/
theorem c81_refuted : mxNames (mxmlParse (fun _ => ⟨0, by decide⟩) c81Doc.say) = [[[some py!"junk register"]]] := by
  decide +kernel

/-- Data attributes at the right place: in an entry, and in an instance after its first entry. -/
example : mxSeen (mxmlParse (fun _ => ⟨0, by decide⟩) (MNode.elem py!"WorkflowLog" [] [.elem py!"Process" [(py!"id", py!"P")] [
    .elem py!"ProcessInstance" [(py!"id", py!"1")] [.elem py!"AuditTrailEntry" [] [],
      .elem py!"Data" [] [.elem py!"Attribute" [(py!"name", py!"a")] [.text py!"x"]]]]]).say) =
    [([(py!"concept:name", []), (py!"lifecycle:model", [])], [[py!"concept:name", py!"a"]])] := by decide +kernel

end Opy
