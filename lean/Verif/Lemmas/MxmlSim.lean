import Verif.Lemmas.MxmlHeap
/- The MXML handler on objects keeps to the handler on values: the ends of elements and whole files. -/
set_option linter.unusedSectionVars false
namespace Opy

section
variable {F : Type} [PyFloat F]

theorem DenAll.length {α : Type} {P : α → Ref → Prop} : ∀ {xs : List α} {rs : List Ref}, DenAll P xs rs → xs.length = rs.length
  | [], rs, hd => by simp only [DenAll] at hd; subst hd; rfl
  | x :: xs, rs, hd => by
    obtain ⟨r, rs', rfl, _, h2⟩ := hd
    simp [DenAll.length h2]

variable {h0 : Heap F} {st : MxmlSt F} {hs : MobSt F} {own : Ref → Tag} {srcs : List Ref} {P : Protos}

theorem text_eq (R : MobRel h0 st hs own srcs) : mobText hs = bufText st := by
  unfold mobText bufText
  rw [R.buffer]

/-! ### Attributes -/

/-- Both put the attribute in `generic` in the same place. -/
def RouteOut (h0 : Heap F) (hs : MobSt F) (srcs : List Ref) (x : Except PyErr (MxmlSt F)) (y : Except PyErr (Heap F)) : Prop :=
  match x with
  | .ok s => ∃ h' own', y = .ok h' ∧ MobRel h0 { s with generic := none } { hs with heap := h', generic := none } own' srcs
  | .error e => y = .error e

theorem routeSource_sim (R : MobRel h0 { st with generic := none } { hs with generic := none } own srcs) {a : Attr F} {r : Ref}
    (hr : SlotRel hs.heap own .gen (some a) (some r)) :
    RouteOut h0 hs srcs (routeSource st a) (if hs.sourceOpen then keepAttr hs.heap hs.source r else .ok hs.heap) := by
  have ho : hs.sourceOpen = st.sourceOpen := R.sourceOpen
  have hq : hs.source = st.source.bind (srcs[·]?) := R.source
  by_cases hso : st.sourceOpen = true
  · have hso' : hs.sourceOpen = true := ho.trans hso
    cases hsi : st.source with
    | none =>
      have e1 : routeSource st a = .error .attributeError := by simp [routeSource, hso, hsi]
      rw [e1]
      rw [if_pos hso', hq, hsi]
      rfl
    | some i =>
      have hi : i < st.sources.length := R.sourceLt i hsi
      have hi' : i < srcs.length := by rw [← R.sources.1]; exact hi
      obtain ⟨h', a1, a2, a3, a4⟩ := srcs_attach hr R.sources (List.getElem?_eq_getElem hi) (List.getElem?_eq_getElem hi')
      have e1 : routeSource st a = .ok { st with sources := st.sources.modify i (fun s => withAttrs (dset a.key a s.attrs) s) } := by
        simp [routeSource, hso, hsi]
      rw [e1]
      refine ⟨h', moved .gen (.src i) own, ?_, kept_same R.kept a3, a2.trans R.drawn, R.buffer, R.sourceOpen, R.timestamp, R.lastTimestamp,
        trivial, R.eventType.same a3, R.originator.same a3, R.entry.same a3, R.inst.same a3, R.process.same a3, R.logs.same a3, a4, ?_, ?_, ?_⟩
      · rw [if_pos hso', hq, hsi, Option.bind_some, List.getElem?_eq_getElem hi', a1]
      · exact R.source
      · intro j hj
        simp only [List.length_modify]
        exact R.sourceLt j hj
      · intro b hb
        obtain ⟨j, hj⟩ := List.mem_iff_getElem?.1 hb
        rw [List.getElem?_modify] at hj
        cases hjx : st.sources[j]? with
        | none => simp [hjx] at hj
        | some c =>
          have hc : c.key = py!"source" := R.sourceKey c (List.mem_iff_getElem?.2 ⟨j, hjx⟩)
          rw [hjx] at hj
          by_cases hij : i = j
          · simp [hij] at hj
            subst hj
            cases c
            exact hc
          · simp [hij] at hj
            subst hj
            exact hc
  · have hso' : hs.sourceOpen ≠ true := by rw [ho]; exact hso
    have e1 : routeSource st a = .ok st := by simp [routeSource, hso]
    rw [e1]
    exact ⟨hs.heap, own, by rw [if_neg hso'], R⟩

theorem routeProcess_sim (R : MobRel h0 { st with generic := none } { hs with generic := none } own srcs) {a : Attr F} {r : Ref}
    (hr : SlotRel hs.heap own .gen (some a) (some r)) :
    RouteOut h0 hs srcs (routeProcess st a) (if logTruthy hs.heap hs.process then keepAttr hs.heap hs.process r
      else if hs.sourceOpen then keepAttr hs.heap hs.source r else .ok hs.heap) := by
  have hp : ProcRel srcs hs.heap own st.process hs.process := R.process
  have base := routeSource_sim R hr
  rcases h1 : st.process with _ | p <;> rcases h2 : hs.process with _ | l
  · have e1 : routeProcess st a = routeSource st a := by simp [routeProcess, h1]
    rw [e1]
    simpa [logTruthy] using base
  · rw [h1, h2] at hp; exact hp.elim
  · rw [h1, h2] at hp; exact hp.elim
  · rw [h1, h2] at hp
    have hp' := hp
    obtain ⟨e1, o, d, e2, e3, e4, x1, x2, x3, e5, e6, e7, e8⟩ := hp
    have hl := e8.length
    have ht : logTruthy hs.heap (some l) = decide (0 < p.traces.length) := by simp only [logTruthy, e3, hl]
    rw [ht]
    by_cases hn : 0 < p.traces.length
    · have e1 : routeProcess st a = .ok { st with process := some { p with attrs := dset a.key (.own a) p.attrs } } := by
        simp [routeProcess, h1, hn]
      rw [e1]
      simp only [hn, decide_true, if_true]
      obtain ⟨h', a1, a2, a3, a4⟩ := proc_attach hr hp'
      refine ⟨h', moved .gen .pro own, a1, kept_same R.kept a3, a2.trans R.drawn, R.buffer, R.sourceOpen, R.timestamp, R.lastTimestamp,
        trivial, R.eventType.same a3, R.originator.same a3, R.entry.same a3, R.inst.same a3, ?_, R.logs.same a3, R.sources.same a3,
        R.source, R.sourceLt, R.sourceKey⟩
      simp only [h2]
      exact a4
    · have e1 : routeProcess st a = routeSource st a := by simp only [routeProcess, h1, hn, if_false]
      rw [e1]
      simp only [hn, decide_false, if_false, Bool.false_eq_true]
      exact base

theorem routeAttribute_sim (R : MobRel h0 { st with generic := none } { hs with generic := none } own srcs) {a : Attr F} {r : Ref}
    (hr : SlotRel hs.heap own .gen (some a) (some r)) : RouteOut h0 hs srcs (routeAttribute st a) (mobRoute hs hs.heap r) := by
  have he : EntryRel hs.heap own st.entry hs.entry := R.entry
  have hi : InstRel hs.heap own st.inst hs.inst := R.inst
  have base := routeProcess_sim R hr
  unfold mobRoute
  rcases h1 : st.entry with _ | x <;> rcases h2 : hs.entry with _ | e
  · simp only [Option.isSome_none, Bool.false_eq_true, if_false]
    rcases h3 : st.inst with _ | x <;> rcases h4 : hs.inst with _ | t
    · have e1 : routeAttribute st a = routeProcess st a := by simp only [routeAttribute, h1, h3]
      rw [e1]
      simpa [traceTruthy] using base
    · rw [h3, h4] at hi; exact hi.elim
    · rw [h3, h4] at hi; exact hi.elim
    · rw [h3, h4] at hi
      have hi' := hi
      obtain ⟨e1, m, d, es, e2, e3, e4, e5, e6⟩ := hi
      have hl := e6.length
      have ht : traceTruthy hs.heap (some t) = decide (0 < x.events.length) := by simp only [traceTruthy, e3, hl]
      rw [ht]
      by_cases hn : 0 < x.events.length
      · have e1 : routeAttribute st a = .ok { st with inst := some { x with attrs := dset a.key a x.attrs } } := by
          simp only [routeAttribute, h1, h3, hn, if_true]
        rw [e1]
        simp only [hn, decide_true, if_true]
        obtain ⟨h', a1, a2, a3, a4⟩ := inst_attach hr hi'
        refine ⟨h', moved .gen .ins own, a1, kept_same R.kept a3, a2.trans R.drawn, R.buffer, R.sourceOpen, R.timestamp, R.lastTimestamp,
          trivial, R.eventType.same a3, R.originator.same a3, R.entry.same a3, ?_, R.process.same a3, R.logs.same a3,
          R.sources.same a3, R.source, R.sourceLt, R.sourceKey⟩
        simp only [h4]
        exact a4
      · have e1 : routeAttribute st a = routeProcess st a := by simp only [routeAttribute, h1, h3, hn, if_false]
        rw [e1]
        simp only [hn, decide_false, if_false, Bool.false_eq_true]
        exact base
  · rw [h1, h2] at he; exact he.elim
  · rw [h1, h2] at he; exact he.elim
  · rw [h1, h2] at he
    obtain ⟨h', a1, a2, a3, a4⟩ := entry_attach hr he
    have e1 : routeAttribute st a = .ok { st with entry := some { x with attrs := dset a.key a x.attrs } } := by
      simp only [routeAttribute, h1]
    rw [e1]
    refine ⟨h', moved .gen .ent own, ?_, kept_same R.kept a3, a2.trans R.drawn, R.buffer, R.sourceOpen, R.timestamp, R.lastTimestamp,
      trivial, R.eventType.same a3, R.originator.same a3, ?_, R.inst.same a3, R.process.same a3, R.logs.same a3, R.sources.same a3,
      R.source, R.sourceLt, R.sourceKey⟩
    · simp only [Option.isSome_some, if_true]
      exact a1
    · simp only [h2]
      exact a4

theorem stopAttribute_sim (R : MobRel h0 st hs own srcs) : MobSim h0 (stopAttribute st) (mobStopAttribute hs) := by
  unfold stopAttribute mobStopAttribute
  rw [text_eq R]
  by_cases hn : 0 < (bufText st).length
  · simp only [hn, if_true]
    have hg := R.generic
    rcases h1 : st.generic with _ | a <;> rcases h2 : hs.generic with _ | r
    · exact fun _ => rfl
    · rw [h1, h2] at hg; exact hg.elim
    · rw [h1, h2] at hg; exact hg.elim
    · rw [h1, h2] at hg
      obtain ⟨h', s1, s2, s3, s4⟩ := hg.setVal (.str (bufText st))
      have R' : MobRel h0 { st with generic := none } { ({ hs with heap := h' } : MobSt F) with generic := none } own srcs :=
        ⟨kept_same R.kept s3, s2.trans R.drawn, R.buffer, R.sourceOpen, R.timestamp, R.lastTimestamp, trivial, R.eventType.same s3,
          R.originator.same s3, R.entry.same s3, R.inst.same s3, R.process.same s3, R.logs.same s3, R.sources.same s3, R.source,
          R.sourceLt, R.sourceKey⟩
      have := routeAttribute_sim R' s4
      have hm : mobRoute ({ hs with heap := h' } : MobSt F) ({ hs with heap := h' } : MobSt F).heap r = mobRoute hs h' r := rfl
      rw [hm] at this
      simp only [s1, ok_bind']
      rcases hx : routeAttribute st (withVal (.str (bufText st)) a) with e | s
      · rw [hx] at this
        have this : mobRoute hs h' r = .error e := this
        rw [this]
        exact fun _ => rfl
      · rw [hx] at this
        obtain ⟨h2', own', m1, m2⟩ := this
        rw [m1]
        exact ⟨_, own', srcs, rfl, m2⟩
  · simp only [hn, if_false]
    exact ⟨_, own, srcs, rfl, R.kept, R.drawn, R.buffer, R.sourceOpen, R.timestamp, R.lastTimestamp, trivial, R.eventType, R.originator, R.entry,
      R.inst, R.process, R.logs, R.sources, R.source, R.sourceLt, R.sourceKey⟩

/-- Both put the event type into the entry. -/
def TypeOut (h0 : Heap F) (hs : MobSt F) (srcs : List Ref) (x : Except PyErr (MxmlSt F)) (y : Except PyErr (Heap F)) : Prop :=
  match x with
  | .ok s => ∃ h' own', y = .ok h' ∧ MobRel h0 { s with eventType := none } { hs with heap := h', eventType := none } own' srcs
  | .error e => y = .error e

theorem intoType_sim (R : MobRel h0 { st with eventType := none } { hs with eventType := none } own srcs) {a : Attr F} {r : Ref}
    (hr : SlotRel hs.heap own .typ (some a) (some r)) : TypeOut h0 hs srcs (intoEntry st a) (keepAttr hs.heap hs.entry r) := by
  have he : EntryRel hs.heap own st.entry hs.entry := R.entry
  rcases h1 : st.entry with _ | x <;> rcases h2 : hs.entry with _ | e
  · have e1 : intoEntry st a = .error .attributeError := by simp only [intoEntry, h1]
    rw [e1]
    rfl
  · rw [h1, h2] at he; exact he.elim
  · rw [h1, h2] at he; exact he.elim
  · rw [h1, h2] at he
    obtain ⟨h', a1, a2, a3, a4⟩ := entry_attach hr he
    have e1 : intoEntry st a = .ok { st with entry := some { x with attrs := dset a.key a x.attrs } } := by simp only [intoEntry, h1]
    rw [e1]
    refine ⟨h', moved .typ .ent own, a1, kept_same R.kept a3, a2.trans R.drawn, R.buffer, R.sourceOpen, R.timestamp, R.lastTimestamp,
      R.generic.same a3, trivial, R.originator.same a3, ?_, R.inst.same a3, R.process.same a3, R.logs.same a3, R.sources.same a3,
      R.source, R.sourceLt, R.sourceKey⟩
    simp only [h2]
    exact a4

theorem TypeOut.sim {x : Except PyErr (MxmlSt F)} {y : Except PyErr (Heap F)} (ho : TypeOut h0 hs srcs x y) :
    MobSim h0 (x >>= fun s => .ok { s with eventType := none }) (y >>= fun h => .ok { hs with heap := h, eventType := none }) := by
  cases x with
  | error e =>
    have ho : y = .error e := ho
    rw [ho]
    exact fun _ => rfl
  | ok s =>
    obtain ⟨h', own', rfl, m⟩ := ho
    exact ⟨_, own', srcs, rfl, m⟩

theorem stopEventType_sim (R : MobRel h0 st hs own srcs) : MobSim h0 (stopEventType st) (mobStopEventType hs) := by
  unfold stopEventType mobStopEventType
  rw [text_eq R]
  have hg := R.eventType
  rcases h1 : st.eventType with _ | a <;> rcases h2 : hs.eventType with _ | r
  · exact fun _ => rfl
  · rw [h1, h2] at hg; exact hg.elim
  · rw [h1, h2] at hg; exact hg.elim
  · rw [h1, h2] at hg
    have hv : valueOf hs.heap (some r) = .ok a.val := by
      obtain ⟨o1, o2, o3, mr, d, o4, o5, o6, o7⟩ := hg
      simp only [valueOf, o5, o2, Bool.false_eq_true, if_false]
    simp only [hv, ok_bind']
    have R0 : MobRel h0 { st with eventType := none } { hs with eventType := none } own srcs :=
      ⟨R.kept, R.drawn, R.buffer, R.sourceOpen, R.timestamp, R.lastTimestamp, R.generic, trivial, R.originator, R.entry, R.inst, R.process,
        R.logs, R.sources, R.source, R.sourceLt, R.sourceKey⟩
    by_cases hu : pyEq a.val (.str py!"UNKNOWN")
    · simp only [hu, if_true]
      by_cases hn : 0 < (bufText st).length
      · simp only [hn, if_true]
        obtain ⟨h', s1, s2, s3, s4⟩ := hg.setVal (.str (bufText st))
        have R' : MobRel h0 { st with eventType := none } { ({ hs with heap := h' } : MobSt F) with eventType := none } own srcs :=
          ⟨kept_same R.kept s3, s2.trans R.drawn, R.buffer, R.sourceOpen, R.timestamp, R.lastTimestamp, R.generic.same s3, trivial,
            R.originator.same s3, R.entry.same s3, R.inst.same s3, R.process.same s3, R.logs.same s3, R.sources.same s3, R.source,
            R.sourceLt, R.sourceKey⟩
        simp only [s1, ok_bind']
        exact TypeOut.sim (hs := { hs with heap := h' }) (intoType_sim R' s4)
      · simp only [hn, if_false]
        exact ⟨_, own, srcs, rfl, R0⟩
    · simp only [hu, if_false, Bool.false_eq_true]
      exact (intoType_sim R0 hg).sim

/-- Both put the originator into the entry. -/
def OriginOut (h0 : Heap F) (hs : MobSt F) (srcs : List Ref) (x : Except PyErr (MxmlSt F)) (y : Except PyErr (Heap F)) : Prop :=
  match x with
  | .ok s => ∃ h' own', y = .ok h' ∧ MobRel h0 { s with originator := none } { hs with heap := h', originator := none } own' srcs
  | .error e => y = .error e

theorem intoOrigin_sim (R : MobRel h0 { st with originator := none } { hs with originator := none } own srcs) {a : Attr F} {r : Ref}
    (hr : SlotRel hs.heap own .ori (some a) (some r)) : OriginOut h0 hs srcs (intoEntry st a) (keepAttr hs.heap hs.entry r) := by
  have he : EntryRel hs.heap own st.entry hs.entry := R.entry
  rcases h1 : st.entry with _ | x <;> rcases h2 : hs.entry with _ | e
  · have e1 : intoEntry st a = .error .attributeError := by simp only [intoEntry, h1]
    rw [e1]
    rfl
  · rw [h1, h2] at he; exact he.elim
  · rw [h1, h2] at he; exact he.elim
  · rw [h1, h2] at he
    obtain ⟨h', a1, a2, a3, a4⟩ := entry_attach hr he
    have e1 : intoEntry st a = .ok { st with entry := some { x with attrs := dset a.key a x.attrs } } := by simp only [intoEntry, h1]
    rw [e1]
    refine ⟨h', moved .ori .ent own, a1, kept_same R.kept a3, a2.trans R.drawn, R.buffer, R.sourceOpen, R.timestamp, R.lastTimestamp,
      R.generic.same a3, R.eventType.same a3, trivial, ?_, R.inst.same a3, R.process.same a3, R.logs.same a3, R.sources.same a3,
      R.source, R.sourceLt, R.sourceKey⟩
    simp only [h2]
    exact a4

theorem OriginOut.sim {x : Except PyErr (MxmlSt F)} {y : Except PyErr (Heap F)} (ho : OriginOut h0 hs srcs x y) :
    MobSim h0 (x >>= fun s => .ok { s with originator := none }) (y >>= fun h => .ok { hs with heap := h, originator := none }) := by
  cases x with
  | error e =>
    have ho : y = .error e := ho
    rw [ho]
    exact fun _ => rfl
  | ok s =>
    obtain ⟨h', own', rfl, m⟩ := ho
    exact ⟨_, own', srcs, rfl, m⟩

theorem stopOriginator_sim (R : MobRel h0 st hs own srcs) : MobSim h0 (stopOriginator st) (mobStopOriginator hs) := by
  unfold stopOriginator mobStopOriginator
  rw [text_eq R]
  have hg := R.originator
  rcases h1 : st.originator with _ | a <;> rcases h2 : hs.originator with _ | r
  · exact fun _ => rfl
  · rw [h1, h2] at hg; exact hg.elim
  · rw [h1, h2] at hg; exact hg.elim
  · rw [h1, h2] at hg
    by_cases hn : 0 < (bufText st).length
    · simp only [hn, if_true]
      obtain ⟨h', s1, s2, s3, s4⟩ := hg.setVal (.str (bufText st))
      have R' : MobRel h0 { st with originator := none } { ({ hs with heap := h' } : MobSt F) with originator := none } own srcs :=
        ⟨kept_same R.kept s3, s2.trans R.drawn, R.buffer, R.sourceOpen, R.timestamp, R.lastTimestamp, R.generic.same s3,
          R.eventType.same s3, trivial, R.entry.same s3, R.inst.same s3, R.process.same s3, R.logs.same s3, R.sources.same s3, R.source,
          R.sourceLt, R.sourceKey⟩
      simp only [s1, ok_bind']
      exact OriginOut.sim (hs := { hs with heap := h' }) (intoOrigin_sim R' s4)
    · simp only [hn, if_false, ok_bind']
      have R0 : MobRel h0 { st with originator := none } { hs with originator := none } own srcs :=
        ⟨R.kept, R.drawn, R.buffer, R.sourceOpen, R.timestamp, R.lastTimestamp, R.generic, R.eventType, trivial, R.entry, R.inst, R.process,
          R.logs, R.sources, R.source, R.sourceLt, R.sourceKey⟩
      exact (intoOrigin_sim R0 hg).sim

/-! ### New attributes of the entry -/

/-- A new attribute in the open entry. -/
theorem stored {h' : Heap F} {x : Event F} {e m : Ref} {a : Option (Attr F)} {own' : Ref → Tag} (R : MobRel h0 st hs own srcs)
    (hx : hs.entry = some e) (hp : PutIn hs.heap h' m a)
    (sm : SameTags (· ≠ .entMap) hs.heap h' own own') (he : EntryRel h' own' (some x) (some e)) :
    MobRel h0 { st with entry := some x } { hs with heap := h' } own' srcs :=
  ⟨kept_same R.kept sm, hp.drawn.trans R.drawn, R.buffer, R.sourceOpen, R.timestamp, R.lastTimestamp, R.generic.same sm, R.eventType.same sm,
    R.originator.same sm, by simp only [hx]; exact he, R.inst.same sm, R.process.same sm, R.logs.same sm, R.sources.same sm, R.source, R.sourceLt,
    R.sourceKey⟩

theorem startElementName_sim (R : MobRel h0 st hs own srcs) (hP : MxmlProtos h0 P) (as : List (Str × Str)) :
    MobSim h0 (startElementName st as) (mobStartElementName P hs as) := by
  have he := R.entry
  unfold startElementName mobStartElementName
  rcases h1 : modelRef as with _ | v
  · have : mobRef P as hs.heap hs.entry = .ok hs.heap := by simp only [mobRef, h1]
    rw [this]
    exact ⟨_, own, srcs, rfl, R⟩
  · rcases h2 : st.entry with _ | x <;> rcases h3 : hs.entry with _ | e
    · obtain ⟨w, c1, c2⟩ := clone_set (R.protos hP).ok (x := .reference) rfl (.str v)
      have : mobRef P as hs.heap none = .error .attributeError := by
        simp only [mobRef, h1, c1, ok_bind', fst_newAttr, c2, keepAttr]
      rw [this]
      exact fun _ => rfl
    · rw [h2, h3] at he; exact he.elim
    · rw [h2, h3] at he; exact he.elim
    · rw [h2, h3] at he
      obtain ⟨m, d, g1, g2, _⟩ := entry_store (h' := hs.heap) he
      obtain ⟨h', q1, q2⟩ := mobRef_puts (R.protos hP).ok as g1 g2
      obtain ⟨m', d', g1', g2', g3⟩ := entry_store (h' := h') he
      rw [g1] at g1'
      cases g1'
      obtain ⟨own', s1, s2⟩ := g3 _ q2
      rw [q1]
      refine ⟨_, own', srcs, rfl, ?_⟩
      rw [addRef_eq]
      have := stored R h3 q2 s1 s2
      simp only [h3] at this
      exact this

theorem stopElementName_sim (R : MobRel h0 st hs own srcs) (hP : MxmlProtos h0 P) :
    MobSim h0 (stopElementName st) (mobStopElementName P hs) := by
  have he := R.entry
  unfold stopElementName mobStopElementName
  rw [text_eq R]
  by_cases hn : given (some (bufText st))
  · simp only [hn, if_true]
    rcases h2 : st.entry with _ | x <;> rcases h3 : hs.entry with _ | e
    · exact fun _ => rfl
    · rw [h2, h3] at he; exact he.elim
    · rw [h2, h3] at he; exact he.elim
    · rw [h2, h3] at he
      obtain ⟨m, d, g1, g2, _⟩ := entry_store (h' := hs.heap) he
      obtain ⟨h', q1, q2⟩ := name_puts (R.protos hP).ok (some (bufText st)) g1 g2
      obtain ⟨m', d', g1', g2', g3⟩ := entry_store (h' := h') he
      rw [g1] at g1'
      cases g1'
      obtain ⟨own', s1, s2⟩ := g3 _ q2
      simp only [q1, ok_bind']
      refine ⟨_, own', srcs, rfl, ?_⟩
      rw [assignName_eq]
      have := stored R h3 q2 s1 s2
      simp only [h3] at this
      exact this
  · simp only [hn, if_false, Bool.false_eq_true]
    exact ⟨_, own, srcs, rfl, R⟩

theorem stopTimestamp_sim (R : MobRel h0 st hs own srcs) (hP : MxmlProtos h0 P) :
    MobSim h0 (stopTimestamp st) (mobStopTimestamp P hs) := by
  have he := R.entry
  unfold stopTimestamp mobStopTimestamp
  rw [text_eq R]
  rcases h1 : parseDateTime (bufText st) with e | o
  · exact fun _ => rfl
  · simp only [ok_bind']
    rcases o with _ | d
    · exact ⟨_, own, srcs, rfl, R.kept, R.drawn, R.buffer, R.sourceOpen, rfl, R.lastTimestamp, R.generic, R.eventType, R.originator, R.entry,
        R.inst, R.process, R.logs, R.sources, R.source, R.sourceLt, R.sourceKey⟩
    · obtain ⟨w, c1, c2⟩ := clone_set (R.protos hP).ok (x := .timestamp) rfl (.dt d)
      simp only [c1, ok_bind', fst_newAttr, c2]
      rcases h2 : st.entry with _ | x <;> rcases h3 : hs.entry with _ | e
      · have e1 : intoEntry { st with timestamp := some d } (cloned .timestamp timeKey timeExt (.dt d)) = .error .attributeError := by
          simp only [intoEntry, h2]
        have := e1
        simp only [h2] at this
        rw [this]
        exact fun _ => rfl
      · rw [h2, h3] at he; exact he.elim
      · rw [h2, h3] at he; exact he.elim
      · rw [h2, h3] at he
        obtain ⟨m, dd, g1, g2, _⟩ := entry_store (h' := hs.heap) he
        obtain ⟨h', q1, q2⟩ := keep_new (k := .timestamp) rfl timeKey (some timeExt) (.dt d) g1 g2
        obtain ⟨m', d', g1', g2', g3⟩ := entry_store (h' := h') he
        rw [g1] at g1'
        cases g1'
        have q2' : PutIn hs.heap h' m (some (cloned .timestamp timeKey timeExt (.dt d))) := q2
        obtain ⟨own', s1, s2⟩ := g3 _ q2'
        have q1' : keepAttr (newAttr hs.heap ExtAttr.timestamp.kind ExtAttr.timestamp.key (some ExtAttr.timestamp.ext) (.dt d)).2 (some e)
          (hs.heap.size + 1) = .ok h' := q1
        simp only [q1', ok_bind', intoEntry]
        refine ⟨_, own', srcs, rfl, ?_⟩
        have R' : MobRel h0 { st with timestamp := some d } { hs with timestamp := some d } own srcs :=
          ⟨R.kept, R.drawn, R.buffer, R.sourceOpen, rfl, R.lastTimestamp, R.generic, R.eventType, R.originator, R.entry,
            R.inst, R.process, R.logs, R.sources, R.source, R.sourceLt, R.sourceKey⟩
        have := stored R' h3 q2' s1 s2
        simp only [h3] at this
        exact this

/-! ### Entries, traces and logs -/

/-- The owners when one element becomes part of another one. -/
def joined (S : Tag → Bool) (t : Tag) (own : Ref → Tag) : Ref → Tag := fun x => if S (own x) then t else own x

theorem joined_put {h : Heap F} {own : Ref → Tag} {S : Tag → Bool} {t : Tag} {r : Ref} {o : Obj F} :
    SameTags (fun u => u ≠ own r ∧ S u = false) h (h.put r o) own (joined S t own) := by
  intro y ob hy ho
  refine ⟨by simp [joined, hy.2], ?_⟩
  rw [get_put_ne _ (fun z => hy.1 (by rw [z]))]
  exact ho

theorem joined_held {h : Heap F} {own : Ref → Tag} {S : Tag → Bool} {t : Tag} {r : Ref} {o : Obj F} {u : Tag} (h1 : S u = true)
    (h2 : u ≠ own r) : Held h (h.put r o) (own · = u) (joined S t own · = t) := by
  intro y ob hy ho
  have hy : own y = u := hy
  refine ⟨by simp [joined, hy, h1], ?_⟩
  rw [get_put_ne _ (fun z => h2 (by rw [← hy, z]))]
  exact ho

/-- The tags of the open entry. -/
def ofEntry : Tag → Bool
  | .ent | .entMap => true
  | _ => false

/-- The tags of the open trace. -/
def ofInst : Tag → Bool
  | .ins | .insMap | .insHead => true
  | _ => false

/-- The tags of the open log. -/
def ofProc : Tag → Bool
  | .pro | .proMap | .proHead => true
  | _ => false

/-- Both append the entry. -/
def AppendOut (h0 : Heap F) (srcs : List Ref) (x : Except PyErr (MxmlSt F)) (y : Except PyErr (MobSt F)) : Prop :=
  match x with
  | .ok s => ∃ hs own, y = .ok hs ∧ MobRel h0 { s with entry := none } { hs with entry := none } own srcs
  | .error e => e ≠ .other → y = .error e

theorem append_sim (R : MobRel h0 st hs own srcs) : AppendOut h0 srcs (appendEntry st) (mobAppend hs) := by
  have he := R.entry
  have hi := R.inst
  unfold appendEntry mobAppend
  rcases h1 : st.inst with _ | x <;> rcases h2 : hs.inst with _ | t
  · exact fun _ => rfl
  · rw [h1, h2] at hi; exact hi.elim
  · rw [h1, h2] at hi; exact hi.elim
  rcases h3 : st.entry with _ | y <;> rcases h4 : hs.entry with _ | e
  · exact fun q => absurd rfl q
  · rw [h3, h4] at he; exact he.elim
  · rw [h3, h4] at he; exact he.elim
  rw [h1, h2] at hi
  rw [h3, h4] at he
  obtain ⟨(i1 : own t = .insHead), m, d, es, i2, i3, i4, i5, i6⟩ := hi
  have sm : SameTags (fun u => u ≠ .insHead ∧ ofEntry u = false) hs.heap (hs.heap.put t (.trace m (es ++ [e]))) own (joined ofEntry .ins own) := by
    rw [← i1]; exact joined_put
  have k : ∀ u, ofEntry u = true → u ≠ .insHead →
      Held hs.heap (hs.heap.put t (.trace m (es ++ [e]))) (own · = u) (joined ofEntry .ins own · = .ins) :=
    fun u h1 h2 => joined_held h1 (by rw [i1]; exact h2)
  have k' := sm.held (t := .ins) (by simp [ofEntry])
  simp only [traceAppend, i3, ok_bind']
  refine ⟨_, joined ofEntry .ins own, rfl, kept_same R.kept sm (by simp [ofEntry]), R.drawn, R.buffer, R.sourceOpen, R.timestamp, R.lastTimestamp,
    R.generic.same sm (by simp [ofEntry]) (by simp [ofEntry]), R.eventType.same sm (by simp [ofEntry]) (by simp [ofEntry]),
    R.originator.same sm (by simp [ofEntry]) (by simp [ofEntry]), trivial, ?_,
    R.process.same sm (.refl _) (by simp [ofEntry]) (by simp [ofEntry]) (by simp [ofEntry]),
    R.logs.same sm (.refl _) (by simp [ofEntry]), R.sources.same sm (by simp [ofEntry]) (by simp [ofEntry]), R.source, R.sourceLt, R.sourceKey⟩
  simp only [h2]
  refine ⟨by simp [joined, i1, ofEntry], m, d, es ++ [e], (sm.held (t := .insMap) (by simp [ofEntry]) _ _ i2 i4).1, get_put_self _ (get_lt i3),
    (sm.held (t := .insMap) (by simp [ofEntry]) _ _ i2 i4).2, i5.imp fun _ _ => AttrAt.held k', DenAll.snoc ?_ (i6.imp fun _ _ => EventGen.held k' k' k')⟩
  exact EventGen.held (k .ent rfl (by simp)) (k .entMap rfl (by simp)) (k .ent rfl (by simp)) he

theorem stopEntry_sim (R : MobRel h0 st hs own srcs) : MobSim h0 (stopEntry st) (mobStopEntry hs) := by
  have ha := append_sim R
  have ht := R.timestamp
  have hl := R.lastTimestamp
  unfold stopEntry mobStopEntry
  rw [ht, hl]
  cases st.timestamp with
  | none =>
    simp only
    rcases h1 : appendEntry st with e | s
    · rw [h1] at ha
      intro q
      rw [ha q]
      rfl
    · rw [h1] at ha
      obtain ⟨hs', own', rfl', m⟩ := ha
      rw [rfl']
      exact ⟨_, own', srcs, rfl, m⟩
  | some t =>
    cases st.lastTimestamp with
    | none =>
      simp only
      rcases h1 : appendEntry st with e | s
      · rw [h1] at ha
        intro q
        rw [ha q]
        rfl
      · rw [h1] at ha
        obtain ⟨hs', own', rfl', m⟩ := ha
        rw [rfl']
        exact ⟨_, own', srcs, rfl, m.kept, m.drawn, m.buffer, m.sourceOpen, m.timestamp, rfl, m.generic, m.eventType, m.originator, m.entry,
          m.inst, m.process, m.logs, m.sources, m.source, m.sourceLt, m.sourceKey⟩
    | some l =>
      simp only
      rcases h2 : l.lt t with e | b
      · exact fun _ => rfl
      simp only [ok_bind']
      rcases h1 : appendEntry st with e | s
      · rw [h1] at ha
        intro q
        rw [ha q]
        rfl
      · rw [h1] at ha
        obtain ⟨hs', own', rfl', m⟩ := ha
        rw [rfl']
        cases b
        · exact ⟨_, own', srcs, rfl, m⟩
        · exact ⟨_, own', srcs, rfl, m.kept, m.drawn, m.buffer, m.sourceOpen, m.timestamp, rfl, m.generic, m.eventType, m.originator, m.entry,
            m.inst, m.process, m.logs, m.sources, m.source, m.sourceLt, m.sourceKey⟩

theorem stopInstance_sim (R : MobRel h0 st hs own srcs) : MobSim h0 (stopInstance st) (mobStopInstance hs) := by
  have hi := R.inst
  have hp := R.process
  unfold stopInstance mobStopInstance
  rcases h1 : st.inst with _ | x <;> rcases h2 : hs.inst with _ | t
  · exact fun _ => rfl
  · rw [h1, h2] at hi; exact hi.elim
  · rw [h1, h2] at hi; exact hi.elim
  rw [h1, h2] at hi
  have hi' := hi
  obtain ⟨(i1 : own t = .insHead), m, d, es, i2, i3, i4, i5, i6⟩ := hi
  have hlen : lenTrace hs.heap (some t) = .ok x.events.length := by simp only [lenTrace, i3, i6.length]
  simp only [hlen, ok_bind']
  by_cases hn : 0 < x.events.length
  · simp only [hn, if_true]
    rcases h3 : st.process with _ | y <;> rcases h4 : hs.process with _ | p
    · exact fun _ => rfl
    · rw [h3, h4] at hp; exact hp.elim
    · rw [h3, h4] at hp; exact hp.elim
    rw [h3, h4] at hp
    obtain ⟨(e1 : own p = .proHead), o, dd, e2, e3, e4, x1, x2, x3, e5, e6, e7, e8⟩ := hp
    have sm : SameTags (fun u => u ≠ .proHead ∧ ofInst u = false) hs.heap (hs.heap.put p (.log { o with traces := o.traces ++ [t] })) own
        (joined ofInst .pro own) := by rw [← e1]; exact joined_put
    have k : ∀ u, ofInst u = true → u ≠ .proHead →
        Held hs.heap (hs.heap.put p (.log { o with traces := o.traces ++ [t] })) (own · = u) (joined ofInst .pro own · = .pro) :=
      fun u h1 h2 => joined_held h1 (by rw [e1]; exact h2)
    have k' := sm.held (t := .pro) (by simp [ofInst])
    simp only [logAppend, e3, ok_bind']
    refine ⟨_, joined ofInst .pro own, srcs, rfl, kept_same R.kept sm (by simp [ofInst]), R.drawn, R.buffer, R.sourceOpen, R.timestamp, rfl,
      R.generic.same sm (by simp [ofInst]) (by simp [ofInst]), R.eventType.same sm (by simp [ofInst]) (by simp [ofInst]),
      R.originator.same sm (by simp [ofInst]) (by simp [ofInst]), R.entry.same sm (by simp [ofInst]) (by simp [ofInst]), trivial, ?_,
      R.logs.same sm (.refl _) (by simp [ofInst]), R.sources.same sm (by simp [ofInst]) (by simp [ofInst]), R.source, R.sourceLt, R.sourceKey⟩
    refine ⟨by simp [joined, e1, ofInst], { o with traces := o.traces ++ [t] }, dd, (sm.held (t := .proMap) (by simp [ofInst]) _ _ e2 e4).1, get_put_self _ (get_lt e3),
      (sm.held (t := .proMap) (by simp [ofInst]) _ _ e2 e4).2, x1, x2, x3, e5.imp fun _ _ => RefAt.held (.refl _) k', e6.imp fun _ _ => AttrAt.held k',
      e7.imp fun _ _ => AttrAt.held k', DenAll.snoc ?_ (e8.imp fun _ _ => TraceGen.held k' k' k')⟩
    exact TraceGen.held (k .insHead rfl (by simp)) (k .insMap rfl (by simp)) (k .ins rfl (by simp)) hi'
  · simp only [hn, if_false]
    exact ⟨_, own, srcs, rfl, R.kept, R.drawn, R.buffer, R.sourceOpen, R.timestamp, rfl, R.generic, R.eventType, R.originator, R.entry,
        trivial, R.process, R.logs, R.sources, R.source, R.sourceLt, R.sourceKey⟩

/-- The open log, changed in place: the new object has the map of the old one. -/
theorem proc_mod {h : Heap F} {x : MLog F} {l : Ref} {f : LogObj → LogObj} {x' : MLog F} (hp : ProcRel srcs h own (some x) (some l))
    (hf : ∀ o d, h.get l = some (.log o) → h.get o.map = some (.map d) → o.extensions = x.extensions →
      o.classifiers = x.classifiers → o.features = [] → DenAll (AttrAt h (own · = .pro)) x.globalTrace o.globalTrace →
      DenAll (AttrAt h (own · = .pro)) x.globalEvent o.globalEvent → DenAll (TraceGen h (own · = .pro) (own · = .pro) (own · = .pro)) x.traces o.traces →
      (f o).map = o.map ∧ (f o).extensions = x'.extensions ∧ (f o).classifiers = x'.classifiers ∧ (f o).features = [] ∧ x'.attrs = x.attrs ∧
      DenAll (AttrAt h (own · = .pro)) x'.globalTrace (f o).globalTrace ∧
      DenAll (AttrAt h (own · = .pro)) x'.globalEvent (f o).globalEvent ∧
      DenAll (TraceGen h (own · = .pro) (own · = .pro) (own · = .pro)) x'.traces (f o).traces) :
    ∃ h', modLog h (some l) f = .ok h' ∧ h'.drawn = h.drawn ∧ SameTags (· ≠ .proHead) h h' own own ∧ ProcRel srcs h' own (some x') (some l) := by
  obtain ⟨(e1 : own l = .proHead), o, d, e2, e3, e4, x1, x2, x3, e5, e6, e7, e8⟩ := hp
  obtain ⟨f1, f2, f3, f4, f5, f6, f7, f8⟩ := hf o d e3 e4 x1 x2 x3 e6 e7 e8
  have sm : SameTags (· ≠ .proHead) h (h.put l (.log (f o))) own own := by
    intro y ob hy ho
    refine ⟨rfl, ?_⟩
    rw [get_put_ne _ (fun z => hy (by rw [z]; exact e1))]
    exact ho
  have k := sm.held (t := .pro) (by simp)
  refine ⟨h.put l (.log (f o)), by simp only [modLog, e3], rfl, sm, e1, f o, d, by rw [f1]; exact e2, get_put_self _ (get_lt e3), by
    rw [f1]; exact (sm.held (t := .proMap) (by simp) _ _ e2 e4).2, f2, f3, f4, ?_, f6.imp fun _ _ => AttrAt.held k,
    f7.imp fun _ _ => AttrAt.held k, f8.imp fun _ _ => TraceGen.held k k k⟩
  rw [f5]
  exact e5.imp fun _ _ => RefAt.held (.refl _) k

/-- A new attribute for the open log. -/
theorem proc_new {h : Heap F} (own : Ref → Tag) (k : Kind) (hk : k.isCollection = false) (key : Str) (e : Option Ext) (v : PyVal F) :
    ∃ own', SameTags (fun _ => True) h (newAttr h k key e v).2 own own' ∧
      AttrAt (newAttr h k key e v).2 (own' · = .pro) (.mk k key e v [] []) (h.size + 1) := by
  refine ⟨fun y => if y < h.size then own y else .pro, fun y o _ ho => ⟨by simp [get_lt ho], get_newAttr_old _ _ _ _ ho⟩, ?_⟩
  simp only [AttrAt]
  refine ⟨?_, hk, trivial, h.size, [], ?_, get_newAttr_attr .., get_newAttr_map .., rfl⟩
  · rw [if_neg (by omega)]
  · rw [if_neg (by omega)]

theorem proc_trace {h : Heap F} {x : MLog F} {l r : Ref} {a : Attr F} (hp : ProcRel srcs h own (some x) (some l))
    (ha : AttrAt h (own · = .pro) a r) :
    ∃ h', modLog h (some l) (fun o => { o with globalTrace := o.globalTrace ++ [r] }) = .ok h' ∧ h'.drawn = h.drawn ∧
      SameTags (· ≠ .proHead) h h' own own ∧ ProcRel srcs h' own (some { x with globalTrace := x.globalTrace ++ [a] }) (some l) :=
  proc_mod hp fun _ _ _ _ a1 a2 a3 a4 a5 a6 => ⟨rfl, a1, a2, a3, rfl, DenAll.snoc ha a4, a5, a6⟩

theorem proc_event {h : Heap F} {x : MLog F} {l r : Ref} {a : Attr F} (hp : ProcRel srcs h own (some x) (some l))
    (ha : AttrAt h (own · = .pro) a r) :
    ∃ h', modLog h (some l) (fun o => { o with globalEvent := o.globalEvent ++ [r] }) = .ok h' ∧ h'.drawn = h.drawn ∧
      SameTags (· ≠ .proHead) h h' own own ∧ ProcRel srcs h' own (some { x with globalEvent := x.globalEvent ++ [a] }) (some l) :=
  proc_mod hp fun _ _ _ _ a1 a2 a3 a4 a5 a6 => ⟨rfl, a1, a2, a3, rfl, a4, DenAll.snoc ha a5, a6⟩

theorem SameTags.trans {T : Tag → Prop} {h h' h'' : Heap F} {own own' own'' : Ref → Tag} (h1 : SameTags T h h' own own')
    (h2 : SameTags T h' h'' own' own'') : SameTags T h h'' own own'' := by
  intro r o hr ho
  obtain ⟨a, b⟩ := h1 r o hr ho
  obtain ⟨c, d⟩ := h2 r o (by rw [a]; exact hr) b
  exact ⟨c.trans a, d⟩

theorem SameTags.mono {T T' : Tag → Prop} {h h' : Heap F} {own own' : Ref → Tag} (h1 : SameTags T h h' own own') (ht : ∀ u, T' u → T u) :
    SameTags T' h h' own own' := fun r o hr ho => h1 r o (ht _ hr) ho

theorem sameTags_old {h h' : Heap F} {own own' : Ref → Tag} (hk : ∀ r o, h0.get r = some o → own r = .old ∧ h.get r = some o)
    (hs : SameTags (· ≠ .proHead) h h' own own') (hP : MxmlProtos h0 P) : MxmlProtos h' P :=
  hP.frame fun r o hr => (kept_same hk hs (by simp) r o hr).2

theorem stopProcess_sim (R : MobRel h0 st hs own srcs) (hP : MxmlProtos h0 P) : MobSim h0 (stopProcess st) (mobStopProcess P hs) := by
  have hp := R.process
  unfold stopProcess mobStopProcess
  rcases h3 : st.process with _ | y <;> rcases h4 : hs.process with _ | p
  · exact fun _ => rfl
  · rw [h3, h4] at hp; exact hp.elim
  · rw [h3, h4] at hp; exact hp.elim
  rw [h3, h4] at hp
  obtain ⟨g1, q1, d1, s1, p1⟩ := proc_mod hp (f := fun o => { o with classifiers := o.classifiers ++ mxmlClassifiers })
    (x' := { y with classifiers := y.classifiers ++ mxmlClassifiers })
    fun _ _ _ _ a1 a2 a3 a4 a5 a6 => ⟨rfl, a1, by rw [a2], a3, rfl, a4, a5, a6⟩
  have P1 := sameTags_old R.kept s1 hP
  obtain ⟨mn, cn, hn⟩ := P1.name
  obtain ⟨own2, s2, a2⟩ := proc_new (h := g1) own .literal rfl py!"concept:name" (some conceptExt) (.str py!"UNKNOWN")
  have s2' := s2.mono (T' := (· ≠ .proHead)) fun _ _ => trivial
  obtain ⟨g3, q3, d3, s3, p3⟩ := proc_trace (p1.same s2) a2
  have P3 := sameTags_old R.kept (s1.trans (s2'.trans s3)) hP
  obtain ⟨mn', cn', hn'⟩ := P3.name
  obtain ⟨own4, s4, a4⟩ := proc_new (h := g3) own2 .literal rfl py!"concept:name" (some conceptExt) (.str py!"UNKNOWN")
  have s4' := s4.mono (T' := (· ≠ .proHead)) fun _ _ => trivial
  obtain ⟨g5, q5, d5, s5, p5⟩ := proc_event (p3.same s4) a4
  have P5 := sameTags_old R.kept (s1.trans (s2'.trans (s3.trans (s4'.trans s5)))) hP
  obtain ⟨mt, ct, ht⟩ := P5.transition
  obtain ⟨own6, s6, a6⟩ := proc_new (h := g5) own4 .literal rfl py!"lifecycle:transition" (some lifecycleExt) (.str py!"complete")
  have s6' := s6.mono (T' := (· ≠ .proHead)) fun _ _ => trivial
  obtain ⟨g7, q7, d7, s7, p7⟩ := proc_event (p5.same s6) a6
  have s := s1.trans (s2'.trans (s3.trans (s4'.trans (s5.trans (s6'.trans s7)))))
  have sm : SameTags (fun u => ofProc u = false) hs.heap g7 own (joined ofProc (.done st.logs.length) own6) := by
    intro r o hr ho
    obtain ⟨a, b⟩ := s r o (by intro z; rw [z] at hr; simp [ofProc] at hr) ho
    exact ⟨by simp [joined, a, hr], b⟩
  refine ⟨{ hs with heap := g7, logs := hs.logs ++ [p], process := none }, joined ofProc (.done st.logs.length) own6, srcs, ?_,
    kept_same R.kept sm rfl, ?_, R.buffer, R.sourceOpen, R.timestamp, R.lastTimestamp,
    R.generic.same sm rfl rfl, R.eventType.same sm rfl rfl, R.originator.same sm rfl rfl, R.entry.same sm rfl rfl,
    R.inst.same sm rfl rfl rfl, trivial, ?_, R.sources.same sm (fun _ => rfl) (fun _ => rfl), R.source, R.sourceLt, R.sourceKey⟩
  · simp only [q1, ok_bind', cloneAttr, hn, fst_newAttr, q3, hn', q5, ht, q7]
    rfl
  · show g7.drawn = _
    rw [d7, drawn_newAttr, d5, drawn_newAttr, d3, drawn_newAttr, d1]
    exact R.drawn
  · have old := R.logs.same sm (.refl _) (fun _ => rfl)
    refine ⟨by simp [old.1], fun i x r hx hr => ?_⟩
    by_cases hi : i < hs.logs.length
    · simp only [List.getElem?_append_left hi] at hr
      rw [List.getElem?_append_left (by rw [old.1]; exact hi)] at hx
      exact old.2 i x r hx hr
    · have hi' : i = hs.logs.length := by
        have := (List.getElem?_eq_some_iff.1 hr).1
        simp at this
        omega
      subst hi'
      rw [← old.1, List.getElem?_append_right (Nat.le_refl _)] at hx
      simp only [List.getElem?_append_right (Nat.le_refl _)] at hr
      simp at hx hr
      subst hx hr
      rw [← old.1]
      have k : ∀ u, ofProc u = true → Held g7 g7 (own6 · = u) (joined ofProc (.done st.logs.length) own6 · = .done st.logs.length) := by
        intro u hu z ob hz ho
        have hz : own6 z = u := hz
        exact ⟨by simp [joined, hz, hu], ho⟩
      have := MLogGen.held (.refl _) (k .proHead rfl) (k .proMap rfl) (k .pro rfl) p7
      simpa [cloned] using this

/-! ### Whole files -/

theorem start_sim (rnd : Nat → Uuid) (R : MobRel h0 st hs own srcs) (hP : MxmlProtos h0 P) (tag : Str) (as : List (Str × Str)) :
    MobSim h0 (mxmlStart (fun k => rnd (h0.drawn + k)) st tag as) (mobStart rnd P hs tag as) := by
  have base : MobSim h0 (.ok st) (.ok hs) := ⟨_, own, srcs, rfl, R⟩
  unfold mxmlStart mobStart
  by_cases t1 : tag = py!"WorkflowLog"
  · simp only [t1, if_true]; exact base
  by_cases t2 : tag = py!"Source"
  · simp only [if_neg t1, if_pos t2]; exact startSource_sim R hP as
  by_cases t3 : tag = py!"Process"
  · simp only [if_neg t1, if_neg t2, if_pos t3]; exact startProcess_sim R hP as
  by_cases t4 : tag = py!"ProcessInstance"
  · simp only [if_neg t1, if_neg t2, if_neg t3, if_pos t4]; exact startInstance_sim R hP as
  by_cases t5 : tag = py!"AuditTrailEntry"
  · simp only [if_neg t1, if_neg t2, if_neg t3, if_neg t4, if_pos t5]; exact startEntry_sim rnd R
  by_cases t6 : tag = py!"Attribute"
  · simp only [if_neg t1, if_neg t2, if_neg t3, if_neg t4, if_neg t5, if_pos t6]; exact startAttribute_sim R hP as
  by_cases t7 : tag = py!"EventType"
  · simp only [if_neg t1, if_neg t2, if_neg t3, if_neg t4, if_neg t5, if_neg t6, if_pos t7]; exact startEventType_sim R hP as
  by_cases t8 : tag = py!"WorkflowModelElement"
  · simp only [if_neg t1, if_neg t2, if_neg t3, if_neg t4, if_neg t5, if_neg t6, if_neg t7, if_pos t8]; exact startElementName_sim R hP as
  by_cases t9 : tag = py!"Originator"
  · simp only [if_neg t1, if_neg t2, if_neg t3, if_neg t4, if_neg t5, if_neg t6, if_neg t7, if_neg t8, if_pos t9]
    exact startOriginator_sim R hP as
  simp only [if_neg t1, if_neg t2, if_neg t3, if_neg t4, if_neg t5, if_neg t6, if_neg t7, if_neg t8, if_neg t9]
  exact base

theorem stop_sim (R : MobRel h0 st hs own srcs) (hP : MxmlProtos h0 P) (tag : Str) :
    MobSim h0 (mxmlStopBody st tag) (mobStopBody P hs tag) := by
  have base : MobSim h0 (.ok st) (.ok hs) := ⟨_, own, srcs, rfl, R⟩
  unfold mxmlStopBody mobStopBody
  by_cases t1 : tag = py!"WorkflowLog"
  · simp only [t1, if_true]; exact base
  by_cases t2 : tag = py!"Process"
  · simp only [if_neg t1, if_pos t2]; exact stopProcess_sim R hP
  by_cases t3 : tag = py!"ProcessInstance"
  · simp only [if_neg t1, if_neg t2, if_pos t3]; exact stopInstance_sim R
  by_cases t4 : tag = py!"AuditTrailEntry"
  · simp only [if_neg t1, if_neg t2, if_neg t3, if_pos t4]; exact stopEntry_sim R
  by_cases t5 : tag = py!"Attribute"
  · simp only [if_neg t1, if_neg t2, if_neg t3, if_neg t4, if_pos t5]; exact stopAttribute_sim R
  by_cases t6 : tag = py!"EventType"
  · simp only [if_neg t1, if_neg t2, if_neg t3, if_neg t4, if_neg t5, if_pos t6]; exact stopEventType_sim R
  by_cases t7 : tag = py!"WorkflowModelElement"
  · simp only [if_neg t1, if_neg t2, if_neg t3, if_neg t4, if_neg t5, if_neg t6, if_pos t7]; exact stopElementName_sim R hP
  by_cases t8 : tag = py!"Timestamp"
  · simp only [if_neg t1, if_neg t2, if_neg t3, if_neg t4, if_neg t5, if_neg t6, if_neg t7, if_pos t8]; exact stopTimestamp_sim R hP
  by_cases t9 : tag = py!"Originator"
  · simp only [if_neg t1, if_neg t2, if_neg t3, if_neg t4, if_neg t5, if_neg t6, if_neg t7, if_neg t8, if_pos t9]
    exact stopOriginator_sim R
  simp only [if_neg t1, if_neg t2, if_neg t3, if_neg t4, if_neg t5, if_neg t6, if_neg t7, if_neg t8, if_neg t9]
  exact base

theorem buffer_sim {b b' : List Str} (hb : b' = b) (R : MobRel h0 st hs own srcs) :
    MobRel h0 { st with buffer := b } { hs with buffer := b' } own srcs :=
  ⟨R.kept, R.drawn, hb, R.sourceOpen, R.timestamp, R.lastTimestamp, R.generic, R.eventType, R.originator, R.entry,
    R.inst, R.process, R.logs, R.sources, R.source, R.sourceLt, R.sourceKey⟩

theorem step_sim (rnd : Nat → Uuid) (R : MobRel h0 st hs own srcs) (hP : MxmlProtos h0 P) (e : MSax) :
    MobSim h0 (mxmlStep (fun k => rnd (h0.drawn + k)) st e) (mobStep rnd P hs e) := by
  cases e with
  | start tag as => exact start_sim rnd R hP tag as
  | chars s => exact ⟨_, own, srcs, rfl, buffer_sim (by rw [R.buffer]) R⟩
  | stop tag =>
    have := stop_sim R hP tag
    simp only [mxmlStep, mobStep, mxmlStop]
    rcases h1 : mxmlStopBody st tag with e | s
    · rw [h1] at this
      intro q
      rw [this q]
      rfl
    · rw [h1] at this
      obtain ⟨hs', own', srcs', q, m⟩ := this
      rw [q]
      exact ⟨_, own', srcs', rfl, buffer_sim rfl m⟩

theorem mobRun_sim (rnd : Nat → Uuid) (hP : MxmlProtos h0 P) : ∀ (file : List MSax) {st : MxmlSt F} {hs : MobSt F} {own : Ref → Tag}
    {srcs : List Ref}, MobRel h0 st hs own srcs → MobSim h0 (mxmlRun (fun k => rnd (h0.drawn + k)) st file) (mobRun rnd P hs file)
  | [], _, _, own, srcs, R => ⟨_, own, srcs, rfl, R⟩
  | e :: es, st, hs, own, srcs, R => by
    have := step_sim rnd R hP e
    unfold mxmlRun mobRun
    rcases h1 : mxmlStep (fun k => rnd (h0.drawn + k)) st e with x | s
    · rw [h1] at this
      intro q
      rw [this q]
      rfl
    · rw [h1] at this
      obtain ⟨hs', own', srcs', q, m⟩ := this
      rw [q]
      exact mobRun_sim rnd hP es m

theorem init_sim (h0 : Heap F) : MobRel h0 (.init F) (.init h0) (fun _ => .old) [] :=
  ⟨fun _ _ hr => ⟨rfl, hr⟩, rfl, rfl, rfl, rfl, rfl, trivial, trivial, trivial, trivial, trivial, trivial,
    ⟨rfl, fun i x r hx => by simp [MxmlSt.init] at hx⟩, ⟨rfl, fun i x r hx => by simp [MxmlSt.init] at hx⟩, rfl,
    fun i hi => by simp [MxmlSt.init] at hi, fun a ha => by simp [MxmlSt.init] at ha⟩

end

end Opy
