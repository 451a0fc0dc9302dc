import Verif.Props.XesRead
/-
Property C147: a loaded log is made of new objects.
-/
set_option linter.unusedSectionVars false
namespace Opy

section
variable {F : Type}

/-- The objects that an object refers to directly. -/
def Obj.refs : Obj F → List Ref
  | .map d => d.map Prod.snd
  | .attr _ _ _ _ m c => m :: c
  | .event _ m => [m]
  | .trace m es => m :: es
  | .log l => l.map :: (l.globalTrace ++ l.globalEvent ++ l.traces)
  | .pyNone => []

/-- The objects that can be reached from an object, itself included. -/
inductive Reach (h : Heap F) (a : Ref) : Ref → Prop where
  | refl : Reach h a a
  | step {b c : Ref} {o : Obj F} : Reach h a b → h.get b = some o → c ∈ o.refs → Reach h a c

/-- The second heap is the first with objects added that refer to added objects only. -/
structure Extends (h h' : Heap F) : Prop where
  grows : h.size ≤ h'.size
  same : ∀ r, r < h.size → h'.get r = h.get r
  closed : ∀ r o, h.size ≤ r → h'.get r = some o → ∀ c ∈ o.refs, h.size ≤ c ∧ c < h'.size

/-- Between the sizes of two heaps. -/
def New (h h' : Heap F) (r : Ref) : Prop := h.size ≤ r ∧ r < h'.size

theorem Extends.refl (h : Heap F) : Extends h h where
  grows := Nat.le_refl _
  same _ _ := rfl
  closed r o hr ho := by
    have : r < h.objs.length := by
      rcases Nat.lt_or_ge r h.objs.length with hl | hl
      · exact hl
      · rw [Heap.get, List.getElem?_eq_none hl] at ho
        cases ho
    exact absurd hr (Nat.not_le.2 this)

theorem New.mono {h h' h'' : Heap F} {r : Ref} (hn : New h h' r) (hs : h'.size ≤ h''.size) : New h h'' r :=
  ⟨hn.1, Nat.lt_of_lt_of_le hn.2 hs⟩

/-- Overwriting an added object with one that refers to added objects. -/
theorem Extends.put {h h' : Heap F} (e : Extends h h') {r : Ref} (hr : New h h' r) {o : Obj F} (ho : ∀ c ∈ o.refs, New h h' c) :
    Extends h (h'.put r o) ∧ (h'.put r o).size = h'.size := by
  have hs : (h'.put r o).size = h'.size := by simp [Heap.put, Heap.size]
  refine ⟨⟨hs ▸ e.grows, ?_, ?_⟩, hs⟩
  · intro x hx
    have : r ≠ x := fun hxr => Nat.not_lt.2 (hxr ▸ hr.1) hx
    rw [← e.same x hx]
    simp only [Heap.get, Heap.put]
    rw [List.getElem?_set_ne this]
  · intro x o' hx ho' c hc
    rw [hs]
    by_cases hxr : r = x
    · subst hxr
      have : (h'.put r o).get r = some o := by
        simp only [Heap.get, Heap.put]
        rw [List.getElem?_set_self hr.2]
      rw [this] at ho'
      cases ho'
      exact ho c hc
    · have : (h'.put r o).get x = h'.get x := by
        simp only [Heap.get, Heap.put]
        rw [List.getElem?_set_ne hxr]
      rw [this] at ho'
      exact e.closed x o' hx ho' c hc

/-- A new object that refers to added objects. -/
theorem Extends.alloc {h h' : Heap F} (e : Extends h h') {o : Obj F} (ho : ∀ c ∈ o.refs, New h h' c) :
    Extends h (h'.alloc o).2 ∧ (h'.alloc o).2.size = h'.size + 1 ∧ (h'.alloc o).1 = h'.size := by
  have hs : (h'.alloc o).2.size = h'.size + 1 := by simp [Heap.alloc, Heap.size]
  refine ⟨⟨by rw [hs]; exact Nat.le_succ_of_le e.grows, ?_, ?_⟩, hs, rfl⟩
  · intro x hx
    rw [← e.same x hx]
    simp only [Heap.get, Heap.alloc]
    rw [List.getElem?_append_left (Nat.lt_of_lt_of_le hx e.grows)]
  · intro x o' hx ho' c hc
    rw [hs]
    rcases Nat.lt_or_ge x h'.size with hl | hl
    · have : (h'.alloc o).2.get x = h'.get x := by
        simp only [Heap.get, Heap.alloc]
        rw [List.getElem?_append_left hl]
      rw [this] at ho'
      obtain ⟨h1, h2⟩ := e.closed x o' hx ho' c hc
      exact ⟨h1, Nat.lt_succ_of_lt h2⟩
    · have hx2 := get_lt ho'
      rw [hs] at hx2
      have hxe : x = h'.size := Nat.le_antisymm (Nat.le_of_lt_succ hx2) hl
      subst hxe
      have : (h'.alloc o).2.get h'.size = some o := by
        simp [Heap.get, Heap.alloc, Heap.size]
      rw [this] at ho'
      cases ho'
      obtain ⟨h1, h2⟩ := ho c hc
      exact ⟨h1, Nat.lt_succ_of_lt h2⟩

theorem Extends.drawn {h h' : Heap F} (e : Extends h h') (d : Nat) : Extends h { h' with drawn := d } :=
  ⟨e.grows, e.same, e.closed⟩

theorem Extends.eq {h h' h'' : Heap F} (e : Extends h h') (hh : h'' = h') : Extends h h'' := hh ▸ e

/-- An object made by a constructor without arguments: an empty map and an object that refers to it. -/
theorem Extends.two {h h' : Heap F} (e : Extends h h') {o : Obj F} {d : Nat} (ho : ∀ c ∈ o.refs, c = h'.size) :
    Extends h ⟨h'.objs ++ [.map [], o], d⟩ ∧ New h ⟨h'.objs ++ [.map [], o], d⟩ (h'.size + 1) ∧
      h'.size ≤ (⟨h'.objs ++ [.map [], o], d⟩ : Heap F).size := by
  obtain ⟨e1, s1, _⟩ := e.alloc (o := .map []) (by simp [Obj.refs])
  obtain ⟨e2, s2, _⟩ := e1.alloc (o := o) (by
    intro c hc
    rw [ho c hc, New, s1]
    exact ⟨e.grows, Nat.lt_succ_self _⟩)
  have hs : (⟨h'.objs ++ [.map [], o], d⟩ : Heap F).size = h'.size + 2 := by simp [Heap.size]
  refine ⟨?_, ⟨Nat.le_succ_of_le e.grows, by rw [hs]; exact Nat.lt_succ_self _⟩, by rw [hs]; exact Nat.le_add_right _ _⟩
  refine (e2.drawn d).eq ?_
  simp [Heap.alloc]

/-- Everything the handler holds is new. -/
structure FreshSt (h : Heap F) (st : XesSt F) : Prop where
  heap : Extends h st.heap
  log : ∀ r, st.log = some r → New h st.heap r
  trace : ∀ r, st.trace = some r → New h st.heap r
  event : ∀ r, st.event = some r → New h st.heap r
  attrs : ∀ r ∈ st.attrs, New h st.heap r
  objs : ∀ r ∈ st.objs, New h st.heap r
  globals : ∀ r b, st.globals = some (r, b) → New h st.heap r

theorem modLog_fresh {h h1 h2 : Heap F} (e : Extends h h1) {l : Option Ref} (hl : ∀ r, l = some r → New h h1 r) {f : LogObj → LogObj}
    (hf : ∀ o : LogObj, (∀ c ∈ (Obj.log o : Obj F).refs, New h h1 c) → ∀ c ∈ (Obj.log (f o) : Obj F).refs, New h h1 c)
    (hm : modLog h1 l f = .ok h2) : Extends h h2 ∧ h2.size = h1.size := by
  unfold modLog at hm
  split at hm
  · cases hm
  · next r =>
    split at hm
    · next o ho =>
      cases hm
      exact e.put (hl r rfl) (hf o (e.closed r _ (hl r rfl).1 ho))
    · cases hm

theorem FreshSt.sized {h : Heap F} {st : XesSt F} (s : FreshSt h st) {h2 : Heap F} (e : Extends h h2) (hs : st.heap.size ≤ h2.size) :
    FreshSt h { st with heap := h2 } where
  heap := e
  log r hr := (s.log r hr).mono hs
  trace r hr := (s.trace r hr).mono hs
  event r hr := (s.event r hr).mono hs
  attrs r hr := (s.attrs r hr).mono hs
  objs r hr := (s.objs r hr).mono hs
  globals r b hr := (s.globals r b hr).mono hs

/-- The factory makes a map that is dropped (it is empty, hence false), a second one that is used, and the object. -/
theorem Extends.three {h h' : Heap F} (e : Extends h h') {o : Obj F} {d : Nat} (ho : ∀ c ∈ o.refs, c = h'.size + 1) :
    Extends h ⟨h'.objs ++ [.map [], .map [], o], d⟩ ∧ New h ⟨h'.objs ++ [.map [], .map [], o], d⟩ (h'.size + 2) ∧
      h'.size ≤ (⟨h'.objs ++ [.map [], .map [], o], d⟩ : Heap F).size := by
  obtain ⟨e1, s1, _⟩ := e.alloc (o := .map []) (by simp [Obj.refs])
  obtain ⟨e2, ⟨_, n2⟩, s2⟩ := e1.two (o := o) (d := d) (by rw [s1]; exact ho)
  have hh : (⟨h'.objs ++ [.map [], .map [], o], d⟩ : Heap F) = ⟨(h'.alloc (.map [])).2.objs ++ [.map [], o], d⟩ := by
    simp [Heap.alloc]
  rw [hh]
  rw [s1] at n2 s2
  exact ⟨e2, ⟨Nat.le_add_right_of_le e.grows, n2⟩, Nat.le_of_succ_le s2⟩

theorem createEvent_eq (rnd : Nat → Uuid) (h : Heap F) :
    createEvent rnd h none none = (h.size + 2, ⟨h.objs ++ [.map [], .map [], .event (rnd h.drawn) (h.size + 1)], h.drawn + 1⟩) := by
  simp [createEvent, newEvent, mapTruthy, initMap, entries, Heap.alloc, Heap.draw, Heap.get, Heap.size]

theorem createTrace_eq (h : Heap F) :
    createTrace h none = (h.size + 2, ⟨h.objs ++ [.map [], .map [], .trace (h.size + 1) []], h.drawn⟩) := by
  simp [createTrace, newTrace, mapTruthy, initMap, entries, Heap.alloc, Heap.get, Heap.size]

theorem createLog_eq (h : Heap F) :
    createLog h none = (h.size + 2, ⟨h.objs ++ [.map [], .map [], .log ⟨h.size + 1, [], [], [], [], [], []⟩], h.drawn⟩) := by
  simp [createLog, newLog, mapTruthy, initMap, entries, Heap.alloc, Heap.get, Heap.size]

theorem traceAppend_fresh {h h1 h2 : Heap F} (e : Extends h h1) {t x : Ref} (ht : New h h1 t) (hx : New h h1 x)
    (ha : traceAppend h1 t x = .ok h2) : Extends h h2 ∧ h2.size = h1.size := by
  unfold traceAppend at ha
  split at ha
  · next m es ho =>
    cases ha
    refine e.put ht ?_
    have hc := e.closed t _ ht.1 ho
    intro c hc'
    simp only [Obj.refs, List.mem_cons, List.mem_append, List.not_mem_nil, or_false] at hc' hc
    rcases hc' with h' | h' | h'
    · exact hc c (.inl h')
    · exact hc c (.inr h')
    · exact h' ▸ hx
  · cases ha

theorem logAppend_fresh {h h1 h2 : Heap F} (e : Extends h h1) {l x : Ref} (hl : New h h1 l) (hx : New h h1 x)
    (ha : logAppend h1 l x = .ok h2) : Extends h h2 ∧ h2.size = h1.size := by
  unfold logAppend at ha
  split at ha
  · next o ho =>
    cases ha
    refine e.put hl ?_
    have hc := e.closed l _ hl.1 ho
    intro c hc'
    simp only [Obj.refs, List.mem_cons, List.mem_append, List.not_mem_nil, or_false] at hc' hc
    rcases hc' with h' | (h' | h') | h' | h'
    · exact hc c (.inl h')
    · exact hc c (.inr (.inl (.inl h')))
    · exact hc c (.inr (.inl (.inr h')))
    · exact hc c (.inr (.inr h'))
    · exact h' ▸ hx
  · cases ha

theorem mapOf_new {h h1 : Heap F} (e : Extends h h1) {p m : Ref} (hp : New h h1 p) (hm : mapOf h1 p = .ok m) : New h h1 m := by
  unfold mapOf at hm
  split at hm <;> first
    | (cases hm; done)
    | (cases hm
       rename_i ho
       exact e.closed p _ hp.1 ho _ (by simp [Obj.refs]))

theorem dset_snd {k : Str} {v : Ref} : ∀ {d : List (Str × Ref)} {c : Ref}, c ∈ (dset k v d).map Prod.snd → c = v ∨ c ∈ d.map Prod.snd := by
  intro d
  induction d with
  | nil => simp [dset]
  | cons p d ih =>
    intro c hc
    obtain ⟨k', v'⟩ := p
    simp only [dset] at hc
    split at hc
    · simp only [List.map_cons, List.mem_cons] at hc ⊢
      rcases hc with h | h
      · exact .inl h
      · exact .inr (.inr h)
    · simp only [List.map_cons, List.mem_cons] at hc ⊢
      rcases hc with h | h
      · exact .inr (.inl h)
      · rcases ih h with h | h
        · exact .inl h
        · exact .inr (.inr h)

theorem mapSet_fresh {h h1 h2 : Heap F} (e : Extends h h1) {m v : Ref} {k : Str} (hm : New h h1 m) (hv : New h h1 v)
    (hs : mapSet h1 m k v = .ok h2) : Extends h h2 ∧ h2.size = h1.size := by
  unfold mapSet at hs
  split at hs
  · next d ho =>
    cases hs
    refine e.put hm ?_
    intro c hc
    rcases dset_snd hc with h' | h'
    · exact h' ▸ hv
    · exact e.closed m _ hm.1 ho c h'
  · cases hs

theorem addToColl_fresh {h h1 : Heap F} (e : Extends h h1) {as : List Ref} (hs : ∀ r ∈ as, New h h1 r) {i : Ref} (hi : New h h1 i) :
    Extends h (addToColl h1 as i) ∧ (addToColl h1 as i).size = h1.size := by
  unfold addToColl
  split
  · exact ⟨e, rfl⟩
  · next t _ =>
    split
    · next ho =>
      split
      · refine e.put (hs t (by simp)) ?_
        have hc := e.closed t _ (hs t (by simp)).1 ho
        intro c hc'
        simp only [Obj.refs, List.mem_cons, List.mem_append, List.not_mem_nil, or_false] at hc' hc
        rcases hc' with h' | h' | h'
        · exact hc c (.inl h')
        · exact hc c (.inr h')
        · exact h' ▸ hi
      · exact ⟨e, rfl⟩
    · exact ⟨e, rfl⟩

variable [PyFloat F]

theorem step_fresh {h : Heap F} {rnd : Nat → Uuid} {mgr : ExtMgr} {st st' : XesSt F} (s : FreshSt h st) {e : Sax}
    (hr : xesStep (stdFactory F rnd) mgr st e = .ok st') : FreshSt h st' := by
  cases e with
  | start t as =>
    simp only [xesStep] at hr
    by_cases ht : lower t ∈ attrTags
    · rw [xesStart_attr _ mgr st ht] at hr
      obtain ⟨o, _, hr⟩ := bind_ok.1 hr
      cases o with
      | none =>
        cases hr
        exact s
      | some kv =>
        simp only [stdFactory, newAttr_eq, Except.ok.injEq] at hr
        subst hr
        obtain ⟨e1, n1, s1⟩ := s.heap.two (o := .attr kv.1 (elemKey as) (extOfKey mgr (elemKey as)) kv.2 st.heap.size []) (d := st.heap.drawn)
          (by simp [Obj.refs])
        have s2 := s.sized e1 s1
        exact { s2 with
          attrs := fun r hr => by
            rcases List.mem_cons.1 hr with h' | h'
            · exact h' ▸ n1
            · exact s2.attrs r h'
          objs := fun r hr => by
            rcases List.mem_cons.1 hr with h' | h'
            · exact h' ▸ n1
            · exact s2.objs r h' }
    · simp only [xesStart, ht, not_false_eq_true, if_true] at hr
      split at hr
      · simp only [stdFactory, createEvent_eq, Except.ok.injEq] at hr
        subst hr
        obtain ⟨e1, n1, s1⟩ := s.heap.three (o := .event (rnd st.heap.drawn) (st.heap.size + 1)) (d := st.heap.drawn + 1) (by simp [Obj.refs])
        have s2 := s.sized e1 s1
        exact { s2 with
          event := fun r hr => by cases hr; exact n1
          objs := fun r hr => by
            rcases List.mem_cons.1 hr with h' | h'
            · exact h' ▸ n1
            · exact s2.objs r h' }
      split at hr
      · simp only [stdFactory, createTrace_eq, Except.ok.injEq] at hr
        subst hr
        obtain ⟨e1, n1, s1⟩ := s.heap.three (o := .trace (st.heap.size + 1) []) (d := st.heap.drawn) (by simp [Obj.refs])
        have s2 := s.sized e1 s1
        exact { s2 with
          trace := fun r hr => by cases hr; exact n1
          objs := fun r hr => by
            rcases List.mem_cons.1 hr with h' | h'
            · exact h' ▸ n1
            · exact s2.objs r h' }
      split at hr
      · simp only [stdFactory, createLog_eq] at hr
        obtain ⟨h3, hm, hr⟩ := bind_ok.1 hr
        simp only [Except.ok.injEq] at hr
        subst hr
        obtain ⟨e1, n1, s1⟩ := s.heap.three (o := .log ⟨st.heap.size + 1, [], [], [], [], [], []⟩) (d := st.heap.drawn) (by simp [Obj.refs])
        obtain ⟨e2, s2⟩ := modLog_fresh e1 (by intro r hr; cases hr; exact n1) (by intro o ho c hc; exact ho c hc) hm
        have s3 := s.sized e2 (s2 ▸ s1)
        have n2 := n1.mono (Nat.le_of_eq s2.symm)
        exact { s3 with
          log := fun r hr => by cases hr; exact n2
          objs := fun r hr => by
            rcases List.mem_cons.1 hr with h' | h'
            · exact h' ▸ n2
            · exact s3.objs r h' }
      split at hr
      · split at hr
        all_goals
          obtain ⟨o, _, hr⟩ := bind_ok.1 hr
          split at hr
          · obtain ⟨h3, hm, hr⟩ := bind_ok.1 hr
            cases hr
            obtain ⟨e2, s2⟩ := modLog_fresh s.heap s.log (by intro o ho c hc; exact ho c hc) hm
            exact s.sized e2 (Nat.le_of_eq s2.symm)
          · cases hr
            exact s
          · cases hr
      split at hr
      · split at hr
        · cases hr
        · split at hr
          · split at hr
            · cases hr
            · next l hl =>
              cases hr
              exact { s with globals := fun r b hg => by cases hg; exact s.log _ hl }
          · split at hr
            · split at hr
              · cases hr
              · next l hl =>
                cases hr
                exact { s with globals := fun r b hg => by cases hg; exact s.log _ hl }
            · cases hr
              exact s
      split at hr
      · split at hr
        · split at hr
          · obtain ⟨h3, hm, hr⟩ := bind_ok.1 hr
            cases hr
            obtain ⟨e2, s2⟩ := modLog_fresh s.heap s.log (by intro o ho c hc; exact ho c hc) hm
            exact s.sized e2 (Nat.le_of_eq s2.symm)
          · cases hr
            exact s
        · cases hr
          exact s
      · cases hr
        exact s
  | stop t =>
    simp only [xesStep, xesStop] at hr
    split at hr
    · cases hr
      exact { s with globals := fun r b hg => by cases hg }
    by_cases ht : lower t ∈ attrTags
    case neg =>
      simp only [ht, not_false_eq_true, if_true] at hr
      split at hr
      · split at hr
        · next t e ht he =>
          obtain ⟨h3, hm, hr⟩ := bind_ok.1 hr
          obtain ⟨e2, s2⟩ := traceAppend_fresh s.heap (s.trace _ ht) (s.event _ he) hm
          have s3 := s.sized e2 (Nat.le_of_eq s2.symm)
          split at hr
          · cases hr
          · next x objs ho =>
            cases hr
            exact { s3 with
              event := fun r hr => by cases hr
              objs := fun r hr => s3.objs r (by simp only [ho]; exact List.mem_cons_of_mem _ hr) }
        · cases hr
        · next t hv _ =>
          obtain ⟨h3, hm, hr⟩ := bind_ok.1 hr
          obtain ⟨e1, s1, n1⟩ := s.heap.alloc (o := .pyNone) (by simp [Obj.refs])
          obtain ⟨e2, s2⟩ := traceAppend_fresh e1 ((s.trace _ hv).mono (by omega)) ⟨by rw [n1]; exact s.heap.grows, by rw [n1, s1]; omega⟩ hm
          have s3 := s.sized e2 (by omega)
          split at hr
          · cases hr
          · next x objs ho =>
            cases hr
            exact { s3 with objs := fun r hr => s3.objs r (by simp only [ho]; exact List.mem_cons_of_mem _ hr) }
      split at hr
      · split at hr
        · next l t hl ht =>
          obtain ⟨h3, hm, hr⟩ := bind_ok.1 hr
          obtain ⟨e2, s2⟩ := logAppend_fresh s.heap (s.log _ hl) (s.trace _ ht) hm
          have s3 := s.sized e2 (Nat.le_of_eq s2.symm)
          split at hr
          · cases hr
          · next x objs ho =>
            cases hr
            exact { s3 with
              trace := fun r hr => by cases hr
              objs := fun r hr => s3.objs r (by simp only [ho]; exact List.mem_cons_of_mem _ hr) }
        · cases hr
        · next l hv _ =>
          obtain ⟨h3, hm, hr⟩ := bind_ok.1 hr
          obtain ⟨e1, s1, n1⟩ := s.heap.alloc (o := .pyNone) (by simp [Obj.refs])
          obtain ⟨e2, s2⟩ := logAppend_fresh e1 ((s.log _ hv).mono (by omega)) ⟨by rw [n1]; exact s.heap.grows, by rw [n1, s1]; omega⟩ hm
          have s3 := s.sized e2 (by omega)
          split at hr
          · cases hr
          · next x objs ho =>
            cases hr
            exact { s3 with objs := fun r hr => s3.objs r (by simp only [ho]; exact List.mem_cons_of_mem _ hr) }
      split at hr
      · split at hr
        · cases hr
        · next x objs ho =>
          cases hr
          exact { s with objs := fun r hr => s.objs r (by simp only [ho]; exact List.mem_cons_of_mem _ hr) }
      · cases hr
        exact s
    case pos =>
      simp only [ht, not_true, if_false] at hr
      split at hr
      · cases hr
      · next i attrs ha =>
        have hi : New h st.heap i := s.attrs i (by simp [ha])
        have has : ∀ r ∈ attrs, New h st.heap r := fun r hr => s.attrs r (by simp [ha, hr])
        split at hr
        · cases hr
        · next x objs ho =>
          have hos : ∀ r ∈ objs, New h st.heap r := fun r hr => s.objs r (by simp [ho, hr])
          split at hr
          · next l ev hg =>
            obtain ⟨h3, hm, hr⟩ := bind_ok.1 hr
            cases hr
            obtain ⟨e2, s2⟩ := modLog_fresh s.heap (fun r hr => by cases hr; exact s.globals _ _ hg) (by
              intro o ho c hc
              split at hc <;>
              · simp only [Obj.refs, List.mem_cons, List.mem_append, List.not_mem_nil, or_false] at hc ho
                rcases hc with h' | h' <;> rcases h' with h' | h' <;> grind) hm
            have s3 := s.sized e2 (Nat.le_of_eq s2.symm)
            exact { s3 with
              attrs := fun r hr => s3.attrs r (by simp [ha, hr])
              objs := fun r hr => s3.objs r (by simp [ho, hr]) }
          · split at hr
            · cases hr
            · next p rest =>
              obtain ⟨m, hm, hr⟩ := bind_ok.1 hr
              obtain ⟨k, _, hr⟩ := bind_ok.1 hr
              obtain ⟨h3, hs, hr⟩ := bind_ok.1 hr
              cases hr
              have hmn := mapOf_new s.heap (hos p (by simp)) hm
              obtain ⟨e2, s2⟩ := mapSet_fresh s.heap hmn hi hs
              obtain ⟨e3, s3⟩ := addToColl_fresh e2 (fun r hr => (has r hr).mono (Nat.le_of_eq s2.symm)) (hi.mono (Nat.le_of_eq s2.symm))
              have s4 := s.sized e3 (Nat.le_of_eq (s3.trans s2).symm)
              exact { s4 with
                attrs := fun r hr => s4.attrs r (by simp [ha, hr])
                objs := fun r hr => s4.objs r (by simp only [ho]; exact List.mem_cons_of_mem _ hr) }

theorem run_fresh {h : Heap F} {rnd : Nat → Uuid} {mgr : ExtMgr} : ∀ {evs : List Sax} {st st' : XesSt F}, FreshSt h st →
    xesRun (stdFactory F rnd) mgr st evs = .ok st' → FreshSt h st' := by
  intro evs
  induction evs with
  | nil =>
    intro st st' s hr
    cases hr
    exact s
  | cons e es ih =>
    intro st st' s hr
    obtain ⟨s1, h1, h2⟩ := bind_ok.1 hr
    exact ih (step_fresh s h1) h2

theorem init_fresh (h : Heap F) : FreshSt h (.init h) where
  heap := .refl h
  log r hr := by cases hr
  trace r hr := by cases hr
  event r hr := by cases hr
  attrs r hr := by cases hr
  objs r hr := by cases hr
  globals r b hr := by cases hr

/-- Everything that can be reached from an added object was added. -/
theorem Extends.reach {h h' : Heap F} (e : Extends h h') {a r : Ref} (ha : New h h' a) (hr : Reach h' a r) : New h h' r := by
  induction hr with
  | refl => exact ha
  | step _ ho hc ih => exact e.closed _ _ ih.1 ho _ hc

/-- C147: loading leaves every object that was there before as it was, and all objects of the loaded log were not there before. -/
theorem c147_new {given : Option (Factory F)} {rnd : Nat → Uuid} {mgr : ExtMgr} {h h' : Heap F} {file : List Sax} {l : Ref}
    (hl : xesParse given (stdFactory F rnd) mgr h file = .ok (some l, h')) :
    (∀ r, r < h.size → h'.get r = h.get r) ∧ ∀ r, Reach h' l r → h.size ≤ r ∧ r < h'.size := by
  obtain ⟨st, h1, h2⟩ := bind_ok.1 hl
  have s := run_fresh (init_fresh h) h1
  simp only [Except.ok.injEq, Prod.mk.injEq] at h2
  obtain ⟨h2, rfl⟩ := h2
  exact ⟨s.heap.same, fun r hr => s.heap.reach (s.log l h2) hr⟩

/-- An object whose references all lead to objects. -/
def Sound (h : Heap F) : Prop := ∀ r o, h.get r = some o → ∀ c ∈ o.refs, c < h.size

/-- C147: no element that was there before reaches an object of the loaded log. -/
theorem c147_old {given : Option (Factory F)} {rnd : Nat → Uuid} {mgr : ExtMgr} {h h' : Heap F} {file : List Sax} {l : Option Ref}
    (hs : Sound h) (hl : xesParse given (stdFactory F rnd) mgr h file = .ok (l, h')) {a : Ref} (ha : a < h.size) {r : Ref} (hr : Reach h' a r) :
    r < h.size ∧ Reach h a r := by
  obtain ⟨st, h1, h2⟩ := bind_ok.1 hl
  have s := run_fresh (init_fresh h) h1
  simp only [Except.ok.injEq, Prod.mk.injEq] at h2
  obtain ⟨_, rfl⟩ := h2
  induction hr with
  | refl => exact ⟨ha, .refl⟩
  | step _ ho hc ih =>
    rw [s.heap.same _ ih.1] at ho
    exact ⟨hs _ _ ho _ hc, .step ih.2 ho hc⟩

/-- C147: ... and loading leaves the heap sound. -/
theorem c147_sound {given : Option (Factory F)} {rnd : Nat → Uuid} {mgr : ExtMgr} {h h' : Heap F} {file : List Sax} {l : Option Ref}
    (hs : Sound h) (hl : xesParse given (stdFactory F rnd) mgr h file = .ok (l, h')) : Sound h' := by
  obtain ⟨st, h1, h2⟩ := bind_ok.1 hl
  have s := run_fresh (init_fresh h) h1
  simp only [Except.ok.injEq, Prod.mk.injEq] at h2
  obtain ⟨_, rfl⟩ := h2
  intro r o ho c hc
  rcases Nat.lt_or_ge r h.size with hr | hr
  · rw [s.heap.same r hr] at ho
    exact Nat.lt_of_lt_of_le (hs r o ho c hc) s.heap.grows
  · exact (s.heap.closed r o hr ho c hc).2

/-- C147: two logs loaded one after the other, from whatever files, share no object; the second load leaves the first log as it was,
and overwriting any object of one leaves all objects of the other. -/
theorem c147_two {g1 g2 : Option (Factory F)} {rnd : Nat → Uuid} {mgr1 mgr2 : ExtMgr} {h h1 h2 : Heap F} {f1 f2 : List Sax} {l1 l2 : Ref}
    (hl1 : xesParse g1 (stdFactory F rnd) mgr1 h f1 = .ok (some l1, h1)) (hl2 : xesParse g2 (stdFactory F rnd) mgr2 h1 f2 = .ok (some l2, h2)) :
    (∀ r, ¬ (Reach h2 l1 r ∧ Reach h2 l2 r)) ∧ (∀ r, Reach h2 l1 r ↔ Reach h1 l1 r) ∧ (∀ r, Reach h1 l1 r → h2.get r = h1.get r) ∧
    (∀ r o s, Reach h2 l2 r → Reach h2 l1 s → (h2.put r o).get s = h2.get s) ∧
    (∀ r o s, Reach h2 l1 r → Reach h2 l2 s → (h2.put r o).get s = h2.get s) := by
  obtain ⟨s1, n1⟩ := c147_new hl1
  obtain ⟨s2, n2⟩ := c147_new hl2
  have eq : ∀ r, Reach h2 l1 r ↔ Reach h1 l1 r := by
    intro r
    constructor
    · intro hr
      induction hr with
      | refl => exact .refl
      | step _ ho hc ih =>
        rw [s2 _ (n1 _ ih).2] at ho
        exact .step ih ho hc
    · intro hr
      induction hr with
      | refl => exact .refl
      | step hb ho hc ih => exact .step ih ((s2 _ (n1 _ hb).2).trans ho) hc
  have dis : ∀ r, ¬ (Reach h2 l1 r ∧ Reach h2 l2 r) :=
    fun r hr => Nat.not_le.2 (n1 r ((eq r).1 hr.1)).2 (n2 r hr.2).1
  have put : ∀ (r s : Ref) (o : Obj F), r ≠ s → (h2.put r o).get s = h2.get s := by
    intro r s o hrs
    simp only [Heap.get, Heap.put]
    rw [List.getElem?_set_ne hrs]
  exact ⟨dis, eq, fun r hr => s2 r (n1 r hr).2, fun r o s hr hs => put r s o (fun hrs => dis s ⟨hs, hrs ▸ hr⟩),
    fun r o s hr hs => put r s o (fun hrs => dis s ⟨hrs ▸ hr, hs⟩)⟩

/-- Two loads of the example document, one after the other. -/
example : ∃ (l1 l2 : Ref) (h1 h2 : Heap ToyFloat), xesParse none (stdFactory ToyFloat fun _ => 0) noExts ⟨[], 0⟩ shapeDoc.sax = .ok (some l1, h1) ∧
    xesParse none (stdFactory ToyFloat fun _ => 0) noExts h1 shapeDoc.sax = .ok (some l2, h2) ∧ h1.size < h2.size ∧ ∀ r, ¬ (Reach h2 l1 r ∧ Reach h2 l2 r) := by
  obtain ⟨p1, e1, a1⟩ : ∃ p, xesParse none (stdFactory ToyFloat fun _ => 0) noExts ⟨[], 0⟩ shapeDoc.sax = .ok p ∧ p.1.isSome := ⟨_, rfl, rfl⟩
  obtain ⟨l1, b1⟩ := Option.isSome_iff_exists.1 a1
  have e1' : xesParse none (stdFactory ToyFloat fun _ => 0) noExts ⟨[], 0⟩ shapeDoc.sax = .ok (some l1, p1.2) := by rw [e1, ← b1]
  obtain ⟨p2, e2, a2⟩ : ∃ p, xesParse none (stdFactory ToyFloat fun _ => 0) noExts p1.2 shapeDoc.sax = .ok p ∧ p.1.isSome := by
    cases e1
    exact ⟨_, rfl, rfl⟩
  obtain ⟨l2, b2⟩ := Option.isSome_iff_exists.1 a2
  have e2' : xesParse none (stdFactory ToyFloat fun _ => 0) noExts p1.2 shapeDoc.sax = .ok (some l2, p2.2) := by rw [e2, ← b2]
  have n := (c147_new e2').2 l2 .refl
  exact ⟨l1, l2, _, _, e1', e2', Nat.lt_of_le_of_lt n.1 n.2, (c147_two e1' e2').1⟩

end

end Opy
