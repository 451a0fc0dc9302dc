import Verif.Props.Fresh
/-
Property C176: in a log loaded from an XES file nothing stands in two places.
-/
set_option linter.unusedSectionVars false
namespace Opy

section
variable {F : Type}

/-! ## Specification -/

/-- A place within an object: under a key of its attribute map, or at an index of a list. -/
inductive Spot where
  | own (key : Str)
  | globalTrace (i : Nat)
  | globalEvent (i : Nat)
  | trace (i : Nat)
  | event (i : Nat)
  deriving DecidableEq

/-- What stands at a place of an object. -/
inductive StandsAt (h : Heap F) (x : Ref) : Spot → Ref → Prop where
  | own {m r : Ref} {d : List (Str × Ref)} {k : Str} : mapOf h x = .ok m → h.get m = some (.map d) → (k, r) ∈ d → StandsAt h x (.own k) r
  | globalTrace {lo : LogObj} {i : Nat} {r : Ref} : h.get x = some (.log lo) → lo.globalTrace[i]? = some r → StandsAt h x (.globalTrace i) r
  | globalEvent {lo : LogObj} {i : Nat} {r : Ref} : h.get x = some (.log lo) → lo.globalEvent[i]? = some r → StandsAt h x (.globalEvent i) r
  | trace {lo : LogObj} {i : Nat} {r : Ref} : h.get x = some (.log lo) → lo.traces[i]? = some r → StandsAt h x (.trace i) r
  | event {m : Ref} {es : List Ref} {i : Nat} {r : Ref} : h.get x = some (.trace m es) → es[i]? = some r → StandsAt h x (.event i) r

/-- The places from the log on (the last one first) lead to the object. -/
inductive Leads (h : Heap F) (l : Ref) : List Spot → Ref → Prop where
  | here : Leads h l [] l
  | there {ps : List Spot} {x r : Ref} {p : Spot} : Leads h l ps x → StandsAt h x p r → Leads h l (p :: ps) r

/-! ## Counting references -/

/-- What an object refers to, members of collections aside. -/
def placeRefs : Obj F → List Ref
  | .map d => d.map Prod.snd
  | .attr _ _ _ _ m _ => [m]
  | .event _ m => [m]
  | .trace m es => m :: es
  | .log l => l.map :: (l.globalTrace ++ l.globalEvent ++ l.traces)
  | .pyNone => []

/-- The members of a collection. -/
def memberRefs : Obj F → List Ref
  | .attr _ _ _ _ _ c => c
  | _ => []

/-- How often the objects from `N` on refer to `a`. -/
def heldBy (f : Obj F → List Ref) (N : Nat) (h : Heap F) (a : Ref) : Nat := ((h.objs.drop N).flatMap f).count a

theorem flat_set (f : Obj F → List Ref) (a : Ref) : ∀ (l : List (Obj F)) (i : Nat) (old o : Obj F), l[i]? = some old →
    ((l.set i o).flatMap f).count a + (f old).count a = (l.flatMap f).count a + (f o).count a
  | [], _, _, _, h => by cases h
  | x :: l, 0, old, o, h => by
    simp only [List.getElem?_cons_zero, Option.some.injEq] at h
    subst h
    simp only [List.set_cons_zero, List.flatMap_cons, List.count_append]
    omega
  | x :: l, i + 1, old, o, h => by
    simp only [List.getElem?_cons_succ] at h
    have := flat_set f a l i old o h
    simp only [List.set_cons_succ, List.flatMap_cons, List.count_append]
    omega

theorem tally_put (f : Obj F → List Ref) {N : Nat} {h : Heap F} {r : Ref} (hr : N ≤ r) {old : Obj F} (g : h.get r = some old) (o : Obj F) (a : Ref) :
    heldBy f N (h.put r o) a + (f old).count a = heldBy f N h a + (f o).count a := by
  have e : (h.put r o).objs.drop N = (h.objs.drop N).set (r - N) o := by
    simp only [Heap.put, List.drop_set]
    rw [if_neg (by omega)]
  unfold heldBy
  rw [e]
  refine flat_set f a _ _ old o ?_
  rw [List.getElem?_drop, Nat.add_sub_cancel' hr]
  exact g

theorem tally_more (f : Obj F → List Ref) {N : Nat} {h : Heap F} (hN : N ≤ h.size) (os : List (Obj F)) (d : Nat) (a : Ref) :
    heldBy f N ⟨h.objs ++ os, d⟩ a = heldBy f N h a + (os.flatMap f).count a := by
  unfold heldBy
  simp only [Heap.size] at hN
  rw [List.drop_append_of_le_length hN, List.flatMap_append, List.count_append]

theorem placeRefs_sub (o : Obj F) : ∀ c ∈ placeRefs o, c ∈ o.refs := by
  cases o <;> simp [placeRefs, Obj.refs]

theorem memberRefs_sub (o : Obj F) : ∀ c ∈ memberRefs o, c ∈ o.refs := by
  cases o <;> simp [memberRefs, Obj.refs]
  intro c hc; exact Or.inr hc

theorem tally_new {f : Obj F → List Ref} (hf : ∀ o, ∀ c ∈ f o, c ∈ o.refs) {h h' : Heap F} (e : Extends h h') {a : Ref} (ha : h'.size ≤ a) :
    heldBy f h.size h' a = 0 := by
  unfold heldBy
  rw [List.count_eq_zero]
  intro hm
  obtain ⟨o, ho, hc⟩ := List.mem_flatMap.1 hm
  obtain ⟨i, hi⟩ := List.getElem?_of_mem ho
  rw [List.getElem?_drop] at hi
  have := (e.closed (h.size + i) o (Nat.le_add_right _ _) hi a (hf o a hc)).2
  omega

theorem dset_count (k : Str) (v : Ref) (a : Ref) : ∀ d : List (Str × Ref),
    ((dset k v d).map Prod.snd).count a ≤ (d.map Prod.snd).count a + (if v = a then 1 else 0)
  | [] => by simp [dset, List.count_cons]
  | (k', v') :: d => by
    have := dset_count k v a d
    simp only [dset]
    split
    · simp only [List.map_cons, List.count_cons, beq_iff_eq]
      omega
    · simp only [List.map_cons, List.count_cons, beq_iff_eq]
      omega

/-- What the handler holds and has not put anywhere (or never puts anywhere: the log). -/
def pending (st : XesSt F) : List Ref := st.log.toList ++ (st.trace.toList ++ (st.event.toList ++ st.attrs))

/-- Nothing stands in two places. -/
structure Solo (h : Heap F) (st : XesSt F) : Prop where
  places : ∀ a, (pending st).count a + heldBy placeRefs h.size st.heap a ≤ 1
  members : ∀ a, st.attrs.count a + heldBy memberRefs h.size st.heap a ≤ 1

theorem pending_new {h : Heap F} {st : XesSt F} (s : FreshSt h st) {a : Ref} (ha : st.heap.size ≤ a) : (pending st).count a = 0 := by
  rw [List.count_eq_zero]
  intro hm
  have : New h st.heap a := by
    simp only [pending, List.mem_append, Option.mem_toList] at hm
    rcases hm with q | q | q | q
    · exact s.log a q
    · exact s.trace a q
    · exact s.event a q
    · exact s.attrs a q
  exact absurd this.2 (by omega)

theorem attrs_new {h : Heap F} {st : XesSt F} (s : FreshSt h st) {a : Ref} (ha : st.heap.size ≤ a) : st.attrs.count a = 0 := by
  rw [List.count_eq_zero]
  intro hm
  exact absurd (s.attrs a hm).2 (by omega)

/-- An object with its new map. -/
theorem Solo.fresh {h : Heap F} {st : XesSt F} (s : FreshSt h st) (q : Solo h st) {os : List (Obj F)} {d n : Nat} {st' : XesSt F}
    (hh : st'.heap = ⟨st.heap.objs ++ os, d⟩) (hn : n = st.heap.size + 1 ∨ n = st.heap.size + 2)
    (ho : ∀ a, (os.flatMap placeRefs).count a ≤ if n = a + 1 then 1 else 0) (hm : os.flatMap memberRefs = [])
    (hp : ∀ a, (pending st').count a ≤ (pending st).count a + if n = a then 1 else 0)
    (ha : ∀ a, st'.attrs.count a ≤ st.attrs.count a + if n = a then 1 else 0) : Solo h st' := by
  have g := s.heap.grows
  constructor
  · intro a
    rw [hh, tally_more _ g]
    have h1 := hp a
    have h2 := ho a
    have h3 := q.places a
    by_cases hl : a < st.heap.size
    · rw [if_neg (by omega)] at h1 h2
      omega
    · have h4 := pending_new s (a := a) (by omega)
      have h5 := tally_new (f := placeRefs) placeRefs_sub s.heap (a := a) (by omega)
      by_cases e1 : n = a
      · rw [if_pos e1] at h1
        rw [if_neg (by omega)] at h2
        omega
      · rw [if_neg e1] at h1
        split at h2 <;> omega
  · intro a
    rw [hh, tally_more _ g, hm]
    have h1 := ha a
    have h3 := q.members a
    simp only [List.count_nil, Nat.add_zero]
    by_cases hl : a < st.heap.size
    · rw [if_neg (by omega)] at h1
      omega
    · have h4 := attrs_new s (a := a) (by omega)
      have h5 := tally_new (f := memberRefs) memberRefs_sub s.heap (a := a) (by omega)
      split at h1 <;> omega

/-- The heap changes, references become no more. -/
theorem Solo.less {h : Heap F} {st st' : XesSt F} (q : Solo h st) (h1 : ∀ a, (pending st').count a + heldBy placeRefs h.size st'.heap a ≤
    (pending st).count a + heldBy placeRefs h.size st.heap a) (h2 : ∀ a, st'.attrs.count a + heldBy memberRefs h.size st'.heap a ≤
    st.attrs.count a + heldBy memberRefs h.size st.heap a) : Solo h st' :=
  ⟨fun a => Nat.le_trans (h1 a) (q.places a), fun a => Nat.le_trans (h2 a) (q.members a)⟩

theorem modLog_tally {h h1 h2 : Heap F} {l : Option Ref} (hl : ∀ r, l = some r → New h h1 r) {f : LogObj → LogObj} (hm : modLog h1 l f = .ok h2) :
    ∃ r o, l = some r ∧ h1.get r = some (.log o) ∧ (∀ a, heldBy placeRefs h.size h2 a + (placeRefs (F := F) (.log o)).count a =
      heldBy placeRefs h.size h1 a + (placeRefs (F := F) (.log (f o))).count a) ∧ ∀ a, heldBy memberRefs h.size h2 a = heldBy memberRefs h.size h1 a := by
  unfold modLog at hm
  split at hm
  · cases hm
  · next r =>
    split at hm
    · next o ho =>
      cases hm
      refine ⟨r, o, rfl, ho, fun a => tally_put _ (hl r rfl).1 ho _ a, fun a => ?_⟩
      simpa only [memberRefs, List.count_nil, Nat.add_zero] using tally_put memberRefs (hl r rfl).1 ho (.log (f o)) a
    · cases hm

theorem traceAppend_ok {h h' : Heap F} {t e : Ref} (hm : traceAppend h t e = .ok h') :
    ∃ m es, h.get t = some (.trace m es) ∧ h' = h.put t (.trace m (es ++ [e])) := by
  unfold traceAppend at hm
  split at hm
  · next m es g =>
    cases hm
    exact ⟨m, es, g, rfl⟩
  · cases hm

theorem logAppend_ok {h h' : Heap F} {l t : Ref} (hm : logAppend h l t = .ok h') :
    ∃ o, h.get l = some (.log o) ∧ h' = h.put l (.log { o with traces := o.traces ++ [t] }) := by
  unfold logAppend at hm
  split at hm
  · next o g =>
    cases hm
    exact ⟨o, g, rfl⟩
  · cases hm

theorem mapSet_ok {h h' : Heap F} {m : Ref} {k : Str} {v : Ref} (hm : mapSet h m k v = .ok h') :
    ∃ d, h.get m = some (.map d) ∧ h' = h.put m (.map (dset k v d)) := by
  unfold mapSet at hm
  split at hm
  · next d g =>
    cases hm
    exact ⟨d, g, rfl⟩
  · cases hm

theorem addToColl_tally {h h1 : Heap F} {stack : List Ref} {i : Ref} (hs : ∀ r ∈ stack, New h h1 r) :
    (∀ a, heldBy placeRefs h.size (addToColl h1 stack i) a = heldBy placeRefs h.size h1 a) ∧
    ∀ a, heldBy memberRefs h.size (addToColl h1 stack i) a ≤ heldBy memberRefs h.size h1 a + if i = a then 1 else 0 := by
  unfold addToColl
  split
  · exact ⟨fun _ => rfl, fun _ => Nat.le_add_right _ _⟩
  · next t rest =>
    split
    · next k key e v m c g =>
      split
      · refine ⟨fun a => ?_, fun a => ?_⟩
        · have := tally_put placeRefs (hs t (by simp)).1 g (.attr k key e v m (c ++ [i])) a
          simp only [placeRefs] at this
          omega
        · have := tally_put memberRefs (hs t (by simp)).1 g (.attr k key e v m (c ++ [i])) a
          simp only [memberRefs, List.count_append, List.count_cons, List.count_nil, beq_iff_eq] at this
          omega
      · exact ⟨fun _ => rfl, fun _ => Nat.le_add_right _ _⟩
    · exact ⟨fun _ => rfl, fun _ => Nat.le_add_right _ _⟩

/-- `None` in a list: an object of its own in the model. -/
theorem Solo.none' {h : Heap F} {st st' : XesSt F} (s : FreshSt h st) (q : Solo h st) {t : Ref} {old o : Obj F} (ht : New h st.heap t)
    (g : (st.heap.alloc .pyNone).2.get t = some old) (hh : st'.heap = (st.heap.alloc .pyNone).2.put t o)
    (ho : ∀ a, (placeRefs o).count a ≤ (placeRefs old).count a + if st.heap.size = a then 1 else 0) (hm : memberRefs o = memberRefs old)
    (hp : pending st' = pending st) (ha : st'.attrs = st.attrs) : Solo h st' := by
  have e : (st.heap.alloc .pyNone).2 = ⟨st.heap.objs ++ [.pyNone], st.heap.drawn⟩ := rfl
  constructor
  · intro a
    have h1 := tally_put placeRefs ht.1 g o a
    have h2 := tally_more (f := placeRefs) s.heap.grows [.pyNone] st.heap.drawn a
    rw [← e] at h2
    simp only [placeRefs, List.flatMap_cons, List.flatMap_nil, List.append_nil, List.count_nil, Nat.add_zero] at h2
    have h3 := ho a
    have h4 := q.places a
    rw [hh, hp]
    by_cases hl : st.heap.size = a
    · have h5 := pending_new s (a := a) (by omega)
      have h6 := tally_new (f := placeRefs) placeRefs_sub s.heap (a := a) (by omega)
      rw [if_pos hl] at h3
      omega
    · rw [if_neg hl] at h3
      omega
  · intro a
    have h1 := tally_put memberRefs ht.1 g o a
    have h2 := tally_more (f := memberRefs) s.heap.grows [.pyNone] st.heap.drawn a
    rw [← e] at h2
    simp only [memberRefs, List.flatMap_cons, List.flatMap_nil, List.append_nil, List.count_nil, Nat.add_zero] at h2
    have h4 := q.members a
    rw [hm] at h1
    rw [hh, ha]
    omega

variable [PyFloat F]

theorem step_solo {h : Heap F} {rnd : Nat → Uuid} {mgr : ExtMgr} {st st' : XesSt F} (s : FreshSt h st) (q : Solo h st) {e : Sax}
    (hr : xesStep (stdFactory F rnd) mgr st e = .ok st') : Solo h st' := by
  cases e with
  | start t as =>
    simp only [xesStep] at hr
    by_cases ht : lower t ∈ attrTags
    · rw [xesStart_attr _ mgr st ht] at hr
      obtain ⟨o, _, hr⟩ := bind_ok.1 hr
      cases o with
      | none =>
        cases hr
        exact q
      | some kv =>
        simp only [stdFactory, newAttr_eq, Except.ok.injEq] at hr
        subst hr
        refine q.fresh s (n := st.heap.size + 1) rfl (Or.inl rfl) ?_ rfl ?_ ?_
        · intro a
          simp only [List.flatMap_cons, List.flatMap_nil, placeRefs, List.map_nil, List.nil_append, List.append_nil, List.count_cons, List.count_nil, beq_iff_eq,
            Nat.add_right_cancel_iff]
          split <;> omega
        · intro a
          simp only [pending, List.count_append, List.count_cons, beq_iff_eq]
          omega
        · intro a
          simp only [List.count_cons, beq_iff_eq]
          exact Nat.le_refl _
    · simp only [xesStart, ht, not_false_eq_true, if_true] at hr
      split at hr
      · simp only [stdFactory, createEvent_eq, Except.ok.injEq] at hr
        subst hr
        refine q.fresh s (n := st.heap.size + 2) rfl (Or.inr rfl) ?_ rfl ?_ (fun a => Nat.le_add_right _ _)
        · intro a
          simp only [List.flatMap_cons, List.flatMap_nil, placeRefs, List.map_nil, List.nil_append, List.append_nil, List.count_cons, List.count_nil, beq_iff_eq]
          split <;> split <;> omega
        · intro a
          simp only [pending, List.count_append, Option.toList_some, List.count_cons, List.count_nil, beq_iff_eq]
          omega
      split at hr
      · simp only [stdFactory, createTrace_eq, Except.ok.injEq] at hr
        subst hr
        refine q.fresh s (n := st.heap.size + 2) rfl (Or.inr rfl) ?_ rfl ?_ (fun a => Nat.le_add_right _ _)
        · intro a
          simp only [List.flatMap_cons, List.flatMap_nil, placeRefs, List.map_nil, List.nil_append, List.append_nil, List.count_cons, List.count_nil, beq_iff_eq]
          split <;> split <;> omega
        · intro a
          simp only [pending, List.count_append, Option.toList_some, List.count_cons, List.count_nil, beq_iff_eq]
          omega
      split at hr
      · simp only [stdFactory, createLog_eq] at hr
        obtain ⟨h3, hm, hr⟩ := bind_ok.1 hr
        simp only [Except.ok.injEq] at hr
        subst hr
        obtain ⟨e1, n1, s1⟩ := s.heap.three (o := .log ⟨st.heap.size + 1, [], [], [], [], [], []⟩) (d := st.heap.drawn) (by simp [Obj.refs])
        obtain ⟨r, o, c0, c1, c2, c3⟩ := modLog_tally (h := h) (by intro r hr; cases hr; exact n1) hm
        have mid : Solo h { st with heap := ⟨st.heap.objs ++ [.map [], .map [], .log ⟨st.heap.size + 1, [], [], [], [], [], []⟩], st.heap.drawn⟩, log := some (st.heap.size + 2), objs := (st.heap.size + 2) :: st.objs } := by
          refine q.fresh s (n := st.heap.size + 2) rfl (Or.inr rfl) ?_ rfl ?_ (fun a => Nat.le_add_right _ _)
          · intro a
            simp only [List.flatMap_cons, List.flatMap_nil, placeRefs, List.map_nil, List.nil_append, List.append_nil, List.count_cons, List.count_nil, beq_iff_eq]
            split <;> split <;> omega
          · intro a
            simp only [pending, List.count_append, Option.toList_some, List.count_cons, List.count_nil, beq_iff_eq]
            omega
        refine mid.less (fun a => ?_) (fun a => ?_)
        · have := c2 a
          simp only [placeRefs] at this
          simp only [pending]
          omega
        · have := c3 a
          simp only [this]
          exact Nat.le_refl _
      split at hr
      · split at hr
        all_goals
          obtain ⟨o, _, hr⟩ := bind_ok.1 hr
          split at hr
          · obtain ⟨h3, hm, hr⟩ := bind_ok.1 hr
            cases hr
            obtain ⟨r, o, c0, c1, c2, c3⟩ := modLog_tally (h := h) s.log hm
            refine q.less (fun a => ?_) (fun a => ?_)
            · have := c2 a
              simp only [placeRefs] at this
              simp only [pending]
              omega
            · have := c3 a
              simp only [this]
              exact Nat.le_refl _
          · cases hr
            exact q
          · cases hr
      split at hr
      · split at hr
        · cases hr
        · split at hr
          · split at hr
            · cases hr
            · next l hl =>
              cases hr
              exact ⟨q.places, q.members⟩
          · split at hr
            · split at hr
              · cases hr
              · next l hl =>
                cases hr
                exact ⟨q.places, q.members⟩
            · cases hr
              exact q
      split at hr
      · split at hr
        · split at hr
          · obtain ⟨h3, hm, hr⟩ := bind_ok.1 hr
            cases hr
            obtain ⟨r, o, c0, c1, c2, c3⟩ := modLog_tally (h := h) s.log hm
            refine q.less (fun a => ?_) (fun a => ?_)
            · have := c2 a
              simp only [placeRefs] at this
              simp only [pending]
              omega
            · have := c3 a
              simp only [this]
              exact Nat.le_refl _
          · cases hr
            exact q
        · cases hr
          exact q
      · cases hr
        exact q
  | stop t =>
    simp only [xesStep, xesStop] at hr
    split at hr
    · cases hr
      exact ⟨q.places, q.members⟩
    by_cases ht : lower t ∈ attrTags
    case neg =>
      simp only [ht, not_false_eq_true, if_true] at hr
      split at hr
      · split at hr
        · next t e ht he =>
          obtain ⟨h3, hm, hr⟩ := bind_ok.1 hr
          split at hr
          · cases hr
          · next x objs ho =>
            cases hr
            obtain ⟨m, es, g, rfl⟩ := traceAppend_ok hm
            refine q.less (fun a => ?_) (fun a => ?_)
            · have := tally_put placeRefs (s.trace t ht).1 g (.trace m (es ++ [e])) a
              simp only [placeRefs, List.count_cons, List.count_append, List.count_nil] at this
              simp only [pending, he, List.count_append, Option.toList_some, Option.toList_none, List.count_cons, List.count_nil]
              omega
            · have := tally_put memberRefs (s.trace t ht).1 g (.trace m (es ++ [e])) a
              simp only [memberRefs] at this
              simp only []
              omega
        · cases hr
        · next t hv _ =>
          obtain ⟨h3, hm, hr⟩ := bind_ok.1 hr
          split at hr
          · cases hr
          · next x objs ho =>
            cases hr
            obtain ⟨m, es, g, rfl⟩ := traceAppend_ok hm
            refine q.none' s (s.trace t hv) g rfl (fun a => ?_) rfl rfl rfl
            simp only [placeRefs, List.count_cons, List.count_append, List.count_nil, beq_iff_eq, Heap.alloc, Heap.size]
            by_cases hz : st.heap.objs.length = a <;> simp only [hz, if_true, if_false] <;> omega
      split at hr
      · split at hr
        · next l t hl ht =>
          obtain ⟨h3, hm, hr⟩ := bind_ok.1 hr
          split at hr
          · cases hr
          · next x objs ho =>
            cases hr
            obtain ⟨o, g, rfl⟩ := logAppend_ok hm
            refine q.less (fun a => ?_) (fun a => ?_)
            · have := tally_put placeRefs (s.log l hl).1 g (.log { o with traces := o.traces ++ [t] }) a
              simp only [placeRefs, List.count_cons, List.count_append, List.count_nil] at this
              simp only [pending, ht, List.count_append, Option.toList_some, Option.toList_none, List.count_cons, List.count_nil]
              omega
            · have := tally_put memberRefs (s.log l hl).1 g (.log { o with traces := o.traces ++ [t] }) a
              simp only [memberRefs] at this
              simp only []
              omega
        · cases hr
        · next l hv _ =>
          obtain ⟨h3, hm, hr⟩ := bind_ok.1 hr
          split at hr
          · cases hr
          · next x objs ho =>
            cases hr
            obtain ⟨o, g, rfl⟩ := logAppend_ok hm
            refine q.none' s (s.log l hv) g rfl (fun a => ?_) rfl rfl rfl
            simp only [placeRefs, List.count_cons, List.count_append, List.count_nil, beq_iff_eq, Heap.alloc, Heap.size]
            by_cases hz : st.heap.objs.length = a <;> simp only [hz, if_true, if_false] <;> omega
      split at hr
      · split at hr
        · cases hr
        · next x objs ho =>
          cases hr
          exact ⟨q.places, q.members⟩
      · cases hr
        exact q
    case pos =>
      simp only [ht, not_true, if_false] at hr
      split at hr
      · cases hr
      · next i attrs ha =>
        split at hr
        · cases hr
        · next x objs ho =>
          have hos : ∀ r ∈ objs, New h st.heap r := fun r hr => s.objs r (by simp [ho, hr])
          split at hr
          · next l ev hg =>
            obtain ⟨h3, hm, hr⟩ := bind_ok.1 hr
            cases hr
            obtain ⟨r, o, c0, c1, c2, c3⟩ := modLog_tally (h := h) (fun r hr => by cases hr; exact s.globals _ _ hg) hm
            refine q.less (fun a => ?_) (fun a => ?_)
            · have := c2 a
              simp only [pending, ha, List.count_append, List.count_cons]
              cases ev <;>
              · simp only [placeRefs, if_true, Bool.false_eq_true, if_false, List.count_cons, List.count_append, List.count_nil] at this
                omega
            · have := c3 a
              simp only [ha, List.count_cons, this]
              omega
          · split at hr
            · cases hr
            · next p rest =>
              obtain ⟨m, hm, hr⟩ := bind_ok.1 hr
              obtain ⟨k, _, hr⟩ := bind_ok.1 hr
              obtain ⟨h3, hs, hr⟩ := bind_ok.1 hr
              cases hr
              have hmn := mapOf_new s.heap (hos p (by simp)) hm
              obtain ⟨d, g, rfl⟩ := mapSet_ok hs
              have sz : (st.heap.put m (.map (dset k i d))).size = st.heap.size := by simp [Heap.put, Heap.size]
              obtain ⟨t1, t2⟩ := addToColl_tally (h := h) (h1 := st.heap.put m (.map (dset k i d))) (stack := attrs) (i := i)
                (fun r hr => (s.attrs r (by simp [ha, hr])).mono (Nat.le_of_eq sz.symm))
              refine q.less (fun a => ?_) (fun a => ?_)
              · have u1 := tally_put placeRefs hmn.1 g (.map (dset k i d)) a
                have u2 := dset_count k i a d
                have u3 := t1 a
                simp only [placeRefs] at u1
                simp only [pending, ha, List.count_append, List.count_cons, beq_iff_eq]
                omega
              · have u1 := tally_put memberRefs hmn.1 g (.map (dset k i d)) a
                have u3 := t2 a
                simp only [memberRefs] at u1
                simp only [ha, List.count_cons, beq_iff_eq]
                omega

theorem run_solo {h : Heap F} {rnd : Nat → Uuid} {mgr : ExtMgr} : ∀ {evs : List Sax} {st st' : XesSt F}, FreshSt h st → Solo h st →
    xesRun (stdFactory F rnd) mgr st evs = .ok st' → Solo h st' := by
  intro evs
  induction evs with
  | nil =>
    intro st st' _ q hr
    cases hr
    exact q
  | cons e es ih =>
    intro st st' s q hr
    obtain ⟨s1, h1, h2⟩ := bind_ok.1 hr
    exact ih (step_fresh s h1) (step_solo s q h1) h2

theorem init_solo (h : Heap F) : Solo h (.init h) := by
  constructor <;> intro a <;> simp [pending, heldBy, XesSt.init, Heap.size]

/-! ## Places -/

theorem flat_once {f : Obj F → List Ref} {a : Ref} : ∀ {l : List (Obj F)}, (l.flatMap f).count a ≤ 1 → ∀ {i j : Nat} {o o' : Obj F},
    l[i]? = some o → l[j]? = some o' → a ∈ f o → a ∈ f o' → i = j
  | [], _, _, _, _, _, h, _, _, _ => by cases h
  | x :: l, hc, i, j, o, o', hi, hj, ho, ho' => by
    simp only [List.flatMap_cons, List.count_append] at hc
    have pos : ∀ {y : Obj F} {n : Nat}, l[n]? = some y → a ∈ f y → 0 < (l.flatMap f).count a := fun hn hy =>
      List.count_pos_iff.2 (List.mem_flatMap.2 ⟨_, List.mem_of_getElem? hn, hy⟩)
    cases i with
    | zero =>
      cases j with
      | zero => rfl
      | succ j =>
        simp only [List.getElem?_cons_zero, List.getElem?_cons_succ, Option.some.injEq] at hi hj
        subst hi
        have := List.count_pos_iff.2 ho
        have := pos hj ho'
        omega
    | succ i =>
      cases j with
      | zero =>
        simp only [List.getElem?_cons_zero, List.getElem?_cons_succ, Option.some.injEq] at hi hj
        subst hj
        have := List.count_pos_iff.2 ho'
        have := pos hi ho
        omega
      | succ j =>
        simp only [List.getElem?_cons_succ] at hi hj
        rw [flat_once (l := l) (by omega) hi hj ho ho']

theorem flat_within {f : Obj F → List Ref} {a : Ref} {l : List (Obj F)} (hc : (l.flatMap f).count a ≤ 1) {o : Obj F} (ho : o ∈ l) : (f o).count a ≤ 1 := by
  induction l with
  | nil => cases ho
  | cons x l ih =>
    simp only [List.flatMap_cons, List.count_append] at hc
    rcases List.mem_cons.1 ho with rfl | h
    · omega
    · exact ih (by omega) h

theorem tally_once {f : Obj F → List Ref} {N : Nat} {h : Heap F} {a x y : Ref} {o o' : Obj F} (hc : heldBy f N h a ≤ 1) (hx : N ≤ x) (hy : N ≤ y)
    (gx : h.get x = some o) (gy : h.get y = some o') (ho : a ∈ f o) (ho' : a ∈ f o') : x = y := by
  have e1 : (h.objs.drop N)[x - N]? = some o := by
    rw [List.getElem?_drop, Nat.add_sub_cancel' hx]; exact gx
  have e2 : (h.objs.drop N)[y - N]? = some o' := by
    rw [List.getElem?_drop, Nat.add_sub_cancel' hy]; exact gy
  have := flat_once hc e1 e2 ho ho'
  omega

theorem tally_within {f : Obj F → List Ref} {N : Nat} {h : Heap F} {a x : Ref} {o : Obj F} (hc : heldBy f N h a ≤ 1) (hx : N ≤ x)
    (gx : h.get x = some o) : (f o).count a ≤ 1 := by
  have e1 : (h.objs.drop N)[x - N]? = some o := by
    rw [List.getElem?_drop, Nat.add_sub_cancel' hx]; exact gx
  exact flat_within hc (List.mem_of_getElem? e1)

theorem count_index {a : Ref} : ∀ {l : List Ref}, l.count a ≤ 1 → ∀ {i j : Nat}, l[i]? = some a → l[j]? = some a → i = j
  | [], _, _, _, h, _ => by cases h
  | x :: l, hc, i, j, hi, hj => by
    rw [List.count_cons] at hc
    have pos : ∀ {n : Nat}, l[n]? = some a → 0 < l.count a := fun hn => List.count_pos_iff.2 (List.mem_of_getElem? hn)
    cases i with
    | zero =>
      cases j with
      | zero => rfl
      | succ j =>
        simp only [List.getElem?_cons_zero, List.getElem?_cons_succ, Option.some.injEq] at hi hj
        subst hi
        have := pos hj
        simp only [beq_self_eq_true, if_true] at hc
        omega
    | succ i =>
      cases j with
      | zero =>
        simp only [List.getElem?_cons_zero, List.getElem?_cons_succ, Option.some.injEq] at hi hj
        subst hj
        have := pos hi
        simp only [beq_self_eq_true, if_true] at hc
        omega
      | succ j =>
        simp only [List.getElem?_cons_succ] at hi hj
        rw [count_index (l := l) (by omega) hi hj]

theorem count_key {a : Ref} {k k' : Str} : ∀ {d : List (Str × Ref)}, (d.map Prod.snd).count a ≤ 1 → (k, a) ∈ d → (k', a) ∈ d → k = k'
  | [], _, h, _ => by cases h
  | (k1, v) :: d, hc, hi, hj => by
    rw [List.map_cons, List.count_cons] at hc
    have pos : ∀ {n : Str}, (n, a) ∈ d → 0 < (d.map Prod.snd).count a := fun hn => List.count_pos_iff.2 (List.mem_map.2 ⟨_, hn, rfl⟩)
    rcases List.mem_cons.1 hi with e | hi1
    · cases e
      rcases List.mem_cons.1 hj with e | hj1
      · cases e; rfl
      · have := pos hj1
        simp only [beq_self_eq_true, if_true] at hc
        omega
    · rcases List.mem_cons.1 hj with e | hj1
      · cases e
        have := pos hi1
        simp only [beq_self_eq_true, if_true] at hc
        omega
      · exact count_key (d := d) (by omega) hi1 hj1

theorem mapOf_holds {h : Heap F} {x m : Ref} (hm : mapOf h x = .ok m) : ∃ o, h.get x = some o ∧ m ∈ placeRefs o := by
  unfold mapOf at hm
  split at hm <;> cases hm <;> exact ⟨_, by assumption, by simp [placeRefs]⟩

/-- A place in a list of the object itself. -/
inductive Direct (r : Ref) : Spot → Obj F → Prop where
  | globalTrace {lo : LogObj} {i : Nat} : lo.globalTrace[i]? = some r → Direct r (.globalTrace i) (.log lo)
  | globalEvent {lo : LogObj} {i : Nat} : lo.globalEvent[i]? = some r → Direct r (.globalEvent i) (.log lo)
  | trace {lo : LogObj} {i : Nat} : lo.traces[i]? = some r → Direct r (.trace i) (.log lo)
  | event {m : Ref} {es : List Ref} {i : Nat} : es[i]? = some r → Direct r (.event i) (.trace m es)

theorem Direct.mem {r : Ref} {p : Spot} {o : Obj F} (d : Direct r p o) : r ∈ placeRefs o := by
  cases d <;> simp [placeRefs, List.mem_of_getElem? ‹_›]

theorem Direct.once {r : Ref} {p p' : Spot} {o : Obj F} (d : Direct r p o) (d' : Direct r p' o) (hc : (placeRefs o).count r ≤ 1) : p = p' := by
  cases d <;> cases d' <;> rename_i h1 _ h2 <;> have c1 := List.count_pos_iff.2 (List.mem_of_getElem? h1) <;>
    have c2 := List.count_pos_iff.2 (List.mem_of_getElem? h2) <;> simp only [placeRefs, List.count_cons, List.count_append] at hc <;>
    first
    | omega
    | rw [count_index (by omega) h1 h2]

theorem standsAt_cases {h : Heap F} {x r : Ref} {p : Spot} (s : StandsAt h x p r) :
    (∃ k m d, p = .own k ∧ mapOf h x = .ok m ∧ h.get m = some (.map d) ∧ (k, r) ∈ d) ∨ ∃ o, h.get x = some o ∧ Direct r p o := by
  cases s with
  | own hm g hd => exact Or.inl ⟨_, _, _, rfl, hm, g, hd⟩
  | globalTrace g hi => exact Or.inr ⟨_, g, .globalTrace hi⟩
  | globalEvent g hi => exact Or.inr ⟨_, g, .globalEvent hi⟩
  | trace g hi => exact Or.inr ⟨_, g, .trace hi⟩
  | event g hi => exact Or.inr ⟨_, g, .event hi⟩

theorem map_direct {h h' : Heap F} (u : ∀ a, heldBy placeRefs h.size h' a ≤ 1) {m x r : Ref} {k : Str} {d : List (Str × Ref)} {p : Spot} {o : Obj F}
    (nm : h.size ≤ m) (nx : h.size ≤ x) (g : h'.get m = some (.map d)) (hd : (k, r) ∈ d) (gx : h'.get x = some o) (dx : Direct r p o) : False := by
  have := tally_once (u r) nm nx g gx (List.mem_map.2 ⟨_, hd, rfl⟩) dx.mem
  subst this
  rw [g] at gx
  cases gx
  cases dx

/-- One object, one place. -/
theorem standsAt_once {h h' : Heap F} (e : Extends h h') (u : ∀ a, heldBy placeRefs h.size h' a ≤ 1) {x y r : Ref} {p p' : Spot} (hx : New h h' x)
    (hy : New h h' y) (s : StandsAt h' x p r) (s' : StandsAt h' y p' r) : x = y ∧ p = p' := by
  have nm : ∀ {z m : Ref}, New h h' z → mapOf h' z = .ok m → h.size ≤ m := by
    intro z m hz hm
    obtain ⟨ox, gx, mx⟩ := mapOf_holds hm
    exact (e.closed _ _ hz.1 gx _ (placeRefs_sub _ _ mx)).1
  rcases standsAt_cases s with ⟨k, m, d, rfl, hm, g, hd⟩ | ⟨o, g, dx⟩
  · rcases standsAt_cases s' with ⟨k', m', d', rfl, hm', g', hd'⟩ | ⟨o', g', dx'⟩
    · obtain ⟨ox, gx, mx⟩ := mapOf_holds hm
      obtain ⟨oy, gy, my⟩ := mapOf_holds hm'
      have := tally_once (u r) (nm hx hm) (nm hy hm') g g' (List.mem_map.2 ⟨_, hd, rfl⟩) (List.mem_map.2 ⟨_, hd', rfl⟩)
      subst this
      rw [g] at g'
      cases g'
      exact ⟨tally_once (u _) hx.1 hy.1 gx gy mx my, by rw [count_key (tally_within (u r) (nm hx hm) g) hd hd']⟩
    · exact (map_direct u (nm hx hm) hy.1 g hd g' dx').elim
  · rcases standsAt_cases s' with ⟨k', m', d', rfl, hm', g', hd'⟩ | ⟨o', g', dx'⟩
    · exact (map_direct u (nm hy hm') hx.1 g' hd' g dx).elim
    · have := tally_once (u r) hx.1 hy.1 g g' dx.mem dx'.mem
      subst this
      rw [g] at g'
      cases g'
      exact ⟨rfl, dx.once dx' (tally_within (u r) hx.1 g)⟩

theorem StandsAt.new {h h' : Heap F} (e : Extends h h') {x r : Ref} {p : Spot} (hx : New h h' x) (s : StandsAt h' x p r) : New h h' r ∧ 0 < heldBy placeRefs h.size h' r := by
  have key : ∀ {y : Ref} {o : Obj F}, New h h' y → h'.get y = some o → r ∈ placeRefs o → New h h' r ∧ 0 < heldBy placeRefs h.size h' r := by
    intro y o hy g hr
    refine ⟨e.closed _ _ hy.1 g _ (placeRefs_sub _ _ hr), ?_⟩
    have e1 : (h'.objs.drop h.size)[y - h.size]? = some o := by
      rw [List.getElem?_drop, Nat.add_sub_cancel' hy.1]; exact g
    exact List.count_pos_iff.2 (List.mem_flatMap.2 ⟨_, List.mem_of_getElem? e1, hr⟩)
  rcases standsAt_cases s with ⟨k, m, d, rfl, hm, g, hd⟩ | ⟨o, g, dx⟩
  · obtain ⟨ox, gx, mx⟩ := mapOf_holds hm
    exact key (e.closed _ _ hx.1 gx _ (placeRefs_sub _ _ mx)) g (List.mem_map.2 ⟨_, hd, rfl⟩)
  · exact key hx g dx.mem

theorem Leads.new {h h' : Heap F} (e : Extends h h') {l r : Ref} (hl : New h h' l) {ps : List Spot} (w : Leads h' l ps r) : New h h' r := by
  induction w with
  | here => exact hl
  | there _ s ih => exact (s.new e ih).1

theorem solo_of_parse {given : Option (Factory F)} {rnd : Nat → Uuid} {mgr : ExtMgr} {h h' : Heap F} {file : List Sax} {l : Ref}
    (hl : xesParse given (stdFactory F rnd) mgr h file = .ok (some l, h')) :
    ∃ st, FreshSt h st ∧ Solo h st ∧ st.log = some l ∧ st.heap = h' := by
  obtain ⟨st, h1, h2⟩ := bind_ok.1 hl
  simp only [Except.ok.injEq, Prod.mk.injEq] at h2
  exact ⟨st, run_fresh (init_fresh h) h1, run_solo (init_fresh h) (init_solo h) h1, h2.1, h2.2⟩

/-- C176: whatever the document, two places of the loaded log hold two objects: an attribute stands under one key of one element (or at one
position of one global list), an event at one position of one trace, a trace at one position of the log. -/
theorem c176_once {given : Option (Factory F)} {rnd : Nat → Uuid} {mgr : ExtMgr} {h h' : Heap F} {file : List Sax} {l : Ref}
    (hl : xesParse given (stdFactory F rnd) mgr h file = .ok (some l, h')) {ps qs : List Spot} {r : Ref} (wp : Leads h' l ps r) (wq : Leads h' l qs r) : ps = qs := by
  obtain ⟨st, s, q, e1, rfl⟩ := solo_of_parse hl
  have u : ∀ a, heldBy placeRefs h.size st.heap a ≤ 1 := fun a => Nat.le_trans (Nat.le_add_left _ _) (q.places a)
  have top : heldBy placeRefs h.size st.heap l = 0 := by
    have := q.places l
    simp only [pending, e1, List.count_append, Option.toList_some, List.count_cons, beq_self_eq_true, if_true] at this
    omega
  have nl := s.log l e1
  induction wp generalizing qs with
  | here =>
    cases wq with
    | here => rfl
    | there w sq =>
      have := (sq.new s.heap (w.new s.heap nl)).2
      omega
  | there w sp ih =>
    cases wq with
    | here =>
      have := (sp.new s.heap (w.new s.heap nl)).2
      omega
    | there w' sq =>
      obtain ⟨rfl, rfl⟩ := standsAt_once s.heap u (w.new s.heap nl) (w'.new s.heap nl) sp sq
      rw [ih w']

/-- C176: ... and an attribute is a member of one list or container at most, at one position. -/
theorem c176_member {given : Option (Factory F)} {rnd : Nat → Uuid} {mgr : ExtMgr} {h h' : Heap F} {file : List Sax} {l : Ref}
    (hl : xesParse given (stdFactory F rnd) mgr h file = .ok (some l, h')) {x y r m m' : Ref} {k k' : Kind} {key key' : Str} {e e' : Option Ext} {v v' : PyVal F}
    {c c' : List Ref} {i j : Nat} (rx : Reach h' l x) (ry : Reach h' l y) (gx : h'.get x = some (.attr k key e v m c)) (gy : h'.get y = some (.attr k' key' e' v' m' c'))
    (hi : c[i]? = some r) (hj : c'[j]? = some r) : x = y ∧ i = j := by
  obtain ⟨st, s, q, e1, rfl⟩ := solo_of_parse hl
  have u : ∀ a, heldBy memberRefs h.size st.heap a ≤ 1 := fun a => Nat.le_trans (Nat.le_add_left _ _) (q.members a)
  have nx := s.heap.reach (s.log l e1) rx
  have ny := s.heap.reach (s.log l e1) ry
  have := tally_once (u r) nx.1 ny.1 gx gy (List.mem_of_getElem? hi) (List.mem_of_getElem? hj)
  subst this
  rw [gx] at gy
  cases gy
  exact ⟨rfl, count_index (tally_within (u r) nx.1 gx) hi hj⟩

theorem setValue_ok {h h' : Heap F} {r : Ref} {w : PyVal F} (hr : setValue h r w = .ok h') :
    ∃ k key e v m c, h.get r = some (.attr k key e v m c) ∧ h' = h.put r (.attr k key e w m c) := by
  unfold setValue at hr
  split at hr
  · next k key e v m c g =>
    split at hr
    · cases hr
    · cases hr
      exact ⟨k, key, e, v, m, c, g, rfl⟩
  · cases hr

theorem setValue_stands {h h' : Heap F} {r : Ref} {w : PyVal F} (hr : setValue h r w = .ok h') {x s : Ref} {p : Spot} (hs : StandsAt h x p s) : StandsAt h' x p s := by
  obtain ⟨k, key, e, v, m, c, g, rfl⟩ := setValue_ok hr
  have same : ∀ {y : Ref} {o : Obj F}, h.get y = some o → (∀ k key e v m c, o ≠ .attr k key e v m c) → (h.put r (.attr k key e w m c)).get y = some o := by
    intro y o gy hn
    rw [get_put_ne _ (fun hyr => ?_)]
    · exact gy
    · subst hyr
      rw [g] at gy
      exact hn k key e v m c (Option.some.inj gy).symm
  have maps : ∀ {y n : Ref}, mapOf h y = .ok n → mapOf (h.put r (.attr k key e w m c)) y = .ok n := by
    intro y n hm
    by_cases hyr : y = r
    · subst hyr
      simp only [mapOf, g] at hm
      simp only [mapOf, get_put_self _ (get_lt g)]
      exact hm
    · simp only [mapOf, get_put_ne _ hyr] at hm ⊢
      exact hm
  cases hs with
  | own hm gm hd => exact .own (maps hm) (same gm (by intros; nofun)) hd
  | globalTrace gx hi => exact .globalTrace (same gx (by intros; nofun)) hi
  | globalEvent gx hi => exact .globalEvent (same gx (by intros; nofun)) hi
  | trace gx hi => exact .trace (same gx (by intros; nofun)) hi
  | event gx hi => exact .event (same gx (by intros; nofun)) hi

/-- C176: giving the attribute at one place another value leaves what stands at every other place where it is and as it was. -/
theorem c176_change {given : Option (Factory F)} {rnd : Nat → Uuid} {mgr : ExtMgr} {h h' h2 : Heap F} {file : List Sax} {l : Ref}
    (hl : xesParse given (stdFactory F rnd) mgr h file = .ok (some l, h')) {ps qs : List Spot} {r s : Ref} (wp : Leads h' l ps r) (wq : Leads h' l qs s)
    (hn : ps ≠ qs) {w : PyVal F} (hr : setValue h' r w = .ok h2) : Leads h2 l qs s ∧ h2.get s = h'.get s := by
  constructor
  · clear hn
    induction wq with
    | here => exact .here
    | there _ hs ih => exact .there ih (setValue_stands hr hs)
  · obtain ⟨k, key, e, v, m, c, g, rfl⟩ := setValue_ok hr
    refine get_put_ne _ (fun hsr => hn ?_)
    subst hsr
    exact c176_once hl wp wq

end

/-- Two events with equal attributes. -/
def twinDoc : Xml :=
  .elem py!"log" [] [.elem py!"trace" [] [
    .elem py!"event" [] [.elem py!"string" [(py!"key", py!"n"), (py!"value", py!"x")] []],
    .elem py!"event" [] [.elem py!"string" [(py!"key", py!"n"), (py!"value", py!"x")] []]]]

/-- The objects of the example. -/
def twinHeap : Heap ToyFloat :=
  match xesParse none (stdFactory ToyFloat fun _ => 0) noExts ⟨[], 0⟩ twinDoc.sax with
  | .ok p => p.2
  | .error _ => ⟨[], 0⟩

/-- What the value of an attribute is. -/
def valAt (h : Heap ToyFloat) (r : Ref) : Option Str :=
  match h.get r with
  | some (.attr _ _ _ (.str s) _ _) => some s
  | _ => none

/-- The two attributes are two objects, and the second one keeps its value when the first one gets another. -/
example : ∃ r s h2, xesParse none (stdFactory ToyFloat fun _ => 0) noExts ⟨[], 0⟩ twinDoc.sax = .ok (some 2, twinHeap) ∧
    Leads twinHeap 2 [.own py!"n", .event 0, .trace 0] r ∧ Leads twinHeap 2 [.own py!"n", .event 1, .trace 0] s ∧
    setValue twinHeap r (.str py!"y") = .ok h2 ∧ valAt h2 r = some py!"y" ∧ valAt h2 s = some py!"x" := by
  refine ⟨10, 15, _, rfl, ?_, ?_, rfl, by decide +kernel, by decide +kernel⟩
  · exact .there (.there (.there .here (.trace (r := 5) rfl rfl)) (.event (r := 8) rfl rfl)) (.own (m := 7) rfl rfl (by decide +kernel))
  · exact .there (.there (.there .here (.trace (r := 5) rfl rfl)) (.event (r := 13) rfl rfl)) (.own (m := 12) rfl rfl (by decide +kernel))

end Opy
