import Verif.Model.Misc
import Verif.Props.Attr
import Verif.Props.Classify
import Verif.Props.Xid
import Verif.Props.Info
import Mathlib.Data.List.Dedup
import Mathlib.Tactic.Tauto
/-
C102-C109: comparison operators, equality of clones, extended events, prototypes, printing of lists, timestamps in
milliseconds, XLogging, random logs.
-/
set_option linter.unusedSectionVars false
namespace Opy

/-! ## C102 -/

/-- Specification: the six answers for `a` and `b` fit together and with the answers for `b` and `a`: exactly one of
`<`, `==`, `>` holds, `<=` means `<` or `==`, `>=` means `>` or `==`, `!=` means not `==`, and exchanging the operands
exchanges `<` with `>` and `<=` with `>=`. -/
def OpsFit (o o' : Ops) : Prop :=
  ((o.lt = true ∧ o.eq = false ∧ o.gt = false) ∨ (o.lt = false ∧ o.eq = true ∧ o.gt = false) ∨
    (o.lt = false ∧ o.eq = false ∧ o.gt = true)) ∧
  (o.le = true ↔ o.lt = true ∨ o.eq = true) ∧ (o.ge = true ↔ o.gt = true ∨ o.eq = true) ∧
  (o.ne = true ↔ ¬ o.eq = true) ∧
  o'.lt = o.gt ∧ o'.gt = o.lt ∧ o'.le = o.ge ∧ o'.ge = o.le ∧ o'.eq = o.eq ∧ o'.ne = o.ne

theorem opsFit_of {c : Int} {eq : Bool} (h : eq = true ↔ c = 0) : OpsFit (opsOf c eq) (opsOf (-c) eq) := by
  rcases Int.lt_trichotomy c 0 with h0 | h0 | h0
  · have : eq = false := by
      cases eq with
      | false => rfl
      | true => have := h.1 rfl; omega
    subst this
    have h1 : ¬ c > 0 := by omega
    have h2 : ¬ -c < 0 := by omega
    have h3 : -c > 0 := by omega
    have h4 : c ≤ 0 := by omega
    have h5 : ¬ c ≥ 0 := by omega
    have h6 : ¬ -c ≤ 0 := by omega
    have h7 : -c ≥ 0 := by omega
    simp only [OpsFit, opsOf, opLt, opLe, opGt, opGe, if_pos h0, if_neg h1, if_neg h2, if_pos h3, if_pos h4, if_neg h5,
      if_neg h6, if_pos h7]
    decide
  · have : eq = true := h.2 h0
    subst this h0
    refine ⟨Or.inr (Or.inl ?_), ?_, ?_, ?_, ?_⟩ <;> decide
  · have : eq = false := by
      cases eq with
      | false => rfl
      | true => have := h.1 rfl; omega
    subst this
    have h1 : c > 0 := by omega
    have h0' : ¬ c < 0 := by omega
    have h2 : -c < 0 := by omega
    have h3 : ¬ -c > 0 := by omega
    have h4 : ¬ c ≤ 0 := by omega
    have h5 : c ≥ 0 := by omega
    have h6 : -c ≤ 0 := by omega
    have h7 : ¬ -c ≥ 0 := by omega
    simp only [OpsFit, opsOf, opLt, opLe, opGt, opGe, if_neg h0', if_pos h1, if_pos h2, if_neg h3, if_neg h4, if_pos h5,
      if_pos h6, if_neg h7]
    decide

section
variable {F : Type} [PyFloat F]

/-- **C102**: the operators on two attributes of one class fit together, and `<` is the order by key and then by
value. -/
theorem c102_attributes_partial {a b : Attr F} (h : Comparable a b) :
    ∃ o o', attrOps a b = .ok o ∧ attrOps b a = .ok o' ∧ OpsFit o o' ∧
      (o.lt = true ↔ strLt a.key b.key = true ∨ (a.key = b.key ∧ ValLt a.val b.val)) ∧
      (o.eq = true ↔ a.key = b.key ∧ SameVal a.val b.val) := by
  obtain ⟨z, hz, _, hlt⟩ := c09_total h
  have hz' := c09_antisymm h hz
  have h0 := c09_zero_iff h
  rw [hz, Except.ok.injEq] at h0
  have he : attrEq false a b = true ↔ z = 0 := by
    rw [attrEq_iff h.left h.right, h0]
    exact ⟨fun h => h.2, fun h' => ⟨h.kind, h'⟩⟩
  have he' : attrEq false b a = attrEq false a b := by
    rw [Bool.eq_iff_iff, attrEq_iff h.left h.right, attrEq_iff h.right h.left]
    exact ⟨fun h => ⟨h.1.symm, h.2.1.symm, SameVal_symm h.2.2⟩, fun h => ⟨h.1.symm, h.2.1.symm, SameVal_symm h.2.2⟩⟩
  refine ⟨_, _, by simp only [attrOps, hz, bind, Except.bind], by simp only [attrOps, hz', he', bind, Except.bind], opsFit_of he, ?_, ?_⟩
  · rw [← hlt]
    simp [opsOf, opLt]
  · rw [← h0]
    exact he

/-- **C102** is violated for attributes of different classes: the number 1 of class discrete is neither smaller nor
greater than the number 1 of class continuous, but they are not equal. -/
theorem c102_attributes_refuted {x : F} (hx : pyEq (.int 1) (.float x) = true) : ∃ (a b : Attr F) (o : Ops),
    attrOps a b = .ok o ∧ o.lt = false ∧ o.gt = false ∧ o.eq = false ∧ o.le = true := by
  refine ⟨.mk .discrete py!"x" none (.int 1) [] [], .mk .continuous py!"x" none (.float x) [] [], opsOf 0 false, ?_, by decide⟩
  have hc : compareTo (F := F) (.mk .discrete py!"x" none (.int 1) [] []) (.mk .continuous py!"x" none (.float x) [] []) = .ok 0 := by
    have h : compareVals (F := F) (.int 1) (.float x) = .ok 0 := by simp only [compareVals, hx, if_true]
    exact h
  simp only [attrOps, hc, bind, Except.bind]
  rfl

end

/-- **C102** for identifiers. -/
theorem c102_xids (a b : Uuid) : OpsFit (xidOps a b) (xidOps b a) ∧ ((xidOps a b).lt = true ↔ a < b) ∧
    ((xidOps a b).eq = true ↔ a = b) := by
  have he : decide (b = a) = decide (a = b) := by rw [decide_eq_decide]; exact eq_comm
  refine ⟨?_, ?_, by simp [xidOps, opsOf]⟩
  · have := opsFit_of (c := xidCompare a b) (eq := decide (a = b)) (by rw [decide_eq_true_iff]; exact (c08_zero_iff a b).symm)
    unfold xidOps
    rw [he, c08_antisymm b a]
    exact this
  · have h : (xidOps a b).lt = true ↔ xidCompare a b < 0 := by simp [xidOps, opsOf, opLt]
    rw [h]
    unfold xidCompare
    by_cases h1 : a = b
    · subst h1
      simp
    · by_cases h2 : b < a
      · simp only [h1, h2, if_true, if_false]
        constructor
        · intro h; omega
        · intro h; exact absurd h (by rw [Fin.lt_def] at *; omega)
      · simp only [h1, h2, if_false]
        refine ⟨fun _ => ?_, fun _ => by omega⟩
        rw [Fin.lt_def] at *
        have : a.val ≠ b.val := fun e => h1 (Fin.ext e)
        omega

/-- **C102** for event classes: they are ordered by name. -/
theorem c102_classes (a b : EventClass) : OpsFit (classOps a b) (classOps b a) ∧
    ((classOps a b).lt = true ↔ strLt a.id b.id = true) ∧ ((classOps a b).eq = true ↔ a.id = b.id) := by
  have he : decide (b.id = a.id) = decide (a.id = b.id) := by rw [decide_eq_decide]; exact eq_comm
  refine ⟨?_, ?_, by simp [classOps, opsOf]⟩
  · have h0 : classCompare a b = 0 ↔ a.id = b.id := by
      rcases compareStr_spec a.id b.id with ⟨h1, h2⟩ | ⟨h1, h2⟩ | ⟨h1, h2⟩
      · exact ⟨fun _ => h2, fun _ => h1⟩
      · simp only [classCompare, h1]
        exact ⟨fun h => by omega, fun h => by rw [h, strLt_irrefl] at h2; cases h2⟩
      · simp only [classCompare, h1]
        exact ⟨fun h => by omega, fun h => by rw [h, strLt_irrefl] at h2; cases h2⟩
    have := opsFit_of (c := classCompare a b) (eq := decide (a.id = b.id)) (by rw [decide_eq_true_iff]; exact h0.symm)
    unfold classOps
    rw [he, show classCompare b a = -classCompare a b from compareStr_antisymm _ _]
    exact this
  · have h : (classOps a b).lt = true ↔ compareStr a.id b.id < 0 := by
      show (if compareStr a.id b.id < 0 then true else false) = true ↔ _
      split <;> simp_all
    rw [h]
    rcases compareStr_spec a.id b.id with ⟨h1, h2⟩ | ⟨h1, h2⟩ | ⟨h1, h2⟩
    · rw [h1, h2, strLt_irrefl]; simp
    · rw [h1, h2]; simp
    · rw [h1, strLt_asymm h2]; simp

/-- **C102** for classifiers, also if one class is a subclass of the other; they are equal exactly if name and keys
are. -/
theorem c102_classifiers (s s' : Bool) (a b : Classifier) : OpsFit (classifierOps s a b) (classifierOps s' b a) ∧
    ((classifierOps s a b).eq = true ↔ a.name = b.name ∧ a.keys = b.keys) ∧
    (a.name ≠ b.name → ((classifierOps s a b).lt = true ↔ strLt a.name b.name = true)) := by
  have he : classifierEq b a = classifierEq a b := by
    rw [Bool.eq_iff_iff, (c17_zero_iff a b).2, (c17_zero_iff b a).2]
    exact ⟨fun h => ⟨h.1.symm, h.2.symm⟩, fun h => ⟨h.1.symm, h.2.symm⟩⟩
  have hn : classifierCompare b a = -classifierCompare a b := c17_antisymm b a
  have gt : ∀ c : Int, opGt (-c) = opLt c := fun c => by simp [opGt, opLt]
  have ge : ∀ c : Int, opGe (-c) = opLe c := fun c => by simp [opGe, opLe]
  have lt : ∀ c : Int, opLt (-c) = opGt c := fun c => by simp [opGt, opLt]
  have le : ∀ c : Int, opLe (-c) = opGe c := fun c => by simp [opGe, opLe]
  have h1 : classifierOps s a b = opsOf (classifierCompare a b) (classifierEq a b) := by
    cases s with
    | false => rfl
    | true => simp only [classifierOps, if_true, hn, he, gt, ge, lt, le, opsOf]
  have h2 : classifierOps s' b a = opsOf (-classifierCompare a b) (classifierEq a b) := by
    cases s' with
    | false => simp only [classifierOps, Bool.false_eq_true, if_false, hn, he]
    | true => simp only [classifierOps, if_true, opsOf, gt, ge, lt, le]
  rw [h1, h2]
  have hz := c17_zero_iff a b
  refine ⟨opsFit_of (hz.2.trans hz.1.symm), hz.2, fun hne => ?_⟩
  have : (opsOf (classifierCompare a b) (classifierEq a b)).lt = true ↔ compareStr a.name b.name < 0 := by
    simp [opsOf, opLt, classifierCompare, hne]
  rw [this]
  rcases compareStr_spec a.name b.name with ⟨h1, h2⟩ | ⟨h1, h2⟩ | ⟨h1, h2⟩
  · exact absurd h2 hne
  · rw [h1, h2]; simp
  · rw [h1, strLt_asymm h2]; simp

/-! ## C103 -/

section
variable {F : Type} [PyFloat F]

/-- **C103**: events are equal exactly if they have the same identity, whatever their attributes, and then hash equally. -/
theorem c103_events (a b : Event F) : (eventEq a b = true ↔ a.id = b.id) ∧
    (eventEq a b = true → ∀ hash, eventHash hash a = eventHash hash b) := by
  refine ⟨by simp [eventEq], fun h hash => ?_⟩
  have : a.id = b.id := by simpa [eventEq] using h
  simp [eventHash, this]

theorem listEq_iff {α : Type} {eq : α → α → Bool} : ∀ {as bs : List α}, listEq eq as bs = true ↔
    as.length = bs.length ∧ ∀ (i : Nat) a b, as[i]? = some a → bs[i]? = some b → eq a b = true := by
  intro as
  induction as with
  | nil =>
    intro bs
    cases bs with
    | nil => simp [listEq]
    | cons b bs => simp [listEq]
  | cons a as ih =>
    intro bs
    cases bs with
    | nil => simp [listEq]
    | cons b bs =>
      simp only [listEq, Bool.and_eq_true, ih, List.length_cons, Nat.add_right_cancel_iff]
      constructor
      · rintro ⟨h1, h2, h3⟩
        refine ⟨h2, fun i x y hx hy => ?_⟩
        cases i with
        | zero =>
          simp only [List.getElem?_cons_zero, Option.some.injEq] at hx hy
          subst hx hy
          exact h1
        | succ i =>
          simp only [List.getElem?_cons_succ] at hx hy
          exact h3 i x y hx hy
      · rintro ⟨h1, h2⟩
        exact ⟨h2 0 a b rfl rfl, h1, fun i x y hx hy => h2 (i + 1) x y hx hy⟩

theorem listEq_map {α β : Type} [DecidableEq β] {eq : α → α → Bool} {f : α → β} (h : ∀ a b, eq a b = true ↔ f a = f b) :
    ∀ {as bs : List α}, listEq eq as bs = true ↔ as.map f = bs.map f := by
  intro as
  induction as with
  | nil => intro bs; cases bs <;> simp [listEq]
  | cons a as ih => intro bs; cases bs <;> simp [listEq, h, ih]

/-- **C103**: traces are equal exactly if they have the same events in the same order, whatever their attributes. -/
theorem c103_traces (a b : Trace F) : traceEq a b = true ↔ a.events.map Event.id = b.events.map Event.id :=
  listEq_map (f := Event.id) fun a b => (c103_events a b).1

/-- **C103**: logs are equal exactly if they have the same events in the same traces, whatever their attributes, extensions
and classifiers. -/
theorem c103_logs (a b : Log F) : logEq a b = true ↔
    (a.traces.map fun t => t.events.map Event.id) = b.traces.map fun t => t.events.map Event.id :=
  listEq_map (f := fun t : Trace F => t.events.map Event.id) fun a b => c103_traces a b

/-! ## C104 -/

/-- The identifiers drawn from now on are different from the given ones. -/
def FreshFrom (rnd : Nat → Uuid) (n : Nat) (ids : List Uuid) : Prop := ∀ m, n ≤ m → rnd m ∉ ids

/-- **C104** is violated by every event: a clone is not equal to its original. -/
theorem c104_event_refuted {rnd : Nat → Uuid} {n : Nat} {e : Event F} (hf : FreshFrom rnd n [e.id]) :
    eventEq e (eventClone rnd n e).1 = false := by
  have := hf (n + 1) (by omega)
  simp only [List.mem_singleton] at this
  exact decide_eq_false fun h => this h.symm

/-- **C104**: a clone of a trace is equal to its original exactly if it has no events. -/
theorem c104_trace_iff {rnd : Nat → Uuid} {n : Nat} {t : Trace F} (hf : FreshFrom rnd n (t.events.map Event.id)) :
    traceEq t (traceClone rnd n t).1 = true ↔ t.events = [] := by
  rw [c103_traces]
  obtain ⟨m, es⟩ := t
  cases es with
  | nil => simp [traceClone, eventsClone]
  | cons e es =>
    simp only [traceClone, eventsClone, eventClone, List.map_cons, reduceCtorEq, iff_false]
    intro h
    have h1 := (List.cons.inj h).1
    exact hf (n + 1) (by omega) (by simp [← h1])

theorem eventsClone_le (rnd : Nat → Uuid) : ∀ (es : List (Event F)) (n : Nat), n ≤ (eventsClone rnd n es).2 := by
  intro es
  induction es with
  | nil => intro n; exact Nat.le_refl _
  | cons e es ih =>
    intro n
    simp only [eventsClone, eventClone]
    exact Nat.le_trans (by omega) (ih (n + 2))

theorem eventsClone_parts (rnd : Nat → Uuid) : ∀ (es : List (Event F)) (n : Nat),
    (eventsClone rnd n es).1.map Event.attrs = es.map Event.attrs ∧
    ∀ e ∈ (eventsClone rnd n es).1, ∃ m, n ≤ m ∧ e.id = rnd m := by
  intro es
  induction es with
  | nil => intro n; exact ⟨rfl, by simp [eventsClone]⟩
  | cons e es ih =>
    intro n
    obtain ⟨h1, h2⟩ := ih (n + 2)
    simp only [eventsClone, eventClone, List.map_cons, h1, List.forall_mem_cons, true_and]
    refine ⟨⟨n + 1, by omega, rfl⟩, fun x hx => ?_⟩
    obtain ⟨m, hm, hx⟩ := h2 x hx
    exact ⟨m, by omega, hx⟩

/-- **C104**: a clone of a log is equal to its original exactly if it has no events. -/
theorem c104_log_iff {rnd : Nat → Uuid} {n : Nat} {l : Log F}
    (hf : FreshFrom rnd n (l.traces.flatMap fun t => t.events.map Event.id)) :
    logEq l (logClone rnd n l).1 = true ↔ ∀ t ∈ l.traces, t.events = [] := by
  have key : ∀ (ts : List (Trace F)) (n : Nat), FreshFrom rnd n (ts.flatMap fun t => t.events.map Event.id) →
      (listEq traceEq ts (tracesClone rnd n ts).1 = true ↔ ∀ t ∈ ts, t.events = []) := by
    intro ts
    induction ts with
    | nil => intro n _; simp [tracesClone, listEq]
    | cons t ts ih =>
      intro n hf
      have hle : n ≤ (traceClone rnd n t).2 := eventsClone_le rnd t.events n
      have h1 := c104_trace_iff (rnd := rnd) (n := n) (t := t) (fun m hm h => hf m hm (by
        rw [List.flatMap_cons]; exact List.mem_append_left _ h))
      have h2 := ih (traceClone rnd n t).2 (fun m hm h => hf m (by omega) (by
        rw [List.flatMap_cons]; exact List.mem_append_right _ h))
      simp only [tracesClone, listEq, Bool.and_eq_true, h1, h2, List.forall_mem_cons]
  exact key l.traces n hf

/-- **C104**: the clone has the attributes of the original, and its events have new identifiers. -/
theorem c104_content_partial (rnd : Nat → Uuid) (n : Nat) (t : Trace F) :
    (traceClone rnd n t).1.attrs = t.attrs ∧ (traceClone rnd n t).1.events.map Event.attrs = t.events.map Event.attrs ∧
    ∀ e ∈ (traceClone rnd n t).1.events, ∃ m, n ≤ m ∧ e.id = rnd m :=
  ⟨rfl, (eventsClone_parts rnd t.events n).1, (eventsClone_parts rnd t.events n).2⟩

/-- **C104** is violated by extended events, too: they are equal to no other extended event, even of the same event, and
so are their clones, however many are made. -/
theorem c104_extended_refuted {rnd : Nat → Uuid} (hr : Function.Injective rnd) (n : Nat) (e : Event F) :
    let x := extEventWrap rnd n e
    let y := extEventWrap rnd x.2 e
    let z := extEventClone rnd y.2 x.1
    extEventEq x.1 y.1 = false ∧ extEventEq x.1 z.1 = false ∧ extEventEq z.1 (extEventWrap rnd z.2 e).1 = false ∧
      extEventEq z.1 (extEventClone rnd z.2 x.1).1 = false ∧ extEventEq x.1 x.1 = true := by
  refine ⟨?_, ?_, ?_, ?_, by simp [extEventEq]⟩
  · refine decide_eq_false fun h => ?_
    have : n = n + 1 := hr h
    omega
  · refine decide_eq_false fun h => ?_
    have : n = n + 1 + 1 + 2 + 1 := hr h
    omega
  · refine decide_eq_false fun h => ?_
    have : n + 1 + 1 + 2 + 1 = n + 1 + 1 + 2 + 1 + 1 := hr h
    omega
  · refine decide_eq_false fun h => ?_
    have : n + 1 + 1 + 2 + 1 = n + 1 + 1 + 2 + 1 + 1 + 2 + 1 := hr h
    omega

/-! ## C105 -/

/-- Specification: the text of a list or container: the members, each as key, colon and text, with commas between them,
in brackets. -/
def listText (ms : List (Str × Str)) : Str :=
  py!"[" ++ (py!",").intercalate (ms.map fun p => p.1 ++ py!":" ++ p.2) ++ py!"]"

theorem collStr_ok : ∀ {cs : List (Attr F)} {sep t : Str}, collStr sep cs = .ok t ↔
    ∃ texts : List Str, cs.map attrStr = texts.map Except.ok ∧
      t = (List.zipWith (fun (a : Attr F) s => (a.key, s)) cs texts).zipIdx.flatMap
        fun p => (if p.2 = 0 then sep else py!",") ++ (p.1.1 ++ py!":" ++ p.1.2) := by
  intro cs
  induction cs with
  | nil =>
    intro sep t
    simp only [collStr, Except.ok.injEq, List.map_nil]
    constructor
    · rintro rfl
      exact ⟨[], rfl, rfl⟩
    · rintro ⟨texts, h1, rfl⟩
      simp
  | cons c cs ih =>
    intro sep t
    obtain ⟨kind, key, ext, val, m, cc⟩ := c
    have shift : ∀ (l : List (Str × Str)), (l.zipIdx 1).flatMap (fun p => (if p.2 = 0 then sep else py!",") ++ (p.1.1 ++ py!":" ++ p.1.2)) =
        l.zipIdx.flatMap fun p => (if p.2 = 0 then py!"," else py!",") ++ (p.1.1 ++ py!":" ++ p.1.2) := by
      intro l
      have gen : ∀ (l : List (Str × Str)) (i j : Nat), (l.zipIdx (i + 1)).flatMap (fun p => (if p.2 = 0 then sep else py!",") ++ (p.1.1 ++ py!":" ++ p.1.2)) =
          (l.zipIdx j).flatMap fun p => (if p.2 = 0 then py!"," else py!",") ++ (p.1.1 ++ py!":" ++ p.1.2) := by
        intro l
        induction l with
        | nil => intro i j; rfl
        | cons x l ih =>
          intro i j
          simp only [List.zipIdx_cons, List.flatMap_cons, Nat.add_eq_zero_iff, Nat.one_ne_zero, and_false, if_false, ite_self]
          rw [ih (i + 1) (j + 1)]
          simp only [ite_self]
      exact gen l 0 0
    simp only [collStr, bind_ok, ih, Except.ok.injEq]
    constructor
    · rintro ⟨s, hs, r, ⟨texts, h1, h2⟩, rfl⟩
      refine ⟨s :: texts, by simp [hs, h1], ?_⟩
      rw [List.zipWith_cons_cons, List.zipIdx_cons, List.flatMap_cons, if_pos rfl, shift, ← h2]
      simp [Attr.key]
    · rintro ⟨texts, h1, h2⟩
      cases texts with
      | nil => simp at h1
      | cons s texts =>
        simp only [List.map_cons, List.cons.injEq] at h1
        refine ⟨s, h1.1, _, ⟨texts, h1.2, rfl⟩, ?_⟩
        rw [List.zipWith_cons_cons, List.zipIdx_cons, List.flatMap_cons, if_pos rfl, shift] at h2
        rw [h2]
        simp [Attr.key]

theorem flatMap_intercalate (l : List (Str × Str)) (hl : l ≠ []) :
    (l.zipIdx.flatMap fun p => (if p.2 = 0 then py!"[" else py!",") ++ (p.1.1 ++ py!":" ++ p.1.2)) =
      py!"[" ++ (py!",").intercalate (l.map fun p => p.1 ++ py!":" ++ p.2) := by
  obtain ⟨x, l, rfl⟩ := List.exists_cons_of_ne_nil hl
  have gen : ∀ (l : List (Str × Str)) (i : Nat) (s : Str), s ++ (l.zipIdx (i + 1)).flatMap (fun p => (if p.2 = 0 then py!"[" else py!",") ++ (p.1.1 ++ py!":" ++ p.1.2)) =
      (py!",").intercalate (s :: l.map fun p => p.1 ++ py!":" ++ p.2) := by
    intro l
    induction l with
    | nil => intro i s; simp [List.intercalate]
    | cons y l ih =>
      intro i s
      rw [List.zipIdx_cons, List.flatMap_cons, if_neg (by simp), List.append_assoc, ih (i + 1)]
      simp [List.intercalate]
  rw [List.zipIdx_cons, List.flatMap_cons, if_pos rfl, List.append_assoc, gen l 0]
  rfl

/-- **C105**: the text of a list or container is made of the keys and texts of its members in order; it can be printed exactly
if all members can. -/
theorem c105_text {k : Kind} (hk : k.isCollection = true) (key : Str) (e : Option Ext) (v : PyVal F) (m : AttrMap F)
    (cs : List (Attr F)) (t : Str) : attrStr (.mk k key e v m cs) = .ok t ↔
    ∃ texts : List Str, cs.map attrStr = texts.map Except.ok ∧
      t = listText (List.zipWith (fun (a : Attr F) s => (a.key, s)) cs texts) := by
  have h0 : attrStr (.mk k key e v m cs) = (do
      let t ← collStr ['['] cs
      .ok ((if t = [] then ['['] else t) ++ [']'])) := by
    cases k <;> simp [Kind.isCollection] at hk <;> rw [attrStr]
  have fin : ∀ texts : List Str, cs.map attrStr = texts.map Except.ok → ∀ r, r = ((List.zipWith (fun (a : Attr F) s => (a.key, s)) cs texts).zipIdx.flatMap
        fun p => (if p.2 = 0 then ['['] else py!",") ++ (p.1.1 ++ py!":" ++ p.1.2)) →
      (if r = [] then ['['] else r) ++ [']'] = listText (List.zipWith (fun (a : Attr F) s => (a.key, s)) cs texts) := by
    intro texts h r hr
    generalize hz : List.zipWith (fun (a : Attr F) s => (a.key, s)) cs texts = z at *
    by_cases hz0 : z = []
    · subst hz0
      simp only [List.zipIdx_nil, List.flatMap_nil] at hr
      rw [if_pos hr]
      rfl
    · rw [flatMap_intercalate z hz0] at hr
      have : r ≠ [] := by rw [hr]; simp
      rw [if_neg this, hr]
      rfl
  rw [h0]
  simp only [bind_ok, Except.ok.injEq]
  constructor
  · rintro ⟨r, h1, rfl⟩
    obtain ⟨texts, h2, h3⟩ := collStr_ok.1 h1
    exact ⟨texts, h2, fin texts h2 r h3⟩
  · rintro ⟨texts, h1, rfl⟩
    exact ⟨_, collStr_ok.2 ⟨texts, h1, rfl⟩, fin texts h1 _ rfl⟩

/-! ## C106 -/

/-- Specification: the value of a prototype. -/
def defaultValue (zero : F) (fresh : Uuid) : Kind → PyVal F
  | .literal => .str py!"UNKNOWN"
  | .boolean => .bool true
  | .continuous => .float zero
  | .discrete => .int 0
  | .id => .xid fresh
  | _ => .none

/-- **C106**: if there is a prototype, it has the class, key and extension of the attribute, the default value and nothing
nested.  There is one exactly if the attribute is neither a list, a container nor a timestamp (and an identifier attribute
has an identifier). -/
theorem c106_prototype_partial (zero : F) (fresh : Uuid) (a p : Attr F) : derivePrototype zero fresh a = .ok p ↔
    (a.kind ≠ .list ∧ a.kind ≠ .container ∧ a.kind ≠ .timestamp ∧ (a.kind = .id → ∃ u, a.val = .xid u)) ∧
    p = .mk a.kind a.key a.ext (defaultValue zero fresh a.kind) [] [] := by
  obtain ⟨k, key, e, v, m, c⟩ := a
  cases k <;> cases v <;> simp [derivePrototype, Attr.kind, Attr.key, Attr.ext, Attr.val, defaultValue, eq_comm]

/-- **C106** is violated: no timestamp, list or container has a prototype. -/
theorem c106_refuted (zero : F) (fresh : Uuid) (a : Attr F)
    (h : a.kind = .timestamp ∨ a.kind = .list ∨ a.kind = .container) : derivePrototype zero fresh a = .error .attributeError := by
  obtain ⟨k, key, e, v, m, c⟩ := a
  rcases h with h | h | h <;> simp only [Attr.kind] at h <;> subst h <;> rfl

/-- **C106**: the statistics use the same prototypes. -/
theorem c106_statistics (zero : F) (fresh : Uuid) (a : Attr F) :
    deriveProto a = (derivePrototype zero fresh a).map fun p => ⟨p.kind, p.key, p.ext⟩ := by
  obtain ⟨k, key, e, v, m, c⟩ := a
  cases k <;> try rfl
  cases v <;> rfl

/-- **C106**: the type name tells the class of an attribute, and a prototype has the type name of the attribute. -/
theorem c106_type_names (a b : Attr F) : (typeString a = typeString b ↔ a.kind = b.kind) ∧
    ∀ zero fresh p, derivePrototype zero fresh a = .ok p → typeString p = typeString a := by
  constructor
  · obtain ⟨k, key, e, v, m, c⟩ := a
    obtain ⟨k', key', e', v', m', c'⟩ := b
    cases k <;> cases k' <;> simp [typeString, Attr.kind]
  · intro zero fresh p h
    obtain ⟨_, rfl⟩ := (c106_prototype_partial zero fresh a p).1 h
    rfl

/-! ## C107 -/

/-- Specification: the system's clock shows whole seconds right at this time (which may fail in the hour that is repeated when
the clock is set back). -/
def ClockRight (lt : LocalTime) (n : Int) : Prop :=
  ∃ d, lt.fromMillis n = .ok d ∧ lt.mktime { d with micro := 0, tz := none } = .ok (n / 1000)

/-- **C107**, what is done: the milliseconds that are read after setting them are those of the full second. -/
theorem c107_millis_partial {lt : LocalTime} {n : Int} (h : ClockRight lt n) (a : Attr F) :
    ∃ a', setValueMillis lt n a = .ok a' ∧ getValueMillis lt a' = .ok (n - n % 1000) ∧ a'.key = a.key ∧ a'.ext = a.ext ∧ a'.kind = a.kind := by
  obtain ⟨d, h1, h2⟩ := h
  obtain ⟨k, key, e, v, m, c⟩ := a
  refine ⟨.mk k key e (.dt d) m c, by simp only [setValueMillis, h1, bind, Except.bind], ?_, rfl, rfl, rfl⟩
  have : n / 1000 * 1000 = n - n % 1000 := by omega
  simp only [getValueMillis, Attr.val, h2, bind, Except.bind, this]

/-- **C107** is violated exactly by the times that are not full seconds. -/
theorem c107_refuted {lt : LocalTime} {n : Int} (h : ClockRight lt n) (a : Attr F) :
    ∃ a', setValueMillis lt n a = .ok a' ∧ (getValueMillis lt a' = .ok n ↔ 1000 ∣ n) := by
  obtain ⟨a', h1, h2, _⟩ := c107_millis_partial h a
  refine ⟨a', h1, ?_⟩
  rw [h2, Except.ok.injEq]
  omega

/-- **C107**: the constructor does the same, except that on Windows times before the second day of 1970 become its start. -/
theorem c107_constructor_partial {lt : LocalTime} {n : Int} (windows : Bool) (key : Str) (ext : Option Ext)
    (h : ClockRight lt n) (hw : windows = false ∨ 86400000 ≤ n) :
    ∃ a : Attr F, timestampOfInt lt windows key ext n = .ok a ∧ a.key = key ∧ a.ext = ext ∧ getValueMillis lt a = .ok (n - n % 1000) := by
  obtain ⟨d, h1, h2⟩ := h
  have hc : ¬ (windows = true ∧ n < 86400 * 1000) := by
    rintro ⟨hw1, hw2⟩
    rcases hw with hw | hw
    · rw [hw1] at hw; cases hw
    · omega
  refine ⟨.mk .timestamp key ext (.dt d) [] [], by simp only [timestampOfInt, if_neg hc, h1, bind, Except.bind], rfl, rfl, ?_⟩
  have : n / 1000 * 1000 = n - n % 1000 := by omega
  simp only [getValueMillis, Attr.val, h2, bind, Except.bind, this]

/-- **C107** is violated on Windows: every time before the second day of 1970 gives the timestamp that its start gives elsewhere,
so that all these times give the same one. -/
theorem c107_windows_refuted (lt : LocalTime) (key : Str) (ext : Option Ext) {n : Int} (h : n < 86400000) :
    timestampOfInt (F := F) lt true key ext n = timestampOfInt lt false key ext 86400000 := by
  unfold timestampOfInt
  rw [if_pos ⟨rfl, by omega⟩, if_neg (by simp)]
  rfl

end

/-! ## C108 -/

/-- Specification: the listener that is set before the `i`-th call. -/
def listenerAt {lam : Type} (first : Option lam) (ops : List (LoggingOp lam)) (i : Nat) : Option lam :=
  ((ops.take i).filterMap fun op => match op with | .setListener l => some l | .log _ _ => none).getLastD first

/-- Specification: what a call sends. -/
def sentBy {lam : Type} (l : Option lam) : LoggingOp lam → List (lam × Str × Str)
  | .setListener _ => []
  | .log m i => l.toList.map fun x => (x, m, i.getD py!"DEBUG")

/-- **C108**: every message is delivered exactly once, in order, to the listener that was set last, with its importance or
DEBUG; without a listener it is dropped. -/
theorem c108_delivery {lam : Type} (first : Option lam) (ops : List (LoggingOp lam)) :
    loggingRun first ops = ops.zipIdx.flatMap fun p => sentBy (listenerAt first ops p.2) p.1 := by
  have gen : ∀ (rest done : List (LoggingOp lam)), ops = done ++ rest →
      loggingRun (listenerAt first ops done.length) rest = (rest.zipIdx done.length).flatMap fun p => sentBy (listenerAt first ops p.2) p.1 := by
    intro rest
    induction rest with
    | nil => intro done _; rfl
    | cons op rest ih =>
      intro done h
      have ih' := ih (done ++ [op]) (by simpa using h)
      rw [List.length_append, List.length_singleton] at ih'
      rw [List.zipIdx_cons, List.flatMap_cons, ← ih', loggingRun]
      have hnext : listenerAt first ops (done.length + 1) = (loggingStep (listenerAt first ops done.length) op).1 := by
        unfold listenerAt
        have t1 : ops.take (done.length + 1) = done ++ [op] := by
          rw [h, List.take_append, List.take_of_length_le (by omega)]
          simp
        have t2 : ops.take done.length = done := by rw [h]; simp
        rw [t1, t2, List.filterMap_append]
        cases op with
        | setListener l => simp [loggingStep]
        | log m i =>
          simp only [List.filterMap_cons, List.filterMap_nil, List.append_nil, loggingStep]
          split <;> rfl
      rw [hnext]
      congr 1
      cases op with
      | setListener l => rfl
      | log m i =>
        simp only [loggingStep, sentBy]
        cases listenerAt first ops done.length with
        | none => rfl
        | some l => cases i <;> rfl
  have := gen ops [] rfl
  simpa [listenerAt] using this

/-! ## C109 -/

section
variable {F : Type} [PyFloat F]

/-- Specification: the kinds of attributes. -/
def optionKinds : List (Str × Kind) := [(py!"string", .literal), (py!"date", .timestamp), (py!"int", .discrete), (py!"float", .continuous),
  (py!"boolean", .boolean), (py!"id", .id), (py!"list", .list), (py!"container", .container)]

theorem randomAttr_kind {now : DateTime} {zero : F} {u : Uuid} {o : Str} {k : Kind} (h : (o, k) ∈ optionKinds) :
    (randomAttr now zero u o).key = o ∧ (randomAttr now zero u o).kind = k := by
  simp only [optionKinds, List.mem_cons, Prod.mk.injEq, List.not_mem_nil, or_false] at h
  rcases h with ⟨rfl, rfl⟩ | ⟨rfl, rfl⟩ | ⟨rfl, rfl⟩ | ⟨rfl, rfl⟩ | ⟨rfl, rfl⟩ | ⟨rfl, rfl⟩ | ⟨rfl, rfl⟩ | ⟨rfl, rfl⟩ <;> exact ⟨rfl, rfl⟩

theorem randomAttrs_spec (now : DateTime) (zero : F) : ∀ (ds : List (Str × Uuid)) (m : AttrMap F),
    (dkeys m).Nodup → (∀ k a, dget k m = some a → ∃ u, a = randomAttr now zero u k) →
    (dkeys (randomAttrs now zero m ds)).Nodup ∧
    (∀ k, k ∈ dkeys (randomAttrs now zero m ds) ↔ k ∈ dkeys m ∨ k ∈ ds.map Prod.fst) ∧
    ∀ k a, dget k (randomAttrs now zero m ds) = some a → ∃ u, a = randomAttr now zero u k := by
  intro ds
  induction ds with
  | nil => intro m hn hm; exact ⟨hn, by simp [randomAttrs], hm⟩
  | cons d ds ih =>
    obtain ⟨o, u⟩ := d
    intro m hn hm
    obtain ⟨h1, h2, h3⟩ := ih (dset o (randomAttr now zero u o) m) (nodup_dset hn) (by
      intro k a h
      rw [dget_dset] at h
      by_cases hk : k = o
      · rw [if_pos hk] at h
        injection h with h
        exact ⟨u, by rw [← h, hk]⟩
      · rw [if_neg hk] at h
        exact hm k a h)
    refine ⟨h1, fun k => ?_, h3⟩
    rw [randomAttrs, h2, dkeys_dset]
    simp only [List.map_cons, List.mem_cons]
    by_cases ho : o ∈ dkeys m
    · rw [if_pos ho]
      constructor
      · rintro (h | h) <;> tauto
      · rintro (h | rfl | h) <;> tauto
    · rw [if_neg ho, List.mem_append, List.mem_singleton]
      tauto

/-- **C109**: the random log has a trace for each draw of a length, with as many events as drawn.  Each event has exactly one
attribute for each different option drawn for it, and the attribute has the class of the option. -/
theorem c109_shape (now : DateTime) (zero : F) (draws : List (List (Uuid × List (Str × Uuid)))) :
    (randomLog now zero draws).traces.map (fun t => t.events.length) = draws.map List.length ∧
    ∀ (i j : Nat) (t : Trace F) d (e : Event F) (x : Uuid × List (Str × Uuid)), (randomLog now zero draws).traces[i]? = some t → draws[i]? = some d → t.events[j]? = some e → d[j]? = some x →
      e.id = x.1 ∧ (dkeys e.attrs).Nodup ∧ (∀ o, o ∈ dkeys e.attrs ↔ o ∈ x.2.map Prod.fst) ∧
      ∀ (o : Str) (a : Attr F) (k : Kind), dget o e.attrs = some a → (o, k) ∈ optionKinds → a.key = o ∧ a.kind = k := by
  refine ⟨by simp [randomLog], fun i j t d e x ht hd he hx => ?_⟩
  simp only [randomLog, List.getElem?_map, hd, Option.map_some, Option.some.injEq] at ht
  subst ht
  simp only [List.getElem?_map, hx, Option.map_some, Option.some.injEq] at he
  subst he
  obtain ⟨h1, h2, h3⟩ := randomAttrs_spec now zero x.2 [] List.nodup_nil (by simp)
  refine ⟨rfl, h1, fun o => ?_, fun o a k ha hk => ?_⟩
  · rw [h2]
    simp [dkeys]
  · obtain ⟨u, rfl⟩ := h3 o a ha
    exact randomAttr_kind hk

/-- **C109**: so the number of attributes of an event is the number of different options drawn, at least one and at most the number
of draws, and less exactly if an option is drawn twice. -/
theorem c109_number {now : DateTime} {zero : F} (ds : List (Str × Uuid)) :
    (randomAttrs now zero [] ds).length ≤ ds.length ∧ (ds ≠ [] → 0 < (randomAttrs now zero [] ds).length) ∧
    ((randomAttrs now zero [] ds).length = ds.length ↔ (ds.map Prod.fst).Nodup) := by
  obtain ⟨h1, h2, _⟩ := randomAttrs_spec now zero ds [] List.nodup_nil (by simp)
  have hlen : (dkeys (randomAttrs now zero [] ds)).length = (randomAttrs now zero [] ds).length := by simp [dkeys]
  have h2' : ∀ k, k ∈ dkeys (randomAttrs now zero [] ds) ↔ k ∈ ds.map Prod.fst := fun k => by rw [h2]; simp [dkeys]
  have hperm : (dkeys (randomAttrs now zero [] ds)).Perm (ds.map Prod.fst).dedup :=
    (List.perm_ext_iff_of_nodup h1 (List.nodup_dedup _)).2 fun k => by rw [h2', List.mem_dedup]
  have e : (randomAttrs now zero [] ds).length = (ds.map Prod.fst).dedup.length := by rw [← hlen, hperm.length_eq]
  have hle : (ds.map Prod.fst).dedup.length ≤ (ds.map Prod.fst).length := (List.dedup_sublist _).length_le
  rw [List.length_map] at hle
  refine ⟨by omega, fun hne => ?_, ?_⟩
  · rw [e]
    obtain ⟨d, r, rfl⟩ := List.exists_cons_of_ne_nil hne
    exact List.length_pos_of_mem (a := d.1) (List.mem_dedup.2 (by simp))
  · rw [e]
    constructor
    · intro h
      have := (List.dedup_sublist (ds.map Prod.fst)).eq_of_length (by rw [h, List.length_map])
      rw [← this]
      exact List.nodup_dedup _
    · intro h
      rw [h.dedup, List.length_map]

/-- **C109**, the claim that an event has as many attributes as configured, is violated. -/
theorem c109_refuted (now : DateTime) (zero : F) (u : Uuid) :
    ∃ ds : List (Str × Uuid), (∀ d ∈ ds, d.1 ∈ optionKinds.map Prod.fst) ∧ ds.length = 4 ∧ (randomAttrs now zero [] ds).length = 1 :=
  ⟨[(py!"int", u), (py!"int", u), (py!"int", u), (py!"int", u)], by simp [optionKinds], rfl, rfl⟩

end

/-! ## Examples -/

example : attrOps (F := ToyFloat) (.mk .literal py!"a" none (.str py!"x") [] []) (.mk .literal py!"a" none (.str py!"y") [] []) =
    .ok ⟨true, true, false, true, false, false⟩ := by decide +kernel

example : classifierOps true ⟨py!"a", [py!"x"]⟩ ⟨py!"a", [py!"x", py!"y"]⟩ = ⟨true, true, false, true, false, false⟩ := by decide +kernel

example : pyEq (F := ToyFloat) (.int 1) (.float ⟨1⟩) = true := by decide +kernel

example : (attrStr (F := ToyFloat) (.mk .list py!"l" none .none [] [.mk .discrete py!"a" none (.int 1) [] [],
    .mk .container py!"c" none .none [] [.mk .literal py!"b" none (.str py!"x") [] []]])).toOption = some py!"[a:1,c:[b:x]]" := by decide +kernel

example : (attrStr (F := ToyFloat) (.mk .list py!"l" none .none [] [])).toOption = some py!"[]" := by decide +kernel

example : FreshFrom (fun _ => 7) 3 [(5 : Uuid)] := by intro m _; show (7 : Uuid) ∉ [(5 : Uuid)]; decide

example : loggingRun (some 'a') [.log py!"x" none, .setListener (some 'b'), .log py!"y" (some py!"ERROR"), .setListener none, .log py!"z" none] =
    [('a', py!"x", py!"DEBUG"), ('b', py!"y", py!"ERROR")] := by decide +kernel

/-- A clock that only knows the first minute of 1970. -/
example : ClockRight ⟨fun d => .ok d.second, fun n => .ok ⟨1970, 1, 1, 0, 0, (n / 1000 % 60).toNat, (n % 1000 * 1000).toNat, none⟩⟩ 12345 :=
  ⟨_, rfl, rfl⟩

end Opy
