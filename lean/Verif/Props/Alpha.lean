import Verif.Model.Alpha
import Verif.Props.Info
import Mathlib.Data.List.Nodup
import Mathlib.Data.List.Sublists
/-
C90-C94: the alpha algorithm (example/AlphaAlgorithm.py).
-/
set_option linter.unusedSectionVars false
namespace Opy

section
variable {α : Type} [DecidableEq α]

/-! ## Specification -/

/-- `b` directly follows `a` somewhere in the log. -/
def Follows (log : List (List α)) (a b : α) : Prop := ∃ t ∈ log, ∃ u v, t = u ++ a :: b :: v

/-- The activity occurs in the log. -/
def Occurs (log : List (List α)) (a : α) : Prop := ∃ t ∈ log, a ∈ t

/-- Causality: `b` follows `a` but never the other way round. -/
def Causes (log : List (List α)) (a b : α) : Prop := Follows log a b ∧ ¬ Follows log b a

/-- Parallelism: both orders are seen. -/
def Concurrent (log : List (List α)) (a b : α) : Prop := Follows log a b ∧ Follows log b a

/-- Choice: neither order is seen. -/
def Unrelated (log : List (List α)) (a b : α) : Prop := ¬ Follows log a b ∧ ¬ Follows log b a

/-- The pairs of sets of the alpha algorithm: non-empty sets of activities, each member of the first
causes each member of the second, and the members of each set are unrelated (also to themselves). -/
structure AlphaPair (log : List (List α)) (A B : α → Prop) : Prop where
  fromLog : (∀ a, A a → Occurs log a) ∧ (∀ b, B b → Occurs log b)
  nonempty : (∃ a, A a) ∧ (∃ b, B b)
  causes : ∀ a b, A a → B b → Causes log a b
  unrelated : (∀ a b, A a → A b → Unrelated log a b) ∧ (∀ a b, B a → B b → Unrelated log a b)

/-- Exactly one of the propositions holds. -/
def ExactlyOne : List Prop → Prop
  | [] => False
  | p :: ps => (p ∧ ∀ q ∈ ps, ¬ q) ∨ (¬ p ∧ ExactlyOne ps)

/-! ## Sets -/

theorem mem_setAdd {x y : α} {s : List α} : y ∈ setAdd x s ↔ y ∈ s ∨ y = x := by
  unfold setAdd
  split
  · rename_i h
    constructor
    · exact Or.inl
    · rintro (h' | rfl)
      · exact h'
      · exact h
  · simp

theorem nodup_setAdd {x : α} {s : List α} (h : s.Nodup) : (setAdd x s).Nodup := by
  unfold setAdd
  split
  · exact h
  · rename_i hx
    exact List.nodup_append.2 ⟨h, by simp, by
      intro a ha b hb
      rw [List.mem_singleton] at hb
      subst hb
      rintro rfl
      exact hx ha⟩

theorem mem_setAddAll : ∀ {xs s : List α} {y : α}, y ∈ setAddAll s xs ↔ y ∈ s ∨ y ∈ xs := by
  intro xs
  induction xs with
  | nil => intro s y; simp [setAddAll]
  | cons x xs ih =>
    intro s y
    show y ∈ setAddAll (setAdd x s) xs ↔ _
    rw [ih, mem_setAdd, List.mem_cons, or_assoc]

theorem nodup_setAddAll : ∀ {xs s : List α}, s.Nodup → (setAddAll s xs).Nodup := by
  intro xs
  induction xs with
  | nil => intro s h; exact h
  | cons x xs ih => intro s h; exact ih (nodup_setAdd h)

theorem mem_neighbours : ∀ {t : List α} {a b : α}, (a, b) ∈ neighbours t ↔ ∃ u v, t = u ++ a :: b :: v := by
  intro t
  induction t with
  | nil => intro a b; simp [neighbours]
  | cons x t ih =>
    intro a b
    cases t with
    | nil =>
      simp only [neighbours, List.not_mem_nil, false_iff]
      rintro ⟨u, v, h⟩
      have := congrArg List.length h
      simp at this
      omega
    | cons y r =>
      simp only [neighbours, List.mem_cons, Prod.mk.injEq]
      rw [ih]
      constructor
      · rintro (⟨rfl, rfl⟩ | ⟨u, v, h⟩)
        · exact ⟨[], r, rfl⟩
        · exact ⟨x :: u, v, by rw [h]; rfl⟩
      · rintro ⟨u, v, h⟩
        cases u with
        | nil =>
          simp only [List.nil_append, List.cons.injEq] at h
          exact Or.inl ⟨h.1.symm, h.2.1.symm⟩
        | cons z u =>
          simp only [List.cons_append, List.cons.injEq] at h
          exact Or.inr ⟨u, v, h.2⟩

theorem mem_directSuccession : ∀ {log : List (List α)} {s : List (α × α)} {p : α × α},
    p ∈ directSuccession log s ↔ p ∈ s ∨ Follows log p.1 p.2 := by
  intro log
  induction log with
  | nil => intro s p; simp [directSuccession, Follows]
  | cons t ts ih =>
    intro s p
    simp only [directSuccession]
    rw [ih, mem_setAddAll]
    obtain ⟨a, b⟩ := p
    rw [mem_neighbours]
    simp only [Follows, List.mem_cons, exists_eq_or_imp]
    rw [or_assoc]

theorem mem_product {β : Type} {a : List α} {b : List β} {p : α × β} : p ∈ product a b ↔ p.1 ∈ a ∧ p.2 ∈ b := by
  obtain ⟨x, y⟩ := p
  simp [product]

/-! ## C90 -/

/-- **C90**: the four lists of the footprint are the relations of the definition, without repetitions;
`allEvents` is any enumeration of the activities of the log. -/
theorem c90_relations (log : List (List α)) {allEvents : List α} (hall : ∀ a, a ∈ allEvents ↔ Occurs log a) (a b : α) :
    ((a, b) ∈ (footprint allEvents log).direct ↔ Follows log a b) ∧
    ((a, b) ∈ (footprint allEvents log).causal ↔ Causes log a b) ∧
    ((a, b) ∈ (footprint allEvents log).parallel ↔ Concurrent log a b) ∧
    ((a, b) ∈ (footprint allEvents log).choice ↔ Occurs log a ∧ Occurs log b ∧ Unrelated log a b) := by
  have hd : ∀ p : α × α, p ∈ directSuccession log [] ↔ Follows log p.1 p.2 := by
    intro p; rw [mem_directSuccession]; simp
  have hf : ∀ {a b}, Follows log a b → Occurs log a ∧ Occurs log b := by
    rintro a b ⟨t, ht, u, v, rfl⟩
    exact ⟨⟨_, ht, by simp⟩, ⟨_, ht, by simp⟩⟩
  refine ⟨hd _, ?_, ?_, ?_⟩
  · simp only [footprint, mem_setAddAll, List.mem_filter, hd, decide_eq_true_eq]
    simp [Causes]
  · simp only [footprint, mem_setAddAll, List.mem_filter, hd, decide_eq_true_eq, mem_product, hall]
    simp only [List.not_mem_nil, false_or]
    constructor
    · exact fun h => h.2
    · exact fun h => ⟨⟨(hf h.1).1, (hf h.1).2⟩, h⟩
  · simp only [footprint, mem_setAddAll, List.mem_filter, hd, decide_eq_true_eq, mem_product, hall]
    simp only [List.not_mem_nil, false_or, Unrelated, and_assoc]

/-- **C90**: every pair of activities of the log is in exactly one of: causal, causal the other way
round, parallel, choice. -/
theorem c90_partition (log : List (List α)) {allEvents : List α} (hall : ∀ a, a ∈ allEvents ↔ Occurs log a) {a b : α}
    (ha : Occurs log a) (hb : Occurs log b) :
    ExactlyOne [(a, b) ∈ (footprint allEvents log).causal, (b, a) ∈ (footprint allEvents log).causal,
      (a, b) ∈ (footprint allEvents log).parallel, (a, b) ∈ (footprint allEvents log).choice] := by
  obtain ⟨_, h2, h3, h4⟩ := c90_relations log hall a b
  obtain ⟨_, h2', _, _⟩ := c90_relations log hall b a
  simp only [ExactlyOne, h2, h2', h3, h4, Causes, Concurrent, Unrelated, ha, hb, true_and]
  by_cases h : Follows log a b <;> by_cases h' : Follows log b a <;> simp [h, h']

/-- **C90**: the relations do not depend on the order of the traces or on repeated traces. -/
theorem c90_order {log log' : List (List α)} (h : ∀ t, t ∈ log ↔ t ∈ log') {allEvents allEvents' : List α}
    (hall : ∀ a, a ∈ allEvents ↔ Occurs log a) (hall' : ∀ a, a ∈ allEvents' ↔ Occurs log' a) (p : α × α) :
    (p ∈ (footprint allEvents log).causal ↔ p ∈ (footprint allEvents' log').causal) ∧
    (p ∈ (footprint allEvents log).parallel ↔ p ∈ (footprint allEvents' log').parallel) ∧
    (p ∈ (footprint allEvents log).choice ↔ p ∈ (footprint allEvents' log').choice) := by
  have hf : ∀ a b, Follows log a b ↔ Follows log' a b := by
    intro a b
    simp only [Follows, h]
  have ho : ∀ a, Occurs log a ↔ Occurs log' a := by
    intro a
    simp only [Occurs, h]
  obtain ⟨_, h2, h3, h4⟩ := c90_relations log hall p.1 p.2
  obtain ⟨_, g2, g3, g4⟩ := c90_relations log' hall' p.1 p.2
  simp only [Causes, Concurrent, Unrelated, hf, ho] at h2 h3 h4 g2 g3 g4
  exact ⟨h2.trans g2.symm, h3.trans g3.symm, h4.trans g4.symm⟩

/-! ## C91 -/

theorem mem_combinations : ∀ {xs : List α} {k : Nat} {s : List α}, s ∈ combinations k xs ↔ s.Sublist xs ∧ s.length = k := by
  intro xs
  induction xs with
  | nil =>
    intro k s
    cases k with
    | zero => simp [combinations]
    | succ k =>
      simp only [combinations, List.not_mem_nil, List.sublist_nil, false_iff]
      rintro ⟨rfl, h⟩
      simp at h
  | cons x xs ih =>
    intro k s
    cases k with
    | zero =>
      simp only [combinations, List.mem_singleton, List.length_eq_zero_iff]
      constructor
      · rintro rfl; exact ⟨by simp, rfl⟩
      · exact fun h => h.2
    | succ k =>
      simp only [combinations, List.mem_append, List.mem_map]
      constructor
      · rintro (⟨r, hr, rfl⟩ | h)
        · obtain ⟨h1, h2⟩ := ih.1 hr
          exact ⟨h1.cons_cons x, by simp [h2]⟩
        · obtain ⟨h1, h2⟩ := ih.1 h
          exact ⟨h1.cons x, h2⟩
      · rintro ⟨h1, h2⟩
        cases h1 with
        | cons _ h1 => exact Or.inr (ih.2 ⟨h1, h2⟩)
        | cons_cons _ h1 => exact Or.inl ⟨_, ih.2 ⟨h1, by simpa using h2⟩, rfl⟩

theorem mem_combinationSets {all s : List α} : s ∈ combinationSets all ↔ s.Sublist all ∧ 0 < s.length ∧ s.length < all.length := by
  have key : ∀ (is : List Nat) (acc : List (List α)),
      s ∈ is.foldl (fun s i => setAddAll s (combinations (i + 1) all)) acc ↔ s ∈ acc ∨ ∃ i ∈ is, s.Sublist all ∧ s.length = i + 1 := by
    intro is
    induction is with
    | nil => intro acc; simp
    | cons i is ih =>
      intro acc
      simp only [List.foldl_cons, ih, mem_setAddAll, mem_combinations, List.mem_cons, exists_eq_or_imp, or_assoc]
  unfold combinationSets
  rw [key]
  simp only [List.not_mem_nil, false_or, List.mem_range]
  constructor
  · rintro ⟨i, hi, h1, h2⟩
    exact ⟨h1, by omega, by omega⟩
  · rintro ⟨h1, h2, h3⟩
    exact ⟨s.length - 1, by omega, h1, by omega⟩

theorem checkOneSet_iff {s : List α} {r : List (α × α)} : checkOneSet s r = true ↔ ∀ a ∈ s, ∀ b ∈ s, (a, b) ∈ r := by
  simp only [checkOneSet, List.all_eq_true, decide_eq_true_eq, mem_product]
  constructor
  · exact fun h a ha b hb => h (a, b) ⟨ha, hb⟩
  · exact fun h p hp => h p.1 hp.1 p.2 hp.2

theorem checkTwoSet_iff {a b : List α} {r : List (α × α)} : checkTwoSet a b r = true ↔ ∀ x ∈ a, ∀ y ∈ b, (x, y) ∈ r := by
  simp only [checkTwoSet, List.all_eq_true, decide_eq_true_eq, mem_product]
  constructor
  · exact fun h x hx y hy => h (x, y) ⟨hx, hy⟩
  · exact fun h p hp => h p.1 hp.1 p.2 hp.2

theorem mem_buildPairs {all : List α} {fp : Footprint α} {p : List α × List α} :
    p ∈ buildPairs all fp ↔ p.1 ∈ combinationSets all ∧ p.2 ∈ combinationSets all ∧ checkOneSet p.1 fp.choice = true ∧
      checkOneSet p.2 fp.choice = true ∧ checkTwoSet p.1 p.2 fp.causal = true := by
  have inner : ∀ (bs : List (List α)) (a : List α) (xl : List (List α × List α)),
      p ∈ bs.foldl (fun xl b => if checkOneSet b fp.choice && checkTwoSet a b fp.causal then setAdd (a, b) xl else xl) xl ↔
      p ∈ xl ∨ (p.1 = a ∧ p.2 ∈ bs ∧ checkOneSet p.2 fp.choice = true ∧ checkTwoSet a p.2 fp.causal = true) := by
    intro bs a
    induction bs with
    | nil => intro xl; simp
    | cons b bs ih =>
      intro xl
      simp only [List.foldl_cons, ih, List.mem_cons]
      by_cases hb : (checkOneSet b fp.choice && checkTwoSet a b fp.causal) = true
      · rw [if_pos hb, mem_setAdd]
        rw [Bool.and_eq_true] at hb
        constructor
        · rintro ((h | rfl) | ⟨h1, h2, h3⟩)
          · exact Or.inl h
          · exact Or.inr ⟨rfl, Or.inl rfl, hb⟩
          · exact Or.inr ⟨h1, Or.inr h2, h3⟩
        · rintro (h | ⟨h1, h2 | h2, h3⟩)
          · exact Or.inl (Or.inl h)
          · exact Or.inl (Or.inr (Prod.ext h1 h2))
          · exact Or.inr ⟨h1, h2, h3⟩
      · rw [if_neg hb]
        rw [Bool.and_eq_true] at hb
        constructor
        · rintro (h | ⟨h1, h2, h3⟩)
          · exact Or.inl h
          · exact Or.inr ⟨h1, Or.inr h2, h3⟩
        · rintro (h | ⟨h1, h2 | h2, h3⟩)
          · exact Or.inl h
          · exact absurd (h2 ▸ h3) hb
          · exact Or.inr ⟨h1, h2, h3⟩
  have outer : ∀ (as : List (List α)) (xl : List (List α × List α)),
      p ∈ as.foldl (fun xl a => if checkOneSet a fp.choice then
          (combinationSets all).foldl (fun xl b => if checkOneSet b fp.choice && checkTwoSet a b fp.causal then setAdd (a, b) xl else xl) xl
        else xl) xl ↔
      p ∈ xl ∨ (p.1 ∈ as ∧ checkOneSet p.1 fp.choice = true ∧ p.2 ∈ combinationSets all ∧ checkOneSet p.2 fp.choice = true ∧
        checkTwoSet p.1 p.2 fp.causal = true) := by
    intro as
    induction as with
    | nil => intro xl; simp
    | cons a as ih =>
      intro xl
      simp only [List.foldl_cons, ih, List.mem_cons]
      by_cases ha : checkOneSet a fp.choice = true
      · rw [if_pos ha, inner]
        constructor
        · rintro ((h | ⟨rfl, h2, h3⟩) | ⟨h1, h2⟩)
          · exact Or.inl h
          · exact Or.inr ⟨Or.inl rfl, ha, h2, h3⟩
          · exact Or.inr ⟨Or.inr h1, h2⟩
        · rintro (h | ⟨h1 | h1, h2, h3, h4⟩)
          · exact Or.inl (Or.inl h)
          · exact Or.inl (Or.inr ⟨h1, h3, h4.1, h1 ▸ h4.2⟩)
          · exact Or.inr ⟨h1, h2, h3, h4⟩
      · rw [if_neg ha]
        constructor
        · rintro (h | ⟨h1, h2⟩)
          · exact Or.inl h
          · exact Or.inr ⟨Or.inr h1, h2⟩
        · rintro (h | ⟨h1 | h1, h2, h3⟩)
          · exact Or.inl h
          · exact absurd (h1 ▸ h2) ha
          · exact Or.inr ⟨h1, h2, h3⟩
  unfold buildPairs
  rw [outer]
  simp only [List.not_mem_nil, false_or]
  constructor
  · rintro ⟨h1, h2, h3, h4, h5⟩
    exact ⟨h1, h3, h2, h4, h5⟩
  · rintro ⟨h1, h2, h3, h4, h5⟩
    exact ⟨h1, h3, h2, h4, h5⟩

/-- Two sublists of a list without repetitions that have the same members are the same. -/
theorem sublist_ext {l : List α} (hn : l.Nodup) : ∀ {a b : List α}, a.Sublist l → b.Sublist l → (∀ x, x ∈ a ↔ x ∈ b) → a = b := by
  have key : ∀ {l s : List α}, l.Nodup → s.Sublist l → s = l.filter (fun x => x ∈ s) := by
    intro l s hn hs
    induction hs with
    | slnil => rfl
    | cons x hs ih =>
      rename_i l1 l2
      rw [List.nodup_cons] at hn
      have : x ∉ l1 := fun hx => hn.1 (hs.subset hx)
      rw [List.filter_cons_of_neg (by simpa using this)]
      exact ih hn.2
    | cons_cons x hs ih =>
      rename_i l1 l2
      rw [List.nodup_cons] at hn
      rw [List.filter_cons_of_pos (by simp)]
      congr 1
      have e := ih hn.2
      rw [show l2.filter (fun y => decide (y ∈ x :: l1)) = l2.filter (fun y => decide (y ∈ l1)) from ?_]
      · exact e
      · apply List.filter_congr
        intro y hy
        have : y ≠ x := by rintro rfl; exact hn.1 hy
        simp [this]
  intro a b ha hb h
  rw [key hn ha, key hn hb]
  apply List.filter_congr
  intro x _
  simp [h]

theorem causes_irrefl {log : List (List α)} {a : α} : ¬ Causes log a a := fun h => h.2 h.1

/-- **C91**: `_build_pairs` finds exactly the pairs of sets of the definition, each written in the order
in which the set of activities is enumerated. -/
theorem c91_pairs (log : List (List α)) {all : List α} (hall : ∀ a, a ∈ all ↔ Occurs log a) (A B : List α) :
    (A, B) ∈ buildPairs all (footprint all log) ↔ A.Sublist all ∧ B.Sublist all ∧ AlphaPair log (· ∈ A) (· ∈ B) := by
  rw [mem_buildPairs]
  simp only [mem_combinationSets, checkOneSet_iff, checkTwoSet_iff]
  constructor
  · rintro ⟨⟨a1, a2, a3⟩, ⟨b1, b2, b3⟩, h1, h2, h3⟩
    refine ⟨a1, b1, ⟨fun a ha => (hall a).1 (a1.subset ha), fun b hb => (hall b).1 (b1.subset hb)⟩,
      ⟨List.exists_mem_of_length_pos a2, List.exists_mem_of_length_pos b2⟩, ?_, ?_, ?_⟩
    · exact fun a b ha hb => ((c90_relations log hall a b).2.1).1 (h3 a ha b hb)
    · exact fun a b ha hb => (((c90_relations log hall a b).2.2.2).1 (h1 a ha b hb)).2.2
    · exact fun a b ha hb => (((c90_relations log hall a b).2.2.2).1 (h2 a ha b hb)).2.2
  · rintro ⟨a1, b1, hp⟩
    obtain ⟨a0, ha0⟩ := hp.nonempty.1
    obtain ⟨b0, hb0⟩ := hp.nonempty.2
    refine ⟨⟨a1, List.length_pos_of_mem ha0, ?_⟩, ⟨b1, List.length_pos_of_mem hb0, ?_⟩, ?_, ?_, ?_⟩
    · rcases Nat.lt_or_ge A.length all.length with h | h
      · exact h
      · have := a1.eq_of_length_le h
        subst this
        exact absurd (hp.causes b0 b0 (b1.subset hb0) hb0) causes_irrefl
    · rcases Nat.lt_or_ge B.length all.length with h | h
      · exact h
      · have := b1.eq_of_length_le h
        subst this
        exact absurd (hp.causes a0 a0 ha0 (a1.subset ha0)) causes_irrefl
    · exact fun a ha b hb => ((c90_relations log hall a b).2.2.2).2 ⟨hp.fromLog.1 a ha, hp.fromLog.1 b hb, hp.unrelated.1 a b ha hb⟩
    · exact fun a ha b hb => ((c90_relations log hall a b).2.2.2).2 ⟨hp.fromLog.2 a ha, hp.fromLog.2 b hb, hp.unrelated.2 a b ha hb⟩
    · exact fun a ha b hb => ((c90_relations log hall a b).2.1).2 (hp.causes a b ha hb)

/-- The pair of lists has the members of the two sets. -/
def Lists (p : List α × List α) (A B : α → Prop) : Prop := (∀ x, x ∈ p.1 ↔ A x) ∧ (∀ x, x ∈ p.2 ↔ B x)

theorem alphaPair_congr {log : List (List α)} {A B A' B' : α → Prop} (hA : ∀ x, A x ↔ A' x) (hB : ∀ x, B x ↔ B' x)
    (h : AlphaPair log A B) : AlphaPair log A' B' := by
  obtain rfl : A = A' := funext fun x => propext (hA x)
  obtain rfl : B = B' := funext fun x => propext (hB x)
  exact h

/-- **C91**: every pair of sets of the definition is found, and found once. -/
theorem c91_each_once (log : List (List α)) {all : List α} (hn : all.Nodup) (hall : ∀ a, a ∈ all ↔ Occurs log a)
    {A B : α → Prop} (h : AlphaPair log A B) :
    ∃ p ∈ buildPairs all (footprint all log), Lists p A B ∧ ∀ q ∈ buildPairs all (footprint all log), Lists q A B → q = p := by
  classical
  have hA : ∀ x, x ∈ all.filter (fun x => decide (A x)) ↔ A x := by
    intro x
    simp only [List.mem_filter, decide_eq_true_eq, hall, and_iff_right_iff_imp]
    exact h.fromLog.1 x
  have hB : ∀ x, x ∈ all.filter (fun x => decide (B x)) ↔ B x := by
    intro x
    simp only [List.mem_filter, decide_eq_true_eq, hall, and_iff_right_iff_imp]
    exact h.fromLog.2 x
  refine ⟨(all.filter (fun x => decide (A x)), all.filter (fun x => decide (B x))), ?_, ⟨hA, hB⟩, ?_⟩
  · rw [c91_pairs log hall]
    exact ⟨List.filter_sublist, List.filter_sublist, alphaPair_congr (fun x => (hA x).symm) (fun x => (hB x).symm) h⟩
  · rintro ⟨q1, q2⟩ hq ⟨h1, h2⟩
    rw [c91_pairs log hall] at hq
    exact Prod.ext (sublist_ext hn hq.1 List.filter_sublist fun x => (h1 x).trans (hA x).symm)
      (sublist_ext hn hq.2.1 List.filter_sublist fun x => (h2 x).trans (hB x).symm)

/-! ## C92 -/

/-- A pair of the definition that cannot be extended. -/
structure MaximalPair (log : List (List α)) (A B : α → Prop) : Prop where
  isPair : AlphaPair log A B
  maximal : ∀ A' B' : α → Prop, AlphaPair log A' B' → (∀ x, A x → A' x) → (∀ x, B x → B' x) →
    (∀ x, A' x ↔ A x) ∧ (∀ x, B' x ↔ B x)

theorem isSubset_iff {a b : List α} : isSubset a b = true ↔ ∀ x ∈ a, x ∈ b := by
  simp [isSubset]

theorem mem_generatePlaces {pairs : List (List α × List α)} {p : List α × List α} :
    p ∈ generatePlaces pairs ↔ p ∈ pairs ∧ ∀ q ∈ pairs, (∀ x ∈ p.1, x ∈ q.1) → (∀ x ∈ p.2, x ∈ q.2) → p = q := by
  have inner : ∀ (qs : List (List α × List α)) (r : List α × List α) (yl : List (List α × List α)),
      p ∈ qs.foldl (fun yl q => if r ≠ q ∧ isSubset r.1 q.1 = true ∧ isSubset r.2 q.2 = true then discard r yl else yl) yl ↔
      p ∈ yl ∧ ¬ (p = r ∧ ∃ q ∈ qs, r ≠ q ∧ isSubset r.1 q.1 = true ∧ isSubset r.2 q.2 = true) := by
    intro qs r
    induction qs with
    | nil => intro yl; simp
    | cons q qs ih =>
      intro yl
      simp only [List.foldl_cons, ih, List.mem_cons, exists_eq_or_imp]
      by_cases hq : r ≠ q ∧ isSubset r.1 q.1 = true ∧ isSubset r.2 q.2 = true
      · rw [if_pos hq]
        simp only [discard, List.mem_filter, decide_eq_true_eq]
        constructor
        · rintro ⟨⟨h1, h2⟩, _⟩
          exact ⟨h1, fun h => h2 h.1⟩
        · rintro ⟨h1, h2⟩
          have hne : p ≠ r := fun h => h2 ⟨h, Or.inl hq⟩
          exact ⟨⟨h1, hne⟩, fun h => hne h.1⟩
      · rw [if_neg hq]
        constructor
        · rintro ⟨h1, h2⟩
          exact ⟨h1, fun h => h2 ⟨h.1, h.2.resolve_left hq⟩⟩
        · rintro ⟨h1, h2⟩
          exact ⟨h1, fun h => h2 ⟨h.1, Or.inr h.2⟩⟩
  have outer : ∀ (rs : List (List α × List α)) (yl : List (List α × List α)),
      p ∈ rs.foldl (fun yl r => pairs.foldl (fun yl q =>
        if r ≠ q ∧ isSubset r.1 q.1 = true ∧ isSubset r.2 q.2 = true then discard r yl else yl) yl) yl ↔
      p ∈ yl ∧ ¬ (p ∈ rs ∧ ∃ q ∈ pairs, p ≠ q ∧ isSubset p.1 q.1 = true ∧ isSubset p.2 q.2 = true) := by
    intro rs
    induction rs with
    | nil => intro yl; simp
    | cons r rs ih =>
      intro yl
      simp only [List.foldl_cons, ih, inner, List.mem_cons]
      constructor
      · rintro ⟨⟨h1, h2⟩, h3⟩
        refine ⟨h1, ?_⟩
        rintro ⟨rfl | h4, h5⟩
        · exact h2 ⟨rfl, h5⟩
        · exact h3 ⟨h4, h5⟩
      · rintro ⟨h1, h2⟩
        refine ⟨⟨h1, ?_⟩, fun h => h2 ⟨Or.inr h.1, h.2⟩⟩
        rintro ⟨rfl, h⟩
        exact h2 ⟨Or.inl rfl, h⟩
  unfold generatePlaces
  rw [outer]
  simp only [isSubset_iff]
  constructor
  · rintro ⟨h1, h2⟩
    refine ⟨h1, fun q hq ha hb => ?_⟩
    by_cases hpq : p = q
    · exact hpq
    · exact absurd ⟨h1, q, hq, hpq, ha, hb⟩ h2
  · rintro ⟨h1, h2⟩
    refine ⟨h1, ?_⟩
    rintro ⟨_, q, hq, hpq, ha, hb⟩
    exact hpq (h2 q hq ha hb)

/-- **C92**: the places are exactly the maximal pairs of the definition. -/
theorem c92_places (log : List (List α)) {all : List α} (hn : all.Nodup) (hall : ∀ a, a ∈ all ↔ Occurs log a) (A B : List α) :
    (A, B) ∈ generatePlaces (buildPairs all (footprint all log)) ↔
      A.Sublist all ∧ B.Sublist all ∧ MaximalPair log (· ∈ A) (· ∈ B) := by
  rw [mem_generatePlaces]
  constructor
  · rintro ⟨h1, h2⟩
    have h0 := (c91_pairs log hall A B).1 h1
    refine ⟨h0.1, h0.2.1, h0.2.2, fun A' B' hp hA hB => ?_⟩
    obtain ⟨q, hq, ⟨q1, q2⟩, _⟩ := c91_each_once log hn hall hp
    have := h2 q hq (fun x hx => (q1 x).2 (hA x hx)) (fun x hx => (q2 x).2 (hB x hx))
    subst this
    exact ⟨fun x => (q1 x).symm, fun x => (q2 x).symm⟩
  · rintro ⟨h1, h2, hm⟩
    refine ⟨(c91_pairs log hall A B).2 ⟨h1, h2, hm.isPair⟩, ?_⟩
    rintro ⟨C, D⟩ hq hC hD
    have h0 := (c91_pairs log hall C D).1 hq
    obtain ⟨e1, e2⟩ := hm.maximal _ _ h0.2.2 hC hD
    exact Prod.ext (sublist_ext hn h1 h0.1 fun x => (e1 x).symm) (sublist_ext hn h2 h0.2.1 fun x => (e2 x).symm)

/-- **C92**: every pair of the definition is part of some place. -/
theorem c92_covered (log : List (List α)) {all : List α} (hn : all.Nodup) (hall : ∀ a, a ∈ all ↔ Occurs log a)
    {A B : α → Prop} (h : AlphaPair log A B) :
    ∃ p ∈ generatePlaces (buildPairs all (footprint all log)), (∀ x, A x → x ∈ p.1) ∧ (∀ x, B x → x ∈ p.2) := by
  have key : ∀ (n : Nat) (p : List α × List α), p ∈ buildPairs all (footprint all log) →
      2 * all.length - (p.1.length + p.2.length) ≤ n →
      ∃ q ∈ generatePlaces (buildPairs all (footprint all log)), (∀ x ∈ p.1, x ∈ q.1) ∧ (∀ x ∈ p.2, x ∈ q.2) := by
    intro n
    induction n with
    | zero =>
      intro p hp hle
      have h0 := (c91_pairs log hall p.1 p.2).1 hp
      obtain ⟨b0, hb0⟩ := h0.2.2.nonempty.2
      have e : p.1.length = all.length := by
        have := h0.1.length_le
        have := h0.2.1.length_le
        omega
      have : p.1 = all := h0.1.eq_of_length e
      exact absurd (h0.2.2.causes b0 b0 (by show b0 ∈ p.1; rw [this]; exact h0.2.1.subset hb0) hb0) causes_irrefl
    | succ n ih =>
      intro p hp hle
      by_cases hm : ∀ q ∈ buildPairs all (footprint all log), (∀ x ∈ p.1, x ∈ q.1) → (∀ x ∈ p.2, x ∈ q.2) → p = q
      · exact ⟨p, mem_generatePlaces.2 ⟨hp, hm⟩, fun _ h => h, fun _ h => h⟩
      · simp only [not_forall] at hm
        obtain ⟨q, hq, h1, h2, hne⟩ := hm
        have hp0 := (c91_pairs log hall p.1 p.2).1 hp
        have hq0 := (c91_pairs log hall q.1 q.2).1 hq
        have n1 : p.1.Nodup := hn.sublist hp0.1
        have n2 : p.2.Nodup := hn.sublist hp0.2.1
        have l1 : p.1.length ≤ q.1.length := (n1.subperm h1).length_le
        have l2 : p.2.length ≤ q.2.length := (n2.subperm h2).length_le
        have hlt : p.1.length + p.2.length < q.1.length + q.2.length := by
          rcases Nat.lt_or_ge (p.1.length + p.2.length) (q.1.length + q.2.length) with h | h
          · exact h
          · exfalso
            have s1 : q.1.length ≤ p.1.length := by omega
            have s2 : q.2.length ≤ p.2.length := by omega
            have e1 := (n1.subperm h1).perm_of_length_le s1
            have e2 := (n2.subperm h2).perm_of_length_le s2
            exact hne (Prod.ext (sublist_ext hn hp0.1 hq0.1 fun x => e1.mem_iff) (sublist_ext hn hp0.2.1 hq0.2.1 fun x => e2.mem_iff))
        have u1 := hq0.1.length_le
        have u2 := hq0.2.1.length_le
        obtain ⟨r, hr, g1, g2⟩ := ih q hq (by omega)
        exact ⟨r, hr, fun x hx => g1 x (h1 x hx), fun x hx => g2 x (h2 x hx)⟩
  obtain ⟨p, hp, ⟨p1, p2⟩, _⟩ := c91_each_once log hn hall h
  obtain ⟨q, hq, h1, h2⟩ := key _ p hp (Nat.le_refl _)
  exact ⟨q, hq, fun x hx => h1 x ((p1 x).2 hx), fun x hx => h2 x ((p2 x).2 hx)⟩

/-! ## Reading the log -/

/-- The activity is the first of some trace. -/
def Starts (log : List (List α)) (a : α) : Prop := ∃ t ∈ log, t.head? = some a

/-- The activity is the last of some trace. -/
def Ends (log : List (List α)) (a : α) : Prop := ∃ t ∈ log, t.getLast? = some a

theorem extract_spec : ∀ (log : List (List α)) (x : Extracted α),
    ([] ∈ log → extractEvents x log = .error .indexError) ∧
    ([] ∉ log → ∃ y, extractEvents x log = .ok y ∧
      (∀ a, a ∈ y.starting ↔ a ∈ x.starting ∨ ∃ t ∈ log, t.head? = some a) ∧
      (∀ a, a ∈ y.ending ↔ a ∈ x.ending ∨ ∃ t ∈ log, t.getLast? = some a) ∧
      (∀ a, a ∈ y.all ↔ a ∈ x.all ∨ Occurs log a) ∧ (x.all.Nodup → y.all.Nodup)) := by
  intro log
  induction log with
  | nil =>
    intro x
    refine ⟨by simp, fun _ => ⟨x, rfl, by simp, by simp, by simp [Occurs], id⟩⟩
  | cons t ts ih =>
    intro x
    cases t with
    | nil =>
      refine ⟨fun _ => rfl, fun h => absurd (by simp) h⟩
    | cons c r =>
      have hne : (c :: r) ≠ [] := by simp
      have step : extractEvents x ((c :: r) :: ts) =
          extractEvents ⟨setAdd c x.starting, setAdd ((c :: r).getLast hne) x.ending, setAddAll x.all (c :: r)⟩ ts := by
        simp only [extractEvents, List.head?_cons, List.getLast?_eq_some_getLast hne]
      rw [step]
      obtain ⟨i1, i2⟩ := ih ⟨setAdd c x.starting, setAdd ((c :: r).getLast hne) x.ending, setAddAll x.all (c :: r)⟩
      refine ⟨fun h => i1 (by simpa using h), fun h => ?_⟩
      obtain ⟨y, e, h1, h2, h3, h4⟩ := i2 (fun h' => h (List.mem_cons_of_mem _ h'))
      refine ⟨y, e, fun a => ?_, fun a => ?_, fun a => ?_, fun hx => h4 (nodup_setAddAll hx)⟩
      · rw [h1, mem_setAdd]
        simp only [List.mem_cons, exists_eq_or_imp, List.head?_cons, Option.some.injEq, or_assoc, eq_comm]
      · rw [h2, mem_setAdd]
        simp only [List.mem_cons, exists_eq_or_imp, List.getLast?_eq_some_getLast hne, Option.some.injEq, or_assoc, eq_comm]
      · rw [h3, mem_setAddAll]
        simp only [Occurs, List.mem_cons, exists_eq_or_imp, or_assoc]

/-! ## Arcs -/

theorem inSet_iff {e : α} {o : Option (List α)} : inSet e o = true ↔ ∃ s, o = some s ∧ e ∈ s := by
  cases o with
  | none => simp [inSet]
  | some s =>
    by_cases hs : s = []
    · simp [inSet, hs]
    · simp [inSet, hs]

theorem arcs_filter (e : α) : ∀ (ps : List (Place α)), (∀ p ∈ ps, inSet e p.stop = true → inSet e p.start = false) →
    arcs e ps = ((ps.filter fun p => inSet e p.stop).map Place.name, (ps.filter fun p => inSet e p.start).map Place.name) := by
  intro ps
  induction ps with
  | nil => intro _; rfl
  | cons p ps ih =>
    intro h
    have i := ih (fun q hq => h q (List.mem_cons_of_mem _ hq))
    have hp := h p (List.mem_cons_self ..)
    simp only [arcs, i]
    by_cases h1 : inSet e p.stop = true
    · have h2 := hp h1
      simp [h1, h2]
    · have h1' : inSet e p.stop = false := by simpa using h1
      by_cases h2 : inSet e p.start = true
      · simp [h1', h2]
      · have h2' : inSet e p.start = false := by simpa using h2
        simp [h1', h2']

/-- The names the text gives to the places. -/
def placeName (i : Nat) : Str := py!"place_" ++ intStr i

theorem nameFrom_get : ∀ (l : List (Option (List α) × Option (List α))) (n i : Nat),
    (nameFrom n l)[i]? = (l[i]?).map fun p => ⟨p.1, p.2, placeName (n + i)⟩ := by
  intro l
  induction l with
  | nil => intro n i; simp [nameFrom]
  | cons p l ih =>
    intro n i
    obtain ⟨s, e⟩ := p
    cases i with
    | zero => simp [nameFrom, placeName]
    | succ i =>
      simp only [nameFrom, List.getElem?_cons_succ, ih]
      have : n + 1 + i = n + (i + 1) := by omega
      rw [this]

theorem nameFrom_length : ∀ (l : List (Option (List α) × Option (List α))) (n : Nat), (nameFrom n l).length = l.length := by
  intro l
  induction l with
  | nil => intro n; rfl
  | cons p l ih => intro n; obtain ⟨s, e⟩ := p; simp [nameFrom, ih]

theorem nameFrom_names (l : List (Option (List α) × Option (List α))) (n : Nat) :
    (nameFrom n l).map Place.name = (List.range l.length).map fun i => placeName (n + i) := by
  apply List.ext_getElem?
  intro i
  simp only [List.getElem?_map, nameFrom_get]
  by_cases hi : i < l.length
  · simp [List.getElem?_eq_getElem hi, List.getElem?_range hi]
  · simp [List.getElem?_eq_none (Nat.le_of_not_lt hi), List.getElem?_eq_none (l := List.range l.length) (by simpa using hi)]

end

theorem quoted_eq : ∀ l : List Str, quoted l = (py!" ").intercalate (l.map fun n => py!"\"" ++ n ++ py!"\"") := by
  intro l
  induction l with
  | nil => rfl
  | cons n l ih =>
    cases l with
    | nil => simp [quoted, List.intercalate]
    | cons m r =>
      rw [quoted, ih]
      simp [List.intercalate]

theorem transLines_get (places : List (Place Str)) : ∀ (es : List Str) (n j : Nat),
    (transLines places n es)[j]? = (es[j]?).map fun e => transLine (n + j) e (arcs e places) := by
  intro es
  induction es with
  | nil => intro n j; simp [transLines]
  | cons e es ih =>
    intro n j
    cases j with
    | zero => simp [transLines]
    | succ j =>
      simp only [transLines, List.getElem?_cons_succ, ih]
      have : n + 1 + j = n + (j + 1) := by omega
      rw [this]

theorem transLines_length (places : List (Place Str)) : ∀ (es : List Str) (n : Nat), (transLines places n es).length = es.length := by
  intro es
  induction es with
  | nil => intro n; rfl
  | cons e es ih => intro n; simp [transLines, ih]

/-! ## C93, C94 -/

/-- Sets may be enumerated in any order. -/
def Enumerates {β : Type} (f : List β → List β) : Prop := ∀ l, (f l).Perm l

/-- **C94**: the algorithm raises `IndexError` for a log with an empty trace and succeeds for every other
log; then the starting, ending and all activities are those of the log. -/
theorem c94_events (order : List Str → List Str) (orderP : List (List Str × List Str) → List (List Str × List Str))
    (log : List (List Str)) :
    ([] ∈ log → alpha order orderP log = .error .indexError) ∧
    ([] ∉ log → ∃ net, alpha order orderP log = .ok net ∧ (∀ a, a ∈ net.events.starting ↔ Starts log a) ∧
      (∀ a, a ∈ net.events.ending ↔ Ends log a) ∧ (∀ a, a ∈ net.events.all ↔ Occurs log a) ∧ net.events.all.Nodup) := by
  obtain ⟨h1, h2⟩ := extract_spec log ⟨[], [], []⟩
  constructor
  · intro h
    simp only [alpha, h1 h]
    rfl
  · intro h
    obtain ⟨y, e, a1, a2, a3, a4⟩ := h2 h
    refine ⟨_, by simp only [alpha, e]; rfl, ?_⟩
    refine ⟨fun a => ?_, fun a => ?_, fun a => ?_, a4 List.nodup_nil⟩
    · simpa [Starts] using a1 a
    · simpa [Ends] using a2 a
    · simpa using a3 a

theorem alpha_ok {order : List Str → List Str} {orderP : List (List Str × List Str) → List (List Str × List Str)}
    {log : List (List Str)} {net : AlphaNet} (h : alpha order orderP log = .ok net) :
    net.places = generatePlaces net.pairs ∧ net.pairs = buildPairs (order net.events.all) net.footprint ∧
    net.footprint = footprint (order net.events.all) log ∧
    net.text = (allPlaces net.events (orderP net.places)).map placeLine ++
      transLines (allPlaces net.events (orderP net.places)) ((allPlaces net.events (orderP net.places)).length + 1) (order net.events.all) := by
  unfold alpha at h
  rw [bind_ok] at h
  obtain ⟨x, _, h⟩ := h
  injection h with h
  subst h
  exact ⟨rfl, rfl, rfl, rfl⟩

theorem alpha_events {order : List Str → List Str} {orderP : List (List Str × List Str) → List (List Str × List Str)}
    {log : List (List Str)} {net : AlphaNet} (h : alpha order orderP log = .ok net) :
    [] ∉ log ∧ (∀ a, a ∈ net.events.starting ↔ Starts log a) ∧ (∀ a, a ∈ net.events.ending ↔ Ends log a) ∧
      (∀ a, a ∈ net.events.all ↔ Occurs log a) ∧ net.events.all.Nodup := by
  obtain ⟨h1, h2⟩ := c94_events order orderP log
  by_cases he : [] ∈ log
  · rw [h1 he] at h
    cases h
  · obtain ⟨net', e, r⟩ := h2 he
    rw [h] at e
    injection e with e
    subst e
    exact ⟨he, r⟩

/-- **C93**: the places of the whole algorithm are exactly the maximal pairs of the log, whatever the order
in which the sets are enumerated. -/
theorem c93_places {order : List Str → List Str} {orderP : List (List Str × List Str) → List (List Str × List Str)}
    (ho : Enumerates order) {log : List (List Str)} {net : AlphaNet} (h : alpha order orderP log = .ok net) :
    (∀ p ∈ net.places, MaximalPair log (· ∈ p.1) (· ∈ p.2)) ∧
    (∀ A B : Str → Prop, MaximalPair log A B → ∃ p ∈ net.places, Lists p A B ∧ ∀ q ∈ net.places, Lists q A B → q = p) := by
  obtain ⟨_, _, _, ha, hn⟩ := alpha_events h
  obtain ⟨e1, e2, e3, _⟩ := alpha_ok h
  have hn' : (order net.events.all).Nodup := (ho _).nodup_iff.2 hn
  have ha' : ∀ a, a ∈ order net.events.all ↔ Occurs log a := fun a => (ho _).mem_iff.trans (ha a)
  rw [e1, e2, e3]
  refine ⟨fun p hp => ((c92_places log hn' ha' p.1 p.2).1 hp).2.2, fun A B hm => ?_⟩
  obtain ⟨p, hp, hl, hu⟩ := c91_each_once log hn' ha' hm.isPair
  refine ⟨p, ?_, hl, fun q hq => hu q ((mem_generatePlaces.1 hq).1)⟩
  have h0 := (c91_pairs log ha' p.1 p.2).1 hp
  obtain rfl : (· ∈ p.1) = A := funext fun x => propext (hl.1 x)
  obtain rfl : (· ∈ p.2) = B := funext fun x => propext (hl.2 x)
  exact (c92_places log hn' ha' p.1 p.2).2 ⟨h0.1, h0.2.1, hm⟩

/-- **C93**: the text has one line for each place and one for each activity; the line of an activity names,
once each and in the order of the places, the places it takes from (the start place if it begins a trace,
and those with the activity in their second set) and the places it puts into (the end place if it ends a
trace, and those with the activity in their first set). -/
theorem c93_text {order : List Str → List Str} {orderP : List (List Str × List Str) → List (List Str × List Str)}
    (ho : Enumerates order) (hP : Enumerates orderP) {log : List (List Str)} {net : AlphaNet}
    (h : alpha order orderP log = .ok net) :
    net.text.length = (orderP net.places).length + 2 + (order net.events.all).length ∧
    net.text[0]? = some py!"Place \"place_0\" init 1;" ∧
    (∀ i, 0 < i → i < (orderP net.places).length + 2 → net.text[i]? = some (py!"Place \"" ++ placeName i ++ py!"\";")) ∧
    (∀ j e, (order net.events.all)[j]? = some e → ∃ ins outs : List Str,
      net.text[(orderP net.places).length + 2 + j]? = some (py!"trans \"t_" ++ intStr ((orderP net.places).length + 3 + j : Nat) ++
        py!"\"~\"" ++ e ++ py!"+complete\" in " ++ (py!" ").intercalate (ins.map fun n => py!"\"" ++ n ++ py!"\"") ++
        py!" out " ++ (py!" ").intercalate (outs.map fun n => py!"\"" ++ n ++ py!"\"") ++ py!" ;") ∧
      ins.Sublist ((List.range ((orderP net.places).length + 2)).map placeName) ∧
      outs.Sublist ((List.range ((orderP net.places).length + 2)).map placeName) ∧
      (∀ n, n ∈ ins ↔ (n = placeName 0 ∧ Starts log e) ∨
        ∃ i p, (orderP net.places)[i]? = some p ∧ e ∈ p.2 ∧ n = placeName (i + 2)) ∧
      (∀ n, n ∈ outs ↔ (n = placeName 1 ∧ Ends log e) ∨
        ∃ i p, (orderP net.places)[i]? = some p ∧ e ∈ p.1 ∧ n = placeName (i + 2))) := by
  obtain ⟨_, hs, he, _, _⟩ := alpha_events h
  obtain ⟨_, _, _, e4⟩ := alpha_ok h
  have hmax := (c93_places ho h).1
  have hget : ∀ i, (allPlaces net.events (orderP net.places))[i]? =
      (((none, some net.events.starting) :: (some net.events.ending, none) ::
        (orderP net.places).map fun p => (some p.1, some p.2) : List (Option (List Str) × Option (List Str)))[i]?).map
        fun p => Place.mk p.1 p.2 (placeName i) := by
    intro i
    have := nameFrom_get ((none, some net.events.starting) :: (some net.events.ending, none) ::
        (orderP net.places).map fun p => (some p.1, some p.2) : List (Option (List Str) × Option (List Str))) 0 i
    rw [Nat.zero_add] at this
    exact this
  have hlen : (allPlaces net.events (orderP net.places)).length = (orderP net.places).length + 2 := by
    simp [allPlaces, nameFrom_length]
  have hnames : (allPlaces net.events (orderP net.places)).map Place.name =
      (List.range ((orderP net.places).length + 2)).map placeName := by
    have := nameFrom_names ((none, some net.events.starting) :: (some net.events.ending, none) ::
        (orderP net.places).map fun p => (some p.1, some p.2) : List (Option (List Str) × Option (List Str))) 0
    simpa [allPlaces] using this
  have hmem : ∀ q : Place Str, q ∈ allPlaces net.events (orderP net.places) ↔
      q = ⟨none, some net.events.starting, placeName 0⟩ ∨ q = ⟨some net.events.ending, none, placeName 1⟩ ∨
      ∃ i p, (orderP net.places)[i]? = some p ∧ q = ⟨some p.1, some p.2, placeName (i + 2)⟩ := by
    intro q
    rw [List.mem_iff_getElem?]
    constructor
    · rintro ⟨i, hi⟩
      rw [hget] at hi
      match i with
      | 0 => exact Or.inl (by simpa using hi.symm)
      | 1 => exact Or.inr (Or.inl (by simpa using hi.symm))
      | i + 2 =>
        refine Or.inr (Or.inr ?_)
        simp only [List.getElem?_cons_succ, List.getElem?_map, Option.map_map, Option.map_eq_some_iff, Function.comp] at hi
        obtain ⟨p, hp, rfl⟩ := hi
        exact ⟨i, p, hp, rfl⟩
    · rintro (rfl | rfl | ⟨i, p, hp, rfl⟩)
      · exact ⟨0, by rw [hget]; rfl⟩
      · exact ⟨1, by rw [hget]; rfl⟩
      · exact ⟨i + 2, by rw [hget]; simp [hp]⟩
  have hdis : ∀ e, ∀ q ∈ allPlaces net.events (orderP net.places), inSet e q.stop = true → inSet e q.start = false := by
    intro e q hq h1
    by_contra h2
    have h2 : inSet e q.start = true := by simpa using h2
    rw [inSet_iff] at h1 h2
    obtain ⟨a, ha, hea⟩ := h1
    obtain ⟨b, hb, heb⟩ := h2
    rcases (hmem q).1 hq with rfl | rfl | ⟨i, p, hp, rfl⟩
    · cases hb
    · cases ha
    · injection ha with ha
      injection hb with hb
      subst ha hb
      have hpm : p ∈ net.places := (hP _).mem_iff.1 (List.mem_of_getElem? hp)
      exact causes_irrefl ((hmax p hpm).isPair.causes e e heb hea)
  refine ⟨?_, ?_, ?_, ?_⟩
  · rw [e4, List.length_append, List.length_map, transLines_length, hlen]
  · rw [e4, List.getElem?_append_left (by simp [hlen]), List.getElem?_map, hget]
    rfl
  · intro i h0 hi
    rw [e4, List.getElem?_append_left (by simpa [hlen] using hi), List.getElem?_map, hget]
    match i, h0 with
    | 1, _ => rfl
    | i + 2, _ =>
      have hi' : i < (orderP net.places).length := by omega
      simp [List.getElem?_eq_getElem hi', placeLine]
  · intro j e hj
    refine ⟨(arcs e (allPlaces net.events (orderP net.places))).1, (arcs e (allPlaces net.events (orderP net.places))).2, ?_, ?_⟩
    · rw [e4, List.getElem?_append_right (by simp [hlen]), List.length_map, hlen, transLines_get]
      have : (orderP net.places).length + 2 + j - ((orderP net.places).length + 2) = j := by omega
      rw [this, hj]
      have : (orderP net.places).length + 2 + 1 + j = (orderP net.places).length + 3 + j := by omega
      simp only [Option.map_some, transLine, quoted_eq, this]
    · rw [arcs_filter e _ (hdis e)]
      refine ⟨?_, ?_, ?_, ?_⟩
      · rw [← hnames]
        exact List.filter_sublist.map _
      · rw [← hnames]
        exact List.filter_sublist.map _
      · intro n
        simp only [List.mem_map, List.mem_filter, hmem, inSet_iff]
        constructor
        · rintro ⟨q, ⟨rfl | rfl | ⟨i, p, hp, rfl⟩, s, hs', hes⟩, rfl⟩
          · injection hs' with hs'
            subst hs'
            exact Or.inl ⟨rfl, (hs e).1 hes⟩
          · cases hs'
          · injection hs' with hs'
            subst hs'
            exact Or.inr ⟨i, p, hp, hes, rfl⟩
        · rintro (⟨rfl, hst⟩ | ⟨i, p, hp, hep, rfl⟩)
          · exact ⟨_, ⟨Or.inl rfl, _, rfl, (hs e).2 hst⟩, rfl⟩
          · exact ⟨_, ⟨Or.inr (Or.inr ⟨i, p, hp, rfl⟩), _, rfl, hep⟩, rfl⟩
      · intro n
        simp only [List.mem_map, List.mem_filter, hmem, inSet_iff]
        constructor
        · rintro ⟨q, ⟨rfl | rfl | ⟨i, p, hp, rfl⟩, s, hs', hes⟩, rfl⟩
          · cases hs'
          · injection hs' with hs'
            subst hs'
            exact Or.inl ⟨rfl, (he e).1 hes⟩
          · injection hs' with hs'
            subst hs'
            exact Or.inr ⟨i, p, hp, hes, rfl⟩
        · rintro (⟨rfl, hst⟩ | ⟨i, p, hp, hep, rfl⟩)
          · exact ⟨_, ⟨Or.inr (Or.inl rfl), _, rfl, (he e).2 hst⟩, rfl⟩
          · exact ⟨_, ⟨Or.inr (Or.inr ⟨i, p, hp, rfl⟩), _, rfl, hep⟩, rfl⟩

/-- **C94**: an activity that directly follows itself somewhere is in no place. -/
theorem c94_self_loop {order : List Str → List Str} {orderP : List (List Str × List Str) → List (List Str × List Str)}
    (ho : Enumerates order) {log : List (List Str)} {net : AlphaNet} (h : alpha order orderP log = .ok net)
    {e : Str} (he : Follows log e e) : ∀ p ∈ net.places, e ∉ p.1 ∧ e ∉ p.2 := by
  intro p hp
  have hm := ((c93_places ho h).1 p hp).isPair
  exact ⟨fun h => (hm.unrelated.1 e e h h).1 he, fun h => (hm.unrelated.2 e e h h).1 he⟩

/-! ## Examples -/

/-- The log of the textbook: `abcd`, `acbd`, `aed`. -/
def textbookLog : List (List Str) :=
  [[py!"a", py!"b", py!"c", py!"d"], [py!"a", py!"c", py!"b", py!"d"], [py!"a", py!"e", py!"d"]]

example : (alpha id id textbookLog).map (·.places) = .ok [([py!"a"], [py!"b", py!"e"]), ([py!"a"], [py!"c", py!"e"]),
    ([py!"b", py!"e"], [py!"d"]), ([py!"c", py!"e"], [py!"d"])] := by decide +kernel

example : (alpha id id textbookLog).map (fun n => n.text.take 7) = .ok
    [py!"Place \"place_0\" init 1;", py!"Place \"place_1\";", py!"Place \"place_2\";", py!"Place \"place_3\";",
     py!"Place \"place_4\";", py!"Place \"place_5\";",
     py!"trans \"t_7\"~\"a+complete\" in \"place_0\" out \"place_2\" \"place_3\" ;"] := by decide +kernel

example : Enumerates (id : List Str → List Str) := fun _ => .refl _
example : Enumerates (List.reverse : List Str → List Str) := fun l => List.reverse_perm l
example : alpha id id [[py!"a"], []] = .error .indexError := rfl

/-- A log with a loop of length one: the activity `b` has no place, so its transition is not connected. -/
example : (alpha id id [[py!"a", py!"b", py!"b", py!"c"]]).map (fun n => n.text) = .ok
    [py!"Place \"place_0\" init 1;", py!"Place \"place_1\";",
     py!"trans \"t_3\"~\"a+complete\" in \"place_0\" out  ;",
     py!"trans \"t_4\"~\"b+complete\" in  out  ;",
     py!"trans \"t_5\"~\"c+complete\" in  out \"place_1\" ;"] := by decide +kernel

example : Follows [[py!"a", py!"b", py!"b", py!"c"]] py!"b" py!"b" := ⟨_, List.mem_singleton.2 rfl, [py!"a"], [py!"c"], rfl⟩

end Opy
