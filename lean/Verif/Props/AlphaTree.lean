import Verif.Props.AlphaRun
/-
C161: the alpha algorithm finds structured processes (example/AlphaAlgorithm.py).
-/
set_option linter.unusedSectionVars false
namespace Opy

/-! ## Specification: structured processes -/

/-- A process: one activity, one process after another, one of two, or two at the same time. -/
inductive Proc where
  | act (a : Str)
  | seq (p q : Proc)
  | alt (p q : Proc)
  | par (p q : Proc)

/-- The third list is made of the members of the other two, each in its order. -/
inductive Interleaves : List Str → List Str → List Str → Prop where
  | nil : Interleaves [] [] []
  | left {u v w : List Str} (a : Str) : Interleaves u v w → Interleaves (a :: u) v (a :: w)
  | right {u v w : List Str} (a : Str) : Interleaves u v w → Interleaves u (a :: v) (a :: w)

/-- The process can do this sequence of activities. -/
inductive Proc.Does : Proc → List Str → Prop where
  | act (a : Str) : Proc.Does (.act a) [a]
  | seq {p q : Proc} {u v : List Str} : Proc.Does p u → Proc.Does q v → Proc.Does (.seq p q) (u ++ v)
  | altLeft {p q : Proc} {u : List Str} : Proc.Does p u → Proc.Does (.alt p q) u
  | altRight {p q : Proc} {u : List Str} : Proc.Does q u → Proc.Does (.alt p q) u
  | par {p q : Proc} {u v w : List Str} : Proc.Does p u → Proc.Does q v → Interleaves u v w → Proc.Does (.par p q) w

/-- The activities in the order in which they are written down. -/
def Proc.acts : Proc → List Str
  | .act a => [a]
  | .seq p q | .alt p q | .par p q => p.acts ++ q.acts

/-- The process can do `b` right after `a`. -/
def Proc.Next (p : Proc) (a b : Str) : Prop := ∃ t, p.Does t ∧ ∃ u v, t = u ++ a :: b :: v

/-- The process can begin with the activity. -/
def Proc.Begins (p : Proc) (a : Str) : Prop := ∃ t, p.Does t ∧ t.head? = some a

/-- The process can end with the activity. -/
def Proc.Finishes (p : Proc) (a : Str) : Prop := ∃ t, p.Does t ∧ t.getLast? = some a

/-- The log is one of the process and shows enough of it: all beginnings, all endings, and which activities can follow which. -/
structure ShowsProc (log : List (List Str)) (p : Proc) : Prop where
  sound : ∀ t ∈ log, p.Does t
  begins : ∀ a, p.Begins a → Starts log a
  finishes : ∀ a, p.Finishes a → Ends log a
  next : ∀ a b, p.Next a b → Follows log a b

/-- The process does not begin, nor end, with two activities at the same time. -/
structure Plain (p : Proc) : Prop where
  begins : ∀ a b, p.Begins a → p.Begins b → ¬ p.Next a b
  finishes : ∀ a b, p.Finishes a → p.Finishes b → ¬ p.Next a b

/-! ## Runs of processes -/

theorem Interleaves.mem {u v w : List Str} (h : Interleaves u v w) (a : Str) : a ∈ w ↔ a ∈ u ∨ a ∈ v := by
  induction h with
  | nil => simp
  | left x _ ih => simp [ih, or_assoc]
  | right x _ ih => simp only [List.mem_cons, ih]; exact or_left_comm

theorem Interleaves.nil_left : ∀ v : List Str, Interleaves [] v v
  | [] => .nil
  | a :: v => .right a (nil_left v)

theorem Interleaves.nil_right : ∀ u : List Str, Interleaves u [] u
  | [] => .nil
  | a :: u => .left a (nil_right u)

theorem Interleaves.lefts {u v w : List Str} (h : Interleaves u v w) : ∀ x : List Str, Interleaves (x ++ u) v (x ++ w)
  | [] => h
  | a :: x => .left a (h.lefts x)

theorem Interleaves.rights {u v w : List Str} (h : Interleaves u v w) : ∀ x : List Str, Interleaves u (x ++ v) (x ++ w)
  | [] => h
  | a :: x => .right a (h.rights x)

theorem Interleaves.symm {u v w : List Str} (h : Interleaves u v w) : Interleaves v u w := by
  induction h with
  | nil => exact .nil
  | left a _ ih => exact .right a ih
  | right a _ ih => exact .left a ih

theorem Interleaves.append (u v : List Str) : Interleaves u v (u ++ v) := by
  have := (Interleaves.nil_left v).lefts u
  simpa using this

theorem Interleaves.count {u v w : List Str} (h : Interleaves u v w) (f : Str → Bool) : w.countP f = u.countP f + v.countP f := by
  induction h with
  | nil => rfl
  | left a _ ih => simp only [List.countP_cons, ih]; omega
  | right a _ ih => simp only [List.countP_cons, ih]; omega

theorem Proc.Does.sub {p : Proc} {t : List Str} (h : p.Does t) : ∀ a ∈ t, a ∈ p.acts := by
  induction h with
  | act a => simp [Proc.acts]
  | seq _ _ i j =>
    intro a ha
    rcases List.mem_append.1 ha with ha | ha
    · exact List.mem_append_left _ (i a ha)
    · exact List.mem_append_right _ (j a ha)
  | altLeft _ i => exact fun a ha => List.mem_append_left _ (i a ha)
  | altRight _ i => exact fun a ha => List.mem_append_right _ (i a ha)
  | par _ _ hi i j =>
    intro a ha
    rcases (hi.mem a).1 ha with ha | ha
    · exact List.mem_append_left _ (i a ha)
    · exact List.mem_append_right _ (j a ha)

theorem Proc.Does.ne_nil {p : Proc} {t : List Str} (h : p.Does t) : t ≠ [] := by
  induction h with
  | act a => simp
  | seq _ _ i j => simp [i]
  | altLeft _ i => exact i
  | altRight _ i => exact i
  | par _ _ hi i j =>
    rename_i u v w _ _
    cases u with
    | nil => exact absurd rfl i
    | cons a u => exact List.ne_nil_of_mem ((hi.mem a).2 (.inl (by simp)))

theorem Proc.some_act (p : Proc) : ∃ b, b ∈ p.acts := by
  induction p with
  | act b => exact ⟨b, by simp [Proc.acts]⟩
  | seq p q i j => exact i.imp fun b hb => List.mem_append_left _ hb
  | alt p q i j => exact i.imp fun b hb => List.mem_append_left _ hb
  | par p q i j => exact i.imp fun b hb => List.mem_append_left _ hb

/-- Every activity of a process is in one of its runs. -/
theorem Proc.does_with : ∀ (p : Proc) (a : Str), a ∈ p.acts → ∃ t, p.Does t ∧ a ∈ t
  | .act b, a, h => by
    simp only [Proc.acts, List.mem_singleton] at h
    exact ⟨[b], .act b, by simp [h]⟩
  | .alt p q, a, h => by
    rcases List.mem_append.1 h with h | h
    · obtain ⟨t, ht, ha⟩ := does_with p a h; exact ⟨t, .altLeft ht, ha⟩
    · obtain ⟨t, ht, ha⟩ := does_with q a h; exact ⟨t, .altRight ht, ha⟩
  | .seq p q, a, h => by
    rcases List.mem_append.1 h with h | h
    · obtain ⟨t, ht, ha⟩ := does_with p a h
      obtain ⟨b, hb⟩ := q.some_act
      obtain ⟨v, hv, _⟩ := does_with q b hb
      exact ⟨_, .seq ht hv, List.mem_append_left _ ha⟩
    · obtain ⟨t, ht, ha⟩ := does_with q a h
      obtain ⟨b, hb⟩ := p.some_act
      obtain ⟨v, hv, _⟩ := does_with p b hb
      exact ⟨_, .seq hv ht, List.mem_append_right _ ha⟩
  | .par p q, a, h => by
    rcases List.mem_append.1 h with h | h
    · obtain ⟨t, ht, ha⟩ := does_with p a h
      obtain ⟨b, hb⟩ := q.some_act
      obtain ⟨v, hv, _⟩ := does_with q b hb
      exact ⟨_, .par ht hv (.append _ _), List.mem_append_left _ ha⟩
    · obtain ⟨t, ht, ha⟩ := does_with q a h
      obtain ⟨b, hb⟩ := p.some_act
      obtain ⟨v, hv, _⟩ := does_with p b hb
      exact ⟨_, .par hv ht (.append _ _), List.mem_append_right _ ha⟩

theorem Proc.some_does (p : Proc) : ∃ t, p.Does t := by
  obtain ⟨b, hb⟩ := p.some_act
  obtain ⟨t, ht, _⟩ := p.does_with b hb
  exact ⟨t, ht⟩

/-! ## First, last and neighbouring activities by the structure -/

/-- The activities a process can begin with. -/
def Proc.fst : Proc → Str → Prop
  | .act a, x => x = a
  | .seq p _, x => p.fst x
  | .alt p q, x | .par p q, x => p.fst x ∨ q.fst x

/-- The activities a process can end with. -/
def Proc.lst : Proc → Str → Prop
  | .act a, x => x = a
  | .seq _ q, x => q.lst x
  | .alt p q, x | .par p q, x => p.lst x ∨ q.lst x

/-- At the same time. -/
def Proc.conc : Proc → Str → Str → Prop
  | .act _, _, _ => False
  | .seq p q, a, b | .alt p q, a, b => p.conc a b ∨ q.conc a b
  | .par p q, a, b => p.conc a b ∨ q.conc a b ∨ (a ∈ p.acts ∧ b ∈ q.acts) ∨ (a ∈ q.acts ∧ b ∈ p.acts)

/-- One right before the other. -/
def Proc.link : Proc → Str → Str → Prop
  | .act _, _, _ => False
  | .seq p q, a, b => p.link a b ∨ q.link a b ∨ (p.lst a ∧ q.fst b)
  | .alt p q, a, b | .par p q, a, b => p.link a b ∨ q.link a b

theorem Proc.fst_acts : ∀ {p : Proc} {a : Str}, p.fst a → a ∈ p.acts
  | .act _, _, h => by simp only [Proc.fst] at h; simp [Proc.acts, h]
  | .seq p q, _, h => List.mem_append_left _ (fst_acts h)
  | .alt p q, _, h => h.elim (fun h => List.mem_append_left _ (fst_acts h)) (fun h => List.mem_append_right _ (fst_acts h))
  | .par p q, _, h => h.elim (fun h => List.mem_append_left _ (fst_acts h)) (fun h => List.mem_append_right _ (fst_acts h))

theorem Proc.lst_acts : ∀ {p : Proc} {a : Str}, p.lst a → a ∈ p.acts
  | .act _, _, h => by simp only [Proc.lst] at h; simp [Proc.acts, h]
  | .seq p q, _, h => List.mem_append_right _ (lst_acts h)
  | .alt p q, _, h => h.elim (fun h => List.mem_append_left _ (lst_acts h)) (fun h => List.mem_append_right _ (lst_acts h))
  | .par p q, _, h => h.elim (fun h => List.mem_append_left _ (lst_acts h)) (fun h => List.mem_append_right _ (lst_acts h))

theorem Proc.conc_acts : ∀ {p : Proc} {a b : Str}, p.conc a b → a ∈ p.acts ∧ b ∈ p.acts
  | .seq p q, _, _, h => h.elim (fun h => ⟨List.mem_append_left _ (conc_acts h).1, List.mem_append_left _ (conc_acts h).2⟩)
      (fun h => ⟨List.mem_append_right _ (conc_acts h).1, List.mem_append_right _ (conc_acts h).2⟩)
  | .alt p q, _, _, h => h.elim (fun h => ⟨List.mem_append_left _ (conc_acts h).1, List.mem_append_left _ (conc_acts h).2⟩)
      (fun h => ⟨List.mem_append_right _ (conc_acts h).1, List.mem_append_right _ (conc_acts h).2⟩)
  | .par p q, _, _, h => by
    rcases h with h | h | h | h
    · exact ⟨List.mem_append_left _ (conc_acts h).1, List.mem_append_left _ (conc_acts h).2⟩
    · exact ⟨List.mem_append_right _ (conc_acts h).1, List.mem_append_right _ (conc_acts h).2⟩
    · exact ⟨List.mem_append_left _ h.1, List.mem_append_right _ h.2⟩
    · exact ⟨List.mem_append_right _ h.1, List.mem_append_left _ h.2⟩

theorem Proc.link_acts : ∀ {p : Proc} {a b : Str}, p.link a b → a ∈ p.acts ∧ b ∈ p.acts
  | .seq p q, _, _, h => by
    rcases h with h | h | h
    · exact ⟨List.mem_append_left _ (link_acts h).1, List.mem_append_left _ (link_acts h).2⟩
    · exact ⟨List.mem_append_right _ (link_acts h).1, List.mem_append_right _ (link_acts h).2⟩
    · exact ⟨List.mem_append_left _ (lst_acts h.1), List.mem_append_right _ (fst_acts h.2)⟩
  | .alt p q, _, _, h => h.elim (fun h => ⟨List.mem_append_left _ (link_acts h).1, List.mem_append_left _ (link_acts h).2⟩)
      (fun h => ⟨List.mem_append_right _ (link_acts h).1, List.mem_append_right _ (link_acts h).2⟩)
  | .par p q, _, _, h => h.elim (fun h => ⟨List.mem_append_left _ (link_acts h).1, List.mem_append_left _ (link_acts h).2⟩)
      (fun h => ⟨List.mem_append_right _ (link_acts h).1, List.mem_append_right _ (link_acts h).2⟩)

theorem Proc.conc_symm : ∀ {p : Proc} {a b : Str}, p.conc a b → p.conc b a
  | .seq p q, _, _, h => h.elim (fun h => .inl (conc_symm h)) (fun h => .inr (conc_symm h))
  | .alt p q, _, _, h => h.elim (fun h => .inl (conc_symm h)) (fun h => .inr (conc_symm h))
  | .par p q, _, _, h => by
    rcases h with h | h | h | h
    · exact .inl (conc_symm h)
    · exact .inr (.inl (conc_symm h))
    · exact .inr (.inr (.inr ⟨h.2, h.1⟩))
    · exact .inr (.inr (.inl ⟨h.2, h.1⟩))

theorem Proc.some_fst : ∀ p : Proc, ∃ a, p.fst a
  | .act a => ⟨a, rfl⟩
  | .seq p _ => some_fst p
  | .alt p _ => (some_fst p).imp fun _ h => .inl h
  | .par p _ => (some_fst p).imp fun _ h => .inl h

theorem Proc.some_lst : ∀ p : Proc, ∃ a, p.lst a
  | .act a => ⟨a, rfl⟩
  | .seq _ q => some_lst q
  | .alt p _ => (some_lst p).imp fun _ h => .inl h
  | .par p _ => (some_lst p).imp fun _ h => .inl h

theorem Interleaves.head {u v w : List Str} (h : Interleaves u v w) {a : Str} (ha : w.head? = some a) : u.head? = some a ∨ v.head? = some a := by
  cases h with
  | nil => simp at ha
  | left x _ => exact .inl (by simpa using ha)
  | right x _ => exact .inr (by simpa using ha)

theorem Interleaves.last {u v w : List Str} (h : Interleaves u v w) {a : Str} (ha : w.getLast? = some a) :
    u.getLast? = some a ∨ v.getLast? = some a := by
  induction h with
  | nil => simp at ha
  | left x hi ih =>
    rename_i u v w
    cases w with
    | nil =>
      cases hi
      exact .inl ha
    | cons y w =>
      rw [List.getLast?_cons_cons] at ha
      rcases ih ha with h | h
      · left
        cases u with
        | nil => simp at h
        | cons z u => rw [List.getLast?_cons_cons]; exact h
      · exact .inr h
  | right x hi ih =>
    rename_i u v w
    cases w with
    | nil =>
      cases hi
      exact .inr ha
    | cons y w =>
      rw [List.getLast?_cons_cons] at ha
      rcases ih ha with h | h
      · exact .inl h
      · right
        cases v with
        | nil => simp at h
        | cons z v => rw [List.getLast?_cons_cons]; exact h

theorem Proc.Does.head {p : Proc} {t : List Str} (h : p.Does t) : ∀ {a : Str}, t.head? = some a → p.fst a := by
  induction h with
  | act b => intro a ha; simpa [Proc.fst] using ha.symm
  | seq h1 _ i j =>
    rename_i u v _
    intro a ha
    cases u with
    | nil => exact absurd rfl h1.ne_nil
    | cons x u => exact i (by simpa using ha)
  | altLeft _ i => exact fun ha => .inl (i ha)
  | altRight _ i => exact fun ha => .inr (i ha)
  | par _ _ hi i j => exact fun ha => (hi.head ha).elim (fun h => .inl (i h)) (fun h => .inr (j h))

theorem Proc.Does.last {p : Proc} {t : List Str} (h : p.Does t) : ∀ {a : Str}, t.getLast? = some a → p.lst a := by
  induction h with
  | act b => intro a ha; simpa [Proc.lst] using ha.symm
  | seq _ h2 i j =>
    rename_i u v _
    intro a ha
    rw [List.getLast?_append] at ha
    cases hv : v.getLast? with
    | none => exact absurd (List.getLast?_eq_none_iff.1 hv) h2.ne_nil
    | some x =>
      rw [hv] at ha
      exact j (by rw [hv]; simpa using ha)
  | altLeft _ i => exact fun ha => .inl (i ha)
  | altRight _ i => exact fun ha => .inr (i ha)
  | par _ _ hi i j => exact fun ha => (hi.last ha).elim (fun h => .inl (i h)) (fun h => .inr (j h))

theorem Proc.fst_does : ∀ {p : Proc} {a : Str}, p.fst a → ∃ t, p.Does (a :: t)
  | .act b, a, h => by simp only [Proc.fst] at h; subst h; exact ⟨[], .act a⟩
  | .seq p q, a, h => by
    obtain ⟨t, ht⟩ := fst_does (p := p) h
    obtain ⟨v, hv⟩ := q.some_does
    exact ⟨t ++ v, .seq ht hv⟩
  | .alt p q, a, h => by
    rcases h with h | h
    · obtain ⟨t, ht⟩ := fst_does h; exact ⟨t, .altLeft ht⟩
    · obtain ⟨t, ht⟩ := fst_does h; exact ⟨t, .altRight ht⟩
  | .par p q, a, h => by
    rcases h with h | h
    · obtain ⟨t, ht⟩ := fst_does h
      obtain ⟨v, hv⟩ := q.some_does
      exact ⟨t ++ v, .par ht hv (.append _ _)⟩
    · obtain ⟨t, ht⟩ := fst_does h
      obtain ⟨v, hv⟩ := p.some_does
      exact ⟨t ++ v, .par hv ht (Interleaves.append _ _).symm⟩

theorem Proc.lst_does : ∀ {p : Proc} {a : Str}, p.lst a → ∃ t, p.Does (t ++ [a])
  | .act b, a, h => by simp only [Proc.lst] at h; subst h; exact ⟨[], .act a⟩
  | .seq p q, a, h => by
    obtain ⟨t, ht⟩ := lst_does (p := q) h
    obtain ⟨v, hv⟩ := p.some_does
    exact ⟨v ++ t, by rw [List.append_assoc]; exact .seq hv ht⟩
  | .alt p q, a, h => by
    rcases h with h | h
    · obtain ⟨t, ht⟩ := lst_does h; exact ⟨t, .altLeft ht⟩
    · obtain ⟨t, ht⟩ := lst_does h; exact ⟨t, .altRight ht⟩
  | .par p q, a, h => by
    rcases h with h | h
    · obtain ⟨t, ht⟩ := lst_does h
      obtain ⟨v, hv⟩ := q.some_does
      exact ⟨v ++ t, .par ht hv (by rw [List.append_assoc]; exact (Interleaves.append _ _).symm)⟩
    · obtain ⟨t, ht⟩ := lst_does h
      obtain ⟨v, hv⟩ := p.some_does
      exact ⟨v ++ t, .par hv ht (by rw [List.append_assoc]; exact Interleaves.append _ _)⟩

theorem Proc.begins_iff {p : Proc} {a : Str} : p.Begins a ↔ p.fst a :=
  ⟨fun ⟨_, h, ha⟩ => h.head ha, fun h => by obtain ⟨t, ht⟩ := Proc.fst_does h; exact ⟨_, ht, rfl⟩⟩

theorem Proc.finishes_iff {p : Proc} {a : Str} : p.Finishes a ↔ p.lst a :=
  ⟨fun ⟨_, h, ha⟩ => h.last ha, fun h => by obtain ⟨t, ht⟩ := Proc.lst_does h; exact ⟨_, ht, by simp⟩⟩

/-- Two neighbours in an interleaving. -/
theorem Interleaves.pair {u v w : List Str} (h : Interleaves u v w) : ∀ {x y : List Str} {a b : Str}, w = x ++ a :: b :: y →
    (∃ x' y', u = x' ++ a :: b :: y') ∨ (∃ x' y', v = x' ++ a :: b :: y') ∨ (a ∈ u ∧ b ∈ v) ∨ (a ∈ v ∧ b ∈ u) := by
  induction h with
  | nil => intro x y a b hw; simp at hw
  | left c hi ih =>
    rename_i u v w
    intro x y a b hw
    cases x with
    | nil =>
      simp only [List.nil_append, List.cons.injEq] at hw
      obtain ⟨rfl, rfl⟩ := hw
      cases hi with
      | left _ _ => rename_i u _; exact .inl ⟨[], u, rfl⟩
      | right _ _ => exact .inr (.inr (.inl ⟨by simp, by simp⟩))
    | cons d x =>
      simp only [List.cons_append, List.cons.injEq] at hw
      obtain ⟨rfl, hw⟩ := hw
      rcases ih hw with ⟨x', y', rfl⟩ | h | ⟨h1, h2⟩ | ⟨h1, h2⟩
      · exact .inl ⟨c :: x', y', rfl⟩
      · exact .inr (.inl h)
      · exact .inr (.inr (.inl ⟨List.mem_cons_of_mem _ h1, h2⟩))
      · exact .inr (.inr (.inr ⟨h1, List.mem_cons_of_mem _ h2⟩))
  | right c hi ih =>
    rename_i u v w
    intro x y a b hw
    cases x with
    | nil =>
      simp only [List.nil_append, List.cons.injEq] at hw
      obtain ⟨rfl, rfl⟩ := hw
      cases hi with
      | left _ _ => exact .inr (.inr (.inr ⟨by simp, by simp⟩))
      | right _ _ => rename_i v _; exact .inr (.inl ⟨[], v, rfl⟩)
    | cons d x =>
      simp only [List.cons_append, List.cons.injEq] at hw
      obtain ⟨rfl, hw⟩ := hw
      rcases ih hw with h | ⟨x', y', rfl⟩ | ⟨h1, h2⟩ | ⟨h1, h2⟩
      · exact .inl h
      · exact .inr (.inl ⟨c :: x', y', rfl⟩)
      · exact .inr (.inr (.inl ⟨h1, List.mem_cons_of_mem _ h2⟩))
      · exact .inr (.inr (.inr ⟨List.mem_cons_of_mem _ h1, h2⟩))

/-- Two neighbours in one list after another. -/
theorem pair_append : ∀ {u v x y : List Str} {a b : Str}, u ++ v = x ++ a :: b :: y →
    (∃ x' y', u = x' ++ a :: b :: y') ∨ (∃ x' y', v = x' ++ a :: b :: y') ∨ (u.getLast? = some a ∧ v.head? = some b)
  | [], v, x, y, a, b, h => .inr (.inl ⟨x, y, by simpa using h⟩)
  | [c], v, [], y, a, b, h => by
    simp only [List.cons_append, List.nil_append, List.cons.injEq] at h
    obtain ⟨rfl, rfl⟩ := h
    exact .inr (.inr ⟨rfl, rfl⟩)
  | c :: d :: u, v, [], y, a, b, h => by
    simp only [List.cons_append, List.nil_append, List.cons.injEq] at h
    obtain ⟨rfl, rfl, _⟩ := h
    exact .inl ⟨[], u, rfl⟩
  | c :: u, v, e :: x, y, a, b, h => by
    simp only [List.cons_append, List.cons.injEq] at h
    obtain ⟨rfl, h⟩ := h
    rcases pair_append h with ⟨x', y', rfl⟩ | h | ⟨h1, h2⟩
    · exact .inl ⟨c :: x', y', rfl⟩
    · exact .inr (.inl h)
    · refine .inr (.inr ⟨?_, h2⟩)
      cases u with
      | nil => simp at h1
      | cons z u => rw [List.getLast?_cons_cons]; exact h1

theorem Proc.Does.pair {p : Proc} {t : List Str} (h : p.Does t) : ∀ {x y : List Str} {a b : Str}, t = x ++ a :: b :: y →
    p.link a b ∨ p.conc a b := by
  induction h with
  | act c =>
    intro x y a b h
    have := congrArg List.length h
    simp at this
    omega
  | seq h1 h2 i j =>
    intro x y a b h
    rcases pair_append h with ⟨x', y', h⟩ | ⟨x', y', h⟩ | ⟨h3, h4⟩
    · exact (i h).imp .inl .inl
    · exact (j h).imp (fun h => .inr (.inl h)) .inr
    · exact .inl (.inr (.inr ⟨h1.last h3, h2.head h4⟩))
  | altLeft _ i => exact fun h => (i h).imp .inl .inl
  | altRight _ i => exact fun h => (i h).imp .inr .inr
  | par h1 h2 hi i j =>
    intro x y a b h
    rcases hi.pair h with ⟨x', y', h⟩ | ⟨x', y', h⟩ | ⟨h3, h4⟩ | ⟨h3, h4⟩
    · exact (i h).imp .inl .inl
    · exact (j h).imp .inr (fun h => .inr (.inl h))
    · exact .inr (.inr (.inr (.inl ⟨h1.sub _ h3, h2.sub _ h4⟩)))
    · exact .inr (.inr (.inr (.inr ⟨h2.sub _ h3, h1.sub _ h4⟩)))

theorem Proc.Next.seqLeft {p q : Proc} {a b : Str} : p.Next a b → (Proc.seq p q).Next a b := by
  rintro ⟨_, h, u, v, rfl⟩
  obtain ⟨w, hw⟩ := q.some_does
  exact ⟨_, .seq h hw, u, v ++ w, by simp⟩

theorem Proc.Next.seqRight {p q : Proc} {a b : Str} : q.Next a b → (Proc.seq p q).Next a b := by
  rintro ⟨_, h, u, v, rfl⟩
  obtain ⟨w, hw⟩ := p.some_does
  exact ⟨_, .seq hw h, w ++ u, v, by simp⟩

theorem Proc.Next.altLeft {p q : Proc} {a b : Str} : p.Next a b → (Proc.alt p q).Next a b := by
  rintro ⟨t, h, hp⟩
  exact ⟨t, .altLeft h, hp⟩

theorem Proc.Next.altRight {p q : Proc} {a b : Str} : q.Next a b → (Proc.alt p q).Next a b := by
  rintro ⟨t, h, hp⟩
  exact ⟨t, .altRight h, hp⟩

theorem Proc.Next.parLeft {p q : Proc} {a b : Str} : p.Next a b → (Proc.par p q).Next a b := by
  rintro ⟨_, h, u, v, rfl⟩
  obtain ⟨w, hw⟩ := q.some_does
  exact ⟨_, .par h hw (.append _ _), u, v ++ w, by simp⟩

theorem Proc.Next.parRight {p q : Proc} {a b : Str} : q.Next a b → (Proc.par p q).Next a b := by
  rintro ⟨_, h, u, v, rfl⟩
  obtain ⟨w, hw⟩ := p.some_does
  exact ⟨_, .par hw h (.append _ _), w ++ u, v, by simp⟩

theorem Interleaves.meet (x x' y y' : List Str) (a b : Str) :
    Interleaves (x ++ a :: x') (y ++ b :: y') (x ++ (y ++ a :: b :: (x' ++ y'))) ∧
    Interleaves (x ++ a :: x') (y ++ b :: y') (x ++ (y ++ b :: a :: (x' ++ y'))) :=
  ⟨((Interleaves.left a (.right b (.append x' y'))).rights y).lefts x, ((Interleaves.right b (.left a (.append x' y'))).rights y).lefts x⟩

theorem Proc.next_iff : ∀ {p : Proc} {a b : Str}, p.Next a b ↔ p.link a b ∨ p.conc a b := by
  intro p a b
  constructor
  · rintro ⟨t, h, u, v, e⟩
    exact h.pair e
  · induction p with
    | act c => rintro (h | h) <;> cases h
    | seq p q i j =>
      rintro ((h | h | ⟨h1, h2⟩) | (h | h))
      · exact (i (.inl h)).seqLeft
      · exact (j (.inl h)).seqRight
      · obtain ⟨u, hu⟩ := Proc.lst_does h1
        obtain ⟨v, hv⟩ := Proc.fst_does h2
        exact ⟨_, .seq hu hv, u, v, by simp⟩
      · exact (i (.inr h)).seqLeft
      · exact (j (.inr h)).seqRight
    | alt p q i j =>
      rintro ((h | h) | (h | h))
      · exact (i (.inl h)).altLeft
      · exact (j (.inl h)).altRight
      · exact (i (.inr h)).altLeft
      · exact (j (.inr h)).altRight
    | par p q i j =>
      rintro ((h | h) | (h | h | h | h))
      · exact (i (.inl h)).parLeft
      · exact (j (.inl h)).parRight
      · exact (i (.inr h)).parLeft
      · exact (j (.inr h)).parRight
      · obtain ⟨t, ht, ha⟩ := p.does_with a h.1
        obtain ⟨s, hs, hb⟩ := q.does_with b h.2
        obtain ⟨x, x', rfl⟩ := List.append_of_mem ha
        obtain ⟨y, y', rfl⟩ := List.append_of_mem hb
        exact ⟨_, .par ht hs (Interleaves.meet x x' y y' a b).1, x ++ y, x' ++ y', by simp⟩
      · obtain ⟨t, ht, ha⟩ := p.does_with b h.2
        obtain ⟨s, hs, hb⟩ := q.does_with a h.1
        obtain ⟨x, x', rfl⟩ := List.append_of_mem ha
        obtain ⟨y, y', rfl⟩ := List.append_of_mem hb
        exact ⟨_, .par ht hs (Interleaves.meet x x' y y' b a).2, x ++ y, x' ++ y', by simp⟩

/-! ## When all activities are different -/

theorem Proc.nodup_split {p q : Proc} (h : (p.acts ++ q.acts).Nodup) : p.acts.Nodup ∧ q.acts.Nodup ∧ ∀ a, a ∈ p.acts → a ∈ q.acts → False := by
  obtain ⟨h1, h2, h3⟩ := List.nodup_append.1 h
  exact ⟨h1, h2, fun a ha hb => h3 a ha a hb rfl⟩

/-- What can be directly before something is not last, and what can be directly after something is not first. -/
theorem Proc.link_inner : ∀ {p : Proc}, p.acts.Nodup → ∀ {a b : Str}, p.link a b → ¬ p.lst a ∧ ¬ p.fst b
  | .act _, _, _, _, h => h.elim
  | .seq p q, hn, a, b, h => by
    obtain ⟨n1, n2, n3⟩ := nodup_split hn
    rcases h with h | h | h
    · exact ⟨fun hl => n3 a (link_acts h).1 (lst_acts hl), (link_inner n1 h).2⟩
    · exact ⟨(link_inner n2 h).1, fun hf => n3 b (fst_acts hf) (link_acts h).2⟩
    · exact ⟨fun hl => n3 a (lst_acts h.1) (lst_acts hl), fun hf => n3 b (fst_acts hf) (fst_acts h.2)⟩
  | .alt p q, hn, a, b, h => by
    obtain ⟨n1, n2, n3⟩ := nodup_split hn
    rcases h with h | h
    · exact ⟨fun hl => hl.elim (link_inner n1 h).1 (fun hl => n3 a (link_acts h).1 (lst_acts hl)),
        fun hl => hl.elim (link_inner n1 h).2 (fun hl => n3 b (link_acts h).2 (fst_acts hl))⟩
    · exact ⟨fun hl => hl.elim (fun hl => n3 a (lst_acts hl) (link_acts h).1) (link_inner n2 h).1,
        fun hl => hl.elim (fun hl => n3 b (fst_acts hl) (link_acts h).2) (link_inner n2 h).2⟩
  | .par p q, hn, a, b, h => by
    obtain ⟨n1, n2, n3⟩ := nodup_split hn
    rcases h with h | h
    · exact ⟨fun hl => hl.elim (link_inner n1 h).1 (fun hl => n3 a (link_acts h).1 (lst_acts hl)),
        fun hl => hl.elim (link_inner n1 h).2 (fun hl => n3 b (link_acts h).2 (fst_acts hl))⟩
    · exact ⟨fun hl => hl.elim (fun hl => n3 a (lst_acts hl) (link_acts h).1) (link_inner n2 h).1,
        fun hl => hl.elim (fun hl => n3 b (fst_acts hl) (link_acts h).2) (link_inner n2 h).2⟩

/-- Not both: directly before and at the same time. -/
theorem Proc.link_not_conc : ∀ {p : Proc}, p.acts.Nodup → ∀ {a b : Str}, p.link a b → ¬ p.conc a b
  | .act _, _, _, _, h => h.elim
  | .seq p q, hn, a, b, h => by
    obtain ⟨n1, n2, n3⟩ := nodup_split hn
    rcases h with h | h | h <;> rintro (hc | hc)
    · exact link_not_conc n1 h hc
    · exact n3 a (link_acts h).1 (conc_acts hc).1
    · exact n3 a (conc_acts hc).1 (link_acts h).1
    · exact link_not_conc n2 h hc
    · exact n3 b (conc_acts hc).2 (fst_acts h.2)
    · exact n3 a (lst_acts h.1) (conc_acts hc).1
  | .alt p q, hn, a, b, h => by
    obtain ⟨n1, n2, n3⟩ := nodup_split hn
    rcases h with h | h <;> rintro (hc | hc)
    · exact link_not_conc n1 h hc
    · exact n3 a (link_acts h).1 (conc_acts hc).1
    · exact n3 a (conc_acts hc).1 (link_acts h).1
    · exact link_not_conc n2 h hc
  | .par p q, hn, a, b, h => by
    obtain ⟨n1, n2, n3⟩ := nodup_split hn
    rcases h with h | h <;> rintro (hc | hc | hc | hc)
    · exact link_not_conc n1 h hc
    · exact n3 a (link_acts h).1 (conc_acts hc).1
    · exact n3 b (link_acts h).2 hc.2
    · exact n3 a (link_acts h).1 hc.1
    · exact n3 a (conc_acts hc).1 (link_acts h).1
    · exact link_not_conc n2 h hc
    · exact n3 a hc.1 (link_acts h).1
    · exact n3 b hc.2 (link_acts h).2

/-- Not both orders, and so nothing directly before itself. -/
theorem Proc.link_asymm : ∀ {p : Proc}, p.acts.Nodup → ∀ {a b : Str}, p.link a b → ¬ p.link b a
  | .act _, _, _, _, h => h.elim
  | .seq p q, hn, a, b, h => by
    obtain ⟨n1, n2, n3⟩ := nodup_split hn
    rcases h with h | h | h <;> rintro (hc | hc | hc)
    · exact link_asymm n1 h hc
    · exact n3 a (link_acts h).1 (link_acts hc).2
    · exact n3 a (link_acts h).1 (fst_acts hc.2)
    · exact n3 a (link_acts hc).2 (link_acts h).1
    · exact link_asymm n2 h hc
    · exact n3 b (lst_acts hc.1) (link_acts h).2
    · exact n3 b (link_acts hc).1 (fst_acts h.2)
    · exact n3 a (lst_acts h.1) (link_acts hc).2
    · exact n3 a (lst_acts h.1) (fst_acts hc.2)
  | .alt p q, hn, a, b, h => by
    obtain ⟨n1, n2, n3⟩ := nodup_split hn
    rcases h with h | h <;> rintro (hc | hc)
    · exact link_asymm n1 h hc
    · exact n3 a (link_acts h).1 (link_acts hc).2
    · exact n3 a (link_acts hc).2 (link_acts h).1
    · exact link_asymm n2 h hc
  | .par p q, hn, a, b, h => by
    obtain ⟨n1, n2, n3⟩ := nodup_split hn
    rcases h with h | h <;> rintro (hc | hc)
    · exact link_asymm n1 h hc
    · exact n3 a (link_acts h).1 (link_acts hc).2
    · exact n3 a (link_acts hc).2 (link_acts h).1
    · exact link_asymm n2 h hc

theorem Proc.conc_irrefl : ∀ {p : Proc}, p.acts.Nodup → ∀ {a : Str}, ¬ p.conc a a
  | .act _, _, _, h => h.elim
  | .seq p q, hn, a, h => by
    obtain ⟨n1, n2, n3⟩ := nodup_split hn
    exact h.elim (conc_irrefl n1) (conc_irrefl n2)
  | .alt p q, hn, a, h => by
    obtain ⟨n1, n2, n3⟩ := nodup_split hn
    exact h.elim (conc_irrefl n1) (conc_irrefl n2)
  | .par p q, hn, a, h => by
    obtain ⟨n1, n2, n3⟩ := nodup_split hn
    rcases h with h | h | h | h
    · exact conc_irrefl n1 h
    · exact conc_irrefl n2 h
    · exact n3 a h.1 h.2
    · exact n3 a h.2 h.1

/-! ## Cuts -/

/-- One of these activities is the first of its kind in every run: the sets of first activities of which exactly one happens. -/
def Proc.FstCut : Proc → (Str → Prop) → Prop
  | .act a, C => C = (· = a)
  | .seq p _, C => p.FstCut C
  | .alt p q, C => ∃ C1 C2, p.FstCut C1 ∧ q.FstCut C2 ∧ C = fun x => C1 x ∨ C2 x
  | .par p q, C => p.FstCut C ∨ q.FstCut C

/-- The same for the last activities. -/
def Proc.LstCut : Proc → (Str → Prop) → Prop
  | .act a, C => C = (· = a)
  | .seq _ q, C => q.LstCut C
  | .alt p q, C => ∃ C1 C2, p.LstCut C1 ∧ q.LstCut C2 ∧ C = fun x => C1 x ∨ C2 x
  | .par p q, C => p.LstCut C ∨ q.LstCut C

/-- The places between the parts of a sequence. -/
def Proc.Between : Proc → (Str → Prop) → (Str → Prop) → Prop
  | .act _, _, _ => False
  | .seq p q, A, B => p.Between A B ∨ q.Between A B ∨ (p.LstCut A ∧ q.FstCut B)
  | .alt p q, A, B | .par p q, A, B => p.Between A B ∨ q.Between A B

theorem Proc.fstCut_sub : ∀ {p : Proc} {C : Str → Prop}, p.FstCut C → ∀ {x}, C x → p.fst x
  | .act a, C, h, x, hx => by cases h; exact hx
  | .seq p _, C, h, x, hx => fstCut_sub (p := p) h hx
  | .alt p q, C, h, x, hx => by
    obtain ⟨C1, C2, h1, h2, rfl⟩ := h
    exact hx.imp (fstCut_sub h1) (fstCut_sub h2)
  | .par p q, C, h, x, hx => h.imp (fun h => fstCut_sub h hx) (fun h => fstCut_sub h hx)

theorem Proc.lstCut_sub : ∀ {p : Proc} {C : Str → Prop}, p.LstCut C → ∀ {x}, C x → p.lst x
  | .act a, C, h, x, hx => by cases h; exact hx
  | .seq _ q, C, h, x, hx => lstCut_sub (p := q) h hx
  | .alt p q, C, h, x, hx => by
    obtain ⟨C1, C2, h1, h2, rfl⟩ := h
    exact hx.imp (lstCut_sub h1) (lstCut_sub h2)
  | .par p q, C, h, x, hx => h.imp (fun h => lstCut_sub h hx) (fun h => lstCut_sub h hx)

theorem Proc.fstCut_some : ∀ {p : Proc} {C : Str → Prop}, p.FstCut C → ∃ x, C x
  | .act a, C, h => by cases h; exact ⟨a, rfl⟩
  | .seq p _, C, h => fstCut_some (p := p) h
  | .alt p q, C, h => by
    obtain ⟨C1, C2, h1, h2, rfl⟩ := h
    exact (fstCut_some h1).imp fun _ h => .inl h
  | .par p q, C, h => h.elim fstCut_some fstCut_some

theorem Proc.lstCut_some : ∀ {p : Proc} {C : Str → Prop}, p.LstCut C → ∃ x, C x
  | .act a, C, h => by cases h; exact ⟨a, rfl⟩
  | .seq _ q, C, h => lstCut_some (p := q) h
  | .alt p q, C, h => by
    obtain ⟨C1, C2, h1, h2, rfl⟩ := h
    exact (lstCut_some h1).imp fun _ h => .inl h
  | .par p q, C, h => h.elim lstCut_some lstCut_some

/-- No two of them are related. -/
def Proc.Loose (p : Proc) (C : Str → Prop) : Prop := ∀ a b, C a → C b → ¬ p.link a b ∧ ¬ p.conc a b

/-- Among the first activities only concurrency relates. -/
theorem Proc.fst_no_link {p : Proc} (hn : p.acts.Nodup) {a b : Str} (hb : p.fst b) : ¬ p.link a b := fun h => (link_inner hn h).2 hb

theorem Proc.lst_no_link {p : Proc} (hn : p.acts.Nodup) {a b : Str} (ha : p.lst a) : ¬ p.link a b := fun h => (link_inner hn h).1 ha

theorem Proc.fstCut_loose : ∀ {p : Proc}, p.acts.Nodup → ∀ {C : Str → Prop}, p.FstCut C → ∀ a b, C a → C b → ¬ p.conc a b
  | .act _, _, _, _, _, _, _, _ => id
  | .seq p q, hn, C, h, a, b, ha, hb => by
    obtain ⟨n1, n2, n3⟩ := nodup_split hn
    rintro (hc | hc)
    · exact fstCut_loose n1 h a b ha hb hc
    · exact n3 a (fst_acts (fstCut_sub (p := p) h ha)) (conc_acts hc).1
  | .alt p q, hn, C, h, a, b, ha, hb => by
    obtain ⟨n1, n2, n3⟩ := nodup_split hn
    obtain ⟨C1, C2, h1, h2, rfl⟩ := h
    rintro (hc | hc)
    · rcases ha with ha | ha
      · rcases hb with hb | hb
        · exact fstCut_loose n1 h1 a b ha hb hc
        · exact n3 b (conc_acts hc).2 (fst_acts (fstCut_sub h2 hb))
      · exact n3 a (conc_acts hc).1 (fst_acts (fstCut_sub h2 ha))
    · rcases ha with ha | ha
      · exact n3 a (fst_acts (fstCut_sub h1 ha)) (conc_acts hc).1
      · rcases hb with hb | hb
        · exact n3 b (fst_acts (fstCut_sub h1 hb)) (conc_acts hc).2
        · exact fstCut_loose n2 h2 a b ha hb hc
  | .par p q, hn, C, h, a, b, ha, hb => by
    obtain ⟨n1, n2, n3⟩ := nodup_split hn
    rcases h with h | h
    · have ma := fst_acts (fstCut_sub h ha)
      have mb := fst_acts (fstCut_sub h hb)
      rintro (hc | hc | hc | hc)
      · exact fstCut_loose n1 h a b ha hb hc
      · exact n3 a ma (conc_acts hc).1
      · exact n3 b mb hc.2
      · exact n3 a ma hc.1
    · have ma := fst_acts (fstCut_sub h ha)
      have mb := fst_acts (fstCut_sub h hb)
      rintro (hc | hc | hc | hc)
      · exact n3 a (conc_acts hc).1 ma
      · exact fstCut_loose n2 h a b ha hb hc
      · exact n3 a hc.1 ma
      · exact n3 b hc.2 mb

theorem Proc.lstCut_loose : ∀ {p : Proc}, p.acts.Nodup → ∀ {C : Str → Prop}, p.LstCut C → ∀ a b, C a → C b → ¬ p.conc a b
  | .act _, _, _, _, _, _, _, _ => id
  | .seq p q, hn, C, h, a, b, ha, hb => by
    obtain ⟨n1, n2, n3⟩ := nodup_split hn
    rintro (hc | hc)
    · exact n3 a (conc_acts hc).1 (lst_acts (lstCut_sub (p := q) h ha))
    · exact lstCut_loose n2 h a b ha hb hc
  | .alt p q, hn, C, h, a, b, ha, hb => by
    obtain ⟨n1, n2, n3⟩ := nodup_split hn
    obtain ⟨C1, C2, h1, h2, rfl⟩ := h
    rintro (hc | hc)
    · rcases ha with ha | ha
      · rcases hb with hb | hb
        · exact lstCut_loose n1 h1 a b ha hb hc
        · exact n3 b (conc_acts hc).2 (lst_acts (lstCut_sub h2 hb))
      · exact n3 a (conc_acts hc).1 (lst_acts (lstCut_sub h2 ha))
    · rcases ha with ha | ha
      · exact n3 a (lst_acts (lstCut_sub h1 ha)) (conc_acts hc).1
      · rcases hb with hb | hb
        · exact n3 b (lst_acts (lstCut_sub h1 hb)) (conc_acts hc).2
        · exact lstCut_loose n2 h2 a b ha hb hc
  | .par p q, hn, C, h, a, b, ha, hb => by
    obtain ⟨n1, n2, n3⟩ := nodup_split hn
    rcases h with h | h
    · have ma := lst_acts (lstCut_sub h ha)
      have mb := lst_acts (lstCut_sub h hb)
      rintro (hc | hc | hc | hc)
      · exact lstCut_loose n1 h a b ha hb hc
      · exact n3 a ma (conc_acts hc).1
      · exact n3 b mb hc.2
      · exact n3 a ma hc.1
    · have ma := lst_acts (lstCut_sub h ha)
      have mb := lst_acts (lstCut_sub h hb)
      rintro (hc | hc | hc | hc)
      · exact n3 a (conc_acts hc).1 ma
      · exact lstCut_loose n2 h a b ha hb hc
      · exact n3 a hc.1 ma
      · exact n3 b hc.2 mb

/-- Every set of first activities without concurrency lies in a cut. -/
theorem Proc.fstCut_cover : ∀ (p : Proc) (D : Str → Prop), (∀ a, D a → p.fst a) → (∀ a b, D a → D b → ¬ p.conc a b) →
    ∃ C, p.FstCut C ∧ ∀ a, D a → C a
  | .act a, D, h, _ => ⟨_, rfl, h⟩
  | .seq p q, D, h, hc => fstCut_cover p D h fun a b ha hb hx => hc a b ha hb (.inl hx)
  | .alt p q, D, h, hc => by
    obtain ⟨C1, h1, k1⟩ := fstCut_cover p (fun x => D x ∧ p.fst x) (fun a ha => ha.2) fun a b ha hb hx => hc a b ha.1 hb.1 (.inl hx)
    obtain ⟨C2, h2, k2⟩ := fstCut_cover q (fun x => D x ∧ q.fst x) (fun a ha => ha.2) fun a b ha hb hx => hc a b ha.1 hb.1 (.inr hx)
    exact ⟨_, ⟨C1, C2, h1, h2, rfl⟩, fun a ha => (h a ha).imp (fun hf => k1 a ⟨ha, hf⟩) (fun hf => k2 a ⟨ha, hf⟩)⟩
  | .par p q, D, h, hc => by
    by_cases hp : ∃ a, D a ∧ q.fst a
    · obtain ⟨b, hb, hbq⟩ := hp
      have all : ∀ a, D a → q.fst a := by
        intro a ha
        rcases h a ha with h | h
        · exact (hc a b ha hb (.inr (.inr (.inl ⟨fst_acts h, fst_acts hbq⟩)))).elim
        · exact h
      obtain ⟨C, h1, k1⟩ := fstCut_cover q D all fun a b ha hb hx => hc a b ha hb (.inr (.inl hx))
      exact ⟨C, .inr h1, k1⟩
    · have all : ∀ a, D a → p.fst a := fun a ha => (h a ha).elim id (fun h => (hp ⟨a, ha, h⟩).elim)
      obtain ⟨C, h1, k1⟩ := fstCut_cover p D all fun a b ha hb hx => hc a b ha hb (.inl hx)
      exact ⟨C, .inl h1, k1⟩

theorem Proc.lstCut_cover : ∀ (p : Proc) (D : Str → Prop), (∀ a, D a → p.lst a) → (∀ a b, D a → D b → ¬ p.conc a b) →
    ∃ C, p.LstCut C ∧ ∀ a, D a → C a
  | .act a, D, h, _ => ⟨_, rfl, h⟩
  | .seq p q, D, h, hc => lstCut_cover q D h fun a b ha hb hx => hc a b ha hb (.inr hx)
  | .alt p q, D, h, hc => by
    obtain ⟨C1, h1, k1⟩ := lstCut_cover p (fun x => D x ∧ p.lst x) (fun a ha => ha.2) fun a b ha hb hx => hc a b ha.1 hb.1 (.inl hx)
    obtain ⟨C2, h2, k2⟩ := lstCut_cover q (fun x => D x ∧ q.lst x) (fun a ha => ha.2) fun a b ha hb hx => hc a b ha.1 hb.1 (.inr hx)
    exact ⟨_, ⟨C1, C2, h1, h2, rfl⟩, fun a ha => (h a ha).imp (fun hf => k1 a ⟨ha, hf⟩) (fun hf => k2 a ⟨ha, hf⟩)⟩
  | .par p q, D, h, hc => by
    by_cases hp : ∃ a, D a ∧ q.lst a
    · obtain ⟨b, hb, hbq⟩ := hp
      have all : ∀ a, D a → q.lst a := by
        intro a ha
        rcases h a ha with h | h
        · exact (hc a b ha hb (.inr (.inr (.inl ⟨lst_acts h, lst_acts hbq⟩)))).elim
        · exact h
      obtain ⟨C, h1, k1⟩ := lstCut_cover q D all fun a b ha hb hx => hc a b ha hb (.inr (.inl hx))
      exact ⟨C, .inr h1, k1⟩
    · have all : ∀ a, D a → p.lst a := fun a ha => (h a ha).elim id (fun h => (hp ⟨a, ha, h⟩).elim)
      obtain ⟨C, h1, k1⟩ := lstCut_cover p D all fun a b ha hb hx => hc a b ha hb (.inl hx)
      exact ⟨C, .inl h1, k1⟩

/-- A cut that lies in another is the other. -/
theorem Proc.fstCut_anti : ∀ {p : Proc}, p.acts.Nodup → ∀ {C D : Str → Prop}, p.FstCut C → p.FstCut D → (∀ x, C x → D x) → ∀ x, D x → C x
  | .act a, _, C, D, hc, hd, _, x, hx => by cases hc; cases hd; exact hx
  | .seq p q, hn, C, D, hc, hd, h, x, hx => fstCut_anti (nodup_split hn).1 hc hd h x hx
  | .alt p q, hn, C, D, hc, hd, h, x, hx => by
    obtain ⟨n1, n2, n3⟩ := nodup_split hn
    obtain ⟨C1, C2, c1, c2, rfl⟩ := hc
    obtain ⟨D1, D2, d1, d2, rfl⟩ := hd
    rcases hx with hx | hx
    · exact .inl (fstCut_anti n1 c1 d1 (fun y hy => (h y (.inl hy)).elim id
        (fun hz => (n3 y (fst_acts (fstCut_sub c1 hy)) (fst_acts (fstCut_sub d2 hz))).elim)) x hx)
    · exact .inr (fstCut_anti n2 c2 d2 (fun y hy => (h y (.inr hy)).elim
        (fun hz => (n3 y (fst_acts (fstCut_sub d1 hz)) (fst_acts (fstCut_sub c2 hy))).elim) id) x hx)
  | .par p q, hn, C, D, hc, hd, h, x, hx => by
    obtain ⟨n1, n2, n3⟩ := nodup_split hn
    rcases hc with hc | hc <;> rcases hd with hd | hd
    · exact fstCut_anti n1 hc hd h x hx
    · obtain ⟨y, hy⟩ := fstCut_some hc
      exact (n3 y (fst_acts (fstCut_sub hc hy)) (fst_acts (fstCut_sub hd (h y hy)))).elim
    · obtain ⟨y, hy⟩ := fstCut_some hc
      exact (n3 y (fst_acts (fstCut_sub hd (h y hy))) (fst_acts (fstCut_sub hc hy))).elim
    · exact fstCut_anti n2 hc hd h x hx

theorem Proc.lstCut_anti : ∀ {p : Proc}, p.acts.Nodup → ∀ {C D : Str → Prop}, p.LstCut C → p.LstCut D → (∀ x, C x → D x) → ∀ x, D x → C x
  | .act a, _, C, D, hc, hd, _, x, hx => by cases hc; cases hd; exact hx
  | .seq p q, hn, C, D, hc, hd, h, x, hx => lstCut_anti (nodup_split hn).2.1 hc hd h x hx
  | .alt p q, hn, C, D, hc, hd, h, x, hx => by
    obtain ⟨n1, n2, n3⟩ := nodup_split hn
    obtain ⟨C1, C2, c1, c2, rfl⟩ := hc
    obtain ⟨D1, D2, d1, d2, rfl⟩ := hd
    rcases hx with hx | hx
    · exact .inl (lstCut_anti n1 c1 d1 (fun y hy => (h y (.inl hy)).elim id
        (fun hz => (n3 y (lst_acts (lstCut_sub c1 hy)) (lst_acts (lstCut_sub d2 hz))).elim)) x hx)
    · exact .inr (lstCut_anti n2 c2 d2 (fun y hy => (h y (.inr hy)).elim
        (fun hz => (n3 y (lst_acts (lstCut_sub d1 hz)) (lst_acts (lstCut_sub c2 hy))).elim) id) x hx)
  | .par p q, hn, C, D, hc, hd, h, x, hx => by
    obtain ⟨n1, n2, n3⟩ := nodup_split hn
    rcases hc with hc | hc <;> rcases hd with hd | hd
    · exact lstCut_anti n1 hc hd h x hx
    · obtain ⟨y, hy⟩ := lstCut_some hc
      exact (n3 y (lst_acts (lstCut_sub hc hy)) (lst_acts (lstCut_sub hd (h y hy)))).elim
    · obtain ⟨y, hy⟩ := lstCut_some hc
      exact (n3 y (lst_acts (lstCut_sub hd (h y hy))) (lst_acts (lstCut_sub hc hy))).elim
    · exact lstCut_anti n2 hc hd h x hx

/-! ## The places -/

theorem Proc.loose_seqLeft {p q : Proc} (hn : (Proc.seq p q).acts.Nodup) {C : Str → Prop} (hs : ∀ a, C a → a ∈ p.acts) (h : p.Loose C) :
    (Proc.seq p q).Loose C := by
  obtain ⟨_, _, n3⟩ := nodup_split hn
  intro a b ha hb
  refine ⟨?_, ?_⟩
  · rintro (hc | hc | hc)
    · exact (h a b ha hb).1 hc
    · exact n3 a (hs a ha) (link_acts hc).1
    · exact n3 b (hs b hb) (fst_acts hc.2)
  · rintro (hc | hc)
    · exact (h a b ha hb).2 hc
    · exact n3 a (hs a ha) (conc_acts hc).1

theorem Proc.loose_seqRight {p q : Proc} (hn : (Proc.seq p q).acts.Nodup) {C : Str → Prop} (hs : ∀ a, C a → a ∈ q.acts) (h : q.Loose C) :
    (Proc.seq p q).Loose C := by
  obtain ⟨_, _, n3⟩ := nodup_split hn
  intro a b ha hb
  refine ⟨?_, ?_⟩
  · rintro (hc | hc | hc)
    · exact n3 a (link_acts hc).1 (hs a ha)
    · exact (h a b ha hb).1 hc
    · exact n3 a (lst_acts hc.1) (hs a ha)
  · rintro (hc | hc)
    · exact n3 a (conc_acts hc).1 (hs a ha)
    · exact (h a b ha hb).2 hc

theorem Proc.loose_altLeft {p q : Proc} (hn : (Proc.alt p q).acts.Nodup) {C : Str → Prop} (hs : ∀ a, C a → a ∈ p.acts) (h : p.Loose C) :
    (Proc.alt p q).Loose C := by
  obtain ⟨_, _, n3⟩ := nodup_split hn
  intro a b ha hb
  refine ⟨?_, ?_⟩
  · rintro (hc | hc)
    · exact (h a b ha hb).1 hc
    · exact n3 a (hs a ha) (link_acts hc).1
  · rintro (hc | hc)
    · exact (h a b ha hb).2 hc
    · exact n3 a (hs a ha) (conc_acts hc).1

theorem Proc.loose_altRight {p q : Proc} (hn : (Proc.alt p q).acts.Nodup) {C : Str → Prop} (hs : ∀ a, C a → a ∈ q.acts) (h : q.Loose C) :
    (Proc.alt p q).Loose C := by
  obtain ⟨_, _, n3⟩ := nodup_split hn
  intro a b ha hb
  refine ⟨?_, ?_⟩
  · rintro (hc | hc)
    · exact n3 a (link_acts hc).1 (hs a ha)
    · exact (h a b ha hb).1 hc
  · rintro (hc | hc)
    · exact n3 a (conc_acts hc).1 (hs a ha)
    · exact (h a b ha hb).2 hc

theorem Proc.loose_parLeft {p q : Proc} (hn : (Proc.par p q).acts.Nodup) {C : Str → Prop} (hs : ∀ a, C a → a ∈ p.acts) (h : p.Loose C) :
    (Proc.par p q).Loose C := by
  obtain ⟨_, _, n3⟩ := nodup_split hn
  intro a b ha hb
  refine ⟨?_, ?_⟩
  · rintro (hc | hc)
    · exact (h a b ha hb).1 hc
    · exact n3 a (hs a ha) (link_acts hc).1
  · rintro (hc | hc | hc | hc)
    · exact (h a b ha hb).2 hc
    · exact n3 a (hs a ha) (conc_acts hc).1
    · exact n3 b (hs b hb) hc.2
    · exact n3 a (hs a ha) hc.1

theorem Proc.loose_parRight {p q : Proc} (hn : (Proc.par p q).acts.Nodup) {C : Str → Prop} (hs : ∀ a, C a → a ∈ q.acts) (h : q.Loose C) :
    (Proc.par p q).Loose C := by
  obtain ⟨_, _, n3⟩ := nodup_split hn
  intro a b ha hb
  refine ⟨?_, ?_⟩
  · rintro (hc | hc)
    · exact n3 a (link_acts hc).1 (hs a ha)
    · exact (h a b ha hb).1 hc
  · rintro (hc | hc | hc | hc)
    · exact n3 a (conc_acts hc).1 (hs a ha)
    · exact (h a b ha hb).2 hc
    · exact n3 a hc.1 (hs a ha)
    · exact n3 b hc.2 (hs b hb)

/-- The pairs of the alpha algorithm, for the process. -/
structure Proc.IsPair (p : Proc) (A B : Str → Prop) : Prop where
  left : ∃ a, A a
  right : ∃ b, B b
  link : ∀ a b, A a → B b → p.link a b
  looseLeft : p.Loose A
  looseRight : p.Loose B

theorem Proc.IsPair.subLeft {p : Proc} {A B : Str → Prop} (h : p.IsPair A B) : ∀ a, A a → a ∈ p.acts := by
  intro a ha
  obtain ⟨b, hb⟩ := h.right
  exact (link_acts (h.link a b ha hb)).1

theorem Proc.IsPair.subRight {p : Proc} {A B : Str → Prop} (h : p.IsPair A B) : ∀ b, B b → b ∈ p.acts := by
  intro b hb
  obtain ⟨a, ha⟩ := h.left
  exact (link_acts (h.link a b ha hb)).2

theorem Proc.between_pair : ∀ {p : Proc}, p.acts.Nodup → ∀ {A B : Str → Prop}, p.Between A B → p.IsPair A B
  | .act _, _, _, _, h => h.elim
  | .seq p q, hn, A, B, h => by
    obtain ⟨n1, n2, n3⟩ := nodup_split hn
    rcases h with h | h | ⟨h1, h2⟩
    · have i := between_pair n1 h
      exact ⟨i.left, i.right, fun a b ha hb => .inl (i.link a b ha hb), loose_seqLeft hn i.subLeft i.looseLeft,
        loose_seqLeft hn i.subRight i.looseRight⟩
    · have i := between_pair n2 h
      exact ⟨i.left, i.right, fun a b ha hb => .inr (.inl (i.link a b ha hb)), loose_seqRight hn i.subLeft i.looseLeft,
        loose_seqRight hn i.subRight i.looseRight⟩
    · refine ⟨lstCut_some h1, fstCut_some h2, fun a b ha hb => .inr (.inr ⟨lstCut_sub h1 ha, fstCut_sub h2 hb⟩), ?_, ?_⟩
      · exact loose_seqLeft hn (fun a ha => lst_acts (lstCut_sub h1 ha))
          (fun a b ha hb => ⟨lst_no_link n1 (lstCut_sub h1 ha), lstCut_loose n1 h1 a b ha hb⟩)
      · exact loose_seqRight hn (fun a ha => fst_acts (fstCut_sub h2 ha))
          (fun a b ha hb => ⟨fst_no_link n2 (fstCut_sub h2 hb), fstCut_loose n2 h2 a b ha hb⟩)
  | .alt p q, hn, A, B, h => by
    obtain ⟨n1, n2, n3⟩ := nodup_split hn
    rcases h with h | h
    · have i := between_pair n1 h
      exact ⟨i.left, i.right, fun a b ha hb => .inl (i.link a b ha hb), loose_altLeft hn i.subLeft i.looseLeft,
        loose_altLeft hn i.subRight i.looseRight⟩
    · have i := between_pair n2 h
      exact ⟨i.left, i.right, fun a b ha hb => .inr (i.link a b ha hb), loose_altRight hn i.subLeft i.looseLeft,
        loose_altRight hn i.subRight i.looseRight⟩
  | .par p q, hn, A, B, h => by
    obtain ⟨n1, n2, n3⟩ := nodup_split hn
    rcases h with h | h
    · have i := between_pair n1 h
      exact ⟨i.left, i.right, fun a b ha hb => .inl (i.link a b ha hb), loose_parLeft hn i.subLeft i.looseLeft,
        loose_parLeft hn i.subRight i.looseRight⟩
    · have i := between_pair n2 h
      exact ⟨i.left, i.right, fun a b ha hb => .inr (i.link a b ha hb), loose_parRight hn i.subLeft i.looseLeft,
        loose_parRight hn i.subRight i.looseRight⟩

/-- Every pair lies in a place. -/
theorem Proc.pair_cover : ∀ {p : Proc}, p.acts.Nodup → ∀ {A B : Str → Prop}, p.IsPair A B →
    ∃ A' B', p.Between A' B' ∧ (∀ a, A a → A' a) ∧ ∀ b, B b → B' b
  | .act _, _, A, B, h => by
    obtain ⟨a, ha⟩ := h.left
    obtain ⟨b, hb⟩ := h.right
    exact (h.link a b ha hb).elim
  | .seq p q, hn, A, B, h => by
    obtain ⟨n1, n2, n3⟩ := nodup_split hn
    obtain ⟨a0, ha0⟩ := h.left
    obtain ⟨b0, hb0⟩ := h.right
    rcases h.link a0 b0 ha0 hb0 with hl | hl | hl
    · have right : ∀ b, B b → b ∈ p.acts := by
        intro b hb
        rcases h.link a0 b ha0 hb with hx | hx | hx
        · exact (link_acts hx).2
        · exact (n3 a0 (link_acts hl).1 (link_acts hx).1).elim
        · exact ((link_inner n1 hl).1 hx.1).elim
      have all : ∀ a b, A a → B b → p.link a b := by
        intro a b ha hb
        rcases h.link a b ha hb with hx | hx | hx
        · exact hx
        · exact (n3 b (right b hb) (link_acts hx).2).elim
        · exact (n3 b (right b hb) (fst_acts hx.2)).elim
      obtain ⟨A', B', hp, hA, hB⟩ := pair_cover n1 ⟨h.left, h.right, all,
        fun a b ha hb => ⟨fun hx => (h.looseLeft a b ha hb).1 (.inl hx), fun hx => (h.looseLeft a b ha hb).2 (.inl hx)⟩,
        fun a b ha hb => ⟨fun hx => (h.looseRight a b ha hb).1 (.inl hx), fun hx => (h.looseRight a b ha hb).2 (.inl hx)⟩⟩
      exact ⟨A', B', .inl hp, hA, hB⟩
    · have left : ∀ a, A a → a ∈ q.acts := by
        intro a ha
        rcases h.link a b0 ha hb0 with hx | hx | hx
        · exact (n3 b0 (link_acts hx).2 (link_acts hl).2).elim
        · exact (link_acts hx).1
        · exact ((link_inner n2 hl).2 hx.2).elim
      have all : ∀ a b, A a → B b → q.link a b := by
        intro a b ha hb
        rcases h.link a b ha hb with hx | hx | hx
        · exact (n3 a (link_acts hx).1 (left a ha)).elim
        · exact hx
        · exact (n3 a (lst_acts hx.1) (left a ha)).elim
      obtain ⟨A', B', hp, hA, hB⟩ := pair_cover n2 ⟨h.left, h.right, all,
        fun a b ha hb => ⟨fun hx => (h.looseLeft a b ha hb).1 (.inr (.inl hx)), fun hx => (h.looseLeft a b ha hb).2 (.inr hx)⟩,
        fun a b ha hb => ⟨fun hx => (h.looseRight a b ha hb).1 (.inr (.inl hx)), fun hx => (h.looseRight a b ha hb).2 (.inr hx)⟩⟩
      exact ⟨A', B', .inr (.inl hp), hA, hB⟩
    · have left : ∀ a, A a → p.lst a := by
        intro a ha
        rcases h.link a b0 ha hb0 with hx | hx | hx
        · exact (n3 b0 (link_acts hx).2 (fst_acts hl.2)).elim
        · exact ((link_inner n2 hx).2 hl.2).elim
        · exact hx.1
      have right : ∀ b, B b → q.fst b := by
        intro b hb
        rcases h.link a0 b ha0 hb with hx | hx | hx
        · exact ((link_inner n1 hx).1 hl.1).elim
        · exact (n3 a0 (lst_acts hl.1) (link_acts hx).1).elim
        · exact hx.2
      obtain ⟨A', hA, kA⟩ := lstCut_cover p A left fun a b ha hb hx => (h.looseLeft a b ha hb).2 (.inl hx)
      obtain ⟨B', hB, kB⟩ := fstCut_cover q B right fun a b ha hb hx => (h.looseRight a b ha hb).2 (.inr hx)
      exact ⟨A', B', .inr (.inr ⟨hA, hB⟩), kA, kB⟩
  | .alt p q, hn, A, B, h => by
    obtain ⟨n1, n2, n3⟩ := nodup_split hn
    obtain ⟨a0, ha0⟩ := h.left
    obtain ⟨b0, hb0⟩ := h.right
    rcases h.link a0 b0 ha0 hb0 with hl | hl
    · have right : ∀ b, B b → b ∈ p.acts := fun b hb => (h.link a0 b ha0 hb).elim (fun hx => (link_acts hx).2)
        (fun hx => (n3 a0 (link_acts hl).1 (link_acts hx).1).elim)
      have all : ∀ a b, A a → B b → p.link a b := fun a b ha hb => (h.link a b ha hb).elim id
        (fun hx => (n3 b (right b hb) (link_acts hx).2).elim)
      obtain ⟨A', B', hp, hA, hB⟩ := pair_cover n1 ⟨h.left, h.right, all,
        fun a b ha hb => ⟨fun hx => (h.looseLeft a b ha hb).1 (.inl hx), fun hx => (h.looseLeft a b ha hb).2 (.inl hx)⟩,
        fun a b ha hb => ⟨fun hx => (h.looseRight a b ha hb).1 (.inl hx), fun hx => (h.looseRight a b ha hb).2 (.inl hx)⟩⟩
      exact ⟨A', B', .inl hp, hA, hB⟩
    · have right : ∀ b, B b → b ∈ q.acts := fun b hb => (h.link a0 b ha0 hb).elim
        (fun hx => (n3 a0 (link_acts hx).1 (link_acts hl).1).elim) (fun hx => (link_acts hx).2)
      have all : ∀ a b, A a → B b → q.link a b := fun a b ha hb => (h.link a b ha hb).elim
        (fun hx => (n3 b (link_acts hx).2 (right b hb)).elim) id
      obtain ⟨A', B', hp, hA, hB⟩ := pair_cover n2 ⟨h.left, h.right, all,
        fun a b ha hb => ⟨fun hx => (h.looseLeft a b ha hb).1 (.inr hx), fun hx => (h.looseLeft a b ha hb).2 (.inr hx)⟩,
        fun a b ha hb => ⟨fun hx => (h.looseRight a b ha hb).1 (.inr hx), fun hx => (h.looseRight a b ha hb).2 (.inr hx)⟩⟩
      exact ⟨A', B', .inr hp, hA, hB⟩
  | .par p q, hn, A, B, h => by
    obtain ⟨n1, n2, n3⟩ := nodup_split hn
    obtain ⟨a0, ha0⟩ := h.left
    obtain ⟨b0, hb0⟩ := h.right
    rcases h.link a0 b0 ha0 hb0 with hl | hl
    · have right : ∀ b, B b → b ∈ p.acts := fun b hb => (h.link a0 b ha0 hb).elim (fun hx => (link_acts hx).2)
        (fun hx => (n3 a0 (link_acts hl).1 (link_acts hx).1).elim)
      have all : ∀ a b, A a → B b → p.link a b := fun a b ha hb => (h.link a b ha hb).elim id
        (fun hx => (n3 b (right b hb) (link_acts hx).2).elim)
      obtain ⟨A', B', hp, hA, hB⟩ := pair_cover n1 ⟨h.left, h.right, all,
        fun a b ha hb => ⟨fun hx => (h.looseLeft a b ha hb).1 (.inl hx), fun hx => (h.looseLeft a b ha hb).2 (.inl hx)⟩,
        fun a b ha hb => ⟨fun hx => (h.looseRight a b ha hb).1 (.inl hx), fun hx => (h.looseRight a b ha hb).2 (.inl hx)⟩⟩
      exact ⟨A', B', .inl hp, hA, hB⟩
    · have right : ∀ b, B b → b ∈ q.acts := fun b hb => (h.link a0 b ha0 hb).elim
        (fun hx => (n3 a0 (link_acts hx).1 (link_acts hl).1).elim) (fun hx => (link_acts hx).2)
      have all : ∀ a b, A a → B b → q.link a b := fun a b ha hb => (h.link a b ha hb).elim
        (fun hx => (n3 b (link_acts hx).2 (right b hb)).elim) id
      obtain ⟨A', B', hp, hA, hB⟩ := pair_cover n2 ⟨h.left, h.right, all,
        fun a b ha hb => ⟨fun hx => (h.looseLeft a b ha hb).1 (.inr hx), fun hx => (h.looseLeft a b ha hb).2 (.inr (.inl hx))⟩,
        fun a b ha hb => ⟨fun hx => (h.looseRight a b ha hb).1 (.inr hx), fun hx => (h.looseRight a b ha hb).2 (.inr (.inl hx))⟩⟩
      exact ⟨A', B', .inr hp, hA, hB⟩

/-- A place that lies in another is the other. -/
theorem Proc.between_anti : ∀ {p : Proc}, p.acts.Nodup → ∀ {A B A' B' : Str → Prop}, p.Between A B → p.Between A' B' →
    (∀ x, A x → A' x) → (∀ x, B x → B' x) → (∀ x, A' x → A x) ∧ ∀ x, B' x → B x
  | .act _, _, _, _, _, _, h, _, _, _ => h.elim
  | .seq p q, hn, A, B, A', B', h, h', hA, hB => by
    obtain ⟨n1, n2, n3⟩ := nodup_split hn
    have i := between_pair hn h
    obtain ⟨a, ha⟩ := i.left
    obtain ⟨b, hb⟩ := i.right
    rcases h with h | h | h <;> rcases h' with h' | h' | h'
    · exact between_anti n1 h h' hA hB
    · exact (n3 a ((between_pair n1 h).subLeft a ha) ((between_pair n2 h').subLeft a (hA a ha))).elim
    · exact (n3 b ((between_pair n1 h).subRight b hb) (fst_acts (fstCut_sub h'.2 (hB b hb)))).elim
    · exact (n3 a ((between_pair n1 h').subLeft a (hA a ha)) ((between_pair n2 h).subLeft a ha)).elim
    · exact between_anti n2 h h' hA hB
    · exact (n3 a (lst_acts (lstCut_sub h'.1 (hA a ha))) ((between_pair n2 h).subLeft a ha)).elim
    · exact (n3 b ((between_pair n1 h').subRight b (hB b hb)) (fst_acts (fstCut_sub h.2 hb))).elim
    · exact (n3 a (lst_acts (lstCut_sub h.1 ha)) ((between_pair n2 h').subLeft a (hA a ha))).elim
    · exact ⟨lstCut_anti n1 h.1 h'.1 hA, fstCut_anti n2 h.2 h'.2 hB⟩
  | .alt p q, hn, A, B, A', B', h, h', hA, hB => by
    obtain ⟨n1, n2, n3⟩ := nodup_split hn
    obtain ⟨a, ha⟩ := (between_pair hn h).left
    rcases h with h | h <;> rcases h' with h' | h'
    · exact between_anti n1 h h' hA hB
    · exact (n3 a ((between_pair n1 h).subLeft a ha) ((between_pair n2 h').subLeft a (hA a ha))).elim
    · exact (n3 a ((between_pair n1 h').subLeft a (hA a ha)) ((between_pair n2 h).subLeft a ha)).elim
    · exact between_anti n2 h h' hA hB
  | .par p q, hn, A, B, A', B', h, h', hA, hB => by
    obtain ⟨n1, n2, n3⟩ := nodup_split hn
    obtain ⟨a, ha⟩ := (between_pair hn h).left
    rcases h with h | h <;> rcases h' with h' | h'
    · exact between_anti n1 h h' hA hB
    · exact (n3 a ((between_pair n1 h).subLeft a ha) ((between_pair n2 h').subLeft a (hA a ha))).elim
    · exact (n3 a ((between_pair n1 h').subLeft a (hA a ha)) ((between_pair n2 h).subLeft a ha)).elim
    · exact between_anti n2 h h' hA hB

theorem ShowsProc.follows {log : List (List Str)} {p : Proc} (h : ShowsProc log p) {a b : Str} : Follows log a b ↔ p.link a b ∨ p.conc a b := by
  rw [← Proc.next_iff]
  constructor
  · rintro ⟨t, ht, u, v, e⟩
    exact ⟨t, h.sound t ht, u, v, e⟩
  · exact h.next a b

theorem ShowsProc.occurs {log : List (List Str)} {p : Proc} (h : ShowsProc log p) {a : Str} : Occurs log a ↔ a ∈ p.acts := by
  constructor
  · rintro ⟨t, ht, ha⟩
    exact (h.sound t ht).sub a ha
  · intro ha
    obtain ⟨t, ht, hm⟩ := p.does_with a ha
    obtain ⟨u, v, rfl⟩ := List.append_of_mem hm
    rcases List.eq_nil_or_concat u with rfl | ⟨w, b, rfl⟩
    · obtain ⟨s, hs, hd⟩ := h.begins a ⟨_, ht, rfl⟩
      exact ⟨s, hs, List.mem_of_mem_head? hd⟩
    · obtain ⟨s, hs, x, y, rfl⟩ := h.next b a ⟨_, ht, w, v, by simp⟩
      exact ⟨_, hs, by simp⟩

theorem ShowsProc.alphaPair {log : List (List Str)} {p : Proc} (h : ShowsProc log p) (hn : p.acts.Nodup) {A B : Str → Prop} :
    AlphaPair log A B ↔ p.IsPair A B := by
  constructor
  · intro ha
    refine ⟨ha.nonempty.1, ha.nonempty.2, ?_, ?_, ?_⟩
    · intro a b h1 h2
      obtain ⟨f1, f2⟩ := ha.causes a b h1 h2
      rcases h.follows.1 f1 with f1 | f1
      · exact f1
      · exact (f2 (h.follows.2 (.inr (Proc.conc_symm f1)))).elim
    · intro a b h1 h2
      have := (ha.unrelated.1 a b h1 h2).1
      rw [h.follows] at this
      exact not_or.1 this
    · intro a b h1 h2
      have := (ha.unrelated.2 a b h1 h2).1
      rw [h.follows] at this
      exact not_or.1 this
  · intro hp
    refine ⟨⟨fun a ha => h.occurs.2 (hp.subLeft a ha), fun b hb => h.occurs.2 (hp.subRight b hb)⟩, ⟨hp.left, hp.right⟩, ?_, ?_, ?_⟩
    · intro a b ha hb
      have hl := hp.link a b ha hb
      refine ⟨h.follows.2 (.inl hl), fun hf => ?_⟩
      rcases h.follows.1 hf with hf | hf
      · exact Proc.link_asymm hn hl hf
      · exact Proc.link_not_conc hn hl (Proc.conc_symm hf)
    · intro a b ha hb
      have x := hp.looseLeft a b ha hb
      have y := hp.looseLeft b a hb ha
      exact ⟨fun hf => (h.follows.1 hf).elim x.1 x.2, fun hf => (h.follows.1 hf).elim y.1 y.2⟩
    · intro a b ha hb
      have x := hp.looseRight a b ha hb
      have y := hp.looseRight b a hb ha
      exact ⟨fun hf => (h.follows.1 hf).elim x.1 x.2, fun hf => (h.follows.1 hf).elim y.1 y.2⟩

/-- The places of the net are the places between the parts of the process. -/
theorem ShowsProc.maximalPair {log : List (List Str)} {p : Proc} (h : ShowsProc log p) (hn : p.acts.Nodup) {A B : Str → Prop} :
    MaximalPair log A B ↔ p.Between A B := by
  constructor
  · intro hm
    obtain ⟨A', B', hb, hA, hB⟩ := Proc.pair_cover hn ((h.alphaPair hn).1 hm.isPair)
    obtain ⟨e1, e2⟩ := hm.maximal A' B' ((h.alphaPair hn).2 (Proc.between_pair hn hb)) hA hB
    obtain rfl : A' = A := funext fun x => propext (e1 x)
    obtain rfl : B' = B := funext fun x => propext (e2 x)
    exact hb
  · intro hb
    refine ⟨(h.alphaPair hn).2 (Proc.between_pair hn hb), ?_⟩
    intro A' B' hp hA hB
    obtain ⟨A2, B2, hb2, hA2, hB2⟩ := Proc.pair_cover hn ((h.alphaPair hn).1 hp)
    obtain ⟨k1, k2⟩ := Proc.between_anti hn hb hb2 (fun x hx => hA2 x (hA x hx)) (fun x hx => hB2 x (hB x hx))
    exact ⟨fun x => ⟨fun hx => k1 x (hA2 x hx), hA x⟩, fun x => ⟨fun hx => k2 x (hB2 x hx), hB x⟩⟩

/-! ## One place at a time -/

/-- A place with `k` tokens sees the activities, of which `T` take from it and `U` put into it, and has `k'` tokens then. -/
inductive Line (T U : Str → Prop) : Nat → List Str → Nat → Prop where
  | nil {k : Nat} : Line T U k [] k
  | cons {k k' : Nat} {e : Str} {es : List Str} : (T e → 1 ≤ k) → Line T U (k - tokenIf (T e) + tokenIf (U e)) es k' → Line T U k (e :: es) k'

theorem runs_lines {net : AlphaNet} : ∀ {es : List Str} {m m' : Marking}, Runs net m es m' ↔
    (∀ e ∈ es, e ∈ net.events.all) ∧ ∀ n, Line (fun e => Takes net e n) (fun e => Puts net e n) (m n) es (m' n)
  | [], m, m' => by
    constructor
    · intro h
      cases h
      exact ⟨by simp, fun n => .nil⟩
    · rintro ⟨_, h⟩
      have : m = m' := by
        funext n
        generalize hk : m n = k
        generalize hk' : m' n = k'
        have := h n
        rw [hk, hk'] at this
        cases this
        rfl
      subst this
      exact .nil
  | e :: es, m, m' => by
    constructor
    · intro h
      cases h with
      | cons hf hr =>
        obtain ⟨h1, h2⟩ := runs_lines.1 hr
        obtain ⟨f1, f2, f3⟩ := hf
        refine ⟨?_, fun n => .cons (f2 n) ?_⟩
        · intro x hx
          rcases List.mem_cons.1 hx with rfl | hx
          · exact f1
          · exact h1 x hx
        · rw [← f3 n]; exact h2 n
    · rintro ⟨h1, h2⟩
      refine .cons (m' := fun n => m n - tokenIf (Takes net e n) + tokenIf (Puts net e n)) ⟨h1 e (by simp), ?_, fun n => rfl⟩
        (runs_lines.2 ⟨fun x hx => h1 x (List.mem_cons_of_mem _ hx), ?_⟩)
      · intro n
        cases h2 n with
        | cons hf _ => exact hf
      · intro n
        cases h2 n with
        | cons _ hr => exact hr

open Classical in
/-- How many of the activities are in the set. -/
noncomputable def amount (C : Str → Prop) (es : List Str) : Nat := es.countP (fun e => decide (C e))

theorem amount_nil (C : Str → Prop) : amount C [] = 0 := rfl

theorem amount_cons (C : Str → Prop) (e : Str) (es : List Str) : amount C (e :: es) = tokenIf (C e) + amount C es := by
  by_cases h : C e <;> simp [amount, tokenIf, h, Nat.add_comm]

theorem amount_append (C : Str → Prop) (u v : List Str) : amount C (u ++ v) = amount C u + amount C v := by
  simp [amount, List.countP_append]

theorem amount_zero {C : Str → Prop} {es : List Str} : amount C es = 0 ↔ ∀ e ∈ es, ¬ C e := by
  simp [amount, List.countP_eq_zero]

theorem amount_or {C D : Str → Prop} (h : ∀ x, C x → D x → False) (es : List Str) : amount (fun x => C x ∨ D x) es = amount C es + amount D es := by
  induction es with
  | nil => rfl
  | cons e es ih =>
    rw [amount_cons, amount_cons, amount_cons, ih]
    by_cases h1 : C e <;> by_cases h2 : D e
    · exact (h e h1 h2).elim
    all_goals simp [tokenIf, h1, h2]; try omega

theorem tokenIf_pos {p : Prop} (h : p) : tokenIf p = 1 := by simp [tokenIf, h]
theorem tokenIf_neg {p : Prop} (h : ¬ p) : tokenIf p = 0 := by simp [tokenIf, h]

/-- Tokens are neither lost nor made. -/
theorem Line.total {T U : Str → Prop} {k k' : Nat} {es : List Str} (h : Line T U k es k') : k' + amount T es = k + amount U es := by
  induction h with
  | nil => rfl
  | cons hf _ ih =>
    rename_i k k' e es _
    rw [amount_cons, amount_cons]
    by_cases ht : T e
    · have := hf ht
      rw [tokenIf_pos ht] at ih ⊢
      omega
    · rw [tokenIf_neg ht] at ih ⊢
      omega

/-- Who takes a token finds one. -/
theorem Line.enough {T U : Str → Prop} : ∀ {u : List Str} {k k' : Nat} {e : Str} {v : List Str}, Line T U k (u ++ e :: v) k' → T e →
    amount T u + 1 ≤ k + amount U u
  | [], k, k', e, v, h, ht => by
    cases h with
    | cons hf _ => have := hf ht; simp only [amount_nil]; omega
  | x :: u, k, k', e, v, h, ht => by
    cases h with
    | cons hf hr =>
      have := hr.enough ht
      rw [amount_cons, amount_cons]
      by_cases hx : T x
      · have := hf hx
        rw [tokenIf_pos hx] at *
        omega
      · rw [tokenIf_neg hx] at *
        omega

theorem Line.append {T U : Str → Prop} {k k' k'' : Nat} {u v : List Str} (h : Line T U k u k') (h' : Line T U k' v k'') : Line T U k (u ++ v) k'' := by
  induction h with
  | nil => exact h'
  | cons hf _ ih => exact .cons hf (ih h')

/-- Activities that have nothing to do with the place. -/
theorem Line.idle {T U : Str → Prop} {k : Nat} : ∀ {es : List Str}, (∀ e ∈ es, ¬ T e ∧ ¬ U e) → Line T U k es k
  | [], _ => .nil
  | e :: es, h => by
    obtain ⟨h1, h2⟩ := h e (by simp)
    refine .cons (fun ht => (h1 ht).elim) ?_
    rw [tokenIf_neg h1, tokenIf_neg h2]
    exact Line.idle fun x hx => h x (List.mem_cons_of_mem _ hx)

/-- Activities that only put. -/
theorem Line.puts {T U : Str → Prop} : ∀ {k : Nat} {es : List Str}, (∀ e ∈ es, ¬ T e) → Line T U k es (k + amount U es)
  | k, [], _ => .nil
  | k, e :: es, h => by
    have h1 := h e (by simp)
    refine .cons (fun ht => (h1 ht).elim) ?_
    rw [tokenIf_neg h1, amount_cons]
    have := Line.puts (T := T) (U := U) (k := k - 0 + tokenIf (U e)) (es := es) fun x hx => h x (List.mem_cons_of_mem _ hx)
    have e1 : k - 0 + tokenIf (U e) + amount U es = k + (tokenIf (U e) + amount U es) := by omega
    rw [e1] at this
    exact this

/-- Activities that only take. -/
theorem Line.takes {T U : Str → Prop} : ∀ {k : Nat} {es : List Str}, (∀ e ∈ es, ¬ U e) → amount T es ≤ k → Line T U k es (k - amount T es)
  | k, [], _, _ => .nil
  | k, e :: es, h, hk => by
    have h1 := h e (by simp)
    rw [amount_cons] at hk ⊢
    refine .cons (fun ht => by rw [tokenIf_pos ht] at hk; omega) ?_
    rw [tokenIf_neg h1]
    have := Line.takes (T := T) (U := U) (k := k - tokenIf (T e)) (es := es) (fun x hx => h x (List.mem_cons_of_mem _ hx)) (by omega)
    have e1 : k - tokenIf (T e) - amount T es = k - (tokenIf (T e) + amount T es) := by omega
    rw [e1] at this
    exact this

/-- A place sees only its own activities. -/
theorem Line.filter {T U : Str → Prop} {k k' : Nat} {f : Str → Bool} : ∀ {es : List Str}, (∀ e ∈ es, T e ∨ U e → f e = true) →
    (Line T U k es k' ↔ Line T U k (es.filter f) k') := by
  intro es
  induction es generalizing k with
  | nil => intro _; exact Iff.rfl
  | cons e es ih =>
    intro h
    have h' : ∀ x ∈ es, T x ∨ U x → f x = true := fun x hx => h x (List.mem_cons_of_mem _ hx)
    by_cases hf : f e = true
    · rw [List.filter_cons_of_pos hf]
      constructor
      · intro hl
        cases hl with
        | cons h1 h2 => exact .cons h1 ((ih h').1 h2)
      · intro hl
        cases hl with
        | cons h1 h2 => exact .cons h1 ((ih h').2 h2)
    · rw [List.filter_cons_of_neg hf]
      have n1 : ¬ T e := fun ht => hf (h e (by simp) (.inl ht))
      have n2 : ¬ U e := fun ht => hf (h e (by simp) (.inr ht))
      constructor
      · intro hl
        cases hl with
        | cons h1 h2 =>
          rw [tokenIf_neg n1, tokenIf_neg n2] at h2
          exact (ih h').1 h2
      · intro hl
        refine .cons (fun ht => (n1 ht).elim) ?_
        rw [tokenIf_neg n1, tokenIf_neg n2]
        exact (ih h').2 hl

/-- In an interleaving a place sees the list it has to do with. -/
theorem Line.interleave {T U : Str → Prop} {u v w : List Str} (hi : Interleaves u v w) : ∀ {k k' : Nat}, (∀ e ∈ v, ¬ T e ∧ ¬ U e) →
    Line T U k u k' → Line T U k w k' := by
  induction hi with
  | nil => intro k k' _ h; exact h
  | left a _ ih =>
    intro k k' hv h
    cases h with
    | cons h1 h2 => exact .cons h1 (ih hv h2)
  | right a _ ih =>
    intro k k' hv h
    obtain ⟨h1, h2⟩ := hv a (by simp)
    refine .cons (fun ht => (h1 ht).elim) ?_
    rw [tokenIf_neg h1, tokenIf_neg h2]
    exact ih (fun e he => hv e (List.mem_cons_of_mem _ he)) h

/-! ## Runs of the process and tokens -/

/-- In a run, exactly one of the activities of each cut happens, and the places between the parts end as they begin: empty. -/
theorem Proc.Does.fits {p : Proc} {t : List Str} (h : p.Does t) : p.acts.Nodup → (∀ C, p.FstCut C → amount C t = 1) ∧ (∀ C, p.LstCut C → amount C t = 1) ∧
    ∀ A B, p.Between A B → Line B A 0 t 0 := by
  have none : ∀ {C : Str → Prop} {p q : Proc} {t : List Str}, (∀ a, a ∈ p.acts → a ∈ q.acts → False) → (∀ x, C x → x ∈ p.acts) → q.Does t →
      ∀ e ∈ t, ¬ C e := fun h1 h2 h3 e he hc => h1 e (h2 e hc) (h3.sub e he)
  have none' : ∀ {C : Str → Prop} {p q : Proc} {t : List Str}, (∀ a, a ∈ p.acts → a ∈ q.acts → False) → (∀ x, C x → x ∈ q.acts) → p.Does t →
      ∀ e ∈ t, ¬ C e := fun h1 h2 h3 e he hc => h1 e (h3.sub e he) (h2 e hc)
  induction h with
  | act a =>
    intro _
    refine ⟨?_, ?_, fun A B h => h.elim⟩
    · intro C hC; cases hC; rw [amount_cons, amount_nil, tokenIf_pos rfl]
    · intro C hC; cases hC; rw [amount_cons, amount_nil, tokenIf_pos rfl]
  | seq h1 h2 i j =>
    rename_i p q u v
    intro hn
    obtain ⟨n1, n2, n3⟩ := nodup_split hn
    obtain ⟨i1, i2, i3⟩ := i n1
    obtain ⟨j1, j2, j3⟩ := j n2
    refine ⟨?_, ?_, ?_⟩
    · intro C hC
      rw [amount_append, i1 C hC, amount_zero.2 (none n3 (fun x hx => fst_acts (fstCut_sub (p := p) hC hx)) h2)]
    · intro C hC
      rw [amount_append, j2 C hC, amount_zero.2 (none' n3 (fun x hx => lst_acts (lstCut_sub (p := q) hC hx)) h1)]
    · intro A B hb
      rcases hb with hb | hb | hb
      · have ip := between_pair n1 hb
        exact (i3 A B hb).append (.idle fun e he => ⟨none n3 ip.subRight h2 e he, none n3 ip.subLeft h2 e he⟩)
      · have ip := between_pair n2 hb
        exact Line.append (.idle fun e he => ⟨none' n3 ip.subRight h1 e he, none' n3 ip.subLeft h1 e he⟩) (j3 A B hb)
      · have l1 : Line B A 0 u (0 + amount A u) := .puts (none' n3 (fun x hx => fst_acts (fstCut_sub hb.2 hx)) h1)
        rw [i2 A hb.1] at l1
        have l2 : Line B A 1 v (1 - amount B v) := .takes (none n3 (fun x hx => lst_acts (lstCut_sub hb.1 hx)) h2) (by rw [j1 B hb.2])
        rw [j1 B hb.2] at l2
        exact l1.append l2
  | altLeft h1 i =>
    rename_i p q u
    intro hn
    obtain ⟨n1, n2, n3⟩ := nodup_split hn
    obtain ⟨i1, i2, i3⟩ := i n1
    refine ⟨?_, ?_, ?_⟩
    · rintro C ⟨C1, C2, c1, c2, rfl⟩
      rw [amount_or (fun x hx hy => n3 x (fst_acts (fstCut_sub c1 hx)) (fst_acts (fstCut_sub c2 hy))), i1 C1 c1,
        amount_zero.2 (none' n3 (fun x hx => fst_acts (fstCut_sub c2 hx)) h1)]
    · rintro C ⟨C1, C2, c1, c2, rfl⟩
      rw [amount_or (fun x hx hy => n3 x (lst_acts (lstCut_sub c1 hx)) (lst_acts (lstCut_sub c2 hy))), i2 C1 c1,
        amount_zero.2 (none' n3 (fun x hx => lst_acts (lstCut_sub c2 hx)) h1)]
    · rintro A B (hb | hb)
      · exact i3 A B hb
      · have ip := between_pair n2 hb
        exact .idle fun e he => ⟨none' n3 ip.subRight h1 e he, none' n3 ip.subLeft h1 e he⟩
  | altRight h1 i =>
    rename_i p q u
    intro hn
    obtain ⟨n1, n2, n3⟩ := nodup_split hn
    obtain ⟨i1, i2, i3⟩ := i n2
    refine ⟨?_, ?_, ?_⟩
    · rintro C ⟨C1, C2, c1, c2, rfl⟩
      rw [amount_or (fun x hx hy => n3 x (fst_acts (fstCut_sub c1 hx)) (fst_acts (fstCut_sub c2 hy))), i1 C2 c2,
        amount_zero.2 (none n3 (fun x hx => fst_acts (fstCut_sub c1 hx)) h1)]
    · rintro C ⟨C1, C2, c1, c2, rfl⟩
      rw [amount_or (fun x hx hy => n3 x (lst_acts (lstCut_sub c1 hx)) (lst_acts (lstCut_sub c2 hy))), i2 C2 c2,
        amount_zero.2 (none n3 (fun x hx => lst_acts (lstCut_sub c1 hx)) h1)]
    · rintro A B (hb | hb)
      · have ip := between_pair n1 hb
        exact .idle fun e he => ⟨none n3 ip.subRight h1 e he, none n3 ip.subLeft h1 e he⟩
      · exact i3 A B hb
  | par h1 h2 hi i j =>
    rename_i p q u v w
    intro hn
    obtain ⟨n1, n2, n3⟩ := nodup_split hn
    obtain ⟨i1, i2, i3⟩ := i n1
    obtain ⟨j1, j2, j3⟩ := j n2
    have cnt : ∀ C, amount C w = amount C u + amount C v := fun C => hi.count _
    refine ⟨?_, ?_, ?_⟩
    · rintro C (hC | hC)
      · rw [cnt, i1 C hC, amount_zero.2 (none n3 (fun x hx => fst_acts (fstCut_sub hC hx)) h2)]
      · rw [cnt, j1 C hC, amount_zero.2 (none' n3 (fun x hx => fst_acts (fstCut_sub hC hx)) h1)]
    · rintro C (hC | hC)
      · rw [cnt, i2 C hC, amount_zero.2 (none n3 (fun x hx => lst_acts (lstCut_sub hC hx)) h2)]
      · rw [cnt, j2 C hC, amount_zero.2 (none' n3 (fun x hx => lst_acts (lstCut_sub hC hx)) h1)]
    · rintro A B (hb | hb)
      · have ip := between_pair n1 hb
        exact Line.interleave hi (fun e he => ⟨none n3 ip.subRight h2 e he, none n3 ip.subLeft h2 e he⟩) (i3 A B hb)
      · have ip := between_pair n2 hb
        exact Line.interleave hi.symm (fun e he => ⟨none' n3 ip.subRight h1 e he, none' n3 ip.subLeft h1 e he⟩) (j3 A B hb)

theorem amount_filter {C : Str → Prop} {f : Str → Bool} (es : List Str) (h : ∀ e ∈ es, C e → f e = true) : amount C (es.filter f) = amount C es := by
  induction es with
  | nil => rfl
  | cons e es ih =>
    have ih := ih fun x hx => h x (List.mem_cons_of_mem _ hx)
    by_cases hf : f e = true
    · rw [List.filter_cons_of_pos hf, amount_cons, amount_cons, ih]
    · rw [List.filter_cons_of_neg hf, amount_cons, ih, tokenIf_neg fun hc => hf (h e (by simp) hc), Nat.zero_add]

theorem interleaves_filter {f g : Str → Bool} : ∀ {es : List Str}, (∀ e ∈ es, g e = !f e) → Interleaves (es.filter f) (es.filter g) es
  | [], _ => .nil
  | e :: es, h => by
    have ih := interleaves_filter (es := es) fun x hx => h x (List.mem_cons_of_mem _ hx)
    have he := h e (by simp)
    by_cases hf : f e = true
    · rw [List.filter_cons_of_pos hf, List.filter_cons_of_neg (by rw [he, hf]; decide)]
      exact .left e ih
    · rw [List.filter_cons_of_neg hf, List.filter_cons_of_pos (by rw [he]; simpa using hf)]
      exact .right e ih

theorem Proc.fstCut_exists (p : Proc) : ∃ C, p.FstCut C := by
  obtain ⟨C, h, _⟩ := p.fstCut_cover (fun _ => False) (fun _ h => h.elim) (fun _ _ h => h.elim)
  exact ⟨C, h⟩

theorem Proc.lstCut_exists (p : Proc) : ∃ C, p.LstCut C := by
  obtain ⟨C, h, _⟩ := p.lstCut_cover (fun _ => False) (fun _ h => h.elim) (fun _ _ h => h.elim)
  exact ⟨C, h⟩

theorem Proc.fst_in_cut {p : Proc} (hn : p.acts.Nodup) {a : Str} (h : p.fst a) : ∃ C, p.FstCut C ∧ C a := by
  obtain ⟨C, hC, hs⟩ := p.fstCut_cover (· = a) (by rintro _ rfl; exact h) (by rintro _ _ rfl rfl; exact conc_irrefl hn)
  exact ⟨C, hC, hs a rfl⟩

theorem Proc.lst_in_cut {p : Proc} (hn : p.acts.Nodup) {a : Str} (h : p.lst a) : ∃ C, p.LstCut C ∧ C a := by
  obtain ⟨C, hC, hs⟩ := p.lstCut_cover (· = a) (by rintro _ rfl; exact h) (by rintro _ _ rfl rfl; exact conc_irrefl hn)
  exact ⟨C, hC, hs a rfl⟩

/-- The part of a sequence that belongs to a process. -/
def Proc.part (p : Proc) (es : List Str) : List Str := es.filter (fun e => decide (e ∈ p.acts))

theorem Proc.part_sub {p : Proc} {es : List Str} : ∀ e ∈ p.part es, e ∈ p.acts := by
  intro e he
  simpa using (List.mem_filter.1 he).2

theorem Proc.part_amount {p : Proc} {C : Str → Prop} (h : ∀ x, C x → x ∈ p.acts) (es : List Str) : amount C (p.part es) = amount C es :=
  amount_filter es fun e _ hc => by simpa using h e hc

theorem Proc.part_line {p : Proc} {A B : Str → Prop} (hn : p.acts.Nodup) (hb : p.Between A B) {es : List Str} (h : Line B A 0 es 0) :
    Line B A 0 (p.part es) 0 :=
  (Line.filter fun e _ he => by
    have ip := between_pair hn hb
    simpa using he.elim (ip.subRight e) (ip.subLeft e)).1 h

theorem Proc.part_all {p : Proc} {es : List Str} (h : ∀ e ∈ es, e ∈ p.acts) : p.part es = es :=
  List.filter_eq_self.2 fun e he => by simpa using h e he

theorem Proc.part_none {p q : Proc} {es : List Str} (hs : ∀ e ∈ es, e ∈ p.acts ∨ e ∈ q.acts) (h : q.part es = []) : p.part es = es := by
  refine part_all fun e he => (hs e he).resolve_right fun hq => ?_
  have : e ∈ q.part es := List.mem_filter.2 ⟨he, by simpa using hq⟩
  rw [h] at this
  cases this

/-- The first of the elements that satisfy a condition. -/
theorem first_split (f : Str → Prop) : ∀ (es : List Str), (∃ e ∈ es, f e) → ∃ x e y, es = x ++ e :: y ∧ f e ∧ ∀ z ∈ x, ¬ f z
  | [], h => by obtain ⟨e, he, _⟩ := h; cases he
  | a :: es, h => by
    by_cases ha : f a
    · exact ⟨[], a, es, rfl, ha, by simp⟩
    · obtain ⟨e, he, hf⟩ := h
      rcases List.mem_cons.1 he with rfl | he
      · exact (ha hf).elim
      · obtain ⟨x, e', y, rfl, h1, h2⟩ := first_split f es ⟨e, he, hf⟩
        refine ⟨a :: x, e', y, rfl, h1, ?_⟩
        intro z hz
        rcases List.mem_cons.1 hz with rfl | hz
        · exact ha
        · exact h2 z hz

/-- Activities for which the tokens work out, and of which exactly one is in each first cut, are a run; if none is, nothing happens. -/
theorem Proc.precise : ∀ {p : Proc}, p.acts.Nodup → ∀ {es : List Str}, (∀ e ∈ es, e ∈ p.acts) → (∀ A B, p.Between A B → Line B A 0 es 0) →
    ((∀ C, p.FstCut C → amount C es = 1) → p.Does es) ∧ ((∀ C, p.FstCut C → amount C es = 0) → es = [])
  | .act a, _, es, hs, _ => by
    have hs : ∀ e ∈ es, e = a := fun e he => by simpa [Proc.acts] using hs e he
    have hl : amount (· = a) es = es.length := by
      rw [amount, List.countP_eq_length]
      intro e he
      simpa using hs e he
    refine ⟨fun h => ?_, fun h => ?_⟩
    · have := h _ rfl
      rw [hl] at this
      obtain ⟨x, rfl⟩ := List.length_eq_one_iff.1 this
      rw [hs x (by simp)]
      exact .act a
    · have := h _ rfl
      rw [hl] at this
      exact List.length_eq_zero_iff.1 this
  | .seq p q, hn, es, hs, hb => by
    obtain ⟨n1, n2, n3⟩ := nodup_split hn
    have hs : ∀ e ∈ es, e ∈ p.acts ∨ e ∈ q.acts := fun e he => by simpa [Proc.acts] using hs e he
    have ip := precise n1 (es := p.part es) part_sub fun A B h => part_line n1 h (hb A B (.inl h))
    have iq := precise n2 (es := q.part es) part_sub fun A B h => part_line n2 h (hb A B (.inr (.inl h)))
    have fa : ∀ {C}, p.FstCut C → amount C (p.part es) = amount C es := fun h => part_amount (fun x hx => fst_acts (fstCut_sub h hx)) es
    have la : ∀ {C}, p.LstCut C → amount C (p.part es) = amount C es := fun h => part_amount (fun x hx => lst_acts (lstCut_sub h hx)) es
    have ga : ∀ {C}, q.FstCut C → amount C (q.part es) = amount C es := fun h => part_amount (fun x hx => fst_acts (fstCut_sub h hx)) es
    have bal : ∀ {A B}, p.LstCut A → q.FstCut B → amount B es = amount A es := fun h1 h2 => by
      have := (hb _ _ (.inr (.inr ⟨h1, h2⟩))).total
      omega
    refine ⟨fun h => ?_, fun h => ?_⟩
    · have du : p.Does (p.part es) := ip.1 fun C hC => by rw [fa hC]; exact h C hC
      have fu := (du.fits n1).2.1
      have dv : q.Does (q.part es) := iq.1 fun B hB => by
        obtain ⟨A, hA⟩ := p.lstCut_exists
        rw [ga hB, bal hA hB, ← la hA]
        exact fu A hA
      have some : ∃ e ∈ es, e ∈ q.acts := by
        rcases hv : q.part es with _ | ⟨e, v⟩
        · rw [hv] at dv
          exact (dv.ne_nil rfl).elim
        · have he : e ∈ q.part es := by rw [hv]; simp
          exact ⟨e, (List.mem_filter.1 he).1, part_sub e he⟩
      obtain ⟨x, e, y, rfl, he, hx⟩ := first_split (· ∈ q.acts) es some
      have hxp : ∀ z ∈ x, z ∈ p.acts := fun z hz => (hs z (by simp [hz])).resolve_right (hx z hz)
      have px : p.part x = x := part_all hxp
      have qx : q.part x = [] := List.filter_eq_nil_iff.2 fun z hz => by simpa using hx z hz
      have ep : ¬ e ∈ p.acts := fun h => n3 e h he
      have pu : p.part (x ++ e :: y) = x ++ p.part y := by
        have : p.part (x ++ e :: y) = p.part x ++ p.part (e :: y) := List.filter_append ..
        rw [this, px]
        congr 1
        exact List.filter_cons_of_neg (by simpa using ep)
      have qv : q.part (x ++ e :: y) = e :: q.part y := by
        have : q.part (x ++ e :: y) = q.part x ++ q.part (e :: y) := List.filter_append ..
        rw [this, qx, List.nil_append]
        exact List.filter_cons_of_pos (p := fun e => decide (e ∈ q.acts)) (by simpa using he)
      have ef : q.fst e := dv.head (by rw [qv]; rfl)
      obtain ⟨B, hB, eB⟩ := fst_in_cut n2 ef
      have rest : p.part y = [] := by
        rcases List.eq_nil_or_concat (p.part y) with hy | ⟨w, l, hy⟩
        · exact hy
        · have ll : p.lst l := du.last (by rw [pu, hy]; simp)
          obtain ⟨A, hA, lA⟩ := lst_in_cut n1 ll
          have k1 := (hb A B (.inr (.inr ⟨hA, hB⟩))).enough eB
          have k2 : amount A (x ++ e :: y) = 1 := by rw [← la hA]; exact fu A hA
          rw [amount_append, amount_cons] at k2
          have k3 : amount A (p.part y) = amount A y := part_amount (fun x hx => lst_acts (lstCut_sub hA hx)) y
          rw [hy, List.concat_eq_append, amount_append, amount_cons, tokenIf_pos lA] at k3
          omega
      rw [pu, rest, List.append_nil] at du
      rw [qv, part_none (p := q) (q := p) (fun z hz => (hs z (by simp [hz])).symm) rest] at dv
      exact .seq du dv
    · have hu := ip.2 fun C hC => by rw [fa hC]; exact h C hC
      have hv := iq.2 fun B hB => by
        obtain ⟨A, hA⟩ := p.lstCut_exists
        rw [ga hB, bal hA hB, ← la hA, hu, amount_nil]
      rw [← part_none hs hv, hu]
  | .alt p q, hn, es, hs, hb => by
    obtain ⟨n1, n2, n3⟩ := nodup_split hn
    have hs : ∀ e ∈ es, e ∈ p.acts ∨ e ∈ q.acts := fun e he => by simpa [Proc.acts] using hs e he
    have ip := precise n1 (es := p.part es) part_sub fun A B h => part_line n1 h (hb A B (.inl h))
    have iq := precise n2 (es := q.part es) part_sub fun A B h => part_line n2 h (hb A B (.inr h))
    have fa : ∀ {C}, p.FstCut C → amount C (p.part es) = amount C es := fun h => part_amount (fun x hx => fst_acts (fstCut_sub h hx)) es
    have ga : ∀ {C}, q.FstCut C → amount C (q.part es) = amount C es := fun h => part_amount (fun x hx => fst_acts (fstCut_sub h hx)) es
    have sum : ∀ {C D}, p.FstCut C → q.FstCut D → amount (fun x => C x ∨ D x) es = amount C es + amount D es := fun h1 h2 =>
      amount_or (fun x hx hy => n3 x (fst_acts (fstCut_sub h1 hx)) (fst_acts (fstCut_sub h2 hy))) es
    obtain ⟨C0, hC0⟩ := p.fstCut_exists
    obtain ⟨D0, hD0⟩ := q.fstCut_exists
    refine ⟨fun h => ?_, fun h => ?_⟩
    · have one : ∀ {C D}, p.FstCut C → q.FstCut D → amount C es + amount D es = 1 := fun h1 h2 => by
        rw [← sum h1 h2]; exact h _ ⟨_, _, h1, h2, rfl⟩
      have k0 := one hC0 hD0
      by_cases hz : amount D0 es = 0
      · have hv := iq.2 fun D hD => by have := one hC0 hD; rw [ga hD]; omega
        have du := ip.1 fun C hC => by have := one hC hD0; rw [fa hC]; omega
        rw [part_none hs hv] at du
        exact .altLeft du
      · have hu := ip.2 fun C hC => by have := one hC hD0; rw [fa hC]; omega
        have dv := iq.1 fun D hD => by have := one hC0 hD; rw [ga hD]; omega
        rw [part_none (p := q) (fun e he => (hs e he).symm) hu] at dv
        exact .altRight dv
    · have zero : ∀ {C D}, p.FstCut C → q.FstCut D → amount C es + amount D es = 0 := fun h1 h2 => by
        rw [← sum h1 h2]; exact h _ ⟨_, _, h1, h2, rfl⟩
      have hu := ip.2 fun C hC => by have := zero hC hD0; rw [fa hC]; omega
      have hv := iq.2 fun D hD => by have := zero hC0 hD; rw [ga hD]; omega
      rw [← part_none hs hv, hu]
  | .par p q, hn, es, hs, hb => by
    obtain ⟨n1, n2, n3⟩ := nodup_split hn
    have hs : ∀ e ∈ es, e ∈ p.acts ∨ e ∈ q.acts := fun e he => by simpa [Proc.acts] using hs e he
    have ip := precise n1 (es := p.part es) part_sub fun A B h => part_line n1 h (hb A B (.inl h))
    have iq := precise n2 (es := q.part es) part_sub fun A B h => part_line n2 h (hb A B (.inr h))
    have fa : ∀ {C}, p.FstCut C → amount C (p.part es) = amount C es := fun h => part_amount (fun x hx => fst_acts (fstCut_sub h hx)) es
    have ga : ∀ {C}, q.FstCut C → amount C (q.part es) = amount C es := fun h => part_amount (fun x hx => fst_acts (fstCut_sub h hx)) es
    refine ⟨fun h => ?_, fun h => ?_⟩
    · refine .par (ip.1 fun C hC => by rw [fa hC]; exact h C (.inl hC)) (iq.1 fun D hD => by rw [ga hD]; exact h D (.inr hD)) ?_
      refine interleaves_filter fun e he => ?_
      rcases hs e he with h1 | h1
      · have h2 : ¬ e ∈ q.acts := n3 e h1
        simp [h1, h2]
      · have h2 : ¬ e ∈ p.acts := fun h => n3 e h h1
        simp [h1, h2]
    · have hu := ip.2 fun C hC => by rw [fa hC]; exact h C (.inl hC)
      have hv := iq.2 fun D hD => by rw [ga hD]; exact h D (.inr hD)
      rw [← part_none hs hv, hu]

/-! ## C161 -/

theorem ShowsProc.starts {log : List (List Str)} {p : Proc} (h : ShowsProc log p) {a : Str} : Starts log a ↔ p.fst a := by
  rw [← Proc.begins_iff]
  constructor
  · rintro ⟨t, ht, hd⟩
    exact ⟨t, h.sound t ht, hd⟩
  · exact h.begins a

theorem ShowsProc.ends {log : List (List Str)} {p : Proc} (h : ShowsProc log p) {a : Str} : Ends log a ↔ p.lst a := by
  rw [← Proc.finishes_iff]
  constructor
  · rintro ⟨t, ht, hd⟩
    exact ⟨t, h.sound t ht, hd⟩
  · exact h.finishes a

theorem Plain.fst_cut {p : Proc} (hp : Plain p) (hn : p.acts.Nodup) {C : Str → Prop} (hC : p.FstCut C) : C = p.fst := by
  obtain ⟨D, hD, hs⟩ := p.fstCut_cover p.fst (fun _ h => h) fun a b ha hb hc =>
    hp.begins a b (Proc.begins_iff.2 ha) (Proc.begins_iff.2 hb) (Proc.next_iff.2 (.inr hc))
  have := Proc.fstCut_anti hn hC hD fun x hx => hs x (Proc.fstCut_sub hC hx)
  exact funext fun x => propext ⟨Proc.fstCut_sub hC, fun hx => this x (hs x hx)⟩

theorem Plain.lst_cut {p : Proc} (hp : Plain p) (hn : p.acts.Nodup) {C : Str → Prop} (hC : p.LstCut C) : C = p.lst := by
  obtain ⟨D, hD, hs⟩ := p.lstCut_cover p.lst (fun _ h => h) fun a b ha hb hc =>
    hp.finishes a b (Proc.finishes_iff.2 ha) (Proc.finishes_iff.2 hb) (Proc.next_iff.2 (.inr hc))
  have := Proc.lstCut_anti hn hC hD fun x hx => hs x (Proc.lstCut_sub hC hx)
  exact funext fun x => propext ⟨Proc.lstCut_sub hC, fun hx => this x (hs x hx)⟩

section
variable {order : List Str → List Str} {orderP : List (List Str × List Str) → List (List Str × List Str)} {log : List (List Str)}
  {net : AlphaNet} {p : Proc}

/-- What the net accepts, place by place. -/
theorem accepts_lines (ho : Enumerates order) (hn : p.acts.Nodup) (hs : ShowsProc log p) (h : alpha order orderP log = .ok net) {t : List Str} :
    Accepts net t ↔ (∀ e ∈ t, e ∈ p.acts) ∧ Line p.fst (fun _ => False) 1 t 0 ∧ Line (fun _ => False) p.lst 0 t 1 ∧
      ∀ A B, p.Between A B → Line B A 0 t 0 := by
  obtain ⟨_, h1, h2, h3, _⟩ := alpha_events h
  have e1 : ∀ e, e ∈ net.events.all ↔ e ∈ p.acts := fun e => by rw [h3, hs.occurs]
  have e2 : (fun e => Takes net e .start) = p.fst := funext fun e => propext (by simp only [Takes, h1, hs.starts])
  have e3 : (fun e => Puts net e .stop) = p.lst := funext fun e => propext (by simp only [Puts, h2, hs.ends])
  have e4 : ∀ A B, (∃ q ∈ net.places, Lists q A B) ↔ p.Between A B := fun A B => by rw [hasPlace_iff ho h, hs.maximalPair hn]
  unfold Accepts
  rw [runs_lines]
  have o1 : oneToken .start .start = 1 := tokenIf_pos rfl
  have o2 : oneToken .stop .stop = 1 := tokenIf_pos rfl
  have o3 : oneToken .start .stop = 0 := tokenIf_neg nofun
  have o4 : oneToken .stop .start = 0 := tokenIf_neg nofun
  have o5 : ∀ A B, oneToken .start (.between A B) = 0 := fun A B => tokenIf_neg nofun
  have o6 : ∀ A B, oneToken .stop (.between A B) = 0 := fun A B => tokenIf_neg nofun
  constructor
  · rintro ⟨k1, k2⟩
    refine ⟨fun e he => (e1 e).1 (k1 e he), ?_, ?_, ?_⟩
    · have := k2 .start
      rw [o1, o4, e2] at this
      exact this
    · have := k2 .stop
      rw [o2, o3, e3] at this
      exact this
    · intro A B hb
      have := k2 (.between A B)
      rw [o5, o6] at this
      have eb := (e4 A B).2 hb
      have b1 : (fun e => Takes net e (.between A B)) = B := funext fun e => propext ⟨fun h => h.2, fun h => ⟨eb, h⟩⟩
      have b2 : (fun e => Puts net e (.between A B)) = A := funext fun e => propext ⟨fun h => h.2, fun h => ⟨eb, h⟩⟩
      rw [b1, b2] at this
      exact this
  · rintro ⟨k1, k2, k3, k4⟩
    refine ⟨fun e he => (e1 e).2 (k1 e he), ?_⟩
    intro n
    cases n with
    | start => rw [o1, o4, e2]; exact k2
    | stop => rw [o2, o3, e3]; exact k3
    | between A B =>
      rw [o5, o6]
      by_cases hb : p.Between A B
      · have eb := (e4 A B).2 hb
        have b1 : (fun e => Takes net e (.between A B)) = B := funext fun e => propext ⟨fun h => h.2, fun h => ⟨eb, h⟩⟩
        have b2 : (fun e => Puts net e (.between A B)) = A := funext fun e => propext ⟨fun h => h.2, fun h => ⟨eb, h⟩⟩
        rw [b1, b2]
        exact k4 A B hb
      · exact .idle fun e _ => ⟨fun h => hb ((e4 A B).1 h.1), fun h => hb ((e4 A B).1 h.1)⟩

/-- C161: the alpha algorithm finds the process. When each activity is in one place of the process, the log shows the process (its
traces are runs, and every first, every last and every pair of neighbouring activities of a run occurs in some trace), and the process
neither begins nor ends with two activities at once, then the net accepts exactly the runs of the process, those which are not in the
log as well. -/
theorem c161_exact (ho : Enumerates order) (hn : p.acts.Nodup) (hs : ShowsProc log p) (hp : Plain p)
    (h : alpha order orderP log = .ok net) (t : List Str) : Accepts net t ↔ p.Does t := by
  rw [accepts_lines ho hn hs h]
  constructor
  · rintro ⟨k1, k2, _, k4⟩
    refine (Proc.precise hn k1 k4).1 fun C hC => ?_
    rw [hp.fst_cut hn hC]
    have := k2.total
    rw [amount_zero.2 fun _ _ h => h] at this
    omega
  · intro hd
    obtain ⟨f1, f2, f3⟩ := hd.fits hn
    refine ⟨hd.sub, ?_, ?_, f3⟩
    · obtain ⟨C, hC⟩ := p.fstCut_exists
      have k := f1 C hC
      rw [hp.fst_cut hn hC] at k
      have := Line.takes (T := p.fst) (U := fun _ => False) (k := 1) (es := t) (fun _ _ h => h) (by omega)
      rwa [k] at this
    · obtain ⟨C, hC⟩ := p.lstCut_exists
      have k := f2 C hC
      rw [hp.lst_cut hn hC] at k
      have := Line.puts (T := fun _ => False) (U := p.lst) (k := 0) (es := t) (fun _ _ h => h)
      rwa [k] at this

/-- C161: for such a log the algorithm never raises. -/
theorem c161_finds (hs : ShowsProc log p) : ∃ net, alpha order orderP log = .ok net := by
  obtain ⟨_, k⟩ := c94_events order orderP log
  obtain ⟨n, hn, _⟩ := k fun he => (hs.sound _ he).ne_nil rfl
  exact ⟨n, hn⟩

/-- C161: the condition on the beginning and the end is needed: the net accepts all the traces of the log only if the process neither
begins nor ends with two activities at once, because the start place has one token only, and the end place gets one only. -/
theorem c161_plain (ho : Enumerates order) (hn : p.acts.Nodup) (hs : ShowsProc log p) (h : alpha order orderP log = .ok net) :
    (∀ t ∈ log, Accepts net t) ↔ Plain p := by
  constructor
  · intro ha
    constructor
    · intro a b h1 h2 h3
      obtain ⟨t, ht, u, v, rfl⟩ := hs.next a b h3
      have k := ((accepts_lines ho hn hs h).1 (ha _ ht)).2.1.total
      rw [(amount_zero (C := fun _ => False)).2 (fun _ _ h => h), amount_append, amount_cons, amount_cons,
        tokenIf_pos (Proc.begins_iff.1 h1), tokenIf_pos (Proc.begins_iff.1 h2)] at k
      omega
    · intro a b h1 h2 h3
      obtain ⟨t, ht, u, v, rfl⟩ := hs.next a b h3
      have k := ((accepts_lines ho hn hs h).1 (ha _ ht)).2.2.1.total
      rw [(amount_zero (C := fun _ => False)).2 (fun _ _ h => h), amount_append, amount_cons, amount_cons,
        tokenIf_pos (Proc.finishes_iff.1 h1), tokenIf_pos (Proc.finishes_iff.1 h2)] at k
      omega
  · intro hp t ht
    exact (c161_exact ho hn hs hp h t).2 (hs.sound t ht)

/-- C161: logs that show the same process give nets which accept the same sequences, whatever their traces. -/
theorem c161_same {order' : List Str → List Str} {orderP' : List (List Str × List Str) → List (List Str × List Str)}
    {log' : List (List Str)} {net' : AlphaNet} (ho : Enumerates order) (ho' : Enumerates order') (hn : p.acts.Nodup) (hs : ShowsProc log p)
    (hs' : ShowsProc log' p) (h : alpha order orderP log = .ok net) (h' : alpha order' orderP' log' = .ok net') : SameNet net net' := by
  obtain ⟨_, h1, h2, h3, _⟩ := alpha_events h
  obtain ⟨_, k1, k2, k3, _⟩ := alpha_events h'
  refine ⟨fun a => ?_, fun a => ?_, fun a => ?_, fun A B => ?_⟩
  · rw [h1, k1, hs.starts, hs'.starts]
  · rw [h2, k2, hs.ends, hs'.ends]
  · rw [h3, k3, hs.occurs, hs'.occurs]
  · rw [hasPlace_iff ho h, hasPlace_iff ho' h', hs.maximalPair hn, hs'.maximalPair hn]

end

/-- C161: a log with all the runs shows the process. -/
theorem c161_all_runs {log : List (List Str)} {p : Proc} (h : ∀ t, t ∈ log ↔ p.Does t) : ShowsProc log p :=
  ⟨fun t => (h t).1, fun _ ⟨t, ht, k⟩ => ⟨t, (h t).2 ht, k⟩, fun _ ⟨t, ht, k⟩ => ⟨t, (h t).2 ht, k⟩,
    fun _ _ ⟨t, ht, k⟩ => ⟨t, (h t).2 ht, k⟩⟩

/-! ## Examples -/

/-- First `a`, then `b c` and `d e` at the same time, or `g` alone, and then `f`. -/
def exProc : Proc := .seq (.act py!"a") (.seq (.alt (.par (.seq (.act py!"b") (.act py!"c")) (.seq (.act py!"d") (.act py!"e")))
  (.act py!"g")) (.act py!"f"))

/-- Five of its seven runs: `a b d e c f` and `a d b c e f` are missing. -/
def exProcLog : List (List Str) :=
  [[py!"a", py!"b", py!"c", py!"d", py!"e", py!"f"], [py!"a", py!"d", py!"e", py!"b", py!"c", py!"f"],
    [py!"a", py!"b", py!"d", py!"c", py!"e", py!"f"], [py!"a", py!"d", py!"b", py!"e", py!"c", py!"f"], [py!"a", py!"g", py!"f"]]

theorem exProc_par {t : List Str} (h : Interleaves [py!"b", py!"c"] [py!"d", py!"e"] t) : exProc.Does (py!"a" :: t ++ [py!"f"]) :=
  .seq (u := [py!"a"]) (.act _) (.seq (.altLeft (.par (.seq (.act _) (.act _)) (.seq (.act _) (.act _)) h)) (.act _))

theorem zip_tail_split {a b : Str} : ∀ {t : List Str}, (a, b) ∈ t.zip t.tail → ∃ u v, t = u ++ a :: b :: v
  | [], h => by simp at h
  | [_], h => by simp at h
  | x :: y :: t, h => by
    simp only [List.tail_cons, List.zip_cons_cons, List.mem_cons, Prod.mk.injEq] at h
    rcases h with ⟨rfl, rfl⟩ | h
    · exact ⟨[], t, rfl⟩
    · obtain ⟨u, v, e⟩ := zip_tail_split (t := y :: t) h
      exact ⟨x :: u, v, by rw [e]; rfl⟩

theorem follows_zip {log : List (List Str)} {a b : Str} (h : ∃ t ∈ log, (a, b) ∈ t.zip t.tail) : Follows log a b := by
  obtain ⟨t, ht, h⟩ := h
  exact ⟨t, ht, zip_tail_split h⟩

theorem exProc_shows : ShowsProc exProcLog exProc := by
  refine ⟨?_, ?_, ?_, ?_⟩
  · intro t ht
    simp only [exProcLog, List.mem_cons, List.not_mem_nil, or_false] at ht
    rcases ht with rfl | rfl | rfl | rfl | rfl
    · exact exProc_par (.left _ (.left _ (.right _ (.right _ .nil))))
    · exact exProc_par (.right _ (.right _ (.left _ (.left _ .nil))))
    · exact exProc_par (.left _ (.right _ (.left _ (.right _ .nil))))
    · exact exProc_par (.right _ (.left _ (.right _ (.left _ .nil))))
    · exact .seq (u := [_]) (.act _) (.seq (u := [_]) (.altRight (.act _)) (.act _))
  · intro a ha
    have := Proc.begins_iff.1 ha
    simp only [exProc, Proc.fst] at this
    subst this
    exact ⟨_, List.mem_cons_self .., rfl⟩
  · intro a ha
    have := Proc.finishes_iff.1 ha
    simp only [exProc, Proc.lst] at this
    subst this
    exact ⟨_, List.mem_cons_self .., rfl⟩
  · intro a b hab
    have := Proc.next_iff.1 hab
    simp only [exProc, Proc.link, Proc.conc, Proc.fst, Proc.lst, Proc.acts, List.cons_append, List.nil_append, List.mem_cons,
      List.not_mem_nil, or_false, false_or] at this
    apply follows_zip
    rcases this with (((⟨rfl, rfl⟩ | ⟨rfl, rfl⟩) | ⟨(rfl | rfl) | rfl, rfl⟩) | ⟨rfl, (rfl | rfl) | rfl⟩) |
      ⟨rfl | rfl, rfl | rfl⟩ | ⟨rfl | rfl, rfl | rfl⟩ <;> decide +kernel

theorem exProc_nodup : exProc.acts.Nodup := by decide +kernel

theorem exProc_plain : Plain exProc := by
  constructor
  · intro a b ha hb hab
    have h1 := Proc.begins_iff.1 ha
    have h2 := Proc.begins_iff.1 hb
    simp only [exProc, Proc.fst] at h1 h2
    subst h1 h2
    have := Proc.next_iff.1 hab
    simp [exProc, Proc.link, Proc.conc, Proc.fst, Proc.lst, Proc.acts] at this
  · intro a b ha hb hab
    have h1 := Proc.finishes_iff.1 ha
    have h2 := Proc.finishes_iff.1 hb
    simp only [exProc, Proc.lst] at h1 h2
    subst h1 h2
    have := Proc.next_iff.1 hab
    simp [exProc, Proc.link, Proc.conc, Proc.fst, Proc.lst, Proc.acts] at this

/-- The algorithm finds the process from five traces, and the net accepts the two runs that it has not seen ... -/
example : ∃ net, alpha id id exProcLog = .ok net ∧ [py!"a", py!"b", py!"d", py!"e", py!"c", py!"f"] ∉ exProcLog ∧
    Accepts net [py!"a", py!"b", py!"d", py!"e", py!"c", py!"f"] := by
  obtain ⟨net, h⟩ := c161_finds (order := id) (orderP := id) exProc_shows
  exact ⟨net, h, by decide +kernel, (c161_exact (fun _ => .refl _) exProc_nodup exProc_shows exProc_plain h _).2
    (exProc_par (.left _ (.right _ (.right _ (.left _ .nil)))))⟩

/-- ... and no sequence of which the process is not capable. -/
example {net : AlphaNet} (h : alpha id id exProcLog = .ok net) : ¬ Accepts net [py!"a", py!"b", py!"c", py!"f"] := by
  intro ha
  have := ((c161_exact (fun _ => .refl _) exProc_nodup exProc_shows exProc_plain h _).1 ha).fits exProc_nodup
  have := (this.2.2 (fun x => x = py!"e" ∨ x = py!"g") (· = py!"f")
    (.inr (.inl (.inr (.inr ⟨⟨_, _, .inr rfl, rfl, rfl⟩, rfl⟩))))).total
  simp [amount_cons, amount_nil, tokenIf] at this

/-- Two activities at the same time, and nothing else. -/
def exBoth : Proc := .par (.act py!"a") (.act py!"b")

theorem exBoth_shows : ShowsProc [[py!"a", py!"b"], [py!"b", py!"a"]] exBoth := by
  refine c161_all_runs fun t => ⟨fun ht => ?_, fun ht => ?_⟩
  · simp only [List.mem_cons, List.not_mem_nil, or_false] at ht
    rcases ht with rfl | rfl
    · exact .par (.act _) (.act _) (.left _ (.right _ .nil))
    · exact .par (.act _) (.act _) (.right _ (.left _ .nil))
  · cases ht with
    | par h1 h2 hi =>
      cases h1
      cases h2
      cases hi with
      | left _ hi => cases hi with | right _ hi => cases hi; simp
      | right _ hi => cases hi with | left _ hi => cases hi; simp

/-- C161: a process that begins with two activities at once is not found: the net does not accept the traces of the log. -/
theorem c161_plain_refuted : ∃ (log : List (List Str)) (p : Proc) (net : AlphaNet), p.acts.Nodup ∧ ShowsProc log p ∧
    alpha id id log = .ok net ∧ ∃ t ∈ log, ¬ Accepts net t := by
  obtain ⟨net, h⟩ := c161_finds (order := id) (orderP := id) exBoth_shows
  refine ⟨_, _, net, by decide +kernel, exBoth_shows, h, ?_⟩
  refine Classical.byContradiction fun hc => ?_
  have hp := (c161_plain (fun _ => .refl _) (by decide +kernel) exBoth_shows h).1
    fun t ht => Classical.byContradiction fun hn => hc ⟨t, ht, hn⟩
  exact hp.begins py!"a" py!"b" (Proc.begins_iff.2 (.inl rfl)) (Proc.begins_iff.2 (.inr rfl))
    (Proc.next_iff.2 (.inr (.inr (.inr (.inl ⟨by simp [Proc.acts], by simp [Proc.acts]⟩)))))

end Opy
