import Verif.Model.Classify
import Verif.Props.Trace
import Verif.Lemmas.Sort
/-
Properties C17-C23 (classifiers and event classes).
-/
set_option linter.unusedSectionVars false

namespace Opy

section
variable {F : Type} [PyFloat F]

/-! ## C17 -/

theorem compareStr_zero {a b : Str} : compareStr a b = 0 ↔ a = b := by
  unfold compareStr
  by_cases h : a = b
  · simp [h]
  · simp only [h, if_false]; split <;> simp

theorem compareStr_neg {a b : Str} : compareStr a b < 0 ↔ strLt a b = true := by
  rcases compareStr_spec a b with ⟨h, h'⟩ | ⟨h, h'⟩ | ⟨h, h'⟩ <;> rw [h]
  · rw [h']; simp [strLt_irrefl]
  · simp [h']
  · simp [strLt_asymm h']

theorem compareStr_antisymm (a b : Str) : compareStr a b = - compareStr b a := by
  rcases compareStr_spec a b with ⟨h, h'⟩ | ⟨h, h'⟩ | ⟨h, h'⟩
  · subst h'; simp [compareStr]
  · have : a ≠ b := strLt_ne h'
    rw [h]; simp [compareStr, Ne.symm this, h']
  · have : b ≠ a := strLt_ne h'
    rw [h]; simp [compareStr, this, strLt_asymm h']

theorem compareStr_trans {a b c : Str} (h1 : compareStr a b ≤ 0) (h2 : compareStr b c ≤ 0) : compareStr a c ≤ 0 := by
  have le : ∀ a b : Str, compareStr a b ≤ 0 ↔ strLt a b = true ∨ a = b := by
    intro a b
    rw [← compareStr_neg, ← compareStr_zero]; omega
  rw [le] at *
  rcases h1 with h1 | rfl
  · rcases h2 with h2 | rfl
    · exact Or.inl (strLt_trans h1 h2)
    · exact Or.inl h1
  · exact h2

theorem compareKeys_zero : ∀ {a b : List Str}, a.length = b.length → (compareKeys a b = 0 ↔ a = b) := by
  intro a
  induction a with
  | nil => intro b h; cases b <;> simp_all [compareKeys]
  | cons x xs ih =>
    intro b h
    cases b with
    | nil => simp at h
    | cons y ys =>
      simp only [compareKeys]
      split
      · next e => subst e; rw [ih (by simpa using h)]; simp
      · next e => simp [compareStr_zero, e]

theorem compareKeys_antisymm : ∀ (a b : List Str), compareKeys a b = - compareKeys b a := by
  intro a
  induction a with
  | nil => intro b; cases b <;> simp [compareKeys]
  | cons x xs ih =>
    intro b
    cases b with
    | nil => simp [compareKeys]
    | cons y ys =>
      simp only [compareKeys]
      by_cases e : x = y
      · subst e; simp [ih ys]
      · simp only [e, Ne.symm e, if_false]; exact compareStr_antisymm x y

theorem compareKeys_trans : ∀ {a b c : List Str}, a.length = b.length → b.length = c.length →
    compareKeys a b ≤ 0 → compareKeys b c ≤ 0 → compareKeys a c ≤ 0 := by
  intro a
  induction a with
  | nil => intro b c _ _ _ _; cases c <;> simp [compareKeys]
  | cons x xs ih =>
    intro b c h1 h2 h3 h4
    cases b with
    | nil => simp at h1
    | cons y ys =>
      cases c with
      | nil => simp at h2
      | cons z zs =>
        simp only [compareKeys] at *
        by_cases e1 : x = y
        · subst e1
          simp only [if_true] at h3
          by_cases e2 : x = z
          · subst e2
            simp only [if_true] at *
            exact ih (by simpa using h1) (by simpa using h2) h3 h4
          · simpa [e2] using h4
        · simp only [e1, if_false] at h3
          by_cases e2 : y = z
          · subst e2
            simp only [e1, if_false]; exact h3
          · simp only [e2, if_false] at h4
            have := compareStr_trans h3 h4
            split
            · next e => subst e
                        have e3 := compareStr_antisymm x y
                        have : compareStr x y = 0 := by omega
                        exact absurd (compareStr_zero.1 this) e1
            · exact this

/-- C17: comparison gives 0, and equality holds, exactly for the same name and the same keys. -/
theorem c17_zero_iff (a b : Classifier) :
    (classifierCompare a b = 0 ↔ a.name = b.name ∧ a.keys = b.keys) ∧
    (classifierEq a b = true ↔ a.name = b.name ∧ a.keys = b.keys) := by
  have main : classifierCompare a b = 0 ↔ a.name = b.name ∧ a.keys = b.keys := by
    unfold classifierCompare
    by_cases h : a.name = b.name
    · simp only [h, ne_eq, not_true, if_false, true_and]
      split
      · next hl =>
        constructor
        · intro e; omega
        · intro e; exact absurd (by rw [e]) hl
      · next hl => exact compareKeys_zero (by simpa using hl)
    · simp [h, compareStr_zero]
  exact ⟨main, by unfold classifierEq; rw [beq_iff_eq, main]⟩

/-- C17: equality is an equivalence relation. -/
theorem c17_equivalence : (∀ a, classifierEq a a = true) ∧
    (∀ a b, classifierEq a b = true → classifierEq b a = true) ∧
    (∀ a b c, classifierEq a b = true → classifierEq b c = true → classifierEq a c = true) := by
  refine ⟨?_, ?_, ?_⟩
  · intro a; rw [(c17_zero_iff a a).2]; exact ⟨rfl, rfl⟩
  · intro a b h
    rw [(c17_zero_iff _ _).2] at *
    exact ⟨h.1.symm, h.2.symm⟩
  · intro a b c h h'
    rw [(c17_zero_iff _ _).2] at *
    exact ⟨h.1.trans h'.1, h.2.trans h'.2⟩

/-- C17: antisymmetry. -/
theorem c17_antisymm (a b : Classifier) : classifierCompare a b = - classifierCompare b a := by
  unfold classifierCompare
  by_cases h : a.name = b.name
  · simp only [h, ne_eq, not_true, if_false]
    by_cases hl : a.keys.length = b.keys.length
    · simp only [hl, not_true, if_false]; exact compareKeys_antisymm _ _
    · simp only [hl, Ne.symm hl, not_false_eq_true, if_true]; omega
  · simp only [h, Ne.symm h, ne_eq, not_false_eq_true, if_true]; exact compareStr_antisymm _ _

/-- C17: transitivity. -/
theorem c17_trans {a b c : Classifier} (h1 : classifierCompare a b ≤ 0) (h2 : classifierCompare b c ≤ 0) :
    classifierCompare a c ≤ 0 := by
  unfold classifierCompare at *
  by_cases e1 : a.name = b.name
  · by_cases e2 : b.name = c.name
    · simp only [e1, e2, ne_eq, not_true, if_false] at *
      by_cases l1 : a.keys.length = b.keys.length
      · by_cases l2 : b.keys.length = c.keys.length
        · simp only [l1, l2, not_true, if_false] at h1 h2 ⊢
          exact compareKeys_trans l1 l2 h1 h2
        · simp only [l1, l2, not_true, not_false_eq_true, if_true, if_false] at *; exact h2
      · simp only [l1, not_false_eq_true, if_true] at h1
        by_cases l2 : b.keys.length = c.keys.length
        · rw [if_pos (by omega)]; omega
        · simp only [l2, not_false_eq_true, if_true] at h2
          rw [if_pos (by omega)]; omega
    · simp only [e1, e2, ne_eq, not_true, not_false_eq_true, if_true, if_false] at *; exact h2
  · simp only [e1, ne_eq, not_false_eq_true, if_true] at h1
    by_cases e2 : b.name = c.name
    · rw [← e2]; simp only [ne_eq, e1, not_false_eq_true, if_true]; exact h1
    · simp only [e2, ne_eq, not_false_eq_true, if_true] at h2
      have := compareStr_trans h1 h2
      by_cases e3 : a.name = c.name
      · have e4 := compareStr_antisymm a.name b.name
        rw [← e3] at h2
        exact absurd (compareStr_zero.1 (by omega)) e1
      · simp only [e3, ne_eq, not_false_eq_true, if_true]; exact this

/-- C17: equal classifiers hash equally, whatever the built-in hashes are. -/
theorem c17_hash (ht : List Str → Int) (hs : Str → Int) {a b : Classifier} (h : classifierEq a b = true) :
    classifierHash ht hs a = classifierHash ht hs b := by
  obtain ⟨h1, h2⟩ := (c17_zero_iff a b).2.1 h
  simp [classifierHash, h1, h2]

/-! ## C18 -/

/-- The text printed for the attribute of the event with that key, `none` if it has none. -/
def textOf (e : Event F) (k : Str) : Option Str :=
  match dget k e.attrs with
  | some a => (attrStr a).toOption
  | none => none

/-- Printing the attributes of the event does not raise. -/
def Printable (e : Event F) : Prop := ∀ k a, dget k e.attrs = some a → ∃ s, attrStr a = .ok s

/-- The events agree on the attributes with these keys: presence and printed value. -/
def Agree (keys : List Str) (a b : Event F) : Prop := ∀ k ∈ keys, textOf a k = textOf b k

/-- All these attributes are there and print without '&'. -/
def PlainOn (keys : List Str) (e : Event F) : Prop := ∀ k ∈ keys, ∃ s, textOf e k = some s ∧ '&' ∉ s

theorem printAttr_text {e : Event F} (h : Printable e) (k : Str) : printAttr e k = .ok (textOf e k) := by
  unfold printAttr textOf
  cases hd : dget k e.attrs with
  | none => rfl
  | some a =>
    obtain ⟨s, hs⟩ := h k a hd
    simp [hs, Except.toOption]

theorem identityParts_text {e : Event F} (h : Printable e) (ks : List Str) :
    identityParts e ks = .ok (ks.filterMap (textOf e)) := by
  induction ks with
  | nil => rfl
  | cons k ks ih =>
    simp only [identityParts, printAttr_text h, ih, bind, Except.bind]
    cases hk : textOf e k <;> simp [hk]

/-- The identity as a function of the printed values only. -/
def identityOf : List (Option Str) → Str
  | [o] => o.getD []
  | [o1, o2] => o1.getD [] ++ py!"&&" ++ o2.getD []
  | os => join py!"&&" (os.filterMap id)

theorem classIdentity_text {e : Event F} (h : Printable e) (c : Classifier) :
    classIdentity c e = .ok (identityOf (c.keys.map (textOf e))) := by
  unfold classIdentity
  split
  · next k hk =>
    simp only [hk, List.map, printAttr_text h, bind, Except.bind, identityOf]
    cases textOf e k <;> rfl
  · next k1 k2 hk =>
    simp only [hk, List.map, printAttr_text h, bind, Except.bind, identityOf]
    cases textOf e k1 <;> cases textOf e k2 <;> simp
  · next h1 h2 =>
    simp only [identityParts_text h, bind, Except.bind]
    have : identityOf (c.keys.map (textOf e)) = join py!"&&" ((c.keys.map (textOf e)).filterMap id) := by
      match hk : c.keys with
      | [] => rfl
      | [k] => exact absurd hk (h1 k)
      | [k1, k2] => exact absurd hk (h2 k1 k2)
      | _ :: _ :: _ :: _ => rfl
    rw [this, List.filterMap_map]
    rfl

/-- C18: events that agree on the defining attributes are in the same class. -/
theorem c18_agree_same {c : Classifier} {a b : Event F} (ha : Printable a) (hb : Printable b)
    (h : Agree c.keys a b) : sameEventClass c a b = .ok true := by
  have : c.keys.map (textOf a) = c.keys.map (textOf b) := List.map_congr_left h
  simp [sameEventClass, classIdentity_text ha, classIdentity_text hb, this, bind, Except.bind]

theorem amp_split : ∀ {a b x y : Str}, '&' ∉ a → '&' ∉ b → a ++ '&' :: x = b ++ '&' :: y → a = b ∧ x = y := by
  intro a
  induction a with
  | nil =>
    intro b x y _ hb h
    cases b with
    | nil => simpa using h
    | cons c cs =>
      simp at h
      rw [← h.1] at hb
      simp at hb
  | cons c cs ih =>
    intro b x y ha hb h
    cases b with
    | nil =>
      simp at h
      rw [h.1] at ha
      simp at ha
    | cons d ds =>
      simp only [List.cons_append, List.cons.injEq] at h
      simp only [List.mem_cons, not_or] at ha hb
      obtain ⟨e1, e2⟩ := ih ha.2 hb.2 h.2
      exact ⟨by rw [h.1, e1], e2⟩

theorem join_inj : ∀ {l m : List Str}, (∀ s ∈ l, '&' ∉ s) → (∀ s ∈ m, '&' ∉ s) → l ≠ [] → m ≠ [] →
    join py!"&&" l = join py!"&&" m → l = m := by
  intro l
  induction l with
  | nil => intro m _ _ h; exact absurd rfl h
  | cons a r ih =>
    intro m hl hm _ hne h
    cases m with
    | nil => exact absurd rfl hne
    | cons b r' =>
      have ha := hl a (by simp)
      have hb := hm b (by simp)
      cases r with
      | nil =>
        cases r' with
        | nil => simp [join] at h; simp [h]
        | cons b' r' =>
          exfalso
          simp only [join] at h
          rw [h] at ha
          simp at ha
      | cons a' r =>
        cases r' with
        | nil =>
          exfalso
          simp only [join] at h
          rw [← h] at hb
          simp at hb
        | cons b' r' =>
          simp only [join, List.append_assoc] at h
          obtain ⟨e1, e2⟩ := amp_split ha hb h
          have e2 : join py!"&&" (a' :: r) = join py!"&&" (b' :: r') := by injection e2
          have := ih (fun s hs => hl s (List.mem_cons_of_mem _ hs)) (fun s hs => hm s (List.mem_cons_of_mem _ hs))
            (by simp) (by simp) e2
          rw [e1, this]

/-- What an identity can tell when no printed value contains '&': for one or two keys a missing
value counts as an empty one; otherwise only the list of the present values is seen, and no value
counts as one empty value. -/
def SeenSame : List (Option Str) → List (Option Str) → Prop
  | [o], [p] => o.getD [] = p.getD []
  | [o1, o2], [p1, p2] => o1.getD [] = p1.getD [] ∧ o2.getD [] = p2.getD []
  | os, ps => os.filterMap id = ps.filterMap id ∨
      (os.filterMap id = [] ∧ ps.filterMap id = [[]]) ∨ (os.filterMap id = [[]] ∧ ps.filterMap id = [])

theorem join_seen {l m : List Str} (hl : ∀ s ∈ l, '&' ∉ s) (hm : ∀ s ∈ m, '&' ∉ s) :
    join py!"&&" l = join py!"&&" m ↔ l = m ∨ (l = [] ∧ m = [[]]) ∨ (l = [[]] ∧ m = []) := by
  constructor
  · intro h
    have nil : ∀ {x : List Str}, (∀ s ∈ x, '&' ∉ s) → join py!"&&" x = [] → x = [] ∨ x = [[]] := by
      intro x hx h
      match x with
      | [] => exact Or.inl rfl
      | [a] => simp [join] at h; exact Or.inr (by rw [h])
      | a :: b :: r => simp [join] at h
    by_cases h1 : l = []
    · subst h1
      rcases nil hm h.symm with h2 | h2
      · exact Or.inl h2.symm
      · exact Or.inr (Or.inl ⟨rfl, h2⟩)
    · by_cases h2 : m = []
      · subst h2
        rcases nil hl h with h2 | h2
        · exact absurd h2 h1
        · exact Or.inr (Or.inr ⟨h2, rfl⟩)
      · exact Or.inl (join_inj hl hm h1 h2 h)
  · rintro (rfl | ⟨rfl, rfl⟩ | ⟨rfl, rfl⟩) <;> rfl

/-- C18, exact description when no printed value of the defining attributes contains '&'. -/
theorem c18_same_iff {c : Classifier} {a b : Event F} (ha : Printable a) (hb : Printable b)
    (pa : ∀ k ∈ c.keys, ∀ s, textOf a k = some s → '&' ∉ s) (pb : ∀ k ∈ c.keys, ∀ s, textOf b k = some s → '&' ∉ s) :
    sameEventClass c a b = .ok true ↔ SeenSame (c.keys.map (textOf a)) (c.keys.map (textOf b)) := by
  have e : sameEventClass c a b = .ok (identityOf (c.keys.map (textOf a)) == identityOf (c.keys.map (textOf b))) := by
    simp [sameEventClass, classIdentity_text ha, classIdentity_text hb, bind, Except.bind]
  rw [e]
  simp only [Except.ok.injEq, beq_iff_eq]
  have gen : join py!"&&" ((c.keys.map (textOf a)).filterMap id) = join py!"&&" ((c.keys.map (textOf b)).filterMap id)
      ↔ ((c.keys.map (textOf a)).filterMap id = (c.keys.map (textOf b)).filterMap id ∨
      ((c.keys.map (textOf a)).filterMap id = [] ∧ (c.keys.map (textOf b)).filterMap id = [[]]) ∨
      ((c.keys.map (textOf a)).filterMap id = [[]] ∧ (c.keys.map (textOf b)).filterMap id = [])) := by
    apply join_seen
    · intro s hs
      simp only [List.filterMap_map, List.mem_filterMap] at hs
      obtain ⟨k, hk, hks⟩ := hs
      exact pa k hk s hks
    · intro s hs
      simp only [List.filterMap_map, List.mem_filterMap] at hs
      obtain ⟨k, hk, hks⟩ := hs
      exact pb k hk s hks
  match hk : c.keys with
  | [] => simp [identityOf, SeenSame]
  | [k] => simp [identityOf, SeenSame]
  | [k1, k2] =>
    simp only [List.map, identityOf, SeenSame]
    have na : '&' ∉ (textOf a k1).getD [] := by
      cases h : textOf a k1 with
      | none => simp
      | some s => exact pa k1 (by simp [hk]) s h
    have nb : '&' ∉ (textOf b k1).getD [] := by
      cases h : textOf b k1 with
      | none => simp
      | some s => exact pb k1 (by simp [hk]) s h
    constructor
    · intro h
      simp only [List.append_assoc] at h
      obtain ⟨h1, h2⟩ := amp_split na nb h
      simp at h2
      exact ⟨h1, h2⟩
    · rintro ⟨h1, h2⟩; rw [h1, h2]
  | k1 :: k2 :: k3 :: r =>
    rw [hk] at gen
    exact gen

/-- C18: the converse holds when all defining attributes are there and print without '&'. -/
theorem c18_same_agree_partial {c : Classifier} {a b : Event F} (ha : Printable a) (hb : Printable b)
    (pa : PlainOn c.keys a) (pb : PlainOn c.keys b) (h : sameEventClass c a b = .ok true) : Agree c.keys a b := by
  have plain : ∀ {e : Event F}, PlainOn c.keys e → ∀ k ∈ c.keys, ∀ s, textOf e k = some s → '&' ∉ s := by
    intro e he k hk s hs
    obtain ⟨s', h1, h2⟩ := he k hk
    rw [hs] at h1; simp at h1; rw [h1]; exact h2
  rw [c18_same_iff ha hb (plain pa) (plain pb)] at h
  have all : ∀ {ks : List Str}, (∀ k ∈ ks, k ∈ c.keys) → ks.filterMap (textOf a) = ks.filterMap (textOf b) →
      ∀ k ∈ ks, textOf a k = textOf b k := by
    intro ks
    induction ks with
    | nil => intro _ _ k hk; simp at hk
    | cons x xs ih =>
      intro hsub heq k hk
      obtain ⟨s, h1, -⟩ := pa x (hsub x (by simp))
      obtain ⟨t, h2, -⟩ := pb x (hsub x (by simp))
      rw [List.filterMap_cons_some h1, List.filterMap_cons_some h2, List.cons.injEq] at heq
      rcases List.mem_cons.1 hk with rfl | hk
      · rw [h1, h2, heq.1]
      · exact ih (fun k hk => hsub k (List.mem_cons_of_mem _ hk)) heq.2 k hk
  have len : ∀ {e : Event F}, PlainOn c.keys e → (c.keys.filterMap (textOf e)).length = c.keys.length := by
    intro e he
    have : ∀ ks : List Str, (∀ k ∈ ks, k ∈ c.keys) → (ks.filterMap (textOf e)).length = ks.length := by
      intro ks
      induction ks with
      | nil => intro _; rfl
      | cons x xs ih =>
        intro hsub
        obtain ⟨s, h1, -⟩ := he x (hsub x (by simp))
        rw [List.filterMap_cons_some h1, List.length_cons, List.length_cons, ih (fun k hk => hsub k (List.mem_cons_of_mem _ hk))]
    exact this _ (fun _ h => h)
  have gen : ((c.keys.map (textOf a)).filterMap id = (c.keys.map (textOf b)).filterMap id ∨
      ((c.keys.map (textOf a)).filterMap id = [] ∧ (c.keys.map (textOf b)).filterMap id = [[]]) ∨
      ((c.keys.map (textOf a)).filterMap id = [[]] ∧ (c.keys.map (textOf b)).filterMap id = [])) → Agree c.keys a b := by
    intro h
    simp only [List.filterMap_map] at h
    have la := len pa
    have lb := len pb
    change c.keys.filterMap (textOf a) = c.keys.filterMap (textOf b) ∨ (c.keys.filterMap (textOf a) = [] ∧ c.keys.filterMap (textOf b) = [[]]) ∨
      (c.keys.filterMap (textOf a) = [[]] ∧ c.keys.filterMap (textOf b) = []) at h
    rcases h with h | ⟨h1, h2⟩ | ⟨h1, h2⟩
    · exact all (fun _ h => h) h
    · rw [h1] at la; rw [h2] at lb; simp at la lb; omega
    · rw [h1] at la; rw [h2] at lb; simp at la lb; omega
  match hk : c.keys with
  | [] => intro k hk'; simp at hk'
  | [k] =>
    rw [hk] at h pa pb
    simp only [List.map, SeenSame] at h
    obtain ⟨s, h1, -⟩ := pa k (by simp)
    obtain ⟨t, h2, -⟩ := pb k (by simp)
    intro k' hk'
    simp at hk'
    subst hk'
    rw [h1, h2] at h ⊢
    simp at h
    rw [h]
  | [k1, k2] =>
    rw [hk] at h pa pb
    simp only [List.map, SeenSame] at h
    obtain ⟨s, h1, -⟩ := pa k1 (by simp)
    obtain ⟨t, h2, -⟩ := pb k1 (by simp)
    obtain ⟨s', h3, -⟩ := pa k2 (by simp)
    obtain ⟨t', h4, -⟩ := pb k2 (by simp)
    intro k' hk'
    simp at hk'
    rw [h1, h2, h3, h4] at h
    simp at h
    rcases hk' with rfl | rfl
    · rw [h1, h2, h.1]
    · rw [h3, h4, h.2]
  | k1 :: k2 :: k3 :: r =>
    rw [hk] at gen h
    exact gen h

/-- An event with literal attributes, for the examples. -/
def litEvent (n : Nat) (kv : List (Str × Str)) : Event F :=
  ⟨⟨n % 2 ^ 128, Nat.mod_lt _ (by decide)⟩, kv.map (fun p => (p.1, .mk .literal p.1 none (.str p.2) [] []))⟩

theorem litEvent_printable (n : Nat) (kv : List (Str × Str)) : Printable (F := F) (litEvent n kv) := by
  intro k a ha
  have := dget_mem ha
  simp only [litEvent, List.mem_map, Prod.mk.injEq] at this
  obtain ⟨p, -, -, h⟩ := this
  exact ⟨p.2, by rw [← h]; simp [attrStr, pyStr]⟩

/-- C18 is false in general: (1) a missing value counts as an empty one; (2) "&&" inside values
shifts the border; (3) with three keys a missing value shifts the others. -/
theorem c18_refuted : ∃ c1 c2 c3 : Classifier, c1.keys.length = 1 ∧ c2.keys.length = 2 ∧ c3.keys.length = 3 ∧
    ∀ c ∈ [c1, c2, c3], ∃ a b : Event F, Printable a ∧ Printable b ∧
      sameEventClass c a b = .ok true ∧ ¬ Agree c.keys a b := by
  refine ⟨⟨py!"c", [py!"x"]⟩, ⟨py!"c", [py!"x", py!"y"]⟩, ⟨py!"c", [py!"x", py!"y", py!"z"]⟩, rfl, rfl, rfl, ?_⟩
  intro c hc
  simp only [List.mem_cons, List.not_mem_nil, or_false] at hc
  rcases hc with rfl | rfl | rfl
  · refine ⟨litEvent 1 [], litEvent 2 [(py!"x", [])], litEvent_printable _ _, litEvent_printable _ _, rfl, ?_⟩
    intro h
    have := h py!"x" (by simp)
    simp [textOf, litEvent, dget, attrStr, pyStr, Except.toOption] at this
  · refine ⟨litEvent 1 [(py!"x", py!"p&&q"), (py!"y", py!"r")], litEvent 2 [(py!"x", py!"p"), (py!"y", py!"q&&r")],
      litEvent_printable _ _, litEvent_printable _ _, rfl, ?_⟩
    intro h
    have := h py!"x" (by simp)
    simp [textOf, litEvent, dget, attrStr, pyStr, Except.toOption] at this
  · refine ⟨litEvent 1 [(py!"x", py!"p"), (py!"z", py!"q")], litEvent 2 [(py!"x", py!"p"), (py!"y", py!"q")],
      litEvent_printable _ _, litEvent_printable _ _, rfl, ?_⟩
    intro h
    have := h py!"y" (by simp)
    simp [textOf, litEvent, dget, attrStr, pyStr, Except.toOption] at this

end

end Opy
