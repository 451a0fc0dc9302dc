import Verif.Py.Str
/- The code point order on strings is a strict total order. -/
namespace Opy

theorem char_eq_of_toNat {a b : Char} (h : a.toNat = b.toNat) : a = b := by
  apply Char.ext
  exact UInt32.toNat_inj.1 h

theorem strLt_irrefl (a : Str) : strLt a a = false := by
  induction a with
  | nil => rfl
  | cons x xs ih => simp [strLt, ih]

theorem strLt_trans {a b c : Str} (h1 : strLt a b = true) (h2 : strLt b c = true) : strLt a c = true := by
  induction a generalizing b c with
  | nil =>
    cases b with
    | nil => simp [strLt] at h1
    | cons y ys =>
      cases c with
      | nil => simp [strLt] at h2
      | cons z zs => rfl
  | cons x xs ih =>
    cases b with
    | nil => simp [strLt] at h1
    | cons y ys =>
      cases c with
      | nil => simp [strLt] at h2
      | cons z zs =>
        simp only [strLt] at *
        by_cases hxy : x.toNat < y.toNat
        · by_cases hyz : y.toNat < z.toNat
          · rw [if_pos (by omega)]
          · rw [if_neg hyz] at h2
            by_cases hzy : z.toNat < y.toNat
            · rw [if_pos hzy] at h2; exact absurd h2 (by simp)
            · rw [if_pos (by omega)]
        · rw [if_neg hxy] at h1
          by_cases hyx : y.toNat < x.toNat
          · rw [if_pos hyx] at h1; exact absurd h1 (by simp)
          · rw [if_neg hyx] at h1
            by_cases hyz : y.toNat < z.toNat
            · rw [if_pos (by omega)]
            · rw [if_neg hyz] at h2
              by_cases hzy : z.toNat < y.toNat
              · rw [if_pos hzy] at h2; exact absurd h2 (by simp)
              · rw [if_neg hzy] at h2
                rw [if_neg (by omega), if_neg (by omega)]
                exact ih h1 h2

theorem strLt_trichotomy (a b : Str) : strLt a b = true ∨ a = b ∨ strLt b a = true := by
  induction a generalizing b with
  | nil =>
    cases b with
    | nil => simp
    | cons y ys => simp [strLt]
  | cons x xs ih =>
    cases b with
    | nil => simp [strLt]
    | cons y ys =>
      simp only [strLt]
      by_cases hxy : x.toNat < y.toNat
      · simp [hxy]
      · by_cases hyx : y.toNat < x.toNat
        · simp [hyx]
        · have : x = y := char_eq_of_toNat (by omega)
          subst this
          rcases ih ys with h | h | h
          · simp [h]
          · simp [h]
          · simp [h]

theorem strLt_asymm {a b : Str} (h : strLt a b = true) : strLt b a = false := by
  cases h' : strLt b a
  · rfl
  · have := strLt_trans h h'
    rw [strLt_irrefl] at this
    exact absurd this (by simp)

theorem strLt_ne {a b : Str} (h : strLt a b = true) : a ≠ b := by
  intro e; subst e; rw [strLt_irrefl] at h; exact absurd h (by simp)

theorem strLt_append_left (p x y : Str) : strLt (p ++ x) (p ++ y) = strLt x y := by
  induction p with
  | nil => rfl
  | cons c cs ih => simp [strLt, ih]

/-- Inserting the same character at the same position does not change the order. -/
theorem strLt_insert {a a' b b' : Str} (c : Char) (h : a.length = a'.length) :
    strLt (a ++ c :: b) (a' ++ c :: b') = strLt (a ++ b) (a' ++ b') := by
  induction a generalizing a' with
  | nil =>
    have : a' = [] := by simpa using h.symm
    subst this
    simp [strLt]
  | cons x xs ih =>
    cases a' with
    | nil => simp at h
    | cons y ys =>
      simp only [List.cons_append, strLt]
      rw [ih (by simpa using h)]

end Opy
