import Verif.Py.Sort
/- Laws of `sorted`. -/
namespace Opy

variable {α : Type}

theorem insertSorted_perm (lt : α → α → Bool) (x : α) (l : List α) : (insertSorted lt x l).Perm (x :: l) := by
  induction l with
  | nil => exact List.Perm.refl _
  | cons y ys ih =>
    simp only [insertSorted]
    split
    · exact (ih.cons y).trans (List.Perm.swap _ _ _)
    · exact List.Perm.refl _

theorem pySorted_perm (lt : α → α → Bool) (l : List α) : (pySorted lt l).Perm l := by
  induction l with
  | nil => exact List.Perm.refl _
  | cons x xs ih => exact (insertSorted_perm lt x _).trans (ih.cons x)

/-- For a strict weak order the result is sorted: no element is smaller than an earlier one. -/
theorem pySorted_sorted {lt : α → α → Bool} (asymm : ∀ a b, lt a b = true → lt b a = false)
    (trans : ∀ a b c, lt a b = false → lt b c = false → lt a c = false) (l : List α) :
    (pySorted lt l).Pairwise (fun a b => lt b a = false) := by
  have ins : ∀ (x : α) (l : List α), l.Pairwise (fun a b => lt b a = false) →
      (insertSorted lt x l).Pairwise (fun a b => lt b a = false) := by
    intro x l
    induction l with
    | nil => intro _; simp [insertSorted]
    | cons y ys ih =>
      intro h
      rw [List.pairwise_cons] at h
      simp only [insertSorted]
      split
      · next hlt =>
        rw [List.pairwise_cons]
        refine ⟨?_, ih h.2⟩
        intro z hz
        rcases List.mem_cons.1 ((insertSorted_perm lt x ys).mem_iff.1 hz) with rfl | hz
        · exact asymm _ _ hlt
        · exact h.1 z hz
      · next hlt =>
        rw [List.pairwise_cons, List.pairwise_cons]
        refine ⟨?_, h⟩
        intro z hz
        rcases List.mem_cons.1 hz with rfl | hz
        · simpa using hlt
        · exact trans z y x (h.1 z hz) (by simpa using hlt)
  induction l with
  | nil => simp [pySorted]
  | cons x xs ih => exact ins x _ ih

end Opy
