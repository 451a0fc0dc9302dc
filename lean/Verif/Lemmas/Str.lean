import Verif.Py.Str
/- Lemmas about the Python string built-ins. -/
namespace Opy

theorem splitChar_ne_nil (c : Char) (s : Str) : splitChar c s ≠ [] := by
  induction s with
  | nil => simp [splitChar]
  | cons x xs ih =>
    simp only [splitChar]
    split
    · simp
    · split <;> simp

theorem splitChar_cons_self (c : Char) (s : Str) : splitChar c (c :: s) = [] :: splitChar c s := by
  simp [splitChar]

theorem splitChar_cons_ne {c x : Char} (s : Str) (h : x ≠ c) :
    ∃ p ps, splitChar c s = p :: ps ∧ splitChar c (x :: s) = (x :: p) :: ps := by
  simp only [splitChar, h, if_false]
  cases hs : splitChar c s with
  | nil => exact absurd hs (splitChar_ne_nil c s)
  | cons p ps => exact ⟨p, ps, rfl, rfl⟩

theorem splitChar_append {c : Char} {a : Str} (h : c ∉ a) (b : Str) :
    ∃ p ps, splitChar c b = p :: ps ∧ splitChar c (a ++ b) = (a ++ p) :: ps := by
  induction a with
  | nil =>
    cases hs : splitChar c b with
    | nil => exact absurd hs (splitChar_ne_nil c b)
    | cons p ps => exact ⟨p, ps, rfl, by simp [hs]⟩
  | cons x xs ih =>
    have hx : x ≠ c := fun e => h (by simp [e])
    obtain ⟨p, ps, hp, hq⟩ := ih (fun m => h (List.mem_cons_of_mem _ m))
    obtain ⟨p', ps', hp', hq'⟩ := splitChar_cons_ne (c := c) (xs ++ b) hx
    rw [hq] at hp'
    cases hp'
    exact ⟨p, ps, hp, by simpa using hq'⟩

theorem splitChar_append_sep {c : Char} {a : Str} (h : c ∉ a) (b : Str) :
    splitChar c (a ++ c :: b) = a :: splitChar c b := by
  obtain ⟨p, ps, hp, hq⟩ := splitChar_append h (c :: b)
  rw [splitChar_cons_self] at hp
  cases hp
  simpa using hq

theorem splitChar_of_not_mem {c : Char} {a : Str} (h : c ∉ a) : splitChar c a = [a] := by
  obtain ⟨p, ps, hp, hq⟩ := splitChar_append h []
  simp only [splitChar, List.cons.injEq] at hp
  obtain ⟨rfl, rfl⟩ := hp
  simpa using hq

theorem splitChar_length (c : Char) (s : Str) : (splitChar c s).length > 1 ↔ c ∈ s := by
  induction s with
  | nil => simp [splitChar]
  | cons x xs ih =>
    by_cases hx : x = c
    · subst hx
      rw [splitChar_cons_self]
      have := splitChar_ne_nil x xs
      simp [List.length_pos_iff, this]
    · obtain ⟨p, ps, hp, hq⟩ := splitChar_cons_ne (c := c) xs hx
      rw [hp] at ih
      rw [hq]
      simp only [List.length_cons] at ih ⊢
      rw [ih]
      simp [show ¬ c = x from fun e => hx e.symm]

theorem not_mem_of_mem_splitChar {c : Char} {s p : Str} (h : p ∈ splitChar c s) : c ∉ p := by
  induction s generalizing p with
  | nil => simp [splitChar] at h; simp [h]
  | cons x xs ih =>
    by_cases hx : x = c
    · subst hx
      rw [splitChar_cons_self] at h
      rcases List.mem_cons.1 h with rfl | h
      · simp
      · exact ih h
    · obtain ⟨q, qs, hp, hq⟩ := splitChar_cons_ne (c := c) xs hx
      rw [hq] at h
      rw [hp] at ih
      rcases List.mem_cons.1 h with rfl | h
      · have := ih (p := q) (by simp)
        simp only [List.mem_cons, not_or]
        exact ⟨fun e => hx e.symm, this⟩
      · exact ih (List.mem_cons_of_mem _ h)

theorem replaceAll_char (c : Char) (s : Str) : replaceAll [c] [] s = s.filter (· ≠ c) := by
  unfold replaceAll
  induction s with
  | nil => simp [replaceGo]
  | cons x xs ih =>
    simp only [replaceGo]
    by_cases h : x = c
    · subst h; simp [List.isPrefixOf, ih]
    · have h' : ¬ c = x := fun e => h e.symm
      simp [List.isPrefixOf, ih, h, h']

/-! ### strip -/

theorem dropWhile_eq_self_iff {p : Char → Bool} {s : Str} :
    s.dropWhile p = s ↔ ∀ c, s.head? = some c → p c = false := by
  cases s with
  | nil => simp
  | cons x xs =>
    simp only [List.dropWhile_cons, List.head?_cons, Option.some.injEq, forall_eq']
    constructor
    · intro h
      cases hp : p x
      · rfl
      · rw [hp] at h
        simp only [if_true] at h
        have := (List.dropWhile_sublist (l := xs) p).length_le
        rw [h] at this
        simp at this
        omega
    · intro h; simp [h]

theorem dropWhile_nil_iff {p : Char → Bool} {s : Str} :
    s.dropWhile p = [] ↔ ∀ c ∈ s, p c = true := by
  induction s with
  | nil => simp
  | cons x xs ih =>
    rw [List.dropWhile_cons]
    cases hp : p x <;> simp [ih, hp]

theorem head?_dropWhile_false {p : Char → Bool} {s : Str} {c : Char}
    (h : (s.dropWhile p).head? = some c) : p c = false := by
  induction s with
  | nil => simp at h
  | cons x xs ih =>
    rw [List.dropWhile_cons] at h
    split at h
    · exact ih h
    · next hx => simp at h; subst h; simpa using hx

theorem lstrip_eq_self {s : Str} (h : ∀ c, s.head? = some c → isSpace c = false) : lstrip s = s :=
  dropWhile_eq_self_iff.2 h

theorem rstrip_eq_self {s : Str} (h : ∀ c, s.getLast? = some c → isSpace c = false) :
    rstrip s = s := by
  unfold rstrip
  rw [dropWhile_eq_self_iff.2 (by simpa using h)]
  simp

theorem rstrip_append {a b : Str} (h : rstrip b ≠ []) : rstrip (a ++ b) = a ++ rstrip b := by
  unfold rstrip at *
  rw [List.reverse_append]
  have : (b.reverse.dropWhile isSpace) ≠ [] := by simpa using h
  rw [List.dropWhile_append, if_neg (by simpa using this)]
  simp

theorem rstrip_append_space {a b : Str} (h : ∀ c ∈ b, isSpace c = true) :
    rstrip (a ++ b) = rstrip a := by
  unfold rstrip
  rw [List.reverse_append, List.dropWhile_append_of_pos (by simpa using h)]

theorem lstrip_space_append {a b : Str} (h : ∀ c ∈ a, isSpace c = true) :
    lstrip (a ++ b) = lstrip b := by
  unfold lstrip
  rw [List.dropWhile_append_of_pos h]

theorem strip_cons_space {c : Char} {s : Str} (h : isSpace c = true) : strip (c :: s) = strip s := by
  unfold strip
  rw [show c :: s = [c] ++ s from rfl, lstrip_space_append (by simpa using h)]

theorem rstrip_sublist (s : Str) : (rstrip s).Sublist s := by
  unfold rstrip
  have := (List.dropWhile_sublist (l := s.reverse) isSpace).reverse
  simpa using this

theorem strip_sublist (s : Str) : (strip s).Sublist s :=
  (rstrip_sublist _).trans (List.dropWhile_sublist _)

theorem rstrip_prefix (s : Str) : rstrip s <+: s := by
  unfold rstrip
  have := (List.dropWhile_suffix (l := s.reverse) isSpace)
  rw [← List.reverse_prefix] at this
  simpa using this

theorem strip_head {s : Str} {c : Char} (h : (strip s).head? = some c) : isSpace c = false := by
  unfold strip at h
  have hp := rstrip_prefix (lstrip s)
  have : (lstrip s).head? = some c := by
    obtain ⟨t, ht⟩ := hp
    rw [← ht]
    cases hr : rstrip (lstrip s) with
    | nil => rw [hr] at h; simp at h
    | cons x xs => rw [hr] at h; simpa using h
  exact head?_dropWhile_false this

theorem strip_last {s : Str} {c : Char} (h : (strip s).getLast? = some c) : isSpace c = false := by
  unfold strip rstrip at h
  rw [List.getLast?_reverse] at h
  exact head?_dropWhile_false h

theorem strip_eq_self {s : Str} (h1 : ∀ c, s.head? = some c → isSpace c = false)
    (h2 : ∀ c, s.getLast? = some c → isSpace c = false) : strip s = s := by
  unfold strip
  rw [lstrip_eq_self h1, rstrip_eq_self h2]

theorem strip_strip (s : Str) : strip (strip s) = strip s :=
  strip_eq_self (fun _ h => strip_head h) (fun _ h => strip_last h)

theorem strip_all_space {s : Str} (h : ∀ c ∈ s, isSpace c = true) : strip s = [] := by
  unfold strip
  have : lstrip s = [] := by
    unfold lstrip; rw [dropWhile_nil_iff]; simpa using h
  rw [this]; rfl

theorem strip_space_append_space {a s b : Str} (ha : ∀ c ∈ a, isSpace c = true)
    (hb : ∀ c ∈ b, isSpace c = true) : strip (a ++ s ++ b) = strip s := by
  unfold strip
  rw [List.append_assoc, lstrip_space_append ha]
  by_cases hs : ∀ c ∈ s, isSpace c = true
  · rw [lstrip_space_append hs]
    have e1 : lstrip b = [] := by
      unfold lstrip; rw [dropWhile_nil_iff]; simpa using hb
    have e2 : lstrip s = [] := by
      unfold lstrip; rw [dropWhile_nil_iff]; simpa using hs
    rw [e1, e2]
  · have : lstrip (s ++ b) = lstrip s ++ b := by
      unfold lstrip
      rw [List.dropWhile_append, if_neg]
      simpa [dropWhile_nil_iff] using hs
    rw [this, rstrip_append_space hb]

end Opy
