import Verif.Lemmas.Num
/-
Which texts `int(s)` and `int(s, 16)` read, as relations that do not use the model of these functions.
-/
namespace Opy

/-! ## Spec -/

/-- A digit has a value: decimal digits of any script, for base 16 also the letters a to f and A to F. -/
inductive Numeral (b : Nat) (val : Char → Option Nat) : Str → Nat → Prop
  /-- one digit -/
  | one {c : Char} {d : Nat} : val c = some d → Numeral b val [c] d
  /-- one digit more -/
  | more {s : Str} {n : Nat} {c : Char} {d : Nat} : Numeral b val s n → val c = some d → Numeral b val (s ++ [c]) (b * n + d)
  /-- an underscore between two digits -/
  | under {s : Str} {n : Nat} {c : Char} {d : Nat} : Numeral b val s n → val c = some d → Numeral b val (s ++ ['_', c]) (b * n + d)

/-- Text without white space at the ends, and text of a number: a sign or none, then the digits. -/
inductive Signed (unsigned : Str → Nat → Prop) : Str → Int → Prop
  | none {s : Str} {n : Nat} : unsigned s n → Signed unsigned s n
  | plus {s : Str} {n : Nat} : unsigned s n → Signed unsigned ('+' :: s) n
  | minus {s : Str} {n : Nat} : unsigned s n → Signed unsigned ('-' :: s) (-(n : Int))

/-- White space around a text. -/
def Padded (P : Str → Prop) (s : Str) : Prop :=
  ∃ l m r, s = l ++ m ++ r ∧ (∀ c ∈ l ++ r, intSpace c = true) ∧ P m

/-- `s` is a text of the number `z` for `int`. -/
def IntText (s : Str) (z : Int) : Prop := Padded (fun m => Signed (Numeral 10 digitVal?) m z) s

/-- Digits of base 16, after `0x`, `0X`, either with an underscore, or without. -/
def HexNumeral (s : Str) (n : Nat) : Prop :=
  ∃ p m, s = p ++ m ∧ p ∈ [[], py!"0x", py!"0X", py!"0x_", py!"0X_"] ∧ Numeral 16 hexVal? m n

/-- `s` is a text of the number `z` for `int(s, 16)`. -/
def HexText (s : Str) (z : Int) : Prop := Padded (fun m => Signed HexNumeral m z) s

/-! ## White space -/

theorem mem_takeWhile_pos {p : Char → Bool} {s : Str} {c : Char} (h : c ∈ s.takeWhile p) : p c = true := by
  induction s with
  | nil => simp at h
  | cons x s ih =>
    rw [List.takeWhile_cons] at h
    by_cases hx : p x = true
    · rw [if_pos hx] at h
      rcases List.mem_cons.1 h with rfl | h
      · exact hx
      · exact ih h
    · rw [if_neg hx] at h; simp at h

theorem intStrip_pad {l s r : Str} (hl : ∀ c ∈ l, intSpace c = true) (hr : ∀ c ∈ r, intSpace c = true) :
    intStrip (l ++ s ++ r) = intStrip s := by
  have key : ∀ (p : Char → Bool) (l s : Str), (∀ c ∈ l, p c = true) → (l ++ s).dropWhile p = s.dropWhile p := by
    intro p l s h
    induction l with
    | nil => rfl
    | cons x l ih =>
      rw [List.cons_append, List.dropWhile_cons_of_pos (h x (by simp)), ih (fun c hc => h c (by simp [hc]))]
  unfold intStrip
  rw [List.append_assoc, key intSpace l _ hl]
  congr 1
  by_cases hs : ∀ c ∈ s, intSpace c = true
  · have e1 : (s ++ r).dropWhile intSpace = [] := by
      rw [key intSpace s _ hs]
      have := key intSpace r [] hr
      simpa using this
    have e2 : s.dropWhile intSpace = [] := by
      have := key intSpace s [] hs
      simpa using this
    rw [e1, e2]
  · have e : (s ++ r).dropWhile intSpace = s.dropWhile intSpace ++ r := by
      rw [List.dropWhile_append]
      split
      · next h =>
        exfalso
        apply hs
        have : s.dropWhile intSpace = [] := by simpa using h
        rwa [dropWhile_nil_iff] at this
      · rfl
    rw [e, List.reverse_append, key intSpace r.reverse _ (by simpa using hr)]

theorem intStrip_split (s : Str) : ∃ l r, s = l ++ intStrip s ++ r ∧ ∀ c ∈ l ++ r, intSpace c = true := by
  refine ⟨s.takeWhile intSpace, ((s.dropWhile intSpace).reverse.takeWhile intSpace).reverse, ?_, ?_⟩
  · unfold intStrip
    rw [List.append_assoc, ← List.reverse_append, List.takeWhile_append_dropWhile, List.reverse_reverse,
      List.takeWhile_append_dropWhile]
  · intro c hc
    rcases List.mem_append.1 hc with h | h
    · exact mem_takeWhile_pos h
    · exact mem_takeWhile_pos (List.mem_reverse.1 h)

/-! ## Digits -/

theorem digitsVal_numeral : ∀ (t : Str) {p : Str} {acc n : Nat}, Numeral 10 digitVal? p acc →
    (digitsVal acc false t = some n → Numeral 10 digitVal? (p ++ t) n) ∧
    (digitsVal acc true t = some n → Numeral 10 digitVal? (p ++ '_' :: t) n)
  | [], p, acc, n, hp => by
    constructor
    · intro h
      simp only [digitsVal, Bool.false_eq_true, if_false, Option.some.injEq] at h
      subst h; simpa using hp
    · intro h; simp [digitsVal] at h
  | c :: t, p, acc, n, hp => by
    constructor
    · intro h
      simp only [digitsVal] at h
      cases hd : digitVal? c with
      | some d =>
        rw [hd] at h
        have := (digitsVal_numeral t (.more hp hd)).1 h
        simpa using this
      | none =>
        rw [hd] at h
        simp only [and_true] at h
        split at h
        · next hc => subst hc; exact (digitsVal_numeral t hp).2 h
        · cases h
    · intro h
      simp only [digitsVal] at h
      cases hd : digitVal? c with
      | some d =>
        rw [hd] at h
        have := (digitsVal_numeral t (.under hp hd)).1 h
        simpa using this
      | none => rw [hd] at h; simp at h

theorem numeral_unsignedVal {s : Str} {n : Nat} (h : Numeral 10 digitVal? s n) (t : Str) :
    unsignedVal (s ++ t) = digitsVal n false t := by
  induction h generalizing t with
  | one hd => simp [unsignedVal, hd]
  | more _ hd ih => rw [List.append_assoc, ih]; simp [digitsVal, hd]
  | under _ hd ih =>
    rw [List.append_assoc, ih]
    have : digitVal? '_' = none := by decide
    simp [digitsVal, hd, this]

theorem unsignedVal_iff {s : Str} {n : Nat} : unsignedVal s = some n ↔ Numeral 10 digitVal? s n := by
  constructor
  · intro h
    cases s with
    | nil => simp [unsignedVal] at h
    | cons c s =>
      simp only [unsignedVal] at h
      cases hd : digitVal? c with
      | none => rw [hd] at h; cases h
      | some d => rw [hd] at h; exact (digitsVal_numeral s (.one hd)).1 h
  · intro h
    have := numeral_unsignedVal h []
    simpa [digitsVal] using this

theorem hexDigitsVal_numeral : ∀ (t : Str) {p : Str} {acc n : Nat}, Numeral 16 hexVal? p acc →
    (hexDigitsVal acc false t = some n → Numeral 16 hexVal? (p ++ t) n) ∧
    (hexDigitsVal acc true t = some n → Numeral 16 hexVal? (p ++ '_' :: t) n)
  | [], p, acc, n, hp => by
    constructor
    · intro h
      simp only [hexDigitsVal, Bool.false_eq_true, if_false, Option.some.injEq] at h
      subst h; simpa using hp
    · intro h; simp [hexDigitsVal] at h
  | c :: t, p, acc, n, hp => by
    constructor
    · intro h
      simp only [hexDigitsVal] at h
      cases hd : hexVal? c with
      | some d =>
        rw [hd] at h
        have := (hexDigitsVal_numeral t (.more hp hd)).1 h
        simpa using this
      | none =>
        rw [hd] at h
        simp only [and_true] at h
        split at h
        · next hc => subst hc; exact (hexDigitsVal_numeral t hp).2 h
        · cases h
    · intro h
      simp only [hexDigitsVal] at h
      cases hd : hexVal? c with
      | some d =>
        rw [hd] at h
        have := (hexDigitsVal_numeral t (.under hp hd)).1 h
        simpa using this
      | none => rw [hd] at h; simp at h

theorem numeral_unsignedHex {s : Str} {n : Nat} (h : Numeral 16 hexVal? s n) (t : Str) :
    unsignedHex (s ++ t) = hexDigitsVal n false t := by
  induction h generalizing t with
  | one hd => simp [unsignedHex, hd]
  | more _ hd ih => rw [List.append_assoc, ih]; simp [hexDigitsVal, hd]
  | under _ hd ih =>
    rw [List.append_assoc, ih]
    have : hexVal? '_' = none := by decide
    simp [hexDigitsVal, hd, this]

theorem unsignedHex_iff {s : Str} {n : Nat} : unsignedHex s = some n ↔ Numeral 16 hexVal? s n := by
  constructor
  · intro h
    cases s with
    | nil => simp [unsignedHex] at h
    | cons c s =>
      simp only [unsignedHex] at h
      cases hd : hexVal? c with
      | none => rw [hd] at h; cases h
      | some d => rw [hd] at h; exact (hexDigitsVal_numeral s (.one hd)).1 h
  · intro h
    have := numeral_unsignedHex h []
    simpa [hexDigitsVal] using this

/-- The characters of a numeral are digits and underscores; it begins and ends with a digit. -/
theorem Numeral.ends {b : Nat} {val : Char → Option Nat} {s : Str} {n : Nat} (h : Numeral b val s n) :
    (∃ c t, s = c :: t ∧ (val c).isSome) ∧ (∃ c t, s = t ++ [c] ∧ (val c).isSome) ∧
    (∀ c ∈ s, c = '_' ∨ (val c).isSome) := by
  induction h with
  | one hd =>
    exact ⟨⟨_, [], rfl, by rw [hd]; rfl⟩, ⟨_, [], rfl, by rw [hd]; rfl⟩, fun c hc => by
      simp only [List.mem_singleton] at hc; subst hc; exact Or.inr (by rw [hd]; rfl)⟩
  | more _ hd ih =>
    obtain ⟨⟨c, t, e, hc⟩, _, h3⟩ := ih
    refine ⟨⟨c, t ++ [_], by rw [e]; rfl, hc⟩, ⟨_, _, rfl, by rw [hd]; rfl⟩, fun c hc => ?_⟩
    rcases List.mem_append.1 hc with h | h
    · exact h3 c h
    · simp only [List.mem_singleton] at h; subst h; exact Or.inr (by rw [hd]; rfl)
  | @under s n c0 d _ hd ih =>
    obtain ⟨⟨c, t, e, hc⟩, _, h3⟩ := ih
    refine ⟨⟨c, t ++ _, by rw [e]; rfl, hc⟩, ⟨c0, s ++ ['_'], by simp, by rw [hd]; rfl⟩, fun c hc => ?_⟩
    rcases List.mem_append.1 hc with h | h
    · exact h3 c h
    · simp only [List.mem_cons, List.not_mem_nil, or_false] at h
      rcases h with rfl | rfl
      · exact Or.inl rfl
      · exact Or.inr (by rw [hd]; rfl)

theorem hexVal?_where {c : Char} (h : (hexVal? c).isSome) :
    (digitVal? c).isSome ∨ (97 ≤ c.toNat ∧ c.toNat ≤ 102) ∨ (65 ≤ c.toNat ∧ c.toNat ≤ 70) := by
  unfold hexVal? at h
  cases hd : digitVal? c with
  | some d => exact Or.inl rfl
  | none =>
    rw [hd] at h
    simp only at h
    split at h
    · next h' => exact Or.inr (Or.inl h')
    · split at h
      · next h' => exact Or.inr (Or.inr h')
      · cases h

theorem digit_not_space {c : Char} (h : (digitVal? c).isSome) : isSpace c = false := by
  obtain ⟨d, hd⟩ := Option.isSome_iff_exists.1 h
  exact digitVal?_not_space hd

theorem hex_not_space {c : Char} (h : (hexVal? c).isSome) : isSpace c = false := by
  rcases hexVal?_where h with h | h | h
  · exact digit_not_space h
  all_goals
    unfold isSpace
    simp only [Bool.or_eq_false_iff, Bool.and_eq_false_iff, decide_eq_false_iff_not, beq_eq_false_iff_ne]
    omega

theorem digit_ne {c x : Char} (h : (digitVal? c).isSome) (hx : digitVal? x = none) : c ≠ x := by
  rintro rfl; rw [hx] at h; cases h

theorem hex_ne {c x : Char} (h : (hexVal? c).isSome) (hx : hexVal? x = none) : c ≠ x := by
  rintro rfl; rw [hx] at h; cases h

/-! ## `int` -/

/-- Spaces around, then the sign: the same for both bases. -/
theorem signed_match {f : Str → Option Nat} {P : Str → Nat → Prop} (hf : ∀ s n, f s = some n ↔ P s n)
    (hP : ∀ s n, P s n → ∃ c t, s = c :: t ∧ c ≠ '-' ∧ c ≠ '+') {s : Str} {z : Int} :
    (match s with
      | '-' :: r => (f r).map fun n => - (n : Int)
      | '+' :: r => (f r).map fun n => (n : Int)
      | r => (f r).map fun n => (n : Int)) = some z ↔ Signed P s z := by
  constructor
  · intro h
    split at h
    · cases hr : f _ with
      | none => rw [hr] at h; cases h
      | some n =>
        rw [hr] at h; injection h with h
        subst h; exact .minus ((hf _ _).1 hr)
    · cases hr : f _ with
      | none => rw [hr] at h; cases h
      | some n =>
        rw [hr] at h; injection h with h
        subst h; exact .plus ((hf _ _).1 hr)
    · cases hr : f s with
      | none => rw [hr] at h; cases h
      | some n =>
        rw [hr] at h; injection h with h
        subst h; exact .none ((hf _ _).1 hr)
  · intro h
    cases h with
    | none h =>
      obtain ⟨c, t, e, h1, h2⟩ := hP _ _ h
      have := (hf _ _).2 h
      split
      · next e' => simp only [List.cons.injEq] at e; exact absurd e.1.symm h1
      · next e' => simp only [List.cons.injEq] at e; exact absurd e.1.symm h2
      · rw [this]; rfl
    | plus h => simp [(hf _ _).2 h]
    | minus h => simp [(hf _ _).2 h]

theorem padded_iff {g : Str → Option Int} {P : Str → Int → Prop} (hg : ∀ s z, g s = some z ↔ P s z)
    (hP : ∀ s z, P s z → (∀ c, s.head? = some c → isSpace c = false) ∧ (∀ c, s.getLast? = some c → isSpace c = false))
    {s : Str} {z : Int} : g (intStrip s) = some z ↔ Padded (fun m => P m z) s := by
  constructor
  · intro h
    obtain ⟨l, r, e, hs⟩ := intStrip_split s
    exact ⟨l, _, r, e, hs, (hg _ _).1 h⟩
  · rintro ⟨l, m, r, rfl, hs, h⟩
    rw [intStrip_pad (fun c hc => hs c (by simp [hc])) (fun c hc => hs c (by simp [hc])),
      intStrip_eq_self (hP m z h).1 (hP m z h).2]
    exact (hg _ _).2 h

theorem Signed.ends {P : Str → Nat → Prop}
    (hP : ∀ s n, P s n → (∃ c t, s = c :: t ∧ isSpace c = false) ∧ (∃ c t, s = t ++ [c] ∧ isSpace c = false))
    {s : Str} {z : Int} (h : Signed P s z) :
    (∀ c, s.head? = some c → isSpace c = false) ∧ (∀ c, s.getLast? = some c → isSpace c = false) := by
  cases h with
  | none h =>
    obtain ⟨⟨c, t, e, h1⟩, c', t', e', h2⟩ := hP _ _ h
    refine ⟨fun x hx => ?_, fun x hx => ?_⟩
    · rw [e] at hx; simp at hx; subst hx; exact h1
    · rw [e'] at hx; simp at hx; subst hx; exact h2
  | plus h =>
    obtain ⟨_, c', t', e', h2⟩ := hP _ _ h
    refine ⟨fun x hx => ?_, fun x hx => ?_⟩
    · simp at hx; subst hx; decide
    · rw [e', ← List.cons_append, List.getLast?_append] at hx; simp at hx; subst hx; exact h2
  | minus h =>
    obtain ⟨_, c', t', e', h2⟩ := hP _ _ h
    refine ⟨fun x hx => ?_, fun x hx => ?_⟩
    · simp at hx; subst hx; decide
    · rw [e', ← List.cons_append, List.getLast?_append] at hx; simp at hx; subst hx; exact h2

/-- Exactly which texts `int` reads, and as which number. -/
theorem pyInt_iff {s : Str} {z : Int} : pyInt s = some z ↔ IntText s z := by
  have h1 : ∀ s z, (match s with
      | '-' :: r => (unsignedVal r).map fun n => - (n : Int)
      | '+' :: r => (unsignedVal r).map fun n => (n : Int)
      | r => (unsignedVal r).map fun n => (n : Int)) = some z ↔ Signed (Numeral 10 digitVal?) s z :=
    fun s z => signed_match (fun _ _ => unsignedVal_iff) (fun s n h => by
      obtain ⟨⟨c, t, e, hc⟩, _⟩ := h.ends
      exact ⟨c, t, e, digit_ne hc (by decide), digit_ne hc (by decide)⟩)
  have h2 := padded_iff (g := fun s => (match s with
      | '-' :: r => (unsignedVal r).map fun n => - (n : Int)
      | '+' :: r => (unsignedVal r).map fun n => (n : Int)
      | r => (unsignedVal r).map fun n => (n : Int))) h1 (fun s z h => h.ends (fun s n h => by
      obtain ⟨⟨c, t, e, hc⟩, ⟨c', t', e', hc'⟩, _⟩ := h.ends
      exact ⟨⟨c, t, e, digit_not_space hc⟩, c', t', e', digit_not_space hc'⟩)) (s := s) (z := z)
  exact h2

theorem prefixedHex_iff {s : Str} {n : Nat} : prefixedHex s = some n ↔ HexNumeral s n := by
  constructor
  · intro h
    unfold prefixedHex at h
    split at h
    · next x r =>
      split at h
      · next hx =>
        split at h
        · next r' =>
          refine ⟨['0', x, '_'], r', rfl, ?_, unsignedHex_iff.1 h⟩
          rcases hx with rfl | rfl <;> simp
        · refine ⟨['0', x], r, rfl, ?_, unsignedHex_iff.1 h⟩
          rcases hx with rfl | rfl <;> simp
      · exact ⟨[], _, rfl, by simp, unsignedHex_iff.1 h⟩
    · exact ⟨[], _, rfl, by simp, unsignedHex_iff.1 h⟩
  · rintro ⟨p, m, rfl, hp, hm⟩
    obtain ⟨⟨c, t, e, hc⟩, -, hall⟩ := hm.ends
    have hu := unsignedHex_iff.2 hm
    have hc' : c ≠ '_' := hex_ne hc (by decide)
    have e0 : ∀ x, x = 'x' ∨ x = 'X' → prefixedHex ('0' :: x :: m) = some n := by
      intro x hx
      simp only [prefixedHex]
      rw [if_pos hx]
      split
      · next e' => simp only [List.cons.injEq] at e; exact absurd e.1.symm hc'
      · exact hu
    have e1 : ∀ x, x = 'x' ∨ x = 'X' → prefixedHex ('0' :: x :: '_' :: m) = some n := by
      intro x hx
      simp only [prefixedHex]
      rw [if_pos hx]
      exact hu
    simp only [List.mem_cons, List.not_mem_nil, or_false] at hp
    rcases hp with rfl | rfl | rfl | rfl | rfl
    · unfold prefixedHex
      rw [List.nil_append]
      split
      · next x r =>
        have hx := hall x (by simp)
        rw [if_neg, hu]
        rintro (rfl | rfl)
        · rcases hx with hx | hx
          · exact absurd hx (by decide)
          · exact absurd hx (by decide)
        · rcases hx with hx | hx
          · exact absurd hx (by decide)
          · exact absurd hx (by decide)
      · exact hu
    · exact e0 'x' (Or.inl rfl)
    · exact e0 'X' (Or.inr rfl)
    · exact e1 'x' (Or.inl rfl)
    · exact e1 'X' (Or.inr rfl)

theorem HexNumeral.ends {s : Str} {n : Nat} (h : HexNumeral s n) :
    (∃ c t, s = c :: t ∧ (hexVal? c).isSome) ∧ (∃ c t, s = t ++ [c] ∧ (hexVal? c).isSome) := by
  obtain ⟨p, m, rfl, hp, hm⟩ := h
  obtain ⟨⟨c, t, e, hc⟩, ⟨c', t', e', hc'⟩, _⟩ := hm.ends
  refine ⟨?_, c', p ++ t', by rw [e']; simp, hc'⟩
  simp only [List.mem_cons, List.not_mem_nil, or_false] at hp
  rcases hp with rfl | rfl | rfl | rfl | rfl
  · exact ⟨c, t, by rw [e]; rfl, hc⟩
  all_goals exact ⟨'0', _, rfl, by decide⟩

/-- Exactly which texts `int(s, 16)` reads, and as which number. -/
theorem pyInt16_iff {s : Str} {z : Int} : pyInt16 s = some z ↔ HexText s z := by
  have h1 : ∀ s z, (match s with
      | '-' :: r => (prefixedHex r).map fun n => - (n : Int)
      | '+' :: r => (prefixedHex r).map fun n => (n : Int)
      | r => (prefixedHex r).map fun n => (n : Int)) = some z ↔ Signed HexNumeral s z :=
    fun s z => signed_match (fun _ _ => prefixedHex_iff) (fun s n h => by
      obtain ⟨⟨c, t, e, hc⟩, _⟩ := h.ends
      exact ⟨c, t, e, hex_ne hc (by decide), hex_ne hc (by decide)⟩)
  have h2 := padded_iff (g := fun s => (match s with
      | '-' :: r => (prefixedHex r).map fun n => - (n : Int)
      | '+' :: r => (prefixedHex r).map fun n => (n : Int)
      | r => (prefixedHex r).map fun n => (n : Int))) h1 (fun s z h => h.ends (fun s n h => by
      obtain ⟨⟨c, t, e, hc⟩, c', t', e', hc'⟩ := h.ends
      exact ⟨⟨c, t, e, hex_not_space hc⟩, c', t', e', hex_not_space hc'⟩)) (s := s) (z := z)
  exact h2

/-- The number that a text of digits denotes. -/
def digitsNumber (b : Nat) (val : Char → Option Nat) (s : Str) : Nat := s.foldl (fun a c => b * a + (val c).getD 0) 0

theorem Numeral.of_digits {b : Nat} {val : Char → Option Nat} {s : Str} (hne : s ≠ []) (h : ∀ c ∈ s, (val c).isSome) :
    Numeral b val s (digitsNumber b val s) := by
  have key : ∀ (t p : Str) (n : Nat), Numeral b val p n → (∀ c ∈ t, (val c).isSome) →
      Numeral b val (p ++ t) (t.foldl (fun a c => b * a + (val c).getD 0) n) := by
    intro t
    induction t with
    | nil => intro p n hp _; simpa using hp
    | cons c t ih =>
      intro p n hp ht
      obtain ⟨d, hd⟩ := Option.isSome_iff_exists.1 (ht c (by simp))
      have := ih (p ++ [c]) (b * n + d) (.more hp hd) (fun x hx => ht x (by simp [hx]))
      simpa [hd] using this
  cases s with
  | nil => exact absurd rfl hne
  | cons c t =>
    obtain ⟨d, hd⟩ := Option.isSome_iff_exists.1 (h c (by simp))
    have := key t [c] d (.one hd) (fun x hx => h x (by simp [hx]))
    simpa [digitsNumber, hd] using this

/-- A text of nothing but hex digits. -/
theorem pyInt16_hex {s : Str} (hne : s ≠ []) (h : ∀ c ∈ s, (hexVal? c).isSome) :
    pyInt16 s = some (digitsNumber 16 hexVal? s : Int) :=
  pyInt16_iff.2 ⟨[], s, [], by simp, by simp, .none ⟨[], s, rfl, by simp, .of_digits hne h⟩⟩

end Opy
