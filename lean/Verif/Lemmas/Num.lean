import Verif.Py.Num
import Verif.Lemmas.Str
/- Lemmas about printing and reading integers. -/
namespace Opy

theorem natStrF_fuel {b : Nat} (hb : 2 ≤ b) (f g n : Nat) (hf : n < f) (hg : n < g) :
    natStrF b f n = natStrF b g n := by
  induction f generalizing g n with
  | zero => omega
  | succ f ih =>
    cases g with
    | zero => omega
    | succ g =>
      simp only [natStrF]
      split
      · rfl
      · have : n / b < n := Nat.div_lt_self (by omega) (by omega)
        rw [ih g (n / b) (by omega) (by omega)]

theorem natStrF_step {b : Nat} (hb : 2 ≤ b) (n : Nat) :
    natStrF b (n + 1) n = if n < b then [digitChar n]
      else natStrF b (n / b + 1) (n / b) ++ [digitChar (n % b)] := by
  rw [natStrF]
  split
  · rfl
  · have : n / b < n := Nat.div_lt_self (by omega) (by omega)
    rw [natStrF_fuel hb n (n / b + 1) (n / b) (by omega) (by omega)]

theorem natStr_lt {n : Nat} (h : n < 10) : natStr n = [digitChar n] := by
  unfold natStr; rw [natStrF_step (by omega)]; simp [h]

theorem natStr_ge {n : Nat} (h : 10 ≤ n) : natStr n = natStr (n / 10) ++ [digitChar (n % 10)] := by
  unfold natStr; rw [natStrF_step (by omega), if_neg (by omega)]

theorem digitVal?_digitChar {d : Nat} (h : d < 10) : digitVal? (digitChar d) = some d := by
  have : ∀ d : Fin 10, digitVal? (digitChar d.val) = some d.val := by decide
  exact this ⟨d, h⟩

theorem digitChar_not_space {d : Nat} (h : d < 16) : isSpace (digitChar d) = false := by
  have : ∀ d : Fin 16, isSpace (digitChar d.val) = false := by decide
  exact this ⟨d, h⟩

theorem digitChar_inj {a b : Nat} (ha : a < 16) (hb : b < 16) (h : digitChar a = digitChar b) : a = b := by
  have : ∀ a b : Fin 16, digitChar a.val = digitChar b.val → a = b := by decide
  have := this ⟨a, ha⟩ ⟨b, hb⟩ h
  simpa using this

/-- A digit character of a small number is none of the punctuation characters that matter. -/
theorem digitChar_ne {d : Nat} (h : d < 10) (c : Char) (hc : c.toNat < 48 ∨ 57 < c.toNat) :
    digitChar d ≠ c := by
  intro e
  subst e
  have : ∀ d : Fin 10, 48 ≤ (digitChar d.val).toNat ∧ (digitChar d.val).toNat ≤ 57 := by decide
  have := this ⟨d, h⟩
  simp at this
  omega

/-- Value of a list of decimal digits, most significant first. -/
def decVal (ds : List Nat) : Nat := ds.foldl (fun a d => 10 * a + d) 0

theorem natStr_digits (n : Nat) : ∃ ds : List Nat, ds ≠ [] ∧ (∀ d ∈ ds, d < 10) ∧
    natStr n = ds.map digitChar ∧ decVal ds = n := by
  induction n using Nat.strongRecOn with
  | ind n ih =>
    by_cases h : n < 10
    · exact ⟨[n], by simp, by simp [h], by simp [natStr_lt h], by simp [decVal]⟩
    · obtain ⟨ds, h0, h1, h2, h3⟩ := ih (n / 10) (by omega)
      refine ⟨ds ++ [n % 10], by simp, ?_, ?_, ?_⟩
      · intro d hd
        rcases List.mem_append.1 hd with hd | hd
        · exact h1 d hd
        · simp at hd; omega
      · rw [natStr_ge (by omega), h2]; simp
      · simp only [decVal] at h3 ⊢
        rw [List.foldl_append, h3]
        simp
        omega

theorem digitsVal_digits (ds : List Nat) (h : ∀ d ∈ ds, d < 10) (acc : Nat) :
    digitsVal acc false (ds.map digitChar) = some (ds.foldl (fun a d => 10 * a + d) acc) := by
  induction ds generalizing acc with
  | nil => simp [digitsVal]
  | cons d ds ih =>
    simp only [List.map_cons, digitsVal, digitVal?_digitChar (h d (by simp)), List.foldl_cons]
    exact ih (fun x hx => h x (List.mem_cons_of_mem _ hx)) _

theorem unsignedVal_digits (ds : List Nat) (h : ∀ d ∈ ds, d < 10) (hne : ds ≠ []) :
    unsignedVal (ds.map digitChar) = some (decVal ds) := by
  cases ds with
  | nil => exact absurd rfl hne
  | cons d ds =>
    simp only [List.map_cons, unsignedVal, digitVal?_digitChar (h d (by simp))]
    rw [digitsVal_digits ds (fun x hx => h x (List.mem_cons_of_mem _ hx))]
    simp [decVal]

theorem unsignedVal_natStr (n : Nat) : unsignedVal (natStr n) = some n := by
  obtain ⟨ds, h0, h1, h2, h3⟩ := natStr_digits n
  rw [h2, unsignedVal_digits ds h1 h0, h3]

/-! ### Digits of all scripts, and the white space of `int()` -/

theorem digitVal?_le {c : Char} {d : Nat} (h : digitVal? c = some d) : d ≤ 9 := by
  unfold digitVal? at h
  split at h
  · simp only [Option.some.injEq] at h; omega
  · split at h
    · cases h
    · cases hf : digitZeros.find? fun z => decide (z ≤ c.toNat ∧ c.toNat ≤ z + 9) with
      | none => rw [hf] at h; cases h
      | some z =>
        rw [hf] at h
        simp only [Option.map_some, Option.some.injEq] at h
        have := List.find?_some hf
        simp only [decide_eq_true_eq] at this
        omega

/-- A digit is one of ASCII or lies behind the first digit of another script. -/
theorem digitVal?_where {c : Char} {d : Nat} (h : digitVal? c = some d) :
    (48 ≤ c.toNat ∧ c.toNat ≤ 57 ∧ d = c.toNat - 48) ∨
      ∃ z ∈ digitZeros, z ≤ c.toNat ∧ c.toNat ≤ z + 9 ∧ d = c.toNat - z := by
  unfold digitVal? at h
  split at h
  · next hc => simp only [Option.some.injEq] at h; exact Or.inl ⟨hc.1, hc.2, h.symm⟩
  · split at h
    · cases h
    · cases hf : digitZeros.find? fun z => decide (z ≤ c.toNat ∧ c.toNat ≤ z + 9) with
      | none => rw [hf] at h; cases h
      | some z =>
        rw [hf] at h
        simp only [Option.map_some, Option.some.injEq] at h
        have h1 := List.find?_some hf
        simp only [decide_eq_true_eq] at h1
        exact Or.inr ⟨z, List.mem_of_find?_eq_some hf, h1.1, h1.2, h.symm⟩

theorem digitZeros_ge : ∀ z ∈ digitZeros, 1632 ≤ z := by decide +kernel

/-- Below U+0660 the digits are those of ASCII. -/
theorem digitVal?_low {c : Char} (h : c.toNat < 1632) : digitVal? c = asciiDigit? c := by
  unfold digitVal? asciiDigit?
  simp only [h, if_true]

theorem asciiDigit?_digitVal? {c : Char} {d : Nat} (h : asciiDigit? c = some d) : digitVal? c = some d := by
  unfold asciiDigit? at h
  split at h
  · next hc => rw [digitVal?_low (by omega)]; unfold asciiDigit?; rw [if_pos hc]; exact h
  · cases h

/-- A digit of any script is not white space. -/
theorem digitVal?_not_space {c : Char} {d : Nat} (h : digitVal? c = some d) : isSpace c = false := by
  have hz : ∀ z ∈ digitZeros, (∀ w ∈ [0x1680, 0x2028, 0x2029, 0x202F, 0x205F, 0x3000], w < z ∨ z + 9 < w) ∧
      1632 ≤ z ∧ (z + 9 < 0x2000 ∨ 0x200A < z) := by decide +kernel
  unfold isSpace
  rcases digitVal?_where h with ⟨h1, h2, _⟩ | ⟨z, hz', h1, h2, _⟩
  · simp only [Bool.or_eq_false_iff, Bool.and_eq_false_iff, decide_eq_false_iff_not, beq_eq_false_iff_ne]
    omega
  · have hh := hz z hz'
    simp only [List.forall_mem_cons] at hh
    simp only [Bool.or_eq_false_iff, Bool.and_eq_false_iff, decide_eq_false_iff_not, beq_eq_false_iff_ne]
    omega

theorem intSpace_of_not_space {c : Char} (h : isSpace c = false) : intSpace c = false := by
  simp [intSpace, h]

theorem intStrip_eq_self {s : Str} (h1 : ∀ c, s.head? = some c → isSpace c = false)
    (h2 : ∀ c, s.getLast? = some c → isSpace c = false) : intStrip s = s := by
  unfold intStrip
  rw [dropWhile_eq_self_iff.2 (fun c hc => intSpace_of_not_space (h1 c hc)),
    dropWhile_eq_self_iff.2 (fun c hc => intSpace_of_not_space (h2 c (by simpa using hc)))]
  simp

theorem intStrip_sublist (s : Str) : (intStrip s).Sublist s := by
  unfold intStrip
  have h1 := (List.dropWhile_sublist (p := intSpace) (l := (s.dropWhile intSpace).reverse)).reverse
  rw [List.reverse_reverse] at h1
  exact h1.trans (List.dropWhile_sublist _)

theorem intStrip_digits (ds : List Nat) (h : ∀ d ∈ ds, d < 10) :
    intStrip (ds.map digitChar) = ds.map digitChar := by
  apply intStrip_eq_self
  · intro c hc
    have : c ∈ ds.map digitChar := List.mem_of_mem_head? hc
    obtain ⟨d, hd, rfl⟩ := List.mem_map.1 this
    exact digitChar_not_space (by have := h d hd; omega)
  · intro c hc
    have : c ∈ ds.map digitChar := List.mem_of_getLast? hc
    obtain ⟨d, hd, rfl⟩ := List.mem_map.1 this
    exact digitChar_not_space (by have := h d hd; omega)

/-- `int()` of a (possibly zero padded) digit string. -/
theorem pyInt_digits (ds : List Nat) (h : ∀ d ∈ ds, d < 10) (hne : ds ≠ []) :
    pyInt (ds.map digitChar) = some (decVal ds : Int) := by
  unfold pyInt
  rw [intStrip_digits ds h]
  have hu := unsignedVal_digits ds h hne
  cases ds with
  | nil => exact absurd rfl hne
  | cons d ds =>
    have h1 : digitChar d ≠ '-' := digitChar_ne (h d (by simp)) _ (by decide)
    have h2 : digitChar d ≠ '+' := digitChar_ne (h d (by simp)) _ (by decide)
    rw [List.map_cons] at hu ⊢
    split
    · next e => simp at e; exact absurd e.1 h1
    · next e => simp at e; exact absurd e.1 h2
    · rw [hu]; rfl

theorem intStrip_sign_digits (c : Char) (hc : isSpace c = false) (ds : List Nat) (h : ∀ d ∈ ds, d < 10) :
    intStrip (c :: ds.map digitChar) = c :: ds.map digitChar := by
  apply intStrip_eq_self
  · intro x hx; simp at hx; exact hx ▸ hc
  · intro x hx
    have : x ∈ c :: ds.map digitChar := List.mem_of_getLast? hx
    rcases List.mem_cons.1 this with rfl | this
    · exact hc
    · obtain ⟨d, hd, rfl⟩ := List.mem_map.1 this
      exact digitChar_not_space (by have := h d hd; omega)

theorem pyInt_neg_digits (ds : List Nat) (h : ∀ d ∈ ds, d < 10) (hne : ds ≠ []) :
    pyInt ('-' :: ds.map digitChar) = some (-(decVal ds : Int)) := by
  unfold pyInt
  rw [intStrip_sign_digits '-' (by decide) ds h]
  simp [unsignedVal_digits ds h hne]

theorem pyInt_pos_digits (ds : List Nat) (h : ∀ d ∈ ds, d < 10) (hne : ds ≠ []) :
    pyInt ('+' :: ds.map digitChar) = some (decVal ds : Int) := by
  unfold pyInt
  rw [intStrip_sign_digits '+' (by decide) ds h]
  simp [unsignedVal_digits ds h hne]

theorem pyInt_intStr (z : Int) : pyInt (intStr z) = some z := by
  cases z with
  | ofNat n =>
    obtain ⟨ds, h0, h1, h2, h3⟩ := natStr_digits n
    simp only [intStr]
    rw [h2, pyInt_digits ds h1 h0, h3]
    rfl
  | negSucc n =>
    obtain ⟨ds, h0, h1, h2, h3⟩ := natStr_digits (n + 1)
    simp only [intStr]
    rw [h2, pyInt_neg_digits ds h1 h0, h3]
    rfl

theorem natStr_inj {m n : Nat} (h : natStr m = natStr n) : m = n := by
  have h1 := unsignedVal_natStr m
  rw [h, unsignedVal_natStr n] at h1
  simpa using h1.symm

theorem intStr_inj {m n : Int} (h : intStr m = intStr n) : m = n := by
  have h1 := pyInt_intStr m
  rw [h, pyInt_intStr n] at h1
  simpa using h1.symm

/-! ### Zero padded fields -/

theorem padNat_2 {n : Nat} (h : n < 100) : padNat 2 n = [digitChar (n / 10), digitChar (n % 10)] := by
  unfold padNat
  by_cases h1 : n < 10
  · rw [natStr_lt h1]
    have e1 : n / 10 = 0 := by omega
    have e2 : n % 10 = n := by omega
    rw [e1, e2]
    rfl
  · rw [natStr_ge (by omega), natStr_lt (by omega)]
    rfl

theorem padNat_3 {n : Nat} (h : n < 1000) :
    padNat 3 n = [digitChar (n / 100), digitChar (n / 10 % 10), digitChar (n % 10)] := by
  unfold padNat
  by_cases h1 : n < 10
  · rw [natStr_lt h1]
    have e1 : n / 10 = 0 := by omega
    have e2 : n % 10 = n := by omega
    have e3 : n / 100 = 0 := by omega
    rw [e1, e2, e3]
    rfl
  · by_cases h2 : n < 100
    · rw [natStr_ge (by omega), natStr_lt (by omega)]
      have e1 : n / 10 % 10 = n / 10 := by omega
      have e3 : n / 100 = 0 := by omega
      rw [e1, e3]
      rfl
    · rw [natStr_ge (by omega), natStr_ge (by omega), natStr_lt (by omega)]
      have e1 : n / 10 / 10 = n / 100 := by omega
      rw [e1]
      rfl

theorem padNat_4 {n : Nat} (h : n < 10000) :
    padNat 4 n = [digitChar (n / 1000), digitChar (n / 100 % 10), digitChar (n / 10 % 10), digitChar (n % 10)] := by
  unfold padNat
  by_cases h1 : n < 10
  · rw [natStr_lt h1]
    have e1 : n / 10 = 0 := by omega
    have e2 : n % 10 = n := by omega
    have e3 : n / 100 = 0 := by omega
    have e4 : n / 1000 = 0 := by omega
    rw [e1, e2, e3, e4]
    rfl
  · by_cases h2 : n < 100
    · rw [natStr_ge (by omega), natStr_lt (by omega)]
      have e1 : n / 10 % 10 = n / 10 := by omega
      have e3 : n / 100 = 0 := by omega
      have e4 : n / 1000 = 0 := by omega
      rw [e1, e3, e4]
      rfl
    · by_cases h3 : n < 1000
      · rw [natStr_ge (by omega), natStr_ge (by omega), natStr_lt (by omega)]
        have e1 : n / 10 / 10 = n / 100 % 10 := by omega
        have e4 : n / 1000 = 0 := by omega
        rw [e1, e4]
        rfl
      · rw [natStr_ge (by omega), natStr_ge (by omega), natStr_ge (by omega), natStr_lt (by omega)]
        have e1 : n / 10 / 10 = n / 100 := by omega
        have e4 : n / 10 / 10 / 10 = n / 1000 := by omega
        rw [e4, e1]
        rfl

end Opy
