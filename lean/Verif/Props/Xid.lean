import Verif.Model.Xid
import Verif.Lemmas.IntText
import Verif.Lemmas.DateTime
import Verif.Lemmas.Order
/-
Properties C07, C08, C131 (identifiers).
-/
namespace Opy

/-! ## Lemmas -/

/-- Value of a list of hex digits, most significant first. -/
def hexDVal (acc : Nat) (ds : List Nat) : Nat := ds.foldl (fun a d => 16 * a + d) acc

theorem hexDVal_acc (acc : Nat) (ds : List Nat) : hexDVal acc ds = acc * 16 ^ ds.length + hexDVal 0 ds := by
  induction ds generalizing acc with
  | nil => simp [hexDVal]
  | cons d ds ih =>
    have e1 : hexDVal acc (d :: ds) = hexDVal (16 * acc + d) ds := rfl
    have e2 : hexDVal 0 (d :: ds) = hexDVal d ds := by simp [hexDVal]
    rw [e1, e2, ih (16 * acc + d), ih d, List.length_cons, Nat.pow_succ, Nat.add_mul]
    have : 16 * acc * 16 ^ ds.length = acc * (16 ^ ds.length * 16) := by
      rw [Nat.mul_comm 16 acc, Nat.mul_assoc, Nat.mul_comm 16]
    omega

theorem hexDVal_lt (ds : List Nat) (h : ∀ d ∈ ds, d < 16) : hexDVal 0 ds < 16 ^ ds.length := by
  induction ds with
  | nil => simp [hexDVal]
  | cons d ds ih =>
    have e2 : hexDVal 0 (d :: ds) = hexDVal d ds := by simp [hexDVal]
    have hd := h d (by simp)
    have := ih (fun x hx => h x (List.mem_cons_of_mem _ hx))
    rw [e2, hexDVal_acc, List.length_cons, Nat.pow_succ, Nat.mul_comm _ 16]
    have h2 : d * 16 ^ ds.length ≤ 15 * 16 ^ ds.length := Nat.mul_le_mul_right _ (by omega)
    omega

theorem hexPad_digits (w n : Nat) : ∃ ds : List Nat, ds.length = w ∧ (∀ d ∈ ds, d < 16) ∧
    hexPad w n = ds.map digitChar ∧ hexDVal 0 ds = n % 16 ^ w := by
  induction w generalizing n with
  | zero => exact ⟨[], rfl, by simp, rfl, by simp [hexDVal, Nat.mod_one]⟩
  | succ w ih =>
    obtain ⟨ds, h1, h2, h3, h4⟩ := ih (n / 16)
    refine ⟨ds ++ [n % 16], by simp [h1], ?_, by simp [hexPad, h3], ?_⟩
    · intro d hd
      rcases List.mem_append.1 hd with hd | hd
      · exact h2 d hd
      · simp at hd; omega
    · have : hexDVal 0 (ds ++ [n % 16]) = 16 * hexDVal 0 ds + n % 16 := by simp [hexDVal]
      rw [this, h4, Nat.pow_succ, Nat.mul_comm _ 16, Nat.mod_mul]
      omega

/-- Upper-case hex digit character. -/
def upDigit (d : Nat) : Char := upperChar (digitChar d)

theorem upper_digits (ds : List Nat) : upper (ds.map digitChar) = ds.map upDigit := by
  simp [upper, upDigit, List.map_map]

theorem hexVal?_upDigit {d : Nat} (h : d < 16) : hexVal? (upDigit d) = some d := by
  have : ∀ d : Fin 16, hexVal? (upDigit d.val) = some d.val := by decide
  exact this ⟨d, h⟩

theorem upDigit_lt_iff {a b : Nat} (ha : a < 16) (hb : b < 16) : (upDigit a).toNat < (upDigit b).toNat ↔ a < b := by
  have : ∀ a b : Fin 16, (upDigit a.val).toNat < (upDigit b.val).toNat ↔ a.val < b.val := by decide
  exact this ⟨a, ha⟩ ⟨b, hb⟩

theorem upDigit_ne {d : Nat} (h : d < 16) :
    upDigit d ≠ '-' ∧ upDigit d ≠ 'u' ∧ upDigit d ≠ '{' ∧ upDigit d ≠ '}' := by
  have : ∀ d : Fin 16, upDigit d.val ≠ '-' ∧ upDigit d.val ≠ 'u' ∧ upDigit d.val ≠ '{' ∧ upDigit d.val ≠ '}' := by
    decide
  exact this ⟨d, h⟩

theorem digitsNumber_hex (ds : List Nat) (h : ∀ d ∈ ds, d < 16) : digitsNumber 16 hexVal? (ds.map upDigit) = hexDVal 0 ds := by
  have key : ∀ (ds : List Nat) (acc : Nat), (∀ d ∈ ds, d < 16) →
      (ds.map upDigit).foldl (fun a c => 16 * a + (hexVal? c).getD 0) acc = hexDVal acc ds := by
    intro ds
    induction ds with
    | nil => intros; rfl
    | cons d ds ih =>
      intro acc h
      rw [List.map_cons, List.foldl_cons, hexVal?_upDigit (h d (by simp)), ih _ (fun x hx => h x (List.mem_cons_of_mem _ hx))]
      rfl
  exact key ds 0 h

theorem xidStr_shape (u : Uuid) : ∃ ds : List Nat, ds.length = 32 ∧ (∀ d ∈ ds, d < 16) ∧
    hexDVal 0 ds = u.val ∧
    xidStr u = (ds.take 8).map upDigit ++ '-' :: (((ds.drop 8).take 4).map upDigit ++ '-' ::
      (((ds.drop 12).take 4).map upDigit ++ '-' :: (((ds.drop 16).take 4).map upDigit ++ '-' ::
        (ds.drop 20).map upDigit))) := by
  obtain ⟨ds, h1, h2, h3, h4⟩ := hexPad_digits 32 u.val
  refine ⟨ds, h1, h2, ?_, ?_⟩
  · rw [h4]
    exact Nat.mod_eq_of_lt (by have := u.isLt; simp)
  · have hup : ∀ a b : Str, upper (a ++ b) = upper a ++ upper b := by intro a b; simp [upper]
    have hd : upper ['-'] = ['-'] := by decide
    simp only [xidStr, uuidStr, h3, ← List.map_take, ← List.map_drop, hup, hd, upper_digits]
    simp

theorem filter_upDigits {ds : List Nat} (h : ∀ d ∈ ds, d < 16) :
    (ds.map upDigit).filter (· ≠ '-') = ds.map upDigit := by
  rw [List.filter_eq_self]
  intro c hc
  obtain ⟨d, hd, rfl⟩ := List.mem_map.1 hc
  simpa using (upDigit_ne (h d hd)).1

theorem split5 (ds : List Nat) : ds.take 8 ++ ((ds.drop 8).take 4 ++ ((ds.drop 12).take 4 ++
    ((ds.drop 16).take 4 ++ ds.drop 20))) = ds := by
  have e1 : (ds.drop 16).take 4 ++ ds.drop 20 = ds.drop 16 := by
    have := List.take_append_drop 4 (ds.drop 16); rwa [List.drop_drop] at this
  have e2 : (ds.drop 12).take 4 ++ ds.drop 16 = ds.drop 12 := by
    have := List.take_append_drop 4 (ds.drop 12); rwa [List.drop_drop] at this
  have e3 : (ds.drop 8).take 4 ++ ds.drop 12 = ds.drop 8 := by
    have := List.take_append_drop 4 (ds.drop 8); rwa [List.drop_drop] at this
  rw [e1, e2, e3, List.take_append_drop]

theorem mem_xidStr {u : Uuid} {c : Char} (h : c ∈ xidStr u) : c = '-' ∨ ∃ d, d < 16 ∧ c = upDigit d := by
  obtain ⟨ds, h1, h2, _, h4⟩ := xidStr_shape u
  rw [h4] at h
  have key : ∀ l : List Nat, (∀ d ∈ l, d ∈ ds) → c ∈ l.map upDigit → ∃ d, d < 16 ∧ c = upDigit d := by
    intro l hl hc
    obtain ⟨d, hd, rfl⟩ := List.mem_map.1 hc
    exact ⟨d, h2 d (hl d hd), rfl⟩
  simp only [List.mem_append, List.mem_cons] at h
  rcases h with h | h | h | h | h | h | h | h | h
  · exact Or.inr (key _ (fun d hd => List.mem_of_mem_take hd) h)
  · exact Or.inl h
  · exact Or.inr (key _ (fun d hd => List.mem_of_mem_drop (List.mem_of_mem_take hd)) h)
  · exact Or.inl h
  · exact Or.inr (key _ (fun d hd => List.mem_of_mem_drop (List.mem_of_mem_take hd)) h)
  · exact Or.inl h
  · exact Or.inr (key _ (fun d hd => List.mem_of_mem_drop (List.mem_of_mem_take hd)) h)
  · exact Or.inl h
  · exact Or.inr (key _ (fun d hd => List.mem_of_mem_drop hd) h)

/-! ## Property theorems -/

/-- C07: the text of an identifier denotes that identifier. -/
theorem c07_roundtrip (u : Uuid) : xidParse (xidStr u) = some u := by
  have hu : 'u' ∉ xidStr u := by
    intro h
    rcases mem_xidStr h with h | ⟨d, hd, h⟩
    · exact absurd h (by decide)
    · exact (upDigit_ne hd).2.1 h.symm
  have hb : stripBraces (xidStr u) = xidStr u := by
    have hp : ∀ c ∈ xidStr u, (decide (c = '{') || decide (c = '}')) = false := by
      intro c hc
      rcases mem_xidStr hc with h | ⟨d, hd, h⟩
      · subst h; decide
      · subst h; simp [(upDigit_ne hd).2.2.1, (upDigit_ne hd).2.2.2]
    unfold stripBraces
    rw [dropWhile_eq_self_iff.2 (fun c hc => hp c (List.mem_of_mem_head? hc)),
      dropWhile_eq_self_iff.2 (fun c hc => hp c (by
        have := List.mem_of_mem_head? hc; simpa using this))]
    simp
  obtain ⟨ds, h1, h2, h3, h4⟩ := xidStr_shape u
  have hf : replaceAll ['-'] [] (xidStr u) = ds.map upDigit := by
    rw [replaceAll_char, h4]
    have hsub : ∀ l : List Nat, (∀ d ∈ l, d ∈ ds) → (l.map upDigit).filter (· ≠ '-') = l.map upDigit :=
      fun l hl => filter_upDigits (fun d hd => h2 d (hl d hd))
    simp only [List.filter_append, List.filter_cons, ne_eq, not_true_eq_false, decide_false,
      Bool.false_eq_true, if_false]
    have e1 := hsub _ (fun d (hd : d ∈ ds.take 8) => List.mem_of_mem_take hd)
    have e2 := hsub _ (fun d (hd : d ∈ (ds.drop 8).take 4) => List.mem_of_mem_drop (List.mem_of_mem_take hd))
    have e3 := hsub _ (fun d (hd : d ∈ (ds.drop 12).take 4) => List.mem_of_mem_drop (List.mem_of_mem_take hd))
    have e4 := hsub _ (fun d (hd : d ∈ (ds.drop 16).take 4) => List.mem_of_mem_drop (List.mem_of_mem_take hd))
    have e5 := hsub _ (fun d (hd : d ∈ ds.drop 20) => List.mem_of_mem_drop hd)
    simp only [ne_eq] at e1 e2 e3 e4 e5
    rw [e1, e2, e3, e4, e5, ← List.map_append, ← List.map_append, ← List.map_append, ← List.map_append, split5]
  unfold xidParse
  rw [replaceAll_of_not_mem (o := 'u') hu, replaceAll_of_not_mem (o := 'u') hu]
  simp only [hb, hf]
  have hh : pyInt16 (ds.map upDigit) = some (u.val : Int) := by
    rw [pyInt16_hex (by intro e; simp at e; simp [e] at h1), digitsNumber_hex ds h2, h3]
    intro c hc
    obtain ⟨d, hd, rfl⟩ := List.mem_map.1 hc
    rw [hexVal?_upDigit (h2 d hd)]; rfl
  simp only [List.length_map, h1, if_true, hh]
  rw [dif_pos ⟨by omega, by have := u.isLt; omega⟩]
  congr 1

/-- C07: two identifiers have the same text only if they are equal. -/
theorem c07_injective {u v : Uuid} (h : xidStr u = xidStr v) : u = v := by
  have h1 := c07_roundtrip u
  rw [h, c07_roundtrip v] at h1
  simpa using h1.symm

/-- C07: the text is 36 characters, each an upper-case hex digit or a hyphen. -/
theorem c07_format (u : Uuid) : (xidStr u).length = 36 ∧
    ∀ c ∈ xidStr u, c ∈ py!"0123456789ABCDEF-" := by
  constructor
  · obtain ⟨ds, h1, _, _, h4⟩ := xidStr_shape u
    rw [h4]
    simp [h1]
  · intro c hc
    rcases mem_xidStr hc with h | ⟨d, hd, h⟩
    · subst h; decide
    · subst h
      have : ∀ d : Fin 16, upDigit d.val ∈ py!"0123456789ABCDEF-" := by decide
      exact this ⟨d, hd⟩

example : xidStr ⟨0x12345678123456781234567812abcdef, by decide⟩ =
    py!"12345678-1234-5678-1234-567812ABCDEF" := by decide
example : xidParse py!"{12345678-1234-5678-1234-567812abcdef}" =
    some ⟨0x12345678123456781234567812abcdef, by decide⟩ := by decide

theorem hexy_lower {c : Char} (h : c ∈ py!"0123456789ABCDEFabcdef-") :
    hexVal? (lowerChar c) = hexVal? c ∧ (lowerChar c = '-' ↔ c = '-') ∧ lowerChar c ≠ 'u' ∧ c ≠ 'u' ∧
    (lowerChar c ≠ '{' ∧ lowerChar c ≠ '}') ∧ (c ≠ '{' ∧ c ≠ '}') := by
  revert c
  decide

theorem stripBraces_none {s : Str} (h : ∀ c ∈ s, c ≠ '{' ∧ c ≠ '}') : stripBraces s = s := by
  have hp : ∀ c ∈ s, (decide (c = '{') || decide (c = '}')) = false := by
    intro c hc; simp [(h c hc).1, (h c hc).2]
  unfold stripBraces
  rw [dropWhile_eq_self_iff.2 (fun c hc => hp c (List.mem_of_mem_head? hc)),
    dropWhile_eq_self_iff.2 (fun c hc => hp c (by
      have := List.mem_of_mem_head? hc; simpa using this))]
  simp

theorem digitsNumber_lower (s : Str) (h : ∀ c ∈ s, hexVal? (lowerChar c) = hexVal? c) :
    digitsNumber 16 hexVal? (s.map lowerChar) = digitsNumber 16 hexVal? s := by
  have key : ∀ (s : Str) (a : Nat), (∀ c ∈ s, hexVal? (lowerChar c) = hexVal? c) →
      (s.map lowerChar).foldl (fun a c => 16 * a + (hexVal? c).getD 0) a = s.foldl (fun a c => 16 * a + (hexVal? c).getD 0) a := by
    intro s
    induction s with
    | nil => intros; rfl
    | cons c s ih =>
      intro a h
      rw [List.map_cons, List.foldl_cons, List.foldl_cons, h c (by simp), ih _ (fun x hx => h x (by simp [hx]))]
  exact key s 0 h

theorem hexy_digit {c : Char} (h : c ∈ py!"0123456789ABCDEFabcdef-") (h2 : c ≠ '-') : (hexVal? c).isSome := by
  revert c
  decide

/-- C07: the letter case of the hex digits does not matter. -/
theorem c07_case (s : Str) (h : ∀ c ∈ s, c ∈ py!"0123456789ABCDEFabcdef-") : xidParse (lower s) = xidParse s := by
  have h1 : 'u' ∉ s := fun hu => (hexy_lower (h _ hu)).2.2.2.1 rfl
  have h2 : 'u' ∉ lower s := by
    intro hu
    obtain ⟨c, hc, e⟩ := List.mem_map.1 hu
    exact (hexy_lower (h c hc)).2.2.1 e
  have h3 : stripBraces s = s := stripBraces_none (fun c hc => (hexy_lower (h c hc)).2.2.2.2.2)
  have h4 : stripBraces (lower s) = lower s := stripBraces_none (fun c hc => by
    obtain ⟨d, hd, e⟩ := List.mem_map.1 hc
    subst e
    exact (hexy_lower (h d hd)).2.2.2.2.1)
  have h5 : (lower s).filter (· ≠ '-') = (s.filter (· ≠ '-')).map lowerChar := by
    unfold lower
    rw [List.filter_map]
    congr 1
    apply List.filter_congr
    intro c hc
    have := (hexy_lower (h c hc)).2.1
    simp [this]
  unfold xidParse
  rw [replaceAll_of_not_mem (o := 'u') h1, replaceAll_of_not_mem (o := 'u') h1, replaceAll_of_not_mem (o := 'u') h2,
    replaceAll_of_not_mem (o := 'u') h2]
  simp only [h3, h4, replaceAll_char, h5, List.length_map]
  by_cases hl : (s.filter (· ≠ '-')).length = 32
  · have hne : s.filter (· ≠ '-') ≠ [] := by intro e; rw [e] at hl; simp at hl
    have hall : ∀ c ∈ s.filter (· ≠ '-'), (hexVal? c).isSome := fun c hc => by
      have := List.mem_filter.1 hc
      exact hexy_digit (h c this.1) (by simpa using this.2)
    have hlow : ∀ c ∈ s.filter (· ≠ '-'), hexVal? (lowerChar c) = hexVal? c :=
      fun c hc => (hexy_lower (h c (List.mem_filter.1 hc).1)).1
    rw [pyInt16_hex hne hall, pyInt16_hex (by simpa using hne) (fun c hc => by
      obtain ⟨d, hd, rfl⟩ := List.mem_map.1 hc
      rw [hlow d hd]; exact hall d hd), digitsNumber_lower _ hlow]
  · rw [if_neg hl, if_neg hl]

example : xidParse (lower (xidStr ⟨0x12345678123456781234567812abcdef, by decide⟩)) = some ⟨0x12345678123456781234567812abcdef, by decide⟩ := by
  rw [c07_case _ (by decide), c07_roundtrip]

/-! ### C131: which texts denote an identifier -/

/-- `m` is `s` without the braces at its ends. -/
def BracesOff (s m : Str) : Prop :=
  ∃ a b, s = a ++ m ++ b ∧ (∀ c ∈ a ++ b, c = '{' ∨ c = '}') ∧ ∀ c, m.head? = some c ∨ m.getLast? = some c → c ≠ '{' ∧ c ≠ '}'

/-- What remains of the text of an identifier without `urn:`, `uuid:`, braces at the ends and hyphens. -/
def BareOf (s x : Str) : Prop :=
  ∃ m, BracesOff (replaceAll py!"uuid:" [] (replaceAll py!"urn:" [] s)) m ∧ x = m.filter (· ≠ '-')

/-- `s` says the identifier `u`. -/
def IdSays (s : Str) (u : Uuid) : Prop := ∃ x, BareOf s x ∧ x.length = 32 ∧ HexText x u.val

/-- The same as a function. -/
def bareText (s : Str) : Str :=
  replaceAll ['-'] [] (stripBraces (replaceAll py!"uuid:" [] (replaceAll py!"urn:" [] s)))

theorem dropWhile_all {p : Char → Bool} {a r : Str} (h : ∀ c ∈ a, p c = true) : (a ++ r).dropWhile p = r.dropWhile p :=
  List.dropWhile_append_of_pos h

theorem dropWhile_stop {p : Char → Bool} {r : Str} (h : ∀ c, r.head? = some c → p c = false) : r.dropWhile p = r := by
  cases r with
  | nil => rfl
  | cons c r => exact List.dropWhile_cons_of_neg (by simp [h c rfl])

theorem bracesOff_eq {s m : Str} (h : BracesOff s m) : m = stripBraces s := by
  obtain ⟨a, b, rfl, hab, hm⟩ := h
  have ha : ∀ c ∈ a, (decide (c = '{') || decide (c = '}')) = true := fun c hc => by simpa using hab c (by simp [hc])
  have hb : ∀ c ∈ b.reverse, (decide (c = '{') || decide (c = '}')) = true := fun c hc => by simpa using hab c (by simp at hc; simp [hc])
  have hn : ∀ c, c ≠ '{' ∧ c ≠ '}' → (decide (c = '{') || decide (c = '}')) = false := fun c hc => by simp [hc.1, hc.2]
  unfold stripBraces
  rw [List.append_assoc, dropWhile_all ha]
  by_cases he : m = []
  · subst he
    have : ∀ c ∈ b, (decide (c = '{') || decide (c = '}')) = true := fun c hc => by simpa using hab c (by simp [hc])
    have e : b.dropWhile (fun c => decide (c = '{') || decide (c = '}')) = [] := by
      rw [← List.append_nil b, dropWhile_all this]; rfl
    simp [e]
  · rw [dropWhile_stop (r := m ++ b) (fun c hc => hn c (hm c (.inl (by
      cases m with
      | nil => exact absurd rfl he
      | cons x m => exact hc)))),
      List.reverse_append, dropWhile_all hb, dropWhile_stop (fun c hc => hn c (hm c (.inr (by rw [List.head?_reverse] at hc; exact hc)))), List.reverse_reverse]

theorem bracesOff_strip (s : Str) : BracesOff s (stripBraces s) := by
  let p : Char → Bool := fun c => c = '{' || c = '}'
  have hp : ∀ c, p c = true → c = '{' ∨ c = '}' := fun c h => by simpa [p] using h
  have hp' : ∀ c, p c = false → c ≠ '{' ∧ c ≠ '}' := fun c h => by simpa [p] using h
  refine ⟨s.takeWhile p, ((s.dropWhile p).reverse.takeWhile p).reverse, ?_, ?_, ?_⟩
  · have h1 := List.takeWhile_append_dropWhile (p := p) (l := (s.dropWhile p).reverse)
    have h2 := congrArg List.reverse h1
    rw [List.reverse_append, List.reverse_reverse] at h2
    show s = s.takeWhile p ++ ((s.dropWhile p).reverse.dropWhile p).reverse ++ ((s.dropWhile p).reverse.takeWhile p).reverse
    rw [List.append_assoc, h2, List.takeWhile_append_dropWhile]
  · intro c hc
    simp only [List.mem_append, List.mem_reverse] at hc
    have ht : ∀ (l : Str) (c : Char), c ∈ l.takeWhile p → p c = true := by
      intro l c h
      induction l with
      | nil => cases h
      | cons d l ih =>
        by_cases hd : p d = true
        · rw [List.takeWhile_cons_of_pos hd] at h
          rcases List.mem_cons.1 h with rfl | h
          · exact hd
          · exact ih h
        · rw [List.takeWhile_cons_of_neg hd] at h; cases h
    exact hc.elim (fun h => hp c (ht _ c h)) (fun h => hp c (ht _ c h))
  · intro c hc
    have hh : ∀ (l : Str) (c : Char), (l.dropWhile p).head? = some c → p c = false := by
      intro l c h
      induction l with
      | nil => cases h
      | cons d l ih =>
        by_cases hd : p d = true
        · rw [List.dropWhile_cons_of_pos hd] at h; exact ih h
        · rw [List.dropWhile_cons_of_neg hd] at h; cases h; simpa using hd
    have hl : ∀ c, (stripBraces s).getLast? = some c → p c = false := by
      intro c h
      rw [stripBraces, List.getLast?_reverse] at h
      exact hh _ c h
    rcases hc with hc | hc
    · have : (s.dropWhile p).head? = some c := by
        have h1 := List.takeWhile_append_dropWhile (p := p) (l := (s.dropWhile p).reverse)
        have h2 := congrArg List.reverse h1
        rw [List.reverse_append, List.reverse_reverse] at h2
        rw [← h2]
        have hc' : ((s.dropWhile p).reverse.dropWhile p).reverse.head? = some c := hc
        cases hd : ((s.dropWhile p).reverse.dropWhile p).reverse with
        | nil => rw [hd] at hc'; cases hc'
        | cons x r => rw [hd] at hc'; exact hc'
      exact hp' c (hh _ c this)
    · exact hp' c (hl c hc)

theorem bareOf_iff {s x : Str} : BareOf s x ↔ x = bareText s := by
  unfold BareOf bareText
  rw [replaceAll_char]
  constructor
  · rintro ⟨m, h, rfl⟩
    rw [bracesOff_eq h]
  · rintro rfl
    exact ⟨_, bracesOff_strip _, rfl⟩

theorem idSays_iff {s : Str} {u : Uuid} : IdSays s u ↔ (bareText s).length = 32 ∧ HexText (bareText s) u.val := by
  unfold IdSays
  simp only [bareOf_iff, exists_eq_left]

theorem Numeral.lt {b : Nat} {val : Char → Option Nat} (hv : ∀ c d, val c = some d → d < b) {s : Str} {n : Nat}
    (h : Numeral b val s n) : n < b ^ s.length := by
  induction h with
  | one hd => simpa using hv _ _ hd
  | @more s n c d _ hd ih =>
    have := hv _ _ hd
    rw [List.length_append, List.length_singleton, Nat.pow_succ, Nat.mul_comm _ b]
    calc b * n + d < b * n + b := by omega
      _ = b * (n + 1) := by rw [Nat.mul_succ]
      _ ≤ b * b ^ s.length := Nat.mul_le_mul_left _ ih
  | @under s n c d _ hd ih =>
    have := hv _ _ hd
    have hb : 0 < b := by omega
    rw [List.length_append, show (['_', c] : Str).length = 2 from rfl, Nat.pow_succ, Nat.pow_succ, Nat.mul_comm _ b]
    calc b * n + d < b * n + b := by omega
      _ = b * (n + 1) := by rw [Nat.mul_succ]
      _ ≤ b * b ^ s.length := Nat.mul_le_mul_left _ ih
      _ ≤ b * (b ^ s.length * b) := Nat.mul_le_mul_left _ (Nat.le_mul_of_pos_right _ hb)

theorem hexVal?_lt {c : Char} {d : Nat} (h : hexVal? c = some d) : d < 16 := by
  unfold hexVal? at h
  cases hd : digitVal? c with
  | some x =>
    rw [hd] at h
    have := digitVal?_le hd
    simp only [Option.some.injEq] at h
    omega
  | none =>
    rw [hd] at h
    simp only at h
    split at h
    · simp only [Option.some.injEq] at h; omega
    · split at h
      · simp only [Option.some.injEq] at h; omega
      · cases h

theorem HexText.bounds {s : Str} {z : Int} (hm : '-' ∉ s) (h : HexText s z) : 0 ≤ z ∧ z.toNat < 16 ^ s.length := by
  obtain ⟨l, m, r, rfl, _, h⟩ := h
  have key : ∀ {t : Str} {n : Nat}, HexNumeral t n → n < 16 ^ t.length := by
    rintro t n ⟨p, q, rfl, _, h⟩
    have := h.lt (fun _ _ => hexVal?_lt)
    exact Nat.lt_of_lt_of_le this (Nat.pow_le_pow_right (by omega) (by simp))
  cases h with
  | none h =>
    have := key h
    refine ⟨by omega, ?_⟩
    rw [Int.toNat_natCast]
    exact Nat.lt_of_lt_of_le this (Nat.pow_le_pow_right (by omega) (by simp; omega))
  | plus h =>
    have := key h
    refine ⟨by omega, ?_⟩
    rw [Int.toNat_natCast]
    exact Nat.lt_of_lt_of_le this (Nat.pow_le_pow_right (by omega) (by simp; omega))
  | minus h => exact absurd (by simp) hm

theorem xidParse_bare (s : Str) : xidParse s = if (bareText s).length = 32 then
    match pyInt16 (bareText s) with
    | some z => if hn : 0 ≤ z ∧ z.toNat < 2 ^ 128 then some ⟨z.toNat, hn.2⟩ else none
    | none => none
  else none := rfl

/-- **C131**, exactly: the text of an identifier has 32 characters beside `urn:`, `uuid:`, braces and hyphens, and they
are a numeral of base 16 in the sense of `int`. -/
theorem c131_exact (s : Str) (u : Uuid) :
    xidParse s = some u ↔ IdSays s u := by
  rw [xidParse_bare, idSays_iff]
  constructor
  · intro h
    split at h
    · next hl =>
      refine ⟨hl, ?_⟩
      split at h
      · next z hz =>
        split at h
        · next hn =>
          simp only [Option.some.injEq] at h
          subst h
          have := pyInt16_iff.1 hz
          have e : ((z.toNat : Nat) : Int) = z := by omega
          simpa [e] using this
        · cases h
      · cases h
    · cases h
  · rintro ⟨hl, hx⟩
    rw [if_pos hl, pyInt16_iff.2 hx]
    simp only
    rw [dif_pos ⟨by omega, by have := u.isLt; omega⟩]
    congr 1

/-- **C131**: a numeral of 32 characters always is an identifier. -/
theorem c131_in_range (s : Str) (hl : (bareText s).length = 32) :
    (∃ u, xidParse s = some u) ↔ ∃ z, HexText (bareText s) z := by
  constructor
  · rintro ⟨u, hu⟩; exact ⟨_, (idSays_iff.1 ((c131_exact s u).1 hu)).2⟩
  · rintro ⟨z, hz⟩
    have hm : '-' ∉ bareText s := by
      unfold bareText
      rw [replaceAll_char]
      simp
    obtain ⟨h1, h2⟩ := hz.bounds hm
    rw [hl] at h2
    refine ⟨⟨z.toNat, by simpa using h2⟩, (c131_exact _ _).2 (idSays_iff.2 ⟨hl, ?_⟩)⟩
    have e : ((z.toNat : Nat) : Int) = z := by omega
    simpa [e] using hz

/-- **C131** as stated holds for texts of hexadecimal digits and hyphens: they denote an identifier exactly if they
have 32 digits, and then the identifier has these digits. -/
theorem c131_digits_partial (s : Str) (h : ∀ c ∈ s, c ∈ py!"0123456789ABCDEFabcdef-") :
    ((∃ u, xidParse s = some u) ↔ (s.filter (· ≠ '-')).length = 32) ∧
    ∀ u, xidParse s = some u → (xidStr u).filter (· ≠ '-') = upper (s.filter (· ≠ '-')) := by
  have h1 : 'u' ∉ s := fun hu => (hexy_lower (h _ hu)).2.2.2.1 rfl
  have hb : bareText s = s.filter (· ≠ '-') := by
    unfold bareText
    rw [replaceAll_of_not_mem (o := 'u') h1, replaceAll_of_not_mem (o := 'u') h1,
      stripBraces_none (fun c hc => (hexy_lower (h c hc)).2.2.2.2.2), replaceAll_char]
  have hall : ∀ c ∈ s.filter (· ≠ '-'), (hexVal? c).isSome := fun c hc => by
    have := List.mem_filter.1 hc
    exact hexy_digit (h c this.1) (by simpa using this.2)
  refine ⟨⟨fun ⟨u, hu⟩ => by rw [← hb]; exact (idSays_iff.1 ((c131_exact s u).1 hu)).1, fun hl => ?_⟩, fun u hu => ?_⟩
  · rw [c131_in_range s (by rw [hb]; exact hl), hb]
    exact ⟨_, pyInt16_iff.1 (pyInt16_hex (by intro e; rw [e] at hl; simp at hl) hall)⟩
  · have hl : (s.filter (· ≠ '-')).length = 32 := by rw [← hb]; exact (idSays_iff.1 ((c131_exact s u).1 hu)).1
    have hx := (idSays_iff.1 ((c131_exact s u).1 hu)).2
    rw [hb] at hx
    have e1 := pyInt16_iff.2 hx
    rw [pyInt16_hex (by intro e; rw [e] at hl; simp at hl) hall] at e1
    simp only [Option.some.injEq] at e1
    obtain ⟨ds, k1, k2, k3, k4⟩ := xidStr_shape u
    have ef : (xidStr u).filter (· ≠ '-') = ds.map upDigit := by
      have hsub : ∀ l : List Nat, (∀ d ∈ l, d ∈ ds) → (l.map upDigit).filter (· ≠ '-') = l.map upDigit :=
        fun l hl => filter_upDigits (fun d hd => k2 d (hl d hd))
      rw [k4]
      simp only [List.filter_append, List.filter_cons, ne_eq, not_true_eq_false, decide_false,
        Bool.false_eq_true, if_false]
      have e1 := hsub _ (fun d (hd : d ∈ ds.take 8) => List.mem_of_mem_take hd)
      have e2 := hsub _ (fun d (hd : d ∈ (ds.drop 8).take 4) => List.mem_of_mem_drop (List.mem_of_mem_take hd))
      have e3 := hsub _ (fun d (hd : d ∈ (ds.drop 12).take 4) => List.mem_of_mem_drop (List.mem_of_mem_take hd))
      have e4 := hsub _ (fun d (hd : d ∈ (ds.drop 16).take 4) => List.mem_of_mem_drop (List.mem_of_mem_take hd))
      have e5 := hsub _ (fun d (hd : d ∈ ds.drop 20) => List.mem_of_mem_drop hd)
      simp only [ne_eq] at e1 e2 e3 e4 e5
      rw [e1, e2, e3, e4, e5, ← List.map_append, ← List.map_append, ← List.map_append, ← List.map_append, split5]
    rw [ef]
    -- the digits of the text, as numbers
    have hup : ∀ c ∈ s.filter (· ≠ '-'), ∃ d, d < 16 ∧ hexVal? c = some d ∧ upperChar c = upDigit d := by
      intro c hc
      have hm := List.mem_filter.1 hc
      have : ∀ c ∈ py!"0123456789ABCDEFabcdef", ∃ d : Fin 16, hexVal? c = some d.val ∧ upperChar c = upDigit d.val := by decide
      have hc' : c ∈ py!"0123456789ABCDEFabcdef" := by
        have h0 := h c hm.1
        have h3 : c ≠ '-' := by simpa using hm.2
        clear hm hc
        revert c
        decide
      obtain ⟨d, hd1, hd2⟩ := this c hc'
      exact ⟨d.val, d.isLt, hd1, hd2⟩
    have hes : ∀ t : Str, (∀ c ∈ t, ∃ d, d < 16 ∧ hexVal? c = some d ∧ upperChar c = upDigit d) →
        ∃ es : List Nat, es.length = t.length ∧ (∀ d ∈ es, d < 16) ∧ upper t = es.map upDigit ∧
          ∀ a, t.foldl (fun a c => 16 * a + (hexVal? c).getD 0) a = hexDVal a es := by
      intro t
      induction t with
      | nil => intro _; exact ⟨[], rfl, by simp, rfl, fun _ => rfl⟩
      | cons c t ih =>
        intro ht
        obtain ⟨es, q1, q2, q3, q4⟩ := ih (fun x hx => ht x (by simp [hx]))
        obtain ⟨d, r1, r2, r3⟩ := ht c (by simp)
        refine ⟨d :: es, by simp [q1], ?_, ?_, ?_⟩
        · intro x hx
          rcases List.mem_cons.1 hx with rfl | hx
          · exact r1
          · exact q2 x hx
        · simp only [upper, List.map_cons] at q3 ⊢
          rw [q3, r3]
        · intro a
          rw [List.foldl_cons, q4, r2]
          rfl
    obtain ⟨es, q1, q2, q3, q4⟩ := hes _ hup
    rw [q3]
    have hval : hexDVal 0 es = hexDVal 0 ds := by
      rw [k3, ← q4 0]
      exact_mod_cast e1
    -- equal numbers of equally many digits have the same digits
    have inj : ∀ (ds es : List Nat), ds.length = es.length → (∀ d ∈ ds, d < 16) → (∀ d ∈ es, d < 16) →
        hexDVal 0 ds = hexDVal 0 es → ds = es := by
      intro ds
      induction ds with
      | nil => intro es hl _ _ _; cases es with
        | nil => rfl
        | cons _ _ => simp at hl
      | cons d ds ih =>
        intro es hl hd he hv
        cases es with
        | nil => simp at hl
        | cons e es =>
          have hl' : ds.length = es.length := by simpa using hl
          have e1 : hexDVal 0 (d :: ds) = hexDVal d ds := by simp [hexDVal]
          have e2 : hexDVal 0 (e :: es) = hexDVal e es := by simp [hexDVal]
          have l1 := hexDVal_lt ds (fun x hx => hd x (List.mem_cons_of_mem _ hx))
          have l2 := hexDVal_lt es (fun x hx => he x (List.mem_cons_of_mem _ hx))
          rw [e1, e2, hexDVal_acc d, hexDVal_acc e, ← hl'] at hv
          rw [← hl'] at l2
          have hde : d = e := by
            rcases Nat.lt_trichotomy d e with hlt | heq | hgt
            · have : (d + 1) * 16 ^ ds.length ≤ e * 16 ^ ds.length := Nat.mul_le_mul_right _ hlt
              rw [Nat.add_mul] at this
              omega
            · exact heq
            · have : (e + 1) * 16 ^ ds.length ≤ d * 16 ^ ds.length := Nat.mul_le_mul_right _ hgt
              rw [Nat.add_mul] at this
              omega
          subst hde
          rw [ih es hl' (fun x hx => hd x (List.mem_cons_of_mem _ hx)) (fun x hx => he x (List.mem_cons_of_mem _ hx)) (by omega)]
    rw [inj ds es (by rw [q1, hl, k1]) k2 q2 hval.symm]

/-- **C131** fails for other texts: thirty digits behind `0x` denote an identifier, and so do digits behind a sign or white
space, digits with underscores in between, and digits of another script. -/
theorem c131_refuted : ∀ s ∈ [py!"0x345678-1234-5678-1234-567812abcdef", py!"+2345678-1234-5678-1234-567812abcdef",
      py!"  345678-1234-5678-1234-567812abcdef", py!"1_345678-1234-5678-1234-567812abcdef",
      py!"१२३४५६७८-1234-5678-1234-567812abcdef"],
    (∃ u, xidParse s = some u) ∧ (s.filter (· ∈ py!"0123456789ABCDEFabcdef")).length ≠ 32 := by
  have key : ∀ s ∈ [py!"0x345678-1234-5678-1234-567812abcdef", py!"+2345678-1234-5678-1234-567812abcdef",
      py!"  345678-1234-5678-1234-567812abcdef", py!"1_345678-1234-5678-1234-567812abcdef",
      py!"१२३४५६७८-1234-5678-1234-567812abcdef"],
      (xidParse s).isSome ∧ (s.filter (· ∈ py!"0123456789ABCDEFabcdef")).length ≠ 32 := by decide +kernel
  intro s hs
  exact ⟨Option.isSome_iff_exists.1 (key s hs).1, (key s hs).2⟩

/-- Two of these texts and the identifiers that they denote. -/
example : xidParse py!"0x345678-1234-5678-1234-567812abcdef" = some ⟨0x345678123456781234567812abcdef, by decide⟩ ∧
    xidParse py!"१२३४५६७८-1234-5678-1234-567812abcdef" = some ⟨0x12345678123456781234567812abcdef, by decide⟩ := by
  decide +kernel

example : ∃ s, (∀ c ∈ s, c ∈ py!"0123456789ABCDEFabcdef-") ∧ (s.filter (· ≠ '-')).length = 32 ∧ s.length = 34 ∧
    xidParse s = some ⟨0x12345678123456781234567812abcdef, by decide⟩ :=
  ⟨py!"-12345678123456781234567812abcDEF-", by decide +kernel⟩

/-- The parts of the exact statement for a text with a prefix. -/
example : (bareText py!"urn:uuid:{0x345678-1234-5678-1234-567812abcdef}").length = 32 ∧
    HexText (bareText py!"urn:uuid:{0x345678-1234-5678-1234-567812abcdef}") 0x345678123456781234567812abcdef := by
  refine ⟨by decide +kernel, pyInt16_iff.1 (by decide +kernel)⟩

/-- C08: comparison gives 0 exactly for equal identifiers. -/
theorem c08_zero_iff (a b : Uuid) : xidCompare a b = 0 ↔ a = b := by
  unfold xidCompare
  split
  · next h => simp [h]
  · next h => split <;> simp [h]

/-- C08: comparison is antisymmetric. -/
theorem c08_antisymm (a b : Uuid) : xidCompare a b = - xidCompare b a := by
  unfold xidCompare
  by_cases h : a = b
  · simp [h]
  · have h' : ¬ b = a := fun e => h e.symm
    have hne : a.val ≠ b.val := fun e => h (Fin.ext e)
    by_cases h1 : b < a
    · have h2 : ¬ a < b := by rw [Fin.lt_def] at *; omega
      simp [h, h', h1, h2]
    · have h2 : a < b := by rw [Fin.lt_def] at *; omega
      simp [h, h', h1, h2]

/-- C08: comparison is transitive. -/
theorem c08_trans {a b c : Uuid} (h1 : xidCompare a b ≤ 0) (h2 : xidCompare b c ≤ 0) :
    xidCompare a c ≤ 0 := by
  have key : ∀ x y : Uuid, xidCompare x y ≤ 0 ↔ x.val ≤ y.val := by
    intro x y
    unfold xidCompare
    split
    · next h => simp [h]
    · next h =>
      split
      · next h' => rw [Fin.lt_def] at h'; constructor <;> intro; · omega
                   · omega
      · next h' => rw [Fin.lt_def] at h'; constructor <;> intro; · omega
                   · omega
  rw [key] at *
  omega

theorem strLt_upDigits {ds es : List Nat} (h : ds.length = es.length) (hd : ∀ d ∈ ds, d < 16)
    (he : ∀ d ∈ es, d < 16) : strLt (ds.map upDigit) (es.map upDigit) = decide (hexDVal 0 ds < hexDVal 0 es) := by
  induction ds generalizing es with
  | nil =>
    have : es = [] := by simpa using h.symm
    subst this
    rfl
  | cons d ds ih =>
    cases es with
    | nil => simp at h
    | cons e es =>
      have hl : ds.length = es.length := by simpa using h
      have hd' := hd d (by simp)
      have he' := he e (by simp)
      have e1 : hexDVal 0 (d :: ds) = hexDVal d ds := by simp [hexDVal]
      have e2 : hexDVal 0 (e :: es) = hexDVal e es := by simp [hexDVal]
      have l1 := hexDVal_lt ds (fun x hx => hd x (List.mem_cons_of_mem _ hx))
      have l2 := hexDVal_lt es (fun x hx => he x (List.mem_cons_of_mem _ hx))
      rw [e1, e2, hexDVal_acc d, hexDVal_acc e, ← hl]
      rw [← hl] at l2
      simp only [List.map_cons, strLt, upDigit_lt_iff hd' he', upDigit_lt_iff he' hd']
      rw [ih hl (fun x hx => hd x (List.mem_cons_of_mem _ hx)) (fun x hx => he x (List.mem_cons_of_mem _ hx))]
      rcases Nat.lt_trichotomy d e with hlt | heq | hgt
      · rw [if_pos hlt]
        have : (d + 1) * 16 ^ ds.length ≤ e * 16 ^ ds.length := Nat.mul_le_mul_right _ hlt
        rw [Nat.add_mul] at this
        symm
        simp only [decide_eq_true_eq]
        omega
      · subst heq
        simp
      · rw [if_neg (by omega), if_pos hgt]
        have : (e + 1) * 16 ^ ds.length ≤ d * 16 ^ ds.length := Nat.mul_le_mul_right _ hgt
        rw [Nat.add_mul] at this
        symm
        simp only [decide_eq_false_iff_not]
        omega

/-- C08: the order of identifiers is the order of their texts. -/
theorem c08_text_order (a b : Uuid) : xidCompare a b < 0 ↔ strLt (xidStr a) (xidStr b) = true := by
  obtain ⟨ds, h1, h2, h3, h4⟩ := xidStr_shape a
  obtain ⟨es, k1, k2, k3, k4⟩ := xidStr_shape b
  have hord : strLt (xidStr a) (xidStr b) = strLt (ds.map upDigit) (es.map upDigit) := by
    rw [h4, k4, strLt_insert _ (by simp [h1, k1])]
    simp only [← List.append_assoc]
    rw [strLt_insert _ (by simp [h1, k1])]
    simp only [← List.append_assoc]
    rw [strLt_insert _ (by simp [h1, k1])]
    simp only [← List.append_assoc]
    rw [strLt_insert _ (by simp [h1, k1])]
    simp only [List.append_assoc, ← List.map_append, split5]
  rw [hord, strLt_upDigits (by omega) h2 k2, h3, k3]
  simp only [decide_eq_true_eq]
  unfold xidCompare
  by_cases h : a = b
  · simp [h]
  · have hne : a.val ≠ b.val := fun e => h (Fin.ext e)
    rw [if_neg h]
    by_cases h' : b < a
    · rw [if_pos h']; rw [Fin.lt_def] at h'; simp; omega
    · rw [if_neg h']; rw [Fin.lt_def] at h'; simp; omega

example : xidCompare ⟨5, by decide⟩ ⟨255, by decide⟩ = -1 := by decide

end Opy
