import Verif.Model.DateTime
import Verif.Lemmas.IntText
/-
What `datetime.strptime` matches: the texts of the fields, and formats whose fields are separated.
-/
namespace Opy

/-! ## Spec of the fields -/

/-- A decimal digit of any script. -/
def IsDigit (c : Char) : Prop := (digitVal? c).isSome

/-- Between `lo` and `hi` decimal digits 0 to 9. -/
def Digits (s : Str) (lo hi : Nat) : Prop := lo ≤ s.length ∧ s.length ≤ hi ∧ ∀ c ∈ s, c ∈ py!"0123456789"

/-- The number that digits stand for (a blank in front does not count). -/
def number (s : Str) : Nat := digitsNumber 10 digitVal? s

/-- One or two digits.  A single digit may be of any script; so may the second one behind one of `first`. -/
def OneTwo (first : Str) (s : Str) : Prop :=
  Digits s 1 2 ∨ (∃ c, IsDigit c ∧ s = [c]) ∨ ∃ a ∈ first, ∃ c, IsDigit c ∧ s = [a, c]

/-- The text of a day: one or two digits, or a blank and a digit; behind 1 and 2 the second digit may be of any script. -/
def DayText (s : Str) : Prop :=
  Digits s 1 2 ∨ (∃ a ∈ py!"12", ∃ c, IsDigit c ∧ s = [a, c]) ∨ ∃ c, Digits [c] 1 1 ∧ s = [' ', c]

/-- The text of a year: four digits of any script. -/
def YearText (s : Str) : Prop := s.length = 4 ∧ ∀ c ∈ s, IsDigit c

/-! ## Characters and alternatives -/

/-- The text that an alternative matches. -/
inductive Fits : List Cls → Str → Prop
  | nil : Fits [] []
  | cons {k : Cls} {ks : List Cls} {c : Char} {s : Str} : k.test c = true → Fits ks s → Fits (k :: ks) (c :: s)

theorem fits_nil {s : Str} : Fits [] s ↔ s = [] :=
  ⟨fun h => by cases h; rfl, fun h => h ▸ .nil⟩

theorem fits_cons {k : Cls} {ks : List Cls} {s : Str} : Fits (k :: ks) s ↔ ∃ c t, s = c :: t ∧ k.test c = true ∧ Fits ks t := by
  constructor
  · intro h; cases h with | cons h1 h2 => exact ⟨_, _, rfl, h1, h2⟩
  · rintro ⟨c, t, rfl, h1, h2⟩; exact .cons h1 h2

theorem Fits.length {a : List Cls} {s : Str} (h : Fits a s) : s.length = a.length := by
  induction h with
  | nil => rfl
  | cons _ _ ih => simp [ih]

theorem Fits.mem {a : List Cls} {s : Str} (h : Fits a s) {c : Char} (hc : c ∈ s) : ∃ k ∈ a, k.test c = true := by
  induction h with
  | nil => simp at hc
  | cons h1 _ ih =>
    rcases List.mem_cons.1 hc with rfl | hc
    · exact ⟨_, by simp, h1⟩
    · obtain ⟨k, hk, h⟩ := ih hc; exact ⟨k, by simp [hk], h⟩

theorem matchCls_iff {a : List Cls} {s m r : Str} : matchCls a s = some (m, r) ↔ s = m ++ r ∧ Fits a m := by
  induction a generalizing s m with
  | nil =>
    simp only [matchCls, Option.some.injEq, Prod.mk.injEq, fits_nil]
    constructor
    · rintro ⟨rfl, rfl⟩; exact ⟨rfl, rfl⟩
    · rintro ⟨rfl, rfl⟩; exact ⟨rfl, rfl⟩
  | cons k ks ih =>
    cases s with
    | nil =>
      simp only [matchCls, reduceCtorEq, false_iff]
      rintro ⟨h1, h2⟩
      obtain ⟨c, t, rfl, _⟩ := fits_cons.1 h2
      simp at h1
    | cons c s =>
      simp only [matchCls]
      constructor
      · intro h
        split at h
        · next hk =>
          simp only [Option.map_eq_some_iff, Prod.mk.injEq, Prod.exists] at h
          obtain ⟨m', r', h1, rfl, rfl⟩ := h
          obtain ⟨rfl, h2⟩ := ih.1 h1
          exact ⟨rfl, .cons hk h2⟩
        · cases h
      · rintro ⟨h1, h2⟩
        obtain ⟨c', t, rfl, h3, h4⟩ := fits_cons.1 h2
        simp only [List.cons_append, List.cons.injEq] at h1
        obtain ⟨rfl, rfl⟩ := h1
        rw [if_pos h3, ih.2 ⟨rfl, h4⟩]
        rfl

theorem findSome?_const {α β : Type} {f : α → Option β} {v : Option β} : ∀ {l : List α},
    (∀ a ∈ l, f a = none ∨ f a = v) → (∃ a ∈ l, f a = v) → l.findSome? f = v
  | [], _, h => by obtain ⟨a, ha, _⟩ := h; simp at ha
  | a :: l, h1, h2 => by
    rw [List.findSome?_cons]
    cases hv : v with
    | none =>
      have : ∀ b ∈ a :: l, f b = none := fun b hb => by
        rcases h1 b hb with h | h
        · exact h
        · rw [h, hv]
      rw [this a (by simp)]
      simp only
      rw [List.findSome?_eq_none_iff]
      exact fun b hb => this b (by simp [hb])
    | some x =>
      cases ha : f a with
      | some y =>
        rcases h1 a (by simp) with h | h
        · rw [ha] at h; cases h
        · rw [ha, hv] at h; exact h
      | none =>
        simp only
        rw [← hv]
        apply findSome?_const (fun b hb => h1 b (by simp [hb]))
        obtain ⟨b, hb, h⟩ := h2
        rcases List.mem_cons.1 hb with rfl | hb
        · rw [ha, hv] at h; cases h
        · exact ⟨b, hb, h⟩

/-! ## Soundness: what a match consists of -/

/-- A text in pieces. -/
inductive Pieces : List FmtItem → Str → List (Char × Str) → Str → Prop
  | nil {s : Str} : Pieces [] s [] s
  | lit {c x : Char} {is : List FmtItem} {s e : Str} {g : List (Char × Str)} :
    litEq c x = true → Pieces is s g e → Pieces (.lit c :: is) (x :: s) g e
  | spaces {w : Str} {is : List FmtItem} {s e : Str} {g : List (Char × Str)} :
    w ≠ [] → (∀ c ∈ w, isSpace c = true) → Pieces is s g e → Pieces (.spaces :: is) (w ++ s) g e
  | field {k : Char} {alts : List (List Cls)} {a : List Cls} {m : Str} {is : List FmtItem} {s e : Str} {g : List (Char × Str)} :
    a ∈ alts → Fits a m → Pieces is s g e → Pieces (.field k alts :: is) (m ++ s) ((k, m) :: g) e

theorem matchItems_pieces : ∀ (is : List FmtItem) {s e : Str} {g : List (Char × Str)}, matchItems is s = some (g, e) → Pieces is s g e
  | [], s, e, g, h => by
    simp only [matchItems, Option.some.injEq, Prod.mk.injEq] at h
    obtain ⟨rfl, rfl⟩ := h
    exact .nil
  | .lit c :: is, [], e, g, h => by simp [matchItems] at h
  | .lit c :: is, x :: s, e, g, h => by
    simp only [matchItems] at h
    split at h
    · next hc => exact .lit hc (matchItems_pieces is h)
    · cases h
  | .spaces :: is, s, e, g, h => by
    simp only [matchItems] at h
    obtain ⟨n, hn, h⟩ := List.exists_of_findSome?_eq_some h
    have hn' : n < (s.takeWhile isSpace).length := by simpa using hn
    have hw : ∀ c ∈ s.take (n + 1), isSpace c = true := by
      intro c hc
      have : s.take (n + 1) = (s.takeWhile isSpace).take (n + 1) := by
        conv => lhs; rw [← List.takeWhile_append_dropWhile (p := isSpace) (l := s)]
        rw [List.take_append_of_le_length (by omega)]
      rw [this] at hc
      exact mem_takeWhile_pos (List.mem_of_mem_take hc)
    have hne : s.take (n + 1) ≠ [] := by
      intro h0
      have : s = [] := by simpa using h0
      subst this
      simp at hn'
    have := Pieces.spaces hne hw (matchItems_pieces is h)
    rwa [List.take_append_drop] at this
  | .field k alts :: is, s, e, g, h => by
    simp only [matchItems] at h
    obtain ⟨a, ha, h⟩ := List.exists_of_findSome?_eq_some h
    split at h
    · cases h
    · next m r hm =>
      simp only [Option.map_eq_some_iff, Prod.mk.injEq, Prod.exists] at h
      obtain ⟨g', e', h1, rfl, rfl⟩ := h
      obtain ⟨rfl, hf⟩ := matchCls_iff.1 hm
      exact .field ha hf (matchItems_pieces is h1)
  | .foreign :: is, s, e, g, h => by simp [matchItems] at h

/-! ## Completeness for separated fields -/

/-- No character of the field is matched by the literal. -/
def LitApart (alts : List (List Cls)) (c : Char) : Prop := ∀ a ∈ alts, ∀ k ∈ a, ∀ y, litEq c y = true → k.test y = false

theorem match_field_lit {k c x : Char} {alts : List (List Cls)} {is : List FmtItem} {t rest : Str}
    (ht : ∃ a ∈ alts, Fits a t) (hx : litEq c x = true) (hd : LitApart alts c) :
    matchItems (.field k alts :: .lit c :: is) (t ++ x :: rest) = (matchItems is rest).map fun p => ((k, t) :: p.1, p.2) := by
  rw [matchItems]
  have hall : ∀ y ∈ t, litEq c y = false := by
    intro y hy
    obtain ⟨a, ha, hf⟩ := ht
    obtain ⟨k, hk, h⟩ := hf.mem hy
    cases hl : litEq c y with
    | false => rfl
    | true => rw [hd a ha k hk y hl] at h; cases h
  apply findSome?_const
  · intro a ha
    cases hm : matchCls a (t ++ x :: rest) with
    | none => exact .inl rfl
    | some p =>
      obtain ⟨m, r⟩ := p
      obtain ⟨h1, h2⟩ := matchCls_iff.1 hm
      rcases List.append_eq_append_iff.1 h1 with ⟨u, rfl, h3⟩ | ⟨u, rfl, rfl⟩
      · -- the match is longer: it would contain the literal
        cases u with
        | nil =>
          simp only [List.nil_append] at h3
          subst h3
          right
          simp [matchItems, hx]
        | cons y u =>
          simp only [List.cons_append, List.cons.injEq] at h3
          obtain ⟨rfl, rfl⟩ := h3
          obtain ⟨k', hk', h4⟩ := h2.mem (c := x) (by simp)
          rw [hd a ha k' hk' x hx] at h4
          cases h4
      · cases u with
        | nil =>
          right
          simp [matchItems, hx]
        | cons y u =>
          left
          simp [matchItems, hall y (by simp)]
  · obtain ⟨a, ha, hf⟩ := ht
    refine ⟨a, ha, ?_⟩
    rw [matchCls_iff.2 ⟨rfl, hf⟩]
    simp [matchItems, hx]

theorem match_field_end {k : Char} {alts : List (List Cls)} {t : Str} (ht : ∃ a ∈ alts, Fits a t)
    (hl : alts.Pairwise fun a b => b.length ≤ a.length) : matchItems [.field k alts] t = some ([(k, t)], []) := by
  rw [matchItems]
  induction alts with
  | nil => obtain ⟨a, ha, _⟩ := ht; simp at ha
  | cons b alts ih =>
    rw [List.findSome?_cons]
    obtain ⟨a, ha, hf⟩ := ht
    rw [List.pairwise_cons] at hl
    cases hm : matchCls b t with
    | none =>
      simp only
      apply ih ⟨a, ?_, hf⟩ hl.2
      rcases List.mem_cons.1 ha with rfl | ha
      · rw [matchCls_iff.2 ⟨(List.append_nil t).symm, hf⟩] at hm; cases hm
      · exact ha
    | some p =>
      obtain ⟨m, r⟩ := p
      obtain ⟨h1, h2⟩ := matchCls_iff.1 hm
      have hlen : t.length ≤ m.length := by
        rw [h2.length, hf.length]
        rcases List.mem_cons.1 ha with rfl | ha
        · exact Nat.le_refl _
        · exact hl.1 a ha
      have : r = [] := by
        have := congrArg List.length h1
        rw [List.length_append] at this
        exact List.length_eq_zero_iff.1 (by omega)
      subst this
      rw [List.append_nil] at h1
      subst h1
      simp [matchItems]

/-! ## Literals -/

theorem lowerChar_cases (c : Char) : (lowerChar c = c ∧ ¬ (65 ≤ c.toNat ∧ c.toNat ≤ 90)) ∨
    ((65 ≤ c.toNat ∧ c.toNat ≤ 90) ∧ (lowerChar c).toNat = c.toNat + 32) := by
  unfold lowerChar
  have e1 : 'A'.toNat = 65 := rfl
  have e2 : 'Z'.toNat = 90 := rfl
  rw [e1, e2]
  split
  · next h =>
    right
    refine ⟨h, ?_⟩
    have hn : c.toNat - 65 < 26 := by omega
    have key : ∀ d : Fin 26, (Char.ofNat (d.val + 65 + 32)).toNat = d.val + 65 + 32 := by decide
    have := key ⟨c.toNat - 65, hn⟩
    simp only at this
    rwa [Nat.sub_add_cancel h.1] at this
  · next h => exact .inl ⟨rfl, h⟩

/-- A literal that is not a letter of ASCII matches only itself. -/
theorem litEq_plain {c y : Char} (h1 : ¬ (65 ≤ c.toNat ∧ c.toNat ≤ 90)) (h2 : ¬ (97 ≤ c.toNat ∧ c.toNat ≤ 122)) :
    litEq c y = true ↔ y = c := by
  have hl : lowerChar c = c := by
    rcases lowerChar_cases c with h | h
    · exact h.1
    · exact absurd h.1 h1
  have n1 : c ≠ 'i' := by rintro rfl; exact h2 (by decide)
  have n2 : c ≠ 's' := by rintro rfl; exact h2 (by decide)
  have n3 : c ≠ 'k' := by rintro rfl; exact h2 (by decide)
  unfold litEq
  rw [hl]
  simp only [beq_eq_false_iff_ne.2 n1, beq_eq_false_iff_ne.2 n2, beq_eq_false_iff_ne.2 n3, Bool.false_and, Bool.or_false, beq_iff_eq]
  constructor
  · intro h
    rcases lowerChar_cases y with h3 | h3
    · rw [h, h3.1]
    · rw [← h] at h3
      exact absurd ⟨by omega, by omega⟩ h2
  · rintro rfl; exact hl.symm

theorem litEq_self (c : Char) : litEq c c = true := by simp [litEq]

theorem litEq_T {y : Char} : litEq 'T' y = true ↔ y = 'T' ∨ y = 't' := by
  have e : lowerChar 'T' = 't' := by decide
  unfold litEq
  rw [e]
  have n1 : ('t' == 'i') = false := by decide
  have n2 : ('t' == 's') = false := by decide
  have n3 : ('t' == 'k') = false := by decide
  simp only [n1, n2, n3, Bool.false_and, Bool.or_false, beq_iff_eq]
  constructor
  · intro h
    rcases lowerChar_cases y with h3 | h3
    · right; rw [h, h3.1]
    · left
      rw [← h] at h3
      have : y.toNat = 84 := by have := h3.2; have : 't'.toNat = 116 := rfl; omega
      rw [← Char.ofNat_toNat y, this]
  · rintro (rfl | rfl) <;> decide

theorem apart_plain {alts : List (List Cls)} {c : Char} (h1 : ¬ (65 ≤ c.toNat ∧ c.toNat ≤ 90)) (h2 : ¬ (97 ≤ c.toNat ∧ c.toNat ≤ 122))
    (h : ∀ a ∈ alts, ∀ k ∈ a, k.test c = false) : LitApart alts c :=
  fun a ha k hk y hy => by rw [(litEq_plain h1 h2).1 hy]; exact h a ha k hk

/-! ## Separated formats -/

/-- Formats whose fields are followed by a literal that no character of the field matches, or by nothing. -/
inductive Separated : List FmtItem → Prop
  | nil : Separated []
  | lit {c : Char} {is : List FmtItem} : Separated is → Separated (.lit c :: is)
  | last {k : Char} {alts : List (List Cls)} : (alts.Pairwise fun a b => b.length ≤ a.length) → Separated [.field k alts]
  | field {k c : Char} {alts : List (List Cls)} {is : List FmtItem} : LitApart alts c → Separated is → Separated (.field k alts :: .lit c :: is)

/-- For such formats the search finds every way to cut the text into pieces; so there is at most one. -/
theorem matchItems_complete {is : List FmtItem} (h : Separated is) : ∀ {s e : Str} {g : List (Char × Str)}, e = [] → Pieces is s g e → matchItems is s = some (g, e) := by
  induction h with
  | nil => intro s e g _ h; cases h; rfl
  | lit _ ih =>
    intro s e g he h
    cases h with
    | lit h1 h2 => rw [matchItems]; simp only [h1, if_true]; exact ih he h2
  | last hp =>
    intro s e g he h
    subst he
    cases h with
    | @field _ _ a m _ s' _ g' ha hf h2 =>
      cases h2
      rw [List.append_nil]
      exact match_field_end ⟨a, ha, hf⟩ hp
  | field hd _ ih =>
    intro s e g he h
    cases h with
    | @field _ _ a m _ s' _ g' ha hf h2 =>
      cases h2 with
      | lit h3 h4 =>
        rw [match_field_lit ⟨a, ha, hf⟩ h3 hd, ih he h4]
        rfl

theorem matchItems_iff {is : List FmtItem} (h : Separated is) {s : Str} {g : List (Char × Str)} :
    matchItems is s = some (g, []) ↔ Pieces is s g [] :=
  ⟨matchItems_pieces is, matchItems_complete h rfl⟩

theorem pieces_nil {s e : Str} {g : List (Char × Str)} : Pieces [] s g e ↔ g = [] ∧ s = e := by
  constructor
  · intro h; cases h; exact ⟨rfl, rfl⟩
  · rintro ⟨rfl, rfl⟩; exact .nil

theorem pieces_lit {c : Char} {is : List FmtItem} {s e : Str} {g : List (Char × Str)} :
    Pieces (.lit c :: is) s g e ↔ ∃ x t, s = x :: t ∧ litEq c x = true ∧ Pieces is t g e := by
  constructor
  · intro h; cases h with | lit h1 h2 => exact ⟨_, _, rfl, h1, h2⟩
  · rintro ⟨x, t, rfl, h1, h2⟩; exact .lit h1 h2

theorem pieces_field {k : Char} {alts : List (List Cls)} {is : List FmtItem} {s e : Str} {g : List (Char × Str)} :
    Pieces (.field k alts :: is) s g e ↔ ∃ m t g', s = m ++ t ∧ g = (k, m) :: g' ∧ (∃ a ∈ alts, Fits a m) ∧ Pieces is t g' e := by
  constructor
  · intro h; cases h with | field h1 h2 h3 => exact ⟨_, _, _, rfl, rfl, ⟨_, h1, h2⟩, h3⟩
  · rintro ⟨m, t, g', rfl, rfl, ⟨a, h1, h2⟩, h3⟩; exact .field h1 h2 h3

/-! ## The texts of the fields -/

theorem ex_mem_cons {α : Type} {p : α → Prop} {x : α} {l : List α} : (∃ a ∈ x :: l, p a) ↔ p x ∨ ∃ a ∈ l, p a := by
  simp

theorem digit_iff {c : Char} : c ∈ py!"0123456789" ↔ 48 ≤ c.toNat ∧ c.toNat ≤ 57 := by
  constructor
  · intro h
    simp only [List.mem_cons, List.not_mem_nil, or_false] at h
    rcases h with rfl | rfl | rfl | rfl | rfl | rfl | rfl | rfl | rfl | rfl <;> decide
  · intro h
    have : c = Char.ofNat c.toNat := (Char.ofNat_toNat c).symm
    rw [this]
    generalize c.toNat = n at h ⊢
    have hn : n - 48 < 10 := by omega
    have : ∀ d : Fin 10, Char.ofNat (d.val + 48) ∈ py!"0123456789" := by decide
    have h2 := this ⟨n - 48, hn⟩
    simp only at h2
    rwa [Nat.sub_add_cancel h.1] at h2

theorem char_ext_toNat {c d : Char} (h : c.toNat = d.toNat) : c = d := by
  rw [← Char.ofNat_toNat c, h, Char.ofNat_toNat]

theorem digitVal?_ascii {c : Char} (h : 48 ≤ c.toNat ∧ c.toNat ≤ 57) : digitVal? c = some (c.toNat - 48) := by
  unfold digitVal?; rw [if_pos h]

theorem isDigit_ascii {c : Char} (h : 48 ≤ c.toNat ∧ c.toNat ≤ 57) : IsDigit c := by
  unfold IsDigit; rw [digitVal?_ascii h]; rfl

theorem Digits.isDigit {s : Str} {lo hi : Nat} (h : Digits s lo hi) {c : Char} (hc : c ∈ s) : IsDigit c :=
  isDigit_ascii (digit_iff.1 (h.2.2 c hc))

/-- The value of a digit. -/
def dig (c : Char) : Nat := (digitVal? c).getD 0

theorem dig_ascii {c : Char} (h : 48 ≤ c.toNat ∧ c.toNat ≤ 57) : dig c = c.toNat - 48 := by
  unfold dig; rw [digitVal?_ascii h]; rfl

theorem dig_le (c : Char) : dig c ≤ 9 := by
  unfold dig
  cases h : digitVal? c with
  | none => simp
  | some d => exact digitVal?_le h

theorem number_one (a : Char) : number [a] = dig a := by simp [number, digitsNumber, dig]

theorem number_two (a b : Char) : number [a, b] = 10 * dig a + dig b := by simp [number, digitsNumber, dig]

theorem digits_cases {s : Str} : Digits s 1 2 ↔
    (∃ a, s = [a] ∧ 48 ≤ a.toNat ∧ a.toNat ≤ 57) ∨ ∃ a b, s = [a, b] ∧ (48 ≤ a.toNat ∧ a.toNat ≤ 57) ∧ 48 ≤ b.toNat ∧ b.toNat ≤ 57 := by
  constructor
  · rintro ⟨h1, h2, h3⟩
    match s, h1, h2, h3 with
    | [], h, _, _ => simp at h
    | [a], _, _, h => exact .inl ⟨a, rfl, digit_iff.1 (h a (by simp))⟩
    | [a, b], _, _, h => exact .inr ⟨a, b, rfl, digit_iff.1 (h a (by simp)), digit_iff.1 (h b (by simp))⟩
    | _ :: _ :: _ :: _, _, h, _ => simp at h
  · rintro (⟨a, rfl, h⟩ | ⟨a, b, rfl, h1, h2⟩)
    · refine ⟨by simp, by simp, fun c hc => ?_⟩
      rw [List.mem_singleton.1 hc]; exact digit_iff.2 h
    · refine ⟨by simp, by simp, fun c hc => ?_⟩
      rcases List.mem_cons.1 hc with rfl | hc
      · exact digit_iff.2 h1
      · rw [List.mem_singleton.1 hc]; exact digit_iff.2 h2

theorem fits_one {k : Cls} {s : Str} : Fits [k] s ↔ ∃ a, s = [a] ∧ k.test a = true := by
  simp only [fits_cons, fits_nil]
  constructor
  · rintro ⟨c, t, rfl, h, rfl⟩; exact ⟨c, rfl, h⟩
  · rintro ⟨c, rfl, h⟩; exact ⟨c, [], rfl, h, rfl⟩

theorem fits_two {k l : Cls} {s : Str} : Fits [k, l] s ↔ ∃ a b, s = [a, b] ∧ k.test a = true ∧ l.test b = true := by
  rw [fits_cons]
  constructor
  · rintro ⟨c, t, rfl, h, h'⟩
    obtain ⟨b, rfl, h2⟩ := fits_one.1 h'
    exact ⟨c, b, rfl, h, h2⟩
  · rintro ⟨c, b, rfl, h, h2⟩; exact ⟨c, [b], rfl, h, fits_one.2 ⟨b, rfl, h2⟩⟩

theorem test_range {lo hi : Nat} {c : Char} : (Cls.range lo hi).test c = true ↔ lo ≤ c.toNat ∧ c.toNat ≤ hi := by
  simp [Cls.test]

theorem test_digit {c : Char} : Cls.digit.test c = true ↔ IsDigit c := Iff.rfl

/-- `%m`. -/
theorem month_iff {s : Str} : (∃ a ∈ [[Cls.range 49 49, .range 48 50], [.range 48 48, .range 49 57], [.range 49 57]], Fits a s) ↔
    Digits s 1 2 ∧ 1 ≤ number s ∧ number s ≤ 12 := by
  simp only [ex_mem_cons, List.not_mem_nil, false_and, exists_false, or_false, fits_one, fits_two, test_range, digits_cases]
  constructor
  · rintro (⟨a, b, rfl, h1, h2⟩ | ⟨a, b, rfl, h1, h2⟩ | ⟨a, rfl, h1⟩)
    · refine ⟨.inr ⟨a, b, rfl, by omega, by omega⟩, ?_⟩
      rw [number_two, dig_ascii (by omega), dig_ascii (by omega)]; omega
    · refine ⟨.inr ⟨a, b, rfl, by omega, by omega⟩, ?_⟩
      rw [number_two, dig_ascii (by omega), dig_ascii (by omega)]; omega
    · refine ⟨.inl ⟨a, rfl, by omega⟩, ?_⟩
      rw [number_one, dig_ascii (by omega)]; omega
  · rintro ⟨⟨a, rfl, h1⟩ | ⟨a, b, rfl, h1, h2⟩, h3, h4⟩
    · rw [number_one, dig_ascii h1] at h3 h4
      exact .inr (.inr ⟨a, rfl, by omega⟩)
    · rw [number_two, dig_ascii h1, dig_ascii h2] at h3 h4
      by_cases h : a.toNat = 49
      · exact .inl ⟨a, b, rfl, by omega, by omega⟩
      · exact .inr (.inl ⟨a, b, rfl, by omega, by omega⟩)

/-- `%d`. -/
theorem day_iff {s : Str} : (∃ a ∈ [[Cls.range 51 51, .range 48 49], [.range 49 50, .digit], [.range 48 48, .range 49 57], [.range 49 57],
      [.range 32 32, .range 49 57]], Fits a s) ↔ DayText s ∧ 1 ≤ number s ∧ number s ≤ 31 := by
  have h12 : ∀ {a : Char}, a ∈ py!"12" ↔ 49 ≤ a.toNat ∧ a.toNat ≤ 50 := by
    intro a
    simp only [List.mem_cons, List.not_mem_nil, or_false]
    constructor
    · rintro (rfl | rfl) <;> decide
    · intro h
      have : a.toNat = 49 ∨ a.toNat = 50 := by omega
      rcases this with h | h
      · exact .inl (char_ext_toNat h)
      · exact .inr (char_ext_toNat h)
  have hsp : dig ' ' = 0 := by decide
  have hone : ∀ {c : Char}, Digits [c] 1 1 ↔ 48 ≤ c.toNat ∧ c.toNat ≤ 57 := by
    intro c
    rw [← digit_iff]
    simp [Digits]
  have hday : DayText s ↔ ((∃ a, s = [a] ∧ 48 ≤ a.toNat ∧ a.toNat ≤ 57) ∨
      ∃ a b, s = [a, b] ∧ (48 ≤ a.toNat ∧ a.toNat ≤ 57) ∧ 48 ≤ b.toNat ∧ b.toNat ≤ 57) ∨
      (∃ a, (49 ≤ a.toNat ∧ a.toNat ≤ 50) ∧ ∃ c, IsDigit c ∧ s = [a, c]) ∨ ∃ c, (48 ≤ c.toNat ∧ c.toNat ≤ 57) ∧ s = [' ', c] := by
    unfold DayText
    simp only [h12, digits_cases, hone]
  rw [hday]
  simp only [ex_mem_cons, List.not_mem_nil, false_and, exists_false, or_false, fits_one, fits_two, test_range, test_digit]
  constructor
  · rintro (⟨a, b, rfl, h1, h2⟩ | ⟨a, b, rfl, h1, h2⟩ | ⟨a, b, rfl, h1, h2⟩ | ⟨a, rfl, h1⟩ | ⟨a, b, rfl, h1, h2⟩)
    · refine ⟨.inl (.inr ⟨a, b, rfl, by omega, by omega⟩), ?_⟩
      rw [number_two, dig_ascii (by omega), dig_ascii (by omega)]; omega
    · refine ⟨.inr (.inl ⟨a, h1, b, h2, rfl⟩), ?_⟩
      have := dig_le b
      rw [number_two, dig_ascii (by omega)]; omega
    · refine ⟨.inl (.inr ⟨a, b, rfl, by omega, by omega⟩), ?_⟩
      rw [number_two, dig_ascii (by omega), dig_ascii (by omega)]; omega
    · refine ⟨.inl (.inl ⟨a, rfl, by omega⟩), ?_⟩
      rw [number_one, dig_ascii (by omega)]; omega
    · have : a = ' ' := char_ext_toNat (show a.toNat = 32 by omega)
      subst this
      refine ⟨.inr (.inr ⟨b, by omega, rfl⟩), ?_⟩
      rw [number_two, hsp, dig_ascii (by omega)]; omega
  · rintro ⟨(⟨a, rfl, h1⟩ | ⟨a, b, rfl, h1, h2⟩) | ⟨a, ha, b, hb, rfl⟩ | ⟨b, hb, rfl⟩, h3, h4⟩
    · rw [number_one, dig_ascii h1] at h3 h4
      exact .inr (.inr (.inr (.inl ⟨a, rfl, by omega⟩)))
    · rw [number_two, dig_ascii h1, dig_ascii h2] at h3 h4
      by_cases h : a.toNat = 51
      · exact .inl ⟨a, b, rfl, by omega, by omega⟩
      · by_cases h' : a.toNat = 48
        · exact .inr (.inr (.inl ⟨a, b, rfl, by omega, by omega⟩))
        · exact .inr (.inl ⟨a, b, rfl, by omega, isDigit_ascii h2⟩)
    · exact .inr (.inl ⟨a, b, rfl, ha, hb⟩)
    · rw [number_two, hsp, dig_ascii hb] at h3 h4
      exact .inr (.inr (.inr (.inr ⟨' ', b, rfl, by decide, by omega⟩)))

theorem first_iff {a : Char} {n : Nat} (hn : n ≤ 9) : a ∈ py!"0123456789".take (n + 1) ↔ 48 ≤ a.toNat ∧ a.toNat ≤ 48 + n := by
  constructor
  · intro h
    have h1 := digit_iff.1 (List.mem_of_mem_take h)
    refine ⟨h1.1, ?_⟩
    have key : ∀ n : Fin 10, ∀ a ∈ py!"0123456789".take (n.val + 1), a.toNat ≤ 48 + n.val := by decide
    exact key ⟨n, by omega⟩ a h
  · intro h
    have key : ∀ n d : Fin 10, d.val ≤ n.val → Char.ofNat (d.val + 48) ∈ py!"0123456789".take (n.val + 1) := by decide
    have := key ⟨n, by omega⟩ ⟨a.toNat - 48, by omega⟩ (by simp; omega)
    simp only at this
    rwa [Nat.sub_add_cancel h.1, Char.ofNat_toNat] at this

theorem oneTwo_iff {first s : Str} : OneTwo first s ↔ (∃ a, s = [a] ∧ IsDigit a) ∨
    ∃ a b, s = [a, b] ∧ ((48 ≤ a.toNat ∧ a.toNat ≤ 57) ∧ (48 ≤ b.toNat ∧ b.toNat ≤ 57) ∨ a ∈ first ∧ IsDigit b) := by
  unfold OneTwo
  rw [digits_cases]
  constructor
  · rintro ((⟨a, rfl, h⟩ | ⟨a, b, rfl, h1, h2⟩) | ⟨c, h, rfl⟩ | ⟨a, ha, c, hc, rfl⟩)
    · exact .inl ⟨a, rfl, isDigit_ascii h⟩
    · exact .inr ⟨a, b, rfl, .inl ⟨h1, h2⟩⟩
    · exact .inl ⟨c, rfl, h⟩
    · exact .inr ⟨a, c, rfl, .inr ⟨ha, hc⟩⟩
  · rintro (⟨a, rfl, h⟩ | ⟨a, b, rfl, ⟨h1, h2⟩ | ⟨h1, h2⟩⟩)
    · exact .inr (.inl ⟨a, h, rfl⟩)
    · exact .inl (.inr ⟨a, b, rfl, h1, h2⟩)
    · exact .inr (.inr ⟨a, h1, b, h2, rfl⟩)

/-- `%H`. -/
theorem hour_iff {s : Str} : (∃ a ∈ [[Cls.range 50 50, .range 48 51], [.range 48 49, .digit], [.digit]], Fits a s) ↔
    OneTwo py!"01" s ∧ number s ≤ 23 := by
  have hf : ∀ {a : Char}, a ∈ py!"01" ↔ 48 ≤ a.toNat ∧ a.toNat ≤ 49 := fun {a} => first_iff (n := 1) (by omega)
  simp only [ex_mem_cons, List.not_mem_nil, false_and, exists_false, or_false, fits_one, fits_two, test_range, test_digit, oneTwo_iff, hf]
  constructor
  · rintro (⟨a, b, rfl, h1, h2⟩ | ⟨a, b, rfl, h1, h2⟩ | ⟨a, rfl, h1⟩)
    · refine ⟨.inr ⟨a, b, rfl, .inl ⟨by omega, by omega⟩⟩, ?_⟩
      rw [number_two, dig_ascii (by omega), dig_ascii (by omega)]; omega
    · refine ⟨.inr ⟨a, b, rfl, .inr ⟨by omega, h2⟩⟩, ?_⟩
      have := dig_le b
      rw [number_two, dig_ascii (by omega)]; omega
    · refine ⟨.inl ⟨a, rfl, h1⟩, ?_⟩
      have := dig_le a
      rw [number_one]; omega
  · rintro ⟨⟨a, rfl, h1⟩ | ⟨a, b, rfl, ⟨h1, h2⟩ | ⟨h1, h2⟩⟩, h4⟩
    · exact .inr (.inr ⟨a, rfl, h1⟩)
    · rw [number_two, dig_ascii h1, dig_ascii h2] at h4
      by_cases h : a.toNat = 50
      · exact .inl ⟨a, b, rfl, by omega, by omega⟩
      · exact .inr (.inl ⟨a, b, rfl, by omega, isDigit_ascii h2⟩)
    · exact .inr (.inl ⟨a, b, rfl, h1, h2⟩)

/-- `%M`. -/
theorem minute_iff {s : Str} : (∃ a ∈ [[Cls.range 48 53, .digit], [.digit]], Fits a s) ↔ OneTwo py!"012345" s ∧ number s ≤ 59 := by
  have hf : ∀ {a : Char}, a ∈ py!"012345" ↔ 48 ≤ a.toNat ∧ a.toNat ≤ 53 := fun {a} => first_iff (n := 5) (by omega)
  simp only [ex_mem_cons, List.not_mem_nil, false_and, exists_false, or_false, fits_one, fits_two, test_range, test_digit, oneTwo_iff, hf]
  constructor
  · rintro (⟨a, b, rfl, h1, h2⟩ | ⟨a, rfl, h1⟩)
    · refine ⟨.inr ⟨a, b, rfl, .inr ⟨by omega, h2⟩⟩, ?_⟩
      have := dig_le b
      rw [number_two, dig_ascii (by omega)]; omega
    · refine ⟨.inl ⟨a, rfl, h1⟩, ?_⟩
      have := dig_le a
      rw [number_one]; omega
  · rintro ⟨⟨a, rfl, h1⟩ | ⟨a, b, rfl, ⟨h1, h2⟩ | ⟨h1, h2⟩⟩, h4⟩
    · exact .inr ⟨a, rfl, h1⟩
    · rw [number_two, dig_ascii h1, dig_ascii h2] at h4
      exact .inl ⟨a, b, rfl, by omega, isDigit_ascii h2⟩
    · exact .inl ⟨a, b, rfl, h1, h2⟩

/-- `%S`. -/
theorem second_iff {s : Str} : (∃ a ∈ [[Cls.range 54 54, .range 48 49], [.range 48 53, .digit], [.digit]], Fits a s) ↔
    OneTwo py!"012345" s ∧ number s ≤ 61 := by
  have hf : ∀ {a : Char}, a ∈ py!"012345" ↔ 48 ≤ a.toNat ∧ a.toNat ≤ 53 := fun {a} => first_iff (n := 5) (by omega)
  simp only [ex_mem_cons, List.not_mem_nil, false_and, exists_false, or_false, fits_one, fits_two, test_range, test_digit, oneTwo_iff, hf]
  constructor
  · rintro (⟨a, b, rfl, h1, h2⟩ | ⟨a, b, rfl, h1, h2⟩ | ⟨a, rfl, h1⟩)
    · refine ⟨.inr ⟨a, b, rfl, .inl ⟨by omega, by omega⟩⟩, ?_⟩
      rw [number_two, dig_ascii (by omega), dig_ascii (by omega)]; omega
    · refine ⟨.inr ⟨a, b, rfl, .inr ⟨by omega, h2⟩⟩, ?_⟩
      have := dig_le b
      rw [number_two, dig_ascii (by omega)]; omega
    · refine ⟨.inl ⟨a, rfl, h1⟩, ?_⟩
      have := dig_le a
      rw [number_one]; omega
  · rintro ⟨⟨a, rfl, h1⟩ | ⟨a, b, rfl, ⟨h1, h2⟩ | ⟨h1, h2⟩⟩, h4⟩
    · exact .inr (.inr ⟨a, rfl, h1⟩)
    · rw [number_two, dig_ascii h1, dig_ascii h2] at h4
      by_cases h : a.toNat = 54
      · exact .inl ⟨a, b, rfl, by omega, by omega⟩
      · exact .inr (.inl ⟨a, b, rfl, by omega, isDigit_ascii h2⟩)
    · exact .inr (.inl ⟨a, b, rfl, h1, h2⟩)

/-- `%Y`. -/
theorem year_iff {s : Str} : (∃ a ∈ [[Cls.digit, .digit, .digit, .digit]], Fits a s) ↔ YearText s := by
  simp only [ex_mem_cons, List.not_mem_nil, false_and, exists_false, or_false, YearText]
  constructor
  · intro h
    refine ⟨h.length, fun c hc => ?_⟩
    obtain ⟨k, hk, h'⟩ := h.mem hc
    simp only [List.mem_cons, List.not_mem_nil, or_false, or_self] at hk
    subst hk
    exact h'
  · rintro ⟨h1, h2⟩
    match s, h1, h2 with
    | [a, b, c, d], _, h => exact .cons (h a (by simp)) (.cons (h b (by simp)) (.cons (h c (by simp)) (.cons (h d (by simp)) .nil)))

theorem fits_replicate {k : Cls} {n : Nat} {s : Str} : Fits (List.replicate n k) s ↔ s.length = n ∧ ∀ c ∈ s, k.test c = true := by
  induction n generalizing s with
  | zero => simp [fits_nil]; intro h; subst h; simp
  | succ n ih =>
    rw [List.replicate_succ, fits_cons]
    constructor
    · rintro ⟨c, t, rfl, h1, h2⟩
      obtain ⟨h3, h4⟩ := ih.1 h2
      refine ⟨by simp [h3], fun x hx => ?_⟩
      rcases List.mem_cons.1 hx with rfl | hx
      · exact h1
      · exact h4 x hx
    · rintro ⟨h1, h2⟩
      cases s with
      | nil => simp at h1
      | cons c t => exact ⟨c, t, rfl, h2 c (by simp), ih.2 ⟨by simpa using h1, fun x hx => h2 x (by simp [hx])⟩⟩

/-- `%f`. -/
theorem micro_iff {s : Str} : (∃ a ∈ [List.replicate 6 (Cls.range 48 57), List.replicate 5 (.range 48 57), List.replicate 4 (.range 48 57),
      List.replicate 3 (.range 48 57), List.replicate 2 (.range 48 57), [.range 48 57]], Fits a s) ↔ Digits s 1 6 := by
  have e : [Cls.range 48 57] = List.replicate 1 (Cls.range 48 57) := rfl
  rw [e]
  simp only [ex_mem_cons, List.not_mem_nil, false_and, exists_false, or_false, fits_replicate, test_range, Digits, digit_iff]
  constructor
  · rintro (⟨h1, h2⟩ | ⟨h1, h2⟩ | ⟨h1, h2⟩ | ⟨h1, h2⟩ | ⟨h1, h2⟩ | ⟨h1, h2⟩) <;> exact ⟨by omega, by omega, h2⟩
  · rintro ⟨h1, h2, h3⟩
    have : s.length = 6 ∨ s.length = 5 ∨ s.length = 4 ∨ s.length = 3 ∨ s.length = 2 ∨ s.length = 1 := by omega
    rcases this with h | h | h | h | h | h
    · exact .inl ⟨h, h3⟩
    · exact .inr (.inl ⟨h, h3⟩)
    · exact .inr (.inr (.inl ⟨h, h3⟩))
    · exact .inr (.inr (.inr (.inl ⟨h, h3⟩)))
    · exact .inr (.inr (.inr (.inr (.inl ⟨h, h3⟩))))
    · exact .inr (.inr (.inr (.inr (.inr ⟨h, h3⟩))))

/-! ## The numbers of the fields -/

theorem pyInt_isDigit {s : Str} (hne : s ≠ []) (h : ∀ c ∈ s, IsDigit c) : pyInt s = some (number s : Int) :=
  pyInt_iff.2 ⟨[], s, [], by simp, by simp, .none (.of_digits hne h)⟩

theorem OneTwo.isDigit {first s : Str} (h : OneTwo first s) (hf : ∀ c ∈ first, c ∈ py!"0123456789") : s ≠ [] ∧ ∀ c ∈ s, IsDigit c := by
  rcases oneTwo_iff.1 h with ⟨a, rfl, h0⟩ | ⟨a, b, rfl, ⟨h1, h2⟩ | ⟨h1, h2⟩⟩
  · exact ⟨by simp, fun c hc => by rw [List.mem_singleton.1 hc]; exact h0⟩
  · refine ⟨by simp, fun c hc => ?_⟩
    rcases List.mem_cons.1 hc with rfl | hc
    · exact isDigit_ascii h1
    · rw [List.mem_singleton.1 hc]; exact isDigit_ascii h2
  · refine ⟨by simp, fun c hc => ?_⟩
    rcases List.mem_cons.1 hc with rfl | hc
    · exact isDigit_ascii (digit_iff.1 (hf _ h1))
    · rw [List.mem_singleton.1 hc]; exact h2

theorem OneTwo.pyInt {first s : Str} (h : OneTwo first s) (hf : ∀ c ∈ first, c ∈ py!"0123456789") : pyInt s = some (number s : Int) :=
  pyInt_isDigit (h.isDigit hf).1 (h.isDigit hf).2

theorem Digits.pyInt {s : Str} {lo hi : Nat} (h : Digits s (lo + 1) hi) : pyInt s = some (number s : Int) :=
  pyInt_isDigit (by rintro rfl; have := h.1; simp at this) fun _ hc => h.isDigit hc

theorem YearText.pyInt {s : Str} (h : YearText s) : pyInt s = some (number s : Int) :=
  pyInt_isDigit (by rintro rfl; have := h.1; simp at this) h.2

theorem DayText.cases {s : Str} (h : DayText s) : (s ≠ [] ∧ ∀ c ∈ s, IsDigit c) ∨ ∃ c, IsDigit c ∧ s = [' ', c] := by
  rcases h with h | ⟨a, ha, c, hc, rfl⟩ | ⟨c, h, rfl⟩
  · exact .inl ⟨by rintro rfl; have := h.1; simp at this, fun c hc => h.isDigit hc⟩
  · refine .inl ⟨by simp, fun x hx => ?_⟩
    rcases List.mem_cons.1 hx with rfl | hx
    · have : ∀ y ∈ py!"12", y ∈ py!"0123456789" := by decide
      exact isDigit_ascii (digit_iff.1 (this _ ha))
    · rw [List.mem_singleton.1 hx]; exact hc
  · exact .inr ⟨c, h.isDigit (by simp), rfl⟩

theorem DayText.pyInt {s : Str} (h : DayText s) : pyInt s = some (number s : Int) := by
  rcases h.cases with ⟨h1, h2⟩ | ⟨c, hc, rfl⟩
  · exact pyInt_isDigit h1 h2
  · rw [pyInt_iff]
    refine ⟨[' '], [c], [], by simp, by simp; decide, ?_⟩
    have : number [' ', c] = number [c] := by
      have hsp : dig ' ' = 0 := by decide
      rw [number_two, number_one, hsp]; omega
    rw [this]
    exact .none (.of_digits (by simp) (fun x hx => by rw [List.mem_singleton.1 hx]; exact hc))

theorem number_append (s t : Str) : number (s ++ t) = number s * 10 ^ t.length + number t := by
  have key : ∀ (t : Str) (n : Nat), t.foldl (fun a c => 10 * a + (digitVal? c).getD 0) n = n * 10 ^ t.length + number t := by
    intro t
    induction t with
    | nil => intro n; simp [number, digitsNumber]
    | cons c t ih =>
      intro n
      have e : number (c :: t) = (10 * 0 + (digitVal? c).getD 0) * 10 ^ t.length + number t := by
        unfold number digitsNumber
        rw [List.foldl_cons, ih]
        rfl
      rw [List.foldl_cons, ih, e, List.length_cons, Nat.pow_succ, Nat.add_mul, Nat.add_mul, Nat.mul_comm 10 n, Nat.mul_assoc n 10,
        Nat.mul_comm 10 (10 ^ _)]
      omega
  unfold number digitsNumber
  rw [List.foldl_append, key]
  rfl

theorem number_zeros (n : Nat) : number (List.replicate n '0') = 0 := by
  induction n with
  | zero => rfl
  | succ n ih =>
    rw [List.replicate_succ, show '0' :: List.replicate n '0' = ['0'] ++ List.replicate n '0' from rfl, number_append, ih]
    have : number ['0'] = 0 := by decide
    rw [this, Nat.zero_mul]

theorem number_lt (s : Str) : number s < 10 ^ s.length := by
  have key : ∀ (s : Str) (n : Nat), s.foldl (fun a c => 10 * a + (digitVal? c).getD 0) n < (n + 1) * 10 ^ s.length := by
    intro s
    induction s with
    | nil => intro n; simp
    | cons c s ih =>
      intro n
      have h1 := ih (10 * n + (digitVal? c).getD 0)
      have h2 : (digitVal? c).getD 0 ≤ 9 := dig_le c
      rw [List.foldl_cons, List.length_cons, Nat.pow_succ]
      refine Nat.lt_of_lt_of_le h1 ?_
      rw [Nat.mul_comm (10 ^ s.length) 10, ← Nat.mul_assoc]
      exact Nat.mul_le_mul_right _ (by omega)
  have := key s 0
  simpa [number, digitsNumber] using this

theorem frac_pyInt {s : Str} (h : Digits s 1 6) :
    pyInt (s ++ List.replicate (6 - s.length) '0') = some ((number s * 10 ^ (6 - s.length) : Nat) : Int) := by
  rw [pyInt_isDigit, number_append, number_zeros, List.length_replicate]
  · simp
  · intro e
    have h1 := congrArg List.length e
    have h2 := h.1
    rw [List.length_append, List.length_nil] at h1
    omega
  · intro c hc
    rcases List.mem_append.1 hc with hc | hc
    · exact h.isDigit hc
    · rw [(List.mem_replicate.1 hc).2]; unfold IsDigit; decide

/-! ## The two formats of XsDateTimeConversion -/

/-- The text of a fraction of a second. -/
def fracText : Option Str → Str
  | none => []
  | some f => '.' :: f

/-- A fraction in microseconds. -/
def micros : Option Str → Nat
  | none => 0
  | some f => number f * 10 ^ (6 - f.length)

/-- The alternatives of a field. -/
def altsOf (k : Char) : List (List Cls) := (fieldAlts k).getD []

/-- The items of `%Y-%m-%dT%H:%M:%S` followed by `tl`. -/
def xsItems (tl : List FmtItem) : List FmtItem :=
  .field 'Y' (altsOf 'Y') :: .lit '-' :: .field 'm' (altsOf 'm') :: .lit '-' :: .field 'd' (altsOf 'd') :: .lit 'T' :: .field 'H' (altsOf 'H') ::
    .lit ':' :: .field 'M' (altsOf 'M') :: .lit ':' :: .field 'S' (altsOf 'S') :: tl

theorem apart_digit {c : Char} (hc : c ∈ py!"-:.T") {k : Char} (hk : k ∈ py!"YmdHMS") : LitApart (altsOf k) c := by
  have h1 : ∀ y, litEq c y = true → y ∈ py!"-:.Tt" := by
    intro y hy
    simp only [List.mem_cons, List.not_mem_nil, or_false] at hc
    rcases hc with rfl | rfl | rfl | rfl
    · rw [(litEq_plain (by decide) (by decide)).1 hy]; decide
    · rw [(litEq_plain (by decide) (by decide)).1 hy]; decide
    · rw [(litEq_plain (by decide) (by decide)).1 hy]; decide
    · rcases litEq_T.1 hy with rfl | rfl <;> decide
  have h2 : ∀ k ∈ py!"YmdHMS", ∀ a ∈ altsOf k, ∀ q ∈ a, ∀ y ∈ py!"-:.Tt", q.test y = false := by decide +kernel
  exact fun a ha q hq y hy => h2 k hk a ha q hq y (h1 y hy)

theorem separated_xs : Separated (xsItems []) ∧ Separated (xsItems [.lit '.', .field 'f' (altsOf 'f')]) := by
  have h : ∀ tl, (Separated (.field 'S' (altsOf 'S') :: tl)) → Separated (xsItems tl) := fun tl h =>
    .field (apart_digit (by decide) (by decide)) (.field (apart_digit (by decide) (by decide)) (.field (apart_digit (by decide) (by decide))
      (.field (apart_digit (by decide) (by decide)) (.field (apart_digit (by decide) (by decide)) h))))
  exact ⟨h _ (.last (by decide)), h _ (.field (apart_digit (by decide) (by decide)) (.last (by decide)))⟩

/-- Year, month, day, hour, minute and second. -/
structure CoreTexts where
  (y mo d h mi s : Str)

/-- They are texts of the fields. -/
def CoreTexts.Good (x : CoreTexts) : Prop :=
  YearText x.y ∧ (Digits x.mo 1 2 ∧ 1 ≤ number x.mo ∧ number x.mo ≤ 12) ∧ (DayText x.d ∧ 1 ≤ number x.d ∧ number x.d ≤ 31) ∧
    (OneTwo py!"01" x.h ∧ number x.h ≤ 23) ∧ (OneTwo py!"012345" x.mi ∧ number x.mi ≤ 59) ∧ (OneTwo py!"012345" x.s ∧ number x.s ≤ 61)

/-- The text, up to the seconds, followed by `e`. -/
def CoreTexts.text (x : CoreTexts) (T : Char) (e : Str) : Str :=
  x.y ++ '-' :: (x.mo ++ '-' :: (x.d ++ T :: (x.h ++ ':' :: (x.mi ++ ':' :: (x.s ++ e)))))

/-- The fields, followed by `g`. -/
def CoreTexts.groups (x : CoreTexts) (g : List (Char × Str)) : List (Char × Str) :=
  ('Y', x.y) :: ('m', x.mo) :: ('d', x.d) :: ('H', x.h) :: ('M', x.mi) :: ('S', x.s) :: g

theorem pieces_xs {tl : List FmtItem} {v : Str} {g : List (Char × Str)} :
    Pieces (xsItems tl) v g [] ↔
      ∃ (x : CoreTexts) (T : Char) (r : Str) (g' : List (Char × Str)), x.Good ∧ (T = 'T' ∨ T = 't') ∧ v = x.text T r ∧ g = x.groups g' ∧ Pieces tl r g' [] := by
  have hm : ∀ {y : Char}, litEq '-' y = true ↔ y = '-' := litEq_plain (by decide) (by decide)
  have hc : ∀ {y : Char}, litEq ':' y = true ↔ y = ':' := litEq_plain (by decide) (by decide)
  constructor
  · intro p0
    obtain ⟨y, _, _, rfl, rfl, h1, p1⟩ := pieces_field.1 p0
    obtain ⟨_, _, rfl, hl1, p2⟩ := pieces_lit.1 p1
    obtain rfl := hm.1 hl1
    obtain ⟨mo, _, _, rfl, rfl, h2, p3⟩ := pieces_field.1 p2
    obtain ⟨_, _, rfl, hl2, p4⟩ := pieces_lit.1 p3
    obtain rfl := hm.1 hl2
    obtain ⟨d, _, _, rfl, rfl, h3, p5⟩ := pieces_field.1 p4
    obtain ⟨T, _, rfl, hT, p6⟩ := pieces_lit.1 p5
    obtain ⟨hh, _, _, rfl, rfl, h4, p7⟩ := pieces_field.1 p6
    obtain ⟨_, _, rfl, hl3, p8⟩ := pieces_lit.1 p7
    obtain rfl := hc.1 hl3
    obtain ⟨mi, _, _, rfl, rfl, h5, p9⟩ := pieces_field.1 p8
    obtain ⟨_, _, rfl, hl4, p10⟩ := pieces_lit.1 p9
    obtain rfl := hc.1 hl4
    obtain ⟨s, r, g', rfl, rfl, h6, h⟩ := pieces_field.1 p10
    exact ⟨⟨y, mo, d, hh, mi, s⟩, T, r, g', ⟨year_iff.1 h1, month_iff.1 h2, day_iff.1 h3, hour_iff.1 h4, minute_iff.1 h5, second_iff.1 h6⟩,
      litEq_T.1 hT, rfl, rfl, h⟩
  · rintro ⟨⟨y, mo, d, hh, mi, s⟩, T, r, g', ⟨h1, h2, h3, h4, h5, h6⟩, hT, rfl, rfl, h⟩
    exact pieces_field.2 ⟨y, _, _, rfl, rfl, year_iff.2 h1, pieces_lit.2 ⟨_, _, rfl, litEq_self _, pieces_field.2 ⟨mo, _, _, rfl, rfl, month_iff.2 h2,
      pieces_lit.2 ⟨_, _, rfl, litEq_self _, pieces_field.2 ⟨d, _, _, rfl, rfl, day_iff.2 h3, pieces_lit.2 ⟨T, _, rfl, litEq_T.2 hT,
      pieces_field.2 ⟨hh, _, _, rfl, rfl, hour_iff.2 h4, pieces_lit.2 ⟨_, _, rfl, litEq_self _, pieces_field.2 ⟨mi, _, _, rfl, rfl, minute_iff.2 h5,
      pieces_lit.2 ⟨_, _, rfl, litEq_self _, pieces_field.2 ⟨s, _, _, rfl, rfl, second_iff.2 h6, h⟩⟩⟩⟩⟩⟩⟩⟩⟩⟩⟩

/-- The fields of a fraction. -/
def fracGroups : Option Str → List (Char × Str)
  | none => []
  | some f => [('f', f)]

theorem groupsDate_xs {x : CoreTexts} (hx : x.Good) {f : Option Str} (hf : ∀ t, f = some t → Digits t 1 6) :
    groupsDate (x.groups (fracGroups f)) =
      let t : DateTime := ⟨number x.y, number x.mo, number x.d, number x.h, number x.mi, number x.s, micros f, none⟩
      if t.valid then some t else none := by
  obtain ⟨h1, h2, h3, h4, h5, h6⟩ := hx
  have e1 : groupNum (x.groups (fracGroups f)) 'Y' 1900 = some (number x.y) := by
    show (pyInt x.y).map Int.toNat = _
    rw [h1.pyInt]; rfl
  have e2 : groupNum (x.groups (fracGroups f)) 'm' 1 = some (number x.mo) := by
    show (pyInt x.mo).map Int.toNat = _
    rw [h2.1.pyInt]; rfl
  have e3 : groupNum (x.groups (fracGroups f)) 'd' 1 = some (number x.d) := by
    show (pyInt x.d).map Int.toNat = _
    rw [h3.1.pyInt]; rfl
  have e4 : groupNum (x.groups (fracGroups f)) 'H' 0 = some (number x.h) := by
    show (pyInt x.h).map Int.toNat = _
    rw [h4.1.pyInt (by decide)]; rfl
  have e5 : groupNum (x.groups (fracGroups f)) 'M' 0 = some (number x.mi) := by
    show (pyInt x.mi).map Int.toNat = _
    rw [h5.1.pyInt (by decide)]; rfl
  have e6 : groupNum (x.groups (fracGroups f)) 'S' 0 = some (number x.s) := by
    show (pyInt x.s).map Int.toNat = _
    rw [h6.1.pyInt (by decide)]; rfl
  have e7 : groupMicro (x.groups (fracGroups f)) = some (micros f) := by
    cases f with
    | none => rfl
    | some t =>
      show (pyInt (t ++ _)).map Int.toNat = _
      rw [frac_pyInt (hf t rfl)]; rfl
  unfold groupsDate
  rw [e1, e2, e3, e4, e5, e6, e7]
  rfl

/-- `strptime` for the two formats. -/
theorem strptime_text {f : Bool} {v : Str} {t : DateTime} : strptime f v = some t ↔
    ∃ (x : CoreTexts) (T : Char) (fr : Option Str), x.Good ∧ (T = 'T' ∨ T = 't') ∧ (fr.isSome = f ∧ ∀ w, fr = some w → Digits w 1 6) ∧
      v = x.text T (fracText fr) ∧ t = ⟨number x.y, number x.mo, number x.d, number x.h, number x.mi, number x.s, micros fr, none⟩ ∧ t.valid = true := by
  have hp : ∀ {y : Char}, litEq '.' y = true ↔ y = '.' := litEq_plain (by decide) (by decide)
  have key : ∀ {items : List FmtItem}, Separated items → (∀ g, matchItems items v = some (g, []) ↔ ∃ (x : CoreTexts) (T : Char) (fr : Option Str),
      x.Good ∧ (T = 'T' ∨ T = 't') ∧ (fr.isSome = f ∧ ∀ w, fr = some w → Digits w 1 6) ∧ v = x.text T (fracText fr) ∧ g = x.groups (fracGroups fr)) →
      compileFmt false (if f then py!"%Y-%m-%dT%H:%M:%S.%f" else py!"%Y-%m-%dT%H:%M:%S") = some items → .foreign ∉ items → (fieldNames items).Nodup →
      (strptime f v = some t ↔ ∃ (x : CoreTexts) (T : Char) (fr : Option Str), x.Good ∧ (T = 'T' ∨ T = 't') ∧
        (fr.isSome = f ∧ ∀ w, fr = some w → Digits w 1 6) ∧ v = x.text T (fracText fr) ∧
        t = ⟨number x.y, number x.mo, number x.d, number x.h, number x.mi, number x.s, micros fr, none⟩ ∧ t.valid = true) := by
    intro items hsep hm hc hf hn
    unfold strptime strptimeFmt
    rw [hc]
    simp only
    rw [if_neg hf, if_neg (by simpa using hn)]
    constructor
    · intro h
      split at h
      · rename_i g hg
        obtain ⟨x, T, fr, h1, h2, h3, h4, rfl⟩ := (hm g).1 hg
        rw [groupsDate_xs h1 h3.2] at h
        simp only at h
        refine ⟨x, T, fr, h1, h2, h3, h4, ?_⟩
        split at h
        · rename_i t' ht
          simp only [Option.ite_none_right_eq_some, Option.some.injEq] at ht
          obtain ⟨hv, rfl⟩ := ht
          cases h
          exact ⟨rfl, hv⟩
        · cases h
      · cases h
    · rintro ⟨x, T, fr, h1, h2, h3, h4, rfl, hv⟩
      rw [(hm _).2 ⟨x, T, fr, h1, h2, h3, h4, rfl⟩]
      simp only
      rw [groupsDate_xs h1 h3.2]
      simp only [hv, if_true]
      rfl
  cases f with
  | false =>
    refine key separated_xs.1 (fun g => ?_) (by rfl) (by decide) (by decide)
    rw [matchItems_iff separated_xs.1, pieces_xs]
    constructor
    · rintro ⟨x, T, r, g', h1, h2, rfl, rfl, h⟩
      obtain ⟨rfl, rfl⟩ := pieces_nil.1 h
      exact ⟨x, T, none, h1, h2, ⟨rfl, by simp⟩, rfl, rfl⟩
    · rintro ⟨x, T, fr, h1, h2, ⟨h3, _⟩, rfl, rfl⟩
      cases fr with
      | none => exact ⟨x, T, _, _, h1, h2, rfl, rfl, .nil⟩
      | some _ => cases h3
  | true =>
    refine key separated_xs.2 (fun g => ?_) (by rfl) (by decide) (by decide)
    rw [matchItems_iff separated_xs.2, pieces_xs]
    constructor
    · rintro ⟨x, T, r, g', h1, h2, rfl, rfl, h⟩
      obtain ⟨_, _, rfl, hl, p1⟩ := pieces_lit.1 h
      obtain rfl := hp.1 hl
      obtain ⟨m, _, _, rfl, rfl, h3, p2⟩ := pieces_field.1 p1
      obtain ⟨rfl, rfl⟩ := pieces_nil.1 p2
      refine ⟨x, T, some m, h1, h2, ⟨rfl, fun w hw => ?_⟩, by rw [List.append_nil]; rfl, rfl⟩
      cases hw
      exact micro_iff.1 h3
    · rintro ⟨x, T, fr, h1, h2, ⟨h3, h4⟩, rfl, rfl⟩
      cases fr with
      | none => cases h3
      | some m =>
        refine ⟨x, T, '.' :: m, [('f', m)], h1, h2, rfl, rfl, pieces_lit.2 ⟨_, _, rfl, litEq_self _, ?_⟩⟩
        exact pieces_field.2 ⟨m, [], [], (List.append_nil m).symm, rfl, micro_iff.2 (h4 m rfl), .nil⟩

/-- Only ValueError is raised for the two formats. -/
theorem strptime_error {f : Bool} {v : Str} {e : PyErr} {ext : Str → Str → Except PyErr DateTime}
    (h : strptimeFmt ext (if f then py!"%Y-%m-%dT%H:%M:%S.%f" else py!"%Y-%m-%dT%H:%M:%S") v = .error e) : e = .valueError := by
  have key : ∀ items : List FmtItem, compileFmt false (if f then py!"%Y-%m-%dT%H:%M:%S.%f" else py!"%Y-%m-%dT%H:%M:%S") = some items →
      .foreign ∉ items → (fieldNames items).Nodup → e = .valueError := by
    intro items hc hf hn
    unfold strptimeFmt at h
    rw [hc] at h
    simp only at h
    rw [if_neg hf, if_neg (by simpa using hn)] at h
    split at h
    · split at h
      · cases h
      · cases h; rfl
    · cases h; rfl
  cases f with
  | false => exact key (xsItems []) rfl (by decide) (by decide)
  | true => exact key (xsItems [.lit '.', .field 'f' (altsOf 'f')]) rfl (by decide) (by decide)

end Opy
