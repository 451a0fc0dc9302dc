import Verif.Lemmas.Bytes
import Verif.Lemmas.Decl
/-
Binary documents: the encoding that they declare, and UTF-16.
-/
namespace Opy

/-! ## Specification -/

/-- A document begins with a declaration that names an encoding. -/
def DocDeclares (s n : Str) : Prop := ∃ d r, s = py!"<?xml" ++ (d ++ '?' :: '>' :: r) ∧ DeclSays d (some n)

/-- A document names no encoding but these (in small letters). -/
def DeclaresOnly (s : Str) (ok : List Str) : Prop := ∀ n, DocDeclares s n → lower n ∈ ok

/-- Two bytes, the high one first or last. -/
def pair16 (big : Bool) (n : Nat) : List Nat := if big then [n / 256, n % 256] else [n % 256, n / 256]

/-- UTF-16: RFC 2781, 2.1. -/
def utf16Char (big : Bool) (c : Char) : List Nat :=
  if c.toNat < 0x10000 then pair16 big c.toNat
  else pair16 big (0xD800 + (c.toNat - 0x10000) / 1024) ++ pair16 big (0xDC00 + (c.toNat - 0x10000) % 1024)

def utf16 (big : Bool) (s : Str) : List Nat := s.flatMap (utf16Char big)

/-- A binary document that is not taken for UTF-16 and names no encoding but UTF-8. -/
def PlainUtf8 (b : List Nat) : Prop :=
  b.head? ≠ some 0 ∧ b.head? ≠ some 0xFE ∧ b.head? ≠ some 0xFF ∧ b.tail.head? ≠ some 0 ∧
    ∀ m r, (m = [] ∨ m = [0xEF, 0xBB, 0xBF]) → b = m ++ r → DeclaresOnly (r.map Char.ofNat) [py!"utf-8"]

/-! ## Declarations -/

theorem declOf_spec {s d : Str} (h : declOf s = some d) : ∃ r, s = py!"<?xml" ++ (d ++ '?' :: '>' :: r) := by
  unfold declOf at h
  split at h
  · split at h
    · obtain ⟨r, hr⟩ := upToPi_spec h
      exact ⟨r, by rw [← hr]; rfl⟩
    · cases h
  · cases h

theorem declaredIn_iff {s n : Str} : declaredIn s = some n ↔ DocDeclares s n := by
  constructor
  · intro h
    unfold declaredIn at h
    split at h
    · rename_i d hd
      obtain ⟨r, hr⟩ := declOf_spec hd
      refine ⟨d, r, hr, declared_says.1 ?_⟩
      cases hx : declared d with
      | none => rw [hx] at h; cases h
      | some e => rw [hx] at h; exact congrArg some h
    · cases h
  · rintro ⟨d, r, rfl, h⟩
    simp only [declaredIn, declOf_decl h, declared_says.2 h, Option.getD_some]

theorem declaredIn_only {s : Str} {ok : List Str} (h : DeclaresOnly s ok) : declaredIn s = none ∨ ∃ n, declaredIn s = some n ∧ lower n ∈ ok := by
  cases hd : declaredIn s with
  | none => exact .inl rfl
  | some n => exact .inr ⟨n, rfl, h n (declaredIn_iff.1 hd)⟩

theorem declBlank_ascii {c : Char} (h : DeclBlank c) : c.toNat < 128 := by
  rcases h with rfl | rfl | rfl | rfl <;> decide

theorem declLetter_ascii {c : Char} (h : DeclLetter c) : c.toNat < 128 := by
  simp only [DeclLetter, Char.isAlpha, Char.isUpper, Char.isLower, Char.isDigit, Bool.or_eq_true, Bool.and_eq_true, decide_eq_true_eq, UInt32.le_iff_toNat_le] at h
  have hn : c.val.toNat = c.toNat := rfl
  rw [hn] at h
  rcases h with (h | h) | h | rfl | rfl | rfl
  · exact Nat.lt_of_le_of_lt h.2 (by decide)
  · exact Nat.lt_of_le_of_lt h.2 (by decide)
  · exact Nat.lt_of_le_of_lt h.2 (by decide)
  all_goals decide

theorem partText_ascii {n v t : Str} (hn : ∀ c ∈ n, c.toNat < 128) (h : PartText n v t) : ∀ c ∈ t, c.toNat < 128 := by
  obtain ⟨g, w, w', q, -, hs, hq, hv, rfl⟩ := h
  intro c hc
  simp only [List.mem_append, List.mem_cons, List.not_mem_nil, or_false] at hc hs
  rcases hc with hc | hc | hc | hc | hc | hc | hc | hc
  · exact declBlank_ascii (hs _ (.inl (.inl hc)))
  · exact hn c hc
  · exact declBlank_ascii (hs _ (.inl (.inr hc)))
  · subst hc; decide
  · exact declBlank_ascii (hs _ (.inr hc))
  · subst hc; rcases hq with rfl | rfl <;> decide
  · exact declLetter_ascii (hv _ hc)
  · subst hc; rcases hq with rfl | rfl <;> decide

theorem declSays_ascii {d : Str} {e : Option Str} (h : DeclSays d e) : ∀ c ∈ d, c.toNat < 128 := by
  obtain ⟨v, c, y, w, x, rfl, hv, hc, hy, hw⟩ := h
  intro z hz
  simp only [List.mem_append] at hz
  rcases hz with hz | hz | hz | hz
  · exact partText_ascii (by decide) hv z hz
  · rcases hc with ⟨rfl, -⟩ | ⟨a, n, -, -, hc⟩
    · cases hz
    · exact partText_ascii (by decide) hc z hz
  · rcases hy with rfl | hy | hy
    · cases hz
    · exact partText_ascii (by decide) hy z hz
    · exact partText_ascii (by decide) hy z hz
  · exact declBlank_ascii (hw _ hz)

/-- The text of a declaration with its brackets. -/
theorem head_ascii {d : Str} {e : Option Str} (h : DeclSays d e) : ∀ c ∈ py!"<?xml" ++ (d ++ py!"?>"), c.toNat < 128 := by
  intro c hc
  simp only [List.mem_append] at hc
  rcases hc with hc | hc | hc
  · revert c; decide
  · exact declSays_ascii h c hc
  · revert c; decide

/-- Bytes below 128 are characters of the text. -/
theorem utf8_prefix : ∀ {t s r : Str}, (∀ c ∈ t, c.toNat < 128) → (utf8 s).map Char.ofNat = t ++ r → ∃ r', s = t ++ r'
  | [], s, _, _, _ => ⟨s, rfl⟩
  | c :: t, [], _, _, h => by simp [utf8] at h
  | c :: t, x :: s, r, ht, h => by
    simp only [List.mem_cons, forall_eq_or_imp] at ht
    have hx : x.toNat < 128 := by
      have hl := utf8Char_lt x
      rw [utf8] at h
      unfold utf8Char at h hl
      by_cases h1 : x.toNat < 0x80
      · exact h1
      rw [if_neg h1] at h hl
      exfalso
      have : ∀ b bs, (b :: bs ++ utf8 s).map Char.ofNat = c :: t ++ r → b < 256 → 128 ≤ b → False := by
        intro b bs he hb hb'
        simp only [List.cons_append, List.map_cons, List.cons.injEq] at he
        have := ofNat_valid (n := b) (.inl (by omega))
        rw [he.1] at this
        omega
      split at h
      · rename_i h2
        rw [if_pos h2] at hl
        exact this _ _ h (hl _ (by simp)) (by omega)
      · rename_i h2
        rw [if_neg h2] at hl
        split at h
        · rename_i h3
          rw [if_pos h3] at hl
          exact this _ _ h (hl _ (by simp)) (by omega)
        · rename_i h3
          rw [if_neg h3] at hl
          exact this _ _ h (hl _ (by simp)) (by omega)
    rw [utf8, utf8Char, if_pos hx] at h
    simp only [List.cons_append, List.nil_append, List.map_cons, List.cons.injEq, Char.ofNat_toNat] at h
    obtain ⟨rfl, h⟩ := h
    obtain ⟨r', rfl⟩ := utf8_prefix ht.2 h
    exact ⟨r', rfl⟩

theorem declares_utf8 {s : Str} {ok : List Str} (h : DeclaresOnly s ok) : DeclaresOnly ((utf8 s).map Char.ofNat) ok := by
  rintro n ⟨d, r, he, hd⟩
  have he' : (utf8 s).map Char.ofNat = (py!"<?xml" ++ (d ++ py!"?>")) ++ r := by rw [he]; simp
  obtain ⟨r', rfl⟩ := utf8_prefix (head_ascii hd) he'
  exact h n ⟨d, r', by simp, hd⟩

/-! ## UTF-8 -/

theorem read8_utf8 {named : Str → Except PyErr Codec} {b : List Nat} (h : DeclaresOnly (b.map Char.ofNat) [py!"utf-8"]) :
    read8 named b = orMalformed (utf8Decode b) := by
  unfold read8
  rcases declaredIn_only h with hn | ⟨n, hn, hl⟩
  · rw [hn]
  · rw [hn]
    simp only
    rw [if_pos (by simpa using hl)]

theorem utf8Decode_mark (r : List Nat) : utf8Decode (0xEF :: 0xBB :: 0xBF :: r) = (utf8Decode r).map (Char.ofNat 0xFEFF :: ·) := by
  have h := utf8Run_char (Char.ofNat 0xFEFF) r
  rwa [show utf8Char (Char.ofNat 0xFEFF) = [0xEF, 0xBB, 0xBF] from by decide] at h

theorem orMalformed_map (o : Option Str) (f : Str → Str) : orMalformed (o.map f) = (orMalformed o).map f := by cases o <;> rfl

theorem readBinary_utf8 {named : Str → Except PyErr Codec} {b : List Nat} (h : PlainUtf8 b) :
    readBinary named b = orMalformed ((utf8Decode b).map skipBom) := by
  obtain ⟨h0, h1, h2, h3, h4⟩ := h
  have plain : (∀ r, b ≠ 0xEF :: 0xBB :: 0xBF :: r) → read8 named b = orMalformed ((utf8Decode b).map skipBom) := by
    intro hm
    rw [read8_utf8 (h4 [] b (.inl rfl) rfl)]
    cases hs : utf8Decode b with
    | none => rfl
    | some s =>
      have : skipBom s = s := by
        cases s with
        | nil => rfl
        | cons c s =>
          simp only [skipBom]
          rw [if_neg]
          intro hc
          have hb := utf8Decode_iff.1 hs
          have : c = Char.ofNat 0xFEFF := by rw [← hc, Char.ofNat_toNat]
          subst this
          exact hm (utf8 s) hb
      simp only [Option.map_some, this]
  match b, h0, h1, h2, h3, h4, plain with
  | [], _, _, _, _, _, plain => exact plain (by simp)
  | [a], _, _, _, _, _, plain => exact plain (by simp)
  | x :: y :: r, h0, h1, h2, h3, h4, plain =>
    simp only [List.head?_cons, ne_eq, Option.some.injEq, List.tail_cons] at h0 h1 h2 h3
    simp only [readBinary]
    rw [if_neg (fun e => h1 e.1), if_neg (fun e => h2 e.1)]
    by_cases hm : x = 0xEF ∧ y = 0xBB ∧ r.head? = some 0xBF
    · obtain ⟨rfl, rfl, hr⟩ := hm
      rw [if_pos ⟨rfl, rfl, hr⟩]
      cases r with
      | nil => cases hr
      | cons z r =>
        cases hr
        rw [List.tail_cons, read8_utf8 (h4 [0xEF, 0xBB, 0xBF] r (.inr rfl) rfl), utf8Decode_mark]
        cases utf8Decode r with
        | none => rfl
        | some s => rfl
    · rw [if_neg hm, if_neg h0, if_neg h3]
      refine plain fun r' e => hm ?_
      simp only [List.cons.injEq] at e
      obtain ⟨rfl, rfl, rfl⟩ := e
      exact ⟨rfl, rfl, rfl⟩

theorem utf8_bytes (s : Str) : ∀ b ∈ utf8 s, b < 0xF8 ∧ (b = 0 → Char.ofNat 0 ∈ s) := by
  induction s with
  | nil => simp [utf8]
  | cons c s ih =>
    intro b hb
    simp only [utf8, List.mem_append] at hb
    rcases hb with hb | hb
    · have hv := char_valid c
      have h0 : c.toNat = 0 → Char.ofNat 0 ∈ c :: s := by
        intro h
        have := Char.ofNat_toNat c
        rw [h] at this
        exact this ▸ List.mem_cons_self
      unfold utf8Char at hb
      repeat' split at hb
      all_goals simp only [List.mem_cons, List.not_mem_nil, or_false] at hb
      · exact ⟨by omega, fun h => h0 (by omega)⟩
      · exact ⟨by omega, fun h => by omega⟩
      · exact ⟨by omega, fun h => by omega⟩
      · exact ⟨by omega, fun h => by omega⟩
    · exact ⟨(ih b hb).1, fun h => List.mem_cons_of_mem _ ((ih b hb).2 h)⟩

/-- A text in UTF-8. -/
theorem plainUtf8_of {s : Str} (h0 : Char.ofNat 0 ∉ s) (hb : s.head? ≠ some (Char.ofNat 0xFEFF)) (hd : DeclaresOnly s [py!"utf-8"]) : PlainUtf8 (utf8 s) := by
  have hbytes := utf8_bytes s
  have hh : ∀ x, (utf8 s).head? = some x → x ∈ utf8 s := fun x h => List.mem_of_mem_head? h
  refine ⟨fun h => ?_, fun h => ?_, fun h => ?_, fun h => ?_, ?_⟩
  · exact h0 ((hbytes _ (hh _ h)).2 rfl)
  · exact absurd (hbytes _ (hh _ h)).1 (by decide)
  · exact absurd (hbytes _ (hh _ h)).1 (by decide)
  · exact h0 ((hbytes _ (List.mem_of_mem_tail (List.mem_of_mem_head? h))).2 rfl)
  · rintro m r (rfl | rfl) e
    · rw [List.nil_append] at e
      exact e ▸ declares_utf8 hd
    · exfalso
      have h1 := utf8Decode_utf8 s
      rw [e] at h1
      simp only [List.cons_append, List.nil_append] at h1
      rw [utf8Decode_mark] at h1
      obtain ⟨s', -, rfl⟩ := Option.map_eq_some_iff.1 h1
      exact hb rfl

/-! ## UTF-16 -/

theorem units16_pair (big : Bool) (n : Nat) (r : List Nat) : units16 big (pair16 big n ++ r) = (units16 big r).map (n :: ·) := by
  have e : n / 256 * 256 + n % 256 = n := by omega
  cases big <;> simp [pair16, units16, e]

theorem utf16Run_one {u : Nat} (h : u < 0xD800 ∨ 0xE000 ≤ u) (us : List Nat) : utf16Run none (u :: us) = (utf16Run none us).map (Char.ofNat u :: ·) := by
  rw [utf16Run, if_pos h]

theorem utf16Run_two {u v n : Nat} (h : ¬ (u < 0xD800 ∨ 0xE000 ≤ u)) (h' : u < 0xDC00) (hv : 0xDC00 ≤ v ∧ v < 0xE000)
    (hn : 0x10000 + (u - 0xD800) * 1024 + (v - 0xDC00) = n) (us : List Nat) : utf16Run none (u :: v :: us) = (utf16Run none us).map (Char.ofNat n :: ·) := by
  rw [utf16Run, if_neg h, if_pos h', utf16Run, if_pos hv, hn]

theorem surrogates {n : Nat} (h : ¬ n < 0x10000) (hv : n < 0x110000) : ∃ u v, 0xD800 + (n - 0x10000) / 1024 = u ∧ 0xDC00 + (n - 0x10000) % 1024 = v ∧
    ¬ (u < 0xD800 ∨ 0xE000 ≤ u) ∧ u < 0xDC00 ∧ (0xDC00 ≤ v ∧ v < 0xE000) ∧ 0x10000 + (u - 0xD800) * 1024 + (v - 0xDC00) = n :=
  ⟨_, _, rfl, rfl, by omega, by omega, by omega, by omega⟩

theorem utf16Decode_cons (big : Bool) (c : Char) (r : List Nat) : utf16Decode big (utf16Char big c ++ r) = (utf16Decode big r).map (c :: ·) := by
  have hv := char_valid c
  have hc := Char.ofNat_toNat c
  unfold utf16Decode utf16Char
  generalize c.toNat = n at *
  by_cases h1 : n < 0x10000
  · rw [if_pos h1, units16_pair]
    cases units16 big r with
    | none => rfl
    | some us =>
      rw [Option.map_some, Option.bind_some, Option.bind_some, utf16Run_one (by omega), hc]
  · obtain ⟨u, v, hu, hv', a3, a4, a5, a6⟩ := surrogates h1 (by omega)
    rw [if_neg h1, hu, hv', List.append_assoc, units16_pair, units16_pair]
    cases units16 big r with
    | none => rfl
    | some us =>
      rw [Option.map_some, Option.map_some, Option.bind_some, Option.bind_some, utf16Run_two a3 a4 a5 a6, hc]

theorem utf16Decode_utf16 (big : Bool) : ∀ s : Str, utf16Decode big (utf16 big s) = some s
  | [] => rfl
  | c :: s => by
    rw [utf16, List.flatMap_cons, utf16Decode_cons]
    have := utf16Decode_utf16 big s
    unfold utf16 at this
    rw [this]; rfl

end Opy
