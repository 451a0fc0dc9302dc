import Verif.Model.Bytes
import Verif.Lemmas.XmlText
/-
UTF-8, latin-1 and ASCII: decoding what was encoded, and decoding a prefix.
-/
namespace Opy

/-! ## UTF-8 -/

theorem char_valid (c : Char) : c.toNat < 0xD800 ∨ 0xDFFF < c.toNat ∧ c.toNat < 0x110000 := c.valid

theorem char_isValid (c : Char) : c.toNat.isValidChar := c.valid

theorem utf8Run_char (c : Char) (bs : List Nat) : utf8Run 0 0 0 (utf8Char c ++ bs) = (utf8Run 0 0 0 bs).map (c :: ·) := by
  have hv := char_valid c
  have hv' := char_isValid c
  have hc := Char.ofNat_toNat c
  unfold utf8Char
  generalize c.toNat = n at *
  by_cases h1 : n < 0x80
  · simp only [h1, if_true, List.cons_append, List.nil_append, utf8Run, hc]
  by_cases h2 : n < 0x800
  · have e : (0xC0 + n / 64 - 0xC0) * 64 + (0x80 + n % 64 - 0x80) = n := by omega
    simp only [h1, h2, if_true, if_false, List.cons_append, List.nil_append, utf8Run, e, hc, hv', and_true]
    repeat rw [if_neg (by omega)]
    rw [if_pos (by omega), if_pos (by omega), if_pos (by omega)]
  by_cases h3 : n < 0x10000
  · have e : ((0xE0 + n / 4096 - 0xE0) * 64 + (0x80 + n / 64 % 64 - 0x80)) * 64 + (0x80 + n % 64 - 0x80) = n := by omega
    simp only [h1, h2, h3, if_true, if_false, List.cons_append, List.nil_append, utf8Run, e, hc, hv', and_true]
    rw [if_neg (by omega), if_neg (by omega), if_neg (by omega), if_pos (by omega), if_pos (by omega), if_neg (by omega), if_pos (by omega), if_pos (by omega)]
  · have e : (((0xF0 + n / 262144 - 0xF0) * 64 + (0x80 + n / 4096 % 64 - 0x80)) * 64 + (0x80 + n / 64 % 64 - 0x80)) * 64 + (0x80 + n % 64 - 0x80) = n := by omega
    simp only [h1, h2, h3, if_true, if_false, List.cons_append, List.nil_append, utf8Run, e, hc, hv', and_true]
    rw [if_neg (by omega), if_neg (by omega), if_neg (by omega), if_neg (by omega), if_pos (by omega), if_pos (by omega), if_neg (by omega), if_pos (by omega), if_neg (by omega), if_pos (by omega), if_pos (by omega)]

/-- Decoding what was encoded. -/
theorem utf8Decode_utf8 : ∀ s : Str, utf8Decode (utf8 s) = some s
  | [] => rfl
  | c :: s => by
    have := utf8Decode_utf8 s
    unfold utf8Decode at this ⊢
    rw [utf8, utf8Run_char, this]
    rfl

theorem utf8_append (a b : Str) : utf8 (a ++ b) = utf8 a ++ utf8 b := by
  induction a with
  | nil => rfl
  | cons c a ih => simp [utf8, ih]

theorem utf8Run_append (q : List Nat) : ∀ (p : List Nat) (k a l : Nat) {s : Str}, utf8Run k a l p = some s →
    utf8Run k a l (p ++ q) = (utf8Run 0 0 0 q).map (s ++ ·)
  | [], 0, a, l, s, h => by
    simp only [utf8Run, Option.some.injEq] at h
    subst h
    cases q with
    | nil => rfl
    | cons b q => simp only [List.nil_append, utf8Run]; simp
  | [], k + 1, a, l, s, h => by simp [utf8Run] at h
  | b :: p, 0, a, l, s, h => by
    simp only [List.cons_append, utf8Run] at h ⊢
    by_cases h1 : b < 0x80
    · simp only [h1, if_true] at h ⊢
      obtain ⟨s', h', rfl⟩ := Option.map_eq_some_iff.1 h
      rw [utf8Run_append q p 0 0 0 h', Option.map_map]; rfl
    simp only [h1, if_false] at h ⊢
    by_cases h2 : b < 0xC0
    · simp [h2] at h
    simp only [h2, if_false] at h ⊢
    by_cases h3 : b < 0xE0
    · simp only [h3, if_true] at h ⊢; exact utf8Run_append q p _ _ _ h
    simp only [h3, if_false] at h ⊢
    by_cases h4 : b < 0xF0
    · simp only [h4, if_true] at h ⊢; exact utf8Run_append q p _ _ _ h
    simp only [h4, if_false] at h ⊢
    by_cases h5 : b < 0xF8
    · simp only [h5, if_true] at h ⊢; exact utf8Run_append q p _ _ _ h
    · simp [h5] at h
  | b :: p, k + 1, a, l, s, h => by
    simp only [List.cons_append, utf8Run] at h ⊢
    by_cases h1 : 0x80 ≤ b ∧ b < 0xC0
    · rw [if_pos h1] at h ⊢
      by_cases h2 : k = 0
      · rw [if_pos h2] at h ⊢
        by_cases h3 : l ≤ a * 64 + (b - 0x80) ∧ (a * 64 + (b - 0x80)).isValidChar
        · rw [if_pos h3] at h ⊢
          obtain ⟨s', h', rfl⟩ := Option.map_eq_some_iff.1 h
          rw [utf8Run_append q p 0 0 0 h', Option.map_map]; rfl
        · rw [if_neg h3] at h; cases h
      · rw [if_neg h2] at h ⊢; exact utf8Run_append q p _ _ _ h
    · rw [if_neg h1] at h; cases h

/-- If a prefix can be decoded, so can the rest, and the texts are put together. -/
theorem utf8Decode_append {p q : List Nat} {s t : Str} (h : utf8Decode (p ++ q) = some t) (hp : utf8Decode p = some s) :
    ∃ r, utf8Decode q = some r ∧ t = s ++ r := by
  unfold utf8Decode at *
  rw [utf8Run_append q p 0 0 0 hp] at h
  obtain ⟨r, h1, rfl⟩ := Option.map_eq_some_iff.1 h
  exact ⟨r, h1, rfl⟩

/-- Lean's own encoding. -/
theorem utf8Char_core (c : Char) : (String.utf8EncodeChar c).map UInt8.toNat = utf8Char c := by
  have hv := char_valid c
  unfold String.utf8EncodeChar utf8Char
  change List.map UInt8.toNat (if c.toNat ≤ 0x7f then _ else if c.toNat ≤ 0x7ff then _ else if c.toNat ≤ 0xffff then _ else _) = _
  change c.toNat < 0xD800 ∨ 0xDFFF < c.toNat ∧ c.toNat < 0x110000 at hv
  have hn : c.val.toNat = c.toNat := rfl
  simp only [hn]
  generalize c.toNat = n at *
  by_cases h1 : n < 0x80
  · rw [if_pos (by omega), if_pos h1]; simp; omega
  rw [if_neg (by omega), if_neg h1]
  by_cases h2 : n < 0x800
  · rw [if_pos (by omega), if_pos h2]; simp; omega
  rw [if_neg (by omega), if_neg h2]
  by_cases h3 : n < 0x10000
  · rw [if_pos (by omega), if_pos h3]; simp; omega
  · rw [if_neg (by omega), if_neg h3]; simp; omega

/-- Bytes. -/
theorem utf8Char_lt (c : Char) : ∀ b ∈ utf8Char c, b < 256 := by
  have hv := char_valid c
  unfold utf8Char
  generalize c.toNat = n at *
  intro b hb
  repeat' split at hb
  all_goals simp only [List.mem_cons, List.not_mem_nil, or_false] at hb; omega

theorem utf8_lt (s : Str) : ∀ b ∈ utf8 s, b < 256 := by
  induction s with
  | nil => simp [utf8]
  | cons c s ih =>
    simp only [utf8, List.mem_append]
    exact fun b hb => hb.elim (utf8Char_lt c b) (ih b)

theorem ofNat_valid {n : Nat} (h : n.isValidChar) : (Char.ofNat n).toNat = n := by
  simp only [Char.ofNat, dif_pos h, Char.ofNatAux, Char.toNat]
  rfl

/-- What can be decoded is the encoding of the text: the decoder accepts no other form. -/
theorem utf8_utf8Run : ∀ (k : Nat) (bs : List Nat), bs.length ≤ k → ∀ {s : Str}, utf8Run 0 0 0 bs = some s → utf8 s = bs
  | _, [], _, s, h => by
    simp only [utf8Run, Option.some.injEq] at h
    subst h; rfl
  | k + 1, b :: bs, hk, s, h => by
    have hk' : bs.length ≤ k := by simpa using hk
    simp only [utf8Run] at h
    by_cases h1 : b < 0x80
    · simp only [h1, if_true] at h
      obtain ⟨s', h', rfl⟩ := Option.map_eq_some_iff.1 h
      have hb : (Char.ofNat b).toNat = b := ofNat_valid (Or.inl (by omega))
      simp only [utf8, utf8Char, hb, h1, if_true, utf8_utf8Run k bs hk' h']; rfl
    simp only [h1, if_false] at h
    by_cases h2 : b < 0xC0
    · simp [h2] at h
    simp only [h2, if_false] at h
    by_cases h3 : b < 0xE0
    · simp only [h3, if_true] at h
      match bs, h with
      | b1 :: bs, h =>
        simp only [utf8Run] at h
        by_cases g1 : 0x80 ≤ b1 ∧ b1 < 0xC0
        · rw [if_pos g1, if_pos trivial] at h
          split at h
          · rename_i hv
            obtain ⟨s', h', rfl⟩ := Option.map_eq_some_iff.1 h
            have hk2 : bs.length ≤ k := by simp only [List.length_cons] at hk'; omega
            simp only [utf8, utf8Char, ofNat_valid hv.2, utf8_utf8Run k bs hk2 h']
            rw [if_neg (by omega), if_pos (by omega)]
            have e1 : 0xC0 + ((b - 0xC0) * 64 + (b1 - 0x80)) / 64 = b := by omega
            have e2 : 0x80 + ((b - 0xC0) * 64 + (b1 - 0x80)) % 64 = b1 := by omega
            rw [e1, e2]; rfl
          · cases h
        · rw [if_neg g1] at h; cases h
    simp only [h3, if_false] at h
    by_cases h4 : b < 0xF0
    · simp only [h4, if_true] at h
      match bs, h with
      | [b1], h => simp only [utf8Run] at h; split at h <;> simp at h
      | b1 :: b2 :: bs, h =>
        simp only [utf8Run] at h
        by_cases g1 : 0x80 ≤ b1 ∧ b1 < 0xC0
        · rw [if_pos g1, if_neg (by omega)] at h
          by_cases g2 : 0x80 ≤ b2 ∧ b2 < 0xC0
          · rw [if_pos g2, if_pos trivial] at h
            split at h
            · rename_i hv
              obtain ⟨s', h', rfl⟩ := Option.map_eq_some_iff.1 h
              have hk2 : bs.length ≤ k := by simp only [List.length_cons] at hk'; omega
              simp only [utf8, utf8Char, ofNat_valid hv.2, utf8_utf8Run k bs hk2 h']
              rw [if_neg (by omega), if_neg (by omega), if_pos (by omega)]
              have e1 : 0xE0 + (((b - 0xE0) * 64 + (b1 - 0x80)) * 64 + (b2 - 0x80)) / 4096 = b := by omega
              have e2 : 0x80 + (((b - 0xE0) * 64 + (b1 - 0x80)) * 64 + (b2 - 0x80)) / 64 % 64 = b1 := by omega
              have e3 : 0x80 + (((b - 0xE0) * 64 + (b1 - 0x80)) * 64 + (b2 - 0x80)) % 64 = b2 := by omega
              rw [e1, e2, e3]; rfl
            · cases h
          · rw [if_neg g2] at h; cases h
        · rw [if_neg g1] at h; cases h
    simp only [h4, if_false] at h
    by_cases h5 : b < 0xF8
    · simp only [h5, if_true] at h
      match bs, h with
      | [b1], h => simp only [utf8Run] at h; split at h <;> simp at h
      | [b1, b2], h =>
        simp [utf8Run] at h
      | b1 :: b2 :: b3 :: bs, h =>
        simp only [utf8Run] at h
        by_cases g1 : 0x80 ≤ b1 ∧ b1 < 0xC0
        · rw [if_pos g1, if_neg (by omega)] at h
          by_cases g2 : 0x80 ≤ b2 ∧ b2 < 0xC0
          · rw [if_pos g2, if_neg (by omega)] at h
            by_cases g3 : 0x80 ≤ b3 ∧ b3 < 0xC0
            · rw [if_pos g3, if_pos trivial] at h
              split at h
              · rename_i hv
                obtain ⟨s', h', rfl⟩ := Option.map_eq_some_iff.1 h
                have hk2 : bs.length ≤ k := by simp only [List.length_cons] at hk'; omega
                simp only [utf8, utf8Char, ofNat_valid hv.2, utf8_utf8Run k bs hk2 h']
                rw [if_neg (by omega), if_neg (by omega), if_neg (by omega)]
                have e1 : 0xF0 + ((((b - 0xF0) * 64 + (b1 - 0x80)) * 64 + (b2 - 0x80)) * 64 + (b3 - 0x80)) / 262144 = b := by omega
                have e2 : 0x80 + ((((b - 0xF0) * 64 + (b1 - 0x80)) * 64 + (b2 - 0x80)) * 64 + (b3 - 0x80)) / 4096 % 64 = b1 := by omega
                have e3 : 0x80 + ((((b - 0xF0) * 64 + (b1 - 0x80)) * 64 + (b2 - 0x80)) * 64 + (b3 - 0x80)) / 64 % 64 = b2 := by omega
                have e4 : 0x80 + ((((b - 0xF0) * 64 + (b1 - 0x80)) * 64 + (b2 - 0x80)) * 64 + (b3 - 0x80)) % 64 = b3 := by omega
                rw [e1, e2, e3, e4]; rfl
              · cases h
            · rw [if_neg g3] at h; cases h
          · rw [if_neg g2] at h; cases h
        · rw [if_neg g1] at h; cases h
    · simp [h5] at h

/-- The bytes of a text and the text of bytes. -/
theorem utf8Decode_iff {b : List Nat} {s : Str} : utf8Decode b = some s ↔ b = utf8 s :=
  ⟨fun h => (utf8_utf8Run _ b (Nat.le_refl _) h).symm, fun h => h ▸ utf8Decode_utf8 s⟩

/-! ## Other encodings -/

theorem decodeBytes_iff {top : Nat} (ht : top ≤ 256) {b : List Nat} {s : Str} :
    decodeBytes top b = some s ↔ b = s.map Char.toNat ∧ ∀ c ∈ s, c.toNat < top := by
  induction b generalizing s with
  | nil => cases s <;> simp [decodeBytes]
  | cons x b ih =>
    simp only [decodeBytes]
    constructor
    · intro h
      split at h
      · rename_i hx
        obtain ⟨s', h', rfl⟩ := Option.map_eq_some_iff.1 h
        obtain ⟨h1, h2⟩ := ih.1 h'
        have := ofNat_valid (n := x) (Or.inl (by omega))
        simp only [List.map_cons, this, ← h1, List.mem_cons, forall_eq_or_imp, hx, true_and]
        exact h2
      · cases h
    · rintro ⟨h1, h2⟩
      cases s with
      | nil => simp at h1
      | cons c s =>
        simp only [List.map_cons, List.cons.injEq] at h1
        obtain ⟨rfl, h1⟩ := h1
        rw [if_pos (h2 c (by simp)), (ih (s := s)).2 ⟨h1, fun d hd => h2 d (by simp [hd])⟩, Char.ofNat_toNat]
        rfl

/-- What was encoded is decoded. -/
def Codec.Sound (c : Codec) : Prop := ∀ s b, c.encode s = some b → c.dec b = some s

theorem utf8Codec_encode (s : Str) : utf8Codec.encode s = some (utf8 s) := by
  induction s with
  | nil => rfl
  | cons c s ih => simp [Codec.encode, ih, utf8]; rfl

theorem utf8Codec_sound : utf8Codec.Sound := by
  intro s b h
  rw [utf8Codec_encode] at h
  cases h
  exact utf8Decode_utf8 s

theorem encode_bytes (top : Nat) (dec : List Nat → Option Str) (s : Str) :
    (Codec.mk (fun c => if c.toNat < top then some [c.toNat] else none) dec).encode s =
      if ∀ c ∈ s, c.toNat < top then some (s.map Char.toNat) else none := by
  induction s with
  | nil => simp [Codec.encode]
  | cons c s ih =>
    simp only [Codec.encode, ih, List.mem_cons, forall_eq_or_imp]
    by_cases h1 : c.toNat < top
    · by_cases h2 : ∀ c ∈ s, c.toNat < top
      · simp only [h1, if_true, if_pos h2, true_and]; rfl
      · simp only [h1, if_true, h2, and_false, if_false]
    · simp [h1]

theorem encode_latin1 (s : Str) : latin1.encode s = if ∀ c ∈ s, c.toNat < 256 then some (s.map Char.toNat) else none :=
  encode_bytes 256 _ s

theorem encode_ascii (s : Str) : ascii.encode s = if ∀ c ∈ s, c.toNat < 128 then some (s.map Char.toNat) else none :=
  encode_bytes 128 _ s

theorem latin1_sound : latin1.Sound := by
  intro s b h
  rw [encode_latin1] at h
  split at h
  · rename_i hs; cases h; exact (decodeBytes_iff (Nat.le_refl _)).2 ⟨rfl, hs⟩
  · cases h

theorem ascii_sound : ascii.Sound := by
  intro s b h
  rw [encode_ascii] at h
  split at h
  · rename_i hs; cases h; exact (decodeBytes_iff (by decide)).2 ⟨rfl, hs⟩
  · cases h

/-! ## Line ends -/

theorem normEol_crlf {s : Str} (h : '\r' ∉ s) : normEol (replaceAll ['\n'] ['\r', '\n'] s) = s := by
  rw [replaceAll_flatMap]
  induction s with
  | nil => rfl
  | cons c s ih =>
    simp only [List.mem_cons, not_or] at h
    rw [List.flatMap_cons]
    by_cases hc : c = '\n'
    · subst hc
      simp only [if_true, List.cons_append, List.nil_append, normEol, ih h.2]
    · simp only [if_neg hc, List.cons_append, List.nil_append]
      rw [normEol_cons (Ne.symm h.1), ih h.2]

theorem normEol_all (s : Str) : (normEol s).all isXmlChar = s.all isXmlChar := by
  induction s using normEol.induct with
  | case1 => rfl
  | case2 s ih => simp [normEol, ih, show isXmlChar '\n' = true from by decide, show isXmlChar '\r' = true from by decide]
  | case3 s h ih =>
    rw [normEol]
    · simp [ih, show isXmlChar '\n' = true from by decide, show isXmlChar '\r' = true from by decide]
    · exact h
  | case4 c s h1 h2 ih =>
    rw [normEol_cons (fun e => h2 e)]
    simp [ih]

/-- The reader does the same. -/
theorem readXml_eol (s : Str) : readXml (normEol s) = readXml s := by
  unfold readXml
  rw [normEol_all, normEol_idem]

theorem loadXes_eol {F : Type} [PyFloat F] (given : Option (Factory F)) (reg : Factory F) (mgr : ExtMgr) (h : Heap F) (s : Str) :
    loadXes given reg mgr h (normEol s) = loadXes given reg mgr h s := by
  unfold loadXes; rw [readXml_eol]

theorem loadMxml_eol {F : Type} [PyFloat F] (rnd : Nat → Uuid) (s : Str) :
    (loadMxml rnd (normEol s) : Except PyErr (List (Log F))) = loadMxml rnd s := by
  unfold loadMxml; rw [readXml_eol]

end Opy
