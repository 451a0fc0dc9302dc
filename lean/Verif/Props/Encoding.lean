import Verif.Props.ExtFile
/-
Property C182: the encoding that a document declares.
-/
set_option linter.unusedSectionVars false
namespace Opy

/-! ## Specification -/

/-- An encoding of single bytes with the name `n`: built in, or known to Python. -/
def ByteEncoding (named : Str → Except PyErr Codec) (n : Str) (c : Codec) : Prop :=
  (lower n = py!"iso-8859-1" ∧ c = latin1) ∨ (lower n = py!"us-ascii" ∧ c = ascii) ∨
    lower n ∉ [py!"utf-8", py!"us-ascii", py!"iso-8859-1", py!"utf-16", py!"utf-16be", py!"utf-16le"] ∧ named n = .ok c

/-- The bytes are the document `s` in an encoding that it declares or need not declare. -/
inductive InEncoding (named : Str → Except PyErr Codec) : List Nat → Str → Prop
  /-- UTF-8, which need not be declared, with or without a byte order mark. -/
  | utf8 {s : Str} (hd : DeclaresOnly s [py!"utf-8"]) (h0 : Char.ofNat 0 ∉ s) (hb : s.head? ≠ some (Char.ofNat 0xFEFF)) : InEncoding named (utf8 s) s
  | utf8Mark {s : Str} (hd : DeclaresOnly s [py!"utf-8"]) : InEncoding named (0xEF :: 0xBB :: 0xBF :: utf8 s) s
  /-- UTF-16, which need not be declared, with a byte order mark ... -/
  | utf16Mark (big : Bool) {s : Str} (hd : DeclaresOnly s [py!"utf-16", if big then py!"utf-16be" else py!"utf-16le"]) :
      InEncoding named (pair16 big 0xFEFF ++ utf16 big s) s
  /-- ... or without one, if the first character (white space or `<`) is below 256. -/
  | utf16 (big : Bool) {c : Char} {s : Str} (hc : 0 < c.toNat ∧ c.toNat < 256) (hd : DeclaresOnly (c :: s) [py!"utf-16", if big then py!"utf-16be" else py!"utf-16le"]) :
      InEncoding named (utf16 big (c :: s)) (c :: s)
  /-- An encoding of single bytes, which is declared, and that has the characters of the declaration as ASCII does. -/
  | bytes {n d r : Str} {c : Codec} {b : List Nat} (hc : ByteEncoding named n c) (hs : c.Sound) (hd : DeclSays d (some n))
      (ha : ∀ x ∈ py!"<?xml" ++ (d ++ py!"?>"), c.enc x = some [x.toNat]) (he : c.encode (py!"<?xml" ++ (d ++ '?' :: '>' :: r)) = some b) :
      InEncoding named b (py!"<?xml" ++ (d ++ '?' :: '>' :: r))

/-- A document of single bytes (without a byte order mark) names an encoding. -/
def BytesDeclare (b : List Nat) (n : Str) : Prop := DocDeclares (b.map Char.ofNat) n

/-! ## Reading -/

theorem lower_in2 {n a b : Str} (h : lower n ∈ [a, b]) : lower n = a ∨ lower n = b := by simpa using h

theorem read16_ok {named : Str → Except PyErr Codec} {big : Bool} {s : Str} (hd : DeclaresOnly s [py!"utf-16", if big then py!"utf-16be" else py!"utf-16le"]) :
    read16 named big (utf16 big s) = .ok s := by
  unfold read16
  rw [utf16Decode_utf16]
  simp only
  rcases declaredIn_only hd with h | ⟨n, h, hn⟩
  · rw [h]
  · rw [h]
    simp only
    rw [if_pos (lower_in2 hn)]

theorem encode_append {c : Codec} : ∀ {t r : Str} {b : List Nat}, (∀ x ∈ t, c.enc x = some [x.toNat]) → c.encode (t ++ r) = some b → ∃ b', b = t.map Char.toNat ++ b'
  | [], _, b, _, _ => ⟨b, rfl⟩
  | x :: t, r, b, ht, h => by
    simp only [List.mem_cons, forall_eq_or_imp] at ht
    simp only [List.cons_append, Codec.encode, ht.1] at h
    cases h2 : c.encode (t ++ r) with
    | none => rw [h2] at h; cases h
    | some b2 =>
      rw [h2] at h
      cases h
      obtain ⟨b', rfl⟩ := encode_append ht.2 h2
      exact ⟨b', rfl⟩

/-- A document of single bytes that begins with a declaration is read in the encoding that it names. -/
theorem readBinary_decl {named : Str → Except PyErr Codec} {b : List Nat} {n : Str} (h : BytesDeclare b n) (hb : ∀ x ∈ b, x < 256) : readBinary named b = read8 named b := by
  obtain ⟨d, r, h, -⟩ := h
  match b, h, hb with
  | [], h, _ => cases h
  | [x], h, _ => simp at h
  | x :: y :: b, h, hb =>
    simp only [List.map_cons, List.cons_append, List.nil_append, List.cons.injEq] at h
    have hx := ofNat_valid (n := x) (.inl (by have := hb x (by simp); omega))
    have hy := ofNat_valid (n := y) (.inl (by have := hb y (by simp); omega))
    rw [h.1] at hx
    rw [h.2.1] at hy
    subst hx
    subst hy
    rfl

theorem map_ofNat_ascii (t : Str) : (t.map Char.toNat).map Char.ofNat = t := by
  rw [List.map_map]
  exact (List.map_congr_left fun c _ => Char.ofNat_toNat c).trans (List.map_id _)

/-- C182: a binary document is read as what it is in its encoding. -/
theorem c182_reads {named : Str → Except PyErr Codec} {b : List Nat} {s : Str} (h : InEncoding named b s) : readBinary named b = .ok s := by
  cases h with
  | utf8 hd h0 hb =>
    rw [readBinary_utf8 (plainUtf8_of h0 hb hd), utf8Decode_utf8]
    have : skipBom s = s := by
      cases s with
      | nil => rfl
      | cons c s =>
        simp only [skipBom]
        rw [if_neg]
        intro hc
        exact hb (by rw [← hc, Char.ofNat_toNat]; rfl)
    rw [Option.map_some, this]; rfl
  | utf8Mark hd =>
    show read8 named (Opy.utf8 s) = _
    rw [read8_utf8 (declares_utf8 hd), utf8Decode_utf8]; rfl
  | utf16Mark big hd =>
    have h := read16_ok (named := named) hd
    cases big with
    | true => exact h
    | false => exact h
  | utf16 big hc hd =>
    rename_i c s
    have h := read16_ok (named := named) hd
    have hu : Opy.utf16 big (c :: s) = (if big then [0, c.toNat] else [c.toNat, 0]) ++ Opy.utf16 big s := by
      rw [Opy.utf16, List.flatMap_cons, utf16Char, if_pos (by omega), pair16, show c.toNat / 256 = 0 from by omega, show c.toNat % 256 = c.toNat from by omega]
      rfl
    rw [hu] at h ⊢
    cases big with
    | true =>
      simp only [if_true, List.cons_append, List.nil_append, readBinary] at h ⊢
      rw [if_neg (by omega), if_neg (by omega), if_neg (by omega)]
      exact h
    | false =>
      simp only [Bool.false_eq_true, if_false, List.cons_append, List.nil_append, readBinary, if_true] at h ⊢
      rw [if_neg (by omega), if_neg (by omega), if_neg (by omega), if_neg (by omega)]
      exact h
  | bytes hc hs hd ha he =>
    rename_i n d r c
    have he' : c.encode ((py!"<?xml" ++ (d ++ py!"?>")) ++ r) = some b := by rw [← he]; simp
    obtain ⟨b', rfl⟩ := encode_append ha he'
    have hdec : declaredIn (((py!"<?xml" ++ (d ++ py!"?>")).map Char.toNat ++ b').map Char.ofNat) = some n := by
      rw [List.map_append, map_ofNat_ascii]
      exact declaredIn_iff.2 ⟨d, b'.map Char.ofNat, by simp, hd⟩
    have h1 : readBinary named ((py!"<?xml" ++ (d ++ py!"?>")).map Char.toNat ++ b') = read8 named ((py!"<?xml" ++ (d ++ py!"?>")).map Char.toNat ++ b') := rfl
    rw [h1, read8, hdec]
    simp only
    rcases hc with ⟨hn, rfl⟩ | ⟨hn, rfl⟩ | ⟨hn, hk⟩
    · rw [hn, if_neg (by decide), if_neg (by decide), if_pos rfl, hs _ _ he]; rfl
    · rw [hn, if_neg (by decide), if_pos rfl, hs _ _ he]; rfl
    · simp only [List.mem_cons, List.not_mem_nil, or_false, not_or] at hn
      rw [if_neg hn.1, if_neg hn.2.1, if_neg hn.2.2.1, if_neg (by simp [hn.2.2.2]), hk]
      simp only
      rw [hs _ _ he]; rfl

/-- C182: a byte order mark of UTF-8 is skipped, and the declaration counts. -/
theorem c182_mark {named : Str → Except PyErr Codec} {b : List Nat} (hb : ∀ x ∈ b, x < 256) {n : Str} (h : BytesDeclare b n) :
    readBinary named (0xEF :: 0xBB :: 0xBF :: b) = readBinary named b := by
  rw [readBinary_decl h hb]
  rfl

section
variable {F : Type} [PyFloat F]

/-- C182 for compressed logs and for extension definitions from the web. -/
theorem c182_compressed {z : Gzip} (hz : z.Sound) {b : List Nat} {s : Str} (h : InEncoding z.named b s) :
    (∀ (given : Option (Factory F)) reg mgr hp, loadXesGz z given reg mgr hp (z.pack b) = loadXes given reg mgr hp s) ∧
    ∀ rnd, (loadMxmlGz z rnd (z.pack b) : Except PyErr (List (Log F))) = loadMxml rnd s := by
  constructor
  · intro given reg mgr hp
    simp only [loadXesGz, readGz, hz _, c182_reads h, bind, Except.bind]
  · intro rnd
    simp only [loadMxmlGz, readGz, hz _, c182_reads h, bind, Except.bind]

theorem c182_web (w : ExtWorld F) {codec : Codec} {named : Str → Except PyErr Codec} {look : Str → AtPath} {names : GlobalMap} {path s : Str} {b : List Nat}
    (hl : look path = .nothing) (hf : w.fetch path = .data b) (h : InEncoding named b s) : parseExtPath w codec named look names path = parseExtText w names s := by
  simp only [parseExtPath, hl, hf, c182_reads h, bind, Except.bind]

/-! ## Refused -/

/-- C182: a document of single bytes that declares UTF-16 is refused, so is one that names an encoding that Python does not know, or
one of more than one byte. -/
theorem c182_mismatch {named : Str → Except PyErr Codec} {b : List Nat} {n : Str} (hb : ∀ x ∈ b, x < 256) (h : BytesDeclare b n) :
    (lower n ∈ [py!"utf-16", py!"utf-16be", py!"utf-16le"] → readBinary named b = .error .other) ∧
    ∀ e, lower n ∉ [py!"utf-8", py!"us-ascii", py!"iso-8859-1", py!"utf-16", py!"utf-16be", py!"utf-16le"] → named n = .error e → readBinary named b = .error e := by
  rw [readBinary_decl h hb, read8, declaredIn_iff.2 h]
  simp only
  constructor
  · intro hn
    have hn' := hn
    simp only [List.mem_cons, List.not_mem_nil, or_false] at hn
    rw [if_neg (by rcases hn with h | h | h <;> rw [h] <;> decide), if_neg (by rcases hn with h | h | h <;> rw [h] <;> decide),
      if_neg (by rcases hn with h | h | h <;> rw [h] <;> decide), if_pos hn']
    rfl
  · intro e hn hk
    simp only [List.mem_cons, List.not_mem_nil, or_false, not_or] at hn
    rw [if_neg hn.1, if_neg hn.2.1, if_neg hn.2.2.1, if_neg (by simp [hn.2.2.2]), hk]

/-- C182: a document in UTF-16 that declares anything else is refused: as malformed, unless the encoding is one that Python is asked for and
that it does not know (or one of more than one byte); then Python's error is raised. -/
theorem c182_mismatch16 {named : Str → Except PyErr Codec} (big : Bool) {s n : Str} (h : DocDeclares s n)
    (hn : lower n ∉ [py!"utf-16", if big then py!"utf-16be" else py!"utf-16le"]) :
    ∃ e, readBinary named (pair16 big 0xFEFF ++ utf16 big s) = .error e ∧
      ((lower n ∈ [py!"utf-8", py!"us-ascii", py!"iso-8859-1", py!"utf-16be", py!"utf-16le"] ∨ ∃ c, named n = .ok c) → e = .other) ∧
      (lower n ∉ [py!"utf-8", py!"us-ascii", py!"iso-8859-1", py!"utf-16be", py!"utf-16le"] → ∀ e', named n = .error e' → e = e') := by
  have h1 : readBinary named (pair16 big 0xFEFF ++ utf16 big s) = read16 named big (utf16 big s) := by cases big <;> rfl
  rw [h1, read16, utf16Decode_utf16]
  simp only [declaredIn_iff.2 h]
  rw [if_neg (by simpa using hn)]
  split
  · next hk => exact ⟨_, rfl, fun _ => rfl, fun hx => absurd hk hx⟩
  · next hk =>
    cases hc : named n with
    | ok c => exact ⟨_, rfl, fun _ => rfl, fun _ e' he => by cases he⟩
    | error e =>
      refine ⟨_, rfl, ?_, fun _ e' he => by cases he; rfl⟩
      rintro (hx | ⟨c, hx⟩)
      · exact absurd hx hk
      · cases hx

/-- C182: bytes that are nothing in the encoding that is declared are refused. -/
theorem c182_undecodable {named : Str → Except PyErr Codec} {b : List Nat} (hb : ∀ x ∈ b, x < 256) {n : Str} (h : BytesDeclare b n) :
    (lower n = py!"utf-8" → utf8Decode b = none → readBinary named b = .error .other) ∧
    ∀ c, ByteEncoding named n c → c.dec b = none → readBinary named b = .error .other := by
  rw [readBinary_decl h hb, read8, declaredIn_iff.2 h]
  simp only
  constructor
  · intro hn hd
    rw [if_pos hn, hd]; rfl
  · rintro c (⟨hn, rfl⟩ | ⟨hn, rfl⟩ | ⟨hn, hk⟩) hd
    · rw [hn, if_neg (by decide), if_neg (by decide), if_pos rfl, hd]; rfl
    · rw [hn, if_neg (by decide), if_pos rfl, hd]; rfl
    · simp only [List.mem_cons, List.not_mem_nil, or_false, not_or] at hn
      rw [if_neg hn.1, if_neg hn.2.1, if_neg hn.2.2.1, if_neg (by simp [hn.2.2.2]), hk]
      simp only
      rw [hd]; rfl

/-! ## Plain files -/

/-- C182, what holds for plain files: they are read in the encoding of the platform, so it has to be the right one. -/
theorem c182_partial {codec : Codec} (hc : codec.Sound) {s : Str} {b : List Nat} (he : codec.encode s = some b) (hb : s.head? ≠ some (Char.ofNat 0xFEFF)) :
    (∀ (given : Option (Factory F)) reg mgr hp, loadXesPlain codec given reg mgr hp b = loadXes given reg mgr hp s) ∧
    ∀ rnd, (loadMxmlPlain codec rnd b : Except PyErr (List (Log F))) = loadMxml rnd s := by
  have h1 : skipBom (normEol s) = normEol s := by
    rw [skipBom_normEol]
    congr 1
    cases s with
    | nil => rfl
    | cons c s =>
      simp only [skipBom]
      rw [if_neg]
      intro hc
      exact hb (by rw [← hc, Char.ofNat_toNat]; rfl)
  constructor
  · intro given reg mgr hp
    simp only [loadXesPlain, readPlain, hc _ _ he, h1, bind, Except.bind, loadXes_eol]
  · intro rnd
    simp only [loadMxmlPlain, readPlain, hc _ _ he, h1, bind, Except.bind, loadMxml_eol]

end

/-! ## Examples -/

/-- A document that declares latin-1. -/
def latinText : Str := py!"<?xml version=\"1.0\" encoding='ISO-8859-1' standalone=\"yes\"?><WorkflowLog><Process id=\"Ã©\"/></WorkflowLog>"

def latinDoc : List Nat := latinText.map Char.toNat

/-- Its declaration. -/
theorem latin_says : DeclSays py!" version=\"1.0\" encoding='ISO-8859-1' standalone=\"yes\"" (some py!"ISO-8859-1") := declared_says.1 (by decide +kernel)

theorem latin_in (named : Str → Except PyErr Codec) : InEncoding named latinDoc latinText :=
  .bytes (n := py!"ISO-8859-1") (r := py!"<WorkflowLog><Process id=\"Ã©\"/></WorkflowLog>") (.inl ⟨by decide, rfl⟩) latin1_sound latin_says
    (by decide +kernel) (by rw [encode_latin1, if_pos (by decide +kernel)]; rfl)

theorem latin_gz : nameOfLogs (loadMxmlGz plainZip (fun _ => ⟨0, by decide⟩) (plainZip.pack latinDoc)) = some [some ['Ã', '©']] := by decide +kernel

theorem latin_plain : nameOfLogs (loadMxmlPlain utf8Codec (fun _ => ⟨0, by decide⟩) latinDoc) = some [some ['é']] := by decide +kernel

/-- C182, refuted for plain files: one that declares latin-1 and is in latin-1 is read on a platform with UTF-8 as something else, without an error. -/
theorem c182_refuted : ¬ ∀ (codec : Codec) (named : Str → Except PyErr Codec) (b : List Nat) (s : Str), codec.Sound → InEncoding named b s → ∀ rnd,
    (loadMxmlPlain codec rnd b : Except PyErr (List (Log ToyFloat))) = loadMxml rnd s := by
  intro h
  have h1 := latin_gz
  have h2 := latin_plain
  rw [h utf8Codec plainZip.named latinDoc latinText utf8Codec_sound (latin_in _) (fun _ => ⟨0, by decide⟩),
    ← (c182_compressed (F := ToyFloat) plainZip_sound (latin_in plainZip.named)).2, h1] at h2
  revert h2; decide

/-- UTF-16 with and without a byte order mark, in both orders, and with characters outside the first plane. -/
example : readBinary plainZip.named (pair16 false 0xFEFF ++ utf16 false py!"<a b=\"𝄞é\"/>") = .ok py!"<a b=\"𝄞é\"/>" ∧
    readBinary plainZip.named (utf16 true py!"<?xml version='1.0' encoding='UTF-16'?><a b=\"𝄞é\"/>") = .ok py!"<?xml version='1.0' encoding='UTF-16'?><a b=\"𝄞é\"/>" := by
  constructor
  · exact c182_reads (.utf16Mark false fun n hn => by
      have := declaredIn_iff.2 hn
      rw [show declaredIn py!"<a b=\"𝄞é\"/>" = none from by decide +kernel] at this
      cases this)
  · exact c182_reads (.utf16 true (by decide) fun n hn => by
      have := declaredIn_iff.2 hn
      rw [show declaredIn ('<' :: py!"?xml version='1.0' encoding='UTF-16'?><a b=\"𝄞é\"/>") = some py!"UTF-16" from by decide +kernel] at this
      cases this
      decide)

/-- Encodings that do not fit, and one that is not known. -/
example : readBinary plainZip.named (py!"<?xml version='1.0' encoding='utf-16'?><a/>".map Char.toNat) = .error .other ∧
    readBinary (fun _ => .error .valueError) (py!"<?xml version='1.0' encoding='big5'?><a/>".map Char.toNat) = .error .valueError ∧
    readBinary plainZip.named ([0xFF, 0xFE] ++ utf16 false py!"<?xml version='1.0' encoding='utf-8'?><a/>") = .error .other ∧
    readBinary plainZip.named (py!"<?xml version='1.0' encoding='us-ascii'?><a>".map Char.toNat ++ [0xE9]) = .error .other := by
  refine ⟨?_, ?_, ?_, ?_⟩ <;> decide +kernel

end Opy
