import Verif.Props.XesMeaning
import Verif.Props.MxmlMeaning
/-
Property C134: how an XML file is laid out.

The specification is a grammar of documents: elements, attributes in either quotes with any white space, references,
comments, processing instructions, CDATA sections and the XML declaration (XML 1.0, 2nd to 4th section, names in
ASCII, no document type).
-/
set_option linter.unusedSectionVars false
namespace Opy

/-! ## Specification -/

/-- White space, perhaps none. -/
def WfGap (s : Str) : Prop := ∀ c ∈ s, c = ' ' ∨ c = '\t' ∨ c = '\n'

/-- A name of an element or attribute, in ASCII. -/
def WfName : Str → Prop
  | [] => False
  | c :: cs => (c.isAlpha = true ∨ c = '_' ∨ c = ':') ∧
    ∀ d ∈ cs, d.isAlpha = true ∨ d.isDigit = true ∨ d = '_' ∨ d = ':' ∨ d = '-' ∨ d = '.'

/-- A decimal digit. -/
def decChar (d : Fin 10) : Char := Char.ofNat (48 + d)

/-- A hexadecimal digit, as a small or a capital letter. -/
def hexChar (d : Fin 16 × Bool) : Char :=
  if d.2 then (py!"0123456789ABCDEF").getD d.1 '0' else (py!"0123456789abcdef").getD d.1 '0'

/-- The characters of XML 1.0 (production 2). -/
def CharOfXml (c : Char) : Prop :=
  c.toNat = 0x9 ∨ c.toNat = 0xA ∨ c.toNat = 0xD ∨ (0x20 ≤ c.toNat ∧ c.toNat ≤ 0xD7FF) ∨ (0xE000 ≤ c.toNat ∧ c.toNat ≤ 0xFFFD) ∨
    (0x10000 ≤ c.toNat ∧ c.toNat ≤ 0x10FFFF)

/-- The text between `&` and `;` and the character it stands for. -/
inductive WfRef : Str → Char → Prop where
  | amp : WfRef py!"amp" '&'
  | lt : WfRef py!"lt" '<'
  | gt : WfRef py!"gt" '>'
  | quot : WfRef py!"quot" '"'
  | apos : WfRef py!"apos" '\''
  | dec (ds : List (Fin 10)) (c : Char) : ds ≠ [] → CharOfXml c → ds.foldl (fun n d => 10 * n + d.val) 0 = c.toNat →
    WfRef ('#' :: ds.map decChar) c
  | hex (ds : List (Fin 16 × Bool)) (c : Char) : ds ≠ [] → CharOfXml c → ds.foldl (fun n d => 16 * n + d.1.val) 0 = c.toNat →
    WfRef ('#' :: 'x' :: ds.map hexChar) c

/-- The text between the quotes `q` and the value: white space counts as blanks. -/
inductive WfVal (q : Char) : Str → Str → Prop where
  | nil : WfVal q [] []
  | blank {c : Char} {s v : Str} : (c = ' ' ∨ c = '\t' ∨ c = '\n') → WfVal q s v → WfVal q (c :: s) (' ' :: v)
  | char {c : Char} {s v : Str} : c ≠ q → c ≠ '<' → c ≠ '&' → c ≠ ' ' → c ≠ '\t' → c ≠ '\n' → WfVal q s v → WfVal q (c :: s) (c :: v)
  | ref {r s v : Str} {d : Char} : WfRef r d → WfVal q s v → WfVal q ('&' :: (r ++ ';' :: s)) (d :: v)

/-- The attributes of a tag. -/
inductive WfAttrs : Str → List (Str × Str) → Prop where
  | nil : WfAttrs [] []
  | cons {g a w w' t v s : Str} {q : Char} {as : List (Str × Str)} : WfGap g → g ≠ [] → WfName a → WfGap w → WfGap w' →
    (q = '"' ∨ q = '\'') → WfVal q t v → WfAttrs s as →
    WfAttrs (g ++ a ++ w ++ '=' :: (w' ++ q :: (t ++ q :: s))) ((a, v) :: as)

/-- A comment. -/
def WfComment (t : Str) : Prop := ∃ b, t = py!"<!--" ++ b ++ py!"-->" ∧ ¬ py!"--" <:+: b ++ ['-']

/-- A processing instruction. -/
def WfInstr (t : Str) : Prop := ∃ n b, t = py!"<?" ++ n ++ b ++ py!"?>" ∧ WfName n ∧ lower n ≠ py!"xml" ∧
  (b = [] ∨ ∃ c b', b = c :: b' ∧ WfGap [c]) ∧ ¬ py!"?>" <:+: b

/-- What stands between the start and the end of an element, and what it says: elements and single characters. -/
inductive WfBody : Str → List MSax → Prop where
  | nil : WfBody [] []
  | char {c : Char} {s : Str} {es : List MSax} : c ≠ '<' → c ≠ '&' → ¬ (c = ']' ∧ py!"]>" <+: s) → WfBody s es →
    WfBody (c :: s) (.chars [c] :: es)
  | ref {r s : Str} {d : Char} {es : List MSax} : WfRef r d → WfBody s es → WfBody ('&' :: (r ++ ';' :: s)) (.chars [d] :: es)
  | comment {t s : Str} {es : List MSax} : WfComment t → WfBody s es → WfBody (t ++ s) es
  | instr {t s : Str} {es : List MSax} : WfInstr t → WfBody s es → WfBody (t ++ s) es
  | cdata {t s : Str} {es : List MSax} : ¬ py!"]]>" <:+: t → WfBody s es →
    WfBody (py!"<![CDATA[" ++ t ++ py!"]]>" ++ s) ((t.map fun c => .chars [c]) ++ es)
  | empty {n a w s : Str} {as : List (Str × Str)} {es : List MSax} : WfName n → WfAttrs a as → (as.map Prod.fst).Nodup → WfGap w → WfBody s es →
    WfBody ('<' :: (n ++ a ++ w ++ '/' :: '>' :: s)) (.start n as :: .stop n :: es)
  | full {n a w t w' s : Str} {as : List (Str × Str)} {e es : List MSax} : WfName n → WfAttrs a as → (as.map Prod.fst).Nodup → WfGap w →
    WfBody t e → WfGap w' → WfBody s es →
    WfBody ('<' :: (n ++ a ++ w ++ '>' :: (t ++ '<' :: '/' :: (n ++ w' ++ '>' :: s)))) (.start n as :: (e ++ .stop n :: es))

/-- The document element. -/
inductive WfElem : Str → List MSax → Prop where
  | empty {n a w : Str} {as : List (Str × Str)} : WfName n → WfAttrs a as → (as.map Prod.fst).Nodup → WfGap w →
    WfElem ('<' :: (n ++ a ++ w ++ py!"/>")) [.start n as, .stop n]
  | full {n a w t w' : Str} {as : List (Str × Str)} {e : List MSax} : WfName n → WfAttrs a as → (as.map Prod.fst).Nodup → WfGap w →
    WfBody t e → WfGap w' →
    WfElem ('<' :: (n ++ a ++ w ++ '>' :: (t ++ '<' :: '/' :: (n ++ w' ++ ['>'])))) (.start n as :: (e ++ [.stop n]))

/-- What may stand before and after the document element. -/
inductive WfMisc : Str → Prop where
  | nil : WfMisc []
  | gap {c : Char} {s : Str} : (c = ' ' ∨ c = '\t' ∨ c = '\n') → WfMisc s → WfMisc (c :: s)
  | comment {t s : Str} : WfComment t → WfMisc s → WfMisc (t ++ s)
  | instr {t s : Str} : WfInstr t → WfMisc s → WfMisc (t ++ s)

/-- One of the parts of the XML declaration. -/
def WfPart (name value t : Str) : Prop := ∃ g w w' q, WfGap g ∧ g ≠ [] ∧ WfGap w ∧ WfGap w' ∧ (q = '"' ∨ q = '\'') ∧
  t = g ++ name ++ w ++ '=' :: (w' ++ q :: (value ++ [q]))

/-- The XML declaration. -/
def WfDecl (t : Str) : Prop := ∃ v e y w, t = py!"<?xml" ++ v ++ e ++ y ++ w ++ py!"?>" ∧ WfPart py!"version" py!"1.0" v ∧
  (e = [] ∨ ∃ a n, a.isAlpha = true ∧ (∀ c ∈ n, c.isAlpha = true ∨ c.isDigit = true ∨ c = '.' ∨ c = '_' ∨ c = '-') ∧ WfPart py!"encoding" (a :: n) e) ∧
  (y = [] ∨ WfPart py!"standalone" py!"yes" y ∨ WfPart py!"standalone" py!"no" y) ∧ WfGap w

/-- A document and what it says: elements and single characters. -/
def WfDoc (s : Str) (es : List MSax) : Prop := ∃ d m x m', s = d ++ m ++ x ++ m' ∧ (d = [] ∨ WfDecl d) ∧ WfMisc m ∧ WfElem x es ∧ WfMisc m'

instance (c : Char) : Decidable (CharOfXml c) := by unfold CharOfXml; infer_instance

/-- `t` is `s` with each line end, whichever of the three, as a line feed (XML 1.0, section 2.11). -/
inductive LineEnds : Str → Str → Prop where
  | nil : LineEnds [] []
  | crlf {s t : Str} : LineEnds s t → LineEnds ('\r' :: '\n' :: s) ('\n' :: t)
  | cr {s t : Str} : s.head? ≠ some '\n' → LineEnds s t → LineEnds ('\r' :: s) ('\n' :: t)
  | other {c : Char} {s t : Str} : c ≠ '\r' → LineEnds s t → LineEnds (c :: s) (c :: t)

/-! ## Reading -/

theorem isXmlChar_iff {c : Char} : isXmlChar c = true ↔ CharOfXml c := by
  have h : ∀ d : Char, (c = d) ↔ c.toNat = d.toNat := fun d => ⟨fun e => by rw [e], fun e => Char.toNat_inj.1 e⟩
  have hm : c.toNat ≤ 0x10FFFF := by
    rcases c.valid with h | h
    · exact Nat.le_of_lt (Nat.lt_trans h (by decide))
    · exact Nat.le_of_lt_succ h.2
  simp only [isXmlChar, CharOfXml, Bool.or_eq_true, Bool.and_eq_true, decide_eq_true_eq, h, or_assoc]
  have e1 : '\t'.toNat = 9 := rfl
  have e2 : '\n'.toNat = 10 := rfl
  have e3 : '\r'.toNat = 13 := rfl
  rw [e1, e2, e3]
  omega

theorem lineEnds_norm : ∀ (s : Str), LineEnds s (normEol s)
  | [] => .nil
  | c :: s => by
    by_cases hc : c = '\r'
    · subst hc
      cases s with
      | nil => exact .cr (by simp) .nil
      | cons d s =>
        by_cases hd : d = '\n'
        · subst hd
          exact .crlf (lineEnds_norm s)
        · have := lineEnds_norm (d :: s)
          have e : normEol ('\r' :: d :: s) = '\n' :: normEol (d :: s) := by
            rw [normEol]
            intro x hx
            exact hd (List.cons.inj hx).1
          rw [e]
          exact .cr (by simpa using hd) this
    · have e : normEol (c :: s) = c :: normEol s := by
        rw [normEol]
        · rintro x rfl; exact absurd rfl hc
        · rintro rfl; exact absurd rfl hc
      rw [e]
      exact .other hc (lineEnds_norm s)

theorem lineEnds_eq {s t : Str} (h : LineEnds s t) : t = normEol s := by
  induction h with
  | nil => rfl
  | crlf _ ih => rw [ih]; rfl
  | @cr s t hs _ ih =>
    rw [ih]
    cases s with
    | nil => rfl
    | cons d s =>
      rw [normEol]
      rintro x e
      cases e
      exact hs rfl
  | @other c s t hc _ ih =>
    rw [ih, normEol]
    · rintro x rfl; exact absurd rfl hc
    · rintro rfl; exact absurd rfl hc

theorem gap_space {c : Char} (h : c = ' ' ∨ c = '\t' ∨ c = '\n') : isXmlSpace c = true ∧ isNameChar c = false := by
  rcases h with rfl | rfl | rfl <;> decide

theorem wfName_good {n : Str} (h : WfName n) : GoodName n := by
  cases n with
  | nil => exact h
  | cons c cs =>
    obtain ⟨h1, h2⟩ := h
    refine ⟨?_, fun d hd => ?_⟩
    · rcases h1 with h1 | rfl | rfl
      · simp [isNameStart, h1]
      · decide
      · decide
    · rcases h2 d hd with h2 | h2 | rfl | rfl | rfl | rfl
      · simp [isNameChar, isNameStart, h2]
      · simp [isNameChar, h2]
      all_goals decide

theorem numeral_dec : ∀ (ds : List (Fin 10)) (n : Nat), numeral? asciiDigit? 10 n (ds.map decChar) = some (ds.foldl (fun n d => 10 * n + d.val) n)
  | [], _ => rfl
  | d :: ds, n => by
    have : ∀ d : Fin 10, asciiDigit? (decChar d) = some d.val := by decide
    simp only [List.map_cons, numeral?, this, List.foldl_cons]
    exact numeral_dec ds _

theorem numeral_hex : ∀ (ds : List (Fin 16 × Bool)) (n : Nat),
    numeral? hexDigit? 16 n (ds.map hexChar) = some (ds.foldl (fun n d => 16 * n + d.1.val) n)
  | [], _ => rfl
  | d :: ds, n => by
    have h0 : ∀ (i : Fin 16) (u : Bool), hexDigit? (hexChar (i, u)) = some i.val := by decide
    have : ∀ d : Fin 16 × Bool, hexDigit? (hexChar d) = some d.1.val := fun d => h0 d.1 d.2
    simp only [List.map_cons, numeral?, this, List.foldl_cons]
    exact numeral_hex ds _

theorem charRef_char {c : Char} (h : isXmlChar c = true) : charRef (some c.toNat) = some c := by
  have h1 : Char.ofNat c.toNat = c := Char.ofNat_toNat c
  have h2 : c.toNat < 0x110000 := by
    have := c.valid
    simp only [UInt32.isValidChar, Nat.isValidChar] at this
    have e : c.toNat = c.val.toNat := rfl
    omega
  simp [charRef, h1, h2, h]

theorem wfRef_resolve {r : Str} {d : Char} (h : WfRef r d) : resolveRef r = some d ∧ ∀ c ∈ r, c ≠ ';' := by
  cases h with
  | amp | lt | gt | quot | apos => exact ⟨rfl, by decide⟩
  | dec ds _ h1 h2 h3 =>
    cases ds with
    | nil => exact absurd rfl h1
    | cons d0 ds =>
      constructor
      · have hx : ∀ d : Fin 10, decChar d ≠ 'x' := by decide
        have := hx d0
        rw [List.map_cons, resolveRef.eq_def]
        split <;> first | (rename_i e; injection e with e1 e2; injection e2 with e2; exact absurd e2 this) | skip
        all_goals simp_all
        rename_i e
        obtain ⟨rfl, rfl⟩ := e
        rw [← List.map_cons, numeral_dec, List.foldl_cons, Nat.mul_zero, Nat.zero_add, h3]
        exact charRef_char (isXmlChar_iff.2 h2)
      · have : ∀ d : Fin 10, decChar d ≠ ';' := by decide
        intro c hc
        rcases List.mem_cons.1 hc with rfl | hc
        · decide
        · obtain ⟨d, _, rfl⟩ := List.mem_map.1 hc
          exact this d
  | hex ds _ h1 h2 h3 =>
    cases ds with
    | nil => exact absurd rfl h1
    | cons d0 ds =>
      constructor
      · show charRef (numeral? hexDigit? 16 0 ((d0 :: ds).map hexChar)) = _
        rw [numeral_hex, h3]
        exact charRef_char (isXmlChar_iff.2 h2)
      · have h0 : ∀ (i : Fin 16) (u : Bool), hexChar (i, u) ≠ ';' := by decide
        have : ∀ d : Fin 16 × Bool, hexChar d ≠ ';' := fun d => h0 d.1 d.2
        intro c hc
        rcases List.mem_cons.1 hc with rfl | hc
        · decide
        rcases List.mem_cons.1 hc with rfl | hc
        · decide
        · obtain ⟨d, _, rfl⟩ := List.mem_map.1 hc
          exact this d

/-- A reference in a value, in either quotes. -/
theorem go_valref {r : Str} {d q : Char} (hq : q ≠ '&') (hr : WfRef r d) (n : Str) (as : List (Str × Str)) (a acc : Str) (k : List Str) (b : Bool) :
    Go ⟨.aval n as a q acc, k, b⟩ ('&' :: (r ++ [';'])) ⟨.aval n as a q (acc ++ [d]), k, b⟩ [] := by
  obtain ⟨hd, hr⟩ := wfRef_resolve hr
  refine Go.cons0 (s1 := ⟨.aref n as a q acc [], k, b⟩) (by simp [rdStep, hq.symm]) ?_
  have : ∀ (r r0 : Str), (∀ c ∈ r, c ≠ ';') → Go ⟨.aref n as a q acc r0, k, b⟩ r ⟨.aref n as a q acc (r0 ++ r), k, b⟩ [] := by
    intro r
    induction r with
    | nil => intro r0 _; simpa using Go.nil _
    | cons c r ih =>
      intro r0 h
      refine Go.cons0 (s1 := ⟨.aref n as a q acc (r0 ++ [c]), k, b⟩) (by simp [rdStep, h c (by simp)]) ?_
      have := ih (r0 ++ [c]) fun c hc => h c (by simp [hc])
      simpa using this
  refine Go.append0 (this r [] hr) ?_
  refine Go.cons0 ?_ (Go.nil _)
  simp [rdStep, hd]

theorem go_val {q : Char} (hq : q = '"' ∨ q = '\'') {s v : Str} (h : WfVal q s v) (n : Str) (as : List (Str × Str)) (a acc : Str) (k : List Str) (b : Bool) :
    Go ⟨.aval n as a q acc, k, b⟩ s ⟨.aval n as a q (acc ++ v), k, b⟩ [] := by
  have q1 : q ≠ ' ' ∧ q ≠ '\t' ∧ q ≠ '\n' ∧ q ≠ '&' := by rcases hq with rfl | rfl <;> decide
  induction h generalizing acc with
  | nil => simpa using Go.nil _
  | @blank c s v hc _ ih =>
    have := ih (acc ++ [' '])
    refine Go.cons0 (s1 := ⟨.aval n as a q (acc ++ [' ']), k, b⟩) ?_ (by simpa using this)
    have h1 : c ≠ q := by rintro rfl; rcases hc with e | e | e <;> simp_all
    have h2 : c ≠ '<' ∧ c ≠ '&' := by rcases hc with rfl | rfl | rfl <;> decide
    simp [rdStep, h1, h2.1, h2.2, (gap_space hc).1]
  | @char c s v h1 h2 h3 h4 h5 h6 _ ih =>
    have := ih (acc ++ [c])
    refine Go.cons0 (s1 := ⟨.aval n as a q (acc ++ [c]), k, b⟩) ?_ (by simpa using this)
    simp [rdStep, h1, h2, h3, isXmlSpace, h4, h5, h6]
  | @ref r s v d hr _ ih =>
    have := (go_valref q1.2.2.2 hr n as a acc k b).append0 (ih (acc ++ [d]))
    simpa using this

/-! ### Tags -/

theorem go_gap_inTag {n : Str} {as : List (Str × Str)} {k : List Str} {b : Bool} : ∀ {g : Str}, WfGap g →
    Go ⟨.inTag n as true, k, b⟩ g ⟨.inTag n as true, k, b⟩ []
  | [], _ => Go.nil _
  | c :: g, h => Go.cons0 (s1 := ⟨.inTag n as true, k, b⟩) (by simp [rdStep, tagChar, (gap_space (h c (by simp))).1])
      (go_gap_inTag fun d hd => h d (by simp [hd]))

theorem go_gap_first {st : RdSt} {n : Str} {as : List (Str × Str)} {k : List Str} {b : Bool} (hst : InTag st n as k b) {g : Str} (h : WfGap g) (hg : g ≠ []) :
    Go st g ⟨.inTag n as true, k, b⟩ [] := by
  cases g with
  | nil => exact absurd rfl hg
  | cons c g =>
    have hc := gap_space (h c (by simp))
    refine Go.cons0 (s1 := ⟨.inTag n as true, k, b⟩) ?_ (go_gap_inTag fun d hd => h d (by simp [hd]))
    rw [hst c hc.2]
    simp [tagChar, hc.1]

theorem go_gap_aeq {n a : Str} {as : List (Str × Str)} {k : List Str} {b : Bool} : ∀ {g : Str}, WfGap g →
    Go ⟨.aeq n as a, k, b⟩ g ⟨.aeq n as a, k, b⟩ []
  | [], _ => Go.nil _
  | c :: g, h => by
    have hc := h c (by simp)
    have he : c ≠ '=' := by rcases hc with rfl | rfl | rfl <;> decide
    exact Go.cons0 (s1 := ⟨.aeq n as a, k, b⟩) (by simp [rdStep, he, (gap_space hc).1]) (go_gap_aeq fun d hd => h d (by simp [hd]))

theorem go_gap_eq {n a : Str} {as : List (Str × Str)} {k : List Str} {b : Bool} {g : Str} (h : WfGap g) :
    Go ⟨.aname n as a, k, b⟩ (g ++ ['=']) ⟨.aquote n as a, k, b⟩ [] := by
  cases g with
  | nil => exact Go.cons0 (by simp [rdStep, show isNameChar '=' = false by decide]) (Go.nil _)
  | cons c g =>
    have hc := h c (by simp)
    have he : c ≠ '=' := by rcases hc with rfl | rfl | rfl <;> decide
    refine Go.cons0 (s1 := ⟨.aeq n as a, k, b⟩) (by simp [rdStep, he, gap_space hc]) ?_
    exact (go_gap_aeq fun d hd => h d (by simp [hd])).append0 (Go.cons0 (by simp [rdStep]) (Go.nil _))

theorem go_gap_quote {n a : Str} {as : List (Str × Str)} {k : List Str} {b : Bool} {q : Char} (hq : q = '"' ∨ q = '\'') : ∀ {g : Str}, WfGap g →
    Go ⟨.aquote n as a, k, b⟩ (g ++ [q]) ⟨.aval n as a q [], k, b⟩ []
  | [], _ => Go.cons0 (by simp only [rdStep]; rw [if_pos hq]) (Go.nil _)
  | c :: g, h => by
    have hc := h c (by simp)
    have he : ¬ (c = '"' ∨ c = '\'') := by rcases hc with rfl | rfl | rfl <;> decide
    exact Go.cons0 (s1 := ⟨.aquote n as a, k, b⟩) (by simp only [rdStep]; rw [if_neg he, if_pos (gap_space hc).1])
      (go_gap_quote hq fun d hd => h d (by simp [hd]))

theorem go_wfAttrs {n : Str} {k : List Str} {b : Bool} {s : Str} {new : List (Str × Str)} (h : WfAttrs s new) : ∀ (as : List (Str × Str)) (st : RdSt),
    InTag st n as k b → (as.map Prod.fst ++ new.map Prod.fst).Nodup → ∃ st', Go st s st' [] ∧ InTag st' n (as ++ new) k b := by
  induction h with
  | nil => intro as st hst _; exact ⟨st, Go.nil _, by simpa using hst⟩
  | @cons g a w w' t v s q new hg hg0 ha hw hw' hq hv _ ih =>
    intro as st hst hn
    have hnot : a ∉ dkeys as := by
      intro hm
      rw [List.nodup_append] at hn
      exact hn.2.2 a hm a (by simp) rfl
    obtain ⟨st', h1, h2⟩ := ih (as ++ [(a, v)]) ⟨.inTag n (as ++ [(a, v)]) false, k, b⟩ (inTag_inTag n _ k b) (by simpa using hn)
    refine ⟨st', ?_, by simpa using h2⟩
    have e : g ++ a ++ w ++ '=' :: (w' ++ q :: (t ++ q :: s)) = g ++ (a ++ ((w ++ ['=']) ++ ((w' ++ [q]) ++ (t ++ (q :: s))))) := by simp
    rw [e]
    refine Go.append0 (go_gap_first hst hg hg0) ?_
    have hname := wfName_good ha
    obtain ⟨c, cs, rfl⟩ : ∃ c cs, a = c :: cs := by
      cases a with
      | nil => exact absurd hname (by simp [GoodName])
      | cons c cs => exact ⟨c, cs, rfl⟩
    obtain ⟨n1, n2, n3, n4, n5⟩ := nameStart_ne hname.1
    rw [List.cons_append]
    refine Go.cons0 (s1 := ⟨.aname n as [c], k, b⟩) ?_ ?_
    · simp [rdStep, tagChar, n1, n4, n5, hname.1]
    refine Go.append0 (go_aname k b n as cs [c] hname.2) ?_
    refine Go.append0 (go_gap_eq hw) ?_
    refine Go.append0 (go_gap_quote hq hw') ?_
    refine Go.append0 (go_val hq hv n as _ [] k b) ?_
    refine Go.cons0 (s1 := ⟨.inTag n (as ++ [(c :: cs, v)]) false, k, b⟩) ?_ h1
    simp only [List.singleton_append, List.nil_append, rdStep, if_true]
    rw [if_neg hnot]

/-- A start tag up to its end. -/
theorem go_wfStart {n a w : Str} {as : List (Str × Str)} (hn : WfName n) (ha : WfAttrs a as) (hd : (as.map Prod.fst).Nodup) (hw : WfGap w) {k : List Str} {b : Bool}
    (hk : k ≠ [] ∨ b = false) :
    ∃ st, Go ⟨.text, k, b⟩ ('<' :: (n ++ a ++ w)) st [] ∧ InTag st n as k b := by
  have hn := wfName_good hn
  obtain ⟨c, cs, rfl⟩ : ∃ c cs, n = c :: cs := by
    cases n with
    | nil => exact absurd hn (by simp [GoodName])
    | cons c cs => exact ⟨c, cs, rfl⟩
  obtain ⟨st, h3, h4⟩ := go_wfAttrs (n := c :: cs) (k := k) (b := b) ha [] ⟨.name (c :: cs), k, b⟩ (inTag_name _ k b) (by simpa using hd)
  obtain ⟨n1, n2, n3, _, _⟩ := nameStart_ne hn.1
  have hpre : Go ⟨.text, k, b⟩ ('<' :: ((c :: cs) ++ a)) st [] := by
    refine Go.cons0 (s1 := ⟨.lt, k, b⟩) (by simp [rdStep]) ?_
    refine Go.cons0 (s1 := ⟨.name [c], k, b⟩) ?_ ?_
    · simp only [rdStep, n1, n2, n3, if_false, hn.1, true_and]
      rw [if_pos hk]
    exact Go.append0 (go_name k b cs [c] hn.2) h3
  rw [List.nil_append] at h4
  have e : '<' :: ((c :: cs) ++ a ++ w) = ('<' :: ((c :: cs) ++ a)) ++ w := by simp
  rw [e]
  by_cases hw0 : w = []
  · subst hw0
    exact ⟨st, by simpa using hpre, h4⟩
  · refine ⟨⟨.inTag (c :: cs) as true, k, b⟩, hpre.append0 (go_gap_first h4 hw hw0), ?_⟩
    intro d hd
    simp only [rdStep, tagChar]
    have hd2 : isNameStart d = false := by
      cases h : isNameStart d with
      | false => rfl
      | true => rw [nameStart_char h] at hd; exact absurd hd (by decide)
    simp [hd2]

theorem go_stopGap {n : Str} {k : List Str} {b : Bool} : ∀ {g : Str}, WfGap g → Go ⟨.stopGap n, n :: k, b⟩ (g ++ ['>']) ⟨.text, k, true⟩ [.stop n]
  | [], _ => Go.cons (e1 := [.stop n]) (e2 := []) (by simp [rdStep, stopChar, show isXmlSpace '>' = false by decide]) (Go.nil _)
  | c :: g, h => Go.cons0 (s1 := ⟨.stopGap n, n :: k, b⟩) (by simp [rdStep, stopChar, (gap_space (h c (by simp))).1])
      (go_stopGap fun d hd => h d (by simp [hd]))

/-- An end tag. -/
theorem go_wfStop {n w : Str} (hn : WfName n) (hw : WfGap w) (k : List Str) (b : Bool) :
    Go ⟨.text, n :: k, b⟩ ('<' :: '/' :: (n ++ w ++ ['>'])) ⟨.text, k, true⟩ [.stop n] := by
  refine Go.cons0 (s1 := ⟨.lt, n :: k, b⟩) (by simp [rdStep]) ?_
  refine Go.cons0 (s1 := ⟨.stop [], n :: k, b⟩) (by simp [rdStep]) ?_
  rw [List.append_assoc]
  refine Go.append0 (go_stop (n :: k) b n [] (wfName_good hn).chars) ?_
  rw [List.nil_append]
  cases w with
  | nil =>
    refine Go.cons (e1 := [.stop n]) (e2 := []) ?_ (Go.nil _)
    simp [rdStep, stopChar, show isNameChar '>' = false by decide, show isXmlSpace '>' = false by decide]
  | cons c w =>
    have hc := gap_space (hw c (by simp))
    exact Go.cons0 (s1 := ⟨.stopGap n, n :: k, b⟩) (by simp [rdStep, stopChar, hc.1, hc.2]) (go_stopGap fun d hd => hw d (by simp [hd]))

/-! ### Comments, processing instructions and CDATA sections -/

theorem go_comment_body (k : List Str) (b : Bool) : ∀ t : Str,
    ((¬ py!"--" <:+: t ++ ['-']) → Go ⟨.comment, k, b⟩ (t ++ py!"-->") ⟨.text, k, b⟩ []) ∧
    ((¬ py!"--" <:+: '-' :: (t ++ ['-'])) → Go ⟨.comment1, k, b⟩ (t ++ py!"-->") ⟨.text, k, b⟩ [])
  | [] => ⟨fun _ => rfl, fun h => absurd (List.infix_refl _) h⟩
  | c :: t => by
    obtain ⟨h1, h2⟩ := go_comment_body k b t
    constructor
    · intro h
      by_cases hc : c = '-'
      · subst hc
        exact Go.cons0 (s1 := ⟨.comment1, k, b⟩) (by simp [rdStep]) (h2 h)
      · refine Go.cons0 (s1 := ⟨.comment, k, b⟩) (by simp [rdStep, hc]) (h1 fun hi => h ?_)
        exact hi.trans (List.suffix_cons c _).isInfix
    · intro h
      have hc : c ≠ '-' := by
        rintro rfl
        exact h ⟨[], t ++ ['-'], rfl⟩
      refine Go.cons0 (s1 := ⟨.comment, k, b⟩) (by simp [rdStep, hc]) (h1 fun hi => h ?_)
      exact hi.trans ((List.suffix_cons c _).trans (List.suffix_cons '-' _)).isInfix

theorem go_wfComment {t : Str} (h : WfComment t) (k : List Str) (b : Bool) : Go ⟨.text, k, b⟩ t ⟨.text, k, b⟩ [] := by
  obtain ⟨d, rfl, hd⟩ := h
  show Go _ ('<' :: '!' :: '-' :: '-' :: (d ++ py!"-->")) _ _
  refine Go.cons0 (s1 := ⟨.lt, k, b⟩) (by simp [rdStep]) ?_
  refine Go.cons0 (s1 := ⟨.bang, k, b⟩) (by simp [rdStep]) ?_
  refine Go.cons0 (s1 := ⟨.bang1, k, b⟩) (by simp [rdStep]) ?_
  refine Go.cons0 (s1 := ⟨.comment, k, b⟩) (by simp [rdStep]) ?_
  exact (go_comment_body k b d).1 hd

theorem go_instr_body (k : List Str) (b : Bool) : ∀ t : Str,
    ((¬ py!"?>" <:+: t) → Go ⟨.pi, k, b⟩ (t ++ py!"?>") ⟨.text, k, b⟩ []) ∧
    ((¬ py!"?>" <:+: '?' :: t) → Go ⟨.pi1, k, b⟩ (t ++ py!"?>") ⟨.text, k, b⟩ [])
  | [] => ⟨fun _ => rfl, fun _ => rfl⟩
  | c :: t => by
    obtain ⟨h1, h2⟩ := go_instr_body k b t
    constructor
    · intro h
      by_cases hc : c = '?'
      · subst hc
        exact Go.cons0 (s1 := ⟨.pi1, k, b⟩) (by simp [rdStep]) (h2 h)
      · exact Go.cons0 (s1 := ⟨.pi, k, b⟩) (by simp [rdStep, hc]) (h1 fun hi => h (hi.trans (List.suffix_cons c _).isInfix))
    · intro h
      have hc : c ≠ '>' := by
        rintro rfl
        exact h ⟨[], t, rfl⟩
      by_cases hq : c = '?'
      · subst hq
        exact Go.cons0 (s1 := ⟨.pi1, k, b⟩) (by simp [rdStep]) (h2 fun hi => h (hi.trans (List.suffix_cons '?' _).isInfix))
      · refine Go.cons0 (s1 := ⟨.pi, k, b⟩) (by simp [rdStep, hc, hq]) (h1 fun hi => h ?_)
        exact hi.trans ((List.suffix_cons c _).trans (List.suffix_cons '?' _)).isInfix

/-- Inside a processing instruction without question marks. -/
theorem go_pi_plain (k : List Str) (b : Bool) : ∀ {t : Str}, (∀ c ∈ t, c ≠ '?') → Go ⟨.pi, k, b⟩ t ⟨.pi, k, b⟩ []
  | [], _ => Go.nil _
  | c :: t, h => Go.cons0 (s1 := ⟨.pi, k, b⟩) (by simp [rdStep, h c (by simp)]) (go_pi_plain k b fun d hd => h d (by simp [hd]))

theorem nameChar_question {n : Str} (h : GoodName n) : ∀ c ∈ n, c ≠ '?' := by
  rintro c hc rfl
  exact absurd (h.chars _ hc) (by decide)

theorem go_wfInstr {t : Str} (h : WfInstr t) (k : List Str) (b : Bool) : Go ⟨.text, k, b⟩ t ⟨.text, k, b⟩ [] := by
  obtain ⟨n, d, rfl, hn, -, -, hd⟩ := h
  have e : py!"<?" ++ n ++ d ++ py!"?>" = '<' :: '?' :: (n ++ (d ++ py!"?>")) := by simp
  rw [e]
  refine Go.cons0 (s1 := ⟨.lt, k, b⟩) (by simp [rdStep]) ?_
  refine Go.cons0 (s1 := ⟨.pi, k, b⟩) (by simp [rdStep]) ?_
  exact (go_pi_plain k b (nameChar_question (wfName_good hn))).append0 ((go_instr_body k b d).1 hd)

theorem go_cdata_body (k : List Str) (b : Bool) : ∀ t : Str,
    ((¬ py!"]]>" <:+: t) → Go ⟨.cdata, k, b⟩ (t ++ py!"]]>") ⟨.text, k, b⟩ (t.map fun c => .chars [c])) ∧
    ((¬ py!"]]>" <:+: ']' :: t) → Go ⟨.cdata1, k, b⟩ (t ++ py!"]]>") ⟨.text, k, b⟩ ((']' :: t).map fun c => .chars [c])) ∧
    ((¬ py!"]]>" <:+: ']' :: ']' :: t) → Go ⟨.cdata2, k, b⟩ (t ++ py!"]]>") ⟨.text, k, b⟩ ((']' :: ']' :: t).map fun c => .chars [c]))
  | [] => ⟨fun _ => rfl, fun _ => rfl, fun _ => rfl⟩
  | c :: t => by
    obtain ⟨h1, h2, h3⟩ := go_cdata_body k b t
    have s0 : ∀ {x : Char} {l : Str}, ¬ py!"]]>" <:+: x :: l → ¬ py!"]]>" <:+: l := fun h hi => h (hi.trans (List.suffix_cons _ _).isInfix)
    refine ⟨fun h => ?_, fun h => ?_, fun h => ?_⟩
    · by_cases hc : c = ']'
      · subst hc
        exact Go.cons0 (s1 := ⟨.cdata1, k, b⟩) (by simp [rdStep]) (h2 h)
      · exact Go.cons (s1 := ⟨.cdata, k, b⟩) (e1 := [.chars [c]]) (by simp [rdStep, hc]) (h1 (s0 h))
    · by_cases hc : c = ']'
      · subst hc
        exact Go.cons0 (s1 := ⟨.cdata2, k, b⟩) (by simp [rdStep]) (h3 h)
      · exact Go.cons (s1 := ⟨.cdata, k, b⟩) (e1 := [.chars [']'], .chars [c]]) (by simp [rdStep, hc]) (h1 (s0 (s0 h)))
    · have hg : c ≠ '>' := by
        rintro rfl
        exact h ⟨[], t, rfl⟩
      by_cases hc : c = ']'
      · subst hc
        exact Go.cons (s1 := ⟨.cdata2, k, b⟩) (e1 := [.chars [']']]) (by simp [rdStep]) (h3 (s0 h))
      · exact Go.cons (s1 := ⟨.cdata, k, b⟩) (e1 := [.chars [']'], .chars [']'], .chars [c]]) (by simp [rdStep, hc, hg]) (h1 (s0 (s0 (s0 h))))

theorem go_wfCdata {t : Str} (h : ¬ py!"]]>" <:+: t) (n : Str) (k : List Str) (b : Bool) :
    Go ⟨.text, n :: k, b⟩ (py!"<![CDATA[" ++ t ++ py!"]]>") ⟨.text, n :: k, b⟩ (t.map fun c => .chars [c]) := by
  have e : py!"<![CDATA[" ++ t ++ py!"]]>" = py!"<![CDATA[" ++ (t ++ py!"]]>") := by simp
  rw [e]
  refine Go.append0 (s1 := ⟨.cdata, n :: k, b⟩) rfl ((go_cdata_body (n :: k) b t).1 h)

/-! ### Elements and documents -/

theorem go_wfBody {s : Str} {es : List MSax} (h : WfBody s es) : ∀ (n : Str) (k : List Str),
    Go ⟨.text, n :: k, true⟩ s ⟨.text, n :: k, true⟩ es := by
  induction h with
  | nil => intro n k; exact Go.nil _
  | char h1 h2 _ _ ih => intro n k; exact (go_tchar h1 h2 n k true).append (ih n k)
  | @ref r s d es hr _ ih =>
    intro n k
    obtain ⟨h1, h2⟩ := wfRef_resolve hr
    have := (go_ref h2 h1 n k true).append (ih n k)
    simpa using this
  | comment hc _ ih => intro n k; exact (go_wfComment hc _ _).append0 (ih n k)
  | instr hc _ ih => intro n k; exact (go_wfInstr hc _ _).append0 (ih n k)
  | cdata hc _ ih => intro n k; exact (go_wfCdata hc n k true).append (ih n k)
  | @empty t a w s as es ht ha hd hw _ ih =>
    intro n k
    obtain ⟨st, h1, h2⟩ := go_wfStart ht ha hd hw (k := n :: k) (b := true) (.inl (by simp))
    have := (h1.append0 (go_emptyEnd h2)).append (ih n k)
    simpa using this
  | @full t a w u w' s as e es ht ha hd hw _ hw' _ ih1 ih2 =>
    intro n k
    obtain ⟨st, h1, h2⟩ := go_wfStart ht ha hd hw (k := n :: k) (b := true) (.inl (by simp))
    have := (h1.append0 ((go_tagEnd h2).append ((ih1 t (n :: k)).append (go_wfStop ht hw' (n :: k) true)))).append (ih2 n k)
    simpa using this

theorem go_wfElem {s : Str} {es : List MSax} (h : WfElem s es) : Go ⟨.text, [], false⟩ s ⟨.text, [], true⟩ es := by
  cases h with
  | @empty t a w as ht ha hd hw =>
    obtain ⟨st, h1, h2⟩ := go_wfStart ht ha hd hw (k := []) (b := false) (.inr rfl)
    have := h1.append0 (go_emptyEnd h2)
    simpa using this
  | @full t a w u w' as e ht ha hd hw hu hw' =>
    obtain ⟨st, h1, h2⟩ := go_wfStart ht ha hd hw (k := []) (b := false) (.inr rfl)
    have := h1.append0 ((go_tagEnd h2).append ((go_wfBody hu t []).append (go_wfStop ht hw' [] true)))
    simpa using this

theorem go_wfMisc {s : Str} (h : WfMisc s) (b : Bool) : Go ⟨.text, [], b⟩ s ⟨.text, [], b⟩ [] := by
  induction h with
  | nil => exact Go.nil _
  | @gap c s hc _ ih =>
    have hl : c ≠ '<' := by rcases hc with rfl | rfl | rfl <;> decide
    exact Go.cons0 (s1 := ⟨.text, [], b⟩) (by simp [rdStep, hl, (gap_space hc).1]) ih
  | comment hc _ ih => exact (go_wfComment hc _ _).append0 ih
  | instr hc _ ih => exact (go_wfInstr hc _ _).append0 ih

theorem wfGap_question {g : Str} (h : WfGap g) : ∀ c ∈ g, c ≠ '?' := by
  rintro c hc rfl
  rcases h _ hc with e | e | e <;> exact absurd e (by decide)

theorem wfPart_question {n v t : Str} (h : WfPart n v t) (hn : ∀ c ∈ n, c ≠ '?') (hv : ∀ c ∈ v, c ≠ '?') : ∀ c ∈ t, c ≠ '?' := by
  obtain ⟨g, w, w', q, hg, -, hw, hw', hq, rfl⟩ := h
  intro c hc
  simp only [List.mem_append, List.mem_cons, List.not_mem_nil, or_false] at hc
  rcases hc with ((hc | hc) | hc) | rfl | hc | rfl | hc | rfl
  · exact wfGap_question hg c hc
  · exact hn c hc
  · exact wfGap_question hw c hc
  · decide
  · exact wfGap_question hw' c hc
  · rcases hq with rfl | rfl <;> decide
  · exact hv c hc
  · rcases hq with rfl | rfl <;> decide

theorem go_wfDecl {t : Str} (h : WfDecl t) : Go ⟨.text, [], false⟩ t ⟨.text, [], false⟩ [] := by
  obtain ⟨v, e, y, w, rfl, hv, he, hy, hw⟩ := h
  have h1 : ∀ c ∈ py!"xml" ++ v ++ e ++ y ++ w, c ≠ '?' := by
    intro c hc
    simp only [List.mem_append] at hc
    rcases hc with (((hc | hc) | hc) | hc) | hc
    · revert c; decide
    · exact wfPart_question hv (by decide) (by decide) c hc
    · rcases he with rfl | ⟨a, n, ha, hn, he⟩
      · simp at hc
      · refine wfPart_question he (by decide) ?_ c hc
        rintro d hd rfl
        rcases List.mem_cons.1 hd with rfl | hd
        · exact absurd ha (by decide)
        · exact absurd (hn _ hd) (by decide)
    · rcases hy with rfl | hy | hy
      · simp at hc
      · exact wfPart_question hy (by decide) (by decide) c hc
      · exact wfPart_question hy (by decide) (by decide) c hc
    · exact wfGap_question hw c hc
  have e : py!"<?xml" ++ v ++ e ++ y ++ w ++ py!"?>" = '<' :: '?' :: ((py!"xml" ++ v ++ e ++ y ++ w) ++ py!"?>") := by simp
  rw [e]
  refine Go.cons0 (s1 := ⟨.lt, [], false⟩) (by simp [rdStep]) ?_
  refine Go.cons0 (s1 := ⟨.pi, [], false⟩) (by simp [rdStep]) ?_
  exact (go_pi_plain [] false h1).append0 rfl

theorem wfPart_text {n v t : Str} (h : WfPart n v t) (hv : ∀ c ∈ v, DeclLetter c) : PartText n v t := by
  obtain ⟨g, w, w', q, hg, hg', hw, hw', hq, rfl⟩ := h
  refine ⟨g, w, w', q, hg', fun c hc => ?_, hq, hv, by simp⟩
  have : c = ' ' ∨ c = '\t' ∨ c = '\n' := by
    simp only [List.mem_append] at hc
    rcases hc with (hc | hc) | hc
    · exact hg c hc
    · exact hw c hc
    · exact hw' c hc
  rcases this with h | h | h
  · exact .inl h
  · exact .inr (.inl h)
  · exact .inr (.inr (.inl h))

theorem wfDecl_says {t : Str} (h : WfDecl t) : ∃ d e, t = py!"<?xml" ++ (d ++ py!"?>") ∧ DeclSays d e := by
  obtain ⟨v, e, y, w, rfl, hv, he, hy, hw⟩ := h
  have hv' := wfPart_text hv (fun c hc => declChar_iff.1 (by revert c; decide))
  have hy' : y = [] ∨ PartText py!"standalone" py!"yes" y ∨ PartText py!"standalone" py!"no" y := by
    rcases hy with rfl | hy | hy
    · exact .inl rfl
    · exact .inr (.inl (wfPart_text hy (fun c hc => declChar_iff.1 (by revert c; decide))))
    · exact .inr (.inr (wfPart_text hy (fun c hc => declChar_iff.1 (by revert c; decide))))
  have hw' : ∀ c ∈ w, DeclBlank c := fun c hc => declSpace_iff.1 (by rcases hw c hc with rfl | rfl | rfl <;> decide)
  rcases he with rfl | ⟨a, n, ha, hn, he⟩
  · exact ⟨v ++ ([] ++ (y ++ w)), none, by simp, v, [], y, w, _, rfl, hv', .inl ⟨rfl, rfl⟩, hy', hw'⟩
  · refine ⟨v ++ (e ++ (y ++ w)), some (a :: n), by simp, v, e, y, w, _, rfl, hv', .inr ⟨a, n, rfl, ha, wfPart_text he fun c hc => ?_⟩, hy', hw'⟩
    rcases List.mem_cons.1 hc with rfl | hc
    · exact .inl ha
    · rcases hn c hc with h | h | rfl | rfl | rfl
      · exact .inl h
      · exact .inr (.inl h)
      all_goals exact declChar_iff.1 (by decide)

/-- A processing instruction is not taken for a declaration. -/
theorem wfInstr_declOk {t : Str} (h : WfInstr t) (r : Str) : declOk (t ++ r) = true := by
  obtain ⟨n, b, rfl, hn, hx, hb, -⟩ := h
  have : declOf (py!"<?" ++ n ++ b ++ py!"?>" ++ r) = none := by
    have e : py!"<?" ++ n ++ b ++ py!"?>" ++ r = '<' :: '?' :: (n ++ (b ++ '?' :: '>' :: r)) := by simp
    rw [e]
    unfold declOf
    split
    · rename_i c r' heq
      simp only [List.cons.injEq, true_and] at heq
      rw [if_neg]
      rintro hc
      have hnc : isNameChar c = false := by
        rcases hc with hc | rfl
        · simp only [declSpace, Bool.or_eq_true, decide_eq_true_eq] at hc
          rcases hc with ((rfl | rfl) | rfl) | rfl <;> decide
        · decide
      have hnn : ∀ d ∈ n, isNameChar d = true := by
        have hg := wfName_good hn
        cases n with
        | nil => exact hg.elim
        | cons d n =>
          intro z hz
          rcases List.mem_cons.1 hz with rfl | hz
          · exact nameStart_char hg.1
          · exact hg.2 z hz
      have hb' : ∃ d s, b ++ '?' :: '>' :: r = d :: s ∧ isNameChar d = false := by
        rcases hb with rfl | ⟨d, b', rfl, hd⟩
        · exact ⟨_, _, rfl, by decide⟩
        · exact ⟨_, _, rfl, (gap_space (hd d (by simp))).2⟩
      obtain ⟨d, s, hds, hd⟩ := hb'
      rw [hds] at heq
      have h1 := span_at (p := isNameChar) (r := s) hnn hd
      rw [heq] at h1
      have h2 := span_at (p := isNameChar) (a := py!"xml") (c := c) (r := r') (by decide) hnc
      have : n = py!"xml" := h1.2.symm.trans h2.2
      exact hx (by rw [this]; decide)
    · rfl
  simp only [declOk, this]

theorem wfMisc_declOk {m s : Str} (h : WfMisc m) (hs : declOk s = true) : declOk (m ++ s) = true := by
  cases h with
  | nil => exact hs
  | gap hc _ =>
    refine declOk_other ?_ _
    rintro rfl
    exact absurd hc (by decide)
  | comment hc _ =>
    obtain ⟨b, rfl, -⟩ := hc
    simp only [List.append_assoc]
    exact declOk_elem (by decide) _
  | instr hc _ =>
    rw [List.append_assoc]
    exact wfInstr_declOk hc _

theorem wfElem_declOk {x : Str} {es : List MSax} (h : WfElem x es) (r : Str) : declOk (x ++ r) = true := by
  have : ∃ c s, x = '<' :: c :: s ∧ c ≠ '?' := by
    cases h with
    | @empty n a w as hn =>
      cases n with
      | nil => exact hn.elim
      | cons c n => exact ⟨c, _, rfl, by rintro rfl; exact absurd (wfName_good hn).1 (by decide)⟩
    | @full n a w t w' as e hn =>
      cases n with
      | nil => exact hn.elim
      | cons c n => exact ⟨c, _, rfl, by rintro rfl; exact absurd (wfName_good hn).1 (by decide)⟩
  obtain ⟨c, s, rfl, hc⟩ := this
  exact declOk_elem hc _

theorem wfDoc_declOk {s : Str} {es : List MSax} (h : WfDoc s es) : declOk s = true := by
  obtain ⟨d, m, x, m', rfl, hd, hm, hx, hm'⟩ := h
  rcases hd with rfl | hd
  · rw [List.nil_append, List.append_assoc]
    exact wfMisc_declOk hm (wfElem_declOk hx _)
  · obtain ⟨d', e, rfl, h⟩ := wfDecl_says hd
    have := declOk_decl h (m ++ x ++ m')
    simpa using this

/-! ## C134 -/

/-- C134: a text that is laid out as an XML document is read as what it says.  The line ends are normalised first
(XML 1.0, 2.11). -/
theorem c134_reads {s : Str} {es : List MSax} (hc : ∀ c ∈ s, isXmlChar c = true) (h : WfDoc (normEol s) es) : readXml s = .ok es := by
  have hok := wfDoc_declOk h
  obtain ⟨d, m, x, m', e, hd, hm, hx, hm'⟩ := h
  have h0 : Go ⟨.text, [], false⟩ d ⟨.text, [], false⟩ [] := by
    rcases hd with rfl | hd
    · exact Go.nil _
    · exact go_wfDecl hd
  have : Go ⟨.text, [], false⟩ (d ++ m ++ x ++ m') ⟨.text, [], true⟩ es :=
    ((h0.append0 (go_wfMisc hm false)).append0 (go_wfElem hx)).append1 (go_wfMisc hm' true)
  rw [← e] at this
  unfold Go at this
  have hall : s.all isXmlChar = true := List.all_eq_true.2 hc
  simp [readXml, hall, hok, this, bind, Except.bind]

/-- ... with the characters and the line ends in the words of the standard. -/
theorem c134_text {s t : Str} {es : List MSax} (hc : ∀ c ∈ s, CharOfXml c) (ht : LineEnds s t) (h : WfDoc t es) : readXml s = .ok es :=
  c134_reads (fun c h => isXmlChar_iff.2 (hc c h)) (lineEnds_eq ht ▸ h)

/-- ... so it says one thing only. -/
theorem c134_unique {s : Str} {es es' : List MSax} (hc : ∀ c ∈ s, isXmlChar c = true) (h : WfDoc (normEol s) es) (h' : WfDoc (normEol s) es') : es = es' := by
  have := c134_reads hc h
  rw [c134_reads hc h'] at this
  exact (Except.ok.inj this).symm

theorem xesEvents_chars (t : Str) : xesEvents (t.map fun c => MSax.chars [c]) = [] := by
  induction t with
  | nil => rfl
  | cons c t ih => simpa [xesEvents] using ih

theorem saxList_append (xs ys : List Xml) : saxList (xs ++ ys) = saxList xs ++ saxList ys := by
  induction xs with
  | nil => rfl
  | cons x xs ih => simp [saxList, ih]

theorem wfBody_trees {s : Str} {es : List MSax} (h : WfBody s es) : ∃ xs : List Xml, xesEvents es = saxList xs := by
  induction h with
  | nil => exact ⟨[], rfl⟩
  | char _ _ _ _ ih => exact ih
  | ref _ _ ih => exact ih
  | comment _ _ ih => exact ih
  | instr _ _ ih => exact ih
  | cdata _ _ ih =>
    obtain ⟨xs, h⟩ := ih
    exact ⟨xs, by rw [xesEvents_append, xesEvents_chars, h, List.nil_append]⟩
  | @empty n _ _ _ as es _ _ _ _ _ ih =>
    obtain ⟨xs, h⟩ := ih
    exact ⟨.elem n as [] :: xs, by simp [xesEvents, saxList, Xml.sax, h]⟩
  | @full n _ _ _ _ _ as e es _ _ _ _ _ _ _ ih1 ih2 =>
    obtain ⟨xs, h1⟩ := ih1
    obtain ⟨ys, h2⟩ := ih2
    exact ⟨.elem n as xs :: ys, by simp [xesEvents, xesEvents_append, saxList, Xml.sax, h1, h2]⟩

/-- ... and its elements are nested: they are the elements of a tree. -/
theorem c134_tree {s : Str} {es : List MSax} (h : WfDoc s es) : ∃ x : Xml, xesEvents es = x.sax := by
  obtain ⟨_, _, x, _, _, _, _, hx, _⟩ := h
  cases hx with
  | @empty n _ _ as => exact ⟨.elem n as [], rfl⟩
  | @full n _ _ _ _ as e _ _ _ _ hb _ =>
    obtain ⟨xs, h⟩ := wfBody_trees hb
    exact ⟨.elem n as xs, by simp [xesEvents, xesEvents_append, Xml.sax, h]⟩

section
variable {F : Type} [PyFloat F]

/-- ... and two XES files with the same elements and attributes load alike, whatever their layout, texts and comments. -/
theorem c134_xes_layout {s s' : Str} {es es' : List MSax} (hc : ∀ c ∈ s, isXmlChar c = true) (hc' : ∀ c ∈ s', isXmlChar c = true)
    (h : WfDoc (normEol s) es) (h' : WfDoc (normEol s') es') (he : xesEvents es = xesEvents es')
    (given : Option (Factory F)) (reg : Factory F) (mgr : ExtMgr) (hp : Heap F) : loadXes given reg mgr hp s = loadXes given reg mgr hp s' := by
  simp only [loadXes, c134_reads hc h, c134_reads hc' h', he, bind, Except.bind]

/-- ... two MXML files with the same elements, attributes and texts as well. -/
theorem c134_mxml_layout {s s' : Str} {es : List MSax} (hc : ∀ c ∈ s, isXmlChar c = true) (hc' : ∀ c ∈ s', isXmlChar c = true)
    (h : WfDoc (normEol s) es) (h' : WfDoc (normEol s') es) (rnd : Nat → Uuid) : loadMxml (F := F) rnd s = loadMxml rnd s' := by
  simp only [loadMxml, c134_reads hc h, c134_reads hc' h']

/-- ... and a file of another tool that says an XES log is loaded as that log. -/
theorem c134_xes (rnd : Nat → Uuid) (mgr : ExtMgr) {s : Str} {es : List MSax} {x : Xml} {c : Content F} (hc : ∀ c ∈ s, isXmlChar c = true)
    (hs : WfDoc (normEol s) es) (he : xesEvents es = x.sax) (hx : DocSays mgr x c) (given : Option (Factory F)) (h : Heap F) :
    ∃ l h', loadXes given (stdFactory F rnd) mgr h s = .ok (some l, h') ∧ DenLog h' h.size h'.size c l ∧ Keeps h.size h h' :=
  c115_text rnd mgr (c134_reads hc hs) he hx given h

/-- ... and a file that says MXML logs as those logs. -/
theorem c134_mxml (rnd : Nat → Uuid) {s : Str} {es : List MSax} {as : List (Str × Str)} {ks : List MNode}
    {ls : List (AttrMap F × List (AttrMap F × List (AttrMap F)))} (hc : ∀ c ∈ s, isXmlChar c = true) (hs : WfDoc (normEol s) es)
    (he : Reads id id (.elem py!"WorkflowLog" as ks) es) (h : TopSays none ks ls) :
    ∃ logs : List (Log F), loadMxml rnd s = .ok logs ∧ logs.map logSeen = ls ∧ ∀ l ∈ logs, MxmlLegacy l :=
  c117_text rnd (c134_reads hc hs) he h

end

/-! ## Example -/

/-- A file laid out by hand: line ends of Windows, both quotes, references, a comment, text and a CDATA section. -/
def handText : Str :=
  py!"<?xml version='1.0' encoding=\"UTF-8\" ?>\r\n<!-- by - hand --><log\r\n xes.version = '1.0' >]] &gt;<trace><![CDATA[<event/>]]]]><event ><string value=\"x&#65;\t&#x6a;'&quot;\" key='a'/></event></trace ></log >\r\n<?style a?b?>"

/-- What it says. -/
def handEvents : List MSax :=
  [.start py!"log" [(py!"xes.version", py!"1.0")], .chars [']'], .chars [']'], .chars [' '], .chars ['>'], .start py!"trace" []] ++
  (py!"<event/>]]").map (fun c => .chars [c]) ++
  [.start py!"event" [], .start py!"string" [(py!"value", py!"xA j'\""), (py!"key", py!"a")], .stop py!"string", .stop py!"event",
   .stop py!"trace", .stop py!"log"]

instance (s : Str) : Decidable (WfGap s) := inferInstanceAs (Decidable (∀ c ∈ s, c = ' ' ∨ c = '\t' ∨ c = '\n'))

instance : (s : Str) → Decidable (WfName s)
  | [] => inferInstanceAs (Decidable False)
  | c :: cs => inferInstanceAs (Decidable ((c.isAlpha = true ∨ c = '_' ∨ c = ':') ∧
      ∀ d ∈ cs, d.isAlpha = true ∨ d.isDigit = true ∨ d = '_' ∨ d = ':' ∨ d = '-' ∨ d = '.'))

theorem handText_doc : WfDoc (normEol handText) handEvents := by
  refine ⟨py!"<?xml version='1.0' encoding=\"UTF-8\" ?>", py!"\n<!-- by - hand -->",
    py!"<log\n xes.version = '1.0' >]] &gt;<trace><![CDATA[<event/>]]]]><event ><string value=\"x&#65;\t&#x6a;'&quot;\" key='a'/></event></trace ></log >",
    py!"\n<?style a?b?>", by decide +kernel, .inr ?_, ?_, ?_, ?_⟩
  · exact ⟨py!" version='1.0'", py!" encoding=\"UTF-8\"", [], [' '], rfl, ⟨[' '], [], [], '\'', by decide, by decide, by decide, by decide, by decide, rfl⟩,
      .inr ⟨'U', py!"TF-8", by decide, by decide, ⟨[' '], [], [], '"', by decide, by decide, by decide, by decide, by decide, rfl⟩⟩, .inl rfl, by decide⟩
  · exact .gap (by decide) (.comment (t := py!"<!-- by - hand -->") (s := []) ⟨py!" by - hand ", rfl, by decide⟩ .nil)
  · have v1 : WfVal '\'' py!"1.0" py!"1.0" := .char (by decide) (by decide) (by decide) (by decide) (by decide) (by decide)
      (.char (by decide) (by decide) (by decide) (by decide) (by decide) (by decide)
        (.char (by decide) (by decide) (by decide) (by decide) (by decide) (by decide) .nil))
    have v2 : WfVal '\'' py!"a" py!"a" := .char (by decide) (by decide) (by decide) (by decide) (by decide) (by decide) .nil
    have v3 : WfVal '"' py!"x&#65;\t&#x6a;'&quot;" py!"xA j'\"" := .char (by decide) (by decide) (by decide) (by decide) (by decide) (by decide)
      (.ref (r := py!"#65") (.dec [6, 5] 'A' (by decide) (by decide) (by decide))
        (.blank (by decide) (.ref (r := py!"#x6a") (.hex [(6, false), (10, false)] 'j' (by decide) (by decide) (by decide))
          (.char (by decide) (by decide) (by decide) (by decide) (by decide) (by decide) (.ref (r := py!"quot") .quot .nil)))))
    have a1 : WfAttrs py!"\n xes.version = '1.0'" [(py!"xes.version", py!"1.0")] :=
      .cons (g := py!"\n ") (a := py!"xes.version") (w := [' ']) (w' := [' ']) (t := py!"1.0") (s := []) (by decide) (by decide) (by decide)
        (by decide) (by decide) (by decide) v1 .nil
    have a2 : WfAttrs py!" value=\"x&#65;\t&#x6a;'&quot;\" key='a'" [(py!"value", py!"xA j'\""), (py!"key", py!"a")] :=
      .cons (g := [' ']) (a := py!"value") (w := []) (w' := []) (t := py!"x&#65;\t&#x6a;'&quot;") (s := py!" key='a'") (by decide) (by decide) (by decide)
        (by decide) (by decide) (by decide) v3
        (.cons (g := [' ']) (a := py!"key") (w := []) (w' := []) (t := py!"a") (s := []) (by decide) (by decide) (by decide)
          (by decide) (by decide) (by decide) v2 .nil)
    refine .full (n := py!"log") (a := py!"\n xes.version = '1.0'") (w := [' '])
      (t := py!"]] &gt;<trace><![CDATA[<event/>]]]]><event ><string value=\"x&#65;\t&#x6a;'&quot;\" key='a'/></event></trace >") (w' := [' '])
      (e := [.chars [']'], .chars [']'], .chars [' '], .chars ['>'], .start py!"trace" []] ++ (py!"<event/>]]").map (fun c => .chars [c]) ++
        [.start py!"event" [], .start py!"string" [(py!"value", py!"xA j'\""), (py!"key", py!"a")], .stop py!"string", .stop py!"event", .stop py!"trace"])
      (by decide) a1 (by decide) (by decide) ?_ (by decide)
    refine .char (by decide) (by decide) (by decide) (.char (by decide) (by decide) (by decide) (.char (by decide) (by decide) (by decide)
      (.ref (r := py!"gt") .gt ?_)))
    refine .full (n := py!"trace") (a := []) (w := []) (t := py!"<![CDATA[<event/>]]]]><event ><string value=\"x&#65;\t&#x6a;'&quot;\" key='a'/></event>")
      (w' := [' ']) (s := []) (e := (py!"<event/>]]").map (fun c => .chars [c]) ++
        [.start py!"event" [], .start py!"string" [(py!"value", py!"xA j'\""), (py!"key", py!"a")], .stop py!"string", .stop py!"event"]) (es := [])
      (by decide) .nil (by decide) (by decide) ?_ (by decide) .nil
    refine .cdata (t := py!"<event/>]]") (by decide) ?_
    exact .full (n := py!"event") (a := []) (w := [' ']) (t := py!"<string value=\"x&#65;\t&#x6a;'&quot;\" key='a'/>") (w' := []) (s := [])
      (e := [.start py!"string" [(py!"value", py!"xA j'\""), (py!"key", py!"a")], .stop py!"string"]) (es := [])
      (by decide) .nil (by decide) (by decide)
      (.empty (n := py!"string") (a := py!" value=\"x&#65;\t&#x6a;'&quot;\" key='a'") (w := []) (s := []) (by decide) a2 (by decide) (by decide) .nil)
      (by decide) .nil
  · exact .gap (by decide) (.instr (t := py!"<?style a?b?>") (s := []) ⟨py!"style", py!" a?b", rfl, by decide, by decide, .inr ⟨_, _, rfl, by decide⟩, by decide⟩ .nil)

/-- C134 applies to it. -/
example : readXml handText = .ok handEvents := c134_reads (by decide +kernel) handText_doc

/-- The reader itself gives the same. -/
example : readXml handText = .ok handEvents := by decide +kernel

/-- Its elements. -/
def handTree : Xml := .elem py!"log" [(py!"xes.version", py!"1.0")] [.elem py!"trace" [] [.elem py!"event" []
  [.elem py!"string" [(py!"value", py!"xA j'\""), (py!"key", py!"a")] []]]]

/-- The log that it says. -/
def handContent : Content ToyFloat where
  attrs := []
  extensions := []
  classifiers := []
  globalTrace := []
  globalEvent := []
  features := [(py!"xes.version", py!"1.0")]
  traces := [([], [[(py!"a", .mk .literal py!"a" none (.str py!"xA j'\"") [] [])]])]

theorem handTree_says : DocSays noExts handTree handContent where
  root := by decide
  known := by decide
  plain := by decide
  distinct := by decide
  features := by decide
  attrs := ⟨[], .nil, rfl⟩
  traces := .cons ⟨by decide, ⟨[], .nil, rfl⟩,
    .cons ⟨[.mk .literal py!"a" none (.str py!"xA j'\"") [] []], .cons (.mk (cs := []) (.string _) .nil) .nil, rfl⟩ .nil⟩ .nil
  extensions := ⟨[], .nil, rfl⟩
  classifiers := by decide
  globalTrace := .nil
  globalEvent := .nil

/-- It is loaded as that log. -/
example (rnd : Nat → Uuid) : ∃ l h', loadXes none (stdFactory ToyFloat rnd) noExts ⟨[], 0⟩ handText = .ok (some l, h') ∧ DenLog h' 0 h'.size handContent l := by
  obtain ⟨l, h', h1, h2, _⟩ := c134_xes rnd noExts (by decide +kernel) handText_doc (by decide +kernel) handTree_says none ⟨[], 0⟩
  exact ⟨l, h', h1, h2⟩

/-- The same elements on one line. -/
theorem shortText_doc : WfDoc py!"<log xes.version='1.0'><trace/></log>"
    [.start py!"log" [(py!"xes.version", py!"1.0")], .start py!"trace" [], .stop py!"trace", .stop py!"log"] := by
  have v1 : WfVal '\'' py!"1.0" py!"1.0" := .char (by decide) (by decide) (by decide) (by decide) (by decide) (by decide)
      (.char (by decide) (by decide) (by decide) (by decide) (by decide) (by decide)
        (.char (by decide) (by decide) (by decide) (by decide) (by decide) (by decide) .nil))
  exact ⟨[], [], py!"<log xes.version='1.0'><trace/></log>", [], rfl, .inl rfl, .nil,
    .full (n := py!"log") (a := py!" xes.version='1.0'") (w := []) (t := py!"<trace/>") (w' := [])
      (e := [.start py!"trace" [], .stop py!"trace"]) (by decide)
      (.cons (g := [' ']) (a := py!"xes.version") (w := []) (w' := []) (t := py!"1.0") (s := []) (by decide) (by decide) (by decide)
        (by decide) (by decide) (by decide) v1 .nil) (by decide) (by decide)
      (.empty (n := py!"trace") (a := []) (w := []) (s := []) (by decide) .nil (by decide) (by decide) .nil) (by decide), .nil⟩

/-- The same in lines, with other quotes. -/
theorem longText_doc : WfDoc py!"\n<log xes.version=\"1&#46;0\">\n <trace></trace></log>"
    [.start py!"log" [(py!"xes.version", py!"1.0")], .chars ['\n'], .chars [' '], .start py!"trace" [], .stop py!"trace", .stop py!"log"] := by
  have v1 : WfVal '"' py!"1&#46;0" py!"1.0" := .char (by decide) (by decide) (by decide) (by decide) (by decide) (by decide)
      (.ref (r := py!"#46") (.dec [4, 6] '.' (by decide) (by decide) (by decide))
        (.char (by decide) (by decide) (by decide) (by decide) (by decide) (by decide) .nil))
  exact ⟨[], ['\n'], py!"<log xes.version=\"1&#46;0\">\n <trace></trace></log>", [], rfl, .inl rfl, .gap (by decide) .nil,
    .full (n := py!"log") (a := py!" xes.version=\"1&#46;0\"") (w := []) (t := py!"\n <trace></trace>") (w' := [])
      (e := [.chars ['\n'], .chars [' '], .start py!"trace" [], .stop py!"trace"]) (by decide)
      (.cons (g := [' ']) (a := py!"xes.version") (w := []) (w' := []) (t := py!"1&#46;0") (s := []) (by decide) (by decide) (by decide)
        (by decide) (by decide) (by decide) v1 .nil) (by decide) (by decide)
      (.char (by decide) (by decide) (by decide) (.char (by decide) (by decide) (by decide)
        (.full (n := py!"trace") (a := []) (w := []) (t := []) (w' := []) (s := []) (e := []) (es := []) (by decide) .nil (by decide) (by decide) .nil
          (by decide) .nil))) (by decide), .nil⟩

theorem wfDoc_eol {s t : Str} {es : List MSax} (h : WfDoc t es) (e : normEol s = t) : WfDoc (normEol s) es := e ▸ h

/-- They load alike. -/
example (given : Option (Factory ToyFloat)) (reg : Factory ToyFloat) (mgr : ExtMgr) (h : Heap ToyFloat) :
    loadXes given reg mgr h py!"<log xes.version='1.0'><trace/></log>" =
    loadXes given reg mgr h py!"\r<log xes.version=\"1&#46;0\">\r\n <trace></trace></log>" :=
  c134_xes_layout (by decide +kernel) (by decide +kernel) (wfDoc_eol shortText_doc (by decide +kernel)) (wfDoc_eol longText_doc (by decide +kernel))
    rfl given reg mgr h

/-- An MXML file. -/
theorem mxText_doc : WfDoc py!"<WorkflowLog ><Process id='Q'> </Process\n></WorkflowLog>"
    [.start py!"WorkflowLog" [], .start py!"Process" [(py!"id", py!"Q")], .chars [' '], .stop py!"Process", .stop py!"WorkflowLog"] := by
  have v1 : WfVal '\'' py!"Q" py!"Q" := .char (by decide) (by decide) (by decide) (by decide) (by decide) (by decide) .nil
  exact ⟨[], [], py!"<WorkflowLog ><Process id='Q'> </Process\n></WorkflowLog>", [], rfl, .inl rfl, .nil,
    .full (n := py!"WorkflowLog") (a := []) (w := [' ']) (t := py!"<Process id='Q'> </Process\n>") (w' := [])
      (e := [.start py!"Process" [(py!"id", py!"Q")], .chars [' '], .stop py!"Process"]) (by decide) .nil (by decide) (by decide)
      (.full (n := py!"Process") (a := py!" id='Q'") (w := []) (t := [' ']) (w' := ['\n']) (s := []) (e := [.chars [' ']]) (es := []) (by decide)
        (.cons (g := [' ']) (a := py!"id") (w := []) (w' := []) (t := py!"Q") (s := []) (by decide) (by decide) (by decide)
          (by decide) (by decide) (by decide) v1 .nil) (by decide) (by decide)
        (.char (by decide) (by decide) (by decide) .nil) (by decide) .nil) (by decide), .nil⟩

/-- It is loaded as the log that it says. -/
example : ∃ logs : List (Log ToyFloat), loadMxml (fun _ => ⟨0, by decide⟩) py!"<WorkflowLog ><Process id='Q'> </Process\n></WorkflowLog>" = .ok logs ∧
    logs.map logSeen = [([lit py!"concept:name" (some conceptExt) py!"Q" [], lit py!"lifecycle:model" (some lifecycleExt) py!"standard" []], [])] := by
  have hr : Reads id id (.elem py!"WorkflowLog" [] [.elem py!"Process" [(py!"id", py!"Q")] []])
      [.start py!"WorkflowLog" [], .start py!"Process" [(py!"id", py!"Q")], .chars [' '], .stop py!"Process", .stop py!"WorkflowLog"] :=
    .elem (s := [.start py!"Process" [(py!"id", py!"Q")], .chars [' '], .stop py!"Process"])
      (.cons (g := []) (s := [.start py!"Process" [(py!"id", py!"Q")], .chars [' '], .stop py!"Process"]) (s' := []) (by simp [Gap])
        (.elem (s := [.chars [' ']]) (.nil (by simp [Gap]; decide))) (.nil (by simp [Gap])))
  obtain ⟨logs, h1, h2, _⟩ := c134_mxml (F := ToyFloat) (fun _ => ⟨0, by decide⟩)
    (s := py!"<WorkflowLog ><Process id='Q'> </Process\n></WorkflowLog>") (by decide +kernel) (wfDoc_eol mxText_doc (by decide +kernel)) hr (.process .nil .nil)
  exact ⟨logs, h1, h2⟩

/-- Not a document: two attributes of one name, an end tag of another element, a text that is cut off. -/
example : readXml py!"<a b='1' b='2'/>" = .error .other ∧ readXml py!"<a></b>" = .error .other ∧ readXml py!"<a><![CDATA[x]]</a>" = .error .other := by
  decide +kernel

end Opy
