import Verif.Lemmas.Binary
import Verif.Props.XmlCut
/-
Properties C118 to C120: the bytes of the files, plain and compressed.
-/
set_option linter.unusedSectionVars false
namespace Opy

/-! ## Specification -/

/-- What was compressed comes back. -/
def Gzip.Sound (z : Gzip) : Prop := ∀ b, z.unpack (z.pack b) = .ok b

/-- Every character has an encoding. -/
def Encodable (codec : Codec) (s : Str) : Prop := ∀ c ∈ s, ∃ b, codec.enc c = some b

section
variable {F : Type} [PyFloat F]

/-- The bytes of a saved log are loaded, into any heap and with any given factory, as a fresh log with the content `c`. -/
def BytesHold (saved : Except PyErr (List Nat))
    (load : Option (Factory F) → Factory F → ExtMgr → Heap F → List Nat → Except PyErr (Option Ref × Heap F)) (mgr : ExtMgr) (c : Content F) : Prop :=
  ∃ bytes, saved = .ok bytes ∧ ∀ (rnd : Nat → Uuid) (given : Option (Factory F)) (h : Heap F),
    ∃ l h', load given (stdFactory F rnd) mgr h bytes = .ok (some l, h') ∧ DenLog h' h.size h'.size c l ∧ Keeps h.size h h'

/-! ## The saved text -/

/-- What the files have in common. -/
structure SavedText (modern : Bool) (text : Str) : Prop where
  head : ∃ r, text = '<' :: r
  decl : DeclaresOnly text [] ∧ Char.ofNat 0 ∉ text
  ends : ∃ r, text = r ++ ['>', '\n']
  noCr : modern = true → '\r' ∉ text

mutual
theorem dom_noEol : ∀ x : MNode, mapNode id normEol (dom x) = dom x
  | .text s => by simp [dom, mapNode, normEol_idem]
  | .elem t as ks => by
    simp only [dom, mapNode, id]
    congr 1
    · simp
    · split
      · split <;> simp [mapNodes, mapNode, normEol_idem]
      · exact domAll_noEol ks
theorem domAll_noEol : ∀ ks : List MNode, mapNodes id normEol (domAll ks) = domAll ks
  | [] => rfl
  | k :: ks => by simp only [domAll, mapNodes, dom_noEol k, domAll_noEol ks]
end

theorem saveTree_text {modern : Bool} {cs : List Str} (hcs : ∀ c ∈ cs, commentOk c = true) {x : MNode} (ht : Tidy (fun _ => True) x) {text : Str}
    (h : saveTree modern cs x = .ok text) : SavedText modern text := by
  have hl : LegalNode x := Classical.byContradiction fun hn => by
    rw [(saveTree_spec modern hcs ht).2 hn] at h
    cases h
  simp only [saveTree, (parseDom_et ht).1 hl, bind, Except.bind, Except.ok.injEq] at h
  subst h
  refine ⟨⟨_, rfl⟩, ⟨fun n hn => ?_, fun h0 => ?_⟩, pretty_ends modern cs (dom_tidy x ht), fun hm => ?_⟩
  · obtain ⟨d, hd⟩ : ∃ d, declared d = some none ∧ declOf (prettyDoc modern cs (dom x)) = some d :=
      ⟨py!" version=\"1.0\" ", by decide, declOf_decl (d := py!" version=\"1.0\" ") (e := none) (declared_says.1 (by decide)) _⟩
    have := declaredIn_iff.2 hn
    simp only [declaredIn, hd.2, hd.1, Option.getD_some] at this
    cases this
  · have : isXmlChar (Char.ofNat 0) = true := by
      rw [prettyDoc, List.mem_append, List.mem_append] at h0
      rcases h0 with (h0 | h0) | h0
      · exact absurd h0 (by decide)
      · exact (comments_mem hcs _ h0).1
      · exact pretty_legal modern _ (dom_tidy x ht) (dom_legalNode x hl) 0 _ h0
    exact absurd this (by decide)
  subst hm
  have h1 := pretty_eol true (dom x) (dom_tidy x ht) 0 []
  rw [List.append_nil, show normEol ([] : Str) = [] from rfl, List.append_nil, show attrEol true = id from rfl, dom_noEol] at h1
  simp only [prettyDoc, List.mem_append, not_or]
  refine ⟨⟨by decide, fun hm => (comments_mem hcs _ hm).2 rfl⟩, ?_⟩
  rw [← h1]
  exact normEol_noCr _

theorem saveXes_text {modern : Bool} {L : Log F} {text : Str} (h : saveXes modern L = .ok text) : SavedText modern text := by
  obtain ⟨x, hx, h⟩ := bind_ok.1 h
  exact saveTree_text xesComments_ok (xml_tidy (serializeXes_tidy hx)) h

theorem saveMxml_text {modern : Bool} {L : Log F} {text : Str} (h : saveMxml modern L = .ok text) : SavedText modern text := by
  obtain ⟨x, hx, h⟩ := bind_ok.1 h
  exact saveTree_text mxmlComments_ok (serializeMxml_fine hx).1 h

theorem skipBom_lt (r : Str) : skipBom ('<' :: r) = '<' :: r := by
  simp only [skipBom]; rw [if_neg (by decide)]

theorem encode_some {codec : Codec} {s : Str} : (∃ b, codec.encode s = some b) ↔ Encodable codec s := by
  induction s with
  | nil => simp [Codec.encode, Encodable]
  | cons c s ih =>
    simp only [Encodable, List.mem_cons, forall_eq_or_imp]
    rw [← Encodable, ← ih]
    simp only [Codec.encode]
    cases h1 : codec.enc c with
    | none => simp
    | some b => cases h2 : codec.encode s with
      | none => simp
      | some bs => simp

/-- Reading back a saved text. -/
theorem readPlain_write {codec : Codec} (hc : codec.Sound) {crlf : Bool} {text : Str} (hcr : crlf = true → '\r' ∉ text) (hh : ∃ r, text = '<' :: r) {b : List Nat}
    (h : writePlain codec crlf text = .ok b) : readPlain codec b = .ok (normEol text) := by
  unfold writePlain at h
  split at h
  · rename_i b' hb
    cases h
    obtain ⟨r, rfl⟩ := hh
    have e : normEol (if crlf = true then replaceAll ['\n'] ['\r', '\n'] ('<' :: r) else '<' :: r) = normEol ('<' :: r) := by
      cases crlf with
      | false => rfl
      | true => rw [if_pos rfl, normEol_crlf (hcr rfl), normEol_clean (hcr rfl)]
    simp only [readPlain, hc _ _ hb, e]
    rw [normEol_cons (by decide), skipBom_lt]
  · cases h

theorem readGz_write {z : Gzip} (hz : z.Sound) {modern : Bool} {text : Str} (ht : SavedText modern text) : readGz z (writeGz z text) = .ok text := by
  obtain ⟨r, hr⟩ := ht.head
  have h : PlainUtf8 (utf8 text) := plainUtf8_of ht.decl.2 (by rw [hr]; simp) fun n hn => absurd (ht.decl.1 n hn) (by simp)
  simp only [readGz, writeGz, hz _, bind, Except.bind, readBinary_utf8 h, utf8Decode_utf8, Option.map_some]
  rw [hr, skipBom_lt]
  rfl

/-! ## C118: what is saved is loaded -/

/-- C118: the compressed XES file holds what the text holds (see C110), whatever characters are in the log. -/
theorem c118_compressed {z : Gzip} (hz : z.Sound) {mgr : ExtMgr} {modern : Bool} {L : Log F} {c : Content F} (h : FileHolds mgr modern L c) :
    BytesHold (saveXesGz z modern L) (loadXesGz z) mgr c := by
  obtain ⟨text, h1, h2⟩ := h
  refine ⟨writeGz z text, by simp [saveXesGz, h1, bind, Except.bind], fun rnd given hp => ?_⟩
  simp only [loadXesGz, readGz_write hz (saveXes_text h1), bind, Except.bind]
  exact h2 rnd given hp

/-- ... so does the plain file in UTF-8; where lines end with CR LF, from Python 3.13 on. -/
theorem c118_plain {mgr : ExtMgr} {modern crlf : Bool} (hm : crlf = true → modern = true) {L : Log F} {c : Content F} (h : FileHolds mgr modern L c) :
    BytesHold (saveXesPlain utf8Codec crlf modern L) (loadXesPlain utf8Codec) mgr c := by
  obtain ⟨text, h1, h2⟩ := h
  have hw : writePlain utf8Codec crlf text = .ok (utf8 (if crlf then replaceAll ['\n'] ['\r', '\n'] text else text)) := by
    simp only [writePlain, utf8Codec_encode]
  refine ⟨_, by simp only [saveXesPlain, h1, bind, Except.bind]; exact hw, fun rnd given hp => ?_⟩
  simp only [loadXesPlain, readPlain_write utf8Codec_sound (fun hc => (saveXes_text h1).noCr (hm hc)) (saveXes_text h1).head hw, bind, Except.bind, loadXes_eol]
  exact h2 rnd given hp

/-- A text and a carriage return that can be encoded are written, and read as they were. -/
theorem writePlain_ok {codec : Codec} {crlf : Bool} {text : Str} (he : Encodable codec ('\r' :: text)) : ∃ b, writePlain codec crlf text = .ok b := by
  have he' : Encodable codec (if crlf then replaceAll ['\n'] ['\r', '\n'] text else text) := by
    intro x hx
    refine he x ?_
    cases crlf with
    | false => exact List.mem_cons_of_mem _ hx
    | true =>
      rw [if_pos rfl, replaceAll_flatMap, List.mem_flatMap] at hx
      obtain ⟨y, hy, hx⟩ := hx
      split at hx
      · rename_i e
        subst e
        simp only [List.mem_cons, List.not_mem_nil, or_false] at hx ⊢
        rcases hx with rfl | rfl
        · exact .inl rfl
        · exact .inr hy
      · simp only [List.mem_singleton] at hx
        exact hx ▸ List.mem_cons_of_mem _ hy
  obtain ⟨b, hb⟩ := encode_some.2 he'
  exact ⟨b, by simp only [writePlain, hb]⟩

/-- A text with a character that the encoding lacks is not written, however lines end. -/
theorem writePlain_refused {codec : Codec} {crlf : Bool} {text : Str} (he : ¬ Encodable codec text) : writePlain codec crlf text = .error .valueError := by
  have : codec.encode (if crlf then replaceAll ['\n'] ['\r', '\n'] text else text) = none := by
    cases hb : codec.encode (if crlf then replaceAll ['\n'] ['\r', '\n'] text else text) with
    | none => rfl
    | some b =>
      refine absurd (fun x hx => encode_some.1 ⟨b, hb⟩ x ?_) he
      cases crlf with
      | false => exact hx
      | true =>
        rw [if_pos rfl, replaceAll_flatMap, List.mem_flatMap]
        refine ⟨x, hx, ?_⟩
        split
        · rename_i e
          simp [e]
        · simp
  simp only [writePlain, this]

/-- ... in any encoding that has all the characters of the text, and as long as no carriage return is in it where lines
end with CR LF. -/
theorem c118_encoding {codec : Codec} (hc : codec.Sound) {modern crlf : Bool} {L : Log F} {text : Str} (h : saveXes modern L = .ok text)
    (hcr : crlf = true → '\r' ∉ text) (he : Encodable codec ('\r' :: text)) :
    ∃ bytes, saveXesPlain codec crlf modern L = .ok bytes ∧ ∀ (given : Option (Factory F)) reg mgr hp, loadXesPlain codec given reg mgr hp bytes = loadXes given reg mgr hp text := by
  obtain ⟨b, hw⟩ := writePlain_ok (crlf := crlf) he
  refine ⟨b, by simp only [saveXesPlain, h, bind, Except.bind]; exact hw, fun given reg mgr hp => ?_⟩
  simp only [loadXesPlain, readPlain_write hc hcr (saveXes_text h).head hw, bind, Except.bind, loadXes_eol]

/-- ... and a text with a character that the encoding does not have is not written, however lines end. -/
theorem c118_refused {codec : Codec} {modern crlf : Bool} {L : Log F} {text : Str} (h : saveXes modern L = .ok text) (he : ¬ Encodable codec text) :
    saveXesPlain codec crlf modern L = .error .valueError := by
  simp only [saveXesPlain, h, bind, Except.bind, writePlain_refused he]

/-- The same two for MXML files. -/
theorem c118_mxml_encoding {codec : Codec} (hc : codec.Sound) {modern crlf : Bool} {L : Log F} {text : Str} (h : saveMxml modern L = .ok text)
    (hcr : crlf = true → '\r' ∉ text) (he : Encodable codec ('\r' :: text)) (rnd : Nat → Uuid) :
    ∃ bytes, saveMxmlPlain codec crlf modern L = .ok bytes ∧ (loadMxmlPlain codec rnd bytes : Except PyErr (List (Log F))) = loadMxml rnd text := by
  obtain ⟨b, hw⟩ := writePlain_ok (crlf := crlf) he
  refine ⟨b, by simp only [saveMxmlPlain, h, bind, Except.bind]; exact hw, ?_⟩
  simp only [loadMxmlPlain, readPlain_write hc hcr (saveMxml_text h).head hw, bind, Except.bind, loadMxml_eol]

theorem c118_mxml_refused {codec : Codec} {modern crlf : Bool} {L : Log F} {text : Str} (h : saveMxml modern L = .ok text) (he : ¬ Encodable codec text) :
    saveMxmlPlain codec crlf modern L = .error .valueError := by
  simp only [saveMxmlPlain, h, bind, Except.bind, writePlain_refused he]

/-- The same for MXML files: loading the bytes is loading the text (see C113). -/
theorem c118_mxml {z : Gzip} (hz : z.Sound) {modern crlf : Bool} (hm : crlf = true → modern = true) {L : Log F} {text : Str} (h : saveMxml modern L = .ok text)
    (rnd : Nat → Uuid) :
    (∃ bytes, saveMxmlGz z modern L = .ok bytes ∧ (loadMxmlGz z rnd bytes : Except PyErr (List (Log F))) = loadMxml rnd text) ∧
    (∃ bytes, saveMxmlPlain utf8Codec crlf modern L = .ok bytes ∧ (loadMxmlPlain utf8Codec rnd bytes : Except PyErr (List (Log F))) = loadMxml rnd text) := by
  refine ⟨⟨writeGz z text, by simp [saveMxmlGz, h, bind, Except.bind], ?_⟩, ?_⟩
  · simp only [loadMxmlGz, readGz_write hz (saveMxml_text h), bind, Except.bind]
  · have hw : writePlain utf8Codec crlf text = .ok (utf8 (if crlf then replaceAll ['\n'] ['\r', '\n'] text else text)) := by
      simp only [writePlain, utf8Codec_encode]
    refine ⟨_, by simp only [saveMxmlPlain, h, bind, Except.bind]; exact hw, ?_⟩
    simp only [loadMxmlPlain, readPlain_write utf8Codec_sound (fun hc => (saveMxml_text h).noCr (hm hc)) (saveMxml_text h).head hw, bind, Except.bind, loadMxml_eol]

/-! ## C119: a file cut off at any byte -/

/-- Where a text with CR LF can be cut. -/
theorem crlf_split : ∀ {text s r : Str}, replaceAll ['\n'] ['\r', '\n'] text = s ++ r →
    (∃ a b, text = a ++ b ∧ s = replaceAll ['\n'] ['\r', '\n'] a ∧ r = replaceAll ['\n'] ['\r', '\n'] b) ∨
    ∃ a b, text = a ++ '\n' :: b ∧ s = replaceAll ['\n'] ['\r', '\n'] a ++ ['\r'] ∧ r = '\n' :: replaceAll ['\n'] ['\r', '\n'] b := by
  simp only [replaceAll_flatMap]
  intro text
  induction text with
  | nil =>
    intro s r h
    simp only [List.flatMap_nil] at h
    obtain ⟨rfl, rfl⟩ := List.append_eq_nil_iff.1 h.symm
    exact .inl ⟨[], [], rfl, rfl, rfl⟩
  | cons c text ih =>
    intro s r h
    cases s with
    | nil => exact .inl ⟨[], c :: text, rfl, rfl, h.symm⟩
    | cons d s =>
      rw [List.flatMap_cons] at h
      by_cases hc : c = '\n'
      · subst hc
        simp only [if_true, List.cons_append, List.nil_append, List.cons.injEq] at h
        obtain ⟨rfl, h⟩ := h
        cases s with
        | nil => exact .inr ⟨[], text, rfl, rfl, h.symm⟩
        | cons e s =>
          simp only [List.cons_append, List.cons.injEq] at h
          obtain ⟨rfl, h⟩ := h
          rcases ih h with ⟨a, b, rfl, rfl, rfl⟩ | ⟨a, b, rfl, rfl, rfl⟩
          · exact .inl ⟨'\n' :: a, b, rfl, by simp, rfl⟩
          · exact .inr ⟨'\n' :: a, b, rfl, by simp, rfl⟩
      · simp only [if_neg hc, List.cons_append, List.nil_append, List.cons.injEq] at h
        obtain ⟨rfl, h⟩ := h
        rcases ih h with ⟨a, b, rfl, rfl, rfl⟩ | ⟨a, b, rfl, rfl, rfl⟩
        · exact .inl ⟨c :: a, b, rfl, by simp [hc], rfl⟩
        · exact .inr ⟨c :: a, b, rfl, by simp [hc], rfl⟩

theorem skipBom_prefix {s r t : Str} (h : '<' :: t = s ++ r) : skipBom s = s := by
  cases s with
  | nil => rfl
  | cons c s =>
    simp only [List.cons_append, List.cons.injEq] at h
    rw [← h.1, skipBom_lt]

/-- Any loader that refuses the beginnings of a text refuses the beginnings of its bytes. -/
theorem cut_bytes {α : Type} {load : Str → Except PyErr α} (heol : ∀ s, load (normEol s) = load s) {modern crlf : Bool} (hm : crlf = true → modern = true)
    {text : Str} (ht : SavedText modern text) (hcut : ∀ p q, text = p ++ q → q ≠ [] → q ≠ ['\n'] → ∃ e, load p = .error e)
    {p q : List Nat} (h : writePlain utf8Codec crlf text = .ok (p ++ q)) (hq : q ≠ []) (hq' : q ≠ [10]) (hq'' : crlf = true → q ≠ [13, 10]) :
    ∃ e, (readPlain utf8Codec p >>= load) = .error e := by
  simp only [writePlain, utf8Codec_encode, Except.ok.injEq] at h
  cases hp : utf8Decode p with
  | none => exact ⟨.valueError, by simp only [readPlain, utf8Codec, hp]; rfl⟩
  | some s =>
    obtain ⟨r, hr, hs⟩ := utf8Decode_append (h ▸ utf8Decode_utf8 _) hp
    have hqr : q = utf8 r := utf8Decode_iff.1 hr
    have hr1 : r ≠ [] := by rintro rfl; exact hq hqr
    have hr2 : r ≠ ['\n'] := by rintro rfl; exact hq' hqr
    obtain ⟨t0, ht0⟩ := ht.head
    have hgoal : ∀ u : Str, normEol s = normEol u → skipBom (normEol u) = normEol u → (∃ e, load u = .error e) →
        ∃ e, (readPlain utf8Codec p >>= load) = .error e := by
      rintro u h1 h2 ⟨e, h3⟩
      refine ⟨e, ?_⟩
      have : utf8Codec.dec p = some s := hp
      simp only [readPlain, this, bind, Except.bind, h1, h2, heol, h3]
    cases crlf with
    | false =>
      simp only [Bool.false_eq_true, if_false] at hs
      refine hgoal s rfl ?_ (hcut s r hs hr1 hr2)
      rw [ht0] at hs
      cases s with
      | nil => rfl
      | cons c s =>
        simp only [List.cons_append, List.cons.injEq] at hs
        rw [← hs.1, normEol_cons (by decide), skipBom_lt]
    | true =>
      have hcr := ht.noCr (hm rfl)
      simp only [if_true] at hs
      have key : ∀ u v, text = u ++ v → normEol s = u → v ≠ [] → v ≠ ['\n'] → ∃ e, (readPlain utf8Codec p >>= load) = .error e := by
        intro u v huv hsu hv hv'
        have hu : normEol u = u := normEol_clean fun hm => hcr (huv ▸ List.mem_append_left _ hm)
        exact hgoal u (by rw [hsu, hu]) (by rw [hu]; exact skipBom_prefix (ht0 ▸ huv)) (hcut u v huv hv hv')
      rcases crlf_split hs with ⟨a, b, hab, rfl, rfl⟩ | ⟨a, b, hab, rfl, rfl⟩
      · have ha : '\r' ∉ a := fun hm => hcr (hab ▸ List.mem_append_left _ hm)
        refine key a b hab (normEol_crlf ha) ?_ ?_
        · rintro rfl; exact hr1 rfl
        · rintro rfl; exact hq'' rfl hqr
      · have ha : '\r' ∉ a := fun hm => hcr (hab ▸ List.mem_append_left _ hm)
        have e : normEol (replaceAll ['\n'] ['\r', '\n'] a ++ ['\r']) = a ++ ['\n'] := by
          rw [normEol_append_cons (by decide), normEol_crlf ha]; rfl
        refine key (a ++ ['\n']) b (by simp [hab]) e ?_ ?_
        · rintro rfl; exact hr2 rfl
        · rintro rfl
          obtain ⟨t1, ht1⟩ := ht.ends
          rw [ht1] at hab
          have := congrArg List.reverse hab
          simp at this

/-- C119: no proper beginning of the bytes of a saved XES file can be loaded, but the whole without its last line end
or a part of that. -/
theorem c119_xes {modern crlf : Bool} (hm : crlf = true → modern = true) {L : Log F} {p q : List Nat}
    (h : saveXesPlain utf8Codec crlf modern L = .ok (p ++ q)) (hq : q ≠ []) (hq' : q ≠ [10]) (hq'' : crlf = true → q ≠ [13, 10])
    (given : Option (Factory F)) (reg : Factory F) (mgr : ExtMgr) (hp : Heap F) : ∃ e, loadXesPlain utf8Codec given reg mgr hp p = .error e := by
  obtain ⟨text, h1, h2⟩ := bind_ok.1 h
  exact cut_bytes (loadXes_eol given reg mgr hp) hm (saveXes_text h1) (fun p q hpq a b => c114_xes modern h1 hpq a b given reg mgr hp) h2 hq hq' hq''

/-- C119 for MXML files. -/
theorem c119_mxml {modern crlf : Bool} (hm : crlf = true → modern = true) {L : Log F} {p q : List Nat}
    (h : saveMxmlPlain utf8Codec crlf modern L = .ok (p ++ q)) (hq : q ≠ []) (hq' : q ≠ [10]) (hq'' : crlf = true → q ≠ [13, 10])
    (rnd : Nat → Uuid) : ∃ e, (loadMxmlPlain utf8Codec rnd p : Except PyErr (List (Log F))) = .error e := by
  obtain ⟨text, h1, h2⟩ := bind_ok.1 h
  exact cut_bytes (loadMxml_eol rnd) hm (saveMxml_text h1) (fun p q hpq a b => c114_mxml modern h1 hpq a b rnd) h2 hq hq' hq''

/-! ## C120: the same document, plain and compressed -/

/-- Loading gives the same log, or an error both times. -/
def SameLoad {α : Type} (a b : Except PyErr α) : Prop := a = b ∨ ∃ e e', a = .error e ∧ b = .error e'

theorem sameLoad_of {α : Type} {load : Str → Except PyErr α} (heol : ∀ s, load (normEol s) = load s) {z : Gzip} (hz : z.Sound) {codec : Codec} {b : List Nat}
    (hb : codec.dec b = utf8Decode b) (hu : PlainUtf8 b) : SameLoad (readPlain codec b >>= load) (readGz z (z.pack b) >>= load) := by
  simp only [readPlain, readGz, hz _, hb, bind, Except.bind, readBinary_utf8 hu]
  cases utf8Decode b with
  | none => exact .inr ⟨_, _, rfl, rfl⟩
  | some s =>
    refine .inl ?_
    show load (skipBom (normEol s)) = load (skipBom s)
    cases s with
    | nil => rfl
    | cons c s =>
      by_cases hc : c.toNat = 0xFEFF
      · rw [normEol_cons (by rintro rfl; revert hc; decide)]
        simp only [skipBom, if_pos hc, heol]
      · have h2 : skipBom (c :: s) = c :: s := by simp [skipBom, hc]
        have h1 : skipBom (normEol (c :: s)) = normEol (c :: s) := by
          by_cases hr : c = '\r'
          · subst hr
            cases s with
            | nil => rfl
            | cons d s =>
              unfold normEol
              split
              · rename_i h; cases h
              · simp only [skipBom]; rw [if_neg (by decide)]
              · simp only [skipBom]; rw [if_neg (by decide)]
              · rename_i h1 h; cases h; exact absurd rfl h1
          · rw [normEol_cons hr]; simp [skipBom, hc]
        rw [h1, h2, heol]

theorem ascii_decode {b : List Nat} (h : ∀ x ∈ b, x < 128) {top : Nat} (ht : 128 ≤ top) : decodeBytes top b = utf8Decode b := by
  unfold utf8Decode
  induction b with
  | nil => rfl
  | cons x b ih =>
    simp only [List.mem_cons, forall_eq_or_imp] at h
    simp only [decodeBytes, utf8Run, ih h.2]
    rw [if_pos (by omega), if_pos h.1]

/-- C120, what holds: a document in UTF-8 is loaded from a plain file as from a compressed one if the platform's encoding is
UTF-8, or the document has ASCII characters only and the encoding has them as ASCII does.  (Missing: other encodings.) -/
theorem c120_partial {z : Gzip} (hz : z.Sound) {b : List Nat} (hu : PlainUtf8 b) {codec : Codec}
    (hb : codec = utf8Codec ∨ ((codec = latin1 ∨ codec = ascii) ∧ ∀ x ∈ b, x < 128)) :
    (∀ (given : Option (Factory F)) reg mgr hp, SameLoad (loadXesPlain codec given reg mgr hp b) (loadXesGz z given reg mgr hp (z.pack b))) ∧
    ∀ rnd, SameLoad (loadMxmlPlain codec rnd b : Except PyErr (List (Log F))) (loadMxmlGz z rnd (z.pack b)) := by
  have hd : codec.dec b = utf8Decode b := by
    rcases hb with rfl | ⟨rfl | rfl, h⟩
    · rfl
    · exact ascii_decode h (by decide)
    · exact ascii_decode h (by decide)
  exact ⟨fun given reg mgr hp => sameLoad_of (loadXes_eol given reg mgr hp) hz hd hu, fun rnd => sameLoad_of (loadMxml_eol rnd) hz hd hu⟩

end

/-! ## Examples -/

/-- A compression that does nothing. -/
def plainZip : Gzip := ⟨id, .ok, fun _ => .error .other⟩

theorem plainZip_sound : plainZip.Sound := fun _ => rfl

/-- An MXML document in UTF-8 with the name `é`. -/
def accentDoc : List Nat := utf8 py!"<WorkflowLog><Process id=\"é\"/></WorkflowLog>"

/-- The names of the logs. -/
def nameOfLogs (r : Except PyErr (List (Log ToyFloat))) : Option (List (Option Str)) :=
  match r with
  | .ok ls => some (ls.map fun l => textAt py!"concept:name" l.attrs)
  | .error _ => none

theorem accent_gz : nameOfLogs (loadMxmlGz plainZip (fun _ => ⟨0, by decide⟩) (plainZip.pack accentDoc)) = some [some ['é']] := by decide +kernel

theorem accent_plain : nameOfLogs (loadMxmlPlain latin1 (fun _ => ⟨0, by decide⟩) accentDoc) = some [some ['Ã', '©']] := by decide +kernel

theorem accentDoc_utf8 : PlainUtf8 accentDoc :=
  plainUtf8_of (by decide) (by decide) fun n hn => by
    have := declaredIn_iff.2 hn
    rw [show declaredIn py!"<WorkflowLog><Process id=\"é\"/></WorkflowLog>" = none from by decide] at this
    cases this

/-- C120, refuted: on a platform with another encoding (here latin-1) a document in UTF-8 is loaded from a compressed
file as what it says and from a plain file as something else, without an error. -/
theorem c120_refuted : ¬ ∀ (codec : Codec) (b : List Nat), codec.Sound → PlainUtf8 b → ∀ rnd,
    SameLoad (loadMxmlPlain codec rnd b : Except PyErr (List (Log ToyFloat))) (loadMxmlGz plainZip rnd (plainZip.pack b)) := by
  intro h
  have h1 := accent_gz
  have h2 := accent_plain
  rcases h latin1 accentDoc latin1_sound accentDoc_utf8 (fun _ => ⟨0, by decide⟩) with e | ⟨e, e', h3, h4⟩
  · rw [e, h1] at h2
    revert h2; decide
  · rw [h4] at h1
    cases h1

/-- A log with characters of all lengths and line ends, saved compressed and plain. -/
example : BytesHold (saveXesGz plainZip true (noteLog py!"aé€𝄞\r\n")) (loadXesGz plainZip) tripMgr
    { (noteLog py!"aé€𝄞\r\n").content with features := xesVersion } :=
  c118_compressed plainZip_sound (c112_modern toyFloatText tripMgr (noteLog_typed _) (noteLog_legal (by unfold LegalText; decide)) (noteLog_canon _))

example : BytesHold (saveXesPlain utf8Codec true true (noteLog py!"aé€𝄞\r\n")) (loadXesPlain utf8Codec) tripMgr
    { (noteLog py!"aé€𝄞\r\n").content with features := xesVersion } :=
  c118_plain (fun _ => rfl) (c112_modern toyFloatText tripMgr (noteLog_typed _) (noteLog_legal (by unfold LegalText; decide)) (noteLog_canon _))

/-- Before Python 3.13 a carriage return is doubled where lines end with CR LF. -/
example : (writePlain utf8Codec true py!"<a b=\"x\r\ny\"/>").bind (readPlain utf8Codec) = .ok py!"<a b=\"x\n\ny\"/>" := by decide +kernel

example : utf8 py!"aé€𝄞" = [0x61, 0xC3, 0xA9, 0xE2, 0x82, 0xAC, 0xF0, 0x9D, 0x84, 0x9E] := by decide

/-- The same text cannot be written in latin-1. -/
example : saveXesPlain latin1 false false (noteLog py!"a€") = .error .valueError := by
  decide +kernel

/-- ... however lines end; one with `é` can, with either line end. -/
example : saveXesPlain latin1 true true (noteLog py!"a€") = .error .valueError := by
  decide +kernel

example : ∃ text bytes, saveXes true (noteLog py!"aé") = .ok text ∧ saveXesPlain latin1 true true (noteLog py!"aé") = .ok bytes ∧
    ∀ (given : Option (Factory ToyFloat)) reg mgr hp, loadXesPlain latin1 given reg mgr hp bytes = loadXes given reg mgr hp text := by
  have h : saveXes true (noteLog py!"aé") = .ok (py!"<?xml version=\"1.0\" ?>\n" ++ commentsText xesComments ++
      py!"<log xes.version=\"1.0\" xes.features=\"nested-attributes\" openxes.version=\"1.0RC7\">\n\t<string key=\"note\" value=\"aé\"/>\n</log>\n") := by
    decide +kernel
  have he : ∀ c ∈ '\r' :: (py!"<?xml version=\"1.0\" ?>\n" ++ commentsText xesComments ++
      py!"<log xes.version=\"1.0\" xes.features=\"nested-attributes\" openxes.version=\"1.0RC7\">\n\t<string key=\"note\" value=\"aé\"/>\n</log>\n"), (latin1.enc c).isSome := by
    decide +kernel
  obtain ⟨b, h1, h2⟩ := c118_encoding (crlf := true) latin1_sound h (fun _ => by decide +kernel) (fun c hc => Option.isSome_iff_exists.1 (he c hc))
  exact ⟨_, b, h, h1, h2⟩

/-- A file cut in the middle of a character. -/
example (reg : Factory ToyFloat) (mgr : ExtMgr) : ∃ e, loadXesPlain utf8Codec none reg mgr ⟨[], 0⟩
    (utf8 (py!"<?xml version=\"1.0\" ?>\n" ++ commentsText xesComments ++
      py!"<log xes.version=\"1.0\" xes.features=\"nested-attributes\" openxes.version=\"1.0RC7\">\n\t<string key=\"note\" value=\"a") ++ [0xC3]) = .error e := by
  have h : saveXesPlain utf8Codec false false (noteLog py!"aé") = .ok ((utf8 (py!"<?xml version=\"1.0\" ?>\n" ++ commentsText xesComments ++
      py!"<log xes.version=\"1.0\" xes.features=\"nested-attributes\" openxes.version=\"1.0RC7\">\n\t<string key=\"note\" value=\"a") ++ [0xC3]) ++
        (0xA9 :: utf8 py!"\"/>\n</log>\n")) := by
    decide +kernel
  exact c119_xes (by simp) h (by simp) (by decide) (by simp) _ _ _ _

end Opy
