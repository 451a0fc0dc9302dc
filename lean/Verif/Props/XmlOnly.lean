import Verif.Props.XmlForm
import Verif.Props.ExtFile
/-
Property C183: what is not an XML document is refused.

The specification is the grammar of Props/XmlForm.lean with the liberties of the model: names may have any characters
above ASCII, `]]>` may stand in a text, and the target of a processing instruction is not looked at.  (expat refuses more.)
-/
set_option linter.unusedSectionVars false
namespace Opy

/-! ## Specification -/

/-- A name, perhaps with characters above ASCII. -/
def LaxName : Str → Prop
  | [] => False
  | c :: cs => (c.isAlpha = true ∨ c = '_' ∨ c = ':' ∨ 128 ≤ c.toNat) ∧
    ∀ d ∈ cs, d.isAlpha = true ∨ d.isDigit = true ∨ d = '_' ∨ d = ':' ∨ d = '-' ∨ d = '.' ∨ 128 ≤ d.toNat

/-- The attributes of a tag. -/
inductive LaxAttrs : Str → List (Str × Str) → Prop where
  | nil : LaxAttrs [] []
  | cons {g a w w' t v s : Str} {q : Char} {as : List (Str × Str)} : WfGap g → g ≠ [] → LaxName a → WfGap w → WfGap w' →
    (q = '"' ∨ q = '\'') → WfVal q t v → LaxAttrs s as →
    LaxAttrs (g ++ a ++ w ++ '=' :: (w' ++ q :: (t ++ q :: s))) ((a, v) :: as)

/-- A processing instruction, or the declaration. -/
def LaxInstr (t : Str) : Prop := ∃ b, t = py!"<?" ++ b ++ py!"?>" ∧ ¬ py!"?>" <:+: b

/-- What stands between the start and the end of an element. -/
inductive LaxBody : Str → List MSax → Prop where
  | nil : LaxBody [] []
  | char {c : Char} {s : Str} {es : List MSax} : c ≠ '<' → c ≠ '&' → LaxBody s es → LaxBody (c :: s) (.chars [c] :: es)
  | ref {r s : Str} {d : Char} {es : List MSax} : WfRef r d → LaxBody s es → LaxBody ('&' :: (r ++ ';' :: s)) (.chars [d] :: es)
  | comment {t s : Str} {es : List MSax} : WfComment t → LaxBody s es → LaxBody (t ++ s) es
  | instr {t s : Str} {es : List MSax} : LaxInstr t → LaxBody s es → LaxBody (t ++ s) es
  | cdata {t s : Str} {es : List MSax} : ¬ py!"]]>" <:+: t → LaxBody s es →
    LaxBody (py!"<![CDATA[" ++ t ++ py!"]]>" ++ s) ((t.map fun c => .chars [c]) ++ es)
  | empty {n a w s : Str} {as : List (Str × Str)} {es : List MSax} : LaxName n → LaxAttrs a as → (as.map Prod.fst).Nodup → WfGap w → LaxBody s es →
    LaxBody ('<' :: (n ++ a ++ w ++ '/' :: '>' :: s)) (.start n as :: .stop n :: es)
  | full {n a w t w' s : Str} {as : List (Str × Str)} {e es : List MSax} : LaxName n → LaxAttrs a as → (as.map Prod.fst).Nodup → WfGap w →
    LaxBody t e → WfGap w' → LaxBody s es →
    LaxBody ('<' :: (n ++ a ++ w ++ '>' :: (t ++ '<' :: '/' :: (n ++ w' ++ '>' :: s)))) (.start n as :: (e ++ .stop n :: es))

/-- The document element. -/
inductive LaxElem : Str → List MSax → Prop where
  | empty {n a w : Str} {as : List (Str × Str)} : LaxName n → LaxAttrs a as → (as.map Prod.fst).Nodup → WfGap w →
    LaxElem ('<' :: (n ++ a ++ w ++ py!"/>")) [.start n as, .stop n]
  | full {n a w t w' : Str} {as : List (Str × Str)} {e : List MSax} : LaxName n → LaxAttrs a as → (as.map Prod.fst).Nodup → WfGap w →
    LaxBody t e → WfGap w' →
    LaxElem ('<' :: (n ++ a ++ w ++ '>' :: (t ++ '<' :: '/' :: (n ++ w' ++ ['>'])))) (.start n as :: (e ++ [.stop n]))

/-- What may stand before and after the document element. -/
inductive LaxMisc : Str → Prop where
  | nil : LaxMisc []
  | gap {c : Char} {s : Str} : (c = ' ' ∨ c = '\t' ∨ c = '\n') → LaxMisc s → LaxMisc (c :: s)
  | comment {t s : Str} : WfComment t → LaxMisc s → LaxMisc (t ++ s)
  | instr {t s : Str} : LaxInstr t → LaxMisc s → LaxMisc (t ++ s)

/-- A document and what it says. -/
def LaxDoc (s : Str) (es : List MSax) : Prop := ∃ m x m', s = m ++ x ++ m' ∧ LaxMisc m ∧ LaxElem x es ∧ LaxMisc m'

/-! ## What was read -/

theorem Go.uncons {s s' : RdSt} {c : Char} {cs : Str} {e : List MSax} (h : Go s (c :: cs) s' e) :
    ∃ s1 e1 e2, rdStep s c = .ok (s1, e1) ∧ Go s1 cs s' e2 ∧ e = e1 ++ e2 := by
  unfold Go at h
  simp only [rdRun] at h
  obtain ⟨⟨s1, e1⟩, h1, h⟩ := bind_ok.1 h
  obtain ⟨⟨s2, e2⟩, h2, h⟩ := bind_ok.1 h
  cases h
  exact ⟨s1, e1, e2, h1, h2, rfl⟩

theorem Go.last {s s' : RdSt} {e : List MSax} (h : Go s [] s' e) : s' = s ∧ e = [] := by
  unfold Go at h
  cases h
  exact ⟨rfl, rfl⟩

/-- One step that is known. -/
theorem Go.tail {s s' s1 : RdSt} {c : Char} {cs : Str} {e e1 : List MSax} (h : Go s (c :: cs) s' e) (h1 : rdStep s c = .ok (s1, e1)) :
    ∃ e2, Go s1 cs s' e2 ∧ e = e1 ++ e2 := by
  obtain ⟨s2, e2, e3, h2, h3, rfl⟩ := h.uncons
  rw [h1] at h2
  cases h2
  exact ⟨e3, h3, rfl⟩

theorem Go.not {s s' : RdSt} {c : Char} {cs : Str} {e : List MSax} {x : PyErr} (h : Go s (c :: cs) s' e) (h1 : rdStep s c = .error x) : False := by
  obtain ⟨s2, e2, e3, h2, -⟩ := h.uncons
  rw [h1] at h2
  cases h2

theorem space_gap {c : Char} (h : isXmlSpace c = true) : c = ' ' ∨ c = '\t' ∨ c = '\n' := by
  simpa [isXmlSpace, or_assoc] using h

theorem laxName_of {c : Char} {cs : Str} (h : isNameStart c = true) (hs : ∀ d ∈ cs, isNameChar d = true) : LaxName (c :: cs) := by
  constructor
  · simp only [isNameStart, Bool.or_eq_true, Bool.and_eq_true, decide_eq_true_eq] at h
    rcases h with ((h | h) | h) | h
    · exact .inl h
    · exact .inr (.inl h)
    · exact .inr (.inr (.inl h))
    · exact .inr (.inr (.inr h.1))
  · intro d hd
    have := hs d hd
    simp only [isNameChar, isNameStart, Bool.or_eq_true, Bool.and_eq_true, decide_eq_true_eq] at this
    tauto

/-! ### References -/

theorem numeral_back {digit : Char → Option Nat} {base : Nat} {α : Type} (val : α → Nat) (char : α → Char)
    (hd : ∀ c n, digit c = some n → ∃ a, char a = c ∧ val a = n) :
    ∀ (s : Str) (acc n : Nat), numeral? digit base acc s = some n → ∃ ds : List α, s = ds.map char ∧ ds.foldl (fun n d => base * n + val d) acc = n
  | [], acc, n, h => ⟨[], rfl, by simpa [numeral?] using h⟩
  | c :: s, acc, n, h => by
    simp only [numeral?] at h
    cases hc : digit c with
    | none => rw [hc] at h; cases h
    | some d =>
      rw [hc] at h
      obtain ⟨a, rfl, rfl⟩ := hd c d hc
      obtain ⟨ds, rfl, h2⟩ := numeral_back val char hd s _ n h
      exact ⟨a :: ds, rfl, h2⟩

theorem decChar_back (c : Char) (n : Nat) (h : asciiDigit? c = some n) : ∃ a : Fin 10, decChar a = c ∧ a.val = n := by
  unfold asciiDigit? at h
  split at h
  · rename_i hc
    cases h
    have hc' : 48 ≤ c.toNat ∧ c.toNat ≤ 57 := hc
    refine ⟨⟨c.toNat - 48, by omega⟩, ?_, rfl⟩
    show Char.ofNat (48 + (c.toNat - 48)) = c
    rw [show 48 + (c.toNat - 48) = c.toNat by omega, Char.ofNat_toNat]
  · cases h

theorem hexChar_all : ∀ i : Fin 128, ∀ n, hexDigit? (Char.ofNat i) = some n → ∃ a : Fin 16, ∃ u : Bool, hexChar (a, u) = Char.ofNat i ∧ a.val = n := by
  intro i n h
  have : ∀ i : Fin 128, hexDigit? (Char.ofNat i) = none ∨ ∃ a : Fin 16, ∃ u : Bool, hexChar (a, u) = Char.ofNat i ∧ hexDigit? (Char.ofNat i) = some a.val := by
    decide +kernel
  rcases this i with h1 | ⟨a, u, h1, h2⟩
  · rw [h] at h1; cases h1
  · rw [h] at h2
    exact ⟨a, u, h1, (Option.some.inj h2).symm⟩

theorem hexChar_back (c : Char) (n : Nat) (h : hexDigit? c = some n) : ∃ a : Fin 16 × Bool, hexChar a = c ∧ a.1.val = n := by
  have hc : c.toNat < 128 := by
    unfold hexDigit? at h
    split at h
    · omega
    · split at h
      · omega
      · split at h
        · omega
        · cases h
  have := hexChar_all ⟨c.toNat, hc⟩ n (by rw [show Char.ofNat ((⟨c.toNat, hc⟩ : Fin 128) : Nat) = c from Char.ofNat_toNat c]; exact h)
  obtain ⟨a, u, h1, h2⟩ := this
  exact ⟨(a, u), h1.trans (Char.ofNat_toNat c), h2⟩

theorem charRef_back {o : Option Nat} {d : Char} (h : charRef o = some d) : o = some d.toNat ∧ isXmlChar d = true := by
  unfold charRef at h
  split at h
  · split at h
    · rename_i hc
      cases h
      exact ⟨by rw [hc.2.2], hc.2.1⟩
    · cases h
  · cases h

/-- The references that are read are those of XML. -/
theorem resolve_wf {r : Str} {d : Char} (h : resolveRef r = some d) : WfRef r d := by
  unfold resolveRef at h
  split at h
  · cases h; exact .amp
  · cases h; exact .lt
  · cases h; exact .gt
  · cases h; exact .quot
  · cases h; exact .apos
  · rename_i c cs
    obtain ⟨h1, h2⟩ := charRef_back h
    obtain ⟨ds, hs, hv⟩ := numeral_back (fun a : Fin 16 × Bool => a.1.val) hexChar hexChar_back _ _ _ h1
    rw [hs]
    exact .hex ds d (by rintro rfl; cases hs) (isXmlChar_iff.1 h2) hv
  · rename_i c cs _
    obtain ⟨h1, h2⟩ := charRef_back h
    obtain ⟨ds, hs, hv⟩ := numeral_back (fun a : Fin 10 => a.val) decChar decChar_back _ _ _ h1
    rw [hs]
    exact .dec ds d (by rintro rfl; cases hs) (isXmlChar_iff.1 h2) hv
  · cases h

theorem back_ref {k : List Str} {b : Bool} {fin : RdSt} (hf : fin.lex = .text) : ∀ {s r0 : Str} {es : List MSax}, Go ⟨.ref r0, k, b⟩ s fin es →
    ∃ r d s' es', s = r ++ ';' :: s' ∧ WfRef (r0 ++ r) d ∧ es = .chars [d] :: es' ∧ Go ⟨.text, k, b⟩ s' fin es'
  | [], r0, es, h => by
    obtain ⟨rfl, -⟩ := h.last
    cases hf
  | c :: s, r0, es, h => by
    by_cases hc : c = ';'
    · subst hc
      cases hr : resolveRef r0 with
      | none => exact (h.not (x := .other) (by simp [rdStep, hr, malformed])).elim
      | some d =>
        obtain ⟨e2, h2, rfl⟩ := h.tail (s1 := ⟨.text, k, b⟩) (e1 := [.chars [d]]) (by simp [rdStep, hr])
        exact ⟨[], d, s, e2, rfl, by rw [List.append_nil]; exact resolve_wf hr, rfl, h2⟩
    · obtain ⟨e2, h2, rfl⟩ := h.tail (s1 := ⟨.ref (r0 ++ [c]), k, b⟩) (e1 := []) (by simp [rdStep, hc])
      obtain ⟨r, d, s', es', rfl, hr, he, hg⟩ := back_ref hf h2
      exact ⟨c :: r, d, s', es', rfl, by simpa using hr, he, hg⟩

theorem back_aref {n a v : Str} {as : List (Str × Str)} {q : Char} {k : List Str} {b : Bool} {fin : RdSt} (hf : fin.lex = .text) :
    ∀ {s r0 : Str} {es : List MSax}, Go ⟨.aref n as a q v r0, k, b⟩ s fin es →
    ∃ r d s', s = r ++ ';' :: s' ∧ WfRef (r0 ++ r) d ∧ Go ⟨.aval n as a q (v ++ [d]), k, b⟩ s' fin es
  | [], r0, es, h => by
    obtain ⟨rfl, -⟩ := h.last
    cases hf
  | c :: s, r0, es, h => by
    by_cases hc : c = ';'
    · subst hc
      cases hr : resolveRef r0 with
      | none => exact (h.not (x := .other) (by simp [rdStep, hr, malformed])).elim
      | some d =>
        obtain ⟨e2, h2, rfl⟩ := h.tail (s1 := ⟨.aval n as a q (v ++ [d]), k, b⟩) (e1 := []) (by simp [rdStep, hr])
        exact ⟨[], d, s, rfl, by rw [List.append_nil]; exact resolve_wf hr, h2⟩
    · obtain ⟨e2, h2, rfl⟩ := h.tail (s1 := ⟨.aref n as a q v (r0 ++ [c]), k, b⟩) (e1 := []) (by simp [rdStep, hc])
      obtain ⟨r, d, s', rfl, hr, hg⟩ := back_aref hf h2
      exact ⟨c :: r, d, s', rfl, by simpa using hr, hg⟩

/-! ### Tags -/

theorem back_val {n a : Str} {as : List (Str × Str)} {q : Char} {k : List Str} {b : Bool} {fin : RdSt} (hf : fin.lex = .text) :
    ∀ (m : Nat) {s v : Str} {es : List MSax}, s.length ≤ m → Go ⟨.aval n as a q v, k, b⟩ s fin es →
    ∃ t w s', s = t ++ q :: s' ∧ WfVal q t w ∧ a ∉ dkeys as ∧ Go ⟨.inTag n (as ++ [(a, v ++ w)]) false, k, b⟩ s' fin es
  | _, [], v, es, _, h => by
    obtain ⟨rfl, -⟩ := h.last
    cases hf
  | m + 1, c :: s, v, es, hm, h => by
    have hm' : s.length ≤ m := by simpa using hm
    by_cases hq : c = q
    · subst hq
      by_cases ha : a ∈ dkeys as
      · exact (h.not (x := .other) (by simp [rdStep, ha, malformed])).elim
      · obtain ⟨e2, h2, rfl⟩ := h.tail (s1 := ⟨.inTag n (as ++ [(a, v)]) false, k, b⟩) (e1 := []) (by simp [rdStep, ha])
        exact ⟨[], [], s, rfl, .nil, ha, by rw [List.append_nil]; exact h2⟩
    by_cases hl : c = '<'
    · exact (h.not (x := .other) (by rw [hl] at hq ⊢; simp [rdStep, hq, malformed])).elim
    by_cases hr : c = '&'
    · obtain ⟨e2, h2, rfl⟩ := h.tail (s1 := ⟨.aref n as a q v [], k, b⟩) (e1 := []) (by rw [hr] at hq ⊢; simp [rdStep, hq])
      obtain ⟨r, d, s1, rfl, hw, h3⟩ := back_aref hf h2
      have hl3 : s1.length ≤ m := by simp at hm'; omega
      obtain ⟨t, w, s', rfl, hv, ha, h4⟩ := back_val hf m hl3 h3
      refine ⟨c :: (r ++ ';' :: t), d :: w, s', by simp, ?_, ha, by simpa using h4⟩
      rw [hr]
      exact .ref hw hv
    · obtain ⟨e2, h2, rfl⟩ := h.tail (s1 := ⟨.aval n as a q (v ++ [if isXmlSpace c then ' ' else c]), k, b⟩) (e1 := []) (by simp [rdStep, hq, hl, hr])
      obtain ⟨t, w, s', rfl, hv, ha, h4⟩ := back_val hf m hm' h2
      by_cases hs : isXmlSpace c = true
      · rw [if_pos hs] at h4
        exact ⟨c :: t, ' ' :: w, s', rfl, .blank (space_gap hs) hv, ha, by simpa using h4⟩
      · rw [if_neg hs] at h4
        refine ⟨c :: t, c :: w, s', rfl, .char hq hl hr ?_ ?_ ?_ hv, ha, by simpa using h4⟩
        · rintro rfl; exact hs rfl
        · rintro rfl; exact hs rfl
        · rintro rfl; exact hs rfl

theorem back_quote {n a : Str} {as : List (Str × Str)} {k : List Str} {b : Bool} {fin : RdSt} (hf : fin.lex = .text) :
    ∀ {s : Str} {es : List MSax}, Go ⟨.aquote n as a, k, b⟩ s fin es →
    ∃ w q s', s = w ++ q :: s' ∧ WfGap w ∧ (q = '"' ∨ q = '\'') ∧ Go ⟨.aval n as a q [], k, b⟩ s' fin es
  | [], es, h => by
    obtain ⟨rfl, -⟩ := h.last
    cases hf
  | c :: s, es, h => by
    by_cases hq : c = '"' ∨ c = '\''
    · obtain ⟨e2, h2, rfl⟩ := h.tail (s1 := ⟨.aval n as a c [], k, b⟩) (e1 := []) (by simp [rdStep, hq])
      exact ⟨[], c, s, rfl, by simp [WfGap], hq, h2⟩
    by_cases hs : isXmlSpace c = true
    · obtain ⟨e2, h2, rfl⟩ := h.tail (s1 := ⟨.aquote n as a, k, b⟩) (e1 := []) (by simp [rdStep, hq, hs])
      obtain ⟨w, q, s', rfl, hw, hq', h3⟩ := back_quote hf h2
      refine ⟨c :: w, q, s', rfl, fun d hd => ?_, hq', h3⟩
      rcases List.mem_cons.1 hd with rfl | hd
      · exact space_gap hs
      · exact hw d hd
    · exact (h.not (x := .other) (by simp [rdStep, hq, hs, malformed])).elim

theorem back_eq {n a : Str} {as : List (Str × Str)} {k : List Str} {b : Bool} {fin : RdSt} (hf : fin.lex = .text) :
    ∀ {s : Str} {es : List MSax}, Go ⟨.aeq n as a, k, b⟩ s fin es →
    ∃ w s', s = w ++ '=' :: s' ∧ WfGap w ∧ Go ⟨.aquote n as a, k, b⟩ s' fin es
  | [], es, h => by
    obtain ⟨rfl, -⟩ := h.last
    cases hf
  | c :: s, es, h => by
    by_cases hq : c = '='
    · subst hq
      obtain ⟨e2, h2, rfl⟩ := h.tail (s1 := ⟨.aquote n as a, k, b⟩) (e1 := []) (by simp [rdStep])
      exact ⟨[], s, rfl, by simp [WfGap], h2⟩
    by_cases hs : isXmlSpace c = true
    · obtain ⟨e2, h2, rfl⟩ := h.tail (s1 := ⟨.aeq n as a, k, b⟩) (e1 := []) (by simp [rdStep, hq, hs])
      obtain ⟨w, s', rfl, hw, h3⟩ := back_eq hf h2
      refine ⟨c :: w, s', rfl, fun d hd => ?_, h3⟩
      rcases List.mem_cons.1 hd with rfl | hd
      · exact space_gap hs
      · exact hw d hd
    · exact (h.not (x := .other) (by simp [rdStep, hq, hs, malformed])).elim

theorem back_aname {n : Str} {as : List (Str × Str)} {k : List Str} {b : Bool} {fin : RdSt} (hf : fin.lex = .text) :
    ∀ {s a : Str} {es : List MSax}, Go ⟨.aname n as a, k, b⟩ s fin es →
    ∃ m w w' q s', s = m ++ w ++ '=' :: (w' ++ q :: s') ∧ (∀ c ∈ m, isNameChar c = true) ∧ WfGap w ∧ WfGap w' ∧ (q = '"' ∨ q = '\'') ∧
      Go ⟨.aval n as (a ++ m) q [], k, b⟩ s' fin es
  | [], a, es, h => by
    obtain ⟨rfl, -⟩ := h.last
    cases hf
  | c :: s, a, es, h => by
    by_cases hn : isNameChar c = true
    · obtain ⟨e2, h2, rfl⟩ := h.tail (s1 := ⟨.aname n as (a ++ [c]), k, b⟩) (e1 := []) (by simp [rdStep, hn])
      obtain ⟨m, w, w', q, s', rfl, hm, hw, hw', hq, h3⟩ := back_aname hf h2
      refine ⟨c :: m, w, w', q, s', by simp, fun d hd => ?_, hw, hw', hq, by simpa using h3⟩
      rcases List.mem_cons.1 hd with rfl | hd
      · exact hn
      · exact hm d hd
    by_cases hq : c = '='
    · subst hq
      obtain ⟨e2, h2, rfl⟩ := h.tail (s1 := ⟨.aquote n as a, k, b⟩) (e1 := []) (by simp [rdStep, hn])
      obtain ⟨w', q, s', rfl, hw', hq, h3⟩ := back_quote hf h2
      exact ⟨[], [], w', q, s', rfl, by simp, by simp [WfGap], hw', hq, by simpa using h3⟩
    by_cases hs : isXmlSpace c = true
    · obtain ⟨e2, h2, rfl⟩ := h.tail (s1 := ⟨.aeq n as a, k, b⟩) (e1 := []) (by simp [rdStep, hn, hq, hs])
      obtain ⟨w, s1, rfl, hw, h3⟩ := back_eq hf h2
      obtain ⟨w', q, s', rfl, hw', hq, h4⟩ := back_quote hf h3
      refine ⟨[], c :: w, w', q, s', rfl, by simp, fun d hd => ?_, hw', hq, by simpa using h4⟩
      rcases List.mem_cons.1 hd with rfl | hd
      · exact space_gap hs
      · exact hw d hd
    · exact (h.not (x := .other) (by simp [rdStep, hn, hq, hs, malformed])).elim

/-- After a start tag. -/
def TagEnds (n : Str) (as : List (Str × Str)) (k : List Str) (fin : RdSt) (es : List MSax) (r : Str) : Prop :=
  (∃ s' es', r = '>' :: s' ∧ es = .start n as :: es' ∧ Go ⟨.text, n :: k, true⟩ s' fin es') ∨
  ∃ s' es', r = '/' :: '>' :: s' ∧ es = .start n as :: .stop n :: es' ∧ Go ⟨.text, k, true⟩ s' fin es'

theorem back_tag {n : Str} {k : List Str} {b : Bool} {fin : RdSt} (hf : fin.lex = .text) :
    ∀ (m : Nat) {s g : Str} {as : List (Str × Str)} {es : List MSax}, s.length ≤ m → WfGap g → Go ⟨.inTag n as (! g.isEmpty), k, b⟩ s fin es →
    ∃ a bs w r, g ++ s = a ++ w ++ r ∧ LaxAttrs a bs ∧ WfGap w ∧ ((dkeys as).Nodup → (dkeys (as ++ bs)).Nodup) ∧ TagEnds n (as ++ bs) k fin es r
  | _, [], g, as, es, _, _, h => by
    obtain ⟨rfl, -⟩ := h.last
    cases hf
  | m + 1, c :: s, g, as, es, hm, hg, h => by
    have hm' : s.length ≤ m := by simpa using hm
    by_cases hs : isXmlSpace c = true
    · obtain ⟨e2, h2, rfl⟩ := h.tail (s1 := ⟨.inTag n as (! (g ++ [c]).isEmpty), k, b⟩) (e1 := []) (by simp [rdStep, tagChar, hs])
      have hg' : WfGap (g ++ [c]) := by
        intro d hd
        rcases List.mem_append.1 hd with hd | hd
        · exact hg d hd
        · rw [List.mem_singleton.1 hd]; exact space_gap hs
      obtain ⟨a, bs, w, r, he, h3⟩ := back_tag hf m hm' hg' h2
      exact ⟨a, bs, w, r, by simpa using he, h3⟩
    by_cases hgt : c = '>'
    · subst hgt
      obtain ⟨e2, h2, rfl⟩ := h.tail (s1 := ⟨.text, n :: k, true⟩) (e1 := [.start n as]) (by simp [rdStep, tagChar, hs])
      exact ⟨[], [], g, '>' :: s, by simp, .nil, hg, by simp, .inl ⟨s, e2, rfl, by simp, h2⟩⟩
    by_cases hsl : c = '/'
    · subst hsl
      obtain ⟨e2, h2, rfl⟩ := h.tail (s1 := ⟨.slash n as, k, b⟩) (e1 := []) (by simp [rdStep, tagChar, hs])
      cases s with
      | nil =>
        obtain ⟨rfl, -⟩ := h2.last
        cases hf
      | cons d s =>
        by_cases hd : d = '>'
        · subst hd
          obtain ⟨e3, h3, rfl⟩ := h2.tail (s1 := ⟨.text, k, true⟩) (e1 := [.start n as, .stop n]) (by simp [rdStep])
          exact ⟨[], [], g, '/' :: '>' :: s, by simp, .nil, hg, by simp, .inr ⟨s, e3, rfl, by simp, h3⟩⟩
        · exact (h2.not (x := .other) (by simp [rdStep, hd, malformed])).elim
    by_cases hn : (! g.isEmpty) = true ∧ isNameStart c = true
    · obtain ⟨e2, h2, rfl⟩ := h.tail (s1 := ⟨.aname n as [c], k, b⟩) (e1 := []) (by
        simp only [rdStep, tagChar]
        rw [if_neg hs, if_neg hgt, if_neg hsl, if_pos hn])
      obtain ⟨nm, w, w', q, s1, rfl, hnm, hw, hw', hq, h3⟩ := back_aname hf h2
      obtain ⟨t, v, s2, rfl, hv, ha, h4⟩ := back_val hf _ (Nat.le_refl _) h3
      have hl : s2.length ≤ m := by simp at hm'; omega
      obtain ⟨a, bs, w2, r, he, hat, hw2, hnd, hend⟩ := back_tag (g := []) hf m hl (by simp [WfGap]) (by simpa using h4)
      rw [List.nil_append] at he
      subst he
      refine ⟨g ++ (c :: nm) ++ w ++ '=' :: (w' ++ q :: (t ++ q :: a)), (c :: nm, v) :: bs, w2, r, by simp,
        .cons hg (by simpa using hn.1) (laxName_of hn.2 hnm) hw hw' hq hv hat, hw2, fun h0 => ?_, by simpa using hend⟩
      have h5 : (dkeys (as ++ [(c :: nm, v)])).Nodup := by
        have e : dkeys (as ++ [(c :: nm, v)]) = dkeys as ++ [c :: nm] := by simp [dkeys]
        rw [e, List.nodup_append]
        exact ⟨h0, by simp, fun x hx y hy hxy => ha (by rw [List.mem_singleton.1 hy] at hxy; rw [hxy] at hx; exact hx)⟩
      have := hnd (by simpa using h5)
      simpa using this
    · exact (h.not (x := .other) (by
        simp only [rdStep, tagChar]
        rw [if_neg hs, if_neg hgt, if_neg hsl, if_neg hn]
        rfl)).elim

theorem back_name {k : List Str} {b : Bool} {fin : RdSt} (hf : fin.lex = .text) :
    ∀ {s n : Str} {es : List MSax}, Go ⟨.name n, k, b⟩ s fin es →
    ∃ m a bs w r, s = m ++ a ++ w ++ r ∧ (∀ c ∈ m, isNameChar c = true) ∧ LaxAttrs a bs ∧ WfGap w ∧ (dkeys bs).Nodup ∧ TagEnds (n ++ m) bs k fin es r
  | [], n, es, h => by
    obtain ⟨rfl, -⟩ := h.last
    cases hf
  | c :: s, n, es, h => by
    by_cases hn : isNameChar c = true
    · obtain ⟨e2, h2, rfl⟩ := h.tail (s1 := ⟨.name (n ++ [c]), k, b⟩) (e1 := []) (by simp [rdStep, hn])
      obtain ⟨m, a, bs, w, r, rfl, hm, h3⟩ := back_name hf h2
      refine ⟨c :: m, a, bs, w, r, by simp, fun d hd => ?_, by simpa using h3⟩
      rcases List.mem_cons.1 hd with rfl | hd
      · exact hn
      · exact hm d hd
    · have h' : Go ⟨.inTag n [] (! ([] : Str).isEmpty), k, b⟩ (c :: s) fin es := by
        unfold Go at h ⊢
        rw [← h]
        simp only [rdRun, rdStep]
        rw [if_neg hn]
        rfl
      obtain ⟨a, bs, w, r, he, hat, hw, hnd, hend⟩ := back_tag hf _ (Nat.le_refl _) (by simp [WfGap]) h'
      exact ⟨[], a, bs, w, r, by simpa using he, by simp, hat, hw, by simpa using hnd (by simp [dkeys]), by simpa using hend⟩

theorem back_stopGap {n : Str} {k : List Str} {b : Bool} {fin : RdSt} (hf : fin.lex = .text) :
    ∀ {s : Str} {es : List MSax}, Go ⟨.stopGap n, k, b⟩ s fin es →
    ∃ w s' k' es', s = w ++ '>' :: s' ∧ WfGap w ∧ k = n :: k' ∧ es = .stop n :: es' ∧ Go ⟨.text, k', true⟩ s' fin es'
  | [], es, h => by
    obtain ⟨rfl, -⟩ := h.last
    cases hf
  | c :: s, es, h => by
    by_cases hs : isXmlSpace c = true
    · obtain ⟨e2, h2, rfl⟩ := h.tail (s1 := ⟨.stopGap n, k, b⟩) (e1 := []) (by simp [rdStep, stopChar, hs])
      obtain ⟨w, s', k', es', rfl, hw, h3⟩ := back_stopGap hf h2
      refine ⟨c :: w, s', k', es', rfl, fun d hd => ?_, by simpa using h3⟩
      rcases List.mem_cons.1 hd with rfl | hd
      · exact space_gap hs
      · exact hw d hd
    by_cases hgt : c = '>'
    · subst hgt
      cases k with
      | nil => exact (h.not (x := .other) (by simp [rdStep, stopChar, hs, malformed])).elim
      | cons t k =>
        by_cases ht : t = n
        · subst ht
          obtain ⟨e2, h2, rfl⟩ := h.tail (s1 := ⟨.text, k, true⟩) (e1 := [.stop t]) (by simp [rdStep, stopChar, hs])
          exact ⟨[], s, k, e2, rfl, by simp [WfGap], rfl, rfl, h2⟩
        · exact (h.not (x := .other) (by simp [rdStep, stopChar, hs, ht, malformed])).elim
    · exact (h.not (x := .other) (by simp [rdStep, stopChar, hs, hgt, malformed])).elim

theorem back_stop {k : List Str} {b : Bool} {fin : RdSt} (hf : fin.lex = .text) :
    ∀ {s n : Str} {es : List MSax}, Go ⟨.stop n, k, b⟩ s fin es →
    ∃ m w s' k' es', s = m ++ w ++ '>' :: s' ∧ WfGap w ∧ k = (n ++ m) :: k' ∧ es = .stop (n ++ m) :: es' ∧ Go ⟨.text, k', true⟩ s' fin es'
  | [], n, es, h => by
    obtain ⟨rfl, -⟩ := h.last
    cases hf
  | c :: s, n, es, h => by
    by_cases hn : isNameChar c = true
    · obtain ⟨e2, h2, rfl⟩ := h.tail (s1 := ⟨.stop (n ++ [c]), k, b⟩) (e1 := []) (by simp [rdStep, hn])
      obtain ⟨m, w, s', k', es', rfl, h3⟩ := back_stop hf h2
      exact ⟨c :: m, w, s', k', es', by simp, by simpa using h3⟩
    · have h' : Go ⟨.stopGap n, k, b⟩ (c :: s) fin es := by
        unfold Go at h ⊢
        rw [← h]
        simp only [rdRun, rdStep]
        rw [if_neg hn]
        rfl
      obtain ⟨w, s', k', es', he, h3⟩ := back_stopGap hf h'
      exact ⟨[], w, s', k', es', by simpa using he, by simpa using h3⟩

/-! ### Comments, instructions, CDATA sections -/

theorem infix_cons {p : Str} {c : Char} {s : Str} (h : p <:+: c :: s) : p <+: c :: s ∨ p <:+: s := List.infix_cons_iff.1 h

theorem back_comment {k : List Str} {b : Bool} {fin : RdSt} (hf : fin.lex = .text) : ∀ {s : Str} {es : List MSax},
    (Go ⟨.comment, k, b⟩ s fin es → ∃ t s', s = t ++ py!"-->" ++ s' ∧ (¬ py!"--" <:+: t ++ ['-']) ∧ Go ⟨.text, k, b⟩ s' fin es) ∧
    (Go ⟨.comment1, k, b⟩ s fin es → ∃ t s', '-' :: s = t ++ py!"-->" ++ s' ∧ (¬ py!"--" <:+: t ++ ['-']) ∧ Go ⟨.text, k, b⟩ s' fin es)
  | [], es => by
    constructor
    · intro h
      obtain ⟨rfl, -⟩ := h.last
      cases hf
    · intro h
      obtain ⟨rfl, -⟩ := h.last
      cases hf
  | c :: s, es => by
    by_cases hc : c = '-'
    · subst hc
      constructor
      · intro h
        obtain ⟨e2, h2, rfl⟩ := h.tail (s1 := ⟨.comment1, k, b⟩) (e1 := []) (by simp [rdStep])
        exact (back_comment hf).2 h2
      · intro h
        obtain ⟨e2, h2, rfl⟩ := h.tail (s1 := ⟨.comment2, k, b⟩) (e1 := []) (by simp [rdStep])
        cases s with
        | nil =>
          obtain ⟨rfl, -⟩ := h2.last
          cases hf
        | cons d s =>
          by_cases hd : d = '>'
          · subst hd
            obtain ⟨e3, h3, rfl⟩ := h2.tail (s1 := ⟨.text, k, b⟩) (e1 := []) (by simp [rdStep])
            exact ⟨[], s, rfl, by decide, h3⟩
          · exact (h2.not (x := .other) (by simp [rdStep, hd, malformed])).elim
    · constructor
      · intro h
        obtain ⟨e2, h2, rfl⟩ := h.tail (s1 := ⟨.comment, k, b⟩) (e1 := []) (by simp [rdStep, hc])
        obtain ⟨t, s', rfl, ht, h3⟩ := (back_comment hf).1 h2
        refine ⟨c :: t, s', rfl, fun hi => ?_, h3⟩
        rcases infix_cons hi with hp | hi
        · exact hc (List.cons_prefix_cons.1 hp).1.symm
        · exact ht hi
      · intro h
        obtain ⟨e2, h2, rfl⟩ := h.tail (s1 := ⟨.comment, k, b⟩) (e1 := []) (by simp [rdStep, hc])
        obtain ⟨t, s', rfl, ht, h3⟩ := (back_comment hf).1 h2
        refine ⟨'-' :: c :: t, s', rfl, fun hi => ?_, h3⟩
        rcases infix_cons hi with hp | hi
        · exact hc (List.cons_prefix_cons.1 (List.cons_prefix_cons.1 hp).2).1.symm
        rcases infix_cons hi with hp | hi
        · exact hc (List.cons_prefix_cons.1 hp).1.symm
        · exact ht hi

theorem back_pi {k : List Str} {b : Bool} {fin : RdSt} (hf : fin.lex = .text) : ∀ {s : Str} {es : List MSax},
    (Go ⟨.pi, k, b⟩ s fin es → ∃ t s', s = t ++ py!"?>" ++ s' ∧ (¬ py!"?>" <:+: t) ∧ Go ⟨.text, k, b⟩ s' fin es) ∧
    (Go ⟨.pi1, k, b⟩ s fin es → ∃ t s', '?' :: s = t ++ py!"?>" ++ s' ∧ (¬ py!"?>" <:+: t) ∧ Go ⟨.text, k, b⟩ s' fin es)
  | [], es => by
    constructor
    · intro h
      obtain ⟨rfl, -⟩ := h.last
      cases hf
    · intro h
      obtain ⟨rfl, -⟩ := h.last
      cases hf
  | c :: s, es => by
    by_cases hc : c = '?'
    · subst hc
      constructor
      · intro h
        obtain ⟨e2, h2, rfl⟩ := h.tail (s1 := ⟨.pi1, k, b⟩) (e1 := []) (by simp [rdStep])
        exact (back_pi hf).2 h2
      · intro h
        obtain ⟨e2, h2, rfl⟩ := h.tail (s1 := ⟨.pi1, k, b⟩) (e1 := []) (by simp [rdStep])
        obtain ⟨t, s', he, ht, h3⟩ := (back_pi hf).2 h2
        refine ⟨'?' :: t, s', by rw [he]; rfl, fun hi => ?_, h3⟩
        rcases infix_cons hi with hp | hi
        · cases t with
          | nil => simp at hp
          | cons d t =>
            have h1 := (List.cons_prefix_cons.1 (List.cons_prefix_cons.1 hp).2).1
            have h2 := (List.cons.inj he).1
            rw [← h1] at h2
            exact absurd h2 (by decide)
        · exact ht hi
    · constructor
      · intro h
        obtain ⟨e2, h2, rfl⟩ := h.tail (s1 := ⟨.pi, k, b⟩) (e1 := []) (by simp [rdStep, hc])
        obtain ⟨t, s', rfl, ht, h3⟩ := (back_pi hf).1 h2
        refine ⟨c :: t, s', rfl, fun hi => ?_, h3⟩
        rcases infix_cons hi with hp | hi
        · exact hc (List.cons_prefix_cons.1 hp).1.symm
        · exact ht hi
      · intro h
        by_cases hg : c = '>'
        · subst hg
          obtain ⟨e2, h2, rfl⟩ := h.tail (s1 := ⟨.text, k, b⟩) (e1 := []) (by simp [rdStep])
          exact ⟨[], s, rfl, by decide, h2⟩
        · obtain ⟨e2, h2, rfl⟩ := h.tail (s1 := ⟨.pi, k, b⟩) (e1 := []) (by simp [rdStep, hc, hg])
          obtain ⟨t, s', rfl, ht, h3⟩ := (back_pi hf).1 h2
          refine ⟨'?' :: c :: t, s', rfl, fun hi => ?_, h3⟩
          rcases infix_cons hi with hp | hi
          · exact hg (List.cons_prefix_cons.1 (List.cons_prefix_cons.1 hp).2).1.symm
          rcases infix_cons hi with hp | hi
          · exact hc (List.cons_prefix_cons.1 hp).1.symm
          · exact ht hi

/-- The characters of a text, one by one. -/
def charEvs (t : Str) : List MSax := t.map fun c => .chars [c]

theorem back_cdata {k : List Str} {b : Bool} {fin : RdSt} (hf : fin.lex = .text) : ∀ {s : Str} {es : List MSax},
    (Go ⟨.cdata, k, b⟩ s fin es → ∃ t s' es', s = t ++ py!"]]>" ++ s' ∧ (¬ py!"]]>" <:+: t) ∧ es = charEvs t ++ es' ∧ Go ⟨.text, k, b⟩ s' fin es') ∧
    (Go ⟨.cdata1, k, b⟩ s fin es → ∃ t s' es', ']' :: s = t ++ py!"]]>" ++ s' ∧ (¬ py!"]]>" <:+: t) ∧ es = charEvs t ++ es' ∧ Go ⟨.text, k, b⟩ s' fin es') ∧
    (Go ⟨.cdata2, k, b⟩ s fin es →
      ∃ t s' es', ']' :: ']' :: s = t ++ py!"]]>" ++ s' ∧ (¬ py!"]]>" <:+: t) ∧ es = charEvs t ++ es' ∧ Go ⟨.text, k, b⟩ s' fin es')
  | [], es => by
    refine ⟨fun h => ?_, fun h => ?_, fun h => ?_⟩ <;>
    · obtain ⟨rfl, -⟩ := h.last
      cases hf
  | c :: s, es => by
    by_cases hc : c = ']'
    · subst hc
      refine ⟨fun h => ?_, fun h => ?_, fun h => ?_⟩
      · obtain ⟨e2, h2, rfl⟩ := h.tail (s1 := ⟨.cdata1, k, b⟩) (e1 := []) (by simp [rdStep])
        exact (back_cdata hf).2.1 h2
      · obtain ⟨e2, h2, rfl⟩ := h.tail (s1 := ⟨.cdata2, k, b⟩) (e1 := []) (by simp [rdStep])
        exact (back_cdata hf).2.2 h2
      · obtain ⟨e2, h2, rfl⟩ := h.tail (s1 := ⟨.cdata2, k, b⟩) (e1 := [.chars [']']]) (by simp [rdStep])
        obtain ⟨t, s', es', he, ht, rfl, h3⟩ := (back_cdata hf).2.2 h2
        refine ⟨']' :: t, s', es', by rw [he]; rfl, fun hi => ?_, rfl, h3⟩
        rcases infix_cons hi with hp | hi
        · match t, hp, he with
          | [], hp, _ => simp at hp
          | [d], hp, _ => simp at hp
          | d :: d' :: t, hp, he =>
            have h1 := (List.cons_prefix_cons.1 (List.cons_prefix_cons.1 (List.cons_prefix_cons.1 hp).2).2).1
            have h2 := (List.cons.inj (List.cons.inj he).2).1
            rw [← h1] at h2
            exact absurd h2 (by decide)
        · exact ht hi
    · refine ⟨fun h => ?_, fun h => ?_, fun h => ?_⟩
      · obtain ⟨e2, h2, rfl⟩ := h.tail (s1 := ⟨.cdata, k, b⟩) (e1 := [.chars [c]]) (by simp [rdStep, hc])
        obtain ⟨t, s', es', rfl, ht, rfl, h3⟩ := (back_cdata hf).1 h2
        refine ⟨c :: t, s', es', rfl, fun hi => ?_, rfl, h3⟩
        rcases infix_cons hi with hp | hi
        · exact hc (List.cons_prefix_cons.1 hp).1.symm
        · exact ht hi
      · obtain ⟨e2, h2, rfl⟩ := h.tail (s1 := ⟨.cdata, k, b⟩) (e1 := [.chars [']'], .chars [c]]) (by simp [rdStep, hc])
        obtain ⟨t, s', es', rfl, ht, rfl, h3⟩ := (back_cdata hf).1 h2
        refine ⟨']' :: c :: t, s', es', rfl, fun hi => ?_, rfl, h3⟩
        rcases infix_cons hi with hp | hi
        · exact hc (List.cons_prefix_cons.1 (List.cons_prefix_cons.1 hp).2).1.symm
        rcases infix_cons hi with hp | hi
        · exact hc (List.cons_prefix_cons.1 hp).1.symm
        · exact ht hi
      · by_cases hg : c = '>'
        · subst hg
          obtain ⟨e2, h2, rfl⟩ := h.tail (s1 := ⟨.text, k, b⟩) (e1 := []) (by simp [rdStep])
          exact ⟨[], s, _, rfl, by decide, rfl, h2⟩
        · obtain ⟨e2, h2, rfl⟩ := h.tail (s1 := ⟨.cdata, k, b⟩) (e1 := [.chars [']'], .chars [']'], .chars [c]]) (by simp [rdStep, hc, hg])
          obtain ⟨t, s', es', rfl, ht, rfl, h3⟩ := (back_cdata hf).1 h2
          refine ⟨']' :: ']' :: c :: t, s', es', rfl, fun hi => ?_, rfl, h3⟩
          rcases infix_cons hi with hp | hi
          · exact hg (List.cons_prefix_cons.1 (List.cons_prefix_cons.1 (List.cons_prefix_cons.1 hp).2).2).1.symm
          rcases infix_cons hi with hp | hi
          · exact hc (List.cons_prefix_cons.1 (List.cons_prefix_cons.1 hp).2).1.symm
          rcases infix_cons hi with hp | hi
          · exact hc (List.cons_prefix_cons.1 hp).1.symm
          · exact ht hi

theorem back_cdOpen {k : List Str} {b : Bool} {fin : RdSt} (hf : fin.lex = .text) : ∀ {r s : Str} {es : List MSax}, r ≠ [] → Go ⟨.cdOpen r, k, b⟩ s fin es →
    ∃ s', s = r ++ s' ∧ Go ⟨.cdata, k, b⟩ s' fin es
  | [], _, _, hr, _ => absurd rfl hr
  | d :: r, [], es, _, h => by
    obtain ⟨rfl, -⟩ := h.last
    cases hf
  | d :: r, c :: s, es, _, h => by
    by_cases hc : c = d
    · subst hc
      by_cases hr : r = []
      · subst hr
        obtain ⟨e2, h2, rfl⟩ := h.tail (s1 := ⟨.cdata, k, b⟩) (e1 := []) (by simp [rdStep])
        exact ⟨s, rfl, h2⟩
      · obtain ⟨e2, h2, rfl⟩ := h.tail (s1 := ⟨.cdOpen r, k, b⟩) (e1 := []) (by simp [rdStep, hr])
        obtain ⟨s', rfl, h3⟩ := back_cdOpen hf hr h2
        exact ⟨s', rfl, h3⟩
    · exact (h.not (x := .other) (by simp [rdStep, hc, malformed])).elim

/-- After `<!`: a comment or, inside an element, a CDATA section. -/
theorem back_bang {k : List Str} {b : Bool} {fin : RdSt} (hf : fin.lex = .text) {s : Str} {es : List MSax} (h : Go ⟨.bang, k, b⟩ s fin es) :
    (∃ t s', '<' :: '!' :: s = t ++ s' ∧ WfComment t ∧ Go ⟨.text, k, b⟩ s' fin es) ∨
    ∃ t s' es', k ≠ [] ∧ '<' :: '!' :: s = py!"<![CDATA[" ++ t ++ py!"]]>" ++ s' ∧ (¬ py!"]]>" <:+: t) ∧ es = charEvs t ++ es' ∧ Go ⟨.text, k, b⟩ s' fin es' := by
  cases s with
  | nil =>
    obtain ⟨rfl, -⟩ := h.last
    cases hf
  | cons c s =>
    by_cases hc : c = '-'
    · subst hc
      obtain ⟨e2, h2, rfl⟩ := h.tail (s1 := ⟨.bang1, k, b⟩) (e1 := []) (by simp [rdStep])
      cases s with
      | nil =>
        obtain ⟨rfl, -⟩ := h2.last
        cases hf
      | cons d s =>
        by_cases hd : d = '-'
        · subst hd
          obtain ⟨e3, h3, rfl⟩ := h2.tail (s1 := ⟨.comment, k, b⟩) (e1 := []) (by simp [rdStep])
          obtain ⟨t, s', rfl, ht, h4⟩ := (back_comment hf).1 h3
          exact .inl ⟨py!"<!--" ++ t ++ py!"-->", s', by simp, ⟨t, rfl, ht⟩, h4⟩
        · exact (h2.not (x := .other) (by simp [rdStep, hd, malformed])).elim
    by_cases hb : c = '[' ∧ k ≠ []
    · obtain ⟨rfl, hk⟩ := hb
      obtain ⟨e2, h2, rfl⟩ := h.tail (s1 := ⟨.cdOpen py!"CDATA[", k, b⟩) (e1 := []) (by simp [rdStep, hk])
      obtain ⟨s1, rfl, h3⟩ := back_cdOpen hf (by decide) h2
      obtain ⟨t, s', es', rfl, ht, rfl, h4⟩ := (back_cdata hf).1 h3
      exact .inr ⟨t, s', es', hk, by simp, ht, rfl, h4⟩
    · exact (h.not (x := .other) (by
        simp only [rdStep]
        rw [if_neg hc, if_neg hb]
        rfl)).elim

/-! ### Documents -/

theorem Go.keys_eq {as : List (Str × Str)} (h : (dkeys as).Nodup) : (as.map Prod.fst).Nodup := h

/-- What is read inside an element up to its end. -/
theorem back_body {fin : RdSt} (hf : fin.lex = .text) (hk : fin.stack = []) :
    ∀ (m : Nat) {s n : Str} {k : List Str} {b : Bool} {es : List MSax}, s.length ≤ m → Go ⟨.text, n :: k, b⟩ s fin es →
    ∃ t e w r es', s = t ++ '<' :: '/' :: (n ++ w ++ '>' :: r) ∧ LaxBody t e ∧ WfGap w ∧ es = e ++ .stop n :: es' ∧ Go ⟨.text, k, true⟩ r fin es' ∧
      r.length < s.length
  | _, [], n, k, b, es, _, h => by
    obtain ⟨rfl, -⟩ := h.last
    cases hk
  | m + 1, c :: s, n, k, b, es, hm, h => by
    have hm' : s.length ≤ m := by simpa using hm
    by_cases hlt : c = '<'
    · subst hlt
      obtain ⟨e2, h2, rfl⟩ := h.tail (s1 := ⟨.lt, n :: k, b⟩) (e1 := []) (by simp [rdStep])
      cases s with
      | nil =>
        obtain ⟨rfl, -⟩ := h2.last
        cases hf
      | cons d s =>
        by_cases hsl : d = '/'
        · subst hsl
          obtain ⟨e3, h3, rfl⟩ := h2.tail (s1 := ⟨.stop [], n :: k, b⟩) (e1 := []) (by simp [rdStep])
          obtain ⟨nm, w, s', k', es', rfl, hw, he, rfl, h4⟩ := back_stop hf h3
          simp only [List.nil_append, List.cons.injEq] at he h4 ⊢
          obtain ⟨rfl, rfl⟩ := he
          exact ⟨[], [], w, s', es', rfl, .nil, hw, rfl, h4, by simp; omega⟩
        by_cases hba : d = '!'
        · subst hba
          obtain ⟨e3, h3, rfl⟩ := h2.tail (s1 := ⟨.bang, n :: k, b⟩) (e1 := []) (by simp [rdStep])
          rcases back_bang hf h3 with ⟨t, s', he, ht, h4⟩ | ⟨t, s', es', -, he, ht, rfl, h4⟩
          · have hl : s'.length ≤ m := by
              have := congrArg List.length he
              obtain ⟨x, rfl, -⟩ := ht
              simp at this hm'
              omega
            obtain ⟨t2, e, w, r, es', rfl, hb, hw, rfl, h5, hr⟩ := back_body hf hk m hl h4
            rw [he]
            exact ⟨t ++ t2, e, w, r, es', by simp, .comment ht hb, hw, rfl, h5, by simp at hr ⊢; omega⟩
          · have hl : s'.length ≤ m := by
              have := congrArg List.length he
              simp at this hm'
              omega
            obtain ⟨t2, e, w, r, es', rfl, hb, hw, rfl, h5, hr⟩ := back_body hf hk m hl h4
            rw [he]
            refine ⟨py!"<![CDATA[" ++ t ++ py!"]]>" ++ t2, charEvs t ++ e, w, r, es', by simp, .cdata ht hb, hw, by simp, h5, by simp at hr ⊢; omega⟩
        by_cases hpi : d = '?'
        · subst hpi
          obtain ⟨e3, h3, rfl⟩ := h2.tail (s1 := ⟨.pi, n :: k, b⟩) (e1 := []) (by simp [rdStep])
          obtain ⟨t, s', rfl, ht, h4⟩ := (back_pi hf).1 h3
          have hl : s'.length ≤ m := by simp at hm'; omega
          obtain ⟨t2, e, w, r, es', rfl, hb, hw, rfl, h5, hr⟩ := back_body hf hk m hl h4
          refine ⟨(py!"<?" ++ t ++ py!"?>") ++ t2, e, w, r, es', by simp, .instr ⟨t, rfl, ht⟩ hb, hw, rfl, h5, by simp at hr ⊢; omega⟩
        by_cases hns : isNameStart d = true
        · obtain ⟨e3, h3, rfl⟩ := h2.tail (s1 := ⟨.name [d], n :: k, b⟩) (e1 := []) (by simp [rdStep, hsl, hba, hpi, hns])
          obtain ⟨nm, a, bs, w, r, rfl, hnm, hat, hw, hnd, hend⟩ := back_name hf h3
          have hname : LaxName (d :: nm) := laxName_of hns hnm
          rcases hend with ⟨s1, es1, rfl, rfl, h4⟩ | ⟨s1, es1, rfl, rfl, h4⟩
          · have hl : s1.length ≤ m := by simp at hm'; omega
            obtain ⟨t2, e, w2, r2, es2, rfl, hb, hw2, rfl, h5, hr⟩ := back_body hf hk m hl h4
            have hl2 : r2.length ≤ m := by omega
            obtain ⟨t3, e3, w3, r3, es3, rfl, hb3, hw3, rfl, h6, hr3⟩ := back_body hf hk m hl2 h5
            refine ⟨_, _, w3, r3, es3, ?_, .full hname hat hnd hw hb hw2 hb3, hw3, ?_, h6, ?_⟩
            · simp
            · simp
            · simp at hr hr3 ⊢; omega
          · have hl : s1.length ≤ m := by simp at hm'; omega
            obtain ⟨t3, e3, w3, r3, es3, rfl, hb3, hw3, rfl, h6, hr3⟩ := back_body hf hk m hl h4
            refine ⟨_, _, w3, r3, es3, ?_, .empty hname hat hnd hw hb3, hw3, ?_, h6, ?_⟩
            · simp
            · simp
            · simp at hr3 ⊢; omega
        · exact (h2.not (x := .other) (by simp [rdStep, hsl, hba, hpi, hns, malformed])).elim
    by_cases ham : c = '&'
    · subst ham
      obtain ⟨e2, h2, rfl⟩ := h.tail (s1 := ⟨.ref [], n :: k, b⟩) (e1 := []) (by simp [rdStep])
      obtain ⟨r0, d, s1, es1, rfl, hr, rfl, h3⟩ := back_ref hf h2
      have hl : s1.length ≤ m := by simp at hm'; omega
      obtain ⟨t2, e, w, r, es', rfl, hb, hw, rfl, h5, hlr⟩ := back_body hf hk m hl h3
      exact ⟨'&' :: (r0 ++ ';' :: t2), .chars [d] :: e, w, r, es', by simp, .ref (by simpa using hr) hb, hw, rfl, h5, by simp at hlr ⊢; omega⟩
    · obtain ⟨e2, h2, rfl⟩ := h.tail (s1 := ⟨.text, n :: k, b⟩) (e1 := [.chars [c]]) (by simp [rdStep, hlt, ham])
      obtain ⟨t2, e, w, r, es', rfl, hb, hw, rfl, h5, hlr⟩ := back_body hf hk m hm' h2
      exact ⟨c :: t2, .chars [c] :: e, w, r, es', by simp, .char hlt ham hb, hw, rfl, h5, by simp at hlr ⊢; omega⟩

/-- What is read outside of the document element, up to its start or the end of the file. -/
theorem back_misc {fin : RdSt} (hf : fin.lex = .text) : ∀ (m : Nat) {s : Str} {b : Bool} {es : List MSax}, s.length ≤ m → Go ⟨.text, [], b⟩ s fin es →
    ∃ t s', s = t ++ s' ∧ LaxMisc t ∧ ((s' = [] ∧ es = [] ∧ fin = ⟨.text, [], b⟩) ∨
      ∃ c r, s' = '<' :: c :: r ∧ isNameStart c = true ∧ b = false ∧ Go ⟨.name [c], [], false⟩ r fin es)
  | _, [], b, es, _, h => by
    obtain ⟨rfl, rfl⟩ := h.last
    exact ⟨[], [], rfl, .nil, .inl ⟨rfl, rfl, rfl⟩⟩
  | m + 1, c :: s, b, es, hm, h => by
    have hm' : s.length ≤ m := by simpa using hm
    by_cases hlt : c = '<'
    · subst hlt
      obtain ⟨e2, h2, rfl⟩ := h.tail (s1 := ⟨.lt, [], b⟩) (e1 := []) (by simp [rdStep])
      cases s with
      | nil =>
        obtain ⟨rfl, -⟩ := h2.last
        cases hf
      | cons d s =>
        by_cases hsl : d = '/'
        · subst hsl
          obtain ⟨e3, h3, rfl⟩ := h2.tail (s1 := ⟨.stop [], [], b⟩) (e1 := []) (by simp [rdStep])
          obtain ⟨nm, w, s', k', es', rfl, hw, he, -⟩ := back_stop hf h3
          cases he
        by_cases hba : d = '!'
        · subst hba
          obtain ⟨e3, h3, rfl⟩ := h2.tail (s1 := ⟨.bang, [], b⟩) (e1 := []) (by simp [rdStep])
          rcases back_bang hf h3 with ⟨t, s', he, ht, h4⟩ | ⟨t, s', es', hk, -⟩
          · have hl : s'.length ≤ m := by
              have := congrArg List.length he
              obtain ⟨x, rfl, -⟩ := ht
              simp at this hm'
              omega
            obtain ⟨t2, s2, rfl, hb, h5⟩ := back_misc hf m hl h4
            rw [he]
            exact ⟨t ++ t2, s2, by simp, .comment ht hb, h5⟩
          · exact absurd rfl hk
        by_cases hpi : d = '?'
        · subst hpi
          obtain ⟨e3, h3, rfl⟩ := h2.tail (s1 := ⟨.pi, [], b⟩) (e1 := []) (by simp [rdStep])
          obtain ⟨t, s', rfl, ht, h4⟩ := (back_pi hf).1 h3
          have hl : s'.length ≤ m := by simp at hm'; omega
          obtain ⟨t2, s2, rfl, hb, h5⟩ := back_misc hf m hl h4
          exact ⟨(py!"<?" ++ t ++ py!"?>") ++ t2, s2, by simp, .instr ⟨t, rfl, ht⟩ hb, h5⟩
        by_cases hns : isNameStart d = true ∧ b = false
        · obtain ⟨hns, rfl⟩ := hns
          obtain ⟨e3, h3, rfl⟩ := h2.tail (s1 := ⟨.name [d], [], false⟩) (e1 := []) (by simp [rdStep, hsl, hba, hpi, hns])
          exact ⟨[], '<' :: d :: s, rfl, .nil, .inr ⟨d, s, rfl, hns, rfl, h3⟩⟩
        · exact (h2.not (x := .other) (by
            simp only [rdStep]
            rw [if_neg hsl, if_neg hba, if_neg hpi, if_neg (by simpa using hns)]
            rfl)).elim
    · by_cases hs : isXmlSpace c = true
      · obtain ⟨e2, h2, rfl⟩ := h.tail (s1 := ⟨.text, [], b⟩) (e1 := []) (by simp [rdStep, hlt, hs])
        obtain ⟨t2, s2, rfl, hb, h5⟩ := back_misc hf m hm' h2
        exact ⟨c :: t2, s2, rfl, .gap (space_gap hs) hb, h5⟩
      · exact (h.not (x := .other) (by simp [rdStep, hlt, hs, malformed])).elim

theorem back_doc {s : Str} {fin : RdSt} {es : List MSax} (hf : fin.lex = .text) (hk : fin.stack = []) (hs : fin.seen = true) (h : Go ⟨.text, [], false⟩ s fin es) :
    LaxDoc s es := by
  obtain ⟨m, s1, rfl, hm, h1⟩ := back_misc hf _ (Nat.le_refl _) h
  rcases h1 with ⟨-, -, rfl⟩ | ⟨c, r, rfl, hns, -, h1⟩
  · cases hs
  · obtain ⟨nm, a, bs, w, r, rfl, hnm, hat, hw, hnd, hend⟩ := back_name hf h1
    have hname : LaxName (c :: nm) := laxName_of hns hnm
    rcases hend with ⟨s1, es1, rfl, rfl, h4⟩ | ⟨s1, es1, rfl, rfl, h4⟩
    · obtain ⟨t2, e, w2, r2, es2, rfl, hb, hw2, rfl, h5, -⟩ := back_body hf hk _ (Nat.le_refl _) h4
      obtain ⟨m2, s2, rfl, hm2, ⟨rfl, rfl, -⟩ | ⟨_, _, -, -, hbad, -⟩⟩ := back_misc hf _ (Nat.le_refl _) h5
      · exact ⟨m, _, m2, by simp, hm, .full hname hat hnd hw hb hw2, hm2⟩
      · cases hbad
    · obtain ⟨m2, s2, rfl, hm2, ⟨rfl, rfl, -⟩ | ⟨_, _, -, -, hbad, -⟩⟩ := back_misc hf _ (Nat.le_refl _) h4
      · exact ⟨m, _, m2, by simp, hm, .empty hname hat hnd hw, hm2⟩
      · cases hbad

/-! ## C183 -/

/-- C183: whatever text the reader accepts is a document and says what was read. -/
theorem c183_only {s : Str} {es : List MSax} (h : readXml s = .ok es) : (∀ c ∈ s, CharOfXml c) ∧ ∃ t, LineEnds s t ∧ LaxDoc t es := by
  unfold readXml at h
  split at h
  · rename_i hc
    obtain ⟨⟨st, e⟩, h1, h2⟩ := bind_ok.1 h
    simp only at h2
    split at h2
    · rename_i hst
      cases h2
      exact ⟨fun c h => isXmlChar_iff.1 (List.all_eq_true.1 hc.1 c h), _, lineEnds_norm s, back_doc hst.1 hst.2.1 hst.2.2 h1⟩
    · cases h2
  · cases h


theorem upToPi_first : ∀ {t r : Str}, ¬ py!"?>" <:+: t → upToPi (t ++ '?' :: '>' :: r) = some t
  | [], r, _ => rfl
  | c :: t, r, h => by
    have h1 : ¬ py!"?>" <:+: t := fun hi => h (hi.trans (List.suffix_cons c t).isInfix)
    have h2 : ¬ (c = '?' ∧ (t ++ '?' :: '>' :: r).head? = some '>') := by
      rintro ⟨rfl, h2⟩
      cases t with
      | nil => simp at h2
      | cons d t =>
        rw [List.cons_append, List.head?_cons] at h2
        rw [Option.some.inj h2] at h
        exact h ⟨[], t, rfl⟩
    rw [List.cons_append, upToPi, if_neg h2, upToPi_first h1]
    rfl

/-- ... and what it declares at the start is an XML declaration. -/
theorem c183_decl {s : Str} {es : List MSax} (h : readXml s = .ok es) {c : Char} {t r : Str} (hs : LineEnds s (py!"<?xml" ++ (c :: t ++ py!"?>" ++ r)))
    (hc : c = ' ' ∨ c = '\t' ∨ c = '\n') (ht : ¬ py!"?>" <:+: c :: t) : ∃ e, DeclSays (c :: t) e := by
  unfold readXml at h
  split at h
  · rename_i hok
    have h1 : declOf (normEol s) = some (c :: t) := by
      have hsp : declSpace c = true := by rcases hc with rfl | rfl | rfl <;> decide
      rw [← lineEnds_eq hs]
      show (if declSpace c ∨ c = '?' then upToPi (c :: (t ++ py!"?>" ++ r)) else none) = _
      rw [if_pos (.inl hsp)]
      have := upToPi_first (r := r) ht
      simpa using this
    have h2 := hok.2
    unfold declOk at h2
    rw [h1] at h2
    obtain ⟨e, he⟩ := Option.isSome_iff_exists.1 h2
    exact ⟨e, declared_says.1 he⟩
  · cases h

theorem readXml_error {s : Str} {e : PyErr} (h : readXml s = .error e) : e = .other := by
  have hg : ∀ (st : RdSt) (c : Char) (e : PyErr), rdStep st c = .error e → e = .other := by
    intro st c e h
    unfold rdStep tagChar stopChar malformed at h
    repeat' split at h
    all_goals first
      | exact (Except.error.inj h).symm
      | cases h
  have hr : ∀ (cs : Str) (st : RdSt) (e : PyErr), rdRun st cs = .error e → e = .other := by
    intro cs
    induction cs with
    | nil => intro st e h; cases h
    | cons c cs ih =>
      intro st e h
      simp only [rdRun] at h
      cases h1 : rdStep st c with
      | error x =>
        rw [h1] at h
        cases h
        exact hg _ _ _ h1
      | ok p =>
        rw [h1] at h
        cases h2 : rdRun p.1 cs with
        | error x =>
          simp only [bind, Except.bind, h2] at h
          cases h
          exact ih _ _ h2
        | ok q =>
          simp only [bind, Except.bind, h2] at h
          cases h
  unfold readXml malformed at h
  split at h
  · cases h1 : rdRun ⟨.text, [], false⟩ (normEol s) with
    | error x =>
      rw [h1] at h
      cases h
      exact hr _ _ _ h1
    | ok p =>
      rw [h1] at h
      simp only [bind, Except.bind] at h
      split at h
      · cases h
      · exact (Except.error.inj h).symm
  · exact (Except.error.inj h).symm

/-- A document of legal characters. -/
def IsXml (s : Str) : Prop := (∀ c ∈ s, CharOfXml c) ∧ ∃ t es, LineEnds s t ∧ LaxDoc t es

theorem not_document {s : Str} (h : ¬ IsXml s) : readXml s = .error .other := by
  cases hr : readXml s with
  | ok es =>
    obtain ⟨h1, t, h2, h3⟩ := c183_only hr
    exact absurd ⟨h1, t, es, h2, h3⟩ h
  | error e => rw [readXml_error hr]

section
variable {F : Type} [PyFloat F]

/-- C183: a text that is not a document is refused by each of the three parsers, whatever else is given. -/
theorem c183_refused {s : Str} (h : ¬ IsXml s) (given : Option (Factory F)) (reg : Factory F) (mgr : ExtMgr) (hp : Heap F)
    (rnd : Nat → Uuid) (w : ExtWorld F) (names : GlobalMap) :
    loadXes given reg mgr hp s = .error .other ∧ loadMxml (F := F) rnd s = .error .other ∧ parseExtText w names s = .error .other := by
  simp only [loadXes, loadMxml, parseExtText, not_document h, bind, Except.bind]
  exact ⟨trivial, trivial, trivial⟩

end

/-! ## Plain texts -/

/-- ASCII, without processing instructions and `]]>`. -/
def PlainXml (s : Str) : Prop := (∀ c ∈ s, c.toNat < 128) ∧ ¬ py!"<?" <:+: s ∧ ¬ py!"]]>" <:+: s

theorem PlainXml.part {a b c s : Str} (h : PlainXml s) (e : s = a ++ b ++ c) : PlainXml b := by
  subst e
  have hi : b <:+: a ++ b ++ c := ⟨a, c, rfl⟩
  exact ⟨fun x hx => h.1 x (by simp [hx]), fun h1 => h.2.1 (h1.trans hi), fun h1 => h.2.2 (h1.trans hi)⟩

theorem laxName_wf {n : Str} (h : LaxName n) (hn : ∀ c ∈ n, c.toNat < 128) : WfName n := by
  cases n with
  | nil => exact h
  | cons c cs =>
    refine ⟨?_, fun d hd => ?_⟩
    · have := hn c List.mem_cons_self
      rcases h.1 with h | h | h | h
      · exact .inl h
      · exact .inr (.inl h)
      · exact .inr (.inr h)
      · omega
    · have h1 := hn d (List.mem_cons_of_mem _ hd)
      rcases h.2 d hd with h | h | h | h | h | h | h
      · exact .inl h
      · exact .inr (.inl h)
      · exact .inr (.inr (.inl h))
      · exact .inr (.inr (.inr (.inl h)))
      · exact .inr (.inr (.inr (.inr (.inl h))))
      · exact .inr (.inr (.inr (.inr (.inr h))))
      · omega

theorem laxAttrs_wf {a : Str} {as : List (Str × Str)} (h : LaxAttrs a as) (ha : ∀ c ∈ a, c.toNat < 128) : WfAttrs a as := by
  induction h with
  | nil => exact .nil
  | cons hg hg' hn hw hw' hq hv _ ih =>
    exact .cons hg hg' (laxName_wf hn fun c hc => ha c (by simp [hc])) hw hw' hq hv (ih fun c hc => ha c (by simp [hc]))

theorem laxBody_wf {t : Str} {es : List MSax} (h : LaxBody t es) (ht : PlainXml t) : WfBody t es := by
  induction h with
  | nil => exact .nil
  | @char c s es h1 h2 _ ih =>
    refine .char h1 h2 ?_ (ih (ht.part (a := [c]) (c := []) (by simp)))
    rintro ⟨rfl, r, rfl⟩
    exact ht.2.2 ⟨[], r, rfl⟩
  | @ref r s d es hr _ ih => exact .ref hr (ih (ht.part (a := '&' :: (r ++ [';'])) (c := []) (by simp)))
  | @comment t s es hc _ ih => exact .comment hc (ih (ht.part (a := t) (c := []) (by simp)))
  | @instr t s es hc _ ih =>
    obtain ⟨b, rfl, -⟩ := hc
    exact absurd ⟨[], b ++ py!"?>" ++ s, by simp⟩ ht.2.1
  | @cdata t s es hc _ ih => exact absurd ⟨py!"<![CDATA[" ++ t, s, by simp⟩ ht.2.2
  | @empty n a w s as es hn ha hnd hw _ ih =>
    exact .empty (laxName_wf hn fun c hc => ht.1 c (by simp [hc])) (laxAttrs_wf ha fun c hc => ht.1 c (by simp [hc])) hnd hw
      (ih (ht.part (a := '<' :: (n ++ a ++ w ++ py!"/>")) (c := []) (by simp)))
  | @full n a w t w' s as e es hn ha hnd hw _ hw' _ ih ih' =>
    exact .full (laxName_wf hn fun c hc => ht.1 c (by simp [hc])) (laxAttrs_wf ha fun c hc => ht.1 c (by simp [hc])) hnd hw
      (ih (ht.part (a := '<' :: (n ++ a ++ w ++ py!">")) (c := '<' :: '/' :: (n ++ w' ++ '>' :: s)) (by simp))) hw'
      (ih' (ht.part (a := '<' :: (n ++ a ++ w ++ '>' :: (t ++ '<' :: '/' :: (n ++ w' ++ ['>'])))) (c := []) (by simp)))

theorem laxMisc_wf {t : Str} (h : LaxMisc t) (ht : PlainXml t) : WfMisc t := by
  induction h with
  | nil => exact .nil
  | @gap c s hc _ ih => exact .gap hc (ih (ht.part (a := [c]) (c := []) (by simp)))
  | @comment t s hc _ ih => exact .comment hc (ih (ht.part (a := t) (c := []) (by simp)))
  | @instr t s hc _ ih =>
    obtain ⟨b, rfl, -⟩ := hc
    exact absurd ⟨[], b ++ py!"?>" ++ s, by simp⟩ ht.2.1

theorem laxDoc_wf {d t : Str} {es : List MSax} (hd : d = [] ∨ WfDecl d) (h : LaxDoc t es) (ht : PlainXml t) : WfDoc (d ++ t) es := by
  obtain ⟨m, x, m', rfl, hm, hx, hm'⟩ := h
  refine ⟨d, m, x, m', by simp, hd, laxMisc_wf hm (ht.part (a := []) (c := x ++ m') (by simp)), ?_, laxMisc_wf hm' (ht.part (a := m ++ x) (c := []) (by simp))⟩
  have hp : PlainXml x := ht.part rfl
  cases hx with
  | empty hn ha hnd hw => exact .empty (laxName_wf hn fun c hc => hp.1 c (by simp [hc])) (laxAttrs_wf ha fun c hc => hp.1 c (by simp [hc])) hnd hw
  | @full n a w t w' as e hn ha hnd hw hb hw' =>
    exact .full (laxName_wf hn fun c hc => hp.1 c (by simp [hc])) (laxAttrs_wf ha fun c hc => hp.1 c (by simp [hc])) hnd hw
      (laxBody_wf hb (hp.part (a := '<' :: (n ++ a ++ w ++ py!">")) (c := '<' :: '/' :: (n ++ w' ++ ['>'])) (by simp))) hw'

/-- C183: of the plain texts, perhaps after a declaration, exactly the documents of XML are read, and as what they say. -/
theorem c183_plain {s d t : Str} {es : List MSax} (hs : LineEnds s (d ++ t)) (hc : ∀ c ∈ s, CharOfXml c) (hd : d = [] ∨ WfDecl d) (ht : PlainXml t) :
    readXml s = .ok es ↔ WfDoc (d ++ t) es := by
  refine ⟨fun h => ?_, c134_text hc hs⟩
  have h0 : Go ⟨.text, [], false⟩ d ⟨.text, [], false⟩ [] := by
    rcases hd with rfl | hd
    · exact Go.nil _
    · exact go_wfDecl hd
  unfold readXml at h
  split at h
  · obtain ⟨⟨st, e⟩, h1, h2⟩ := bind_ok.1 h
    simp only at h2
    split at h2
    · rename_i hst
      cases h2
      rw [← lineEnds_eq hs] at h1
      obtain ⟨s1, e1, e2, h3, h4, rfl⟩ := Go.split h1
      obtain ⟨rfl, rfl⟩ := Go.unique h0 h3
      exact laxDoc_wf hd (back_doc hst.1 hst.2.1 hst.2.2 h4) ht
    · cases h2
  · cases h

/-! ### Examples -/

theorem laxDoc_head {s : Str} {es : List MSax} (h : LaxDoc s es) : ∃ c, s.head? = some c ∧ (c = '<' ∨ c = ' ' ∨ c = '\t' ∨ c = '\n') := by
  obtain ⟨m, x, m', rfl, hm, hx, -⟩ := h
  cases hm with
  | nil => cases hx <;> exact ⟨'<', rfl, .inl rfl⟩
  | gap h => exact ⟨_, rfl, .inr h⟩
  | comment h => obtain ⟨b, rfl, -⟩ := h; exact ⟨'<', rfl, .inl rfl⟩
  | instr h => obtain ⟨b, rfl, -⟩ := h; exact ⟨'<', rfl, .inl rfl⟩

/-- A text that is not a document: the hypothesis of `c183_refused` is met. -/
example : ¬ IsXml py!"id;name\r\n1;a" := by
  rintro ⟨-, t, es, h0, h⟩
  rw [lineEnds_eq h0] at h
  obtain ⟨c, h1, h2⟩ := laxDoc_head h
  have : (normEol py!"id;name\r\n1;a").head? = some 'i' := by decide +kernel
  rw [this] at h1
  cases h1
  revert h2
  decide

/-- Two attributes of one name: a plain text, not a document. -/
example : ¬ ∃ es, WfDoc py!"<a b='1' b='2'/>" es := by
  rintro ⟨es, h⟩
  have := (c183_plain (s := py!"<a b='1' b='2'/>") (d := []) (es := es) (lineEnds_norm _) (fun c hc => isXmlChar_iff.1 (by revert c; decide +kernel)) (.inl rfl)
    ⟨by decide +kernel, by decide +kernel, by decide +kernel⟩).2 h
  rw [show readXml py!"<a b='1' b='2'/>" = .error .other by decide +kernel] at this
  cases this

/-- A plain text, behind a declaration, that is a document. -/
example : readXml py!"<?xml version='1.0'?>\r\n<a b='1'>x&lt;<c/></a>" =
    .ok [.start py!"a" [(py!"b", py!"1")], .chars ['x'], .chars ['<'], .start py!"c" [], .stop py!"c", .stop py!"a"] := by decide +kernel

end Opy
