import Verif.Lemmas.XmlText
import Verif.Lemmas.Decl
import Verif.Props.MxmlRead
/-
The text written for an element tree and what reading it gives.
-/
set_option linter.unusedSectionVars false
namespace Opy

/-! ## Specification -/

mutual
/-- An element whose names are names, without two attributes of the same name, containing elements or one text. -/
def Tidy (ok : Str → Prop) : MNode → Prop
  | .text _ => False
  | .elem t as ks => GoodName t ∧ (∀ p ∈ as, GoodName p.1) ∧ (as.map Prod.fst).Nodup ∧ ((∃ s, ks = [.text s] ∧ ok s) ∨ TidyAll ok ks)
/-- The same for a list. -/
def TidyAll (ok : Str → Prop) : List MNode → Prop
  | [] => True
  | k :: ks => Tidy ok k ∧ TidyAll ok ks
end

mutual
/-- The attribute values and texts use only characters that XML allows. -/
def LegalNode : MNode → Prop
  | .text s => ∀ c ∈ s, isXmlChar c = true
  | .elem _ as ks => (∀ p ∈ as, ∀ c ∈ p.2, isXmlChar c = true) ∧ LegalAll ks
/-- The same for a list. -/
def LegalAll : List MNode → Prop
  | [] => True
  | k :: ks => LegalNode k ∧ LegalAll ks
end

/-- What comes back of the value of an attribute: before Python 3.13 line ends and tabs become blanks. -/
def valueBack (modern : Bool) (s : Str) : Str :=
  if modern then s else (normEol s).map fun c => if c = '\t' ∨ c = '\n' then ' ' else c

/-! ## The tree as events -/

mutual
/-- The events of a tree, the text in single characters. -/
def nodeEvs : MNode → List MSax
  | .text s => s.map fun c => .chars [c]
  | .elem t as ks => .start t as :: (nodeEvsAll ks ++ [.stop t])
/-- The same for a list. -/
def nodeEvsAll : List MNode → List MSax
  | [] => []
  | k :: ks => nodeEvs k ++ nodeEvsAll ks
end

theorem go_startTag {esc f : Str → Str} {t : Str} (ht : GoodName t) {as : List (Str × Str)}
    (h1 : ∀ p ∈ as, GoodName p.1 ∧ ValueReads esc f p.2) (h2 : (as.map Prod.fst).Nodup) {k : List Str} {b : Bool}
    (hk : k ≠ [] ∨ b = false) :
    ∃ st, Go ⟨.text, k, b⟩ ('<' :: (t ++ attrsText esc as)) st [] ∧ InTag st t (as.map fun p => (p.1, f p.2)) k b := by
  obtain ⟨c, cs, rfl⟩ : ∃ c cs, t = c :: cs := by
    cases t with
    | nil => exact absurd ht (by simp [GoodName])
    | cons c cs => exact ⟨c, cs, rfl⟩
  obtain ⟨st, h3, h4⟩ := go_attrs (esc := esc) (f := f) (c :: cs) k b as [] ⟨.name (c :: cs), k, b⟩ (inTag_name _ k b) h1 (by simpa using h2)
  refine ⟨st, ?_, by simpa using h4⟩
  obtain ⟨n1, n2, n3, _, _⟩ := nameStart_ne ht.1
  refine Go.cons0 (s1 := ⟨.lt, k, b⟩) (by simp [rdStep]) ?_
  refine Go.cons0 (s1 := ⟨.name [c], k, b⟩) ?_ ?_
  · simp only [rdStep, n1, n2, n3, if_false, ht.1, true_and]
    rw [if_pos hk]
  exact Go.append0 (go_name k b cs [c] ht.2) h3

theorem go_tagEnd {st : RdSt} {t : Str} {as : List (Str × Str)} {k : List Str} {b : Bool} (h : InTag st t as k b) :
    Go st ['>'] ⟨.text, t :: k, true⟩ [.start t as] := by
  refine Go.cons (e1 := [.start t as]) (e2 := []) ?_ (Go.nil _)
  rw [h '>' (by decide)]
  simp [tagChar, show isXmlSpace '>' = false by decide]

theorem go_emptyEnd {st : RdSt} {t : Str} {as : List (Str × Str)} {k : List Str} {b : Bool} (h : InTag st t as k b) :
    Go st ['/', '>'] ⟨.text, k, true⟩ [.start t as, .stop t] := by
  refine Go.cons0 (s1 := ⟨.slash t as, k, b⟩) ?_ ?_
  · rw [h '/' (by decide)]
    simp [tagChar, show isXmlSpace '/' = false by decide]
  · exact Go.cons (e1 := [.start t as, .stop t]) (e2 := []) (by simp [rdStep]) (Go.nil _)

theorem go_emptyEnd' {st : RdSt} {t : Str} {as : List (Str × Str)} {k : List Str} {b : Bool} (h : InTag st t as k b) :
    Go st [' ', '/', '>'] ⟨.text, k, true⟩ [.start t as, .stop t] := by
  refine Go.cons0 (s1 := ⟨.inTag t as true, k, b⟩) ?_ ?_
  · rw [h ' ' (by decide)]
    simp [tagChar, show isXmlSpace ' ' = true by decide]
  refine Go.cons0 (s1 := ⟨.slash t as, k, b⟩) ?_ ?_
  · simp [rdStep, tagChar, show isXmlSpace '/' = false by decide]
  · exact Go.cons (e1 := [.start t as, .stop t]) (e2 := []) (by simp [rdStep]) (Go.nil _)

theorem onlyText_tidy {ok : Str → Prop} {ks : List MNode} (h : TidyAll ok ks) : onlyText ks = none := by
  unfold onlyText
  split
  · simp [TidyAll, Tidy] at h
  · rfl

mutual
/-- ElementTree: the text of a tree is read as the tree. -/
theorem et_run : ∀ (x : MNode), Tidy (· ≠ []) x → ∀ (k : List Str) (b : Bool), (k ≠ [] ∨ b = false) →
    Go ⟨.text, k, b⟩ (etText x) ⟨.text, k, true⟩ (nodeEvs x)
  | .text _, h, _, _, _ => by simp [Tidy] at h
  | .elem t as ks, h, k, b, hk => by
    simp only [Tidy] at h
    obtain ⟨ht, ha, hn, hks⟩ := h
    obtain ⟨st, h1, h2⟩ := go_startTag (esc := etAttrText) (f := id) ht (fun p hp => ⟨ha p hp, etAttr_reads p.2⟩) hn hk
    have hid : (as.map fun p => (p.1, id p.2)) = as := by simp
    rw [hid] at h2
    rcases hks with ⟨s, rfl, hs⟩ | hks
    · have hs : s ≠ [] := hs
      have e : etText (.elem t as [.text s]) = ('<' :: (t ++ attrsText etAttrText as)) ++ (['>'] ++ (etContentText s ++ (['<', '/'] ++ t ++ ['>']))) := by
        simp [etText, etTexts, onlyText, hs]
      have e2 : nodeEvs (.elem t as [.text s]) = [] ++ ([.start t as] ++ ((s.map fun c => .chars [c]) ++ [.stop t])) := by
        simp [nodeEvs, nodeEvsAll]
      rw [e, e2]
      exact h1.append ((go_tagEnd h2).append ((etContent_reads s t k true).append (go_endTag ht k true)))
    · cases ks with
      | nil =>
        have e : etText (.elem t as []) = ('<' :: (t ++ attrsText etAttrText as)) ++ [' ', '/', '>'] := by
          simp [etText]
        rw [e]
        exact h1.append0 (go_emptyEnd' h2)
      | cons x xs =>
        have e : etText (.elem t as (x :: xs)) = ('<' :: (t ++ attrsText etAttrText as)) ++ (['>'] ++ (etTexts (x :: xs) ++ (['<', '/'] ++ t ++ ['>']))) := by
          simp [etText, onlyText_tidy hks]
        have e2 : nodeEvs (.elem t as (x :: xs)) = [] ++ ([.start t as] ++ (nodeEvsAll (x :: xs) ++ [.stop t])) := by
          simp [nodeEvs]
        rw [e, e2]
        exact h1.append ((go_tagEnd h2).append ((et_runs (x :: xs) hks t k).append (go_endTag ht k true)))
theorem et_runs : ∀ (xs : List MNode), TidyAll (· ≠ []) xs → ∀ (t : Str) (k : List Str),
    Go ⟨.text, t :: k, true⟩ (etTexts xs) ⟨.text, t :: k, true⟩ (nodeEvsAll xs)
  | [], _, _, _ => by simpa [etTexts, nodeEvsAll] using Go.nil _
  | x :: xs, h, t, k => by
    simp only [TidyAll] at h
    simp only [etTexts, nodeEvsAll]
    exact (et_run x h.1 (t :: k) true (by simp)).append (et_runs xs h.2 t k)
end

/-! ## The document object -/

theorem domRun_append (st : List (Str × List (Str × Str) × List MNode) × Option MNode) (a b : List MSax) :
    domRun st (a ++ b) = (do domRun (← domRun st a) b) := by
  induction a generalizing st with
  | nil => rfl
  | cons e a ih =>
    simp only [List.cons_append, domRun]
    cases domStep st e with
    | error x => rfl
    | ok st' => exact ih st'

theorem dom_text {t : Str} {as : List (Str × Str)} {r : List (Str × List (Str × Str) × List MNode)} {o : Option MNode} (s u : Str) :
    domRun ((t, as, [.text u]) :: r, o) (s.map fun c => .chars [c]) = .ok ((t, as, [.text (u ++ s)]) :: r, o) := by
  induction s generalizing u with
  | nil => simp [domRun]
  | cons c s ih =>
    simp only [List.map_cons, domRun, domStep, domChars]
    exact (ih (u ++ [c])).trans (by simp)

theorem dom_text0 {t : Str} {as : List (Str × Str)} {r : List (Str × List (Str × Str) × List MNode)} {o : Option MNode} {s : Str} (hs : s ≠ []) :
    domRun ((t, as, []) :: r, o) (s.map fun c => .chars [c]) = .ok ((t, as, [.text s]) :: r, o) := by
  cases s with
  | nil => exact absurd rfl hs
  | cons c s =>
    simp only [List.map_cons, domRun, domStep, domChars]
    exact dom_text s [c]

/-- The document after an element was closed. -/
def closed (x : MNode) : List (Str × List (Str × Str) × List MNode) → Option MNode → List (Str × List (Str × Str) × List MNode) × Option MNode
  | [], _ => ([], some x)
  | (t, as, ks) :: r, o => ((t, as, x :: ks) :: r, o)

mutual
theorem dom_run : ∀ (x : MNode), Tidy (· ≠ []) x → ∀ (r : List (Str × List (Str × Str) × List MNode)) (o : Option MNode),
    domRun (r, o) (nodeEvs x) = .ok (closed x r o)
  | .text _, h, _, _ => by simp [Tidy] at h
  | .elem t as ks, h, r, o => by
    simp only [Tidy] at h
    obtain ⟨-, -, -, hks⟩ := h
    simp only [nodeEvs, domRun, domStep]
    show domRun ((t, as, []) :: r, o) (nodeEvsAll ks ++ [.stop t]) = _
    rw [domRun_append]
    have hkids : domRun ((t, as, []) :: r, o) (nodeEvsAll ks) = .ok ((t, as, ks.reverse) :: r, o) := by
      rcases hks with ⟨s, rfl, hs⟩ | hks
      · simp only [nodeEvsAll, nodeEvs, List.append_nil]
        exact dom_text0 hs
      · simpa using dom_runs ks hks t as [] r o
    rw [hkids]
    cases r with
    | nil => simp [bind, Except.bind, domRun, domStep, closed]
    | cons p r => obtain ⟨t', as', ks'⟩ := p; simp [bind, Except.bind, domRun, domStep, closed]
theorem dom_runs : ∀ (xs : List MNode), TidyAll (· ≠ []) xs → ∀ (t : Str) (as : List (Str × Str)) (ks : List MNode)
    (r : List (Str × List (Str × Str) × List MNode)) (o : Option MNode),
    domRun ((t, as, ks) :: r, o) (nodeEvsAll xs) = .ok ((t, as, xs.reverse ++ ks) :: r, o)
  | [], _, t, as, ks, r, o => by simp [nodeEvsAll, domRun]
  | x :: xs, h, t, as, ks, r, o => by
    simp only [TidyAll] at h
    simp only [nodeEvsAll, domRun_append, dom_run x h.1, bind, Except.bind, closed]
    rw [dom_runs xs h.2]
    simp
end

mutual
/-- The document object: line ends normalised in texts, no empty texts. -/
def dom : MNode → MNode
  | .text s => .text (normEol s)
  | .elem t as ks => .elem t as (match onlyText ks with
    | some s => if s = [] then [] else [.text (normEol s)]
    | none => domAll ks)
/-- The same for a list. -/
def domAll : List MNode → List MNode
  | [] => []
  | k :: ks => dom k :: domAll ks
end

mutual
theorem dom_tidy : ∀ (x : MNode), Tidy (fun _ => True) x → Tidy (· ≠ []) (dom x)
  | .text _, h => by simp [Tidy] at h
  | .elem t as ks, h => by
    simp only [Tidy] at h
    obtain ⟨h1, h2, h3, h4⟩ := h
    simp only [dom, Tidy]
    refine ⟨h1, h2, h3, ?_⟩
    rcases h4 with ⟨s, rfl, -⟩ | h4
    · simp only [onlyText]
      by_cases hs : s = []
      · right; simp [hs, TidyAll]
      · left; exact ⟨_, by simp [hs], normEol_ne_nil hs⟩
    · right
      simp only [onlyText_tidy h4]
      exact domAll_tidy ks h4
theorem domAll_tidy : ∀ (xs : List MNode), TidyAll (fun _ => True) xs → TidyAll (· ≠ []) (domAll xs)
  | [], _ => by simp [domAll, TidyAll]
  | x :: xs, h => by
    simp only [TidyAll] at h
    exact ⟨dom_tidy x h.1, domAll_tidy xs h.2⟩
end

theorem attrsText_noCr {esc : Str → Str} (h : ∀ s, '\r' ∉ esc s) : ∀ {as : List (Str × Str)}, (∀ p ∈ as, '\r' ∉ p.1) → '\r' ∉ attrsText esc as
  | [], _ => by simp [attrsText]
  | (a, v) :: as, ha => by
    have h1 := ha (a, v) (by simp)
    have h2 := attrsText_noCr h (as := as) fun p hp => ha p (by simp [hp])
    simp only [attrsText, List.mem_cons, List.mem_append, not_or]
    exact ⟨by decide, ⟨⟨⟨h1, by decide⟩, h v⟩, by decide⟩, h2⟩

theorem goodName_noCr {n : Str} (h : GoodName n) : '\r' ∉ n := fun hm => absurd (h.chars _ hm) (by decide)

theorem normEol_snoc_lt (s r : Str) : normEol (s ++ '<' :: r) = normEol s ++ '<' :: normEol r := by
  rw [normEol_append_cons (by decide), normEol_cons (by decide)]

mutual
theorem et_eol : ∀ (x : MNode), Tidy (fun _ => True) x → ∀ r : Str, normEol (etText x ++ r) = etText (dom x) ++ normEol r
  | .text _, h, _ => by simp [Tidy] at h
  | .elem t as ks, h, r => by
    simp only [Tidy] at h
    obtain ⟨h1, h2, -, h4⟩ := h
    have hpre : '\r' ∉ ('<' :: (t ++ attrsText etAttrText as)) := by
      simp only [List.mem_cons, List.mem_append, not_or]
      exact ⟨by decide, goodName_noCr h1, attrsText_noCr etAttrText_noCr fun p hp => goodName_noCr (h2 p hp)⟩
    have hend : '\r' ∉ (['<', '/'] ++ t ++ ['>']) := by
      simp only [List.mem_append, not_or]
      exact ⟨⟨by decide, goodName_noCr h1⟩, by decide⟩
    rcases h4 with ⟨s, rfl, -⟩ | h4
    · by_cases hs : s = []
      · subst hs
        have e : etText (.elem t as [.text []]) ++ r = ('<' :: (t ++ attrsText etAttrText as)) ++ ([' ', '/', '>'] ++ r) := by
          simp [etText, onlyText]
        rw [e, normEol_clean_append hpre, normEol_clean_append (by decide)]
        simp [dom, onlyText, etText]
      · have e : etText (.elem t as [.text s]) ++ r = ('<' :: (t ++ attrsText etAttrText as)) ++ (['>'] ++ (etContentText s ++ '<' :: (['/'] ++ t ++ ['>'] ++ r))) := by
          simp [etText, etTexts, onlyText, hs]
        rw [e, normEol_clean_append hpre, normEol_clean_append (by decide), normEol_snoc_lt, etContent_eol,
          normEol_clean_append (a := ['/'] ++ t ++ ['>'])]
        · simp [dom, onlyText, etText, etTexts, hs, normEol_ne_nil hs]
        · simp only [List.mem_append, not_or]
          exact ⟨⟨by decide, goodName_noCr h1⟩, by decide⟩
    · cases ks with
      | nil =>
        have e : etText (.elem t as []) ++ r = ('<' :: (t ++ attrsText etAttrText as)) ++ ([' ', '/', '>'] ++ r) := by
          simp [etText]
        rw [e, normEol_clean_append hpre, normEol_clean_append (by decide)]
        simp [dom, onlyText, etText, domAll]
      | cons x xs =>
        have e : etText (.elem t as (x :: xs)) ++ r = ('<' :: (t ++ attrsText etAttrText as)) ++ (['>'] ++ (etTexts (x :: xs) ++ ((['<', '/'] ++ t ++ ['>']) ++ r))) := by
          simp [etText, onlyText_tidy h4]
        have h5 := onlyText_tidy (domAll_tidy (x :: xs) h4)
        rw [e, normEol_clean_append hpre, normEol_clean_append (by decide), ets_eol (x :: xs) h4, normEol_clean_append hend]
        rw [domAll] at h5
        simp [dom, onlyText_tidy h4, etText, domAll, h5]
theorem ets_eol : ∀ (xs : List MNode), TidyAll (fun _ => True) xs → ∀ r : Str, normEol (etTexts xs ++ r) = etTexts (domAll xs) ++ normEol r
  | [], _, r => by simp [etTexts, domAll]
  | x :: xs, h, r => by
    simp only [TidyAll] at h
    simp only [etTexts, domAll, List.append_assoc]
    rw [et_eol x h.1, ets_eol xs h.2]
end

/-! ## Legal characters -/

theorem isAlpha_legal {c : Char} (h : c.isAlpha = true) : isXmlChar c = true := by
  have : 65 ≤ c.toNat ∧ c.toNat ≤ 122 := by
    simp only [Char.isAlpha, Char.isUpper, Char.isLower, Bool.or_eq_true, Bool.and_eq_true, decide_eq_true_eq] at h
    have e : c.toNat = c.val.toNat := rfl
    rcases h with h | h
    · have h1 : (65 : Nat) ≤ c.val.toNat := UInt32.le_iff_toNat_le.1 h.1
      have h2 : c.val.toNat ≤ 90 := UInt32.le_iff_toNat_le.1 h.2
      omega
    · have h1 : (97 : Nat) ≤ c.val.toNat := UInt32.le_iff_toNat_le.1 h.1
      have h2 : c.val.toNat ≤ 122 := UInt32.le_iff_toNat_le.1 h.2
      omega
  simp only [isXmlChar, Bool.or_eq_true, Bool.and_eq_true, decide_eq_true_eq]
  omega

theorem isDigit_legal {c : Char} (h : c.isDigit = true) : isXmlChar c = true := by
  have : 48 ≤ c.toNat ∧ c.toNat ≤ 57 := by
    simp only [Char.isDigit, Bool.and_eq_true, decide_eq_true_eq] at h
    have e : c.toNat = c.val.toNat := rfl
    have h1 : (48 : Nat) ≤ c.val.toNat := UInt32.le_iff_toNat_le.1 h.1
    have h2 : c.val.toNat ≤ 57 := UInt32.le_iff_toNat_le.1 h.2
    omega
  simp only [isXmlChar, Bool.or_eq_true, Bool.and_eq_true, decide_eq_true_eq]
  omega

theorem nameChar_legal {c : Char} (h : isNameChar c = true) : isXmlChar c = true := by
  simp only [isNameChar, isNameStart, Bool.or_eq_true, Bool.and_eq_true, decide_eq_true_eq] at h
  rcases h with (((((h | h) | h) | h) | h) | h) | h
  · exact isAlpha_legal h
  · subst h; decide
  · subst h; decide
  · exact h.2
  · exact isDigit_legal h
  · subst h; decide
  · subst h; decide

theorem goodName_legal {n : Str} (h : GoodName n) : ∀ c ∈ n, isXmlChar c = true := fun c hc => nameChar_legal (h.chars c hc)

/-- The escape keeps legal characters legal and does not hide an illegal one. -/
def EscLegal (esc : Str → Str) : Prop := ∀ s : Str, (∀ c ∈ esc s, isXmlChar c = true) ↔ ∀ c ∈ s, isXmlChar c = true

theorem escLegal_flatMap {e : Char → Str} (h : ∀ c, (∀ d ∈ e c, isXmlChar d = true) ↔ isXmlChar c = true) : EscLegal fun s => s.flatMap e := by
  intro s
  simp only [List.mem_flatMap, forall_exists_index, and_imp]
  constructor
  · intro h1 c hc
    exact (h c).1 fun d hd => h1 d c hc hd
  · intro h1 d c hc hd
    exact (h c).2 (h1 c hc) d hd

theorem etAttr_legal : EscLegal etAttrText := by
  have : etAttrText = fun s => s.flatMap etAttrChar := funext etAttrText_eq
  rw [this]
  refine escLegal_flatMap fun c => ?_
  unfold etAttrChar
  repeat' split
  all_goals first | (subst c; decide) | simp

theorem etContent_legal : EscLegal etContentText := by
  have : etContentText = fun s => s.flatMap etContentChar := funext etContentText_eq
  rw [this]
  refine escLegal_flatMap fun c => ?_
  unfold etContentChar
  repeat' split
  all_goals first | (subst c; decide) | simp

theorem dom_legal (modern attr : Bool) : EscLegal (domText modern attr) := by
  have : domText modern attr = fun s => s.flatMap (domChar modern attr) := funext (domText_eq modern attr)
  rw [this]
  refine escLegal_flatMap fun c => ?_
  unfold domChar
  by_cases h4 : c = '"'
  · subst h4; cases modern <;> cases attr <;> decide
  repeat' split
  all_goals first | (subst c; decide) | simp_all

theorem attrsText_legal {esc : Str → Str} (h : EscLegal esc) : ∀ {as : List (Str × Str)}, (∀ p ∈ as, GoodName p.1) →
    ((∀ c ∈ attrsText esc as, isXmlChar c = true) ↔ ∀ p ∈ as, ∀ c ∈ p.2, isXmlChar c = true)
  | [], _ => by simp [attrsText]
  | (a, v) :: as, ha => by
    have h1 := goodName_legal (ha (a, v) (by simp))
    have h2 := attrsText_legal h (as := as) fun p hp => ha p (by simp [hp])
    have h3 := h v
    simp only [attrsText, List.forall_mem_cons, List.forall_mem_append, h2, h3]
    constructor
    · rintro ⟨-, ⟨⟨-, q⟩, -⟩, r⟩; exact ⟨q, r⟩
    · rintro ⟨q, r⟩
      exact ⟨by decide, ⟨⟨⟨h1, by decide, by decide, by simp⟩, q⟩, by decide, by simp⟩, r⟩

mutual
theorem et_legal : ∀ (x : MNode), Tidy (fun _ => True) x → ((∀ c ∈ etText x, isXmlChar c = true) ↔ LegalNode x)
  | .text _, h => by simp [Tidy] at h
  | .elem t as ks, h => by
    simp only [Tidy] at h
    obtain ⟨h1, h2, -, h4⟩ := h
    have h1 := goodName_legal h1
    have h2 := attrsText_legal etAttr_legal h2
    rcases h4 with ⟨s, rfl, -⟩ | h4
    · by_cases hs : s = []
      · subst hs
        simp only [etText, onlyText, or_true, if_true, List.forall_mem_cons, List.forall_mem_append, h2, LegalNode, LegalAll]
        constructor
        · rintro ⟨-, ⟨-, q⟩, -⟩; exact ⟨q, by simp⟩
        · rintro ⟨q, -⟩; exact ⟨by decide, ⟨h1, q⟩, by decide⟩
      · have e : ¬ ([MNode.text s].isEmpty = true ∨ onlyText [.text s] = some []) := by simp [onlyText, hs]
        simp only [etText, e, if_false, List.forall_mem_cons, List.forall_mem_append, h2, LegalNode, LegalAll, etTexts, etContent_legal s]
        constructor
        · rintro ⟨-, ⟨-, q⟩, -, ⟨⟨⟨r, -⟩, -⟩, -⟩, -⟩; exact ⟨q, r, trivial⟩
        · rintro ⟨q, r, -⟩
          exact ⟨by decide, ⟨h1, q⟩, by decide, ⟨⟨⟨r, by simp⟩, by decide, by decide, by simp⟩, h1⟩, by decide, by simp⟩
    · cases ks with
      | nil =>
        simp only [etText, List.isEmpty_nil, true_or, if_true, List.forall_mem_cons, List.forall_mem_append, h2, LegalNode, LegalAll]
        constructor
        · rintro ⟨-, ⟨-, q⟩, -⟩; exact ⟨q, trivial⟩
        · rintro ⟨q, -⟩; exact ⟨by decide, ⟨h1, q⟩, by decide⟩
      | cons x xs =>
        have e : ¬ ((x :: xs).isEmpty = true ∨ onlyText (x :: xs) = some []) := by simp [onlyText_tidy h4]
        have h5 := ets_legal (x :: xs) h4
        simp only [etText, e, if_false, List.forall_mem_cons, List.forall_mem_append, h2, LegalNode, h5]
        constructor
        · rintro ⟨-, ⟨-, q⟩, -, ⟨⟨r, -⟩, -⟩, -⟩; exact ⟨q, r⟩
        · rintro ⟨q, r⟩
          exact ⟨by decide, ⟨h1, q⟩, by decide, ⟨⟨r, by decide, by decide, by simp⟩, h1⟩, by decide, by simp⟩
theorem ets_legal : ∀ (xs : List MNode), TidyAll (fun _ => True) xs → ((∀ c ∈ etTexts xs, isXmlChar c = true) ↔ LegalAll xs)
  | [], _ => by simp [etTexts, LegalAll]
  | x :: xs, h => by
    simp only [TidyAll] at h
    simp only [etTexts, List.forall_mem_append, LegalAll, et_legal x h.1, ets_legal xs h.2]
end

theorem normEol_legal {s : Str} (h : ∀ c ∈ s, isXmlChar c = true) : ∀ c ∈ normEol s, isXmlChar c = true := by
  have : ∀ (s : Str), ∀ c ∈ normEol s, c ∈ s ∨ c = '\n' := by
    intro s
    induction s using normEol.induct with
    | case1 => simp [normEol]
    | case2 s ih =>
      intro c hc
      simp only [normEol, List.mem_cons] at hc ⊢
      rcases hc with hc | hc
      · exact .inr hc
      · rcases ih c hc with h | h
        · exact .inl (.inr (.inr h))
        · exact .inr h
    | case3 s hs ih =>
      intro c hc
      rw [normEol] at hc
      · simp only [List.mem_cons] at hc ⊢
        rcases hc with hc | hc
        · exact .inr hc
        · rcases ih c hc with h | h
          · exact .inl (.inr h)
          · exact .inr h
      · exact hs
    | case4 d s h1 h2 ih =>
      intro c hc
      rw [normEol_cons (fun e => h2 e)] at hc
      simp only [List.mem_cons] at hc ⊢
      rcases hc with hc | hc
      · exact .inl (.inl hc)
      · rcases ih c hc with h | h
        · exact .inl (.inr h)
        · exact .inr h
  intro c hc
  rcases this s c hc with h1 | h1
  · exact h c h1
  · subst h1; decide

mutual
theorem dom_legalNode : ∀ (x : MNode), LegalNode x → LegalNode (dom x)
  | .text s, h => by
    simp only [dom, LegalNode] at h ⊢
    exact normEol_legal h
  | .elem t as ks, h => by
    simp only [dom, LegalNode] at h ⊢
    refine ⟨h.1, ?_⟩
    cases ho : onlyText ks with
    | none => exact domAll_legal ks h.2
    | some s =>
      have : ks = [.text s] := by
        unfold onlyText at ho
        split at ho
        · simp_all
        · simp at ho
      subst this
      simp only
      split
      · trivial
      · simp only [LegalAll, LegalNode, and_true] at h ⊢
        exact normEol_legal h.2
theorem domAll_legal : ∀ (xs : List MNode), LegalAll xs → LegalAll (domAll xs)
  | [], _ => trivial
  | x :: xs, h => ⟨dom_legalNode x h.1, domAll_legal xs h.2⟩
end

/-! ## Reading back what was written as XML -/

/-- The text of an element is not taken for a declaration. -/
theorem et_declOk {ok : Str → Prop} {x : MNode} (h : Tidy ok x) : declOk (etText x) = true := by
  cases x with
  | text s => exact h.elim
  | elem t as ks =>
    obtain ⟨h1, -⟩ := h
    cases t with
    | nil => exact h1.elim
    | cons c t =>
      simp only [etText, List.cons_append]
      refine declOk_elem ?_ _
      rintro rfl
      exact absurd h1.1 (by decide)

/-- `minidom.parseString` of the text of a tree gives the document object exactly if all characters are legal. -/
theorem parseDom_et {x : MNode} (h : Tidy (fun _ => True) x) :
    (LegalNode x → parseDom (etText x) = .ok (dom x)) ∧ (¬ LegalNode x → parseDom (etText x) = .error .other) := by
  constructor
  · intro hl
    have h1 : (etText x).all isXmlChar = true := by rw [List.all_eq_true]; exact (et_legal x h).2 hl
    have h2 := et_eol x h []
    rw [List.append_nil, show normEol ([] : Str) = [] from rfl, List.append_nil] at h2
    have h3 : rdRun ⟨.text, [], false⟩ (etText (dom x)) = .ok (⟨.text, [], true⟩, nodeEvs (dom x)) :=
      et_run (dom x) (dom_tidy x h) [] false (.inr rfl)
    have h4 := dom_run (dom x) (dom_tidy x h) [] none
    simp only [parseDom, readXml, h1, if_true, h2, et_declOk (dom_tidy x h), h3, bind, Except.bind, and_self, h4, closed]
  · intro hl
    have h1 : ¬ (etText x).all isXmlChar = true := by rw [List.all_eq_true]; exact fun q => hl ((et_legal x h).1 q)
    simp [parseDom, readXml, h1, bind, Except.bind, malformed]

/-! ## The indented text -/

mutual
/-- The tree with its values and texts changed. -/
def mapNode (f g : Str → Str) : MNode → MNode
  | .text s => .text (g s)
  | .elem t as ks => .elem t (as.map fun p => (p.1, f p.2)) (mapNodes f g ks)
/-- The same for a list. -/
def mapNodes (f g : Str → Str) : List MNode → List MNode
  | [] => []
  | k :: ks => mapNode f g k :: mapNodes f g ks
end

mutual
theorem reads_map {f g ws tx : Str → Str} : ∀ {x : MNode} {s : List MSax}, Reads ws tx (mapNode f g x) s → Reads (ws ∘ f) (tx ∘ g) x s
  | .text t, s, h => by
    rw [mapNode] at h
    generalize hy : MNode.text (g t) = y at h
    cases h with
    | text hc => cases hy; exact .text hc
    | elem => cases hy
  | .elem t as ks, s, h => by
    rw [mapNode] at h
    generalize hy : MNode.elem t (as.map fun p => (p.1, f p.2)) (mapNodes f g ks) = y at h
    cases h with
    | text => cases hy
    | elem hc =>
      cases hy
      have := Reads.elem (t := t) (as := as) (readsAll_map hc)
      simpa [Function.comp_def] using this
theorem readsAll_map {f g ws tx : Str → Str} : ∀ {xs : List MNode} {s : List MSax}, ReadsAll ws tx (mapNodes f g xs) s → ReadsAll (ws ∘ f) (tx ∘ g) xs s
  | [], s, h => by
    rw [mapNodes] at h
    cases h with
    | nil hg => exact .nil hg
  | x :: xs, s, h => by
    rw [mapNodes] at h
    cases h with
    | cons hg h1 h2 => exact .cons hg (reads_map h1) (readsAll_map h2)
end

theorem readsAll_gap {ws tx : Str → Str} {g s : List MSax} {xs : List MNode} (hg : Gap g) (h : ReadsAll ws tx xs s) : ReadsAll ws tx xs (g ++ s) := by
  cases h with
  | nil hg' => exact .nil fun e he => (List.mem_append.1 he).elim (hg e) (hg' e)
  | cons hg' h1 h2 =>
    rw [← List.append_assoc]
    exact .cons (fun e he => (List.mem_append.1 he).elim (hg e) (hg' e)) h1 h2

mutual
/-- What is delivered for the document object is delivered for the written tree. -/
theorem reads_dom {ws tx : Str → Str} (htx : ∀ s, tx (normEol s) = tx s) (h0 : tx [] = []) :
    ∀ {x : MNode} {s : List MSax}, Reads ws tx (dom x) s → Reads ws tx x s
  | .text t, s, h => by
    rw [dom] at h
    generalize hy : MNode.text (normEol t) = y at h
    cases h with
    | text hc => cases hy; exact .text (by rw [hc, htx])
    | elem => cases hy
  | .elem t as ks, s, h => by
    rw [dom] at h
    generalize hy : MNode.elem t as _ = y at h
    cases h with
    | text => cases hy
    | elem hc =>
      cases hy
      refine .elem ?_
      cases ho : onlyText ks with
      | none => rw [ho] at hc; exact readsAll_dom htx h0 hc
      | some u =>
        have : ks = [.text u] := by
          unfold onlyText at ho
          split at ho
          · simp_all
          · simp at ho
        subst this
        rw [ho] at hc
        simp only at hc
        by_cases hu : u = []
        · rw [if_pos hu] at hc
          subst hu
          have h1 : Reads ws tx (.text []) (([] : List Str).map .chars) := .text (by simp [h0])
          have := ReadsAll.cons (g := []) (by simp [Gap]) h1 hc
          simpa using this
        · rw [if_neg hu] at hc
          cases hc with
          | cons hg h1 h2 =>
            refine .cons hg ?_ h2
            cases h1 with
            | text hc => exact .text (by rw [hc, htx])
theorem readsAll_dom {ws tx : Str → Str} (htx : ∀ s, tx (normEol s) = tx s) (h0 : tx [] = []) :
    ∀ {xs : List MNode} {s : List MSax}, ReadsAll ws tx (domAll xs) s → ReadsAll ws tx xs s
  | [], s, h => by
    rw [domAll] at h
    cases h with
    | nil hg => exact .nil hg
  | x :: xs, s, h => by
    rw [domAll] at h
    cases h with
    | cons hg h1 h2 => exact .cons hg (reads_dom htx h0 h1) (readsAll_dom htx h0 h2)
end

/-- White space around elements, delivered in single characters if inside an element. -/
def gapEvs (k : List Str) (s : Str) : List MSax := if k = [] then [] else s.map fun c => .chars [c]

theorem gapEvs_gap (k : List Str) {s : Str} (h : ∀ c ∈ s, isSpace c = true) : Gap (gapEvs k s) := by
  unfold gapEvs
  split
  · simp [Gap]
  · intro e he
    obtain ⟨c, hc, rfl⟩ := List.mem_map.1 he
    exact ⟨[c], rfl, by simpa using h c hc⟩

theorem go_gap (k : List Str) (b : Bool) : ∀ {s : Str}, (∀ c ∈ s, isXmlSpace c = true) → Go ⟨.text, k, b⟩ s ⟨.text, k, b⟩ (gapEvs k s)
  | [], _ => by
    have : gapEvs k [] = [] := by unfold gapEvs; split <;> rfl
    rw [this]; exact Go.nil _
  | c :: s, h => by
    have hc := h c (by simp)
    have ih := go_gap k b (s := s) fun d hd => h d (by simp [hd])
    have hlt : c ≠ '<' := by rintro rfl; revert hc; decide
    have hamp : c ≠ '&' := by rintro rfl; revert hc; decide
    cases k with
    | nil =>
      simp only [gapEvs, if_true] at ih ⊢
      exact Go.cons0 (by simp [rdStep, hlt, hc]) ih
    | cons t k =>
      simp only [gapEvs, reduceCtorEq, if_false] at ih ⊢
      rw [List.map_cons, ← List.singleton_append]
      exact Go.cons (e1 := [.chars [c]]) (by simp [rdStep, hlt, hamp]) ih

theorem tabs_space (n : Nat) : ∀ c ∈ tabs n, isXmlSpace c = true := by
  intro c hc
  rw [tabs, List.mem_replicate] at hc
  rw [hc.2]; decide

theorem tabs_isSpace (n : Nat) : ∀ c ∈ tabs n, isSpace c = true := by
  intro c hc
  rw [tabs, List.mem_replicate] at hc
  rw [hc.2]; decide

mutual
/-- No carriage return in a value. -/
def noCr : MNode → Prop
  | .text _ => True
  | .elem _ as ks => (∀ p ∈ as, '\r' ∉ p.2) ∧ noCrAll ks
/-- The same for a list. -/
def noCrAll : List MNode → Prop
  | [] => True
  | k :: ks => noCr k ∧ noCrAll ks
end

theorem flatten_singles (s : Str) : (s.map fun c => [c]).flatten = s := by
  induction s with
  | nil => rfl
  | cons c s ih => rw [List.map_cons, List.flatten_cons, ih]; rfl

mutual
theorem pretty_run (modern : Bool) : ∀ (x : MNode), Tidy (· ≠ []) x → (modern = false → noCr x) → ∀ (n : Nat) (k : List Str) (b : Bool),
    (k ≠ [] ∨ b = false) → ∃ s, Go ⟨.text, k, b⟩ (pretty modern n x) ⟨.text, k, true⟩ (gapEvs k (tabs n) ++ (s ++ gapEvs k ['\n'])) ∧
      Reads (fun v => v.map (spaced modern)) id x s
  | .text _, h, _, _, _, _, _ => by simp [Tidy] at h
  | .elem t as ks, h, hcr, n, k, b, hk => by
    simp only [Tidy] at h
    obtain ⟨ht, ha, hn, hks⟩ := h
    obtain ⟨st, h1, h2⟩ := go_startTag (esc := domText modern true) (f := fun v => v.map (spaced modern)) ht
      (fun p hp => ⟨ha p hp, domAttr_reads modern fun hm => ((hcr hm).1) p hp⟩) hn hk
    have h0 := go_gap k b (tabs_space n)
    have h9 := go_gap k true (s := ['\n']) (by decide)
    rcases hks with ⟨s, rfl, hs⟩ | hks
    · refine ⟨_, ?_, .elem (s := [] ++ ((s.map fun c => [c]).map .chars ++ [])) (.cons (by simp [Gap]) (.text (flatten_singles s)) (.nil (by simp [Gap])))⟩
      have e : pretty modern n (.elem t as [.text s]) = tabs n ++ (('<' :: (t ++ attrsText (domText modern true) as)) ++ (['>'] ++
          (domText modern false s ++ ((['<', '/'] ++ t ++ ['>']) ++ ['\n'])))) := by
        simp [pretty, onlyText]
      rw [e]
      have := h0.append (h1.append ((go_tagEnd h2).append ((domContent_reads modern s t k true).append ((go_endTag ht k true).append h9))))
      simpa [Function.comp_def] using this
    · cases ks with
      | nil =>
        refine ⟨_, ?_, .elem (s := []) (.nil (by simp [Gap]))⟩
        have e : pretty modern n (.elem t as []) = tabs n ++ (('<' :: (t ++ attrsText (domText modern true) as)) ++ (['/', '>'] ++ ['\n'])) := by
          simp [pretty]
        rw [e]
        have := h0.append (h1.append ((go_emptyEnd h2).append h9))
        simpa using this
      | cons x xs =>
        obtain ⟨s, h3, h4⟩ := prettys_run modern (x :: xs) hks (fun hm => (hcr hm).2) (n + 1) t k
        have h5 : ReadsAll (fun v => v.map (spaced modern)) id (x :: xs)
            (gapEvs (t :: k) ['\n'] ++ (s ++ gapEvs (t :: k) (tabs n))) :=
          readsAll_gap (gapEvs_gap _ (by decide)) (h4 _ (gapEvs_gap _ (tabs_isSpace n)))
        refine ⟨_, ?_, .elem h5⟩
        have e : pretty modern n (.elem t as (x :: xs)) = tabs n ++ (('<' :: (t ++ attrsText (domText modern true) as)) ++ (['>'] ++ (['\n'] ++
            (prettyAll modern (n + 1) (x :: xs) ++ (tabs n ++ ((['<', '/'] ++ t ++ ['>']) ++ ['\n'])))))) := by
          simp [pretty, onlyText_tidy hks]
        rw [e]
        have h6 := go_gap (t :: k) true (s := ['\n']) (by decide)
        have h7 := go_gap (t :: k) true (tabs_space n)
        have := h0.append (h1.append ((go_tagEnd h2).append (h6.append (h3.append (h7.append ((go_endTag ht k true).append h9))))))
        simpa using this
theorem prettys_run (modern : Bool) : ∀ (xs : List MNode), TidyAll (· ≠ []) xs → (modern = false → noCrAll xs) → ∀ (n : Nat) (t : Str) (k : List Str),
    ∃ s, Go ⟨.text, t :: k, true⟩ (prettyAll modern n xs) ⟨.text, t :: k, true⟩ s ∧
      ∀ g, Gap g → ReadsAll (fun v => v.map (spaced modern)) id xs (s ++ g)
  | [], _, _, n, t, k => ⟨[], by simpa [prettyAll] using Go.nil _, fun g hg => .nil hg⟩
  | x :: xs, h, hcr, n, t, k => by
    simp only [TidyAll] at h
    obtain ⟨s1, h1, h2⟩ := pretty_run modern x h.1 (fun hm => (hcr hm).1) n (t :: k) true (by simp)
    obtain ⟨s2, h3, h4⟩ := prettys_run modern xs h.2 (fun hm => (hcr hm).2) n t k
    refine ⟨_, h1.append h3, fun g hg => ?_⟩
    have := ReadsAll.cons (gapEvs_gap (t :: k) (tabs_isSpace n)) h2
      (readsAll_gap (gapEvs_gap (t :: k) (s := ['\n']) (by decide)) (h4 g hg))
    simpa using this
end

/-! ## Line ends of the indented text -/

theorem attrs_eol (modern : Bool) : ∀ {as : List (Str × Str)}, (∀ p ∈ as, GoodName p.1) → ∀ (c : Char), c ≠ '\n' → c ≠ '\r' → ∀ r : Str,
    normEol (attrsText (domText modern true) as ++ c :: r) =
      attrsText (domText modern true) (as.map fun p => (p.1, attrEol modern p.2)) ++ c :: normEol r
  | [], _, c, h1, h2, r => by simp [attrsText, normEol_cons h2]
  | (a, v) :: as, ha, c, h1, h2, r => by
    have hn := goodName_noCr (ha (a, v) (by simp))
    have e : attrsText (domText modern true) ((a, v) :: as) ++ c :: r = (' ' :: (a ++ ['=', '"'])) ++ (domText modern true v ++
        '"' :: (attrsText (domText modern true) as ++ c :: r)) := by simp [attrsText]
    rw [e, normEol_clean_append, normEol_append_cons (by decide), domAttr_eol, normEol_cons (by decide),
      attrs_eol modern (fun p hp => ha p (by simp [hp])) c h1 h2]
    · simp [attrsText]
    · simp only [List.mem_cons, List.mem_append, not_or]
      exact ⟨by decide, hn, by decide, by decide, by simp⟩

theorem onlyText_map (f g : Str → Str) (ks : List MNode) : onlyText (mapNodes f g ks) = (onlyText ks).map g := by
  match ks with
  | [] => rfl
  | [.text s] => rfl
  | [.elem t as xs] => rfl
  | .text _ :: _ :: _ => rfl
  | .elem _ _ _ :: _ :: _ => rfl

mutual
theorem pretty_eol (modern : Bool) : ∀ (x : MNode), Tidy (· ≠ []) x → ∀ (n : Nat) (r : Str),
    normEol (pretty modern n x ++ r) = pretty modern n (mapNode (attrEol modern) normEol x) ++ normEol r
  | .text _, h, _, _ => by simp [Tidy] at h
  | .elem t as ks, h, n, r => by
    simp only [Tidy] at h
    obtain ⟨ht, ha, -, hks⟩ := h
    have hpre : '\r' ∉ tabs n ++ '<' :: t := by
      simp only [List.mem_cons, List.mem_append, not_or]
      refine ⟨fun h => ?_, by decide, goodName_noCr ht⟩
      exact absurd (tabs_space n _ h) (by decide)
    have htab : '\r' ∉ tabs n := fun h => absurd (tabs_space n _ h) (by decide)
    have hend : '\r' ∉ (['/'] ++ t ++ ['>', '\n']) := by
      simp only [List.mem_append, not_or]
      exact ⟨⟨by decide, goodName_noCr ht⟩, by decide⟩
    rcases hks with ⟨s, rfl, hs⟩ | hks
    · have e : pretty modern n (.elem t as [.text s]) ++ r = (tabs n ++ '<' :: t) ++ (attrsText (domText modern true) as ++ '>' ::
          (domText modern false s ++ '<' :: ((['/'] ++ t ++ ['>', '\n']) ++ r))) := by
        simp [pretty, onlyText]
      rw [e, normEol_clean_append hpre, attrs_eol modern ha _ (by decide) (by decide), normEol_snoc_lt, domContent_eol, normEol_clean_append hend]
      simp [pretty, onlyText, mapNode, mapNodes]
    · cases ks with
      | nil =>
        have e : pretty modern n (.elem t as []) ++ r = (tabs n ++ '<' :: t) ++ (attrsText (domText modern true) as ++ '/' :: (['>', '\n'] ++ r)) := by
          simp [pretty]
        rw [e, normEol_clean_append hpre, attrs_eol modern ha _ (by decide) (by decide), normEol_clean_append (by decide)]
        simp [pretty, mapNode, mapNodes]
      | cons x xs =>
        have e : pretty modern n (.elem t as (x :: xs)) ++ r = (tabs n ++ '<' :: t) ++ (attrsText (domText modern true) as ++ '>' ::
            (['\n'] ++ (prettyAll modern (n + 1) (x :: xs) ++ (tabs n ++ (['<'] ++ ((['/'] ++ t ++ ['>', '\n']) ++ r)))))) := by
          simp [pretty, onlyText_tidy hks]
        have ho : onlyText (mapNodes (attrEol modern) normEol (x :: xs)) = none := by rw [onlyText_map, onlyText_tidy hks]; rfl
        rw [e, normEol_clean_append hpre, attrs_eol modern ha _ (by decide) (by decide), normEol_clean_append (a := ['\n']) (by decide),
          prettys_eol modern (x :: xs) hks, normEol_clean_append htab, normEol_clean_append (a := ['<']) (by decide), normEol_clean_append hend]
        rw [mapNodes] at ho
        simp [pretty, mapNode, mapNodes, ho]
theorem prettys_eol (modern : Bool) : ∀ (xs : List MNode), TidyAll (· ≠ []) xs → ∀ (n : Nat) (r : Str),
    normEol (prettyAll modern n xs ++ r) = prettyAll modern n (mapNodes (attrEol modern) normEol xs) ++ normEol r
  | [], _, n, r => by simp [prettyAll, mapNodes]
  | x :: xs, h, n, r => by
    simp only [TidyAll] at h
    simp only [prettyAll, mapNodes, List.append_assoc]
    rw [pretty_eol modern x h.1, prettys_eol modern xs h.2]
end

mutual
theorem map_tidy {f g : Str → Str} (hg : ∀ s, s ≠ [] → g s ≠ []) : ∀ (x : MNode), Tidy (· ≠ []) x → Tidy (· ≠ []) (mapNode f g x)
  | .text _, h => by simp [Tidy] at h
  | .elem t as ks, h => by
    simp only [Tidy, mapNode] at h ⊢
    obtain ⟨h1, h2, h3, h4⟩ := h
    refine ⟨h1, ?_, by simpa [Function.comp_def] using h3, ?_⟩
    · intro p hp
      obtain ⟨q, hq, rfl⟩ := List.mem_map.1 hp
      exact h2 q hq
    · rcases h4 with ⟨s, rfl, hs⟩ | h4
      · exact .inl ⟨g s, by simp [mapNodes, mapNode], hg s hs⟩
      · exact .inr (maps_tidy hg ks h4)
theorem maps_tidy {f g : Str → Str} (hg : ∀ s, s ≠ [] → g s ≠ []) : ∀ (xs : List MNode), TidyAll (· ≠ []) xs → TidyAll (· ≠ []) (mapNodes f g xs)
  | [], _ => trivial
  | x :: xs, h => ⟨map_tidy hg x h.1, maps_tidy hg xs h.2⟩
end

mutual
theorem map_noCr (g : Str → Str) : ∀ (x : MNode), noCr (mapNode normEol g x)
  | .text _ => trivial
  | .elem t as ks => by
    simp only [mapNode, noCr]
    refine ⟨?_, maps_noCr g ks⟩
    intro p hp
    obtain ⟨q, hq, rfl⟩ := List.mem_map.1 hp
    exact normEol_noCr _
theorem maps_noCr (g : Str → Str) : ∀ (xs : List MNode), noCrAll (mapNodes normEol g xs)
  | [] => trivial
  | x :: xs => ⟨map_noCr g x, maps_noCr g xs⟩
end

mutual
theorem pretty_legal (modern : Bool) : ∀ (x : MNode), Tidy (· ≠ []) x → LegalNode x → ∀ n, ∀ c ∈ pretty modern n x, isXmlChar c = true
  | .text _, h, _, _ => by simp [Tidy] at h
  | .elem t as ks, h, hl, n => by
    simp only [Tidy] at h
    simp only [LegalNode] at hl
    obtain ⟨ht, ha, -, hks⟩ := h
    have h1 := goodName_legal ht
    have h2 := (attrsText_legal (dom_legal modern true) ha).2 hl.1
    have h3 : ∀ c ∈ tabs n, isXmlChar c = true := by
      intro c hc
      rw [tabs, List.mem_replicate] at hc
      rw [hc.2]; decide
    simp only [pretty, List.forall_mem_append, List.forall_mem_cons]
    refine ⟨h3, by decide, ⟨h1, h2⟩, ?_⟩
    rcases hks with ⟨s, rfl, hs⟩ | hks
    · have h4 := (dom_legal modern false s).2 hl.2.1
      simp only [List.isEmpty_cons, onlyText, Bool.false_eq_true, if_false, List.forall_mem_cons, List.forall_mem_append]
      exact ⟨by decide, ⟨⟨h4, by decide, by decide, by simp⟩, h1⟩, by decide, by decide, by simp⟩
    · cases ks with
      | nil =>
        simp only [List.isEmpty_nil, if_true]
        decide
      | cons x xs =>
        have h4 := prettys_legal modern (x :: xs) hks hl.2 (n + 1)
        simp only [List.isEmpty_cons, Bool.false_eq_true, if_false, onlyText_tidy hks, List.forall_mem_append, List.forall_mem_cons]
        exact ⟨⟨⟨⟨⟨⟨by decide, by decide, by simp⟩, h4⟩, h3⟩, by decide, by decide, by simp⟩, h1⟩, by decide, by decide, by simp⟩
theorem prettys_legal (modern : Bool) : ∀ (xs : List MNode), TidyAll (· ≠ []) xs → LegalAll xs → ∀ n, ∀ c ∈ prettyAll modern n xs, isXmlChar c = true
  | [], _, _, n => by simp [prettyAll]
  | x :: xs, h, hl, n => by
    simp only [TidyAll] at h
    simp only [prettyAll, List.forall_mem_append]
    exact ⟨pretty_legal modern x h.1 hl.1 n, prettys_legal modern xs h.2 hl.2 n⟩
end

/-! ## The head of the file -/

/-- A comment without two hyphens in a row and without one at its end, all characters legal and no line breaks. -/
def commentOk : Str → Bool
  | [] => true
  | c :: cs => isXmlChar c && c != '\r' && (c != '-' || (match cs with | [] => false | d :: _ => d != '-')) && commentOk cs

theorem go_comment (b : Bool) : ∀ (s r : Str), commentOk s = true → ∀ {st : RdSt} {e : List MSax}, Go ⟨.comment, [], b⟩ r st e →
    Go ⟨.comment, [], b⟩ (s ++ r) st e ∧ ∀ d t, s = d :: t → d ≠ '-' → Go ⟨.comment1, [], b⟩ (s ++ r) st e
  | [], r, _, st, e, h => ⟨h, by simp⟩
  | c :: s, r, hs, st, e, h => by
    simp only [commentOk, Bool.and_eq_true, Bool.or_eq_true, bne_iff_ne, ne_eq] at hs
    obtain ⟨⟨⟨-, -⟩, hd⟩, hs⟩ := hs
    obtain ⟨i1, i2⟩ := go_comment b s r hs h
    constructor
    · by_cases hc : c = '-'
      · subst hc
        cases s with
        | nil => simp at hd
        | cons d s =>
          simp only [not_true_eq_false, false_or] at hd
          exact Go.cons0 (s1 := ⟨.comment1, [], b⟩) (by simp [rdStep]) (i2 d s rfl (by simpa using hd))
      · exact Go.cons0 (s1 := ⟨.comment, [], b⟩) (by simp [rdStep, hc]) i1
    · intro d t hdt hne
      simp only [List.cons.injEq] at hdt
      obtain ⟨rfl, rfl⟩ := hdt
      exact Go.cons0 (s1 := ⟨.comment, [], b⟩) (by simp [rdStep, hne]) i1

theorem go_comments : ∀ (cs : List Str), (∀ c ∈ cs, commentOk c = true) → Go ⟨.text, [], false⟩ (commentsText cs) ⟨.text, [], false⟩ []
  | [], _ => Go.nil _
  | c :: cs, h => by
    have ih := go_comments cs fun d hd => h d (by simp [hd])
    have e : commentsText (c :: cs) = '<' :: '!' :: '-' :: '-' :: (c ++ ('-' :: '-' :: '>' :: '\n' :: commentsText cs)) := by
      simp [commentsText]
    rw [e]
    refine Go.cons0 (s1 := ⟨.lt, [], false⟩) (by simp [rdStep]) ?_
    refine Go.cons0 (s1 := ⟨.bang, [], false⟩) (by simp [rdStep]) ?_
    refine Go.cons0 (s1 := ⟨.bang1, [], false⟩) (by simp [rdStep]) ?_
    refine Go.cons0 (s1 := ⟨.comment, [], false⟩) (by simp [rdStep]) ?_
    refine (go_comment false c _ (h c (by simp)) ?_).1
    refine Go.cons0 (s1 := ⟨.comment1, [], false⟩) (by simp [rdStep]) ?_
    refine Go.cons0 (s1 := ⟨.comment2, [], false⟩) (by simp [rdStep]) ?_
    refine Go.cons0 (s1 := ⟨.text, [], false⟩) (by simp [rdStep]) ?_
    refine Go.cons0 (s1 := ⟨.text, [], false⟩) (by simp [rdStep, show isXmlSpace '\n' = true by decide]) ?_
    exact ih

/-- The declaration. -/
def xmlHead : Str := py!"<?xml version=\"1.0\" ?>\n"

theorem head_declOk (r : Str) : declOk (xmlHead ++ r) = true := by
  rfl

theorem go_head : Go ⟨.text, [], false⟩ xmlHead ⟨.text, [], false⟩ [] := by
  unfold Go
  rfl

theorem commentOk_mem {s : Str} (h : commentOk s = true) : ∀ c ∈ s, isXmlChar c = true ∧ c ≠ '\r' := by
  induction s with
  | nil => simp
  | cons c s ih =>
    simp only [commentOk, Bool.and_eq_true, bne_iff_ne, ne_eq] at h
    intro d hd
    rcases List.mem_cons.1 hd with rfl | hd
    · exact h.1.1
    · exact ih h.2 d hd

theorem comments_mem : ∀ {cs : List Str}, (∀ c ∈ cs, commentOk c = true) → ∀ c ∈ commentsText cs, isXmlChar c = true ∧ c ≠ '\r'
  | [], _ => by simp [commentsText]
  | a :: cs, h => by
    have ih := comments_mem (cs := cs) fun d hd => h d (by simp [hd])
    have ha := commentOk_mem (h a (by simp))
    simp only [commentsText, List.forall_mem_append]
    exact ⟨⟨⟨by decide, ha⟩, by decide⟩, ih⟩

theorem spaced_attrEol (modern : Bool) : (fun v => v.map (spaced modern)) ∘ attrEol modern = valueBack modern := by
  funext v
  cases modern with
  | true =>
    have : spaced true = id := by funext c; simp [spaced]
    simp [valueBack, attrEol, this]
  | false => simp [valueBack, attrEol, spaced]

/-- Reading the indented text of a document object. -/
theorem read_pretty (modern : Bool) {cs : List Str} (hcs : ∀ c ∈ cs, commentOk c = true) {x : MNode} (h : Tidy (· ≠ []) x) (hl : LegalNode x) :
    ∃ s, readXml (prettyDoc modern cs x) = .ok s ∧ Reads (valueBack modern) normEol x s := by
  have h1 : (prettyDoc modern cs x).all isXmlChar = true := by
    rw [List.all_eq_true]
    simp only [prettyDoc, List.forall_mem_append]
    exact ⟨⟨by decide, fun c hc => (comments_mem hcs c hc).1⟩, pretty_legal modern x h hl 0⟩
  have h2 : normEol (prettyDoc modern cs x) = xmlHead ++ (commentsText cs ++ pretty modern 0 (mapNode (attrEol modern) normEol x)) := by
    have := pretty_eol modern x h 0 []
    rw [List.append_nil, show normEol ([] : Str) = [] from rfl, List.append_nil] at this
    rw [prettyDoc, List.append_assoc, normEol_clean_append (by decide), normEol_clean_append (fun hm => (comments_mem hcs _ hm).2 rfl), this]
    rfl
  have h3 := map_tidy (f := attrEol modern) (g := normEol) (fun s => normEol_ne_nil) x h
  obtain ⟨s, h4, h5⟩ := pretty_run modern (mapNode (attrEol modern) normEol x) h3 (by
    rintro rfl
    have : attrEol false = normEol := by funext v; simp [attrEol]
    rw [this]
    exact map_noCr normEol x) 0 [] false (.inr rfl)
  have h6 := go_head.append0 ((go_comments cs hcs).append0 h4)
  simp only [gapEvs, if_true, List.nil_append, List.append_nil] at h6
  refine ⟨s, ?_, ?_⟩
  · unfold Go at h6
    simp only [readXml, h1, if_true, h2, head_declOk, h6, bind, Except.bind, and_self]
  · have := reads_map h5
    rw [spaced_attrEol] at this
    exact this

/-- Saving a tree and reading the text. -/
theorem saveTree_spec (modern : Bool) {cs : List Str} (hcs : ∀ c ∈ cs, commentOk c = true) {x : MNode} (h : Tidy (fun _ => True) x) :
    (LegalNode x → ∃ text s, saveTree modern cs x = .ok text ∧ readXml text = .ok s ∧ Reads (valueBack modern) normEol x s) ∧
    (¬ LegalNode x → saveTree modern cs x = .error .other) := by
  obtain ⟨h1, h2⟩ := parseDom_et h
  constructor
  · intro hl
    obtain ⟨s, h3, h4⟩ := read_pretty modern hcs (dom_tidy x h) (dom_legalNode x hl)
    refine ⟨_, s, ?_, h3, reads_dom normEol_idem rfl h4⟩
    simp [saveTree, h1 hl, bind, Except.bind]
  · intro hl
    simp [saveTree, h2 hl, bind, Except.bind]

end Opy
