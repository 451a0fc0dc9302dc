import Verif.Model.XmlText
import Verif.Lemmas.Dict
import Verif.Lemmas.Str
/-
Lemmas on the XML text layer: escapes, the reader as a composition of pieces.
-/
namespace Opy

/-! ## Escapes character by character -/

theorem replaceAll_flatMap (c : Char) (new s : Str) :
    replaceAll [c] new s = s.flatMap fun x => if x = c then new else [x] := by
  unfold replaceAll
  induction s with
  | nil => rfl
  | cons x s ih =>
    rw [List.flatMap_cons]
    by_cases h : x = c
    · subst h
      simp [replaceGo, List.isPrefixOf, ih]
    · have hb : (c == x) = false := by simpa using fun e => h e.symm
      simp [replaceGo, List.isPrefixOf, hb, h, ih]

/-- What `_escape_attrib` makes of a character. -/
def etAttrChar (c : Char) : Str :=
  if c = '&' then py!"&amp;" else if c = '<' then py!"&lt;" else if c = '>' then py!"&gt;"
  else if c = '"' then py!"&quot;" else if c = '\r' then py!"&#13;" else if c = '\n' then py!"&#10;"
  else if c = '\t' then py!"&#09;" else [c]

/-- What `_escape_cdata` makes of a character. -/
def etContentChar (c : Char) : Str :=
  if c = '&' then py!"&amp;" else if c = '<' then py!"&lt;" else if c = '>' then py!"&gt;" else [c]

/-- What `_write_data` makes of a character. -/
def domChar (modern attr : Bool) (c : Char) : Str :=
  if c = '&' then py!"&amp;" else if c = '<' then py!"&lt;" else if c = '>' then py!"&gt;"
  else if c = '"' ∧ (modern = false ∨ attr = true) then py!"&quot;"
  else if modern = true ∧ attr = true then
    if c = '\r' then py!"&#13;" else if c = '\n' then py!"&#10;" else if c = '\t' then py!"&#9;" else [c]
  else [c]

theorem flatMap_flatMap' (s : Str) (f g : Char → Str) : (s.flatMap f).flatMap g = s.flatMap fun c => (f c).flatMap g :=
  List.flatMap_assoc ..

theorem etAttrText_eq (s : Str) : etAttrText s = s.flatMap etAttrChar := by
  simp only [etAttrText, replaceAll_flatMap, flatMap_flatMap']
  congr 1
  funext c
  unfold etAttrChar
  by_cases h1 : c = '&'
  · subst h1; rfl
  by_cases h2 : c = '<'
  · subst h2; rfl
  by_cases h3 : c = '>'
  · subst h3; rfl
  by_cases h4 : c = '"'
  · subst h4; rfl
  by_cases h5 : c = '\r'
  · subst h5; rfl
  by_cases h6 : c = '\n'
  · subst h6; rfl
  by_cases h7 : c = '\t'
  · subst h7; rfl
  simp [h1, h2, h3, h4, h5, h6, h7]

theorem etContentText_eq (s : Str) : etContentText s = s.flatMap etContentChar := by
  simp only [etContentText, replaceAll_flatMap, flatMap_flatMap']
  congr 1
  funext c
  unfold etContentChar
  by_cases h1 : c = '&'
  · subst h1; rfl
  by_cases h2 : c = '<'
  · subst h2; rfl
  by_cases h3 : c = '>'
  · subst h3; rfl
  simp [h1, h2, h3]

theorem domText_eq (modern attr : Bool) (s : Str) : domText modern attr s = s.flatMap (domChar modern attr) := by
  cases modern <;> cases attr <;>
  · simp only [domText, replaceAll_flatMap, flatMap_flatMap', if_true, Bool.false_eq_true, if_false]
    congr 1
    funext c
    unfold domChar
    by_cases h1 : c = '&'
    · subst h1; rfl
    by_cases h2 : c = '<'
    · subst h2; rfl
    by_cases h3 : c = '>'
    · subst h3; rfl
    by_cases h4 : c = '"'
    · subst h4; rfl
    by_cases h5 : c = '\r'
    · subst h5; rfl
    by_cases h6 : c = '\n'
    · subst h6; rfl
    by_cases h7 : c = '\t'
    · subst h7; rfl
    simp [h1, h2, h3, h4, h5, h6, h7]

/-! ## The reader on pieces of text -/

/-- From one position to another with the given events. -/
def Go (s : RdSt) (cs : Str) (s' : RdSt) (e : List MSax) : Prop := rdRun s cs = .ok (s', e)

theorem Go.nil (s : RdSt) : Go s [] s [] := rfl

theorem Go.cons {s s1 s2 : RdSt} {c : Char} {cs : Str} {e1 e2 : List MSax} (h : rdStep s c = .ok (s1, e1))
    (h2 : Go s1 cs s2 e2) : Go s (c :: cs) s2 (e1 ++ e2) := by
  unfold Go at h2 ⊢
  simp only [rdRun, h, bind, Except.bind, h2]

theorem Go.cons0 {s s1 s2 : RdSt} {c : Char} {cs : Str} {e2 : List MSax} (h : rdStep s c = .ok (s1, []))
    (h2 : Go s1 cs s2 e2) : Go s (c :: cs) s2 e2 := Go.cons h h2

theorem Go.append {s s1 s2 : RdSt} {a b : Str} {e1 e2 : List MSax} (h1 : Go s a s1 e1) (h2 : Go s1 b s2 e2) :
    Go s (a ++ b) s2 (e1 ++ e2) := by
  induction a generalizing s e1 with
  | nil =>
    simp only [Go, rdRun, Except.ok.injEq, Prod.mk.injEq] at h1
    obtain ⟨rfl, rfl⟩ := h1
    exact h2
  | cons c a ih =>
    simp only [Go, rdRun, bind, Except.bind] at h1
    cases hc : rdStep s c with
    | error x => rw [hc] at h1; simp at h1
    | ok p =>
      obtain ⟨s', e'⟩ := p
      rw [hc] at h1
      simp only at h1
      cases hr : rdRun s' a with
      | error x => rw [hr] at h1; simp at h1
      | ok q =>
        obtain ⟨s'', e''⟩ := q
        rw [hr] at h1
        simp only [Except.ok.injEq, Prod.mk.injEq] at h1
        obtain ⟨rfl, rfl⟩ := h1
        rw [List.cons_append, List.append_assoc]
        exact Go.cons hc (ih hr)

theorem Go.append0 {s s1 s2 : RdSt} {a b : Str} {e2 : List MSax} (h1 : Go s a s1 []) (h2 : Go s1 b s2 e2) :
    Go s (a ++ b) s2 e2 := by simpa using h1.append h2

theorem Go.append1 {s s1 s2 : RdSt} {a b : Str} {e1 : List MSax} (h1 : Go s a s1 e1) (h2 : Go s1 b s2 []) :
    Go s (a ++ b) s2 e1 := by simpa using h1.append h2

/-! ### Names -/

/-- A name of an element or attribute. -/
def GoodName : Str → Prop
  | [] => False
  | c :: cs => isNameStart c = true ∧ ∀ d ∈ cs, isNameChar d = true

theorem nameStart_char {c : Char} (h : isNameStart c = true) : isNameChar c = true := by simp [isNameChar, h]

theorem GoodName.chars {n : Str} (h : GoodName n) : ∀ c ∈ n, isNameChar c = true := by
  cases n with
  | nil => simp
  | cons c cs =>
    intro d hd
    rcases List.mem_cons.1 hd with rfl | hd
    · exact nameStart_char h.1
    · exact h.2 d hd

theorem go_name (k : List Str) (b : Bool) : ∀ (cs n : Str), (∀ c ∈ cs, isNameChar c = true) →
    Go ⟨.name n, k, b⟩ cs ⟨.name (n ++ cs), k, b⟩ []
  | [], n, _ => by simpa using Go.nil _
  | c :: cs, n, h => by
    refine Go.cons0 (s1 := ⟨.name (n ++ [c]), k, b⟩) (by simp [rdStep, h c (by simp)]) ?_
    have := go_name k b cs (n ++ [c]) fun d hd => h d (by simp [hd])
    simpa using this

theorem go_aname (k : List Str) (b : Bool) (n : Str) (as : List (Str × Str)) : ∀ (cs a : Str), (∀ c ∈ cs, isNameChar c = true) →
    Go ⟨.aname n as a, k, b⟩ cs ⟨.aname n as (a ++ cs), k, b⟩ []
  | [], a, _ => by simpa using Go.nil _
  | c :: cs, a, h => by
    refine Go.cons0 (s1 := ⟨.aname n as (a ++ [c]), k, b⟩) (by simp [rdStep, h c (by simp)]) ?_
    have := go_aname k b n as cs (a ++ [c]) fun d hd => h d (by simp [hd])
    simpa using this

theorem go_stop (k : List Str) (b : Bool) : ∀ (cs n : Str), (∀ c ∈ cs, isNameChar c = true) →
    Go ⟨.stop n, k, b⟩ cs ⟨.stop (n ++ cs), k, b⟩ []
  | [], n, _ => by simpa using Go.nil _
  | c :: cs, n, h => by
    refine Go.cons0 (s1 := ⟨.stop (n ++ [c]), k, b⟩) (by simp [rdStep, h c (by simp)]) ?_
    have := go_stop k b cs (n ++ [c]) fun d hd => h d (by simp [hd])
    simpa using this

theorem nameStart_ne {c : Char} (h : isNameStart c = true) : c ≠ '/' ∧ c ≠ '!' ∧ c ≠ '?' ∧ c ≠ '>' ∧ isXmlSpace c = false := by
  refine ⟨?_, ?_, ?_, ?_, ?_⟩
  · rintro rfl; revert h; decide
  · rintro rfl; revert h; decide
  · rintro rfl; revert h; decide
  · rintro rfl; revert h; decide
  · unfold isXmlSpace
    simp only [Bool.or_eq_false_iff, decide_eq_false_iff_not]
    refine ⟨⟨?_, ?_⟩, ?_⟩ <;> (rintro rfl; revert h; decide)

/-- The end tag of the innermost element. -/
theorem go_endTag {t : Str} (ht : GoodName t) (k : List Str) (b : Bool) :
    Go ⟨.text, t :: k, b⟩ (['<', '/'] ++ t ++ ['>']) ⟨.text, k, true⟩ [.stop t] := by
  show Go _ ('<' :: '/' :: (t ++ ['>'])) _ _
  refine Go.cons0 (s1 := ⟨.lt, t :: k, b⟩) (by simp [rdStep]) ?_
  refine Go.cons0 (s1 := ⟨.stop [], t :: k, b⟩) (by simp [rdStep]) ?_
  refine Go.append0 (go_stop (t :: k) b t [] ht.chars) ?_
  refine Go.cons (e1 := [.stop t]) (e2 := []) ?_ (Go.nil _)
  simp [rdStep, stopChar, show isNameChar '>' = false by decide, show isXmlSpace '>' = false by decide]

/-! ### Attributes -/

/-- The reader is inside a start tag, directly behind its name or an attribute. -/
def InTag (st : RdSt) (n : Str) (as : List (Str × Str)) (k : List Str) (b : Bool) : Prop :=
  ∀ c, isNameChar c = false → rdStep st c = tagChar ⟨.text, k, b⟩ n as false c

theorem inTag_name (n : Str) (k : List Str) (b : Bool) : InTag ⟨.name n, k, b⟩ n [] k b := by
  intro c hc
  simp [rdStep, hc, tagChar]

theorem inTag_inTag (n : Str) (as : List (Str × Str)) (k : List Str) (b : Bool) : InTag ⟨.inTag n as false, k, b⟩ n as k b := by
  intro c _
  simp [rdStep, tagChar]

/-- The escaped value is read as `f v`. -/
def ValueReads (esc f : Str → Str) (v : Str) : Prop :=
  ∀ (n : Str) (as : List (Str × Str)) (a acc : Str) (k : List Str) (b : Bool),
    Go ⟨.aval n as a '"' acc, k, b⟩ (esc v) ⟨.aval n as a '"' (acc ++ f v), k, b⟩ []

theorem go_attrs {esc f : Str → Str} (n : Str) (k : List Str) (b : Bool) : ∀ (new : List (Str × Str)) (as : List (Str × Str)) (st : RdSt),
    InTag st n as k b → (∀ p ∈ new, GoodName p.1 ∧ ValueReads esc f p.2) → (as.map Prod.fst ++ new.map Prod.fst).Nodup →
    ∃ st', Go st (attrsText esc new) st' [] ∧ InTag st' n (as ++ new.map fun p => (p.1, f p.2)) k b
  | [], as, st, h, _, _ => ⟨st, Go.nil _, by simpa using h⟩
  | (a, v) :: new, as, st, h, hg, hn => by
    obtain ⟨hname, hval⟩ := hg (a, v) (by simp)
    have hnot : a ∉ dkeys as := by
      intro hm
      rw [List.nodup_append] at hn
      exact hn.2.2 a hm a (by simp) rfl
    obtain ⟨st', h1, h2⟩ := go_attrs (esc := esc) (f := f) n k b new (as ++ [(a, f v)]) ⟨.inTag n (as ++ [(a, f v)]) false, k, b⟩
      (inTag_inTag n _ k b) (fun p hp => hg p (by simp [hp])) (by simpa using hn)
    refine ⟨st', ?_, by simpa using h2⟩
    simp only [attrsText]
    refine Go.cons0 (s1 := ⟨.inTag n as true, k, b⟩) ?_ ?_
    · rw [h ' ' (by decide)]; simp [tagChar, show isXmlSpace ' ' = true by decide]
    obtain ⟨c, cs, rfl⟩ : ∃ c cs, a = c :: cs := by
      cases a with
      | nil => exact absurd hname (by simp [GoodName])
      | cons c cs => exact ⟨c, cs, rfl⟩
    obtain ⟨n1, n2, n3, n4, n5⟩ := nameStart_ne hname.1
    simp only [List.append_assoc, List.cons_append, List.nil_append]
    refine Go.cons0 (s1 := ⟨.aname n as [c], k, b⟩) ?_ ?_
    · simp [rdStep, tagChar, n1, n4, n5, hname.1]
    refine Go.append0 (go_aname k b n as cs [c] hname.2) ?_
    refine Go.cons0 (s1 := ⟨.aquote n as (c :: cs), k, b⟩) ?_ ?_
    · simp [rdStep, show isNameChar '=' = false by decide]
    refine Go.cons0 (s1 := ⟨.aval n as (c :: cs) '"' [], k, b⟩) (by simp [rdStep]) ?_
    refine Go.append0 (hval n as (c :: cs) [] k b) ?_
    refine Go.cons0 (s1 := ⟨.inTag n (as ++ [(c :: cs, f v)]) false, k, b⟩) ?_ h1
    simp [rdStep, hnot]

/-- A value that is escaped and read character by character. -/
theorem valueReads_chars {e : Char → Str} {g : Char → Char} {v : Str}
    (h : ∀ c ∈ v, ∀ (n : Str) (as : List (Str × Str)) (a acc : Str) (k : List Str) (b : Bool),
      Go ⟨.aval n as a '"' acc, k, b⟩ (e c) ⟨.aval n as a '"' (acc ++ [g c]), k, b⟩ []) :
    ValueReads (fun s => s.flatMap e) (fun s => s.map g) v := by
  intro n as a acc k b
  induction v generalizing acc with
  | nil => simpa using Go.nil _
  | cons c v ih =>
    simp only [List.flatMap_cons]
    refine Go.append0 (h c (by simp) n as a acc k b) ?_
    have := ih (fun c hc => h c (by simp [hc])) (acc ++ [g c])
    simpa using this

/-- A reference in a value. -/
theorem go_aref {r : Str} {d : Char} (hr : ∀ c ∈ r, c ≠ ';') (hd : resolveRef r = some d) (n : Str) (as : List (Str × Str)) (a acc : Str)
    (k : List Str) (b : Bool) :
    Go ⟨.aval n as a '"' acc, k, b⟩ ('&' :: (r ++ [';'])) ⟨.aval n as a '"' (acc ++ [d]), k, b⟩ [] := by
  refine Go.cons0 (s1 := ⟨.aref n as a '"' acc [], k, b⟩) (by simp [rdStep]) ?_
  have : ∀ (r r0 : Str), (∀ c ∈ r, c ≠ ';') → Go ⟨.aref n as a '"' acc r0, k, b⟩ r ⟨.aref n as a '"' acc (r0 ++ r), k, b⟩ [] := by
    intro r
    induction r with
    | nil => intro r0 _; simpa using Go.nil _
    | cons c r ih =>
      intro r0 h
      refine Go.cons0 (s1 := ⟨.aref n as a '"' acc (r0 ++ [c]), k, b⟩) (by simp [rdStep, h c (by simp)]) ?_
      have := ih (r0 ++ [c]) fun c hc => h c (by simp [hc])
      simpa using this
  refine Go.append0 (this r [] hr) ?_
  refine Go.cons0 ?_ (Go.nil _)
  simp [rdStep, hd]

/-- A reference in the content. -/
theorem go_ref {r : Str} {d : Char} (hr : ∀ c ∈ r, c ≠ ';') (hd : resolveRef r = some d) (t : Str) (k : List Str) (b : Bool) :
    Go ⟨.text, t :: k, b⟩ ('&' :: (r ++ [';'])) ⟨.text, t :: k, b⟩ [.chars [d]] := by
  refine Go.cons0 (s1 := ⟨.ref [], t :: k, b⟩) (by simp [rdStep]) ?_
  have : ∀ (r r0 : Str), (∀ c ∈ r, c ≠ ';') → Go ⟨.ref r0, t :: k, b⟩ r ⟨.ref (r0 ++ r), t :: k, b⟩ [] := by
    intro r
    induction r with
    | nil => intro r0 _; simpa using Go.nil _
    | cons c r ih =>
      intro r0 h
      refine Go.cons0 (s1 := ⟨.ref (r0 ++ [c]), t :: k, b⟩) (by simp [rdStep, h c (by simp)]) ?_
      have := ih (r0 ++ [c]) fun c hc => h c (by simp [hc])
      simpa using this
  refine Go.append0 (this r [] hr) ?_
  refine Go.cons (e2 := []) (e1 := [.chars [d]]) ?_ (Go.nil _)
  simp [rdStep, hd]

/-- A plain character of a value. -/
theorem go_vchar {c : Char} (h1 : c ≠ '"') (h2 : c ≠ '<') (h3 : c ≠ '&') (n : Str) (as : List (Str × Str)) (a acc : Str) (k : List Str) (b : Bool) :
    Go ⟨.aval n as a '"' acc, k, b⟩ [c] ⟨.aval n as a '"' (acc ++ [if isXmlSpace c then ' ' else c]), k, b⟩ [] :=
  Go.cons0 (by simp [rdStep, h1, h2, h3]) (Go.nil _)

/-- A plain character of the content. -/
theorem go_tchar {c : Char} (h2 : c ≠ '<') (h3 : c ≠ '&') (t : Str) (k : List Str) (b : Bool) :
    Go ⟨.text, t :: k, b⟩ [c] ⟨.text, t :: k, b⟩ [.chars [c]] :=
  Go.cons (e1 := [.chars [c]]) (e2 := []) (by simp [rdStep, h2, h3]) (Go.nil _)

/-- The text of an element, read character by character. -/
theorem go_content {e : Char → Str} {s : Str} {t : Str} {k : List Str} {b : Bool}
    (h : ∀ c ∈ s, Go ⟨.text, t :: k, b⟩ (e c) ⟨.text, t :: k, b⟩ [.chars [c]]) :
    Go ⟨.text, t :: k, b⟩ (s.flatMap e) ⟨.text, t :: k, b⟩ (s.map fun c => .chars [c]) := by
  induction s with
  | nil => exact Go.nil _
  | cons c s ih =>
    rw [List.flatMap_cons, List.map_cons, ← List.singleton_append]
    exact (h c (by simp)).append (ih fun c hc => h c (by simp [hc]))

theorem etAttr_reads (v : Str) : ValueReads etAttrText id v := by
  have h : ValueReads (fun s => s.flatMap etAttrChar) (fun s => s.map id) v := by
    refine valueReads_chars fun c _ n as a acc k b => ?_
    unfold etAttrChar
    by_cases h1 : c = '&'
    · subst h1; exact go_aref (r := py!"amp") (by decide) rfl n as a acc k b
    by_cases h2 : c = '<'
    · subst h2; exact go_aref (r := py!"lt") (by decide) rfl n as a acc k b
    by_cases h3 : c = '>'
    · subst h3; exact go_aref (r := py!"gt") (by decide) rfl n as a acc k b
    by_cases h4 : c = '"'
    · subst h4; exact go_aref (r := py!"quot") (by decide) rfl n as a acc k b
    by_cases h5 : c = '\r'
    · subst h5; exact go_aref (r := py!"#13") (by decide) (by decide) n as a acc k b
    by_cases h6 : c = '\n'
    · subst h6; exact go_aref (r := py!"#10") (by decide) (by decide) n as a acc k b
    by_cases h7 : c = '\t'
    · subst h7; exact go_aref (r := py!"#09") (by decide) (by decide) n as a acc k b
    have h8 : isXmlSpace c = true → ' ' = c := by simp [isXmlSpace, h6, h7]; exact fun h => h.symm
    have := go_vchar h4 h2 h1 n as a acc k b
    simp only [h1, h2, h3, h4, h5, h6, h7, if_false, id]
    by_cases h9 : isXmlSpace c = true
    · rw [if_pos h9, h8 h9] at this; exact this
    · rw [if_neg h9] at this; exact this
  intro n as a acc k b
  have := h n as a acc k b
  simpa [etAttrText_eq] using this

theorem etContent_reads (s t : Str) (k : List Str) (b : Bool) :
    Go ⟨.text, t :: k, b⟩ (etContentText s) ⟨.text, t :: k, b⟩ (s.map fun c => .chars [c]) := by
  rw [etContentText_eq]
  refine go_content fun c _ => ?_
  unfold etContentChar
  by_cases h1 : c = '&'
  · subst h1; exact go_ref (r := py!"amp") (by decide) rfl t k b
  by_cases h2 : c = '<'
  · subst h2; exact go_ref (r := py!"lt") (by decide) rfl t k b
  by_cases h3 : c = '>'
  · subst h3; exact go_ref (r := py!"gt") (by decide) rfl t k b
  simp only [h1, h2, h3, if_false]
  exact go_tchar h2 h1 t k b

/-- What reading makes of a character in the value of an attribute that was written by minidom. -/
def spaced (modern : Bool) (c : Char) : Char := if modern = false ∧ (c = '\t' ∨ c = '\n') then ' ' else c

theorem domAttr_reads (modern : Bool) {v : Str} (hv : modern = false → '\r' ∉ v) :
    ValueReads (domText modern true) (fun s => s.map (spaced modern)) v := by
  have h : ValueReads (fun s => s.flatMap (domChar modern true)) (fun s => s.map (spaced modern)) v := by
    refine valueReads_chars fun c hc n as a acc k b => ?_
    unfold domChar
    by_cases h1 : c = '&'
    · subst h1; simpa [spaced] using go_aref (r := py!"amp") (by decide) rfl n as a acc k b
    by_cases h2 : c = '<'
    · subst h2; simpa [spaced] using go_aref (r := py!"lt") (by decide) rfl n as a acc k b
    by_cases h3 : c = '>'
    · subst h3; simpa [spaced] using go_aref (r := py!"gt") (by decide) rfl n as a acc k b
    by_cases h4 : c = '"'
    · subst h4; simpa [spaced] using go_aref (r := py!"quot") (by decide) rfl n as a acc k b
    have hplain := go_vchar h4 h2 h1 n as a acc k b
    cases modern with
    | true =>
      by_cases h5 : c = '\r'
      · subst h5; simpa [spaced] using go_aref (r := py!"#13") (by decide) (by decide) n as a acc k b
      by_cases h6 : c = '\n'
      · subst h6; simpa [spaced] using go_aref (r := py!"#10") (by decide) (by decide) n as a acc k b
      by_cases h7 : c = '\t'
      · subst h7; simpa [spaced] using go_aref (r := py!"#9") (by decide) (by decide) n as a acc k b
      have h8 : (if isXmlSpace c = true then ' ' else c) = c := by
        simp [isXmlSpace, h6, h7]; exact fun h => h.symm
      rw [h8] at hplain
      simpa [h1, h2, h3, h4, h5, h6, h7, spaced] using hplain
    | false =>
      have h8 : (if isXmlSpace c = true then ' ' else c) = spaced false c := by
        unfold isXmlSpace spaced
        by_cases h7 : c = '\t'
        · simp [h7]
        by_cases h6 : c = '\n'
        · simp [h6]
        by_cases h9 : c = ' '
        · simp [h9]
        simp [h6, h7, h9]
      rw [h8] at hplain
      simpa [h1, h2, h3, h4] using hplain
  intro n as a acc k b
  have := h n as a acc k b
  simpa [domText_eq] using this

theorem domContent_reads (modern : Bool) (s t : Str) (k : List Str) (b : Bool) :
    Go ⟨.text, t :: k, b⟩ (domText modern false s) ⟨.text, t :: k, b⟩ (s.map fun c => .chars [c]) := by
  rw [domText_eq]
  refine go_content fun c _ => ?_
  unfold domChar
  by_cases h1 : c = '&'
  · subst h1; exact go_ref (r := py!"amp") (by decide) rfl t k b
  by_cases h2 : c = '<'
  · subst h2; exact go_ref (r := py!"lt") (by decide) rfl t k b
  by_cases h3 : c = '>'
  · subst h3; exact go_ref (r := py!"gt") (by decide) rfl t k b
  by_cases h4 : c = '"'
  · subst h4
    cases modern
    · exact go_ref (r := py!"quot") (by decide) rfl t k b
    · exact go_tchar (by decide) (by decide) t k b
  have := go_tchar h2 h1 t k b
  simpa [h1, h2, h3, h4] using this

/-! ## Line ends -/

theorem normEol_cons {c : Char} (h : c ≠ '\r') (s : Str) : normEol (c :: s) = c :: normEol s := by
  cases s with
  | nil => unfold normEol; split <;> simp_all [normEol]
  | cons d s => rw [normEol]; all_goals simp_all

theorem normEol_clean_append {a : Str} (h : '\r' ∉ a) (b : Str) : normEol (a ++ b) = a ++ normEol b := by
  induction a with
  | nil => rfl
  | cons c a ih =>
    simp only [List.mem_cons, not_or] at h
    rw [List.cons_append, normEol_cons (fun e => h.1 e.symm), ih h.2, List.cons_append]

theorem normEol_clean {a : Str} (h : '\r' ∉ a) : normEol a = a := by
  have := normEol_clean_append h []
  simpa [normEol] using this

theorem normEol_noCr : ∀ s : Str, '\r' ∉ normEol s
  | [] => by simp [normEol]
  | c :: s => by
    unfold normEol
    split
    · simp
    · rename_i h; have := normEol_noCr ‹_›; simp_all
    · rename_i h; have := normEol_noCr ‹_›; simp_all
    · rename_i h _; have := normEol_noCr ‹_›; simp_all; rintro rfl; simp_all
termination_by s => s.length
decreasing_by all_goals (simp_all; try omega)

theorem normEol_idem (s : Str) : normEol (normEol s) = normEol s := normEol_clean (normEol_noCr s)

/-- A text up to a character that is not a line feed. -/
theorem normEol_append_cons {d : Char} (h : d ≠ '\n') (b : Str) : ∀ a : Str, normEol (a ++ d :: b) = normEol a ++ normEol (d :: b)
  | [] => rfl
  | c :: a => by
    by_cases hc : c = '\r'
    · subst hc
      cases a with
      | nil =>
        show normEol ('\r' :: d :: b) = '\n' :: normEol (d :: b)
        rw [normEol]
        · intro s hs; simp only [List.cons.injEq] at hs; exact h hs.1
      | cons e a =>
        by_cases he : e = '\n'
        · subst he
          show '\n' :: normEol (a ++ d :: b) = '\n' :: normEol a ++ normEol (d :: b)
          rw [normEol_append_cons h b a]; rfl
        · have h1 : ∀ s : Str, normEol ('\r' :: e :: s) = '\n' :: normEol (e :: s) := by
            intro s; rw [normEol]; intro t ht; simp only [List.cons.injEq] at ht; exact he ht.1
          have := normEol_append_cons h b (e :: a)
          simp only [List.cons_append] at this ⊢
          rw [h1, h1, this]; rfl
    · rw [List.cons_append, normEol_cons hc, normEol_cons hc, normEol_append_cons h b a]; rfl

theorem normEol_ne_nil {s : Str} (h : s ≠ []) : normEol s ≠ [] := by
  intro e
  cases s with
  | nil => exact h rfl
  | cons c s => unfold normEol at e; split at e <;> simp_all

/-- Escapes that keep line ends and do not make new ones commute with normalising. -/
theorem normEol_flatMap {e : Char → Str} (h1 : e '\r' = ['\r']) (h2 : e '\n' = ['\n'])
    (h3 : ∀ c, c ≠ '\r' → c ≠ '\n' → '\r' ∉ e c ∧ (e c).head? ≠ some '\n' ∧ e c ≠ []) :
    ∀ s : Str, normEol (s.flatMap e) = (normEol s).flatMap e
  | [] => rfl
  | c :: s => by
    by_cases hc : c = '\r'
    · subst hc
      cases s with
      | nil => simp [h1, h2, normEol]
      | cons d s =>
        by_cases hd : d = '\n'
        · subst hd
          simp only [List.flatMap_cons, h1, h2, List.singleton_append, normEol, normEol_flatMap h1 h2 h3 s]
        · have h4 : ∀ t : Str, normEol ('\r' :: d :: t) = '\n' :: normEol (d :: t) := by
            intro t; rw [normEol]; intro u hu; simp only [List.cons.injEq] at hu; exact hd hu.1
          have h5 : ∀ (g : Char) (t : Str), g ≠ '\n' → normEol ('\r' :: g :: t) = '\n' :: normEol (g :: t) := by
            intro g t hg; rw [normEol]; intro u hu; simp only [List.cons.injEq] at hu; exact hg hu.1
          rw [h4, List.flatMap_cons, List.flatMap_cons (x := '\n'), h1, h2, ← normEol_flatMap h1 h2 h3 (d :: s)]
          rw [List.flatMap_cons]
          have h6 : ∃ g t, e d = g :: t ∧ g ≠ '\n' := by
            by_cases hr : d = '\r'
            · exact ⟨'\r', [], by rw [hr, h1], by decide⟩
            · obtain ⟨_, q2, q3⟩ := h3 d hr hd
              cases he : e d with
              | nil => exact absurd he q3
              | cons g t => exact ⟨g, t, rfl, by rw [he] at q2; simpa using q2⟩
          obtain ⟨g, t, hg, hgn⟩ := h6
          simp only [hg, List.cons_append, List.nil_append, h5 g _ hgn]
    · rw [List.flatMap_cons, normEol_cons hc, List.flatMap_cons]
      by_cases hn : c = '\n'
      · subst hn; rw [h2]
        simp only [List.singleton_append]
        rw [normEol_cons (by decide), normEol_flatMap h1 h2 h3 s]
      · rw [normEol_clean_append (h3 c hc hn).1, normEol_flatMap h1 h2 h3 s]
termination_by s => s.length

theorem etAttrChar_noCr (c : Char) : '\r' ∉ etAttrChar c := by
  unfold etAttrChar
  repeat' split
  all_goals first | decide | (rw [List.mem_singleton]; exact fun h => ‹¬c = '\r'› h.symm)

theorem etAttrText_noCr (s : Str) : '\r' ∉ etAttrText s := by
  rw [etAttrText_eq]
  simp only [List.mem_flatMap, not_exists, not_and]
  exact fun c _ => etAttrChar_noCr c

theorem etContent_eol (s : Str) : normEol (etContentText s) = etContentText (normEol s) := by
  rw [etContentText_eq, etContentText_eq]
  refine normEol_flatMap (by decide) (by decide) (fun c h1 h2 => ?_) s
  unfold etContentChar
  repeat' split
  all_goals first | decide | (simp [h2]; exact fun h => h1 h.symm)

theorem domContent_eol (modern : Bool) (s : Str) : normEol (domText modern false s) = domText modern false (normEol s) := by
  rw [domText_eq, domText_eq]
  refine normEol_flatMap (by cases modern <;> decide) (by cases modern <;> decide) (fun c h1 h2 => ?_) s
  unfold domChar
  repeat' split
  all_goals first | decide | simp_all
  all_goals exact fun h => h1 h.symm

/-- What the end of line normalisation makes of an attribute value written by minidom. -/
def attrEol (modern : Bool) (s : Str) : Str := if modern then s else normEol s

theorem domAttr_eol (modern : Bool) (s : Str) : normEol (domText modern true s) = domText modern true (attrEol modern s) := by
  cases modern with
  | true =>
    simp only [attrEol, if_true]
    refine normEol_clean ?_
    rw [domText_eq]
    simp only [List.mem_flatMap, not_exists, not_and]
    intro c _
    unfold domChar
    repeat' split
    all_goals first | decide | simp_all
    all_goals exact fun h => ‹¬c = '\r'› h.symm
  | false =>
    simp only [attrEol, Bool.false_eq_true, if_false]
    rw [domText_eq, domText_eq]
    refine normEol_flatMap (by decide) (by decide) (fun c h1 h2 => ?_) s
    unfold domChar
    repeat' split
    all_goals first | decide | simp_all
    all_goals exact fun h => h1 h.symm

end Opy
