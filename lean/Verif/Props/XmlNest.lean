import Verif.Props.XmlForm
/-
Property C135: whatever text a file contains, the parsers see the elements of one tree, or the file is refused.
-/
set_option linter.unusedSectionVars false
namespace Opy

/-! ## Specification -/

/-- What a text says if it is a document at all: one element, and no tag has two attributes of one name. -/
structure OneTree (es : List MSax) (t : Str) (as : List (Str × Str)) (ks : List MNode) : Prop where
  tree : es = nodeEvs (.elem t as ks)
  distinct : ∀ t' as', MSax.start t' as' ∈ es → (as'.map Prod.fst).Nodup

/-! ## The open elements -/

/-- The events of the open elements (innermost first) with their children so far. -/
def openEvs : List (Str × List (Str × Str) × List MNode) → List MSax
  | [] => []
  | (t, as, ks) :: r => openEvs r ++ .start t as :: nodeEvsAll ks

theorem nodeEvsAll_append (xs ys : List MNode) : nodeEvsAll (xs ++ ys) = nodeEvsAll xs ++ nodeEvsAll ys := by
  induction xs with
  | nil => rfl
  | cons x xs ih => simp [nodeEvsAll, ih]

/-- The reported events are those of the open elements, or of the whole document element. -/
def NestedEvs (k : List Str) (seen : Bool) (es : List MSax) : Prop :=
  (k = [] ∧ seen = false ∧ es = []) ∨
  (∃ fr, fr ≠ [] ∧ fr.map (fun p => p.1) = k ∧ seen = true ∧ es = openEvs fr) ∨
  (k = [] ∧ seen = true ∧ ∃ t as ks, es = nodeEvs (.elem t as ks))

/-- An element may begin here. -/
def MayBegin (k : List Str) (seen : Bool) : Prop := k ≠ [] ∨ seen = false

theorem nested_chars {k : List Str} {seen : Bool} {es : List MSax} (h : NestedEvs k seen es) (hk : k ≠ []) (c : Char) :
    NestedEvs k seen (es ++ [.chars [c]]) := by
  rcases h with ⟨h, _⟩ | ⟨fr, h1, h2, h3, rfl⟩ | ⟨h, _⟩
  · exact absurd h hk
  · cases fr with
    | nil => exact absurd rfl h1
    | cons p fr =>
      obtain ⟨t, as, ks⟩ := p
      refine .inr (.inl ⟨(t, as, ks ++ [.text [c]]) :: fr, by simp, h2, h3, ?_⟩)
      simp [openEvs, nodeEvsAll_append, nodeEvsAll, nodeEvs]
  · exact absurd h hk

theorem nested_start {k : List Str} {seen : Bool} {es : List MSax} (h : NestedEvs k seen es) (hk : MayBegin k seen) (t : Str) (as : List (Str × Str)) :
    NestedEvs (t :: k) true (es ++ [.start t as]) := by
  rcases h with ⟨rfl, rfl, rfl⟩ | ⟨fr, h1, rfl, h3, rfl⟩ | ⟨rfl, rfl, _⟩
  · exact .inr (.inl ⟨[(t, as, [])], by simp, rfl, rfl, by simp [openEvs, nodeEvsAll]⟩)
  · exact .inr (.inl ⟨(t, as, []) :: fr, by simp, rfl, rfl, by simp [openEvs, nodeEvsAll]⟩)
  · rcases hk with hk | hk
    · exact absurd rfl hk
    · cases hk

theorem nested_stop {k : List Str} {t : Str} {seen : Bool} {es : List MSax} (h : NestedEvs (t :: k) seen es) : NestedEvs k true (es ++ [.stop t]) := by
  rcases h with ⟨h, _⟩ | ⟨fr, h1, h2, h3, rfl⟩ | ⟨h, _⟩
  · cases h
  · cases fr with
    | nil => exact absurd rfl h1
    | cons p fr =>
      obtain ⟨t', as, ks⟩ := p
      simp only [List.map_cons, List.cons.injEq] at h2
      obtain ⟨rfl, rfl⟩ := h2
      cases fr with
      | nil => exact .inr (.inr ⟨rfl, rfl, t', as, ks, by simp [openEvs, nodeEvs]⟩)
      | cons p fr =>
        obtain ⟨t2, as2, ks2⟩ := p
        refine .inr (.inl ⟨(t2, as2, ks2 ++ [.elem t' as ks]) :: fr, by simp, rfl, rfl, ?_⟩)
        simp [openEvs, nodeEvsAll_append, nodeEvsAll, nodeEvs]
  · cases h

/-- What the position in the text requires. -/
def LexOk (st : RdSt) : Prop := match st.lex with
  | .name _ => MayBegin st.stack st.seen
  | .inTag _ as _ | .aname _ as _ | .aeq _ as _ | .aquote _ as _ | .aval _ as _ _ _ | .aref _ as _ _ _ _ | .slash _ as =>
    MayBegin st.stack st.seen ∧ (dkeys as).Nodup
  | .ref _ | .cdOpen _ | .cdata | .cdata1 | .cdata2 => st.stack ≠ []
  | _ => True

/-- No tag has two attributes of one name. -/
def NoTwice (es : List MSax) : Prop := ∀ t as, MSax.start t as ∈ es → (dkeys as).Nodup

/-- What holds at every position. -/
structure RdInv (st : RdSt) (es : List MSax) : Prop where
  nested : NestedEvs st.stack st.seen es
  lex : LexOk st
  twice : NoTwice es

theorem noTwice_chars {es : List MSax} (h : NoTwice es) (c : Char) : NoTwice (es ++ [.chars [c]]) := by
  intro t as hm
  simp only [List.mem_append, List.mem_singleton, reduceCtorEq, or_false] at hm
  exact h t as hm

theorem noTwice_stop {es : List MSax} (h : NoTwice es) (n : Str) : NoTwice (es ++ [.stop n]) := by
  intro t as hm
  simp only [List.mem_append, List.mem_singleton, reduceCtorEq, or_false] at hm
  exact h t as hm

theorem noTwice_start {es : List MSax} (h : NoTwice es) (n : Str) {as : List (Str × Str)} (ha : (dkeys as).Nodup) : NoTwice (es ++ [.start n as]) := by
  intro t as' hm
  simp only [List.mem_append, List.mem_singleton, MSax.start.injEq] at hm
  rcases hm with hm | ⟨rfl, rfl⟩
  · exact h t as' hm
  · exact ha

theorem inv_quiet {st st' : RdSt} {es : List MSax} (h : RdInv st es) (h1 : st'.stack = st.stack) (h2 : st'.seen = st.seen) (h3 : LexOk st') :
    RdInv st' (es ++ []) := by
  rw [List.append_nil]
  exact ⟨by rw [h1, h2]; exact h.nested, h3, h.twice⟩

theorem inv_chars {st : RdSt} {es : List MSax} (h : RdInv st es) (hk : st.stack ≠ []) (c : Char) : RdInv st (es ++ [.chars [c]]) :=
  ⟨nested_chars h.nested hk c, h.lex, noTwice_chars h.twice c⟩

theorem inv_lex {st : RdSt} {es : List MSax} (h : RdInv st es) (l : Lx) (hl : LexOk { st with lex := l }) : RdInv { st with lex := l } es :=
  ⟨h.nested, hl, h.twice⟩

theorem inv_tagChar {st st' : RdSt} {es e : List MSax} {n : Str} {as : List (Str × Str)} {gap : Bool} {c : Char} (h : RdInv st es)
    (hb : MayBegin st.stack st.seen) (ha : (dkeys as).Nodup) (hs : tagChar st n as gap c = .ok (st', e)) : RdInv st' (es ++ e) := by
  unfold tagChar malformed at hs
  split at hs
  · cases hs; exact inv_quiet h rfl rfl ⟨hb, ha⟩
  split at hs
  · cases hs; exact ⟨nested_start h.nested hb n as, trivial, noTwice_start h.twice n ha⟩
  split at hs
  · cases hs; exact inv_quiet h rfl rfl ⟨hb, ha⟩
  split at hs
  · cases hs; exact inv_quiet h rfl rfl ⟨hb, ha⟩
  · cases hs

theorem inv_stopChar {st st' : RdSt} {es e : List MSax} {n : Str} {c : Char} (h : RdInv st es) (hs : stopChar st n c = .ok (st', e)) : RdInv st' (es ++ e) := by
  unfold stopChar malformed at hs
  split at hs
  · cases hs; exact inv_quiet h rfl rfl trivial
  split at hs
  · split at hs
    · cases hs
    · rename_i t stack hk
      split at hs
      · rename_i e
        subst e
        cases hs
        have := h.nested
        rw [hk] at this
        exact ⟨nested_stop this, trivial, noTwice_stop h.twice t⟩
      · cases hs
  · cases hs

/-- One character keeps it. -/
theorem inv_step {st st' : RdSt} {es e : List MSax} {c : Char} (h : RdInv st es) (hs : rdStep st c = .ok (st', e)) : RdInv st' (es ++ e) := by
  obtain ⟨l, k, b⟩ := st
  have hl := h.lex
  cases l with
  | text =>
    simp only [rdStep, malformed] at hs
    split at hs
    · cases hs; exact inv_quiet h rfl rfl trivial
    split at hs
    · split at hs <;> cases hs
      exact inv_quiet h rfl rfl trivial
    · split at hs
      · cases hs; exact inv_quiet h rfl rfl (by simp [LexOk])
      · cases hs; exact inv_chars h (by simp) c
  | ref r =>
    simp only [rdStep, malformed] at hs
    split at hs
    · split at hs <;> cases hs
      exact inv_chars (inv_lex h .text trivial) hl _
    · cases hs; exact inv_quiet h rfl rfl hl
  | lt =>
    simp only [rdStep, malformed] at hs
    split at hs
    · cases hs; exact inv_quiet h rfl rfl trivial
    split at hs
    · cases hs; exact inv_quiet h rfl rfl trivial
    split at hs
    · cases hs; exact inv_quiet h rfl rfl trivial
    split at hs
    · rename_i hc; cases hs; exact inv_quiet h rfl rfl hc.2
    · cases hs
  | name n =>
    simp only [rdStep] at hs
    split at hs
    · cases hs; exact inv_quiet h rfl rfl hl
    · exact inv_tagChar h hl (by simp [dkeys]) hs
  | inTag n as g =>
    simp only [rdStep] at hs
    exact inv_tagChar h hl.1 hl.2 hs
  | aname n as a =>
    simp only [rdStep, malformed] at hs
    split at hs
    · cases hs; exact inv_quiet h rfl rfl hl
    split at hs
    · cases hs; exact inv_quiet h rfl rfl hl
    split at hs
    · cases hs; exact inv_quiet h rfl rfl hl
    · cases hs
  | aeq n as a =>
    simp only [rdStep, malformed] at hs
    split at hs
    · cases hs; exact inv_quiet h rfl rfl hl
    split at hs
    · cases hs; exact inv_quiet h rfl rfl hl
    · cases hs
  | aquote n as a =>
    simp only [rdStep, malformed] at hs
    split at hs
    · cases hs; exact inv_quiet h rfl rfl hl
    split at hs
    · cases hs; exact inv_quiet h rfl rfl hl
    · cases hs
  | aval n as a q v =>
    simp only [rdStep, malformed] at hs
    split at hs
    · split at hs
      · cases hs
      · rename_i hnot
        cases hs
        refine inv_quiet h rfl rfl ⟨hl.1, ?_⟩
        have : dkeys (as ++ [(a, v)]) = dkeys as ++ [a] := by simp [dkeys]
        rw [this]
        exact List.nodup_append.2 ⟨hl.2, by simp, by rintro x hx y hy rfl; simp only [List.mem_singleton] at hy; exact hnot (hy ▸ hx)⟩
    split at hs
    · cases hs
    split at hs
    · cases hs; exact inv_quiet h rfl rfl hl
    · cases hs; exact inv_quiet h rfl rfl hl
  | aref n as a q v r =>
    simp only [rdStep, malformed] at hs
    split at hs
    · split at hs <;> cases hs
      exact inv_quiet h rfl rfl hl
    · cases hs; exact inv_quiet h rfl rfl hl
  | slash n as =>
    simp only [rdStep, malformed] at hs
    split at hs
    · cases hs
      have h1 := nested_stop (nested_start h.nested hl.1 n as)
      have h2 := noTwice_stop (noTwice_start h.twice n hl.2) n
      rw [List.append_assoc] at h1 h2
      exact ⟨h1, trivial, h2⟩
    · cases hs
  | stop n =>
    simp only [rdStep] at hs
    split at hs
    · cases hs; exact inv_quiet h rfl rfl trivial
    · exact inv_stopChar h hs
  | stopGap n =>
    simp only [rdStep] at hs
    exact inv_stopChar h hs
  | bang =>
    simp only [rdStep, malformed] at hs
    split at hs
    · cases hs; exact inv_quiet h rfl rfl trivial
    split at hs
    · rename_i hc; cases hs; exact inv_quiet h rfl rfl hc.2
    · cases hs
  | bang1 =>
    simp only [rdStep, malformed] at hs
    split at hs <;> cases hs
    exact inv_quiet h rfl rfl trivial
  | comment =>
    simp only [rdStep] at hs
    split at hs <;> cases hs <;> exact inv_quiet h rfl rfl trivial
  | comment1 =>
    simp only [rdStep] at hs
    split at hs <;> cases hs <;> exact inv_quiet h rfl rfl trivial
  | comment2 =>
    simp only [rdStep, malformed] at hs
    split at hs <;> cases hs
    exact inv_quiet h rfl rfl trivial
  | pi =>
    simp only [rdStep] at hs
    split at hs <;> cases hs <;> exact inv_quiet h rfl rfl trivial
  | pi1 =>
    simp only [rdStep] at hs
    repeat' split at hs
    all_goals (cases hs; exact inv_quiet h rfl rfl trivial)
  | cdOpen r =>
    simp only [rdStep, malformed] at hs
    split at hs
    · cases hs
    split at hs
    · cases hs
      refine inv_quiet h rfl rfl ?_
      split <;> exact hl
    · cases hs
  | cdata =>
    simp only [rdStep] at hs
    split at hs
    · cases hs; exact inv_quiet h rfl rfl hl
    · cases hs; exact inv_chars h hl c
  | cdata1 =>
    simp only [rdStep] at hs
    split at hs
    · cases hs; exact inv_quiet h rfl rfl hl
    · cases hs
      have := inv_chars (inv_chars (inv_lex h .cdata hl) hl ']') hl c
      rwa [List.append_assoc] at this
  | cdata2 =>
    simp only [rdStep] at hs
    split at hs
    · cases hs; exact inv_quiet h rfl rfl trivial
    split at hs
    · cases hs; exact inv_chars h hl ']'
    · cases hs
      have := inv_chars (inv_chars (inv_chars (inv_lex h .cdata hl) hl ']') hl ']') hl c
      rwa [List.append_assoc, List.append_assoc] at this

theorem inv_run : ∀ {cs : Str} {st st' : RdSt} {es e : List MSax}, RdInv st es → Go st cs st' e → RdInv st' (es ++ e)
  | [], st, st', es, e, h, hg => by
    simp only [Go, rdRun, Except.ok.injEq, Prod.mk.injEq] at hg
    obtain ⟨rfl, rfl⟩ := hg
    simpa using h
  | c :: cs, st, st', es, e, h, hg => by
    simp only [Go, rdRun] at hg
    obtain ⟨⟨s1, e1⟩, h1, hg⟩ := bind_ok.1 hg
    obtain ⟨⟨s2, e2⟩, h2, hg⟩ := bind_ok.1 hg
    simp only [Except.ok.injEq, Prod.mk.injEq] at hg
    obtain ⟨rfl, rfl⟩ := hg
    have := inv_run (inv_step h h1) h2
    rwa [List.append_assoc] at this

/-! ## C135 -/

/-- C135: whatever the text, it is refused or it says one element. -/
theorem c135_tree (s : Str) : (∃ e, readXml s = .error e) ∨ ∃ es t as ks, readXml s = .ok es ∧ OneTree es t as ks := by
  cases h : readXml s with
  | error e => exact .inl ⟨e, rfl⟩
  | ok es =>
    refine .inr ⟨es, ?_⟩
    unfold readXml malformed at h
    split at h
    · obtain ⟨⟨st, e⟩, h1, h2⟩ := bind_ok.1 h
      simp only at h2
      split at h2
      · rename_i hc
        cases h2
        have hi := inv_run (st := ⟨.text, [], false⟩) (es := []) ⟨.inl ⟨rfl, rfl, rfl⟩, trivial, by simp [NoTwice]⟩ h1
        rw [List.nil_append] at hi
        rcases hi.nested with ⟨_, h3, _⟩ | ⟨fr, h3, h4, _⟩ | ⟨_, _, t, as, ks, h3⟩
        · rw [hc.2.2] at h3; cases h3
        · rw [hc.2.1] at h4
          exact absurd (List.map_eq_nil_iff.1 h4) h3
        · exact ⟨t, as, ks, rfl, h3, hi.twice⟩
      · cases h2
    · cases h

mutual
/-- The elements of a tree without its texts. -/
def elemsOf : List MNode → List Xml
  | [] => []
  | k :: ks => elemOf k ++ elemsOf ks
/-- The element, if it is one. -/
def elemOf : MNode → List Xml
  | .text _ => []
  | .elem t as ks => [.elem t as (elemsOf ks)]
end

mutual
theorem xes_elemOf : ∀ x : MNode, xesEvents (nodeEvs x) = saxList (elemOf x)
  | .text s => by rw [nodeEvs, xesEvents_chars]; rfl
  | .elem t as ks => by
    simp only [nodeEvs, xesEvents, xesEvents_append, elemOf, saxList, Xml.sax, xes_elemsOf ks, List.append_nil]
theorem xes_elemsOf : ∀ xs : List MNode, xesEvents (nodeEvsAll xs) = saxList (elemsOf xs)
  | [] => rfl
  | x :: xs => by rw [nodeEvsAll, xesEvents_append, xes_elemOf x, xes_elemsOf xs, elemsOf, saxList_append]
end

section
variable {F : Type} [PyFloat F]

/-- ... so loading any XES file fails or is the reading of a tree of elements. -/
theorem c135_xes (given : Option (Factory F)) (reg : Factory F) (mgr : ExtMgr) (h : Heap F) (text : Str) :
    (∃ e, loadXes given reg mgr h text = .error e) ∨ ∃ x : Xml, loadXes given reg mgr h text = xesParse given reg mgr h x.sax := by
  rcases c135_tree text with ⟨e, he⟩ | ⟨es, t, as, ks, he, ht⟩
  · exact .inl ⟨e, by simp only [loadXes, he, bind, Except.bind]⟩
  · refine .inr ⟨.elem t as (elemsOf ks), ?_⟩
    have := xes_elemOf (.elem t as ks)
    rw [← ht.tree, elemOf, saxList, saxList, List.append_nil] at this
    simp only [loadXes, he, bind, Except.bind, this]

mutual
theorem nodeEvs_reads : ∀ x : MNode, Reads id id x (nodeEvs x)
  | .text s => by
    have : nodeEvs (.text s) = (s.map fun c => [c]).map MSax.chars := by simp [nodeEvs]
    rw [this]
    refine .text ?_
    induction s with
    | nil => rfl
    | cons c s ih => simp only [List.map_cons, List.flatten_cons, id] at ih ⊢; rw [ih (by simp [nodeEvs])]; rfl
  | .elem t as ks => by
    have := Reads.elem (ws := id) (tx := id) (t := t) (as := as) (nodeEvsAll_reads ks)
    simpa [nodeEvs] using this
theorem nodeEvsAll_reads : ∀ xs : List MNode, ReadsAll id id xs (nodeEvsAll xs)
  | [] => .nil (by simp [Gap, nodeEvsAll])
  | x :: xs => .cons (g := []) (by simp [Gap]) (nodeEvs_reads x) (nodeEvsAll_reads xs)
end

/-- ... and loading any MXML file fails or is the reading of a tree of elements and texts. -/
theorem c135_mxml (rnd : Nat → Uuid) (text : Str) :
    (∃ e, loadMxml (F := F) rnd text = .error e) ∨
    ∃ t as ks es, Reads id id (.elem t as ks) es ∧ loadMxml (F := F) rnd text = mxmlParse rnd es := by
  rcases c135_tree text with ⟨e, he⟩ | ⟨es, t, as, ks, he, ht⟩
  · exact .inl ⟨e, by simp only [loadMxml, he, bind, Except.bind]⟩
  · exact .inr ⟨t, as, ks, es, by rw [ht.tree]; exact nodeEvs_reads _, by simp only [loadMxml, he, bind, Except.bind]⟩

end

/-- A text that is refused and one that is read. -/
example : readXml py!"<a><b></a></b>" = .error .other ∧
    readXml py!"<a><b x='1'>t</b></a>" = .ok (nodeEvs (.elem py!"a" [] [.elem py!"b" [(py!"x", py!"1")] [.text py!"t"]])) := by decide +kernel

end Opy
