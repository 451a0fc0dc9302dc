import Verif.Props.MxmlFile
/-
Property C114: a file that was cut off is not read as a complete one.
-/
set_option linter.unusedSectionVars false
namespace Opy

/-! ## After the document element -/

/-- The document element is closed and no new tag is begun. -/
def Done (s : RdSt) : Prop := s.stack = [] ∧ s.seen = true ∧ match s.lex with
  | .text | .lt | .stop _ | .stopGap _ | .bang | .bang1 | .comment | .comment1 | .comment2 | .pi | .pi1 => True
  | _ => False

theorem done_step {s s' : RdSt} {c : Char} {e : List MSax} (h : Done s) (hs : rdStep s c = .ok (s', e)) : Done s' ∧ e = [] := by
  obtain ⟨l, k, b⟩ := s
  obtain ⟨h1, h2, h3⟩ := h
  simp only at h1 h2 h3
  subst h1 h2
  cases l <;> simp only at h3 <;> simp only [rdStep, stopChar, malformed] at hs <;> repeat' split at hs
  all_goals first
    | cases hs
    | (simp only [Except.ok.injEq, Prod.mk.injEq] at hs
       obtain ⟨rfl, rfl⟩ := hs
       refine ⟨⟨rfl, rfl, ?_⟩, rfl⟩
       simp only
       try (repeat' split) <;> trivial)
  all_goals simp_all [Done]

theorem done_run : ∀ {cs : Str} {s s' : RdSt} {e : List MSax}, Done s → Go s cs s' e → Done s' ∧ e = []
  | [], s, s', e, h, hg => by
    simp only [Go, rdRun, Except.ok.injEq, Prod.mk.injEq] at hg
    obtain ⟨rfl, rfl⟩ := hg
    exact ⟨h, rfl⟩
  | c :: cs, s, s', e, h, hg => by
    simp only [Go, rdRun] at hg
    obtain ⟨⟨s1, e1⟩, h1, hg⟩ := bind_ok.1 hg
    obtain ⟨⟨s2, e2⟩, h2, hg⟩ := bind_ok.1 hg
    simp only [Except.ok.injEq, Prod.mk.injEq] at hg
    obtain ⟨rfl, rfl⟩ := hg
    obtain ⟨d1, rfl⟩ := done_step h h1
    obtain ⟨d2, rfl⟩ := done_run d1 h2
    exact ⟨d2, rfl⟩

theorem Go.split {a b : Str} {s s' : RdSt} {e : List MSax} (h : Go s (a ++ b) s' e) :
    ∃ s1 e1 e2, Go s a s1 e1 ∧ Go s1 b s' e2 ∧ e = e1 ++ e2 := by
  induction a generalizing s e with
  | nil => exact ⟨s, [], e, rfl, h, rfl⟩
  | cons c a ih =>
    simp only [List.cons_append, Go, rdRun] at h
    obtain ⟨⟨s1, e1⟩, h1, h⟩ := bind_ok.1 h
    obtain ⟨⟨s2, e2⟩, h2, h⟩ := bind_ok.1 h
    simp only [Except.ok.injEq, Prod.mk.injEq] at h
    obtain ⟨rfl, rfl⟩ := h
    obtain ⟨s3, e3, e4, q1, q2, rfl⟩ := ih h2
    exact ⟨s3, e1 ++ e3, e4, Go.cons h1 q1, q2, by simp⟩

theorem Go.unique {a : Str} {s s1 s2 : RdSt} {e1 e2 : List MSax} (h1 : Go s a s1 e1) (h2 : Go s a s2 e2) : s1 = s2 ∧ e1 = e2 := by
  unfold Go at h1 h2
  rw [h1] at h2
  simpa using h2

/-! ## The last character that counts -/

/-- The text of an element ends with a line feed, and the character before it reports the end of the element. -/
theorem pretty_last (modern : Bool) {x : MNode} (hx : Tidy (· ≠ []) x) (hcr : modern = false → noCr x) (n : Nat) {k : List Str} {b : Bool}
    (hk : k ≠ [] ∨ b = false) : ∃ body st e1 e2, pretty modern n x = body ++ ['>', '\n'] ∧ Go ⟨.text, k, b⟩ body st e1 ∧
      rdStep st '>' = .ok (⟨.text, k, true⟩, e2) ∧ e2 ≠ [] := by
  cases x with
  | text s => simp [Tidy] at hx
  | elem t as ks =>
    have hx' := hx
    simp only [Tidy] at hx
    obtain ⟨ht, ha, hn, hks⟩ := hx
    obtain ⟨st, h1, h2⟩ := go_startTag (esc := domText modern true) (f := fun v => v.map (spaced modern)) ht
      (fun p hp => ⟨ha p hp, domAttr_reads modern fun hm => ((hcr hm).1) p hp⟩) hn hk
    have h0 := go_gap k b (tabs_space n)
    have hend : ∀ b, Go ⟨.text, t :: k, b⟩ (['<', '/'] ++ t) ⟨.stop t, t :: k, b⟩ [] := by
      intro b
      refine Go.cons0 (s1 := ⟨.lt, t :: k, b⟩) (by simp [rdStep]) ?_
      refine Go.cons0 (s1 := ⟨.stop [], t :: k, b⟩) (by simp [rdStep]) ?_
      exact go_stop (t :: k) b t [] ht.chars
    have hlast : ∀ b, rdStep ⟨.stop t, t :: k, b⟩ '>' = .ok (⟨.text, k, true⟩, [.stop t]) := by
      intro b
      simp [rdStep, stopChar, show isNameChar '>' = false by decide, show isXmlSpace '>' = false by decide]
    rcases hks with ⟨s, rfl, hs⟩ | hks
    · refine ⟨tabs n ++ (('<' :: (t ++ attrsText (domText modern true) as)) ++ (['>'] ++ (domText modern false s ++ (['<', '/'] ++ t)))), _, _, _, ?_,
        h0.append (h1.append ((go_tagEnd h2).append ((domContent_reads modern s t k true).append (hend true)))), hlast true, by simp⟩
      simp [pretty, onlyText]
    · cases ks with
      | nil =>
        refine ⟨tabs n ++ (('<' :: (t ++ attrsText (domText modern true) as)) ++ ['/']), ⟨.slash t (as.map fun p => (p.1, p.2.map (spaced modern))), k, b⟩, _,
          [.start t (as.map fun p => (p.1, p.2.map (spaced modern))), .stop t], ?_,
          h0.append (h1.append0 (Go.cons0 ?_ (Go.nil _))), by simp [rdStep], by simp⟩
        · simp [pretty]
        · rw [h2 '/' (by decide)]
          simp [tagChar, show isXmlSpace '/' = false by decide]
      | cons x xs =>
        obtain ⟨s, h3, _⟩ := prettys_run modern (x :: xs) hks (fun hm => (hcr hm).2) (n + 1) t k
        have h6 := go_gap (t :: k) true (s := ['\n']) (by decide)
        have h7 := go_gap (t :: k) true (tabs_space n)
        refine ⟨tabs n ++ (('<' :: (t ++ attrsText (domText modern true) as)) ++ (['>'] ++ (['\n'] ++ (prettyAll modern (n + 1) (x :: xs) ++ (tabs n ++ (['<', '/'] ++ t)))))),
          _, _, _, ?_, h0.append (h1.append ((go_tagEnd h2).append (h6.append (h3.append (h7.append (hend true)))))), hlast true, by simp⟩
        simp [pretty, onlyText_tidy hks]

/-- Normalising the beginning of a text gives the beginning of the normalised text. -/
theorem normEol_prefix (q : Str) : ∀ p : Str, ∃ r, normEol (p ++ q) = normEol p ++ r := by
  intro p
  induction p using normEol.induct with
  | case1 => exact ⟨_, rfl⟩
  | case2 s ih =>
    obtain ⟨r, ih⟩ := ih
    exact ⟨r, by simp only [List.cons_append, normEol, ih]⟩
  | case3 s hs ih =>
    have h1 : normEol ('\r' :: s) = '\n' :: normEol s := by rw [normEol]; exact hs
    cases s with
    | nil =>
      rw [h1]
      cases q with
      | nil => exact ⟨[], by simp [normEol]⟩
      | cons c q =>
        by_cases hc : c = '\n'
        · subst hc; exact ⟨normEol q, by simp [normEol]⟩
        · refine ⟨normEol (c :: q), ?_⟩
          show normEol ('\r' :: c :: q) = '\n' :: normEol (c :: q)
          rw [normEol]
          intro u hu; simp only [List.cons.injEq] at hu; exact hc hu.1
    | cons c s =>
      obtain ⟨r, ih⟩ := ih
      refine ⟨r, ?_⟩
      rw [h1]
      show normEol ('\r' :: c :: (s ++ q)) = _
      rw [normEol]
      · rw [show c :: (s ++ q) = c :: s ++ q from rfl, ih]; rfl
      · intro u hu
        simp only [List.cons.injEq] at hu
        exact hs s (by rw [hu.1])
  | case4 c s h1 h2 ih =>
    obtain ⟨r, ih⟩ := ih
    have hc : c ≠ '\r' := fun e => h2 e
    exact ⟨r, by rw [List.cons_append, normEol_cons hc, normEol_cons hc, ih]; rfl⟩

/-- The last two characters of the text. -/
theorem pretty_ends (modern : Bool) (cs : List Str) {x : MNode} (h : Tidy (· ≠ []) x) : ∃ body', prettyDoc modern cs x = body' ++ ['>', '\n'] := by
  obtain ⟨t, as, ks, rfl⟩ : ∃ t as ks, x = .elem t as ks := by
    cases x with
    | text s => simp [Tidy] at h
    | elem t as ks => exact ⟨t, as, ks, rfl⟩
  simp only [prettyDoc, pretty]
  split
  · exact ⟨py!"<?xml version=\"1.0\" ?>\n" ++ commentsText cs ++ tabs 0 ++ '<' :: (t ++ attrsText (domText modern true) as ++ ['/']), by simp⟩
  · split
    · rename_i s _
      exact ⟨py!"<?xml version=\"1.0\" ?>\n" ++ commentsText cs ++ tabs 0 ++ '<' :: (t ++ attrsText (domText modern true) as ++
        '>' :: (domText modern false s ++ ['<', '/'] ++ t)), by simp⟩
    · exact ⟨py!"<?xml version=\"1.0\" ?>\n" ++ commentsText cs ++ tabs 0 ++ '<' :: (t ++ attrsText (domText modern true) as ++
        (['>', '\n'] ++ prettyAll modern (0 + 1) ks ++ tabs 0 ++ ['<', '/'] ++ t)), by simp⟩

/-- No proper beginning of the text, other than the text without its last line feed, is read. -/
theorem cut_pretty (modern : Bool) {cs : List Str} (hcs : ∀ c ∈ cs, commentOk c = true) {x : MNode} (h : Tidy (· ≠ []) x)
    {p q : Str} (hpq : prettyDoc modern cs x = p ++ q) (hq : q ≠ []) (hq' : q ≠ ['\n']) : readXml p = .error .other := by
  have h2 : normEol (prettyDoc modern cs x) = xmlHead ++ (commentsText cs ++ pretty modern 0 (mapNode (attrEol modern) normEol x)) := by
    have := pretty_eol modern x h 0 []
    rw [List.append_nil, show normEol ([] : Str) = [] from rfl, List.append_nil] at this
    rw [prettyDoc, List.append_assoc, normEol_clean_append (by decide), normEol_clean_append (fun hm => (comments_mem hcs _ hm).2 rfl), this]
    rfl
  have h3 := map_tidy (f := attrEol modern) (g := normEol) (fun s => normEol_ne_nil) x h
  obtain ⟨body, st, e1, e2, h4, h5, h6, h7⟩ := pretty_last modern h3 (by
    rintro rfl
    have : attrEol false = normEol := by funext v; simp [attrEol]
    rw [this]
    exact map_noCr normEol x) 0 (k := []) (b := false) (.inr rfl)
  have h8 := go_head.append0 ((go_comments cs hcs).append0 h5)
  obtain ⟨body', hb⟩ := pretty_ends modern cs h
  obtain ⟨q', rfl⟩ : ∃ q', q = q' ++ ['>', '\n'] := by
    rw [hb] at hpq
    rcases List.append_eq_append_iff.1 hpq with ⟨a, h1, h2⟩ | ⟨a, h1, h2⟩
    · match a, q, h2 with
      | [], _, h2 => exact ⟨[], by simpa using h2.symm⟩
      | [c], _, h2 =>
        simp only [List.cons_append, List.nil_append, List.cons.injEq] at h2
        exact absurd h2.2.symm hq'
      | [c, d], _, h2 =>
        simp only [List.cons_append, List.nil_append, List.cons.injEq] at h2
        exact absurd h2.2.2.symm hq
      | c :: d :: e :: a, _, h2 => simp at h2
    · exact ⟨a, h2⟩
  have hp : normEol (p ++ q') = xmlHead ++ (commentsText cs ++ body) := by
    rw [hpq, ← List.append_assoc, normEol_append_cons (by decide), h4] at h2
    have : normEol ['>', '\n'] = ['>', '\n'] := by decide
    rw [this] at h2
    simpa using List.append_cancel_right (bs := ['>', '\n']) (by simpa using h2)
  obtain ⟨r, hr⟩ := normEol_prefix q' p
  rw [← hp, hr] at h8
  simp only [readXml]
  split
  · obtain ⟨s1, f1, f2, g1, g2, _⟩ := h8.split
    have g1' := g1
    unfold Go at g1
    rw [g1]
    simp only [bind, Except.bind]
    split
    · rename_i hend
      exfalso
      have hd : Done s1 := ⟨hend.2.1, hend.2.2, by rw [hend.1]; trivial⟩
      obtain ⟨hd', _⟩ := done_run hd g2
      exact h7 (done_step hd' h6).2
    · rfl
  · rfl

/-- Without its last line feed the text is read the same. -/
theorem cut_newline (modern : Bool) {cs : List Str} (hcs : ∀ c ∈ cs, commentOk c = true) {x : MNode} (h : Tidy (· ≠ []) x) (hl : LegalNode x)
    {p : Str} (hp : prettyDoc modern cs x = p ++ ['\n']) : readXml p = readXml (prettyDoc modern cs x) := by
  have h1 : (prettyDoc modern cs x).all isXmlChar = true := by
    rw [List.all_eq_true]
    simp only [prettyDoc, List.forall_mem_append]
    exact ⟨⟨by decide, fun c hc => (comments_mem hcs c hc).1⟩, pretty_legal modern x h hl 0⟩
  have h1' : p.all isXmlChar = true := by
    rw [hp, List.all_append, Bool.and_eq_true] at h1
    exact h1.1
  have h2 : normEol (prettyDoc modern cs x) = xmlHead ++ (commentsText cs ++ pretty modern 0 (mapNode (attrEol modern) normEol x)) := by
    have := pretty_eol modern x h 0 []
    rw [List.append_nil, show normEol ([] : Str) = [] from rfl, List.append_nil] at this
    rw [prettyDoc, List.append_assoc, normEol_clean_append (by decide), normEol_clean_append (fun hm => (comments_mem hcs _ hm).2 rfl), this]
    rfl
  have h3 := map_tidy (f := attrEol modern) (g := normEol) (fun s => normEol_ne_nil) x h
  obtain ⟨body, st, e1, e2, h4, h5, h6, h7⟩ := pretty_last modern h3 (by
    rintro rfl
    have : attrEol false = normEol := by funext v; simp [attrEol]
    rw [this]
    exact map_noCr normEol x) 0 (k := []) (b := false) (.inr rfl)
  have h8 : Go _ _ _ _ := go_head.append0 ((go_comments cs hcs).append0 (h5.append (Go.cons (e2 := []) h6 (Go.nil _))))
  have h9 := h8.append (go_gap [] true (s := ['\n']) (by decide))
  obtain ⟨body', hb⟩ := pretty_ends modern cs h
  have hpb : p = body' ++ ['>'] := by
    rw [hp, show body' ++ ['>', '\n'] = (body' ++ ['>']) ++ ['\n'] by simp] at hb
    exact List.append_cancel_right hb
  have hpn : normEol p = xmlHead ++ (commentsText cs ++ (body ++ ['>'])) := by
    have e : prettyDoc modern cs x = body' ++ '>' :: ['\n'] := hb
    rw [e, normEol_append_cons (by decide), h4] at h2
    have e2 : normEol ('>' :: ['\n']) = ['>'] ++ ['\n'] := by decide
    rw [hpb, normEol_append_cons (by decide), show normEol ['>'] = ['>'] by decide]
    apply List.append_cancel_right (bs := ['\n'])
    rw [List.append_assoc, ← e2, h2]
    simp
  have hxn : normEol (prettyDoc modern cs x) = xmlHead ++ (commentsText cs ++ (body ++ ['>'])) ++ ['\n'] := by
    rw [h2, h4]; simp
  unfold Go at h8 h9
  have h10 := head_declOk (commentsText cs ++ (body ++ ['>']))
  have h11 := head_declOk (commentsText cs ++ (body ++ ['>']) ++ ['\n'])
  rw [← List.append_assoc] at h11
  simp only [readXml, h1, h1', if_true, hpn, hxn, h8, h9, h10, h11, bind, Except.bind, gapEvs, List.append_nil, and_self]

section
variable {F : Type} [PyFloat F]

/-! ## C114: truncated files -/

/-- C114: no proper beginning of a saved XES file, but the file without its last line feed, can be loaded. -/
theorem c114_xes (modern : Bool) {L : Log F} {text p q : Str} (h : saveXes modern L = .ok text) (hpq : text = p ++ q) (hq : q ≠ []) (hq' : q ≠ ['\n'])
    (given : Option (Factory F)) (reg : Factory F) (mgr : ExtMgr) (hp : Heap F) : ∃ e, loadXes given reg mgr hp p = .error e := by
  obtain ⟨x, hx, h⟩ := bind_ok.1 h
  have ht := xml_tidy (serializeXes_tidy hx)
  have hl : LegalNode x.node := Classical.byContradiction fun hn => by
    rw [(saveTree_spec modern xesComments_ok ht).2 hn] at h
    cases h
  simp only [saveTree, (parseDom_et ht).1 hl, bind, Except.bind, Except.ok.injEq] at h
  subst h
  refine ⟨.other, ?_⟩
  simp only [loadXes, cut_pretty modern xesComments_ok (dom_tidy x.node ht) hpq hq hq', bind, Except.bind]

/-- ... and without its last line feed it is loaded as the whole. -/
theorem c114_xes_newline (modern : Bool) {L : Log F} {p : Str} (h : saveXes modern L = .ok (p ++ ['\n']))
    (given : Option (Factory F)) (reg : Factory F) (mgr : ExtMgr) (hp : Heap F) :
    loadXes given reg mgr hp p = loadXes given reg mgr hp (p ++ ['\n']) := by
  obtain ⟨x, hx, h⟩ := bind_ok.1 h
  have ht := xml_tidy (serializeXes_tidy hx)
  have hl : LegalNode x.node := Classical.byContradiction fun hn => by
    rw [(saveTree_spec modern xesComments_ok ht).2 hn] at h
    cases h
  simp only [saveTree, (parseDom_et ht).1 hl, bind, Except.bind, Except.ok.injEq] at h
  simp only [loadXes, cut_newline modern xesComments_ok (dom_tidy x.node ht) (dom_legalNode x.node hl) h, h]

/-- C114 for MXML files. -/
theorem c114_mxml (modern : Bool) {L : Log F} {text p q : Str} (h : saveMxml modern L = .ok text) (hpq : text = p ++ q) (hq : q ≠ []) (hq' : q ≠ ['\n'])
    (rnd : Nat → Uuid) : ∃ e, (loadMxml rnd p : Except PyErr (List (Log F))) = .error e := by
  obtain ⟨x, hx, h⟩ := bind_ok.1 h
  have ht := (serializeMxml_fine hx).1
  have hl : LegalNode x := Classical.byContradiction fun hn => by
    rw [(saveTree_spec modern mxmlComments_ok ht).2 hn] at h
    cases h
  simp only [saveTree, (parseDom_et ht).1 hl, bind, Except.bind, Except.ok.injEq] at h
  subst h
  refine ⟨.other, ?_⟩
  simp only [loadMxml, cut_pretty modern mxmlComments_ok (dom_tidy x ht) hpq hq hq', bind, Except.bind]

/-- ... and without the last line feed. -/
theorem c114_mxml_newline (modern : Bool) {L : Log F} {p : Str} (h : saveMxml modern L = .ok (p ++ ['\n'])) (rnd : Nat → Uuid) :
    (loadMxml rnd p : Except PyErr (List (Log F))) = loadMxml rnd (p ++ ['\n']) := by
  obtain ⟨x, hx, h⟩ := bind_ok.1 h
  have ht := (serializeMxml_fine hx).1
  have hl : LegalNode x := Classical.byContradiction fun hn => by
    rw [(saveTree_spec modern mxmlComments_ok ht).2 hn] at h
    cases h
  simp only [saveTree, (parseDom_et ht).1 hl, bind, Except.bind, Except.ok.injEq] at h
  simp only [loadMxml, cut_newline modern mxmlComments_ok (dom_tidy x ht) (dom_legalNode x hl) h, h]

/-- Every saved file ends with a line feed, so the exception is one. -/
theorem c114_ends (modern : Bool) {L : Log F} {text : Str} (h : saveXes modern L = .ok text) : ∃ p, text = p ++ ['\n'] := by
  obtain ⟨x, hx, h⟩ := bind_ok.1 h
  have ht := xml_tidy (serializeXes_tidy hx)
  have hl : LegalNode x.node := Classical.byContradiction fun hn => by
    rw [(saveTree_spec modern xesComments_ok ht).2 hn] at h
    cases h
  simp only [saveTree, (parseDom_et ht).1 hl, bind, Except.bind, Except.ok.injEq] at h
  subst h
  obtain ⟨b, hb⟩ := pretty_ends modern xesComments (dom_tidy x.node ht)
  exact ⟨b ++ ['>'], by rw [hb]; simp⟩

end

/-- A file cut in the middle of its only attribute. -/
example (mgr : ExtMgr) (reg : Factory ToyFloat) : ∃ e, loadXes none reg mgr ⟨[], 0⟩ (py!"<?xml version=\"1.0\" ?>\n" ++ commentsText xesComments ++
    py!"<log xes.version=\"1.0\" xes.features=\"nested-attributes\" openxes.version=\"1.0RC7\">\n\t<string key=\"note\" value=\"a") = .error e := by
  have h : saveXes false (noteLog py!"ab") = .ok (py!"<?xml version=\"1.0\" ?>\n" ++ commentsText xesComments ++
    py!"<log xes.version=\"1.0\" xes.features=\"nested-attributes\" openxes.version=\"1.0RC7\">\n\t<string key=\"note\" value=\"a" ++ py!"b\"/>\n</log>\n") := by
    decide +kernel
  exact c114_xes false h rfl (by decide) (by decide) _ _ _ _

end Opy
