import Verif.Model.ExtNames
import Verif.Props.ExtFile
set_option linter.unusedSectionVars false
namespace Opy

/-! # What a refused extension definition leaves behind (C180) -/

section
variable {F : Type} [PyFloat F]

/-! ## Spec

`before` is always what stands before some place of the document, nearest first. -/

/-- The element starts an extension: its address answers. -/
def UriAnswers (w : ExtWorld F) (t : Str) (as : List (Str × Str)) : Bool :=
  lower t = py!"xesextension" &&
    match dget py!"uri" as with
    | some uri => match w.fetch uri with
      | .data _ => true
      | _ => false
    | none => false

/-- The prefix of the extension at a place: that of the nearest `xesextension` whose address answers. -/
def prefixAt (w : ExtWorld F) : List Sax → Option Str
  | [] => none
  | .start t as :: before => if UriAnswers w t as then dget py!"prefix" as else prefixAt w before
  | .stop _ :: before => prefixAt w before

/-- The full key of the attribute being defined at a place: the nearest start or end of a definition is a start. -/
def definingAt (w : ExtWorld F) : List Sax → Option Str
  | [] => none
  | .start t as :: before =>
    if lower t ∈ defNames then
      match prefixAt w before, dget py!"key" as with
      | some p, some k => some (p ++ py!":" ++ k)
      | _, _ => none
    else definingAt w before
  | .stop t :: before => if lower t ∈ defNames then none else definingAt w before

/-- The registration that an element asks for: only an `alias` inside a definition does. -/
def askedAt (w : ExtWorld F) (before : List Sax) : Sax → Option MapCall
  | .start t as =>
    if lower t = py!"alias" then
      match definingAt w before, dget py!"mapping" as, dget py!"name" as with
      | some k, some m, some n => some (.register m (.str k) (.str n))
      | _, _, _ => none
    else none
  | .stop _ => none

/-- The registrations that the elements from a place on ask for. -/
def askedFrom (w : ExtWorld F) : List Sax → List Sax → List MapCall
  | _, [] => []
  | before, x :: rest => (askedAt w before x).toList ++ askedFrom w (x :: before) rest

/-- The registrations that a document asks for, in the order of the document. -/
def asked (w : ExtWorld F) (doc : List Sax) : List MapCall := askedFrom w [] doc

/-! ## Proof -/

theorem runExtAll_eq (w : ExtWorld F) : ∀ (doc : List Sax) (st : ExtSt F),
    match runExtAll w st doc with
    | (st', none) => runExt w st doc = .ok st'
    | (_, some e) => runExt w st doc = .error e
  | [], st => rfl
  | .stop t :: doc, st => runExtAll_eq w doc _
  | .start t as :: doc, st => by
    simp only [runExtAll, runExt]
    cases h : startExt w st t as with
    | error e => rfl
    | ok st' => exact runExtAll_eq w doc st'

/-- What the fields of the handler are, by what has been read (nearest first). -/
structure NamesInv (w : ExtWorld F) (before : List Sax) (st : ExtSt F) : Prop where
  pfx : st.ext.map (fun x => x.ext.pfx) = prefixAt w before
  cur : st.cur = definingAt w before

theorem namesInv_stop {w : ExtWorld F} {before : List Sax} {st : ExtSt F} (hi : NamesInv w before st) (t : Str) :
    NamesInv w (.stop t :: before) (stopExt st t) ∧ (stopExt st t).names = st.names := by
  unfold stopExt
  split
  · rename_i h
    have h : lower t ∈ defNames := h
    exact ⟨⟨hi.pfx, by simp [definingAt, h]⟩, rfl⟩
  · rename_i h
    have h : lower t ∉ defNames := h
    exact ⟨⟨hi.pfx, by simp only [definingAt, h, if_false]; exact hi.cur⟩, rfl⟩

theorem namesInv_start {w : ExtWorld F} {before : List Sax} {st st' : ExtSt F} (hi : NamesInv w before st) {t : Str} {as : List (Str × Str)}
    (h : startExt w st t as = .ok st') :
    NamesInv w (.start t as :: before) st' ∧ st'.names = (askedAt w before (.start t as)).toList.foldl GlobalMap.step st.names := by
  by_cases hx : lower t = py!"xesextension"
  · have hnd : lower t ∉ defNames := by rw [hx]; decide
    have hna : lower t ≠ py!"alias" := by rw [hx]; decide
    have ha : askedAt w before (.start t as) = none := by simp [askedAt, hna]
    have hd : definingAt w (.start t as :: before) = definingAt w before := by simp [definingAt, hnd]
    simp only [startExt, hx, if_true, attrValue_eq] at h
    cases h1 : dget py!"name" as with
    | none => rw [h1] at h; cases h
    | some n =>
      cases h2 : dget py!"prefix" as with
      | none => rw [h1, h2] at h; cases h
      | some p =>
        cases h3 : dget py!"uri" as with
        | none => rw [h1, h2, h3] at h; cases h
        | some uri =>
          rw [h1, h2, h3] at h
          simp only [bind, Except.bind] at h
          cases h4 : w.urlParse uri with
          | error e => rw [h4] at h; cases h
          | ok u =>
            rw [h4] at h
            cases h5 : w.fetch uri with
            | raises e => rw [h5] at h; cases h
            | urlError =>
              rw [h5] at h
              cases h
              have : UriAnswers w t as = false := by simp [UriAnswers, h3, h5]
              exact ⟨⟨by simp only [prefixAt, this]; exact hi.pfx, hd ▸ hi.cur⟩, by rw [ha]; rfl⟩
            | data b =>
              rw [h5] at h
              cases h
              have : UriAnswers w t as = true := by simp [UriAnswers, hx, h3, h5]
              exact ⟨⟨by simp [prefixAt, this, h2, ExtObj.new], hd ▸ hi.cur⟩, by rw [ha]; rfl⟩
  have hans : UriAnswers w t as = false := by simp [UriAnswers, hx]
  have hp : prefixAt w (.start t as :: before) = prefixAt w before := by simp [prefixAt, hans]
  by_cases hg : lower t ∈ groupNames
  · have hnd : lower t ∉ defNames := by
      have : ∀ g ∈ groupNames, g ∉ defNames := by decide
      exact this _ hg
    have hna : lower t ≠ py!"alias" := fun h => by rw [h] at hg; exact absurd hg (by decide)
    have ha : askedAt w before (.start t as) = none := by simp [askedAt, hna]
    have hd : definingAt w (.start t as :: before) = definingAt w before := by simp [definingAt, hnd]
    have choose : ∀ sc, st.choose sc = .ok st' → NamesInv w (.start t as :: before) st' ∧ st'.names = (askedAt w before (.start t as)).toList.foldl GlobalMap.step st.names := by
      intro sc hc
      unfold ExtSt.choose ExtSt.current at hc
      cases he : st.ext with
      | none => rw [he] at hc; cases hc
      | some x =>
        rw [he] at hc
        cases hc
        exact ⟨⟨by rw [hp, ← hi.pfx, he], hd ▸ hi.cur⟩, by rw [ha]; rfl⟩
    simp only [groupNames, List.mem_cons, List.not_mem_nil, or_false] at hg
    rcases hg with h' | h' | h' | h' <;> simp only [startExt, h'] at h <;> exact choose _ h
  have hg' : lower t ≠ py!"log" ∧ lower t ≠ py!"trace" ∧ lower t ≠ py!"event" ∧ lower t ≠ py!"meta" := by
    simp only [groupNames, List.mem_cons, List.not_mem_nil, or_false, not_or] at hg; exact hg
  simp only [startExt, hx, hg'.1, hg'.2.1, hg'.2.2.1, hg'.2.2.2, if_false] at h
  cases hd : defTag t with
  | some d =>
    rw [hd] at h
    have hm : lower t ∈ defNames := defTag_some hd ▸ tagName_defNames d
    have hna : lower t ≠ py!"alias" := fun h => by rw [h] at hm; exact absurd hm (by decide)
    have ha : askedAt w before (.start t as) = none := by simp [askedAt, hna]
    simp only [startDef, ExtSt.choose, ExtSt.current] at h
    cases he : st.ext with
    | none => rw [he] at h; cases h
    | some x =>
      rw [he] at h
      simp only [bind, Except.bind, attrValue_eq] at h
      cases hk : dget py!"key" as with
      | none => rw [hk] at h; cases h
      | some k =>
        rw [hk] at h
        simp only at h
        have hpx : prefixAt w before = some x.ext.pfx := by rw [← hi.pfx, he]; rfl
        cases hv : defValue w st.drawn d with
        | error e => rw [hv] at h; cases h
        | ok v =>
          rw [hv] at h
          cases h
          refine ⟨⟨?_, ?_⟩, ?_⟩
          · rw [hp, hpx]; rfl
          · simp only [definingAt, hm, if_true, hpx, hk]; rfl
          · rw [ha]
            simp only [ExtSt.addCurrent]
            split <;> rfl
  | none =>
    rw [hd] at h
    have hm := defTag_none hd
    have hdf : definingAt w (.start t as :: before) = definingAt w before := by simp [definingAt, hm]
    cases hc : st.cur with
    | none =>
      rw [hc] at h
      cases h
      have : definingAt w before = none := by rw [← hi.cur, hc]
      exact ⟨⟨hp ▸ hi.pfx, hdf ▸ hi.cur⟩, by simp [askedAt, this]⟩
    | some key =>
      have hk : definingAt w before = some key := by rw [← hi.cur, hc]
      rw [hc] at h
      simp only at h
      by_cases hal : lower t = py!"alias"
      · simp only [hal, if_true, attrValue_eq] at h
        cases h1 : dget py!"mapping" as with
        | none => rw [h1] at h; cases h
        | some m1 =>
          cases h2 : dget py!"name" as with
          | none => rw [h1, h2] at h; cases h
          | some m2 =>
            rw [h1, h2] at h
            cases h
            exact ⟨⟨hp ▸ hi.pfx, hdf ▸ hc ▸ hi.cur⟩, by simp [askedAt, hal, hk, h1, h2, GlobalMap.step]⟩
      · simp only [hal, if_false] at h
        cases h
        exact ⟨⟨hp ▸ hi.pfx, hdf ▸ hi.cur⟩, by simp [askedAt, hal]⟩

theorem askedFrom_append (w : ExtWorld F) : ∀ (a b before : List Sax), askedFrom w before (a ++ b) = askedFrom w before a ++ askedFrom w (a.reverse ++ before) b
  | [], b, before => rfl
  | x :: a, b, before => by
    simp only [List.cons_append, askedFrom, askedFrom_append w a b, List.reverse_cons, List.append_assoc, List.nil_append]

/-- The names at the end or at the exception are those that the elements read ask for. -/
theorem runExtAll_names (w : ExtWorld F) : ∀ (doc before : List Sax) (st : ExtSt F), NamesInv w before st →
    match runExtAll w st doc with
    | (st', none) => st'.names = (askedFrom w before doc).foldl GlobalMap.step st.names
    | (st', some _) => ∃ b t as a, doc = b ++ .start t as :: a ∧ st'.names = (askedFrom w before b).foldl GlobalMap.step st.names ∧
        runExt w st b = .ok st' ∧ ∃ e, startExt w st' t as = .error e
  | [], before, st, _ => rfl
  | .stop t :: doc, before, st, hi => by
    have ⟨h1, h2⟩ := namesInv_stop hi t
    have ih := runExtAll_names w doc _ _ h1
    simp only [runExtAll]
    cases hr : runExtAll w (stopExt st t) doc with
    | mk st' o =>
      rw [hr] at ih
      cases o with
      | none => simpa [askedFrom, askedAt, h2] using ih
      | some e =>
        obtain ⟨b, t', as, a, e1, e2, e3, e4⟩ := ih
        exact ⟨.stop t :: b, t', as, a, by simp [e1], by simpa [askedFrom, askedAt, h2] using e2, e3, e4⟩
  | .start t as :: doc, before, st, hi => by
    simp only [runExtAll]
    cases hs : startExt w st t as with
    | error e => exact ⟨[], t, as, doc, rfl, rfl, rfl, e, hs⟩
    | ok st1 =>
      have ⟨h1, h2⟩ := namesInv_start hi hs
      have ih := runExtAll_names w doc _ _ h1
      simp only
      cases hr : runExtAll w st1 doc with
      | mk st' o =>
        rw [hr] at ih
        cases o with
        | none =>
          simp only [askedFrom, List.foldl_append]
          rw [← h2]; exact ih
        | some e =>
          obtain ⟨b, t', as', a, e1, e2, e3, e4⟩ := ih
          refine ⟨.start t as :: b, t', as', a, by simp [e1], ?_, ?_, e4⟩
          · simp only [askedFrom, List.foldl_append]
            rw [← h2]; exact e2
          · simp only [runExt, hs]; exact e3

theorem namesInv_init (w : ExtWorld F) (names : GlobalMap) : NamesInv w [] (.init F names) := ⟨rfl, rfl⟩

/-- C180: what `parse` returns or raises is what C84 and C156 say. -/
theorem c180_outcome (w : ExtWorld F) (names : GlobalMap) (doc : List Sax) :
    match parseExt w names doc with
    | .ok (x, names') => parseExtAll w names doc = (.ok x, names')
    | .error e => (parseExtAll w names doc).1 = .error e := by
  have h := runExtAll_eq w doc (.init F names)
  simp only [parseExt, parseExtAll]
  cases hr : runExtAll w (.init F names) doc with
  | mk st o =>
    rw [hr] at h
    cases o with
    | none => simp only at h; rw [h]; rfl
    | some e => simp only at h; rw [h]; rfl

/-- C180: a document without a fault registers the aliases it asks for, whatever its elements are. -/
theorem c180_all (w : ExtWorld F) (names : GlobalMap) (doc : List Sax) (h : NoFault w doc) :
    (parseExtAll w names doc).2 = (asked w doc).foldl GlobalMap.step names := by
  obtain ⟨r, hr⟩ := (c156_read w names doc).1.2 h
  have ho := c180_outcome w names doc
  rw [hr] at ho
  have hn := runExtAll_names w doc [] _ (namesInv_init w names)
  simp only [parseExtAll] at ho ⊢
  cases hq : runExtAll w (.init F names) doc with
  | mk st o =>
    rw [hq] at ho hn
    cases o with
    | none => exact hn
    | some e => cases ho

/-- C180: a document with a fault leaves the aliases registered that stand before the first fault. -/
theorem c180_kept (w : ExtWorld F) (names : GlobalMap) {before after : List Sax} {t : Str} {as : List (Str × Str)} {e : PyErr}
    (hf : ExtFault w before t as e) (hb : NoFault w before) :
    parseExtAll w names (before ++ .start t as :: after) = (.error e, (asked w before).foldl GlobalMap.step names) := by
  have hp := (c156_exact w names _ e).2 ⟨before, t, as, after, rfl, hf, hb⟩
  have ho := c180_outcome w names (before ++ .start t as :: after)
  rw [hp] at ho
  refine Prod.ext ho ?_
  obtain ⟨⟨x, names'⟩, hx⟩ := (c156_read w names before).1.2 hb
  obtain ⟨st0, hst0, _⟩ := bind_ok.1 hx
  have hs : ∃ e', startExt w st0 t as = .error e' := by
    unfold parseExt at hp
    rw [runExt_append, hst0] at hp
    cases hs : startExt w st0 t as with
    | error e' => exact ⟨e', rfl⟩
    | ok st1 =>
      exfalso
      have hi := runExt_faults before [] _ (extInv_init w names)
      rw [hst0] at hi
      have := startExt_step (by simpa using hi.2) t as
      rw [hs] at this
      exact this.1 e hf
  obtain ⟨e', hs⟩ := hs
  have hn := runExtAll_names w before [] _ (namesInv_init w names)
  have he := runExtAll_eq w before (.init F names)
  have key : ∀ (b : List Sax) (st : ExtSt F), runExt w st b = .ok st0 → runExtAll w st (b ++ .start t as :: after) = (st0, some e') := by
    intro b
    induction b with
    | nil => intro st h; cases h; simp only [List.nil_append, runExtAll, hs]
    | cons x b ih =>
      intro st h
      cases x with
      | stop t' => exact ih _ h
      | start t' as' =>
        simp only [runExt] at h
        obtain ⟨st1, h1, h2⟩ := bind_ok.1 h
        simp only [List.cons_append, runExtAll, h1]
        exact ih _ h2
  simp only [parseExtAll, key _ _ hst0]
  cases hq : runExtAll w (.init F names) before with
  | mk st o =>
    rw [hq] at hn he
    cases o with
    | none =>
      simp only at he hn
      rw [hst0] at he
      cases he
      exact hn
    | some e => simp only at he; rw [hst0] at he; cases he

/-- Registering the same names before, once more, makes no difference afterwards. -/
theorem lastAlias_again (c a m : List MapCall) (n k : Str) : lastAlias (c ++ a ++ (a ++ m)) n k = lastAlias (c ++ (a ++ m)) n k := by
  simp only [lastAlias, List.filterMap_append]
  generalize c.filterMap (MapCall.alias n k) = x
  generalize a.filterMap (MapCall.alias n k) = y
  generalize m.filterMap (MapCall.alias n k) = z
  by_cases hz : z = []
  · subst hz
    by_cases hy : y = []
    · subst hy; simp
    · simp only [List.append_nil]
      rw [List.getLast?_append_of_ne_nil _ hy, List.getLast?_append_of_ne_nil _ hy]
  · have : y ++ z ≠ [] := by simp [hz]
    rw [List.getLast?_append_of_ne_nil _ this, List.getLast?_append_of_ne_nil _ this]

theorem mapSafely_again (c a m : List MapCall) (arg : AttrArg) (n : Str) :
    (GlobalMap.run (c ++ a ++ (a ++ m))).mapSafely arg n = (GlobalMap.run (c ++ (a ++ m))).mapSafely arg n := by
  cases hk : arg.key with
  | none =>
    cases arg with
    | str k => cases hk
    | attrib k => cases hk
    | other =>
      have : ∀ g : GlobalMap, g.mapSafely .other n = none := by
        intro g
        unfold GlobalMap.mapSafely
        split
        · rfl
        · split <;> rfl
      rw [this, this]
  | some k =>
    obtain ⟨_, h1, h2⟩ := c71_maps (c ++ a ++ (a ++ m)) arg k hk n
    obtain ⟨_, h3, h4⟩ := c71_maps (c ++ (a ++ m)) arg k hk n
    have hkn : KnownMapping (c ++ a ++ (a ++ m)) n ↔ KnownMapping (c ++ (a ++ m)) n := by
      simp only [KnownMapping, List.mem_append]
      constructor
      · rintro (h | ⟨x, (h | h) | h | h, hn⟩)
        · exact .inl h
        · exact .inr ⟨x, .inl h, hn⟩
        · exact .inr ⟨x, .inr (.inl h), hn⟩
        · exact .inr ⟨x, .inr (.inl h), hn⟩
        · exact .inr ⟨x, .inr (.inr h), hn⟩
      · rintro (h | ⟨x, h | h | h, hn⟩)
        · exact .inl h
        · exact .inr ⟨x, .inl (.inl h), hn⟩
        · exact .inr ⟨x, .inl (.inr h), hn⟩
        · exact .inr ⟨x, .inr (.inr h), hn⟩
    by_cases hn : KnownMapping (c ++ (a ++ m)) n
    · rw [h1 (hkn.2 hn), h3 hn, lastAlias_again, lastAlias_again]
    · rw [h2 (fun h => hn (hkn.1 h)), h4 hn]

/-- C180: reading the document again after it has been corrected from the fault on translates every attribute as if the first attempt had not been
made. -/
theorem c180_retry (w : ExtWorld F) (calls : List MapCall) {before after rest : List Sax} {t : Str} {as : List (Str × Str)} {e : PyErr}
    (hf : ExtFault w before t as e) (hb : NoFault w before) (hr : NoFault w (before ++ rest)) (arg : AttrArg) (n : Str) :
    (parseExtAll w (parseExtAll w (GlobalMap.run calls) (before ++ .start t as :: after)).2 (before ++ rest)).2.mapSafely arg n =
      (parseExtAll w (GlobalMap.run calls) (before ++ rest)).2.mapSafely arg n := by
  rw [c180_all w _ _ hr, c180_all w _ _ hr, c180_kept w _ hf hb]
  have hrun : ∀ x y : List MapCall, y.foldl GlobalMap.step (GlobalMap.run x) = GlobalMap.run (x ++ y) := by
    intro x y; simp only [GlobalMap.run, List.foldl_append]
  rw [hrun, hrun, hrun]
  simp only [asked, askedFrom_append w before rest []]
  exact mapSafely_again _ _ _ _ _

/-- C180: a document that can be read asks for the registrations of C86. -/
theorem c180_standard (w : ExtWorld F) {sp : Str → Str} (hs : SpellsTags sp) {d : ExtDoc} {uri : Str} {epoch : DateTime} (hr : Readable w d uri epoch)
    (names : GlobalMap) : (asked w (d.xml sp).sax).foldl GlobalMap.step names = d.names.foldl GlobalMap.step names := by
  have h := parse_doc w hs hr names
  rw [← c180_all w names _ ((c156_read w names _).1.1 ⟨_, h⟩)]
  have ho := c180_outcome w names (d.xml sp).sax
  rw [h] at ho
  rw [ho]

end

/-! ## Examples -/

/-- A definition whose second attribute has no key. -/
def brokenDoc : List Sax :=
  [costRoot, .start py!"string" [(py!"key", py!"a")], .start py!"alias" [(py!"mapping", py!"DE"), (py!"name", py!"Kosten")], .stop py!"alias", .stop py!"string",
   .start py!"int" [], .stop py!"int"]

/-- C180: a definition that is refused does not leave the name map as it was. -/
theorem c180_refuted : ∃ (w : ExtWorld ToyFloat) (names : GlobalMap) (doc : List Sax) (e : PyErr),
    parseExt w names doc = .error e ∧ (parseExtAll w names doc).1 = .error e ∧
    names.mapSafely (.str py!"cost:a") py!"DE" = none ∧ (parseExtAll w names doc).2.mapSafely (.str py!"cost:a") py!"DE" = some py!"Kosten" :=
  ⟨onlineWorld, .init, brokenDoc, .keyError, rfl, rfl, by decide +kernel, by decide +kernel⟩

/-- C180: an alias that the corrected document no longer has stays registered. -/
theorem c180_stale : ∃ (w : ExtWorld ToyFloat) (broken corrected : List Sax),
    NoFault w corrected ∧ asked w corrected = [] ∧ (parseExtAll w .init broken).1 = .error .keyError ∧
    (parseExtAll w (parseExtAll w .init broken).2 corrected).2.mapSafely (.str py!"cost:a") py!"DE" = some py!"Kosten" ∧
    (parseExtAll w .init corrected).2.mapSafely (.str py!"cost:a") py!"DE" = none :=
  ⟨onlineWorld, brokenDoc, [costRoot, .start py!"string" [(py!"key", py!"a")], .stop py!"string"],
    (c156_read _ .init _).1.1 ⟨_, rfl⟩, by decide +kernel, rfl, by decide +kernel, by decide +kernel⟩

/-- The hypotheses of `c180_kept` and `c180_retry` for that document, corrected by giving the key. -/
example : ∃ before t as after, brokenDoc = before ++ .start t as :: after ∧ ExtFault onlineWorld before t as .keyError ∧ NoFault onlineWorld before ∧
    asked onlineWorld before = [.register py!"DE" (.str py!"cost:a") (.str py!"Kosten")] ∧
    NoFault onlineWorld (before ++ [.start t [(py!"key", py!"b")], .stop t]) := by
  refine ⟨brokenDoc.take 5, py!"int", [], [.stop py!"int"], rfl, .key (by decide) ⟨_, _, _, _, List.mem_cons_self, rfl, rfl, rfl⟩ rfl, ?_, rfl, ?_⟩
  · exact (c156_read _ .init _).1.1 ⟨_, rfl⟩
  · exact (c156_read _ .init _).1.1 ⟨_, rfl⟩

end Opy
