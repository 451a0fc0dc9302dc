import Verif.Model.ExtParse
import Verif.Props.Util
import Verif.Props.ExtMgr
/-
C83-C87: reading extension definitions, and the attribute sets of an extension.
-/
set_option linter.unusedSectionVars false
namespace Opy

variable {F : Type} [PyFloat F]

/-! ## Specification -/

/-- An alias of an attribute definition: the mapping (usually a language) and the name in it. -/
structure AliasDef where
  mapping : Str
  name : Str

/-- An attribute definition of an extension document. -/
structure AttrDef where
  kind : DefKind
  key : Str
  aliases : List AliasDef

/-- An extension document: name, prefix, URI, and the definitions, grouped by scope. -/
structure ExtDoc where
  name : Str
  pfx : Str
  uri : Str
  groups : List (Scope × List AttrDef)

/-- The element names of the XES standard. -/
def DefKind.tagName : DefKind → Str
  | .string => py!"string"
  | .date => py!"date"
  | .int => py!"int"
  | .float => py!"float"
  | .boolean => py!"boolean"
  | .id => py!"id"

/-- The element names of the XES standard. -/
def Scope.tagName : Scope → Str
  | .log => py!"log"
  | .trace => py!"trace"
  | .event => py!"event"
  | .nested => py!"meta"

/-- An alias as XML; `sp` spells the element names (lower or upper case letters). -/
def AliasDef.xml (sp : Str → Str) (al : AliasDef) : Xml :=
  .elem (sp py!"alias") [(py!"mapping", al.mapping), (py!"name", al.name)] []

/-- A definition as XML. -/
def AttrDef.xml (sp : Str → Str) (d : AttrDef) : Xml :=
  .elem (sp d.kind.tagName) [(py!"key", d.key)] (d.aliases.map (AliasDef.xml sp))

/-- A group of definitions as XML. -/
def groupXml (sp : Str → Str) (g : Scope × List AttrDef) : Xml := .elem (sp g.1.tagName) [] (g.2.map (AttrDef.xml sp))

/-- An extension document as XML. -/
def ExtDoc.xml (sp : Str → Str) (d : ExtDoc) : Xml :=
  .elem (sp py!"xesextension") [(py!"name", d.name), (py!"prefix", d.pfx), (py!"uri", d.uri)] (d.groups.map (groupXml sp))

/-- All definitions of a document. -/
def ExtDoc.defs (d : ExtDoc) : List AttrDef := d.groups.flatMap Prod.snd

/-- The key of a defined attribute: the prefix of the extension, a colon, the key of the definition. -/
def fullKey (pfx : Str) (d : AttrDef) : Str := pfx ++ py!":" ++ d.key

/-- The class of the attribute that a definition stands for. -/
def DefKind.attrClass : DefKind → Kind
  | .string => .literal
  | .date => .timestamp
  | .int => .discrete
  | .float => .continuous
  | .boolean => .boolean
  | .id => .id

/-- The attribute is the one that a definition asks for: class, key, the extension, nothing nested, and
the neutral value of the class (any identifier for the class of identifiers). -/
structure Realises (w : ExtWorld F) (e : Ext) (d : AttrDef) (a : Attr F) : Prop where
  kind : a.kind = d.kind.attrClass
  key : a.key = fullKey e.pfx d
  ext : a.ext = some e
  plain : a.attrs = [] ∧ a.coll = []
  value : match d.kind with
    | .string => a.val = .str py!"DEFAULT"
    | .date => ∃ t, w.epoch = .ok t ∧ a.val = .dt t
    | .int => a.val = .int 0
    | .float => a.val = .float w.zero
    | .boolean => a.val = .bool false
    | .id => ∃ u, a.val = .xid u

/-- The registrations of names that a document asks for, in the order of the document. -/
def ExtDoc.names (d : ExtDoc) : List MapCall :=
  d.defs.flatMap fun a => a.aliases.map fun al => .register al.mapping (.str (fullKey d.pfx a)) (.str al.name)

/-- The spelling of element names does not matter beyond upper and lower case. -/
def SpellsTags (sp : Str → Str) : Prop := ∀ t, lower (sp t) = lower t

/-- The document can be read: the URI is well-formed and answers, and the epoch exists in local time. -/
structure Readable (w : ExtWorld F) (d : ExtDoc) (uri : Str) (epoch : DateTime) : Prop where
  url : w.urlParse d.uri = .ok uri
  reach : ∃ b, w.fetch d.uri = .data b
  epoch : w.epoch = .ok epoch

/-! ## Running the handler -/

theorem runExt_append (w : ExtWorld F) : ∀ (s t : List Sax) (st : ExtSt F),
    runExt w st (s ++ t) = (runExt w st s >>= fun st => runExt w st t) := by
  intro s
  induction s with
  | nil => intro t st; rfl
  | cons e s ih =>
    intro t st
    cases e with
    | start tag as =>
      simp only [List.cons_append, runExt]
      cases startExt w st tag as with
      | error x => rfl
      | ok st => exact ih t st
    | stop tag => exact ih t _

theorem lower_tags (d : DefKind) : lower d.tagName = d.tagName := by cases d <;> decide
theorem lower_scopes (d : Scope) : lower d.tagName = d.tagName := by cases d <;> decide

/-- The state after the aliases of an attribute. -/
theorem run_aliases (w : ExtWorld F) {sp : Str → Str} (hs : SpellsTags sp) (key : Str) : ∀ (als : List AliasDef) (st : ExtSt F),
    st.cur = some key →
    runExt w st (saxList (als.map (AliasDef.xml sp))) =
      .ok { st with names := (als.map fun al => MapCall.register al.mapping (.str key) (.str al.name)).foldl GlobalMap.step st.names } := by
  intro als
  induction als with
  | nil => intro st _; rfl
  | cons al als ih =>
    intro st hc
    have hl : lower (sp py!"alias") = py!"alias" := by rw [hs]; decide
    have h1 : startExt w st (sp py!"alias") [(py!"mapping", al.mapping), (py!"name", al.name)] =
        .ok { st with names := st.names.register al.mapping (.str key) (.str al.name) } := by
      unfold startExt
      rw [hl, if_neg (by decide), if_neg (by decide), if_neg (by decide), if_neg (by decide), if_neg (by decide)]
      have : defTag (sp py!"alias") = none := by
        unfold defTag
        rw [hl]
        decide
      rw [this]
      simp only [hc]
      rfl
    have h2 : ∀ st : ExtSt F, stopExt st (sp py!"alias") = st := by
      intro st
      unfold stopExt
      rw [hl]
      rfl
    simp only [List.map_cons, saxList, AliasDef.xml, Xml.sax, saxList, List.nil_append, List.cons_append, runExt, h1]
    show runExt w (stopExt _ (sp py!"alias")) _ = _
    rw [h2]
    exact ih _ hc

/-- The attribute that the handler makes of a definition. -/
def madeAttr (w : ExtWorld F) (e : Ext) (epoch : DateTime) (drawn : Nat) (d : AttrDef) : Attr F :=
  .mk d.kind.kind (e.pfx ++ [':'] ++ d.key) (some e) (match d.kind with
    | .string => .str py!"DEFAULT"
    | .date => .dt epoch
    | .int => .int 0
    | .float => .float w.zero
    | .boolean => .bool false
    | .id => .xid (w.rnd drawn)) [] []

/-- The number of random identifiers drawn after a definition. -/
def drawnAfter (drawn : Nat) (d : AttrDef) : Nat := if d.kind = .id then drawn + 1 else drawn

theorem defTag_spelt {sp : Str → Str} (hs : SpellsTags sp) (d : DefKind) : defTag (sp d.tagName) = some d := by
  unfold defTag
  rw [hs, lower_tags]
  cases d <;> decide

theorem run_def (w : ExtWorld F) {sp : Str → Str} (hs : SpellsTags sp) {epoch : DateTime} (he : w.epoch = .ok epoch)
    (d : AttrDef) (st : ExtSt F) (x : ExtObj F) (hx : st.ext = some x) :
    runExt w st (d.xml sp).sax = .ok
    { ext := some (x.add .log (madeAttr w x.ext epoch st.drawn d)), cur := none, scope := some .log,
      names := (d.aliases.map fun al => MapCall.register al.mapping (.str (fullKey x.ext.pfx d)) (.str al.name)).foldl GlobalMap.step st.names,
      drawn := drawnAfter st.drawn d } := by
  have hl : lower (sp d.kind.tagName) = d.kind.tagName := by rw [hs, lower_tags]
  have h1 : startExt w st (sp d.kind.tagName) [(py!"key", d.key)] =
      .ok { ext := some (x.add .log (madeAttr w x.ext epoch st.drawn d)), cur := some (fullKey x.ext.pfx d), scope := some .log,
            names := st.names, drawn := drawnAfter st.drawn d } := by
    unfold startExt
    rw [defTag_spelt hs, hl]
    have ne : ∀ t ∈ [py!"xesextension", py!"log", py!"trace", py!"event", py!"meta"], d.kind.tagName ≠ t := by
      cases d.kind <;> decide
    rw [if_neg (ne _ (by decide)), if_neg (ne _ (by decide)), if_neg (ne _ (by decide)), if_neg (ne _ (by decide)),
      if_neg (ne _ (by decide))]
    have hk : attrValue [(py!"key", d.key)] py!"key" = .ok d.key := rfl
    simp only [startDef, ExtSt.choose, ExtSt.current, hx, hk, bind, Except.bind]
    cases hd : d.kind <;> simp [defValue, he, bind, Except.bind, hd, drawnAfter, madeAttr, ExtSt.addCurrent, fullKey, Attr.key, DefKind.kind]
  have h2 : ∀ st : ExtSt F, stopExt st (sp d.kind.tagName) = { st with cur := none } := by
    intro st
    unfold stopExt
    rw [hl, if_pos]
    cases d.kind <;> decide
  simp only [AttrDef.xml, Xml.sax, runExt, h1]
  show runExt w _ (saxList (d.aliases.map (AliasDef.xml sp)) ++ _) = _
  rw [runExt_append, run_aliases w hs (fullKey x.ext.pfx d) d.aliases _ rfl]
  show runExt w _ [Sax.stop _] = _
  simp only [runExt, h2]

/-- The log attributes after some definitions. -/
def foldDefs (w : ExtWorld F) (epoch : DateTime) : ExtObj F × Nat → List AttrDef → ExtObj F × Nat
  | p, [] => p
  | p, d :: ds => foldDefs w epoch (p.1.add .log (madeAttr w p.1.ext epoch p.2 d), drawnAfter p.2 d) ds

theorem foldDefs_ext (w : ExtWorld F) (epoch : DateTime) : ∀ (ds : List AttrDef) (p : ExtObj F × Nat),
    (foldDefs w epoch p ds).1.ext = p.1.ext := by
  intro ds
  induction ds with
  | nil => intro p; rfl
  | cons d ds ih => intro p; simp only [foldDefs]; rw [ih]; rfl

/-- The registrations of some definitions. -/
def defCalls (pfx : Str) (ds : List AttrDef) : List MapCall :=
  ds.flatMap fun a => a.aliases.map fun al => .register al.mapping (.str (fullKey pfx a)) (.str al.name)

theorem run_defs (w : ExtWorld F) {sp : Str → Str} (hs : SpellsTags sp) {epoch : DateTime} (he : w.epoch = .ok epoch) :
    ∀ (ds : List AttrDef) (st : ExtSt F) (x : ExtObj F), st.ext = some x → st.cur = none →
    ∃ st', runExt w st (saxList (ds.map (AttrDef.xml sp))) = .ok st' ∧ st'.ext = some (foldDefs w epoch (x, st.drawn) ds).1 ∧
      st'.drawn = (foldDefs w epoch (x, st.drawn) ds).2 ∧ st'.cur = none ∧
      st'.names = (defCalls x.ext.pfx ds).foldl GlobalMap.step st.names := by
  intro ds
  induction ds with
  | nil => intro st x hx hc; exact ⟨st, rfl, hx, rfl, hc, rfl⟩
  | cons d ds ih =>
    intro st x hx hc
    simp only [List.map_cons, saxList]
    rw [runExt_append, run_def w hs he d st x hx]
    obtain ⟨st', h1, h2, h3, h4, h5⟩ := ih
      { ext := some (x.add .log (madeAttr w x.ext epoch st.drawn d)), cur := none, scope := some .log,
        names := (d.aliases.map fun al => MapCall.register al.mapping (.str (fullKey x.ext.pfx d)) (.str al.name)).foldl GlobalMap.step st.names,
        drawn := drawnAfter st.drawn d } _ rfl rfl
    refine ⟨st', h1, h2, h3, h4, ?_⟩
    rw [h5]
    simp only [defCalls, List.flatMap_cons, List.foldl_append]
    rfl

theorem run_group (w : ExtWorld F) {sp : Str → Str} (hs : SpellsTags sp) {epoch : DateTime} (he : w.epoch = .ok epoch)
    (g : Scope × List AttrDef) (st : ExtSt F) (x : ExtObj F) (hx : st.ext = some x) (hc : st.cur = none) :
    ∃ st', runExt w st (groupXml sp g).sax = .ok st' ∧ st'.ext = some (foldDefs w epoch (x, st.drawn) g.2).1 ∧
      st'.drawn = (foldDefs w epoch (x, st.drawn) g.2).2 ∧ st'.cur = none ∧
      st'.names = (defCalls x.ext.pfx g.2).foldl GlobalMap.step st.names := by
  have hl : lower (sp g.1.tagName) = g.1.tagName := by rw [hs, lower_scopes]
  have h1 : startExt w st (sp g.1.tagName) [] = .ok { st with scope := some g.1 } := by
    unfold startExt
    rw [hl]
    simp only [ExtSt.choose, ExtSt.current, hx, bind, Except.bind]
    cases g.1 <;> rfl
  have h2 : ∀ st : ExtSt F, stopExt st (sp g.1.tagName) = st := by
    intro st
    unfold stopExt
    rw [hl, if_neg]
    cases g.1 <;> decide
  obtain ⟨st', e1, e2, e3, e4, e5⟩ := run_defs w hs he g.2 { st with scope := some g.1 } x hx hc
  refine ⟨st', ?_, e2, e3, e4, e5⟩
  simp only [groupXml, Xml.sax, runExt, h1]
  show runExt w _ (saxList _ ++ _) = _
  rw [runExt_append, e1]
  show runExt w _ [Sax.stop _] = _
  simp only [runExt, h2]

theorem foldDefs_append (w : ExtWorld F) (epoch : DateTime) : ∀ (a b : List AttrDef) (p : ExtObj F × Nat),
    foldDefs w epoch p (a ++ b) = foldDefs w epoch (foldDefs w epoch p a) b := by
  intro a
  induction a with
  | nil => intro b p; rfl
  | cons d a ih => intro b p; exact ih b _

theorem run_groups (w : ExtWorld F) {sp : Str → Str} (hs : SpellsTags sp) {epoch : DateTime} (he : w.epoch = .ok epoch) :
    ∀ (gs : List (Scope × List AttrDef)) (st : ExtSt F) (x : ExtObj F), st.ext = some x → st.cur = none →
    ∃ st', runExt w st (saxList (gs.map (groupXml sp))) = .ok st' ∧
      st'.ext = some (foldDefs w epoch (x, st.drawn) (gs.flatMap Prod.snd)).1 ∧
      st'.names = (defCalls x.ext.pfx (gs.flatMap Prod.snd)).foldl GlobalMap.step st.names := by
  intro gs
  induction gs with
  | nil => intro st x hx _; exact ⟨st, rfl, hx, rfl⟩
  | cons g gs ih =>
    intro st x hx hc
    obtain ⟨st1, e1, e2, e3, e4, e5⟩ := run_group w hs he g st x hx hc
    obtain ⟨st2, f1, f2, f3⟩ := ih st1 _ e2 e4
    refine ⟨st2, ?_, ?_, ?_⟩
    · simp only [List.map_cons, saxList]
      rw [runExt_append, e1]
      exact f1
    · rw [f2, e3, List.flatMap_cons, foldDefs_append]
    · rw [f3, e5, foldDefs_ext, List.flatMap_cons]
      simp [defCalls, List.foldl_append]

/-- Reading a document that can be read. -/
theorem parse_doc (w : ExtWorld F) {sp : Str → Str} (hs : SpellsTags sp) {d : ExtDoc} {uri : Str} {epoch : DateTime}
    (hr : Readable w d uri epoch) (names : GlobalMap) :
    parseExt w names (d.xml sp).sax =
      .ok (some (foldDefs w epoch (.new F ⟨d.name, d.pfx, uri⟩, 0) d.defs).1, d.names.foldl GlobalMap.step names) := by
  obtain ⟨b, hb⟩ := hr.reach
  have hl : lower (sp py!"xesextension") = py!"xesextension" := by rw [hs]; decide
  have h1 : startExt w (ExtSt.init F names) (sp py!"xesextension") [(py!"name", d.name), (py!"prefix", d.pfx), (py!"uri", d.uri)] =
      .ok { (ExtSt.init F names) with ext := some (.new F ⟨d.name, d.pfx, uri⟩) } := by
    unfold startExt
    rw [hl, if_pos rfl]
    show (w.urlParse d.uri >>= fun xUri => match w.fetch d.uri with
      | .urlError => .ok _
      | .raises e => .error e
      | .data _ => .ok _) = _
    rw [hr.url, hb]
    rfl
  have h2 : ∀ st : ExtSt F, stopExt st (sp py!"xesextension") = st := by
    intro st
    unfold stopExt
    rw [hl]
    rfl
  obtain ⟨st', e1, e2, e3⟩ := run_groups w hs hr.epoch d.groups
    { (ExtSt.init F names) with ext := some (.new F ⟨d.name, d.pfx, uri⟩) } _ rfl rfl
  unfold parseExt
  have : runExt w (ExtSt.init F names) (d.xml sp).sax = .ok st' := by
    simp only [ExtDoc.xml, Xml.sax, runExt, h1]
    show runExt w _ (saxList _ ++ _) = _
    rw [runExt_append, e1]
    show runExt w _ [Sax.stop _] = _
    simp only [runExt, h2]
  rw [this]
  show Except.ok (st'.ext, st'.names) = _
  rw [e2, e3]
  rfl

/-! ## C83 -/

/-- Only log attributes are ever added. -/
theorem startExt_scopes (w : ExtWorld F) {st st' : ExtSt F} {t : Str} {as : List (Str × Str)} (h : startExt w st t as = .ok st')
    (hi : ∀ x, st.ext = some x → x.all = none ∧ ∀ sc, sc ≠ .log → x.sets sc = []) :
    ∀ x, st'.ext = some x → x.all = none ∧ ∀ sc, sc ≠ .log → x.sets sc = [] := by
  have hch : ∀ sc st', st.choose sc = .ok st' → st'.ext = st.ext := by
    intro sc st' h
    unfold ExtSt.choose at h
    rw [bind_ok] at h
    obtain ⟨_, _, h⟩ := h
    cases h
    rfl
  unfold startExt at h
  split at h
  · simp only [bind_ok] at h
    obtain ⟨_, _, _, _, _, _, _, _, h⟩ := h
    split at h
    · cases h; exact hi
    · cases h
    · cases h
      intro x hx
      cases hx
      exact ⟨rfl, fun _ _ => rfl⟩
  · split at h
    · rw [hch _ _ h]; exact hi
    · split at h
      · rw [hch _ _ h]; exact hi
      · split at h
        · rw [hch _ _ h]; exact hi
        · split at h
          · rw [hch _ _ h]; exact hi
          · split at h
            · simp only [startDef, bind_ok] at h
              obtain ⟨s1, e1, x, e2, _, _, v, _, h⟩ := h
              have hs1 := hch _ _ e1
              have hsc : s1.scope = some .log := by
                unfold ExtSt.choose at e1
                rw [bind_ok] at e1
                obtain ⟨_, _, e1⟩ := e1
                cases e1
                rfl
              have hx0 : st.ext = some x := by
                unfold ExtSt.current at e2
                rw [hs1] at e2
                split at e2
                · rename_i y hy
                  cases e2
                  exact hy
                · cases e2
              cases h
              intro y hy
              split at hy <;>
              · cases hy
                refine ⟨(hi x hx0).1, fun sc hsc' => ?_⟩
                simp only [hsc, Option.getD_some, ExtObj.add, if_neg hsc']
                exact (hi x hx0).2 sc hsc'
            · split at h
              · split at h
                · simp only [bind_ok] at h
                  obtain ⟨_, _, _, _, h⟩ := h
                  cases h
                  exact hi
                · cases h; exact hi
              · cases h; exact hi

theorem runExt_scopes (w : ExtWorld F) : ∀ (s : List Sax) {st st' : ExtSt F}, runExt w st s = .ok st' →
    (∀ x, st.ext = some x → x.all = none ∧ ∀ sc, sc ≠ .log → x.sets sc = []) →
    ∀ x, st'.ext = some x → x.all = none ∧ ∀ sc, sc ≠ .log → x.sets sc = [] := by
  intro s
  induction s with
  | nil => intro st st' h hi; cases h; exact hi
  | cons e s ih =>
    intro st st' h hi
    cases e with
    | start t as =>
      simp only [runExt, bind_ok] at h
      obtain ⟨s1, h1, h⟩ := h
      exact ih h (startExt_scopes w h1 hi)
    | stop t =>
      refine ih h ?_
      unfold stopExt
      split <;> exact hi

/-- **C83** (what happens): whatever the document, however it is nested - the extension that is read has
no trace, event or meta attributes. -/
theorem c83_all_log (w : ExtWorld F) (names : GlobalMap) (doc : List Sax) {x : ExtObj F} {names' : GlobalMap}
    (h : parseExt w names doc = .ok (some x, names')) {sc : Scope} (hsc : sc ≠ .log) : x.sets sc = [] := by
  simp only [parseExt, bind_ok] at h
  obtain ⟨st, h1, h⟩ := h
  have hx : st.ext = some x := by injection h with h; exact congrArg Prod.fst h
  exact (runExt_scopes w doc h1 (by intro x hx; cases hx) x hx).2 sc hsc


/-- **C83** (violated): a definition that stands in the group of another scope than the log is read, but
the extension does not list it there - for every document with such a definition. -/
theorem c83_refuted (w : ExtWorld F) {sp : Str → Str} (hs : SpellsTags sp) {d : ExtDoc} {uri : Str} {epoch : DateTime}
    (hr : Readable w d uri epoch) (names : GlobalMap) {g : Scope × List AttrDef} (_hg : g ∈ d.groups) (hsc : g.1 ≠ .log)
    {a : AttrDef} (_ha : a ∈ g.2) :
    ∃ x names', parseExt w names (d.xml sp).sax = .ok (some x, names') ∧
      ¬ ∃ b ∈ x.sets g.1, b.kind = a.kind.attrClass ∧ b.key = fullKey d.pfx a := by
  have h := parse_doc w hs hr names
  refine ⟨_, _, h, ?_⟩
  rw [c83_all_log w names _ h hsc]
  simp

/-! ## C84 -/

theorem attrEq_typed {a b : Attr F} (ha : a.kind.isCollection = false) (h : attrEq false a b = true) :
    a.kind = b.kind ∧ a.key = b.key := by
  unfold attrEq at h
  rw [ha] at h
  simp only [Bool.false_eq_true, if_false] at h
  split at h
  · rename_i hk
    simp only [Bool.and_eq_true, beq_iff_eq] at h
    exact ⟨hk, h.1⟩
  · cases h

theorem mem_addAttr {s : List (Attr F)} {a b : Attr F} (h : b ∈ addAttr s a) : b ∈ s ∨ b = a := by
  unfold addAttr at h
  split at h
  · exact Or.inl h
  · simpa using h

theorem addAttr_mono {s : List (Attr F)} {a b : Attr F} (h : b ∈ s) : b ∈ addAttr s a := by
  unfold addAttr
  split
  · exact h
  · exact List.mem_append_left _ h

/-- After adding, the set has an attribute of that class and key. -/
theorem addAttr_has {s : List (Attr F)} (a : Attr F) (hs : ∀ b ∈ s, b.kind.isCollection = false) :
    ∃ b ∈ addAttr s a, b.kind = a.kind ∧ b.key = a.key := by
  unfold addAttr
  split
  · rename_i h
    obtain ⟨b, hb, he⟩ := List.any_eq_true.1 h
    exact ⟨b, hb, attrEq_typed (hs b hb) he⟩
  · exact ⟨a, by simp, rfl, rfl⟩

theorem made_realises (w : ExtWorld F) (e : Ext) {epoch : DateTime} (he : w.epoch = .ok epoch) (n : Nat) (d : AttrDef) :
    Realises w e d (madeAttr w e epoch n d) := by
  refine ⟨?_, rfl, rfl, ⟨rfl, rfl⟩, ?_⟩
  · cases hd : d.kind <;> simp [madeAttr, Attr.kind, hd, DefKind.kind, DefKind.attrClass]
  · cases hd : d.kind <;> simp [madeAttr, Attr.val, hd, he]

theorem realises_typed {w : ExtWorld F} {e : Ext} {d : AttrDef} {a : Attr F} (h : Realises w e d a) : a.kind.isCollection = false := by
  rw [h.kind]
  cases d.kind <;> rfl

theorem foldDefs_spec (w : ExtWorld F) {epoch : DateTime} (he : w.epoch = .ok epoch) : ∀ (ds done : List AttrDef) (p : ExtObj F × Nat),
    (∀ a ∈ p.1.sets .log, ∃ d ∈ done, Realises w p.1.ext d a) →
    (∀ d ∈ done, ∃ a ∈ p.1.sets .log, a.kind = d.kind.attrClass ∧ a.key = fullKey p.1.ext.pfx d) →
    (∀ a ∈ (foldDefs w epoch p ds).1.sets .log, ∃ d ∈ done ++ ds, Realises w p.1.ext d a) ∧
    (∀ d ∈ done ++ ds, ∃ a ∈ (foldDefs w epoch p ds).1.sets .log, a.kind = d.kind.attrClass ∧ a.key = fullKey p.1.ext.pfx d) := by
  intro ds
  induction ds with
  | nil => intro done p h1 h2; simpa [foldDefs] using ⟨h1, h2⟩
  | cons d ds ih =>
    intro done p h1 h2
    have key := ih (done ++ [d]) (p.1.add .log (madeAttr w p.1.ext epoch p.2 d), drawnAfter p.2 d) ?_ ?_
    · simp only [List.append_assoc, List.singleton_append] at key
      exact key
    · intro a ha
      have ha : a ∈ addAttr (p.1.sets .log) (madeAttr w p.1.ext epoch p.2 d) := by simpa [ExtObj.add] using ha
      rcases mem_addAttr ha with ha | rfl
      · obtain ⟨d', hd', hr⟩ := h1 a ha
        exact ⟨d', List.mem_append_left _ hd', hr⟩
      · exact ⟨d, by simp, made_realises w p.1.ext he p.2 d⟩
    · intro d' hd'
      rcases List.mem_append.1 hd' with hd' | hd'
      · obtain ⟨a, ha, hk⟩ := h2 d' hd'
        exact ⟨a, by simpa [ExtObj.add] using addAttr_mono ha, hk⟩
      · rw [List.mem_singleton] at hd'
        subst hd'
        obtain ⟨b, hb, hk1, hk2⟩ := addAttr_has (madeAttr w p.1.ext epoch p.2 d') (fun b hb => by
          obtain ⟨_, _, hr⟩ := h1 b hb
          exact realises_typed hr)
        have hr := made_realises w p.1.ext he p.2 d'
        exact ⟨b, by simpa [ExtObj.add] using hb, hk1.trans hr.kind, hk2.trans hr.key⟩

theorem mem_updateAttrs : ∀ (t s : List (Attr F)) {a : Attr F}, a ∈ updateAttrs s t → a ∈ s ∨ a ∈ t := by
  intro t
  induction t with
  | nil => intro s a h; exact Or.inl h
  | cons b t ih =>
    intro s a h
    rcases ih _ h with h | h
    · rcases mem_addAttr h with h | rfl
      · exact Or.inl h
      · exact Or.inr (by simp)
    · exact Or.inr (List.mem_cons_of_mem _ h)

theorem updateAttrs_mono : ∀ (t s : List (Attr F)) {a : Attr F}, a ∈ s → a ∈ updateAttrs s t := by
  intro t
  induction t with
  | nil => intro s a h; exact h
  | cons b t ih => intro s a h; exact ih _ (addAttr_mono h)

/-- Everything added is there, or an equal attribute is. -/
theorem updateAttrs_has : ∀ (t s : List (Attr F)) {a : Attr F}, a ∈ t → ∃ b ∈ updateAttrs s t, b = a ∨ attrEq false b a = true := by
  intro t
  induction t with
  | nil => intro s a h; cases h
  | cons c t ih =>
    intro s a h
    rcases List.mem_cons.1 h with rfl | h
    · have : ∃ b ∈ addAttr s a, b = a ∨ attrEq false b a = true := by
        unfold addAttr
        split
        · rename_i hh
          obtain ⟨b, hb, he⟩ := List.any_eq_true.1 hh
          exact ⟨b, hb, Or.inr he⟩
        · exact ⟨a, by simp, Or.inl rfl⟩
      obtain ⟨b, hb, he⟩ := this
      exact ⟨b, updateAttrs_mono t _ hb, he⟩
    · exact ih _ h

theorem addAttr_distinct {s : List (Attr F)} (h : s.Pairwise fun a b => attrEq false a b = false) (a : Attr F) :
    (addAttr s a).Pairwise fun a b => attrEq false a b = false := by
  unfold addAttr
  split
  · exact h
  · rename_i hn
    rw [List.pairwise_append]
    refine ⟨h, List.pairwise_singleton _ _, fun b hb c hc => ?_⟩
    rw [List.mem_singleton.1 hc]
    cases he : attrEq false b a with
    | false => rfl
    | true => exact absurd (List.any_eq_true.2 ⟨b, hb, he⟩) hn

theorem updateAttrs_distinct : ∀ (t : List (Attr F)) {s : List (Attr F)}, s.Pairwise (fun a b => attrEq false a b = false) →
    (updateAttrs s t).Pairwise fun a b => attrEq false a b = false
  | [], _, h => h
  | a :: t, _, h => updateAttrs_distinct t (addAttr_distinct h a)

/-- **C84**: reading an extension document gives an extension with the name, prefix and URI of the
document, and its defined attributes are exactly those that the document defines: every defined attribute
is what some definition asks for, every definition has its attribute, and no two are equal.  For all documents (any scopes,
any order, repeated keys), all spellings of the element names, and whatever names were registered before. -/
theorem c84_defined (w : ExtWorld F) {sp : Str → Str} (hs : SpellsTags sp) {d : ExtDoc} {uri : Str} {epoch : DateTime}
    (hr : Readable w d uri epoch) (names : GlobalMap) :
    ∃ x names', parseExt w names (d.xml sp).sax = .ok (some x, names') ∧ x.ext = ⟨d.name, d.pfx, uri⟩ ∧
      (∀ a ∈ x.defined.1, ∃ b ∈ d.defs, Realises w x.ext b a) ∧
      (∀ b ∈ d.defs, ∃ a ∈ x.defined.1, a.kind = b.kind.attrClass ∧ a.key = fullKey d.pfx b) ∧
      x.defined.1.Pairwise fun a b => attrEq false a b = false := by
  have h := parse_doc w hs hr names
  refine ⟨_, _, h, foldDefs_ext w epoch _ _, ?_⟩
  have hsp := foldDefs_spec w hr.epoch d.defs [] (.new F ⟨d.name, d.pfx, uri⟩, 0) (by intro a ha; cases ha) (by intro d hd; cases hd)
  have hsc := fun sc (hsc : sc ≠ Scope.log) => c83_all_log w names _ h hsc
  have hall : (foldDefs w epoch (ExtObj.new F ⟨d.name, d.pfx, uri⟩, 0) d.defs).1.all = none := by
    have : ∀ (ds : List AttrDef) (p : ExtObj F × Nat), p.1.all = none → (foldDefs w epoch p ds).1.all = none := by
      intro ds
      induction ds with
      | nil => intro p h; exact h
      | cons d ds ih => intro p h; exact ih _ h
    exact this _ _ rfl
  have hext := foldDefs_ext w epoch d.defs (.new F ⟨d.name, d.pfx, uri⟩, 0)
  generalize (foldDefs w epoch (ExtObj.new F ⟨d.name, d.pfx, uri⟩, 0) d.defs).1 = x at hsp hsc hall hext
  have hext : x.ext = ⟨d.name, d.pfx, uri⟩ := hext
  have hdef : x.defined.1 = updateAttrs [] (x.sets .log) := by
    simp only [ExtObj.defined, hall, hsc .trace (by decide), hsc .event (by decide), hsc .nested (by decide)]
    rfl
  rw [hdef]
  have hsp1 : ∀ a ∈ x.sets .log, ∃ b ∈ d.defs, Realises w x.ext b a := by
    intro a ha
    rw [hext]
    exact hsp.1 a ha
  refine ⟨?_, ?_, updateAttrs_distinct _ List.Pairwise.nil⟩
  · intro a ha
    rcases mem_updateAttrs _ _ ha with ha | ha
    · cases ha
    · exact hsp1 a ha
  · intro b hb
    obtain ⟨a, ha, hk1, hk2⟩ := hsp.2 b hb
    obtain ⟨a', ha', he⟩ := updateAttrs_has (x.sets .log) [] ha
    rcases he with rfl | he
    · exact ⟨a', ha', hk1, hk2⟩
    · have hm : a' ∈ x.sets .log := (mem_updateAttrs _ _ ha').resolve_left (by simp)
      obtain ⟨_, _, hr'⟩ := hsp1 a' hm
      obtain ⟨e1, e2⟩ := attrEq_typed (realises_typed hr') he
      exact ⟨a', ha', e1.trans hk1, e2.trans hk2⟩

/-! ## C85 -/

/-- A use of an extension object: adding an attribute to one of its sets or asking for all of them. -/
inductive ExtUse (F : Type) where
  | add (sc : Scope) (a : Attr F)
  | ask

/-- The state after some uses, and the answers. -/
def ExtObj.uses (x : ExtObj F) : List (ExtUse F) → ExtObj F × List (List (Attr F))
  | [] => (x, [])
  | .add sc a :: us => (x.add sc a).uses us
  | .ask :: us =>
    let r := x.defined
    let q := r.2.uses us
    (q.1, r.1 :: q.2)

/-- Once asked, the answer never changes. -/
theorem uses_cached : ∀ (us : List (ExtUse F)) (x : ExtObj F) (s : List (Attr F)), x.all = some s → ∀ r ∈ (x.uses us).2, r = s := by
  intro us
  induction us with
  | nil => intro x s _ r hr; cases hr
  | cons u us ih =>
    intro x s h r hr
    cases u with
    | add sc a => exact ih (x.add sc a) s h r hr
    | ask =>
      have hd : x.defined = (s, x) := by simp only [ExtObj.defined, h]
      simp only [ExtObj.uses, hd, List.mem_cons] at hr
      rcases hr with rfl | hr
      · rfl
      · exact ih x s h r hr

/-- The attribute is in one of the four sets. -/
def ExtObj.Has (x : ExtObj F) (a : Attr F) : Prop := ∃ sc, a ∈ x.sets sc

/-- **C85** (what holds): the first answer is the union of the four sets at that moment - every member is
in one of them, and every attribute in one of them, or one equal to it, is in the answer. -/
theorem c85_first_partial (x : ExtObj F) (h : x.all = none) :
    (∀ a ∈ x.defined.1, x.Has a) ∧ (∀ a, x.Has a → ∃ b ∈ x.defined.1, b = a ∨ attrEq false b a = true) := by
  simp only [ExtObj.defined, h]
  refine ⟨?_, ?_⟩
  · intro a ha
    rcases mem_updateAttrs _ _ ha with ha | ha
    · rcases mem_updateAttrs _ _ ha with ha | ha
      · rcases mem_updateAttrs _ _ ha with ha | ha
        · rcases mem_updateAttrs _ _ ha with ha | ha
          · cases ha
          · exact ⟨_, ha⟩
        · exact ⟨_, ha⟩
      · exact ⟨_, ha⟩
    · exact ⟨_, ha⟩
  · rintro a ⟨sc, ha⟩
    have st : ∀ (s : List (Attr F)) (t : List (Attr F)), (∃ b ∈ s, b = a ∨ attrEq false b a = true) →
        ∃ b ∈ updateAttrs s t, b = a ∨ attrEq false b a = true := fun s t ⟨b, hb, he⟩ => ⟨b, updateAttrs_mono t s hb, he⟩
    cases sc with
    | log => exact st _ _ (st _ _ (st _ _ (updateAttrs_has _ _ ha)))
    | trace => exact st _ _ (st _ _ (updateAttrs_has _ _ ha))
    | event => exact st _ _ (updateAttrs_has _ _ ha)
    | nested => exact updateAttrs_has _ _ ha

/-- **C85** (violated): whatever happens after the first question, all later answers are the first one. -/
theorem c85_stale (x : ExtObj F) (us : List (ExtUse F)) : ∀ r ∈ (x.uses (.ask :: us)).2, r = x.defined.1 := by
  intro r hr
  simp only [ExtObj.uses, List.mem_cons] at hr
  rcases hr with rfl | hr
  · rfl
  · refine uses_cached us _ _ ?_ r hr
    unfold ExtObj.defined
    split
    · assumption
    · rfl

/-- **C85** (violated): an attribute of a class and key that were not defined before the first question is
missing from every later answer. -/
theorem c85_refuted (x : ExtObj F) (sc : Scope) (a : Attr F)
    (hn : ∀ b ∈ x.defined.1, ¬ (b.kind = a.kind ∧ b.key = a.key)) :
    ∃ r, (x.uses [.ask, .add sc a, .ask]).2[1]? = some r ∧ a ∉ r := by
  have h := c85_stale x [.add sc a, .ask]
  refine ⟨x.defined.1, ?_, fun ha => hn a ha ⟨rfl, rfl⟩⟩
  have hlen : (x.uses [.ask, .add sc a, .ask]).2.length = 2 := rfl
  have hlt : 1 < (x.uses [.ask, .add sc a, .ask]).2.length := by rw [hlen]; decide
  rw [List.getElem?_eq_getElem hlt]
  exact congrArg some (h _ (List.getElem_mem hlt))

/-! ## C86 -/

/-- **C86**: reading a document has the same effect on the global name map as registering, for every alias
of every definition in the order of the document, the alias for the full key of that definition. -/
theorem c86_registers (w : ExtWorld F) {sp : Str → Str} (hs : SpellsTags sp) {d : ExtDoc} {uri : Str} {epoch : DateTime}
    (hr : Readable w d uri epoch) (calls : List MapCall) :
    ∃ x, parseExt w (GlobalMap.run calls) (d.xml sp).sax = .ok (some x, GlobalMap.run (calls ++ d.names)) := by
  have h := parse_doc w hs hr (GlobalMap.run calls)
  rw [show d.names.foldl GlobalMap.step (GlobalMap.run calls) = GlobalMap.run (calls ++ d.names) by
    simp only [GlobalMap.run, List.foldl_append]] at h
  exact ⟨_, h⟩

/-- **C86**: afterwards an attribute of the extension is translated to its alias in the mapping the
document names, if the document gives it one alias there; whatever was registered before. -/
theorem c86_translated (w : ExtWorld F) {sp : Str → Str} (hs : SpellsTags sp) {d : ExtDoc} {uri : Str} {epoch : DateTime}
    (hr : Readable w d uri epoch) (calls : List MapCall) {b : AttrDef} (hb : b ∈ d.defs) {al : AliasDef} (hal : al ∈ b.aliases)
    (huniq : ∀ b' ∈ d.defs, b'.key = b.key → ∀ al' ∈ b'.aliases, al'.mapping = al.mapping → al'.name = al.name) :
    ∃ x names', parseExt w (GlobalMap.run calls) (d.xml sp).sax = .ok (some x, names') ∧
      names'.mapSafely (.str (fullKey d.pfx b)) al.mapping = some al.name ∧
      names'.mapSafely (.attrib (fullKey d.pfx b)) al.mapping = some al.name := by
  obtain ⟨x, hx⟩ := c86_registers w hs hr calls
  refine ⟨x, _, hx, ?_⟩
  have hmem : (MapCall.register al.mapping (.str (fullKey d.pfx b)) (.str al.name)) ∈ d.names := by
    simp only [ExtDoc.names, List.mem_flatMap, List.mem_map]
    exact ⟨b, hb, al, hal, rfl⟩
  have hknown : KnownMapping (calls ++ d.names) al.mapping :=
    Or.inr ⟨_, List.mem_append_right _ hmem, rfl⟩
  have hlast : lastAlias (calls ++ d.names) al.mapping (fullKey d.pfx b) = some al.name := by
    unfold lastAlias
    rw [List.filterMap_append]
    have hin : al.name ∈ d.names.filterMap (MapCall.alias al.mapping (fullKey d.pfx b)) := by
      rw [List.mem_filterMap]
      exact ⟨_, hmem, by simp [MapCall.alias, AttrArg.key]⟩
    have hall : ∀ n ∈ d.names.filterMap (MapCall.alias al.mapping (fullKey d.pfx b)), n = al.name := by
      intro n hn
      rw [List.mem_filterMap] at hn
      obtain ⟨c, hc, he⟩ := hn
      simp only [ExtDoc.names, List.mem_flatMap, List.mem_map] at hc
      obtain ⟨b', hb', al', hal', rfl⟩ := hc
      simp only [MapCall.alias, AttrArg.key] at he
      split at he
      · rename_i hh
        cases he
        refine huniq b' hb' ?_ al' hal' hh.1
        have := hh.2
        simpa [fullKey] using this
      · cases he
    generalize d.names.filterMap (MapCall.alias al.mapping (fullKey d.pfx b)) = l at hin hall
    have hne : l ≠ [] := by intro h; rw [h] at hin; cases hin
    rw [List.getLast?_append, List.getLast?_eq_some_getLast hne]
    simp only [Option.some_or]
    exact congrArg some (hall _ (List.getLast_mem hne))
  constructor
  · rw [(c71_maps _ (.str (fullKey d.pfx b)) _ rfl _).2.1 hknown, hlast]
  · rw [(c71_maps _ (.attrib (fullKey d.pfx b)) _ rfl _).2.1 hknown, hlast]

/-! ## C87 -/

/-- **C87** (violated): if the URI that the document names does not answer, reading the document - also
from a local file - raises `AttributeError` as soon as it has any group of definitions, and gives `None`
if it has none. -/
theorem c87_refuted (w : ExtWorld F) {sp : Str → Str} (hs : SpellsTags sp) {d : ExtDoc} {uri : Str}
    (hu : w.urlParse d.uri = .ok uri) (hf : w.fetch d.uri = .urlError) (names : GlobalMap) :
    parseExt w names (d.xml sp).sax = if d.groups = [] then .ok (none, names) else .error .attributeError := by
  have hl : lower (sp py!"xesextension") = py!"xesextension" := by rw [hs]; decide
  have h1 : startExt w (ExtSt.init F names) (sp py!"xesextension") [(py!"name", d.name), (py!"prefix", d.pfx), (py!"uri", d.uri)] =
      .ok (ExtSt.init F names) := by
    unfold startExt
    rw [hl, if_pos rfl]
    show (w.urlParse d.uri >>= fun xUri => match w.fetch d.uri with
      | .urlError => .ok _
      | .raises e => .error e
      | .data _ => .ok _) = _
    rw [hu, hf]
    rfl
  unfold parseExt
  simp only [ExtDoc.xml, Xml.sax, runExt, h1]
  cases hg : d.groups with
  | nil =>
    simp only [List.map_nil, saxList, List.nil_append, runExt, bind, Except.bind, if_true, stopExt, hl]
    rfl
  | cons g gs =>
    have h2 : startExt w (ExtSt.init F names) (sp g.1.tagName) [] = .error .attributeError := by
      unfold startExt
      rw [hs, lower_scopes]
      cases g.1 <;> rfl
    simp only [List.map_cons, saxList, groupXml, Xml.sax, List.cons_append, runExt, h2, bind, Except.bind]
    simp

/-- **C87** (what holds): if the URI answers, what it answers does not matter. -/
theorem c87_answer_partial (w w' : ExtWorld F) {sp : Str → Str} (hs : SpellsTags sp) {d : ExtDoc} {uri : Str} {epoch : DateTime}
    (hr : Readable w d uri epoch) (hr' : Readable w' d uri epoch) (hz : w.zero = w'.zero) (hrnd : w.rnd = w'.rnd) (names : GlobalMap) :
    parseExt w names (d.xml sp).sax = parseExt w' names (d.xml sp).sax := by
  rw [parse_doc w hs hr, parse_doc w' hs hr']
  have : ∀ (ds : List AttrDef) (p : ExtObj F × Nat), foldDefs w epoch p ds = foldDefs w' epoch p ds := by
    intro ds
    induction ds with
    | nil => intro p; rfl
    | cons d ds ih =>
      intro p
      simp only [foldDefs, madeAttr, hz, hrnd]
      exact ih _
  rw [this]

/-! ## Examples -/

/-- A world in which every URI answers. -/
def onlineWorld : ExtWorld ToyFloat := ⟨.ok, fun _ => .data [60], .ok ⟨1970, 1, 1, 0, 0, 0, 0, none⟩, ⟨0⟩, fun _ => 0⟩

/-- An extension with an event attribute that has two aliases, and a log attribute. -/
def exampleExtDoc : ExtDoc :=
  ⟨py!"Cost", py!"cost", py!"http://x/cost.xesext",
   [(.event, [⟨.float, py!"total", [⟨py!"EN", py!"Total cost"⟩, ⟨py!"DE", py!"Gesamtkosten"⟩]⟩]),
    (.log, [⟨.string, py!"currency", []⟩])]⟩

theorem plainSpelling : SpellsTags id := fun _ => rfl

theorem exampleExtDoc_readable : Readable onlineWorld exampleExtDoc py!"http://x/cost.xesext" ⟨1970, 1, 1, 0, 0, 0, 0, none⟩ :=
  ⟨rfl, ⟨_, rfl⟩, rfl⟩

/-- The event attribute of the example is not among the event attributes. -/
example : ∃ x names', parseExt onlineWorld .init (exampleExtDoc.xml id).sax = .ok (some x, names') ∧
    ¬ ∃ b ∈ x.sets .event, b.kind = .continuous ∧ b.key = py!"cost:total" :=
  c83_refuted onlineWorld plainSpelling exampleExtDoc_readable .init (g := exampleExtDoc.groups[0])
    (List.getElem_mem (by decide)) (by decide) (a := ⟨.float, py!"total", [⟨py!"EN", py!"Total cost"⟩, ⟨py!"DE", py!"Gesamtkosten"⟩]⟩)
    (by simp [exampleExtDoc])

/-- The defined attributes of the example. -/
example : ((parseExt onlineWorld .init (exampleExtDoc.xml id).sax).toOption.bind Prod.fst).map
    (fun x => x.defined.1.map (fun a => (a.kind, a.key))) =
    some [(.continuous, py!"cost:total"), (.literal, py!"cost:currency")] := by decide +kernel

/-- The translation of the example. -/
example : ((parseExt onlineWorld .init (exampleExtDoc.xml id).sax).toOption.map
    (fun p => p.2.mapSafely (.str py!"cost:total") py!"DE")) = some (some py!"Gesamtkosten") := by decide +kernel

/-- Offline. -/
example : parseExt { onlineWorld with fetch := fun _ => .urlError } .init (exampleExtDoc.xml id).sax = .error .attributeError :=
  c87_refuted { onlineWorld with fetch := fun _ => .urlError } plainSpelling (d := exampleExtDoc) rfl rfl .init

/-- An attribute that is added after the first question is missing. -/
example : ∃ r, ((ExtObj.new ToyFloat conceptExt).uses
    [.ask, .add .event (.mk .literal py!"concept:name" none (.str py!"x") [] []), .ask]).2[1]? = some r ∧ r.length = 0 :=
  ⟨[], rfl, rfl⟩

end Opy
