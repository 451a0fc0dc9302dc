import Verif.Props.Resave
import Verif.Props.MxmlMeaning
/-
Property C140: a log that was loaded from an MXML file can be saved as XES.
-/
set_option linter.unusedSectionVars false
namespace Opy

/-! ## Specification -/

/-- The extensions of a log from an MXML file. -/
def legacyExts : List Ext := [conceptExt, orgExt, lifecycleExt, semanticExt, timeExt]

section
variable {F : Type} [PyFloat F]

/-- A value in the XES file: no value is the text `None`, timestamps are cut to milliseconds. -/
def xesVal : PyVal F → PyVal F
  | .none => .str py!"None"
  | v => cutVal v

mutual
/-- An attribute in the XES file: as before; without an extension it gets the one that its key names, if there is one. -/
def Attr.asXes (mgr : ExtMgr) : Attr F → Attr F
  | .mk k key e v m c => .mk k key (if e = none then extFor mgr key else e) (xesVal v) (asXesMap mgr m) (asXesList mgr c)
/-- The same for a list. -/
def asXesList (mgr : ExtMgr) : List (Attr F) → List (Attr F)
  | [] => []
  | a :: as => a.asXes mgr :: asXesList mgr as
/-- The same for a map. -/
def asXesMap (mgr : ExtMgr) : List (Str × Attr F) → List (Str × Attr F)
  | [] => []
  | (k, a) :: as => (k, a.asXes mgr) :: asXesMap mgr as
end

/-- The log in the XES file: the same attributes, traces and events, the same extensions and global attributes, and the three
classifiers, of which the first has lost the separation of its two keys. -/
def xesOfMxml (mgr : ExtMgr) (l : Log F) : Content F where
  attrs := asXesMap mgr l.attrs
  extensions := legacyExts
  classifiers := [⟨py!"MXML Legacy Classifier", [py!"concept:name lifecycle:transition"]⟩, ⟨py!"Event Name", [py!"concept:name"]⟩,
    ⟨py!"Resource", [py!"org:resource"]⟩]
  globalTrace := [.mk .literal py!"concept:name" (some conceptExt) (.str py!"UNKNOWN") [] []]
  globalEvent := [.mk .literal py!"concept:name" (some conceptExt) (.str py!"UNKNOWN") [] [],
    .mk .literal py!"lifecycle:transition" (some lifecycleExt) (.str py!"complete") [] []]
  features := xesVersion
  traces := l.traces.map fun t => (asXesMap mgr t.attrs, t.events.map fun e => asXesMap mgr e.attrs)

mutual
/-- The keys and texts of an attribute and of what is in it. -/
def Attr.Texts (P : Str → Prop) : Attr F → Prop
  | .mk _ key _ v m c => P key ∧ (∀ s, v = .str s → P s) ∧ TextsMap P m ∧ TextsList P c
/-- The same for a list. -/
def TextsList (P : Str → Prop) : List (Attr F) → Prop
  | [] => True
  | a :: as => a.Texts P ∧ TextsList P as
/-- The same for a map. -/
def TextsMap (P : Str → Prop) : List (Str × Attr F) → Prop
  | [] => True
  | (_, a) :: as => a.Texts P ∧ TextsMap P as
end

/-- The keys and texts of the attributes of a log, its traces and its events. -/
def Log.Texts (P : Str → Prop) (l : Log F) : Prop :=
  TextsMap P l.attrs ∧ ∀ t ∈ l.traces, TextsMap P t.attrs ∧ ∀ e ∈ t.events, TextsMap P e.attrs

/-! ## What the parser makes -/

/-- Literals with a legal text or, for sources, no value, and timestamps that exist. -/
def MxVal (k : Kind) (key : Str) (v : PyVal F) : Prop :=
  (k = .literal ∧ ((v = .none ∧ key = py!"source") ∨ ∃ s, v = .str s ∧ LegalText s)) ∨ ((k = .timestamp ∧ key = py!"time:timestamp") ∧ ∃ d, v = .dt d ∧ GoodDateTime d ∧ d.tz ≠ none)

/-- No extension, or one of the five and a key with its prefix. -/
def MxExt (key : Str) (e : Option Ext) : Prop := e = none ∨ ∃ x ∈ legacyExts, ∃ r, e = some x ∧ key = x.pfx ++ ':' :: r

mutual
/-- An attribute that the parser makes. -/
def MxOk : Attr F → Prop
  | .mk k key e v m c => MxVal k key v ∧ LegalText key ∧ MxExt key e ∧ c = [] ∧ OwnKeys m ∧ MxMap m
/-- The same for a map. -/
def MxMap : List (Str × Attr F) → Prop
  | [] => True
  | (_, a) :: as => MxOk a ∧ MxMap as
end

theorem mxMap_iff : ∀ {m : List (Str × Attr F)}, MxMap m ↔ ∀ p ∈ m, MxOk p.2
  | [] => by simp [MxMap]
  | (k, a) :: m => by simp [MxMap, mxMap_iff (m := m)]

/-- A map that the parser makes. -/
def MapOk (m : List (Str × Attr F)) : Prop := OwnKeys m ∧ MxMap m

theorem mapOk_nil : MapOk ([] : List (Str × Attr F)) := ⟨⟨by simp [dkeys], by simp⟩, trivial⟩

theorem mapOk_dset {a : Attr F} {m : List (Str × Attr F)} (ha : MxOk a) (hm : MapOk m) : MapOk (dset a.key a m) := by
  refine ⟨⟨nodup_dset hm.1.1, fun p hp => ?_⟩, mxMap_iff.2 fun p hp => ?_⟩
  · rcases mem_dset hp with hp | rfl
    · exact hm.1.2 p hp
    · rfl
  · rcases mem_dset hp with hp | rfl
    · exact mxMap_iff.1 hm.2 p hp
    · exact ha

theorem mxOk_of {k : Kind} {key : Str} {e : Option Ext} {v : PyVal F} {m : List (Str × Attr F)} (h1 : MxVal k key v) (h2 : LegalText key)
    (h3 : MxExt key e) (h4 : MapOk m) : MxOk (.mk k key e v m []) := by
  simp only [MxOk]
  exact ⟨h1, h2, h3, trivial, h4.1, h4.2⟩

theorem mxVal_str {key s : Str} (h : LegalText s) : MxVal (F := F) .literal key (.str s) := .inl ⟨rfl, .inr ⟨s, rfl, h⟩⟩

theorem mxOk_attrs {a : Attr F} (h : MxOk a) : MapOk a.attrs := by
  cases a with
  | mk k key e v m c =>
    simp only [MxOk] at h
    exact ⟨h.2.2.2.2.1, h.2.2.2.2.2⟩

theorem mxOk_withVal {s : Str} {a : Attr F} (h : MxOk a) (hk : a.kind = .literal) (hs : LegalText s) : MxOk (withVal (.str s) a) := by
  cases a with
  | mk k key e v m c =>
    simp only [MxOk, withVal] at h ⊢
    simp only [Attr.kind] at hk
    subst hk
    exact ⟨mxVal_str hs, h.2⟩

theorem mxOk_withAttrs {a : Attr F} {m : List (Str × Attr F)} (h : MxOk a) (hm : MapOk m) : MxOk (withAttrs m a) := by
  cases a with
  | mk k key e v m' c =>
    simp only [MxOk, withAttrs] at h ⊢
    exact ⟨h.1, h.2.1, h.2.2.1, h.2.2.2.1, hm.1, hm.2⟩

theorem withVal_key (v : PyVal F) (a : Attr F) : (withVal v a).key = a.key := by cases a; rfl

theorem withVal_kind (v : PyVal F) (a : Attr F) : (withVal v a).kind = a.kind := by cases a; rfl

theorem withAttrs_key (m : List (Str × Attr F)) (a : Attr F) : (withAttrs m a).key = a.key := by cases a; rfl

theorem legal_strip {s : Str} (h : LegalText s) : LegalText (strip s) := fun c hc => h c ((strip_sublist s).subset hc)

theorem legal_join : ∀ {b : List Str}, (∀ s ∈ b, LegalText s) → LegalText (join [] b)
  | [], _ => by simp [join, LegalText]
  | [s], h => by simpa [join] using h s (by simp)
  | s :: t :: b, h => by
    have ih := legal_join (b := t :: b) fun s hs => h s (by simp [hs])
    intro c hc
    simp only [join, List.mem_append, List.append_nil] at hc
    rcases hc with hc | hc
    · exact h s (by simp) c hc
    · exact ih c hc

theorem addRef_ok {as : List (Str × Str)} {m : AttrMap F} (ha : ∀ p ∈ as, LegalText p.2) (hm : MapOk m) : MapOk (addRef as m) := by
  unfold addRef
  cases hr : modelRef as with
  | none => exact hm
  | some v =>
    have hv : LegalText v := by
      unfold modelRef at hr
      split at hr
      · rename_i s hs
        split at hr
        · cases hr
        · cases hr
          exact ha _ (dget_mem hs)
      · cases hr
    exact mapOk_dset (a := cloned .literal py!"semantic:modelReference" semanticExt (.str v))
      (mxOk_of (mxVal_str hv) (legalText_plain (by decide)) (.inr ⟨semanticExt, by decide, py!"modelReference", rfl, by decide⟩) mapOk_nil) hm

theorem description_ok {keep : Str → Bool} {as : List (Str × Str)} {m : AttrMap F} (ha : ∀ p ∈ as, LegalText p.2) (hm : MapOk m) :
    MapOk (description keep as m) := by
  unfold description
  split
  · rename_i d hd
    split
    · exact mapOk_dset (a := literalOf py!"description" (.str d) []) (mxOk_of (mxVal_str (ha _ (dget_mem hd))) (legalText_plain (by decide)) (.inl rfl) mapOk_nil) hm
    · exact hm
  · exact hm

theorem assignName_ok {n : Option Str} {m : AttrMap F} (hn : ∀ s, n = some s → LegalText s) (hm : MapOk m) : MapOk (assignName n m) := by
  unfold assignName
  split
  · exact hm
  · rename_i s
    split
    · exact mapOk_dset (a := cloned .literal py!"concept:name" conceptExt (.str s))
        (mxOk_of (mxVal_str (hn s rfl)) (legalText_plain (by decide)) (.inr ⟨conceptExt, by decide, py!"name", rfl, by decide⟩) mapOk_nil) hm
    · exact hm

theorem assignModel_ok {m : AttrMap F} (hm : MapOk m) : MapOk (assignModel (some py!"standard") m) := by
  unfold assignModel
  simp only
  split
  · exact mapOk_dset (a := cloned .literal py!"lifecycle:model" lifecycleExt (.str (strip py!"standard")))
      (mxOk_of (mxVal_str (legalText_plain (by decide))) (legalText_plain (by decide)) (.inr ⟨lifecycleExt, by decide, py!"model", rfl, by decide⟩) mapOk_nil) hm
  · exact hm

/-- A trace that the parser makes. -/
def TraceOk (t : Trace F) : Prop := MapOk t.attrs ∧ ∀ e ∈ t.events, MapOk e.attrs

/-- An entry of the map of a log. -/
def MRefOk (k : Str) : MRef F → Prop
  | .own a => k = a.key ∧ MxOk a
  | .source _ => k = py!"source"

/-- A log that the parser makes. -/
structure LogBody (l : MLog F) : Prop where
  keys : (dkeys l.attrs).Nodup
  attrs : ∀ p ∈ l.attrs, MRefOk p.1 p.2
  extensions : l.extensions = legacyExts
  traces : ∀ t ∈ l.traces, TraceOk t

/-- The same before its end tag. -/
structure LogOpen (l : MLog F) : Prop extends LogBody l where
  classifiers : l.classifiers = []
  globalTrace : l.globalTrace = []
  globalEvent : l.globalEvent = []

/-- The same behind its end tag. -/
structure LogDone (l : MLog F) : Prop extends LogBody l where
  classifiers : l.classifiers = [⟨py!"MXML Legacy Classifier", [py!"concept:name", py!"lifecycle:transition"]⟩,
        ⟨py!"Event Name", [py!"concept:name"]⟩, ⟨py!"Resource", [py!"org:resource"]⟩]
  globalTrace : l.globalTrace = [.mk .literal py!"concept:name" (some conceptExt) (.str py!"UNKNOWN") [] []]
  globalEvent : l.globalEvent = [.mk .literal py!"concept:name" (some conceptExt) (.str py!"UNKNOWN") [] [],
    .mk .literal py!"lifecycle:transition" (some lifecycleExt) (.str py!"complete") [] []]

/-- Everything the handler holds. -/
structure MxState (st : MxmlSt F) : Prop where
  buffer : ∀ s ∈ st.buffer, LegalText s
  logs : ∀ l ∈ st.logs, LogDone l
  process : ∀ p ∈ st.process, LogOpen p
  inst : ∀ t ∈ st.inst, TraceOk t
  entry : ∀ e ∈ st.entry, MapOk e.attrs
  sources : ∀ a ∈ st.sources, MxOk a ∧ a.key = py!"source"
  generic : ∀ a ∈ st.generic, MxOk a ∧ a.kind = .literal
  eventType : ∀ a ∈ st.eventType, MxOk a ∧ a.kind = .literal
  originator : ∀ a ∈ st.originator, MxOk a ∧ a.kind = .literal

theorem mxState_init : MxState (MxmlSt.init F) := by
  constructor <;> simp [MxmlSt.init]

theorem MxState.text {st : MxmlSt F} (h : MxState st) : LegalText (bufText st) := legal_strip (legal_join h.buffer)

theorem ownAll_ok : ∀ {as : AttrMap F} {m : List (Str × MRef F)}, MapOk as → (dkeys m).Nodup → (∀ p ∈ m, MRefOk p.1 p.2) →
    (dkeys (ownAll as m)).Nodup ∧ ∀ p ∈ ownAll as m, MRefOk p.1 p.2
  | [], m, _, h1, h2 => ⟨h1, h2⟩
  | (k, a) :: as, m, ha, h1, h2 => by
    have hs : MapOk as := by
      refine ⟨⟨?_, fun p hp => ha.1.2 p (by simp [hp])⟩, ?_⟩
      · have := ha.1.1
        simp only [dkeys, List.map_cons, List.nodup_cons] at this
        exact this.2
      · have := ha.2
        simp only [MxMap] at this
        exact this.2
    have h0 : MxOk a := mxMap_iff.1 ha.2 (k, a) (by simp)
    have hk : k = a.key := ha.1.2 (k, a) (by simp)
    refine ownAll_ok (as := as) (m := dset k (.own a) m) hs (nodup_dset h1) fun p hp => ?_
    rcases mem_dset hp with hp | rfl
    · exact h2 p hp
    · exact ⟨hk, h0⟩

theorem extAdd_legacy : extAdd timeExt (extAdd semanticExt (extAdd lifecycleExt (extAdd orgExt (extAdd conceptExt [])))) = legacyExts := by
  decide +kernel

theorem start_ok {rnd : Nat → Uuid} {st st' : MxmlSt F} {tag : Str} {as : List (Str × Str)} (h : MxState st) (ha : ∀ p ∈ as, LegalText p.2)
    (hs : mxmlStart rnd st tag as = .ok st') : MxState st' := by
  have hn : ∀ k s, dget k as = some s → LegalText s := fun k s hd => ha _ (dget_mem hd)
  have hr : MapOk (addRef (F := F) as []) := addRef_ok ha mapOk_nil
  have hu : LegalText py!"UNKNOWN" := legalText_plain (by decide)
  unfold mxmlStart at hs
  split at hs
  · cases hs; exact h
  split at hs
  · cases hs
    refine { h with sources := ?_ }
    intro a hm
    simp only [startSource, List.mem_append, List.mem_singleton] at hm
    rcases hm with hm | rfl
    · exact h.sources a hm
    · refine ⟨mxOk_of ?_ (legalText_plain (by decide)) (.inl rfl) hr, rfl⟩
      cases hp : dget py!"program" as with
      | none => exact .inl ⟨rfl, .inl ⟨rfl, rfl⟩⟩
      | some p => exact mxVal_str (hn _ _ hp)
  split at hs
  · cases hs
    refine { h with process := ?_ }
    intro p hm
    simp only [startProcess, Option.mem_def, Option.some.injEq] at hm
    subst hm
    have hown := addRef_ok ha (description_ok (keep := fun d => 0 < (pyLower d).length) ha (assignModel_ok (assignName_ok (F := F) (n := dget py!"id" as) (fun s he => hn _ s he) mapOk_nil)))
    have hbase : ∀ base : List (Str × MRef F), base = (match st.source with | some i => [(py!"source", .source i)] | none => []) →
        (dkeys base).Nodup ∧ ∀ p ∈ base, MRefOk p.1 p.2 := by
      rintro base rfl
      cases st.source <;> simp [dkeys, MRefOk]
    obtain ⟨b1, b2⟩ := hbase _ rfl
    obtain ⟨g1, g2⟩ := ownAll_ok hown b1 b2
    exact { keys := g1, attrs := g2, extensions := extAdd_legacy, traces := by simp, classifiers := rfl, globalTrace := rfl, globalEvent := rfl }
  split at hs
  · cases hs
    refine { h with inst := ?_ }
    intro t hm
    simp only [startInstance, Option.mem_def, Option.some.injEq] at hm
    subst hm
    refine ⟨addRef_ok ha (description_ok ha (assignName_ok ?_ mapOk_nil)), by simp⟩
    intro s he
    simp only [Option.some.injEq] at he
    subst he
    cases hp : dget py!"id" as with
    | none => exact legalText_plain (by decide)
    | some p => exact hn _ _ hp
  split at hs
  · cases hs
    refine { h with entry := ?_ }
    intro e hm
    simp only [startEntry, Option.mem_def, Option.some.injEq] at hm
    subst hm
    exact mapOk_nil
  split at hs
  · unfold startAttribute at hs
    split at hs
    · cases hs
    · rename_i n hd
      cases hs
      refine { h with generic := ?_ }
      intro a hm
      simp only [Option.mem_def, Option.some.injEq] at hm
      subst hm
      exact ⟨mxOk_of (mxVal_str (legalText_plain (by decide))) (legal_strip (hn _ _ hd)) (.inl rfl) hr, rfl⟩
  split at hs
  · cases hs
    refine { h with eventType := ?_ }
    intro a hm
    simp only [startEventType, Option.mem_def, Option.some.injEq] at hm
    subst hm
    refine ⟨mxOk_of (mxVal_str ?_) (legalText_plain (by decide)) (.inr ⟨lifecycleExt, by decide, py!"transition", rfl, by decide⟩) hr, rfl⟩
    split
    · rename_i u hd
      split
      · exact hu
      · exact hn _ _ hd
    · exact hu
  split at hs
  · unfold startElementName at hs
    split at hs
    · cases hs; exact h
    · split at hs
      · cases hs
      · rename_i e he
        cases hs
        refine { h with entry := ?_ }
        intro e' hm
        simp only [Option.mem_def, Option.some.injEq] at hm
        subst hm
        exact addRef_ok ha (h.entry e he)
  split at hs
  · cases hs
    refine { h with originator := ?_ }
    intro a hm
    simp only [startOriginator, Option.mem_def, Option.some.injEq] at hm
    subst hm
    exact ⟨mxOk_of (mxVal_str hu) (legalText_plain (by decide)) (.inr ⟨orgExt, by decide, py!"resource", rfl, by decide⟩) hr, rfl⟩
  · cases hs; exact h

theorem intoEntry_ok {st st' : MxmlSt F} {a : Attr F} (h : MxState st) (ha : MxOk a) (hs : intoEntry st a = .ok st') : MxState st' := by
  unfold intoEntry at hs
  split at hs
  · cases hs
  · rename_i e he
    cases hs
    refine { h with entry := ?_ }
    intro e' hm
    simp only [Option.mem_def, Option.some.injEq] at hm
    subst hm
    exact mapOk_dset ha (h.entry e he)

theorem routeSource_ok {st st' : MxmlSt F} {a : Attr F} (h : MxState st) (ha : MxOk a) (hs : routeSource st a = .ok st') : MxState st' := by
  unfold routeSource at hs
  split at hs
  · split at hs
    · rename_i i _
      cases hs
      refine { h with sources := ?_ }
      intro b hb
      obtain ⟨j, hj, rfl⟩ := List.mem_iff_getElem.1 hb
      simp only [List.length_modify] at hj
      simp only [List.getElem_modify]
      have := h.sources _ (List.getElem_mem hj)
      split
      · exact ⟨mxOk_withAttrs this.1 (mapOk_dset ha (mxOk_attrs this.1)), by rw [withAttrs_key]; exact this.2⟩
      · exact this
    · cases hs
  · cases hs; exact h

theorem routeProcess_ok {st st' : MxmlSt F} {a : Attr F} (h : MxState st) (ha : MxOk a) (hs : routeProcess st a = .ok st') : MxState st' := by
  unfold routeProcess at hs
  split at hs
  · rename_i p hp
    split at hs
    · cases hs
      refine { h with process := ?_ }
      intro p' hm
      simp only [Option.mem_def, Option.some.injEq] at hm
      subst hm
      have hq := h.process p hp
      refine { hq with keys := nodup_dset hq.keys, attrs := fun q hm => ?_ }
      rcases mem_dset hm with hm | rfl
      · exact hq.attrs q hm
      · exact ⟨rfl, ha⟩
    · exact routeSource_ok h ha hs
  · exact routeSource_ok h ha hs

theorem routeAttribute_ok {st st' : MxmlSt F} {a : Attr F} (h : MxState st) (ha : MxOk a) (hs : routeAttribute st a = .ok st') : MxState st' := by
  unfold routeAttribute at hs
  split at hs
  · rename_i e he
    cases hs
    refine { h with entry := ?_ }
    intro e' hm
    simp only [Option.mem_def, Option.some.injEq] at hm
    subst hm
    exact mapOk_dset ha (h.entry e he)
  · split at hs
    · rename_i t ht
      split at hs
      · cases hs
        refine { h with inst := ?_ }
        intro t' hm
        simp only [Option.mem_def, Option.some.injEq] at hm
        subst hm
        exact ⟨mapOk_dset ha (h.inst t ht).1, (h.inst t ht).2⟩
      · exact routeProcess_ok h ha hs
    · exact routeProcess_ok h ha hs

theorem appendEntry_ok {st st' : MxmlSt F} (h : MxState st) (hs : appendEntry st = .ok st') : MxState st' := by
  unfold appendEntry at hs
  split at hs
  · rename_i t e ht he
    cases hs
    refine { h with inst := ?_ }
    intro t' hm
    simp only [Option.mem_def, Option.some.injEq] at hm
    subst hm
    refine ⟨(h.inst t ht).1, fun e' hm => ?_⟩
    simp only [List.mem_append, List.mem_singleton] at hm
    rcases hm with hm | rfl
    · exact (h.inst t ht).2 e' hm
    · exact h.entry _ he
  · cases hs
  · cases hs

theorem stopBody_ok {st st' : MxmlSt F} {tag : Str} (h : MxState st) (hs : mxmlStopBody st tag = .ok st') : MxState st' := by
  have hb := h.text
  unfold mxmlStopBody at hs
  split at hs
  · cases hs; exact h
  split at hs
  · unfold stopProcess at hs
    split at hs
    · cases hs
    · rename_i p hp
      cases hs
      have hq := h.process p hp
      refine { h with logs := ?_, process := by simp }
      intro l hm
      simp only [List.mem_append, List.mem_singleton] at hm
      rcases hm with hm | rfl
      · exact h.logs l hm
      · exact { hq.toLogBody with
          keys := hq.keys, attrs := hq.attrs, extensions := hq.extensions, traces := hq.traces
          classifiers := by simp [hq.classifiers, mxmlClassifiers]
          globalTrace := by simp [hq.globalTrace, cloned]
          globalEvent := by simp [hq.globalEvent, cloned] }
  split at hs
  · unfold stopInstance at hs
    split at hs
    · cases hs
    · rename_i t ht
      split at hs
      · split at hs
        · cases hs
        · rename_i p hp
          cases hs
          have hq := h.process p hp
          refine { h with process := ?_, inst := by simp }
          intro p' hm
          simp only [Option.mem_def, Option.some.injEq] at hm
          subst hm
          refine { hq with traces := fun t' hm => ?_ }
          simp only [List.mem_append, List.mem_singleton] at hm
          rcases hm with hm | rfl
          · exact hq.traces t' hm
          · exact h.inst _ ht
      · cases hs
        exact { h with inst := by simp }
  split at hs
  · unfold stopEntry at hs
    obtain ⟨s, h1, h2⟩ := bind_ok.1 hs
    cases h2
    have : MxState s := by
      split at h1
      · exact appendEntry_ok h h1
      · split at h1
        · obtain ⟨s', h3, h4⟩ := bind_ok.1 h1
          cases h4
          exact { appendEntry_ok h h3 with }
        · obtain ⟨gt, _, h4⟩ := bind_ok.1 h1
          obtain ⟨s', h3, h4⟩ := bind_ok.1 h4
          have h5 := appendEntry_ok h h3
          split at h4
          · cases h4; exact { h5 with }
          · cases h4; exact h5
    exact { this with entry := by simp }
  split at hs
  · unfold stopAttribute at hs
    split at hs
    · split at hs
      · cases hs
      · rename_i g hg
        obtain ⟨s, h1, h2⟩ := bind_ok.1 hs
        cases h2
        have hg' := h.generic g hg
        exact { routeAttribute_ok h (mxOk_withVal hg'.1 hg'.2 hb) h1 with generic := by simp }
    · cases hs
      exact { h with generic := by simp }
  split at hs
  · unfold stopEventType at hs
    split at hs
    · cases hs
    · rename_i a ha
      obtain ⟨s, h1, h2⟩ := bind_ok.1 hs
      cases h2
      have hg' := h.eventType a ha
      have : MxState s := by
        split at h1
        · split at h1
          · exact intoEntry_ok h (mxOk_withVal hg'.1 hg'.2 hb) h1
          · cases h1; exact h
        · exact intoEntry_ok h hg'.1 h1
      exact { this with eventType := by simp }
  split at hs
  · unfold stopElementName at hs
    split at hs
    · split at hs
      · cases hs
      · rename_i e he
        cases hs
        refine { h with entry := ?_ }
        intro e' hm
        simp only [Option.mem_def, Option.some.injEq] at hm
        subst hm
        exact assignName_ok (n := some (bufText st)) (fun s hs => by simp only [Option.some.injEq] at hs; exact hs ▸ hb) (h.entry e he)
    · cases hs; exact h
  split at hs
  · unfold stopTimestamp at hs
    obtain ⟨o, h1, h2⟩ := bind_ok.1 hs
    cases o with
    | none => cases h2; exact { h with }
    | some d =>
      obtain ⟨g1, g2⟩ := c06_result_good h1
      refine intoEntry_ok (st := { st with timestamp := some d }) { h with } ?_ h2
      exact mxOk_of (.inr ⟨⟨rfl, rfl⟩, d, rfl, g1, g2⟩) (legalText_plain (by decide)) (.inr ⟨timeExt, by decide, py!"timestamp", rfl, by decide⟩) mapOk_nil
  split at hs
  · unfold stopOriginator at hs
    split at hs
    · cases hs
    · rename_i a ha
      obtain ⟨s, h1, h2⟩ := bind_ok.1 hs
      cases h2
      have hg' := h.originator a ha
      have : MxState s := by
        refine intoEntry_ok h ?_ h1
        split
        · exact mxOk_withVal hg'.1 hg'.2 hb
        · exact hg'.1
      exact { this with originator := by simp }
  · cases hs; exact h

theorem run_ok {rnd : Nat → Uuid} : ∀ {es : List MSax} {st st' : MxmlSt F}, MxState st → (∀ e ∈ es, EvLegal e) → mxmlRun rnd st es = .ok st' → MxState st'
  | [], st, st', h, _, hs => by
    simp only [mxmlRun] at hs
    cases hs
    exact h
  | e :: es, st, st', h, he, hs => by
    simp only [mxmlRun] at hs
    obtain ⟨s, h1, h2⟩ := bind_ok.1 hs
    have he0 := he e (by simp)
    refine run_ok (st := s) ?_ (fun x hx => he x (by simp [hx])) h2
    cases e with
    | start tag as => exact start_ok h he0 h1
    | stop tag =>
      obtain ⟨s', h3, h4⟩ := bind_ok.1 h1
      cases h4
      exact { stopBody_ok h h3 with buffer := by simp }
    | chars t =>
      simp only [mxmlStep, Except.ok.injEq] at h1
      subst h1
      refine { h with buffer := ?_ }
      intro s hm
      simp only [List.mem_append, List.mem_singleton] at hm
      rcases hm with hm | rfl
      · exact h.buffer s hm
      · exact he0


/-- A log that the parser returns. -/
structure LogOk (l : Log F) : Prop where
  attrs : MapOk l.attrs
  extensions : l.extensions = legacyExts
  classifiers : l.classifiers = [⟨py!"MXML Legacy Classifier", [py!"concept:name", py!"lifecycle:transition"]⟩,
        ⟨py!"Event Name", [py!"concept:name"]⟩, ⟨py!"Resource", [py!"org:resource"]⟩]
  globalTrace : l.globalTrace = [.mk .literal py!"concept:name" (some conceptExt) (.str py!"UNKNOWN") [] []]
  globalEvent : l.globalEvent = [.mk .literal py!"concept:name" (some conceptExt) (.str py!"UNKNOWN") [] [],
    .mk .literal py!"lifecycle:transition" (some lifecycleExt) (.str py!"complete") [] []]
  traces : ∀ t ∈ l.traces, TraceOk t

theorem see_ok {sources : List (Attr F)} (hs : ∀ a ∈ sources, MxOk a ∧ a.key = py!"source") {k : Str} {r : MRef F} (hr : MRefOk k r)
    {q : Str × Attr F} (h : r.see sources k = some q) : q.1 = k ∧ q.1 = q.2.key ∧ MxOk q.2 := by
  cases r with
  | own a =>
    simp only [MRef.see, Option.some.injEq] at h
    subst h
    exact ⟨rfl, hr.1, hr.2⟩
  | source i =>
    simp only [MRef.see, Option.map_eq_some_iff] at h
    obtain ⟨a, ha, rfl⟩ := h
    obtain ⟨h1, h2⟩ := hs a (List.mem_of_getElem? ha)
    exact ⟨rfl, hr.trans h2.symm, h1⟩

theorem see_keys {sources : List (Attr F)} (hs : ∀ a ∈ sources, MxOk a ∧ a.key = py!"source") :
    ∀ {m : List (Str × MRef F)}, (∀ p ∈ m, MRefOk p.1 p.2) → (dkeys (m.filterMap fun p => p.2.see sources p.1)).Sublist (dkeys m)
  | [], _ => by simp [dkeys]
  | (k, r) :: m, h => by
    have ih := see_keys hs (m := m) fun p hp => h p (by simp [hp])
    simp only [List.filterMap_cons]
    cases hr : r.see sources k with
    | none => exact List.Sublist.cons _ ih
    | some q =>
      have := (see_ok hs (h (k, r) (by simp)) hr).1
      simp only [dkeys, List.map_cons, this]
      exact List.Sublist.cons_cons _ ih

theorem toLog_ok {sources : List (Attr F)} (hs : ∀ a ∈ sources, MxOk a ∧ a.key = py!"source") {l : MLog F} (h : LogDone l) :
    LogOk (l.toLog sources) := by
  refine { extensions := h.extensions, classifiers := h.classifiers, globalTrace := h.globalTrace, globalEvent := h.globalEvent,
           traces := h.traces, attrs := ⟨⟨?_, fun q hq => ?_⟩, mxMap_iff.2 fun q hq => ?_⟩ }
  · exact List.Sublist.nodup (see_keys hs h.attrs) h.keys
  · obtain ⟨p, hp, hq⟩ := List.mem_filterMap.1 hq
    exact (see_ok hs (h.attrs p hp) hq).2.1
  · obtain ⟨p, hp, hq⟩ := List.mem_filterMap.1 hq
    exact (see_ok hs (h.attrs p hp) hq).2.2

theorem parse_ok {rnd : Nat → Uuid} {es : List MSax} {logs : List (Log F)} (he : ∀ e ∈ es, EvLegal e) (h : mxmlParse rnd es = .ok logs) :
    ∀ l ∈ logs, LogOk l := by
  obtain ⟨st, h1, h2⟩ := bind_ok.1 h
  cases h2
  have hst := run_ok mxState_init he h1
  intro l hl
  obtain ⟨m, hm, rfl⟩ := List.mem_map.1 hl
  exact toLog_ok hst.sources (hst.logs m hm)

/-! ## Saving such a log -/

/-- No value is the text `None`. -/
def saidVal : PyVal F → PyVal F
  | .none => .str py!"None"
  | v => v

mutual
/-- The attribute with texts for missing values. -/
def Attr.said : Attr F → Attr F
  | .mk k key e v m c => .mk k key e (saidVal v) (saidMap m) c
/-- The same for a map. -/
def saidMap : List (Str × Attr F) → List (Str × Attr F)
  | [] => []
  | (k, a) :: as => (k, a.said) :: saidMap as
end

theorem saidMap_map : ∀ m : List (Str × Attr F), saidMap m = m.map fun p => (p.1, p.2.said)
  | [] => rfl
  | (k, a) :: as => by simp only [saidMap, List.map_cons, saidMap_map as]

theorem asXesMap_map (mgr : ExtMgr) : ∀ m : List (Str × Attr F), asXesMap mgr m = m.map fun p => (p.1, p.2.asXes mgr)
  | [] => rfl
  | (k, a) :: as => by simp only [asXesMap, List.map_cons, asXesMap_map mgr as]

theorem asXes_key (mgr : ExtMgr) : ∀ a : Attr F, (a.asXes mgr).key = a.key
  | .mk .. => rfl

mutual
theorem said_xml : ∀ {a : Attr F}, MxOk a → attrXml a.said = attrXml a
  | .mk k key e v m c, h => by
    simp only [MxOk] at h
    have ih := saidMap_xml h.2.2.2.2.2
    have hk : k.isCollection = false := by
      rcases h.1 with ⟨rfl, _⟩ | ⟨⟨rfl, _⟩, _⟩ <;> rfl
    have hs : attrStr (.mk k key e (saidVal v) (saidMap m) c) = attrStr (.mk k key e v m c) := by
      rcases h.1 with ⟨rfl, ⟨rfl, _⟩ | ⟨s, rfl, _⟩⟩ | ⟨⟨rfl, _⟩, d, rfl, _⟩
      · simp only [attrStr, saidVal, pyStr]
      · simp only [attrStr, saidVal]
      · simp only [attrStr, saidVal]
    simp only [Attr.said, attrXml, hk, Bool.false_eq_true, if_false, hs, ih]
theorem saidMap_xml : ∀ {m : List (Str × Attr F)}, MxMap m → mapXml (saidMap m) = mapXml m
  | [], _ => rfl
  | (k, a) :: m, h => by
    simp only [MxMap] at h
    simp only [saidMap, mapXml, said_xml h.1, saidMap_xml h.2]
end

/-- The log with texts for missing values. -/
def saidLog (l : Log F) : Log F :=
  { l with
    attrs := saidMap l.attrs
    traces := l.traces.map fun t => ⟨saidMap t.attrs, t.events.map fun e => { e with attrs := saidMap e.attrs }⟩ }

theorem saidEvents_xml : ∀ {es : List (Event F)}, (∀ e ∈ es, MapOk e.attrs) →
    eventsXml (es.map fun e => { e with attrs := saidMap e.attrs }) = eventsXml es
  | [], _ => rfl
  | e :: es, h => by
    simp only [List.map_cons, eventsXml, saidMap_xml (h e (by simp)).2, saidEvents_xml (es := es) fun x hx => h x (by simp [hx])]

theorem saidTraces_xml : ∀ {ts : List (Trace F)}, (∀ t ∈ ts, TraceOk t) →
    tracesXml (ts.map fun t => ⟨saidMap t.attrs, t.events.map fun e => { e with attrs := saidMap e.attrs }⟩) = tracesXml ts
  | [], _ => rfl
  | t :: ts, h => by
    have ht := h t (by simp)
    simp only [List.map_cons, tracesXml, saidMap_xml ht.1.2, saidEvents_xml ht.2, saidTraces_xml (ts := ts) fun x hx => h x (by simp [hx])]

theorem saidLog_xml {l : Log F} (h : LogOk l) : serializeXes (saidLog l) = serializeXes l := by
  simp only [serializeXes, saidLog, saidMap_xml h.attrs.2, saidTraces_xml h.traces]

theorem saidLog_holds {mgr : ExtMgr} {modern : Bool} {l : Log F} {c : Content F} (h : LogOk l) (hs : FileHolds mgr modern (saidLog l) c) :
    FileHolds mgr modern l c := by
  obtain ⟨text, h1, h2⟩ := hs
  refine ⟨text, ?_, h2⟩
  rw [← h1]
  simp only [saveXes, saidLog_xml h]

mutual
theorem said_typed : ∀ {a : Attr F}, MxOk a → Typed a.said ∧ LegalAttr a.said
  | .mk k key e v m c, h => by
    simp only [MxOk] at h
    have ih := saidMap_typed h.2.2.2.2.2
    have hk : k.isCollection = false := by
      rcases h.1 with ⟨rfl, _⟩ | ⟨⟨rfl, _⟩, _⟩ <;> rfl
    simp only [Attr.said, Typed, LegalAttr, hk, Bool.false_eq_true, if_false]
    rcases h.1 with ⟨rfl, ⟨rfl, _⟩ | ⟨s, rfl, hs⟩⟩ | ⟨⟨rfl, _⟩, d, rfl, hd, _⟩
    · exact ⟨⟨trivial, ih.1⟩, h.2.1, legalText_plain (by decide), ih.2⟩
    · exact ⟨⟨trivial, ih.1⟩, h.2.1, hs, ih.2⟩
    · exact ⟨⟨hd, ih.1⟩, h.2.1, trivial, ih.2⟩
theorem saidMap_typed : ∀ {m : List (Str × Attr F)}, MxMap m → TypedMap (saidMap m) ∧ LegalMap (saidMap m)
  | [], _ => ⟨trivial, trivial⟩
  | (k, a) :: m, h => by
    simp only [MxMap] at h
    have h1 := said_typed h.1
    have h2 := saidMap_typed h.2
    simp only [saidMap, TypedMap, LegalMap]
    exact ⟨⟨h1.1, h2.1⟩, h1.2, h2.2⟩
end

/-- The manager knows the five extensions by their prefixes. -/
def KnowsLegacy (mgr : ExtMgr) : Prop := ∀ e ∈ legacyExts, mgr.byPrefix e.pfx = some e

theorem mxExt_for {mgr : ExtMgr} (hm : KnowsLegacy mgr) {key : Str} {e : Option Ext} (h : MxExt key e) :
    extFor mgr key = if e = none then extFor mgr key else e := by
  rcases h with rfl | ⟨x, hx, r, rfl, rfl⟩
  · rfl
  · simp only [reduceCtorEq, if_false]
    have hp : ∀ c ∈ x.pfx, c ≠ ':' := by
      have : ∀ x ∈ legacyExts, ∀ c ∈ x.pfx, c ≠ ':' := by decide +kernel
      exact this x hx
    have ht : (x.pfx ++ ':' :: r).takeWhile (· ≠ ':') = x.pfx := by
      rw [List.takeWhile_append_of_pos (by simpa using hp)]
      simp
    unfold extFor
    rw [if_pos (by simp), ht]
    exact hm x hx

theorem extFor_legacy {mgr : ExtMgr} (hm : KnowsLegacy mgr) {x : Ext} (hx : x ∈ legacyExts) (r : Str) :
    extFor mgr (x.pfx ++ ':' :: r) = some x := by
  rw [mxExt_for hm (e := some x) (.inr ⟨x, hx, r, rfl, rfl⟩)]
  simp

mutual
theorem said_norm {mgr : ExtMgr} (hm : KnowsLegacy mgr) {ws : Str → Str} (hN : ws py!"None" = py!"None") :
    ∀ {a : Attr F}, MxOk a → a.Texts (fun s => ws s = s) → normAttr mgr ws a.said = a.asXes mgr
  | .mk k key e v m c, h, ht => by
    simp only [MxOk] at h
    simp only [Attr.Texts] at ht
    have ih := saidMap_norm hm hN h.2.2.2.2.2 ht.2.2.1
    have hk : k.isCollection = false := by
      rcases h.1 with ⟨rfl, _⟩ | ⟨⟨rfl, _⟩, _⟩ <;> rfl
    have hv : normVal ws (saidVal v) = xesVal v := by
      rcases h.1 with ⟨_, ⟨rfl, _⟩ | ⟨s, rfl, _⟩⟩ | ⟨_, d, rfl, _, hd⟩
      · simp only [saidVal, normVal, xesVal, hN]
      · simp only [saidVal, normVal, xesVal, cutVal, ht.2.1 s rfl]
      · simp only [saidVal, normVal, xesVal, cutVal]
        cases hz : d.tz with
        | none => exact absurd hz hd
        | some z =>
          cases d
          simp only at hz
          subst hz
          simp [toMillisAware]
    have ho : OwnKeys (asXesMap mgr m) := by
      rw [asXesMap_map]
      refine ⟨?_, ?_⟩
      · have := h.2.2.2.2.1.1
        simp only [dkeys, List.map_map] at this ⊢
        exact this
      · intro p hp
        obtain ⟨q, hq, rfl⟩ := List.mem_map.1 hp
        rw [asXes_key]
        exact h.2.2.2.2.1.2 q hq
    simp only [Attr.said, Attr.asXes, normAttr, hk, Bool.false_eq_true, if_false, hv, ht.1, ih, rekey_vals ho, ← mxExt_for hm h.2.2.1]
    rw [h.2.2.2.1]
    rfl
theorem saidMap_norm {mgr : ExtMgr} (hm : KnowsLegacy mgr) {ws : Str → Str} (hN : ws py!"None" = py!"None") :
    ∀ {m : List (Str × Attr F)}, MxMap m → TextsMap (fun s => ws s = s) m → normVals mgr ws (saidMap m) = (asXesMap mgr m).map Prod.snd
  | [], _, _ => rfl
  | (k, a) :: m, h, ht => by
    simp only [MxMap] at h
    simp only [TextsMap] at ht
    simp only [saidMap, normVals, asXesMap, List.map_cons, said_norm hm hN h.1 ht.1, saidMap_norm hm hN h.2 ht.2]
end

theorem ownKeys_asXes (mgr : ExtMgr) {m : List (Str × Attr F)} (h : OwnKeys m) : OwnKeys (asXesMap mgr m) := by
  rw [asXesMap_map]
  refine ⟨?_, ?_⟩
  · have := h.1
    simp only [dkeys, List.map_map] at this ⊢
    exact this
  · intro p hp
    obtain ⟨q, hq, rfl⟩ := List.mem_map.1 hp
    rw [asXes_key]
    exact h.2 q hq

theorem mapOk_norm {mgr : ExtMgr} (hm : KnowsLegacy mgr) {ws : Str → Str} (hN : ws py!"None" = py!"None") {m : List (Str × Attr F)} (h : MapOk m)
    (ht : TextsMap (fun s => ws s = s) m) : rekey (normVals mgr ws (saidMap m)) = asXesMap mgr m := by
  rw [saidMap_norm hm hN h.2 ht, rekey_vals (ownKeys_asXes mgr h.1)]

mutual
theorem Attr.Texts.mono {P Q : Str → Prop} (h : ∀ s, P s → Q s) : ∀ {a : Attr F}, a.Texts P → a.Texts Q
  | .mk k key e v m c, ht => by
    simp only [Attr.Texts] at ht ⊢
    exact ⟨h _ ht.1, fun s hs => h _ (ht.2.1 s hs), TextsMap_mono h ht.2.2.1, TextsList_mono h ht.2.2.2⟩
theorem TextsList_mono {P Q : Str → Prop} (h : ∀ s, P s → Q s) : ∀ {as : List (Attr F)}, TextsList P as → TextsList Q as
  | [], _ => trivial
  | _ :: _, ht => ⟨Attr.Texts.mono h ht.1, TextsList_mono h ht.2⟩
theorem TextsMap_mono {P Q : Str → Prop} (h : ∀ s, P s → Q s) : ∀ {as : List (Str × Attr F)}, TextsMap P as → TextsMap Q as
  | [], _ => trivial
  | (_, _) :: _, ht => ⟨Attr.Texts.mono h ht.1, TextsMap_mono h ht.2⟩
end

mutual
theorem Attr.Texts.all {P : Str → Prop} (h : ∀ s, P s) : ∀ (a : Attr F), a.Texts P
  | .mk k key e v m c => by
    simp only [Attr.Texts]
    exact ⟨h _, fun s _ => h _, TextsMap_all h m, TextsList_all h c⟩
theorem TextsList_all {P : Str → Prop} (h : ∀ s, P s) : ∀ (as : List (Attr F)), TextsList P as
  | [] => trivial
  | a :: as => ⟨Attr.Texts.all h a, TextsList_all h as⟩
theorem TextsMap_all {P : Str → Prop} (h : ∀ s, P s) : ∀ (as : List (Str × Attr F)), TextsMap P as
  | [] => trivial
  | (_, a) :: as => ⟨Attr.Texts.all h a, TextsMap_all h as⟩
end

theorem logOk_file (hf : FloatText F) {mgr : ExtMgr} (hm : KnowsLegacy mgr) (modern : Bool) {l : Log F} (h : LogOk l)
    (ho : modern = true ∨ l.Texts OneLine) : FileHolds mgr modern l (xesOfMxml mgr l) := by
  refine saidLog_holds h ?_
  have hw : l.Texts fun s => valueBack modern s = s := by
    rcases ho with rfl | ho
    · exact ⟨TextsMap_all (fun s => (c112_partial true s).2 (.inl rfl)) _, fun t _ =>
        ⟨TextsMap_all (fun s => (c112_partial true s).2 (.inl rfl)) _, fun e _ => TextsMap_all (fun s => (c112_partial true s).2 (.inl rfl)) _⟩⟩
    · have : ∀ s, OneLine s → valueBack modern s = s := fun s hs => (c112_partial modern s).2 (.inr hs)
      exact ⟨TextsMap_mono this ho.1, fun t ht => ⟨TextsMap_mono this (ho.2 t ht).1, fun e he => TextsMap_mono this ((ho.2 t ht).2 e he)⟩⟩
  have hp : ∀ s : Str, (∀ c ∈ s, 32 ≤ c.toNat ∧ c.toNat ≤ 126) → valueBack modern s = s := fun s hs =>
    (Channel.passes_plain (valueChannel modern) hs).2
  have hN : valueBack modern py!"None" = py!"None" := hp _ (by decide)
  have hW : WritableLog (saidLog l) := by
    refine { attrs := (saidMap_typed h.attrs.2).1, globalTrace := ?_, globalEvent := ?_, traces := fun t ht => ?_ }
    · simp only [saidLog, h.globalTrace]
      exact ⟨by simp [Typed, TypedMap, GoodVal, Kind.isCollection], trivial⟩
    · simp only [saidLog, h.globalEvent]
      exact ⟨by simp [Typed, TypedMap, GoodVal, Kind.isCollection], by simp [Typed, TypedMap, GoodVal, Kind.isCollection], trivial⟩
    · obtain ⟨t', ht', rfl⟩ := List.mem_map.1 ht
      refine ⟨(saidMap_typed (h.traces t' ht').1.2).1, fun e he => ?_⟩
      obtain ⟨e', he', rfl⟩ := List.mem_map.1 he
      exact (saidMap_typed ((h.traces t' ht').2 e' he').2).1
  have hL : LegalLog (saidLog l) := by
    refine { attrs := (saidMap_typed h.attrs.2).2, extensions := ?_, classifiers := ?_, globalTrace := ?_, globalEvent := ?_, traces := fun t ht => ?_ }
    · have : ∀ e ∈ legacyExts, ∀ s ∈ [e.name, e.pfx, e.uri], ∀ c ∈ s, 32 ≤ c.toNat ∧ c.toNat ≤ 126 := by decide +kernel
      simp only [saidLog, h.extensions]
      intro e he
      exact ⟨legalText_plain (this e he _ (by simp)), legalText_plain (this e he _ (by simp)), legalText_plain (this e he _ (by simp))⟩
    · simp only [saidLog, h.classifiers]
      intro c hc
      simp only [List.mem_cons, List.not_mem_nil, or_false] at hc
      rcases hc with rfl | rfl | rfl <;> exact ⟨legalText_plain (by decide), fun k hk => by
        simp only [List.mem_cons, List.not_mem_nil, or_false] at hk
        rcases hk with rfl | rfl <;> exact legalText_plain (by decide)⟩
    · simp only [saidLog, h.globalTrace, LegalAttrs, LegalAttr, LegalVal, Kind.isCollection, Bool.false_eq_true, if_false, LegalMap]
      exact ⟨⟨legalText_plain (by decide), legalText_plain (by decide), trivial⟩, trivial⟩
    · simp only [saidLog, h.globalEvent, LegalAttrs, LegalAttr, LegalVal, Kind.isCollection, Bool.false_eq_true, if_false, LegalMap]
      exact ⟨⟨legalText_plain (by decide), legalText_plain (by decide), trivial⟩, ⟨legalText_plain (by decide), legalText_plain (by decide), trivial⟩, trivial⟩
    · obtain ⟨t', ht', rfl⟩ := List.mem_map.1 ht
      refine ⟨(saidMap_typed (h.traces t' ht').1.2).2, fun e he => ?_⟩
      obtain ⟨e', he', rfl⟩ := List.mem_map.1 he
      exact (saidMap_typed ((h.traces t' ht').2 e' he').2).2
  have hfile := c110_file hf mgr modern hW hL
  have hn : norm mgr (valueBack modern) (saidLog l).content = xesOfMxml mgr l := by
    have hE : (l.extensions.filterMap fun e => mgr.byPrefix (valueBack modern e.pfx)) = legacyExts := by
      have hx : ∀ e ∈ legacyExts, mgr.byPrefix (valueBack modern e.pfx) = some e := by
        have : ∀ e ∈ legacyExts, ∀ c ∈ e.pfx, 32 ≤ c.toNat ∧ c.toNat ≤ 126 := by decide +kernel
        intro e he
        rw [hp _ (this e he)]
        exact hm e he
      rw [h.extensions]
      have : ∀ es : List Ext, (∀ e ∈ es, mgr.byPrefix (valueBack modern e.pfx) = some e) →
          (es.filterMap fun e => mgr.byPrefix (valueBack modern e.pfx)) = es := by
        intro es
        induction es with
        | nil => intro _; rfl
        | cons e es ih =>
          intro h
          simp only [List.filterMap_cons, h e (by simp), ih fun x hx => h x (by simp [hx])]
      exact this _ hx
    have hD : distinctExts legacyExts = legacyExts := by decide +kernel
    have hC : l.classifiers.filterMap (normClassifier (valueBack modern)) = (xesOfMxml mgr l).classifiers := by
      have h1 : formatToken [py!"concept:name", py!"lifecycle:transition"] = py!"concept:name lifecycle:transition" := by decide +kernel
      have h2 : formatToken [py!"concept:name"] = py!"concept:name" := by decide +kernel
      have h3 : formatToken [py!"org:resource"] = py!"org:resource" := by decide +kernel
      have g1 : extractTokens py!"concept:name lifecycle:transition" = [py!"concept:name lifecycle:transition"] := by decide +kernel
      have g2 : extractTokens py!"concept:name" = [py!"concept:name"] := by decide +kernel
      have g3 : extractTokens py!"org:resource" = [py!"org:resource"] := by decide +kernel
      have n1 := hp py!"MXML Legacy Classifier" (by decide)
      have n2 := hp py!"Event Name" (by decide)
      have n3 := hp py!"Resource" (by decide)
      have k1 := hp py!"concept:name lifecycle:transition" (by decide)
      have k2 := hp py!"concept:name" (by decide)
      have k3 := hp py!"org:resource" (by decide)
      rw [h.classifiers]
      simp only [List.filterMap_cons, List.filterMap_nil, normClassifier, h1, h2, h3, n1, n2, n3, k1, k2, k3, g1, g2, g3, ne_eq, reduceCtorEq,
        not_false_eq_true, and_self, if_true]
      rfl
    have hc := extFor_legacy hm (x := conceptExt) (by decide) py!"name"
    have hy := extFor_legacy hm (x := lifecycleExt) (by decide) py!"transition"
    have c1 := hp py!"concept:name" (by decide)
    have c2 := hp py!"lifecycle:transition" (by decide)
    have v1 := hp py!"UNKNOWN" (by decide)
    have v2 := hp py!"complete" (by decide)
    have hG : flatList mgr (valueBack modern) l.globalTrace = (xesOfMxml mgr l).globalTrace := by
      rw [h.globalTrace]
      simp only [flatList, flatAttr, flatVals, Kind.isCollection, Bool.false_eq_true, if_false, c1, v1, normVal, xesOfMxml, List.nil_append,
        List.append_nil]
      rw [show extFor mgr py!"concept:name" = some conceptExt from hc]
    have hH : flatList mgr (valueBack modern) l.globalEvent = (xesOfMxml mgr l).globalEvent := by
      rw [h.globalEvent]
      simp only [flatList, flatAttr, flatVals, Kind.isCollection, Bool.false_eq_true, if_false, c1, c2, v1, v2, normVal, xesOfMxml, List.nil_append,
        List.append_nil, List.cons_append]
      rw [show extFor mgr py!"concept:name" = some conceptExt from hc, show extFor mgr py!"lifecycle:transition" = some lifecycleExt from hy]
    have hT : (saidLog l).content.traces.map (fun t => (rekey (normVals mgr (valueBack modern) t.1),
        t.2.map fun m => rekey (normVals mgr (valueBack modern) m))) = (xesOfMxml mgr l).traces := by
      simp only [Log.content, saidLog, xesOfMxml, List.map_map]
      refine List.map_congr_left fun t ht => ?_
      simp only [Function.comp_apply, mapOk_norm hm hN (h.traces t ht).1 (hw.2 t ht).1, List.map_map, Prod.mk.injEq, true_and]
      refine List.map_congr_left fun e he => ?_
      simp only [Function.comp_apply, mapOk_norm hm hN ((h.traces t ht).2 e he) ((hw.2 t ht).2 e he)]
    have hA := mapOk_norm hm hN h.attrs hw.1
    have hX : distinctExts ((saidLog l).content.extensions.filterMap fun e => mgr.byPrefix (valueBack modern e.pfx)) = legacyExts :=
      (congrArg distinctExts hE).trans hD
    simp only [norm, hT, hX]
    show Content.mk _ _ (List.filterMap (normClassifier (valueBack modern)) l.classifiers) (flatList mgr (valueBack modern) l.globalTrace)
      (flatList mgr (valueBack modern) l.globalEvent) _ _ = _
    rw [hC, hG, hH]
    exact congrArg (fun m => Content.mk m _ _ _ _ _ _) hA
  rw [hn] at hfile
  exact hfile

/-! ## The property -/

/-- C140: every log that the MXML parser makes of any stream of events with legal texts can be saved as XES, and the file holds that
log. -/
theorem c140_events (hf : FloatText F) {mgr : ExtMgr} (hm : KnowsLegacy mgr) (modern : Bool) {rnd : Nat → Uuid} {es : List MSax}
    {logs : List (Log F)} (he : ∀ e ∈ es, EvLegal e) (h : mxmlParse rnd es = .ok logs) :
    ∀ l ∈ logs, (modern = true ∨ l.Texts OneLine) → FileHolds mgr modern l (xesOfMxml mgr l) :=
  fun l hl ho => logOk_file hf hm modern (parse_ok he h l hl) ho

/-- C140 for files: every log that is loaded from any MXML file can be saved as XES, and the XES file holds that log. -/
theorem c140_file (hf : FloatText F) {mgr : ExtMgr} (hm : KnowsLegacy mgr) (modern : Bool) {rnd : Nat → Uuid} {text : Str} {logs : List (Log F)}
    (h : loadMxml rnd text = .ok logs) : ∀ l ∈ logs, (modern = true ∨ l.Texts OneLine) → FileHolds mgr modern l (xesOfMxml mgr l) := by
  obtain ⟨es, h1, h2⟩ := bind_ok.1 h
  exact c140_events hf hm modern (readXml_legal h1) h2

end

/-- The hypothesis on the manager holds for the standard extensions. -/
theorem c140_manager (urlParse : Str → Except PyErr Str) : KnowsLegacy ((Mgr.run standardExts).view urlParse) := by
  have : ∀ e ∈ legacyExts, e ∈ standardExts := by decide +kernel
  intro e he
  exact (c58_standard.1 e (this e he)).2.2

/-! ## Examples -/

/-- A file with a source without a program, a data attribute whose key names an extension and a time with microseconds. -/
def convFile : Str := py!"<WorkflowLog><Source/><Process id='p'><ProcessInstance id='c'><AuditTrailEntry><Data><Attribute name='concept:foo'> x </Attribute></Data><WorkflowModelElement>A</WorkflowModelElement><Timestamp>2020-02-29T23:05:07.123456+01:00</Timestamp></AuditTrailEntry></ProcessInstance></Process></WorkflowLog>"

/-- Key, prefix of the extension and value. -/
abbrev Row : Type := Str × Option Str × PyVal ToyFloat

instance : DecidableEq Row := inferInstance

/-- The rows of a map. -/
def showMap (m : List (Str × Attr ToyFloat)) : List Row := m.map fun p => (p.1, p.2.ext.map Ext.pfx, p.2.val)

/-- The rows of the log and of the events. -/
def showContent (c : Content ToyFloat) : List Row := showMap c.attrs ++ c.traces.flatMap fun t => t.2.flatMap showMap

/-- The same of the loaded logs, as loaded and as saved. -/
def showLogs : Except PyErr (List (Log ToyFloat)) → Option (List (List Row))
  | .ok logs => some (logs.flatMap fun l => [showContent l.content, showContent (xesOfMxml ((Mgr.run standardExts).view .ok) l)])
  | .error _ => none

theorem convFile_shows : showLogs (loadMxml (F := ToyFloat) (fun _ => 0) convFile) = some
    [[(py!"source", none, .none), (py!"concept:name", some py!"concept", .str py!"p"), (py!"lifecycle:model", some py!"lifecycle", .str py!"standard"),
      (py!"concept:foo", none, .str py!"x"), (py!"concept:name", some py!"concept", .str py!"A"),
        (py!"time:timestamp", some py!"time", .dt ⟨2020, 2, 29, 23, 5, 7, 123456, some 3600⟩)],
     [(py!"source", none, .str py!"None"), (py!"concept:name", some py!"concept", .str py!"p"), (py!"lifecycle:model", some py!"lifecycle", .str py!"standard"),
      (py!"concept:foo", some py!"concept", .str py!"x"), (py!"concept:name", some py!"concept", .str py!"A"),
        (py!"time:timestamp", some py!"time", .dt ⟨2020, 2, 29, 23, 5, 7, 123000, some 3600⟩)]] := by
  decide +kernel

/-- C140 applies to it: the XES file has the text `None`, an extension for `concept:foo`, and no microseconds. -/
example : ∃ l : Log ToyFloat, loadMxml (fun _ => 0) convFile = .ok [l] ∧
    FileHolds ((Mgr.run standardExts).view .ok) true l (xesOfMxml ((Mgr.run standardExts).view .ok) l) := by
  have h := congrArg (Option.map List.length) convFile_shows
  cases hl : loadMxml (F := ToyFloat) (fun _ => 0) convFile with
  | error e => rw [hl] at h; simp [showLogs] at h
  | ok logs =>
    rw [hl] at h
    simp only [showLogs, Option.map_some, Option.some.injEq, List.length_cons, List.length_nil] at h
    match logs, hl, h with
    | [], _, h => simp at h
    | [l], hl, _ => exact ⟨l, rfl, c140_file toyFloatText (c140_manager _) true hl l (by simp) (.inl rfl)⟩
    | _ :: _ :: _, _, h =>
      simp only [List.flatMap_cons, List.length_append, List.length_cons, List.length_nil] at h
      omega

end Opy
