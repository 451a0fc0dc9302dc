import Verif.Model.Universal
import Verif.Props.Bytes
import Verif.Props.Files
/-
Properties C121 and C122: saving with a serializer and loading with XUniversalParser; files of the wrong format.
-/
set_option linter.unusedSectionVars false
namespace Opy

/-! ## Specification -/

section
variable {F : Type} [PyFloat F]

/-- `XUniversalParser().parse(open(name))` on a file with these bytes ends with `r`, in whatever order the registry lists
the parsers and whatever a failed parser does to the file. -/
def UniversalGives (w : World F) (name : Str) (bytes : List Nat) (r : Except PyErr (Loaded F)) : Prop :=
  ∀ order, order.Perm parserRegistry.items → ∀ run : List Parser → Parser → Except PyErr (Loaded F), (∀ p, run [] p = parseWith w bytes p) →
    universalParse name run [] order = r

/-- The tags of MXML documents. -/
def mxmlElements : List Str :=
  [py!"WorkflowLog", py!"Source", py!"Process", py!"ProcessInstance", py!"AuditTrailEntry", py!"Attribute", py!"EventType",
   py!"WorkflowModelElement", py!"Timestamp", py!"Originator"]

/-- The tags of XES documents. -/
def xesElements : List Str :=
  [py!"log", py!"trace", py!"event", py!"extension", py!"global", py!"classifier", py!"string", py!"date", py!"int", py!"float",
   py!"boolean", py!"id", py!"list", py!"container"]

/-- The tag of an event, if it has one. -/
def MSax.tag? : MSax → Option Str
  | .start t _ => some t
  | .stop t => some t
  | .chars _ => none

/-! ## C121 -/

/-- Errors of the parser are replaced by the one of XUniversalParser. -/
def orOther : Except PyErr (Loaded F) → Except PyErr (Loaded F)
  | .ok r => .ok r
  | .error _ => .error .other

/-- The parser of the name decides. -/
theorem universal_of {w : World F} {name : Str} {bytes : List Nat} {p : Parser} (hp : canParse p name = true) :
    UniversalGives w name bytes (orOther (parseWith w bytes p)) := by
  intro order ho run hr
  obtain ⟨h1, h2, _⟩ := c54_universal name run order ho
  cases h : parseWith w bytes p with
  | ok r => exact (h1 r).2 ⟨p, hp, by rw [hr, h]⟩
  | error e => exact (h2 .other).2 ⟨rfl, fun q hq => ⟨e, by rw [c54_one_parser name q p hq hp, hr, h]⟩⟩

theorem universal_saved {w : World F} {z : Serializer} {s : Str} (hs : s ∈ sufficesOf z) (hx : s ≠ py!"xez") {stem : Str} (hstem : stem ≠ [])
    {bytes : List Nat} {r : Except PyErr (Loaded F)} (h : parseWith w bytes (sameFormat z) = r) :
    UniversalGives w (stem ++ '.' :: s) bytes (orOther r) := by
  subst h
  exact universal_of (w := w) (c55_suffices_partial z s hs hx stem hstem parserRegistry.items (.refl _)).2

/-- C121 for XES, compressed or plain: what the file holds (see C110) is what XUniversalParser loads. -/
theorem c121_xes {w : World F} (hz : w.gzip.Sound) (hc : w.codec = utf8Codec) {crlf modern : Bool} (hm : crlf = true → modern = true) {L : Log F} {c : Content F}
    (h : FileHolds w.mgr modern L c) {z : Serializer} (hxes : z = .xes ∨ z = .xesGz) {s : Str} (hs : s ∈ sufficesOf z) (hx : s ≠ py!"xez")
    {stem : Str} (hstem : stem ≠ []) :
    ∃ bytes l h', saveWith w crlf modern L z = .ok bytes ∧ UniversalGives w (stem ++ '.' :: s) bytes (.ok (.one (some l) h')) ∧
      DenLog h' w.heap.size h'.size c l ∧ Keeps w.heap.size w.heap h' := by
  rcases hxes with rfl | rfl
  · obtain ⟨bytes, h1, h2⟩ := c118_plain hm h
    obtain ⟨l, h', h3, h4⟩ := h2 w.rnd none w.heap
    refine ⟨bytes, l, h', by rw [saveWith, hc, h1], ?_, h4⟩
    exact universal_saved hs hx hstem (r := .ok (.one (some l) h')) (by simp only [sameFormat, parseWith, hc, h3, bind, Except.bind])
  · obtain ⟨bytes, h1, h2⟩ := c118_compressed hz h
    obtain ⟨l, h', h3, h4⟩ := h2 w.rnd none w.heap
    refine ⟨bytes, l, h', by rw [saveWith, h1], ?_, h4⟩
    exact universal_saved hs hx hstem (r := .ok (.one (some l) h')) (by simp only [sameFormat, parseWith, h3, bind, Except.bind])

/-- C121 for MXML, compressed or plain (see C113 for what the text holds). -/
theorem c121_mxml {w : World F} (hz : w.gzip.Sound) (hc : w.codec = utf8Codec) {crlf modern : Bool} (hm : crlf = true → modern = true) {L : Log F} {text : Str}
    (h : saveMxml modern L = .ok text) {ls : List (Log F)} (hl : loadMxml w.rnd text = .ok ls) {z : Serializer} (hmx : z = .mxml ∨ z = .mxmlGz) {s : Str}
    (hs : s ∈ sufficesOf z) {stem : Str} (hstem : stem ≠ []) :
    ∃ bytes, saveWith w crlf modern L z = .ok bytes ∧ UniversalGives w (stem ++ '.' :: s) bytes (.ok (.many ls)) := by
  obtain ⟨⟨b1, h1, h2⟩, b2, h3, h4⟩ := c118_mxml hz hm h w.rnd
  rcases hmx with rfl | rfl
  · refine ⟨b2, by rw [saveWith, hc, h3], ?_⟩
    refine universal_saved hs ?_ hstem (r := .ok (.many ls)) (by simp only [sameFormat, parseWith, hc, h4, hl, bind, Except.bind])
    rintro rfl; revert hs; decide
  · refine ⟨b1, by rw [saveWith, h1], ?_⟩
    refine universal_saved hs ?_ hstem (r := .ok (.many ls)) (by simp only [sameFormat, parseWith, h2, hl, bind, Except.bind])
    rintro rfl; revert hs; decide

/-- ... and a plain file that was cut off is not loaded: an exception. -/
theorem c121_cut {w : World F} (hc : w.codec = utf8Codec) {crlf modern : Bool} (hm : crlf = true → modern = true) {L : Log F} {z : Serializer}
    (hp : z = .xes ∨ z = .mxml) {p q : List Nat} (h : saveWith w crlf modern L z = .ok (p ++ q)) (hq : q ≠ []) (hq' : q ≠ [10])
    (hq'' : crlf = true → q ≠ [13, 10]) {s : Str} (hs : s ∈ sufficesOf z) {stem : Str} (hstem : stem ≠ []) :
    UniversalGives w (stem ++ '.' :: s) p (.error .other) := by
  rcases hp with rfl | rfl
  · rw [saveWith, hc] at h
    obtain ⟨e, he⟩ := c119_xes hm h hq hq' hq'' none (stdFactory F w.rnd) w.mgr w.heap
    refine universal_saved hs ?_ hstem (r := .error e) (by simp only [sameFormat, parseWith, hc, he, bind, Except.bind])
    rintro rfl; revert hs; decide
  · rw [saveWith, hc] at h
    obtain ⟨e, he⟩ := c119_mxml hm h hq hq' hq'' w.rnd
    refine universal_saved hs ?_ hstem (r := .error e) (by simp only [sameFormat, parseWith, hc, he, bind, Except.bind])
    rintro rfl; revert hs; decide

/-! ## C122: files of the wrong format -/

/-- A document without any MXML tag: no log, and no error. -/
theorem mxmlRun_foreign (rnd : Nat → Uuid) : ∀ (es : List MSax) (st : MxmlSt F), (∀ e ∈ es, ∀ t, e.tag? = some t → t ∉ mxmlElements) →
    ∃ b, mxmlRun rnd st es = .ok { st with buffer := b }
  | [], st, _ => ⟨st.buffer, rfl⟩
  | e :: es, st, h => by
    simp only [List.mem_cons, forall_eq_or_imp] at h
    have h1 : ∃ b, mxmlStep rnd st e = .ok { st with buffer := b } := by
      cases e with
      | start t as =>
        have := h.1 t rfl
        simp only [mxmlElements, List.mem_cons, List.not_mem_nil, or_false, not_or] at this
        exact ⟨st.buffer, by simp [mxmlStep, mxmlStart, this]⟩
      | stop t =>
        have := h.1 t rfl
        simp only [mxmlElements, List.mem_cons, List.not_mem_nil, or_false, not_or] at this
        exact ⟨[], by simp [mxmlStep, mxmlStop, mxmlStopBody, this, bind, Except.bind]⟩
      | chars s => exact ⟨st.buffer ++ [s], rfl⟩
    obtain ⟨b, h1⟩ := h1
    obtain ⟨b', h2⟩ := mxmlRun_foreign rnd es { st with buffer := b } h.2
    exact ⟨b', by simp only [mxmlRun, h1, bind, Except.bind, h2]⟩

theorem xesRun_foreign (fac : Factory F) (mgr : ExtMgr) (st : XesSt F) : ∀ (es : List MSax), (∀ e ∈ es, ∀ t, e.tag? = some t → lower t ∉ xesElements) →
    xesRun fac mgr st (xesEvents es) = .ok st
  | [], _ => rfl
  | e :: es, h => by
    simp only [List.mem_cons, forall_eq_or_imp] at h
    have ih := xesRun_foreign fac mgr st es h.2
    cases e with
    | start t as =>
      have := h.1 t rfl
      simp only [xesElements, List.mem_cons, List.not_mem_nil, or_false, not_or] at this
      simp [xesEvents, xesRun, xesStep, xesStart, attrTags, this, bind, Except.bind, ih]
    | stop t =>
      have := h.1 t rfl
      simp only [xesElements, List.mem_cons, List.not_mem_nil, or_false, not_or] at this
      simp [xesEvents, xesRun, xesStep, xesStop, attrTags, this, bind, Except.bind, ih]
    | chars s => exact ih

/-- C122, exactly: a well-formed document without any MXML tag is loaded by the MXML parsers as no log at all, without an error. -/
theorem c122_no_mxml {text : Str} {es : List MSax} (hr : readXml text = .ok es) (h : ∀ e ∈ es, ∀ t, e.tag? = some t → t ∉ mxmlElements) (rnd : Nat → Uuid) :
    (loadMxml rnd text : Except PyErr (List (Log F))) = .ok [] := by
  obtain ⟨b, h1⟩ := mxmlRun_foreign (F := F) rnd es (MxmlSt.init F) h
  simp only [loadMxml, hr, mxmlParse, bind, Except.bind, h1]
  rfl

/-- ... and a well-formed document without any XES tag by the XES parsers as `[None]`. -/
theorem c122_no_xes {text : Str} {es : List MSax} (hr : readXml text = .ok es) (h : ∀ e ∈ es, ∀ t, e.tag? = some t → lower t ∉ xesElements)
    (given : Option (Factory F)) (reg : Factory F) (mgr : ExtMgr) (hp : Heap F) : loadXes given reg mgr hp text = .ok (none, hp) := by
  simp only [loadXes, hr, xesParse, bind, Except.bind, xesRun_foreign reg mgr _ es h]
  rfl

/-! ### The tags of saved documents -/

mutual
/-- All tags of a tree. -/
def AllTags (P : Str → Prop) : MNode → Prop
  | .text _ => True
  | .elem t _ ks => P t ∧ AllTagsList P ks
/-- The same for a list. -/
def AllTagsList (P : Str → Prop) : List MNode → Prop
  | [] => True
  | k :: ks => AllTags P k ∧ AllTagsList P ks
end

mutual
theorem reads_tags {P : Str → Prop} {ws tx : Str → Str} : ∀ {n : MNode} {s : List MSax}, Reads ws tx n s → AllTags P n →
    ∀ e ∈ s, ∀ t, e.tag? = some t → P t
  | _, _, .text _, _ => by
    intro e he t ht
    obtain ⟨c, _, rfl⟩ := List.mem_map.1 he
    cases ht
  | _, _, .elem hk, h => by
    simp only [AllTags] at h
    intro e he t ht
    simp only [List.mem_cons, List.mem_append, List.not_mem_nil, or_false] at he
    rcases he with rfl | he | rfl
    · cases ht; exact h.1
    · exact readsAll_tags hk h.2 e he t ht
    · cases ht; exact h.1
theorem readsAll_tags {P : Str → Prop} {ws tx : Str → Str} : ∀ {ns : List MNode} {s : List MSax}, ReadsAll ws tx ns s → AllTagsList P ns →
    ∀ e ∈ s, ∀ t, e.tag? = some t → P t
  | _, _, .nil hg, _ => by
    intro e he t ht
    obtain ⟨w, rfl, _⟩ := hg e he
    cases ht
  | _, _, .cons hg hn hs, h => by
    simp only [AllTagsList] at h
    intro e he t ht
    simp only [List.mem_append] at he
    rcases he with he | he | he
    · obtain ⟨w, rfl, _⟩ := hg e he
      cases ht
    · exact reads_tags hn h.1 e he t ht
    · exact readsAll_tags hs h.2 e he t ht
end

theorem allTagsList_append {P : Str → Prop} {xs ys : List MNode} : AllTagsList P (xs ++ ys) ↔ AllTagsList P xs ∧ AllTagsList P ys := by
  induction xs with
  | nil => simp [AllTagsList]
  | cons x xs ih => simp [AllTagsList, ih, and_assoc]

theorem nodeList_append' (xs ys : List Xml) : nodeList (xs ++ ys) = nodeList xs ++ nodeList ys := by
  induction xs with
  | nil => rfl
  | cons x xs ih => simp [nodeList, ih]

mutual
theorem attrXml_tags : ∀ {a : Attr F} {x : Xml}, attrXml a = .ok x → AllTags (· ∈ xesElements) x.node
  | .mk kind key ext val m c, x, h => by
    have hk : kind.tag ∈ xesElements := by cases kind <;> decide
    rw [attrXml] at h
    split at h
    · obtain ⟨ks, h1, h2⟩ := bind_ok.1 h
      cases h2
      exact ⟨hk, attrsXml_tags h1⟩
    · obtain ⟨s, _, h⟩ := bind_ok.1 h
      obtain ⟨ks, h1, h2⟩ := bind_ok.1 h
      cases h2
      exact ⟨hk, mapXml_tags h1⟩
theorem attrsXml_tags : ∀ {as : List (Attr F)} {xs : List Xml}, attrsXml as = .ok xs → AllTagsList (· ∈ xesElements) (nodeList xs)
  | [], xs, h => by rw [attrsXml] at h; cases h; trivial
  | a :: as, xs, h => by
    rw [attrsXml] at h
    obtain ⟨x, h1, h⟩ := bind_ok.1 h
    obtain ⟨ys, h2, h⟩ := bind_ok.1 h
    cases h
    exact ⟨attrXml_tags h1, attrsXml_tags h2⟩
theorem mapXml_tags : ∀ {as : List (Str × Attr F)} {xs : List Xml}, mapXml as = .ok xs → AllTagsList (· ∈ xesElements) (nodeList xs)
  | [], xs, h => by rw [mapXml] at h; cases h; trivial
  | (_, a) :: as, xs, h => by
    rw [mapXml] at h
    obtain ⟨x, h1, h⟩ := bind_ok.1 h
    obtain ⟨ys, h2, h⟩ := bind_ok.1 h
    cases h
    exact ⟨attrXml_tags h1, mapXml_tags h2⟩
end

theorem globalXml_tags {scope : Str} {as : List (Attr F)} {xs : List Xml} (h : globalXml scope as = .ok xs) : AllTagsList (· ∈ xesElements) (nodeList xs) := by
  unfold globalXml at h
  split at h
  · obtain ⟨ks, h1, h⟩ := bind_ok.1 h
    cases h
    exact ⟨⟨by decide, attrsXml_tags h1⟩, trivial⟩
  · cases h; trivial

theorem eventsXml_tags : ∀ {es : List (Event F)} {xs : List Xml}, eventsXml es = .ok xs → AllTagsList (· ∈ xesElements) (nodeList xs)
  | [], xs, h => by rw [eventsXml] at h; cases h; trivial
  | e :: es, xs, h => by
    rw [eventsXml] at h
    obtain ⟨ks, h1, h⟩ := bind_ok.1 h
    obtain ⟨ys, h2, h⟩ := bind_ok.1 h
    cases h
    exact ⟨⟨by decide, mapXml_tags h1⟩, eventsXml_tags h2⟩

theorem tracesXml_tags : ∀ {ts : List (Trace F)} {xs : List Xml}, tracesXml ts = .ok xs → AllTagsList (· ∈ xesElements) (nodeList xs)
  | [], xs, h => by rw [tracesXml] at h; cases h; trivial
  | t :: ts, xs, h => by
    rw [tracesXml] at h
    obtain ⟨ks, h1, h⟩ := bind_ok.1 h
    obtain ⟨es, h2, h⟩ := bind_ok.1 h
    obtain ⟨ys, h3, h⟩ := bind_ok.1 h
    cases h
    refine ⟨⟨by decide, ?_⟩, tracesXml_tags h3⟩
    rw [nodeList_append']
    exact allTagsList_append.2 ⟨mapXml_tags h1, eventsXml_tags h2⟩

theorem nodeList_tags {P : Str → Prop} {xs : List Xml} (h : ∀ x ∈ xs, AllTags P x.node) : AllTagsList P (nodeList xs) := by
  induction xs with
  | nil => trivial
  | cons x xs ih => exact ⟨h x (by simp), ih fun y hy => h y (by simp [hy])⟩

theorem serializeXes_tags {L : Log F} {x : Xml} (h : serializeXes L = .ok x) : AllTags (· ∈ xesElements) x.node := by
  unfold serializeXes at h
  obtain ⟨gt, h1, h⟩ := bind_ok.1 h
  obtain ⟨ge, h2, h⟩ := bind_ok.1 h
  obtain ⟨as, h3, h⟩ := bind_ok.1 h
  obtain ⟨ts, h4, h⟩ := bind_ok.1 h
  cases h
  refine ⟨by decide, ?_⟩
  simp only [nodeList_append', allTagsList_append]
  refine ⟨⟨⟨⟨⟨nodeList_tags fun x hx => ?_, globalXml_tags h1⟩, globalXml_tags h2⟩, nodeList_tags fun x hx => ?_⟩, mapXml_tags h3⟩, tracesXml_tags h4⟩
  · obtain ⟨e, _, rfl⟩ := List.mem_map.1 hx
    exact ⟨by show py!"extension" ∈ xesElements; decide, trivial⟩
  · obtain ⟨e, _, rfl⟩ := List.mem_map.1 hx
    exact ⟨by show py!"classifier" ∈ xesElements; decide, trivial⟩

/-- The tags that the MXML serializer writes. -/
def mxmlWritten : List Str := mxmlElements ++ [py!"Data", py!"attribute", py!"originator", py!"timestamp"]

theorem dataKids_tags : ∀ {m : List (Str × Attr F)} {xs : List MNode}, dataKids m = .ok xs → AllTagsList (· ∈ mxmlWritten) xs
  | [], xs, h => by rw [dataKids] at h; cases h; trivial
  | (_, a) :: m, xs, h => by
    rw [dataKids] at h
    split at h
    · obtain ⟨r, _, h⟩ := bind_ok.1 h
      obtain ⟨t, _, h⟩ := bind_ok.1 h
      split at h
      · cases h
      · obtain ⟨ks, h1, h⟩ := bind_ok.1 h
        cases h
        refine ⟨⟨by decide, ?_⟩, dataKids_tags h1⟩
        split <;> simp [AllTagsList, AllTags]
    · exact dataKids_tags h

theorem dataXml_tags {m : AttrMap F} {x : MNode} (h : dataXml m = .ok x) : AllTags (· ∈ mxmlWritten) x := by
  obtain ⟨ks, h1, h⟩ := bind_ok.1 h
  cases h
  exact ⟨by decide, dataKids_tags h1⟩

theorem xmlText_tags {v : PyVal F} {xs : List MNode} (h : xmlText v = .ok xs) : AllTagsList (· ∈ mxmlWritten) xs := by
  unfold xmlText at h
  split at h
  · cases h; trivial
  · cases h; split <;> simp [AllTagsList, AllTags]
  · cases h

theorem typeXml_tags {m : AttrMap F} {x : MNode} (h : typeXml m = .ok x) : AllTags (· ∈ mxmlWritten) x := by
  unfold typeXml at h
  split at h
  · cases h; exact ⟨by decide, trivial, trivial⟩
  · obtain ⟨r, _, h⟩ := bind_ok.1 h
    obtain ⟨v, _, h⟩ := bind_ok.1 h
    split at h
    · split at h <;> cases h <;> exact ⟨by decide, trivial, trivial⟩
    · cases h

theorem originatorXml_tags {m : AttrMap F} {xs : List MNode} (h : originatorXml m = .ok xs) : AllTagsList (· ∈ mxmlWritten) xs := by
  unfold originatorXml at h
  split at h
  · cases h; trivial
  · obtain ⟨r, _, h⟩ := bind_ok.1 h
    obtain ⟨v, _, h⟩ := bind_ok.1 h
    obtain ⟨t, h1, h⟩ := bind_ok.1 h
    cases h
    exact ⟨⟨by decide, xmlText_tags h1⟩, trivial⟩

theorem timestampXml_tags {m : AttrMap F} {xs : List MNode} (h : timestampXml m = .ok xs) : AllTagsList (· ∈ mxmlWritten) xs := by
  unfold timestampXml at h
  split at h
  · cases h; trivial
  · obtain ⟨r, _, h⟩ := bind_ok.1 h
    obtain ⟨v, _, h⟩ := bind_ok.1 h
    cases h
    exact ⟨⟨by decide, trivial, trivial⟩, trivial⟩

theorem entryXml_tags {e : Event F} {x : MNode} (h : entryXml e = .ok x) : AllTags (· ∈ mxmlWritten) x := by
  unfold entryXml at h
  obtain ⟨d, h1, h⟩ := bind_ok.1 h
  obtain ⟨r, _, h⟩ := bind_ok.1 h
  obtain ⟨v, _, h⟩ := bind_ok.1 h
  obtain ⟨n, h2, h⟩ := bind_ok.1 h
  obtain ⟨t, h3, h⟩ := bind_ok.1 h
  obtain ⟨o, h4, h⟩ := bind_ok.1 h
  obtain ⟨ts, h5, h⟩ := bind_ok.1 h
  cases h
  refine ⟨by decide, ?_⟩
  rw [List.append_assoc]
  exact allTagsList_append.2 ⟨⟨dataXml_tags h1, ⟨by decide, xmlText_tags h2⟩, typeXml_tags h3, trivial⟩,
    allTagsList_append.2 ⟨originatorXml_tags h4, timestampXml_tags h5⟩⟩

theorem entriesXml_tags : ∀ {es : List (Event F)} {xs : List MNode}, entriesXml es = .ok xs → AllTagsList (· ∈ mxmlWritten) xs
  | [], xs, h => by rw [entriesXml] at h; cases h; trivial
  | e :: es, xs, h => by
    rw [entriesXml] at h
    obtain ⟨x, h1, h⟩ := bind_ok.1 h
    obtain ⟨ys, h2, h⟩ := bind_ok.1 h
    cases h
    exact ⟨entryXml_tags h1, entriesXml_tags h2⟩

theorem instancesXml_tags : ∀ {ts : List (Trace F)} {xs : List MNode}, instancesXml ts = .ok xs → AllTagsList (· ∈ mxmlWritten) xs
  | [], xs, h => by rw [instancesXml] at h; cases h; trivial
  | t :: ts, xs, h => by
    rw [instancesXml] at h
    obtain ⟨x, h1, h⟩ := bind_ok.1 h
    obtain ⟨ys, h2, h⟩ := bind_ok.1 h
    cases h
    refine ⟨?_, instancesXml_tags h2⟩
    unfold instanceXml at h1
    obtain ⟨i, _, h1⟩ := bind_ok.1 h1
    obtain ⟨r, _, h1⟩ := bind_ok.1 h1
    obtain ⟨d, h3, h1⟩ := bind_ok.1 h1
    obtain ⟨es, h4, h1⟩ := bind_ok.1 h1
    cases h1
    exact ⟨by decide, dataXml_tags h3, entriesXml_tags h4⟩

theorem serializeMxml_tags {L : Log F} {x : MNode} (h : serializeMxml L = .ok x) : AllTags (· ∈ mxmlWritten) x := by
  unfold serializeMxml at h
  obtain ⟨i, _, h⟩ := bind_ok.1 h
  obtain ⟨r, _, h⟩ := bind_ok.1 h
  obtain ⟨d, h1, h⟩ := bind_ok.1 h
  obtain ⟨is, h2, h⟩ := bind_ok.1 h
  cases h
  exact ⟨by decide, ⟨by decide, trivial⟩, ⟨by decide, dataXml_tags h1, instancesXml_tags h2⟩, trivial⟩

/-- The tags in the text of a saved tree. -/
theorem saveTree_tags {P : Str → Prop} {modern : Bool} {cs : List Str} (hcs : ∀ c ∈ cs, commentOk c = true) {x : MNode} (ht : Tidy (fun _ => True) x)
    (hP : AllTags P x) {text : Str} (h : saveTree modern cs x = .ok text) : ∃ es, readXml text = .ok es ∧ ∀ e ∈ es, ∀ t, e.tag? = some t → P t := by
  have hl : LegalNode x := Classical.byContradiction fun hn => by
    rw [(saveTree_spec modern hcs ht).2 hn] at h
    cases h
  obtain ⟨text', s, h1, h2, h3⟩ := (saveTree_spec modern hcs ht).1 hl
  rw [h] at h1
  cases h1
  exact ⟨s, h2, reads_tags h3 hP⟩

/-- C122, refuted: every saved XES document is loaded by the MXML parser as an empty list of logs, without an error. -/
theorem c122_xes_as_mxml_refuted {modern : Bool} {L : Log F} {text : Str} (h : saveXes modern L = .ok text) (rnd : Nat → Uuid) :
    (loadMxml rnd text : Except PyErr (List (Log F))) = .ok [] := by
  obtain ⟨x, hx, h⟩ := bind_ok.1 h
  obtain ⟨es, h1, h2⟩ := saveTree_tags xesComments_ok (xml_tidy (serializeXes_tidy hx)) (serializeXes_tags hx) h
  refine c122_no_mxml h1 (fun e he t ht => ?_) rnd
  have : ∀ t ∈ xesElements, t ∉ mxmlElements := by decide
  exact this t (h2 e he t ht)

/-- ... and every saved MXML document by the XES parser as `[None]`. -/
theorem c122_mxml_as_xes_refuted {modern : Bool} {L : Log F} {text : Str} (h : saveMxml modern L = .ok text) (given : Option (Factory F)) (reg : Factory F)
    (mgr : ExtMgr) (hp : Heap F) : loadXes given reg mgr hp text = .ok (none, hp) := by
  obtain ⟨x, hx, h⟩ := bind_ok.1 h
  obtain ⟨es, h1, h2⟩ := saveTree_tags mxmlComments_ok (serializeMxml_fine hx).1 (serializeMxml_tags hx) h
  refine c122_no_xes h1 (fun e he t ht => ?_) given reg mgr hp
  have : ∀ t ∈ mxmlWritten, lower t ∉ xesElements := by decide
  exact this t (h2 e he t ht)

/-- Under the wrong name XUniversalParser does the same: the XES file gives no log. -/
theorem c122_universal_refuted {w : World F} (hc : w.codec = utf8Codec) {crlf modern : Bool} (hm : crlf = true → modern = true) {L : Log F} {bytes : List Nat}
    (h : saveWith w crlf modern L .xes = .ok bytes) {s : Str} (hs : s = py!".xml" ∨ s = py!".mxml") {stem : Str} (hstem : stem ≠ []) :
    UniversalGives w (stem ++ s) bytes (.ok (.many [])) := by
  rw [saveWith, hc] at h
  obtain ⟨text, h1, h2⟩ := bind_ok.1 h
  have hp : canParse .mxml (stem ++ s) = true := (c52_can_parse _ _).2 ⟨s, by rcases hs with rfl | rfl <;> decide, stem, hstem, rfl⟩
  have h3 : parseWith w bytes .mxml = .ok (.many []) := by
    simp only [parseWith, loadMxmlPlain, hc, readPlain_write utf8Codec_sound (fun hc => (saveXes_text h1).noCr (hm hc)) (saveXes_text h1).head h2, bind,
      Except.bind, loadMxml_eol, c122_xes_as_mxml_refuted h1]
  have := universal_of (w := w) (bytes := bytes) hp
  rw [h3] at this
  exact this

end

/-! ## Examples -/

/-- A platform with UTF-8, and "compression" that only puts a byte in front. -/
def someWorld : World ToyFloat :=
  ⟨utf8Codec, ⟨fun b => 31 :: b, fun b => match b with | 31 :: b => .ok b | _ => .error .other, fun _ => .error .other⟩, fun _ => 0, tripMgr, ⟨[], 0⟩⟩

example : someWorld.gzip.Sound := fun _ => rfl

/-- C121 applies to the log of C110, saved under two names. -/
example : ∃ bytes l h', saveWith someWorld false false tripLog .xesGz = .ok bytes ∧
    UniversalGives someWorld py!"a/b.xes.gz" bytes (.ok (.one (some l) h')) ∧ DenLog h' 0 h'.size { tripLog.content with features := xesVersion } l :=
  have ⟨bytes, l, h', h1, h2, h3, _⟩ := c121_xes (w := someWorld) (fun _ => rfl) rfl (crlf := false) (by simp)
    (c110_canonical toyFloatText tripMgr false tripLog_typed tripLog_legal tripLog_canon_text) (.inr rfl) (s := py!"xes.gz") (by decide) (by decide) (stem := py!"a/b") (by decide)
  ⟨bytes, l, h', h1, h2, h3⟩

example : ∃ bytes l h', saveWith someWorld false false tripLog .xes = .ok bytes ∧
    UniversalGives someWorld py!"b.xes" bytes (.ok (.one (some l) h')) ∧ DenLog h' 0 h'.size { tripLog.content with features := xesVersion } l :=
  have ⟨bytes, l, h', h1, h2, h3, _⟩ := c121_xes (w := someWorld) (fun _ => rfl) rfl (crlf := false) (by simp)
    (c110_canonical toyFloatText tripMgr false tripLog_typed tripLog_legal tripLog_canon_text) (.inl rfl) (s := py!"xes") (by decide) (by decide) (stem := py!"b") (by decide)
  ⟨bytes, l, h', h1, h2, h3⟩

example : ∃ bytes l, saveWith someWorld false false mxLog .mxml = .ok bytes ∧ UniversalGives someWorld py!"b.mxml" bytes (.ok (.many [l])) := by
  obtain ⟨x, hx⟩ : ∃ x, serializeMxml mxLog = .ok x := ⟨_, rfl⟩
  obtain ⟨text, l, h1, h2, _⟩ := c113_file someWorld.rnd false mxLog x hx mxLog_legal
  obtain ⟨bytes, h3, h4⟩ := c121_mxml (w := someWorld) (fun _ => rfl) rfl (crlf := false) (by simp) h1 h2 (.inl rfl) (s := py!"mxml") (by decide) (stem := py!"b") (by decide)
  exact ⟨bytes, l, h3, h4⟩

/-- C122 applies: a document of another kind, and a saved log under the name of the other format. -/
example : (loadMxml (fun _ => 0) py!"<html><body>log</body></html>" : Except PyErr (List (Log ToyFloat))) = .ok [] :=
  c122_no_mxml (es := [.start py!"html" [], .start py!"body" [], .chars py!"l", .chars py!"o", .chars py!"g", .stop py!"body", .stop py!"html"]) (by decide +kernel)
    (by simp only [List.mem_cons, List.not_mem_nil, or_false, forall_eq_or_imp, forall_eq, MSax.tag?, Option.some.injEq, forall_eq', reduceCtorEq, false_implies,
      implies_true, true_and]; decide) _

example : ∃ bytes, saveWith someWorld false false tripLog .xes = .ok bytes ∧ UniversalGives someWorld py!"b.xml" bytes (.ok (.many [])) := by
  obtain ⟨bytes, h1, _⟩ := c118_plain (crlf := false) (by simp) (c110_canonical toyFloatText tripMgr false tripLog_typed tripLog_legal tripLog_canon_text)
  have h2 : saveWith someWorld false false tripLog .xes = .ok bytes := h1
  exact ⟨bytes, h2, c122_universal_refuted (w := someWorld) rfl (by simp) h2 (.inl rfl) (stem := py!"b") (by simp)⟩

end Opy
