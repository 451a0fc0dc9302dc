import Verif.Props.XmlTree
import Verif.Props.XesTrip
import Verif.Props.MxmlTrip
/-
Properties C110 to C113: the text of the files.
-/
set_option linter.unusedSectionVars false
namespace Opy

/-! ## Specification -/

/-- A text without characters that XML forbids: control characters other than tab and line ends, U+FFFE, U+FFFF. -/
def LegalText (s : Str) : Prop := ∀ c ∈ s, c.toNat = 9 ∨ c.toNat = 10 ∨ c.toNat = 13 ∨ (32 ≤ c.toNat ∧ c.toNat ≠ 0xFFFE ∧ c.toNat ≠ 0xFFFF)

section
variable {F : Type} [PyFloat F]

/-- Only strings can be illegal. -/
def LegalVal : PyVal F → Prop
  | .str s => LegalText s
  | _ => True

mutual
/-- The keys and string values of an attribute and of what is written inside it. -/
def LegalAttr : Attr F → Prop
  | .mk k key _ v m c => LegalText key ∧ LegalVal v ∧ (if k.isCollection = true then LegalAttrs c else LegalMap m)
/-- The same for a list. -/
def LegalAttrs : List (Attr F) → Prop
  | [] => True
  | a :: as => LegalAttr a ∧ LegalAttrs as
/-- The same for a map; its keys are not written. -/
def LegalMap : List (Str × Attr F) → Prop
  | [] => True
  | (_, a) :: as => LegalAttr a ∧ LegalMap as
end

/-- All texts of a log that are written. -/
structure LegalLog (L : Log F) : Prop where
  attrs : LegalMap L.attrs
  extensions : ∀ e ∈ L.extensions, LegalText e.name ∧ LegalText e.pfx ∧ LegalText e.uri
  classifiers : ∀ c ∈ L.classifiers, LegalText c.name ∧ ∀ k ∈ c.keys, LegalText k
  globalTrace : LegalAttrs L.globalTrace
  globalEvent : LegalAttrs L.globalEvent
  traces : ∀ t ∈ L.traces, LegalMap t.attrs ∧ ∀ e ∈ t.events, LegalMap e.attrs

/-- Writing the log to a file and loading that file, into any heap and with any given factory, gives a fresh log of
content `c` and leaves older objects alone. -/
def FileHolds (mgr : ExtMgr) (modern : Bool) (L : Log F) (c : Content F) : Prop :=
  ∃ text, saveXes modern L = .ok text ∧ ∀ (rnd : Nat → Uuid) (given : Option (Factory F)) (h : Heap F),
    ∃ l h', loadXes given (stdFactory F rnd) mgr h text = .ok (some l, h') ∧
      DenLog h' h.size h'.size c l ∧ Keeps h.size h h'

/-! ## XES trees are tidy -/

mutual
/-- Names of an XES tree. -/
def XmlTidy : Xml → Prop
  | .elem t as ks => GoodName t ∧ (∀ p ∈ as, GoodName p.1) ∧ (as.map Prod.fst).Nodup ∧ XmlsTidy ks
/-- The same for a list. -/
def XmlsTidy : List Xml → Prop
  | [] => True
  | x :: xs => XmlTidy x ∧ XmlsTidy xs
end

mutual
theorem xml_tidy : ∀ {x : Xml}, XmlTidy x → Tidy (fun _ => True) x.node
  | .elem t as ks, h => by
    simp only [XmlTidy] at h
    simp only [Xml.node, Tidy]
    exact ⟨h.1, h.2.1, h.2.2.1, .inr (xmls_tidy h.2.2.2)⟩
theorem xmls_tidy : ∀ {xs : List Xml}, XmlsTidy xs → TidyAll (fun _ => True) (nodeList xs)
  | [], _ => trivial
  | _ :: _, h => ⟨xml_tidy h.1, xmls_tidy h.2⟩
end

theorem xmlsTidy_append {xs ys : List Xml} (h1 : XmlsTidy xs) (h2 : XmlsTidy ys) : XmlsTidy (xs ++ ys) := by
  induction xs with
  | nil => exact h2
  | cons x xs ih => exact ⟨h1.1, ih h1.2⟩

theorem xmlsTidy_of_mem {xs : List Xml} (h : ∀ x ∈ xs, XmlTidy x) : XmlsTidy xs := by
  induction xs with
  | nil => trivial
  | cons x xs ih => exact ⟨h x (by simp), ih fun y hy => h y (by simp [hy])⟩

instance (n : Str) : Decidable (GoodName n) := by
  cases n with
  | nil => exact .isFalse id
  | cons c cs => exact inferInstanceAs (Decidable (_ ∧ _))

theorem tag_good (k : Kind) : GoodName k.tag := by cases k <;> decide

mutual
theorem attrXml_tidy : ∀ {a : Attr F} {x : Xml}, attrXml a = .ok x → XmlTidy x
  | .mk kind key ext val m c, x, h => by
    rw [attrXml] at h
    split at h
    · obtain ⟨ks, h1, h2⟩ := bind_ok.1 h
      cases h2
      refine ⟨tag_good kind, ?_, by simp, attrsXml_tidy h1⟩
      simp only [List.mem_singleton, forall_eq]
      exact by decide
    · obtain ⟨s, _, h⟩ := bind_ok.1 h
      obtain ⟨ks, h1, h2⟩ := bind_ok.1 h
      cases h2
      refine ⟨tag_good kind, ?_, by simp, mapXml_tidy h1⟩
      simp only [List.mem_cons, List.not_mem_nil, or_false, forall_eq_or_imp, forall_eq]
      exact ⟨by decide, by decide⟩
theorem attrsXml_tidy : ∀ {as : List (Attr F)} {xs : List Xml}, attrsXml as = .ok xs → XmlsTidy xs
  | [], xs, h => by rw [attrsXml] at h; cases h; trivial
  | a :: as, xs, h => by
    rw [attrsXml] at h
    obtain ⟨x, h1, h⟩ := bind_ok.1 h
    obtain ⟨ys, h2, h⟩ := bind_ok.1 h
    cases h
    exact ⟨attrXml_tidy h1, attrsXml_tidy h2⟩
theorem mapXml_tidy : ∀ {as : List (Str × Attr F)} {xs : List Xml}, mapXml as = .ok xs → XmlsTidy xs
  | [], xs, h => by rw [mapXml] at h; cases h; trivial
  | (_, a) :: as, xs, h => by
    rw [mapXml] at h
    obtain ⟨x, h1, h⟩ := bind_ok.1 h
    obtain ⟨ys, h2, h⟩ := bind_ok.1 h
    cases h
    exact ⟨attrXml_tidy h1, mapXml_tidy h2⟩
end

theorem globalXml_tidy {scope : Str} {as : List (Attr F)} {xs : List Xml} (h : globalXml scope as = .ok xs) : XmlsTidy xs := by
  unfold globalXml at h
  split at h
  · obtain ⟨ks, h1, h⟩ := bind_ok.1 h
    cases h
    refine ⟨⟨by decide, ?_, by simp, attrsXml_tidy h1⟩, trivial⟩
    simp only [List.mem_singleton, forall_eq]
    exact by decide
  · cases h; trivial

theorem eventsXml_tidy : ∀ {es : List (Event F)} {xs : List Xml}, eventsXml es = .ok xs → XmlsTidy xs
  | [], xs, h => by rw [eventsXml] at h; cases h; trivial
  | e :: es, xs, h => by
    rw [eventsXml] at h
    obtain ⟨ks, h1, h⟩ := bind_ok.1 h
    obtain ⟨ys, h2, h⟩ := bind_ok.1 h
    cases h
    exact ⟨⟨by decide, by simp, by simp, mapXml_tidy h1⟩, eventsXml_tidy h2⟩

theorem tracesXml_tidy : ∀ {ts : List (Trace F)} {xs : List Xml}, tracesXml ts = .ok xs → XmlsTidy xs
  | [], xs, h => by rw [tracesXml] at h; cases h; trivial
  | t :: ts, xs, h => by
    rw [tracesXml] at h
    obtain ⟨ks, h1, h⟩ := bind_ok.1 h
    obtain ⟨es, h2, h⟩ := bind_ok.1 h
    obtain ⟨ys, h3, h⟩ := bind_ok.1 h
    cases h
    exact ⟨⟨by decide, by simp, by simp, xmlsTidy_append (mapXml_tidy h1) (eventsXml_tidy h2)⟩, tracesXml_tidy h3⟩

/-- Every tree the XES serializer builds is tidy. -/
theorem serializeXes_tidy {L : Log F} {x : Xml} (h : serializeXes L = .ok x) : XmlTidy x := by
  unfold serializeXes at h
  obtain ⟨gt, h1, h⟩ := bind_ok.1 h
  obtain ⟨ge, h2, h⟩ := bind_ok.1 h
  obtain ⟨as, h3, h⟩ := bind_ok.1 h
  obtain ⟨ts, h4, h⟩ := bind_ok.1 h
  cases h
  refine ⟨by decide, ?_, by decide, ?_⟩
  · intro p hp
    simp only [versionAttrs, List.mem_cons, List.not_mem_nil, or_false] at hp
    rcases hp with rfl | rfl | rfl <;> decide
  · refine xmlsTidy_append (xmlsTidy_append (xmlsTidy_append (xmlsTidy_append (xmlsTidy_append ?_ (globalXml_tidy h1)) (globalXml_tidy h2)) ?_)
      (mapXml_tidy h3)) (tracesXml_tidy h4)
    · refine xmlsTidy_of_mem fun x hx => ?_
      obtain ⟨e, _, rfl⟩ := List.mem_map.1 hx
      refine ⟨by decide, ?_, by simp, trivial⟩
      simp only [List.mem_cons, List.not_mem_nil, or_false, forall_eq_or_imp, forall_eq]
      exact ⟨by decide, by decide, by decide⟩
    · refine xmlsTidy_of_mem fun x hx => ?_
      obtain ⟨e, _, rfl⟩ := List.mem_map.1 hx
      refine ⟨by decide, ?_, by simp, trivial⟩
      simp only [List.mem_cons, List.not_mem_nil, or_false, forall_eq_or_imp, forall_eq]
      exact ⟨by decide, by decide⟩

/-! ## Legal characters of XES trees -/

theorem legalText_iff {s : Str} : (∀ c ∈ s, isXmlChar c = true) ↔ LegalText s := by
  unfold LegalText
  refine forall_congr' fun c => imp_congr_right fun _ => ?_
  have hv : c.toNat < 0xD800 ∨ (0xDFFF < c.toNat ∧ c.toNat < 0x110000) := c.valid
  have e1 : c = '\t' ↔ c.toNat = 9 := ⟨fun h => by subst h; rfl, fun h => by rw [← Char.ofNat_toNat c, h]⟩
  have e2 : c = '\n' ↔ c.toNat = 10 := ⟨fun h => by subst h; rfl, fun h => by rw [← Char.ofNat_toNat c, h]⟩
  have e3 : c = '\r' ↔ c.toNat = 13 := ⟨fun h => by subst h; rfl, fun h => by rw [← Char.ofNat_toNat c, h]⟩
  simp only [isXmlChar, Bool.or_eq_true, Bool.and_eq_true, decide_eq_true_eq, e1, e2, e3]
  omega

theorem legalText_plain {s : Str} (h : ∀ c ∈ s, 32 ≤ c.toNat ∧ c.toNat ≤ 126) : LegalText s := by
  intro c hc
  have := h c hc
  omega

mutual
/-- All values of an XES tree. -/
def XmlLegal : Xml → Prop
  | .elem _ as ks => (∀ p ∈ as, LegalText p.2) ∧ XmlsLegal ks
/-- The same for a list. -/
def XmlsLegal : List Xml → Prop
  | [] => True
  | x :: xs => XmlLegal x ∧ XmlsLegal xs
end

mutual
theorem xml_legal : ∀ (x : Xml), LegalNode x.node ↔ XmlLegal x
  | .elem t as ks => by
    simp only [Xml.node, LegalNode, XmlLegal, legalText_iff, xmls_legal ks]
theorem xmls_legal : ∀ (xs : List Xml), LegalAll (nodeList xs) ↔ XmlsLegal xs
  | [] => by simp [nodeList, LegalAll, XmlsLegal]
  | x :: xs => by simp only [nodeList, LegalAll, XmlsLegal, xml_legal x, xmls_legal xs]
end

theorem xmlsLegal_append (xs ys : List Xml) : XmlsLegal (xs ++ ys) ↔ XmlsLegal xs ∧ XmlsLegal ys := by
  induction xs with
  | nil => simp [XmlsLegal]
  | cons x xs ih => simp only [List.cons_append, XmlsLegal, ih, and_assoc]

theorem xmlsLegal_map {α : Type} (f : α → Xml) (l : List α) : XmlsLegal (l.map f) ↔ ∀ a ∈ l, XmlLegal (f a) := by
  induction l with
  | nil => simp [XmlsLegal]
  | cons a l ih => simp [XmlsLegal, ih]

theorem attrStr_legal (hf : FloatText F) {k : Kind} {v : PyVal F} (hv : GoodVal k v) {key : Str} {e : Option Ext} {m : List (Str × Attr F)}
    {c : List (Attr F)} (hk : ¬ k.isCollection = true) {s : Str} (h : attrStr (.mk k key e v m c) = .ok s) : LegalText s ↔ LegalVal v := by
  cases k <;> cases v <;> simp only [GoodVal] at hv <;> simp [Kind.isCollection] at hk <;>
    simp only [attrStr, pyStr, Except.ok.injEq] at h <;> subst h <;> simp only [LegalVal, iff_true]
  · exact legalText_plain (plain_intStr _)
  · exact legalText_plain (hf _)
  · rename_i b
    cases b <;> exact legalText_plain (by decide)
  · exact legalText_plain (plain_xidStr _)
  · exact legalText_plain (plain_xesStr hv)

theorem goodVal_coll {k : Kind} {v : PyVal F} (h : GoodVal k v) (hk : k.isCollection = true) : v = .none := by
  cases k <;> simp [Kind.isCollection] at hk <;> cases v <;> simp [GoodVal] at h <;> rfl

mutual
theorem attrXml_legal (hf : FloatText F) : ∀ {a : Attr F} {x : Xml}, Typed a → attrXml a = .ok x → (XmlLegal x ↔ LegalAttr a)
  | .mk kind key ext val m c, x, ht, h => by
    rw [attrXml] at h
    rw [Typed] at ht
    split at h
    · rename_i hk
      rw [if_pos hk] at ht
      obtain ⟨ks, h1, h2⟩ := bind_ok.1 h
      cases h2
      simp only [XmlLegal, LegalAttr, if_pos hk, List.mem_singleton, forall_eq, attrsXml_legal hf ht.2 h1, goodVal_coll ht.1 hk, LegalVal, true_and]
    · rename_i hk
      rw [if_neg hk] at ht
      obtain ⟨s, h0, h⟩ := bind_ok.1 h
      obtain ⟨ks, h1, h2⟩ := bind_ok.1 h
      cases h2
      simp only [XmlLegal, LegalAttr, if_neg hk, List.mem_cons, List.not_mem_nil, or_false, forall_eq_or_imp, forall_eq,
        mapXml_legal hf ht.2 h1, attrStr_legal hf ht.1 hk h0, and_assoc]
theorem attrsXml_legal (hf : FloatText F) : ∀ {as : List (Attr F)} {xs : List Xml}, TypedList as → attrsXml as = .ok xs → (XmlsLegal xs ↔ LegalAttrs as)
  | [], xs, _, h => by rw [attrsXml] at h; cases h; simp [XmlsLegal, LegalAttrs]
  | a :: as, xs, ht, h => by
    rw [attrsXml] at h
    rw [TypedList] at ht
    obtain ⟨x, h1, h⟩ := bind_ok.1 h
    obtain ⟨ys, h2, h⟩ := bind_ok.1 h
    cases h
    simp only [XmlsLegal, LegalAttrs, attrXml_legal hf ht.1 h1, attrsXml_legal hf ht.2 h2]
theorem mapXml_legal (hf : FloatText F) : ∀ {as : List (Str × Attr F)} {xs : List Xml}, TypedMap as → mapXml as = .ok xs → (XmlsLegal xs ↔ LegalMap as)
  | [], xs, _, h => by rw [mapXml] at h; cases h; simp [XmlsLegal, LegalMap]
  | (_, a) :: as, xs, ht, h => by
    rw [mapXml] at h
    rw [TypedMap] at ht
    obtain ⟨x, h1, h⟩ := bind_ok.1 h
    obtain ⟨ys, h2, h⟩ := bind_ok.1 h
    cases h
    simp only [XmlsLegal, LegalMap, attrXml_legal hf ht.1 h1, mapXml_legal hf ht.2 h2]
end

theorem globalXml_legal (hf : FloatText F) {scope : Str} (hs : LegalText scope) {as : List (Attr F)} {xs : List Xml} (ht : TypedList as)
    (h : globalXml scope as = .ok xs) : XmlsLegal xs ↔ LegalAttrs as := by
  unfold globalXml at h
  split at h
  · obtain ⟨ks, h1, h⟩ := bind_ok.1 h
    cases h
    simp only [XmlsLegal, XmlLegal, List.mem_singleton, forall_eq, attrsXml_legal hf ht h1, and_true, hs, true_and]
  · rename_i hl
    have : as = [] := by cases as with | nil => rfl | cons _ _ => simp at hl
    subst this
    cases h
    simp [XmlsLegal, LegalAttrs]

theorem eventsXml_legal (hf : FloatText F) : ∀ {es : List (Event F)} {xs : List Xml}, (∀ e ∈ es, TypedMap e.attrs) → eventsXml es = .ok xs →
    (XmlsLegal xs ↔ ∀ e ∈ es, LegalMap e.attrs)
  | [], xs, _, h => by rw [eventsXml] at h; cases h; simp [XmlsLegal]
  | e :: es, xs, ht, h => by
    rw [eventsXml] at h
    obtain ⟨ks, h1, h⟩ := bind_ok.1 h
    obtain ⟨ys, h2, h⟩ := bind_ok.1 h
    cases h
    simp only [XmlsLegal, XmlLegal, List.not_mem_nil, false_implies, implies_true, true_and, mapXml_legal hf (ht e (by simp)) h1,
      eventsXml_legal hf (fun e he => ht e (by simp [he])) h2, List.forall_mem_cons]

theorem tracesXml_legal (hf : FloatText F) : ∀ {ts : List (Trace F)} {xs : List Xml}, (∀ t ∈ ts, TypedMap t.attrs ∧ ∀ e ∈ t.events, TypedMap e.attrs) →
    tracesXml ts = .ok xs → (XmlsLegal xs ↔ ∀ t ∈ ts, LegalMap t.attrs ∧ ∀ e ∈ t.events, LegalMap e.attrs)
  | [], xs, _, h => by rw [tracesXml] at h; cases h; simp [XmlsLegal]
  | t :: ts, xs, ht, h => by
    rw [tracesXml] at h
    obtain ⟨ks, h1, h⟩ := bind_ok.1 h
    obtain ⟨es, h2, h⟩ := bind_ok.1 h
    obtain ⟨ys, h3, h⟩ := bind_ok.1 h
    cases h
    have h0 := ht t (by simp)
    simp only [XmlsLegal, XmlLegal, xmlsLegal_append, List.not_mem_nil, false_implies, implies_true, true_and, mapXml_legal hf h0.1 h1,
      eventsXml_legal hf h0.2 h2, tracesXml_legal hf (fun t h' => ht t (by simp [h'])) h3, List.forall_mem_cons]

theorem quoteToken_legal (t : Str) : LegalText (quoteToken t) ↔ LegalText t := by
  have hq : ('\'' : Char).toNat = 39 := by decide
  unfold quoteToken
  split
  · unfold LegalText
    simp only [List.cons_append, List.forall_mem_cons, List.forall_mem_append, hq]
    constructor
    · rintro ⟨_, h, _⟩; exact h
    · intro h; exact ⟨by omega, h, by omega, by simp⟩
  · rfl

theorem formatToken_legal (ks : List Str) : LegalText (formatToken ks) ↔ ∀ k ∈ ks, LegalText k := by
  constructor
  · intro h k hk
    rw [← quoteToken_legal]
    by_cases hb : replaceAll [' '] [] (quoteToken k) ≠ []
    · intro c hc
      refine h c ?_
      exact mem_join (List.mem_filter.2 ⟨List.mem_map.2 ⟨k, hk, rfl⟩, by simpa using hb⟩) hc
    · have hb := Classical.not_not.1 hb
      rw [replaceAll_char, List.filter_eq_nil_iff] at hb
      intro c hc
      have := hb c hc
      have hc' : c = ' ' := by simpa using this
      subst hc'
      decide
  · intro h c hc
    rcases mem_join_blank hc with rfl | ⟨x, hx, hc⟩
    · decide
    · obtain ⟨k, hk, rfl⟩ := List.mem_map.1 (List.mem_filter.1 hx).1
      exact (quoteToken_legal k).2 (h k hk) c hc

/-- The tree of a well-typed log is legal exactly if the log is. -/
theorem serializeXes_legal (hf : FloatText F) {L : Log F} (hL : WritableLog L) {x : Xml} (h : serializeXes L = .ok x) : XmlLegal x ↔ LegalLog L := by
  unfold serializeXes at h
  obtain ⟨gt, h1, h⟩ := bind_ok.1 h
  obtain ⟨ge, h2, h⟩ := bind_ok.1 h
  obtain ⟨as, h3, h⟩ := bind_ok.1 h
  obtain ⟨ts, h4, h⟩ := bind_ok.1 h
  cases h
  have hv : ∀ p ∈ versionAttrs, LegalText p.2 := by
    intro p hp
    have : ∀ p ∈ versionAttrs, ∀ c ∈ p.2, 32 ≤ c.toNat ∧ c.toNat ≤ 126 := by decide
    exact legalText_plain (this p hp)
  simp only [XmlLegal, xmlsLegal_append, xmlsLegal_map, globalXml_legal hf (legalText_plain (by decide)) hL.globalTrace h1,
    globalXml_legal hf (legalText_plain (by decide)) hL.globalEvent h2, mapXml_legal hf hL.attrs h3, tracesXml_legal hf hL.traces h4]
  have he : ∀ e : Ext, XmlLegal (extXml e) ↔ LegalText e.name ∧ LegalText e.pfx ∧ LegalText e.uri := by
    intro e; simp [extXml, XmlLegal, XmlsLegal]
  have hc : ∀ c : Classifier, XmlLegal (classifierXml c) ↔ LegalText c.name ∧ ∀ k ∈ c.keys, LegalText k := by
    intro c; simp [classifierXml, XmlLegal, XmlsLegal, formatToken_legal]
  simp only [he, hc]
  constructor
  · rintro ⟨_, ⟨⟨⟨⟨a, b⟩, c⟩, d⟩, e⟩, f⟩; exact ⟨e, a, d, b, c, f⟩
  · rintro ⟨e, a, d, b, c, f⟩; exact ⟨hv, ⟨⟨⟨⟨a, b⟩, c⟩, d⟩, e⟩, f⟩

/-! ## What the XES handler sees -/

theorem xesEvents_append (a b : List MSax) : xesEvents (a ++ b) = xesEvents a ++ xesEvents b := by
  induction a with
  | nil => rfl
  | cons e a ih => cases e <;> simp [xesEvents, ih]

theorem xesEvents_gap {g : List MSax} (h : Gap g) : xesEvents g = [] := by
  induction g with
  | nil => rfl
  | cons e g ih =>
    obtain ⟨w, rfl, _⟩ := h e (by simp)
    simp [xesEvents, ih fun e he => h e (by simp [he])]

mutual
theorem reads_xes {ws tx : Str → Str} : ∀ {x : Xml} {s : List MSax}, Reads ws tx x.node s → xesEvents s = (x.through ws).sax
  | .elem t as ks, s, h => by
    rw [Xml.node] at h
    generalize hy : MNode.elem t as (nodeList ks) = y at h
    cases h with
    | text => cases hy
    | elem hc =>
      cases hy
      simp only [xesEvents, xesEvents_append, Xml.through, Xml.sax, readsAll_xes hc]
theorem readsAll_xes {ws tx : Str → Str} : ∀ {xs : List Xml} {s : List MSax}, ReadsAll ws tx (nodeList xs) s → xesEvents s = saxList (throughList ws xs)
  | [], s, h => by
    rw [nodeList] at h
    cases h with
    | nil hg => rw [xesEvents_gap hg]; rfl
  | x :: xs, s, h => by
    rw [nodeList] at h
    cases h with
    | cons hg h1 h2 =>
      simp only [xesEvents_append, xesEvents_gap hg, List.nil_append, throughList, saxList, reads_xes h1, readsAll_xes h2]
end

/-! ## The ways of values -/

/-- What survives of a value. -/
def valueChannel (modern : Bool) : Channel (valueBack modern) where
  safe c := modern = true ∨ (c ≠ '\t' ∧ c ≠ '\n' ∧ c ≠ '\r')
  out s c hc := by
    cases modern with
    | true => exact .inl rfl
    | false =>
      right
      simp only [valueBack, Bool.false_eq_true, if_false, List.mem_map] at hc
      obtain ⟨d, hd, rfl⟩ := hc
      by_cases h : d = '\t' ∨ d = '\n'
      · simp only [h, if_true]; decide
      · simp only [h, if_false]
        exact ⟨fun e => h (.inl e), fun e => h (.inr e), fun e => normEol_noCr s (e ▸ hd)⟩
  fix s h := by
    cases modern with
    | true => rfl
    | false =>
      simp only [Bool.false_eq_true, false_or] at h
      simp only [valueBack, Bool.false_eq_true, if_false]
      rw [normEol_clean fun hm => (h _ hm).2.2 rfl]
      refine (List.map_congr_left fun c hc => ?_).trans (List.map_id _)
      obtain ⟨h1, h2, _⟩ := h c hc
      simp [h1, h2]
  plain c h1 h2 := by
    right
    refine ⟨?_, ?_, ?_⟩ <;> (rintro rfl; revert h1; decide)

theorem xesComments_ok : ∀ c ∈ xesComments, commentOk c = true := by decide +kernel

theorem mxmlComments_ok : ∀ c ∈ mxmlComments, commentOk c = true := by decide +kernel

/-- Any trip through the elements is a trip through the text. -/
theorem fileHolds_of_saves (hf : FloatText F) (mgr : ExtMgr) (modern : Bool) {L : Log F} (hL : WritableLog L) (hl : LegalLog L) {c : Content F}
    (h : SavesTo mgr (valueBack modern) L c) : FileHolds mgr modern L c := by
  obtain ⟨x, hx, h⟩ := h
  obtain ⟨text, s, h1, h2, h3⟩ := (saveTree_spec modern xesComments_ok (xml_tidy (serializeXes_tidy hx))).1
    ((xml_legal x).2 ((serializeXes_legal hf hL hx).2 hl))
  refine ⟨text, by simp [saveXes, hx, h1, bind, Except.bind], fun rnd given hp => ?_⟩
  obtain ⟨l, h', h4, h5⟩ := h rnd given hp
  refine ⟨l, h', ?_, h5⟩
  simp only [loadXes, h2, bind, Except.bind, reads_xes h3, h4]

/-! ## C110: the file holds the log -/

/-- C110: the file of a well-typed log with legal texts can be read, and the loaded log is the normalised one. -/
theorem c110_file (hf : FloatText F) (mgr : ExtMgr) (modern : Bool) {L : Log F} (hL : WritableLog L) (hl : LegalLog L) :
    FileHolds mgr modern L (norm mgr (valueBack modern) L.content) :=
  fileHolds_of_saves hf mgr modern hL hl (c39_normal_form mgr (valueChannel modern) hf hL)

/-- ... so a canonical log comes back unchanged. -/
theorem c110_canonical (hf : FloatText F) (mgr : ExtMgr) (modern : Bool) {L : Log F} (hL : WritableLog L) (hl : LegalLog L)
    (hn : CanonContent mgr (valueBack modern) L.content) : FileHolds mgr modern L { L.content with features := xesVersion } :=
  fileHolds_of_saves hf mgr modern hL hl (c38_roundtrip mgr (valueChannel modern) hf hL hn)

/-- ... and the content of a file is determined. -/
theorem c110_unique {mgr : ExtMgr} {modern : Bool} {L : Log F} {c c' : Content F} (h1 : FileHolds mgr modern L c) (h2 : FileHolds mgr modern L c') : c = c' := by
  obtain ⟨x, hx, h1⟩ := h1
  obtain ⟨y, hy, h2⟩ := h2
  rw [hx] at hy
  cases hy
  obtain ⟨l, h', p1, d1, _⟩ := h1 (fun _ => 0) none ⟨[], 0⟩
  obtain ⟨l', h'', p2, d2, _⟩ := h2 (fun _ => 0) none ⟨[], 0⟩
  rw [p1] at p2
  simp only [Except.ok.injEq, Prod.mk.injEq, Option.some.injEq] at p2
  obtain ⟨rfl, rfl⟩ := p2
  exact d1.unique d2

/-! ## C111: which logs can be saved -/

/-- C111, what holds: a well-typed log can be saved exactly if its texts are legal; otherwise an exception is raised
before anything is written.  Missing: illegal texts. -/
theorem c111_partial (hf : FloatText F) (modern : Bool) {L : Log F} (hL : WritableLog L) :
    (LegalLog L → ∃ text, saveXes modern L = .ok text) ∧ (¬ LegalLog L → saveXes modern L = .error .other) := by
  constructor
  · intro hl
    obtain ⟨text, h, _⟩ := c110_file hf ⟨fun _ => none, fun _ => .ok none⟩ modern hL hl
    exact ⟨text, h⟩
  · intro hl
    obtain ⟨x, hx, _⟩ := c39_normal_form ⟨fun _ => none, fun _ => .ok none⟩ (valueChannel modern) hf hL
    have := (saveTree_spec modern xesComments_ok (xml_tidy (serializeXes_tidy hx))).2
      (fun q => hl ((serializeXes_legal hf hL hx).1 ((xml_legal x).1 q)))
    simp [saveXes, hx, this, bind, Except.bind]

/-! ## C112: line ends and tabs -/

/-- C112, exactly: a value comes back unchanged if the Python version is 3.13 or later or there is no tab and no line
end in it. -/
theorem c112_partial (modern : Bool) (s : Str) : valueBack modern s = s ↔ modern = true ∨ ('\t' ∉ s ∧ '\n' ∉ s ∧ '\r' ∉ s) := by
  constructor
  · intro h
    cases modern with
    | true => exact .inl rfl
    | false =>
      right
      have := (valueChannel false).out s
      rw [h] at this
      simp only [valueChannel, Bool.false_eq_true, false_or] at this
      exact ⟨fun hm => (this _ hm).1 rfl, fun hm => (this _ hm).2.1 rfl, fun hm => (this _ hm).2.2 rfl⟩
  · intro h
    refine (valueChannel modern).fix s fun c hc => ?_
    rcases h with h | ⟨h1, h2, h3⟩
    · exact .inl h
    · exact .inr ⟨fun e => h1 (e ▸ hc), fun e => h2 (e ▸ hc), fun e => h3 (e ▸ hc)⟩

end

/-! ## Examples -/

/-- A log with one attribute. -/
def noteLog (s : Str) : Log ToyFloat := ⟨[(py!"note", .mk .literal py!"note" none (.str s) [] [])], [], [], [], [], [], []⟩

theorem noteLog_typed (s : Str) : WritableLog (noteLog s) := by
  refine ⟨?_, ?_, ?_, ?_⟩ <;> simp [noteLog, Typed, TypedMap, TypedList, GoodVal, Kind.isCollection]

theorem noteLog_legal {s : Str} (h : LegalText s) : LegalLog (noteLog s) := by
  refine ⟨⟨⟨legalText_plain (by decide), h, by simp [Kind.isCollection, LegalMap]⟩, trivial⟩, ?_, ?_, trivial, trivial, ?_⟩ <;> simp [noteLog]

theorem noteLog_canon (s : Str) : CanonContent tripMgr id (noteLog s).content := by
  have e : extFor tripMgr py!"note" = none := by decide
  refine ⟨?_, ?_, ?_, ?_, ?_, ?_⟩ <;>
    simp [noteLog, Log.content, CanonMap, CanonList, Canon, CanonVal, OwnKeys, dkeys, Kind.isCollection, Attr.key, e]

/-- C111, refuted: a well-typed log with a control character cannot be saved. -/
theorem c111_refuted (modern : Bool) : ¬ ∀ L : Log ToyFloat, WritableLog L → ∃ text, saveXes modern L = .ok text := by
  intro h
  obtain ⟨text, ht⟩ := h (noteLog [Char.ofNat 1]) (noteLog_typed _)
  have := (c111_partial toyFloatText modern (noteLog_typed [Char.ofNat 1])).2 fun hl => by
    have h1 := hl.attrs.1.2.1 (Char.ofNat 1) (by simp)
    revert h1
    decide
  rw [this] at ht
  cases ht

/-- C112, refuted: before Python 3.13 a canonical log with a line feed in a value does not come back unchanged. -/
theorem c112_refuted : ¬ ∀ L : Log ToyFloat, WritableLog L → LegalLog L → CanonContent tripMgr id L.content →
    FileHolds tripMgr false L { L.content with features := xesVersion } := by
  intro h
  have hl : LegalLog (noteLog py!"a\nb") := noteLog_legal (by unfold LegalText; decide)
  have h1 := c110_unique (h _ (noteLog_typed _) hl (noteLog_canon _)) (c110_file toyFloatText tripMgr false (noteLog_typed _) hl)
  have h2 := congrArg (fun c => c.attrs.map fun p => p.2.val) h1
  have h3 : valueBack false py!"a\nb" = py!"a b" := by decide
  simp [norm, noteLog, Log.content, normVals, normAttr, rekey, dset, Kind.isCollection, normVal, Attr.val, h3] at h2

/-- C112, what holds from Python 3.13: every canonical log with legal texts comes back unchanged, whatever line ends and
tabs are in it. -/
theorem c112_modern {F : Type} [PyFloat F] (hf : FloatText F) (mgr : ExtMgr) {L : Log F} (hL : WritableLog L) (hl : LegalLog L)
    (hn : CanonContent mgr id L.content) : FileHolds mgr true L { L.content with features := xesVersion } :=
  c110_canonical hf mgr true hL hl hn

/-- It applies to a text with line ends and tabs. -/
example : FileHolds tripMgr true (noteLog py!"a\r\n\tb") { (noteLog py!"a\r\n\tb").content with features := xesVersion } :=
  c112_modern toyFloatText tripMgr (noteLog_typed _) (noteLog_legal (by unfold LegalText; decide)) (noteLog_canon _)

theorem tripLog_legal : LegalLog tripLog := by
  have h : ∀ s ∈ [py!"concept:name", py!"register", py!"n", py!"Concept", py!"concept", py!"http://www.xes-standard.org/concept.xesext",
      py!"both", py!"a b", py!"g", py!"?", py!"xs", py!"b", py!"when"], LegalText s := fun s hs => legalText_plain (by revert s; decide)
  refine ⟨?_, ?_, ?_, ?_, ?_, ?_⟩ <;>
    simp [tripLog, tripName, tripList, tripTime, tripConcept, LegalAttr, LegalMap, LegalAttrs, LegalVal, Kind.isCollection, h]

theorem tripLog_canon_text : CanonContent tripMgr (valueBack false) tripLog.content := by
  have e1 : extFor tripMgr py!"concept:name" = some tripConcept := by decide
  have e2 : extFor tripMgr py!"n" = none := by decide
  have e3 : extFor tripMgr py!"g" = none := by decide
  have e4 : extFor tripMgr py!"xs" = none := by decide
  have e5 : extFor tripMgr py!"b" = none := by decide
  have e6 : extFor tripMgr py!"when" = none := by decide
  have w1 : valueBack false py!"concept:name" = py!"concept:name" := by decide
  have w2 : valueBack false py!"n" = py!"n" := by decide
  have w3 : valueBack false py!"g" = py!"g" := by decide
  have w4 : valueBack false py!"xs" = py!"xs" := by decide
  have w5 : valueBack false py!"b" = py!"b" := by decide
  have w6 : valueBack false py!"when" = py!"when" := by decide
  have w7 : valueBack false py!"register" = py!"register" := by decide
  have w8 : valueBack false py!"?" = py!"?" := by decide
  refine ⟨?_, ?_, ?_, ?_, ?_, ?_⟩
  · simp [tripLog, Log.content, tripName, CanonMap, Canon, CanonVal, OwnKeys, dkeys, Kind.isCollection, Attr.key, e1, e2, w1, w2, w7]
  · simp [tripLog, Log.content, CanonList, CanonMap, Canon, CanonVal, OwnKeys, dkeys, Kind.isCollection, Attr.bare, e3, w3, w8]
  · simp [tripLog, Log.content, CanonList]
  · refine ⟨?_, by simp [tripLog, Log.content]⟩
    simp only [tripLog, Log.content, List.mem_singleton, forall_eq]
    decide
  · simp only [tripLog, Log.content, List.mem_singleton, forall_eq]
    refine ⟨by decide, by decide, ?_, by decide, ?_⟩
    · intro t ht
      simp only [List.mem_cons, List.not_mem_nil, or_false] at ht
      rcases ht with rfl | rfl
      · exact goodKey_ab _ (by simp)
      · have := c03_tokens_clean py!"'a b'" py!"a b" (by decide)
        exact this
    · rw [noBare_cons_cons]
      exact ⟨by decide, (glue_eq_self_iff _).1 (by decide)⟩
  · simp [tripLog, Log.content, tripList, tripTime, CanonMap, CanonList, Canon, CanonVal, OwnKeys, dkeys, Kind.isCollection,
      Attr.key, rekey, dset, e4, e5, e6, w4, w5, w6]

/-- C110 applies to this log. -/
example : FileHolds tripMgr false tripLog { tripLog.content with features := xesVersion } :=
  c110_canonical toyFloatText tripMgr false tripLog_typed tripLog_legal tripLog_canon_text

/-- The text of a small log, before Python 3.13. -/
example : saveXes false (noteLog py!"a<\nb") = .ok (py!"<?xml version=\"1.0\" ?>\n" ++ commentsText xesComments ++
    py!"<log xes.version=\"1.0\" xes.features=\"nested-attributes\" openxes.version=\"1.0RC7\">\n\t<string key=\"note\" value=\"a&lt;\nb\"/>\n</log>\n") := by
  decide +kernel

end Opy
