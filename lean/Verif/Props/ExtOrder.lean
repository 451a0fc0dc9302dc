import Verif.Props.Resave
import Verif.Props.LogInfo

/-!
# C188: the order in which a set gives the extensions of a log does not matter for what a file holds

The extensions of a log are a `set` (model/XLog.py:21), which the serializer enumerates (data_out/XesXmlSerializer.py:58).  In the model they are
a list; here the list is replaced by any other order of it.  Extensions are equal if their URIs are (extension/XExtension.py:107-110).
-/

set_option linter.unusedSectionVars false

namespace Opy

/-! ## Specification -/

/-- Both lists are enumerations of the same set: no extension comes twice, and the URIs are the same. -/
def SameExtSet (xs ys : List Ext) : Prop := (xs.map Ext.uri).Nodup ∧ (ys.map Ext.uri).Nodup ∧ ∀ u, u ∈ xs.map Ext.uri ↔ u ∈ ys.map Ext.uri

/-- No two extensions of the manager have one URI. -/
def OnePerUri (mgr : ExtMgr) : Prop := ∀ p q e f, mgr.byPrefix p = some e → mgr.byPrefix q = some f → e.uri = f.uri → e = f

theorem mem_distinct_uris (u : Str) : ∀ es : List Ext, u ∈ (distinctExts es).map Ext.uri ↔ u ∈ es.map Ext.uri
  | [] => Iff.rfl
  | e :: es => by
    have ih := mem_distinct_uris u es
    simp only [List.mem_map] at ih
    simp only [distinctExts, List.map_cons, List.mem_cons, List.mem_map, List.mem_filter, decide_eq_true_eq]
    constructor
    · rintro (h | ⟨f, ⟨h1, _⟩, h2⟩)
      · exact .inl h
      · exact .inr (ih.1 ⟨f, h1, h2⟩)
    · rintro (h | h)
      · exact .inl h
      · by_cases hu : u = e.uri
        · exact .inl hu
        · obtain ⟨f, h1, h2⟩ := ih.2 h
          exact .inr ⟨f, ⟨h1, by rw [h2]; exact hu⟩, h2⟩

theorem sameExtSet_distinct {xs ys : List Ext} (hp : xs.Perm ys) : SameExtSet (distinctExts xs) (distinctExts ys) :=
  ⟨(distinctExts_good xs).1, (distinctExts_good ys).1, fun u => by rw [mem_distinct_uris, mem_distinct_uris]; exact (hp.map Ext.uri).mem_iff⟩

theorem SameExtSet.perm {xs ys : List Ext} (h : SameExtSet xs ys) (hi : ∀ e ∈ xs, ∀ f ∈ ys, e.uri = f.uri → e = f) : xs.Perm ys := by
  refine (List.perm_ext_iff_of_nodup h.1.of_map h.2.1.of_map).2 fun e => ⟨fun he => ?_, fun he => ?_⟩
  · obtain ⟨f, hf, hu⟩ := List.mem_map.1 ((h.2.2 e.uri).1 (List.mem_map_of_mem he))
    rw [hi e he f hf hu.symm]; exact hf
  · obtain ⟨f, hf, hu⟩ := List.mem_map.1 ((h.2.2 e.uri).2 (List.mem_map_of_mem he))
    rw [← hi f hf e he hu]; exact hf

section
variable {F : Type} [PyFloat F]

/-- C188: a log whose set of extensions is enumerated in two orders is saved as two files that hold the same log, with the same set of extensions. -/
theorem c188_file (hf : FloatText F) (mgr : ExtMgr) (modern : Bool) {L : Log F} (hL : WritableLog L) (hl : LegalLog L) {es : List Ext} (hp : es.Perm L.extensions) :
    ∃ c xs, FileHolds mgr modern L c ∧ FileHolds mgr modern { L with extensions := es } { c with extensions := xs } ∧ SameExtSet xs c.extensions ∧
      (OnePerUri mgr → xs.Perm c.extensions) := by
  have hs : SameExtSet (distinctExts (es.filterMap fun e => mgr.byPrefix (valueBack modern e.pfx)))
      (distinctExts (L.extensions.filterMap fun e => mgr.byPrefix (valueBack modern e.pfx))) := sameExtSet_distinct (hp.filterMap _)
  refine ⟨_, _, c110_file hf mgr modern hL hl, c110_file (L := { L with extensions := es }) hf mgr modern ⟨hL.attrs, hL.globalTrace, hL.globalEvent, hL.traces⟩
    ⟨hl.attrs, fun e he => hl.extensions e (hp.mem_iff.1 he), hl.classifiers, hl.globalTrace, hl.globalEvent, hl.traces⟩, hs, fun hu => hs.perm ?_⟩
  intro e he f hf huri
  obtain ⟨a, _, ha⟩ := List.mem_filterMap.1 ((distinctExts_good _).2 e he)
  obtain ⟨b, _, hb⟩ := List.mem_filterMap.1 ((distinctExts_good _).2 f hf)
  exact hu _ _ _ _ ha hb huri

/-- C188: the log loaded from a file is saved as a file that holds it (C139), in whatever order the set of the loaded log gives the extensions. -/
theorem c188_loaded (hf : FloatText F) {mgr : ExtMgr} (hm : SoundMgr mgr) (modern : Bool) {text : Str} {ss : List MSax} {x : Xml} {L : Log F}
    (ht : readXml text = .ok ss) (he : xesEvents ss = x.sax) (hx : DocSays mgr x L.content) (ho : modern = true ∨ x.Texts OneLine) {es : List Ext}
    (hp : es.Perm L.extensions) : FileHolds mgr modern { L with extensions := es } { L.content.again with extensions := es } := by
  have h := doc_fitLog hm modern hx (sax_texts fun t as h => by
    rw [← he] at h
    exact xesEvents_legal (readXml_legal ht) t as h) ho
  obtain ⟨h1, h2, h3⟩ := fitLog_same (L := { L with extensions := es }) hm modern ⟨h.attrs, h.globalTrace, h.globalEvent, h.traces,
    fun e he => h.found e (hp.mem_iff.1 he), (hp.map Ext.uri).nodup_iff.2 h.uris, h.classifiers⟩
  have := c110_file hf mgr modern h1 h2
  rw [h3] at this
  exact this

/-- C188: summary, event classes and the MXML file do not depend on the order, nor on the extensions at all. -/
theorem c188_others (L : Log F) (es : List Ext) : (∀ d cs, createInfo { L with extensions := es } d cs = createInfo L d cs) ∧
    (∀ c, deriveClasses c { L with extensions := es } = deriveClasses c L) ∧ ∀ modern, saveMxml modern { L with extensions := es } = saveMxml modern L :=
  ⟨fun _ _ => rfl, fun _ => rfl, fun _ => rfl⟩

end

/-- C188: the manager finds one extension for a URI if the extensions that were registered have different URIs, as the standard ones. -/
theorem c188_manager {h : List Ext} (hn : ∀ e ∈ h, ∀ f ∈ h, e.uri = f.uri → e = f) (urlParse : Str → Except PyErr Str) : OnePerUri ((Mgr.run h).view urlParse) :=
  fun p q e f he hf hu => hn e ((c58_sound h p e).2.2 he).1 f ((c58_sound h q f).2.2 hf).1 hu

/-! ## Examples -/

example : ∀ e ∈ standardExts, ∀ f ∈ standardExts, e.uri = f.uri → e = f := by decide +kernel

/-- A log with two extensions. -/
def twoExtLog (es : List Ext) : Log ToyFloat := ⟨[], es, [], [], [], [], []⟩

/-- The text differs with the order. -/
example : (saveXes true (twoExtLog [conceptExt, timeExt])).toOption ≠ (saveXes true (twoExtLog [timeExt, conceptExt])).toOption := by decide +kernel

/-- The conditions of `c188_file`. -/
example : WritableLog (twoExtLog [conceptExt, timeExt]) ∧ LegalLog (twoExtLog [conceptExt, timeExt]) ∧ [timeExt, conceptExt].Perm (twoExtLog [conceptExt, timeExt]).extensions := by
  refine ⟨⟨trivial, trivial, trivial, by simp [twoExtLog]⟩, ⟨trivial, ?_, by simp [twoExtLog], trivial, trivial, by simp [twoExtLog]⟩, List.Perm.swap _ _ _⟩
  simp only [twoExtLog, LegalText]
  decide +kernel

/-- A manager that finds different extensions with one URI under two prefixes. -/
def confusedMgr : ExtMgr := ⟨fun p => if p = py!"a" then some ⟨py!"A", py!"a", py!"u"⟩ else if p = py!"b" then some ⟨py!"B", py!"b", py!"u"⟩ else none, fun _ => .ok none⟩

/-- C188: for such a manager the order decides which of the two the loaded log has. -/
theorem c188_order_refuted : ¬ OnePerUri confusedMgr ∧
    (norm confusedMgr (valueBack true) (twoExtLog [⟨py!"A", py!"a", py!"v"⟩, ⟨py!"B", py!"b", py!"w"⟩]).content).extensions = [⟨py!"A", py!"a", py!"u"⟩] ∧
    (norm confusedMgr (valueBack true) (twoExtLog [⟨py!"B", py!"b", py!"w"⟩, ⟨py!"A", py!"a", py!"v"⟩]).content).extensions = [⟨py!"B", py!"b", py!"u"⟩] := by
  refine ⟨fun h => ?_, by decide +kernel, by decide +kernel⟩
  have := h py!"a" py!"b" ⟨py!"A", py!"a", py!"u"⟩ ⟨py!"B", py!"b", py!"u"⟩ (by decide) (by decide) rfl
  exact absurd this (by decide)

end Opy
