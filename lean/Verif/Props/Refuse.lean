import Verif.Props.XesMeaning
/-
C153: which XES documents are refused, and with which exception.
-/
set_option linter.unusedSectionVars false
namespace Opy

section
variable {F : Type} [PyFloat F]

/-! ## Specification -/

mutual
/-- An attribute element that has nothing but attribute elements in it. -/
def RegularAttr : Xml → Prop
  | .elem t _ ks => lower t ∈ attrNames ∧ RegularAttrs ks
/-- The same for a list. -/
def RegularAttrs : List Xml → Prop
  | [] => True
  | x :: xs => RegularAttr x ∧ RegularAttrs xs
end

/-- A trace element with attributes and events, in any mixture. -/
def RegularTrace (x : Xml) : Prop := ∀ k ∈ x.inner, RegularAttr k ∨ k.name = py!"event" ∧ RegularAttrs k.inner

/-- What may stand in a log element: whatever the values are. -/
def RegularPart (k : Xml) : Prop :=
  RegularAttr k ∨ k.name = py!"trace" ∧ RegularTrace k ∨ k.name = py!"extension" ∧ k.inner = [] ∨ k.name = py!"classifier" ∧ k.inner = [] ∨
    k.name = py!"global" ∧ (∀ s, k.atts.lookup py!"scope" = some s → lower s = py!"trace" ∨ lower s = py!"event") ∧ RegularAttrs k.inner

/-- A document whose elements are where they belong. -/
structure Regular (x : Xml) : Prop where
  root : x.name = py!"log"
  distinct : (x.atts.map Prod.fst).Nodup
  parts : ∀ k ∈ x.inner, RegularPart k

/-- An element that cannot be read, and the exception. -/
inductive Fault (F : Type) [PyFloat F] (mgr : ExtMgr) : Str → List (Str × Str) → PyErr → Prop
  | int {t : Str} {as : List (Str × Str)} : lower t = py!"int" → (∀ z, ¬ IntText (xmlAttr py!"value" [] as) z) → Fault F mgr t as .valueError
  | float {t : Str} {as : List (Str × Str)} : lower t = py!"float" → PyFloat.parse (F := F) (xmlAttr py!"value" [] as) = none → Fault F mgr t as .valueError
  | id {t : Str} {as : List (Str × Str)} : lower t = py!"id" → (∀ u, ¬ IdSays (xmlAttr py!"value" [] as) u) → Fault F mgr t as .valueError
  | date {t : Str} {as : List (Str × Str)} : lower t = py!"date" → HugeZone (xmlAttr py!"value" [] as) → Fault F mgr t as .overflowError
  | unnamed {t : Str} {as : List (Str × Str)} : lower t = py!"extension" → as.lookup py!"uri" = none →
    (∀ p, as.lookup py!"prefix" = some p → mgr.byPrefix p = none) → Fault F mgr t as .typeError
  | uri {t : Str} {as : List (Str × Str)} {u : Str} {e : PyErr} : lower t = py!"extension" → as.lookup py!"prefix" = none → as.lookup py!"uri" = some u →
    mgr.byUri u = .error e → Fault F mgr t as e
  | scope {t : Str} {as : List (Str × Str)} : lower t = py!"global" → as.lookup py!"scope" = none → Fault F mgr t as .attributeError

/-- A date that cannot be read: its start tag raises nothing, but see `Trips` and C44. -/
def LostDate (t : Str) (as : List (Str × Str)) : Prop :=
  lower t = py!"date" ∧ (∀ d, ¬ DateSays (xmlAttr py!"value" [] as) d) ∧ ¬ HugeZone (xmlAttr py!"value" [] as)

/-- An element that can be read. -/
def CanRead (F : Type) [PyFloat F] (mgr : ExtMgr) (t : Str) (as : List (Str × Str)) : Prop := (∀ e, ¬ Fault F mgr t as e) ∧ ¬ LostDate t as

/-- All elements that begin in this part of a document can be read. -/
def AllReadable (F : Type) [PyFloat F] (mgr : ExtMgr) (evs : List Sax) : Prop := ∀ t as, Sax.start t as ∈ evs → CanRead F mgr t as

/-! ## CanRead elements say something -/

theorem regularAttrs_iff : ∀ {xs : List Xml}, RegularAttrs xs ↔ ∀ x ∈ xs, RegularAttr x
  | [] => by simp [RegularAttrs]
  | x :: xs => by simp [RegularAttrs, regularAttrs_iff (xs := xs)]

theorem regularAttr_name {x : Xml} (h : RegularAttr x) : x.name ∈ attrNames := by
  obtain ⟨t, as, ks⟩ := x
  simp only [RegularAttr] at h
  exact h.1

theorem regularAttr_inner {x : Xml} (h : RegularAttr x) : RegularAttrs x.inner := by
  obtain ⟨t, as, ks⟩ := x
  simp only [RegularAttr] at h
  exact h.2

theorem mem_saxList {e : Sax} : ∀ {xs : List Xml}, e ∈ saxList xs ↔ ∃ x ∈ xs, e ∈ x.sax
  | [] => by simp [saxList]
  | x :: xs => by simp [saxList, mem_saxList (xs := xs)]

theorem allReadable_list {mgr : ExtMgr} {xs : List Xml} (h : AllReadable F mgr (saxList xs)) {x : Xml} (hx : x ∈ xs) : AllReadable F mgr x.sax :=
  fun t as ht => h t as (mem_saxList.2 ⟨x, hx, ht⟩)

theorem allReadable_inner {mgr : ExtMgr} {x : Xml} (h : AllReadable F mgr x.sax) : AllReadable F mgr (saxList x.inner) := by
  obtain ⟨t, as, ks⟩ := x
  intro t' as' ht
  exact h t' as' (by simp only [Xml.sax]; exact List.mem_cons_of_mem _ (List.mem_append_left _ ht))

theorem allReadable_self {mgr : ExtMgr} {t : Str} {as : List (Str × Str)} {ks : List Xml} (h : AllReadable F mgr (Xml.elem t as ks).sax) :
    CanRead F mgr t as := h t as (by simp [Xml.sax])

theorem readable_says {mgr : ExtMgr} {t : Str} {as : List (Str × Str)} (ht : lower t ∈ attrNames) (h : CanRead F mgr t as) :
    ∃ k, ∃ v : PyVal F, Says (lower t) (xmlAttr py!"value" [] as) k v := by
  obtain ⟨hf, hl⟩ := h
  simp only [attrNames, List.mem_cons, List.not_mem_nil, or_false] at ht
  rcases ht with ht | ht | ht | ht | ht | ht | ht | ht
  · exact ⟨_, _, by rw [ht]; exact .string _⟩
  · by_cases hh : HugeZone (xmlAttr py!"value" [] as)
    · exact absurd (.date ht hh) (hf _)
    · by_cases hd : ∃ d, DateSays (xmlAttr py!"value" [] as) d
      · obtain ⟨d, hd⟩ := hd
        exact ⟨_, _, by rw [ht]; exact .date hd⟩
      · exact absurd ⟨ht, fun d h => hd ⟨d, h⟩, hh⟩ hl
  · by_cases hd : ∃ z, IntText (xmlAttr py!"value" [] as) z
    · obtain ⟨d, hd⟩ := hd
      exact ⟨_, _, by rw [ht]; exact .int hd⟩
    · exact absurd (.int ht fun d h => hd ⟨d, h⟩) (hf _)
  · cases hp : PyFloat.parse (F := F) (xmlAttr py!"value" [] as) with
    | none => exact absurd (.float ht hp) (hf _)
    | some x => exact ⟨_, _, by rw [ht]; exact .float hp⟩
  · by_cases hs : saysTrue (xmlAttr py!"value" [] as)
    · exact ⟨_, _, by rw [ht]; exact .yes hs⟩
    · exact ⟨_, _, by rw [ht]; exact .no hs⟩
  · by_cases hd : ∃ u, IdSays (xmlAttr py!"value" [] as) u
    · obtain ⟨d, hd⟩ := hd
      exact ⟨_, _, by rw [ht]; exact .id hd⟩
    · exact absurd (.id ht fun d h => hd ⟨d, h⟩) (hf _)
  · exact ⟨_, _, by rw [ht]; exact .list _⟩
  · exact ⟨_, _, by rw [ht]; exact .container _⟩

mutual
theorem regular_attr_says {mgr : ExtMgr} : ∀ {x : Xml}, RegularAttr x → AllReadable F mgr x.sax → ∃ a : Attr F, AttrSays mgr x a
  | .elem t as ks, h, hr => by
    simp only [RegularAttr] at h
    obtain ⟨k, v, hs⟩ := readable_says h.1 (allReadable_self hr)
    obtain ⟨cs, hc⟩ := regular_attrs_say h.2 (allReadable_inner hr)
    exact ⟨_, .mk hs hc⟩
theorem regular_attrs_say {mgr : ExtMgr} : ∀ {xs : List Xml}, RegularAttrs xs → AllReadable F mgr (saxList xs) → ∃ as : List (Attr F), AttrsSay mgr xs as
  | [], _, _ => ⟨[], .nil⟩
  | x :: xs, h, hr => by
    simp only [RegularAttrs] at h
    obtain ⟨a, ha⟩ := regular_attr_says h.1 (allReadable_list hr (by simp))
    obtain ⟨as, has⟩ := regular_attrs_say h.2 fun t s ht => hr t s (by simp only [saxList]; exact List.mem_append_right _ ht)
    exact ⟨_, .cons ha has⟩
theorem regular_glob_says {mgr : ExtMgr} : ∀ {x : Xml}, RegularAttr x → AllReadable F mgr x.sax → ∃ a : List (Attr F), GlobSays mgr x a
  | .elem t as ks, h, hr => by
    simp only [RegularAttr] at h
    obtain ⟨k, v, hs⟩ := readable_says h.1 (allReadable_self hr)
    obtain ⟨cs, hc⟩ := regular_globs_say h.2 (allReadable_inner hr)
    exact ⟨_, .mk hs hc⟩
theorem regular_globs_say {mgr : ExtMgr} : ∀ {xs : List Xml}, RegularAttrs xs → AllReadable F mgr (saxList xs) → ∃ as : List (Attr F), GlobsSay mgr xs as
  | [], _, _ => ⟨[], .nil⟩
  | x :: xs, h, hr => by
    simp only [RegularAttrs] at h
    obtain ⟨a, ha⟩ := regular_glob_says h.1 (allReadable_list hr (by simp))
    obtain ⟨as, has⟩ := regular_globs_say h.2 fun t s ht => hr t s (by simp only [saxList]; exact List.mem_append_right _ ht)
    exact ⟨_, .cons ha has⟩
end

theorem each_of_all {α β : Type} {R : α → β → Prop} : ∀ {as : List α}, (∀ a ∈ as, ∃ b, R a b) → ∃ bs, Each R as bs
  | [], _ => ⟨[], .nil⟩
  | a :: as, h => by
    obtain ⟨b, hb⟩ := h a (by simp)
    obtain ⟨bs, hbs⟩ := each_of_all (R := R) (as := as) fun x hx => h x (by simp [hx])
    exact ⟨_, .cons hb hbs⟩

/-- The attribute elements among some elements. -/
theorem regular_filter_say {mgr : ExtMgr} {ks : List Xml} (h : ∀ k ∈ ks, k.name ∈ attrNames → RegularAttr k) (hr : AllReadable F mgr (saxList ks)) :
    ∃ cs : List (Attr F), AttrsSay mgr (ks.filter fun k => k.name ∈ attrNames) cs := by
  refine regular_attrs_say (regularAttrs_iff.2 fun k hk => ?_) fun t as ht => ?_
  · have := List.mem_filter.1 hk
    exact h k this.1 (by simpa using this.2)
  · obtain ⟨x, hx, hm⟩ := mem_saxList.1 ht
    exact hr t as (mem_saxList.2 ⟨x, (List.mem_filter.1 hx).1, hm⟩)

theorem regular_trace_says {mgr : ExtMgr} {x : Xml} (h : RegularTrace x) (hr : AllReadable F mgr x.sax) :
    ∃ t : List (Str × Attr F) × List (List (Str × Attr F)), TraceSays mgr x t := by
  have hr' := allReadable_inner hr
  obtain ⟨cs, hcs⟩ := regular_filter_say (F := F) (mgr := mgr) (fun k hk hn => (h k hk).elim id fun he => by rw [he.1] at hn; exact absurd hn (by decide)) hr'
  obtain ⟨es, hes⟩ := each_of_all (R := EventSays (F := F) mgr) (as := x.inner.filter fun k => k.name = py!"event") fun k hk => by
    obtain ⟨hk1, hk2⟩ := List.mem_filter.1 hk
    have hk3 : k.name = py!"event" := by simpa using hk2
    have : RegularAttrs k.inner := (h k hk1).elim (fun ha => by have := regularAttr_name ha; rw [hk3] at this; exact absurd this (by decide)) And.right
    obtain ⟨ds, hds⟩ := regular_attrs_say this (allReadable_inner (allReadable_list hr' hk1))
    exact ⟨_, ds, hds, rfl⟩
  exact ⟨(keyed cs, es), fun k hk => (h k hk).imp regularAttr_name And.left, ⟨cs, hcs, rfl⟩, hes⟩

theorem readable_ext {mgr : ExtMgr} {x : Xml} (hn : x.name = py!"extension") (hi : x.inner = []) (hr : AllReadable F mgr x.sax) :
    ∃ e, ExtSays mgr x e := by
  obtain ⟨t, as, ks⟩ := x
  have h := (allReadable_self hr).1
  simp only [ExtSays, Xml.atts]
  cases hp : as.lookup py!"prefix" with
  | some p =>
    refine ⟨mgr.byPrefix p, hi, rfl, fun hu he => ?_⟩
    refine h _ (.unnamed hn hu fun q hq => ?_)
    rw [hp] at hq
    cases hq
    exact he
  | none =>
    cases hu : as.lookup py!"uri" with
    | none => exact absurd (.unnamed hn hu fun q hq => by rw [hp] at hq; cases hq) (h _)
    | some u =>
      cases he : mgr.byUri u with
      | error e => exact absurd (.uri hn hp hu he) (h _)
      | ok e => exact ⟨e, hi, he⟩

theorem readable_scope {mgr : ExtMgr} {x : Xml} (hn : x.name = py!"global")
    (hs : ∀ s, x.atts.lookup py!"scope" = some s → lower s = py!"trace" ∨ lower s = py!"event") (hr : AllReadable F mgr x.sax) :
    x.isGlobal py!"trace" = true ∨ x.isGlobal py!"event" = true := by
  obtain ⟨t, as, ks⟩ := x
  have h := (allReadable_self hr).1
  simp only [Xml.isGlobal, hn, decide_true, Bool.true_and, decide_eq_true_eq]
  simp only [Xml.atts] at hs ⊢
  cases hp : as.lookup py!"scope" with
  | none => exact absurd (.scope hn hp) (h _)
  | some s => exact (hs s hp).imp (fun e => by simp [e]) fun e => by simp [e]

theorem regular_doc_says {mgr : ExtMgr} {x : Xml} (h : Regular x) (hr : AllReadable F mgr x.sax) : ∃ c : Content F, DocSays mgr x c := by
  have hr' := allReadable_inner hr
  have hpart : ∀ k ∈ x.inner, k.name ∈ attrNames → RegularAttr k := fun k hk hn => by
    rcases h.parts k hk with h | h | h | h | h
    · exact h
    all_goals rw [h.1] at hn; exact absurd hn (by decide)
  have hname : ∀ {k : Xml}, RegularAttr k → ∀ n ∉ attrNames, k.name ≠ n := fun ha n hn e => hn (e ▸ regularAttr_name ha)
  obtain ⟨cs, hcs⟩ := regular_filter_say hpart hr'
  obtain ⟨ts, hts⟩ := each_of_all (R := TraceSays (F := F) mgr) (as := x.inner.filter fun k => k.name = py!"trace") fun k hk => by
    obtain ⟨hk1, hk2⟩ := List.mem_filter.1 hk
    have hk3 : k.name = py!"trace" := by simpa using hk2
    refine regular_trace_says ?_ (allReadable_list hr' hk1)
    rcases h.parts k hk1 with h | h | h | h | h
    · exact absurd hk3 (hname h _ (by decide))
    · exact h.2
    all_goals rw [h.1] at hk3; exact absurd hk3 (by decide)
  obtain ⟨es, hes⟩ := each_of_all (R := ExtSays mgr) (as := x.inner.filter fun k => k.name = py!"extension") fun k hk => by
    obtain ⟨hk1, hk2⟩ := List.mem_filter.1 hk
    have hk3 : k.name = py!"extension" := by simpa using hk2
    refine readable_ext hk3 ?_ (allReadable_list hr' hk1)
    rcases h.parts k hk1 with h | h | h | h | h
    · exact absurd hk3 (hname h _ (by decide))
    · rw [h.1] at hk3; exact absurd hk3 (by decide)
    · exact h.2
    all_goals rw [h.1] at hk3; exact absurd hk3 (by decide)
  have hglob : ∀ sc, ∃ gs : List (Attr F), GlobsSay mgr ((x.inner.filter (Xml.isGlobal sc)).flatMap Xml.inner) gs := fun sc => by
    refine regular_globs_say (regularAttrs_iff.2 fun k hk => ?_) fun t as ht => ?_
    · obtain ⟨g, hg, hkg⟩ := List.mem_flatMap.1 hk
      obtain ⟨hg1, hg2⟩ := List.mem_filter.1 hg
      have hg3 : g.name = py!"global" := by
        simp only [Xml.isGlobal, Bool.and_eq_true, decide_eq_true_eq] at hg2
        exact hg2.1
      rcases h.parts g hg1 with h | h | h | h | h
      · exact absurd hg3 (hname h _ (by decide))
      · rw [h.1] at hg3; exact absurd hg3 (by decide)
      · rw [h.1] at hg3; exact absurd hg3 (by decide)
      · rw [h.1] at hg3; exact absurd hg3 (by decide)
      · exact regularAttrs_iff.1 h.2.2 k hkg
    · obtain ⟨k, hk, hm⟩ := mem_saxList.1 ht
      obtain ⟨g, hg, hkg⟩ := List.mem_flatMap.1 hk
      exact allReadable_inner (allReadable_list hr' (List.mem_filter.1 hg).1) t as (mem_saxList.2 ⟨k, hkg, hm⟩)
  obtain ⟨gt, hgt⟩ := hglob py!"trace"
  obtain ⟨ge, hge⟩ := hglob py!"event"
  refine ⟨⟨keyed cs, distinctExts (es.filterMap id), (x.inner.filter fun k => k.name = py!"classifier").filterMap classifierSays, gt, ge,
    x.atts.filter fun p => py!"xes.".isPrefixOf p.1 || py!"openxes.".isPrefixOf p.1, ts⟩,
    h.root, fun k hk => ?_, fun k hk hn => ?_, h.distinct, rfl, ⟨cs, hcs, rfl⟩, hts, ⟨es, hes, rfl⟩, rfl, hgt, hge⟩
  · rcases h.parts k hk with h | h | h | h | h
    · exact .inl (regularAttr_name h)
    · exact .inr (.inl (by simp [h.1]))
    · exact .inr (.inl (by simp [h.1]))
    · exact .inr (.inl (by simp [h.1]))
    · exact .inr (.inr (readable_scope h.1 h.2.1 (allReadable_list hr' hk)))
  · rcases h.parts k hk with h | h | h | h | h
    · exact absurd hn (hname h _ (by decide))
    · rw [h.1] at hn; exact absurd hn (by decide)
    · exact h.2
    · exact h.2
    · rw [h.1] at hn; exact absurd hn (by decide)

/-! ## Repairing a document -/

/-- XML attributes with which an element can be read. -/
noncomputable def goodAtts (F : Type) [PyFloat F] [h : Nonempty F] (t : Str) : List (Str × Str) :=
  if t = py!"int" then [(py!"value", py!"0")]
  else if t = py!"float" then [(py!"value", PyFloat.repr (Classical.choice h))]
  else if t = py!"id" then [(py!"value", py!"00000000000000000000000000000000")]
  else if t = py!"date" then [(py!"value", py!"2020-01-01T00:00:00")]
  else if t = py!"extension" then [(py!"prefix", []), (py!"uri", [])]
  else [(py!"scope", py!"trace")]

theorem goodAtts_readable [Nonempty F] (mgr : ExtMgr) (t : Str) : CanRead F mgr t (goodAtts F (lower t)) := by
  refine ⟨fun e h => ?_, fun h => ?_⟩
  · cases h with
    | int ht h =>
      rw [ht] at h
      have h0 : pyInt py!"0" = some 0 := by decide +kernel
      exact h 0 (pyInt_iff.1 h0)
    | float ht h =>
      rw [ht] at h
      have : PyFloat.parse (F := F) (PyFloat.repr (Classical.choice ‹Nonempty F›)) = none := h
      rw [PyFloat.parse_repr] at this
      cases this
    | id ht h =>
      rw [ht] at h
      have h0 : xidParse py!"00000000000000000000000000000000" = some 0 := by decide +kernel
      exact h 0 ((c131_exact _ _).1 h0)
    | date ht h =>
      rw [ht] at h
      have h1 := c05_exact.2 ⟨rfl, h⟩
      have h2 : parseDateTime py!"2020-01-01T00:00:00" = .ok (some ⟨2020, 1, 1, 0, 0, 0, 0, some 0⟩) := by decide +kernel
      have h3 : parseDateTime py!"2020-01-01T00:00:00" = .error .overflowError := h1
      rw [h2] at h3
      cases h3
    | unnamed ht h _ => rw [ht] at h; cases h
    | uri ht h _ => rw [ht] at h; cases h
    | scope ht h => rw [ht] at h; cases h
  · obtain ⟨ht, h, _⟩ := h
    rw [ht] at h
    have h0 : parseDateTime py!"2020-01-01T00:00:00" = .ok (some ⟨2020, 1, 1, 0, 0, 0, 0, some 0⟩) := by decide +kernel
    exact h _ (c124_exact.1 h0)

open Classical in
/-- The XML attributes, replaced if the element cannot be read. -/
noncomputable def fixAtts (F : Type) [PyFloat F] [Nonempty F] (mgr : ExtMgr) (t : Str) (as : List (Str × Str)) : List (Str × Str) :=
  if CanRead F mgr t as then as else goodAtts F (lower t)

theorem fixAtts_readable [Nonempty F] (mgr : ExtMgr) (t : Str) (as : List (Str × Str)) : CanRead F mgr t (fixAtts F mgr t as) := by
  unfold fixAtts
  split
  · assumption
  · exact goodAtts_readable mgr t

mutual
/-- The document with all elements repaired. -/
noncomputable def fixDoc (F : Type) [PyFloat F] [Nonempty F] (mgr : ExtMgr) : Xml → Xml
  | .elem t as ks => .elem t (fixAtts F mgr t as) (fixDocs F mgr ks)
/-- The same for a list. -/
noncomputable def fixDocs (F : Type) [PyFloat F] [Nonempty F] (mgr : ExtMgr) : List Xml → List Xml
  | [] => []
  | x :: xs => fixDoc F mgr x :: fixDocs F mgr xs
end

/-- The start of an element, repaired. -/
noncomputable def fixEvent (F : Type) [PyFloat F] [Nonempty F] (mgr : ExtMgr) : Sax → Sax
  | .start t as => .start t (fixAtts F mgr t as)
  | .stop t => .stop t

theorem fixDocs_map [Nonempty F] (mgr : ExtMgr) : ∀ xs, fixDocs F mgr xs = xs.map (fixDoc F mgr)
  | [] => rfl
  | x :: xs => by simp [fixDocs, fixDocs_map mgr xs]

mutual
theorem fixDoc_sax [Nonempty F] (mgr : ExtMgr) : ∀ x, (fixDoc F mgr x).sax = x.sax.map (fixEvent F mgr)
  | .elem t as ks => by simp [fixDoc, Xml.sax, fixEvent, fixDocs_sax mgr ks]
theorem fixDocs_sax [Nonempty F] (mgr : ExtMgr) : ∀ xs, saxList (fixDocs F mgr xs) = (saxList xs).map (fixEvent F mgr)
  | [] => rfl
  | x :: xs => by simp [fixDocs, saxList, fixDoc_sax mgr x, fixDocs_sax mgr xs]
end

theorem fixDoc_readable [Nonempty F] (mgr : ExtMgr) (x : Xml) : AllReadable F mgr (fixDoc F mgr x).sax := by
  intro t as h
  rw [fixDoc_sax] at h
  obtain ⟨e, _, he⟩ := List.mem_map.1 h
  cases e with
  | stop t => cases he
  | start t' as' =>
    simp only [fixEvent, Sax.start.injEq] at he
    obtain ⟨rfl, rfl⟩ := he
    exact fixAtts_readable mgr t' as'

theorem fixEvent_readable [Nonempty F] {mgr : ExtMgr} {evs : List Sax} (h : AllReadable F mgr evs) : evs.map (fixEvent F mgr) = evs := by
  refine (List.map_congr_left fun e he => ?_).trans (List.map_id _)
  cases e with
  | stop t => rfl
  | start t as => simp only [fixEvent, fixAtts, if_pos (h t as he), id]

mutual
theorem fixDoc_attr [Nonempty F] {mgr : ExtMgr} : ∀ {x : Xml}, RegularAttr x → RegularAttr (fixDoc F mgr x)
  | .elem t as ks, h => by
    simp only [RegularAttr, fixDoc] at h ⊢
    exact ⟨h.1, fixDocs_attrs h.2⟩
theorem fixDocs_attrs [Nonempty F] {mgr : ExtMgr} : ∀ {xs : List Xml}, RegularAttrs xs → RegularAttrs (fixDocs F mgr xs)
  | [], _ => by simp [fixDocs, RegularAttrs]
  | x :: xs, h => by
    simp only [RegularAttrs, fixDocs] at h ⊢
    exact ⟨fixDoc_attr h.1, fixDocs_attrs h.2⟩
end

theorem fixDoc_name [Nonempty F] (mgr : ExtMgr) (x : Xml) : (fixDoc F mgr x).name = x.name := by
  obtain ⟨t, as, ks⟩ := x
  simp [fixDoc, Xml.name]

theorem fixDoc_inner [Nonempty F] (mgr : ExtMgr) (x : Xml) : (fixDoc F mgr x).inner = x.inner.map (fixDoc F mgr) := by
  obtain ⟨t, as, ks⟩ := x
  simp [fixDoc, Xml.inner, fixDocs_map]

theorem fixDoc_inner_attrs [Nonempty F] {mgr : ExtMgr} {x : Xml} (h : RegularAttrs x.inner) : RegularAttrs (fixDoc F mgr x).inner := by
  rw [fixDoc_inner, ← fixDocs_map]
  exact fixDocs_attrs h

theorem log_readable (mgr : ExtMgr) {t : Str} (ht : lower t = py!"log") (as : List (Str × Str)) : CanRead F mgr t as := by
  refine ⟨fun e h => ?_, fun h => ?_⟩
  · cases h with
    | int h _ | float h _ | id h _ | date h _ | unnamed h _ _ | uri h _ _ _ | scope h _ =>
      rw [ht] at h
      exact absurd h (by decide)
  · have := h.1
    rw [ht] at this
    exact absurd this (by decide)

theorem fixDoc_regular [Nonempty F] {mgr : ExtMgr} {x : Xml} (h : Regular x) : Regular (fixDoc F mgr x) where
  root := by rw [fixDoc_name]; exact h.root
  distinct := by
    obtain ⟨t, as, ks⟩ := x
    simp only [fixDoc, Xml.atts, fixAtts, if_pos (log_readable (F := F) mgr h.root as)]
    exact h.distinct
  parts k hk := by
    rw [fixDoc_inner] at hk
    obtain ⟨y, hy, rfl⟩ := List.mem_map.1 hk
    simp only [RegularPart, fixDoc_name]
    rcases h.parts y hy with h | h | h | h | h
    · exact .inl (fixDoc_attr h)
    · refine .inr (.inl ⟨h.1, fun k hk => ?_⟩)
      rw [fixDoc_inner] at hk
      obtain ⟨z, hz, rfl⟩ := List.mem_map.1 hk
      rw [fixDoc_name]
      exact (h.2 z hz).imp fixDoc_attr fun h => ⟨h.1, fixDoc_inner_attrs h.2⟩
    · exact .inr (.inr (.inl ⟨h.1, by rw [fixDoc_inner, h.2]; rfl⟩))
    · exact .inr (.inr (.inr (.inl ⟨h.1, by rw [fixDoc_inner, h.2]; rfl⟩)))
    · refine .inr (.inr (.inr (.inr ⟨h.1, fun s hs => ?_, fixDoc_inner_attrs h.2.2⟩)))
      obtain ⟨t, as, ks⟩ := y
      simp only [fixDoc, Xml.atts, fixAtts] at hs
      split at hs
      · exact h.2.1 s hs
      · have ht : lower t = py!"global" := h.1
        rw [ht] at hs
        have : s = py!"trace" := (Option.some.inj hs).symm
        subst this
        exact .inl (by decide)

/-! ## C153 -/

/-- The exception at an element that cannot be read. -/
theorem fault_start {mgr : ExtMgr} {t : Str} {as : List (Str × Str)} {e : PyErr} (h : Fault F mgr t as e) (fac : Factory F) (st : XesSt F) :
    xesStart fac mgr st t as = .error e := by
  have hval : ∀ {e}, lower t ∈ attrNames → readVal (F := F) (lower t) (xmlAttr py!"value" [] as) = .error e → xesStart fac mgr st t as = .error e := by
    intro e ht he
    rw [xesStart_attr fac mgr st ht, ← xmlAttr_value, he]
    rfl
  cases h with
  | int ht h =>
    refine hval (by rw [ht]; decide) ?_
    rw [ht]
    cases hp : pyInt (xmlAttr py!"value" [] as) with
    | none => simp [readVal, hp]
    | some z => exact absurd (pyInt_iff.1 hp) (h z)
  | float ht h =>
    refine hval (by rw [ht]; decide) ?_
    rw [ht]
    simp [readVal, h]
  | id ht h =>
    refine hval (by rw [ht]; decide) ?_
    rw [ht]
    cases hp : xidParse (xmlAttr py!"value" [] as) with
    | none => simp [readVal, hp]
    | some z => exact absurd ((c131_exact _ _).1 hp) (h z)
  | date ht h =>
    refine hval (by rw [ht]; decide) ?_
    rw [ht]
    simp [readVal, c05_exact.2 ⟨rfl, h⟩]
  | unnamed ht h hp =>
    rw [lookup_eq_dget] at h
    unfold xesStart
    simp only [ht, h]
    rw [if_pos (by decide), if_neg (by decide), if_neg (by decide), if_neg (by decide), if_pos trivial]
    cases hq : dget py!"prefix" as with
    | none => rfl
    | some p =>
      rw [← lookup_eq_dget] at hq
      simp [hp p hq, bind, Except.bind]
  | uri ht hp hu he =>
    rw [lookup_eq_dget] at hp hu
    unfold xesStart
    simp only [ht, hp, hu]
    rw [if_pos (by decide), if_neg (by decide), if_neg (by decide), if_neg (by decide), if_pos trivial]
    simp [he, bind, Except.bind]
  | scope ht h =>
    rw [lookup_eq_dget] at h
    unfold xesStart
    simp only [ht, h]
    rw [if_pos (by decide), if_neg (by decide), if_neg (by decide), if_neg (by decide), if_neg (by decide), if_pos trivial]

/-- C153: a document whose elements are where they belong and can be read is loaded (as the log that it says: C115). -/
theorem c153_loaded (rnd : Nat → Uuid) {mgr : ExtMgr} {x : Xml} (hx : Regular x) (hr : AllReadable F mgr x.sax) (given : Option (Factory F)) (h : Heap F) :
    ∃ c : Content F, DocSays mgr x c ∧
      ∃ l h', xesParse given (stdFactory F rnd) mgr h x.sax = .ok (some l, h') ∧ DenLog h' h.size h'.size c l ∧ Keeps h.size h h' := by
  obtain ⟨c, hc⟩ := regular_doc_says hx hr
  exact ⟨c, hc, c115_document rnd mgr hc given h⟩

/-- C153: the first element that cannot be read decides: unless it is a date (C44), the document is refused with its exception. -/
theorem c153_refused [Nonempty F] (rnd : Nat → Uuid) {mgr : ExtMgr} {x : Xml} (hx : Regular x) {pre post : List Sax} {t : Str} {as : List (Str × Str)} {e : PyErr}
    (hs : x.sax = pre ++ .start t as :: post) (hr : AllReadable F mgr pre) (hf : Fault F mgr t as e) (given : Option (Factory F)) (h : Heap F) :
    xesParse given (stdFactory F rnd) mgr h x.sax = .error e := by
  obtain ⟨_, _, _, _, hok, _⟩ := c153_loaded rnd (fixDoc_regular (mgr := mgr) hx) (fixDoc_readable mgr x) given h
  rw [fixDoc_sax, hs, List.map_append, fixEvent_readable hr] at hok
  obtain ⟨st, hst, _⟩ := bind_ok.1 hok
  rw [xesRun_append] at hst
  obtain ⟨s, hpre, _⟩ := bind_ok.1 hst
  simp only [xesParse, hs, xesRun_append, hpre, bind, Except.bind, xesRun, xesStep, fault_start hf]

theorem first_unreadable {mgr : ExtMgr} : ∀ {evs : List Sax}, ¬ AllReadable F mgr evs →
    ∃ pre t as post, evs = pre ++ .start t as :: post ∧ AllReadable F mgr pre ∧ ((∃ e, Fault F mgr t as e) ∨ LostDate t as)
  | [], h => absurd (fun _ _ h => by cases h) h
  | .stop u :: evs, h => by
    obtain ⟨pre, t, as, post, h1, h2, h3⟩ := first_unreadable (evs := evs) fun hr => h fun t as ht => hr t as (by simpa using ht)
    exact ⟨.stop u :: pre, t, as, post, by rw [h1]; rfl, fun t as ht => h2 t as (by simpa using ht), h3⟩
  | .start u bs :: evs, h => by
    by_cases hu : CanRead F mgr u bs
    · obtain ⟨pre, t, as, post, h1, h2, h3⟩ := first_unreadable (evs := evs) fun hr => h fun t as ht => by
        rcases List.mem_cons.1 ht with ht | ht
        · cases ht
          exact hu
        · exact hr t as ht
      refine ⟨.start u bs :: pre, t, as, post, by rw [h1]; rfl, fun t as ht => ?_, h3⟩
      rcases List.mem_cons.1 ht with ht | ht
      · cases ht
        exact hu
      · exact h2 t as ht
    · refine ⟨[], u, bs, evs, rfl, (fun _ _ h => by cases h), ?_⟩
      by_cases hf : ∃ e, Fault F mgr u bs e
      · exact .inl hf
      · exact .inr (Classical.not_not.1 fun hl => hu ⟨fun e he => hf ⟨e, he⟩, hl⟩)

/-- C153: so for documents in which all dates can be read, this is exactly when and how they are refused. -/
theorem c153_exact [Nonempty F] (rnd : Nat → Uuid) {mgr : ExtMgr} {x : Xml} (hx : Regular x) (hd : ∀ t as, .start t as ∈ x.sax → ¬ LostDate t as)
    (given : Option (Factory F)) (h : Heap F) (e : PyErr) : xesParse given (stdFactory F rnd) mgr h x.sax = .error e ↔
      ∃ pre t as post, x.sax = pre ++ .start t as :: post ∧ AllReadable F mgr pre ∧ Fault F mgr t as e := by
  constructor
  · intro he
    by_cases hr : AllReadable F mgr x.sax
    · obtain ⟨_, _, _, _, hok, _⟩ := c153_loaded rnd hx hr given h
      rw [he] at hok
      cases hok
    · obtain ⟨pre, t, as, post, h1, h2, h3⟩ := first_unreadable hr
      rcases h3 with ⟨e', h3⟩ | h3
      · have := c153_refused rnd hx h1 h2 h3 given h
        rw [he] at this
        cases this
        exact ⟨pre, t, as, post, h1, h2, h3⟩
      · exact absurd h3 (hd t as (by rw [h1]; simp))
  · rintro ⟨pre, t, as, post, h1, h2, h3⟩
    exact c153_refused rnd hx h1 h2 h3 given h

/-! ## Documents that say a log are such documents -/

theorem says_name {t s : Str} {k : Kind} {v : PyVal F} (h : Says t s k v) : t ∈ attrNames := by
  cases h <;> decide

theorem says_readable {mgr : ExtMgr} {t : Str} {as : List (Str × Str)} {k : Kind} {v : PyVal F} (h : Says (lower t) (xmlAttr py!"value" [] as) k v) :
    CanRead F mgr t as := by
  have hn := says_name h
  have hv := (says_readVal h).2
  refine ⟨fun e hf => ?_, fun hl => ?_⟩
  · have h1 := fault_start hf ⟨fun h => (0, h), fun h => (0, h), fun h => (0, h), fun h _ _ _ _ => (0, h)⟩ (.init ⟨[], 0⟩)
    rw [xesStart_attr _ mgr _ hn, ← xmlAttr_value, hv] at h1
    cases h1
  · obtain ⟨h1, h2, h3⟩ := hl
    have := readVal_none (F := F).2 ⟨h1, c124_none.2 ⟨h2, h3⟩⟩
    rw [hv] at this
    cases this

theorem allReadable_elem {mgr : ExtMgr} {t : Str} {as : List (Str × Str)} {ks : List Xml} (h1 : CanRead F mgr t as) (h2 : AllReadable F mgr (saxList ks)) :
    AllReadable F mgr (Xml.elem t as ks).sax := by
  intro t' as' h
  simp only [Xml.sax, List.mem_cons, List.mem_append, List.not_mem_nil, or_false, reduceCtorEq] at h
  rcases h with h | h
  · cases h
    exact h1
  · exact h2 t' as' h

theorem allReadable_cons {mgr : ExtMgr} {x : Xml} {xs : List Xml} (h1 : AllReadable F mgr x.sax) (h2 : AllReadable F mgr (saxList xs)) :
    AllReadable F mgr (saxList (x :: xs)) := by
  intro t as h
  simp only [saxList, List.mem_append] at h
  exact h.elim (h1 t as) (h2 t as)

mutual
theorem says_regular {mgr : ExtMgr} : ∀ {x : Xml} {a : Attr F}, AttrSays mgr x a → RegularAttr x ∧ AllReadable F mgr x.sax
  | .elem t as ks, _, .mk h1 h2 => by
    obtain ⟨h3, h4⟩ := say_regulars h2
    exact ⟨by simp only [RegularAttr]; exact ⟨says_name h1, h3⟩, allReadable_elem (says_readable h1) h4⟩
theorem say_regulars {mgr : ExtMgr} : ∀ {xs : List Xml} {as : List (Attr F)}, AttrsSay mgr xs as → RegularAttrs xs ∧ AllReadable F mgr (saxList xs)
  | [], _, .nil => ⟨by simp [RegularAttrs], fun t as h => by simp [saxList] at h⟩
  | x :: xs, _, .cons h1 h2 => by
    obtain ⟨h3, h4⟩ := says_regular h1
    obtain ⟨h5, h6⟩ := say_regulars h2
    exact ⟨by simp only [RegularAttrs]; exact ⟨h3, h5⟩, allReadable_cons h4 h6⟩
theorem glob_regular {mgr : ExtMgr} : ∀ {x : Xml} {a : List (Attr F)}, GlobSays mgr x a → RegularAttr x ∧ AllReadable F mgr x.sax
  | .elem t as ks, _, .mk h1 h2 => by
    obtain ⟨h3, h4⟩ := globs_regular h2
    exact ⟨by simp only [RegularAttr]; exact ⟨says_name h1, h3⟩, allReadable_elem (says_readable h1) h4⟩
theorem globs_regular {mgr : ExtMgr} : ∀ {xs : List Xml} {as : List (Attr F)}, GlobsSay mgr xs as → RegularAttrs xs ∧ AllReadable F mgr (saxList xs)
  | [], _, .nil => ⟨by simp [RegularAttrs], fun t as h => by simp [saxList] at h⟩
  | x :: xs, _, .cons h1 h2 => by
    obtain ⟨h3, h4⟩ := glob_regular h1
    obtain ⟨h5, h6⟩ := globs_regular h2
    exact ⟨by simp only [RegularAttrs]; exact ⟨h3, h5⟩, allReadable_cons h4 h6⟩
end

theorem each_ex {α β : Type} {R : α → β → Prop} : ∀ {as : List α} {bs : List β}, Each R as bs → ∀ a ∈ as, ∃ b, R a b
  | _ :: _, _, .cons h hs, a, ha => by
    rcases List.mem_cons.1 ha with rfl | ha
    · exact ⟨_, h⟩
    · exact each_ex hs a ha

/-- An element whose name is not one of those at which something can go wrong. -/
theorem other_readable (mgr : ExtMgr) {t : Str} (ht : lower t ∈ [py!"log", py!"trace", py!"event", py!"classifier"]) (as : List (Str × Str)) :
    CanRead F mgr t as := by
  refine ⟨fun e h => ?_, fun h => ?_⟩
  · cases h with
    | int h _ | float h _ | id h _ | date h _ | unnamed h _ _ | uri h _ _ _ | scope h _ =>
      rw [h] at ht
      exact absurd ht (by decide)
  · rw [h.1] at ht
    exact absurd ht (by decide)

/-- C153: a document says a log exactly when its elements are where they belong and can be read. -/
theorem c153_says {mgr : ExtMgr} {x : Xml} : (∃ c : Content F, DocSays mgr x c) ↔ Regular x ∧ AllReadable F mgr x.sax := by
  constructor
  · rintro ⟨c, h⟩
    obtain ⟨cs, hcs, _⟩ := h.attrs
    obtain ⟨ha, har⟩ := say_regulars hcs
    obtain ⟨es, hes, _⟩ := h.extensions
    have inner : ∀ {ks : List Xml}, (∀ k ∈ ks, AllReadable F mgr k.sax) → AllReadable F mgr (saxList ks) := fun hk t as ht => by
      obtain ⟨k, hm, ht⟩ := mem_saxList.1 ht
      exact hk k hm t as ht
    have key : ∀ k ∈ x.inner, RegularPart k ∧ AllReadable F mgr k.sax := by
      intro k hk
      rcases h.known k hk with hn | hn | hn
      · have hm : k ∈ x.inner.filter fun k => k.name ∈ attrNames := List.mem_filter.2 ⟨hk, by simpa using hn⟩
        exact ⟨.inl (regularAttrs_iff.1 ha k hm), allReadable_list har hm⟩
      · simp only [List.mem_cons, List.not_mem_nil, or_false] at hn
        rcases hn with hn | hn | hn
        · obtain ⟨tr, h1, ⟨ds, h2, _⟩, h3⟩ := each_ex h.traces k (List.mem_filter.2 ⟨hk, by simpa using hn⟩)
          obtain ⟨h4, h5⟩ := say_regulars h2
          have hkid : ∀ j ∈ k.inner, (RegularAttr j ∨ j.name = py!"event" ∧ RegularAttrs j.inner) ∧ AllReadable F mgr j.sax := by
            intro j hj
            rcases h1 j hj with hn' | hn'
            · have hm : j ∈ k.inner.filter fun k => k.name ∈ attrNames := List.mem_filter.2 ⟨hj, by simpa using hn'⟩
              exact ⟨.inl (regularAttrs_iff.1 h4 j hm), allReadable_list h5 hm⟩
            · obtain ⟨m, fs, hfs, _⟩ := each_ex h3 j (List.mem_filter.2 ⟨hj, by simpa using hn'⟩)
              obtain ⟨h6, h7⟩ := say_regulars hfs
              refine ⟨.inr ⟨hn', h6⟩, ?_⟩
              obtain ⟨t, as, ks⟩ := j
              have ht : lower t = py!"event" := hn'
              exact allReadable_elem (other_readable mgr (by rw [ht]; decide) as) h7
          refine ⟨.inr (.inl ⟨hn, fun j hj => (hkid j hj).1⟩), ?_⟩
          obtain ⟨t, as, ks⟩ := k
          have ht : lower t = py!"trace" := hn
          exact allReadable_elem (other_readable mgr (by rw [ht]; decide) as) (inner fun j hj => (hkid j hj).2)
        · obtain ⟨e, h1, h2⟩ := each_ex hes k (List.mem_filter.2 ⟨hk, by simpa using hn⟩)
          refine ⟨.inr (.inr (.inl ⟨hn, h1⟩)), ?_⟩
          obtain ⟨t, as, ks⟩ := k
          have ht : lower t = py!"extension" := hn
          simp only [Xml.inner] at h1
          subst h1
          simp only [Xml.atts] at h2
          refine allReadable_elem ⟨fun e' hf => ?_, fun hl => ?_⟩ (fun _ _ h => by simp [saxList] at h)
          · cases hf with
            | int h _ | float h _ | id h _ | date h _ | scope h _ =>
              rw [h] at ht
              exact absurd ht (by decide)
            | unnamed _ hu hp =>
              rw [hu] at h2
              cases hq : as.lookup py!"prefix" with
              | none => simp [hq] at h2
              | some p =>
                simp only [hq] at h2
                exact h2.2 trivial (h2.1.trans (hp p hq))
            | uri _ hp hu he => simp [hp, hu, he] at h2
          · rw [hl.1] at ht
            exact absurd ht (by decide)
        · refine ⟨.inr (.inr (.inr (.inl ⟨hn, h.plain k hk hn⟩))), ?_⟩
          have h1 := h.plain k hk hn
          obtain ⟨t, as, ks⟩ := k
          have ht : lower t = py!"classifier" := hn
          simp only [Xml.inner] at h1
          subst h1
          exact allReadable_elem (other_readable mgr (by rw [ht]; decide) as) (fun _ _ h => by simp [saxList] at h)
      · have hg : ∀ {sc : Str} {gs : List (Attr F)}, sc = py!"trace" ∨ sc = py!"event" →
            GlobsSay mgr ((x.inner.filter (Xml.isGlobal sc)).flatMap Xml.inner) gs → k.isGlobal sc = true → RegularPart k ∧ AllReadable F mgr k.sax := by
          intro sc gs hsc hgs hkg
          obtain ⟨h4, h5⟩ := globs_regular hgs
          have hm : ∀ j ∈ k.inner, j ∈ (x.inner.filter (Xml.isGlobal sc)).flatMap Xml.inner := fun j hj =>
            List.mem_flatMap.2 ⟨k, List.mem_filter.2 ⟨hk, hkg⟩, hj⟩
          simp only [Xml.isGlobal, Bool.and_eq_true, decide_eq_true_eq, Option.map_eq_some_iff] at hkg
          obtain ⟨h6, s, h7, h8⟩ := hkg
          refine ⟨.inr (.inr (.inr (.inr ⟨h6, fun s' hs' => ?_, regularAttrs_iff.2 fun j hj => regularAttrs_iff.1 h4 j (hm j hj)⟩))), ?_⟩
          · rw [h7] at hs'
            cases hs'
            rw [h8]
            exact hsc
          · have h9 : AllReadable F mgr (saxList k.inner) := inner fun j hj => allReadable_list h5 (hm j hj)
            obtain ⟨t, as, ks⟩ := k
            have ht : lower t = py!"global" := h6
            simp only [Xml.atts] at h7
            refine allReadable_elem ⟨fun e' hf => ?_, fun hl => ?_⟩ h9
            · cases hf with
              | int h _ | float h _ | id h _ | date h _ | unnamed h _ _ | uri h _ _ _ =>
                rw [h] at ht
                exact absurd ht (by decide)
              | scope _ h => rw [h7] at h; cases h
            · rw [hl.1] at ht
              exact absurd ht (by decide)
        rcases hn with hn | hn
        · exact hg (.inl rfl) h.globalTrace hn
        · exact hg (.inr rfl) h.globalEvent hn
    refine ⟨⟨h.root, h.distinct, fun k hk => (key k hk).1⟩, ?_⟩
    have hroot := h.root
    obtain ⟨t, as, ks⟩ := x
    exact allReadable_elem (log_readable mgr hroot as) (inner fun k hk => (key k hk).2)
  · rintro ⟨h1, h2⟩
    exact regular_doc_says h1 h2

/-- C153: the same for the text of a file. -/
theorem c153_text [Nonempty F] (rnd : Nat → Uuid) {mgr : ExtMgr} {text : Str} {es : List MSax} {x : Xml} (ht : readXml text = .ok es)
    (he : xesEvents es = x.sax) (hx : Regular x) (hd : ∀ t as, .start t as ∈ x.sax → ¬ LostDate t as) (given : Option (Factory F)) (h : Heap F) (e : PyErr) :
    loadXes given (stdFactory F rnd) mgr h text = .error e ↔
      ∃ pre t as post, x.sax = pre ++ .start t as :: post ∧ AllReadable F mgr pre ∧ Fault F mgr t as e := by
  rw [← c153_exact rnd hx hd given h e]
  simp only [loadXes, ht, he, bind, Except.bind]

end

/-! ## Examples -/

/-- A document with a number that is none, and behind it an extension without URI. -/
def wrongDoc : Xml := .elem py!"log" []
  [.elem py!"string" [(py!"key", py!"name"), (py!"value", py!"x")] [],
   .elem py!"trace" [] [.elem py!"event" [] [.elem py!"int" [(py!"key", py!"cost"), (py!"value", py!"12 EUR")] []]],
   .elem py!"extension" [] []]

theorem wrongDoc_regular : Regular wrongDoc where
  root := by decide
  distinct := by decide
  parts k hk := by
    simp only [wrongDoc, Xml.inner, List.mem_cons, List.not_mem_nil, or_false] at hk
    rcases hk with rfl | rfl | rfl
    · exact .inl (by simp only [RegularAttr, RegularAttrs]; decide)
    · refine .inr (.inl ⟨by decide, fun k hk => .inr ?_⟩)
      simp only [Xml.inner, List.mem_cons, List.not_mem_nil, or_false] at hk
      subst hk
      refine ⟨by decide, ?_⟩
      simp only [Xml.inner, RegularAttrs, RegularAttr]
      decide
    · exact .inr (.inr (.inl ⟨by decide, rfl⟩))

example (rnd : Nat → Uuid) (h : Heap ToyFloat) : xesParse none (stdFactory ToyFloat rnd) noExts h wrongDoc.sax = .error .valueError := by
  haveI : Nonempty ToyFloat := ⟨⟨0⟩⟩
  refine c153_refused rnd wrongDoc_regular (t := py!"int") (as := [(py!"key", py!"cost"), (py!"value", py!"12 EUR")])
    (pre := [.start py!"log" [], .start py!"string" [(py!"key", py!"name"), (py!"value", py!"x")], .stop py!"string", .start py!"trace" [], .start py!"event" []])
    (post := [.stop py!"int", .stop py!"event", .stop py!"trace", .start py!"extension" [], .stop py!"extension", .stop py!"log"]) rfl ?_ ?_ none h
  · intro t as hm
    simp only [List.mem_cons, List.not_mem_nil, or_false, Sax.start.injEq, reduceCtorEq, false_or] at hm
    rcases hm with ⟨rfl, rfl⟩ | ⟨rfl, rfl⟩ | ⟨rfl, rfl⟩ | ⟨rfl, rfl⟩
    · exact other_readable _ (by decide) _
    · exact says_readable (k := .literal) (v := .str py!"x") (.string _)
    · exact other_readable _ (by decide) _
    · exact other_readable _ (by decide) _
  · refine .int (by decide) fun z hz => ?_
    have := pyInt_iff.2 hz
    have h2 : pyInt (xmlAttr py!"value" [] [(py!"key", py!"cost"), (py!"value", py!"12 EUR")]) = none := by decide +kernel
    rw [h2] at this
    cases this

/-- A document that is loaded: see C115. -/
example : Regular strangeDoc ∧ AllReadable ToyFloat noExts strangeDoc.sax := c153_says.1 ⟨_, strangeDoc_says⟩

end Opy
