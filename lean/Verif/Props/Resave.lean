import Verif.Props.XesMeaning
import Verif.Props.ExtMgr
/-
Property C139: a log that was loaded from an XES file can be saved, and the saved file holds the same log.
-/
set_option linter.unusedSectionVars false
namespace Opy

/-! ## Specification -/

mutual
/-- All values of XML attributes in an element and inside it. -/
def Xml.Texts (P : Str → Prop) : Xml → Prop
  | .elem _ as ks => (∀ p ∈ as, P p.2) ∧ textsAll P ks
/-- The same for a list. -/
def textsAll (P : Str → Prop) : List Xml → Prop
  | [] => True
  | x :: xs => x.Texts P ∧ textsAll P xs
end

/-- No tab and no line end: the characters that Python before 3.13 writes as they are, and that every reader turns into blanks. -/
def OneLine (s : Str) : Prop := '\t' ∉ s ∧ '\n' ∉ s ∧ '\r' ∉ s

/-- The manager finds by a prefix an extension with that prefix, by a URI one that it also finds by its prefix, and only extensions
whose texts can be written. -/
structure SoundMgr (mgr : ExtMgr) : Prop where
  pfx : ∀ p e, mgr.byPrefix p = some e → e.pfx = p
  uri : ∀ u e, mgr.byUri u = .ok (some e) → mgr.byPrefix e.pfx = some e
  texts : ∀ p e, mgr.byPrefix p = some e → LegalText e.name ∧ LegalText e.pfx ∧ LegalText e.uri ∧ OneLine e.pfx

section
variable {F : Type} [PyFloat F]

/-- A timestamp without what is below the millisecond. -/
def cutVal : PyVal F → PyVal F
  | .dt d => .dt { d with micro := d.micro - d.micro % 1000 }
  | v => v

mutual
/-- The attribute with all timestamps in it cut to milliseconds. -/
def Attr.cut : Attr F → Attr F
  | .mk k key e v m c => .mk k key e (cutVal v) (cutMap m) (cutList c)
/-- The same for a list. -/
def cutList : List (Attr F) → List (Attr F)
  | [] => []
  | a :: as => a.cut :: cutList as
/-- The same for a map. -/
def cutMap : List (Str × Attr F) → List (Str × Attr F)
  | [] => []
  | (k, a) :: as => (k, a.cut) :: cutMap as
end

/-- The log with all timestamps cut to milliseconds, and of the classifiers those with keys, their keys as the token encoding leaves
them (C01). -/
def Content.again (c : Content F) : Content F where
  attrs := cutMap c.attrs
  extensions := c.extensions
  classifiers := (c.classifiers.filter fun k => k.keys ≠ []).map fun k => ⟨k.name, glue k.keys⟩
  globalTrace := cutList c.globalTrace
  globalEvent := cutList c.globalEvent
  features := xesVersion
  traces := c.traces.map fun t => (cutMap t.1, t.2.map cutMap)

/-! ## Texts -/

theorem textsAll_iff {P : Str → Prop} : ∀ {xs : List Xml}, textsAll P xs ↔ ∀ x ∈ xs, x.Texts P
  | [] => by simp [textsAll]
  | x :: xs => by simp [textsAll, textsAll_iff (xs := xs)]

theorem texts_inner {P : Str → Prop} {x : Xml} (h : x.Texts P) : ∀ k ∈ x.inner, k.Texts P := by
  cases x with
  | elem t as ks =>
    simp only [Xml.Texts] at h
    exact textsAll_iff.1 h.2

theorem texts_atts {P : Str → Prop} {x : Xml} (h : x.Texts P) : ∀ p ∈ x.atts, P p.2 := by
  cases x with
  | elem t as ks =>
    simp only [Xml.Texts] at h
    exact h.1

theorem xmlAttr_P {P : Str → Prop} {name d : Str} {as : List (Str × Str)} (h : ∀ p ∈ as, P p.2) (hd : P d) : P (xmlAttr name d as) := by
  unfold xmlAttr
  cases hl : as.lookup name with
  | none => exact hd
  | some v =>
    rw [lookup_eq_dget] at hl
    exact h (name, v) (dget_mem hl)

/-! ## Cutting -/

theorem cutList_map : ∀ as : List (Attr F), cutList as = as.map Attr.cut
  | [] => rfl
  | a :: as => by simp only [cutList, List.map_cons, cutList_map as]

theorem cutMap_map : ∀ m : List (Str × Attr F), cutMap m = m.map fun p => (p.1, p.2.cut)
  | [] => rfl
  | (k, a) :: as => by simp only [cutMap, List.map_cons, cutMap_map as]

theorem cut_key : ∀ a : Attr F, a.cut.key = a.key
  | .mk .. => rfl

theorem dset_cut (k : Str) (a : Attr F) : ∀ m : List (Str × Attr F), dset k a.cut (cutMap m) = cutMap (dset k a m)
  | [] => rfl
  | (k', a') :: m => by
    simp only [cutMap, dset]
    split
    · simp only [cutMap]
    · simp only [cutMap, dset_cut k a m]

theorem rekey_cut (cs : List (Attr F)) : rekey (cutList cs) = cutMap (rekey cs) := by
  have : ∀ (cs : List (Attr F)) (m : List (Str × Attr F)),
      (cutList cs).foldl (fun m c => dset c.key c m) (cutMap m) = cutMap (cs.foldl (fun m c => dset c.key c m) m) := by
    intro cs
    induction cs with
    | nil => intro m; rfl
    | cons c cs ih =>
      intro m
      simp only [cutList, List.foldl_cons, cut_key, dset_cut, ih]
  exact this cs []

theorem ownKeys_cut {m : List (Str × Attr F)} (h : OwnKeys m) : OwnKeys (cutMap m) := by
  rw [cutMap_map]
  refine ⟨?_, ?_⟩
  · have := h.1
    simp only [dkeys, List.map_map] at this ⊢
    exact this
  · intro p hp
    obtain ⟨q, hq, rfl⟩ := List.mem_map.1 hp
    rw [cut_key]
    exact h.2 q hq

/-! ## What a loaded attribute is like -/

/-- A loaded attribute: saving and loading only cuts timestamps, and it can be saved. -/
structure Fit (mgr : ExtMgr) (ws : Str → Str) (a : Attr F) : Prop where
  again : normAttr mgr ws a = a.cut
  typed : Typed a
  legal : LegalAttr a

theorem normList_map (mgr : ExtMgr) (ws : Str → Str) : ∀ as : List (Attr F), normList mgr ws as = as.map (normAttr mgr ws)
  | [] => rfl
  | a :: as => by simp only [normList, List.map_cons, normList_map mgr ws as]

theorem normVals_map (mgr : ExtMgr) (ws : Str → Str) : ∀ as : List (Str × Attr F), normVals mgr ws as = as.map fun p => normAttr mgr ws p.2
  | [] => rfl
  | (k, a) :: as => by simp only [normVals, List.map_cons, normVals_map mgr ws as]

theorem legalAttrs_iff : ∀ {as : List (Attr F)}, LegalAttrs as ↔ ∀ a ∈ as, LegalAttr a
  | [] => by simp [LegalAttrs]
  | a :: as => by simp [LegalAttrs, legalAttrs_iff (as := as)]

theorem legalMap_iff : ∀ {as : List (Str × Attr F)}, LegalMap as ↔ ∀ p ∈ as, LegalAttr p.2
  | [] => by simp [LegalMap]
  | (k, a) :: as => by simp [LegalMap, legalMap_iff (as := as)]

theorem fit_list {mgr : ExtMgr} {ws : Str → Str} {cs : List (Attr F)} (h : ∀ a ∈ cs, Fit mgr ws a) :
    normList mgr ws cs = cutList cs ∧ TypedList cs ∧ LegalAttrs cs := by
  refine ⟨?_, typedList_iff.2 fun a ha => (h a ha).typed, legalAttrs_iff.2 fun a ha => (h a ha).legal⟩
  rw [normList_map, cutList_map]
  exact List.map_congr_left fun a ha => (h a ha).again

theorem fit_map {mgr : ExtMgr} {ws : Str → Str} {cs : List (Attr F)} (h : ∀ a ∈ cs, Fit mgr ws a) :
    rekey (normVals mgr ws (keyed cs)) = cutMap (keyed cs) ∧ TypedMap (keyed cs) ∧ LegalMap (keyed cs) := by
  rw [← rekey_keyed]
  obtain ⟨g1, g2⟩ := rekey_own cs
  refine ⟨?_, typedMap_iff.2 fun p hp => (h _ (g2 p hp)).typed, legalMap_iff.2 fun p hp => (h _ (g2 p hp)).legal⟩
  have : normVals mgr ws (rekey cs) = (cutMap (rekey cs)).map Prod.snd := by
    rw [normVals_map, cutMap_map, List.map_map]
    exact List.map_congr_left fun p hp => (h _ (g2 p hp)).again
  rw [this, rekey_vals (ownKeys_cut g1)]

/-- The texts of the document pass through the file. -/
def Passes (ws : Str → Str) (s : Str) : Prop := LegalText s ∧ ws s = s

theorem says_fit {ws : Str → Str} {t s : Str} {k : Kind} {v : PyVal F} (h : Says t s k v) (hs : Passes ws s) :
    normVal ws v = cutVal v ∧ GoodVal k v ∧ LegalVal v := by
  cases h with
  | string => exact ⟨by simp only [normVal, cutVal, hs.2], trivial, hs.1⟩
  | date h =>
    obtain ⟨g, hz⟩ := c06_result_good (c124_exact.2 h)
    refine ⟨?_, g, trivial⟩
    rename_i d
    simp only [normVal, cutVal, toMillisAware]
    cases htz : d.tz with
    | none => exact absurd htz hz
    | some o => rfl
  | int h => exact ⟨rfl, trivial, trivial⟩
  | float h => exact ⟨rfl, trivial, trivial⟩
  | yes h => exact ⟨rfl, trivial, trivial⟩
  | no h => exact ⟨rfl, trivial, trivial⟩
  | id h => exact ⟨rfl, trivial, trivial⟩
  | list => exact ⟨rfl, trivial, trivial⟩
  | container => exact ⟨rfl, trivial, trivial⟩

theorem Channel.passes_plain {ws : Str → Str} (hc : Channel ws) {s : Str} (h : ∀ c ∈ s, 32 ≤ c.toNat ∧ c.toNat ≤ 126) : Passes ws s :=
  ⟨legalText_plain h, hc.fix s fun c hm => hc.plain c (h c hm).1 (h c hm).2⟩

mutual
theorem attrSays_fit {mgr : ExtMgr} {ws : Str → Str} (hc : Channel ws) : ∀ {x : Xml} {a : Attr F}, AttrSays mgr x a → x.Texts (Passes ws) → Fit mgr ws a
  | _, _, .mk (as := as) (k := k) (cs := cs) h1 h2, ht => by
    simp only [Xml.Texts] at ht
    obtain ⟨v1, v2, v3⟩ := says_fit h1 (xmlAttr_P ht.1 ⟨by simp [LegalText], hc.fix [] (by simp)⟩)
    have hk : Passes ws (xmlAttr py!"key" py!"UNKNOWN" as) := xmlAttr_P ht.1 (hc.passes_plain (by decide))
    have hcs := attrsSay_fit hc h2 ht.2
    obtain ⟨l1, l2, l3⟩ := fit_list hcs
    obtain ⟨m1, m2, m3⟩ := fit_map hcs
    have hr : rekey (cutList cs) = cutMap (keyed cs) := by rw [rekey_cut, rekey_keyed]
    cases hcol : k.isCollection with
    | true =>
      have hk' : k = .list ∨ k = .container := by cases k <;> simp_all [Kind.isCollection]
      refine ⟨?_, ?_, ?_⟩
      · simp only [normAttr, hcol, if_true, hk.2, hk', Attr.cut, v1, l1, hr]
      · simp only [Typed, hcol, if_true, hk']
        exact ⟨v2, l2⟩
      · simp only [LegalAttr, hcol, if_true, hk']
        exact ⟨hk.1, v3, l3⟩
    | false =>
      have hk' : ¬ (k = .list ∨ k = .container) := by cases k <;> simp_all [Kind.isCollection]
      refine ⟨?_, ?_, ?_⟩
      · simp only [normAttr, hcol, Bool.false_eq_true, if_false, hk.2, hk', Attr.cut, v1, m1, cutList]
      · simp only [Typed, hcol, Bool.false_eq_true, if_false]
        exact ⟨v2, m2⟩
      · simp only [LegalAttr, hcol, Bool.false_eq_true, if_false]
        exact ⟨hk.1, v3, m3⟩
theorem attrsSay_fit {mgr : ExtMgr} {ws : Str → Str} (hc : Channel ws) : ∀ {xs : List Xml} {as : List (Attr F)}, AttrsSay mgr xs as →
    textsAll (Passes ws) xs → ∀ a ∈ as, Fit mgr ws a
  | _, _, .nil, _ => by simp
  | _, _, .cons h1 h2, ht => by
    simp only [textsAll] at ht
    intro a ha
    rcases List.mem_cons.1 ha with rfl | ha
    · exact attrSays_fit hc h1 ht.1
    · exact attrsSay_fit hc h2 ht.2 a ha
end

mutual
theorem globSays_fit {mgr : ExtMgr} {ws : Str → Str} (hc : Channel ws) : ∀ {x : Xml} {as : List (Attr F)}, GlobSays mgr x as →
    x.Texts (Passes ws) → ∀ a ∈ as, Fit mgr ws a ∧ a.bare
  | _, _, .mk (as := as) (k := k) (cs := cs) h1 h2, ht => by
    simp only [Xml.Texts] at ht
    obtain ⟨v1, v2, v3⟩ := says_fit h1 (xmlAttr_P ht.1 ⟨by simp [LegalText], hc.fix [] (by simp)⟩)
    have hk : Passes ws (xmlAttr py!"key" py!"UNKNOWN" as) := xmlAttr_P ht.1 (hc.passes_plain (by decide))
    intro a ha
    rcases List.mem_append.1 ha with ha | ha
    · exact globsSay_fit hc h2 ht.2 a ha
    · rw [List.mem_singleton] at ha
      subst ha
      refine ⟨⟨?_, ?_, ?_⟩, rfl, rfl⟩
      · simp [normAttr, hk.2, Attr.cut, v1, normList, normVals, cutMap, cutList, rekey]
      · simp only [Typed, TypedList, TypedMap, ite_self, and_true]
        exact v2
      · simp only [LegalAttr, LegalAttrs, LegalMap, ite_self, and_true]
        exact ⟨hk.1, v3⟩
theorem globsSay_fit {mgr : ExtMgr} {ws : Str → Str} (hc : Channel ws) : ∀ {xs : List Xml} {as : List (Attr F)}, GlobsSay mgr xs as →
    textsAll (Passes ws) xs → ∀ a ∈ as, Fit mgr ws a ∧ a.bare
  | _, _, .nil, _ => by simp
  | _, _, .cons h1 h2, ht => by
    simp only [textsAll] at ht
    intro a ha
    rcases List.mem_append.1 ha with ha | ha
    · exact globSays_fit hc h1 ht.1 a ha
    · exact globsSay_fit hc h2 ht.2 a ha
end

theorem flat_fit {mgr : ExtMgr} {ws : Str → Str} : ∀ {as : List (Attr F)}, (∀ a ∈ as, Fit mgr ws a ∧ a.bare) → flatList mgr ws as = cutList as
  | [], _ => rfl
  | .mk k key e v m c :: as, h => by
    obtain ⟨⟨h1, _, _⟩, h2⟩ := h _ (List.mem_cons_self ..)
    obtain ⟨rfl, rfl⟩ : m = [] ∧ c = [] := h2
    have h3 : flatList mgr ws as = cutList as := flat_fit fun a ha => h a (by simp [ha])
    have h4 : Attr.mk k (ws key) (extFor mgr (ws key)) (normVal ws v) [] [] = (Attr.mk k key e v [] []).cut := by
      rw [← h1]
      simp [normAttr, normList, normVals, rekey]
    simp only [flatList, flatAttr, flatVals, ite_self, List.nil_append, List.singleton_append, h3, h4, cutList]

theorem each_mem {α β : Type} {R : α → β → Prop} : ∀ {as : List α} {bs : List β}, Each R as bs → ∀ b ∈ bs, ∃ a ∈ as, R a b
  | _, _, .nil => by simp
  | _, _, .cons h1 h2 => by
    intro b hb
    rcases List.mem_cons.1 hb with rfl | hb
    · exact ⟨_, List.mem_cons_self .., h1⟩
    · obtain ⟨a, ha, h⟩ := each_mem h2 b hb
      exact ⟨a, List.mem_cons_of_mem _ ha, h⟩

/-- The map of a loaded event, trace or log. -/
structure FitMap (mgr : ExtMgr) (ws : Str → Str) (m : List (Str × Attr F)) : Prop where
  own : OwnKeys m
  each : ∀ p ∈ m, Fit mgr ws p.2

theorem FitMap.again {mgr : ExtMgr} {ws : Str → Str} {m : List (Str × Attr F)} (h : FitMap mgr ws m) : rekey (normVals mgr ws m) = cutMap m := by
  have : normVals mgr ws m = (cutMap m).map Prod.snd := by
    rw [normVals_map, cutMap_map, List.map_map]
    exact List.map_congr_left fun p hp => (h.each p hp).again
  rw [this, rekey_vals (ownKeys_cut h.own)]

theorem FitMap.typed {mgr : ExtMgr} {ws : Str → Str} {m : List (Str × Attr F)} (h : FitMap mgr ws m) : TypedMap m :=
  typedMap_iff.2 fun p hp => (h.each p hp).typed

theorem FitMap.legal {mgr : ExtMgr} {ws : Str → Str} {m : List (Str × Attr F)} (h : FitMap mgr ws m) : LegalMap m :=
  legalMap_iff.2 fun p hp => (h.each p hp).legal

theorem fitMap_of {mgr : ExtMgr} {ws : Str → Str} {cs : List (Attr F)} (h : ∀ a ∈ cs, Fit mgr ws a) : FitMap mgr ws (keyed cs) := by
  rw [← rekey_keyed]
  obtain ⟨g1, g2⟩ := rekey_own cs
  exact ⟨g1, fun p hp => h _ (g2 p hp)⟩

theorem traceSays_fit {mgr : ExtMgr} {ws : Str → Str} (hc : Channel ws) {x : Xml} {t : List (Str × Attr F) × List (List (Str × Attr F))}
    (h : TraceSays mgr x t) (ht : x.Texts (Passes ws)) : FitMap mgr ws t.1 ∧ ∀ m ∈ t.2, FitMap mgr ws m := by
  obtain ⟨_, ⟨cs, h1, h2⟩, h3⟩ := h
  refine ⟨?_, fun m hm => ?_⟩
  · rw [h2]
    exact fitMap_of (attrsSay_fit hc h1 (textsAll_iff.2 fun k hk => texts_inner ht k (List.mem_filter.1 hk).1))
  · obtain ⟨y, hy, cs, h4, rfl⟩ := each_mem h3 m hm
    have hy' := texts_inner ht y (List.mem_filter.1 hy).1
    exact fitMap_of (attrsSay_fit hc h4 (textsAll_iff.2 (texts_inner hy')))

theorem mem_of_mem_splitChar {c d : Char} {s p : Str} (h : p ∈ splitChar d s) (hc : c ∈ p) : c ∈ s := by
  induction s generalizing p with
  | nil => simp [splitChar] at h; simp [h] at hc
  | cons x xs ih =>
    by_cases hx : x = d
    · subst hx
      rw [splitChar_cons_self] at h
      rcases List.mem_cons.1 h with rfl | h
      · simp at hc
      · exact List.mem_cons_of_mem _ (ih h hc)
    · obtain ⟨q, qs, hp, hq⟩ := splitChar_cons_ne (c := d) xs hx
      rw [hq] at h
      rw [hp] at ih
      rcases List.mem_cons.1 h with rfl | h
      · rcases List.mem_cons.1 hc with rfl | hc
        · exact List.mem_cons_self ..
        · exact List.mem_cons_of_mem _ (ih (p := q) (by simp) hc)
      · exact List.mem_cons_of_mem _ (ih (List.mem_cons_of_mem _ h) hc)

theorem mem_extractTokens {s t : Str} {c : Char} (ht : t ∈ extractTokens s) (hc : c ∈ t) : c ∈ s := by
  unfold extractTokens at ht
  simp only [List.mem_filter, List.mem_map, decide_eq_true_eq] at ht
  obtain ⟨⟨p, hp, rfl⟩, _⟩ := ht
  exact mem_of_mem_splitChar hp ((strip_sublist p).subset hc)

theorem tokens_good {ws : Str → Str} (hc : Channel ws) {name keys : Str} (h : ws keys = keys) : GoodClassifier ws ⟨name, extractTokens keys⟩ :=
  fun t htm => ⟨c03_tokens_clean _ t htm, hc.fix t fun c hm => hc.safe_of_fix h c (mem_extractTokens htm hm)⟩

theorem classifierSays_good {ws : Str → Str} (hc : Channel ws) {x : Xml} {k : Classifier} (h : classifierSays x = some k) (ht : x.Texts (Passes ws)) :
    GoodClassifier ws k := by
  have hk : Passes ws (xmlAttr py!"keys" [] x.atts) := xmlAttr_P (texts_atts ht) ⟨by simp [LegalText], hc.fix [] (by simp)⟩
  unfold classifierSays at h
  split at h
  · cases h
  · cases h
  · simp only [Option.some.injEq] at h
    subst h
    exact tokens_good hc hk.2

theorem classifierSays_fit {ws : Str → Str} (hc : Channel ws) {x : Xml} {k : Classifier} (h : classifierSays x = some k) (ht : x.Texts (Passes ws)) :
    normClassifier ws k = (if k.keys ≠ [] then some ⟨k.name, glue k.keys⟩ else none) ∧ LegalText k.name ∧ ∀ t ∈ k.keys, LegalText t := by
  have hnil : Passes ws [] := ⟨by simp [LegalText], hc.fix [] (by simp)⟩
  have hn : Passes ws (xmlAttr py!"name" [] x.atts) := xmlAttr_P (texts_atts ht) hnil
  have hk : Passes ws (xmlAttr py!"keys" [] x.atts) := xmlAttr_P (texts_atts ht) hnil
  unfold classifierSays at h
  split at h
  · cases h
  · cases h
  · rename_i name keys hne _
    simp only [Option.some.injEq] at h
    subst h
    refine ⟨?_, hn.1, fun t htm c hm => hk.1 c (mem_extractTokens htm hm)⟩
    have hg := tokens_good hc (name := xmlAttr py!"name" [] x.atts) hk.2
    rw [normClassifier_good hc hg]
    simp only [hn.2]
    have : xmlAttr py!"name" [] x.atts ≠ [] := fun e => hne e
    simp [this]

theorem filterMap_fit {ws : Str → Str} : ∀ (ks : List Classifier),
    (∀ k ∈ ks, normClassifier ws k = if k.keys ≠ [] then some ⟨k.name, glue k.keys⟩ else none) →
    ks.filterMap (normClassifier ws) = (ks.filter fun k => k.keys ≠ []).map fun k => ⟨k.name, glue k.keys⟩
  | [], _ => rfl
  | k :: ks, h => by
    have ih := filterMap_fit ks fun k hk => h k (by simp [hk])
    have hk := h k (by simp)
    by_cases hn : k.keys = []
    · rw [List.filterMap_cons_none (by rw [hk]; simp [hn]), ih]
      simp [hn]
    · rw [List.filterMap_cons_some (by rw [hk, if_pos hn]), ih]
      simp [hn]

/-! ## The reader reports legal texts only -/

end

/-- What the reader holds is legal. -/
def LxLegal : Lx → Prop
  | .inTag _ as _ => ∀ p ∈ as, LegalText p.2
  | .aname _ as _ => ∀ p ∈ as, LegalText p.2
  | .aeq _ as _ => ∀ p ∈ as, LegalText p.2
  | .aquote _ as _ => ∀ p ∈ as, LegalText p.2
  | .aval _ as _ _ v => (∀ p ∈ as, LegalText p.2) ∧ LegalText v
  | .aref _ as _ _ v _ => (∀ p ∈ as, LegalText p.2) ∧ LegalText v
  | .slash _ as => ∀ p ∈ as, LegalText p.2
  | _ => True

/-- A reported event is legal. -/
def EvLegal : MSax → Prop
  | .start _ as => ∀ p ∈ as, LegalText p.2
  | .chars s => LegalText s
  | .stop _ => True

theorem legalText_one {c : Char} : LegalText [c] ↔ isXmlChar c = true := by
  rw [← legalText_iff]; simp

theorem legalText_snoc {s : Str} {c : Char} (h1 : LegalText s) (h2 : LegalText [c]) : LegalText (s ++ [c]) := by
  intro d hd
  rcases List.mem_append.1 hd with hd | hd
  · exact h1 d hd
  · exact h2 d hd

theorem charRef_legal {n : Option Nat} {c : Char} (h : charRef n = some c) : LegalText [c] := by
  rw [legalText_one]
  unfold charRef at h
  split at h
  · split at h
    · rename_i hn
      cases h
      exact hn.2.1
    · cases h
  · cases h

theorem resolveRef_legal {r : Str} {c : Char} (h : resolveRef r = some c) : LegalText [c] := by
  unfold resolveRef at h
  split at h
  all_goals first
    | (cases h; unfold LegalText; decide)
    | exact charRef_legal h
    | cases h

theorem tagChar_legal {st st' : RdSt} {n : Str} {as : List (Str × Str)} {gap : Bool} {c : Char} {e : List MSax} (ha : ∀ p ∈ as, LegalText p.2)
    (h : tagChar st n as gap c = .ok (st', e)) : LxLegal st'.lex ∧ ∀ x ∈ e, EvLegal x := by
  unfold tagChar at h
  split at h
  · cases h; exact ⟨ha, by simp⟩
  · split at h
    · cases h; exact ⟨trivial, by simpa [EvLegal] using ha⟩
    · split at h
      · cases h; exact ⟨ha, by simp⟩
      · split at h
        · cases h; exact ⟨ha, by simp⟩
        · cases h

theorem stopChar_legal {st st' : RdSt} {n : Str} {c : Char} {e : List MSax}
    (h : stopChar st n c = .ok (st', e)) : LxLegal st'.lex ∧ ∀ x ∈ e, EvLegal x := by
  unfold stopChar at h
  split at h
  · cases h; exact ⟨trivial, by simp⟩
  · split at h
    · split at h
      · cases h
      · split at h
        · cases h; exact ⟨trivial, by simp [EvLegal]⟩
        · cases h
    · cases h

theorem rdStep_legal {st st' : RdSt} {c : Char} {e : List MSax} (hc : LegalText [c]) (hl : LxLegal st.lex)
    (h : rdStep st c = .ok (st', e)) : LxLegal st'.lex ∧ ∀ x ∈ e, EvLegal x := by
  have hb : LegalText [']'] := by unfold LegalText; decide
  have hs : LegalText [' '] := by unfold LegalText; decide
  obtain ⟨lex, stack, seen⟩ := st
  cases lex
  case name n =>
    simp only [rdStep] at h
    split at h
    · cases h; exact ⟨trivial, by simp⟩
    · exact tagChar_legal (by simp) h
  case inTag n as gap => exact tagChar_legal hl h
  case stop n =>
    simp only [rdStep] at h
    split at h
    · cases h; exact ⟨trivial, by simp⟩
    · exact stopChar_legal h
  case stopGap n => exact stopChar_legal h
  case aval n as a q v =>
    simp only [rdStep] at h
    simp only [LxLegal] at hl
    split at h
    · split at h
      · cases h
      · cases h
        refine ⟨?_, by simp⟩
        simp only [LxLegal, List.mem_append, List.mem_singleton]
        rintro p (hp | rfl)
        · exact hl.1 p hp
        · exact hl.2
    · split at h
      · cases h
      · split at h
        · cases h; exact ⟨hl, by simp⟩
        · cases h
          refine ⟨⟨hl.1, legalText_snoc hl.2 ?_⟩, by simp⟩
          split
          · exact hs
          · exact hc
  case aref n as a q v r =>
    simp only [rdStep] at h
    simp only [LxLegal] at hl
    split at h
    · split at h
      · rename_i d hd
        cases h
        exact ⟨⟨hl.1, legalText_snoc hl.2 (resolveRef_legal hd)⟩, by simp⟩
      · cases h
    · cases h; exact ⟨hl, by simp⟩
  case ref r =>
    simp only [rdStep] at h
    split at h
    · split at h
      · rename_i d hd
        cases h
        exact ⟨trivial, by simpa [EvLegal] using resolveRef_legal hd⟩
      · cases h
    · cases h; exact ⟨trivial, by simp⟩
  case slash n as =>
    simp only [rdStep] at h
    split at h
    · cases h
      simp only [LxLegal] at hl
      exact ⟨trivial, by simpa [EvLegal] using hl⟩
    · cases h
  all_goals
    simp only [rdStep, malformed] at h
    repeat' split at h
    all_goals first
      | (cases h; done)
      | (cases h; refine ⟨?_, ?_⟩ <;> first | exact trivial | exact hl | exact ⟨hl, by simp [LegalText]⟩ | simp [EvLegal, hb, hc])

theorem rdRun_legal : ∀ {s : Str} {st st' : RdSt} {e : List MSax}, LegalText s → LxLegal st.lex → rdRun st s = .ok (st', e) → ∀ x ∈ e, EvLegal x
  | [], st, st', e, _, _, h => by
    simp only [rdRun] at h
    cases h
    simp
  | c :: s, st, st', e, hs, hl, h => by
    simp only [rdRun] at h
    obtain ⟨⟨st1, e1⟩, h1, h⟩ := bind_ok.1 h
    obtain ⟨⟨st2, e2⟩, h2, h⟩ := bind_ok.1 h
    cases h
    obtain ⟨g1, g2⟩ := rdStep_legal (fun d hd => hs d (by simp_all)) hl h1
    intro x hx
    rcases List.mem_append.1 hx with hx | hx
    · exact g2 x hx
    · exact rdRun_legal (fun d hd => hs d (by simp [hd])) g1 h2 x hx

theorem mem_normEol {c : Char} : ∀ {s : Str}, c ∈ normEol s → c ∈ s ∨ c = '\n'
  | [], h => by simp [normEol] at h
  | x :: s, h => by
    unfold normEol at h
    split at h
    · cases h
    · rename_i s' he
      cases he
      rcases List.mem_cons.1 h with rfl | h
      · exact .inr rfl
      · rcases mem_normEol h with h | h
        · exact .inl (by simp [h])
        · exact .inr h
    · rename_i s' _ he
      cases he
      rcases List.mem_cons.1 h with rfl | h
      · exact .inr rfl
      · rcases mem_normEol h with h | h
        · exact .inl (by simp [h])
        · exact .inr h
    · rename_i he
      cases he
      rcases List.mem_cons.1 h with rfl | h
      · exact .inl (by simp)
      · rcases mem_normEol h with h | h
        · exact .inl (by simp [h])
        · exact .inr h
  termination_by s => s.length

/-- Everything that the reader reports consists of characters that XML allows. -/
theorem readXml_legal {text : Str} {es : List MSax} (h : readXml text = .ok es) : ∀ x ∈ es, EvLegal x := by
  unfold readXml at h
  split at h
  · rename_i hc
    obtain ⟨⟨st, e⟩, h1, h⟩ := bind_ok.1 h
    simp only at h
    split at h
    · cases h
      refine rdRun_legal ?_ (by simp only [LxLegal]) h1
      rw [← legalText_iff]
      intro c hm
      rcases mem_normEol hm with hm | rfl
      · exact List.all_eq_true.1 hc.1 c hm
      · decide
    · cases h
  · cases h

theorem xesEvents_legal : ∀ {es : List MSax}, (∀ x ∈ es, EvLegal x) → ∀ t as, Sax.start t as ∈ xesEvents es → ∀ p ∈ as, LegalText p.2
  | [], _, t, as, h => by simp [xesEvents] at h
  | .start t' as' :: es, hl, t, as, h => by
    simp only [xesEvents, List.mem_cons] at h
    rcases h with h | h
    · cases h
      exact hl _ (List.mem_cons_self ..)
    · exact xesEvents_legal (fun x hx => hl x (by simp [hx])) t as h
  | .stop t' :: es, hl, t, as, h => by
    simp only [xesEvents, List.mem_cons] at h
    rcases h with h | h
    · cases h
    · exact xesEvents_legal (fun x hx => hl x (by simp [hx])) t as h
  | .chars s :: es, hl, t, as, h => by
    simp only [xesEvents] at h
    exact xesEvents_legal (fun x hx => hl x (by simp [hx])) t as h

mutual
theorem sax_texts {P : Str → Prop} : ∀ {x : Xml}, (∀ t as, Sax.start t as ∈ x.sax → ∀ p ∈ as, P p.2) → x.Texts P
  | .elem t as ks, h => by
    simp only [Xml.sax, Xml.Texts] at h ⊢
    exact ⟨h t as (by simp), saxList_texts fun t' as' hm => h t' as' (by simp [hm])⟩
theorem saxList_texts {P : Str → Prop} : ∀ {xs : List Xml}, (∀ t as, Sax.start t as ∈ saxList xs → ∀ p ∈ as, P p.2) → textsAll P xs
  | [], _ => trivial
  | x :: xs, h => by
    simp only [saxList, textsAll] at h ⊢
    exact ⟨sax_texts fun t as hm => h t as (by simp [hm]), saxList_texts fun t as hm => h t as (by simp [hm])⟩
end

mutual
theorem Xml.Texts.mono {P Q R : Str → Prop} (h : ∀ s, P s → Q s → R s) : ∀ {x : Xml}, x.Texts P → x.Texts Q → x.Texts R
  | .elem t as ks, h1, h2 => by
    simp only [Xml.Texts] at h1 h2 ⊢
    exact ⟨fun p hp => h _ (h1.1 p hp) (h2.1 p hp), textsAll_mono h h1.2 h2.2⟩
theorem textsAll_mono {P Q R : Str → Prop} (h : ∀ s, P s → Q s → R s) : ∀ {xs : List Xml}, textsAll P xs → textsAll Q xs → textsAll R xs
  | [], _, _ => trivial
  | x :: xs, h1, h2 => by
    simp only [textsAll] at h1 h2 ⊢
    exact ⟨Xml.Texts.mono h h1.1 h2.1, textsAll_mono h h1.2 h2.2⟩
end

/-! ## Property theorems -/

section
variable {F : Type} [PyFloat F]

/-- A log as it is after loading. -/
structure FitLog (mgr : ExtMgr) (ws : Str → Str) (L : Log F) : Prop where
  attrs : FitMap mgr ws L.attrs
  globalTrace : ∀ a ∈ L.globalTrace, Fit mgr ws a ∧ a.bare
  globalEvent : ∀ a ∈ L.globalEvent, Fit mgr ws a ∧ a.bare
  traces : ∀ t ∈ L.traces, FitMap mgr ws t.attrs ∧ ∀ e ∈ t.events, FitMap mgr ws e.attrs
  found : ∀ e ∈ L.extensions, mgr.byPrefix e.pfx = some e
  uris : (L.extensions.map Ext.uri).Nodup
  classifiers : ∀ k ∈ L.classifiers, GoodClassifier ws k ∧ normClassifier ws k = (if k.keys ≠ [] then some ⟨k.name, glue k.keys⟩ else none) ∧
    LegalText k.name ∧ ∀ t ∈ k.keys, LegalText t

theorem fitLog_same {mgr : ExtMgr} (hm : SoundMgr mgr) (modern : Bool) {L : Log F} (h : FitLog mgr (valueBack modern) L) :
    WritableLog L ∧ LegalLog L ∧ norm mgr (valueBack modern) L.content = L.content.again := by
  have hfix : ∀ s, modern = true ∨ OneLine s → valueBack modern s = s := fun s h => (c112_partial modern s).2 h
  have hw : WritableLog L := ⟨h.attrs.typed, (fit_list fun a ha => (h.globalTrace a ha).1).2.1, (fit_list fun a ha => (h.globalEvent a ha).1).2.1,
    fun t ht => ⟨(h.traces t ht).1.typed, fun e he => ((h.traces t ht).2 e he).typed⟩⟩
  have hlegal : LegalLog L := ⟨h.attrs.legal, fun e he => by
      obtain ⟨h1, h2, h3, _⟩ := hm.texts _ _ (h.found e he)
      exact ⟨h1, h2, h3⟩, fun k hk => (h.classifiers k hk).2.2, (fit_list fun a ha => (h.globalTrace a ha).1).2.2,
    (fit_list fun a ha => (h.globalEvent a ha).1).2.2, fun t ht => ⟨(h.traces t ht).1.legal, fun e he => ((h.traces t ht).2 e he).legal⟩⟩
  refine ⟨hw, hlegal, ?_⟩
  have htr : ∀ t ∈ L.content.traces, FitMap mgr (valueBack modern) t.1 ∧ ∀ m ∈ t.2, FitMap mgr (valueBack modern) m := fun t ht => by
    obtain ⟨u, hu, rfl⟩ := List.mem_map.1 ht
    refine ⟨(h.traces u hu).1, fun m hm => ?_⟩
    obtain ⟨e, he, rfl⟩ := List.mem_map.1 hm
    exact (h.traces u hu).2 e he
  unfold norm Content.again
  have e1 : rekey (normVals mgr (valueBack modern) L.content.attrs) = cutMap L.content.attrs := h.attrs.again
  have e2 : distinctExts (L.content.extensions.filterMap fun e => mgr.byPrefix (valueBack modern e.pfx)) = L.content.extensions := by
    have : L.content.extensions.filterMap (fun e => mgr.byPrefix (valueBack modern e.pfx)) = L.content.extensions := by
      have : ∀ l : List Ext, (∀ e ∈ l, mgr.byPrefix e.pfx = some e) → l.filterMap (fun e => mgr.byPrefix (valueBack modern e.pfx)) = l := by
        intro l
        induction l with
        | nil => intro _; rfl
        | cons e l ih =>
          intro h
          have h1 := h e (by simp)
          rw [List.filterMap_cons_some (by rw [hfix _ (.inr (hm.texts _ _ h1).2.2.2)]; exact h1), ih fun e he => h e (by simp [he])]
      exact this _ h.found
    rw [this]
    exact distinctExts_self _ h.uris
  have e3 := filterMap_fit _ fun k hk => (h.classifiers k hk).2.1
  have e4 : L.content.traces.map (fun t => (rekey (normVals mgr (valueBack modern) t.1), t.2.map fun m => rekey (normVals mgr (valueBack modern) m))) =
      L.content.traces.map fun t => (cutMap t.1, t.2.map cutMap) := by
    apply List.map_congr_left
    intro t h
    rw [(htr t h).1.again, List.map_congr_left fun m hmm => ((htr t h).2 m hmm).again]
  rw [e1, e2, e4]
  have e5 : L.content.classifiers.filterMap (normClassifier (valueBack modern)) = _ := e3
  have e6 : flatList mgr (valueBack modern) L.content.globalTrace = _ := flat_fit h.globalTrace
  have e7 : flatList mgr (valueBack modern) L.content.globalEvent = _ := flat_fit h.globalEvent
  rw [e5, e6, e7]
  rfl

theorem doc_fitLog {mgr : ExtMgr} (hm : SoundMgr mgr) (modern : Bool) {x : Xml} {L : Log F} (hx : DocSays mgr x L.content)
    (hl : x.Texts LegalText) (ho : modern = true ∨ x.Texts OneLine) : FitLog mgr (valueBack modern) L := by
  have hc := valueChannel modern
  have hfix : ∀ s, modern = true ∨ OneLine s → valueBack modern s = s := fun s h => (c112_partial modern s).2 h
  have ht : x.Texts (Passes (valueBack modern)) := by
    rcases ho with h | h
    · exact Xml.Texts.mono (fun s h1 _ => ⟨h1, hfix s (.inl h)⟩) hl hl
    · exact Xml.Texts.mono (fun s h1 h2 => ⟨h1, hfix s (.inr h2)⟩) hl h
  obtain ⟨cs, ha, hae⟩ := hx.attrs
  have hattrs : FitMap mgr (valueBack modern) L.attrs := by
    have : L.attrs = keyed cs := hae
    rw [this]
    exact fitMap_of (attrsSay_fit hc ha (textsAll_iff.2 fun k hk => texts_inner ht k (List.mem_filter.1 hk).1))
  have hglob : ∀ scope {as : List (Attr F)}, GlobsSay mgr ((x.inner.filter (Xml.isGlobal scope)).flatMap Xml.inner) as →
      ∀ a ∈ as, Fit mgr (valueBack modern) a ∧ a.bare := fun scope as h => globsSay_fit hc h (textsAll_iff.2 fun k hk => by
    obtain ⟨y, hy, hk⟩ := List.mem_flatMap.1 hk
    exact texts_inner (texts_inner ht y (List.mem_filter.1 hy).1) k hk)
  have htr : ∀ t ∈ L.content.traces, FitMap mgr (valueBack modern) t.1 ∧ ∀ m ∈ t.2, FitMap mgr (valueBack modern) m := fun t h => by
    obtain ⟨y, hy, h⟩ := each_mem hx.traces t h
    exact traceSays_fit hc h (texts_inner ht y (List.mem_filter.1 hy).1)
  obtain ⟨es, he1, he2⟩ := hx.extensions
  have he2' : L.extensions = distinctExts (es.filterMap id) := he2
  refine ⟨hattrs, hglob _ hx.globalTrace, hglob _ hx.globalEvent, fun t h => ?_, fun e he => ?_, ?_, fun k hk => ?_⟩
  · have := htr (t.attrs, t.events.map Event.attrs) (List.mem_map_of_mem h)
    exact ⟨this.1, fun e he => this.2 _ (List.mem_map_of_mem he)⟩
  · rw [he2'] at he
    have := (distinctExts_good _).2 e he
    obtain ⟨o, ho, rfl⟩ := List.mem_filterMap.1 this
    obtain ⟨y, _, h⟩ := each_mem he1 _ ho
    unfold ExtSays at h
    have h := h.2
    split at h
    · rename_i p u _ _
      have h1 := h.1.symm
      have h2 := hm.pfx _ _ h1
      rw [h2]
      exact h1
    · exact hm.uri _ _ h
    · exact h.elim
  · rw [he2']
    exact (distinctExts_good _).1
  · have hin : k ∈ (x.inner.filter fun k => k.name = py!"classifier").filterMap classifierSays := by rw [← hx.classifiers]; exact hk
    obtain ⟨y, hy, h⟩ := List.mem_filterMap.1 hin
    have hy' := texts_inner ht y (List.mem_filter.1 hy).1
    exact ⟨classifierSays_good hc h hy', classifierSays_fit hc h hy'⟩

theorem doc_fit {mgr : ExtMgr} (hm : SoundMgr mgr) (modern : Bool) {x : Xml} {L : Log F} (hx : DocSays mgr x L.content)
    (hl : x.Texts LegalText) (ho : modern = true ∨ x.Texts OneLine) :
    WritableLog L ∧ LegalLog L ∧ norm mgr (valueBack modern) L.content = L.content.again ∧ ∀ k ∈ L.classifiers, GoodClassifier (valueBack modern) k := by
  have h := doc_fitLog hm modern hx hl ho
  obtain ⟨h1, h2, h3⟩ := fitLog_same hm modern h
  exact ⟨h1, h2, h3, fun k hk => (h.classifiers k hk).1⟩

/-- C139, for a document: the log that it describes can be saved, and the file holds that log, with timestamps in milliseconds
(and version attributes of the serializer, and classifiers as C01 says). -/
theorem c139_document (hf : FloatText F) {mgr : ExtMgr} (hm : SoundMgr mgr) (modern : Bool) {x : Xml} {L : Log F} (hx : DocSays mgr x L.content)
    (hl : x.Texts LegalText) (ho : modern = true ∨ x.Texts OneLine) : FileHolds mgr modern L L.content.again := by
  obtain ⟨h1, h2, h3, _⟩ := doc_fit hm modern hx hl ho
  rw [← h3]
  exact c110_file hf mgr modern h1 h2

/-- C139: for the text of a file.  Nothing has to be assumed about its characters, except that before Python 3.13 values must not
contain tabs or line ends (as references, `&#10;`). -/
theorem c139_file (hf : FloatText F) {mgr : ExtMgr} (hm : SoundMgr mgr) (modern : Bool) {text : Str} {es : List MSax} {x : Xml} {L : Log F}
    (ht : readXml text = .ok es) (he : xesEvents es = x.sax) (hx : DocSays mgr x L.content) (ho : modern = true ∨ x.Texts OneLine) :
    FileHolds mgr modern L L.content.again :=
  c139_document hf hm modern hx (sax_texts fun t as h => by
    rw [← he] at h
    exact xesEvents_legal (readXml_legal ht) t as h) ho

/-! ## A third time -/

mutual
theorem legal_cut : ∀ {a : Attr F}, LegalAttr a → LegalAttr a.cut
  | .mk k key e v m c, h => by
    simp only [Attr.cut, LegalAttr] at h ⊢
    refine ⟨h.1, ?_, ?_⟩
    · have := h.2.1
      cases v <;> exact this
    · cases hk : k.isCollection with
      | true =>
        simp only [hk, if_true] at h ⊢
        exact legal_cutList h.2.2
      | false =>
        simp only [hk, Bool.false_eq_true, if_false] at h ⊢
        exact legal_cutMap h.2.2
theorem legal_cutList : ∀ {as : List (Attr F)}, LegalAttrs as → LegalAttrs (cutList as)
  | [], _ => trivial
  | a :: as, h => by
    simp only [cutList, LegalAttrs] at h ⊢
    exact ⟨legal_cut h.1, legal_cutList h.2⟩
theorem legal_cutMap : ∀ {as : List (Str × Attr F)}, LegalMap as → LegalMap (cutMap as)
  | [], _ => trivial
  | (k, a) :: as, h => by
    simp only [cutMap, LegalMap] at h ⊢
    exact ⟨legal_cut h.1, legal_cutMap h.2⟩
end

theorem legal_again {L M : Log F} (h : LegalLog L) (hM : M.content = L.content.again) : LegalLog M := by
  have ea : M.attrs = cutMap L.attrs := congrArg Content.attrs hM
  have ex : M.extensions = L.extensions := congrArg Content.extensions hM
  have ek : M.classifiers = _ := congrArg Content.classifiers hM
  have et : M.globalTrace = cutList L.globalTrace := congrArg Content.globalTrace hM
  have ee : M.globalEvent = cutList L.globalEvent := congrArg Content.globalEvent hM
  have er : M.traces.map (fun t => (t.attrs, t.events.map Event.attrs)) = _ := congrArg Content.traces hM
  refine ⟨?_, ?_, ?_, ?_, ?_, ?_⟩
  · rw [ea]; exact legal_cutMap h.attrs
  · rw [ex]; exact h.extensions
  · rw [ek]
    intro k hk
    obtain ⟨k0, hk0, rfl⟩ := List.mem_map.1 hk
    obtain ⟨g1, g2⟩ := h.classifiers k0 (List.mem_filter.1 hk0).1
    refine ⟨g1, fun t ht c hc => ?_⟩
    rcases mem_glue ht hc with rfl | ⟨t', h1, h2⟩
    · decide
    · exact g2 t' h1 c h2
  · rw [et]; exact legal_cutList h.globalTrace
  · rw [ee]; exact legal_cutList h.globalEvent
  · intro t ht
    have hm := List.mem_map_of_mem (f := fun t : Trace F => (t.attrs, t.events.map Event.attrs)) ht
    rw [er] at hm
    obtain ⟨p, hp, he⟩ := List.mem_map.1 hm
    obtain ⟨t0, ht0, rfl⟩ := List.mem_map.1 hp
    obtain ⟨g1, g2⟩ := h.traces t0 ht0
    simp only [Prod.mk.injEq] at he
    refine ⟨by rw [← he.1]; exact legal_cutMap g1, fun e hem => ?_⟩
    have hm := List.mem_map_of_mem (f := Event.attrs) hem
    rw [← he.2] at hm
    obtain ⟨m, hm, hme⟩ := List.mem_map.1 hm
    obtain ⟨e0, he0, rfl⟩ := List.mem_map.1 hm
    rw [← hme]
    exact legal_cutMap (g2 e0 he0)

/-- C139: from the second file on nothing changes at all: a log loaded from the saved file is saved and loaded unchanged. -/
theorem c139_settled (hf : FloatText F) {mgr : ExtMgr} (hm : SoundMgr mgr) (modern : Bool) {x : Xml} {L M : Log F} (hx : DocSays mgr x L.content)
    (hl : x.Texts LegalText) (ho : modern = true ∨ x.Texts OneLine) (hM : M.content = L.content.again) : FileHolds mgr modern M M.content := by
  obtain ⟨h1, h2, h3, h4⟩ := doc_fit hm modern hx hl ho
  have hc := valueChannel modern
  have hn := norm_canonContent hm.pfx hc h1 h4
  rw [h3, ← hM] at hn
  have := c110_canonical hf mgr modern (norm_typed hc h1 (hM.trans h3.symm)) (legal_again h2 hM) hn
  have hv : { M.content with features := xesVersion } = M.content := by rw [hM]; rfl
  rw [hv] at this
  exact this

mutual
/-- No timestamp in the attribute has anything below the millisecond. -/
def Attr.Milli : Attr F → Prop
  | .mk _ _ _ v m c => (∀ d, v = .dt d → d.micro % 1000 = 0) ∧ MilliMap m ∧ MilliList c
/-- The same for a list. -/
def MilliList : List (Attr F) → Prop
  | [] => True
  | a :: as => a.Milli ∧ MilliList as
/-- The same for a map. -/
def MilliMap : List (Str × Attr F) → Prop
  | [] => True
  | (_, a) :: as => a.Milli ∧ MilliMap as
end

mutual
theorem cut_milli : ∀ {a : Attr F}, a.Milli → a.cut = a
  | .mk k key e v m c, h => by
    simp only [Attr.Milli] at h
    have hv : cutVal v = v := by
      cases v <;> simp only [cutVal]
      have := h.1 _ rfl
      rw [this]
      rfl
    simp only [Attr.cut, hv, cutMap_milli h.2.1, cutList_milli h.2.2]
theorem cutList_milli : ∀ {as : List (Attr F)}, MilliList as → cutList as = as
  | [], _ => rfl
  | a :: as, h => by
    simp only [MilliList] at h
    simp only [cutList, cut_milli h.1, cutList_milli h.2]
theorem cutMap_milli : ∀ {as : List (Str × Attr F)}, MilliMap as → cutMap as = as
  | [], _ => rfl
  | (k, a) :: as, h => by
    simp only [MilliMap] at h
    simp only [cutMap, cut_milli h.1, cutMap_milli h.2]
end

/-- C139: what is kept without a change: logs with timestamps in milliseconds and with classifiers that have keys, of which no
two neighbours are free of blanks (as in C01). -/
theorem c139_same {c : Content F} (ha : MilliMap c.attrs) (hg : MilliList c.globalTrace) (he : MilliList c.globalEvent)
    (ht : ∀ t ∈ c.traces, MilliMap t.1 ∧ ∀ m ∈ t.2, MilliMap m) (hk : ∀ k ∈ c.classifiers, k.keys ≠ [] ∧ NoBareNeighbours k.keys) :
    c.again = { c with features := xesVersion } := by
  have h1 : (c.classifiers.filter fun k => k.keys ≠ []).map (fun k => (⟨k.name, glue k.keys⟩ : Classifier)) = c.classifiers := by
    rw [List.filter_eq_self.2 fun k h => by simpa using (hk k h).1]
    refine (List.map_congr_left fun k h => ?_).trans (List.map_id _)
    rw [(glue_eq_self_iff _).2 (hk k h).2]
    rfl
  have h2 : c.traces.map (fun t => (cutMap t.1, t.2.map cutMap)) = c.traces := by
    refine (List.map_congr_left fun t h => ?_).trans (List.map_id _)
    rw [cutMap_milli (ht t h).1, (List.map_congr_left fun m hm => cutMap_milli ((ht t h).2 m hm)).trans (List.map_id _)]
    rfl
  unfold Content.again
  rw [h1, h2, cutMap_milli ha, cutList_milli hg, cutList_milli he]

end

/-- The hypothesis on the manager holds after every history of registrations of extensions that are not confused with each other and
whose texts can be written ... -/
theorem c139_manager {h : List Ext} (hu : Unambiguous h)
    (ht : ∀ e ∈ h, LegalText e.name ∧ LegalText e.pfx ∧ LegalText e.uri ∧ OneLine e.pfx) (urlParse : Str → Except PyErr Str) :
    SoundMgr ((Mgr.run h).view urlParse) where
  pfx := c58_lawful h urlParse
  uri u e he := by
    obtain ⟨t, _, he⟩ := bind_ok.1 he
    simp only [Except.ok.injEq] at he
    exact (c58_lookups hu ((c58_sound h t e).1 he).1).2.2
  texts p e he := ht e ((c58_sound h p e).2.2 he).1

/-- ... so for the standard extensions. -/
theorem standard_sound (urlParse : Str → Except PyErr Str) : SoundMgr ((Mgr.run standardExts).view urlParse) := by
  refine c139_manager standard_unambiguous ?_ urlParse
  have : ∀ e ∈ standardExts, (∀ s ∈ [e.name, e.pfx, e.uri], ∀ c ∈ s, 32 ≤ c.toNat ∧ c.toNat ≤ 126) ∧ ('\t' ∉ e.pfx ∧ '\n' ∉ e.pfx ∧ '\r' ∉ e.pfx) := by
    decide +kernel
  intro e he
  obtain ⟨h1, h2⟩ := this e he
  exact ⟨legalText_plain (h1 _ (by simp)), legalText_plain (h1 _ (by simp)), legalText_plain (h1 _ (by simp)), h2⟩

/-! ## Examples -/

/-- A document with a time in microseconds, quoted classifier keys and an extension named by its URI. -/
def microDoc : Xml := .elem py!"log" [(py!"xes.version", py!"2.0")]
  [.elem py!"extension" [(py!"uri", py!"http://www.xes-standard.org/concept.xesext")] [],
   .elem py!"classifier" [(py!"name", py!"c"), (py!"keys", py!"'a' 'b'")] [],
   .elem py!"date" [(py!"key", py!"when"), (py!"value", py!"2020-02-29T23:05:07.123456+01:00")] [],
   .elem py!"string" [(py!"key", py!"concept:name"), (py!"value", py!"log")] []]

/-- What it says. -/
def microLog : Log ToyFloat where
  attrs := [(py!"when", .mk .timestamp py!"when" none (.dt ⟨2020, 2, 29, 23, 5, 7, 123456, some 3600⟩) [] []),
    (py!"concept:name", .mk .literal py!"concept:name" (some conceptExt) (.str py!"log") [] [])]
  extensions := [conceptExt]
  classifiers := [⟨py!"c", [py!"a", py!"b"]⟩]
  globalTrace := []
  globalEvent := []
  features := [(py!"xes.version", py!"2.0")]
  traces := []

theorem microExts : ((Mgr.run standardExts).view .ok).byUri py!"http://www.xes-standard.org/concept.xesext" = .ok (some conceptExt) := by
  have : (Mgr.run standardExts).getByUri py!"http://www.xes-standard.org/concept.xesext" = some conceptExt :=
    (c58_standard.1 conceptExt (by decide)).1
  simp only [Mgr.view, bind, Except.bind, this]

theorem microDoc_says : DocSays ((Mgr.run standardExts).view .ok) microDoc microLog.content where
  root := by decide
  known := by decide
  plain := by decide
  distinct := by decide
  features := by decide
  attrs := ⟨[.mk .timestamp py!"when" none (.dt ⟨2020, 2, 29, 23, 5, 7, 123456, some 3600⟩) [] [],
      .mk .literal py!"concept:name" (some conceptExt) (.str py!"log") [] []],
    .cons (.mk (cs := []) (.date (c124_exact.1 (by decide +kernel))) .nil) (.cons (.mk (cs := []) (.string _) .nil) .nil), rfl⟩
  traces := .nil
  extensions := ⟨[some conceptExt], .cons ⟨rfl, microExts⟩ .nil, by decide⟩
  classifiers := by decide
  globalTrace := .nil
  globalEvent := .nil

/-- C139 applies to it, and saving it loses the microseconds and joins the keys. -/
example : ∃ M : Log ToyFloat, FileHolds ((Mgr.run standardExts).view .ok) false microLog M.content ∧
    M.attrs.map (fun p => p.2.val) = [.dt ⟨2020, 2, 29, 23, 5, 7, 123000, some 3600⟩, .str py!"log"] ∧ M.extensions = [conceptExt] ∧
    M.classifiers.map Classifier.keys = [[py!"a b"]] ∧ FileHolds ((Mgr.run standardExts).view .ok) false M M.content := by
  have hl : microDoc.Texts LegalText := by
    simp only [microDoc, Xml.Texts, textsAll, LegalText]
    and_intros <;> trivial
  have ho : microDoc.Texts OneLine := by
    simp only [microDoc, Xml.Texts, textsAll, OneLine]
    and_intros <;> trivial
  exact ⟨⟨microLog.content.again.attrs, [conceptExt], microLog.content.again.classifiers, [], [], xesVersion, []⟩,
    c139_document toyFloatText (standard_sound _) false microDoc_says hl (.inr ho), by decide +kernel, rfl, by decide +kernel,
    c139_settled toyFloatText (standard_sound _) false microDoc_says hl (.inr ho) rfl⟩

/-- A log that is kept: see C115. -/
example : strangeContent.again = { strangeContent with features := xesVersion } :=
  c139_same (by simp [strangeContent, MilliMap, Attr.Milli, MilliList]) (by simp [strangeContent, MilliMap, Attr.Milli, MilliList])
    (by simp [strangeContent, MilliList]) (by simp [strangeContent, MilliMap, Attr.Milli, MilliList])
    (by simp [strangeContent, noBare_single])

end Opy
