import Verif.Props.XmlText
import Verif.Props.DateText
/-
Properties C115 and C116: what an XES document says, whoever wrote it.
-/
set_option linter.unusedSectionVars false
namespace Opy

section
variable {F : Type} [PyFloat F]

/-! ## Specification -/

/-- The text of a boolean: `true` in any letter case. -/
def saysTrue (s : Str) : Prop := ∃ a b c d, s = [a, b, c, d] ∧ (a = 't' ∨ a = 'T') ∧ (b = 'r' ∨ b = 'R') ∧ (c = 'u' ∨ c = 'U') ∧ (d = 'e' ∨ d = 'E')

/-- Class and value of an attribute element with this (lower case) name and this value text. -/
inductive Says : Str → Str → Kind → PyVal F → Prop
  | string (s : Str) : Says py!"string" s .literal (.str s)
  | date {s : Str} {d : DateTime} : DateSays s d → Says py!"date" s .timestamp (.dt d)
  | int {s : Str} {z : Int} : IntText s z → Says py!"int" s .discrete (.int z)
  | float {s : Str} {x : F} : PyFloat.parse s = some x → Says py!"float" s .continuous (.float x)
  | yes {s : Str} : saysTrue s → Says py!"boolean" s .boolean (.bool true)
  | no {s : Str} : ¬ saysTrue s → Says py!"boolean" s .boolean (.bool false)
  | id {s : Str} {u : Uuid} : IdSays s u → Says py!"id" s .id (.xid u)
  | list (s : Str) : Says py!"list" s .list .none
  | container (s : Str) : Says py!"container" s .container .none

/-- The value of an XML attribute, or a default. -/
def xmlAttr (name default : Str) (as : List (Str × Str)) : Str := (as.lookup name).getD default

/-- Attributes by key: in the order of the first occurrence of each key, with the last attribute of that key. -/
def keyed : List (Attr F) → List (Str × Attr F)
  | [] => []
  | c :: cs => (c.key, ((cs.filter fun d => d.key = c.key).getLast?).getD c) :: (keyed cs).filter fun p => p.1 ≠ c.key

mutual
/-- What an attribute element says.  Nested elements are nested attributes; of lists and containers also the members. -/
inductive AttrSays (mgr : ExtMgr) : Xml → Attr F → Prop
  | mk {t : Str} {as : List (Str × Str)} {ks : List Xml} {k : Kind} {v : PyVal F} {cs : List (Attr F)} :
    Says (lower t) (xmlAttr py!"value" [] as) k v → AttrsSay mgr ks cs →
    AttrSays mgr (.elem t as ks) (.mk k (xmlAttr py!"key" py!"UNKNOWN" as) (extFor mgr (xmlAttr py!"key" py!"UNKNOWN" as)) v (keyed cs)
      (if k = .list ∨ k = .container then cs else []))
/-- The same for a list. -/
inductive AttrsSay (mgr : ExtMgr) : List Xml → List (Attr F) → Prop
  | nil : AttrsSay mgr [] []
  | cons {x : Xml} {xs : List Xml} {a : Attr F} {as : List (Attr F)} : AttrSays mgr x a → AttrsSay mgr xs as → AttrsSay mgr (x :: xs) (a :: as)
end

mutual
/-- What an attribute element inside `global` says: its nested elements first, each on its own, then it without them. -/
inductive GlobSays (mgr : ExtMgr) : Xml → List (Attr F) → Prop
  | mk {t : Str} {as : List (Str × Str)} {ks : List Xml} {k : Kind} {v : PyVal F} {cs : List (Attr F)} :
    Says (lower t) (xmlAttr py!"value" [] as) k v → GlobsSay mgr ks cs →
    GlobSays mgr (.elem t as ks) (cs ++ [.mk k (xmlAttr py!"key" py!"UNKNOWN" as) (extFor mgr (xmlAttr py!"key" py!"UNKNOWN" as)) v [] []])
/-- The same for a list. -/
inductive GlobsSay (mgr : ExtMgr) : List Xml → List (Attr F) → Prop
  | nil : GlobsSay mgr [] []
  | cons {x : Xml} {xs : List Xml} {as bs : List (Attr F)} : GlobSays mgr x as → GlobsSay mgr xs bs → GlobsSay mgr (x :: xs) (as ++ bs)
end

/-- Related one by one, in order. -/
inductive Each {α β : Type} (R : α → β → Prop) : List α → List β → Prop
  | nil : Each R [] []
  | cons {a : α} {b : β} {as : List α} {bs : List β} : R a b → Each R as bs → Each R (a :: as) (b :: bs)

/-- Name of an element in lower case. -/
def Xml.name : Xml → Str
  | .elem t _ _ => lower t

/-- Attributes of an element. -/
def Xml.atts : Xml → List (Str × Str)
  | .elem _ as _ => as

/-- Children of an element. -/
def Xml.inner : Xml → List Xml
  | .elem _ _ ks => ks

/-- The names of attribute elements. -/
def attrNames : List Str := [py!"string", py!"date", py!"int", py!"float", py!"boolean", py!"id", py!"list", py!"container"]

/-- What an event element says. -/
def EventSays (mgr : ExtMgr) (x : Xml) (m : List (Str × Attr F)) : Prop := ∃ cs, AttrsSay mgr x.inner cs ∧ m = keyed cs

/-- What a trace element says: its attributes and its events, in any mixture. -/
def TraceSays (mgr : ExtMgr) (x : Xml) (t : List (Str × Attr F) × List (List (Str × Attr F))) : Prop :=
  (∀ k ∈ x.inner, k.name ∈ attrNames ∨ k.name = py!"event") ∧
  (∃ cs, AttrsSay mgr (x.inner.filter fun k => k.name ∈ attrNames) cs ∧ t.1 = keyed cs) ∧
  Each (EventSays mgr) (x.inner.filter fun k => k.name = py!"event") t.2

/-- The extension that an extension element names: by its prefix, or else by its URI. -/
def ExtSays (mgr : ExtMgr) (x : Xml) (e : Option Ext) : Prop :=
  x.inner = [] ∧ match x.atts.lookup py!"prefix", x.atts.lookup py!"uri" with
    | some p, u => e = mgr.byPrefix p ∧ (u = none → e ≠ none)
    | none, some u => mgr.byUri u = .ok e
    | none, none => False

/-- The classifier of a classifier element with name and keys. -/
def classifierSays (x : Xml) : Option Classifier :=
  match xmlAttr py!"name" [] x.atts, xmlAttr py!"keys" [] x.atts with
  | [], _ => none
  | _, [] => none
  | name, keys => some ⟨name, extractTokens keys⟩

/-- A global element for this scope. -/
def Xml.isGlobal (scope : Str) (x : Xml) : Bool := x.name = py!"global" && (x.atts.lookup py!"scope").map lower = some scope

/-- What a document says: everything of one kind in its order, the kinds in any mixture. -/
structure DocSays (mgr : ExtMgr) (x : Xml) (c : Content F) : Prop where
  root : x.name = py!"log"
  known : ∀ k ∈ x.inner, k.name ∈ attrNames ∨ k.name ∈ [py!"trace", py!"extension", py!"classifier"] ∨ k.isGlobal py!"trace" = true ∨ k.isGlobal py!"event" = true
  plain : ∀ k ∈ x.inner, k.name = py!"classifier" → k.inner = []
  distinct : (x.atts.map Prod.fst).Nodup
  features : c.features = x.atts.filter fun p => py!"xes.".isPrefixOf p.1 || py!"openxes.".isPrefixOf p.1
  attrs : ∃ cs, AttrsSay mgr (x.inner.filter fun k => k.name ∈ attrNames) cs ∧ c.attrs = keyed cs
  traces : Each (TraceSays mgr) (x.inner.filter fun k => k.name = py!"trace") c.traces
  extensions : ∃ es, Each (ExtSays mgr) (x.inner.filter fun k => k.name = py!"extension") es ∧ c.extensions = distinctExts (es.filterMap id)
  classifiers : c.classifiers = (x.inner.filter fun k => k.name = py!"classifier").filterMap classifierSays
  globalTrace : GlobsSay mgr ((x.inner.filter (Xml.isGlobal py!"trace")).flatMap Xml.inner) c.globalTrace
  globalEvent : GlobsSay mgr ((x.inner.filter (Xml.isGlobal py!"event")).flatMap Xml.inner) c.globalEvent

end

/-! ## Attribute maps -/

section
variable {F : Type} [PyFloat F]

theorem lookup_eq_dget (k : Str) : ∀ as : List (Str × Str), as.lookup k = dget k as
  | [] => rfl
  | (a, v) :: as => by
    simp only [List.lookup, dget, lookup_eq_dget k as]
    by_cases h : a = k
    · subst h; simp
    · have : (k == a) = false := by simpa using fun e => h e.symm
      simp [this, h]

theorem dset_in_map {k : Str} {v : Attr F} {β : Type} (f : Str × Attr F → β) : ∀ {m : List (Str × Attr F)}, k ∈ dkeys m → (dkeys m).Nodup →
    (dset k v m).map f = m.map fun p => f (p.1, if p.1 = k then v else p.2)
  | [], h, _ => by simp [dkeys] at h
  | (k', v') :: m, h, hn => by
    simp only [dkeys, List.map_cons, List.nodup_cons] at hn
    by_cases hk : k' = k
    · subst hk
      simp only [dset, if_true, List.map_cons, List.cons.injEq, true_and]
      apply List.map_congr_left
      intro p hp
      have : p.1 ≠ k' := fun e => hn.1 (e ▸ List.mem_map_of_mem hp)
      simp [this]
    · have h' : k ∈ dkeys m := by
        simp only [dkeys, List.map_cons, List.mem_cons] at h
        exact h.resolve_left fun e => hk e.symm
      simp only [dset, hk, if_false, List.map_cons, dset_in_map f h' hn.2]

theorem foldl_dset_keyed : ∀ (cs : List (Attr F)) (m : List (Str × Attr F)), (dkeys m).Nodup →
    cs.foldl (fun m c => dset c.key c m) m =
      m.map (fun p => (p.1, ((cs.filter fun d => d.key = p.1).getLast?).getD p.2)) ++ (keyed cs).filter fun p => p.1 ∉ dkeys m
  | [], m, _ => by simp [keyed]
  | c :: cs, m, hm => by
    rw [List.foldl_cons]
    by_cases hc : c.key ∈ dkeys m
    · have hk : dkeys (dset c.key c m) = dkeys m := by
        have := dset_in_map (v := c) Prod.fst hc hm
        simpa [dkeys] using this
      rw [foldl_dset_keyed cs _ (by rw [hk]; exact hm), dset_in_map _ hc hm, hk]
      congr 1
      · apply List.map_congr_left
        intro p _
        by_cases hp : c.key = p.1
        · simp [hp, List.getLast?_cons]
        · have hp' : ¬ p.1 = c.key := fun e => hp e.symm
          simp [hp, hp']
      · simp only [keyed, List.filter_cons, hc, not_true, decide_false, Bool.false_eq_true, if_false, List.filter_filter]
        apply List.filter_congr
        intro p _
        by_cases hp : p.1 = c.key
        · simp [hp, hc]
        · simp [hp]
    · rw [dset_eq_append _ hc, foldl_dset_keyed cs _ (by
        simp only [dkeys, List.map_append, List.map_cons, List.map_nil]
        rw [List.nodup_append]
        refine ⟨hm, by simp, ?_⟩
        rintro a ha b hb rfl
        simp only [List.mem_singleton] at hb
        exact hc (hb ▸ ha))]
      simp only [List.map_append, List.map_cons, List.map_nil, List.append_assoc, List.singleton_append, keyed, List.filter_cons, hc, not_false_eq_true,
        decide_true, if_true, List.filter_filter]
      congr 1
      · apply List.map_congr_left
        intro p hp
        have : c.key ≠ p.1 := fun e => hc (e ▸ List.mem_map_of_mem hp)
        simp [this]
      · congr 1
        apply List.filter_congr
        intro p _
        have e : dkeys (m ++ [(c.key, c)]) = dkeys m ++ [c.key] := by simp [dkeys]
        rw [e]
        by_cases h1 : p.1 ∈ dkeys m <;> by_cases h2 : p.1 = c.key <;> simp [h1, h2]

theorem rekey_keyed (cs : List (Attr F)) : rekey cs = keyed cs := by
  have := foldl_dset_keyed cs [] (by simp [dkeys])
  rw [rekey, this]
  simp only [List.map_nil, List.nil_append, dkeys, List.not_mem_nil, not_false_eq_true, decide_true]
  exact List.filter_eq_self.2 fun _ _ => rfl


/-! ## Values and attributes -/

theorem toNat_ofNat_small {n : Nat} (h : n < 128) : (Char.ofNat n).toNat = n := by
  have hv : n.isValidChar := by left; omega
  simp only [Char.ofNat, hv, dif_pos]
  rfl

theorem lowerChar_eq {c d : Char} (hd : 97 ≤ d.toNat) (hd' : d.toNat ≤ 122) : lowerChar c = d ↔ c = d ∨ c = Char.ofNat (d.toNat - 32) := by
  have e1 : 'A'.toNat = 65 := rfl
  have e2 : 'Z'.toNat = 90 := rfl
  have h2 := toNat_ofNat_small (n := d.toNat - 32) (by omega)
  unfold lowerChar
  rw [e1, e2]
  split
  · rename_i h
    have h1 := toNat_ofNat_small (n := c.toNat + 32) (by omega)
    rw [← Char.toNat_inj, ← Char.toNat_inj, ← Char.toNat_inj, h1, h2]
    omega
  · rw [← Char.toNat_inj, ← Char.toNat_inj, h2]
    omega

theorem saysTrue_iff (s : Str) : saysTrue s ↔ lower s = py!"true" := by
  constructor
  · rintro ⟨a, b, c, d, rfl, rfl | rfl, rfl | rfl, rfl | rfl, rfl | rfl⟩ <;> decide
  · intro h
    have hl : s.length = 4 := by have := congrArg List.length h; simpa [lower] using this
    match s, hl, h with
    | [a, b, c, d], _, h =>
      simp only [lower, List.map_cons, List.map_nil, List.cons.injEq, and_true] at h
      obtain ⟨h1, h2, h3, h4⟩ := h
      have e1 := (lowerChar_eq (by decide) (by decide)).1 h1
      have e2 := (lowerChar_eq (by decide) (by decide)).1 h2
      have e3 := (lowerChar_eq (by decide) (by decide)).1 h3
      have e4 := (lowerChar_eq (by decide) (by decide)).1 h4
      exact ⟨a, b, c, d, rfl, e1, e2, e3, e4⟩

theorem says_readVal {t s : Str} {k : Kind} {v : PyVal F} (h : Says t s k v) : t ∈ attrTags ∧ readVal t s = .ok (some (k, v)) := by
  cases h with
  | string => exact ⟨by decide, by simp [readVal]⟩
  | date h => exact ⟨by decide, by simp [readVal, c124_exact.2 h]⟩
  | int h => exact ⟨by decide, by simp [readVal, pyInt_iff.2 h]⟩
  | float h => exact ⟨by decide, by simp [readVal, h]⟩
  | yes h => exact ⟨by decide, by simp [readVal, (saysTrue_iff s).1 h]⟩
  | no h => exact ⟨by decide, by simpa [readVal] using fun e => h ((saysTrue_iff s).2 e)⟩
  | id h => exact ⟨by decide, by simp [readVal, (c131_exact _ _).2 h]⟩
  | list => exact ⟨by decide, by simp [readVal]⟩
  | container => exact ⟨by decide, by simp [readVal]⟩

theorem xmlAttr_value (as : List (Str × Str)) : xmlAttr py!"value" [] as = elemValue as := by
  simp only [xmlAttr, elemValue, lookup_eq_dget]
  cases dget py!"value" as <;> rfl

theorem xmlAttr_key (as : List (Str × Str)) : xmlAttr py!"key" py!"UNKNOWN" as = elemKey as := by
  simp only [xmlAttr, elemKey, lookup_eq_dget]
  cases dget py!"key" as <;> rfl

mutual
theorem says_readAttr {mgr : ExtMgr} : ∀ {x : Xml} {a : Attr F}, AttrSays mgr x a → readAttr mgr x = .ok a
  | _, _, .mk (k := k) h1 h2 => by
    obtain ⟨e1, e2⟩ := says_readVal h1
    rw [xmlAttr_value] at e2
    simp only [readAttr, e1, if_true, e2, says_readAttrs h2, xmlAttr_key, extOfKey_eq, rekey_eq, rekey_keyed]
    cases k <;> simp [Kind.isCollection]
theorem says_readAttrs {mgr : ExtMgr} : ∀ {xs : List Xml} {as : List (Attr F)}, AttrsSay mgr xs as → readAttrs mgr xs = .ok as
  | _, _, .nil => rfl
  | _, _, .cons h1 h2 => by simp only [readAttrs, says_readAttr h1, says_readAttrs h2]
end

mutual
theorem says_readGlob {mgr : ExtMgr} : ∀ {x : Xml} {as : List (Attr F)}, GlobSays mgr x as → readGlob mgr x = .ok as
  | _, _, .mk h1 h2 => by
    obtain ⟨e1, e2⟩ := says_readVal h1
    rw [xmlAttr_value] at e2
    simp only [readGlob, e1, if_true, e2, says_readGlobs h2, xmlAttr_key, extOfKey_eq]
theorem says_readGlobs {mgr : ExtMgr} : ∀ {xs : List Xml} {as : List (Attr F)}, GlobsSay mgr xs as → readGlobs mgr xs = .ok as
  | _, _, .nil => rfl
  | _, _, .cons h1 h2 => by simp only [readGlobs, says_readGlob h1, says_readGlobs h2]
end

theorem readGlobs_append (mgr : ExtMgr) : ∀ (xs ys : List Xml) {bs : List (Attr F)}, readGlobs mgr (xs ++ ys) = .ok bs →
    ∃ b c, readGlobs mgr xs = .ok b ∧ readGlobs mgr ys = .ok c ∧ bs = b ++ c
  | [], ys, bs, h => ⟨[], bs, rfl, h, rfl⟩
  | x :: xs, ys, bs, h => by
    simp only [List.cons_append, readGlobs] at h ⊢
    split at h
    · cases h
    · rename_i a ha
      split at h
      · cases h
      · rename_i as has
        simp only [Except.ok.injEq] at h
        subst h
        obtain ⟨b, c, h1, h2, rfl⟩ := readGlobs_append mgr xs ys has
        exact ⟨a ++ b, c, by simp [h1], h2, by simp⟩

/-! ## Traces and documents -/

theorem says_readTrace {mgr : ExtMgr} : ∀ (ks : List Xml) {cs : List (Attr F)} {es : List (List (Str × Attr F))},
    (∀ k ∈ ks, k.name ∈ attrNames ∨ k.name = py!"event") → AttrsSay mgr (ks.filter fun k => k.name ∈ attrNames) cs →
    Each (EventSays mgr) (ks.filter fun k => k.name = py!"event") es → ∀ c, readTrace mgr ks c = .ok (intoMap c.1 cs, c.2 ++ es)
  | [], cs, es, _, h2, h3, c => by
    cases h2
    cases h3
    simp [readTrace, intoMap]
  | .elem t as ks :: xs, cs, es, h1, h2, h3, c => by
    have h1' : ∀ k ∈ xs, k.name ∈ attrNames ∨ k.name = py!"event" := fun k hk => h1 k (by simp [hk])
    by_cases ht : lower t = py!"event"
    · have hn : (Xml.elem t as ks).name = py!"event" := ht
      have hna : ¬ (Xml.elem t as ks).name ∈ attrNames := by rw [hn]; decide
      rw [List.filter_cons_of_neg (by simpa using hna)] at h2
      rw [List.filter_cons_of_pos (by simpa using hn)] at h3
      cases h3 with
      | cons hm h3 =>
        obtain ⟨cs', q1, rfl⟩ := hm
        simp only [Xml.inner] at q1
        simp only [readTrace, ht, if_true, says_readAttrs q1, bind, Except.bind, says_readTrace xs h1' h2 h3, rekey_eq, rekey_keyed, List.append_assoc,
          List.singleton_append]
    · have hn : ¬ (Xml.elem t as ks).name = py!"event" := ht
      have hna : (Xml.elem t as ks).name ∈ attrNames := (h1 _ (by simp)).resolve_right hn
      simp only [List.filter_cons, hna, hn, decide_false, decide_true, Bool.false_eq_true, if_true, if_false] at h2 h3
      cases h2 with
      | cons ha h2 =>
        simp only [readTrace, ht, if_false, says_readAttr ha, bind, Except.bind, says_readTrace xs h1' h2 h3, intoMap, List.foldl_cons]

theorem says_readExt {mgr : ExtMgr} {t : Str} {as : List (Str × Str)} {ks : List Xml} {e : Option Ext} (h : ExtSays mgr (.elem t as ks) e) :
    ks = [] ∧ readExt mgr as = .ok e := by
  obtain ⟨h1, h2⟩ := h
  refine ⟨h1, ?_⟩
  simp only [Xml.atts, lookup_eq_dget] at h2
  unfold readExt
  cases hp : dget py!"prefix" as <;> cases hu : dget py!"uri" as <;> simp only [hp, hu] at h2 ⊢
  · exact h2
  · obtain ⟨rfl, h3⟩ := h2
    cases hb : mgr.byPrefix _ with
    | none => exact absurd hb (h3 trivial)
    | some e => rfl
  · rw [h2.1]

theorem says_readClassifier (x : Xml) : readClassifier x.atts = classifierSays x := by
  simp only [readClassifier, classifierSays, xmlAttr, lookup_eq_dget]
  cases dget py!"name" x.atts with
  | none => rfl
  | some n =>
    cases dget py!"keys" x.atts with
    | none => cases n <;> rfl
    | some k => cases n <;> cases k <;> simp

theorem says_readLog {mgr : ExtMgr} : ∀ (ks : List Xml) {cs : List (Attr F)} {ts : List (List (Str × Attr F) × List (List (Str × Attr F)))}
    {es : List (Option Ext)} {gt ge : List (Attr F)},
    (∀ k ∈ ks, k.name ∈ attrNames ∨ k.name ∈ [py!"trace", py!"extension", py!"classifier"] ∨ k.isGlobal py!"trace" = true ∨ k.isGlobal py!"event" = true) →
    (∀ k ∈ ks, k.name = py!"classifier" → k.inner = []) →
    AttrsSay mgr (ks.filter fun k => k.name ∈ attrNames) cs → Each (TraceSays mgr) (ks.filter fun k => k.name = py!"trace") ts →
    Each (ExtSays mgr) (ks.filter fun k => k.name = py!"extension") es →
    readGlobs mgr ((ks.filter (Xml.isGlobal py!"trace")).flatMap Xml.inner) = .ok gt →
    readGlobs mgr ((ks.filter (Xml.isGlobal py!"event")).flatMap Xml.inner) = .ok ge →
    ∀ c : Content F, readLog mgr ks c = .ok { c with
      attrs := intoMap c.attrs cs
      traces := c.traces ++ ts
      extensions := (es.filterMap id).foldl (fun l e => extAdd e l) c.extensions
      classifiers := c.classifiers ++ (ks.filter fun k => k.name = py!"classifier").filterMap classifierSays
      globalTrace := c.globalTrace ++ gt
      globalEvent := c.globalEvent ++ ge }
  | [], cs, ts, es, gt, ge, _, _, h1, h2, h3, h4, h5, c => by
    cases h1; cases h2; cases h3
    simp only [List.filter_nil, List.flatMap_nil, readGlobs, Except.ok.injEq] at h4 h5
    subst h4 h5
    simp [readLog, intoMap]
  | .elem t as ks :: xs, cs, ts, es, gt, ge, hk, hp, h1, h2, h3, h4, h5, c => by
    have hk' := fun k (h : k ∈ xs) => hk k (by simp [h])
    have hp' := fun k (h : k ∈ xs) => hp k (by simp [h])
    have ih := @says_readLog mgr xs
    have hname : (Xml.elem t as ks).name = lower t := rfl
    have d1 : ¬ py!"extension" = py!"trace" := by decide
    have d2 : ¬ py!"classifier" = py!"trace" := by decide
    have d3 : ¬ py!"classifier" = py!"extension" := by decide
    have d4 : ¬ py!"global" = py!"trace" := by decide
    have d5 : ¬ py!"global" = py!"extension" := by decide
    have d6 : ¬ py!"global" = py!"classifier" := by decide
    have d7 : ¬ py!"event" = py!"trace" := by decide
    rcases hk _ (List.mem_cons_self ..) with hn | hn | hn | hn
    · -- an attribute
      have n1 : ¬ (Xml.elem t as ks).name = py!"trace" := by intro e; rw [e] at hn; revert hn; decide
      have n2 : ¬ (Xml.elem t as ks).name = py!"extension" := by intro e; rw [e] at hn; revert hn; decide
      have n3 : ¬ (Xml.elem t as ks).name = py!"classifier" := by intro e; rw [e] at hn; revert hn; decide
      have n4 : ¬ (Xml.elem t as ks).name = py!"global" := by intro e; rw [e] at hn; revert hn; decide
      have g : ∀ sc, (Xml.elem t as ks).isGlobal sc = false := fun sc => by simp [Xml.isGlobal, n4]
      simp only [List.filter_cons, hn, n1, n2, n3, g, decide_false, decide_true, Bool.false_eq_true, if_true, if_false] at h1 h2 h3 h4 h5 ⊢
      rw [hname] at n1 n2 n3 n4
      cases h1 with
      | cons ha h1 =>
        simp only [readLog, n1, n2, n3, n4, if_false, says_readAttr ha, bind, Except.bind, ih hk' hp' h1 h2 h3 h4 h5, intoMap, List.foldl_cons]
    · have n0 : ¬ (Xml.elem t as ks).name ∈ attrNames := by intro h; revert hn; revert h; generalize (Xml.elem t as ks).name = n; revert n; decide
      have n4 : ¬ (Xml.elem t as ks).name = py!"global" := by intro e; rw [e] at hn; revert hn; decide
      have g : ∀ sc, (Xml.elem t as ks).isGlobal sc = false := fun sc => by simp [Xml.isGlobal, n4]
      simp only [List.mem_cons, List.not_mem_nil, or_false] at hn
      rw [List.filter_cons_of_neg (by simpa using n0)] at h1
      rw [List.filter_cons_of_neg (by simp [g])] at h4 h5
      rcases hn with hn | hn | hn
      · -- a trace
        have n2 : ¬ (Xml.elem t as ks).name = py!"extension" := by rw [hn]; decide
        have n3 : ¬ (Xml.elem t as ks).name = py!"classifier" := by rw [hn]; decide
        rw [List.filter_cons_of_pos (by simpa using hn)] at h2
        rw [List.filter_cons_of_neg (by simpa using n2)] at h3
        rw [List.filter_cons_of_neg (by simpa using n3)]
        rw [hname] at hn
        cases h2 with
        | cons ht h2 =>
          obtain ⟨q1, ⟨cs', q2, q3⟩, q4⟩ := ht
          simp only [readLog, hn, if_true, says_readTrace ks q1 q2 q4, bind, Except.bind, ih hk' hp' h1 h2 h3 h4 h5, rekey_eq, rekey_keyed, ← q3,
            List.nil_append, List.append_assoc, List.singleton_append]
      · -- an extension
        have n1 : ¬ (Xml.elem t as ks).name = py!"trace" := by rw [hn]; decide
        have n3 : ¬ (Xml.elem t as ks).name = py!"classifier" := by rw [hn]; decide
        rw [List.filter_cons_of_neg (by simpa using n1)] at h2
        rw [List.filter_cons_of_pos (by simpa using hn)] at h3
        rw [List.filter_cons_of_neg (by simpa using n3)]
        rw [hname] at hn
        cases h3 with
        | @cons _ e _ _ he h3 =>
          obtain ⟨rfl, q2⟩ := says_readExt he
          cases e with
          | none => simp only [readLog, hn, d1, if_true, if_false, q2, bind, Except.bind, ih hk' hp' h1 h2 h3 h4 h5, List.filterMap_cons, id]
          | some e => simp only [readLog, hn, d1, if_true, if_false, q2, bind, Except.bind, ih hk' hp' h1 h2 h3 h4 h5, List.filterMap_cons, id, List.foldl_cons]
      · -- a classifier
        have n1 : ¬ (Xml.elem t as ks).name = py!"trace" := by rw [hn]; decide
        have n2 : ¬ (Xml.elem t as ks).name = py!"extension" := by rw [hn]; decide
        obtain rfl : ks = [] := hp _ (List.mem_cons_self ..) hn
        rw [List.filter_cons_of_neg (by simpa using n1)] at h2
        rw [List.filter_cons_of_neg (by simpa using n2)] at h3
        rw [List.filter_cons_of_pos (by simpa using hn)]
        have hc := says_readClassifier (Xml.elem t as [])
        simp only [Xml.atts] at hc
        rw [hname] at hn
        rw [List.filterMap_cons, ← hc]
        cases hr : readClassifier as with
        | none => simp only [readLog, hn, d2, d3, if_true, if_false, hr, ih hk' hp' h1 h2 h3 h4 h5]
        | some k => simp only [readLog, hn, d2, d3, if_true, if_false, hr, ih hk' hp' h1 h2 h3 h4 h5, List.append_assoc, List.singleton_append]
    all_goals
      simp only [Xml.isGlobal, Bool.and_eq_true, decide_eq_true_eq, Xml.atts, lookup_eq_dget] at hn
      obtain ⟨hn, hs⟩ := hn
      have n0 : ¬ (Xml.elem t as ks).name ∈ attrNames := by rw [hn]; decide
      have n1 : ¬ (Xml.elem t as ks).name = py!"trace" := by rw [hn]; decide
      have n2 : ¬ (Xml.elem t as ks).name = py!"extension" := by rw [hn]; decide
      have n3 : ¬ (Xml.elem t as ks).name = py!"classifier" := by rw [hn]; decide
      rw [List.filter_cons_of_neg (by simpa using n0)] at h1
      rw [List.filter_cons_of_neg (by simpa using n1)] at h2
      rw [List.filter_cons_of_neg (by simpa using n2)] at h3
      rw [List.filter_cons_of_neg (by simpa using n3)]
      obtain ⟨sc, hd⟩ : ∃ sc, dget py!"scope" as = some sc := by
        cases hd : dget py!"scope" as with
        | none => simp [hd] at hs
        | some sc => exact ⟨sc, rfl⟩
      simp only [hd, Option.map_some, Option.some.injEq] at hs
    · rw [List.filter_cons_of_pos (by simp [Xml.isGlobal, hn, Xml.atts, lookup_eq_dget, hd, hs]), List.flatMap_cons] at h4
      rw [List.filter_cons_of_neg (by simp [Xml.isGlobal, hn, Xml.atts, lookup_eq_dget, hd, hs])] at h5
      obtain ⟨b, b', q1, q2, rfl⟩ := readGlobs_append mgr _ _ h4
      simp only [Xml.inner] at q1
      rw [hname] at hn
      simp only [readLog, hn, d4, d5, d6, hd, hs, if_true, if_false, q1, bind, Except.bind, ih hk' hp' h1 h2 h3 q2 h5, List.append_assoc]
    · rw [List.filter_cons_of_neg (by simp [Xml.isGlobal, hn, Xml.atts, lookup_eq_dget, hd, hs])] at h4
      rw [List.filter_cons_of_pos (by simp [Xml.isGlobal, hn, Xml.atts, lookup_eq_dget, hd, hs]), List.flatMap_cons] at h5
      obtain ⟨b, b', q1, q2, rfl⟩ := readGlobs_append mgr _ _ h5
      simp only [Xml.inner] at q1
      rw [hname] at hn
      simp only [readLog, hn, d4, d5, d6, hd, hs, d7, if_true, if_false, q1, bind, Except.bind, ih hk' hp' h1 h2 h3 h4 q2, List.append_assoc]

/-- A document that says something is read as that. -/
theorem says_readDoc {mgr : ExtMgr} {x : Xml} {c : Content F} (h : DocSays mgr x c) : readDoc mgr x = .ok c := by
  obtain ⟨t, as, ks⟩ := x
  obtain ⟨h1, h2, h3, h4, h5, ⟨cs, h6, h7⟩, h8, ⟨es, h9, h10⟩, h11, h12, h13⟩ := h
  have hf : readFeatures as = c.features := by
    rw [h5, readFeatures, foldl_dset_nodup]
    · rfl
    · simp only [dkeys, List.map_nil, List.nil_append]
      exact h4.sublist (List.filter_sublist.map _)
  have h0 : lower t = py!"log" := h1
  have e := says_readLog ks h2 h3 h6 h8 h9 (says_readGlobs h12) (says_readGlobs h13) ⟨[], [], [], [], [], readFeatures as, []⟩
  simp only [readDoc, h0, if_true]
  rw [e]
  obtain ⟨c1, c2, c3, c4, c5, c6, c7⟩ := c
  simp only at h7 h10 h11 hf
  simp only [Except.ok.injEq, Content.mk.injEq, List.nil_append, rekey_eq, rekey_keyed, hf, h7, h10, h11, true_and, and_true, foldl_extAdd, List.map_nil,
    List.not_mem_nil, not_false_eq_true, decide_true]
  exact ⟨List.filter_eq_self.2 fun _ _ => rfl, rfl⟩

theorem readVal_says {t s : Str} {k : Kind} {v : PyVal F} (ht : t ∈ attrTags) (h : readVal t s = .ok (some (k, v))) : Says t s k v := by
  simp only [attrTags, List.mem_cons, List.not_mem_nil, or_false] at ht
  rcases ht with rfl | rfl | rfl | rfl | rfl | rfl | rfl | rfl
  · simp [readVal] at h
    obtain ⟨rfl, rfl⟩ := h
    exact .string s
  · simp [readVal] at h
    split at h
    · cases h
    · cases h
    · rename_i d hd
      simp only [Except.ok.injEq, Option.some.injEq, Prod.mk.injEq] at h
      obtain ⟨rfl, rfl⟩ := h
      exact .date (c124_exact.1 hd)
  · simp [readVal] at h
    split at h
    · rename_i z hz
      simp only [Except.ok.injEq, Option.some.injEq, Prod.mk.injEq] at h
      obtain ⟨rfl, rfl⟩ := h
      exact .int (pyInt_iff.1 hz)
    · cases h
  · simp [readVal] at h
    split at h
    · rename_i z hz
      simp only [Except.ok.injEq, Option.some.injEq, Prod.mk.injEq] at h
      obtain ⟨rfl, rfl⟩ := h
      exact .float hz
    · cases h
  · simp [readVal] at h
    obtain ⟨rfl, rfl⟩ := h
    by_cases hs : saysTrue s
    · have := (saysTrue_iff s).1 hs
      simp only [this, decide_true]
      exact .yes hs
    · have : ¬ lower s = ['t', 'r', 'u', 'e'] := fun e => hs ((saysTrue_iff s).2 e)
      simp only [this, decide_false]
      exact .no hs
  · simp [readVal] at h
    split at h
    · rename_i z hz
      simp only [Except.ok.injEq, Option.some.injEq, Prod.mk.injEq] at h
      obtain ⟨rfl, rfl⟩ := h
      exact .id ((c131_exact _ _).1 hz)
    · cases h
  · simp [readVal] at h
    obtain ⟨rfl, rfl⟩ := h
    exact .list s
  · simp [readVal] at h
    obtain ⟨rfl, rfl⟩ := h
    exact .container s

/-! ## C115: reading documents -/

/-- C115: a document is loaded as the log it says, as fresh objects. -/
theorem c115_document (rnd : Nat → Uuid) (mgr : ExtMgr) {x : Xml} {c : Content F} (hx : DocSays mgr x c) (given : Option (Factory F)) (h : Heap F) :
    ∃ l h', xesParse given (stdFactory F rnd) mgr h x.sax = .ok (some l, h') ∧ DenLog h' h.size h'.size c l ∧ Keeps h.size h h' :=
  doc_parse rnd mgr (says_readDoc hx) given h

/-- ... on the text of a file, whatever the white space, comments and text between its elements. -/
theorem c115_text (rnd : Nat → Uuid) (mgr : ExtMgr) {text : Str} {es : List MSax} {x : Xml} {c : Content F} (ht : readXml text = .ok es)
    (he : xesEvents es = x.sax) (hx : DocSays mgr x c) (given : Option (Factory F)) (h : Heap F) :
    ∃ l h', loadXes given (stdFactory F rnd) mgr h text = .ok (some l, h') ∧ DenLog h' h.size h'.size c l ∧ Keeps h.size h h' := by
  obtain ⟨l, h', h1, h2⟩ := c115_document rnd mgr hx given h
  exact ⟨l, h', by simp only [loadXes, ht, he, bind, Except.bind, h1], h2⟩

/-- ... and a document says one thing only. -/
theorem c115_unique {mgr : ExtMgr} {x : Xml} {c c' : Content F} (h1 : DocSays mgr x c) (h2 : DocSays mgr x c') : c = c' := by
  have := says_readDoc h1
  rw [says_readDoc h2] at this
  exact (Except.ok.inj this).symm

/-- ... and a file with an attribute whose text says no value (`int`, `float`, `id`; for dates see C44) is not loaded, wherever it stands. -/
theorem c115_bad_value (given : Option (Factory F)) (reg : Factory F) (mgr : ExtMgr) (h : Heap F) {xs ys : List Sax} {t : Str} {as : List (Str × Str)}
    (ht : lower t ∈ attrNames) (hd : lower t ≠ py!"date") (hv : ∀ k (v : PyVal F), ¬ Says (lower t) (xmlAttr py!"value" [] as) k v) :
    ∃ e, xesParse given reg mgr h (xs ++ .start t as :: ys) = .error e := by
  cases hp : xesParse given reg mgr h (xs ++ .start t as :: ys) with
  | error e => exact ⟨e, rfl⟩
  | ok r =>
    exfalso
    obtain ⟨st, hst, _⟩ := bind_ok.1 hp
    rw [xesRun_append] at hst
    obtain ⟨s1, _, hst⟩ := bind_ok.1 hst
    obtain ⟨s2, h2, _⟩ := bind_ok.1 hst
    simp only [xesStep] at h2
    rw [xesStart_attr reg mgr s1 ht] at h2
    obtain ⟨o, h3, _⟩ := bind_ok.1 h2
    cases o with
    | none => exact hd (readVal_none.1 h3).1
    | some kv =>
      refine hv kv.1 kv.2 ?_
      rw [xmlAttr_value]
      exact readVal_says ht h3

/-! ## C116: global attributes for other scopes -/

/-- Only start and end of a `global` element change where attributes go. -/
theorem step_globals {fac : Factory F} {mgr : ExtMgr} {st st' : XesSt F} {e : Sax} (he : lower e.tag ≠ py!"global") (h : xesStep fac mgr st e = .ok st') :
    st'.globals = st.globals := by
  cases e with
  | start t as =>
    simp only [Sax.tag] at he
    simp only [xesStep] at h
    by_cases ht : lower t ∈ attrTags
    · rw [xesStart_attr fac mgr st ht] at h
      obtain ⟨o, _, h⟩ := bind_ok.1 h
      cases o <;> (simp only [Except.ok.injEq] at h; subst h; rfl)
    · simp only [xesStart, ht, not_false_eq_true, if_true, he, if_false] at h
      split at h
      · simp only [Except.ok.injEq] at h; subst h; rfl
      · split at h
        · simp only [Except.ok.injEq] at h; subst h; rfl
        · split at h
          · obtain ⟨_, _, h⟩ := bind_ok.1 h
            simp only [Except.ok.injEq] at h; subst h; rfl
          · split at h
            · split at h <;>
              · obtain ⟨o, _, h⟩ := bind_ok.1 h
                split at h
                · obtain ⟨_, _, h⟩ := bind_ok.1 h
                  simp only [Except.ok.injEq] at h; subst h; rfl
                · simp only [Except.ok.injEq] at h; subst h; rfl
                · cases h
            · split at h
              · split at h
                · split at h
                  · obtain ⟨_, _, h⟩ := bind_ok.1 h
                    simp only [Except.ok.injEq] at h; subst h; rfl
                  · simp only [Except.ok.injEq] at h; subst h; rfl
                · simp only [Except.ok.injEq] at h; subst h; rfl
              · simp only [Except.ok.injEq] at h; subst h; rfl
  | stop t =>
    simp only [Sax.tag] at he
    simp only [xesStep, xesStop, he, if_false] at h
    repeat' split at h
    all_goals first
      | (cases h <;> rfl)
      | (obtain ⟨_, _, h⟩ := bind_ok.1 h
         first
           | (simp only [Except.ok.injEq] at h; subst h; rfl)
           | (split at h
              · cases h
              · simp only [Except.ok.injEq] at h; subst h; rfl)
           | (cases h <;> rfl)
           | (obtain ⟨_, _, h⟩ := bind_ok.1 h
              obtain ⟨_, _, h⟩ := bind_ok.1 h
              simp only [Except.ok.injEq] at h; subst h; rfl))

theorem run_globals {fac : Factory F} {mgr : ExtMgr} : ∀ {evs : List Sax} {st st' : XesSt F}, (∀ e ∈ evs, lower e.tag ≠ py!"global") →
    xesRun fac mgr st evs = .ok st' → st'.globals = st.globals
  | [], st, st', _, h => by
    simp only [xesRun, Except.ok.injEq] at h
    rw [h]
  | e :: evs, st, st', he, h => by
    obtain ⟨s1, h1, h2⟩ := bind_ok.1 h
    rw [run_globals (fun e h => he e (by simp [h])) h2, step_globals (he e (by simp)) h1]

/-- C116, what holds: a `global` element for another scope is loaded as if its content stood in its place.  Missing: that its content is
ignored or kept apart (false, see `c116_refuted`). -/
theorem c116_partial (given : Option (Factory F)) (reg : Factory F) (mgr : ExtMgr) (h : Heap F) {xs ys zs : List Sax} {g g' sc : Str} {as : List (Str × Str)}
    (hg : lower g = py!"global") (hg' : lower g' = py!"global") (hsc : as.lookup py!"scope" = some sc) (h1 : lower sc ≠ py!"trace") (h2 : lower sc ≠ py!"event")
    (hx : ∀ e ∈ xs, lower e.tag ≠ py!"global") (hy : ∀ e ∈ ys, lower e.tag ≠ py!"global") :
    xesParse given reg mgr h (xs ++ .start g as :: (ys ++ .stop g' :: zs)) = xesParse given reg mgr h (xs ++ (ys ++ zs)) := by
  unfold xesParse
  simp only
  congr 1
  rw [xesRun_append, xesRun_append]
  cases e1 : xesRun reg mgr (.init h) xs with
  | error e => rfl
  | ok s1 =>
    have g1 : s1.globals = none := run_globals hx e1
    have s2 : xesStep reg mgr s1 (.start g as) = .ok s1 := by
      have hna : py!"global" ∉ attrTags := by decide
      rw [lookup_eq_dget] at hsc
      simp only [xesStep, xesStart, hg, hna, not_false_eq_true, if_true, hsc, h1, h2, if_false, show py!"global" ≠ py!"event" by decide,
        show py!"global" ≠ py!"trace" by decide, show py!"global" ≠ py!"log" by decide, show py!"global" ≠ py!"extension" by decide]
    simp only [bind, Except.bind, xesRun, s2]
    rw [xesRun_append, xesRun_append]
    cases e2 : xesRun reg mgr s1 ys with
    | error e => rfl
    | ok s3 =>
      have g3 : s3.globals = none := (run_globals hy e2).trans g1
      simp only [bind, Except.bind, xesRun, xesStep, xesStop, hg', if_true]
      congr 1
      cases s3
      simp only at g3
      subst g3
      rfl

end

/-- The keys of the attributes of the loaded log. -/
def loadedKeys {F : Type} (r : Except PyErr (Option Ref × Heap F)) : Option (List Str) :=
  match r with
  | .ok (some l, h) => match h.get l with
    | some (.log o) => match h.get o.map with
      | some (.map d) => some (dkeys d)
      | _ => none
    | _ => none
  | _ => none

/-- C116, refuted: the attribute in a `global` element for the scope `log` becomes an attribute of the log. -/
theorem c116_refuted : loadedKeys (xesParse (F := ToyFloat) none (stdFactory ToyFloat fun _ => 0) noExts ⟨[], 0⟩
    (Xml.elem py!"log" [] [.elem py!"global" [(py!"scope", py!"log")] [.elem py!"string" [(py!"key", py!"a"), (py!"value", py!"b")] []]]).sax) = some [py!"a"] ∧
    loadedKeys (xesParse (F := ToyFloat) none (stdFactory ToyFloat fun _ => 0) noExts ⟨[], 0⟩ (Xml.elem py!"log" [] []).sax) = some [] := by
  decide +kernel

/-! ## Examples -/

/-- A document of another tool: capital letters, the trace before the attributes, two attributes with one key. -/
def strangeDoc : Xml := .elem py!"Log" [(py!"xmlns", py!"http"), (py!"xes.version", py!"2.0")]
  [.elem py!"trace" [] [.elem py!"EVENT" [] [.elem py!"boolean" [(py!"value", py!"True"), (py!"key", py!"b")] []], .elem py!"int" [(py!"key", py!"n"), (py!"value", py!"07")] []],
   .elem py!"string" [(py!"key", py!"a"), (py!"value", py!"x")] [],
   .elem py!"classifier" [(py!"name", py!"c"), (py!"keys", py!"k")] [],
   .elem py!"global" [(py!"scope", py!"Trace")] [.elem py!"string" [] []],
   .elem py!"string" [(py!"key", py!"a"), (py!"value", py!"y")] []]

/-- What it says. -/
def strangeContent : Content ToyFloat where
  attrs := [(py!"a", .mk .literal py!"a" none (.str py!"y") [] [])]
  extensions := []
  classifiers := [⟨py!"c", [py!"k"]⟩]
  globalTrace := [.mk .literal py!"UNKNOWN" none (.str []) [] []]
  globalEvent := []
  features := [(py!"xes.version", py!"2.0")]
  traces := [([(py!"n", .mk .discrete py!"n" none (.int 7) [] [])], [[(py!"b", .mk .boolean py!"b" none (.bool true) [] [])]])]

theorem strangeDoc_says : DocSays noExts strangeDoc strangeContent where
  root := by decide
  known := by decide
  plain := by decide
  distinct := by decide
  features := by decide
  attrs := ⟨[.mk .literal py!"a" none (.str py!"x") [] [], .mk .literal py!"a" none (.str py!"y") [] []],
    .cons (.mk (cs := []) (.string _) .nil) (.cons (.mk (cs := []) (.string _) .nil) .nil), rfl⟩
  traces := .cons ⟨by decide, ⟨[.mk .discrete py!"n" none (.int 7) [] []], .cons (.mk (cs := []) (.int (pyInt_iff.1 (by decide))) .nil) .nil, rfl⟩,
    .cons ⟨[.mk .boolean py!"b" none (.bool true) [] []], .cons (.mk (cs := []) (.yes ⟨_, _, _, _, rfl, by decide⟩) .nil) .nil, rfl⟩ .nil⟩ .nil
  extensions := ⟨[], .nil, rfl⟩
  classifiers := by decide
  globalTrace := .cons (as := [_]) (.mk (cs := []) (.string _) .nil) .nil
  globalEvent := .nil

/-- C115 applies to it. -/
example (rnd : Nat → Uuid) : ∃ l h', xesParse none (stdFactory ToyFloat rnd) noExts ⟨[], 0⟩ strangeDoc.sax = .ok (some l, h') ∧
    DenLog h' 0 h'.size strangeContent l := by
  obtain ⟨l, h', h1, h2, _⟩ := c115_document rnd noExts strangeDoc_says none ⟨[], 0⟩
  exact ⟨l, h', h1, h2⟩

deriving instance DecidableEq for Sax

/-- The same from text with comments and text between the elements. -/
example (rnd : Nat → Uuid) : ∃ l h', loadXes none (stdFactory ToyFloat rnd) noExts ⟨[], 0⟩
    py!"<Log xmlns='http' xes.version='2.0'><!-- x --><trace><EVENT><boolean value='True' key='b'/></EVENT><int key='n' value='&#48;7'/></trace> some text <string key='a' value='x'/><classifier name='c' keys='k'></classifier><global scope='Trace'><string/></global><string key = 'a' value = 'y' ></string ></Log>" =
      .ok (some l, h') ∧ DenLog h' 0 h'.size strangeContent l := by
  have h : (match readXml py!"<Log xmlns='http' xes.version='2.0'><!-- x --><trace><EVENT><boolean value='True' key='b'/></EVENT><int key='n' value='&#48;7'/></trace> some text <string key='a' value='x'/><classifier name='c' keys='k'></classifier><global scope='Trace'><string/></global><string key = 'a' value = 'y' ></string ></Log>" with
      | .ok es => decide (xesEvents es = strangeDoc.sax)
      | .error _ => false) = true := by decide +kernel
  split at h
  case h_2 => exact nomatch h
  rename_i es h1
  have h2 := of_decide_eq_true h
  obtain ⟨l, h', h3, h4, _⟩ := c115_text rnd noExts h1 h2 strangeDoc_says none ⟨[], 0⟩
  exact ⟨l, h', h3, h4⟩

/-- A number with a letter. -/
example (h : Heap ToyFloat) (reg : Factory ToyFloat) : ∃ e, xesParse none reg noExts h
    (Xml.elem py!"log" [] [.elem py!"int" [(py!"key", py!"n"), (py!"value", py!"7x")] []]).sax = .error e := by
  refine c115_bad_value none reg noExts h (xs := [.start py!"log" []]) (t := py!"int") (ys := [.stop py!"int", .stop py!"log"]) (by decide) (by decide) ?_
  intro k v hs
  have e : lower py!"int" = py!"int" := by decide
  rw [e] at hs
  cases hs with
  | int hz =>
    have e2 : pyInt (xmlAttr py!"value" [] [(py!"key", py!"n"), (py!"value", py!"7x")]) = none := by decide
    rw [pyInt_iff.2 hz] at e2
    cases e2

end Opy
