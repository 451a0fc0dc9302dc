import Verif.Props.XesMeaning
import Verif.Props.ExtMgr
import Verif.Props.ExtParse
/-
Property C128: a document that is read again after one of its extensions was registered.
-/
set_option linter.unusedSectionVars false
namespace Opy

section
variable {F : Type} [PyFloat F]

/-! ## Specification -/

/-- The key belongs to the extension: it is the prefix of the extension, a colon, and something. -/
def OwnKey (e : Ext) (key : Str) : Prop := ∃ rest, key = e.pfx ++ ':' :: rest

open Classical in
mutual
/-- The attribute, to any depth, with the extension given to all attributes whose keys belong to it; nothing else changes. -/
noncomputable def adopt (e : Ext) : Attr F → Attr F
  | .mk k key x v m c => .mk k key (if OwnKey e key then some e else x) v (adoptMap e m) (adoptList e c)
/-- The same for a map of attributes. -/
noncomputable def adoptMap (e : Ext) : List (Str × Attr F) → List (Str × Attr F)
  | [] => []
  | (k, a) :: m => (k, adopt e a) :: adoptMap e m
/-- The same for a list of attributes. -/
noncomputable def adoptList (e : Ext) : List (Attr F) → List (Attr F)
  | [] => []
  | a :: l => adopt e a :: adoptList e l
end

/-- Nothing registered so far could be taken for the extension, and its prefix can be the prefix of a key. -/
def IsNew (h : List Ext) (e : Ext) : Prop := (∀ x ∈ h, x.uri ≠ e.uri ∧ x.pfx ≠ e.pfx) ∧ ':' ∉ e.pfx

/-- The element names the extension: by its prefix or, if it gives no prefix, by its URI. -/
def NamesExt (urlParse : Str → Except PyErr Str) (e : Ext) (x : Xml) : Prop :=
  x.name = py!"extension" ∧ (x.atts.lookup py!"prefix" = some e.pfx ∨
    x.atts.lookup py!"prefix" = none ∧ ∃ u, x.atts.lookup py!"uri" = some u ∧ urlParse u = .ok e.uri)

/-! ## The manager -/

theorem find?_append_new {l : List Ext} {e : Ext} (p : Ext → Bool) (h : ∀ x ∈ l, p x = true → p e = false) :
    (l ++ [e]).find? p = if p e then some e else l.find? p := by
  rw [List.find?_append]
  cases hp : p e with
  | true =>
    rw [List.find?_eq_none.2 fun x hx hpx => by rw [h x hx hpx] at hp; cases hp]
    simp [hp]
  | false => cases l.find? p <;> simp [hp]

theorem byPrefix_new {h : List Ext} {e : Ext} (hn : IsNew h e) (p : Str) :
    (Mgr.run (h ++ [e])).getByPrefix p = if p = e.pfx then some e else (Mgr.run h).getByPrefix p := by
  have hsub := (run_list h).1.subset
  have hany : (Mgr.run h).list.any (extEq e) = false := by
    rw [List.any_eq_false]
    intro x hx hu
    exact (hn.1 x (hsub hx)).1 (by simpa [extEq] using (eq_comm.1 (by simpa [extEq] using hu)))
  have hl : (Mgr.run (h ++ [e])).list = (Mgr.run h).list ++ [e] := by
    rw [Mgr.run_snoc]
    simp only [Mgr.register, hany]
    rfl
  simp only [Mgr.getByPrefix, hl]
  rw [find?_append_new]
  · by_cases h : p = e.pfx
    · simp [h]
    · have h' : ¬ e.pfx = p := fun q => h q.symm
      simp [h, h']
  · intro x hx hp
    have := (hn.1 x (hsub hx)).2
    simp only [beq_iff_eq] at hp
    subst hp
    simpa using fun he => this he.symm

theorem byUri_new {h : List Ext} {e : Ext} (u : Str) :
    (Mgr.run (h ++ [e])).getByUri u = if u = e.uri then some e else (Mgr.run h).getByUri u := by
  rw [Mgr.run_snoc]
  simp only [Mgr.getByUri, Mgr.register, dget_dset]

theorem extFor_new {h : List Ext} {e : Ext} (hn : IsNew h e) (urlParse : Str → Except PyErr Str) (key : Str) [Decidable (OwnKey e key)] :
    extFor ((Mgr.run (h ++ [e])).view urlParse) key = if OwnKey e key then some e else extFor ((Mgr.run h).view urlParse) key := by
  have hown : OwnKey e key ↔ ':' ∈ key ∧ key.takeWhile (· ≠ ':') = e.pfx := by
    constructor
    · rintro ⟨r, rfl⟩
      refine ⟨by simp, ?_⟩
      rw [List.takeWhile_append_of_pos]
      · simp
      · intro c hc
        have : c ≠ ':' := fun h => hn.2 (h ▸ hc)
        simpa using this
    · rintro ⟨h1, h2⟩
      obtain ⟨a, b, rfl, ha⟩ := split_first h1
      refine ⟨b, ?_⟩
      rw [List.takeWhile_append_of_pos] at h2
      · simp only [ne_eq, not_true_eq_false, decide_false, Bool.false_eq_true, not_false_eq_true, List.takeWhile_cons_of_neg, List.append_nil] at h2
        rw [h2]
      · intro c hc
        have : c ≠ ':' := fun h => ha (h ▸ hc)
        simpa using this
  simp only [extFor, Mgr.view, byPrefix_new hn]
  by_cases hc : ':' ∈ key
  · rw [if_pos hc, if_pos hc]
    by_cases hp : key.takeWhile (· ≠ ':') = e.pfx
    · rw [if_pos hp, if_pos (hown.2 ⟨hc, hp⟩)]
    · rw [if_neg hp, if_neg (fun ho => hp (hown.1 ho).2)]
  · rw [if_neg hc, if_neg hc, if_neg (fun ho => hc (hown.1 ho).1)]

/-! ## What the document says afterwards -/

theorem adoptMap_eq (e : Ext) : ∀ m : List (Str × Attr F), adoptMap e m = m.map fun p => (p.1, adopt e p.2)
  | [] => by rw [adoptMap]; rfl
  | (k, a) :: m => by rw [adoptMap, adoptMap_eq e m]; rfl

theorem adoptList_eq (e : Ext) : ∀ l : List (Attr F), adoptList e l = l.map (adopt e)
  | [] => by rw [adoptList]; rfl
  | a :: l => by rw [adoptList, adoptList_eq e l]; rfl

theorem adopt_key (e : Ext) (a : Attr F) : (adopt e a).key = a.key := by
  obtain ⟨k, key, x, v, m, c⟩ := a
  rw [adopt]; rfl

theorem adopt_keyed (e : Ext) : ∀ cs : List (Attr F), keyed (cs.map (adopt e)) = (keyed cs).map fun p => (p.1, adopt e p.2)
  | [] => rfl
  | c :: cs => by
    have hf : (cs.map (adopt e)).filter (fun d => decide (d.key = c.key)) = (cs.filter fun d => d.key = c.key).map (adopt e) := by
      rw [List.filter_map]
      congr 1
      apply List.filter_congr
      intro d _
      simp [adopt_key]
    simp only [List.map_cons, keyed, adopt_key, hf, adopt_keyed e cs, List.getLast?_map, List.filter_map]
    congr 1
    cases (cs.filter fun d => d.key = c.key).getLast? <;> rfl

theorem adopt_keyedMap (e : Ext) (cs : List (Attr F)) : keyed (adoptList e cs) = adoptMap e (keyed cs) := by
  rw [adoptList_eq, adopt_keyed, adoptMap_eq]

mutual
theorem adopt_attrSays {h : List Ext} {e : Ext} (hn : IsNew h e) (up : Str → Except PyErr Str) :
    ∀ {x : Xml} {a : Attr F}, AttrSays ((Mgr.run h).view up) x a → AttrSays ((Mgr.run (h ++ [e])).view up) x (adopt e a)
  | _, _, .mk (t := t) (as := as) (k := k) (cs := cs) h1 h2 => by
    have h3 := AttrSays.mk (mgr := (Mgr.run (h ++ [e])).view up) h1 (adopt_attrsSay hn up h2)
    classical
    rw [extFor_new hn, adopt_keyedMap] at h3
    rw [adopt]
    convert h3 using 1
    congr 1
    split
    · rfl
    · rw [adoptList]
theorem adopt_attrsSay {h : List Ext} {e : Ext} (hn : IsNew h e) (up : Str → Except PyErr Str) :
    ∀ {xs : List Xml} {as : List (Attr F)}, AttrsSay ((Mgr.run h).view up) xs as → AttrsSay ((Mgr.run (h ++ [e])).view up) xs (adoptList e as)
  | _, _, .nil => by rw [adoptList]; exact .nil
  | _, _, .cons h1 h2 => by rw [adoptList]; exact .cons (adopt_attrSays hn up h1) (adopt_attrsSay hn up h2)
end

theorem adoptList_append (e : Ext) (l l' : List (Attr F)) : adoptList e (l ++ l') = adoptList e l ++ adoptList e l' := by
  simp only [adoptList_eq, List.map_append]

mutual
theorem adopt_globSays {h : List Ext} {e : Ext} (hn : IsNew h e) (up : Str → Except PyErr Str) :
    ∀ {x : Xml} {as : List (Attr F)}, GlobSays ((Mgr.run h).view up) x as → GlobSays ((Mgr.run (h ++ [e])).view up) x (adoptList e as)
  | _, _, .mk h1 h2 => by
    have h3 := GlobSays.mk (mgr := (Mgr.run (h ++ [e])).view up) h1 (adopt_globsSay hn up h2)
    classical
    rw [extFor_new hn] at h3
    rw [adoptList_append, adoptList, adopt, adoptList, adoptMap]
    convert h3 using 4
theorem adopt_globsSay {h : List Ext} {e : Ext} (hn : IsNew h e) (up : Str → Except PyErr Str) :
    ∀ {xs : List Xml} {as : List (Attr F)}, GlobsSay ((Mgr.run h).view up) xs as → GlobsSay ((Mgr.run (h ++ [e])).view up) xs (adoptList e as)
  | _, _, .nil => by rw [adoptList]; exact .nil
  | _, _, .cons h1 h2 => by rw [adoptList_append]; exact .cons (adopt_globSays hn up h1) (adopt_globsSay hn up h2)
end

theorem Each.map {α β γ : Type} {R : α → β → Prop} {S : α → γ → Prop} (f : β → γ) (h : ∀ a b, R a b → S a (f b)) :
    ∀ {as : List α} {bs : List β}, Each R as bs → Each S as (bs.map f)
  | _, _, .nil => .nil
  | _, _, .cons h1 h2 => .cons (h _ _ h1) (Each.map f h h2)

theorem distinctExts_filter (u : Str) : ∀ l : List Ext, (distinctExts l).filter (fun f => f.uri ≠ u) = distinctExts (l.filter fun f => f.uri ≠ u)
  | [] => rfl
  | x :: l => by
    by_cases hx : x.uri = u
    · rw [List.filter_cons_of_neg (by simpa using hx), ← distinctExts_filter u l, distinctExts, List.filter_cons_of_neg (by simpa using hx), List.filter_filter]
      apply List.filter_congr
      intro f _
      simp [hx]
    · rw [List.filter_cons_of_pos (by simpa using hx), distinctExts, distinctExts, List.filter_cons_of_pos (by simpa using hx), ← distinctExts_filter u l,
        List.filter_filter, List.filter_filter]
      congr 1
      apply List.filter_congr
      intro f _
      exact Bool.and_comm _ _

theorem mem_distinctExts {e : Ext} : ∀ {l : List Ext}, (∀ f ∈ l, f.uri = e.uri → f = e) → (e ∈ distinctExts l ↔ e ∈ l)
  | [], _ => Iff.rfl
  | x :: l, h => by
    have ih := mem_distinctExts (e := e) (l := l) fun f hf => h f (by simp [hf])
    simp only [distinctExts, List.mem_cons, List.mem_filter, ih, decide_eq_true_eq]
    by_cases hx : e = x
    · simp [hx]
    · have : ¬ e.uri = x.uri := fun hu => hx (h x (by simp) hu.symm).symm
      simp [hx, this]

theorem extSays_new {h : List Ext} {e : Ext} (hn : IsNew h e) {up : Str → Except PyErr Str} {x : Xml} {o : Option Ext} (hx : x.name = py!"extension")
    (hs : ExtSays ((Mgr.run h).view up) x o) :
    (∀ f, o = some f → f ∈ h) ∧ (NamesExt up e x → ExtSays ((Mgr.run (h ++ [e])).view up) x (some e)) ∧
    (¬ NamesExt up e x → ExtSays ((Mgr.run (h ++ [e])).view up) x o) := by
  obtain ⟨h1, h2⟩ := hs
  cases hp : x.atts.lookup py!"prefix" with
  | some p =>
    simp only [hp, Mgr.view] at h2
    obtain ⟨h2, h3⟩ := h2
    refine ⟨fun f hf => ((c58_sound h p f).2.2 (h2 ▸ hf)).1, ?_, ?_⟩
    · rintro ⟨_, hN | ⟨hN, _⟩⟩
      · rw [hp] at hN
        simp only [Option.some.injEq] at hN
        refine ⟨h1, ?_⟩
        simp only [hp, Mgr.view, byPrefix_new hn, hN, if_true, true_and]
        intro _; simp
      · rw [hp] at hN; cases hN
    · intro hN
      have hpe : p ≠ e.pfx := fun he => hN ⟨hx, .inl (by rw [hp, he])⟩
      refine ⟨h1, ?_⟩
      simp only [hp, Mgr.view, byPrefix_new hn, if_neg hpe]
      exact ⟨h2, h3⟩
  | none =>
    cases hu : x.atts.lookup py!"uri" with
    | none => simp only [hp, hu] at h2
    | some u =>
      simp only [hp, hu, Mgr.view, bind_ok, Except.ok.injEq] at h2
      obtain ⟨t, ht, h2⟩ := h2
      refine ⟨fun f hf => ((c58_sound h t f).1 (h2.trans hf)).1, ?_, ?_⟩
      · rintro ⟨_, hN | ⟨_, v, hv, hN⟩⟩
        · rw [hp] at hN; cases hN
        · rw [hu] at hv
          simp only [Option.some.injEq] at hv
          subst hv
          refine ⟨h1, ?_⟩
          simp only [hp, hu, Mgr.view, hN, bind, Except.bind, byUri_new, if_true]
      · intro hN
        have hte : t ≠ e.uri := fun he => hN ⟨hx, .inr ⟨hp, u, hu, by rw [ht, he]⟩⟩
        refine ⟨h1, ?_⟩
        simp only [hp, hu, Mgr.view, ht, bind, Except.bind, byUri_new, if_neg hte, h2]

theorem extsSay_new {h : List Ext} {e : Ext} (hn : IsNew h e) {up : Str → Except PyErr Str} : ∀ {xs : List Xml} {es : List (Option Ext)},
    (∀ x ∈ xs, x.name = py!"extension") → Each (ExtSays ((Mgr.run h).view up)) xs es →
    ∃ es', Each (ExtSays ((Mgr.run (h ++ [e])).view up)) xs es' ∧ (es'.filterMap id).filter (fun f => f.uri ≠ e.uri) = es.filterMap id ∧
      (∀ f ∈ es'.filterMap id, f.uri = e.uri → f = e) ∧ (e ∈ es'.filterMap id ↔ ∃ x ∈ xs, NamesExt up e x)
  | _, _, _, .nil => ⟨[], .nil, rfl, by simp, by simp⟩
  | x :: xs, o :: es, hx, .cons h1 h2 => by
    obtain ⟨es', i1, i2, i3, i4⟩ := extsSay_new hn (fun y hy => hx y (by simp [hy])) h2
    obtain ⟨q1, q2, q3⟩ := extSays_new hn (hx x (by simp)) h1
    by_cases hN : NamesExt up e x
    · -- an element that names the new extension found nothing before
      have ho : o = none := by
        cases o with
        | none => rfl
        | some f =>
          exfalso
          have hf := hn.1 f (q1 f rfl)
          obtain ⟨_, h2⟩ := h1
          rcases hN.2 with hp | ⟨hp, u, hu, ht⟩
          · simp only [hp, Mgr.view] at h2
            exact hf.2 ((c58_sound h _ f).2.2 h2.1.symm).2
          · simp only [hp, hu, Mgr.view, ht, bind, Except.bind, Except.ok.injEq] at h2
            exact hf.1 ((c58_sound h _ f).1 h2).2
      subst ho
      refine ⟨some e :: es', .cons (q2 hN) i1, ?_, ?_, ?_⟩
      · simpa using i2
      · intro f hf hu
        simp only [List.filterMap_cons, id_eq, List.mem_cons] at hf
        rcases hf with rfl | hf
        · rfl
        · exact i3 f hf hu
      · simp only [List.filterMap_cons, id_eq, List.mem_cons, true_or, true_iff]
        exact ⟨x, .inl rfl, hN⟩
    · refine ⟨o :: es', .cons (q3 hN) i1, ?_, ?_, ?_⟩
      · cases o with
        | none => simpa using i2
        | some f =>
          have := (hn.1 f (q1 f rfl)).1
          simp only [List.filterMap_cons, id_eq]
          rw [List.filter_cons_of_pos (by simpa using this)]
          exact congrArg _ i2
      · intro f hf hu
        cases o with
        | none => exact i3 f (by simpa using hf) hu
        | some g =>
          simp only [List.filterMap_cons, id_eq, List.mem_cons] at hf
          rcases hf with rfl | hf
          · exact absurd hu (hn.1 f (q1 f rfl)).1
          · exact i3 f hf hu
      · have : e ∈ (o :: es').filterMap id ↔ e ∈ es'.filterMap id := by
          cases o with
          | none => simp
          | some g =>
            have hg : e ≠ g := fun he => (hn.1 g (q1 g rfl)).1 (he ▸ rfl)
            simp [hg]
        rw [this, i4]
        simp [hN]

/-- C128: reading a document again after registering an extension that was not known before gives the same log, with the extension at all attributes
whose keys belong to it, and in the list of extensions if the document names it. -/
theorem c128_again {h : List Ext} {e : Ext} (hn : IsNew h e) (up : Str → Except PyErr Str) {x : Xml} {c : Content F}
    (hx : DocSays ((Mgr.run h).view up) x c) :
    ∃ exts, DocSays ((Mgr.run (h ++ [e])).view up) x
        { attrs := adoptMap e c.attrs, extensions := exts, classifiers := c.classifiers, globalTrace := adoptList e c.globalTrace,
          globalEvent := adoptList e c.globalEvent, features := c.features,
          traces := c.traces.map fun t => (adoptMap e t.1, t.2.map (adoptMap e)) } ∧
      exts.filter (fun f => f.uri ≠ e.uri) = c.extensions ∧ (e ∈ exts ↔ ∃ k ∈ x.inner, NamesExt up e k) := by
  obtain ⟨es, g1, g2⟩ := hx.extensions
  obtain ⟨es', i1, i2, i3, i4⟩ := extsSay_new hn (fun k hk => by simpa using (List.mem_filter.1 hk).2) g1
  refine ⟨distinctExts (es'.filterMap id), ?_, by rw [distinctExts_filter, i2, g2], ?_⟩
  · exact {
      root := hx.root
      known := hx.known
      plain := hx.plain
      distinct := hx.distinct
      features := hx.features
      classifiers := hx.classifiers
      globalTrace := adopt_globsSay hn up hx.globalTrace
      globalEvent := adopt_globsSay hn up hx.globalEvent
      extensions := ⟨es', i1, rfl⟩
      attrs := by
        obtain ⟨cs, h1, h2⟩ := hx.attrs
        exact ⟨adoptList e cs, adopt_attrsSay hn up h1, by rw [adopt_keyedMap, h2]⟩
      traces := by
        refine Each.map _ ?_ hx.traces
        rintro y t ⟨h1, ⟨cs, h2, h3⟩, h4⟩
        refine ⟨h1, ⟨adoptList e cs, adopt_attrsSay hn up h2, by rw [adopt_keyedMap, h3]⟩, Each.map _ ?_ h4⟩
        rintro z m ⟨ds, k1, k2⟩
        exact ⟨adoptList e ds, adopt_attrsSay hn up k1, by rw [adopt_keyedMap, k2]⟩ }
  · rw [mem_distinctExts i3, i4]
    constructor
    · rintro ⟨k, hk, hN⟩
      exact ⟨k, (List.mem_filter.1 hk).1, hN⟩
    · rintro ⟨k, hk, hN⟩
      exact ⟨k, List.mem_filter.2 ⟨hk, by simpa using hN.1⟩, hN⟩

/-- C128, the whole example: a log is loaded; the definition of an extension is read and registered; loading the log again gives the same
log with the extension at its attributes. -/
theorem c128_example {h : List Ext} (w : ExtWorld F) {sp : Str → Str} (hs : SpellsTags sp) {d : ExtDoc} {uri : Str} {epoch : DateTime}
    (hr : Readable w d uri epoch) (names : GlobalMap) (hn : IsNew h ⟨d.name, d.pfx, uri⟩) (up : Str → Except PyErr Str) {x : Xml} {c : Content F}
    (hx : DocSays ((Mgr.run h).view up) x c) (rnd : Nat → Uuid) (given : Option (Factory F)) (heap : Heap F) :
    ∃ o names' exts l heap', parseExt w names (d.xml sp).sax = .ok (some o, names') ∧
      xesParse given (stdFactory F rnd) ((Mgr.run (h ++ [o.ext])).view up) heap x.sax = .ok (some l, heap') ∧
      DenLog heap' heap.size heap'.size
        { attrs := adoptMap o.ext c.attrs, extensions := exts, classifiers := c.classifiers, globalTrace := adoptList o.ext c.globalTrace,
          globalEvent := adoptList o.ext c.globalEvent, features := c.features,
          traces := c.traces.map fun t => (adoptMap o.ext t.1, t.2.map (adoptMap o.ext)) } l ∧
      exts.filter (fun f => f.uri ≠ o.ext.uri) = c.extensions ∧ (o.ext ∈ exts ↔ ∃ k ∈ x.inner, NamesExt up o.ext k) := by
  obtain ⟨o, names', h1, h2, _⟩ := c84_defined w hs hr names
  rw [← h2] at hn
  obtain ⟨exts, h3, h4, h5⟩ := c128_again hn up hx
  obtain ⟨l, heap', h6, h7, _⟩ := c115_document rnd _ h3 given heap
  exact ⟨o, names', exts, l, heap', h1, h6, h7, h4, h5⟩

/-- What `adopt` does, at every depth: the attributes are the same in the same places, apart from their extension, which is the new one exactly if the key
belongs to it. -/
theorem c128_adopt (e : Ext) (a : Attr F) : (adopt e a).kind = a.kind ∧ (adopt e a).key = a.key ∧ (adopt e a).val = a.val ∧
    (OwnKey e a.key → (adopt e a).ext = some e) ∧ (¬ OwnKey e a.key → (adopt e a).ext = a.ext) ∧
    (adopt e a).attrs = a.attrs.map (fun p => (p.1, adopt e p.2)) ∧ (adopt e a).coll = a.coll.map (adopt e) := by
  obtain ⟨k, key, x, v, m, c⟩ := a
  rw [adopt]
  refine ⟨rfl, rfl, rfl, fun h => ?_, fun h => ?_, adoptMap_eq e m, adoptList_eq e c⟩
  · exact if_pos h
  · exact if_neg h

/-! ## Cases -/

/-- The extension of the example is new after the standard ones. -/
example : IsNew standardExts ⟨py!"MetaData_General", py!"meta_general", py!"http://www.xes-standard.org/meta_general.xesext"⟩ :=
  ⟨by decide, by decide⟩

/-- A document that names it and uses it. -/
def metaDoc : Xml := .elem py!"log" [] [.elem py!"extension" [(py!"prefix", py!"meta_general"), (py!"uri", py!"u")] [],
  .elem py!"string" [(py!"key", py!"meta_general:a"), (py!"value", py!"b")] []]

example : DocSays (F := ToyFloat) ((Mgr.run standardExts).view .ok) metaDoc
    ⟨[(py!"meta_general:a", .mk .literal py!"meta_general:a" none (.str py!"b") [] [])], [], [], [], [], [], []⟩ where
  root := rfl
  known := by decide
  plain := by decide
  distinct := by decide
  features := rfl
  attrs := ⟨[.mk .literal py!"meta_general:a" none (.str py!"b") [] []], .cons (AttrSays.mk (t := py!"string")
    (as := [(py!"key", py!"meta_general:a"), (py!"value", py!"b")]) (Says.string _) .nil) .nil, rfl⟩
  traces := .nil
  extensions := ⟨[none], .cons ⟨rfl, rfl, by decide⟩ .nil, rfl⟩
  classifiers := rfl
  globalTrace := .nil
  globalEvent := .nil

end

end Opy
