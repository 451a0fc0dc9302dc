import Verif.Model.Xes
import Verif.Lemmas.Heap
import Verif.Props.Clone
import Verif.Props.Info
/-
The XES handler against a reader on element trees.
-/
set_option linter.unusedSectionVars false

namespace Opy

section
variable {F : Type} [PyFloat F]

/-! ## Attribute trees in the heap -/

mutual
/-- The object `r` and everything below it represent the attribute tree, using only cells in
`[a, b)`. -/
def Den (h : Heap F) (a b : Nat) : Attr F → Ref → Prop
  | .mk k key e v m c, r => ∃ mr d cr, (a ≤ r ∧ r < b ∧ a ≤ mr ∧ mr < b) ∧
      h.get r = some (.attr k key e v mr cr) ∧ h.get mr = some (.map d) ∧ DenMap h a b m d ∧ DenList h a b c cr
/-- The same for the entries of a map. -/
def DenMap (h : Heap F) (a b : Nat) : List (Str × Attr F) → List (Str × Ref) → Prop
  | [], d => d = []
  | (k, x) :: m, d => ∃ r d', d = (k, r) :: d' ∧ Den h a b x r ∧ DenMap h a b m d'
/-- The same for a list. -/
def DenList (h : Heap F) (a b : Nat) : List (Attr F) → List Ref → Prop
  | [], rs => rs = []
  | x :: xs, rs => ∃ r rs', rs = r :: rs' ∧ Den h a b x r ∧ DenList h a b xs rs'
end

mutual
theorem Den.frame {h h' : Heap F} {a b a' b' : Nat} (ha : a' ≤ a) (hb : b ≤ b')
    (hs : ∀ r, a ≤ r → r < b → h'.get r = h.get r) : ∀ {x : Attr F} {r : Ref}, Den h a b x r → Den h' a' b' x r
  | .mk k key e v m c, r, hd => by
    simp only [Den] at hd ⊢
    obtain ⟨mr, d, cr, ⟨b1, b2, b3, b4⟩, g1, g2, g3, g4⟩ := hd
    exact ⟨mr, d, cr, ⟨by omega, by omega, by omega, by omega⟩, by rw [hs r b1 b2]; exact g1, by rw [hs mr b3 b4]; exact g2,
      DenMap.frame ha hb hs g3, DenList.frame ha hb hs g4⟩
theorem DenMap.frame {h h' : Heap F} {a b a' b' : Nat} (ha : a' ≤ a) (hb : b ≤ b')
    (hs : ∀ r, a ≤ r → r < b → h'.get r = h.get r) : ∀ {m : List (Str × Attr F)} {d : List (Str × Ref)},
    DenMap h a b m d → DenMap h' a' b' m d
  | [], d, hd => by simpa only [DenMap] using hd
  | (k, x) :: m, d, hd => by
    simp only [DenMap] at hd ⊢
    obtain ⟨r, d', e, h1, h2⟩ := hd
    exact ⟨r, d', e, Den.frame ha hb hs h1, DenMap.frame ha hb hs h2⟩
theorem DenList.frame {h h' : Heap F} {a b a' b' : Nat} (ha : a' ≤ a) (hb : b ≤ b')
    (hs : ∀ r, a ≤ r → r < b → h'.get r = h.get r) : ∀ {m : List (Attr F)} {d : List Ref},
    DenList h a b m d → DenList h' a' b' m d
  | [], d, hd => by simpa only [DenList] using hd
  | x :: m, d, hd => by
    simp only [DenList] at hd ⊢
    obtain ⟨r, d', e, h1, h2⟩ := hd
    exact ⟨r, d', e, Den.frame ha hb hs h1, DenList.frame ha hb hs h2⟩
end

theorem DenList.append {h : Heap F} {a b : Nat} : ∀ {xs ys : List (Attr F)} {rs ss : List Ref}, DenList h a b xs rs →
    DenList h a b ys ss → DenList h a b (xs ++ ys) (rs ++ ss)
  | [], ys, rs, ss, h1, h2 => by
    simp only [DenList] at h1
    subst h1
    simpa using h2
  | x :: xs, ys, rs, ss, h1, h2 => by
    simp only [DenList] at h1
    obtain ⟨r, rs', rfl, h3, h4⟩ := h1
    simp only [List.cons_append, DenList]
    exact ⟨r, rs' ++ ss, rfl, h3, DenList.append h4 h2⟩

theorem DenList.single {h : Heap F} {a b : Nat} {x : Attr F} {r : Ref} (h1 : Den h a b x r) : DenList h a b [x] [r] := by
  simp only [DenList]
  exact ⟨r, [], rfl, h1, rfl⟩

theorem DenMap.dset {h : Heap F} {a b : Nat} {k : Str} {x : Attr F} {r : Ref} (hx : Den h a b x r) :
    ∀ {m : List (Str × Attr F)} {d : List (Str × Ref)}, DenMap h a b m d → DenMap h a b (dset k x m) (dset k r d)
  | [], d, hd => by
    simp only [DenMap] at hd
    subst hd
    simp only [Opy.dset, DenMap]
    exact ⟨r, [], rfl, hx, rfl⟩
  | (k', y) :: m, d, hd => by
    simp only [DenMap] at hd
    obtain ⟨s, d', rfl, h1, h2⟩ := hd
    simp only [Opy.dset]
    by_cases e : k' = k
    · simp only [e, if_true, DenMap]
      exact ⟨r, d', rfl, hx, h2⟩
    · simp only [e, if_false, DenMap]
      exact ⟨s, _, rfl, h1, DenMap.dset hx h2⟩

/-- Put attributes into a map under their own keys, one after the other. -/
def intoMap (m : List (Str × Attr F)) (cs : List (Attr F)) : List (Str × Attr F) :=
  cs.foldl (fun m c => dset c.key c m) m

/-- The same for references with given keys. -/
def intoDict (d : List (Str × Ref)) (ks : List Str) (rs : List Ref) : List (Str × Ref) :=
  (ks.zip rs).foldl (fun d p => dset p.1 p.2 d) d

theorem DenMap.into {h : Heap F} {a b : Nat} : ∀ {cs : List (Attr F)} {rs : List Ref} {m : List (Str × Attr F)}
    {d : List (Str × Ref)}, DenMap h a b m d → DenList h a b cs rs →
    DenMap h a b (intoMap m cs) (intoDict d (cs.map Attr.key) rs)
  | [], rs, m, d, h1, h2 => by
    simp only [DenList] at h2
    subst h2
    simpa [intoMap, intoDict] using h1
  | c :: cs, rs, m, d, h1, h2 => by
    simp only [DenList] at h2
    obtain ⟨r, rs', rfl, h3, h4⟩ := h2
    have := DenMap.into (DenMap.dset (k := c.key) h3 h1) h4
    simpa [intoMap, intoDict] using this

/-! ## Reading attribute elements -/

/-- Key of an attribute element. -/
def elemKey (as : List (Str × Str)) : Str :=
  match dget py!"key" as with
  | some n => n
  | none => py!"UNKNOWN"

/-- Value text of an attribute element. -/
def elemValue (as : List (Str × Str)) : Str :=
  match dget py!"value" as with
  | some v => v
  | none => []

mutual
/-- The attribute an attribute element stands for. -/
def readAttr (mgr : ExtMgr) : Xml → Except PyErr (Attr F)
  | .elem t as ks =>
    if lower t ∈ attrTags then
      match readVal (F := F) (lower t) (elemValue as) with
      | .error e => .error e
      | .ok none => .error .valueError
      | .ok (some (k, v)) =>
        match readAttrs mgr ks with
        | .error e => .error e
        | .ok cs => .ok (.mk k (elemKey as) (extOfKey mgr (elemKey as)) v (intoMap [] cs) (if k.isCollection then cs else []))
    else .error .other
/-- The same for a list of elements. -/
def readAttrs (mgr : ExtMgr) : List Xml → Except PyErr (List (Attr F))
  | [] => .ok []
  | x :: xs =>
    match readAttr mgr x with
    | .error e => .error e
    | .ok a => match readAttrs mgr xs with
      | .error e => .error e
      | .ok as => .ok (a :: as)
end

mutual
/-- Inside `global`: children first, then the attribute itself without children. -/
def readGlob (mgr : ExtMgr) : Xml → Except PyErr (List (Attr F))
  | .elem t as ks =>
    if lower t ∈ attrTags then
      match readVal (F := F) (lower t) (elemValue as) with
      | .error e => .error e
      | .ok none => .error .valueError
      | .ok (some (k, v)) =>
        match readGlobs mgr ks with
        | .error e => .error e
        | .ok cs => .ok (cs ++ [.mk k (elemKey as) (extOfKey mgr (elemKey as)) v [] []])
    else .error .other
/-- The same for a list of elements. -/
def readGlobs (mgr : ExtMgr) : List Xml → Except PyErr (List (Attr F))
  | [] => .ok []
  | x :: xs =>
    match readGlob mgr x with
    | .error e => .error e
    | .ok a => match readGlobs mgr xs with
      | .error e => .error e
      | .ok as => .ok (a ++ as)
end

theorem xesRun_append (fac : Factory F) (mgr : ExtMgr) (st : XesSt F) (xs ys : List Sax) :
    xesRun fac mgr st (xs ++ ys) = (xesRun fac mgr st xs >>= fun s => xesRun fac mgr s ys) := by
  induction xs generalizing st with
  | nil => rfl
  | cons e es ih =>
    simp only [List.cons_append, xesRun]
    cases h : xesStep fac mgr st e with
    | error e => rfl
    | ok s => exact ih s

theorem xesRun_append_ok {fac : Factory F} {mgr : ExtMgr} {st s s' : XesSt F} {xs ys : List Sax}
    (h1 : xesRun fac mgr st xs = .ok s) (h2 : xesRun fac mgr s ys = .ok s') : xesRun fac mgr st (xs ++ ys) = .ok s' := by
  rw [xesRun_append, h1]
  exact h2

theorem xesRun_cons_ok {fac : Factory F} {mgr : ExtMgr} {st s s' : XesSt F} {x : Sax} {ys : List Sax}
    (h1 : xesStep fac mgr st x = .ok s) (h2 : xesRun fac mgr s ys = .ok s') : xesRun fac mgr st (x :: ys) = .ok s' := by
  simp only [xesRun, h1]
  exact h2

theorem newAttr_eq (h : Heap F) (k : Kind) (key : Str) (e : Option Ext) (v : PyVal F) :
    newAttr h k key e v = (h.size + 1, ⟨h.objs ++ [.map [], .attr k key e v h.size []], h.drawn⟩) := by
  simp [newAttr, initMap, Heap.alloc, Heap.size]

/-- Members added to an object if it is a collection. -/
def addColl : Obj F → List Ref → Obj F
  | .attr k key e v m c, rs => if k.isCollection then .attr k key e v m (c ++ rs) else .attr k key e v m c
  | o, _ => o

/-- Is the object an attribute? -/
def isAttrObj : Obj F → Bool
  | .attr .. => true
  | _ => false

theorem addColl_nil (o : Obj F) : addColl o [] = o := by
  cases o <;> simp [addColl]

theorem addColl_append (o : Obj F) (rs ss : List Ref) : addColl (addColl o rs) ss = addColl o (rs ++ ss) := by
  cases o with
  | attr k key e v m c =>
    simp only [addColl]
    cases hk : k.isCollection <;> simp [hk]
  | _ => rfl

theorem isAttrObj_addColl (o : Obj F) (rs : List Ref) : isAttrObj (addColl o rs) = isAttrObj o := by
  cases o with
  | attr k key e v m c =>
    simp only [addColl]
    cases hk : k.isCollection <;> simp [isAttrObj]
  | _ => rfl

theorem mapPtr_addColl (o : Obj F) (rs : List Ref) : mapPtr (addColl o rs) = mapPtr o := by
  cases o with
  | attr k key e v m c =>
    simp only [addColl]
    cases hk : k.isCollection <;> simp [mapPtr]
  | _ => rfl

theorem mapOf_of_ptr {h : Heap F} {p mp : Ref} {o : Obj F} (ho : h.get p = some o) (hm : mapPtr o = some mp) :
    mapOf h p = .ok mp := by
  unfold mapOf
  rw [ho]
  cases o <;> simp [mapPtr] at hm <;> simp [hm]

/-- The attribute stack and the object on top of the other stack fit together. -/
def Sync (attrs : List Ref) (p : Ref) (o : Obj F) : Prop :=
  (attrs = [] ∧ isAttrObj o = false) ∨ (∃ q, attrs = p :: q ∧ isAttrObj o = true)

theorem readVal_start {rnd : Nat → Uuid} {mgr : ExtMgr} {st : XesSt F} {t : Str} {as : List (Str × Str)} {k : Kind} {v : PyVal F}
    (ht : lower t ∈ attrTags) (hv : readVal (F := F) (lower t) (elemValue as) = .ok (some (k, v))) :
    xesStep (stdFactory F rnd) mgr st (.start t as) = .ok
      ⟨⟨st.heap.objs ++ [.map [], .attr k (elemKey as) (extOfKey mgr (elemKey as)) v st.heap.size []], st.heap.drawn⟩,
        st.log, st.trace, st.event, (st.heap.size + 1) :: st.attrs, (st.heap.size + 1) :: st.objs, st.globals⟩ := by
  unfold elemKey elemValue at *
  simp only [xesStep, xesStart, ht, not_true, if_false]
  cases h1 : dget py!"value" as <;> cases h2 : dget py!"key" as <;> simp only [h1] at hv ⊢ <;>
    simp only [hv, bind, Except.bind, stdFactory, newAttr_eq]

/-- End of an attribute element outside `global`. -/
theorem xesStop_attr {st : XesSt F} {t : Str} (ht : lower t ∈ attrTags) {i x p : Ref} {as rest : List Ref}
    (h1 : st.attrs = i :: as) (h2 : st.objs = x :: p :: rest) (h3 : st.globals = none) :
    xesStop st t = (do
      let m ← mapOf st.heap p
      let key ← keyOf st.heap i
      let h ← mapSet st.heap m key i
      .ok { st with
        heap := addToColl h as i
        attrs := as
        objs := p :: rest }) := by
  have hg : lower t ≠ py!"global" := by
    intro e; rw [e] at ht; revert ht; decide
  simp only [xesStop, hg, if_false, ht, not_true, h1, h2, h3]

mutual
theorem readAttr_run (rnd : Nat → Uuid) (mgr : ExtMgr) : ∀ (x : Xml) {a : Attr F}, readAttr mgr x = .ok a →
    ∀ ⦃st : XesSt F⦄ ⦃p mp : Ref⦄ ⦃rest : List Ref⦄ ⦃o : Obj F⦄ ⦃d : List (Str × Ref)⦄, st.objs = p :: rest →
    st.globals = none → st.heap.get p = some o → mapPtr o = some mp → st.heap.get mp = some (.map d) → Sync st.attrs p o →
    ∃ h' r, xesRun (stdFactory F rnd) mgr st x.sax = .ok { st with heap := h' } ∧ h'.get p = some (addColl o [r]) ∧
      h'.get mp = some (.map (dset a.key r d)) ∧
      (∀ s, s < st.heap.size → s ≠ p → s ≠ mp → h'.get s = st.heap.get s) ∧ st.heap.size ≤ h'.size ∧
      Den h' st.heap.size h'.size a r ∧ h'.drawn = st.heap.drawn
  | .elem t as ks, a, hr => by
    simp only [readAttr] at hr
    split at hr
    · rename_i ht
      split at hr
      · simp at hr
      · simp at hr
      · rename_i k v hv
        split at hr
        · simp at hr
        · rename_i cs hcs
          simp only [Except.ok.injEq] at hr
          subst hr
          intro st p mp rest o d ho hg hp hm hmp hsync
          let n := st.heap.size
          let key := elemKey as
          let ob : Obj F := .attr k key (extOfKey mgr key) v n []
          let h1 : Heap F := ⟨st.heap.objs ++ [.map [], ob], st.heap.drawn⟩
          let st1 : XesSt F := ⟨h1, st.log, st.trace, st.event, (n + 1) :: st.attrs, (n + 1) :: st.objs, st.globals⟩
          have hs1 : xesStep (stdFactory F rnd) mgr st (.start t as) = .ok st1 := readVal_start ht hv
          have g1 : h1.get (n + 1) = some ob := get_append_right (h := st.heap) 1
          have g0 : h1.get n = some (.map []) := get_append_right (h := st.heap) 0
          have gold : ∀ s, s < n → h1.get s = st.heap.get s := fun s hs => get_append_left hs
          have hsz1 : h1.size = n + 2 := by simp [h1, n, Heap.size]
          obtain ⟨h2, rs, r1, r2, r3, r4, r5, r6, r7⟩ := readAttrs_run rnd mgr ks hcs (st := st1) (p := n + 1) (mp := n)
            (rest := st.objs) (o := ob) (d := []) rfl hg g1 rfl g0 (Or.inr ⟨st.attrs, rfl, rfl⟩)
          simp only [st1] at r1 r4 r5 r6 r7
          have hpn : p < n := get_lt hp
          have hmn : mp < n := get_lt hmp
          have p2 : h2.get p = some o := by rw [r4 p (by omega) (by omega) (by omega), gold p hpn]; exact hp
          have m2 : h2.get mp = some (.map d) := by rw [r4 mp (by omega) (by omega) (by omega), gold mp hmn]; exact hmp
          have hko : keyOf h2 (n + 1) = .ok key := by
            unfold keyOf; rw [r2]
            simp only [ob, addColl]
            cases hk : k.isCollection <;> simp
          let h3 : Heap F := h2.put mp (.map (dset key (n + 1) d))
          have hms : mapSet h2 mp key (n + 1) = .ok h3 := by unfold mapSet; rw [m2]
          have hpm : p ≠ mp := by
            intro e; subst e; rw [hp] at hmp; simp at hmp; subst hmp; simp [mapPtr] at hm
          have p3 : h3.get p = some o := by rw [← p2]; exact get_put_ne _ hpm
          have hadd : (addToColl h3 st.attrs (n + 1)).get p = some (addColl o [n + 1]) ∧
              (∀ s, s ≠ p → (addToColl h3 st.attrs (n + 1)).get s = h3.get s) ∧
              (addToColl h3 st.attrs (n + 1)).size = h3.size ∧ (addToColl h3 st.attrs (n + 1)).drawn = h3.drawn := by
            rcases hsync with ⟨e, ha⟩ | ⟨q, e, ha⟩
            · rw [e]
              refine ⟨?_, fun s _ => rfl, by simp [addToColl], by simp [addToColl]⟩
              simp only [addToColl, p3]
              cases o <;> simp [isAttrObj] at ha <;> rfl
            · rw [e]
              cases o with
              | attr k' key' e' v' m' c' =>
                simp only [addToColl, p3]
                cases hk : k'.isCollection
                · simp only [Bool.false_eq_true, if_false]
                  exact ⟨by rw [p3]; simp [addColl, hk], by simp⟩
                · simp only [if_true]
                  refine ⟨?_, fun s hs => get_put_ne _ hs, size_put _ _ _, rfl⟩
                  rw [get_put_self _ (get_lt p3)]
                  simp [addColl, hk]
              | map => simp [isAttrObj] at ha
              | pyNone => simp [isAttrObj] at ha
              | event => simp [isAttrObj] at ha
              | trace => simp [isAttrObj] at ha
              | log => simp [isAttrObj] at ha
          obtain ⟨a1, a2, a3, a4⟩ := hadd
          have hsz3 : h3.size = h2.size := size_put _ _ _
          refine ⟨addToColl h3 st.attrs (n + 1), n + 1, ?_, a1, ?_, ?_, ?_, ?_, ?_⟩
          · simp only [Xml.sax]
            refine xesRun_cons_ok hs1 (xesRun_append_ok r1 ?_)
            simp only [xesRun, xesStep]
            rw [xesStop_attr (st := ⟨h2, st.log, st.trace, st.event, (n + 1) :: st.attrs, (n + 1) :: st.objs, st.globals⟩) ht
              (i := n + 1) (as := st.attrs) (x := n + 1) (p := p) (rest := rest) rfl (by simp [ho]) hg]
            simp only [mapOf_of_ptr p2 hm, hko, hms, bind, Except.bind]
            rw [← ho]
          · rw [a2 mp (Ne.symm hpm)]
            exact get_put_self _ (get_lt m2)
          · intro s hs h1 h2
            rw [a2 s h1]
            have : h3.get s = _ := get_put_ne _ h2
            rw [this, r4 s (by omega) (by omega) (by omega), gold s hs]
          · omega
          · have fr : ∀ s, n ≤ s → s < h2.size → (addToColl h3 st.attrs (n + 1)).get s = h2.get s := by
              intro s h1 h2
              rw [a2 s (by omega)]
              exact get_put_ne _ (by omega)
            simp only [Den]
            refine ⟨n, intoDict [] (cs.map Attr.key) rs, if k.isCollection then rs else [], ⟨by omega, by omega, by omega, by omega⟩,
              ?_, ?_, ?_, ?_⟩
            · rw [fr (n + 1) (by omega) (by omega), r2]
              simp only [ob, addColl]
              cases hk : k.isCollection <;> simp [key]
            · rw [fr n (by omega) (by omega)]
              exact r3
            · have : DenMap h2 (n + 2) h2.size (intoMap [] cs) (intoDict [] (cs.map Attr.key) rs) := by
                rw [← hsz1]
                exact DenMap.into (by simp [DenMap]) r6
              exact this.frame (by omega) (by omega) (fun s h1 h2 => fr s (by omega) h2)
            · cases hk : k.isCollection
              · simp [DenList]
              · simp only [if_true]
                have : DenList h2 (n + 2) h2.size cs rs := by rw [← hsz1]; exact r6
                exact this.frame (by omega) (by omega) (fun s h1 h2 => fr s (by omega) h2)
          · rw [a4]
            exact r7
    · simp at hr
theorem readAttrs_run (rnd : Nat → Uuid) (mgr : ExtMgr) : ∀ (xs : List Xml) {cs : List (Attr F)}, readAttrs mgr xs = .ok cs →
    ∀ ⦃st : XesSt F⦄ ⦃p mp : Ref⦄ ⦃rest : List Ref⦄ ⦃o : Obj F⦄ ⦃d : List (Str × Ref)⦄, st.objs = p :: rest →
    st.globals = none → st.heap.get p = some o → mapPtr o = some mp → st.heap.get mp = some (.map d) → Sync st.attrs p o →
    ∃ h' rs, xesRun (stdFactory F rnd) mgr st (saxList xs) = .ok { st with heap := h' } ∧ h'.get p = some (addColl o rs) ∧
      h'.get mp = some (.map (intoDict d (cs.map Attr.key) rs)) ∧
      (∀ s, s < st.heap.size → s ≠ p → s ≠ mp → h'.get s = st.heap.get s) ∧ st.heap.size ≤ h'.size ∧
      DenList h' st.heap.size h'.size cs rs ∧ h'.drawn = st.heap.drawn
  | [], cs, hr => by
    intro st p mp rest o d ho hg hp hm hmp hsync
    simp only [readAttrs, Except.ok.injEq] at hr
    subst hr
    exact ⟨st.heap, [], rfl, by rw [addColl_nil]; exact hp, hmp, fun _ _ _ _ => rfl, Nat.le_refl _, by simp [DenList], rfl⟩
  | x :: xs, cs, hr => by
    simp only [readAttrs] at hr
    split at hr
    · simp at hr
    · rename_i a ha
      split at hr
      · simp at hr
      · rename_i as has
        simp only [Except.ok.injEq] at hr
        subst hr
        intro st p mp rest o d ho hg hp hm hmp hsync
        obtain ⟨h1, r, q1, q2, q3, q4, q5, q6, q7⟩ := readAttr_run rnd mgr x ha ho hg hp hm hmp hsync
        have hsync' : Sync st.attrs p (addColl o [r]) := by
          rcases hsync with ⟨e, h⟩ | ⟨q, e, h⟩
          · exact Or.inl ⟨e, by rw [isAttrObj_addColl]; exact h⟩
          · exact Or.inr ⟨q, e, by rw [isAttrObj_addColl]; exact h⟩
        obtain ⟨h2, rs, r1, r2, r3, r4, r5, r6, r7⟩ := readAttrs_run rnd mgr xs has (st := { st with heap := h1 }) (p := p)
          (mp := mp) (rest := rest) (o := addColl o [r]) (d := dset a.key r d) ho hg q2 (by rw [mapPtr_addColl]; exact hm) q3
          hsync'
        simp only at r1 r2 r3 r4 r5 r6 r7
        have hpl := get_lt hp
        have hml := get_lt hmp
        refine ⟨h2, r :: rs, ?_, ?_, ?_, ?_, by omega, ?_, by rw [r7]; exact q7⟩
        · simp only [saxList]
          exact xesRun_append_ok q1 r1
        · rw [r2, addColl_append]; simp
        · rw [r3]; simp [intoDict]
        · intro s hs e1 e2
          rw [r4 s (by omega) e1 e2, q4 s hs e1 e2]
        · simp only [DenList]
          refine ⟨r, rs, rfl, ?_, ?_⟩
          · exact q6.frame (Nat.le_refl _) r5 (fun s b1 b2 => r4 s b2 (by omega) (by omega))
          · exact r6.frame q5 (Nat.le_refl _) (fun _ _ _ => rfl)
end

/-! ## Global attributes -/

/-- Append to one of the two lists of global attributes. -/
def addGlobals (ev : Bool) (rs : List Ref) (o : LogObj) : LogObj :=
  if ev then { o with globalEvent := o.globalEvent ++ rs } else { o with globalTrace := o.globalTrace ++ rs }

theorem addGlobals_nil (ev : Bool) (o : LogObj) : addGlobals ev [] o = o := by
  cases ev <;> simp [addGlobals]

theorem addGlobals_append (ev : Bool) (rs ss : List Ref) (o : LogObj) :
    addGlobals ev ss (addGlobals ev rs o) = addGlobals ev (rs ++ ss) o := by
  cases ev <;> simp [addGlobals]

/-- End of an attribute element inside `global`. -/
theorem xesStop_glob {st : XesSt F} {t : Str} (ht : lower t ∈ attrTags) {i x l : Ref} {as rest : List Ref} {ev : Bool}
    (h1 : st.attrs = i :: as) (h2 : st.objs = x :: rest) (h3 : st.globals = some (l, ev)) {o : LogObj}
    (h4 : st.heap.get l = some (.log o)) :
    xesStop st t = .ok { st with
        heap := st.heap.put l (.log (addGlobals ev [i] o))
        attrs := as
        objs := rest } := by
  have hg : lower t ≠ py!"global" := by
    intro e; rw [e] at ht; revert ht; decide
  simp only [xesStop, hg, if_false, ht, not_true, h1, h2, h3, modLog, h4, bind, Except.bind, addGlobals]

mutual
theorem readGlob_run (rnd : Nat → Uuid) (mgr : ExtMgr) : ∀ (x : Xml) {cs : List (Attr F)}, readGlob mgr x = .ok cs →
    ∀ ⦃st : XesSt F⦄ ⦃l : Ref⦄ ⦃ev : Bool⦄ ⦃o : LogObj⦄, st.globals = some (l, ev) → st.heap.get l = some (.log o) →
    ∃ h' rs, xesRun (stdFactory F rnd) mgr st x.sax = .ok { st with heap := h' } ∧
      h'.get l = some (.log (addGlobals ev rs o)) ∧ (∀ s, s < st.heap.size → s ≠ l → h'.get s = st.heap.get s) ∧
      st.heap.size ≤ h'.size ∧ DenList h' st.heap.size h'.size cs rs ∧ h'.drawn = st.heap.drawn
  | .elem t as ks, a, hr => by
    simp only [readGlob] at hr
    split at hr
    · rename_i ht
      split at hr
      · simp at hr
      · simp at hr
      · rename_i k v hv
        split at hr
        · simp at hr
        · rename_i cs hcs
          simp only [Except.ok.injEq] at hr
          subst hr
          intro st l ev o hg hl
          let n := st.heap.size
          let key := elemKey as
          let ob : Obj F := .attr k key (extOfKey mgr key) v n []
          let h1 : Heap F := ⟨st.heap.objs ++ [.map [], ob], st.heap.drawn⟩
          let st1 : XesSt F := ⟨h1, st.log, st.trace, st.event, (n + 1) :: st.attrs, (n + 1) :: st.objs, st.globals⟩
          have hs1 : xesStep (stdFactory F rnd) mgr st (.start t as) = .ok st1 := readVal_start ht hv
          have g1 : h1.get (n + 1) = some ob := get_append_right (h := st.heap) 1
          have g0 : h1.get n = some (.map []) := get_append_right (h := st.heap) 0
          have gold : ∀ s, s < n → h1.get s = st.heap.get s := fun s hs => get_append_left hs
          have hsz1 : h1.size = n + 2 := by simp [h1, n, Heap.size]
          have hln : l < n := get_lt hl
          obtain ⟨h2, rs, r1, r2, r4, r5, r6, r7⟩ := readGlobs_run rnd mgr ks hcs (st := st1) (l := l) (ev := ev)
            (o := o) hg (by rw [← hl]; exact gold l hln)
          simp only [st1] at r1 r4 r5 r6 r7
          let h3 : Heap F := h2.put l (.log (addGlobals ev [n + 1] (addGlobals ev rs o)))
          have hsz3 : h3.size = h2.size := size_put _ _ _
          have k3 : ∀ s, s ≠ l → h3.get s = h2.get s := fun s hs => get_put_ne _ hs
          refine ⟨h3, rs ++ [n + 1], ?_, ?_, ?_, ?_, ?_, ?_⟩
          · simp only [Xml.sax]
            refine xesRun_cons_ok hs1 (xesRun_append_ok r1 ?_)
            simp only [xesRun, xesStep]
            rw [xesStop_glob (st := ⟨h2, st.log, st.trace, st.event, (n + 1) :: st.attrs, (n + 1) :: st.objs, st.globals⟩) ht
              (i := n + 1) (as := st.attrs) (x := n + 1) (rest := st.objs) rfl rfl hg r2]
            simp only [bind, Except.bind, h3]
          · have : h3.get l = _ := get_put_self _ (get_lt r2)
            rw [this, addGlobals_append]
          · intro s hs e
            rw [k3 s e, r4 s (by omega) e, gold s hs]
          · omega
          · refine DenList.append (r6.frame (by omega) (by omega) (fun s b1 b2 => k3 s (by omega))) (DenList.single ?_)
            simp only [Den]
            refine ⟨n, [], [], ⟨by omega, by omega, by omega, by omega⟩, ?_, ?_, by simp [DenMap], by simp [DenList]⟩
            · rw [k3 _ (by omega), r4 _ (by omega) (by omega)]
              exact g1
            · rw [k3 _ (by omega), r4 _ (by omega) (by omega)]
              exact g0
          · exact r7
    · simp at hr
theorem readGlobs_run (rnd : Nat → Uuid) (mgr : ExtMgr) : ∀ (xs : List Xml) {cs : List (Attr F)}, readGlobs mgr xs = .ok cs →
    ∀ ⦃st : XesSt F⦄ ⦃l : Ref⦄ ⦃ev : Bool⦄ ⦃o : LogObj⦄, st.globals = some (l, ev) → st.heap.get l = some (.log o) →
    ∃ h' rs, xesRun (stdFactory F rnd) mgr st (saxList xs) = .ok { st with heap := h' } ∧
      h'.get l = some (.log (addGlobals ev rs o)) ∧ (∀ s, s < st.heap.size → s ≠ l → h'.get s = st.heap.get s) ∧
      st.heap.size ≤ h'.size ∧ DenList h' st.heap.size h'.size cs rs ∧ h'.drawn = st.heap.drawn
  | [], cs, hr => by
    intro st l ev o hg hl
    simp only [readGlobs, Except.ok.injEq] at hr
    subst hr
    exact ⟨st.heap, [], rfl, by rw [addGlobals_nil]; exact hl, fun _ _ _ => rfl, Nat.le_refl _, by simp [DenList], rfl⟩
  | x :: xs, cs, hr => by
    simp only [readGlobs] at hr
    split at hr
    · simp at hr
    · rename_i a ha
      split at hr
      · simp at hr
      · rename_i as has
        simp only [Except.ok.injEq] at hr
        subst hr
        intro st l ev o hg hl
        obtain ⟨h1, r, q1, q2, q4, q5, q6, q7⟩ := readGlob_run rnd mgr x ha hg hl
        obtain ⟨h2, rs, r1, r2, r4, r5, r6, r7⟩ := readGlobs_run rnd mgr xs has (st := { st with heap := h1 }) (l := l)
          (ev := ev) (o := addGlobals ev r o) hg q2
        simp only at r1 r2 r4 r5 r6 r7
        have hll := get_lt hl
        refine ⟨h2, r ++ rs, ?_, ?_, ?_, by omega, ?_, by rw [r7]; exact q7⟩
        · simp only [saxList]
          exact xesRun_append_ok q1 r1
        · rw [r2, addGlobals_append]
        · intro s hs e1
          rw [r4 s (by omega) e1, q4 s hs e1]
        · exact DenList.append (q6.frame (Nat.le_refl _) r5 (fun s b1 b2 => r4 s b2 (by omega)))
            (r6.frame q5 (Nat.le_refl _) (fun _ _ _ => rfl))
end

/-! ## Events, traces, logs -/

/-- What a log contains, without the identifiers of the events. -/
structure Content (F : Type) where
  attrs : List (Str × Attr F)
  extensions : List Ext
  classifiers : List Classifier
  globalTrace : List (Attr F)
  globalEvent : List (Attr F)
  features : List (Str × Str)
  traces : List (List (Str × Attr F) × List (List (Str × Attr F)))

/-- The object `e` is an event with these attributes. -/
def DenEvent (h : Heap F) (a b : Nat) (m : List (Str × Attr F)) (e : Ref) : Prop :=
  ∃ u mr d, (a ≤ e ∧ e < b ∧ a ≤ mr ∧ mr < b) ∧ h.get e = some (.event u mr) ∧ h.get mr = some (.map d) ∧ DenMap h a b m d

/-- Objects one by one. -/
def DenAll {α : Type} (P : α → Ref → Prop) : List α → List Ref → Prop
  | [], rs => rs = []
  | x :: xs, rs => ∃ r rs', rs = r :: rs' ∧ P x r ∧ DenAll P xs rs'

/-- The object `t` is a trace with these attributes and events. -/
def DenTrace (h : Heap F) (a b : Nat) (c : List (Str × Attr F) × List (List (Str × Attr F))) (t : Ref) : Prop :=
  ∃ mr d es, (a ≤ t ∧ t < b ∧ a ≤ mr ∧ mr < b) ∧ h.get t = some (.trace mr es) ∧ h.get mr = some (.map d) ∧
    DenMap h a b c.1 d ∧ DenAll (DenEvent h a b) c.2 es

/-- The object `l` is a log with this content. -/
def DenLog (h : Heap F) (a b : Nat) (c : Content F) (l : Ref) : Prop :=
  ∃ mr d gt ge ts, (a ≤ l ∧ l < b ∧ a ≤ mr ∧ mr < b) ∧
    h.get l = some (.log ⟨mr, c.extensions, c.classifiers, gt, ge, c.features, ts⟩) ∧ h.get mr = some (.map d) ∧
    DenMap h a b c.attrs d ∧ DenList h a b c.globalTrace gt ∧ DenList h a b c.globalEvent ge ∧
    DenAll (DenTrace h a b) c.traces ts

theorem DenAll.imp {α : Type} {P Q : α → Ref → Prop} (h : ∀ x r, P x r → Q x r) : ∀ {xs : List α} {rs : List Ref},
    DenAll P xs rs → DenAll Q xs rs
  | [], _, hd => hd
  | x :: xs, rs, hd => by
    obtain ⟨r, rs', e, h1, h2⟩ := hd
    exact ⟨r, rs', e, h _ _ h1, DenAll.imp h h2⟩

theorem DenAll.snoc {α : Type} {P : α → Ref → Prop} {x : α} {r : Ref} (hx : P x r) : ∀ {xs : List α} {rs : List Ref},
    DenAll P xs rs → DenAll P (xs ++ [x]) (rs ++ [r])
  | [], rs, hd => by
    simp only [DenAll] at hd
    subst hd
    exact ⟨r, [], rfl, hx, rfl⟩
  | y :: xs, rs, hd => by
    obtain ⟨s, rs', rfl, h1, h2⟩ := hd
    exact ⟨s, rs' ++ [r], rfl, h1, DenAll.snoc hx h2⟩

theorem DenEvent.frame {h h' : Heap F} {a b a' b' : Nat} (ha : a' ≤ a) (hb : b ≤ b')
    (hs : ∀ r, a ≤ r → r < b → h'.get r = h.get r) {m : List (Str × Attr F)} {e : Ref} (hd : DenEvent h a b m e) :
    DenEvent h' a' b' m e := by
  obtain ⟨u, mr, d, ⟨b1, b2, b3, b4⟩, g1, g2, g3⟩ := hd
  exact ⟨u, mr, d, ⟨by omega, by omega, by omega, by omega⟩, by rw [hs _ b1 b2]; exact g1, by rw [hs _ b3 b4]; exact g2,
    g3.frame ha hb hs⟩

theorem DenTrace.frame {h h' : Heap F} {a b a' b' : Nat} (ha : a' ≤ a) (hb : b ≤ b')
    (hs : ∀ r, a ≤ r → r < b → h'.get r = h.get r) {c : List (Str × Attr F) × List (List (Str × Attr F))} {t : Ref}
    (hd : DenTrace h a b c t) : DenTrace h' a' b' c t := by
  obtain ⟨mr, d, es, ⟨b1, b2, b3, b4⟩, g1, g2, g3, g4⟩ := hd
  exact ⟨mr, d, es, ⟨by omega, by omega, by omega, by omega⟩, by rw [hs _ b1 b2]; exact g1, by rw [hs _ b3 b4]; exact g2,
    g3.frame ha hb hs, g4.imp fun _ _ hd => hd.frame ha hb hs⟩

theorem mem_of_eq {t x : Str} (h : lower t = x) (hx : x ∉ attrTags) : lower t ∉ attrTags := by rw [h]; exact hx

/-- An event element. -/
theorem event_run (rnd : Nat → Uuid) (mgr : ExtMgr) {t : Str} {as : List (Str × Str)} {ks : List Xml} {cs : List (Attr F)}
    (ht : lower t = py!"event") (hr : readAttrs mgr ks = .ok cs) {st : XesSt F} {tr m : Ref} {es : List Ref}
    (ha : st.attrs = []) (hg : st.globals = none) (htr : st.trace = some tr) (hget : st.heap.get tr = some (.trace m es)) :
    ∃ h' e, xesRun (stdFactory F rnd) mgr st (Xml.elem t as ks).sax = .ok { st with
        heap := h'
        event := none } ∧
      h'.get tr = some (.trace m (es ++ [e])) ∧ (∀ s, s < st.heap.size → s ≠ tr → h'.get s = st.heap.get s) ∧
      st.heap.size ≤ h'.size ∧ DenEvent h' st.heap.size h'.size (intoMap [] cs) e := by
  let n := st.heap.size
  let h1 : Heap F := ⟨st.heap.objs ++ [.map [], .map [], .event (rnd st.heap.drawn) (n + 1)], st.heap.drawn + 1⟩
  have hnt : lower t ∉ attrTags := mem_of_eq ht (by decide)
  have hs1 : xesStep (stdFactory F rnd) mgr st (.start t as) =
      .ok ⟨h1, st.log, st.trace, some (n + 2), st.attrs, (n + 2) :: st.objs, st.globals⟩ := by
    simp only [xesStep, xesStart, hnt, not_false_eq_true, if_true]
    simp only [ht, if_true, stdFactory, createEvent_none, h1, n]
  have g2 : h1.get (n + 2) = some (.event (rnd st.heap.drawn) (n + 1)) := get_append_right (h := st.heap) 2
  have g1 : h1.get (n + 1) = some (.map []) := get_append_right (h := st.heap) 1
  have gold : ∀ s, s < n → h1.get s = st.heap.get s := fun s hs => get_append_left hs
  have hsz1 : h1.size = n + 3 := by simp [h1, n, Heap.size]
  obtain ⟨h2, rs, r1, r2, r3, r4, r5, r6, r7⟩ := readAttrs_run rnd mgr ks hr
    (st := ⟨h1, st.log, st.trace, some (n + 2), st.attrs, (n + 2) :: st.objs, st.globals⟩) (p := n + 2) (mp := n + 1)
    (rest := st.objs) (d := []) rfl hg g2 rfl g1 (Or.inl ⟨ha, rfl⟩)
  simp only at r1 r4 r5 r6 r7
  have htl : tr < n := get_lt hget
  have t2 : h2.get tr = some (.trace m es) := by rw [r4 tr (by omega) (by omega) (by omega), gold tr htl]; exact hget
  let h3 : Heap F := h2.put tr (.trace m (es ++ [n + 2]))
  have k3 : ∀ s, s ≠ tr → h3.get s = h2.get s := fun s hs => get_put_ne _ hs
  have hsz3 : h3.size = h2.size := size_put _ _ _
  refine ⟨h3, n + 2, ?_, get_put_self _ (get_lt t2), ?_, by omega, ?_⟩
  · simp only [Xml.sax]
    refine xesRun_cons_ok hs1 (xesRun_append_ok r1 ?_)
    have hng : lower t ≠ py!"global" := by rw [ht]; decide
    simp only [xesRun, xesStep, xesStop, hng, if_false, hnt, not_false_eq_true, if_true]
    simp only [ht, if_true, htr, traceAppend, t2, bind, Except.bind, h3]
  · intro s hs e
    rw [k3 s e, r4 s (by omega) (by omega) (by omega), gold s hs]
  · refine ⟨rnd st.heap.drawn, n + 1, intoDict [] (cs.map Attr.key) rs, ⟨by omega, by omega, by omega, by omega⟩, ?_, ?_, ?_⟩
    · rw [k3 _ (by omega), r2]
      rfl
    · rw [k3 _ (by omega), r3]
    · exact (DenMap.into (by simp [DenMap]) r6).frame (by omega) (by omega) (fun s b1 b2 => k3 s (by omega))

/-- The content of a trace element: attributes and events in any order. -/
def readTrace (mgr : ExtMgr) : List Xml → List (Str × Attr F) × List (List (Str × Attr F)) →
    Except PyErr (List (Str × Attr F) × List (List (Str × Attr F)))
  | [], c => .ok c
  | .elem t as ks :: xs, c =>
    if lower t = py!"event" then do
      let cs ← readAttrs mgr ks
      readTrace mgr xs (c.1, c.2 ++ [intoMap [] cs])
    else do
      let a ← readAttr mgr (.elem t as ks)
      readTrace mgr xs (dset a.key a c.1, c.2)

theorem traceItems_run (rnd : Nat → Uuid) (mgr : ExtMgr) : ∀ (xs : List Xml)
    {c c' : List (Str × Attr F) × List (List (Str × Attr F))}, readTrace mgr xs c = .ok c' → ∀ ⦃st : XesSt F⦄ ⦃n : Nat⦄
    ⦃tr m : Ref⦄ ⦃rest es : List Ref⦄ ⦃d : List (Str × Ref)⦄, st.objs = tr :: rest → st.attrs = [] → st.globals = none →
    st.trace = some tr → st.event = none → st.heap.get tr = some (.trace m es) → st.heap.get m = some (.map d) → tr < n → m < n →
    n ≤ st.heap.size → DenMap st.heap n st.heap.size c.1 d → DenAll (DenEvent st.heap n st.heap.size) c.2 es →
    ∃ h' es' d', xesRun (stdFactory F rnd) mgr st (saxList xs) = .ok { st with heap := h' } ∧
      h'.get tr = some (.trace m es') ∧ h'.get m = some (.map d') ∧
      (∀ s, s < n → s ≠ tr → s ≠ m → h'.get s = st.heap.get s) ∧ st.heap.size ≤ h'.size ∧
      DenMap h' n h'.size c'.1 d' ∧ DenAll (DenEvent h' n h'.size) c'.2 es' := by
  intro xs
  induction xs with
  | nil =>
    intro c c' hr st n tr m rest es d ho ha hg htr hev hget hm h1 h2 h3 hd he
    simp only [readTrace, Except.ok.injEq] at hr
    subst hr
    exact ⟨st.heap, es, d, rfl, hget, hm, fun _ _ _ _ => rfl, Nat.le_refl _, hd, he⟩
  | cons x xs ih =>
    intro c c' hr st n tr m rest es d ho ha hg htr hev hget hm h1 h2 h3 hd he
    obtain ⟨t, as, ks⟩ := x
    have htm : tr ≠ m := by intro e; rw [e, hm] at hget; simp at hget
    simp only [readTrace] at hr
    split at hr
    · rename_i ht
      obtain ⟨cs, hcs, hr⟩ := bind_ok.1 hr
      obtain ⟨h', e, q1, q2, q3, q4, q5⟩ := event_run rnd mgr (as := as) ht hcs ha hg htr hget
      have fr : ∀ s, n ≤ s → s < st.heap.size → h'.get s = st.heap.get s := fun s b1 b2 => q3 s b2 (by omega)
      have hmm : h'.get m = some (.map d) := by rw [q3 m (by omega) (Ne.symm htm)]; exact hm
      have hd1 := hd.frame (Nat.le_refl n) q4 fr
      have he1 := (he.imp fun _ _ x => x.frame (Nat.le_refl n) q4 fr).snoc (q5.frame h3 (Nat.le_refl _) fun _ _ _ => rfl)
      obtain ⟨h'', es', d', r1, r2, r3, r4, r5, r6, r7⟩ := ih hr (st := { st with
        heap := h'
        event := none }) ho ha hg htr rfl q2 hmm h1 h2 (by simp only; omega) hd1 he1
      simp only at r1 r4 r5
      refine ⟨h'', es', d', ?_, r2, r3, ?_, by omega, r6, r7⟩
      · simp only [saxList]
        rw [← hev] at r1 q1
        exact xesRun_append_ok q1 r1
      · intro s b1 b2 b3
        rw [r4 s b1 b2 b3, q3 s (by omega) b2]
    · obtain ⟨a, hat, hr⟩ := bind_ok.1 hr
      obtain ⟨h', r, q1, q2, q3, q4, q5, q6, q7⟩ := readAttr_run rnd mgr (.elem t as ks) hat ho hg hget rfl hm
        (Or.inl ⟨ha, rfl⟩)
      have fr : ∀ s, n ≤ s → s < st.heap.size → h'.get s = st.heap.get s := fun s b1 b2 => q4 s b2 (by omega) (by omega)
      have hd1 := (hd.frame (Nat.le_refl n) q5 fr).dset (k := a.key) (q6.frame h3 (Nat.le_refl _) fun _ _ _ => rfl)
      have he1 := he.imp fun _ _ x => x.frame (Nat.le_refl n) q5 fr
      obtain ⟨h'', es', d', r1, r2, r3, r4, r5, r6, r7⟩ := ih hr (st := { st with heap := h' }) ho ha hg htr hev q2 q3 h1 h2
        (by simp only; omega) hd1 he1
      simp only at r1 r4 r5
      refine ⟨h'', es', d', ?_, r2, r3, ?_, by omega, r6, r7⟩
      · simp only [saxList]
        exact xesRun_append_ok q1 r1
      · intro s b1 b2 b3
        rw [r4 s b1 b2 b3, q4 s (by omega) b2 b3]

/-- A trace element. -/
theorem trace_run (rnd : Nat → Uuid) (mgr : ExtMgr) {t : Str} {as : List (Str × Str)} {ks : List Xml}
    {c : List (Str × Attr F) × List (List (Str × Attr F))}
    (ht : lower t = py!"trace") (hr : readTrace mgr ks ([], []) = .ok c) {st : XesSt F} {l : Ref} {o : LogObj}
    (ha : st.attrs = []) (hg : st.globals = none) (hev : st.event = none) (hl : st.log = some l)
    (hget : st.heap.get l = some (.log o)) :
    ∃ h' tr, xesRun (stdFactory F rnd) mgr st (Xml.elem t as ks).sax = .ok { st with
        heap := h'
        trace := none } ∧
      h'.get l = some (.log { o with traces := o.traces ++ [tr] }) ∧
      (∀ s, s < st.heap.size → s ≠ l → h'.get s = st.heap.get s) ∧
      st.heap.size ≤ h'.size ∧ DenTrace h' st.heap.size h'.size c tr := by
  let n := st.heap.size
  let h1 : Heap F := ⟨st.heap.objs ++ [.map [], .map [], .trace (n + 1) []], st.heap.drawn⟩
  have hnt : lower t ∉ attrTags := mem_of_eq ht (by decide)
  have hne : lower t ≠ py!"event" := by rw [ht]; decide
  have hs1 : xesStep (stdFactory F rnd) mgr st (.start t as) =
      .ok ⟨h1, st.log, some (n + 2), st.event, st.attrs, (n + 2) :: st.objs, st.globals⟩ := by
    simp only [xesStep, xesStart, hnt, not_false_eq_true, if_true, hne, if_false]
    simp only [ht, if_true, stdFactory, createTrace_none, h1, n]
  have g2 : h1.get (n + 2) = some (.trace (n + 1) []) := get_append_right (h := st.heap) 2
  have g1 : h1.get (n + 1) = some (.map []) := get_append_right (h := st.heap) 1
  have gold : ∀ s, s < n → h1.get s = st.heap.get s := fun s hs => get_append_left hs
  have hsz1 : h1.size = n + 3 := by simp [h1, n, Heap.size]
  obtain ⟨h2, es, d, r1, r2, r3, r4, r5, r6, r7⟩ := traceItems_run rnd mgr ks hr
    (st := ⟨h1, st.log, some (n + 2), st.event, st.attrs, (n + 2) :: st.objs, st.globals⟩) (n := n + 3) (tr := n + 2)
    (m := n + 1) (rest := st.objs) (es := []) (d := []) rfl ha hg rfl hev g2 g1 (by omega) (by omega) (by simp only; omega)
    (by simp [DenMap]) (by simp [DenAll])
  simp only at r1 r4 r5
  have hll : l < n := get_lt hget
  have l2 : h2.get l = some (.log o) := by rw [r4 l (by omega) (by omega) (by omega), gold l hll]; exact hget
  let h3 : Heap F := h2.put l (.log { o with traces := o.traces ++ [n + 2] })
  have k3 : ∀ s, s ≠ l → h3.get s = h2.get s := fun s hs => get_put_ne _ hs
  have hsz3 : h3.size = h2.size := size_put _ _ _
  refine ⟨h3, n + 2, ?_, get_put_self _ (get_lt l2), ?_, by omega, ?_⟩
  · simp only [Xml.sax]
    refine xesRun_cons_ok hs1 (xesRun_append_ok r1 ?_)
    have hng : lower t ≠ py!"global" := by rw [ht]; decide
    simp only [xesRun, xesStep, xesStop, hng, if_false, hnt, not_false_eq_true, if_true, hne]
    simp only [ht, if_true, hl, logAppend, l2, bind, Except.bind, h3]
  · intro s hs e
    rw [k3 s e, r4 s (by omega) (by omega) (by omega), gold s hs]
  · have fr : ∀ s, n + 3 ≤ s → s < h2.size → h3.get s = h2.get s := fun s b1 b2 => k3 s (by omega)
    exact ⟨n + 1, d, es, ⟨by omega, by omega, by omega, by omega⟩, by rw [k3 _ (by omega)]; exact r2,
      by rw [k3 _ (by omega)]; exact r3, r6.frame (by omega) (by omega) fr,
      r7.imp fun _ _ x => x.frame (by omega) (by omega) fr⟩

/-- The extension named by an extension element. -/
def readExt (mgr : ExtMgr) (as : List (Str × Str)) : Except PyErr (Option Ext) :=
  match dget py!"prefix" as, dget py!"uri" as with
  | some p, some _ => .ok (mgr.byPrefix p)
  | some p, none => match mgr.byPrefix p with
    | some e => .ok (some e)
    | none => .error .typeError
  | none, some u => mgr.byUri u
  | none, none => .error .typeError

/-- The classifier of a classifier element. -/
def readClassifier (as : List (Str × Str)) : Option Classifier :=
  match dget py!"name" as, dget py!"keys" as with
  | some name, some keys => if name.length > 0 ∧ keys.length > 0 then some ⟨name, extractTokens keys⟩ else none
  | _, _ => none

/-- The content of a log element: attributes, extensions, global attributes, classifiers and traces in
any order. -/
def readLog (mgr : ExtMgr) : List Xml → Content F → Except PyErr (Content F)
  | [], c => .ok c
  | .elem t as ks :: xs, c =>
    if lower t = py!"trace" then do
      let tr ← readTrace mgr ks ([], [])
      readLog mgr xs { c with traces := c.traces ++ [tr] }
    else if lower t = py!"extension" then do
      match ks with
      | _ :: _ => .error .other
      | [] =>
        match ← readExt mgr as with
        | none => readLog mgr xs c
        | some e => readLog mgr xs { c with extensions := extAdd e c.extensions }
    else if lower t = py!"classifier" then
      match ks with
      | _ :: _ => .error .other
      | [] =>
        match readClassifier as with
        | none => readLog mgr xs c
        | some k => readLog mgr xs { c with classifiers := c.classifiers ++ [k] }
    else if lower t = py!"global" then
      match dget py!"scope" as with
      | none => .error .attributeError
      | some s =>
        if lower s = py!"trace" then do
          let gs ← readGlobs mgr ks
          readLog mgr xs { c with globalTrace := c.globalTrace ++ gs }
        else if lower s = py!"event" then do
          let gs ← readGlobs mgr ks
          readLog mgr xs { c with globalEvent := c.globalEvent ++ gs }
        else .error .other
    else do
      let a ← readAttr mgr (.elem t as ks)
      readLog mgr xs { c with attrs := dset a.key a c.attrs }

/-- The log object `l` with map `m` has this content, held in cells of `[n, b)`. -/
def LogAt (h : Heap F) (n b : Nat) (c : Content F) (l m : Ref) : Prop :=
  ∃ d gt ge ts, h.get l = some (.log ⟨m, c.extensions, c.classifiers, gt, ge, c.features, ts⟩) ∧ h.get m = some (.map d) ∧
    DenMap h n b c.attrs d ∧ DenList h n b c.globalTrace gt ∧ DenList h n b c.globalEvent ge ∧
    DenAll (DenTrace h n b) c.traces ts

theorem run_pair {fac : Factory F} {mgr : ExtMgr} {st s s' : XesSt F} {t : Str} {as : List (Str × Str)}
    (h1 : xesStep fac mgr st (.start t as) = .ok s) (h2 : xesStep fac mgr s (.stop t) = .ok s') :
    xesRun fac mgr st (Xml.elem t as []).sax = .ok s' := by
  simp only [Xml.sax, saxList, List.nil_append, xesRun, h1, h2, bind, Except.bind]

theorem stop_ignored {st : XesSt F} {t : Str} (h1 : lower t ∉ attrTags) (h2 : lower t ≠ py!"global")
    (h3 : lower t ≠ py!"event") (h4 : lower t ≠ py!"trace") (h5 : lower t ≠ py!"log") (fac : Factory F) (mgr : ExtMgr) :
    xesStep fac mgr st (.stop t) = .ok st := by
  simp only [xesStep, xesStop, h1, h2, h3, h4, h5, not_false_eq_true, if_true, if_false]

theorem logItems_run (rnd : Nat → Uuid) (mgr : ExtMgr) : ∀ (xs : List Xml)
    {c c' : Content F}, readLog mgr xs c = .ok c' → ∀ ⦃st : XesSt F⦄ ⦃n : Nat⦄
    ⦃l m : Ref⦄ ⦃rest : List Ref⦄, st.objs = l :: rest → st.attrs = [] → st.globals = none →
    st.trace = none → st.event = none → st.log = some l → l < n → m < n → n ≤ st.heap.size →
    LogAt st.heap n st.heap.size c l m →
    ∃ h', xesRun (stdFactory F rnd) mgr st (saxList xs) = .ok { st with heap := h' } ∧ LogAt h' n h'.size c' l m ∧
      (∀ s, s < n → s ≠ l → s ≠ m → h'.get s = st.heap.get s) ∧ st.heap.size ≤ h'.size := by
  intro xs
  induction xs with
  | nil =>
    intro c c' hr st n l m rest ho ha hg htr hev hlog h1 h2 h3 hat
    simp only [readLog, Except.ok.injEq] at hr
    subst hr
    exact ⟨st.heap, rfl, hat, fun _ _ _ _ => rfl, Nat.le_refl _⟩
  | cons x xs ih =>
    intro c c' hr st n l m rest ho ha hg htr hev hlog h1 h2 h3 hat
    -- one item, then the rest
    have key : ∀ (c1 : Content F) (h' : Heap F), readLog mgr xs c1 = .ok c' →
        xesRun (stdFactory F rnd) mgr st x.sax = .ok { st with heap := h' } → LogAt h' n h'.size c1 l m →
        (∀ s, s < n → s ≠ l → s ≠ m → h'.get s = st.heap.get s) → st.heap.size ≤ h'.size →
        ∃ h', xesRun (stdFactory F rnd) mgr st (saxList (x :: xs)) = .ok { st with heap := h' } ∧ LogAt h' n h'.size c' l m ∧
          (∀ s, s < n → s ≠ l → s ≠ m → h'.get s = st.heap.get s) ∧ st.heap.size ≤ h'.size := by
      intro c1 h' hr hrun hat' hold hsz
      obtain ⟨h'', r1, r2, r3, r4⟩ := ih hr (st := { st with heap := h' }) ho ha hg htr hev hlog h1 h2 (by simp only; omega) hat'
      simp only at r1 r3 r4
      refine ⟨h'', ?_, r2, ?_, by omega⟩
      · simp only [saxList]
        exact xesRun_append_ok hrun r1
      · intro s b1 b2 b3
        rw [r3 s b1 b2 b3, hold s b1 b2 b3]
    obtain ⟨t, as, ks⟩ := x
    obtain ⟨d, gt, ge, ts, gl, gm, dm, dgt, dge, dts⟩ := hat
    have hlm : l ≠ m := by intro e; rw [e, gm] at gl; simp at gl
    -- frames
    have mkAt : ∀ {h' : Heap F} {c1 : Content F} {d' gt' ge' ts'}, st.heap.size ≤ h'.size →
        (∀ s, n ≤ s → s < st.heap.size → h'.get s = st.heap.get s) →
        h'.get l = some (.log ⟨m, c1.extensions, c1.classifiers, gt', ge', c1.features, ts'⟩) → h'.get m = some (.map d') →
        ((c1.attrs = c.attrs ∧ d' = d) ∨ DenMap h' n h'.size c1.attrs d') →
        ((c1.globalTrace = c.globalTrace ∧ gt' = gt) ∨ DenList h' n h'.size c1.globalTrace gt') →
        ((c1.globalEvent = c.globalEvent ∧ ge' = ge) ∨ DenList h' n h'.size c1.globalEvent ge') →
        ((c1.traces = c.traces ∧ ts' = ts) ∨ DenAll (DenTrace h' n h'.size) c1.traces ts') → LogAt h' n h'.size c1 l m := by
      intro h' c1 d' gt' ge' ts' hsz fr g1 g2 o1 o2 o3 o4
      refine ⟨d', gt', ge', ts', g1, g2, ?_, ?_, ?_, ?_⟩
      · rcases o1 with ⟨e1, e2⟩ | o
        · rw [e1, e2]; exact dm.frame (Nat.le_refl _) hsz fr
        · exact o
      · rcases o2 with ⟨e1, e2⟩ | o
        · rw [e1, e2]; exact dgt.frame (Nat.le_refl _) hsz fr
        · exact o
      · rcases o3 with ⟨e1, e2⟩ | o
        · rw [e1, e2]; exact dge.frame (Nat.le_refl _) hsz fr
        · exact o
      · rcases o4 with ⟨e1, e2⟩ | o
        · rw [e1, e2]; exact dts.imp fun _ _ x => x.frame (Nat.le_refl _) hsz fr
        · exact o
    have putl : ∀ (o : LogObj) (s : Ref), s ≠ l → (st.heap.put l (.log o)).get s = st.heap.get s :=
      fun o s hs => get_put_ne _ hs
    simp only [readLog] at hr
    split at hr
    · -- trace
      rename_i ht
      obtain ⟨tr, htr', hr⟩ := bind_ok.1 hr
      obtain ⟨h', r, q1, q2, q3, q4, q5⟩ := trace_run rnd mgr (as := as) ht htr' ha hg hev hlog gl
      rw [← htr] at q1
      have fr : ∀ s, n ≤ s → s < st.heap.size → h'.get s = st.heap.get s := fun s b1 b2 => q3 s b2 (by omega)
      refine key _ h' hr q1 (mkAt q4 fr q2 (by rw [q3 m (by omega) (Ne.symm hlm)]; exact gm) (Or.inl ⟨rfl, rfl⟩)
        (Or.inl ⟨rfl, rfl⟩) (Or.inl ⟨rfl, rfl⟩) (Or.inr ?_)) (fun s b1 b2 b3 => q3 s (by omega) b2) q4
      exact (dts.imp fun _ _ x => x.frame (Nat.le_refl _) q4 fr).snoc (q5.frame h3 (Nat.le_refl _) fun _ _ _ => rfl)
    · rename_i hnt
      split at hr
      · -- extension
        rename_i ht
        have b1 : lower t ∉ attrTags := mem_of_eq ht (by decide)
        have b2 : lower t ≠ py!"event" := by rw [ht]; decide
        have b3 : lower t ≠ py!"log" := by rw [ht]; decide
        have b4 : lower t ≠ py!"global" := by rw [ht]; decide
        split at hr
        · simp at hr
        · obtain ⟨oe, he, hr⟩ := bind_ok.1 hr
          have hstop := fun (s : XesSt F) => stop_ignored (st := s) b1 b4 b2 hnt b3 (stdFactory F rnd) mgr
          have hstart : ∀ oe, readExt mgr as = .ok oe → xesStep (stdFactory F rnd) mgr st (.start t as) = match oe with
              | none => .ok st
              | some e => .ok { st with heap := st.heap.put l (.log ⟨m, extAdd e c.extensions, c.classifiers, gt, ge,
                  c.features, ts⟩) } := by
            intro oe he
            simp only [xesStep, xesStart, b1, not_false_eq_true, if_true, b2, hnt, b3, if_false]
            simp only [ht, if_true]
            unfold readExt at he
            cases hp : dget py!"prefix" as with
            | some p =>
              cases hu : dget py!"uri" as with
              | some u =>
                simp only [hp, hu, Except.ok.injEq] at he
                subst he
                cases hb : mgr.byPrefix p with
                | none => simp only [bind, Except.bind, hb]
                | some e => simp only [bind, Except.bind, hb, modLog, hlog, gl]
              | none =>
                simp only [hp, hu] at he
                cases hb : mgr.byPrefix p with
                | none => simp [hb] at he
                | some e =>
                  simp only [hb, Except.ok.injEq] at he
                  subst he
                  simp only [bind, Except.bind, hb, modLog, hlog, gl]
            | none =>
              cases hu : dget py!"uri" as with
              | some u =>
                simp only [hp, hu] at he
                simp only [he]
                cases oe with
                | none => simp only [bind, Except.bind]
                | some e => simp only [bind, Except.bind, modLog, hlog, gl]
              | none => simp [hp, hu] at he
          cases oe with
          | none =>
            refine key _ st.heap hr (run_pair (hstart _ he) (hstop st)) ⟨d, gt, ge, ts, gl, gm, dm, dgt, dge, dts⟩
              (fun _ _ _ _ => rfl) (Nat.le_refl _)
          | some e =>
            refine key _ _ hr (run_pair (hstart _ he) (hstop _)) (mkAt (Nat.le_of_eq (size_put _ _ _).symm)
              (fun s b1 b2 => putl _ s (by omega)) (get_put_self _ (get_lt gl)) (by rw [putl _ m (Ne.symm hlm)]; exact gm)
              (Or.inl ⟨rfl, rfl⟩) (Or.inl ⟨rfl, rfl⟩) (Or.inl ⟨rfl, rfl⟩) (Or.inl ⟨rfl, rfl⟩))
              (fun s b1 b2 b3 => putl _ s b2) (Nat.le_of_eq (size_put _ _ _).symm)
      · rename_i hne
        split at hr
        · -- classifier
          rename_i ht
          have b1 : lower t ∉ attrTags := mem_of_eq ht (by decide)
          have b2 : lower t ≠ py!"event" := by rw [ht]; decide
          have b3 : lower t ≠ py!"log" := by rw [ht]; decide
          have b4 : lower t ≠ py!"global" := by rw [ht]; decide
          split at hr
          · simp at hr
          · have hstop := fun (s : XesSt F) => stop_ignored (st := s) b1 b4 b2 hnt b3 (stdFactory F rnd) mgr
            have hstart : xesStep (stdFactory F rnd) mgr st (.start t as) = match readClassifier as with
                | none => .ok st
                | some k => .ok { st with heap := st.heap.put l (.log ⟨m, c.extensions, c.classifiers ++ [k], gt, ge,
                    c.features, ts⟩) } := by
              simp only [xesStep, xesStart, b1, not_false_eq_true, if_true, b2, hnt, b3, hne, b4, if_false]
              simp only [ht, if_true]
              unfold readClassifier
              cases hp : dget py!"name" as with
              | none => rfl
              | some nm =>
                cases hu : dget py!"keys" as with
                | none => rfl
                | some ky =>
                  by_cases hcnd : nm.length > 0 ∧ ky.length > 0
                  · simp only [if_pos hcnd, modLog, hlog, gl, bind, Except.bind]
                  · simp only [if_neg hcnd]
            split at hr
            · rename_i hc
              rw [hc] at hstart
              refine key _ st.heap hr (run_pair hstart (hstop st)) ⟨d, gt, ge, ts, gl, gm, dm, dgt, dge, dts⟩
                (fun _ _ _ _ => rfl) (Nat.le_refl _)
            · rename_i k hc
              rw [hc] at hstart
              refine key _ _ hr (run_pair hstart (hstop _)) (mkAt (Nat.le_of_eq (size_put _ _ _).symm)
                (fun s b1 b2 => putl _ s (by omega)) (get_put_self _ (get_lt gl)) (by rw [putl _ m (Ne.symm hlm)]; exact gm)
                (Or.inl ⟨rfl, rfl⟩) (Or.inl ⟨rfl, rfl⟩) (Or.inl ⟨rfl, rfl⟩) (Or.inl ⟨rfl, rfl⟩))
                (fun s b1 b2 b3 => putl _ s b2) (Nat.le_of_eq (size_put _ _ _).symm)
        · rename_i hnc
          split at hr
          · -- global
            rename_i ht
            have b1 : lower t ∉ attrTags := mem_of_eq ht (by decide)
            have b2 : lower t ≠ py!"event" := by rw [ht]; decide
            have b3 : lower t ≠ py!"log" := by rw [ht]; decide
            split at hr
            · simp at hr
            · rename_i sc hsc
              have hrunG : ∀ (ev : Bool) (h' : Heap F), xesStep (stdFactory F rnd) mgr st (.start t as) =
                    .ok { st with globals := some (l, ev) } →
                  xesRun (stdFactory F rnd) mgr { st with globals := some (l, ev) } (saxList ks) = .ok { st with
                    heap := h'
                    globals := some (l, ev) } →
                  xesRun (stdFactory F rnd) mgr st (Xml.elem t as ks).sax = .ok { st with heap := h' } := by
                intro ev h' e1 e2
                simp only [Xml.sax]
                refine xesRun_cons_ok e1 (xesRun_append_ok e2 ?_)
                simp only [xesRun, xesStep, xesStop, ht, if_true, bind, Except.bind]
                rw [← hg]
              split at hr
              · rename_i hs
                obtain ⟨gs, hgs, hr⟩ := bind_ok.1 hr
                obtain ⟨h', rs, r1, r2, r3, r4, r5, r6⟩ := readGlobs_run rnd mgr ks hgs
                  (st := { st with globals := some (l, false) }) rfl gl
                have hst : xesStep (stdFactory F rnd) mgr st (.start t as) = .ok { st with globals := some (l, false) } := by
                  simp only [xesStep, xesStart, b1, not_false_eq_true, if_true, b2, hnt, b3, hne, if_false]
                  simp only [ht, if_true, hsc, hs, hlog]
                have fr : ∀ s, n ≤ s → s < st.heap.size → h'.get s = st.heap.get s := fun s b1 b2 => r3 s b2 (by omega)
                refine key _ h' hr (hrunG false h' hst r1) (mkAt r4 fr r2 (by rw [r3 m (by simp only; omega) (Ne.symm hlm)]; exact gm)
                  (Or.inl ⟨rfl, rfl⟩) (Or.inr ?_) (Or.inl ⟨rfl, rfl⟩) (Or.inl ⟨rfl, rfl⟩))
                  (fun s b1 b2 b3 => r3 s (by simp only; omega) b2) r4
                exact DenList.append (dgt.frame (Nat.le_refl _) r4 fr) (r5.frame h3 (Nat.le_refl _) fun _ _ _ => rfl)
              · rename_i hns
                split at hr
                · rename_i hs
                  obtain ⟨gs, hgs, hr⟩ := bind_ok.1 hr
                  obtain ⟨h', rs, r1, r2, r3, r4, r5, r6⟩ := readGlobs_run rnd mgr ks hgs
                    (st := { st with globals := some (l, true) }) rfl gl
                  have hst : xesStep (stdFactory F rnd) mgr st (.start t as) = .ok { st with globals := some (l, true) } := by
                    simp only [xesStep, xesStart, b1, not_false_eq_true, if_true, b2, hnt, b3, hne, if_false]
                    simp only [ht, if_true, hsc, hns, if_false]
                    simp only [hs, if_true, hlog]
                  have fr : ∀ s, n ≤ s → s < st.heap.size → h'.get s = st.heap.get s := fun s b1 b2 => r3 s b2 (by omega)
                  refine key _ h' hr (hrunG true h' hst r1) (mkAt r4 fr r2 (by rw [r3 m (by simp only; omega) (Ne.symm hlm)]; exact gm)
                    (Or.inl ⟨rfl, rfl⟩) (Or.inl ⟨rfl, rfl⟩) (Or.inr ?_) (Or.inl ⟨rfl, rfl⟩))
                    (fun s b1 b2 b3 => r3 s (by simp only; omega) b2) r4
                  exact DenList.append (dge.frame (Nat.le_refl _) r4 fr) (r5.frame h3 (Nat.le_refl _) fun _ _ _ => rfl)
                · simp at hr
          · -- attribute
            obtain ⟨a, hat', hr⟩ := bind_ok.1 hr
            obtain ⟨h', r, q1, q2, q3, q4, q5, q6, q7⟩ := readAttr_run rnd mgr (.elem t as ks) hat' (mp := m) ho hg gl rfl gm
              (Or.inl ⟨ha, rfl⟩)
            have fr : ∀ s, n ≤ s → s < st.heap.size → h'.get s = st.heap.get s := fun s b1 b2 => q4 s b2 (by omega) (by omega)
            refine key _ h' hr q1 (mkAt q5 fr q2 q3 (Or.inr ?_) (Or.inl ⟨rfl, rfl⟩) (Or.inl ⟨rfl, rfl⟩) (Or.inl ⟨rfl, rfl⟩))
              (fun s b1 b2 b3 => q4 s (by omega) b2 b3) q5
            exact (dm.frame (Nat.le_refl n) q5 fr).dset (k := a.key) (q6.frame h3 (Nat.le_refl _) fun _ _ _ => rfl)

theorem createLog_none (h : Heap F) : createLog h none =
    (h.size + 2, ⟨h.objs ++ [.map [], .map [], .log ⟨h.size + 1, [], [], [], [], [], []⟩], h.drawn⟩) := by
  simp [createLog, newLog, mapTruthy, initMap, Heap.alloc, entries, Heap.get, Heap.size]

/-- The features of a log element. -/
def readFeatures (as : List (Str × Str)) : List (Str × Str) :=
  (as.filter fun p => isFeature p.1).foldl (fun d p => dset p.1 p.2 d) []

/-- A document: one log element. -/
def readDoc (mgr : ExtMgr) : Xml → Except PyErr (Content F)
  | .elem t as ks => if lower t = py!"log" then readLog mgr ks ⟨[], [], [], [], [], readFeatures as, []⟩ else .error .other

/-- Loading a document of the expected shape gives a fresh log with the content the document
describes and changes no older object. -/
theorem doc_parse (rnd : Nat → Uuid) (mgr : ExtMgr) {x : Xml} {c : Content F} (hx : readDoc mgr x = .ok c)
    (given : Option (Factory F)) (h : Heap F) :
    ∃ l h', xesParse given (stdFactory F rnd) mgr h x.sax = .ok (some l, h') ∧ DenLog h' h.size h'.size c l ∧
      Keeps h.size h h' := by
  obtain ⟨t, as, ks⟩ := x
  simp only [readDoc] at hx
  split at hx
  · rename_i ht
    let n := h.size
    let o0 : LogObj := ⟨n + 1, [], [], [], [], [], []⟩
    let h0 : Heap F := ⟨h.objs ++ [.map [], .map [], .log o0], h.drawn⟩
    let h1 : Heap F := h0.put (n + 2) (.log { o0 with features := readFeatures as })
    have g2 : h0.get (n + 2) = some (.log o0) := get_append_right (h := h) 2
    have g1 : h0.get (n + 1) = some (.map []) := get_append_right (h := h) 1
    have gold : ∀ s, s < n → h0.get s = h.get s := fun s hs => get_append_left hs
    have hsz0 : h0.size = n + 3 := by simp [h0, n, Heap.size]
    have hsz1 : h1.size = n + 3 := by rw [← hsz0]; exact size_put _ _ _
    have k1 : ∀ s, s ≠ n + 2 → h1.get s = h0.get s := fun s hs => get_put_ne _ hs
    have b1 : lower t ∉ attrTags := mem_of_eq ht (by decide)
    have b2 : lower t ≠ py!"event" := by rw [ht]; decide
    have b3 : lower t ≠ py!"trace" := by rw [ht]; decide
    have b4 : lower t ≠ py!"global" := by rw [ht]; decide
    have hst : xesStep (stdFactory F rnd) mgr (.init h) (.start t as) =
        .ok ⟨h1, some (n + 2), none, none, [], [n + 2], none⟩ := by
      simp only [xesStep, xesStart, b1, not_false_eq_true, if_true, b2, b3, if_false]
      simp only [ht, if_true, stdFactory, XesSt.init, createLog_none, modLog]
      have : Heap.get (F := F) ⟨h.objs ++ [.map [], .map [], .log ⟨h.size + 1, [], [], [], [], [], []⟩], h.drawn⟩ (h.size + 2) =
        some (.log ⟨h.size + 1, [], [], [], [], [], []⟩) := g2
      simp only [this, bind, Except.bind]
      rfl
    obtain ⟨h2, r1, r2, r3, r4⟩ := logItems_run rnd mgr ks hx (st := ⟨h1, some (n + 2), none, none, [], [n + 2], none⟩)
      (n := n + 3) (l := n + 2) (m := n + 1) (rest := []) rfl rfl rfl rfl rfl rfl (by omega) (by omega)
      (by simp only; omega) ⟨[], [], [], [], get_put_self _ (by omega), by rw [k1 _ (by omega)]; exact g1, by simp [DenMap],
        by simp [DenList], by simp [DenList], by simp [DenAll]⟩
    simp only at r1 r3 r4
    refine ⟨n + 2, h2, ?_, ?_, ⟨by omega, ?_⟩⟩
    · have : xesRun (stdFactory F rnd) mgr (.init h) (Xml.elem t as ks).sax =
          .ok ⟨h2, some (n + 2), none, none, [], [], none⟩ := by
        simp only [Xml.sax]
        refine xesRun_cons_ok hst (xesRun_append_ok r1 ?_)
        simp only [xesRun, xesStep, xesStop, b4, if_false, b1, not_false_eq_true, if_true, b2, b3]
        simp only [ht, if_true, bind, Except.bind]
      simp only [xesParse, this, bind, Except.bind]
    · obtain ⟨d, gt, ge, ts, a1, a2, a3, a4, a5, a6⟩ := r2
      have fr : ∀ s, n + 3 ≤ s → s < h2.size → h2.get s = h2.get s := fun _ _ _ => rfl
      exact ⟨n + 1, d, gt, ge, ts, ⟨by omega, by omega, by omega, by omega⟩, a1, a2, a3.frame (by omega) (Nat.le_refl _) fr,
        a4.frame (by omega) (Nat.le_refl _) fr, a5.frame (by omega) (Nat.le_refl _) fr,
        a6.imp fun _ _ x => x.frame (by omega) (Nat.le_refl _) fr⟩
    · intro s hs
      rw [r3 s (by omega) (by omega) (by omega), k1 s (by omega), gold s hs]
  · simp at hx

end

end Opy
