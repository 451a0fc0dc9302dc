import Verif.Props.Alias
/-
Property C142: assigning nested values on objects.
-/
set_option linter.unusedSectionVars false

namespace Opy

section
variable {F : Type} [PyFloat F]

/-! ## Specification -/

/-- The attribute map behind the assignment along one path: the attributes on the way exist, and the call is made on the last one (a call
that raises changes nothing there).  An empty path changes nothing. -/
def pathAfter (lt : LocalTime) (c : ExtCall F) : List Str → AttrMap F → AttrMap F
  | [], m => m
  | [key], m => dset key (withAttrs (c.after lt (reachAttr key m).attrs) (reachAttr key m)) m
  | key :: tail, m => dset key (withAttrs (pathAfter lt c tail (reachAttr key m).attrs) (reachAttr key m)) m

/-- How it ends. -/
def pathOutcome (lt : LocalTime) (c : ExtCall F) : List Str → AttrMap F → Except PyErr Unit
  | [], _ => .ok ()
  | [key], m => c.outcome lt (reachAttr key m).attrs
  | key :: tail, m => pathOutcome lt c tail (reachAttr key m).attrs

/-- Several paths, up to the first one that raises. -/
def pathsAfter (lt : LocalTime) (c : PyVal F → ExtCall F) : List (List Str × PyVal F) → AttrMap F → Except PyErr Unit × AttrMap F
  | [], m => (.ok (), m)
  | (ks, v) :: rest, m => match pathOutcome lt (c v) ks m with
    | .error e => (.error e, pathAfter lt (c v) ks m)
    | .ok _ => pathsAfter lt c rest (pathAfter lt (c v) ks m)

/-- The element has the attribute map and no map object is used twice, neither below the element nor by the element itself. -/
def Unshared (h : Heap F) (el : Ref) (m : AttrMap F) : Prop :=
  ∃ mr d fs, mapOf h el = .ok mr ∧ h.get mr = some (.map d) ∧ FootMap h m d fs ∧ (mr :: fs).Nodup

theorem Unshared.shows {h : Heap F} {el : Ref} {m : AttrMap F} (hu : Unshared h el m) : ElemShows h el m := by
  obtain ⟨mr, d, fs, h1, h2, h3, -⟩ := hu
  exact ⟨mr, d, h1, h2, h3.shows⟩

/-- An event, a trace or a log. -/
def IsElement (h : Heap F) (el : Ref) : Prop :=
  (∃ u m, h.get el = some (.event u m)) ∨ (∃ m es, h.get el = some (.trace m es)) ∨ ∃ o, h.get el = some (.log o)

/-! ## The tree functions agree with Model/Ext -/

theorem pathAfter_cons2 (lt : LocalTime) (c : ExtCall F) (k k' : Str) (t : List Str) (m : AttrMap F) :
    pathAfter lt c (k :: k' :: t) m = dset k (withAttrs (pathAfter lt c (k' :: t) (reachAttr k m).attrs) (reachAttr k m)) m := rfl

theorem pathOutcome_cons2 (lt : LocalTime) (c : ExtCall F) (k k' : Str) (t : List Str) (m : AttrMap F) :
    pathOutcome lt c (k :: k' :: t) m = pathOutcome lt c (k' :: t) (reachAttr k m).attrs := rfl

theorem path_ok (lt : LocalTime) (c : ExtCall F) : ∀ (ks : List Str) (m m' : AttrMap F), assignNested (c.tree lt) ks m = .ok m' →
    pathOutcome lt c ks m = .ok () ∧ pathAfter lt c ks m = m'
  | [], m, m', h => by
    simp only [assignNested, Except.ok.injEq] at h
    exact ⟨rfl, h⟩
  | [key], m, m', h => by
    simp only [assignNested, if_true] at h
    cases hc : c.tree lt (reachAttr key m).attrs with
    | error e => rw [hc] at h; simp [bind, Except.bind] at h
    | ok s =>
      rw [hc] at h
      simp only [bind, Except.bind, Except.ok.injEq] at h
      simp only [pathOutcome, pathAfter, ExtCall.outcome, ExtCall.after, hc]
      exact ⟨trivial, h⟩
  | key :: k' :: t, m, m', h => by
    rw [pathAfter_cons2, pathOutcome_cons2]
    have ih := path_ok lt c (k' :: t) (reachAttr key m).attrs
    rw [assignNested.eq_2] at h
    simp only [List.cons_ne_nil, if_false] at h
    cases hc : assignNested (c.tree lt) (k' :: t) (reachAttr key m).attrs with
    | error e => rw [hc] at h; simp [bind, Except.bind] at h
    | ok s =>
      rw [hc] at h
      simp only [bind, Except.bind, Except.ok.injEq] at h
      obtain ⟨i1, i2⟩ := ih s hc
      exact ⟨i1, by rw [i2]; exact h⟩

/-- A path whose call raises leaves the attributes on the way. -/
theorem path_error (lt : LocalTime) (c : ExtCall F) : ∀ (ks : List Str) (m : AttrMap F) (e : PyErr), assignNested (c.tree lt) ks m = .error e →
    pathOutcome lt c ks m = .error e ∧ assignNested (fun s => .ok s) ks m = .ok (pathAfter lt c ks m)
  | [], m, e, h => by simp [assignNested] at h
  | [key], m, e, h => by
    simp only [assignNested, if_true] at h ⊢
    cases hc : c.tree lt (reachAttr key m).attrs with
    | ok s => rw [hc] at h; simp [bind, Except.bind] at h
    | error e' =>
      rw [hc] at h
      simp only [bind, Except.bind, Except.error.injEq] at h
      subst h
      simp only [pathOutcome, pathAfter, ExtCall.outcome, ExtCall.after, hc]
      exact ⟨trivial, rfl⟩
  | key :: k' :: t, m, e, h => by
    rw [pathAfter_cons2, pathOutcome_cons2]
    have ih := path_error lt c (k' :: t) (reachAttr key m).attrs
    have h1 : assignNested (c.tree lt) (k' :: t) (reachAttr key m).attrs = .error e := by
      rw [assignNested.eq_2] at h
      simp only [List.cons_ne_nil, if_false] at h
      cases hc : assignNested (c.tree lt) (k' :: t) (reachAttr key m).attrs with
      | ok s => rw [hc] at h; simp [bind, Except.bind] at h
      | error e' =>
        rw [hc] at h
        simpa only [bind, Except.bind, Except.error.injEq] using h
    obtain ⟨i1, i2⟩ := ih e h1
    refine ⟨i1, ?_⟩
    rw [assignNested.eq_2]
    simp only [List.cons_ne_nil, if_false]
    rw [i2]
    rfl

/-! ## One path on objects -/

/-- The entry of a key, and putting another tree there. -/
theorem FootMap.hole {h : Heap F} {key : Str} {a : Ref} : ∀ {m : List (Str × Attr F)} {d : List (Str × Ref)} {fs : List Ref}, FootMap h m d fs →
    dget key d = some a → ∃ x f0 fa f3, dget key m = some x ∧ Foot h x a fa ∧ fs = f0 ++ fa ++ f3 ∧
      ∀ (h' : Heap F) (x' : Attr F) (fa' : List Ref), KeepsAttrs h h' → (∀ w ∈ f0 ++ f3, h'.get w = h.get w) → Foot h' x' a fa' →
        FootMap h' (Opy.dset key x' m) d (f0 ++ fa' ++ f3)
  | [], d, fs, hd, hg => by
    simp only [FootMap] at hd
    rw [hd.1] at hg
    simp [dget] at hg
  | (k, y) :: m, d, fs, hd, hg => by
    simp only [FootMap] at hd
    obtain ⟨s, d', f1, f2, rfl, h1, h2, rfl⟩ := hd
    simp only [dget] at hg ⊢
    by_cases e : k = key
    · simp only [e, if_true, Option.some.injEq] at hg ⊢
      subst hg
      refine ⟨y, [], f1, f2, rfl, h1, by simp, ?_⟩
      intro h' x' fa' hk hs hx
      simp only [Opy.dset, if_true, FootMap, List.nil_append]
      exact ⟨s, d', fa', f2, rfl, hx, h2.frame hk (fun w hw => hs w (by simp [hw])), rfl⟩
    · simp only [e, if_false] at hg ⊢
      obtain ⟨x, f0, fa, f3, g1, g2, rfl, g4⟩ := FootMap.hole h2 hg
      refine ⟨x, f1 ++ f0, fa, f3, g1, g2, by simp, ?_⟩
      intro h' x' fa' hk hs hx
      simp only [Opy.dset, e, if_false, FootMap]
      refine ⟨s, d', f1, f0 ++ fa' ++ f3, rfl, h1.frame hk (fun w hw => hs w (by simp [hw])), g4 h' x' fa' hk (fun w hw => hs w ?_) hx, by simp⟩
      simp only [List.mem_append] at hw ⊢
      rcases hw with hw | hw <;> simp [hw]

theorem FootMap.dget_none {h : Heap F} {key : Str} : ∀ {m : List (Str × Attr F)} {d : List (Str × Ref)} {fs : List Ref}, FootMap h m d fs →
    dget key d = none → dget key m = none
  | [], d, fs, hd, hg => rfl
  | (k, y) :: m, d, fs, hd, hg => by
    simp only [FootMap] at hd
    obtain ⟨s, d', f1, f2, rfl, h1, h2, rfl⟩ := hd
    simp only [dget] at hg ⊢
    by_cases e : k = key
    · simp [e] at hg
    · simp only [e, if_false] at hg ⊢
      exact FootMap.dget_none h2 hg

/-- What is behind a call along a path: objects other than the maps of the element are as before. -/
structure Within (h h' : Heap F) (ms : List Ref) : Prop where
  size : h.size ≤ h'.size
  old : ∀ r, r < h.size → r ∉ ms → h'.get r = h.get r
  drawn : h'.drawn = h.drawn
  keeps : KeepsAttrs h h'

/-- The whole effect. -/
structure PathEffect (h h' : Heap F) (mr : Ref) (fs : List Ref) (m' : AttrMap F) : Prop where
  within : Within h h' (mr :: fs)
  ex : ∃ d' fs', h'.get mr = some (.map d') ∧ FootMap h' m' d' fs' ∧ (∀ w, w < h.size → fs'.count w ≤ fs.count w) ∧
    ∀ w, h.size ≤ w → fs'.count w ≤ 1

/-- The tree of an attribute reached, with an empty rest of the path or not. -/
def restAfter (lt : LocalTime) (c : ExtCall F) (ks : List Str) (m : AttrMap F) : AttrMap F :=
  if ks = [] then c.after lt m else pathAfter lt c ks m

/-- How it ends. -/
def restOutcome (lt : LocalTime) (c : ExtCall F) (ks : List Str) (m : AttrMap F) : Except PyErr Unit :=
  if ks = [] then c.outcome lt m else pathOutcome lt c ks m

theorem pathAfter_rest (lt : LocalTime) (c : ExtCall F) (k : Str) (t : List Str) (m : AttrMap F) :
    pathAfter lt c (k :: t) m = dset k (withAttrs (restAfter lt c t (reachAttr k m).attrs) (reachAttr k m)) m := by
  cases t <;> rfl

theorem pathOutcome_rest (lt : LocalTime) (c : ExtCall F) (k : Str) (t : List Str) (m : AttrMap F) :
    pathOutcome lt c (k :: t) m = restOutcome lt c t (reachAttr k m).attrs := by
  cases t <;> rfl

theorem restAfter_cons (lt : LocalTime) (c : ExtCall F) (k : Str) (t : List Str) (m : AttrMap F) :
    restAfter lt c (k :: t) m = dset k (withAttrs (restAfter lt c t (reachAttr k m).attrs) (reachAttr k m)) m := by
  rw [← pathAfter_rest]; rfl

theorem restOutcome_cons (lt : LocalTime) (c : ExtCall F) (k : Str) (t : List Str) (m : AttrMap F) :
    restOutcome lt c (k :: t) m = restOutcome lt c t (reachAttr k m).attrs := by
  rw [← pathOutcome_rest]; rfl

/-- A step into an attribute that exists. -/
theorem step_into {h : Heap F} {key : Str} {mr a : Ref} {d : List (Str × Ref)} {m : AttrMap F} {fs : List Ref} (hm : h.get mr = some (.map d))
    (hf : FootMap h m d fs) (hn : (mr :: fs).Nodup) (hg : dget key d = some a) :
    ∃ x ma da f1 k ky e v c cr, dget key m = some x ∧ x = .mk k ky e v x.attrs c ∧ h.get a = some (.attr k ky e v ma cr) ∧
      h.get ma = some (.map da) ∧ FootMap h x.attrs da f1 ∧ (ma :: f1).Nodup ∧ (∀ w ∈ ma :: f1, w ∈ fs) ∧
      ∀ (h' : Heap F) (s : AttrMap F), PathEffect h h' ma f1 s → PathEffect h h' mr fs (dset key (withAttrs s x) m) ∧
        h'.get mr = some (.map d) ∧ ∃ fs', FootMap h' (dset key (withAttrs s x) m) d fs' := by
  obtain ⟨x, f0, fa, f3, g1, g2, rfl, g4⟩ := hf.hole hg
  obtain ⟨k, ky, e, v, sub, c⟩ := x
  simp only [Foot] at g2
  obtain ⟨ma, da, cr, f1, f2, a1, a2, a3, a4, rfl⟩ := g2
  have hn2 : (f0 ++ (ma :: (f1 ++ f2)) ++ f3).Nodup := (List.nodup_cons.1 hn).2
  have hmr : mr ∉ f0 ++ (ma :: (f1 ++ f2)) ++ f3 := (List.nodup_cons.1 hn).1
  have nin : ∀ w, w ∈ ma :: f1 → w ∉ f0 ∧ w ∉ f2 ∧ w ∉ f3 ∧ w ≠ mr := by
    intro w hw
    have hc : (f0 ++ (ma :: (f1 ++ f2)) ++ f3).count w ≤ 1 := List.nodup_iff_count.1 hn2 w
    have hp : 0 < (ma :: f1).count w := List.count_pos_iff.2 hw
    simp only [List.count_append, List.count_cons] at hc hp
    refine ⟨fun q => ?_, fun q => ?_, fun q => ?_, fun q => ?_⟩
    · have := List.count_pos_iff.2 q; omega
    · have := List.count_pos_iff.2 q; omega
    · have := List.count_pos_iff.2 q; omega
    · subst q
      apply hmr
      simp only [List.mem_append, List.mem_cons] at hw ⊢
      rcases hw with hw | hw <;> simp [hw]
  have hsub : ∀ w ∈ ma :: f1, w ∈ f0 ++ (ma :: (f1 ++ f2)) ++ f3 := by
    intro w hw
    simp only [List.mem_append, List.mem_cons] at hw ⊢
    rcases hw with hw | hw <;> simp [hw]
  refine ⟨_, ma, da, f1, k, ky, e, v, c, cr, g1, rfl, a1, a2, a3, ?_, hsub, ?_⟩
  · rw [List.nodup_iff_count] at hn2 ⊢
    intro w
    have := hn2 w
    simp only [List.count_append, List.count_cons] at this ⊢
    omega
  · intro h' s ⟨w1, d', fs', b1, b2, b3, b4⟩
    have hmr' : mr ∉ ma :: f1 := fun q => (nin mr q).2.2.2 rfl
    have hm' : h'.get mr = some (.map d) := by rw [w1.old mr (get_lt hm) hmr']; exact hm
    have hcoll : FootList h' c cr f2 := a4.frame w1.keeps (fun w hw => w1.old w (by
      obtain ⟨_, _, _, q, -⟩ := a4.inner w hw; exact get_lt q) (fun q => (nin w q).2.1 hw))
    have hx : Foot h' (withAttrs s (.mk k ky e v sub c)) a (ma :: (fs' ++ f2)) := by
      simp only [withAttrs, Foot]
      exact ⟨ma, d', cr, fs', f2, w1.keeps _ _ _ _ _ _ _ a1, b1, b2, hcoll, rfl⟩
    have hF := g4 h' _ _ w1.keeps (fun w hw => w1.old w (by
      have : w ∈ f0 ++ (ma :: (f1 ++ f2)) ++ f3 := by
        simp only [List.mem_append, List.mem_cons] at hw ⊢
        rcases hw with hw | hw <;> simp [hw]
      exact hf.lt w this) (fun q => by
        simp only [List.mem_append] at hw
        rcases hw with hw | hw
        · exact (nin w q).1 hw
        · exact (nin w q).2.2.1 hw)) hx
    refine ⟨⟨⟨w1.size, ?_, w1.drawn, w1.keeps⟩, d, _, hm', hF, ?_, ?_⟩, hm', _, hF⟩
    · intro r hr hnr
      exact w1.old r hr (fun q => hnr (List.mem_cons_of_mem _ (hsub r q)))
    · intro w hw
      have := b3 w hw
      simp only [List.count_append, List.count_cons]
      omega
    · intro w hw
      have h1 := b4 w hw
      have hz : ∀ l : List Ref, (∀ z ∈ l, z ∈ f0 ++ (ma :: (f1 ++ f2)) ++ f3) → l.count w = 0 :=
        fun l hl => List.count_eq_zero_of_not_mem (fun q => by have := hf.lt w (hl w q); omega)
      have z0 := hz f0 (by simp +contextual)
      have z2 := hz f2 (by simp +contextual)
      have z3 := hz f3 (by simp +contextual)
      have hma : (ma == w) = false := by
        have := get_lt a2
        simp; omega
      simp only [List.count_append, List.count_cons, hma, Bool.false_eq_true, if_false]
      omega

/-- A step into an attribute that is created. -/
theorem step_new {h : Heap F} {key : Str} {mr : Ref} {d : List (Str × Ref)} {m : AttrMap F} {fs : List Ref} (hm : h.get mr = some (.map d))
    (hf : FootMap h m d fs) (hg : dget key d = none) :
    ∃ h1 : Heap F, mapSet (newAttr h .literal key none (.str [])).2 mr key (newAttr h .literal key none (.str [])).1 = .ok h1 ∧
      (newAttr h .literal key none (.str [])).1 = h.size + 1 ∧
      h1.get (h.size + 1) = some (.attr .literal key none (.str []) h.size []) ∧ h1.get h.size = some (.map []) ∧ reachAttr key m = emptyLiteral key ∧
      Behind h h1 mr ∧
      ∀ (h' : Heap F) (s : AttrMap F), PathEffect h1 h' h.size [] s → PathEffect h h' mr fs (dset key (withAttrs s (reachAttr key m)) m) ∧
        ∀ r, r < h.size → r ≠ mr → h'.get r = h.get r := by
  have hlt := get_lt hm
  rw [newAttr_heap]
  simp only
  let h0 : Heap F := ⟨h.objs ++ [.map [], .attr .literal key none (.str []) h.size []], h.drawn⟩
  let h1 : Heap F := h0.put mr (.map (dset key (h.size + 1) d))
  have e1 : ∀ r, r < h.size → h0.get r = h.get r := fun r hr => get_append_left hr
  have e2 : h0.get h.size = some (.map []) := get_append_right (h := h) 0
  have e3 : h0.get (h.size + 1) = some (.attr .literal key none (.str []) h.size []) := get_append_right (h := h) 1
  have s1 : h0.size = h.size + 2 := by simp [h0, Heap.size]
  have g1 : ∀ r, r ≠ mr → h1.get r = h0.get r := fun r hr => get_put_ne _ hr
  have g2 : h1.get mr = some (.map (dset key (h.size + 1) d)) := get_put_self _ (by omega)
  have sz : h1.size = h.size + 2 := by simp only [h1, size_put]; omega
  have hb : Behind h h1 mr := ⟨by omega, fun r hr hn => by rw [g1 r hn, e1 r hr], rfl⟩
  have hre : reachAttr key m = emptyLiteral key := by simp [reachAttr, hf.dget_none hg]
  have hmr := FootMap.own hm hf
  refine ⟨h1, ?_, trivial, by rw [g1 _ (by omega)]; exact e3, by rw [g1 _ (by omega)]; exact e2, hre, hb, ?_⟩
  · show mapSet h0 mr key (h.size + 1) = _
    simp only [mapSet, e1 mr hlt, hm]; rfl
  · intro h' s ⟨w1, d', fs', b1, b2, b3, b4⟩
    have old : ∀ r, r < h.size → r ≠ mr → h'.get r = h.get r := by
      intro r hr hne
      rw [w1.old r (by omega) (by simp; omega), hb.old r hr hne]
    refine ⟨⟨⟨by have := w1.size; omega, ?_, by rw [w1.drawn]; rfl, (hb.keeps hm).trans w1.keeps⟩, ?_⟩, old⟩
    · intro r hr hnr
      exact old r hr (fun q => hnr (by simp [q]))
    · have hm' : h'.get mr = some (.map (dset key (h.size + 1) d)) := by rw [w1.old mr (by omega) (by simp; omega)]; exact g2
      have hf' : FootMap h' m d fs := hf.frame ((hb.keeps hm).trans w1.keeps) (fun w hw => old w (hf.lt w hw) (fun q => hmr (q ▸ hw)))
      have hx : Foot h' (withAttrs s (emptyLiteral key)) (h.size + 1) (h.size :: (fs' ++ [])) := by
        simp only [emptyLiteral, withAttrs, Foot]
        exact ⟨h.size, d', [], fs', [], w1.keeps _ _ _ _ _ _ _ (by rw [g1 _ (by omega)]; exact e3), b1, b2, by simp [FootList], rfl⟩
      obtain ⟨gs, k1, k2⟩ := hf'.dset (k := key) hx
      rw [hre]
      refine ⟨_, gs, hm', k1, ?_, ?_⟩
      · intro w hw
        have q1 := k2 w
        have q2 := b3 w (by omega)
        have q3 : (h.size == w) = false := by simp; omega
        simp only [List.count_cons, List.count_append, List.count_nil, q3, Bool.false_eq_true, if_false] at q1 q2
        omega
      · intro w hw
        have q1 := k2 w
        have hz : fs.count w = 0 := List.count_eq_zero_of_not_mem (fun q => by have := hf.lt w q; omega)
        simp only [List.count_cons, List.count_append, List.count_nil] at q1
        by_cases hw2 : w < h.size + 2
        · have q2 := b3 w (by omega)
          simp only [List.count_nil] at q2
          split at q1 <;> omega
        · have q2 := b4 w (by omega)
          have q3 : (h.size == w) = false := by simp; omega
          simp only [q3, Bool.false_eq_true, if_false] at q1
          omega

/-- The rest of a path below an attribute. -/
theorem rest_effect {P : Protos} (lt : LocalTime) (c : ExtCall F) : ∀ (ks : List Str) {h : Heap F}, ProtosOk h P → ∀ {a ma : Ref} {k : Kind}
    {ky : Str} {e : Option Ext} {v : PyVal F} {cr : List Ref} {d : List (Str × Ref)} {m : AttrMap F} {fs : List Ref},
    h.get a = some (.attr k ky e v ma cr) → h.get ma = some (.map d) → FootMap h m d fs → (ma :: fs).Nodup →
    ∃ h', assignNestedAt (c.at lt P) ks h a = (restOutcome lt c ks m, h') ∧ PathEffect h h' ma fs (restAfter lt c ks m)
  | [], h, hP, a, ma, k, ky, e, v, cr, d, m, fs, ha, hm, hf, hn => by
    have he : mapOf h a = .ok ma := by simp [mapOf, ha]
    obtain ⟨h', d', fs', b1, b2, b3, b4, b5, b6, -⟩ := c.effect lt hP he hm hf
    refine ⟨h', ?_, ⟨b2.size, fun r hr hnr => b2.old r hr (fun q => hnr (by simp [q])), b2.drawn, b2.keeps hm⟩, d', fs', b3, ?_, b5, b6⟩
    · simp only [assignNestedAt, ha, b1, restOutcome, if_true]
    · simpa only [restAfter, if_true] using b4
  | key :: t, h, hP, a, ma, k, ky, e, v, cr, d, m, fs, ha, hm, hf, hn => by
    have he : mapOf h a = .ok ma := by simp [mapOf, ha]
    rw [restAfter_cons, restOutcome_cons]
    cases hg : dget key d with
    | some b =>
      obtain ⟨x, mb, db, f1, k', ky', e', v', c', cr', g1, g2, g3, g4, g5, g6, -, g7⟩ := step_into hm hf hn hg
      have hre : reachAttr key m = x := by simp [reachAttr, g1]
      obtain ⟨h', r1, r2⟩ := rest_effect lt c t hP g3 g4 g5 g6
      refine ⟨h', ?_, ?_⟩
      · simp only [assignNestedAt, he, entries, hm, hg, r1, hre]
      · rw [hre]; exact (g7 h' _ r2).1
    | none =>
      obtain ⟨h1, g1, g2, g3, g4, g5, g6, g7⟩ := step_new hm hf hg
      obtain ⟨h', r1, r2⟩ := rest_effect lt c t (hP.frame (g6.keeps hm)) g3 g4 (m := []) (fs := []) (by simp [FootMap]) (by simp)
      refine ⟨h', ?_, ?_⟩
      · simp only [assignNestedAt, he, entries, hm, hg, g1]
        rw [g2, r1, g5]; rfl
      · have := (g7 h' _ r2).1
        rw [g5] at this ⊢
        exact this

theorem not_attr {h : Heap F} {el : Ref} (hi : IsElement h el) (av : Heap F → Ref → HRes F) : assignNestedAt av [] h el = (.ok (), h) := by
  rcases hi with ⟨_, _, q⟩ | ⟨_, _, q⟩ | ⟨_, q⟩ <;> simp [assignNestedAt, q]

theorem dget_some_mem_keys {α : Type} {k : Str} {a : α} : ∀ {d : List (Str × α)}, dget k d = some a → k ∈ dkeys d
  | [], h => by simp [dget] at h
  | (k', v) :: d, h => by
    simp only [dget] at h
    by_cases e : k' = k
    · simp [dkeys, e]
    · simp only [e, if_false] at h
      have := dget_some_mem_keys h
      simp only [dkeys, List.map_cons, List.mem_cons] at this ⊢
      exact Or.inr this

theorem dget_none_not_mem {α : Type} {k : Str} : ∀ {d : List (Str × α)}, dget k d = none → k ∉ dkeys d
  | [], _ => by simp [dkeys]
  | (k', v) :: d, h => by
    simp only [dget] at h
    by_cases e : k' = k
    · simp [e] at h
    · simp only [e, if_false] at h
      have := dget_none_not_mem h
      simp only [dkeys, List.map_cons, List.mem_cons, not_or] at this ⊢
      exact ⟨fun q => e q.symm, this⟩

/-- A path below an element. -/
theorem path_effect {P : Protos} (lt : LocalTime) (c : ExtCall F) (ks : List Str) {h : Heap F} (hP : ProtosOk h P) {el mr : Ref}
    (hi : IsElement h el) {d : List (Str × Ref)} {m : AttrMap F} {fs : List Ref} (he : mapOf h el = .ok mr) (hm : h.get mr = some (.map d))
    (hf : FootMap h m d fs) (hn : (mr :: fs).Nodup) :
    ∃ h', assignNestedAt (c.at lt P) ks h el = (pathOutcome lt c ks m, h') ∧ PathEffect h h' mr fs (pathAfter lt c ks m) ∧
      ∀ key t, ks = key :: t → (key ∈ dkeys m → h'.get mr = some (.map d)) ∧ (key ∉ dkeys m → ∀ r, r < h.size → r ≠ mr → h'.get r = h.get r) := by
  cases ks with
  | nil =>
    refine ⟨h, not_attr hi _, ?_, by simp⟩
    refine ⟨⟨Nat.le_refl _, fun _ _ _ => rfl, rfl, KeepsAttrs.refl h⟩, d, fs, hm, hf, fun _ _ => Nat.le_refl _, fun w hw => ?_⟩
    rw [List.count_eq_zero_of_not_mem (fun q => by have := hf.lt w q; omega)]; omega
  | cons key t =>
    rw [pathAfter_rest, pathOutcome_rest]
    cases hg : dget key d with
    | some b =>
      obtain ⟨x, mb, db, f1, k', ky', e', v', c', cr', g1, g2, g3, g4, g5, g6, -, g7⟩ := step_into hm hf hn hg
      have hre : reachAttr key m = x := by simp [reachAttr, g1]
      obtain ⟨h', r1, r2⟩ := rest_effect lt c t hP g3 g4 g5 g6
      have hin : key ∈ dkeys m := by rw [← hf.keys]; exact dget_some_mem_keys hg
      refine ⟨h', ?_, ?_, ?_⟩
      · simp only [assignNestedAt, he, entries, hm, hg, r1, hre]
      · rw [hre]; exact (g7 h' _ r2).1
      · intro k2 t2 q
        simp only [List.cons.injEq] at q
        obtain ⟨rfl, rfl⟩ := q
        exact ⟨fun _ => (g7 h' _ r2).2.1, fun hn => absurd hin hn⟩
    | none =>
      obtain ⟨h1, g1, g2, g3, g4, g5, g6, g7⟩ := step_new hm hf hg
      obtain ⟨h', r1, r2⟩ := rest_effect lt c t (hP.frame (g6.keeps hm)) g3 g4 (m := []) (fs := []) (by simp [FootMap]) (by simp)
      have hin : key ∉ dkeys m := by rw [← hf.keys]; exact dget_none_not_mem hg
      refine ⟨h', ?_, ?_, ?_⟩
      · simp only [assignNestedAt, he, entries, hm, hg, g1]
        rw [g2, r1, g5]; rfl
      · have := (g7 h' _ r2).1
        rw [g5] at this ⊢
        exact this
      · intro k2 t2 q
        simp only [List.cons.injEq] at q
        obtain ⟨rfl, rfl⟩ := q
        exact ⟨fun hn => absurd hn hin, fun _ => (g7 h' _ r2).2⟩

theorem Within.mapOf {h h' : Heap F} {ms : List Ref} (hw : Within h h' ms) (hmaps : ∀ w ∈ ms, ∃ d, h.get w = some (.map d)) {el mm : Ref}
    (he : mapOf h el = .ok mm) : Opy.mapOf h' el = .ok mm := by
  obtain ⟨o, ho, hp⟩ := mapOf_ok he
  have : h'.get el = h.get el := hw.old el (get_lt ho) (fun q => by
    obtain ⟨d, hd⟩ := hmaps el q
    rw [hd] at ho; simp at ho; subst ho; simp [mapPtr] at hp)
  unfold Opy.mapOf at he ⊢
  rw [this]
  exact he

theorem Within.element {h h' : Heap F} {ms : List Ref} (hw : Within h h' ms) (hmaps : ∀ w ∈ ms, ∃ d, h.get w = some (.map d)) {el : Ref}
    (hi : IsElement h el) : IsElement h' el := by
  have key : ∀ o, h.get el = some o → (∀ d, o ≠ .map d) → h'.get el = some o := by
    intro o ho hne
    rw [hw.old el (get_lt ho) (fun q => by
      obtain ⟨d, hd⟩ := hmaps el q
      rw [hd] at ho; simp at ho; exact hne d ho.symm)]
    exact ho
  rcases hi with ⟨a, b, q⟩ | ⟨a, b, q⟩ | ⟨a, q⟩
  · exact Or.inl ⟨a, b, key _ q (by simp)⟩
  · exact Or.inr (Or.inl ⟨a, b, key _ q (by simp)⟩)
  · exact Or.inr (Or.inr ⟨a, key _ q (by simp)⟩)

/-! ## C142 -/

/-- C142, one path, for elements without shared maps: the call ends as on the attribute map, the element shows the attributes behind it and
shares no maps again; the objects that are changed are attribute maps below the element. -/
theorem c142_path_partial {P : Protos} (lt : LocalTime) (c : ExtCall F) (ks : List Str) {h : Heap F} (hP : ProtosOk h P) {el : Ref}
    (hi : IsElement h el) {m : AttrMap F} (hu : Unshared h el m) :
    ∃ h', assignNestedAt (c.at lt P) ks h el = (pathOutcome lt c ks m, h') ∧ Unshared h' el (pathAfter lt c ks m) ∧ IsElement h' el ∧
      ProtosOk h' P ∧ (∀ r o, h.get r = some o → (∀ d, o ≠ .map d) → h'.get r = some o) ∧
      ∀ mr d fs, mapOf h el = .ok mr → h.get mr = some (.map d) → FootMap h m d fs → ∀ r, r < h.size → r ∉ mr :: fs → h'.get r = h.get r := by
  obtain ⟨mr, d, fs, h1, h2, h3, h4⟩ := hu
  obtain ⟨h', r1, ⟨r2, d', fs', b1, b2, b3, b4⟩, -⟩ := path_effect lt c ks hP hi h1 h2 h3 h4
  have hmaps : ∀ w ∈ mr :: fs, ∃ d, h.get w = some (.map d) := by
    intro w hw
    simp only [List.mem_cons] at hw
    rcases hw with rfl | hw
    · exact ⟨d, h2⟩
    · obtain ⟨_, d', _, q, -⟩ := h3.inner w hw
      exact ⟨d', q⟩
  refine ⟨h', r1, ⟨mr, d', fs', r2.mapOf hmaps h1, b1, b2, ?_⟩, r2.element hmaps hi, hP.frame r2.keeps, ?_, ?_⟩
  · rw [List.nodup_iff_count] at h4 ⊢
    intro w
    have q := h4 w
    simp only [List.count_cons] at q ⊢
    by_cases hw : w < h.size
    · have := b3 w hw; omega
    · have := b4 w (by omega)
      have hne : (mr == w) = false := by have := get_lt h2; simp; omega
      simp only [hne, Bool.false_eq_true, if_false] at q ⊢
      omega
  · intro r o ho hne
    rw [r2.old r (get_lt ho) (fun q => by
      obtain ⟨d, hd⟩ := hmaps r q
      rw [hd] at ho; simp at ho; exact hne d ho.symm)]
    exact ho
  · intro mr' d2 fs2 g1 g2 g3
    rw [h1] at g1
    simp only [Except.ok.injEq] at g1
    subst g1
    rw [h2] at g2
    simp only [Option.some.injEq, Obj.map.injEq] at g2
    subst g2
    obtain ⟨-, rfl⟩ := h3.unique g3
    exact r2.old

/-- A path that is assigned without exception: the attributes are those of C77. -/
theorem c142_ok (lt : LocalTime) (c : ExtCall F) {ks : List Str} {m m' : AttrMap F} (h : assignNested (c.tree lt) ks m = .ok m') :
    pathOutcome lt c ks m = .ok () ∧ pathAfter lt c ks m = m' := path_ok lt c ks m m' h

/-- A path whose assignment raises: the attributes on the way have been created, and that is all. -/
theorem c142_error (lt : LocalTime) (c : ExtCall F) {ks : List Str} {m : AttrMap F} {e : PyErr} (h : assignNested (c.tree lt) ks m = .error e) :
    pathOutcome lt c ks m = .error e ∧ assignNested (fun s => .ok s) ks m = .ok (pathAfter lt c ks m) := path_error lt c ks m e h

/-- C142, `assign_nested_values`: the paths before the first one that raises are assigned, and that one leaves the attributes on the way. -/
theorem c142_values_partial {P : Protos} (lt : LocalTime) (c : PyVal F → ExtCall F) : ∀ (vals : List (List Str × PyVal F)) {h : Heap F},
    ProtosOk h P → ∀ {el : Ref}, IsElement h el → ∀ {m : AttrMap F}, Unshared h el m →
    ∃ h', assignNestedValuesAt (fun v => (c v).at lt P) vals h el = ((pathsAfter lt c vals m).1, h') ∧
      Unshared h' el (pathsAfter lt c vals m).2 ∧ (∀ r o, h.get r = some o → (∀ d, o ≠ .map d) → h'.get r = some o)
  | [], h, hP, el, hi, m, hu => ⟨h, rfl, hu, fun _ _ ho _ => ho⟩
  | (ks, v) :: rest, h, hP, el, hi, m, hu => by
    obtain ⟨h1, r1, r2, r3, r4, r5, -⟩ := c142_path_partial lt (c v) ks hP hi hu
    simp only [assignNestedValuesAt, pathsAfter, r1]
    cases ho : pathOutcome lt (c v) ks m with
    | error e => exact ⟨h1, rfl, r2, r5⟩
    | ok u =>
      obtain ⟨h2, s1, s2, s3⟩ := c142_values_partial lt c rest r4 r3 r2
      exact ⟨h2, s1, s2, fun r o g hne => s3 r o (r5 r o g hne) hne⟩

/-- All paths assigned without exception: the element shows the attributes of C77. -/
theorem c142_values_ok (lt : LocalTime) (c : PyVal F → ExtCall F) : ∀ {vals : List (List Str × PyVal F)} {m m' : AttrMap F},
    assignNestedValues (fun v => (c v).tree lt) vals m = .ok m' → pathsAfter lt c vals m = (.ok (), m')
  | [], m, m', h => by
    simp only [assignNestedValues, Except.ok.injEq] at h
    simp [pathsAfter, h]
  | (ks, v) :: rest, m, m', h => by
    simp only [assignNestedValues] at h
    cases hc : assignNested ((c v).tree lt) ks m with
    | error e => rw [hc] at h; simp [bind, Except.bind] at h
    | ok s =>
      rw [hc] at h
      simp only [bind, Except.bind] at h
      obtain ⟨i1, i2⟩ := path_ok lt (c v) ks m s hc
      simp only [pathsAfter, i1, i2]
      exact c142_values_ok lt c h

/-- The first exception is the one of C77's function. -/
theorem c142_values_error (lt : LocalTime) (c : PyVal F → ExtCall F) : ∀ {vals : List (List Str × PyVal F)} {m : AttrMap F} {e : PyErr},
    assignNestedValues (fun v => (c v).tree lt) vals m = .error e → (pathsAfter lt c vals m).1 = .error e
  | [], m, e, h => by simp [assignNestedValues] at h
  | (ks, v) :: rest, m, e, h => by
    simp only [assignNestedValues] at h
    cases hc : assignNested ((c v).tree lt) ks m with
    | error e' =>
      rw [hc] at h
      simp only [bind, Except.bind, Except.error.injEq] at h
      subst h
      simp only [pathsAfter, (path_error lt (c v) ks m e' hc).1]
    | ok s =>
      rw [hc] at h
      simp only [bind, Except.bind] at h
      obtain ⟨i1, i2⟩ := path_ok lt (c v) ks m s hc
      simp only [pathsAfter, i1, i2]
      exact c142_values_error lt c h

/-- C142 for two elements that share their attributes, of which `q` is used: if the first key exists both show the change, otherwise only
`q` does. -/
theorem c142_sharing {P : Protos} (lt : LocalTime) (c : ExtCall F) (key : Str) (t : List Str) {h : Heap F} (hP : ProtosOk h P) {p q mp mq : Ref}
    (hi : IsElement h q) {d : List (Str × Ref)} {m : AttrMap F} (hp : mapOf h p = .ok mp) (hq : mapOf h q = .ok mq)
    (gp : h.get mp = some (.map d)) (gq : h.get mq = some (.map d)) (hne : mp ≠ mq) (hu : Unshared h p m) :
    ∃ H, assignNestedAt (c.at lt P) (key :: t) h q = (pathOutcome lt c (key :: t) m, H) ∧ ElemShows H q (pathAfter lt c (key :: t) m) ∧
      ElemShows H p (if key ∈ dkeys m then pathAfter lt c (key :: t) m else m) := by
  obtain ⟨mp', d', fs, h1, h2, h3, h4⟩ := hu
  rw [hp] at h1
  simp only [Except.ok.injEq] at h1
  subst h1
  rw [gp] at h2
  simp only [Option.some.injEq, Obj.map.injEq] at h2
  subst h2
  have hmq : mq ∉ fs := FootMap.own gq h3
  have hmp : mp ∉ fs := FootMap.own gp h3
  have hmaps : ∀ w ∈ mq :: fs, ∃ d, h.get w = some (.map d) := by
    intro w hw
    simp only [List.mem_cons] at hw
    rcases hw with rfl | hw
    · exact ⟨d, gq⟩
    · obtain ⟨_, d', _, q, -⟩ := h3.inner w hw
      exact ⟨d', q⟩
  obtain ⟨H, r1, ⟨r2, d1, fs1, b1, b2, b3, b4⟩, r3⟩ := path_effect lt c (key :: t) hP hi hq gq h3
    (List.nodup_cons.2 ⟨hmq, (List.nodup_cons.1 h4).2⟩)
  obtain ⟨k1, k2⟩ := r3 key t rfl
  have gp' : H.get mp = some (.map d) := by rw [r2.old mp (get_lt gp) (by simp [hne, hmp])]; exact gp
  refine ⟨H, r1, ⟨mq, d1, r2.mapOf hmaps hq, b1, b2.shows⟩, mp, d, r2.mapOf hmaps hp, gp', ?_⟩
  by_cases hin : key ∈ dkeys m
  · simp only [hin, if_true]
    rw [k1 hin] at b1
    simp only [Option.some.injEq, Obj.map.injEq] at b1
    subst b1
    exact b2.shows
  · simp only [hin, if_false]
    exact (h3.frame r2.keeps (fun w hw => k2 hin w (h3.lt w hw) (fun e => hmq (e ▸ hw)))).shows

/-- C142 for clones, exactly: `p` is a part of the original (or the original), `q` the part of the clone at the same place.  Assigning
through `q` along a path whose first key exists changes both in the same way; otherwise only `q`. -/
theorem c142_clone {rnd : Nat → Uuid} {P : Protos} (lt : LocalTime) (c : ExtCall F) (key : Str) (t : List Str) {h h' : Heap F} {x cl : Ref}
    (hcl : Cloned rnd h x cl h') (hP : ProtosOk h' P) {path : List Nat} {p q : Ref} (hp : locate h' x path = some p)
    (hq : locate h' cl path = some q) (hi : IsElement h' q) {m : AttrMap F} (hu : Unshared h' p m) :
    ∃ H, assignNestedAt (c.at lt P) (key :: t) h' q = (pathOutcome lt c (key :: t) m, H) ∧ ElemShows H q (pathAfter lt c (key :: t) m) ∧
      ElemShows H p (if key ∈ dkeys m then pathAfter lt c (key :: t) m else m) := by
  obtain ⟨mp, d, fs, h1, h2, h3, h4⟩ := id hu
  obtain ⟨mq, b1, b2, hne⟩ := hcl.twins hp hq h1 h2
  exact c142_sharing lt c key t hP hi h1 b1 h2 b2 hne hu

/-- The original is changed by an assignment through the clone. -/
theorem c142_independent_refuted {rnd : Nat → Uuid} {P : Protos} (lt : LocalTime) (c : ExtCall F) (key : Str) (t : List Str) {h h' : Heap F}
    {x cl : Ref} (hcl : Cloned rnd h x cl h') (hP : ProtosOk h' P) (hi : IsElement h' cl) {m : AttrMap F} (hu : Unshared h' x m)
    (hk : key ∈ dkeys m) (hch : pathAfter lt c (key :: t) m ≠ m) :
    ∃ H, (assignNestedAt (c.at lt P) (key :: t) h' cl).2 = H ∧ ¬ ElemShows H x m := by
  obtain ⟨H, r1, -, r3⟩ := c142_clone lt c key t hcl hP (path := []) rfl rfl hi hu
  refine ⟨H, by rw [r1], fun hs => hch ?_⟩
  rw [if_pos hk] at r3
  exact c141_determined r3 hs

/-! ### Concrete cases -/

theorem exAlias_unshared (u : Uuid) : Unshared (exAlias u : Heap F) 41 exAliasMap := by
  refine ⟨40, [(py!"concept:name", 39)], [38, 36], rfl, rfl, ?_, by decide⟩
  simp only [exAliasMap, FootMap, Foot, FootList]
  exact ⟨39, [], [38, 36], [], rfl, ⟨38, [(py!"n", 37)], [], [36], [], rfl, rfl,
    ⟨37, [], [36], [], rfl, ⟨36, [], [], [], [], rfl, rfl, ⟨rfl, rfl⟩, ⟨rfl, rfl⟩, rfl⟩, ⟨rfl, rfl⟩, rfl⟩, ⟨rfl, rfl⟩, rfl⟩, ⟨rfl, rfl⟩, rfl⟩

/-- The hypotheses of the theorems about one element. -/
example (u : Uuid) : ProtosOk (exAlias u : Heap F) exProtos ∧ IsElement (exAlias u : Heap F) 41 ∧ Unshared (exAlias u : Heap F) 41 exAliasMap :=
  ⟨exAlias_protos u, Or.inl ⟨u, 40, rfl⟩, exAlias_unshared u⟩

/-- The hypotheses of the theorems about clones, and a call that changes something. -/
example (rnd : Nat → Uuid) (u : Uuid) (lt : LocalTime) : ∃ c h', Cloned rnd (exAlias u : Heap F) 41 c h' ∧ ProtosOk h' exProtos ∧
    IsElement h' c ∧ Unshared h' 41 exAliasMap ∧ py!"concept:name" ∈ dkeys (exAliasMap : AttrMap F) ∧
    pathAfter lt (.name (some py!"z")) [py!"concept:name"] (exAliasMap : AttrMap F) ≠ exAliasMap := by
  obtain ⟨v, m, d, h1, h2, h3⟩ := exAlias_event (F := F) u
  refine ⟨_, _, .event ⟨v, m, d, h1, h2, h3⟩ (cloneEvent_ok rnd h1 h2 h3), ?_, Or.inl ⟨_, _, get_append_right (h := exAlias u) 2⟩, ?_, by simp [dkeys, exAliasMap], ?_⟩
  · exact (exAlias_protos u).frame (fun r _ _ _ _ _ _ g => by rw [get_append_left (get_lt g)]; exact g)
  · obtain ⟨mr, d', fs, a1, a2, a3, a4⟩ := exAlias_unshared (F := F) u
    refine ⟨mr, d', fs, ?_, by rw [get_append_left (get_lt a2)]; exact a2, a3.frame (fun r _ _ _ _ _ _ g => by
      rw [get_append_left (get_lt g)]; exact g) (fun w hw => get_append_left (a3.lt w hw)), a4⟩
    obtain ⟨o, ho, -⟩ := mapOf_ok a1
    unfold mapOf at a1 ⊢
    rw [get_append_left (get_lt ho)]
    exact a1
  · intro h
    have h := congrArg (fun m => m.map (fun p => p.2.attrs.length)) h
    have g : given (some py!"z") = true := by decide
    simp [pathAfter, exAliasMap, dset, reachAttr, dget, withAttrs, Attr.attrs, ExtCall.after, ExtCall.tree, assignName, g] at h

/-- The nested amounts of the clone of the event: the one below the name is seen in the original, the one below a new attribute is not; the
assignment that raises leaves its path. -/
def exNestedRun : Option (AliasRow × AliasRow × AliasRow × Bool) :=
  match cloneEvent (fun _ => 7) (exAlias 3 : Heap ToyFloat) 41 with
  | .error _ => none
  | .ok (c, h) =>
    let r := assignNestedValuesAt (fun v => (ExtCall.amount v).at ⟨fun _ => .ok 0, fun _ => .error .overflowError⟩ exProtos)
      [([py!"concept:name"], .int 5), ([py!"k"], .int 6), ([py!"bad"], .str py!"x"), ([py!"late"], .int 7)] h c
    some (shownPairs r.2 39, shownPairs r.2 41, shownPairs r.2 c, decide (r.1 = .error .typeError))

example : exNestedRun = some (
    [(py!"n", some (.str py!"deep")), (py!"cost:amount", some (.int 5))],
    [(py!"concept:name", some (.str py!"a"))],
    [(py!"concept:name", some (.str py!"a")), (py!"k", some (.str [])), (py!"bad", some (.str []))], true) := by
  decide +kernel

end

end Opy
