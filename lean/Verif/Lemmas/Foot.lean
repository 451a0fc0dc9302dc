import Verif.Model.HeapExt
import Verif.Lemmas.Heap
import Verif.Props.Clone
/-
Attribute trees in the heap together with the attribute maps that they use.
-/
set_option linter.unusedSectionVars false

namespace Opy

section
variable {F : Type}

/-! ## Specification: the attributes that an object shows -/

mutual
/-- The object `r` is the attribute tree. -/
def Shows (h : Heap F) : Attr F → Ref → Prop
  | .mk k key e v m c, r => ∃ mr d cr, h.get r = some (.attr k key e v mr cr) ∧ h.get mr = some (.map d) ∧
      ShowsMap h m d ∧ ShowsList h c cr
/-- The entries of a dict are the attribute map. -/
def ShowsMap (h : Heap F) : List (Str × Attr F) → List (Str × Ref) → Prop
  | [], d => d = []
  | (k, x) :: m, d => ∃ r d', d = (k, r) :: d' ∧ Shows h x r ∧ ShowsMap h m d'
/-- The objects of a list are the attributes. -/
def ShowsList (h : Heap F) : List (Attr F) → List Ref → Prop
  | [], rs => rs = []
  | x :: xs, rs => ∃ r rs', rs = r :: rs' ∧ Shows h x r ∧ ShowsList h xs rs'
end

/-- The element (or attribute) has the attribute map. -/
def ElemShows (h : Heap F) (el : Ref) (m : AttrMap F) : Prop :=
  ∃ mr d, mapOf h el = .ok mr ∧ h.get mr = some (.map d) ∧ ShowsMap h m d

/-! ## Footprints -/

mutual
/-- `Shows`, with the references of the map objects that are used. -/
def Foot (h : Heap F) : Attr F → Ref → List Ref → Prop
  | .mk k key e v m c, r, fs => ∃ mr d cr f1 f2, h.get r = some (.attr k key e v mr cr) ∧ h.get mr = some (.map d) ∧
      FootMap h m d f1 ∧ FootList h c cr f2 ∧ fs = mr :: (f1 ++ f2)
/-- The same for the entries of a dict. -/
def FootMap (h : Heap F) : List (Str × Attr F) → List (Str × Ref) → List Ref → Prop
  | [], d, fs => d = [] ∧ fs = []
  | (k, x) :: m, d, fs => ∃ r d' f1 f2, d = (k, r) :: d' ∧ Foot h x r f1 ∧ FootMap h m d' f2 ∧ fs = f1 ++ f2
/-- The same for a list. -/
def FootList (h : Heap F) : List (Attr F) → List Ref → List Ref → Prop
  | [], rs, fs => rs = [] ∧ fs = []
  | x :: xs, rs, fs => ∃ r rs' f1 f2, rs = r :: rs' ∧ Foot h x r f1 ∧ FootList h xs rs' f2 ∧ fs = f1 ++ f2
end

mutual
theorem Foot.shows {h : Heap F} : ∀ {x : Attr F} {r : Ref} {fs : List Ref}, Foot h x r fs → Shows h x r
  | .mk k key e v m c, r, fs, hd => by
    simp only [Foot] at hd
    simp only [Shows]
    obtain ⟨mr, d, cr, f1, f2, g1, g2, g3, g4, -⟩ := hd
    exact ⟨mr, d, cr, g1, g2, g3.shows, g4.shows⟩
theorem FootMap.shows {h : Heap F} : ∀ {m : List (Str × Attr F)} {d : List (Str × Ref)} {fs : List Ref}, FootMap h m d fs →
    ShowsMap h m d
  | [], d, fs, hd => by simp only [FootMap] at hd; simp only [ShowsMap]; exact hd.1
  | (k, x) :: m, d, fs, hd => by
    simp only [FootMap] at hd
    simp only [ShowsMap]
    obtain ⟨r, d', f1, f2, rfl, g1, g2, -⟩ := hd
    exact ⟨r, d', rfl, g1.shows, g2.shows⟩
theorem FootList.shows {h : Heap F} : ∀ {m : List (Attr F)} {d : List Ref} {fs : List Ref}, FootList h m d fs → ShowsList h m d
  | [], d, fs, hd => by simp only [FootList] at hd; simp only [ShowsList]; exact hd.1
  | x :: m, d, fs, hd => by
    simp only [FootList] at hd
    simp only [ShowsList]
    obtain ⟨r, d', f1, f2, rfl, g1, g2, -⟩ := hd
    exact ⟨r, d', rfl, g1.shows, g2.shows⟩
end

mutual
theorem Shows.foot {h : Heap F} : ∀ {x : Attr F} {r : Ref}, Shows h x r → ∃ fs, Foot h x r fs
  | .mk k key e v m c, r, hd => by
    simp only [Shows] at hd
    simp only [Foot]
    obtain ⟨mr, d, cr, g1, g2, g3, g4⟩ := hd
    obtain ⟨f1, g3⟩ := g3.foot
    obtain ⟨f2, g4⟩ := g4.foot
    exact ⟨_, mr, d, cr, f1, f2, g1, g2, g3, g4, rfl⟩
theorem ShowsMap.foot {h : Heap F} : ∀ {m : List (Str × Attr F)} {d : List (Str × Ref)}, ShowsMap h m d → ∃ fs, FootMap h m d fs
  | [], d, hd => by simp only [ShowsMap] at hd; simp only [FootMap]; exact ⟨[], hd, rfl⟩
  | (k, x) :: m, d, hd => by
    simp only [ShowsMap] at hd
    simp only [FootMap]
    obtain ⟨r, d', rfl, g1, g2⟩ := hd
    obtain ⟨f1, g1⟩ := g1.foot
    obtain ⟨f2, g2⟩ := g2.foot
    exact ⟨_, r, d', f1, f2, rfl, g1, g2, rfl⟩
theorem ShowsList.foot {h : Heap F} : ∀ {m : List (Attr F)} {d : List Ref}, ShowsList h m d → ∃ fs, FootList h m d fs
  | [], d, hd => by simp only [ShowsList] at hd; simp only [FootList]; exact ⟨[], hd, rfl⟩
  | x :: m, d, hd => by
    simp only [ShowsList] at hd
    simp only [FootList]
    obtain ⟨r, d', rfl, g1, g2⟩ := hd
    obtain ⟨f1, g1⟩ := g1.foot
    obtain ⟨f2, g2⟩ := g2.foot
    exact ⟨_, r, d', f1, f2, rfl, g1, g2, rfl⟩
end

mutual
theorem Foot.unique {h : Heap F} : ∀ {x y : Attr F} {r : Ref} {fs gs : List Ref}, Foot h x r fs → Foot h y r gs → x = y ∧ fs = gs
  | .mk k key e v m c, .mk k' key' e' v' m' c', r, fs, gs, h1, h2 => by
    simp only [Foot] at h1 h2
    obtain ⟨mr, d, cr, f1, f2, a1, a2, a3, a4, rfl⟩ := h1
    obtain ⟨mr', d', cr', f1', f2', b1, b2, b3, b4, rfl⟩ := h2
    rw [a1] at b1
    simp only [Option.some.injEq, Obj.attr.injEq] at b1
    obtain ⟨rfl, rfl, rfl, rfl, rfl, rfl⟩ := b1
    rw [a2] at b2
    simp only [Option.some.injEq, Obj.map.injEq] at b2
    subst b2
    obtain ⟨rfl, rfl⟩ := FootMap.unique a3 b3
    obtain ⟨rfl, rfl⟩ := FootList.unique a4 b4
    exact ⟨rfl, rfl⟩
theorem FootMap.unique {h : Heap F} : ∀ {m m' : List (Str × Attr F)} {d : List (Str × Ref)} {fs gs : List Ref},
    FootMap h m d fs → FootMap h m' d gs → m = m' ∧ fs = gs
  | [], [], d, fs, gs, h1, h2 => by
    simp only [FootMap] at h1 h2
    exact ⟨rfl, by rw [h1.2, h2.2]⟩
  | [], (k, x) :: m', d, fs, gs, h1, h2 => by
    simp only [FootMap] at h1 h2
    obtain ⟨rfl, rfl⟩ := h1
    obtain ⟨r, d', f1, f2, q, -⟩ := h2
    simp at q
  | (k, x) :: m, [], d, fs, gs, h1, h2 => by
    simp only [FootMap] at h1 h2
    obtain ⟨rfl, rfl⟩ := h2
    obtain ⟨r, d', f1, f2, q, -⟩ := h1
    simp at q
  | (k, x) :: m, (k', x') :: m', d, fs, gs, h1, h2 => by
    simp only [FootMap] at h1 h2
    obtain ⟨r, d1, f1, f2, rfl, a1, a2, rfl⟩ := h1
    obtain ⟨r', d2, g1, g2, q, b1, b2, rfl⟩ := h2
    simp only [List.cons.injEq, Prod.mk.injEq] at q
    obtain ⟨⟨rfl, rfl⟩, rfl⟩ := q
    obtain ⟨rfl, rfl⟩ := Foot.unique a1 b1
    obtain ⟨rfl, rfl⟩ := FootMap.unique a2 b2
    exact ⟨rfl, rfl⟩
theorem FootList.unique {h : Heap F} : ∀ {m m' : List (Attr F)} {d : List Ref} {fs gs : List Ref},
    FootList h m d fs → FootList h m' d gs → m = m' ∧ fs = gs
  | [], [], d, fs, gs, h1, h2 => by
    simp only [FootList] at h1 h2
    exact ⟨rfl, by rw [h1.2, h2.2]⟩
  | [], x :: m', d, fs, gs, h1, h2 => by
    simp only [FootList] at h1 h2
    obtain ⟨rfl, rfl⟩ := h1
    obtain ⟨r, d', f1, f2, q, -⟩ := h2
    simp at q
  | x :: m, [], d, fs, gs, h1, h2 => by
    simp only [FootList] at h1 h2
    obtain ⟨rfl, rfl⟩ := h2
    obtain ⟨r, d', f1, f2, q, -⟩ := h1
    simp at q
  | x :: m, x' :: m', d, fs, gs, h1, h2 => by
    simp only [FootList] at h1 h2
    obtain ⟨r, d1, f1, f2, rfl, a1, a2, rfl⟩ := h1
    obtain ⟨r', d2, g1, g2, q, b1, b2, rfl⟩ := h2
    simp only [List.cons.injEq] at q
    obtain ⟨rfl, rfl⟩ := q
    obtain ⟨rfl, rfl⟩ := Foot.unique a1 b1
    obtain ⟨rfl, rfl⟩ := FootList.unique a2 b2
    exact ⟨rfl, rfl⟩
end

mutual
theorem Foot.inner {h : Heap F} : ∀ {x : Attr F} {r : Ref} {fs : List Ref}, Foot h x r fs → ∀ w ∈ fs,
    ∃ m d gs, h.get w = some (.map d) ∧ FootMap h m d gs ∧ gs.length < fs.length ∧ ∀ z ∈ gs, z ∈ fs
  | .mk k key e v m c, r, fs, hd => by
    simp only [Foot] at hd
    obtain ⟨mr, d, cr, f1, f2, a1, a2, a3, a4, rfl⟩ := hd
    intro w hw
    simp only [List.mem_cons, List.mem_append] at hw
    rcases hw with rfl | hw | hw
    · exact ⟨m, d, f1, a2, a3, by simp; omega, by simp +contextual⟩
    · obtain ⟨m', d', gs, b1, b2, b3, b4⟩ := FootMap.inner a3 w hw
      exact ⟨m', d', gs, b1, b2, by simp; omega, fun z hz => by simp [b4 z hz]⟩
    · obtain ⟨m', d', gs, b1, b2, b3, b4⟩ := FootList.inner a4 w hw
      exact ⟨m', d', gs, b1, b2, by simp; omega, fun z hz => by simp [b4 z hz]⟩
theorem FootMap.inner {h : Heap F} : ∀ {m : List (Str × Attr F)} {d : List (Str × Ref)} {fs : List Ref}, FootMap h m d fs → ∀ w ∈ fs,
    ∃ m d gs, h.get w = some (.map d) ∧ FootMap h m d gs ∧ gs.length < fs.length ∧ ∀ z ∈ gs, z ∈ fs
  | [], d, fs, hd => by
    simp only [FootMap] at hd
    simp [hd.2]
  | (k, x) :: m, d, fs, hd => by
    simp only [FootMap] at hd
    obtain ⟨r, d', f1, f2, rfl, a1, a2, rfl⟩ := hd
    intro w hw
    simp only [List.mem_append] at hw
    rcases hw with hw | hw
    · obtain ⟨m', d', gs, b1, b2, b3, b4⟩ := Foot.inner a1 w hw
      exact ⟨m', d', gs, b1, b2, by simp; omega, fun z hz => by simp [b4 z hz]⟩
    · obtain ⟨m', d', gs, b1, b2, b3, b4⟩ := FootMap.inner a2 w hw
      exact ⟨m', d', gs, b1, b2, by simp; omega, fun z hz => by simp [b4 z hz]⟩
theorem FootList.inner {h : Heap F} : ∀ {m : List (Attr F)} {d : List Ref} {fs : List Ref}, FootList h m d fs → ∀ w ∈ fs,
    ∃ m d gs, h.get w = some (.map d) ∧ FootMap h m d gs ∧ gs.length < fs.length ∧ ∀ z ∈ gs, z ∈ fs
  | [], d, fs, hd => by
    simp only [FootList] at hd
    simp [hd.2]
  | x :: m, d, fs, hd => by
    simp only [FootList] at hd
    obtain ⟨r, d', f1, f2, rfl, a1, a2, rfl⟩ := hd
    intro w hw
    simp only [List.mem_append] at hw
    rcases hw with hw | hw
    · obtain ⟨m', d', gs, b1, b2, b3, b4⟩ := Foot.inner a1 w hw
      exact ⟨m', d', gs, b1, b2, by simp; omega, fun z hz => by simp [b4 z hz]⟩
    · obtain ⟨m', d', gs, b1, b2, b3, b4⟩ := FootList.inner a2 w hw
      exact ⟨m', d', gs, b1, b2, by simp; omega, fun z hz => by simp [b4 z hz]⟩
end

/-- A map is not used below itself. -/
theorem FootMap.own {h : Heap F} {m : AttrMap F} {d : List (Str × Ref)} {fs : List Ref} {mr : Ref}
    (hg : h.get mr = some (.map d)) (hf : FootMap h m d fs) : mr ∉ fs := by
  intro hm
  obtain ⟨m', d', gs, b1, b2, b3, -⟩ := hf.inner mr hm
  rw [hg] at b1
  simp only [Option.some.injEq, Obj.map.injEq] at b1
  subst b1
  obtain ⟨-, rfl⟩ := hf.unique b2
  omega

theorem FootMap.lt {h : Heap F} {m : AttrMap F} {d : List (Str × Ref)} {fs : List Ref} (hf : FootMap h m d fs) :
    ∀ w ∈ fs, w < h.size := by
  intro w hw
  obtain ⟨m', d', gs, b1, -⟩ := hf.inner w hw
  exact get_lt b1

/-- Attribute objects are not changed. -/
def KeepsAttrs (h h' : Heap F) : Prop :=
  ∀ r k key e v m c, h.get r = some (.attr k key e v m c) → h'.get r = some (.attr k key e v m c)

theorem KeepsAttrs.refl (h : Heap F) : KeepsAttrs h h := fun _ _ _ _ _ _ _ q => q

theorem KeepsAttrs.trans {h h' h'' : Heap F} (a : KeepsAttrs h h') (b : KeepsAttrs h' h'') : KeepsAttrs h h'' :=
  fun _ _ _ _ _ _ _ q => b _ _ _ _ _ _ _ (a _ _ _ _ _ _ _ q)

mutual
theorem Foot.frame {h h' : Heap F} (hk : KeepsAttrs h h') : ∀ {x : Attr F} {r : Ref} {fs : List Ref}, Foot h x r fs →
    (∀ w ∈ fs, h'.get w = h.get w) → Foot h' x r fs
  | .mk k key e v m c, r, fs, hd, hs => by
    simp only [Foot] at hd ⊢
    obtain ⟨mr, d, cr, f1, f2, a1, a2, a3, a4, rfl⟩ := hd
    exact ⟨mr, d, cr, f1, f2, hk _ _ _ _ _ _ _ a1, by rw [hs mr (by simp)]; exact a2,
      FootMap.frame hk a3 (fun w hw => hs w (by simp [hw])), FootList.frame hk a4 (fun w hw => hs w (by simp [hw])), rfl⟩
theorem FootMap.frame {h h' : Heap F} (hk : KeepsAttrs h h') : ∀ {m : List (Str × Attr F)} {d : List (Str × Ref)} {fs : List Ref},
    FootMap h m d fs → (∀ w ∈ fs, h'.get w = h.get w) → FootMap h' m d fs
  | [], d, fs, hd, hs => by simpa only [FootMap] using hd
  | (k, x) :: m, d, fs, hd, hs => by
    simp only [FootMap] at hd ⊢
    obtain ⟨r, d', f1, f2, rfl, a1, a2, rfl⟩ := hd
    exact ⟨r, d', f1, f2, rfl, Foot.frame hk a1 (fun w hw => hs w (by simp [hw])), FootMap.frame hk a2 (fun w hw => hs w (by simp [hw])), rfl⟩
theorem FootList.frame {h h' : Heap F} (hk : KeepsAttrs h h') : ∀ {m : List (Attr F)} {d : List Ref} {fs : List Ref},
    FootList h m d fs → (∀ w ∈ fs, h'.get w = h.get w) → FootList h' m d fs
  | [], d, fs, hd, hs => by simpa only [FootList] using hd
  | x :: m, d, fs, hd, hs => by
    simp only [FootList] at hd ⊢
    obtain ⟨r, d', f1, f2, rfl, a1, a2, rfl⟩ := hd
    exact ⟨r, d', f1, f2, rfl, Foot.frame hk a1 (fun w hw => hs w (by simp [hw])), FootList.frame hk a2 (fun w hw => hs w (by simp [hw])), rfl⟩
end

theorem FootMap.keys {h : Heap F} : ∀ {m : List (Str × Attr F)} {d : List (Str × Ref)} {fs : List Ref},
    FootMap h m d fs → dkeys d = dkeys m
  | [], d, fs, hd => by simp only [FootMap] at hd; simp [hd.1, dkeys]
  | (k, x) :: m, d, fs, hd => by
    simp only [FootMap] at hd
    obtain ⟨r, d', f1, f2, rfl, a1, a2, rfl⟩ := hd
    have := FootMap.keys a2
    simp only [dkeys, List.map_cons] at this ⊢
    rw [this]

/-- Storing an attribute. -/
theorem FootMap.dset {h : Heap F} {k : Str} {x : Attr F} {r : Ref} {f : List Ref} (hx : Foot h x r f) :
    ∀ {m : List (Str × Attr F)} {d : List (Str × Ref)} {fs : List Ref}, FootMap h m d fs →
    ∃ gs, FootMap h (dset k x m) (dset k r d) gs ∧ ∀ w, gs.count w ≤ f.count w + fs.count w
  | [], d, fs, hd => by
    simp only [FootMap] at hd
    obtain ⟨rfl, rfl⟩ := hd
    simp only [Opy.dset, FootMap]
    exact ⟨f, ⟨r, [], f, [], rfl, hx, ⟨rfl, rfl⟩, by simp⟩, by simp⟩
  | (k', y) :: m, d, fs, hd => by
    simp only [FootMap] at hd
    obtain ⟨s, d', f1, f2, rfl, h1, h2, rfl⟩ := hd
    simp only [Opy.dset]
    by_cases e : k' = k
    · simp only [e, if_true, FootMap]
      exact ⟨_, ⟨r, d', f, f2, rfl, hx, h2, rfl⟩, fun w => by simp only [List.count_append]; omega⟩
    · simp only [e, if_false, FootMap]
      obtain ⟨gs, g1, g2⟩ := FootMap.dset (k := k) hx h2
      exact ⟨_, ⟨s, _, f1, gs, rfl, h1, g1, rfl⟩, fun w => by have := g2 w; simp only [List.count_append]; omega⟩

/-- Removing an attribute. -/
theorem FootMap.ddel {h : Heap F} {k : Str} : ∀ {m : List (Str × Attr F)} {d : List (Str × Ref)} {fs : List Ref}, FootMap h m d fs →
    ∃ gs, FootMap h (ddel k m) (ddel k d) gs ∧ ∀ w, gs.count w ≤ fs.count w
  | [], d, fs, hd => by
    simp only [FootMap] at hd
    obtain ⟨rfl, rfl⟩ := hd
    simp only [Opy.ddel, FootMap]
    exact ⟨[], by simp, by simp⟩
  | (k', y) :: m, d, fs, hd => by
    simp only [FootMap] at hd
    obtain ⟨s, d', f1, f2, rfl, h1, h2, rfl⟩ := hd
    simp only [Opy.ddel]
    by_cases e : k' = k
    · simp only [e, if_true]
      exact ⟨f2, h2, fun w => by simp only [List.count_append]; omega⟩
    · simp only [e, if_false, FootMap]
      obtain ⟨gs, g1, g2⟩ := FootMap.ddel (k := k) h2
      exact ⟨_, ⟨s, _, f1, gs, rfl, h1, g1, rfl⟩, fun w => by have := g2 w; simp only [List.count_append]; omega⟩

end

end Opy
