import Verif.Model.Heap
import Verif.Lemmas.Dict
/- Laws of the object heap. -/
namespace Opy

section
variable {F : Type}

theorem get_lt {h : Heap F} {r : Ref} {o : Obj F} (hg : h.get r = some o) : r < h.size := by
  unfold Heap.get at hg
  unfold Heap.size
  exact (List.getElem?_eq_some_iff.1 hg).1

@[simp] theorem size_put (h : Heap F) (r : Ref) (o : Obj F) : (h.put r o).size = h.size := by
  simp [Heap.put, Heap.size]

@[simp] theorem size_alloc (h : Heap F) (o : Obj F) : (h.alloc o).2.size = h.size + 1 := by
  simp [Heap.alloc, Heap.size]

@[simp] theorem alloc_ref (h : Heap F) (o : Obj F) : (h.alloc o).1 = h.size := rfl

@[simp] theorem size_draw (rnd : Nat → Uuid) (h : Heap F) : (h.draw rnd).2.size = h.size := rfl

@[simp] theorem get_draw (rnd : Nat → Uuid) (h : Heap F) (r : Ref) : (h.draw rnd).2.get r = h.get r := rfl

@[simp] theorem draw_fst (rnd : Nat → Uuid) (h : Heap F) : (h.draw rnd).1 = rnd h.drawn := rfl

@[simp] theorem drawn_draw (rnd : Nat → Uuid) (h : Heap F) : (h.draw rnd).2.drawn = h.drawn + 1 := rfl

@[simp] theorem drawn_put (h : Heap F) (r : Ref) (o : Obj F) : (h.put r o).drawn = h.drawn := rfl

@[simp] theorem drawn_alloc (h : Heap F) (o : Obj F) : (h.alloc o).2.drawn = h.drawn := rfl

theorem get_put_self {h : Heap F} {r : Ref} (o : Obj F) (hr : r < h.size) : (h.put r o).get r = some o := by
  unfold Heap.size at hr
  simp [Heap.put, Heap.get, hr]

theorem get_put_ne {h : Heap F} {r r' : Ref} (o : Obj F) (hr : r' ≠ r) : (h.put r o).get r' = h.get r' := by
  simp [Heap.put, Heap.get, Ne.symm hr]

theorem get_alloc_new (h : Heap F) (o : Obj F) : (h.alloc o).2.get h.size = some o := by
  simp [Heap.alloc, Heap.get, Heap.size]

theorem get_alloc_old {h : Heap F} (o : Obj F) {r : Ref} (hr : r < h.size) : (h.alloc o).2.get r = h.get r := by
  unfold Heap.size at hr
  simp only [Heap.alloc, Heap.get]
  exact List.getElem?_append_left hr

theorem get_none {h : Heap F} {r : Ref} (hr : h.size ≤ r) : h.get r = none := by
  unfold Heap.size at hr
  simp [Heap.get, hr]

/-- `h'` extends `h` and has not changed any cell below `n`. -/
structure Keeps (n : Nat) (h h' : Heap F) : Prop where
  size : h.size ≤ h'.size
  old : ∀ r, r < n → h'.get r = h.get r

theorem Keeps.refl (n : Nat) (h : Heap F) : Keeps n h h := ⟨Nat.le_refl _, fun _ _ => rfl⟩

theorem Keeps.trans {n : Nat} {h h' h'' : Heap F} (a : Keeps n h h') (b : Keeps n h' h'') : Keeps n h h'' :=
  ⟨Nat.le_trans a.size b.size, fun r hr => (b.old r hr).trans (a.old r hr)⟩

theorem Keeps.mono {n m : Nat} {h h' : Heap F} (a : Keeps n h h') (hm : m ≤ n) : Keeps m h h' :=
  ⟨a.size, fun r hr => a.old r (by omega)⟩

theorem Keeps.alloc {n : Nat} {h : Heap F} (o : Obj F) (hn : n ≤ h.size) : Keeps n h (h.alloc o).2 :=
  ⟨by simp, fun r hr => get_alloc_old o (Nat.lt_of_lt_of_le hr hn)⟩

theorem Keeps.put {n : Nat} {h : Heap F} {r : Ref} (o : Obj F) (hn : n ≤ r) : Keeps n h (h.put r o) :=
  ⟨by simp, fun r' hr => get_put_ne o (Nat.ne_of_lt (Nat.lt_of_lt_of_le hr hn))⟩

theorem Keeps.draw (n : Nat) (rnd : Nat → Uuid) (h : Heap F) : Keeps n h (h.draw rnd).2 :=
  ⟨Nat.le_refl _, fun _ _ => rfl⟩

end

theorem foldl_dset_nodup {α : Type} : ∀ (d acc : List (Str × α)), (dkeys acc ++ dkeys d).Nodup →
    d.foldl (fun a p => dset p.1 p.2 a) acc = acc ++ d := by
  intro d
  induction d with
  | nil => intro acc _; simp
  | cons p d ih =>
    intro acc h
    have hp : p.1 ∉ dkeys acc := by
      intro hm
      rw [List.nodup_append] at h
      exact h.2.2 _ hm p.1 (by simp [dkeys]) rfl
    simp only [List.foldl_cons]
    rw [dset_eq_append _ hp, ih]
    · simp
    · have : dkeys (acc ++ [(p.1, p.2)]) = dkeys acc ++ [p.1] := by simp [dkeys]
      rw [this]
      simpa [dkeys] using h

theorem foldl_dset_self {α : Type} {d : List (Str × α)} (h : (dkeys d).Nodup) :
    d.foldl (fun a p => dset p.1 p.2 a) [] = d := by
  have := foldl_dset_nodup d [] (by simpa [dkeys] using h)
  simpa using this

end Opy
