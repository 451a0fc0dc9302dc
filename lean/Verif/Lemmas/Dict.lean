import Verif.Py.Dict
/- Laws of association-list dictionaries. -/
namespace Opy

variable {κ α : Type} [DecidableEq κ]

@[simp] theorem dget_nil (k : κ) : dget k ([] : List (κ × α)) = none := rfl

theorem dget_dset_self (k : κ) (v : α) (d : List (κ × α)) : dget k (dset k v d) = some v := by
  induction d with
  | nil => simp [dset, dget]
  | cons p r ih =>
    obtain ⟨k', v'⟩ := p
    simp only [dset]
    split
    · next h => simp [dget, h]
    · next h => simp [dget, h, ih]

theorem dget_dset_ne {k k' : κ} (h : k' ≠ k) (v : α) (d : List (κ × α)) :
    dget k' (dset k v d) = dget k' d := by
  induction d with
  | nil => simp [dset, dget, Ne.symm h]
  | cons p r ih =>
    obtain ⟨k2, v2⟩ := p
    simp only [dset]
    split
    · next e => subst e; simp [dget, Ne.symm h]
    · next e => simp only [dget, ih]

theorem dget_dset (k k' : κ) (v : α) (d : List (κ × α)) :
    dget k' (dset k v d) = if k' = k then some v else dget k' d := by
  split
  · next h => subst h; exact dget_dset_self _ _ _
  · next h => exact dget_dset_ne h _ _

theorem dget_eq_none {k : κ} {d : List (κ × α)} : dget k d = none ↔ k ∉ dkeys d := by
  induction d with
  | nil => simp [dkeys]
  | cons p r ih =>
    obtain ⟨k', v'⟩ := p
    simp only [dget, dkeys, List.map_cons, List.mem_cons, not_or]
    split
    · next h => simp [h]
    · next h =>
      rw [ih]
      exact ⟨fun h' => ⟨Ne.symm h, h'⟩, fun h' => h'.2⟩

theorem dget_isSome {k : κ} {d : List (κ × α)} : (∃ v, dget k d = some v) ↔ k ∈ dkeys d := by
  have := dget_eq_none (k := k) (d := d)
  constructor
  · rintro ⟨v, hv⟩
    apply Classical.byContradiction
    intro h
    rw [this.2 h] at hv
    exact absurd hv (by simp)
  · intro h
    cases hv : dget k d with
    | none => exact absurd h (this.1 hv)
    | some v => exact ⟨v, rfl⟩

theorem dget_mem {k : κ} {v : α} {d : List (κ × α)} (h : dget k d = some v) : (k, v) ∈ d := by
  induction d with
  | nil => simp at h
  | cons p r ih =>
    obtain ⟨k', v'⟩ := p
    simp only [dget] at h
    split at h
    · next e => simp at h; simp [e, h]
    · exact List.mem_cons_of_mem _ (ih h)

theorem mem_dget {k : κ} {v : α} {d : List (κ × α)} (hn : (dkeys d).Nodup) (h : (k, v) ∈ d) :
    dget k d = some v := by
  induction d with
  | nil => simp at h
  | cons p r ih =>
    obtain ⟨k', v'⟩ := p
    simp only [dkeys, List.map_cons, List.nodup_cons] at hn
    simp only [dget]
    rcases List.mem_cons.1 h with h | h
    · cases h; simp
    · split
      · next e =>
        subst e
        exact absurd (List.mem_map.2 ⟨_, h, rfl⟩) hn.1
      · exact ih hn.2 h

theorem dkeys_dset (k : κ) (v : α) (d : List (κ × α)) :
    dkeys (dset k v d) = if k ∈ dkeys d then dkeys d else dkeys d ++ [k] := by
  induction d with
  | nil => simp [dset, dkeys]
  | cons p r ih =>
    obtain ⟨k', v'⟩ := p
    simp only [dset]
    by_cases h : k' = k
    · subst h; simp [dkeys]
    · simp only [h, if_false, dkeys, List.map_cons, List.mem_cons, Ne.symm h, false_or]
      simp only [dkeys] at ih
      rw [ih]
      by_cases hm : k ∈ List.map Prod.fst r <;> simp only [hm, if_true, if_false, List.cons_append]

theorem dset_eq_append {k : κ} {d : List (κ × α)} (v : α) (h : k ∉ dkeys d) : dset k v d = d ++ [(k, v)] := by
  induction d with
  | nil => rfl
  | cons p r ih =>
    obtain ⟨k', v'⟩ := p
    simp only [dkeys, List.map_cons, List.mem_cons, not_or] at h
    simp only [dset, Ne.symm h.1, if_false, List.cons_append]
    rw [ih h.2]

theorem nodup_dset {k : κ} {v : α} {d : List (κ × α)} (h : (dkeys d).Nodup) : (dkeys (dset k v d)).Nodup := by
  rw [dkeys_dset]
  split
  · exact h
  · next hk =>
    rw [List.nodup_append]
    exact ⟨h, by simp, by intro a ha b hb; simp at hb; subst hb; exact fun e => hk (e ▸ ha)⟩

theorem dset_dset_comm {k k' : κ} (h : k ≠ k') (v v' : α) {d : List (κ × α)} (x : κ) :
    dget x (dset k v (dset k' v' d)) = dget x (dset k' v' (dset k v d)) := by
  simp only [dget_dset]
  by_cases h1 : x = k
  · subst h1; simp [h]
  · simp [h1]

theorem dget_ddel_ne {k k' : κ} (h : k' ≠ k) (d : List (κ × α)) : dget k' (ddel k d) = dget k' d := by
  induction d with
  | nil => rfl
  | cons p r ih =>
    obtain ⟨k2, v2⟩ := p
    simp only [ddel]
    split
    · next e => subst e; simp [dget, Ne.symm h]
    · next e => simp only [dget, ih]

theorem dget_ddel_self {k : κ} {d : List (κ × α)} (hn : (dkeys d).Nodup) : dget k (ddel k d) = none := by
  induction d with
  | nil => rfl
  | cons p r ih =>
    obtain ⟨k2, v2⟩ := p
    simp only [dkeys, List.map_cons, List.nodup_cons] at hn
    simp only [ddel]
    split
    · next e => subst e; exact dget_eq_none.2 hn.1
    · next e => simp [dget, e, ih hn.2]

end Opy
