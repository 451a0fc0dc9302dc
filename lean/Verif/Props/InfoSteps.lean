import Verif.Props.Info
set_option linter.unusedSectionVars false
/-
C165: attribute statistics (XAttributeInfo) used step by step, with attributes that cannot be registered.
-/
namespace Opy

section
variable {F : Type} [PyFloat F]

/-- A prototype can be made of the attribute: neither a timestamp, list or container, nor an ID attribute whose value is no XID. -/
def Countable (a : Attr F) : Prop :=
  a.kind = .literal ∨ a.kind = .discrete ∨ a.kind = .continuous ∨ a.kind = .boolean ∨ a.kind = .id ∧ ∃ u, a.val = .xid u

/-- The prototype is an attribute of the same class, with the same key and extension. -/
def protoOf (a : Attr F) : Proto := ⟨a.kind, a.key, a.ext⟩

theorem deriveProto_cases (a : Attr F) :
    (Countable a ∧ deriveProto a = .ok (protoOf a)) ∨ (¬ Countable a ∧ deriveProto a = .error .attributeError) := by
  unfold deriveProto Countable protoOf
  cases hk : a.kind <;> simp
  cases hv : a.val <;> simp

/-- No attribute in the list could be registered first under the key. -/
def NoneYet (k : Str) (as : List (Attr F)) : Prop := ∀ b ∈ as, b.key = k → ¬ Countable b

/-- What is known after a history. -/
structure Stepwise (i : AttrInfo) (as : List (Attr F)) : Prop where
  nodup : (dkeys i.keyMap).Nodup
  protoKeys : (dvals i.keyMap).map Proto.key = dkeys i.keyMap
  sameKeys : dkeys i.freq = dkeys i.keyMap
  absent : ∀ k, k ∉ dkeys i.keyMap ↔ NoneYet k as
  present : ∀ pre a post, as = pre ++ a :: post → Countable a → NoneYet a.key pre →
    dget a.key i.keyMap = some (protoOf a) ∧ dget a.key i.freq = some ((a :: post).countP fun b => b.key = a.key)
  order : ∀ pre a post, as = pre ++ a :: post → Countable a → NoneYet a.key pre →
    ∃ l r, i.keyMap = l ++ (a.key, protoOf a) :: r ∧ (∀ k, k ∉ dkeys l ↔ NoneYet k pre)
  total : i.total = (dvals i.freq).sum

theorem noneYet_snoc {k : Str} {as : List (Attr F)} {a : Attr F} : NoneYet k (as ++ [a]) ↔ NoneYet k as ∧ (a.key = k → ¬ Countable a) := by
  constructor
  · intro h
    exact ⟨fun b hb => h b (List.mem_append_left _ hb), h a (by simp)⟩
  · rintro ⟨h1, h2⟩ b hb
    rcases List.mem_append.mp hb with hb | hb
    · exact h1 b hb
    · rw [List.mem_singleton.mp hb]; exact h2

theorem Stepwise.empty : Stepwise (F := F) AttrInfo.empty [] where
  nodup := by simp [AttrInfo.empty, dkeys]
  protoKeys := rfl
  sameKeys := rfl
  absent k := by simp [AttrInfo.empty, dkeys, NoneYet]
  present pre a post h := by simp at h
  order pre a post h := by simp at h
  total := rfl

/-- A list that ends with an element, cut at another place. -/
theorem snoc_cut {α : Type} {as pre post : List α} {a b : α} (h : as ++ [a] = pre ++ b :: post) :
    (post = [] ∧ pre = as ∧ b = a) ∨ ∃ post', post = post' ++ [a] ∧ as = pre ++ b :: post' := by
  rcases List.eq_nil_or_concat post with rfl | ⟨post', c, rfl⟩
  · left
    have := List.append_inj' h rfl
    exact ⟨rfl, this.1.symm, by simpa using this.2.symm⟩
  · right
    rw [List.concat_eq_append, ← List.cons_append, ← List.append_assoc] at h
    have := List.append_inj' h rfl
    exact ⟨post', by rw [List.concat_eq_append, show c = a by simpa using this.2.symm], this.1⟩

theorem sum_dset_self {k : Str} {n : Nat} : ∀ {d : List (Str × Nat)}, dget k d = some n → (dvals (dset k (n + 1) d)).sum = (dvals d).sum + 1 := by
  intro d
  induction d with
  | nil => intro h; simp [dget] at h
  | cons p r ih =>
    obtain ⟨k', v⟩ := p
    intro h
    simp only [dget] at h
    simp only [dset]
    split
    · rename_i hk
      rw [if_pos hk] at h
      cases h
      simp [dvals]; omega
    · rename_i hk
      rw [if_neg hk] at h
      have := ih h
      simp only [dvals, List.map_cons, List.sum_cons] at this ⊢
      omega

theorem Stepwise.step {i : AttrInfo} {as : List (Attr F)} (h : Stepwise i as) (a : Attr F) :
    Stepwise (match i.register a with | .ok j => j | .error _ => i) (as ++ [a]) ∧
    (∀ e, i.register a = .error e ↔ e = .attributeError ∧ ¬ Countable a ∧ NoneYet a.key as) := by
  cases hg : dget a.key i.keyMap with
  | none =>
    have hk : a.key ∉ dkeys i.keyMap := dget_eq_none.1 hg
    have hy := (h.absent a.key).1 hk
    rcases deriveProto_cases a with ⟨hc, hd⟩ | ⟨hc, hd⟩
    · have hr : i.register a = .ok { i with
          keyMap := dset a.key (protoOf a) i.keyMap
          freq := dset a.key 1 i.freq
          typeMap := dset (protoOf a).kind (match dget (protoOf a).kind i.typeMap with | none => [] | some s => s) i.typeMap
          total := i.total + 1 } := by
        simp only [AttrInfo.register, hg, hd]; rfl
      rw [hr]
      have hkf : a.key ∉ dkeys i.freq := by rw [h.sameKeys]; exact hk
      have e1 : dset a.key (protoOf a) i.keyMap = i.keyMap ++ [(a.key, protoOf a)] := dset_eq_append _ hk
      have e2 : dset a.key 1 i.freq = i.freq ++ [(a.key, 1)] := dset_eq_append _ hkf
      refine ⟨⟨nodup_dset h.nodup, ?_, ?_, ?_, ?_, ?_, ?_⟩, ?_⟩
      · show (dvals (dset _ _ _)).map Proto.key = dkeys (dset _ _ _)
        have := h.protoKeys
        rw [e1]
        simp only [dkeys, dvals, List.map_append] at this ⊢
        rw [this]; rfl
      · show dkeys (dset _ _ _) = dkeys (dset _ _ _)
        rw [e1, e2]
        have := h.sameKeys
        simp only [dkeys, List.map_append] at this ⊢
        rw [this]; rfl
      · intro k
        show k ∉ dkeys (dset _ _ _) ↔ _
        rw [e1, noneYet_snoc, ← h.absent k]
        simp only [dkeys, List.map_append, List.map_cons, List.map_nil, List.mem_append, List.mem_singleton, not_or]
        exact ⟨fun ⟨h1, h2⟩ => ⟨h1, fun h3 => absurd h3.symm h2⟩, fun ⟨h1, h2⟩ => ⟨h1, fun h3 => h2 h3.symm hc⟩⟩
      · intro pre b post he hb hp
        rcases snoc_cut he with ⟨rfl, rfl, rfl⟩ | ⟨post', rfl, rfl⟩
        · exact ⟨dget_dset_self _ _ _, by show dget _ (dset _ _ _) = _; rw [dget_dset_self]; simp⟩
        · have hne : b.key ≠ a.key := fun e => hy b (by simp) e hb
          obtain ⟨h1, h2⟩ := h.present pre b post' rfl hb hp
          refine ⟨by show dget _ (dset _ _ _) = _; rw [dget_dset_ne hne]; exact h1, ?_⟩
          show dget _ (dset _ _ _) = _
          rw [dget_dset_ne hne, h2, ← List.cons_append, List.countP_append]
          simp [Ne.symm hne]
      · intro pre b post he hb hp
        rcases snoc_cut he with ⟨rfl, rfl, rfl⟩ | ⟨post', rfl, rfl⟩
        · exact ⟨i.keyMap, [], e1, h.absent⟩
        · obtain ⟨l, r, h1, h2⟩ := h.order pre b post' rfl hb hp
          exact ⟨l, r ++ [(a.key, protoOf a)], by show dset _ _ _ = _; rw [e1, h1]; simp, h2⟩
      · show i.total + 1 = (dvals (dset _ _ _)).sum
        rw [e2, h.total]
        simp [dvals]
      · intro e
        exact ⟨fun h1 => (by cases h1), fun h1 => absurd hc h1.2.1⟩
    · have hr : i.register a = .error .attributeError := by simp only [AttrInfo.register, hg, hd]; rfl
      rw [hr]
      refine ⟨⟨h.nodup, h.protoKeys, h.sameKeys, ?_, ?_, ?_, h.total⟩, ?_⟩
      · intro k
        rw [noneYet_snoc, ← h.absent k]
        exact ⟨fun h1 => ⟨h1, fun _ => hc⟩, fun h1 => h1.1⟩
      · intro pre b post he hb hp
        rcases snoc_cut he with ⟨rfl, rfl, rfl⟩ | ⟨post', rfl, rfl⟩
        · exact absurd hb hc
        · have hne : b.key ≠ a.key := fun e => hy b (by simp) e hb
          obtain ⟨h1, h2⟩ := h.present pre b post' rfl hb hp
          refine ⟨h1, ?_⟩
          rw [h2, ← List.cons_append, List.countP_append]
          simp [Ne.symm hne]
      · intro pre b post he hb hp
        rcases snoc_cut he with ⟨rfl, rfl, rfl⟩ | ⟨post', rfl, rfl⟩
        · exact absurd hb hc
        · exact h.order pre b post' rfl hb hp
      · intro e
        constructor
        · intro h1; cases h1; exact ⟨rfl, hc, hy⟩
        · rintro ⟨rfl, _, _⟩; rfl
  | some p =>
    have hk : a.key ∈ dkeys i.keyMap := dget_isSome.1 ⟨p, hg⟩
    have hkf : a.key ∈ dkeys i.freq := by rw [h.sameKeys]; exact hk
    obtain ⟨n, hn⟩ := dget_isSome.2 hkf
    have hny : ¬ NoneYet a.key as := fun h1 => (h.absent a.key).2 h1 hk
    have hr : i.register a = .ok { i with freq := dset a.key (n + 1) i.freq, total := i.total + 1 } := by
      simp only [AttrInfo.register, hg, hn]
    rw [hr]
    refine ⟨⟨h.nodup, h.protoKeys, ?_, ?_, ?_, ?_, ?_⟩, ?_⟩
    · show dkeys (dset _ _ _) = _
      rw [dkeys_dset, if_pos hkf]; exact h.sameKeys
    · intro k
      rw [noneYet_snoc, ← h.absent k]
      refine ⟨fun h1 => ⟨h1, fun h2 => absurd (h2 ▸ hk) h1⟩, fun h1 => h1.1⟩
    · intro pre b post he hb hp
      rcases snoc_cut he with ⟨rfl, rfl, rfl⟩ | ⟨post', rfl, rfl⟩
      · exact absurd hp hny
      · obtain ⟨h1, h2⟩ := h.present pre b post' rfl hb hp
        refine ⟨h1, ?_⟩
        show dget _ (dset _ _ _) = _
        rw [dget_dset, ← List.cons_append, List.countP_append]
        split
        · rename_i heq
          rw [heq] at h2
          rw [h2] at hn
          rw [← Option.some.inj hn, heq]
          simp
        · rename_i hne
          rw [h2]
          simp [Ne.symm hne]
    · intro pre b post he hb hp
      rcases snoc_cut he with ⟨rfl, rfl, rfl⟩ | ⟨post', rfl, rfl⟩
      · exact absurd hp hny
      · exact h.order pre b post' rfl hb hp
    · show i.total + 1 = _
      rw [sum_dset_self hn, h.total]
    · intro e
      exact ⟨fun h1 => (by cases h1), fun h1 => absurd h1.2.2 hny⟩

theorem Stepwise.all : ∀ (as : List (Attr F)) {i : AttrInfo} {done : List (Attr F)}, Stepwise i done → Stepwise (i.tryAll as) (done ++ as)
  | [], _, _, h => by simpa [AttrInfo.tryAll] using h
  | a :: as, _, done, h => by
    have := Stepwise.all as (h.step a).1
    rw [List.append_assoc] at this
    exact this

theorem stepwise_all (as : List (Attr F)) : Stepwise (AttrInfo.empty.tryAll as) as := by
  simpa using Stepwise.all as Stepwise.empty

/-- C165: which calls raise.  `as` is what was registered (or tried to be) before. -/
theorem c165_raises (as : List (Attr F)) (a : Attr F) (e : PyErr) :
    (AttrInfo.empty.tryAll as).register a = .error e ↔ e = .attributeError ∧ ¬ Countable a ∧ ∀ b ∈ as, b.key = a.key → ¬ Countable b :=
  ((stepwise_all as).step a).2 e

/-- C165: a call that raises changes nothing, and after one that does not, the history is one longer. -/
theorem c165_step (as : List (Attr F)) (a : Attr F) :
    (∀ e, (AttrInfo.empty.tryAll as).register a = .error e → AttrInfo.empty.tryAll (as ++ [a]) = AttrInfo.empty.tryAll as) ∧
    ∀ j, (AttrInfo.empty.tryAll as).register a = .ok j → AttrInfo.empty.tryAll (as ++ [a]) = j := by
  constructor
  · intro e h
    simp only [AttrInfo.tryAll, List.foldl_append, List.foldl_cons, List.foldl_nil] at h ⊢
    rw [h]
  · intro e h
    simp only [AttrInfo.tryAll, List.foldl_append, List.foldl_cons, List.foldl_nil] at h ⊢
    rw [h]

/-- C165: the keys listed are those under which an attribute was registered that has a prototype, each once, with the prototypes beside
them. -/
theorem c165_keys (as : List (Attr F)) :
    let i := AttrInfo.empty.tryAll as
    i.attributeKeys.Nodup ∧ (∀ k, k ∈ i.attributeKeys ↔ ∃ b ∈ as, b.key = k ∧ Countable b) ∧
    i.attributes.map Proto.key = i.attributeKeys ∧ ∀ k, i.frequency k = none ↔ k ∉ i.attributeKeys := by
  have h := stepwise_all as
  refine ⟨h.nodup, ?_, ?_, ?_⟩
  · intro k
    have := h.absent k
    constructor
    · intro hk
      refine Classical.byContradiction fun hn => this.2 (fun b hb hbk hbc => hn ⟨b, hb, hbk, hbc⟩) hk
    · rintro ⟨b, hb, hbk, hbc⟩
      exact Classical.byContradiction fun hn => this.1 hn b hb hbk hbc
  · exact h.protoKeys
  · intro k
    rw [AttrInfo.frequency, dget_eq_none, h.sameKeys]
    rfl

/-- C165: what is known about the key of the first attribute that could be registered under it. -/
theorem c165_first {as pre post : List (Attr F)} {a : Attr F} (he : as = pre ++ a :: post) (hc : Countable a)
    (hp : ∀ b ∈ pre, b.key = a.key → ¬ Countable b) :
    let i := AttrInfo.empty.tryAll as
    i.frequency a.key = some ((a :: post).countP fun b => b.key = a.key) ∧
    ∃ l r, i.attributes = l ++ ⟨a.kind, a.key, a.ext⟩ :: r ∧ ∀ k, k ∈ l.map Proto.key ↔ ∃ b ∈ pre, b.key = k ∧ Countable b := by
  have h := stepwise_all as
  obtain ⟨l, r, h1, h2⟩ := h.order pre a post he hc hp
  refine ⟨(h.present pre a post he hc hp).2, dvals l, dvals r, by simp [AttrInfo.attributes, h1, dvals, protoOf], fun k => ?_⟩
  have h3 : (dvals l).map Proto.key = dkeys l := by
    have := h.protoKeys
    rw [h1] at this
    simp only [dvals, dkeys, List.map_append] at this ⊢
    exact (List.append_inj this (by simp)).1
  rw [h3]
  constructor
  · intro hk
    exact Classical.byContradiction fun hn => (h2 k).2 (fun b hb hbk hbc => hn ⟨b, hb, hbk, hbc⟩) hk
  · rintro ⟨b, hb, hbk, hbc⟩
    exact Classical.byContradiction fun hn => (h2 k).1 hn b hb hbk hbc

/-- C165: the total is the sum of the frequencies. -/
theorem c165_total (as : List (Attr F)) : (AttrInfo.empty.tryAll as).total = (dvals (AttrInfo.empty.tryAll as).freq).sum :=
  (stepwise_all as).total

theorem mem_le_sum {n : Nat} : ∀ {ns : List Nat}, n ∈ ns → n ≤ ns.sum
  | m :: ns, h => by
    rcases List.mem_cons.1 h with rfl | h
    · simp
    · have := mem_le_sum h
      simp only [List.sum_cons]
      omega

/-- C165: the relative frequency is the frequency over the sum of all (which is not less), and asking for a key without one is a
TypeError. -/
theorem c165_relative (as : List (Attr F)) (k : Str) :
    let i := AttrInfo.empty.tryAll as
    (k ∉ i.attributeKeys → i.relative k = .error .typeError) ∧
    ∀ n, i.frequency k = some n → i.relative k = .ok (n, (dvals i.freq).sum) ∧ n ≤ (dvals i.freq).sum := by
  intro i
  constructor
  · intro hk
    have h1 : dget k i.freq = none := ((c165_keys as).2.2.2 k).2 hk
    simp only [AttrInfo.relative, h1]
  · intro n hn
    have h1 : dget k i.freq = some n := hn
    refine ⟨?_, mem_le_sum (List.mem_map_of_mem (dget_mem h1))⟩
    have h2 : i.total = (dvals i.freq).sum := c165_total as
    simp only [AttrInfo.relative, h1, h2]

end

/- Examples -/

/-- A timestamp, then a text under the same key, then a timestamp again: the first call raises, the other two count. -/
example : let d : Attr ToyFloat := .mk .timestamp py!"k" none .none [] []
    let t : Attr ToyFloat := .mk .literal py!"k" none (.str py!"x") [] []
    let n : Attr ToyFloat := .mk .discrete py!"n" none (.int 1) [] []
    let i := AttrInfo.empty.tryAll [n, d, t, d]
    i.attributes = [⟨.discrete, py!"n", none⟩, ⟨.literal, py!"k", none⟩] ∧ i.frequency py!"k" = some 2 ∧ i.total = 3 := by decide +kernel

/-- Such a call indeed has a prototype, and such a one has none. -/
example : Countable (F := ToyFloat) (.mk .literal py!"k" none (.str py!"x") [] []) := .inl rfl
example : ¬ Countable (F := ToyFloat) (.mk .id py!"k" none .none [] []) := by simp [Countable, Attr.kind, Attr.val]

end Opy
