import Verif.Model.Extended
import Verif.Props.Ext
/-
Property C126: the fields of an extended event are independent of each other.
-/
set_option linter.unusedSectionVars false
namespace Opy

section
variable {F : Type} [PyFloat F] {U : Type}

/-! ## Specification -/

/-- The fields of an extended event. The transition as text and as standard transition are one field, and so are the references as texts
and as URIs. -/
inductive EvField where
  | name | inst | time | resource | role | group | transition | references
  deriving DecidableEq

/-- The field that a setter is there for. -/
def EvSet.field : EvSet U → EvField
  | .name _ => .name | .inst _ => .inst | .timestamp _ => .time | .resource _ => .resource | .role _ => .role | .group _ => .group
  | .transition _ => .transition | .standardTransition _ => .transition
  | .modelReferences _ => .references | .modelReferenceUris _ => .references

/-- The field that a getter is there for. -/
def EvGet.field : EvGet → EvField
  | .name => .name | .inst => .inst | .timestamp => .time | .resource => .resource | .role => .role | .group => .group
  | .transition => .transition | .standardTransition => .transition
  | .modelReferences => .references | .modelReferenceUris => .references

/-- The setter does not bother the getter: it is there for another field, and is not `set_instance` if the getter is `get_name`. -/
def FieldApart (s : EvSet U) (g : EvGet) : Prop := s.field ≠ g.field ∧ ¬ (s.field = .inst ∧ g = .name)

/-! ## Proofs -/

/-- Where a setter stores. -/
def EvSet.key : EvSet U → Str
  | .name _ => py!"concept:name" | .inst _ => py!"concept:name" | .timestamp _ => py!"time:timestamp" | .resource _ => py!"org:resource"
  | .role _ => py!"org:role" | .group _ => py!"org:group" | .transition _ => py!"lifecycle:transition" | .standardTransition _ => py!"lifecycle:transition"
  | .modelReferences _ => py!"semantic:modelReference" | .modelReferenceUris _ => py!"semantic:modelReference"

/-- Where a getter looks. -/
def EvGet.key : EvGet → Str
  | .name => py!"concept:name" | .inst => py!"concept:instance" | .timestamp => py!"time:timestamp" | .resource => py!"org:resource"
  | .role => py!"org:role" | .group => py!"org:group" | .transition => py!"lifecycle:transition" | .standardTransition => py!"lifecycle:transition"
  | .modelReferences => py!"semantic:modelReference" | .modelReferenceUris => py!"semantic:modelReference"

theorem EvGet.run_congr (L : UriLib U) (g : EvGet) {m m' : AttrMap F} (h : dget g.key m = dget g.key m') : g.run L m = g.run L m' := by
  cases g <;> simp only [EvGet.key] at h <;>
    simp only [EvGet.run, extractName, extractInstance, extractTimestamp, timeKey, extractOrg, extractTransition, extractStandardTransition, extractModelReferences,
      extractModelReferenceUris, extractOr, h]

theorem EvSet.apply_eq (lt : LocalTime) (L : UriLib U) (s : EvSet U) :
    (∀ x : ExtEvent F, x.set lt L s = x) ∨ ∃ a : Attr F, ∀ x : ExtEvent F, x.set lt L s = x.setAttributes (dset s.key a x.attributes) := by
  have keep : (∀ m : AttrMap F, s.apply lt L m = .ok m) → ∀ x : ExtEvent F, x.set lt L s = x := by
    intro h x; simp only [ExtEvent.set, h]
  have fail : ∀ e, (∀ m : AttrMap F, s.apply lt L m = .error e) → ∀ x : ExtEvent F, x.set lt L s = x := by
    intro e h x; simp only [ExtEvent.set, h]
  have put : ∀ a : Attr F, (∀ m : AttrMap F, s.apply lt L m = .ok (dset s.key a m)) →
      ∀ x : ExtEvent F, x.set lt L s = x.setAttributes (dset s.key a x.attributes) := by
    intro a h x; simp only [ExtEvent.set, h]; rfl
  have org : ∀ f (o : Option Str), (∀ m : AttrMap F, s.apply lt L m = (do .ok (assignOrg f (some (← lowerOf o)) m))) →
      (∀ v (m : AttrMap F), given (some v) = true → ∃ a, assignOrg f (some v) = dset s.key (a : Attr F)) → 
      (∀ x : ExtEvent F, x.set lt L s = x) ∨ ∃ a : Attr F, ∀ x : ExtEvent F, x.set lt L s = x.setAttributes (dset s.key a x.attributes) := by
    intro f o h hk
    cases o with
    | none => exact .inl (fail .attributeError fun m => by rw [h]; rfl)
    | some v =>
      cases hg : given (some (pyLower v)) with
      | true =>
        obtain ⟨a, ha⟩ := hk (pyLower v) [] hg
        exact .inr ⟨a, put a fun m => by rw [h]; simp only [lowerOf, bind, Except.bind]; rw [ha]⟩
      | false => exact .inl (keep fun m => by rw [h]; simp [lowerOf, bind, Except.bind, assignOrg, hg])
  cases s with
  | name o =>
    cases o with
    | none => exact .inl (keep fun m => rfl)
    | some v =>
      cases hg : given (some v) with
      | true => exact .inr ⟨_, put _ fun m => by simp only [EvSet.apply, assignName, hg]; rfl⟩
      | false => exact .inl (keep fun m => by simp [EvSet.apply, assignName, hg])
  | inst o =>
    cases o with
    | none => exact .inl (keep fun m => rfl)
    | some v =>
      cases hg : given (some v) with
      | true => exact .inr ⟨_, put _ fun m => by simp only [EvSet.apply, assignInstance, hg]; rfl⟩
      | false => exact .inl (keep fun m => by simp [EvSet.apply, assignInstance, hg])
  | timestamp d =>
    have hk : (EvSet.timestamp d : EvSet U).key = timeKey := rfl
    cases d with
    | millis ms =>
      cases hf : lt.fromMillis ms with
      | error e => exact .inl (fail e fun m => by simp [EvSet.apply, assignTimestamp, bind, Except.bind, hf])
      | ok v => exact .inr ⟨_, put _ fun m => by simp only [EvSet.apply, assignTimestamp, bind, Except.bind, hf, hk]; rfl⟩
    | datetime d =>
      cases hm : lt.mktime { d with micro := 0, tz := none } with
      | error e => exact .inl (fail e fun m => by simp [EvSet.apply, assignTimestamp, bind, Except.bind, hm])
      | ok t =>
        cases hf : lt.fromMillis (t * 1000) with
        | error e => exact .inl (fail e fun m => by simp [EvSet.apply, assignTimestamp, bind, Except.bind, hm, hf])
        | ok v => exact .inr ⟨_, put _ fun m => by simp only [EvSet.apply, assignTimestamp, bind, Except.bind, hm, hf, hk]; rfl⟩
  | resource o => exact org .resource o (fun m => rfl) fun v m hg => ⟨_, funext fun m => by simp only [assignOrg, hg]; rfl⟩
  | role o => exact org .role o (fun m => rfl) fun v m hg => ⟨_, funext fun m => by simp only [assignOrg, hg]; rfl⟩
  | group o => exact org .group o (fun m => rfl) fun v m hg => ⟨_, funext fun m => by simp only [assignOrg, hg]; rfl⟩
  | transition o =>
    cases o with
    | none => exact .inl (keep fun m => rfl)
    | some v =>
      cases hg : given (some v) with
      | true => exact .inr ⟨_, put _ fun m => by simp only [EvSet.apply, assignTransition, hg]; rfl⟩
      | false => exact .inl (keep fun m => by simp [EvSet.apply, assignTransition, hg])
  | standardTransition o =>
    cases o with
    | none => exact .inl (fail .attributeError fun m => rfl)
    | some v =>
      cases hg : given (some (decodeTransition v)) with
      | true => exact .inr ⟨_, put _ fun m => by simp only [EvSet.apply, assignStandardTransition, assignTransition, hg]; rfl⟩
      | false => exact .inl (keep fun m => by simp [EvSet.apply, assignStandardTransition, assignTransition, hg])
  | modelReferences l =>
    by_cases hg : (pyLower (l.flatMap (fun r => r ++ [' ']))).length > 0
    · exact .inr ⟨_, put _ fun m => by simp only [EvSet.apply, assignModelReferences, if_pos hg]; rfl⟩
    · exact .inl (keep fun m => by simp only [EvSet.apply, assignModelReferences, if_neg hg])
  | modelReferenceUris l =>
    by_cases hg : (pyLower (l.flatMap (fun r => L.geturl r ++ [' ']))).length > 0
    · exact .inr ⟨_, put _ fun m => by simp only [EvSet.apply, assignModelReferenceUris, if_pos hg]; rfl⟩
    · exact .inl (keep fun m => by simp only [EvSet.apply, assignModelReferenceUris, if_neg hg])

theorem fieldApart_key {s : EvSet U} {g : EvGet} (h : FieldApart s g) : g.key ≠ s.key := by
  obtain ⟨h1, h2⟩ := h
  cases s <;> cases g <;> simp only [EvSet.field, EvGet.field, ne_eq, not_true_eq_false, reduceCtorEq, not_false_eq_true, and_true, and_self] at h1 h2 <;>
    simp only [EvSet.key, EvGet.key] <;> decide

/-- C126, what holds: a setter changes neither what the getters of other fields return (except `set_instance` for `get_name`), nor
the identity of the event or of the extended event. -/
theorem c126_other_partial (lt : LocalTime) (L : UriLib U) (s : EvSet U) (x : ExtEvent F) :
    (∀ g, FieldApart s g → (x.set lt L s).get L g = x.get L g) ∧ (x.set lt L s).id = x.id ∧ (x.set lt L s).original.id = x.original.id := by
  rcases EvSet.apply_eq (F := F) lt L s with h | ⟨a, h⟩
  · rw [h]
    exact ⟨fun _ _ => rfl, rfl, rfl⟩
  · rw [h]
    refine ⟨fun g hg => ?_, rfl, rfl⟩
    exact EvGet.run_congr L g (dget_dset_ne (fieldApart_key hg) _ _)

/-- **C126** is violated: `set_instance` of any text that is not blank changes the name to that text, whatever the event,
and leaves the instance as it was. -/
theorem c126_refuted (lt : LocalTime) (L : UriLib U) {v : Str} (hv : NonBlank v) (x : ExtEvent F) :
    (x.set lt L (.inst (some v))).get L .name = .ok (.value (.str v)) ∧ (x.set lt L (.inst (some v))).get L .inst = x.get L .inst := by
  have hg := (given_iff v).2 hv
  have hs : (x.set lt L (.inst (some v))).attributes = dset py!"concept:name" (cloned .literal py!"concept:instance" conceptExt (.str v)) x.attributes := by
    simp only [ExtEvent.set, EvSet.apply, assignInstance, hg]; rfl
  constructor
  · show EvGet.run L .name (ExtEvent.attributes _) = _
    rw [hs]
    simp only [EvGet.run, extractName, extractOr, dget_dset_self, getValue, cloned, Attr.kind, Attr.val, Kind.isCollection, Except.map]
    rfl
  · show EvGet.run L .inst (ExtEvent.attributes _) = _
    rw [hs]
    exact EvGet.run_congr L .inst (dget_dset_ne (by decide) _ _)

/-- C126: of several calls, only those for the field count: after the last of them nothing changes any more. -/
theorem c126_last_partial (lt : LocalTime) (L : UriLib U) (g : EvGet) (before after : List (EvSet U)) (s : EvSet U) (x : ExtEvent F)
    (h : ∀ r ∈ after, FieldApart r g) :
    (x.setAll lt L (before ++ s :: after)).get L g = ((x.setAll lt L before).set lt L s).get L g := by
  have tail : ∀ (after : List (EvSet U)) (y : ExtEvent F), (∀ r ∈ after, FieldApart r g) → (y.setAll lt L after).get L g = y.get L g := by
    intro after
    induction after with
    | nil => intro y _; rfl
    | cons r rest ih =>
      intro y hr
      show ((y.set lt L r).setAll lt L rest).get L g = _
      rw [ih _ fun q hq => hr q (by simp [hq])]
      exact (c126_other_partial lt L r y).1 g (hr r (by simp))
  show ExtEvent.get L g (List.foldl _ x (before ++ s :: after)) = _
  rw [List.foldl_append, List.foldl_cons]
  exact tail after _ h

/-- C126: the order of two calls for different fields does not matter to any getter, unless they are `set_name` and `set_instance`. -/
theorem c126_order_partial (lt : LocalTime) (L : UriLib U) (s t : EvSet U) (hf : s.field ≠ t.field)
    (hn : ¬ (s.field = .name ∧ t.field = .inst)) (hn' : ¬ (s.field = .inst ∧ t.field = .name)) (g : EvGet) (x : ExtEvent F) :
    ((x.set lt L s).set lt L t).get L g = ((x.set lt L t).set lt L s).get L g := by
  have hk : s.key ≠ t.key := by
    cases s <;> cases t <;> simp only [EvSet.field, ne_eq, not_true_eq_false, reduceCtorEq, not_false_eq_true, and_self, and_true, and_false] at hf hn hn' <;>
      simp only [EvSet.key] <;> decide
  rcases EvSet.apply_eq (F := F) lt L s with hs | ⟨a, hs⟩ <;> rcases EvSet.apply_eq (F := F) lt L t with ht | ⟨b, ht⟩
  · simp only [hs, ht]
  · simp only [hs, ht]
  · simp only [hs, ht]
  · simp only [hs, ht]
    refine EvGet.run_congr L g ?_
    show dget g.key (dset t.key b (dset s.key a x.attributes)) = dget g.key (dset s.key a (dset t.key b x.attributes))
    by_cases h1 : g.key = t.key
    · rw [h1, dget_dset_self, dget_dset_ne (Ne.symm hk), dget_dset_self]
    · rw [dget_dset_ne h1]
      by_cases h2 : g.key = s.key
      · rw [h2, dget_dset_self, dget_dset_self]
      · rw [dget_dset_ne h2, dget_dset_ne h2, dget_dset_ne h1]

/-- The attributes set as a whole are those returned, and `has_attributes` tells whether there are any. -/
theorem c126_attributes (m : AttrMap F) (x : ExtEvent F) : (x.setAttributes m).attributes = m ∧ (x.hasAttributes = true ↔ ∃ k a, (k, a) ∈ x.attributes) := by
  refine ⟨rfl, ?_⟩
  cases h : x.original.attrs with
  | nil => simp [ExtEvent.hasAttributes, ExtEvent.attributes, h]
  | cons e l =>
    simp only [ExtEvent.hasAttributes, ExtEvent.attributes, h]
    exact ⟨fun _ => ⟨e.1, e.2, by simp⟩, fun _ => by simp⟩

/-! ## Cases -/

/-- An extended event without attributes. -/
def bareEvent : ExtEvent ToyFloat := ⟨⟨1, []⟩, 2⟩

example : ((bareEvent.setAll sampleClock (⟨.ok, id⟩ : UriLib Str) [.name (some py!"a"), .role (some py!"R"), .transition (some py!"start")]).get
    (⟨.ok, id⟩ : UriLib Str) .role) matches .ok (.value (.str ['r'])) := by decide +kernel

example : FieldApart (.role (some py!"R") : EvSet Str) .name := ⟨by decide, by decide⟩

end

end Opy
