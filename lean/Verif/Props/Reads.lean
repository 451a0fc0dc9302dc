import Verif.Props.Ext

/-!
# C129: the extractors read the attribute the standard prescribes

The standard extensions of XES prescribe a key for each of their attributes.  An extractor must give the value
of the attribute stored under that key, whoever wrote it, and a fixed answer when there is none.
-/

set_option linter.unusedSectionVars false

namespace Opy

variable {F : Type} [PyFloat F]

/-- Specification: `f` gives the value of the attribute stored under `key` and `dflt` without one, and looks at
nothing else; a list or a container has no value, which raises AttributeError. -/
def ReadsKey (f : AttrMap F → Except PyErr (PyVal F)) (key : Str) (dflt : Except PyErr (PyVal F)) : Prop :=
  (∀ m, key ∉ m.map (·.1) → f m = dflt) ∧
  (∀ m k key' e v s c, k ≠ .list → k ≠ .container → dget key m = some (.mk k key' e v s c) → f m = .ok v) ∧
  (∀ m k key' e v s c, k = .list ∨ k = .container → dget key m = some (.mk k key' e v s c) → f m = .error .attributeError)

theorem readsKey_of {f : AttrMap F → Except PyErr (PyVal F)} {key : Str} {dflt : Except PyErr (PyVal F)}
    (h : ∀ m, f m = match dget key m with | some a => getValue a | none => dflt) : ReadsKey f key dflt := by
  refine ⟨fun m hm => ?_, fun m k key' e v s c h1 h2 hd => ?_, fun m k key' e v s c hk hd => ?_⟩
  · rw [h, dget_eq_none.2 hm]
  · rw [h, hd]
    cases k <;> first | rfl | exact absurd rfl h1 | exact absurd rfl h2
  · rw [h, hd]
    rcases hk with rfl | rfl <;> rfl

/-- Every extractor of a single value reads the key of the standard and gives None when the attribute is
missing, except for the level and the timestamp, which are -1 then, and the parent, which raises KeyError. -/
theorem c129_reads :
    ReadsKey (F := F) extractName py!"concept:name" (.ok .none) ∧
    ReadsKey (F := F) extractInstance py!"concept:instance" (.ok .none) ∧
    ReadsKey (F := F) (extractOrg .resource) py!"org:resource" (.ok .none) ∧
    ReadsKey (F := F) (extractOrg .role) py!"org:role" (.ok .none) ∧
    ReadsKey (F := F) (extractOrg .group) py!"org:group" (.ok .none) ∧
    ReadsKey (F := F) extractModel py!"lifecycle:model" (.ok .none) ∧
    ReadsKey (F := F) extractTransition py!"lifecycle:transition" (.ok .none) ∧
    ReadsKey (F := F) extractTotal py!"cost:total" (.ok .none) ∧
    ReadsKey (F := F) extractCurrency py!"cost:currency" (.ok .none) ∧
    ReadsKey (F := F) extractAmount py!"cost:amount" (.ok .none) ∧
    ReadsKey (F := F) extractDriver py!"cost:driver" (.ok .none) ∧
    ReadsKey (F := F) extractType py!"cost:type" (.ok .none) ∧
    ReadsKey (F := F) extractLevel py!"micro:level" (.ok (.int (-1))) ∧
    ReadsKey (F := F) extractLength py!"micro:length" (.ok .none) ∧
    ReadsKey (F := F) extractParentId py!"micro:parentId" (.error .keyError) ∧
    ReadsKey (F := F) extractId py!"identity:id" (.ok .none) ∧
    ReadsKey (F := F) extractTimestamp py!"time:timestamp" (.ok (.int (-1))) := by
  refine ⟨?_, ?_, ?_, ?_, ?_, ?_, ?_, ?_, ?_, ?_, ?_, ?_, ?_, ?_, ?_, ?_, ?_⟩ <;> exact readsKey_of (fun _ => rfl)

/-- Extractors look at nothing but their key: elements that agree there give the same. -/
theorem c129_local {f : AttrMap F → Except PyErr (PyVal F)} {key : Str} {dflt : Except PyErr (PyVal F)}
    (h : ReadsKey f key dflt) {m m' : AttrMap F} (hm : dget key m = dget key m') : f m = f m' := by
  obtain ⟨h1, h2, h3⟩ := h
  cases hd : dget key m with
  | none => rw [h1 m (dget_eq_none.1 hd), h1 m' (dget_eq_none.1 (hm ▸ hd))]
  | some a =>
    obtain ⟨k, key', e, v, s, c⟩ := a
    by_cases hk : k = .list ∨ k = .container
    · rw [h3 m _ _ _ _ _ _ hk hd, h3 m' _ _ _ _ _ _ hk (hm ▸ hd)]
    · rw [not_or] at hk
      rw [h2 m _ _ _ _ _ _ hk.1 hk.2 hd, h2 m' _ _ _ _ _ _ hk.1 hk.2 (hm ▸ hd)]

/-- The documented answer of `extract_parent_id` and `extract_length` for an event without them is not given:
the first raises KeyError instead of giving None, the second gives None instead of -1. -/
theorem c129_refuted (m : AttrMap F) (h1 : py!"micro:parentId" ∉ m.map (·.1)) (h2 : py!"micro:length" ∉ m.map (·.1)) :
    extractParentId m = .error .keyError ∧ extractLength m = .ok .none := by
  obtain ⟨_, _, _, _, _, _, _, _, _, _, _, _, _, hl, hp, _⟩ := c129_reads (F := F)
  exact ⟨hp.1 m h1, hl.1 m h2⟩

example : extractCurrency (F := ToyFloat) [(py!"cost:currency", plain .literal py!"cost:currency" costExt (.str py!"EUR"))] =
    .ok (.str py!"EUR") := rfl
example : extractType (F := ToyFloat) [(py!"cost:type", .mk .container py!"cost:type" none .none [] [])] =
    .error .attributeError := rfl

end Opy
