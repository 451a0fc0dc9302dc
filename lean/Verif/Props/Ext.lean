import Verif.Model.Ext
import Verif.Lemmas.Dict
import Verif.Lemmas.Str
import Verif.Lemmas.Lower
import Verif.Props.Info
import Verif.Props.Attr
/-
C60-C68 and C76-C79: the standard extensions, nested values and get_extensions.
-/
set_option linter.unusedSectionVars false
namespace Opy

variable {F : Type} [PyFloat F]

/-! ## Specification -/

/-- Specification: `m'` is `m` with the attribute `a` under `key`; all other entries are as in `m`. -/
def Stored (key : Str) (a : Attr F) (m m' : AttrMap F) : Prop :=
  dget key m' = some a ∧ ∀ k, k ≠ key → dget k m' = dget k m

/-- Specification: the text has a character that is not white space. -/
def NonBlank (s : Str) : Prop := ∃ c ∈ s, isSpace c = false

/-- Specification: a fresh attribute of the extension with a value and nothing nested. -/
def plain (k : Kind) (key : Str) (e : Ext) (v : PyVal F) : Attr F := .mk k key (some e) v [] []

theorem given_iff (s : Str) : given (some s) = true ↔ NonBlank s := by
  simp only [given, gt_iff_lt, decide_eq_true_eq]
  constructor
  · intro h
    by_cases hb : NonBlank s
    · exact hb
    · have : ∀ c ∈ s, isSpace c = true := by
        intro c hc
        by_cases hs : isSpace c = true
        · exact hs
        · exact absurd ⟨c, hc, by simpa using hs⟩ hb
      rw [strip_all_space this] at h
      simp at h
  · rintro ⟨c, hc, hs⟩
    have h1 : lstrip s ≠ [] := by
      intro h
      have := dropWhile_nil_iff.1 h c hc
      rw [this] at hs; simp at hs
    have h2 : strip s ≠ [] := by
      intro h
      have h3 : ((lstrip s).reverse.dropWhile isSpace) = [] := by
        simpa [strip, rstrip] using h
      obtain ⟨d, hd⟩ : ∃ d, (lstrip s).head? = some d := by
        cases hl : lstrip s with
        | nil => exact absurd hl h1
        | cons d t => exact ⟨d, rfl⟩
      have h4 := dropWhile_nil_iff.1 h3 d (by rw [List.mem_reverse]; exact List.mem_of_mem_head? hd)
      have h5 := head?_dropWhile_false hd
      rw [h4] at h5; simp at h5
    exact List.length_pos_iff.2 h2

theorem not_given {s : Str} (h : ¬ NonBlank s) : given (some s) = false := by
  cases hg : given (some s) with
  | false => rfl
  | true => exact absurd ((given_iff s).1 hg) h

theorem stored_dset (key : Str) (a : Attr F) (m : AttrMap F) : Stored key a m (dset key a m) :=
  ⟨dget_dset_self _ _ _, fun _ hk => dget_dset_ne hk _ _⟩

theorem extractOr_of {key : Str} {d : PyVal F} {m : AttrMap F} {k : Kind} {key' : Str} {e : Option Ext} {v : PyVal F}
    {s : AttrMap F} {c : List (Attr F)} (hk : k.isCollection = false) (h : dget key m = some (.mk k key' e v s c)) :
    extractOr key d m = .ok v := by
  simp only [extractOr, h, getValue, Attr.kind, Attr.val, hk]; simp

theorem extractOr_congr {key : Str} {d : PyVal F} {m m' : AttrMap F} (h : dget key m' = dget key m) :
    extractOr key d m' = extractOr key d m := by
  simp only [extractOr, h]

/-- A map with a name and a resource. -/
def sampleMap : AttrMap ToyFloat :=
  [(py!"concept:name", plain .literal py!"concept:name" conceptExt (.str py!"A")),
   (py!"org:resource", plain .literal py!"org:resource" orgExt (.str py!"Bob"))]

/-! ## C60 -/

/-- A non-blank name is stored exactly as given, as a literal of the concept extension, and read back;
nothing else changes. -/
theorem c60_assign {n : Str} (hn : NonBlank n) (m : AttrMap F) :
    extractName (assignName (some n) m) = .ok (.str n) ∧
    Stored py!"concept:name" (plain .literal py!"concept:name" conceptExt (.str n)) m (assignName (some n) m) := by
  have hs : Stored py!"concept:name" (plain .literal py!"concept:name" conceptExt (.str n)) m (assignName (some n) m) := by
    simp only [assignName, (given_iff n).2 hn, if_true]; exact stored_dset _ _ _
  exact ⟨extractOr_of rfl hs.1, hs⟩

/-- A blank name, or None, changes nothing. -/
theorem c60_blank (m : AttrMap F) : assignName none m = m ∧ ∀ n, ¬ NonBlank n → assignName (some n) m = m :=
  ⟨rfl, fun n hn => by simp [assignName, not_given hn]⟩

/-- Without a name nothing is raised: `extract_name` gives None exactly when no attribute is stored under
the key, or when a stored one has the value None. -/
theorem c60_missing (m : AttrMap F) :
    (py!"concept:name" ∉ m.map (·.1) → extractName m = .ok .none) ∧
    ∀ (k : Kind) (key : Str) (e : Option Ext) (v : PyVal F) (s : AttrMap F) (c : List (Attr F)),
      k.isCollection = false → dget py!"concept:name" m = some (.mk k key e v s c) → extractName m = .ok v := by
  refine ⟨fun h => ?_, fun k key e v s c hk h => extractOr_of hk h⟩
  have : dget py!"concept:name" m = none := dget_eq_none.2 (by simpa [dkeys] using h)
  simp only [extractName, extractOr, this]

example : py!"concept:name" ∉ (ddel py!"concept:name" sampleMap).map (·.1) := by decide +kernel
example : NonBlank py!" x" := ⟨'x', by simp, by decide⟩
example : extractName (assignName (some py!" x") sampleMap) = .ok (.str py!" x") := (c60_assign ⟨'x', by simp, by decide⟩ _).1

/-! ## C61 -/

/-- What assign_instance does for every non-blank value: the instance that is read is the old one, and
the name that is read is the value. -/
theorem c61_assign_partial {x : Str} (hx : NonBlank x) (m : AttrMap F) :
    extractInstance (assignInstance (some x) m) = extractInstance m ∧
    extractName (assignInstance (some x) m) = .ok (.str x) ∧
    Stored py!"concept:name" (plain .literal py!"concept:instance" conceptExt (.str x)) m (assignInstance (some x) m) := by
  have hs : Stored py!"concept:name" (plain .literal py!"concept:instance" conceptExt (.str x)) m (assignInstance (some x) m) := by
    simp only [assignInstance, (given_iff x).2 hx, if_true]; exact stored_dset _ _ _
  exact ⟨extractOr_congr (hs.2 _ (by decide)), extractOr_of rfl hs.1, hs⟩

/-- C61 is violated for every event without an instance, and for every event whose name differs. -/
theorem c61_refuted {x : Str} (hx : NonBlank x) (m : AttrMap F) :
    (dget py!"concept:instance" m = none → extractInstance (assignInstance (some x) m) = .ok .none) ∧
    (extractName m ≠ .ok (.str x) → extractName (assignInstance (some x) m) ≠ extractName m) := by
  obtain ⟨h1, h2, _⟩ := c61_assign_partial hx m
  refine ⟨fun h => ?_, fun h => ?_⟩
  · rw [h1]; simp only [extractInstance, extractOr, h]
  · rw [h2]; exact fun he => h he.symm

/-- A blank instance changes nothing. -/
theorem c61_blank (m : AttrMap F) : assignInstance none m = m ∧ ∀ n, ¬ NonBlank n → assignInstance (some n) m = m :=
  ⟨rfl, fun n hn => by simp [assignInstance, not_given hn]⟩

example : extractName (assignInstance (some py!"i1") sampleMap) = .ok (.str py!"i1") :=
  (c61_assign_partial ⟨'i', by simp, by decide⟩ _).2.1
example : extractName sampleMap = .ok (.str py!"A") := rfl

/-! ## C62 -/

/-- Specification: the documented keys. -/
def orgKey : OrgField → Str
  | .resource => py!"org:resource"
  | .role => py!"org:role"
  | .group => py!"org:group"

/-- A non-blank value is stored exactly as given and read back; nothing else changes. -/
theorem c62_assign (f : OrgField) {x : Str} (hx : NonBlank x) (m : AttrMap F) :
    extractOrg f (assignOrg f (some x) m) = .ok (.str x) ∧
    (∀ g, g ≠ f → extractOrg g (assignOrg f (some x) m) = extractOrg g m) ∧
    Stored (orgKey f) (plain .literal (orgKey f) orgExt (.str x)) m (assignOrg f (some x) m) := by
  have hs : Stored (orgKey f) (plain .literal (orgKey f) orgExt (.str x)) m (assignOrg f (some x) m) := by
    cases f <;> simp only [assignOrg, (given_iff x).2 hx, if_true] <;> exact stored_dset _ _ _
  refine ⟨?_, fun g hg => ?_, hs⟩
  · cases f <;> exact extractOr_of rfl hs.1
  · cases g <;> cases f <;> first | exact absurd rfl hg | exact extractOr_congr (hs.2 _ (by decide))

/-- A blank value, or None, changes nothing. -/
theorem c62_blank (f : OrgField) (m : AttrMap F) :
    assignOrg f none m = m ∧ ∀ x, ¬ NonBlank x → assignOrg f (some x) m = m :=
  ⟨rfl, fun n hn => by simp [assignOrg, not_given hn]⟩

/-- Assignments of different fields commute: every key has the same attribute either way. -/
theorem c62_commute {f g : OrgField} (hfg : f ≠ g) (x y : Option Str) (m : AttrMap F) (k : Str) :
    dget k (assignOrg f x (assignOrg g y m)) = dget k (assignOrg g y (assignOrg f x m)) := by
  have blank : ∀ (f : OrgField) (x : Option Str), (∃ s, x = some s ∧ NonBlank s) ∨ ∀ m : AttrMap F, assignOrg f x m = m := by
    intro f x
    cases x with
    | none => exact .inr fun _ => rfl
    | some s =>
      by_cases hs : NonBlank s
      · exact .inl ⟨s, rfl, hs⟩
      · exact .inr fun m => (c62_blank f m).2 s hs
  have inj : orgKey f ≠ orgKey g := by
    cases f <;> cases g <;> first | exact absurd rfl hfg | decide
  rcases blank f x with ⟨s, rfl, hs⟩ | h
  · rcases blank g y with ⟨t, rfl, ht⟩ | h
    · have fg := (c62_assign f hs (assignOrg g (some t) m)).2.2
      have f0 := (c62_assign f hs m).2.2
      have gf := (c62_assign g ht (assignOrg f (some s) m)).2.2
      have g0 := (c62_assign g ht m).2.2
      by_cases hkf : k = orgKey f
      · subst hkf; rw [fg.1, gf.2 _ inj, f0.1]
      · rw [fg.2 k hkf]
        by_cases hkg : k = orgKey g
        · subst hkg; rw [g0.1, gf.1]
        · rw [g0.2 k hkg, gf.2 k hkg, f0.2 k hkf]
    · rw [h, h]
  · rw [h, h]

example : extractOrg .role (assignOrg .role (some py!"boss ") sampleMap) = .ok (.str py!"boss ") ∧
    extractOrg .resource (assignOrg .role (some py!"boss ") sampleMap) = .ok (.str py!"Bob") := by
  have := c62_assign .role (x := py!"boss ") ⟨'b', by simp, by decide⟩ sampleMap
  exact ⟨this.1, this.2.1 .resource (by decide)⟩

/-! ## C63 -/

theorem strip_nonBlank {s : Str} (h : NonBlank s) : NonBlank (strip s) := by
  have h1 := (given_iff s).2 h
  simp only [given, gt_iff_lt, decide_eq_true_eq] at h1
  refine (given_iff _).1 ?_
  simp only [given, gt_iff_lt, decide_eq_true_eq, strip_strip]
  exact h1

/-- assign_transition and assign_model store the trimmed value, which is read back; nothing else
changes. -/
theorem c63_assign {x : Str} (hx : NonBlank x) (m : AttrMap F) :
    extractTransition (assignTransition (some x) m) = .ok (.str (strip x)) ∧
    Stored py!"lifecycle:transition" (plain .literal py!"lifecycle:transition" lifecycleExt (.str (strip x))) m
      (assignTransition (some x) m) ∧
    extractModel (assignModel (some x) m) = .ok (.str (strip x)) ∧
    Stored py!"lifecycle:model" (plain .literal py!"lifecycle:model" lifecycleExt (.str (strip x))) m
      (assignModel (some x) m) := by
  have h1 : Stored py!"lifecycle:transition" (plain .literal py!"lifecycle:transition" lifecycleExt (.str (strip x))) m
      (assignTransition (some x) m) := by
    simp only [assignTransition, (given_iff x).2 hx, if_true]; exact stored_dset _ _ _
  have h2 : Stored py!"lifecycle:model" (plain .literal py!"lifecycle:model" lifecycleExt (.str (strip x))) m
      (assignModel (some x) m) := by
    simp only [assignModel, (given_iff x).2 hx, if_true]; exact stored_dset _ _ _
  exact ⟨extractOr_of rfl h1.1, h1, extractOr_of rfl h2.1, h2⟩

/-- Blank values and None change nothing. -/
theorem c63_blank (m : AttrMap F) :
    assignTransition none m = m ∧ assignModel none m = m ∧
      ∀ x, ¬ NonBlank x → assignTransition (some x) m = m ∧ assignModel (some x) m = m :=
  ⟨rfl, rfl, fun x hx => by simp [assignTransition, assignModel, not_given hx]⟩

/-- Specification: the thirteen transitions of the standard model. -/
def transitionNames : List Str :=
  [py!"schedule", py!"assign", py!"withdraw", py!"reassign", py!"start", py!"suspend", py!"resume",
   py!"pi_abort", py!"ate_abort", py!"complete", py!"autoskip", py!"manualskip", py!"unknown"]

/-- `decode`: the trimmed lower-case text if it is a standard transition, else `unknown`. -/
theorem c63_decode (s : Str) :
    (pyLower (strip s) ∈ transitionNames → decodeTransition s = pyLower (strip s)) ∧
    (pyLower (strip s) ∉ transitionNames → decodeTransition s = py!"unknown") := by
  have heq : standardTransitions = transitionNames := rfl
  constructor
  · intro h
    have : standardTransitions.find? (fun elem => pyLower (strip s) == elem) = some (pyLower (strip s)) := by
      rw [heq]
      cases hf : transitionNames.find? (fun elem => pyLower (strip s) == elem) with
      | none => exact absurd (by simp) (List.find?_eq_none.1 hf _ h)
      | some e =>
        have := List.find?_some hf
        simp only [beq_iff_eq] at this
        rw [this]
    simp only [decodeTransition, this]
  · intro h
    have : standardTransitions.find? (fun elem => pyLower (strip s) == elem) = none := by
      rw [heq, List.find?_eq_none]
      intro e he hs
      simp only [beq_iff_eq] at hs
      exact h (hs ▸ he)
    simp only [decodeTransition, this]

theorem decode_mem (s : Str) : decodeTransition s ∈ transitionNames := by
  by_cases h : pyLower (strip s) ∈ transitionNames
  · rw [(c63_decode s).1 h]; exact h
  · rw [(c63_decode s).2 h]; decide

theorem decode_standard : ∀ t ∈ transitionNames, strip t = t ∧ decodeTransition t = t := by decide

/-- assign_standard_transition followed by extract_standard_transition gives the decoded transition,
and the transition itself if it is a standard one. -/
theorem c63_standard (t : Str) (m : AttrMap F) :
    extractStandardTransition (assignStandardTransition t m) = .ok (some (decodeTransition t)) ∧
    (t ∈ transitionNames → extractStandardTransition (assignStandardTransition t m) = .ok (some t)) := by
  have hm := decode_mem t
  obtain ⟨hs, hd⟩ := decode_standard _ hm
  have hne : ∀ t ∈ transitionNames, strip t ≠ [] := by decide
  have hb : NonBlank (decodeTransition t) := by
    refine (given_iff _).1 ?_
    simp only [given, gt_iff_lt, decide_eq_true_eq]
    exact List.length_pos_iff.2 (hne _ hm)
  have h1 := (c63_assign hb m).1
  have h2 : extractStandardTransition (assignStandardTransition t m) = .ok (some (decodeTransition t)) := by
    simp only [extractStandardTransition, assignStandardTransition, h1, hs, bind, Except.bind, hd]
  exact ⟨h2, fun ht => by rw [h2, (decode_standard t ht).2]⟩

/-- After assign_model, uses_standard_model says whether the trimmed model is `standard`; without a
model it is False. -/
theorem c63_model {x : Str} (hx : NonBlank x) (m : AttrMap F) :
    usesStandardModel (assignModel (some x) m) = .ok (decide (strip x = py!"standard")) ∧
    (dget py!"lifecycle:model" m = none → usesStandardModel m = .ok false) := by
  constructor
  · simp only [usesStandardModel, (c63_assign hx m).2.2.1, bind, Except.bind, strip_strip]
    congr 1
    rw [Bool.eq_iff_iff]; simp
  · intro h
    simp only [usesStandardModel, extractModel, extractOr, h, bind, Except.bind]

example : decodeTransition py!" Complete\n" = py!"complete" ∧ decodeTransition py!"finished" = py!"unknown" := by decide
example : extractStandardTransition (assignStandardTransition py!"start" sampleMap) = .ok (some py!"start") :=
  (c63_standard _ _).2 (by decide)

/-! ## C64 -/

/-- A number greater than 0 is stored as given and read back; nothing else changes. -/
theorem c64_positive {v : PyVal F} (hv : pyGt v (.int 0) = .ok true) (m : AttrMap F) :
    (∃ m', assignTotal v m = .ok m' ∧ extractTotal m' = .ok v ∧
      Stored py!"cost:total" (plain .continuous py!"cost:total" costExt v) m m') ∧
    (∃ m', assignAmount v m = .ok m' ∧ extractAmount m' = .ok v ∧
      Stored py!"cost:amount" (plain .continuous py!"cost:amount" costExt v) m m') := by
  have hp : positive v = .ok true := by
    cases v <;> first | exact hv | (simp [pyGt] at hv)
  have h1 := stored_dset py!"cost:total" (plain .continuous py!"cost:total" costExt v) m
  have h2 := stored_dset py!"cost:amount" (plain .continuous py!"cost:amount" costExt v) m
  constructor
  · exact ⟨_, by simp only [assignTotal, hp, bind, Except.bind, if_true]; rfl, extractOr_of rfl h1.1, h1⟩
  · exact ⟨_, by simp only [assignAmount, hp, bind, Except.bind, if_true]; rfl, extractOr_of rfl h2.1, h2⟩

/-- None and a number that is not greater than 0 change nothing; a value that cannot be compared
with 0 raises and nothing is stored. -/
theorem c64_other (v : PyVal F) (m : AttrMap F) :
    (v = .none ∨ pyGt v (.int 0) = .ok false → assignTotal v m = .ok m ∧ assignAmount v m = .ok m) ∧
    (∀ e, v ≠ .none → pyGt v (.int 0) = .error e → assignTotal v m = .error e ∧ assignAmount v m = .error e) := by
  constructor
  · intro h
    have hp : positive v = .ok false := by
      rcases h with rfl | h
      · rfl
      · cases v <;> first | exact h | rfl
    simp [assignTotal, assignAmount, hp, bind, Except.bind]
  · intro e hv h
    have hp : positive v = .error e := by
      cases v <;> first | exact h | exact absurd rfl hv
    simp [assignTotal, assignAmount, hp, bind, Except.bind]

/-- The hypotheses of C64 for whole numbers. -/
theorem c64_int (z : Int) : pyGt (.int z : PyVal F) (.int 0) = .ok (decide (0 < z)) := rfl

/-- Drivers: a non-blank text is stored as given and read back, nothing else changes; a blank one or
None changes nothing. -/
theorem c64_driver (x : Str) (m : AttrMap F) :
    (NonBlank x → extractDriver (assignDriver (some x) m) = .ok (.str x) ∧
      Stored py!"cost:driver" (plain .literal py!"cost:driver" costExt (.str x)) m (assignDriver (some x) m)) ∧
    (¬ NonBlank x → assignDriver (some x) m = m) ∧ assignDriver none m = m := by
  refine ⟨fun hx => ?_, fun hx => by simp [assignDriver, not_given hx], rfl⟩
  have hs : Stored py!"cost:driver" (plain .literal py!"cost:driver" costExt (.str x)) m (assignDriver (some x) m) := by
    simp only [assignDriver, (given_iff x).2 hx, if_true]; exact stored_dset _ _ _
  exact ⟨extractOr_of rfl hs.1, hs⟩

/-- Currency is violated for every element and non-blank currency: the currency that is read does not
change and the name is overwritten.  Type is violated for every element and non-blank type: what is
read is the class object `type`. -/
theorem c64_refuted {x : Str} (hx : NonBlank x) (m : AttrMap F) :
    extractCurrency (assignCurrency (some x) m) = extractCurrency m ∧
    extractName (assignCurrency (some x) m) = .ok (.str x) ∧
    extractType (assignType (some x) m) = .ok .typ := by
  have hs : Stored py!"concept:name" (plain .literal py!"cost:currency" costExt (.str x)) m (assignCurrency (some x) m) := by
    simp only [assignCurrency, (given_iff x).2 hx, if_true]; exact stored_dset _ _ _
  refine ⟨extractOr_congr (hs.2 _ (by decide)), extractOr_of rfl hs.1, ?_⟩
  have ht : Stored py!"cost:type" (plain .literal py!"cost:type" costExt .typ) m (assignType (some x) m) := by
    simp only [assignType, (given_iff x).2 hx, if_true]; exact stored_dset _ _ _
  exact extractOr_of rfl ht.1

/-- What stands in the element after a type was assigned, as text and as it would be saved, is the text
`<class 'type'>`, whatever type was given; a blank type and None change nothing. -/
theorem c64_type_text (x : Str) (m : AttrMap F) :
    (NonBlank x → ∃ a, dget py!"cost:type" (assignType (some x) m) = some a ∧
      attrStr a = .ok py!"<class 'type'>" ∧ ∀ k, k ≠ py!"cost:type" → dget k (assignType (some x) m) = dget k m) ∧
    (¬ NonBlank x → assignType (some x) m = m) ∧ assignType none m = m := by
  refine ⟨fun hx => ?_, fun hx => by simp [assignType, not_given hx], rfl⟩
  have ht : Stored py!"cost:type" (plain .literal py!"cost:type" costExt .typ) m (assignType (some x) m) := by
    simp only [assignType, (given_iff x).2 hx, if_true]; exact stored_dset _ _ _
  exact ⟨_, ht.1, rfl, ht.2⟩

example : ∃ m', assignTotal (.int 7) sampleMap = .ok m' ∧ extractTotal m' = .ok (.int 7) := by
  obtain ⟨⟨m', h1, h2, _⟩, _⟩ := c64_positive (F := ToyFloat) (v := .int 7) rfl sampleMap
  exact ⟨m', h1, h2⟩
example : assignTotal (.int (-7)) sampleMap = .ok sampleMap := ((c64_other (.int (-7)) sampleMap).1 (.inr rfl)).1
example : assignTotal (.str py!"7") sampleMap = .error .typeError :=
  ((c64_other (.str py!"7") sampleMap).2 _ (by simp) rfl).1

/-! ## C65 -/

/-- A level greater than 0 is stored and read back; a level that is not changes nothing. -/
theorem c65_level (v : PyVal F) (m : AttrMap F) :
    (pyGt v (.int 0) = .ok true → ∃ m', assignLevel v m = .ok m' ∧ extractLevel m' = .ok v ∧
      Stored py!"micro:level" (plain .discrete py!"micro:level" microExt v) m m') ∧
    (pyGt v (.int 0) = .ok false → assignLevel v m = .ok m) ∧
    (∀ e, pyGt v (.int 0) = .error e → assignLevel v m = .error e) := by
  refine ⟨fun h => ?_, fun h => by simp [assignLevel, h, bind, Except.bind], fun e h => by simp [assignLevel, h, bind, Except.bind]⟩
  have hs := stored_dset py!"micro:level" (plain .discrete py!"micro:level" microExt v) m
  exact ⟨_, by simp only [assignLevel, h, bind, Except.bind, if_true]; rfl, extractOr_of rfl hs.1, hs⟩

/-- A length of at least 0 is stored and read back; a negative one changes nothing. -/
theorem c65_length (v : PyVal F) (m : AttrMap F) :
    (pyGe v (.int 0) = .ok true → ∃ m', assignLength v m = .ok m' ∧ extractLength m' = .ok v ∧
      Stored py!"micro:length" (plain .discrete py!"micro:length" microExt v) m m') ∧
    (pyGe v (.int 0) = .ok false → assignLength v m = .ok m) ∧
    (∀ e, pyGe v (.int 0) = .error e → assignLength v m = .error e) := by
  refine ⟨fun h => ?_, fun h => by simp [assignLength, h, bind, Except.bind], fun e h => by simp [assignLength, h, bind, Except.bind]⟩
  have hs := stored_dset py!"micro:length" (plain .discrete py!"micro:length" microExt v) m
  exact ⟨_, by simp only [assignLength, h, bind, Except.bind, if_true]; rfl, extractOr_of rfl hs.1, hs⟩

/-- The conditions of `c65_level` and `c65_length` for whole numbers. -/
theorem c65_int (z : Int) : pyGt (.int z : PyVal F) (.int 0) = .ok (decide (0 < z)) ∧
    pyGe (.int z : PyVal F) (.int 0) = .ok (decide (0 ≤ z)) := by
  refine ⟨rfl, ?_⟩
  simp only [pyGe, pyGt, pyEq]
  congr 1
  rw [Bool.eq_iff_iff]
  simp only [Bool.or_eq_true, decide_eq_true_eq, beq_iff_eq]
  omega

/-- Removing: the entry is absent afterwards and nothing else changes (the map has no two entries for
a key, as every dict).  The extractors then return -1, None, and raise KeyError. -/
theorem c65_remove {m : AttrMap F} (hm : (dkeys m).Nodup) (key : Str) :
    dget key (removeKey key m) = none ∧ (∀ k, k ≠ key → dget k (removeKey key m) = dget k m) ∧
    extractLevel (removeKey py!"micro:level" m) = .ok (.int (-1)) ∧
    extractLength (removeKey py!"micro:length" m) = .ok .none ∧
    extractParentId (removeKey py!"micro:parentId" m) = .error .keyError := by
  have h : ∀ key : Str, dget key (removeKey key m) = none := by
    intro key
    simp only [removeKey]
    split
    · exact dget_ddel_self hm
    · next hk => exact dget_eq_none.2 hk
  refine ⟨h key, fun k hk => ?_, ?_, ?_, ?_⟩
  · simp only [removeKey]
    split
    · exact dget_ddel_ne hk _
    · rfl
  · simp only [extractLevel, extractOr, h]
  · simp only [extractLength, extractOr, h]
  · simp only [extractParentId, h]

/-- Parent identifiers: assigning one always fails and assigning None removes it; reading an absent
one raises KeyError, reading a present one returns its value. -/
theorem c65_parent (v : PyVal F) (m : AttrMap F) :
    (v ≠ .none → assignParentId v m = .error .attributeError) ∧
    assignParentId .none m = .ok (removeKey py!"micro:parentId" m) ∧
    (dget py!"micro:parentId" m = none → extractParentId m = .error .keyError) ∧
    (∀ a, dget py!"micro:parentId" m = some a → extractParentId m = getValue a) := by
  refine ⟨fun hv => ?_, rfl, fun h => by simp only [extractParentId, h], fun a h => by simp only [extractParentId, h]⟩
  cases v <;> first | rfl | exact absurd rfl hv

example : assignLevel (.int 2) sampleMap ≠ .ok sampleMap := by
  obtain ⟨m', h1, _, h2⟩ := (c65_level (F := ToyFloat) (.int 2) sampleMap).1 rfl
  rw [h1]
  intro h
  simp only [Except.ok.injEq] at h
  rw [h] at h2
  simp [Stored, sampleMap, dget, plain] at h2
example : assignLength (.int (-1)) sampleMap = .ok sampleMap :=
  (c65_length (F := ToyFloat) (.int (-1)) sampleMap).2.1 ((c65_int (-1)).2)

/-! ## C66 -/

theorem splitGo_ne_nil (sep : Str) : ∀ (k : Nat) (s : Str), splitGo sep k s ≠ []
  | _, [] => by simp [splitGo]
  | k + 1, _ :: xs => by simp only [splitGo]; exact splitGo_ne_nil sep k xs
  | 0, x :: xs => by
    simp only [splitGo]
    split
    · simp
    · split <;> simp

/-- Splitting and joining with the same separator is the identity. -/
theorem join_splitGo {sep : Str} (hsep : sep ≠ []) : ∀ (k : Nat) (s : Str), join sep (splitGo sep k s) = s.drop k
  | k, [] => by simp [splitGo, join]
  | k + 1, x :: xs => by simp only [splitGo, List.drop_succ_cons]; exact join_splitGo hsep k xs
  | 0, x :: xs => by
    simp only [splitGo, List.drop_zero]
    split
    · next hp =>
      obtain ⟨t, ht⟩ := List.isPrefixOf_iff_prefix.1 hp
      have ih := join_splitGo hsep (sep.length - 1) xs
      cases hr : splitGo sep (sep.length - 1) xs with
      | nil => exact absurd hr (splitGo_ne_nil _ _ _)
      | cons a r =>
        rw [hr] at ih
        simp only [join, List.nil_append, ih]
        cases sep with
        | nil => exact absurd rfl hsep
        | cons c sep =>
          simp only [List.cons_append, List.cons.injEq, List.length_cons, Nat.add_sub_cancel] at ht ⊢
          obtain ⟨rfl, rfl⟩ := ht
          simp
    · have ih := join_splitGo hsep 0 xs
      simp only [List.drop_zero] at ih
      cases hr : splitGo sep 0 xs with
      | nil => exact absurd hr (splitGo_ne_nil _ _ _)
      | cons a r =>
        rw [hr] at ih
        simp only
        cases r with
        | nil => simp only [join] at ih ⊢; rw [ih]
        | cons b r => simp only [join, List.cons_append] at ih ⊢; rw [ih]

theorem join_splitStr {sep : Str} (hsep : sep ≠ []) (s : Str) : join sep (splitStr sep s) = s := by
  simpa [splitStr] using join_splitGo hsep 0 s

theorem lowerChar_idem (c : Char) : lowerChar (lowerChar c) = lowerChar c := by
  by_cases h : 'A'.toNat ≤ c.toNat ∧ c.toNat ≤ 'Z'.toNat
  · have hv : (c.toNat + 32).isValidChar := by
      left
      have : 'Z'.toNat = 90 := rfl
      omega
    have h2 : (lowerChar c).toNat = c.toNat + 32 := by
      simp only [lowerChar, if_pos h]
      unfold Char.ofNat; rw [dif_pos hv]; rfl
    have : 'Z'.toNat = 90 := rfl
    have : 'A'.toNat = 65 := rfl
    have h3 : ¬ ('A'.toNat ≤ (lowerChar c).toNat ∧ (lowerChar c).toNat ≤ 'Z'.toNat) := by omega
    rw [lowerChar, if_neg h3]
  · have h1 : lowerChar c = c := by rw [lowerChar, if_neg h]
    rw [h1, h1]

theorem lower_lower (s : Str) : lower (lower s) = lower s := by
  simp [lower, lowerChar_idem]

theorem lower_append (a b : Str) : lower (a ++ b) = lower a ++ lower b := by simp [lower]

/-- Specification: the text written for a list of references, a blank after each. -/
def refText : List Str → Str
  | [] => []
  | r :: rs => r ++ ' ' :: refText rs

theorem flatMap_refText (refs : List Str) : refs.flatMap (fun r => r ++ [' ']) = refText refs := by
  induction refs with
  | nil => rfl
  | cons r rs ih => simp [refText, ih]

theorem assignRefs_stored {refs : List Str} (hr : refs ≠ []) (m : AttrMap F) :
    Stored py!"semantic:modelReference" (plain .literal py!"semantic:modelReference" semanticExt (.str (refText refs))) m
      (assignModelReferences refs m) := by
  have hlen : 0 < (pyLower (refText refs)).length := by
    rw [pyLower_length]
    cases refs with
    | nil => exact absurd rfl hr
    | cons r rs => simp only [refText, List.length_append, List.length_cons]; omega
  simp only [assignModelReferences, flatMap_refText, gt_iff_lt, hlen, if_true]
  exact stored_dset _ _ _

theorem extractRefs_of {m : AttrMap F} {s : Str}
    (h : dget py!"semantic:modelReference" m
      = some (plain .literal py!"semantic:modelReference" semanticExt (.str s))) :
    extractModelReferences m = .ok ((splitStr py!"\\s" (pyLower s)).map pyLower) := by
  simp only [extractModelReferences, h, getValue, plain, Attr.kind, Attr.val, Kind.isCollection, bind, Except.bind]
  simp

theorem mem_join {sep : Str} {p : Str} {c : Char} : ∀ {ps : List Str}, p ∈ ps → c ∈ p → c ∈ join sep ps
  | [a], hp, hc => by simp only [List.mem_singleton] at hp; subst hp; exact hc
  | a :: b :: r, hp, hc => by
    simp only [join, List.mem_append]
    rcases List.mem_cons.1 hp with rfl | hp
    · exact .inl (.inl hc)
    · exact .inr (mem_join hp hc)

theorem splitStr_fixed {sep : Str} (hsep : sep ≠ []) (s : Str) : ∀ p ∈ splitStr sep (pyLower s), ∀ c ∈ p, Fixed c := by
  intro p hp c hc
  have := mem_join (sep := sep) hp hc
  rw [join_splitStr hsep] at this
  exact (pyLower_mem this).1

/-- The pieces of a lower-case text are lower-case. -/
theorem splitStr_lower {sep : Str} (hsep : sep ≠ []) (s : Str) :
    (splitStr sep (pyLower s)).map pyLower = splitStr sep (pyLower s) :=
  (List.map_congr_left fun p hp => pyLower_fixed (splitStr_fixed hsep s p hp)).trans (List.map_id _)

theorem refText_mem {c : Char} : ∀ {refs : List Str}, c ∈ refText refs → c = ' ' ∨ ∃ r ∈ refs, c ∈ r
  | r :: rs, h => by
    simp only [refText, List.mem_append, List.mem_cons] at h
    rcases h with h | h | h
    · exact .inr ⟨r, by simp, h⟩
    · exact .inl h
    · rcases refText_mem h with h | ⟨x, hx, h⟩
      · exact .inl h
      · exact .inr ⟨x, by simp [hx], h⟩

/-- C66 is violated for every element and every non-empty list of references. -/
theorem c66_refuted {refs : List Str} (hr : refs ≠ []) (m : AttrMap F) :
    extractModelReferences (assignModelReferences refs m) ≠ .ok refs := by
  rw [extractRefs_of (assignRefs_stored hr m).1, splitStr_lower (by simp)]
  intro h
  simp only [Except.ok.injEq] at h
  have hj := join_splitStr (sep := py!"\\s") (by simp) (pyLower (refText refs))
  have hf := splitStr_fixed (sep := py!"\\s") (by simp) (refText refs)
  rw [h] at hj hf
  rw [pyLower_fixed (s := refText refs) fun c hc => by
    rcases refText_mem hc with rfl | ⟨r, hr, hc⟩
    · decide +kernel
    · exact hf r hr c hc] at hj
  cases refs with
  | nil => exact hr rfl
  | cons a rest =>
    simp only [refText] at hj
    cases rest with
    | nil =>
      have := congrArg List.length hj
      simp [join, refText] at this
    | cons b rest =>
      simp only [join, List.append_assoc] at hj
      have h1 := (List.append_inj hj rfl).2
      simp only [List.cons_append, List.cons.injEq] at h1
      exact absurd h1.1 (by decide)

theorem splitGo_no_sep {c : Char} {sep : Str} : ∀ {s : Str}, c ∉ s → splitGo (c :: sep) 0 s = [s]
  | [], _ => rfl
  | x :: xs, h => by
    simp only [List.mem_cons, not_or] at h
    have hp : (c :: sep).isPrefixOf (x :: xs) = false := by
      simp [List.isPrefixOf, h.1]
    simp only [splitGo, hp, splitGo_no_sep h.2]
    simp

/-- What is read back instead: for a non-empty list of references without backslashes, one single
string, all references in lower case with a blank after each. -/
theorem c66_result_partial {refs : List Str} (hr : refs ≠ []) (hb : ∀ r ∈ refs, '\\' ∉ r) (m : AttrMap F) :
    extractModelReferences (assignModelReferences refs m) = .ok [pyLower (refText refs)] := by
  rw [extractRefs_of (assignRefs_stored hr m).1, splitStr_lower (by simp)]
  have h1 : ∀ refs : List Str, (∀ r ∈ refs, '\\' ∉ r) → '\\' ∉ refText refs := by
    intro refs
    induction refs with
    | nil => intro _; simp [refText]
    | cons r rs ih =>
      intro h
      simp only [refText, List.mem_append, List.mem_cons, not_or]
      exact ⟨h r (by simp), by decide, ih fun x hx => h x (by simp [hx])⟩
  have h2 : '\\' ∉ pyLower (refText refs) := by
    intro h
    rcases (pyLower_mem h).2 with h | h
    · exact h1 refs hb h
    · exact h.2 rfl
  rw [splitStr, splitGo_no_sep h2]

/-- The empty list changes nothing, so that an element without references has none afterwards. -/
theorem c66_empty (m : AttrMap F) : assignModelReferences [] m = m ∧
    (dget py!"semantic:modelReference" m = none → extractModelReferences (assignModelReferences [] m) = .ok []) := by
  have h : assignModelReferences [] m = m := by simp [assignModelReferences, pyLower, lowerGo]
  exact ⟨h, fun hn => by rw [h]; simp only [extractModelReferences, hn]⟩

example : extractModelReferences (assignModelReferences [py!"http://A", py!"b"] sampleMap)
    = .ok [py!"http://a b "] := c66_result_partial (by simp) (by decide) _

theorem assignUris_eq {U : Type} (L : UriLib U) (us : List U) (m : AttrMap F) :
    assignModelReferenceUris L us m = assignModelReferences (us.map L.geturl) m := by
  have : us.flatMap (fun r => L.geturl r ++ [' ']) = (us.map L.geturl).flatMap (fun r => r ++ [' ']) := by
    induction us with
    | nil => rfl
    | cons u us ih => simp [ih]
  simp only [assignModelReferenceUris, assignModelReferences, this]

/-- The same for URIs: one URI is read back, that of the texts of all the URIs in lower case with a blank after each, or what
`urlparse` raises for that text.  Assigned as texts or as URIs, the element is the same. -/
theorem c66_uris_partial {U : Type} (L : UriLib U) {us : List U} (hr : us ≠ []) (hb : ∀ u ∈ us, '\\' ∉ L.geturl u) (m : AttrMap F) :
    assignModelReferenceUris L us m = assignModelReferences (us.map L.geturl) m ∧
    extractModelReferenceUris L (assignModelReferenceUris L us m) = (L.urlparse (pyLower (refText (us.map L.geturl)))).map fun u => [u] := by
  refine ⟨assignUris_eq L us m, ?_⟩
  rw [extractModelReferenceUris, assignUris_eq, c66_result_partial (by simpa using hr) (by simpa using hb)]
  cases h : L.urlparse (pyLower (refText (us.map L.geturl))) <;> simp [bind, Except.bind, h, Except.map, List.mapM_cons, pure, Except.pure]

/-- C66 is violated for URIs too: two or more never come back, and a single one only if its text in lower case with a blank
after it is parsed as that URI. -/
theorem c66_uris_refuted {U : Type} (L : UriLib U) {us : List U} (hb : ∀ u ∈ us, '\\' ∉ L.geturl u) (m : AttrMap F)
    (hr : extractModelReferenceUris L (assignModelReferenceUris L us m) = .ok us) (hn : us ≠ []) :
    ∃ u, us = [u] ∧ L.urlparse (pyLower (L.geturl u ++ [' '])) = .ok u := by
  rw [(c66_uris_partial L hn hb m).2] at hr
  cases h : L.urlparse (pyLower (refText (us.map L.geturl))) with
  | error e => rw [h] at hr; cases hr
  | ok u =>
    rw [h] at hr
    simp only [Except.map, Except.ok.injEq] at hr
    subst hr
    refine ⟨u, rfl, ?_⟩
    simpa [refText] using h

example : extractModelReferenceUris (⟨.ok, id⟩ : UriLib Str) (assignModelReferenceUris ⟨.ok, id⟩ [py!"http://A", py!"b"] sampleMap)
    = .ok [py!"http://a b "] := (c66_uris_partial _ (by simp) (by decide) _).2

/-! ## C67 -/

/-- Specification: `a` is one of the attributes of a map, or nested in one of them. -/
inductive Nested : AttrMap F → Attr F → Prop where
  | here {m k a} : (k, a) ∈ m → Nested m a
  | deeper {m k b a} : (k, b) ∈ m → Nested b.attrs a → Nested m a

theorem nested_nil (a : Attr F) : ¬ Nested ([] : AttrMap F) a := by
  intro h; cases h <;> simp_all

theorem nested_cons {k : Str} {b : Attr F} {m : AttrMap F} {a : Attr F} :
    Nested ((k, b) :: m) a ↔ a = b ∨ Nested b.attrs a ∨ Nested m a := by
  constructor
  · intro h
    cases h with
    | here h =>
      rcases List.mem_cons.1 h with h | h
      · exact .inl (by simpa using congrArg Prod.snd h)
      · exact .inr (.inr (.here h))
    | deeper h h2 =>
      rcases List.mem_cons.1 h with h | h
      · have := congrArg Prod.snd h; simp only at this; subst this; exact .inr (.inl h2)
      · exact .inr (.inr (.deeper h h2))
  · rintro (rfl | h | h)
    · exact .here List.mem_cons_self
    · exact .deeper List.mem_cons_self h
    · cases h with
      | here h => exact .here (List.mem_cons_of_mem _ h)
      | deeper h h2 => exact .deeper (List.mem_cons_of_mem _ h) h2

/-- Specification: None, an empty text, zero or False. -/
inductive Nothing : PyVal F → Prop where
  | none : Nothing .none
  | text : Nothing (.str [])
  | int : Nothing (.int 0)
  | float {x : F} : PyFloat.cmpInt x 0 = some .eq → Nothing (.float x)
  | bool : Nothing (.bool false)

theorem pyTruthy_iff (v : PyVal F) : pyTruthy v = false ↔ Nothing v := by
  constructor
  · intro h
    cases v <;> simp only [pyTruthy, ne_eq, Bool.not_eq_false', Bool.true_eq_false, decide_not, decide_eq_true_eq] at h
    · exact .none
    · subst h; exact .text
    · subst h; exact .int
    · exact .float h
    · subst h; exact .bool
  · intro h
    cases h with
    | float h => simp [pyTruthy, h]
    | _ => simp [pyTruthy]

/-- Specification: the extractor finds nothing (None, 0, an empty text) in the attribute. -/
def NoValue (ev : AttrMap F → Except PyErr (PyVal F)) (a : Attr F) : Prop :=
  ∃ v, ev a.attrs = .ok v ∧ Nothing v

mutual
theorem extractNestedAttr_ok (ev : AttrMap F → Except PyErr (PyVal F)) :
    ∀ (a : Attr F) (keys : List Str) (d d' : List (List Str × PyVal F)),
      extractNestedAttr ev keys d a = .ok d' ↔ d' = d ∧ NoValue ev a ∧ ∀ b, Nested a.attrs b → NoValue ev b
  | .mk k key e v m c, keys, d, d' => by
    simp only [extractNestedAttr, bind_ok, Attr.attrs]
    constructor
    · rintro ⟨value, hv, d1, h1, h2⟩
      by_cases ht : pyTruthy value = true
      · simp [setListKey, ht] at h1
      · rw [if_neg ht] at h1
        simp only [Except.ok.injEq] at h1
        subst h1
        obtain ⟨rfl, h3⟩ := (extractNestedLoop_ok ev m _ _ _).1 h2
        exact ⟨rfl, ⟨value, hv, (pyTruthy_iff _).1 (by simpa using ht)⟩, h3⟩
    · rintro ⟨rfl, ⟨value, hv, ht⟩, h3⟩
      refine ⟨value, hv, d', ?_, (extractNestedLoop_ok ev m _ _ _).2 ⟨rfl, h3⟩⟩
      simp [(pyTruthy_iff _).2 ht]
theorem extractNestedLoop_ok (ev : AttrMap F → Except PyErr (PyVal F)) :
    ∀ (m : List (Str × Attr F)) (keys : List Str) (d d' : List (List Str × PyVal F)),
      extractNestedLoop ev keys d m = .ok d' ↔ d' = d ∧ ∀ b, Nested m b → NoValue ev b
  | [], keys, d, d' => by
    simp only [extractNestedLoop, Except.ok.injEq]
    exact ⟨fun h => ⟨h.symm, fun b hb => absurd hb (nested_nil b)⟩, fun h => h.1.symm⟩
  | (k, a) :: m, keys, d, d' => by
    simp only [extractNestedLoop, bind_ok]
    constructor
    · rintro ⟨d1, h1, h2⟩
      obtain ⟨rfl, ha, hb⟩ := (extractNestedAttr_ok ev a _ _ _).1 h1
      obtain ⟨rfl, hc⟩ := (extractNestedLoop_ok ev m _ _ _).1 h2
      refine ⟨rfl, fun b h => ?_⟩
      rcases nested_cons.1 h with rfl | h | h
      · exact ha
      · exact hb b h
      · exact hc b h
    · rintro ⟨rfl, h⟩
      exact ⟨d', (extractNestedAttr_ok ev a _ _ _).2 ⟨rfl, h a (nested_cons.2 (.inl rfl)),
        fun b hb => h b (nested_cons.2 (.inr (.inl hb)))⟩,
        (extractNestedLoop_ok ev m _ _ _).2 ⟨rfl, fun b hb => h b (nested_cons.2 (.inr (.inr hb)))⟩⟩
end

theorem extractNestedTop_ok (ev : AttrMap F → Except PyErr (PyVal F)) :
    ∀ (m : List (Str × Attr F)) (d d' : List (List Str × PyVal F)),
      extractNestedTop ev d m = .ok d' ↔ d' = d ∧ ∀ b, Nested m b → NoValue ev b
  | [], d, d' => by
    simp only [extractNestedTop, Except.ok.injEq]
    exact ⟨fun h => ⟨h.symm, fun b hb => absurd hb (nested_nil b)⟩, fun h => h.1.symm⟩
  | (k, a) :: m, d, d' => by
    simp only [extractNestedTop, bind_ok]
    constructor
    · rintro ⟨d1, h1, h2⟩
      obtain ⟨rfl, ha, hb⟩ := (extractNestedAttr_ok ev a _ _ _).1 h1
      obtain ⟨rfl, hc⟩ := (extractNestedTop_ok ev m _ _).1 h2
      refine ⟨rfl, fun b h => ?_⟩
      rcases nested_cons.1 h with rfl | h | h
      · exact ha
      · exact hb b h
      · exact hc b h
    · rintro ⟨rfl, h⟩
      exact ⟨d', (extractNestedAttr_ok ev a _ _ _).2 ⟨rfl, h a (nested_cons.2 (.inl rfl)),
        fun b hb => h b (nested_cons.2 (.inr (.inl hb)))⟩,
        (extractNestedTop_ok ev m _ _).2 ⟨rfl, fun b hb => h b (nested_cons.2 (.inr (.inr hb)))⟩⟩

mutual
theorem extractNestedAttr_err (ev : AttrMap F → Except PyErr (PyVal F)) :
    ∀ (a : Attr F) (keys : List Str) (d : List (List Str × PyVal F)) (x : PyErr),
      extractNestedAttr ev keys d a = .error x → x = .typeError ∨ ∃ b, (b = a ∨ Nested a.attrs b) ∧ ev b.attrs = .error x
  | .mk k key e v m c, keys, d, x => by
    intro h
    simp only [extractNestedAttr, bind, Except.bind] at h
    cases hv : ev m with
    | error y =>
      rw [hv] at h
      simp only [Except.error.injEq] at h
      subst h
      exact .inr ⟨_, .inl rfl, hv⟩
    | ok value =>
      rw [hv] at h
      simp only at h
      split at h
      · next hh =>
        simp only [Except.error.injEq] at h
        subst h
        split at hh
        · simp only [setListKey, Except.error.injEq] at hh; exact .inl hh.symm
        · simp at hh
      · rcases extractNestedLoop_err ev m _ _ _ h with h | ⟨b, hb, he⟩
        · exact .inl h
        · exact .inr ⟨b, .inr hb, he⟩
theorem extractNestedLoop_err (ev : AttrMap F → Except PyErr (PyVal F)) :
    ∀ (m : List (Str × Attr F)) (keys : List Str) (d : List (List Str × PyVal F)) (x : PyErr),
      extractNestedLoop ev keys d m = .error x → x = .typeError ∨ ∃ b, Nested m b ∧ ev b.attrs = .error x
  | [], keys, d, x => by intro h; simp [extractNestedLoop] at h
  | (k, a) :: m, keys, d, x => by
    intro h
    simp only [extractNestedLoop, bind, Except.bind] at h
    split at h
    · next hh =>
      simp only [Except.error.injEq] at h
      subst h
      rcases extractNestedAttr_err ev a _ _ _ hh with h | ⟨b, hb, he⟩
      · exact .inl h
      · refine .inr ⟨b, nested_cons.2 ?_, he⟩
        rcases hb with rfl | hb
        · exact .inl rfl
        · exact .inr (.inl hb)
    · rcases extractNestedLoop_err ev m _ _ _ h with h | ⟨b, hb, he⟩
      · exact .inl h
      · exact .inr ⟨b, nested_cons.2 (.inr (.inr hb)), he⟩
end

theorem extractNestedTop_err (ev : AttrMap F → Except PyErr (PyVal F)) :
    ∀ (m : List (Str × Attr F)) (d : List (List Str × PyVal F)) (x : PyErr),
      extractNestedTop ev d m = .error x → x = .typeError ∨ ∃ b, Nested m b ∧ ev b.attrs = .error x
  | [], d, x => by intro h; simp [extractNestedTop] at h
  | (k, a) :: m, d, x => by
    intro h
    simp only [extractNestedTop, bind, Except.bind] at h
    split at h
    · next hh =>
      simp only [Except.error.injEq] at h
      subst h
      rcases extractNestedAttr_err ev a _ _ _ hh with h | ⟨b, hb, he⟩
      · exact .inl h
      · refine .inr ⟨b, nested_cons.2 ?_, he⟩
        rcases hb with rfl | hb
        · exact .inl rfl
        · exact .inr (.inl hb)
    · rcases extractNestedTop_err ev m _ _ h with h | ⟨b, hb, he⟩
      · exact .inl h
      · exact .inr ⟨b, nested_cons.2 (.inr (.inr hb)), he⟩

/-- What extract_nested_values returns, for every element and every extractor: never anything but the
empty map, and that exactly if no attribute of the element, at any depth, has a value. -/
theorem c67_result_partial (ev : AttrMap F → Except PyErr (PyVal F)) (m : AttrMap F) :
    (∀ d, extractNestedValues ev m = .ok d → d = []) ∧
    (extractNestedValues ev m = .ok [] ↔ ∀ b, Nested m b → NoValue ev b) := by
  refine ⟨fun d h => ((extractNestedTop_ok ev m [] d).1 h).1, ?_⟩
  rw [extractNestedValues, extractNestedTop_ok]
  simp

/-- C67 is violated: as soon as one attribute at any depth has a value, TypeError is raised (if the
extractor itself does not raise on any attribute of the element). -/
theorem c67_refuted (ev : AttrMap F → Except PyErr (PyVal F)) (m : AttrMap F) {b : Attr F} (hb : Nested m b)
    {v : PyVal F} (hv : ev b.attrs = .ok v) (ht : ¬ Nothing v) (hev : ∀ a, Nested m a → ∃ w, ev a.attrs = .ok w) :
    extractNestedValues ev m = .error .typeError ∧ extractValues ev m = .error .typeError := by
  have h1 : extractNestedValues ev m = .error .typeError := by
    cases h : extractNestedValues ev m with
    | ok d =>
      have hd := (c67_result_partial ev m).1 d h
      subst hd
      obtain ⟨w, hw, hf⟩ := (c67_result_partial ev m).2.1 h b hb
      rw [hv] at hw
      simp only [Except.ok.injEq] at hw
      exact absurd (hw ▸ hf) ht
    | error x =>
      rcases extractNestedTop_err ev m [] x h with h | ⟨a, ha, he⟩
      · rw [h]
      · obtain ⟨w, hw⟩ := hev a ha
        rw [hw] at he; simp at he
  exact ⟨h1, by simp only [extractValues, h1, bind, Except.bind]⟩

/-- extract_values also returns only the empty map, and assign_values raises TypeError for every
non-empty dict of values. -/
theorem c67_values (ev : AttrMap F → Except PyErr (PyVal F)) (av : PyVal F → AttrMap F → Except PyErr (AttrMap F))
    (m : AttrMap F) :
    (∀ d, extractValues ev m = .ok d → d = []) ∧ assignValues av [] m = .ok m ∧
      ∀ p r, assignValues av (p :: r) m = .error .typeError := by
  refine ⟨fun d h => ?_, rfl, fun p r => rfl⟩
  simp only [extractValues, bind_ok] at h
  obtain ⟨n, hn, hd⟩ := h
  have := (c67_result_partial ev m).1 n hn
  subst this
  simpa using hd.symm

/-- An event with an attribute that has a cost amount. -/
def costMap : AttrMap ToyFloat :=
  [(py!"work", .mk .literal py!"work" none (.str []) [(py!"cost:amount", plain .continuous py!"cost:amount" costExt (.int 5))] [])]

example : extractNestedValues extractAmount costMap = .error .typeError := rfl
example : extractNestedValues extractAmount sampleMap = .ok [] := rfl

/-! ## C68 -/

mutual
theorem attrExtensions_nil : ∀ a : Attr F, attrExtensions a = .ok []
  | .mk _ _ _ _ m _ => by simp only [attrExtensions]; exact extensionsLoop_acc m []
theorem extensionsLoop_acc : ∀ (m : List (Str × Attr F)) (acc : List Ext), extensionsLoop acc m = .ok acc
  | [], acc => rfl
  | (_, a) :: rest, acc => by
    simp only [extensionsLoop, attrExtensions_nil a, bind, Except.bind, List.length_nil, ne_eq, not_true_eq_false, if_false]
    exact extensionsLoop_acc rest acc
end

/-- C68 is violated: whatever the attributes of a trace, event or attribute and their extensions,
get_extensions returns the empty set. -/
theorem c68_refuted (m : AttrMap F) : getExtensions m = .ok [] := extensionsLoop_acc m []

/-- What holds of C68: get_extensions never raises and never returns an extension that no attribute has. -/
theorem c68_sound_partial (m : AttrMap F) :
    ∃ es, getExtensions m = .ok es ∧ ∀ e ∈ es, ∃ b, Nested m b ∧ b.ext = some e :=
  ⟨[], c68_refuted m, by simp⟩

example : getExtensions sampleMap = .ok [] ∧ ∃ b, Nested sampleMap b ∧ b.ext = some orgExt :=
  ⟨c68_refuted _, _, .here (k := py!"org:resource") (List.mem_cons_of_mem _ (List.mem_cons_self)), rfl⟩

/-! ## C76 -/

/-- Specification: the date and time of day without microseconds and zone. -/
def wholeSecond (d : DateTime) : DateTime := { d with micro := 0, tz := none }

/-- assign_timestamp with a datetime: if local time converts the whole second there and back, what is
read is the date without its microseconds and its zone; nothing else changes.  So the date itself is
read back exactly if it has neither. -/
theorem c76_time_partial (lt : LocalTime) (d : DateTime) {s : Int} (h1 : lt.mktime (wholeSecond d) = .ok s)
    (h2 : lt.fromMillis (s * 1000) = .ok (wholeSecond d)) (m : AttrMap F) :
    ∃ m', assignTimestamp lt (.datetime d) m = .ok m' ∧ extractTimestamp m' = .ok (.dt (wholeSecond d)) ∧
      Stored py!"time:timestamp" (plain .timestamp py!"time:timestamp" timeExt (.dt (wholeSecond d))) m m' ∧
      (extractTimestamp m' = .ok (.dt d) ↔ d.micro = 0 ∧ d.tz = none) := by
  have hs := stored_dset py!"time:timestamp" (plain .timestamp py!"time:timestamp" timeExt (.dt (wholeSecond d))) m
  have he : extractTimestamp (dset py!"time:timestamp" (plain .timestamp py!"time:timestamp" timeExt (.dt (wholeSecond d))) m)
      = .ok (.dt (wholeSecond d)) := extractOr_of rfl hs.1
  refine ⟨_, ?_, he, hs, ?_⟩
  · have h1' : lt.mktime { d with micro := 0, tz := none } = .ok s := h1
    simp only [assignTimestamp, h1', bind, Except.bind, h2]
    rfl
  · rw [he]
    simp only [Except.ok.injEq, PyVal.dt.injEq]
    constructor
    · intro h
      exact ⟨by rw [← h]; rfl, by rw [← h]; rfl⟩
    · rintro ⟨ha, hb⟩
      obtain ⟨_, _, _, _, _, _, _, _⟩ := d
      simp only at ha hb
      subst ha hb
      rfl

/-- C76 is violated for every date with microseconds or a zone. -/
theorem c76_refuted (lt : LocalTime) (d : DateTime) {s : Int} (h1 : lt.mktime (wholeSecond d) = .ok s)
    (h2 : lt.fromMillis (s * 1000) = .ok (wholeSecond d)) (hd : d.micro ≠ 0 ∨ d.tz ≠ none) (m m' : AttrMap F)
    (hm : assignTimestamp lt (.datetime d) m = .ok m') : extractTimestamp m' ≠ .ok (.dt d) := by
  obtain ⟨m2, h3, _, _, h4⟩ := c76_time_partial lt d h1 h2 m
  rw [hm] at h3
  simp only [Except.ok.injEq] at h3
  subst h3
  intro h
  have := h4.1 h
  rcases hd with hd | hd
  · exact hd this.1
  · exact hd this.2

/-- An event without a timestamp has the timestamp -1. -/
theorem c76_absent (m : AttrMap F) (h : dget py!"time:timestamp" m = none) : extractTimestamp m = .ok (.int (-1)) := by
  have h' : dget timeKey m = none := h
  simp only [extractTimestamp, extractOr, h']

/-- A clock for one second of one day, and a date with microseconds on it. -/
def sampleClock : LocalTime where
  mktime _ := .ok 86399
  fromMillis _ := .ok ⟨1970, 1, 1, 23, 59, 59, 0, none⟩
example (m : AttrMap ToyFloat) : ∃ m', assignTimestamp sampleClock (.datetime ⟨1970, 1, 1, 23, 59, 59, 250000, some 0⟩) m = .ok m' ∧
    extractTimestamp m' = .ok (.dt ⟨1970, 1, 1, 23, 59, 59, 0, none⟩) := by
  obtain ⟨m', h1, h2, _⟩ := c76_time_partial sampleClock ⟨1970, 1, 1, 23, 59, 59, 250000, some 0⟩ rfl rfl m
  exact ⟨m', h1, h2⟩

/-! ## C78 -/

/-- The setters of an extended event store the lower-case text: it is read back unchanged exactly if each
character is its own lower case. -/
theorem c78_set_partial (f : OrgField) {x : Str} (hx : NonBlank x) (m : AttrMap F) :
    extractOrg f (extendedSetOrg f x m) = .ok (.str (pyLower x)) ∧
    (extractOrg f (extendedSetOrg f x m) = .ok (.str x) ↔ ∀ c ∈ x, pyLower [c] = [c]) := by
  have hl : NonBlank (pyLower x) := by
    obtain ⟨c, hc, hs⟩ := hx
    exact pyLower_nonspace hc hs
  have h1 : extractOrg f (extendedSetOrg f x m) = .ok (.str (pyLower x)) := (c62_assign f hl m).1
  refine ⟨h1, ?_⟩
  rw [h1]
  simp only [Except.ok.injEq, PyVal.str.injEq]
  exact pyLower_eq_self

def spaceCodes : List Nat :=
  [9, 10, 11, 12, 13, 28, 29, 30, 31, 32, 0x85, 0xA0, 0x1680, 0x2000, 0x2001, 0x2002, 0x2003, 0x2004, 0x2005, 0x2006, 0x2007, 0x2008, 0x2009,
   0x200A, 0x2028, 0x2029, 0x202F, 0x205F, 0x3000]

theorem space_fixed {c : Char} (h : pyLower [c] ≠ [c]) : isSpace c = false := by
  have : spaceCodes.all (fun n => decide (Fixed (Char.ofNat n))) = true := by decide +kernel
  cases hs : isSpace c with
  | false => rfl
  | true =>
    have hm : c.toNat ∈ spaceCodes := by
      simp only [isSpace, Bool.or_eq_true, Bool.and_eq_true, decide_eq_true_eq, beq_iff_eq] at hs
      simp only [spaceCodes, List.mem_cons, List.not_mem_nil, or_false]
      omega
    have h2 := of_decide_eq_true (List.all_eq_true.1 this _ hm)
    rw [Char.ofNat_toNat] at h2
    exact absurd h2 h

/-- C78 is violated by every resource, role or group with a character that is not its own lower case. -/
theorem c78_refuted (f : OrgField) {x : Str} {c : Char} (hc : c ∈ x) (hu : pyLower [c] ≠ [c])
    (m : AttrMap F) : extractOrg f (extendedSetOrg f x m) ≠ .ok (.str x) :=
  fun h => hu ((c78_set_partial f ⟨c, hc, space_fixed hu⟩ m).2.1 h c hc)

example : extractOrg .resource (extendedSetOrg .resource py!"Bob" sampleMap) = .ok (.str py!"bob") :=
  (c78_set_partial .resource (x := py!"Bob") ⟨'B', by simp, by decide⟩ sampleMap).1
example : extractOrg .role (extendedSetOrg .role py!"Ägypten ΟΔΟΣ" sampleMap) = .ok (.str py!"ägypten οδος") := by
  rw [(c78_set_partial .role (x := py!"Ägypten ΟΔΟΣ") ⟨'Ä', by simp, by decide⟩ sampleMap).1]
  have : pyLower py!"Ägypten ΟΔΟΣ" = py!"ägypten οδος" := by decide +kernel
  rw [this]

/-! ## C79 -/

/-- Identities: a value other than None is stored and read back, nothing else changes; None changes
nothing; an element without one has None. -/
theorem c79_identity (v : PyVal F) (m : AttrMap F) :
    (v ≠ .none → extractId (assignId v m) = .ok v ∧
      Stored py!"identity:id" (plain .id py!"identity:id" identityExt v) m (assignId v m)) ∧
    assignId .none m = m ∧ (dget py!"identity:id" m = none → extractId m = .ok .none) := by
  refine ⟨fun hv => ?_, rfl, fun h => by simp only [extractId, extractOr, h]⟩
  have hs : Stored py!"identity:id" (plain .id py!"identity:id" identityExt v) m (assignId v m) := by
    have : assignId v m = dset py!"identity:id" (plain .id py!"identity:id" identityExt v) m := by
      cases v <;> first | rfl | exact absurd rfl hv
    rw [this]; exact stored_dset _ _ _
  exact ⟨extractOr_of rfl hs.1, hs⟩

example : extractId (assignId (.int 3) sampleMap) = .ok (.int 3) := ((c79_identity _ _).1 (by simp)).1

end Opy
