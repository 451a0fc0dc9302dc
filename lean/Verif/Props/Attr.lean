import Verif.Model.Attr
import Verif.Lemmas.Order
import Verif.Lemmas.Dict
import Verif.Lemmas.Num
/-
Properties C09-C12 (comparison, equality and hashing of attributes).
-/
namespace Opy

/-! ## A concrete float type, for the examples -/

/-- Whole-number floats printed as Python does ("12.0"), used only in examples. -/
structure ToyFloat where
  n : Int
  deriving DecidableEq

/-- Reads "12.0" only. -/
def ToyFloat.read (s : Str) : Option ToyFloat :=
  match s.reverse with
  | '0' :: '.' :: r => (pyInt r.reverse).map ToyFloat.mk
  | _ => none

theorem ToyFloat.read_repr (x : ToyFloat) : ToyFloat.read (intStr x.n ++ ['.', '0']) = some x := by
  simp [ToyFloat.read, pyInt_intStr]

instance : PyFloat ToyFloat where
  repr x := intStr x.n ++ ['.', '0']
  parse := ToyFloat.read
  ofInt z := some ⟨z⟩
  rank x := some x.n
  cmpInt x z := some (compare x.n z)
  parse_repr := ToyFloat.read_repr

/-! ## Specification -/

section
variable {F : Type} [PyFloat F]

/-- The two values are equal as Python values of the same attribute type: same text, number, truth
value, identifier; same position in the order of the floats; same instant. -/
def SameVal : PyVal F → PyVal F → Prop
  | .str a, .str b => a = b
  | .int a, .int b => a = b
  | .bool a, .bool b => a = b
  | .xid a, .xid b => a = b
  | .float a, .float b => ∃ n, PyFloat.rank a = some n ∧ PyFloat.rank b = some n
  | .dt a, .dt b => a.tz.isSome = b.tz.isSome ∧ a.instant = b.instant
  | _, _ => False

/-- Strict order of values of one type: text order, number order, False before True, identifier
number, chronological. -/
def ValLt : PyVal F → PyVal F → Prop
  | .str a, .str b => strLt a b = true
  | .int a, .int b => a < b
  | .bool a, .bool b => a = false ∧ b = true
  | .xid a, .xid b => a < b
  | .float a, .float b => ∃ m n, PyFloat.rank a = some m ∧ PyFloat.rank b = some n ∧ m < n
  | .dt a, .dt b => a.instant < b.instant
  | _, _ => False

/-- The value has the Python type its attribute class asks for, and is not NaN. -/
def WellTyped (a : Attr F) : Prop :=
  match a.kind, a.val with
  | .literal, .str _ => True
  | .discrete, .int _ => True
  | .boolean, .bool _ => True
  | .id, .xid _ => True
  | .timestamp, .dt _ => True
  | .continuous, .float x => PyFloat.rank x ≠ none
  | _, _ => False

/-- Both values are naive or both are aware (irrelevant for values that are not timestamps). -/
def SameAwareness (a b : Attr F) : Prop :=
  match a.val, b.val with
  | .dt d, .dt e => d.tz.isSome = e.tz.isSome
  | _, _ => True

/-- Two attributes of one value-carrying class, well typed; timestamps of one awareness. -/
structure Comparable (a b : Attr F) : Prop where
  kind : a.kind = b.kind
  left : WellTyped a
  right : WellTyped b
  aware : SameAwareness a b

/-! ## C09 -/

theorem compareStr_spec (a b : Str) :
    (compareStr a b = 0 ∧ a = b) ∨ (compareStr a b = -1 ∧ strLt a b = true) ∨ (compareStr a b = 1 ∧ strLt b a = true) := by
  unfold compareStr
  by_cases h : a = b
  · simp [h]
  · rcases strLt_trichotomy a b with h1 | h1 | h1
    · simp [h, h1, strLt_asymm h1]
    · exact absurd h1 h
    · simp [h, h1]

/-- The outcome of the value comparison, by cases. -/
def Outcome (r : Except PyErr Int) (eq lt gt : Prop) : Prop :=
  (r = .ok 0 ∧ eq) ∨ (r = .ok (-1) ∧ lt) ∨ (r = .ok 1 ∧ gt)

theorem compareVals_spec {v w : PyVal F} {lt : Bool} (heq : pyEq v w = true ↔ SameVal v w)
    (hgt : pyGt v w = .ok lt) (hlt : lt = true → ValLt w v)
    (htri : ¬ SameVal v w → lt = false → ValLt v w) :
    Outcome (compareVals v w) (SameVal v w) (ValLt v w) (ValLt w v) := by
  unfold compareVals
  by_cases h : pyEq v w = true
  · left
    simp [h, heq.1 h]
  · rw [if_neg h, hgt]
    cases lt with
    | true => right; right; exact ⟨by simp, hlt rfl⟩
    | false => right; left; exact ⟨by simp, htri (fun e => h (heq.2 e)) rfl⟩

theorem compareTo_outcome {a b : Attr F} (h : Comparable a b) :
    Outcome (compareTo a b) (a.key = b.key ∧ SameVal a.val b.val)
      (strLt a.key b.key = true ∨ (a.key = b.key ∧ ValLt a.val b.val))
      (strLt b.key a.key = true ∨ (a.key = b.key ∧ ValLt b.val a.val)) := by
  obtain ⟨k, key, e, v, m, c⟩ := a
  obtain ⟨k', key', e', w, m', c'⟩ := b
  obtain ⟨hk, hl, hr, ha⟩ := h
  simp only [Attr.kind] at hk
  subst hk
  simp only [Attr.key, Attr.val]
  rcases compareStr_spec key key' with ⟨hc, hkey⟩ | ⟨hc, hkey⟩ | ⟨hc, hkey⟩
  · -- same key
    subst hkey
    have lift : ∀ r : Except PyErr Int, Outcome r (SameVal v w) (ValLt v w) (ValLt w v) →
        Outcome r (key = key ∧ SameVal v w) (strLt key key = true ∨ (key = key ∧ ValLt v w))
          (strLt key key = true ∨ (key = key ∧ ValLt w v)) := by
      intro r hr
      rcases hr with ⟨h1, h2⟩ | ⟨h1, h2⟩ | ⟨h1, h2⟩
      · exact Or.inl ⟨h1, rfl, h2⟩
      · exact Or.inr (Or.inl ⟨h1, Or.inr ⟨rfl, h2⟩⟩)
      · exact Or.inr (Or.inr ⟨h1, Or.inr ⟨rfl, h2⟩⟩)
    apply lift
    cases k
    case literal =>
      cases v <;> simp only [WellTyped, Attr.kind, Attr.val] at hl
      cases w <;> simp only [WellTyped, Attr.kind, Attr.val] at hr
      rename_i s t
      have : compareTo (Attr.mk .literal key e (.str s) m c) (Attr.mk .literal key e' (.str t) m' c')
          = compareVals (F := F) (.str s) (.str t) := by
        simp [compareTo, Attr.key, hc, Attr.kind, getValue, Kind.isCollection, Attr.val, bind, Except.bind]
      rw [this]
      refine compareVals_spec (lt := strLt t s) (by simp [pyEq, SameVal]) rfl (fun h => h) ?_
      intro hne hlt
      rcases strLt_trichotomy s t with h | h | h
      · exact h
      · exact absurd h hne
      · rw [h] at hlt; exact absurd hlt (by simp)
    case discrete =>
      cases v <;> simp only [WellTyped, Attr.kind, Attr.val] at hl
      cases w <;> simp only [WellTyped, Attr.kind, Attr.val] at hr
      rename_i s t
      have : compareTo (Attr.mk .discrete key e (.int s) m c) (Attr.mk .discrete key e' (.int t) m' c')
          = compareVals (F := F) (.int s) (.int t) := by
        simp [compareTo, Attr.key, hc, Attr.kind, getValue, Kind.isCollection, Attr.val, bind, Except.bind]
      rw [this]
      refine compareVals_spec (lt := decide (t < s)) (by simp [pyEq, SameVal]) rfl (by simp [ValLt]) ?_
      intro hne hlt
      simp [SameVal] at hne
      simp at hlt
      simp only [ValLt]
      omega
    case continuous =>
      cases v <;> simp only [WellTyped, Attr.kind, Attr.val] at hl
      cases w <;> simp only [WellTyped, Attr.kind, Attr.val] at hr
      rename_i s t
      have : compareTo (Attr.mk .continuous key e (.float s) m c) (Attr.mk .continuous key e' (.float t) m' c')
          = compareVals (F := F) (.float s) (.float t) := by
        simp [compareTo, Attr.key, hc, Attr.kind, getValue, Kind.isCollection, Attr.val, bind, Except.bind,
          pyFloatOf]
      rw [this]
      obtain ⟨x, hx⟩ := Option.ne_none_iff_exists'.1 hl
      obtain ⟨y, hy⟩ := Option.ne_none_iff_exists'.1 hr
      refine compareVals_spec (lt := decide (y < x)) ?_ ?_ ?_ ?_
      · simp only [pyEq, SameVal, hx, hy, beq_iff_eq, Option.some.injEq]
        exact ⟨fun h => ⟨x, rfl, h.symm⟩, fun ⟨n, h1, h2⟩ => h1.trans h2.symm⟩
      · simp [pyGt, hx, hy]
      · simp only [ValLt, hx, hy, decide_eq_true_eq]
        intro h
        exact ⟨y, x, rfl, rfl, h⟩
      · simp only [SameVal, ValLt, hx, hy, decide_eq_false_iff_not]
        intro hne hlt
        refine ⟨x, y, rfl, rfl, ?_⟩
        have : x ≠ y := fun e => hne ⟨x, rfl, by rw [e]⟩
        omega
    case boolean =>
      cases v <;> simp only [WellTyped, Attr.kind, Attr.val] at hl
      cases w <;> simp only [WellTyped, Attr.kind, Attr.val] at hr
      rename_i s t
      have : compareTo (Attr.mk .boolean key e (.bool s) m c) (Attr.mk .boolean key e' (.bool t) m' c')
          = .ok (compareBools (F := F) (.bool s) (.bool t)) := by
        simp [compareTo, Attr.key, hc, Attr.kind, getValue, Kind.isCollection, Attr.val, bind, Except.bind]
      rw [this]
      cases s <;> cases t <;> simp [Outcome, compareBools, pyEq, SameVal, ValLt, pyTruthy]
    case id =>
      cases v <;> simp only [WellTyped, Attr.kind, Attr.val] at hl
      cases w <;> simp only [WellTyped, Attr.kind, Attr.val] at hr
      rename_i s t
      have : compareTo (Attr.mk .id key e (.xid s) m c) (Attr.mk .id key e' (.xid t) m' c')
          = .ok (xidCompare s t) := by
        simp [compareTo, Attr.key, hc, Attr.kind, getValue, Kind.isCollection, Attr.val, bind, Except.bind,
          compareXids]
      rw [this]
      unfold xidCompare
      by_cases h : s = t
      · left; simp [h, SameVal]
      · rw [if_neg h]
        have hne : s.val ≠ t.val := fun e => h (Fin.ext e)
        by_cases h1 : t < s
        · right; right; simp [h1, ValLt]
        · right; left
          refine ⟨by simp [h1], ?_⟩
          simp only [ValLt]
          rw [Fin.lt_def] at *
          omega
    case timestamp =>
      cases v <;> simp only [WellTyped, Attr.kind, Attr.val] at hl
      cases w <;> simp only [WellTyped, Attr.kind, Attr.val] at hr
      rename_i s t
      simp only [SameAwareness, Attr.val] at ha
      have : compareTo (Attr.mk .timestamp key e (.dt s) m c) (Attr.mk .timestamp key e' (.dt t) m' c')
          = compareVals (F := F) (.dt s) (.dt t) := by
        simp [compareTo, Attr.key, hc, Attr.kind, getValue, Kind.isCollection, Attr.val, bind, Except.bind]
      rw [this]
      refine compareVals_spec (lt := decide (t.instant < s.instant)) ?_ ?_ (by simp [ValLt]) ?_
      · simp [pyEq, SameVal, DateTime.eq, ha]
      · simp [pyGt, DateTime.lt, ha]
      · simp only [SameVal, ValLt, ha, true_and, decide_eq_false_iff_not]
        intro hne hlt
        omega
    case list => simp [WellTyped, Attr.kind] at hl
    case container => simp [WellTyped, Attr.kind] at hl
  · right; left
    exact ⟨by simp [compareTo, Attr.key, hc], Or.inl hkey⟩
  · right; right
    exact ⟨by simp [compareTo, Attr.key, hc], Or.inl hkey⟩

theorem ValLt_irrefl (v w : PyVal F) (h : SameVal v w) : ¬ ValLt v w := by
  cases v <;> cases w <;> simp_all [SameVal, ValLt, strLt_irrefl]
  case float.float x y =>
    obtain ⟨n, h1, h2⟩ := h
    intro a ha b hb
    rw [h1] at ha; rw [h2] at hb; simp at ha hb
    omega

theorem SameVal_symm {v w : PyVal F} (h : SameVal v w) : SameVal w v := by
  cases v <;> cases w <;> simp_all [SameVal]
  exact ⟨h.choose, h.choose_spec.2, h.choose_spec.1⟩

theorem SameVal_trans {u v w : PyVal F} (h : SameVal u v) (h' : SameVal v w) : SameVal u w := by
  cases u <;> cases v <;> cases w <;> simp_all [SameVal]
  obtain ⟨n, h1, h2⟩ := h
  obtain ⟨m, h3, h4⟩ := h'
  rw [h2] at h3
  simp at h3
  exact ⟨n, h1, by rw [h4, h3]⟩

theorem ValLt_asymm {v w : PyVal F} (h : ValLt v w) : ¬ ValLt w v := by
  cases v <;> cases w <;> simp_all [ValLt]
  case str.str a b => exact strLt_asymm h
  case int.int => omega
  case xid.xid => rw [Fin.lt_def] at h; exact Fin.le_of_lt h
  case dt.dt => omega
  case float.float x y =>
    obtain ⟨m, h1, n, h2, h3⟩ := h
    intro a ha b hb
    rw [h2] at ha; rw [h1] at hb; simp at ha hb
    omega

/-- "less or equal" of the specification. -/
def ValLe (v w : PyVal F) : Prop := SameVal v w ∨ ValLt v w

theorem ValLe_trans {u v w : PyVal F} (h : ValLe u v) (h' : ValLe v w) : ValLe u w := by
  unfold ValLe at *
  cases u <;> cases v <;> cases w <;> simp_all [SameVal, ValLt]
  case str.str.str a b c =>
    rcases h with rfl | h
    · exact h'
    · rcases h' with rfl | h'
      · exact Or.inr h
      · exact Or.inr (strLt_trans h h')
  case int.int.int => omega
  case bool.bool.bool a b c => cases a <;> cases b <;> cases c <;> simp_all
  case xid.xid.xid a b c =>
    have e : ∀ x y : Uuid, x = y ∨ x < y ↔ x.val ≤ y.val := by
      intro x y
      rw [Fin.lt_def, Fin.ext_iff]
      omega
    have e1 := (e a b).1 h
    have e2 := (e b c).1 h'
    exact (e a c).2 (by omega)
  case dt.dt.dt a b c =>
    rcases h with ⟨h1, h2⟩ | h <;> rcases h' with ⟨h3, h4⟩ | h'
    · exact Or.inl ⟨h1.trans h3, h2.trans h4⟩
    · exact Or.inr (by omega)
    · exact Or.inr (by omega)
    · exact Or.inr (by omega)
  case float.float.float x y z =>
    rcases h with ⟨n, h1, h2⟩ | ⟨n, h1, n', h2, h3⟩ <;> rcases h' with ⟨m, h4, h5⟩ | ⟨m, h4, m', h5, h6⟩ <;>
      rw [h2] at h4 <;> simp at h4 <;> subst h4
    · exact Or.inl ⟨n, h1, h5⟩
    · exact Or.inr ⟨n, h1, m', h5, h6⟩
    · exact Or.inr ⟨n, h1, n', h5, h3⟩
    · exact Or.inr ⟨n, h1, m', h5, by omega⟩

/-- C09: `compare_to` never raises, and its sign is the order (key, then value). -/
theorem c09_total {a b : Attr F} (h : Comparable a b) :
    ∃ z, compareTo a b = .ok z ∧ (z = -1 ∨ z = 0 ∨ z = 1) ∧
      (z < 0 ↔ strLt a.key b.key = true ∨ (a.key = b.key ∧ ValLt a.val b.val)) := by
  rcases compareTo_outcome h with ⟨h1, h2, h3⟩ | ⟨h1, h2⟩ | ⟨h1, h2⟩
  · refine ⟨0, h1, by simp, ?_⟩
    constructor
    · intro h; omega
    · rintro (h | ⟨-, h⟩)
      · rw [h2, strLt_irrefl] at h; simp at h
      · exact absurd h (ValLt_irrefl _ _ h3)
  · exact ⟨-1, h1, by simp, fun _ => h2, fun _ => by decide⟩
  · refine ⟨1, h1, by simp, ?_⟩
    constructor
    · intro h; omega
    · intro h
      exfalso
      rcases h2 with h2 | ⟨h2, h3⟩
      · rcases h with h | ⟨h, -⟩
        · rw [strLt_asymm h2] at h; simp at h
        · rw [h, strLt_irrefl] at h2; simp at h2
      · rcases h with h | ⟨-, h⟩
        · rw [h2, strLt_irrefl] at h; simp at h
        · exact ValLt_asymm h3 h

/-- C09: the result is 0 exactly for equal keys and equal values. -/
theorem c09_zero_iff {a b : Attr F} (h : Comparable a b) :
    compareTo a b = .ok 0 ↔ a.key = b.key ∧ SameVal a.val b.val := by
  rcases compareTo_outcome h with ⟨h1, h2⟩ | ⟨h1, h2⟩ | ⟨h1, h2⟩
  · exact ⟨fun _ => h2, fun _ => h1⟩
  · rw [h1]
    constructor
    · intro h; simp at h
    · rintro ⟨h3, h4⟩
      rcases h2 with h2 | ⟨-, h2⟩
      · rw [h3, strLt_irrefl] at h2; simp at h2
      · exact absurd h2 (ValLt_irrefl _ _ h4)
  · rw [h1]
    constructor
    · intro h; simp at h
    · rintro ⟨h3, h4⟩
      rcases h2 with h2 | ⟨-, h2⟩
      · rw [h3, strLt_irrefl] at h2; simp at h2
      · exact absurd h2 (ValLt_irrefl _ _ (SameVal_symm h4))

theorem Comparable.symm {a b : Attr F} (h : Comparable a b) : Comparable b a := by
  obtain ⟨h1, h2, h3, h4⟩ := h
  refine ⟨h1.symm, h3, h2, ?_⟩
  unfold SameAwareness at *
  split <;> split at h4 <;> simp_all

/-- C09: antisymmetry. -/
theorem c09_antisymm {a b : Attr F} (h : Comparable a b) {z : Int} (hz : compareTo a b = .ok z) :
    compareTo b a = .ok (-z) := by
  obtain ⟨x, hx, hx1, hx2⟩ := c09_total h
  obtain ⟨y, hy, hy1, hy2⟩ := c09_total h.symm
  rw [hx] at hz
  simp at hz
  subst hz
  rw [hy]
  have z1 := c09_zero_iff h
  have z2 := c09_zero_iff h.symm
  rw [hx] at z1; rw [hy] at z2
  simp only [Except.ok.injEq] at *
  have h0 : x = 0 ↔ y = 0 := by
    rw [z1, z2]
    exact ⟨fun h => ⟨h.1.symm, SameVal_symm h.2⟩, fun h => ⟨h.1.symm, SameVal_symm h.2⟩⟩
  have hn : x < 0 → ¬ y < 0 := by
    rw [hx2, hy2]
    rintro (h | ⟨h, h'⟩) (k | ⟨k, k'⟩)
    · rw [strLt_asymm h] at k; simp at k
    · rw [k, strLt_irrefl] at h; simp at h
    · rw [h, strLt_irrefl] at k; simp at k
    · exact ValLt_asymm h' k'
  have hp : 0 < x → ¬ 0 < y := by
    rcases compareTo_outcome h with ⟨h1, h2⟩ | ⟨h1, h2⟩ | ⟨h1, h2⟩ <;> rw [hx] at h1 <;> simp at h1
    · omega
    · omega
    · intro _
      have : y < 0 := hy2.2 (h2.imp id (fun ⟨p, q⟩ => ⟨p.symm, q⟩))
      omega
  omega

/-- C09: transitivity. -/
theorem c09_trans {a b c : Attr F} (hab : Comparable a b) (hbc : Comparable b c) (hac : Comparable a c)
    {x y z : Int} (hx : compareTo a b = .ok x) (hy : compareTo b c = .ok y) (hz : compareTo a c = .ok z)
    (h1 : x ≤ 0) (h2 : y ≤ 0) : z ≤ 0 := by
  have le : ∀ {a b : Attr F} (h : Comparable a b) {x : Int}, compareTo a b = .ok x →
      (x ≤ 0 ↔ strLt a.key b.key = true ∨ (a.key = b.key ∧ ValLe a.val b.val)) := by
    intro a b h x hx
    obtain ⟨w, hw, -, hw2⟩ := c09_total h
    have z1 := c09_zero_iff h
    rw [hx] at hw z1
    simp only [Except.ok.injEq] at hw z1
    subst hw
    have : x ≤ 0 ↔ x < 0 ∨ x = 0 := by omega
    rw [this, hw2, z1]
    unfold ValLe
    constructor
    · rintro ((h | h) | h)
      · exact Or.inl h
      · exact Or.inr ⟨h.1, Or.inr h.2⟩
      · exact Or.inr ⟨h.1, Or.inl h.2⟩
    · rintro (h | ⟨h, h' | h'⟩)
      · exact Or.inl (Or.inl h)
      · exact Or.inr ⟨h, h'⟩
      · exact Or.inl (Or.inr ⟨h, h'⟩)
  rw [le hac hz]
  rw [le hab hx] at h1
  rw [le hbc hy] at h2
  rcases h1 with h1 | ⟨h1, h1'⟩ <;> rcases h2 with h2 | ⟨h2, h2'⟩
  · exact Or.inl (strLt_trans h1 h2)
  · exact Or.inl (h2 ▸ h1)
  · exact Or.inl (h1 ▸ h2)
  · exact Or.inr ⟨h1.trans h2, ValLe_trans h1' h2'⟩

/-! ## C10 -/

/-- The statement of C10 without the restriction to value-carrying types: distinct attribute
objects, equality read as a relation. -/
def EqIsEquivalence (P : Attr F → Prop) : Prop :=
  (∀ a, P a → attrEq false a a = true) ∧
  (∀ a b, P a → P b → attrEq false a b = true → attrEq false b a = true) ∧
  (∀ a b c, P a → P b → P c → attrEq false a b = true → attrEq false b c = true → attrEq false a c = true)

theorem pyEq_iff {a b : Attr F} (hk : a.kind = b.kind) (ha : WellTyped a) (hb : WellTyped b) :
    pyEq a.val b.val = true ↔ SameVal a.val b.val := by
  obtain ⟨k, key, e, v, m, c⟩ := a
  obtain ⟨k', key', e', w, m', c'⟩ := b
  simp only [Attr.kind, Attr.val] at *
  subst hk
  cases k <;> cases v <;> simp only [WellTyped, Attr.kind, Attr.val] at ha <;>
    cases w <;> simp only [WellTyped, Attr.kind, Attr.val] at hb <;>
    simp only [pyEq, SameVal, beq_iff_eq]
  case continuous.float.float s t =>
    obtain ⟨x, hx⟩ := Option.ne_none_iff_exists'.1 ha
    obtain ⟨y, hy⟩ := Option.ne_none_iff_exists'.1 hb
    simp only [hx, hy, beq_iff_eq, Option.some.injEq]
    exact ⟨fun h => ⟨x, rfl, h.symm⟩, fun ⟨n, h1, h2⟩ => h1.trans h2.symm⟩
  case timestamp.dt.dt s t =>
    unfold DateTime.eq
    split
    · next h => simp [h]
    · next h => simp [h]

theorem WellTyped_not_coll {a : Attr F} (h : WellTyped a) : a.kind.isCollection = false := by
  obtain ⟨k, key, e, v, m, c⟩ := a
  cases k <;> simp_all [WellTyped, Kind.isCollection, Attr.kind]

theorem SameVal_refl {a : Attr F} (h : WellTyped a) : SameVal a.val a.val := by
  obtain ⟨k, key, e, v, m, c⟩ := a
  cases k <;> cases v <;> simp_all [WellTyped, Attr.kind, Attr.val, SameVal]
  exact Option.ne_none_iff_exists'.1 h

theorem attrEq_iff {a b : Attr F} (ha : WellTyped a) (hb : WellTyped b) :
    attrEq false a b = true ↔ a.kind = b.kind ∧ a.key = b.key ∧ SameVal a.val b.val := by
  unfold attrEq
  rw [WellTyped_not_coll ha]
  simp only [Bool.false_eq_true, if_false]
  split
  · next h => simp [h, pyEq_iff h ha hb]
  · next h => simp [h]

/-- C10: equality is an equivalence relation on the six value-carrying types (NaN excluded). -/
theorem c10_equivalence_partial : EqIsEquivalence (WellTyped (F := F)) := by
  refine ⟨?_, ?_, ?_⟩
  · intro a ha
    exact (attrEq_iff ha ha).2 ⟨rfl, rfl, SameVal_refl ha⟩
  · intro a b ha hb h
    obtain ⟨h1, h2, h3⟩ := (attrEq_iff ha hb).1 h
    exact (attrEq_iff hb ha).2 ⟨h1.symm, h2.symm, SameVal_symm h3⟩
  · intro a b c ha hb hc h h'
    obtain ⟨h1, h2, h3⟩ := (attrEq_iff ha hb).1 h
    obtain ⟨k1, k2, k3⟩ := (attrEq_iff hb hc).1 h'
    exact (attrEq_iff ha hc).2 ⟨h1.trans k1, h2.trans k2, SameVal_trans h3 k3⟩

/-- C10 is false once lists or containers take part: a list equals every literal with its key, but
no literal equals a list, and two different literals equal the same list. -/
theorem c10_equivalence_refuted :
    ¬ EqIsEquivalence (fun a : Attr F => WellTyped a ∨ a.kind.isCollection = true) := by
  intro h
  have := h.2.1 (.mk .list py!"k" none .none [] []) (.mk .literal py!"k" none (.str py!"v") [] [])
    (Or.inr rfl) (Or.inl trivial) (by simp [attrEq, Attr.kind, Kind.isCollection, Attr.key])
  simp [attrEq, Attr.kind, Kind.isCollection] at this

/-- C10: transitivity of the list rule also fails, with the list on the left only. -/
theorem c10_list_equals_everything (a : Attr F) (e : Option Ext) (m : AttrMap F) (c : List (Attr F)) (s : Bool) :
    attrEq s (.mk .list a.key e .none m c) a = true ∧
    (a.kind.isCollection = false → attrEq false a (.mk .list a.key e .none m c) = false) := by
  constructor
  · simp [attrEq, Attr.kind, Kind.isCollection, Attr.key]
  · intro h
    unfold attrEq
    rw [h]
    have : ¬ a.kind = Kind.list := by intro e; rw [e] at h; simp [Kind.isCollection] at h
    simp only [Attr.kind] at *
    simp [this]

/-- C10: the same object is always equal to itself, NaN or not. -/
theorem c10_refl_same (a : Attr F) : attrEq true a a = true := by
  unfold attrEq; split <;> simp

/-- Specification: the whole number that a value of type int or bool stands for. -/
def wholeNumber : PyVal F → Option Int
  | .int z => some z
  | .bool true => some 1
  | .bool false => some 0
  | _ => none

/-- C10: nothing forces the value of an attribute to be of its type.  Attributes of one type and key whose values are
whole numbers or truth values are equal exactly if the numbers are, where True is 1 and False is 0. -/
theorem c10_numbers {a b : Attr F} (hk : a.kind = b.kind) (hc : a.kind.isCollection = false) {x y : Int} (hx : wholeNumber a.val = some x)
    (hy : wholeNumber b.val = some y) : attrEq false a b = true ↔ a.key = b.key ∧ x = y := by
  have he : pyEq a.val b.val = true ↔ x = y := by
    revert hx hy
    cases a.val <;> cases b.val <;> simp only [wholeNumber, reduceCtorEq, false_implies, implies_true, Option.some.injEq]
    · rintro rfl rfl; simp [pyEq]
    · rename_i b; cases b <;> simp only [Option.some.injEq] <;> rintro rfl rfl <;> simp [pyEq]
    · rename_i b _; cases b <;> simp only [Option.some.injEq] <;> rintro rfl rfl <;> simp [pyEq]
    · rename_i b c; cases b <;> cases c <;> simp only [Option.some.injEq] <;> rintro rfl rfl <;> simp [pyEq]
  simp only [attrEq, ← hk, hc, he, Bool.false_eq_true, if_false, if_true, Bool.and_eq_true, beq_iff_eq]

/-- C10: likewise with a float on one side, if the float is that number. -/
theorem c10_floats {a b : Attr F} (hk : a.kind = b.kind) (hc : a.kind.isCollection = false) {x : Int} {f : F} (hx : wholeNumber a.val = some x)
    (hf : b.val = .float f) :
    (attrEq false a b = true ↔ a.key = b.key ∧ PyFloat.cmpInt f x = some .eq) ∧ (attrEq false b a = true ↔ b.key = a.key ∧ PyFloat.cmpInt f x = some .eq) := by
  have he : pyEq a.val b.val = true ↔ PyFloat.cmpInt f x = some .eq := by
    rw [hf]
    revert hx
    cases a.val <;> simp only [wholeNumber, reduceCtorEq, false_implies, Option.some.injEq]
    · rintro rfl; simp [pyEq]
    · rename_i b; cases b <;> simp only [Option.some.injEq] <;> rintro rfl <;> simp [pyEq]
  have he' : pyEq b.val a.val = true ↔ PyFloat.cmpInt f x = some .eq := by
    rw [hf]
    revert hx
    cases a.val <;> simp only [wholeNumber, reduceCtorEq, false_implies, Option.some.injEq]
    · rintro rfl; simp [pyEq]
    · rename_i b; cases b <;> simp only [Option.some.injEq] <;> rintro rfl <;> simp [pyEq]
  constructor
  · simp only [attrEq, ← hk, hc, he, Bool.false_eq_true, if_false, if_true, Bool.and_eq_true, beq_iff_eq]
  · simp only [attrEq, ← hk, hc, he', Bool.false_eq_true, if_false, if_true, Bool.and_eq_true, beq_iff_eq]

/-- C09: discrete attributes of one key whose values are whole numbers or truth values are ordered as the numbers are. -/
theorem c09_numbers {a b : Attr F} (ha : a.kind = .discrete) (hb : b.kind.isCollection = false) (hk : a.key = b.key) {x y : Int}
    (hx : wholeNumber a.val = some x) (hy : wholeNumber b.val = some y) :
    compareTo a b = .ok (if x < y then -1 else if x = y then 0 else 1) := by
  have he : compareVals a.val b.val = .ok (if x < y then -1 else if x = y then 0 else 1) := by
    have hi : ∀ x y : Int, (if x = y then (.ok 0 : Except PyErr Int) else .ok (if y < x then 1 else -1)) = .ok (if x < y then -1 else if x = y then 0 else 1) := by
      intro x y
      rcases Int.lt_trichotomy x y with h | h | h
      · rw [if_neg (by omega), if_neg (by omega), if_pos h]
      · subst h; simp
      · rw [if_neg (by omega), if_pos h, if_neg (by omega), if_neg (by omega)]
    revert hx hy
    cases a.val <;> cases b.val <;> simp only [wholeNumber, reduceCtorEq, false_implies, implies_true, Option.some.injEq]
    · rintro rfl rfl; rw [← hi]; simp [compareVals, pyEq, pyGt]
    · rename_i b; cases b <;> simp only [Option.some.injEq] <;> rintro rfl rfl <;> rw [← hi] <;> simp [compareVals, pyEq, pyGt]
    · rename_i b _; cases b <;> simp only [Option.some.injEq] <;> rintro rfl rfl <;> rw [← hi] <;> simp [compareVals, pyEq, pyGt]
    · rename_i b c; cases b <;> cases c <;> simp only [Option.some.injEq] <;> rintro rfl rfl <;> simp [compareVals, pyEq, pyGt]
  simp only [compareTo, compareStr, hk, if_true, ha, getValue, hb, Bool.false_eq_true, if_false, bind, Except.bind, he]

/-- C09: and with a float on one side, as the float and the number are. -/
theorem c09_floats {a b : Attr F} (ha : a.kind = .discrete) (hb : b.kind = .discrete) (hk : a.key = b.key) {x : Int} {f : F} {o : Ordering}
    (hx : wholeNumber a.val = some x) (hf : b.val = .float f) (ho : PyFloat.cmpInt f x = some o) :
    compareTo b a = .ok (match o with | .lt => -1 | .eq => 0 | .gt => 1) ∧ compareTo a b = .ok (match o with | .lt => 1 | .eq => 0 | .gt => -1) := by
  have he : compareVals b.val a.val = .ok (match o with | .lt => -1 | .eq => 0 | .gt => 1) ∧
      compareVals a.val b.val = .ok (match o with | .lt => 1 | .eq => 0 | .gt => -1) := by
    rw [hf]
    revert hx
    cases a.val <;> simp only [wholeNumber, reduceCtorEq, false_implies, Option.some.injEq]
    · rintro rfl; cases o <;> simp [compareVals, pyEq, pyGt, ho]
    · rename_i b; cases b <;> simp only [Option.some.injEq] <;> rintro rfl <;> cases o <;> simp [compareVals, pyEq, pyGt, ho]
  simp only [compareTo, compareStr, hk, if_true, ha, hb, getValue, Kind.isCollection, Bool.false_eq_true, if_false, bind, Except.bind, he, and_self]

example : compareTo (.mk .discrete py!"k" none (.bool true) [] []) (.mk .discrete py!"k" none (.int 3) [] [] : Attr ToyFloat) = .ok (-1) := by decide +kernel

example : attrEq false (.mk .boolean py!"k" none (.bool true) [] []) (.mk .boolean py!"k" none (.int 1) [] [] : Attr ToyFloat) = true := by decide +kernel

/-! ## C11 -/

/-- A Python hash of what `__hash__` is given: any function that gives equal numbers to equal
inputs (the law of the built-in `hash` on strings and tuples). -/
structure LawfulHash (F : Type) [PyFloat F] where
  run : HashIn F → Int
  lawful : ∀ k v w, pyEq v w = true → run (.keyVal k v) = run (.keyVal k w)

/-- `hash(a)`. -/
def attrHash (H : LawfulHash F) (a : Attr F) : Except PyErr Int := do .ok (H.run (← hashIn a))

/-- C11: equal attributes of value-carrying types hash equally, and hashing does not raise. -/
theorem c11_eq_hash (H : LawfulHash F) {a b : Attr F} (ha : WellTyped a) (hb : WellTyped b)
    (h : attrEq false a b = true) : attrHash H a = attrHash H b ∧ ∃ n, attrHash H a = .ok n := by
  obtain ⟨h1, h2, h3⟩ := (attrEq_iff ha hb).1 h
  have h4 := (pyEq_iff h1 ha hb).2 h3
  obtain ⟨k, key, e, v, m, c⟩ := a
  obtain ⟨k', key', e', w, m', c'⟩ := b
  simp only [Attr.kind, Attr.val, Attr.key] at *
  subst h1; subst h2
  cases k <;> cases v <;> simp only [WellTyped, Attr.kind, Attr.val] at ha <;>
    cases w <;> simp only [WellTyped, Attr.kind, Attr.val] at hb <;>
    simp [attrHash, hashIn, Attr.kind, Attr.key, Attr.val, pyFloatOf, bind, Except.bind] <;>
    exact H.lawful _ _ _ h4

/-- C11: with a list on the left equality says nothing about hashes: some lawful hash separates a
list from a literal it equals. -/
theorem c11_list_refuted : ∃ (H : LawfulHash F) (a b : Attr F),
    a.kind = .list ∧ WellTyped b ∧ attrEq false a b = true ∧ attrHash H a ≠ attrHash H b := by
  refine ⟨⟨fun x => match x with | .key _ => 0 | .keyVal _ _ => 1, fun _ _ _ _ => rfl⟩,
    .mk .list py!"k" none .none [] [], .mk .literal py!"k" none (.str py!"v") [] [], rfl, trivial, ?_, ?_⟩
  · simp [attrEq, Attr.kind, Kind.isCollection, Attr.key]
  · simp [attrHash, hashIn, Attr.kind, Attr.key, Attr.val, bind, Except.bind]

/-! ## C12 -/

/-- C12: two timestamp attributes with one key: comparing raises TypeError exactly when one value is
naive and the other aware, and nothing else is ever raised; equality then says False. -/
theorem c12_naive_aware {a b : Attr F} {d e : DateTime} (ha : a.kind = .timestamp) (hb : b.kind = .timestamp)
    (hda : a.val = .dt d) (hdb : b.val = .dt e) (hk : a.key = b.key) :
    (compareTo a b = .error .typeError ↔ ¬ d.tz.isSome = e.tz.isSome) ∧
    (∀ x, compareTo a b = .error x → x = .typeError) ∧
    (¬ d.tz.isSome = e.tz.isSome → attrEq false a b = false) := by
  have h0 : compareStr a.key b.key = 0 := by simp [compareStr, hk]
  have hc : compareTo a b = compareVals (F := F) (.dt d) (.dt e) := by
    simp [compareTo, h0, ha, getValue, hb, Kind.isCollection, hda, hdb, bind, Except.bind]
  by_cases h : d.tz.isSome = e.tz.isSome
  · have hv : ∃ z, compareVals (F := F) (.dt d) (.dt e) = .ok z := by
      unfold compareVals
      split
      · exact ⟨_, rfl⟩
      · simp [pyGt, DateTime.lt, h]
    obtain ⟨z, hz⟩ := hv
    rw [hc, hz]
    simp [h]
  · have hv : compareVals (F := F) (.dt d) (.dt e) = .error .typeError := by
      simp [compareVals, pyEq, DateTime.eq, h, pyGt, DateTime.lt, Ne.symm h]
    rw [hc, hv]
    refine ⟨by simp [h], ?_, ?_⟩
    · intro x hx; simp at hx; exact hx.symm
    · intro _
      simp [attrEq, ha, hb, Kind.isCollection, hda, hdb, pyEq, DateTime.eq, h]

/-- C12: with different keys `compare_to` does not look at the values and does not raise. -/
theorem c12_other_key {a b : Attr F} (hk : a.key ≠ b.key) : ∃ z, compareTo a b = .ok z ∧ z ≠ 0 := by
  have : compareStr a.key b.key ≠ 0 := by
    unfold compareStr
    rw [if_neg hk]
    split <;> simp
  exact ⟨_, by unfold compareTo; simp only [this, if_false], this⟩

end

/-! ## Examples: the hypotheses are met by real attributes -/

section
variable {F : Type} [PyFloat F]

example : Comparable (.mk .continuous py!"x" none (.float ⟨3⟩) [] [] : Attr ToyFloat)
    (.mk .continuous py!"x" none (.float ⟨-2⟩) [] []) := ⟨rfl, by simp [WellTyped, Attr.kind, Attr.val, PyFloat.rank],
      by simp [WellTyped, Attr.kind, Attr.val, PyFloat.rank], trivial⟩
example : Comparable (.mk .discrete py!"n" none (.int 3) [] [] : Attr F) (.mk .discrete py!"n" none (.int (-7)) [] []) :=
  ⟨rfl, trivial, trivial, trivial⟩
example : compareTo (.mk .discrete py!"n" none (.int 3) [] [] : Attr F) (.mk .discrete py!"n" none (.int (-7)) [] [])
    = .ok 1 := by rfl
example : compareTo (.mk .boolean py!"n" none (.bool false) [] [] : Attr F) (.mk .boolean py!"n" none (.bool true) [] [])
    = .ok (-1) := by rfl
example : Comparable (.mk .timestamp py!"t" none (.dt ⟨2000, 1, 1, 0, 0, 0, 0, some 3600⟩) [] [] : Attr F)
    (.mk .timestamp py!"t" none (.dt ⟨1999, 12, 31, 23, 0, 0, 0, some 0⟩) [] []) := ⟨rfl, trivial, trivial, rfl⟩
example : attrEq false (.mk .timestamp py!"t" none (.dt ⟨2000, 1, 1, 0, 0, 0, 0, some 3600⟩) [] [] : Attr F)
    (.mk .timestamp py!"t" none (.dt ⟨1999, 12, 31, 23, 0, 0, 0, some 0⟩) [] []) = true := by rfl
example : compareTo (.mk .timestamp py!"t" none (.dt ⟨2000, 1, 1, 0, 0, 0, 0, none⟩) [] [] : Attr F)
    (.mk .timestamp py!"t" none (.dt ⟨1999, 12, 31, 23, 0, 0, 0, some 0⟩) [] []) = .error .typeError := by rfl

end

end Opy
