import Verif.Model.Stamp
import Verif.Props.Info
/-
Property C184: what a timestamp attribute holds, and what its clone shows.
-/
set_option linter.unusedSectionVars false
namespace Opy

/-! ## Specification -/

section
variable {F : Type} [PyFloat F]

/-- Calls that give only datetimes, and integers to the constructor. -/
def StampCall.Proper : StampCall F → Prop
  | .new _ _ v => (∃ d, v = .dt d) ∨ (∃ z, v = .int z) ∨ ∃ b, v = .bool b
  | .setValue _ v => ∃ d, v = .dt d
  | _ => True

/-- The calls that may change the `i`-th object. -/
def StampCall.Writes (i : Nat) : StampCall F → Prop
  | .setValue j _ => j = i
  | .setMillis j _ => j = i
  | _ => False

/-- What a call returns or raises. -/
def answer (lt : LocalTime) (w : Bool) (s : List (Stamp F)) (c : StampCall F) : Except PyErr (StampRes F) := (stampStep lt w s c).2

/-- The objects after a call. -/
def after (lt : LocalTime) (w : Bool) (s : List (Stamp F)) (c : StampCall F) : List (Stamp F) := (stampStep lt w s c).1

/-! ## Nothing else changes -/

theorem stamp_get {s : List (Stamp F)} {i : Nat} (h : i < s.length) : ∃ a, s[i]? = some a := ⟨s[i], List.getElem?_eq_getElem h⟩

theorem set_other {s : List (Stamp F)} {i j : Nat} (h : j ≠ i) (b : Stamp F) : (s.set j b)[i]? = s[i]? := List.getElem?_set_ne h

theorem set_same {s : List (Stamp F)} {i : Nat} {a : Stamp F} (h : s[i]? = some a) (b : Stamp F) : (s.set i b)[i]? = some b := by
  rw [List.getElem?_set_self (List.getElem?_eq_some_iff.1 h).1]

theorem stampInit_key {lt : LocalTime} {w : Bool} {k : Str} {e : Option Ext} {v : PyVal F} {a : Stamp F} (h : stampInit lt w k e v = .ok a) :
    a.key = k ∧ a.ext = e := by
  cases v <;> simp only [stampInit] at h
  all_goals first
    | (cases h; exact ⟨rfl, rfl⟩)
    | (obtain ⟨d, -, h⟩ := bind_ok.1 h; cases h; exact ⟨rfl, rfl⟩)

/-- C184 (frame): a call changes no object but the one whose `set_value` or `set_value_millis` it is, and of that only the value; a call that
raises changes nothing. -/
theorem c184_frame (lt : LocalTime) (w : Bool) (s : List (Stamp F)) (c : StampCall F) :
    (∀ i a, s[i]? = some a → ∃ b, (after lt w s c)[i]? = some b ∧ b.key = a.key ∧ b.ext = a.ext ∧ (¬ c.Writes i → b = a)) ∧
    (∀ e, answer lt w s c = .error e → after lt w s c = s) := by
  have same : ∀ i a, s[i]? = some a → ∃ b, s[i]? = some b ∧ b.key = a.key ∧ b.ext = a.ext ∧ (¬ c.Writes i → b = a) :=
    fun i a h => ⟨a, h, rfl, rfl, fun _ => rfl⟩
  have more : ∀ x i a, s[i]? = some a → ∃ b, (s ++ [x])[i]? = some b ∧ b.key = a.key ∧ b.ext = a.ext ∧ (¬ c.Writes i → b = a) :=
    fun x i a h => ⟨a, by rw [List.getElem?_append_left (List.getElem?_eq_some_iff.1 h).1]; exact h, rfl, rfl, fun _ => rfl⟩
  unfold after answer
  cases c with
  | new k e v =>
    simp only [stampStep]
    cases stampInit lt w k e v with
    | ok b => exact ⟨more b, fun e h => by cases h⟩
    | error x => exact ⟨same, fun e _ => rfl⟩
  | clone j =>
    simp only [stampStep]
    cases s[j]? with
    | none => exact ⟨same, fun e _ => rfl⟩
    | some a =>
      dsimp only
      cases stampClone lt w a with
      | ok b => exact ⟨more b, fun e h => by cases h⟩
      | error x => exact ⟨same, fun e _ => rfl⟩
  | setValue j v =>
    simp only [stampStep]
    cases hj : s[j]? with
    | none => exact ⟨same, fun e _ => rfl⟩
    | some a =>
      refine ⟨?_, fun e h => by cases h⟩
      intro i b hb
      by_cases hij : j = i
      · subst hij
        rw [hj] at hb; cases hb
        exact ⟨_, set_same hj _, rfl, rfl, fun h => absurd rfl h⟩
      · exact ⟨b, by rw [set_other hij]; exact hb, rfl, rfl, fun _ => rfl⟩
  | setMillis j z =>
    simp only [stampStep]
    cases hj : s[j]? with
    | none => exact ⟨same, fun e _ => rfl⟩
    | some a =>
      dsimp only
      cases hm : stampSetMillis lt z a with
      | error x => exact ⟨same, fun e _ => rfl⟩
      | ok a' =>
        refine ⟨?_, fun e h => by cases h⟩
        intro i b hb
        by_cases hij : j = i
        · subst hij
          rw [hj] at hb; cases hb
          obtain ⟨d, -, h⟩ := bind_ok.1 hm
          cases h
          exact ⟨_, set_same hj _, rfl, rfl, fun h => absurd rfl h⟩
        · exact ⟨b, by rw [set_other hij]; exact hb, rfl, rfl, fun _ => rfl⟩
  | getValue j => exact ⟨same, fun e _ => rfl⟩
  | getMillis j => exact ⟨same, fun e _ => rfl⟩
  | str j => exact ⟨same, fun e _ => rfl⟩
  | eq j k => exact ⟨same, fun e _ => rfl⟩
  | compare j k => exact ⟨same, fun e _ => rfl⟩

/-! ## What is read back -/

theorem answer_get {lt : LocalTime} {w : Bool} {s : List (Stamp F)} {i : Nat} {a : Stamp F} (h : s[i]? = some a) :
    answer lt w s (.getValue i) = (stampValue a).map .value := by
  simp only [answer, stampStep, h]

/-- C184 (setting): `set_value` stores whatever it is given; `set_value_millis` stores the local time of the milliseconds or raises what
`datetime.fromtimestamp` raises. -/
theorem c184_set (lt : LocalTime) (w : Bool) {s : List (Stamp F)} {i : Nat} (hi : i < s.length) :
    (∀ v, answer lt w (after lt w s (.setValue i v)) (.getValue i) = .ok (.value v)) ∧
    (∀ z d, lt.fromMillis z = .ok d → answer lt w (after lt w s (.setMillis i z)) (.getValue i) = .ok (.value (.dt d))) ∧
    (∀ z e, lt.fromMillis z = .error e → answer lt w s (.setMillis i z) = .error e) := by
  obtain ⟨a, ha⟩ := stamp_get hi
  refine ⟨fun v => ?_, fun z d hd => ?_, fun z e he => ?_⟩
  · have : after lt w s (.setValue i v) = s.set i (stampSet v a) := by simp only [after, stampStep, ha]
    rw [this, answer_get (set_same ha _)]
    rfl
  · have : after lt w s (.setMillis i z) = s.set i { a with val := some (.dt d) } := by
      simp [after, stampStep, ha, stampSetMillis, hd, bind, Except.bind]
    rw [this, answer_get (set_same ha _)]
    rfl
  · simp [answer, stampStep, ha, stampSetMillis, he, bind, Except.bind]

/-- C184 (constructor): a datetime is kept, an integer or truth value counts as milliseconds (on Windows at least one day), and of any other
value nothing is kept: reading it raises AttributeError. -/
theorem c184_new (lt : LocalTime) (w : Bool) (s : List (Stamp F)) (k : Str) (e : Option Ext) (v : PyVal F) :
    (∀ d, v = .dt d → answer lt w (after lt w s (.new k e v)) (.getValue s.length) = .ok (.value (.dt d))) ∧
    (∀ z, (v = .int z ∨ (v = .bool true ∧ z = 1) ∨ (v = .bool false ∧ z = 0)) →
      ∀ z', (z' = z ∧ ¬ (w = true ∧ z < 86400000)) ∨ (z' = 86400000 ∧ w = true ∧ z < 86400000) →
      (∀ d, lt.fromMillis z' = .ok d → answer lt w (after lt w s (.new k e v)) (.getValue s.length) = .ok (.value (.dt d))) ∧
      (∀ x, lt.fromMillis z' = .error x → answer lt w s (.new k e v) = .error x)) ∧
    ((∀ d, v ≠ .dt d) → (∀ z, v ≠ .int z) → (∀ b, v ≠ .bool b) →
      answer lt w s (.new k e v) = .ok .nothing ∧ answer lt w (after lt w s (.new k e v)) (.getValue s.length) = .error .attributeError) := by
  have last : ∀ a : Stamp F, (s ++ [a])[s.length]? = some a := fun a => by simp
  refine ⟨?_, ?_, ?_⟩
  · rintro d rfl
    exact answer_get (last _)
  · intro z hv z' hz
    have hm : stampMillis w z = z' := by
      unfold stampMillis
      rcases hz with ⟨rfl, h⟩ | ⟨rfl, h⟩
      · exact if_neg h
      · exact if_pos h
    have hi : stampInit (F := F) lt w k e v = (do .ok ⟨k, e, some (.dt (← lt.fromMillis z'))⟩) := by
      rcases hv with rfl | ⟨rfl, rfl⟩ | ⟨rfl, rfl⟩ <;> simp [stampInit, hm]
    refine ⟨fun d hd => ?_, fun x hx => ?_⟩
    · have : after lt w s (.new k e v) = s ++ [⟨k, e, some (.dt d)⟩] := by
        simp [after, stampStep, hi, hd, bind, Except.bind]
      rw [this]
      exact answer_get (last _)
    · simp [answer, stampStep, hi, hx, bind, Except.bind]
  · intro h1 h2 h3
    have hi : stampInit (F := F) lt w k e v = .ok ⟨k, e, none⟩ := by
      cases v with
      | dt d => exact absurd rfl (h1 d)
      | int z => exact absurd rfl (h2 z)
      | bool b => exact absurd rfl (h3 b)
      | none => rfl
      | str s => rfl
      | float x => rfl
      | xid u => rfl
      | typ => rfl
    have ha : after lt w s (.new k e v) = s ++ [⟨k, e, none⟩] := by simp only [after, stampStep, hi]
    exact ⟨by simp only [answer, stampStep, hi], by rw [ha]; exact answer_get (last _)⟩

/-! ## Objects without a value -/

/-- C184 (no value): if `get_value` raises, it raises AttributeError, and so do `get_value_millis`, `clone`, `str` and the comparisons with
another object of the same key; with itself, and with objects of other keys, the attribute can be compared. -/
theorem c184_missing (lt : LocalTime) (w : Bool) {s : List (Stamp F)} {i : Nat} {a : Stamp F} (ha : s[i]? = some a) {x : PyErr}
    (h : answer lt w s (.getValue i) = .error x) :
    x = .attributeError ∧ answer lt w s (.getMillis i) = .error .attributeError ∧ answer lt w s (.clone i) = .error .attributeError ∧
    answer lt w s (.str i) = .error .attributeError ∧ answer lt w s (.compare i i) = .error .attributeError ∧
    answer lt w s (.eq i i) = .ok (.bool true) ∧
    ∀ j b, s[j]? = some b → j ≠ i →
      (b.key = a.key → answer lt w s (.eq i j) = .error .attributeError ∧ answer lt w s (.eq j i) = .error .attributeError ∧
        answer lt w s (.compare i j) = .error .attributeError ∧ answer lt w s (.compare j i) = .error .attributeError) ∧
      (b.key ≠ a.key → answer lt w s (.eq i j) = .ok (.bool false) ∧ answer lt w s (.eq j i) = .ok (.bool false) ∧
        (strLt a.key b.key = true → answer lt w s (.compare i j) = .ok (.number (-1))) ∧
        (strLt b.key a.key = true → answer lt w s (.compare i j) = .ok (.number 1))) := by
  rw [answer_get ha] at h
  have hv : a.val = none := by
    cases hv : a.val with
    | none => rfl
    | some v => simp [stampValue, hv, Except.map] at h
  have hs : stampValue a = .error .attributeError := by simp [stampValue, hv]
  have he : x = .attributeError := by
    rw [hs] at h
    cases h
    rfl
  refine ⟨he, ?_, ?_, ?_, ?_, ?_, ?_⟩
  · simp [answer, stampStep, ha, stampGetMillis, hs, bind, Except.bind, Except.map]
  · simp [answer, stampStep, ha, stampClone, hs, bind, Except.bind]
  · simp [answer, stampStep, ha, stampStr, hs, bind, Except.bind, Except.map]
  · simp [answer, stampStep, ha, stampCompare, compareStr, hs, bind, Except.bind, Except.map]
  · simp [answer, stampStep, ha, stampEq, Except.map]
  · intro j b hb hj
    have hj' : ¬ i = j := fun h => hj h.symm
    constructor
    · intro hk
      have he2 : (do let v ← stampValue b; let w ← stampValue a; compareVals v w : Except PyErr Int) = .error .attributeError := by
        rw [hs]
        cases hb' : b.val <;> simp [stampValue, hb', bind, Except.bind]
      have he3 : (do let v ← stampValue b; let w ← stampValue a; .ok (pyEq v w) : Except PyErr Bool) = .error .attributeError := by
        rw [hs]
        cases hb' : b.val <;> simp [stampValue, hb', bind, Except.bind]
      refine ⟨?_, ?_, ?_, ?_⟩
      · simp [answer, stampStep, ha, hb, stampEq, hj', hk, hs, bind, Except.bind, Except.map]
      · simp only [answer, stampStep, ha, hb, stampEq, hj, hk, decide_false, Bool.false_eq_true, if_false, if_true, he3, Except.map]
      · simp [answer, stampStep, ha, hb, stampCompare, compareStr, hk, hs, bind, Except.bind, Except.map]
      · simp only [answer, stampStep, ha, hb, stampCompare, compareStr, hk, if_true, he2, Except.map]
    · intro hk
      have hk' : ¬ a.key = b.key := fun h => hk h.symm
      refine ⟨?_, ?_, ?_, ?_⟩
      · simp [answer, stampStep, ha, hb, stampEq, hj', hk', Except.map]
      · simp [answer, stampStep, ha, hb, stampEq, hj, hk, Except.map]
      · intro hl
        have : strLt b.key a.key = false := by
          cases hx : strLt b.key a.key with
          | false => rfl
          | true => exact absurd (strLt_trans hl hx) (by simp [strLt_irrefl])
        simp [answer, stampStep, ha, hb, stampCompare, compareStr, hk', this, Except.map]
      · intro hl
        simp [answer, stampStep, ha, hb, stampCompare, compareStr, hk', hl, Except.map]

/-- C184 (reading): with a datetime, `str` writes it and `get_value_millis` gives its local time to the second; with any other value both raise
AttributeError. -/
theorem c184_read (lt : LocalTime) (w : Bool) {s : List (Stamp F)} {i : Nat} (hi : i < s.length) {v : PyVal F}
    (h : answer lt w s (.getValue i) = .ok (.value v)) :
    (∀ d, v = .dt d → answer lt w s (.str i) = .ok (.text d.xesStr) ∧
      (∀ n, lt.mktime { d with micro := 0, tz := none } = .ok n → answer lt w s (.getMillis i) = .ok (.number (n * 1000))) ∧
      (∀ x, lt.mktime { d with micro := 0, tz := none } = .error x → answer lt w s (.getMillis i) = .error x)) ∧
    ((∀ d, v ≠ .dt d) → answer lt w s (.str i) = .error .attributeError ∧ answer lt w s (.getMillis i) = .error .attributeError) := by
  obtain ⟨a, ha⟩ := stamp_get hi
  rw [answer_get ha] at h
  have hv : stampValue a = .ok v := by
    cases hx : stampValue a with
    | ok u => rw [hx] at h; cases h; rfl
    | error x => rw [hx] at h; cases h
  constructor
  · rintro d rfl
    refine ⟨?_, fun n hn => ?_, fun x hx => ?_⟩
    · simp [answer, stampStep, ha, stampStr, hv, bind, Except.bind, Except.map]
    · simp [answer, stampStep, ha, stampGetMillis, hv, hn, bind, Except.bind, Except.map]
    · simp [answer, stampStep, ha, stampGetMillis, hv, hx, bind, Except.bind, Except.map]
  · intro hd
    cases v with
    | dt d => exact absurd rfl (hd d)
    | _ => simp [answer, stampStep, ha, stampStr, stampGetMillis, hv, bind, Except.bind, Except.map]

/-! ## Clones -/

/-- C184 (clone): cloning is constructing a new attribute with the key, extension and current value. -/
theorem c184_clone (lt : LocalTime) (w : Bool) {s : List (Stamp F)} {i : Nat} {a : Stamp F} (ha : s[i]? = some a) {v : PyVal F}
    (h : answer lt w s (.getValue i) = .ok (.value v)) :
    after lt w s (.clone i) = after lt w s (.new a.key a.ext v) ∧ answer lt w s (.clone i) = answer lt w s (.new a.key a.ext v) := by
  rw [answer_get ha] at h
  have hv : stampValue a = .ok v := by
    cases hx : stampValue a with
    | ok u => rw [hx] at h; cases h; rfl
    | error x => rw [hx] at h; cases h
  have : stampClone lt w a = stampInit lt w a.key a.ext v := by simp [stampClone, hv, bind, Except.bind]
  simp only [after, answer, stampStep, ha, this]
  exact ⟨trivial, trivial⟩

/-- C184 (clone): the clone shows the same value exactly if this is a datetime. -/
theorem c184_clone_same (lt : LocalTime) (w : Bool) {s : List (Stamp F)} {i : Nat} (hi : i < s.length) {v : PyVal F}
    (h : answer lt w s (.getValue i) = .ok (.value v)) :
    answer lt w (after lt w s (.clone i)) (.getValue s.length) = .ok (.value v) ↔ ∃ d, v = .dt d := by
  obtain ⟨a, ha⟩ := stamp_get hi
  have hc := c184_clone lt w ha h
  have hn := c184_new lt w s a.key a.ext v
  rw [hc.1]
  constructor
  · intro hg
    have main : ∀ z, stampInit (F := F) lt w a.key a.ext v = (do .ok ⟨a.key, a.ext, some (.dt (← lt.fromMillis z))⟩) → ∃ d, v = .dt d := by
      intro z hz
      cases hd : lt.fromMillis z with
      | error x =>
        have : after lt w s (.new a.key a.ext v) = s := by simp [after, stampStep, hz, hd, bind, Except.bind]
        rw [this] at hg
        have : s[s.length]? = none := by simp
        simp [answer, stampStep] at hg
      | ok d =>
        have : after lt w s (.new a.key a.ext v) = s ++ [⟨a.key, a.ext, some (.dt d)⟩] := by simp [after, stampStep, hz, hd, bind, Except.bind]
        rw [this, answer_get (a := ⟨a.key, a.ext, some (.dt d)⟩) (by simp)] at hg
        cases hg
        exact ⟨d, rfl⟩
    cases v with
    | dt d => exact ⟨d, rfl⟩
    | int z => exact main _ rfl
    | bool b => exact main _ rfl
    | none => exact absurd hg (by rw [(hn.2.2 (by simp) (by simp) (by simp)).2]; simp)
    | str t => exact absurd hg (by rw [(hn.2.2 (by simp) (by simp) (by simp)).2]; simp)
    | float t => exact absurd hg (by rw [(hn.2.2 (by simp) (by simp) (by simp)).2]; simp)
    | xid t => exact absurd hg (by rw [(hn.2.2 (by simp) (by simp) (by simp)).2]; simp)
    | typ => exact absurd hg (by rw [(hn.2.2 (by simp) (by simp) (by simp)).2]; simp)
  · rintro ⟨d, rfl⟩
    exact hn.1 d rfl

/-! ## Proper programs -/

/-- All objects hold datetimes. -/
def AllDates (s : List (Stamp F)) : Prop := ∀ (i : Nat) (a : Stamp F), s[i]? = some a → ∃ d, a.val = some (.dt d)

theorem AllDates.add {s : List (Stamp F)} (h : AllDates s) {a : Stamp F} {d : DateTime} (ha : a.val = some (.dt d)) : AllDates (s ++ [a]) := by
  intro i b hb
  by_cases hi : i < s.length
  · rw [List.getElem?_append_left hi] at hb; exact h i b hb
  · rw [List.getElem?_append_right (by omega)] at hb
    cases hz : i - s.length with
    | zero => rw [hz] at hb; cases hb; exact ⟨d, ha⟩
    | succ n => rw [hz] at hb; cases hb

theorem AllDates.put {s : List (Stamp F)} (h : AllDates s) {j : Nat} {a b : Stamp F} (hj : s[j]? = some a) {d : DateTime} (hb : b.val = some (.dt d)) :
    AllDates (s.set j b) := by
  intro i c hc
  by_cases hij : j = i
  · subst hij; rw [set_same hj] at hc; cases hc; exact ⟨d, hb⟩
  · rw [set_other hij] at hc; exact h i c hc

theorem stampInit_date {lt : LocalTime} {w : Bool} {k : Str} {e : Option Ext} {v : PyVal F} {a : Stamp F}
    (hv : (∃ d, v = .dt d) ∨ (∃ z, v = .int z) ∨ ∃ b, v = .bool b) (h : stampInit lt w k e v = .ok a) : ∃ d, a.val = some (.dt d) := by
  rcases hv with ⟨d, rfl⟩ | ⟨z, rfl⟩ | ⟨b, rfl⟩
  · cases h; exact ⟨d, rfl⟩
  · obtain ⟨d, -, h⟩ := bind_ok.1 h; cases h; exact ⟨d, rfl⟩
  · obtain ⟨d, -, h⟩ := bind_ok.1 h; cases h; exact ⟨d, rfl⟩

theorem AllDates.step {lt : LocalTime} {w : Bool} {s : List (Stamp F)} (h : AllDates s) {c : StampCall F} (hc : c.Proper) :
    AllDates (stampStep lt w s c).1 := by
  cases c with
  | new k e v =>
    simp only [stampStep]
    cases hi : stampInit lt w k e v with
    | error x => exact h
    | ok a => obtain ⟨d, hd⟩ := stampInit_date hc hi; exact h.add hd
  | clone j =>
    simp only [stampStep]
    cases hj : s[j]? with
    | none => exact h
    | some a =>
      dsimp only
      obtain ⟨d, hd⟩ := h j a hj
      have : stampClone lt w a = .ok ⟨a.key, a.ext, some (.dt d)⟩ := by simp [stampClone, stampValue, hd, stampInit, bind, Except.bind]
      rw [this]
      exact h.add (d := d) rfl
  | setValue j v =>
    simp only [stampStep]
    obtain ⟨d, rfl⟩ := hc
    cases hj : s[j]? with
    | none => exact h
    | some a => exact h.put hj (d := d) rfl
  | setMillis j z =>
    simp only [stampStep]
    cases hj : s[j]? with
    | none => exact h
    | some a =>
      dsimp only
      cases hm : stampSetMillis lt z a with
      | error x => exact h
      | ok b => obtain ⟨d, -, hb⟩ := bind_ok.1 hm; cases hb; exact h.put hj (d := d) rfl
  | getValue j => exact h
  | getMillis j => exact h
  | str j => exact h
  | eq j k => exact h
  | compare j k => exact h

theorem AllDates.run {lt : LocalTime} {w : Bool} : ∀ (cs : List (StampCall F)) {s : List (Stamp F)}, AllDates s → (∀ c ∈ cs, c.Proper) →
    AllDates (stampRun lt w s cs)
  | [], _, h, _ => h
  | c :: cs, _, h, hc => AllDates.run cs (h.step (hc c (by simp))) (fun d hd => hc d (by simp [hd]))

/-- C184 (programs): in a program that constructs timestamp attributes from datetimes, integers and truth values and gives `set_value` datetimes only,
every timestamp attribute holds a datetime all the time: `get_value` returns it, `str` writes it, `clone` makes an attribute that shows the same, and
`==` never raises. -/
theorem c184_dates (lt : LocalTime) (w : Bool) (cs : List (StampCall F)) (hc : ∀ c ∈ cs, c.Proper) {s : List (Stamp F)}
    (hs : s = stampRun lt w [] cs) {i : Nat} (hi : i < s.length) :
    ∃ d, answer lt w s (.getValue i) = .ok (.value (.dt d)) ∧ answer lt w s (.str i) = .ok (.text d.xesStr) ∧
      answer lt w s (.clone i) = .ok .nothing ∧ answer lt w (after lt w s (.clone i)) (.getValue s.length) = .ok (.value (.dt d)) ∧
      answer lt w (after lt w s (.clone i)) (.eq i s.length) = .ok (.bool true) ∧
      ∀ j, j < s.length → ∃ b, answer lt w s (.eq i j) = .ok (.bool b) := by
  have h : AllDates s := by
    rw [hs]
    exact AllDates.run cs (fun i a h => by simp at h) hc
  obtain ⟨a, ha⟩ := stamp_get hi
  obtain ⟨d, hd⟩ := h i a ha
  have hv : stampValue a = .ok (.dt d) := by simp [stampValue, hd]
  have hg : answer lt w s (.getValue i) = .ok (.value (.dt d)) := by rw [answer_get ha, hv]; rfl
  have hcl := c184_clone lt w ha hg
  have haf : after lt w s (.clone i) = s ++ [⟨a.key, a.ext, some (.dt d)⟩] := by rw [hcl.1]; rfl
  refine ⟨d, hg, ?_, ?_, (c184_clone_same lt w hi hg).2 ⟨d, rfl⟩, ?_, ?_⟩
  · simp [answer, stampStep, ha, stampStr, hv, bind, Except.bind, Except.map]
  · rw [hcl.2]; rfl
  · have h1 : (s ++ [⟨a.key, a.ext, some (.dt d)⟩])[i]? = some a := by rw [List.getElem?_append_left hi]; exact ha
    have h2 : (s ++ [(⟨a.key, a.ext, some (.dt d)⟩ : Stamp F)])[s.length]? = some ⟨a.key, a.ext, some (.dt d)⟩ := by simp
    have hne : i ≠ s.length := by omega
    have hr : pyEq (F := F) (.dt d) (.dt d) = true := by simp [pyEq, DateTime.eq]
    rw [haf]
    simp only [answer, stampStep, h1, h2, stampEq, hne, decide_false, Bool.false_eq_true, if_false, if_true, hv]
    simp [stampValue, hr, bind, Except.bind, Except.map]
  · intro j hj
    obtain ⟨b, hb⟩ := stamp_get hj
    obtain ⟨d', hd'⟩ := h j b hb
    have hv' : stampValue b = .ok (.dt d') := by simp [stampValue, hd']
    by_cases hij : i = j
    · exact ⟨true, by simp [answer, stampStep, hb, stampEq, hij, Except.map]⟩
    · by_cases hk : a.key = b.key
      · exact ⟨pyEq (F := F) (.dt d) (.dt d'), by simp [answer, stampStep, ha, hb, stampEq, hij, hk, hv, hv', bind, Except.bind, Except.map]⟩
      · exact ⟨false, by simp [answer, stampStep, ha, hb, stampEq, hij, hk, Except.map]⟩

/-- The same objects as values of `Attr`: the comparisons and the text are those of Model/Attr.lean. -/
theorem c184_attr {a b : Stamp F} {v u : PyVal F} (ha : a.val = some v) (hb : b.val = some u) (m m' : AttrMap F) (c c' : List (Attr F)) :
    stampCompare a b = compareTo (.mk .timestamp a.key a.ext v m c) (.mk .timestamp b.key b.ext u m' c') ∧
    (∀ same, stampEq same a b = .ok (attrEq same (.mk .timestamp a.key a.ext v m c) (.mk .timestamp b.key b.ext u m' c'))) ∧
    stampStr a = attrStr (.mk .timestamp a.key a.ext v m c) := by
  have h1 : stampValue a = .ok v := by simp [stampValue, ha]
  have h2 : stampValue b = .ok u := by simp [stampValue, hb]
  refine ⟨?_, ?_, ?_⟩
  · simp only [stampCompare, compareTo, Attr.key, Attr.kind, Attr.val, getValue, Kind.isCollection, h1, h2, bind, Except.bind]
    rfl
  · intro same
    cases same
    · by_cases hk : a.key = b.key <;>
        simp [stampEq, attrEq, Attr.kind, Attr.key, Attr.val, Kind.isCollection, h1, h2, hk, bind, Except.bind]
    · simp [stampEq, attrEq, Attr.kind, Kind.isCollection]
  · simp only [stampStr, h1, bind, Except.bind, attrStr]
    cases v <;> rfl

end

/-! ## Examples -/

/-- A clock for examples: within 1970-01-01. -/
def dayClock : LocalTime :=
  ⟨fun d => .ok (d.hour * 3600 + d.minute * 60 + d.second),
   fun z => if 0 ≤ z ∧ z < 86400000 then .ok ⟨1970, 1, 1, z.toNat / 3600000, z.toNat / 60000 % 60, z.toNat / 1000 % 60, z.toNat % 1000 * 1000, none⟩
     else .error .overflowError⟩

/-- A proper program with all kinds of calls. -/
def dayCalls : List (StampCall ToyFloat) :=
  [.new py!"t" none (.int 5000), .clone 0, .setMillis 1 (-1), .setMillis 1 61000, .setValue 0 (.dt ⟨2020, 2, 29, 1, 2, 3, 0, some 0⟩), .eq 0 1, .new py!"t" none (.bool true)]

example : ∀ c ∈ dayCalls, c.Proper := by
  intro c hc
  simp only [dayCalls, List.mem_cons, List.not_mem_nil, or_false] at hc
  rcases hc with rfl | rfl | rfl | rfl | rfl | rfl | rfl <;> simp [StampCall.Proper]

example : (stampRun dayClock false [] dayCalls).map (fun a => a.val) =
    [some (.dt ⟨2020, 2, 29, 1, 2, 3, 0, some 0⟩), some (.dt ⟨1970, 1, 1, 0, 1, 1, 0, none⟩), some (.dt ⟨1970, 1, 1, 0, 0, 0, 1000, none⟩)] := by
  decide +kernel

/-- C184: the clone of a timestamp attribute with milliseconds as its value is another one. -/
theorem c184_clone_refuted : ∃ cs : List (StampCall ToyFloat), ∃ s, s = stampRun dayClock false [] cs ∧
    answer dayClock false s (.getValue 0) = .ok (.value (.int 5000)) ∧
    answer dayClock false s (.getValue 1) = .ok (.value (.dt ⟨1970, 1, 1, 0, 0, 5, 0, none⟩)) ∧ answer dayClock false s (.eq 0 1) = .ok (.bool false) ∧
    answer dayClock false s (.getValue 2) = .error .attributeError :=
  ⟨[.new py!"t" none (.int 0), .setValue 0 (.int 5000), .clone 0, .new py!"u" none (.str py!"now")], _, rfl, rfl, rfl, rfl, rfl⟩

end Opy
