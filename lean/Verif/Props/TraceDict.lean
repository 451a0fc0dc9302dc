import Verif.Model.TraceDict
import Verif.Props.Misc
import Verif.Props.LogInfo
/-
Property C125: the time boundaries of a trace can be looked up.  C72: the event classes of a summary by name.
-/
set_option linter.unusedSectionVars false
namespace Opy

section
variable {F : Type} [PyFloat F]

/-! ## Specification -/

/-- The events of two traces have the same identities in the same order. -/
def SameEvents (t u : Trace F) : Prop := t.events.map Event.id = u.events.map Event.id

/-- The `j`-th trace has the boundaries `b`, the events of `t`, and had the hash `h`. -/
def EntryAt (hs : List Int) (log : Log F) (i : LogInfo) (j : Nat) (h : Int) (t : Trace F) (b : TimeBounds) : Prop :=
  hs[j]? = some h ∧ (∃ u, log.traces[j]? = some u ∧ SameEvents u t) ∧ i.traceBounds[j]? = some b

/-! ## Proofs -/

theorem dictMatch_iff {h : Int} {t : Trace F} {e : Int × Trace F × TimeBounds} : dictMatch h t e = true ↔ e.1 = h ∧ SameEvents e.2.1 t := by
  simp [dictMatch, c103_traces, SameEvents]

theorem TraceDict.get_set (h h' : Int) (t u : Trace F) (b : TimeBounds) (d : TraceDict F) :
    (TraceDict.set h' u b d).get h t = if dictMatch h t (h', u, b) then some b else d.get h t := by
  induction d with
  | nil => simp [TraceDict.set, TraceDict.get]
  | cons e d ih =>
    unfold TraceDict.set
    by_cases hm : dictMatch h' u e = true
    · rw [if_pos hm]
      simp only [TraceDict.get]
      obtain ⟨m1, m2⟩ := dictMatch_iff.1 hm
      have h1 : dictMatch h t (e.1, e.2.1, b) = true ↔ dictMatch h t (h', u, b) = true := by
        rw [dictMatch_iff, dictMatch_iff]
        simp only [m1, SameEvents] at m2 ⊢
        rw [m2]
      have h2 : dictMatch h t e = true ↔ dictMatch h t (h', u, b) = true := by
        rw [← h1, dictMatch_iff, dictMatch_iff]
      by_cases hq : dictMatch h t (h', u, b) = true
      · rw [if_pos (h1.2 hq), if_pos hq]
      · rw [if_neg (fun x => hq (h1.1 x)), if_neg hq, if_neg (fun x => hq (h2.1 x))]
    · rw [if_neg hm]
      simp only [TraceDict.get]
      by_cases he : dictMatch h t e = true
      · rw [if_pos he]
        have : ¬ dictMatch h t (h', u, b) = true := by
          intro hq
          apply hm
          rw [dictMatch_iff] at hq he ⊢
          obtain ⟨q1, q2⟩ := hq
          obtain ⟨e1, e2⟩ := he
          simp only [SameEvents] at q1 q2 e2 ⊢
          exact ⟨by rw [e1, q1], by rw [e2, q2]⟩
        rw [if_neg this, if_pos he]
      · rw [if_neg he, ih]
        by_cases hq : dictMatch h t (h', u, b) = true
        · rw [if_pos hq, if_pos hq]
        · rw [if_neg hq, if_neg hq, if_neg he]

theorem TraceDict.get_fold (h : Int) (t : Trace F) (L : List (Int × Trace F × TimeBounds)) (d : TraceDict F) :
    (L.foldl (fun d x => TraceDict.set x.1 x.2.1 x.2.2 d) d).get h t =
      match L.reverse.find? (dictMatch h t) with
      | some e => some e.2.2
      | none => d.get h t := by
  induction L generalizing d with
  | nil => rfl
  | cons x L ih =>
    rw [List.foldl_cons, ih, List.reverse_cons, List.find?_append]
    cases L.reverse.find? (dictMatch h t) with
    | some e => rfl
    | none =>
      simp only [Option.none_or]
      rw [TraceDict.get_set]
      by_cases hq : dictMatch h t x = true
      · rw [if_pos hq, List.find?_cons_of_pos hq]
      · rw [if_neg hq, List.find?_cons_of_neg hq]
        rfl

theorem find?_last {α : Type} {p : α → Bool} {l : List α} {a : α} : l.reverse.find? p = some a ↔
    ∃ j : Nat, l[j]? = some a ∧ p a = true ∧ ∀ (k : Nat) b, j < k → l[k]? = some b → p b = false := by
  induction l with
  | nil => simp
  | cons x l ih =>
    rw [List.reverse_cons, List.find?_append]
    cases hf : l.reverse.find? p with
    | some b =>
      simp only [Option.some_or, Option.some.injEq]
      rw [hf] at ih
      simp only [Option.some.injEq] at ih
      constructor
      · intro h
        obtain ⟨j, h1, h2, h3⟩ := ih.1 h
        refine ⟨j + 1, by simpa using h1, h2, fun k c hk hc => ?_⟩
        cases k with
        | zero => omega
        | succ k => exact h3 k c (by omega) (by simpa using hc)
      · rintro ⟨j, h1, h2, h3⟩
        cases j with
        | zero =>
          have hb := List.find?_some hf
          have hm : b ∈ l := by simpa using List.mem_of_find?_eq_some hf
          obtain ⟨k, hk⟩ := List.getElem?_of_mem hm
          rw [h3 (k + 1) b (by omega) (by simpa using hk)] at hb
          cases hb
        | succ j => exact ih.2 ⟨j, by simpa using h1, h2, fun k c hk hc => h3 (k + 1) c (by omega) (by simpa using hc)⟩
    | none =>
      have hno : ∀ b ∈ l, p b = false := by
        intro b hb
        have := List.find?_eq_none.1 hf b (by simpa using hb)
        simpa using this
      simp only [Option.none_or]
      constructor
      · intro h
        have hx := List.find?_some h
        have : a = x := by simpa using List.mem_of_find?_eq_some h
        subst this
        refine ⟨0, rfl, hx, fun k b hk hb => ?_⟩
        cases k with
        | zero => omega
        | succ k => exact hno b (List.mem_of_getElem? (by simpa using hb))
      · rintro ⟨j, h1, h2, h3⟩
        cases j with
        | zero =>
          simp only [List.getElem?_cons_zero, Option.some.injEq] at h1
          subst h1
          exact List.find?_cons_of_pos h2
        | succ j =>
          rw [hno a (List.mem_of_getElem? (by simpa using h1))] at h2
          cases h2

theorem zip3_get {hs : List Int} {ts : List (Trace F)} {bs : List TimeBounds} {j : Nat} {h : Int} {t : Trace F} {b : TimeBounds} :
    (hs.zip (ts.zip bs))[j]? = some (h, t, b) ↔ hs[j]? = some h ∧ ts[j]? = some t ∧ bs[j]? = some b := by
  rw [List.getElem?_zip_eq_some, List.getElem?_zip_eq_some]

/-- C125: what is returned, exactly. It is the boundaries of the last trace of the log that has the events of the given one and had,
when the summary was made, the hash that the given one has now. -/
theorem c125_exact {hs : List Int} {log : Log F} {i : LogInfo} {h : Int} {t : Trace F} {b : TimeBounds} :
    traceBoundaries hs log i h t = some b ↔ ∃ j, EntryAt hs log i j h t b ∧ ∀ k c, j < k → ¬ EntryAt hs log i k h t c := by
  have hnil : TraceDict.get h t ([] : TraceDict F) = none := rfl
  unfold traceBoundaries traceDict
  rw [TraceDict.get_fold, hnil]
  have key : ∀ L : List (Int × Trace F × TimeBounds), (match L.reverse.find? (dictMatch h t) with | some e => some e.2.2 | none => none) = some b ↔
      ∃ e, L.reverse.find? (dictMatch h t) = some e ∧ e.2.2 = b := by
    intro L
    cases L.reverse.find? (dictMatch h t) with
    | none => simp
    | some e => simp
  rw [key]
  constructor
  · rintro ⟨⟨h', u, b'⟩, hf, rfl⟩
    obtain ⟨j, h1, h2, h3⟩ := find?_last.1 hf
    obtain ⟨e1, e2⟩ := dictMatch_iff.1 h2
    simp only at e1 e2
    subst e1
    obtain ⟨g1, g2, g3⟩ := zip3_get.1 h1
    refine ⟨j, ⟨g1, ⟨u, g2, e2⟩, g3⟩, ?_⟩
    rintro k c hk ⟨k1, ⟨w, k2, k3⟩, k4⟩
    have := h3 k _ hk (zip3_get.2 ⟨k1, k2, k4⟩)
    have h4 : dictMatch h' t (h', w, c) = true := dictMatch_iff.2 ⟨rfl, k3⟩
    rw [h4] at this
    cases this
  · rintro ⟨j, ⟨g1, ⟨u, g2, g3⟩, g4⟩, hl⟩
    refine ⟨(h, u, b), find?_last.2 ⟨j, zip3_get.2 ⟨g1, g2, g4⟩, dictMatch_iff.2 ⟨rfl, g3⟩, ?_⟩, rfl⟩
    rintro k ⟨h', w, c⟩ hk hw
    obtain ⟨k1, k2, k3⟩ := zip3_get.1 hw
    cases hm : dictMatch h t (h', w, c) with
    | false => rfl
    | true =>
      obtain ⟨rfl, m2⟩ := dictMatch_iff.1 hm
      exact absurd ⟨k1, ⟨w, k2, m2⟩, k3⟩ (hl k c hk)

/-- **C125** is violated: whatever the log and the trace, if the hash of the trace has become another one since the summary was made,
nothing is found. -/
theorem c125_refuted {hs : List Int} {log : Log F} {i : LogInfo} {h : Int} {t : Trace F} (hh : h ∉ hs) : traceBoundaries hs log i h t = none := by
  cases hr : traceBoundaries hs log i h t with
  | none => rfl
  | some b =>
    obtain ⟨j, ⟨h1, _⟩, _⟩ := c125_exact.1 hr
    exact absurd (List.mem_of_getElem? h1) hh

/-- C125, the part that holds: if the hash of every trace was and is the same number (the allocator reuses the address of
the proxy), the boundaries of a trace of the log are found, provided that no later trace of the log has the same events. -/
theorem c125_stable_partial {log : Log F} {i : LogInfo} {h : Int} {j : Nat} {t : Trace F} {b : TimeBounds}
    (ht : log.traces[j]? = some t) (hb : i.traceBounds[j]? = some b) (hu : ∀ k u, j < k → log.traces[k]? = some u → ¬ SameEvents u t) :
    traceBoundaries (List.replicate log.traces.length h) log i h t = some b := by
  have hj : j < log.traces.length := by
    obtain ⟨hj, _⟩ := List.getElem?_eq_some_iff.1 ht
    exact hj
  refine c125_exact.2 ⟨j, ⟨by simp [hj], ⟨t, ht, rfl⟩, hb⟩, ?_⟩
  rintro k c hk ⟨_, ⟨u, h1, h2⟩, _⟩
  exact hu k u hk h1 h2

/-- C125: nothing is invented: what is found are the boundaries of some trace of the log with the same events. -/
theorem c125_sound {hs : List Int} {log : Log F} {i : LogInfo} {h : Int} {t : Trace F} {b : TimeBounds}
    (hr : traceBoundaries hs log i h t = some b) : ∃ (j : Nat) (u : Trace F), log.traces[j]? = some u ∧ SameEvents u t ∧ i.traceBounds[j]? = some b := by
  obtain ⟨j, ⟨_, ⟨u, h1, h2⟩, h3⟩, _⟩ := c125_exact.1 hr
  exact ⟨j, u, h1, h2, h3⟩

/-- C72: the classes by name, resource, transition and default classifier are those derived directly with these keys. -/
theorem c72_getters {log : Log F} {d : Option Classifier} {cs : List Classifier} {i : LogInfo} (h : createInfo log d cs = .ok i) :
    (∃ m, i.nameClasses = some m ∧ deriveClasses ⟨py!"Event Name", [py!"concept:name"]⟩ log = .ok m) ∧
    (∃ m, i.resourceClasses = some m ∧ deriveClasses ⟨py!"Resource", [py!"org:resource"]⟩ log = .ok m) ∧
    (∃ m, i.transitionClasses = some m ∧ deriveClasses ⟨py!"Lifecycle transition", [py!"lifecycle:transition"]⟩ log = .ok m) ∧
    (∃ m, i.eventClasses (d.getD ⟨py!"MXML Legacy Classifier", [py!"concept:name", py!"lifecycle:transition"]⟩) none = some m ∧
      deriveClasses (d.getD ⟨py!"MXML Legacy Classifier", [py!"concept:name", py!"lifecycle:transition"]⟩) log = .ok m) ∧
    ∀ c e, (i.eventClasses e (some c)).isSome = true ↔
      c ∈ cs ∨ c = d.getD ⟨py!"MXML Legacy Classifier", [py!"concept:name", py!"lifecycle:transition"]⟩ ∨ c = ⟨py!"Event Name", [py!"concept:name"]⟩ ∨
      c = ⟨py!"Resource", [py!"org:resource"]⟩ ∨ c = ⟨py!"Lifecycle transition", [py!"lifecycle:transition"]⟩ := by
  obtain ⟨h1, h2⟩ := c72_event_classes h
  have hd : chosen d = d.getD ⟨py!"MXML Legacy Classifier", [py!"concept:name", py!"lifecycle:transition"]⟩ := by cases d <;> rfl
  rw [hd] at h1
  have get : ∀ c, c ∈ dkeys i.classes → ∃ m, dget c i.classes = some m ∧ deriveClasses c log = .ok m := by
    intro c hc
    obtain ⟨m, hm⟩ := dget_isSome.2 hc
    exact ⟨m, hm, h2 c m hm⟩
  refine ⟨get _ ((h1 _).2 (.inr (.inr (.inl rfl)))), get _ ((h1 _).2 (.inr (.inr (.inr (.inl rfl))))), get _ ((h1 _).2 (.inr (.inr (.inr (.inr rfl))))),
    get _ ((h1 _).2 (.inr (.inl rfl))), fun c e => ?_⟩
  rw [show (i.eventClasses e (some c)).isSome = true ↔ c ∈ dkeys i.classes by
    rw [← dget_isSome, LogInfo.eventClasses, Option.isSome_iff_exists], h1]
  rfl

/-! ## Cases -/

/-- A log with two traces without events. -/
def twoEmptyTraces : Log ToyFloat :=
  { attrs := [], extensions := [], classifiers := [], globalTrace := [], globalEvent := [], features := [], traces := [⟨[], []⟩, ⟨[], []⟩] }

/-- The dict has one entry for both if their hashes agree, else two. -/
example : (traceDict [7, 7] twoEmptyTraces [⟨none, none⟩, ⟨none, none⟩]).length = 1 ∧
    (traceDict [7, 8] twoEmptyTraces [⟨none, none⟩, ⟨none, none⟩]).length = 2 := by decide +kernel

/-- A summary exists, and the boundaries of a trace are found or not, depending on its hash. -/
example : ∃ i, createInfo twoEmptyTraces none [] = .ok i ∧ (traceBoundaries [7, 7] twoEmptyTraces i 7 ⟨[], []⟩).isSome = true ∧
    traceBoundaries [7, 7] twoEmptyTraces i 8 ⟨[], []⟩ = none := ⟨_, rfl, by decide +kernel, by decide +kernel⟩

end

end Opy
