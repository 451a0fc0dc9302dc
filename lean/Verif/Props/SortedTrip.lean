import Verif.Props.Analyse
import Verif.Props.Trace

/-!
# C185: a trace in the order of time stays so in a file

XTrace.insert_ordered keeps the events of a trace in the order of their timestamps (C14).  A file holds timestamps in milliseconds only, and
always with a time zone.  Both change the dates that `insert_ordered` compares.
-/

set_option linter.unusedSectionVars false

namespace Opy

variable {F : Type} [PyFloat F]

/-! ## Specification -/

/-- A point in time (in microseconds) without what is left over a whole millisecond. -/
def wholeMilli (τ : Int) : Int := 1000 * (τ / 1000)

/-- How many events are not later than `τ`. -/
def notLater (τ : Int) (l : List (Event F)) : Nat :=
  l.countP fun e => match instOf e with | some σ => decide (σ ≤ τ) | none => false

/-- Under `time:timestamp` there is a date in a timestamp attribute, or nothing. -/
def Stamped (e : Event F) : Prop := ∃ aw, StampOk aw e

/-! ## Proofs -/

theorem cut_whole (d : DateTime) : (toMillisAware d).instant = wholeMilli d.instant := by
  rw [cut_instant, wholeMilli]
  simp only [DateTime.instant]
  omega

theorem whole_mono {σ τ : Int} (h : σ ≤ τ) : wholeMilli σ ≤ wholeMilli τ := by
  unfold wholeMilli; omega

theorem instOf_loaded (mgr : ExtMgr) {ws : Str → Str} {e e1 : Event F} (hp : KeysKept ws e.attrs)
    (he : e1.attrs = rekey (normVals mgr ws e.attrs)) : instOf e1 = (instOf e).map wholeMilli := by
  unfold instOf
  rw [he, loaded_dget mgr hp]
  cases hd : dget py!"time:timestamp" e.attrs with
  | none => simp
  | some a =>
    obtain ⟨k, key, ex, v, m, c⟩ := a
    cases v <;> cases hk : k.isCollection <;> simp [normAttr, normVal, Attr.val, hk, cut_whole]

theorem stamped_loaded (mgr : ExtMgr) {ws : Str → Str} {e e1 : Event F} (hp : KeysKept ws e.attrs)
    (he : e1.attrs = rekey (normVals mgr ws e.attrs)) (hs : Stamped e) : StampOk true e1 := by
  obtain ⟨aw, hs⟩ := hs
  intro a1 h1
  rw [he, loaded_dget mgr hp] at h1
  cases hd : dget py!"time:timestamp" e.attrs with
  | none => rw [hd] at h1; cases h1
  | some a =>
    rw [hd] at h1
    obtain ⟨hk, d, hv, _⟩ := hs a hd
    obtain ⟨k, key, ex, v, m, c⟩ := a
    simp only [Attr.kind, Attr.val] at hk hv
    subst hk hv
    simp only [Option.map_some, Option.some.injEq, normAttr, Kind.isCollection, Bool.false_eq_true, if_false, normVal] at h1
    subst h1
    exact ⟨rfl, _, rfl, rfl⟩

/-- C185: after saving and loading, every event has its point in time, cut to the millisecond. -/
theorem c185_times (hf : FloatText F) {mgr : ExtMgr} {modern : Bool} {L L1 : Log F} (hL : WritableLog L)
    (h : FileHolds mgr modern L L1.content) (hk : ∀ t ∈ L.traces, ∀ e ∈ t.events, KeysKept (valueBack modern) e.attrs)
    {i : Nat} {t t1 : Trace F} (ht : L.traces[i]? = some t) (ht1 : L1.traces[i]? = some t1) :
    t1.events.map instOf = t.events.map fun e => (instOf e).map wholeMilli := by
  have e1 := eventwise (holds_norm hf hL h).2 (fun e => (instOf e).map wholeMilli) instOf
    fun t ht e he e1 he1 => instOf_loaded mgr (hk t ht e he) he1
  have e3 := congrArg (fun l => l[i]?) e1
  simpa only [List.getElem?_map, ht, ht1, Option.map_some, Option.some.injEq] using e3

theorem sorted_of_times {l l1 : List (Event F)} (h : l1.map instOf = l.map fun e => (instOf e).map wholeMilli) (hs : SortedTrace l) :
    SortedTrace l1 := by
  have hd : l1.filterMap instOf = (l.filterMap instOf).map wholeMilli := by
    have : ∀ es : List (Event F), es.filterMap instOf = (es.map instOf).filterMap id := by
      intro es; rw [List.filterMap_map]; rfl
    rw [this, h, List.filterMap_map, List.map_filterMap]
    rfl
  refine ⟨fun e he => ?_, ?_⟩
  · have h1 : instOf e ∈ l1.map instOf := List.mem_map_of_mem he
    rw [h] at h1
    obtain ⟨x, hx, hxe⟩ := List.mem_map.1 h1
    rw [← hxe, Option.isSome_map]
    exact hs.1 x hx
  · rw [hd]
    exact List.pairwise_map.2 (hs.2.imp whole_mono)

/-- C185: a trace in the order of time is in the order of time after saving and loading. -/
theorem c185_sorted (hf : FloatText F) {mgr : ExtMgr} {modern : Bool} {L L1 : Log F} (hL : WritableLog L)
    (h : FileHolds mgr modern L L1.content) (hk : ∀ t ∈ L.traces, ∀ e ∈ t.events, KeysKept (valueBack modern) e.attrs)
    {i : Nat} {t t1 : Trace F} (ht : L.traces[i]? = some t) (ht1 : L1.traces[i]? = some t1) (hs : SortedTrace t.events) :
    SortedTrace t1.events :=
  sorted_of_times (c185_times hf hL h hk ht ht1) hs

/-- C185: all timestamps of the loaded trace have a time zone. -/
theorem c185_zones (hf : FloatText F) {mgr : ExtMgr} {modern : Bool} {L L1 : Log F} (hL : WritableLog L)
    (h : FileHolds mgr modern L L1.content) (hk : ∀ t ∈ L.traces, ∀ e ∈ t.events, KeysKept (valueBack modern) e.attrs)
    {i : Nat} {t t1 : Trace F} (ht : L.traces[i]? = some t) (ht1 : L1.traces[i]? = some t1) (ha : ∀ e ∈ t.events, Stamped e) :
    ∀ e ∈ t1.events, StampOk true e := by
  have hh := (holds_norm hf hL h).2
  have e1 := eventwise hh (fun e => rekey (normVals mgr (valueBack modern) e.attrs)) Event.attrs fun t ht e he e1 he1 => he1
  have e3 := congrArg (fun l => l[i]?) e1
  simp only [List.getElem?_map, ht, ht1, Option.map_some, Option.some.injEq] at e3
  intro e he
  have h1 : e.attrs ∈ t1.events.map Event.attrs := List.mem_map_of_mem he
  rw [e3] at h1
  obtain ⟨x, hx, hxe⟩ := List.mem_map.1 h1
  exact stamped_loaded mgr (hk t (List.mem_of_getElem? ht) x hx) hxe.symm (ha x hx)

/-- C185: so events with a time zone can be inserted into the loaded trace, whatever zones the saved one had, and it stays in order. -/
theorem c185_insert (hf : FloatText F) {mgr : ExtMgr} {modern : Bool} {L L1 : Log F} (hL : WritableLog L)
    (h : FileHolds mgr modern L L1.content) (hk : ∀ t ∈ L.traces, ∀ e ∈ t.events, KeysKept (valueBack modern) e.attrs)
    {i : Nat} {t t1 : Trace F} (ht : L.traces[i]? = some t) (ht1 : L1.traces[i]? = some t1) (ha : ∀ e ∈ t.events, Stamped e)
    (hs : SortedTrace t.events) {e : Event F} {τ : Int} (he : StampOk true e) (hi : instOf e = some τ) :
    ∃ t' j, insertOrdered t1.events e = .ok (t', j) ∧ SortedTrace t' ∧
      (∀ x ∈ t'.take j, ∃ σ, instOf x = some σ ∧ σ ≤ τ) ∧ ∀ x ∈ t'.drop (j + 1), ∃ σ, instOf x = some σ ∧ τ < σ :=
  c14_sorted (c185_zones hf hL h hk ht ht1 ha) he (c185_sorted hf hL h hk ht ht1 hs) hi

/-- The place of a new event in a trace in the order of time: behind all that are not later. -/
theorem insert_place {aw : Bool} {t t' : List (Event F)} {e : Event F} {τ : Int} {j : Nat} (hok : ∀ x ∈ t, StampOk aw x) (he : StampOk aw e)
    (hs : SortedTrace t) (hi : instOf e = some τ) (h : insertOrdered t e = .ok (t', j)) : j = notLater τ t := by
  obtain ⟨t2, j2, h2, -, hb, hl⟩ := c14_sorted hok he hs hi
  rw [h] at h2
  cases h2
  obtain ⟨hj, -, hr⟩ := c13_insert h
  have hlen : t'.length = t.length + 1 := by
    have hg := (c13_insert h).2.1
    have hlt : j < t'.length := by
      rcases Nat.lt_or_ge j t'.length with h | h
      · exact h
      · rw [List.getElem?_eq_none h] at hg; cases hg
    rw [← hr, List.length_eraseIdx_of_lt hlt]
    omega
  rw [notLater, ← hr, List.eraseIdx_eq_take_drop_succ, List.countP_append, List.countP_eq_length.2, List.countP_eq_zero.2, List.length_take]
  · omega
  · intro x hx
    obtain ⟨σ, hσ, hlt⟩ := hl x hx
    simp [hσ, hlt]
  · intro x hx
    obtain ⟨σ, hσ, hle⟩ := hb x hx
    simp [hσ, hle]

theorem notLater_times {l l1 : List (Event F)} {τ : Int} : ∀ (_ : l1.map instOf = l.map fun e => (instOf e).map wholeMilli)
    (_ : ∀ e ∈ l, ∀ σ, instOf e = some σ → τ < σ → wholeMilli τ < wholeMilli σ), notLater (wholeMilli τ) l1 = notLater τ l := by
  induction l generalizing l1 with
  | nil => intro h _; cases l1 with
    | nil => rfl
    | cons a l1 => simp at h
  | cons a l ih =>
    intro h hd
    cases l1 with
    | nil => simp at h
    | cons b l1 =>
      simp only [List.map_cons, List.cons.injEq] at h
      have := ih h.2 fun e he => hd e (List.mem_cons_of_mem _ he)
      simp only [notLater] at this
      simp only [notLater, List.countP_cons, this, h.1]
      congr 1
      cases ha : instOf a with
      | none => rfl
      | some σ =>
        have h2 := hd a List.mem_cons_self σ ha
        simp only [Option.map_some, decide_eq_true_eq]
        by_cases hle : σ ≤ τ
        · rw [if_pos hle, if_pos (whole_mono hle)]
        · have := h2 (by omega)
          rw [if_neg hle, if_neg (by omega)]

/-- C185: an event is inserted at the same place before saving and after loading, if no later event falls into its millisecond. -/
theorem c185_place (hf : FloatText F) {mgr : ExtMgr} {modern : Bool} {L L1 : Log F} (hL : WritableLog L)
    (h : FileHolds mgr modern L L1.content) (hk : ∀ t ∈ L.traces, ∀ e ∈ t.events, KeysKept (valueBack modern) e.attrs)
    {i : Nat} {t t1 : Trace F} (ht : L.traces[i]? = some t) (ht1 : L1.traces[i]? = some t1) {aw : Bool} (ha : ∀ e ∈ t.events, StampOk aw e)
    (hs : SortedTrace t.events) {e e1 : Event F} {τ : Int} (he : StampOk aw e) (hi : instOf e = some τ)
    (he1 : StampOk true e1) (hi1 : instOf e1 = some (wholeMilli τ))
    (hd : ∀ x ∈ t.events, ∀ σ, instOf x = some σ → τ < σ → wholeMilli τ < wholeMilli σ) :
    ∃ t' t1' j, insertOrdered t.events e = .ok (t', j) ∧ insertOrdered t1.events e1 = .ok (t1', j) := by
  obtain ⟨t', j, h1, -⟩ := c14_sorted ha he hs hi
  have z := c185_zones hf hL h hk ht ht1 fun e he => ⟨aw, ha e he⟩
  have s := c185_sorted hf hL h hk ht ht1 hs
  obtain ⟨t1', j1, h2, -⟩ := c14_sorted z he1 s hi1
  refine ⟨t', t1', j, h1, ?_⟩
  rw [h2, insert_place z he1 s hi1 h2, insert_place ha he hs hi h1, notLater_times (c185_times hf hL h hk ht ht1) hd]

/-! ## The theorems apply -/

/-- The attributes of an event with a timestamp. -/
def stampMap (d : DateTime) : AttrMap ToyFloat := [(timeKey, .mk .timestamp timeKey none (.dt d) [] [])]

/-- A log of two events, 543 microseconds apart. -/
def closeLog (z : Option Int) : Log ToyFloat :=
  twoEvents (stampMap ⟨2020, 2, 29, 23, 5, 7, 123456, z⟩) (stampMap ⟨2020, 2, 29, 23, 5, 7, 123999, z⟩)

/-- An event between them. -/
def between : Event ToyFloat := ⟨2, stampMap ⟨2020, 2, 29, 23, 5, 7, 123500, some 3600⟩⟩

theorem closeLog_typed : WritableLog (closeLog (some 3600)) := by
  have g : ∀ n ∈ [123456, 123999], GoodDateTime ⟨2020, 2, 29, 23, 5, 7, n, some 3600⟩ := by
    intro n hn
    simp only [List.mem_cons, List.not_mem_nil, or_false] at hn
    rcases hn with rfl | rfl <;> exact ⟨by decide, by decide, by decide, by decide, by intro o h; cases h; decide⟩
  exact twoEvents_typed (by simp [stampMap, TypedMap, Typed, GoodVal, Kind.isCollection, g]) (by simp [stampMap, TypedMap, Typed, GoodVal, Kind.isCollection, g])

theorem closeLog_legal : LegalLog (closeLog (some 3600)) := by
  have l : LegalText timeKey := by unfold LegalText; decide
  exact twoEvents_legal (by simp [stampMap, LegalMap, LegalAttr, LegalVal, Kind.isCollection, l]) (by simp [stampMap, LegalMap, LegalAttr, LegalVal, Kind.isCollection, l])

theorem closeLog_kept : ∀ t ∈ (closeLog (some 3600)).traces, ∀ e ∈ t.events, KeysKept (valueBack false) e.attrs := by
  have w : valueBack false timeKey = timeKey := by decide
  intro t ht e he
  simp only [closeLog, twoEvents, List.mem_singleton] at ht
  subst ht
  simp only [List.mem_cons, List.not_mem_nil, or_false] at he
  rcases he with rfl | rfl
  · exact ⟨⟨by decide, by simp [stampMap, Attr.key]⟩, by simp [stampMap, w]⟩
  · exact ⟨⟨by decide, by simp [stampMap, Attr.key]⟩, by simp [stampMap, w]⟩

/-- The loaded log. -/
def closeBack : Log ToyFloat := logOf (norm tripMgr (valueBack false) (closeLog (some 3600)).content)

theorem closeBack_holds : FileHolds tripMgr false (closeLog (some 3600)) closeBack.content := by
  rw [closeBack, logOf_content]
  exact c110_file toyFloatText tripMgr false closeLog_typed closeLog_legal

theorem closeLog_sorted : ∀ t ∈ (closeLog (some 3600)).traces, SortedTrace t.events ∧ ∀ e ∈ t.events, StampOk true e := by
  intro t ht
  simp only [closeLog, twoEvents, List.mem_singleton] at ht
  subst ht
  refine ⟨⟨by decide, ?_⟩, ?_⟩
  · show InOrder _
    unfold InOrder
    decide
  · intro e he a ha
    simp only [List.mem_cons, List.not_mem_nil, or_false] at he
    rcases he with rfl | rfl
    · rw [show dget py!"time:timestamp" (stampMap _) = some _ from rfl] at ha
      cases ha
      exact ⟨rfl, _, rfl, rfl⟩
    · rw [show dget py!"time:timestamp" (stampMap _) = some _ from rfl] at ha
      cases ha
      exact ⟨rfl, _, rfl, rfl⟩

/-- The loaded trace is in order. -/
example : ∀ t1 ∈ closeBack.traces.head?, SortedTrace t1.events := by
  intro t1 ht1
  exact c185_sorted toyFloatText closeLog_typed closeBack_holds closeLog_kept (i := 0) rfl (by rw [← List.head?_eq_getElem?]; exact ht1)
    (closeLog_sorted _ List.mem_cons_self).1

/-- An event of an earlier millisecond goes first in both traces. -/
example : ∀ t ∈ (closeLog (some 3600)).traces.head?, ∀ t1 ∈ closeBack.traces.head?, ∃ t' t1' j,
    insertOrdered t.events ⟨2, stampMap ⟨2020, 2, 29, 23, 5, 7, 122999, some 3600⟩⟩ = .ok (t', j) ∧
      insertOrdered t1.events ⟨3, stampMap ⟨2020, 2, 29, 23, 5, 7, 122000, some 3600⟩⟩ = .ok (t1', j) := by
  intro t ht t1 ht1
  have st : ∀ n d, d.tz.isSome = true → StampOk true (⟨n, stampMap d⟩ : Event ToyFloat) := by
    intro n d hd a ha
    rw [show dget py!"time:timestamp" (stampMap d) = some _ from rfl] at ha
    cases ha
    exact ⟨rfl, _, rfl, hd⟩
  cases ht
  refine c185_place toyFloatText closeLog_typed closeBack_holds closeLog_kept (i := 0) rfl (by rw [← List.head?_eq_getElem?]; exact ht1) (aw := true)
    (closeLog_sorted _ List.mem_cons_self).2 (closeLog_sorted _ List.mem_cons_self).1 (st _ _ rfl) rfl (st _ _ rfl) (by decide) ?_
  intro x hx σ hσ _
  simp only [List.mem_cons, List.not_mem_nil, or_false] at hx
  rcases hx with rfl | rfl <;> (cases hσ; decide)

/-- The index at which an event is inserted into the first trace. -/
def placeIn (L : Log ToyFloat) (e : Event ToyFloat) : Option Nat :=
  match L.traces with
  | t :: _ => match insertOrdered t.events e with
    | .ok (_, j) => some j
    | .error _ => none
  | [] => none

/-- C185: the condition of `c185_place` is needed.  An event between two others goes between them, but behind both of them once they are loaded,
whether its own date is cut or not; events that were apart are at the same time then. -/
theorem c185_place_refuted : placeIn (closeLog (some 3600)) between = some 1 ∧
    placeIn closeBack ⟨2, stampMap ⟨2020, 2, 29, 23, 5, 7, 123000, some 3600⟩⟩ = some 2 ∧ placeIn closeBack between = some 2 := by
  refine ⟨?_, ?_, ?_⟩ <;> decide +kernel

/-- Dates with and without zones cannot be compared, so nothing can be inserted; after loading it can. -/
example : placeIn (closeLog none) between = none ∧
    placeIn (logOf (norm tripMgr (valueBack false) (closeLog none).content)) ⟨2, stampMap ⟨2020, 2, 29, 23, 5, 7, 123000, some 0⟩⟩ = some 2 := by
  refine ⟨?_, ?_⟩ <;> decide +kernel

end Opy
