import Verif.Model.Util
import Verif.Lemmas.Str
import Verif.Lemmas.Num
import Verif.Lemmas.Dict
import Mathlib.Data.List.Induction
/-
C57, C69-C71, C74, C75: singletons, timer, name maps, runtime utilities.
-/
namespace Opy

/-! ## C57 -/

mutual
/-- Specification: the classes instantiated by an evaluation, directly or inside constructors. -/
def Inst.classes : Inst → List SClass
  | .mk c inner => c :: instClasses inner
/-- See `Inst.classes`. -/
def instClasses : List Inst → List SClass
  | [] => []
  | i :: is => i.classes ++ instClasses is
end

mutual
/-- Specification: no constructor instantiates its own class, directly or indirectly. -/
def Inst.acyclic : Inst → Prop
  | .mk c inner => c ∉ instClasses inner ∧ instsAcyclic inner
/-- See `Inst.acyclic`. -/
def instsAcyclic : List Inst → Prop
  | [] => True
  | i :: is => i.acyclic ∧ instsAcyclic is
end

/-- The class that is instantiated. -/
def Inst.cls : Inst → SClass
  | .mk c _ => c

/-- No two classes share a metaclass. -/
theorem metaOf_inj {a b : SClass} (h : metaOf a = metaOf b) : a = b := by
  cases a <;> cases b <;> first | rfl | (exact absurd h (by decide))

mutual
theorem instantiate_frame (truthy : Nat → Bool) (c : SClass) (st : SState) :
    ∀ i : Inst, c ∉ i.classes →
      dget (metaOf c) (instantiate truthy st i).instances = dget (metaOf c) st.instances
  | .mk d inner => by
    intro h
    simp only [Inst.classes, List.mem_cons, not_or] at h
    have h1 := instantiateAll_frame truthy c st inner h.2
    have hne : metaOf c ≠ metaOf d := fun he => h.1 (metaOf_inj he)
    simp only [instantiate]
    cases hd : dget (metaOf d) st.instances with
    | none => simp only [dget_dset_ne hne, h1]
    | some o =>
      by_cases ht : truthy o = true
      · simp [ht]
      · simp only [ht, Bool.false_eq_true, if_false, dget_dset_ne hne, h1]
theorem instantiateAll_frame (truthy : Nat → Bool) (c : SClass) (st : SState) :
    ∀ is : List Inst, c ∉ instClasses is →
      dget (metaOf c) (instantiateAll truthy st is).instances = dget (metaOf c) st.instances
  | [] => fun _ => rfl
  | i :: is => by
    intro h
    simp only [instClasses, List.mem_append, not_or] at h
    simp only [instantiateAll]
    rw [instantiateAll_frame truthy c _ is h.2, instantiate_frame truthy c st i h.1]
end

/-- Invariant of the singleton state. -/
structure SInv (st : SState) : Prop where
  log : ∀ c o, (c, o) ∈ st.log → dget (metaOf c) st.instances = some o
  lt : ∀ m o, dget m st.instances = some o → o < st.next
  inj : ∀ m m' o, dget m st.instances = some o → dget m' st.instances = some o → m = m'

mutual
theorem instantiate_inv (truthy : Nat → Bool) (ht : ∀ o, truthy o = true) (st : SState) (hi : SInv st) :
    ∀ i : Inst, i.acyclic → SInv (instantiate truthy st i)
  | .mk c inner => by
    intro ha
    simp only [Inst.acyclic] at ha
    simp only [instantiate]
    cases hd : dget (metaOf c) st.instances with
    | some o =>
      simp only [ht, if_true]
      refine ⟨?_, hi.lt, hi.inj⟩
      intro c' o' h
      rcases List.mem_append.1 h with h | h
      · exact hi.log c' o' h
      · simp at h
        obtain ⟨rfl, rfl⟩ := h
        exact hd
    | none =>
      have h1 := instantiateAll_inv truthy ht st hi inner ha.2
      have hf : dget (metaOf c) (instantiateAll truthy st inner).instances = none := by
        rw [instantiateAll_frame truthy c st inner ha.1, hd]
      generalize instantiateAll truthy st inner = s1 at h1 hf
      refine ⟨?_, ?_, ?_⟩
      · intro c' o' h
        simp only [List.mem_append, List.mem_singleton, Prod.mk.injEq] at h
        rcases h with h | ⟨rfl, rfl⟩
        · have h2 := h1.log c' o' h
          have hne : metaOf c' ≠ metaOf c := by
            intro he
            rw [he, hf] at h2
            cases h2
          simp only [dget_dset_ne hne, h2]
        · simp only [dget_dset_self]
      · intro m o h
        simp only [dget_dset] at h
        split at h
        · cases h; exact Nat.lt_succ_self _
        · exact Nat.lt_succ_of_lt (h1.lt m o h)
      · intro m m' o h h'
        simp only [dget_dset] at h h'
        split at h <;> split at h'
        · simp_all
        · cases h
          exact absurd (h1.lt _ _ h') (Nat.lt_irrefl _)
        · cases h'
          exact absurd (h1.lt _ _ h) (Nat.lt_irrefl _)
        · exact h1.inj m m' o h h'
theorem instantiateAll_inv (truthy : Nat → Bool) (ht : ∀ o, truthy o = true) (st : SState) (hi : SInv st) :
    ∀ is : List Inst, instsAcyclic is → SInv (instantiateAll truthy st is)
  | [] => fun _ => hi
  | i :: is => by
    intro ha
    simp only [instsAcyclic] at ha
    simp only [instantiateAll]
    exact instantiateAll_inv truthy ht _ (instantiate_inv truthy ht st hi i ha.1) is ha.2
end

mutual
theorem instantiate_log (truthy : Nat → Bool) (st : SState) :
    ∀ i : Inst, (∃ o, (i.cls, o) ∈ (instantiate truthy st i).log) ∧ st.log ⊆ (instantiate truthy st i).log
  | .mk c inner => by
    have h1 := instantiateAll_log truthy st inner
    simp only [instantiate, Inst.cls]
    cases dget (metaOf c) st.instances with
    | none =>
      refine ⟨⟨_, List.mem_append.2 (Or.inr (List.mem_singleton.2 rfl))⟩, ?_⟩
      exact fun x hx => List.mem_append.2 (Or.inl (h1.2 hx))
    | some o =>
      by_cases ht : truthy o = true
      · simp only [ht, if_true]
        exact ⟨⟨o, List.mem_append.2 (Or.inr (List.mem_singleton.2 rfl))⟩,
          fun x hx => List.mem_append.2 (Or.inl hx)⟩
      · simp only [ht, Bool.false_eq_true, if_false]
        refine ⟨⟨_, List.mem_append.2 (Or.inr (List.mem_singleton.2 rfl))⟩, ?_⟩
        exact fun x hx => List.mem_append.2 (Or.inl (h1.2 hx))
theorem instantiateAll_log (truthy : Nat → Bool) (st : SState) :
    ∀ is : List Inst, (∀ i ∈ is, ∃ o, (i.cls, o) ∈ (instantiateAll truthy st is).log) ∧
      st.log ⊆ (instantiateAll truthy st is).log
  | [] => ⟨fun _ h => (List.not_mem_nil h).elim, fun _ h => h⟩
  | i :: is => by
    have h1 := instantiate_log truthy st i
    have h2 := instantiateAll_log truthy (instantiate truthy st i) is
    simp only [instantiateAll]
    refine ⟨?_, fun x hx => h2.2 (h1.2 hx)⟩
    intro j hj
    rcases List.mem_cons.1 hj with rfl | hj
    · obtain ⟨o, ho⟩ := h1.1
      exact ⟨o, h2.2 ho⟩
    · exact h2.1 j hj
end

/-- C57: for every sequence of instantiations of singleton classes, including those that constructors
perform (no constructor instantiates its own class), every instantiation yields an object, and two
instantiations yield the same object exactly if they are of the same class.  The objects count as
true in a boolean test; the shipped classes define neither `__bool__` nor `__len__`. -/
theorem c57_singletons (truthy : Nat → Bool) (ht : ∀ o, truthy o = true) (is : List Inst) (ha : instsAcyclic is) :
    (∀ i ∈ is, ∃ o, (i.cls, o) ∈ (instantiateAll truthy .empty is).log) ∧
    ∀ c c' o o', (c, o) ∈ (instantiateAll truthy .empty is).log →
      (c', o') ∈ (instantiateAll truthy .empty is).log → (o = o' ↔ c = c') := by
  refine ⟨(instantiateAll_log truthy .empty is).1, ?_⟩
  have hi : SInv SState.empty := by
    refine ⟨?_, ?_, ?_⟩
    · intro c o h; cases h
    · intro m o h; simp [SState.empty] at h
    · intro m m' o h; simp [SState.empty] at h
  have h := instantiateAll_inv truthy ht .empty hi is ha
  intro c c' o o' h1 h2
  have e1 := h.log c o h1
  have e2 := h.log c' o' h2
  constructor
  · rintro rfl
    exact metaOf_inj (h.inj _ _ _ e1 e2)
  · rintro rfl
    rw [e1] at e2
    exact Option.some.inj e2

/-- The hypothesis on cycles is needed: a constructor that instantiates its own class would make a
second object. -/
example : (instantiateAll (fun _ => true) .empty
    [.mk .conceptExtension [.mk .conceptExtension []], .mk .conceptExtension []]).log =
    [(.conceptExtension, 0), (.conceptExtension, 1), (.conceptExtension, 1)] := by decide

/-- A manager that instantiates two extensions, one of which is instantiated again later. -/
example : (instantiateAll (fun _ => true) .empty
    [.mk .timeExtension [], .mk .extensionManager [.mk .conceptExtension [], .mk .timeExtension []],
     .mk .extensionManager [], .mk .conceptExtension []]).log =
    [(.timeExtension, 0), (.conceptExtension, 1), (.timeExtension, 0), (.extensionManager, 2),
     (.extensionManager, 2), (.conceptExtension, 1)] := by decide

/-! ## C69, C75 -/

/-- Specification: milliseconds per unit word as it appears in the text. -/
def unitMillis (u : Str) : Option Int :=
  if u = py!"days," then some (24 * 60 * 60 * 1000)
  else if u = py!"hours," then some (60 * 60 * 1000)
  else if u = py!"minutes," then some (60 * 1000)
  else if u = py!"seconds," then some 1000
  else if u = py!"milliseconds" then some 1
  else none

/-- Specification: total of a duration text, read as blank-separated number/unit pairs. -/
def durationTotal : List Str → Option Int
  | [] => some 0
  | n :: u :: rest => do
    let n ← pyInt n
    let u ← unitMillis u
    let r ← durationTotal rest
    some (n * u + r)
  | [_] => none

theorem intStr_no_blank (z : Int) : ' ' ∉ intStr z := by
  have hn : ∀ n, ' ' ∉ natStr n := by
    intro n h
    obtain ⟨ds, _, h2, h3⟩ := natStr_digits n
    rw [h3.1] at h
    obtain ⟨d, hd, he⟩ := List.mem_map.1 h
    exact digitChar_ne (h2 d hd) ' ' (Or.inl (by decide)) he
  cases z with
  | ofNat n => exact hn n
  | negSucc n =>
    simp only [intStr, List.mem_cons, not_or]
    exact ⟨by decide, hn _⟩

theorem durationTotal_part {u : Str} {m : Int} (hu : ' ' ∉ u) (hm : unitMillis u = some m) (z : Int) (rest : Str) :
    durationTotal (splitChar ' ' (intStr z ++ ' ' :: (u ++ ' ' :: rest))) =
      (durationTotal (splitChar ' ' rest)).map (z * m + ·) := by
  rw [splitChar_append_sep (intStr_no_blank z), splitChar_append_sep hu]
  simp only [durationTotal, pyInt_intStr, hm]
  cases durationTotal (splitChar ' ' rest) <;> rfl

theorem durationTotal_last {u : Str} {m : Int} (hu : ' ' ∉ u) (hm : unitMillis u = some m) (z : Int) :
    durationTotal (splitChar ' ' (intStr z ++ ' ' :: u)) = some (z * m) := by
  rw [splitChar_append_sep (intStr_no_blank z), splitChar_of_not_mem hu]
  simp only [durationTotal, pyInt_intStr, hm]
  simp

/-- The text consists of the non-zero parts. -/
def durationText (d h m s ms : Int) : Str :=
  (if d = 0 then [] else intStr d ++ py!" days, ") ++ ((if h = 0 then [] else intStr h ++ py!" hours, ") ++
  ((if m = 0 then [] else intStr m ++ py!" minutes, ") ++ ((if s = 0 then [] else intStr s ++ py!" seconds, ") ++
  (intStr ms ++ py!" milliseconds"))))

theorem formatDuration_parts (z : Int) : ∃ d h m s ms : Int, formatDuration z = durationText d h m s ms ∧
    z = d * (24 * 60 * 60 * 1000) + h * (60 * 60 * 1000) + m * (60 * 1000) + s * 1000 + ms ∧
    (z < 0 → d = 0 ∧ h = 0 ∧ m = 0 ∧ s = 0) ∧
    (0 ≤ z → 0 ≤ d ∧ 0 ≤ h ∧ h ≤ 24 ∧ 0 ≤ m ∧ m ≤ 60 ∧ 0 ≤ s ∧ s ≤ 60 ∧ 0 ≤ ms ∧ ms ≤ 1000) := by
  have step : ∀ (x b : Int) (sb u : Str), 0 < b → ∃ q r : Int,
      (if x > b then (sb ++ (intStr (x.fdiv b) ++ u), x.fmod b) else (sb, x)) =
        (sb ++ (if q = 0 then [] else intStr q ++ u), r) ∧
      x = q * b + r ∧ (x < 0 → q = 0) ∧ (0 ≤ x → 0 ≤ q ∧ 0 ≤ r ∧ r ≤ b) := by
    intro x b sb u hb
    by_cases h : x > b
    · have h1 : 0 ≤ x.fdiv b := Int.fdiv_nonneg (by omega) (by omega)
      have h2 : 0 ≤ x.fmod b := Int.fmod_nonneg_of_pos x hb
      have h3 : x.fmod b < b := Int.fmod_lt_of_pos x hb
      have h4 := Int.mul_fdiv_add_fmod x b
      rw [Int.mul_comm] at h4
      have h5 : x.fdiv b ≠ 0 := by
        intro h5
        rw [h5] at h4
        omega
      refine ⟨x.fdiv b, x.fmod b, by simp [h, h5], by omega, ?_, ?_⟩ <;> intro _ <;> omega
    · exact ⟨0, x, by simp [h], by omega, fun _ => rfl, fun _ => by omega⟩
  obtain ⟨d, r1, e1, x1, n1, p1⟩ := step z 86400000 [] py!" days, " (by omega)
  obtain ⟨h, r2, e2, x2, n2, p2⟩ := step r1 3600000 ([] ++ (if d = 0 then [] else intStr d ++ py!" days, ")) py!" hours, " (by omega)
  obtain ⟨m, r3, e3, x3, n3, p3⟩ := step r2 60000
    ([] ++ (if d = 0 then [] else intStr d ++ py!" days, ") ++ (if h = 0 then [] else intStr h ++ py!" hours, "))
    py!" minutes, " (by omega)
  obtain ⟨s, ms, e4, x4, n4, p4⟩ := step r3 1000
    ([] ++ (if d = 0 then [] else intStr d ++ py!" days, ") ++ (if h = 0 then [] else intStr h ++ py!" hours, ") ++
      (if m = 0 then [] else intStr m ++ py!" minutes, "))
    py!" seconds, " (by omega)
  refine ⟨d, h, m, s, ms, ?_, by omega, fun _ => by omega, fun _ => by omega⟩
  unfold formatDuration
  simp only [e1, e2, e3, e4]
  simp only [durationText, List.append_assoc, List.nil_append]

/-- C69: the text of a duration determines it: reading the text as number/unit pairs and adding
up gives back exactly the number of milliseconds, for every integer. -/
theorem c69_no_loss (z : Int) : durationTotal (splitChar ' ' (formatDuration z)) = some z := by
  obtain ⟨d, h, m, s, ms, ht, hz, _, _⟩ := formatDuration_parts z
  rw [ht]
  have part : ∀ (x : Int) (u : Str) (k v : Int) (rest : Str), ' ' ∉ u → unitMillis u = some k →
      durationTotal (splitChar ' ' rest) = some v →
      durationTotal (splitChar ' ' ((if x = 0 then [] else intStr x ++ (' ' :: (u ++ [' ']))) ++ rest)) =
        some (x * k + v) := by
    intro x u k v rest hu hk hv
    by_cases hx : x = 0
    · subst hx
      simp only [if_true, List.nil_append, hv]
      congr 1
      omega
    · have : (intStr x ++ (' ' :: (u ++ [' ']))) ++ rest = intStr x ++ ' ' :: (u ++ ' ' :: rest) := by simp
      simp only [hx, if_false]
      rw [this, durationTotal_part hu hk, hv]
      rfl
  have e0 := durationTotal_last (u := py!"milliseconds") (m := 1) (by decide) (by decide) ms
  have e1 := part s py!"seconds," 1000 _ _ (by decide) (by decide) e0
  have e2 := part m py!"minutes," (60 * 1000) _ _ (by decide) (by decide) e1
  have e3 := part h py!"hours," (60 * 60 * 1000) _ _ (by decide) (by decide) e2
  have e4 := part d py!"days," (24 * 60 * 60 * 1000) _ _ (by decide) (by decide) e3
  refine Eq.trans ?_ (e4.trans ?_)
  · rfl
  · congr 1
    omega

/-- C69, consequence: two different durations never look the same. -/
theorem c69_injective (a b : Int) (h : formatDuration a = formatDuration b) : a = b := by
  have h1 := c69_no_loss a
  rw [h, c69_no_loss b] at h1
  exact (Option.some.inj h1).symm

example : formatDuration 93784005 = py!"1 days, 2 hours, 3 minutes, 4 seconds, 5 milliseconds" := by decide

/-- C75, what holds: the text of a non-negative duration lists the non-zero parts and the
milliseconds, with at most 24 hours, 60 minutes, 60 seconds and 1000 milliseconds. -/
theorem c75_parts_partial (z : Int) (hz : 0 ≤ z) : ∃ d h m s ms : Int,
    formatDuration z = durationText d h m s ms ∧
    z = d * (24 * 60 * 60 * 1000) + h * (60 * 60 * 1000) + m * (60 * 1000) + s * 1000 + ms ∧
    0 ≤ d ∧ 0 ≤ h ∧ h ≤ 24 ∧ 0 ≤ m ∧ m ≤ 60 ∧ 0 ≤ s ∧ s ≤ 60 ∧ 0 ≤ ms ∧ ms ≤ 1000 := by
  obtain ⟨d, h, m, s, ms, h1, h2, _, h4⟩ := formatDuration_parts z
  exact ⟨d, h, m, s, ms, h1, h2, h4 hz⟩

/-- C75 is false: exactly one day, hour, minute or second is written with the smaller unit. -/
theorem c75_normalised_refuted :
    formatDuration 86400000 = py!"24 hours, 0 milliseconds" ∧
    formatDuration 3600000 = py!"60 minutes, 0 milliseconds" ∧
    formatDuration 60000 = py!"60 seconds, 0 milliseconds" ∧
    formatDuration 1000 = py!"1000 milliseconds" := by decide

/-! ## C70 -/

/-- A timer after any use, then `start()` at clock `a`, `stop()` at clock `b`, and `get_duration()` at
clock `c`. -/
def measured (x : Timer) (a b c : Rat) : Rat := ((x.started a).stopped b).duration c

/-- C70, exact: the measured duration is the elapsed time in milliseconds only if the clock shows
zero at `stop()`, or if the stop time in seconds happens to be the start time in milliseconds and the
duration is read at that very moment. -/
theorem c70_exact_partial (x : Timer) (a b c : Rat) :
    measured x a b c = (b - a) * 1000 ↔ (b = a * 1000 ∧ c = b) ∨ (b ≠ a * 1000 ∧ b = 0) := by
  unfold measured Timer.started Timer.stopped Timer.duration
  simp only
  split <;> rename_i h <;> grind

/-- C70 is false for all realistic clock readings (positive start time, stop not before start and
less than 1000 times the start time, which for Unix time means before the year 50000): the measured
duration is negative. -/
theorem c70_negative_refuted (x : Timer) (a b c : Rat) (h0 : 0 < a) (h1 : a ≤ b) (h2 : b < a * 1000) :
    measured x a b c < 0 ∧ measured x a b c ≠ (b - a) * 1000 := by
  unfold measured Timer.started Timer.stopped Timer.duration
  simp only
  split <;> rename_i h <;> constructor <;> grind

/-- C70, running timer: without `stop()`, the duration is the time since the last `start()` in
milliseconds - or since the import of the module for a timer that was never started. -/
theorem c70_running (x : Timer) (i a c : Rat) :
    (x.started a).duration c = (c - a) * 1000 ∧ (Timer.new i).duration c = (c - i) * 1000 := by
  unfold Timer.started Timer.new Timer.duration
  simp only
  constructor <;> simp <;> grind

example : measured (Timer.new 5) 100 103 200 = 103 - 100000 := by decide +kernel

/-! ## C71 -/

/-- The key that an attribute argument stands for. -/
def AttrArg.key : AttrArg → Option Str
  | .str k => some k
  | .attrib k => some k
  | .other => none

/-- The mapping that a call names. -/
def MapCall.name : MapCall → Str
  | .get n => n
  | .register n _ _ => n

/-- Specification: the alias that a call registers for key `k` in mapping `n`, if any. -/
def MapCall.alias (n k : Str) : MapCall → Option Str
  | .get _ => none
  | .register n' a s =>
    match a.key, s with
    | some k', .str al => if n' = n ∧ k' = k then some al else none
    | _, _ => none

/-- Specification: the last alias registered for a key in a mapping. -/
def lastAlias (calls : List MapCall) (n k : Str) : Option Str :=
  (calls.filterMap (MapCall.alias n k)).getLast?

/-- Specification: the mapping exists - it is the standard one or some call named it. -/
def KnownMapping (calls : List MapCall) (n : Str) : Prop := n = py!"EN" ∨ ∃ c ∈ calls, c.name = n

/-- Invariant of the global map after a history. -/
structure GInv (calls : List MapCall) (g : GlobalMap) : Prop where
  known : ∀ n, n ∈ dkeys g.mappings ↔ KnownMapping calls n
  std : dget py!"EN" g.mappings = some g.standard
  maps : ∀ n r, dget n g.mappings = some r → ∃ m, g.maps[r]? = some m ∧ m.name = n ∧
    ∀ k, dget k m.mapping = lastAlias calls n k

theorem lastAlias_unknown {calls : List MapCall} {n : Str} (h : ¬ KnownMapping calls n) (k : Str) :
    lastAlias calls n k = none := by
  unfold lastAlias
  have : calls.filterMap (MapCall.alias n k) = [] := by
    rw [List.filterMap_eq_nil_iff]
    intro c hc
    have hn : c.name ≠ n := fun he => h (Or.inr ⟨c, hc, he⟩)
    cases c with
    | get _ => rfl
    | register n' a s =>
      have hn' : n' ≠ n := hn
      simp only [MapCall.alias]
      split <;> simp [hn']
  rw [this]
  rfl

theorem getMapping_inv {calls : List MapCall} {g : GlobalMap} (hi : GInv calls g) (n : Str) :
    GInv (calls ++ [.get n]) (g.getMapping n).2 ∧
    dget n (g.getMapping n).2.mappings = some (g.getMapping n).1 := by
  have hla : ∀ n' k, lastAlias (calls ++ [.get n]) n' k = lastAlias calls n' k := by
    intro n' k
    simp [lastAlias, MapCall.alias]
  have hkn : ∀ n', KnownMapping (calls ++ [.get n]) n' ↔ KnownMapping calls n' ∨ n' = n := by
    intro n'
    simp only [KnownMapping, List.mem_append, List.mem_singleton]
    constructor
    · rintro (h | ⟨c, hc | rfl, he⟩)
      · exact Or.inl (Or.inl h)
      · exact Or.inl (Or.inr ⟨c, hc, he⟩)
      · exact Or.inr he.symm
    · rintro ((h | ⟨c, hc, he⟩) | rfl)
      · exact Or.inl h
      · exact Or.inr ⟨c, Or.inl hc, he⟩
      · exact Or.inr ⟨_, Or.inr rfl, rfl⟩
  unfold GlobalMap.getMapping
  cases hd : dget n g.mappings with
  | some r =>
    refine ⟨⟨?_, hi.std, ?_⟩, hd⟩
    · intro n'
      rw [hkn, hi.known]
      constructor
      · exact Or.inl
      · rintro (h | rfl)
        · exact h
        · exact (hi.known _).1 (dget_isSome.1 ⟨r, hd⟩)
    · intro n' r' h
      obtain ⟨m, h1, h2, h3⟩ := hi.maps n' r' h
      exact ⟨m, h1, h2, fun k => by rw [hla, h3]⟩
  | none =>
    have hnk : ¬ KnownMapping calls n := by
      rw [← hi.known]
      exact dget_eq_none.1 hd
    have hen : n ≠ py!"EN" := fun h => hnk (Or.inl h)
    refine ⟨⟨?_, ?_, ?_⟩, ?_⟩
    · intro n'
      rw [hkn, ← hi.known]
      simp only [dset_eq_append _ (dget_eq_none.1 hd), dkeys, List.map_append, List.mem_append, List.map_cons,
        List.map_nil, List.mem_singleton]
    · simp only [dget_dset_ne (Ne.symm hen)]
      exact hi.std
    · intro n' r' h
      simp only [dget_dset] at h
      split at h
      · rename_i he
        cases h
        subst he
        refine ⟨⟨n', []⟩, by simp, rfl, fun k => ?_⟩
        rw [hla, lastAlias_unknown hnk]
        rfl
      · obtain ⟨m, h1, h2, h3⟩ := hi.maps n' r' h
        refine ⟨m, ?_, h2, fun k => by rw [hla, h3]⟩
        have hlt : r' < g.maps.length := (List.getElem?_eq_some_iff.1 h1).1
        rw [List.getElem?_append_left hlt]
        exact h1
    · simp only [dget_dset_self]

theorem globalMap_inv (calls : List MapCall) : GInv calls (GlobalMap.run calls) := by
  induction calls using List.reverseRecOn with
  | nil =>
    refine ⟨?_, by decide, ?_⟩
    · intro n
      simp [GlobalMap.run, GlobalMap.init, dkeys, KnownMapping]
    · intro n r h
      simp only [GlobalMap.run, GlobalMap.init, List.foldl_nil, dget] at h
      split at h
      · rename_i he
        cases h
        refine ⟨⟨py!"EN", []⟩, rfl, ?_, fun k => rfl⟩
        simpa using he
      · cases h
  | append_singleton cs c ih =>
    have hrun : GlobalMap.run (cs ++ [c]) = (GlobalMap.run cs).step c := by simp [GlobalMap.run]
    rw [hrun]
    cases c with
    | get n => exact (getMapping_inv ih n).1
    | register n a s =>
      obtain ⟨h1, h2⟩ := getMapping_inv ih n
      simp only [GlobalMap.step, GlobalMap.register]
      generalize ((GlobalMap.run cs).getMapping n).2 = g at h1 h2
      generalize ((GlobalMap.run cs).getMapping n).1 = r at h2
      refine ⟨?_, h1.std, ?_⟩
      · intro n'
        rw [h1.known]
        simp only [KnownMapping, List.mem_append, List.mem_singleton]
        constructor
        · rintro (h | ⟨c, hc | rfl, he⟩)
          · exact Or.inl h
          · exact Or.inr ⟨c, Or.inl hc, he⟩
          · exact Or.inr ⟨_, Or.inr rfl, he⟩
        · rintro (h | ⟨c, hc | rfl, he⟩)
          · exact Or.inl h
          · exact Or.inr ⟨c, Or.inl hc, he⟩
          · exact Or.inr ⟨_, Or.inr rfl, he⟩
      · intro n' r' h
        obtain ⟨m, e1, e2, e3⟩ := h1.maps n' r' h
        have hold : ∀ k, dget k m.mapping = lastAlias cs n' k := by
          intro k
          rw [e3]
          simp [lastAlias, MapCall.alias]
        have hla : ∀ k, lastAlias (cs ++ [.register n a s]) n' k =
            match MapCall.alias n' k (.register n a s) with
            | some al => some al
            | none => lastAlias cs n' k := by
          intro k
          simp only [lastAlias, List.filterMap_append, List.filterMap_cons, List.filterMap_nil]
          cases MapCall.alias n' k (.register n a s) <;> simp
        by_cases hn : n = n'
        · subst hn
          have hr : r' = r := Option.some.inj (h.symm.trans h2)
          subst hr
          refine ⟨m.register a s, by simp [e1], ?_, fun k => ?_⟩
          · cases s <;> cases a <;> exact e2
          · rw [hla]
            cases s with
            | other => cases a <;> exact hold k
            | str al =>
              cases a with
              | other => exact hold k
              | str k' =>
                simp only [NameMap.register, dget_dset, MapCall.alias, AttrArg.key, hold]
                by_cases hk : k = k'
                · simp [hk]
                · simp [hk, Ne.symm hk]
              | attrib k' =>
                simp only [NameMap.register, dget_dset, MapCall.alias, AttrArg.key, hold]
                by_cases hk : k = k'
                · simp [hk]
                · simp [hk, Ne.symm hk]
        · have hr : r ≠ r' := by
            rintro rfl
            obtain ⟨m', f1, f2, _⟩ := h1.maps n r h2
            rw [f1] at e1
            cases e1
            exact hn (f2.symm.trans e2)
          refine ⟨m, ?_, e2, fun k => ?_⟩
          · rw [List.getElem?_modify]
            simp [hr, e1]
          · rw [hla, hold]
            have : MapCall.alias n' k (.register n a s) = none := by
              simp only [MapCall.alias]
              split <;> simp [hn]
            rw [this]

/-- C71: after any history of calls, for every key and mapping name,
* `map` returns the last alias registered for the key in the standard mapping `EN` (or `None`);
* `map_safely` with the name of a known mapping returns the last alias registered there, else the one
  of the standard mapping, else the key - never `None`; an attribute is treated as its key;
* `map_safely` with an unknown mapping name returns `None`. -/
theorem c71_maps (calls : List MapCall) (a : AttrArg) (k : Str) (hk : a.key = some k) (n : Str) :
    (GlobalMap.run calls).map a = lastAlias calls py!"EN" k ∧
    (KnownMapping calls n → (GlobalMap.run calls).mapSafely a n =
      match lastAlias calls n k, lastAlias calls py!"EN" k with
      | some al, _ => some al
      | none, some al => some al
      | none, none => some k) ∧
    (¬ KnownMapping calls n → (GlobalMap.run calls).mapSafely a n = none) := by
  have hi := globalMap_inv calls
  generalize GlobalMap.run calls = g at hi
  obtain ⟨ms, s1, s2, s3⟩ := hi.maps _ _ hi.std
  have hmap : ∀ b : AttrArg, b.key = some k → g.map b = lastAlias calls py!"EN" k := by
    intro b hb
    simp only [GlobalMap.map, s1]
    cases b with
    | other => cases hb
    | str k' => cases hb; exact s3 k
    | attrib k' => cases hb; exact s3 k
  refine ⟨hmap a hk, ?_, ?_⟩
  · intro hn
    obtain ⟨r, hr⟩ := dget_isSome.2 ((hi.known n).2 hn)
    obtain ⟨m, h1, _, h3⟩ := hi.maps n r hr
    have hstd := hmap (.str k) rfl
    have hm : m.map (.str k) = lastAlias calls n k := h3 k
    simp only [GlobalMap.mapSafely, hr, h1]
    cases a with
    | other => cases hk
    | str k' =>
      cases hk
      simp only [GlobalMap.mapSafelyWith, hm, hstd]
      cases lastAlias calls n k <;> cases lastAlias calls py!"EN" k <;> rfl
    | attrib k' =>
      cases hk
      simp only [GlobalMap.mapSafelyWith, hm, hstd]
      cases lastAlias calls n k <;> cases lastAlias calls py!"EN" k <;> rfl
  · intro hn
    have : dget n g.mappings = none := by
      rw [dget_eq_none, hi.known]
      exact hn
    simp only [GlobalMap.mapSafely, this]

/-- A history with an overwritten alias, two mappings and a rejected alias. -/
example :
    let calls := [MapCall.register py!"DE" (.str py!"concept:name") (.str py!"Nahme"), .get py!"NL",
      .register py!"EN" (.attrib py!"concept:name") (.str py!"Name"),
      .register py!"DE" (.attrib py!"concept:name") (.str py!"Name (de)"),
      .register py!"EN" (.str py!"concept:name") .other]
    (GlobalMap.run calls).mapSafely (.attrib py!"concept:name") py!"DE" = some py!"Name (de)" ∧
    (GlobalMap.run calls).mapSafely (.str py!"concept:name") py!"NL" = some py!"Name" ∧
    (GlobalMap.run calls).mapSafely (.str py!"org:role") py!"NL" = some py!"org:role" ∧
    (GlobalMap.run calls).mapSafely (.str py!"org:role") py!"FR" = none ∧
    (GlobalMap.run calls).map (.str py!"org:role") = none := by decide

/-! ## C74 -/

/-- C74 is false: once `get_support_folder` has succeeded, every further call raises
`FileExistsError`, whatever other directories have been created in between; so does
`get_extension_cache_folder`.  (Directories are only added between the calls.) -/
theorem c74_support_folder_refuted (e : Env) (fs fs1 fs2 : List Str) (p : Str)
    (h : supportFolder e fs = .ok (p, fs1)) (hs : fs1 ⊆ fs2) :
    supportFolder e fs2 = .error .fileExistsError ∧ extensionCacheFolder e fs2 = .error .fileExistsError := by
  have key : supportFolder e fs2 = .error .fileExistsError := by
    have mk : ∀ (q r : Str), (makedirs fs q >>= fun fs => Except.ok (r, fs)) = .ok (p, fs1) → q ∈ fs1 := by
      intro q r
      unfold makedirs
      split
      · intro h; cases h
      · intro h
        cases h
        simp
    unfold supportFolder at h ⊢
    cases hu : e.userProfile with
    | none => rw [hu] at h; cases h
    | some u =>
      rw [hu] at h
      simp only at h ⊢
      split at h
      · have := hs (mk _ _ h)
        rw [if_pos (by assumption)]
        simp only [makedirs, this, if_true]
        rfl
      · rw [if_neg (by assumption)]
        split at h
        · have := hs (mk _ _ h)
          rw [if_pos (by assumption)]
          simp only [makedirs, this, if_true]
          rfl
        · have := hs (mk _ _ h)
          rw [if_neg (by assumption)]
          simp only [makedirs, this, if_true]
          rfl
  refine ⟨key, ?_⟩
  unfold extensionCacheFolder
  rw [key]
  rfl

/-- Without the variable USERPROFILE, which only Windows sets, every call raises `TypeError`. -/
theorem c74_no_profile_refuted (e : Env) (fs : List Str) (h : e.userProfile = none) :
    supportFolder e fs = .error .typeError ∧ extensionCacheFolder e fs = .error .typeError := by
  have : supportFolder e fs = .error .typeError := by
    unfold supportFolder
    rw [h]
  refine ⟨this, ?_⟩
  unfold extensionCacheFolder
  rw [this]
  rfl

/-- What holds of C74: on a file system without the folder, with USERPROFILE set, the call creates
exactly the folder it returns (without the trailing separator) and keeps all others. -/
theorem c74_first_call_partial (e : Env) (fs : List Str) (u : Str) (hu : e.userProfile = some u) :
    ∃ (folder sep : Str), (sep = py!"\\" ∨ sep = py!"/") ∧
      (folder ∉ fs → supportFolder e fs = .ok (folder ++ sep, fs ++ [folder])) ∧
      (folder ∈ fs → supportFolder e fs = .error .fileExistsError) ∧
      e.expandUser u <+: folder := by
  unfold supportFolder makedirs
  rw [hu]
  simp only
  split
  · exact ⟨e.expandUser u ++ py!"\\" ++ py!"OpenXES", py!"\\", Or.inl rfl, fun h => by simp only [h, if_false]; rfl,
      fun h => by simp only [h, if_true]; rfl, by rw [List.append_assoc]; exact List.prefix_append _ _⟩
  · split
    · exact ⟨e.expandUser u ++ py!"/Library/Application Support/" ++ py!"OpenXES", py!"/", Or.inr rfl,
        fun h => by simp only [h, if_false]; rfl, fun h => by simp only [h, if_true]; rfl,
        by rw [List.append_assoc]; exact List.prefix_append _ _⟩
    · exact ⟨e.expandUser u ++ py!"/." ++ py!"OpenXES", py!"/", Or.inr rfl,
        fun h => by simp only [h, if_false]; rfl, fun h => by simp only [h, if_true]; rfl,
        by rw [List.append_assoc]; exact List.prefix_append _ _⟩

example : extensionCacheFolder ⟨py!"linux", some py!"/home/u", id⟩ [py!"/home/u"] =
    .ok (py!"/home/u/.OpenXES/ExtensionCache",
      [py!"/home/u", py!"/home/u/.OpenXES", py!"/home/u/.OpenXES/ExtensionCache"]) := by decide

/-- Where the folders are, for every platform: the support folder is `OpenXES` behind a backslash in the home
directory on Windows, under `Library/Application Support` on Mac OS, and hidden in the home directory
everywhere else; the cache is `ExtensionCache` in it, and both are created. -/
theorem c74_where_partial (u : Str) (ex : Str → Str) (fs : List Str) (rest : Str) :
    (ex u ++ py!"\\OpenXES" ∉ fs →
      supportFolder ⟨py!"win32" ++ rest, some u, ex⟩ fs = .ok (ex u ++ py!"\\OpenXES\\", fs ++ [ex u ++ py!"\\OpenXES"])) ∧
    (ex u ++ py!"/Library/Application Support/OpenXES" ∉ fs →
      supportFolder ⟨py!"darwin" ++ rest, some u, ex⟩ fs =
        .ok (ex u ++ py!"/Library/Application Support/OpenXES/", fs ++ [ex u ++ py!"/Library/Application Support/OpenXES"])) ∧
    (∀ p : Str, ¬ py!"win32" <+: p → ¬ py!"darwin" <+: p → ex u ++ py!"/.OpenXES" ∉ fs →
      supportFolder ⟨p, some u, ex⟩ fs = .ok (ex u ++ py!"/.OpenXES/", fs ++ [ex u ++ py!"/.OpenXES"])) ∧
    (∀ (e : Env) (s : Str) (fs1 : List Str), supportFolder e fs = .ok (s, fs1) →
      (s ++ py!"ExtensionCache" ∉ fs1 → extensionCacheFolder e fs =
        .ok (s ++ py!"ExtensionCache", fs1 ++ [s ++ py!"ExtensionCache"])) ∧
      (s ++ py!"ExtensionCache" ∈ fs1 → extensionCacheFolder e fs = .error .fileExistsError)) := by
  refine ⟨fun h => ?_, fun h => ?_, fun p h1 h2 h => ?_, fun e s fs1 h => ⟨fun h' => ?_, fun h' => ?_⟩⟩
  · have hw : Env.isWindows ⟨py!"win32" ++ rest, some u, ex⟩ = true := rfl
    have e1 : ex u ++ py!"\\" ++ py!"OpenXES" = ex u ++ py!"\\OpenXES" := List.append_assoc _ _ _
    simp only [supportFolder, hw, if_true, makedirs, e1, h, if_false, bind, Except.bind]
    rw [List.append_assoc]; rfl
  · have hw : Env.isWindows ⟨py!"darwin" ++ rest, some u, ex⟩ = false := rfl
    have hm : Env.isMac ⟨py!"darwin" ++ rest, some u, ex⟩ = true := rfl
    have e1 : ex u ++ py!"/Library/Application Support/" ++ py!"OpenXES" =
        ex u ++ py!"/Library/Application Support/OpenXES" := List.append_assoc _ _ _
    simp only [supportFolder, hw, hm, if_true, makedirs, e1, h, if_false, bind, Except.bind, Bool.false_eq_true]
    rw [List.append_assoc]; rfl
  · have hw : Env.isWindows ⟨p, some u, ex⟩ = false := by
      simpa [Env.isWindows, ← Bool.not_eq_true, List.isPrefixOf_iff_prefix] using h1
    have hm : Env.isMac ⟨p, some u, ex⟩ = false := by
      simpa [Env.isMac, ← Bool.not_eq_true, List.isPrefixOf_iff_prefix] using h2
    have e1 : ex u ++ py!"/." ++ py!"OpenXES" = ex u ++ py!"/.OpenXES" := List.append_assoc _ _ _
    simp only [supportFolder, hw, hm, makedirs, e1, h, if_false, bind, Except.bind, Bool.false_eq_true]
    rw [List.append_assoc]; rfl
  · simp only [extensionCacheFolder, h, makedirs, h', if_false, bind, Except.bind]
  · simp only [extensionCacheFolder, h, makedirs, h', if_true, bind, Except.bind]

/-! ## C130 -/

/-- The platform tests are what their names say of `sys.platform`, which is `win32` on Windows, `darwin` on
Mac OS, and begins with `linux` or `freebsd` there. -/
theorem c130_exact (e : Env) :
    (e.isWindows = true ↔ py!"win32" <+: e.platform) ∧
    (e.isMac = true ↔ py!"darwin" <+: e.platform) ∧
    (e.isLinux = true ↔ py!"linux" <+: e.platform) ∧
    (e.isUnix = true ↔ py!"freebsd" <+: e.platform ∨ py!"linux" <+: e.platform ∨ py!"darwin" <+: e.platform) := by
  simp only [Env.isUnix, Env.isWindows, Env.isMac, Env.isLinux, Bool.or_eq_true, List.isPrefixOf_iff_prefix, or_assoc,
    and_self]

/-- At most one of Windows, Mac OS and Linux; Windows is no Unix, the other two are. -/
theorem c130_disjoint (e : Env) :
    ¬ (e.isWindows = true ∧ e.isMac = true) ∧ ¬ (e.isWindows = true ∧ e.isLinux = true) ∧
    ¬ (e.isMac = true ∧ e.isLinux = true) ∧ ¬ (e.isWindows = true ∧ e.isUnix = true) ∧
    (e.isMac = true ∨ e.isLinux = true → e.isUnix = true) := by
  obtain ⟨hw, hm, hl, hu⟩ := c130_exact e
  rw [hw, hm, hl, hu]
  have clash : ∀ {a b : Str}, a <+: e.platform → b <+: e.platform → a.head? ≠ none → b.head? ≠ none → a.head? = b.head? := by
    rintro a b ⟨x, hx⟩ ⟨y, hy⟩ ha hb
    cases a with
    | nil => exact absurd rfl ha
    | cons c a =>
      cases b with
      | nil => exact absurd rfl hb
      | cons d b =>
        rw [← hy] at hx
        injection hx with h _
        simp only [List.head?_cons, h]
  refine ⟨fun h => absurd (clash h.1 h.2 (by decide) (by decide)) (by decide),
    fun h => absurd (clash h.1 h.2 (by decide) (by decide)) (by decide),
    fun h => absurd (clash h.1 h.2 (by decide) (by decide)) (by decide), ?_,
    fun h => h.elim (fun h => .inr (.inr h)) (fun h => .inr (.inl h))⟩
  rintro ⟨h, h' | h' | h'⟩ <;> exact absurd (clash h h' (by decide) (by decide)) (by decide)

/-- The answers of successive calls of `determine_os` of one object while `sys.platform` takes the given
values: spec for a list of calls. -/
def osAnswers (r : RuntimeUtils) : List Str → List Str
  | [] => []
  | p :: ps => (r.determineOs p).1 :: osAnswers (r.determineOs p).2 ps

/-- An object sticks to the platform it saw first. -/
theorem c130_cached (p : Str) (ps : List Str) :
    osAnswers .new (p :: ps) = List.replicate (ps.length + 1) p := by
  have key : ∀ ps, osAnswers ⟨some p⟩ ps = List.replicate ps.length p := by
    intro ps
    induction ps with
    | nil => rfl
    | cons q ps ih => exact congrArg (p :: ·) ih
  exact congrArg (p :: ·) (key ps)

example : (Env.isUnix ⟨py!"freebsd13", none, id⟩, Env.isLinux ⟨py!"linux2", none, id⟩, Env.isUnix ⟨py!"cygwin", none, id⟩,
    Env.isWindows ⟨py!"win32", none, id⟩, Env.isWindows ⟨py!"cygwin", none, id⟩) = (true, true, false, true, false) := by decide
example : osAnswers .new [py!"linux", py!"darwin", py!"win32"] = [py!"linux", py!"linux", py!"linux"] := by decide

end Opy
