import Mathlib.Data.List.Forall2
import Verif.Model.ClassOps
import Verif.Props.Examples2
import Verif.Props.InfoExact

/-!
# C187: the numbers of the parts of a log add up to those of the log

A log whose traces are distributed over other logs, as Cluster_a_log does it: the summaries (XLogInfo) and event classes (XEventClasses) of
the parts and of the whole.
-/

set_option linter.unusedSectionVars false

namespace Opy

variable {F : Type} [PyFloat F]

/-! ## Specification -/

/-- The traces of the log are distributed over these logs, in any order. -/
def PartsOf (ls : List (Log F)) (log : Log F) : Prop := (ls.flatMap fun l => l.traces).Perm log.traces

/-- The frequency of a key, 0 if it was never registered. -/
def AttrInfo.times (i : AttrInfo) (k : Str) : Nat := (i.frequency k).getD 0

/-- The size of a class, 0 if there is none. -/
def classSize (m : ClassMap) (s : Str) : Nat :=
  match getByIdentity m s with
  | some cl => cl.size
  | none => 0

/-! ## Sums over traces -/

theorem perm_sum {l m : List Nat} (h : l.Perm m) : l.sum = m.sum := by
  induction h with
  | nil => rfl
  | cons _ _ ih => simp only [List.sum_cons, ih]
  | swap => simp only [List.sum_cons]; omega
  | trans _ _ h1 h2 => exact h1.trans h2

theorem parts_sum {ls : List (Log F)} {log : Log F} (hp : PartsOf ls log) (f : Trace F → Nat) :
    (ls.map fun l => (l.traces.map f).sum).sum = (log.traces.map f).sum := by
  rw [← perm_sum (hp.map f)]
  clear hp
  induction ls with
  | nil => rfl
  | cons l ls ih => simp only [List.map_cons, List.sum_cons, List.flatMap_cons, List.map_append, List.sum_append_nat, ih]

theorem sum_of_forall2 {α β : Type} {P : α → β → Prop} {f : α → Nat} {g : β → Nat} (hfg : ∀ a b, P a b → g b = f a) {as : List α} {bs : List β}
    (h : List.Forall₂ P as bs) : (bs.map g).sum = (as.map f).sum := by
  induction h with
  | nil => rfl
  | cons a _ ih => simp only [List.map_cons, List.sum_cons, hfg _ _ a, ih]

theorem keyCount_flatMap {α : Type} (k : Str) (g : α → List (Attr F)) : ∀ l : List α, keyCount k (l.flatMap g) = (l.map fun x => keyCount k (g x)).sum
  | [] => rfl
  | x :: l => by
    have := keyCount_flatMap k g l
    simp only [keyCount] at this ⊢
    simp only [List.flatMap_cons, List.map_append, List.count_append, this, List.map_cons, List.sum_cons]

theorem length_flatMap' {α β : Type} (g : α → List β) : ∀ l : List α, (l.flatMap g).length = (l.map fun x => (g x).length).sum
  | [] => rfl
  | x :: l => by simp only [List.flatMap_cons, List.length_append, length_flatMap' g l, List.map_cons, List.sum_cons]

theorem eventLevel_eq (log : Log F) : eventLevel log = log.traces.flatMap fun t => t.events.flatMap fun e => dvals e.attrs := by
  unfold eventLevel allEvents
  induction log.traces with
  | nil => rfl
  | cons t ts ih => simp only [List.map_cons, List.flatten_cons, List.flatMap_append, ih, List.flatMap_cons]

theorem times_of {i : AttrInfo} {as : List (Attr F)} (h : Counts i as) (k : Str) : i.times k = keyCount k as := by
  rw [AttrInfo.times, h.2]
  split <;> simp_all

/-- C187: the numbers of traces and events and the frequencies of the attributes of traces and events add up. -/
theorem c187_summaries {ls : List (Log F)} {log : Log F} (hp : PartsOf ls log) {d : Option Classifier} {cs : List Classifier} {i : LogInfo} {is : List LogInfo}
    (h : createInfo log d cs = .ok i) (hs : List.Forall₂ (fun l j => createInfo l d cs = .ok j) ls is) :
    i.nTraces = (is.map LogInfo.nTraces).sum ∧ i.nEvents = (is.map LogInfo.nEvents).sum ∧
    (∀ k, i.traceAttrs.times k = (is.map fun j => j.traceAttrs.times k).sum) ∧ (∀ k, i.eventAttrs.times k = (is.map fun j => j.eventAttrs.times k).sum) ∧
    i.traceAttrs.total = (is.map fun j => j.traceAttrs.total).sum ∧ i.eventAttrs.total = (is.map fun j => j.eventAttrs.total).sum := by
  obtain ⟨a1, a2, -, a4, a5, -⟩ := c28_counts h
  refine ⟨?_, ?_, fun k => ?_, fun k => ?_, ?_, ?_⟩
  · rw [sum_of_forall2 (f := fun l : Log F => (l.traces.map fun _ => 1).sum) (fun l j hj => by rw [(c28_counts hj).1]; simp) hs, parts_sum hp, a1]
    simp
  · rw [sum_of_forall2 (f := fun l : Log F => (l.traces.map fun t => t.events.length).sum) (fun l j hj => (c28_counts hj).2.1) hs, parts_sum hp, a2]
  · rw [sum_of_forall2 (f := fun l : Log F => (l.traces.map fun t => keyCount k (dvals t.attrs)).sum)
      (fun l j hj => by rw [times_of (c28_counts hj).2.2.2.1, traceLevel, keyCount_flatMap]) hs, parts_sum hp, times_of a4, traceLevel, keyCount_flatMap]
  · rw [sum_of_forall2 (f := fun l : Log F => (l.traces.map fun t => keyCount k (t.events.flatMap fun e => dvals e.attrs)).sum)
      (fun l j hj => by rw [times_of (c28_counts hj).2.2.2.2.1, eventLevel_eq, keyCount_flatMap]) hs, parts_sum hp, times_of a5, eventLevel_eq, keyCount_flatMap]
  · rw [sum_of_forall2 (f := fun l : Log F => (l.traces.map fun t => (dvals t.attrs).length).sum)
      (fun l j hj => by rw [(c28_counts hj).2.2.2.1.1, traceLevel, length_flatMap']) hs, parts_sum hp, a4.1, traceLevel, length_flatMap']
  · rw [sum_of_forall2 (f := fun l : Log F => (l.traces.map fun t => (t.events.flatMap fun e => dvals e.attrs).length).sum)
      (fun l j hj => by rw [(c28_counts hj).2.2.2.2.1.1, eventLevel_eq, length_flatMap']) hs, parts_sum hp, a5.1, eventLevel_eq, length_flatMap']

/-! ## Classes -/

theorem classSize_count {c : Classifier} {log : Log F} {ids : List Str} (h : IdentitiesOf c log ids) {m : ClassMap} (hm : deriveClasses c log = .ok m) (s : Str) :
    classSize m s = ids.count s := by
  obtain ⟨K, h1, h2, h3⟩ := derive_table h
  rw [h1] at hm
  cases hm
  unfold classSize getByIdentity
  by_cases hs : s ∈ K
  · obtain ⟨i, hi, rfl⟩ := List.mem_iff_getElem.1 hs
    rw [(classTable_get (sorted_nodup h2)).2 ⟨i, by simp [hi], rfl⟩]
  · rw [dget_eq_none.2 (by rw [classTable_keys]; exact hs)]
    exact (List.count_eq_zero.2 fun e => hs ((h3 s).2 e)).symm

theorem classSize_sum {c : Classifier} {log : Log F} {m : ClassMap} (hm : deriveClasses c log = .ok m) (s : Str) :
    classSize m s = (log.traces.map fun t => t.events.countP fun e => (classIdentity c e).toOption = some s).sum := by
  obtain ⟨ids, hi⟩ := (c19_when c log).1.1 ⟨m, hm⟩
  rw [classSize_count hi hm]
  have e1 : ids.count s = (allEvents log).countP fun e => (classIdentity c e).toOption = some s := by
    have : ids.count s = (ids.map (Except.ok : Str → Except PyErr Str)).countP fun x => x.toOption = some s := by
      rw [List.countP_map, List.count]
      congr 1
      funext x
      simp only [Function.comp, Except.toOption, Option.some.injEq]
      exact beq_eq_decide x s
    rw [this, ← hi, List.countP_map]
    rfl
  rw [e1, allEvents, List.countP_flatten, List.map_map]
  rfl

/-- C187: the sizes of the classes add up, and the classes of the log can be derived exactly if those of all parts can. -/
theorem c187_classes {ls : List (Log F)} {log : Log F} (hp : PartsOf ls log) (c : Classifier) :
    ((∃ m, deriveClasses c log = .ok m) ↔ ∀ l ∈ ls, ∃ m, deriveClasses c l = .ok m) ∧
    ∀ m ms, deriveClasses c log = .ok m → List.Forall₂ (fun l m => deriveClasses c l = .ok m) ls ms → ∀ s, classSize m s = (ms.map fun m => classSize m s).sum := by
  refine ⟨?_, fun m ms hm hs s => ?_⟩
  · rw [((c19_when c log).1.trans (c19_when c log).2)]
    simp only [((c19_when c _).1.trans (c19_when c _).2)]
    constructor
    · intro h l hl t ht
      exact h t (hp.mem_iff.1 (List.mem_flatMap.2 ⟨l, hl, ht⟩))
    · intro h t ht
      obtain ⟨l, hl, htl⟩ := List.mem_flatMap.1 (hp.mem_iff.2 ht)
      exact h l hl t htl
  · rw [classSize_sum hm, ← parts_sum hp]
    exact (sum_of_forall2 (P := fun (l : Log F) m => deriveClasses c l = .ok m) (g := fun m => classSize m s) (fun l m' hm' => classSize_sum hm' s) hs).symm

/-- C187: the same for the classes that a summary has: it has those of the same classifiers as the parts, and the sizes add up. -/
theorem c187_summary_classes {ls : List (Log F)} {log : Log F} (hp : PartsOf ls log) {d : Option Classifier} {cs : List Classifier} {i : LogInfo} {is : List LogInfo}
    (h : createInfo log d cs = .ok i) (hs : List.Forall₂ (fun l j => createInfo l d cs = .ok j) ls is) {c : Classifier} {m : ClassMap} (hm : dget c i.classes = some m) :
    ∃ ms, List.Forall₂ (fun (j : LogInfo) m' => dget c j.classes = some m') is ms ∧ ∀ s, classSize m s = (ms.map fun m' => classSize m' s).sum := by
  obtain ⟨k1, k2⟩ := c72_event_classes h
  have hc := (k1 c).1 (by
    refine Classical.byContradiction fun hn => ?_
    rw [dget_eq_none.2 hn] at hm
    cases hm)
  have : ∃ ms, List.Forall₂ (fun (j : LogInfo) m' => dget c j.classes = some m') is ms ∧ List.Forall₂ (fun l m' => deriveClasses c l = .ok m') ls ms := by
    clear hp h k1 k2 hm
    induction hs with
    | nil => exact ⟨[], .nil, .nil⟩
    | @cons l j ls is a _ ih =>
      obtain ⟨ms, h1, h2⟩ := ih
      obtain ⟨q1, q2⟩ := c72_event_classes a
      cases g : dget c j.classes with
      | none => exact absurd ((q1 c).2 hc) (dget_eq_none.1 g)
      | some m' => exact ⟨m' :: ms, .cons g h1, .cons (q2 c m' g) h2⟩
  obtain ⟨ms, h1, h2⟩ := this
  exact ⟨ms, h1, (c187_classes hp c).2 m ms (k2 c m hm) h2⟩

/-- C187: if the parts have the attributes of the log, the frequencies among these are the same in each part, and those of nested attributes add up
except that what is nested in the attributes of the log counts in each part. -/
theorem c187_nested {ls : List (Log F)} {log : Log F} (hp : PartsOf ls log) (ha : ∀ l ∈ ls, l.attrs = log.attrs) {d : Option Classifier} {cs : List Classifier}
    {i : LogInfo} {is : List LogInfo} (h : createInfo log d cs = .ok i) (hs : List.Forall₂ (fun l j => createInfo l d cs = .ok j) ls is) (k : Str) :
    (∀ j ∈ is, j.logAttrs.times k = i.logAttrs.times k) ∧
    i.metaAttrs.times k + is.length * keyCount k (nestedOf log.attrs) = (is.map fun j => j.metaAttrs.times k).sum + keyCount k (nestedOf log.attrs) := by
  obtain ⟨-, -, a3, -, -, a6⟩ := c28_counts h
  have app : ∀ as bs : List (Attr F), keyCount k (as ++ bs) = keyCount k as + keyCount k bs := fun as bs => by
    simp only [keyCount, List.map_append, List.count_append]
  have hs' : List.Forall₂ (fun l j => l.attrs = log.attrs ∧ createInfo l d cs = .ok j) ls is := by
    clear hp h a3 a6
    induction hs with
    | nil => exact .nil
    | cons a _ ih => exact .cons ⟨ha _ List.mem_cons_self, a⟩ (ih fun l hl => ha l (List.mem_cons_of_mem _ hl))
  constructor
  · intro j hj
    obtain ⟨l, hl⟩ : ∃ l, l.attrs = log.attrs ∧ createInfo l d cs = .ok j := by
      clear hp h a3 a6 hs
      induction hs' with
      | nil => cases hj
      | cons a _ ih =>
        rcases List.mem_cons.1 hj with rfl | hj
        · exact ⟨_, a⟩
        · exact ih (fun l hl => ha l (List.mem_cons_of_mem _ hl)) hj
    rw [times_of (c28_counts hl.2).2.2.1, times_of a3, logLevel, logLevel, hl.1]
  · have hsum := sum_of_forall2 (f := fun l : Log F => keyCount k (nestedOf log.attrs) +
        (l.traces.map fun t => keyCount k (nestedOf t.attrs ++ t.events.flatMap fun e => nestedOf e.attrs)).sum) (g := fun j : LogInfo => j.metaAttrs.times k)
      (fun l j hj => by rw [times_of (c28_counts hj.2).2.2.2.2.2, metaLevel, app, keyCount_flatMap, hj.1]) hs'
    rw [hsum, times_of a6, metaLevel, app, keyCount_flatMap, ← parts_sum hp, hs.length_eq.symm]
    generalize keyCount k (nestedOf log.attrs) = N
    clear hsum hs' hs ha hp a6 a3 h
    induction ls with
    | nil => simp
    | cons l ls ih =>
      simp only [List.map_cons, List.sum_cons, List.length_cons, Nat.add_mul, Nat.one_mul] at ih ⊢
      omega

/-! ## When there are summaries -/

theorem every_parts {ls : List (Log F)} {log : Log F} (hp : PartsOf ls log) (ha : ∀ l ∈ ls, l.attrs = log.attrs) (hn : ls ≠ []) (a : Attr F) :
    (a ∈ everyAttr log ↔ ∃ l ∈ ls, a ∈ everyAttr l) ∧ (∀ l ∈ ls, (∀ a, a ∈ logLevel l → a ∈ logLevel log) ∧ (∀ a, a ∈ traceLevel l → a ∈ traceLevel log) ∧
      (∀ a, a ∈ eventLevel l → a ∈ eventLevel log) ∧ ∀ a, a ∈ metaLevel l → a ∈ metaLevel log) := by
  have sub : ∀ l ∈ ls, ∀ t ∈ l.traces, t ∈ log.traces := fun l hl t ht => hp.mem_iff.1 (List.mem_flatMap.2 ⟨l, hl, ht⟩)
  have low : ∀ l ∈ ls, (∀ a, a ∈ logLevel l → a ∈ logLevel log) ∧ (∀ a, a ∈ traceLevel l → a ∈ traceLevel log) ∧
      (∀ a, a ∈ eventLevel l → a ∈ eventLevel log) ∧ ∀ a, a ∈ metaLevel l → a ∈ metaLevel log := by
    intro l hl
    refine ⟨fun a h => by rw [logLevel, ← ha l hl]; exact h, fun a h => ?_, fun a h => ?_, fun a h => ?_⟩
    · obtain ⟨t, ht, h⟩ := List.mem_flatMap.1 h
      exact List.mem_flatMap.2 ⟨t, sub l hl t ht, h⟩
    · rw [eventLevel_eq] at h ⊢
      obtain ⟨t, ht, h⟩ := List.mem_flatMap.1 h
      exact List.mem_flatMap.2 ⟨t, sub l hl t ht, h⟩
    · rw [metaLevel, List.mem_append] at h ⊢
      rcases h with h | h
      · exact .inl (by rw [← ha l hl]; exact h)
      · obtain ⟨t, ht, h⟩ := List.mem_flatMap.1 h
        exact .inr (List.mem_flatMap.2 ⟨t, sub l hl t ht, h⟩)
  refine ⟨⟨fun h => ?_, ?_⟩, low⟩
  · have up : ∀ t ∈ log.traces, ∃ l ∈ ls, t ∈ l.traces := fun t ht => List.mem_flatMap.1 (hp.mem_iff.2 ht)
    obtain ⟨l0, hl0⟩ := List.exists_mem_of_ne_nil _ hn
    simp only [everyAttr, List.mem_append] at h ⊢
    rcases h with ((h | h) | h) | h
    · exact ⟨l0, hl0, .inl (.inl (.inl (by rw [logLevel, ha l0 hl0]; exact h)))⟩
    · obtain ⟨t, ht, h⟩ := List.mem_flatMap.1 h
      obtain ⟨l, hl, htl⟩ := up t ht
      exact ⟨l, hl, .inl (.inl (.inr (List.mem_flatMap.2 ⟨t, htl, h⟩)))⟩
    · rw [eventLevel_eq] at h
      obtain ⟨t, ht, h⟩ := List.mem_flatMap.1 h
      obtain ⟨l, hl, htl⟩ := up t ht
      exact ⟨l, hl, .inl (.inr (by rw [eventLevel_eq]; exact List.mem_flatMap.2 ⟨t, htl, h⟩))⟩
    · rw [metaLevel, List.mem_append] at h
      rcases h with h | h
      · exact ⟨l0, hl0, .inr (by rw [metaLevel, List.mem_append]; exact .inl (by rw [ha l0 hl0]; exact h))⟩
      · obtain ⟨t, ht, h⟩ := List.mem_flatMap.1 h
        obtain ⟨l, hl, htl⟩ := up t ht
        exact ⟨l, hl, .inr (by rw [metaLevel, List.mem_append]; exact .inr (List.mem_flatMap.2 ⟨t, htl, h⟩))⟩
  · rintro ⟨l, hl, h⟩
    obtain ⟨q1, q2, q3, q4⟩ := low l hl
    simp only [everyAttr, List.mem_append] at h ⊢
    rcases h with ((h | h) | h) | h
    · exact .inl (.inl (.inl (q1 a h)))
    · exact .inl (.inl (.inr (q2 a h)))
    · exact .inl (.inr (q3 a h))
    · exact .inr (q4 a h)

/-- C187: where a key comes with one type on each level and the parts have the attributes of the log, the log has a summary exactly if all parts have. -/
theorem c187_when {ls : List (Log F)} {log : Log F} (hp : PartsOf ls log) (ha : ∀ l ∈ ls, l.attrs = log.attrs) (hn : ls ≠ []) (ht : TypedLog log)
    (hc : ConsistentLog log) (d : Option Classifier) (cs : List Classifier) :
    (∃ i, createInfo log d cs = .ok i) ↔ ∀ l ∈ ls, ∃ i, createInfo l d cs = .ok i := by
  have tl : ∀ l ∈ ls, TypedLog l := fun l hl a h => ht a ((every_parts hp ha hn a).1.2 ⟨l, hl, h⟩)
  have cl : ∀ l ∈ ls, ConsistentLog l := by
    intro l hl
    obtain ⟨q1, q2, q3, q4⟩ := (every_parts hp ha hn (.mk .list [] none .none [] [])).2 l hl
    obtain ⟨c1, c2, c3, c4⟩ := hc
    exact ⟨fun a h b h' => c1 a (q1 a h) b (q1 b h'), fun a h b h' => c2 a (q2 a h) b (q2 b h'), fun a h b h' => c3 a (q3 a h) b (q3 b h'),
      fun a h b h' => c4 a (q4 a h) b (q4 b h')⟩
  rw [c29_success_iff ht hc]
  constructor
  · intro h l hl
    exact (c29_success_iff (tl l hl) (cl l hl) d cs).2 fun a hal => h a ((every_parts hp ha hn a).1.2 ⟨l, hl, hal⟩)
  · intro h a hal
    obtain ⟨l, hl, hal⟩ := (every_parts hp ha hn a).1.1 hal
    exact (c29_success_iff (tl l hl) (cl l hl) d cs).1 (h l hl) a hal

/-- C187: the logs that Cluster_a_log makes are parts of the log and have its attributes. -/
theorem c187_clusters {order : List Str → List Str} {c : Classifier} {ident : Event F → Str} {n : Nat} {predict : List (List Nat) → List Nat → Nat} {log : Log F}
    (hn : Names c ident log.traces) {ls : List (Log F)} (h : clusterLogs order c n predict log = .ok ls) :
    PartsOf ls log ∧ ∀ l ∈ ls, l.attrs = log.attrs :=
  ⟨(c100_partition hn h).2.1, fun l hl => (c101_exact_partial h l hl).1⟩

/-! ## Examples -/

/-- A trace with an attribute under `k`. -/
def keyTrace (a : Attr F) : Trace F := ⟨[(py!"k", a)], [⟨0, [(py!"concept:name", .mk .literal py!"concept:name" none (.str py!"A") [] [])]⟩]⟩

/-- A log of traces. -/
def tracesLog (ts : List (Trace F)) : Log F := ⟨[], [], [], [], [], [], ts⟩

/-- Two traces with different types under one key. -/
def oddTraces : List (Trace F) :=
  [keyTrace (.mk .literal py!"k" none (.str py!"x") [] []), keyTrace (.mk .timestamp py!"k" none (.dt ⟨2020, 1, 1, 0, 0, 0, 0, some 0⟩) [] [])]

/-- C187: the condition of `c187_when` is needed: a log may have a summary though a part of it has none. -/
theorem c187_when_refuted : PartsOf (oddTraces.map fun t => tracesLog [t]) (tracesLog (oddTraces (F := F))) ∧
    (∃ i, createInfo (tracesLog (oddTraces (F := F))) none [] = .ok i) ∧
    createInfo (tracesLog [keyTrace (F := F) (.mk .timestamp py!"k" none (.dt ⟨2020, 1, 1, 0, 0, 0, 0, some 0⟩) [] [])]) none [] = .error .attributeError :=
  ⟨List.Perm.refl _, ⟨_, rfl⟩, rfl⟩

/-- Two parts with summaries. -/
example : ∃ i is, createInfo (tracesLog ((oddTraces (F := F)).take 1 ++ (oddTraces (F := F)).take 1)) none [] = .ok i ∧
    List.Forall₂ (fun l j => createInfo l none [] = .ok j) [tracesLog ((oddTraces (F := F)).take 1), tracesLog ((oddTraces (F := F)).take 1)] is ∧
    PartsOf [tracesLog ((oddTraces (F := F)).take 1), tracesLog ((oddTraces (F := F)).take 1)] (tracesLog ((oddTraces (F := F)).take 1 ++ (oddTraces (F := F)).take 1)) ∧
    i.traceAttrs.times py!"k" = 2 ∧ i.eventAttrs.times py!"concept:name" = 2 :=
  ⟨_, [_, _], rfl, .cons rfl (.cons rfl .nil), List.Perm.refl _, rfl, rfl⟩

/-- The one trace of the parts above, twice. -/
def evenLog : Log F := tracesLog ((oddTraces (F := F)).take 1 ++ (oddTraces (F := F)).take 1)

/-- The conditions of `c187_when`. -/
example : PartsOf [tracesLog ((oddTraces (F := F)).take 1), tracesLog ((oddTraces (F := F)).take 1)] evenLog ∧
    (∀ l ∈ [tracesLog ((oddTraces (F := F)).take 1), tracesLog ((oddTraces (F := F)).take 1)], l.attrs = (evenLog (F := F)).attrs) ∧
    TypedLog (evenLog (F := F)) ∧ ConsistentLog (evenLog (F := F)) := by
  refine ⟨List.Perm.refl _, by simp [evenLog, tracesLog], ?_, ?_⟩
  · simp [TypedLog, evenLog, tracesLog, oddTraces, keyTrace, everyAttr, logLevel, traceLevel, eventLevel, metaLevel, allEvents, nestedOf, nestedIn, preorder, dvals, TypedVal, Attr.kind, Attr.val]
  · simp [ConsistentLog, OneTypePerKey, evenLog, tracesLog, oddTraces, keyTrace, logLevel, traceLevel, eventLevel, metaLevel, allEvents, nestedOf, nestedIn, preorder, dvals]

/-- The classes of a log and of its clusters: `a` occurs three times, twice in the first cluster and once in the second. -/
example : (clusterLogs id activityClassifier 2 (fun _ v => if v = [1, 1] then 0 else 1) exLog).toOption.map
    (fun ls => ls.map fun l => (deriveClasses activityClassifier l).toOption.map fun m => (classSize m py!"a", classSize m py!"b", classSize m py!"c")) =
      some [some (2, 2, 0), some (1, 0, 0)] ∧
    (deriveClasses activityClassifier exLog).toOption.map (fun m => (classSize m py!"a", classSize m py!"b", classSize m py!"c")) = some (3, 2, 0) := by decide +kernel

/-- The condition of `c187_clusters`. -/
example : Names activityClassifier (fun e => ((classIdentity activityClassifier e).toOption).getD []) exLog.traces := by
  unfold Names
  decide +kernel

end Opy
