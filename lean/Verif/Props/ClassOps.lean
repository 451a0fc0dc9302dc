import Verif.Model.ClassOps
import Verif.Props.EventClasses
/-
Properties C137 and C138: event classes built up step by step, and their equality.
-/
set_option linter.unusedSectionVars false
namespace Opy

section
variable {F : Type} [PyFloat F]

/-! ## Specification -/

/-- The events that a call hands over. -/
def ClassOp.events : ClassOp F → List (Event F)
  | .log l => (l.traces.map Trace.events).flatten
  | .trace t => t.events
  | .event e => [e]
  | _ => []

/-- `ids` are the identities of the events up to the first one that has none (it raises `err`). -/
inductive Heard (c : Classifier) : List (Event F) → List Str → Option PyErr → Prop where
  | done : Heard c [] [] none
  | raised {e : Event F} {es : List (Event F)} {x : PyErr} : classIdentity c e = .error x → Heard c (e :: es) [] (some x)
  | heard {e : Event F} {es : List (Event F)} {s : Str} {ids : List Str} {err : Option PyErr} :
      classIdentity c e = .ok s → Heard c es ids err → Heard c (e :: es) (s :: ids) err

/-- What a call counts, and what it raises. -/
inductive OpCounts (c : Classifier) : ClassOp F → List Str → Option PyErr → Prop where
  | name (s : Str) : OpCounts c (.name s) [s] none
  | harmonize : OpCounts c .harmonize [] none
  | element {o : ClassOp F} {ids : List Str} {err : Option PyErr} : (∀ s, o ≠ .name s) → o ≠ .harmonize → Heard c o.events ids err → OpCounts c o ids err

/-- What a history counts. -/
inductive OpsCount (c : Classifier) : List (ClassOp F) → List Str → Prop where
  | nil : OpsCount c [] []
  | cons {o : ClassOp F} {os : List (ClassOp F)} {a b : List Str} {err : Option PyErr} : OpCounts c o a err → OpsCount c os b → OpsCount c (o :: os) (a ++ b)

/-! ## Counting -/

theorem countEvents_heard (c : Classifier) : ∀ (es : List (Event F)) (m : ClassMap),
    ∃ ids err, Heard c es ids err ∧ countEvents c m es = (ids.foldl registerId m, err)
  | [], m => ⟨[], none, .done, rfl⟩
  | e :: es, m => by
    cases h : classIdentity c e with
    | error x => exact ⟨[], some x, .raised h, by simp [countEvents, h]⟩
    | ok s =>
      obtain ⟨ids, err, h1, h2⟩ := countEvents_heard c es (registerId m s)
      exact ⟨s :: ids, err, .heard h h1, by simp [countEvents, h, h2]⟩

theorem Heard.append {c : Classifier} {es fs : List (Event F)} {a b : List Str} {err : Option PyErr} (h1 : Heard c es a none) (h2 : Heard c fs b err) :
    Heard c (es ++ fs) (a ++ b) err := by
  generalize hn : (none : Option PyErr) = n at h1
  induction h1 with
  | done => exact h2
  | raised _ => cases hn
  | heard he _ ih => exact .heard he (ih hn)

theorem Heard.stops {c : Classifier} {es fs : List (Event F)} {a : List Str} {x : PyErr} (h1 : Heard c es a (some x)) :
    Heard c (es ++ fs) a (some x) := by
  generalize hn : some x = n at h1
  induction h1 with
  | done => cases hn
  | raised h => exact .raised h
  | heard he _ ih => exact .heard he (ih hn)

theorem countTraces_heard (c : Classifier) : ∀ (ts : List (Trace F)) (m : ClassMap),
    ∃ ids err, Heard c (ts.map Trace.events).flatten ids err ∧ countTraces c m ts = (ids.foldl registerId m, err)
  | [], m => ⟨[], none, .done, rfl⟩
  | t :: ts, m => by
    obtain ⟨a, err, h1, h2⟩ := countEvents_heard c t.events m
    cases err with
    | some x => exact ⟨a, some x, by simpa using h1.stops, by simp [countTraces, h2]⟩
    | none =>
      obtain ⟨b, err, h3, h4⟩ := countTraces_heard c ts (a.foldl registerId m)
      exact ⟨a ++ b, err, by simpa using h1.append h3, by simp [countTraces, h2, h4]⟩

/-- A call counts what the specification says, and raises what it says. -/
theorem run_counts (c : Classifier) (m : ClassMap) (o : ClassOp F) : ∃ ids err, OpCounts c o ids err ∧ (o.run c m).2 = err ∧
    (o.run c m).1 = if o matches .harmonize then harmonize m else ids.foldl registerId m := by
  cases o with
  | log l =>
    obtain ⟨ids, err, h1, h2⟩ := countTraces_heard c l.traces m
    exact ⟨ids, err, .element (by simp) (by simp) h1, by simp [ClassOp.run, h2], by simp [ClassOp.run, h2]⟩
  | trace t =>
    obtain ⟨ids, err, h1, h2⟩ := countEvents_heard c t.events m
    exact ⟨ids, err, .element (by simp) (by simp) h1, by simp [ClassOp.run, h2], by simp [ClassOp.run, h2]⟩
  | event e =>
    cases h : classIdentity c e with
    | ok s => exact ⟨[s], none, .element (by simp) (by simp) (.heard h .done), by simp [ClassOp.run, h], by simp [ClassOp.run, h]⟩
    | error x => exact ⟨[], some x, .element (by simp) (by simp) (.raised h), by simp [ClassOp.run, h], by simp [ClassOp.run, h]⟩
  | name s => exact ⟨[s], none, .name s, rfl, rfl⟩
  | harmonize => exact ⟨[], none, .harmonize, rfl, rfl⟩

theorem Heard.unique {c : Classifier} {es : List (Event F)} {a b : List Str} {x y : Option PyErr} (h1 : Heard c es a x) (h2 : Heard c es b y) :
    a = b ∧ x = y := by
  induction h1 generalizing b y with
  | done => cases h2; exact ⟨rfl, rfl⟩
  | raised h => cases h2 with
    | raised h' => rw [h] at h'; cases h'; exact ⟨rfl, rfl⟩
    | heard h' => rw [h] at h'; cases h'
  | heard h _ ih => cases h2 with
    | raised h' => rw [h] at h'; cases h'
    | heard h' h2 => rw [h] at h'; cases h'; obtain ⟨rfl, rfl⟩ := ih h2; exact ⟨rfl, rfl⟩

theorem OpCounts.unique {c : Classifier} {o : ClassOp F} {a b : List Str} {x y : Option PyErr} (h1 : OpCounts c o a x) (h2 : OpCounts c o b y) :
    a = b ∧ x = y := by
  cases h1 with
  | name s => cases h2 with
    | name => exact ⟨rfl, rfl⟩
    | element h => exact absurd rfl (h s)
  | harmonize => cases h2 with
    | harmonize => exact ⟨rfl, rfl⟩
    | element _ h => exact absurd rfl h
  | element h h' h1 => cases h2 with
    | name s => exact absurd rfl (h s)
    | harmonize => exact absurd rfl h'
    | element _ _ h2 => exact h1.unique h2

theorem OpsCount.unique {c : Classifier} {os : List (ClassOp F)} {a b : List Str} (h1 : OpsCount c os a) (h2 : OpsCount c os b) : a = b := by
  induction h1 generalizing b with
  | nil => cases h2; rfl
  | cons h _ ih => cases h2 with
    | cons h' h2 => rw [(h.unique h').1, ih h2]

/-- Every history counts something. -/
theorem countsAll_exists (c : Classifier) : ∀ os : List (ClassOp F), ∃ H, OpsCount c os H
  | [] => ⟨[], .nil⟩
  | o :: os => by
    obtain ⟨a, err, h, -⟩ := run_counts c [] o
    obtain ⟨b, h'⟩ := countsAll_exists c os
    exact ⟨a ++ b, .cons h h'⟩

/-! ## The invariant -/

/-- The state after counting `H`: the classes, and indices that are the numbers below their number. -/
structure ClassInv (m : ClassMap) (H : List Str) : Prop where
  col : Collected m H
  idx : ((dvals m).map EventClass.index).Perm ((List.range m.length).map Int.ofNat)

theorem dvals_dset_index {s : Str} {c c' : EventClass} : ∀ {m : ClassMap}, dget s m = some c → c'.index = c.index →
    (dvals (dset s c' m)).map EventClass.index = (dvals m).map EventClass.index
  | [], h, _ => by cases h
  | (k, v) :: m, h, hi => by
    by_cases e : k = s
    · subst e
      simp [dget] at h
      subst h
      simp [dset, dvals, hi]
    · have h' : dget s m = some c := by simpa [dget, e] using h
      have := dvals_dset_index h' hi
      simp only [dvals] at this ⊢
      simp [dset, e, this]

theorem length_dset_some {s : Str} {c c' : EventClass} {m : ClassMap} (h : dget s m = some c) : (dset s c' m).length = m.length := by
  have h1 : s ∈ dkeys m := dget_isSome.1 ⟨_, h⟩
  have h2 := congrArg List.length (dkeys_dset s c' m)
  rw [if_pos h1] at h2
  simpa [dkeys] using h2

theorem ClassInv.step {m : ClassMap} {H : List Str} (h : ClassInv m H) (s : Str) : ClassInv (registerId m s) (H ++ [s]) := by
  refine ⟨h.col.step s, ?_⟩
  unfold registerId
  cases hd : dget s m with
  | none =>
    have hs : s ∉ dkeys m := dget_eq_none.1 hd
    simp only
    rw [dset_eq_append _ hs]
    have : dvals (m ++ [(s, (⟨s, m.length, 0 + 1⟩ : EventClass))]) = dvals m ++ [⟨s, m.length, 0 + 1⟩] := by simp [dvals]
    rw [this, List.map_append, List.length_append, List.length_singleton, List.range_succ, List.map_append]
    exact h.idx.append (.refl _)
  | some c =>
    simp only
    rw [dvals_dset_index (c' := { c with size := c.size + 1 }) hd rfl, length_dset_some hd]
    exact h.idx

theorem ClassInv.foldl : ∀ (ids : List Str) {m : ClassMap} {H : List Str}, ClassInv m H → ClassInv (ids.foldl registerId m) (H ++ ids)
  | [], m, H, h => by simpa using h
  | s :: ids, m, H, h => by simpa using ClassInv.foldl ids (h.step s)

theorem classTable_inv {K H : List Str} (hK : K.Pairwise (fun a b => strLt a b = true)) (hm : ∀ s, s ∈ K ↔ s ∈ H) : ClassInv (classTable K H) H := by
  have hn := sorted_nodup hK
  refine ⟨⟨by rw [classTable_keys]; exact hn, by rw [classTable_keys]; exact hm, ?_⟩, ?_⟩
  · intro s c h
    obtain ⟨i, _, rfl⟩ := (classTable_get hn).1 h
    exact ⟨rfl, rfl⟩
  · have : (dvals (classTable K H)).map EventClass.index = (List.range (classTable K H).length).map Int.ofNat := by
      apply List.ext_getElem
      · simp [classTable, dvals]
      · intro i h1 h2
        simp [classTable, dvals]
    rw [this]

theorem ClassInv.harmonize {m : ClassMap} {H : List Str} (h : ClassInv m H) : ClassInv (Opy.harmonize m) H := by
  obtain ⟨K, h1, h2, h3⟩ := harmonize_table h.col
  rw [h1]
  exact classTable_inv h2 h3

theorem ClassInv.nil : ClassInv [] [] := ⟨⟨by simp [dkeys], by simp [dkeys], by simp⟩, by simp [dvals]⟩

theorem ClassInv.run {c : Classifier} {o : ClassOp F} {a : List Str} {err : Option PyErr} {m : ClassMap} {H : List Str} (h : ClassInv m H)
    (ho : OpCounts c o a err) : ClassInv (o.run c m).1 (H ++ a) := by
  obtain ⟨ids, err', h1, -, h3⟩ := run_counts c m o
  obtain ⟨rfl, rfl⟩ := h1.unique ho
  by_cases hh : o = .harmonize
  · subst hh
    have : ids = [] := by
      cases h1 with
      | harmonize => rfl
      | element _ h => exact absurd rfl h
    subst this
    simpa [ClassOp.run] using h.harmonize
  · rw [h3, if_neg (by cases o <;> simp_all)]
    exact h.foldl ids

theorem ClassInv.history {c : Classifier} : ∀ {os : List (ClassOp F)} {m : ClassMap} {H G : List Str}, ClassInv m G → OpsCount c os H →
    ClassInv (runClassOps c m os) (G ++ H)
  | [], m, H, G, h, hc => by cases hc; simpa [runClassOps] using h
  | o :: os, m, H, G, h, hc => by
    cases hc with
    | cons h1 h2 =>
      rw [← List.append_assoc]
      simp only [runClassOps]
      exact ClassInv.history (h.run h1) h2

/-! ## C137 -/

/-- C137: a call raises exactly what the first event without an identity raises. -/
theorem c137_raises (c : Classifier) (m : ClassMap) {o : ClassOp F} {ids : List Str} {err : Option PyErr} (h : OpCounts c o ids err) :
    (o.run c m).2 = err := by
  obtain ⟨_, _, h1, h2, _⟩ := run_counts c m o
  rw [h2, (h1.unique h).2]

/-- C137: after any history there is a class for exactly the identities counted, with their number as its size. -/
theorem c137_classes {c : Classifier} {os : List (ClassOp F)} {H : List Str} (h : OpsCount c os H) (s : Str) :
    (s ∈ H → ∃ cl, getByIdentity (runClassOps c [] os) s = some cl ∧ cl.id = s ∧ cl.size = H.count s) ∧
    (s ∉ H → getByIdentity (runClassOps c [] os) s = none) := by
  have hi := ClassInv.nil.history h
  rw [List.nil_append] at hi
  refine ⟨fun hs => ?_, fun hs => ?_⟩
  · obtain ⟨cl, hcl⟩ := dget_isSome.2 ((hi.col.keys s).2 hs)
    exact ⟨cl, hcl, hi.col.entry s cl hcl⟩
  · exact dget_eq_none.2 fun hm => hs ((hi.col.keys s).1 hm)

/-- C137: after any history every number below the number of classes is the index of exactly one class. -/
theorem c137_indices {c : Classifier} {os : List (ClassOp F)} (i : Int) :
    (∃ cl, getByIndex (runClassOps c [] os) i = some cl) ↔ 0 ≤ i ∧ i < (runClassOps c [] os).length := by
  obtain ⟨H, h⟩ := countsAll_exists c os
  have hi := (ClassInv.nil.history h).idx
  generalize runClassOps c [] os = m at hi ⊢
  have : (∃ cl, getByIndex m i = some cl) ↔ i ∈ (dvals m).map EventClass.index := by
    unfold getByIndex
    rw [← Option.isSome_iff_exists, List.find?_isSome]
    simp
  rw [this, hi.mem_iff]
  simp only [List.mem_map, List.mem_range]
  constructor
  · rintro ⟨n, hn, rfl⟩; simp; omega
  · rintro ⟨h1, h2⟩; exact ⟨i.toNat, by omega, by simp; omega⟩

theorem c137_one_index {c : Classifier} {os : List (ClassOp F)} {a b : EventClass} (ha : a ∈ dvals (runClassOps c [] os))
    (hb : b ∈ dvals (runClassOps c [] os)) (he : a.index = b.index) : a = b := by
  obtain ⟨H, h⟩ := countsAll_exists c os
  have hi := (ClassInv.nil.history h).idx
  generalize runClassOps c [] os = m at hi ha hb
  have hn : ((dvals m).map EventClass.index).Nodup := by
    rw [hi.nodup_iff]
    exact List.Pairwise.map Int.ofNat (fun a b h e => h (Int.ofNat.inj e)) List.nodup_range
  have hp : (dvals m).Pairwise (fun a b => a.index ≠ b.index) := List.pairwise_map.1 hn
  obtain ⟨i, hi, rfl⟩ := List.getElem_of_mem ha
  obtain ⟨j, hj, rfl⟩ := List.getElem_of_mem hb
  rw [List.pairwise_iff_getElem] at hp
  rcases Nat.lt_trichotomy i j with h | h | h
  · exact absurd he (hp i j hi hj h)
  · subst h; rfl
  · exact absurd he.symm (hp j i hj hi h)

/-- C137: counting keeps the identities and indices of the classes there are. -/
theorem c137_stable (c : Classifier) (m : ClassMap) {o : ClassOp F} (ho : o ≠ .harmonize) {s : Str} {cl : EventClass}
    (h : getByIdentity m s = some cl) : ∃ n, getByIdentity (o.run c m).1 s = some { cl with size := n } := by
  have key : ∀ (ids : List Str) (m : ClassMap) (k : Nat), dget s m = some { cl with size := k } → ∃ n, dget s (ids.foldl registerId m) = some { cl with size := n } := by
    intro ids
    induction ids with
    | nil => intro m k h; exact ⟨k, h⟩
    | cons x ids ih =>
      intro m k h
      rw [List.foldl_cons]
      unfold registerId
      cases hx : dget x m with
      | none =>
        refine ih _ k ?_
        rw [dget_dset_ne (by rintro rfl; rw [h] at hx; cases hx)]
        exact h
      | some d =>
        by_cases e : s = x
        · subst e
          rw [h] at hx
          cases hx
          exact ih _ (k + 1) (dget_dset_self _ _ _)
        · exact ih _ k (by simp only; rw [dget_dset_ne e]; exact h)
  obtain ⟨ids, _, _, _, h3⟩ := run_counts c m o
  unfold getByIdentity
  rw [h3, if_neg (by cases o <;> simp_all)]
  exact key ids m cl.size h

theorem runClassOps_append (c : Classifier) : ∀ (a b : List (ClassOp F)) (m : ClassMap), runClassOps c m (a ++ b) = runClassOps c (runClassOps c m a) b
  | [], _, _ => rfl
  | _ :: a, b, _ => runClassOps_append c a b _

theorem OpsCount.snoc {c : Classifier} {os : List (ClassOp F)} {H : List Str} (h : OpsCount c (os ++ [.harmonize]) H) : OpsCount c os H := by
  obtain ⟨G, hG⟩ := countsAll_exists c os
  have key : ∀ {os : List (ClassOp F)} {G : List Str}, OpsCount c os G → OpsCount c (os ++ [.harmonize]) G := by
    intro os G h
    induction h with
    | nil => exact .cons .harmonize .nil
    | cons h _ ih => exact .cons h ih
  rw [h.unique (key hG)]
  exact hG

theorem harmonize_perm {m m' : ClassMap} {H H' : List Str} (h : Collected m H) (h' : Collected m' H') (hp : H.Perm H') : harmonize m = harmonize m' := by
  obtain ⟨K, h1, h2, h3⟩ := harmonize_table h
  obtain ⟨K', h1', h2', h3'⟩ := harmonize_table h'
  have hK : K = K' := by
    have hp : K.Perm K' := (List.perm_ext_iff_of_nodup (sorted_nodup h2) (sorted_nodup h2')).2 fun s => by rw [h3, h3', hp.mem_iff]
    exact hp.eq_of_pairwise (fun a b _ _ hab hba => absurd hba (by rw [strLt_asymm hab]; simp)) h2 h2'
  subst hK
  rw [h1, h1']
  unfold classTable
  apply List.map_congr_left
  intro p _
  rw [hp.count_eq]

/-- C137: a history that ends with harmonize_indices gives the classes that derive_event_classes gives for any log
whose events have the identities counted, in whatever order and however they were handed over. -/
theorem c137_harmonized {c : Classifier} {os : List (ClassOp F)} {H : List Str} (h : OpsCount c (os ++ [.harmonize]) H) {log : Log F}
    {ids : List Str} (hl : IdentitiesOf c log ids) (hp : H.Perm ids) : deriveClasses c log = .ok (runClassOps c [] (os ++ [.harmonize])) := by
  have h1 := (ClassInv.nil.history h.snoc).col
  rw [List.nil_append] at h1
  rw [runClassOps_append]
  simp only [deriveClasses, registerTraces_ids [] hl, bind, Except.bind, runClassOps, ClassOp.run]
  rw [harmonize_perm h1 (collected ids) hp]

/-! ## C138 -/

/-- C138 (violated): two sets of event classes are equal exactly when their classifiers are, whatever classes they have. -/
theorem c138_exact (a b : Classifier × ClassMap) : eventClassesEq a b = true ↔ a.1.name = b.1.name ∧ a.1.keys = b.1.keys :=
  (c17_zero_iff a.1 b.1).2

/-- ... for example the classes of a log without events and those after counting any identity. -/
theorem c138_refuted (c : Classifier) (s : Str) : eventClassesEq (c, runClassOps (F := F) c [] []) (c, runClassOps (F := F) c [] [.name s]) = true ∧
    getByIdentity (runClassOps (F := F) c [] []) s = none ∧ ∃ cl, getByIdentity (runClassOps (F := F) c [] [.name s]) s = some cl :=
  ⟨(c138_exact _ _).2 ⟨rfl, rfl⟩, rfl, _, dget_dset_self _ _ _⟩

end

/-! ## Example -/

/-- An event with a name. -/
def opEvent (s : Str) : Event ToyFloat := ⟨0, [(py!"concept:name", .mk .literal py!"concept:name" none (.str s) [] [])]⟩

/-- Names are counted, the indices are set, and more events follow. -/
def opHistory : List (ClassOp ToyFloat) :=
  [.name py!"pay", .trace ⟨[], [opEvent py!"order", opEvent py!"pay"]⟩, .harmonize, .event (opEvent py!"cancel"), .event (opEvent py!"pay")]

theorem counts_trace {c : Classifier} {t : Trace ToyFloat} {ids : List Str} {err : Option PyErr} (h : Heard c t.events ids err) : OpCounts c (.trace t) ids err :=
  .element (by simp) (by simp) h

theorem counts_event {c : Classifier} {e : Event ToyFloat} {ids : List Str} {err : Option PyErr} (h : Heard c [e] ids err) : OpCounts c (.event e) ids err :=
  .element (by simp) (by simp) h

example : OpsCount ⟨py!"n", [py!"concept:name"]⟩ opHistory ([py!"pay"] ++ ([py!"order", py!"pay"] ++ ([] ++ ([py!"cancel"] ++ ([py!"pay"] ++ []))))) :=
  .cons (.name _) (.cons (counts_trace (.heard rfl (.heard rfl .done)))
    (.cons .harmonize (.cons (counts_event (.heard rfl .done)) (.cons (counts_event (.heard rfl .done)) .nil))))

example : dvals (runClassOps ⟨py!"n", [py!"concept:name"]⟩ [] opHistory) =
    [⟨py!"order", 0, 1⟩, ⟨py!"pay", 1, 3⟩, ⟨py!"cancel", 2, 1⟩] := by decide +kernel

example : dvals (runClassOps ⟨py!"n", [py!"concept:name"]⟩ [] (opHistory ++ [.harmonize])) =
    [⟨py!"cancel", 0, 1⟩, ⟨py!"order", 1, 1⟩, ⟨py!"pay", 2, 3⟩] := by decide +kernel

/-- An event that raises: the identity of a timestamp without a date.  What came before stays counted. -/
example : (ClassOp.trace (F := ToyFloat) ⟨[], [opEvent py!"a", ⟨0, [(py!"concept:name", .mk .timestamp py!"concept:name" none .none [] [])]⟩, opEvent py!"b"]⟩).run
    ⟨py!"n", [py!"concept:name"]⟩ [] = ([(py!"a", ⟨py!"a", 0, 1⟩)], some .attributeError) := by decide +kernel

end Opy
