import Verif.Props.Alpha
import Verif.Props.Examples2
import Verif.Props.Analyse
/-
C148, C149: the net of the alpha algorithm depends on the variants of the log only; which sequences of activities it can run
(example/AlphaAlgorithm.py).
-/
set_option linter.unusedSectionVars false
namespace Opy

/-! ## Specification: running a net -/

/-- The places of a net: the start place, the end place, and one for each pair of sets. -/
inductive NetPlace where
  | start
  | stop
  | between (A B : Str → Prop)

/-- The places from which an activity takes a token (C93: these are the places that its line in the text names after `in`). -/
def Takes (net : AlphaNet) (e : Str) : NetPlace → Prop
  | .start => e ∈ net.events.starting
  | .stop => False
  | .between A B => (∃ p ∈ net.places, Lists p A B) ∧ B e

/-- The places to which an activity adds a token (the names after `out`). -/
def Puts (net : AlphaNet) (e : Str) : NetPlace → Prop
  | .start => False
  | .stop => e ∈ net.events.ending
  | .between A B => (∃ p ∈ net.places, Lists p A B) ∧ A e

/-- How many tokens are in each place. -/
abbrev Marking := NetPlace → Nat

open Classical in
/-- One if it holds. -/
noncomputable def tokenIf (p : Prop) : Nat := if p then 1 else 0

/-- An activity of the net happens: there is a token in each place it takes from. -/
def Fires (net : AlphaNet) (m : Marking) (e : Str) (m' : Marking) : Prop :=
  e ∈ net.events.all ∧ (∀ n, Takes net e n → 1 ≤ m n) ∧
  ∀ n, m' n = m n - tokenIf (Takes net e n) + tokenIf (Puts net e n)

/-- A sequence of activities happens. -/
inductive Runs (net : AlphaNet) : Marking → List Str → Marking → Prop where
  | nil {m : Marking} : Runs net m [] m
  | cons {m m' m'' : Marking} {e : Str} {es : List Str} : Fires net m e m' → Runs net m' es m'' → Runs net m (e :: es) m''

/-- One token in the place and no other. -/
noncomputable def oneToken (n : NetPlace) : Marking := fun x => tokenIf (x = n)

/-- The net can run the sequence from the token in the start place to a token in the end place, with nothing left over. -/
def Accepts (net : AlphaNet) (es : List Str) : Prop := Runs net (oneToken .start) es (oneToken .stop)

/-- The two nets are the same but for the order in which sets are enumerated. -/
structure SameNet (n n' : AlphaNet) : Prop where
  starting : ∀ a, a ∈ n.events.starting ↔ a ∈ n'.events.starting
  ending : ∀ a, a ∈ n.events.ending ↔ a ∈ n'.events.ending
  all : ∀ a, a ∈ n.events.all ↔ a ∈ n'.events.all
  places : ∀ A B : Str → Prop, (∃ p ∈ n.places, Lists p A B) ↔ ∃ p ∈ n'.places, Lists p A B

/-! ## C148 -/

theorem sameNet_fires {n n' : AlphaNet} (h : SameNet n n') {m m' : Marking} {e : Str} : Fires n m e m' → Fires n' m e m' := by
  have ht : ∀ x, Takes n e x ↔ Takes n' e x := by
    intro x
    cases x with
    | start => exact h.starting e
    | stop => exact Iff.rfl
    | between A B => exact and_congr_left' (h.places A B)
  have hp : ∀ x, Puts n e x ↔ Puts n' e x := by
    intro x
    cases x with
    | start => exact Iff.rfl
    | stop => exact h.ending e
    | between A B => exact and_congr_left' (h.places A B)
  rintro ⟨h1, h2, h3⟩
  refine ⟨(h.all e).1 h1, fun x hx => h2 x ((ht x).2 hx), fun x => ?_⟩
  rw [h3 x, propext (ht x), propext (hp x)]

theorem SameNet.symm {n n' : AlphaNet} (h : SameNet n n') : SameNet n' n :=
  ⟨fun a => (h.starting a).symm, fun a => (h.ending a).symm, fun a => (h.all a).symm, fun A B => (h.places A B).symm⟩

theorem sameNet_runs {n n' : AlphaNet} (h : SameNet n n') {m m' : Marking} {es : List Str} (hr : Runs n m es m') : Runs n' m es m' := by
  induction hr with
  | nil => exact .nil
  | cons hf _ ih => exact .cons (sameNet_fires h hf) ih

/-- C148: nets that differ only in the order of enumeration accept the same sequences. -/
theorem c148_accepts {n n' : AlphaNet} (h : SameNet n n') (es : List Str) : Accepts n es ↔ Accepts n' es :=
  ⟨sameNet_runs h, sameNet_runs h.symm⟩

theorem maximalPair_congr {log log' : List (List Str)} (hl : ∀ t, t ∈ log ↔ t ∈ log') {A B : Str → Prop} (h : MaximalPair log A B) :
    MaximalPair log' A B := by
  have ho : ∀ a, Occurs log a = Occurs log' a := fun a => propext (by simp only [Occurs, hl])
  have hf : ∀ a b, Follows log a b = Follows log' a b := fun a b => propext (by simp only [Follows, hl])
  have hc : ∀ a b, Causes log a b = Causes log' a b := fun a b => by simp only [Causes, hf]
  have hu : ∀ a b, Unrelated log a b = Unrelated log' a b := fun a b => by simp only [Unrelated, hf]
  have key : ∀ A B : Str → Prop, AlphaPair log A B ↔ AlphaPair log' A B := by
    intro A B
    constructor
    · rintro ⟨a, b, c, d⟩
      simp only [ho, hc, hu] at a c d
      exact ⟨a, b, c, d⟩
    · rintro ⟨a, b, c, d⟩
      simp only [← ho, ← hc, ← hu] at a c d
      exact ⟨a, b, c, d⟩
  exact ⟨(key A B).1 h.isPair, fun A' B' h' => h.maximal A' B' ((key A' B').2 h')⟩

/-- C148: logs with the same variants (sequences of activities), however often and in whatever order they occur, have the same net,
whatever the order in which the sets are enumerated; or the algorithm raises for both. -/
theorem c148_variants {order order' : List Str → List Str} {orderP orderP' : List (List Str × List Str) → List (List Str × List Str)}
    (ho : Enumerates order) (ho' : Enumerates order') {log log' : List (List Str)} (hl : ∀ t, t ∈ log ↔ t ∈ log') :
    (alpha order orderP log = .error .indexError ∧ alpha order' orderP' log' = .error .indexError) ∨
    ∃ n n', alpha order orderP log = .ok n ∧ alpha order' orderP' log' = .ok n' ∧ SameNet n n' := by
  obtain ⟨e1, k1⟩ := c94_events order orderP log
  obtain ⟨e2, k2⟩ := c94_events order' orderP' log'
  by_cases he : [] ∈ log
  · exact .inl ⟨e1 he, e2 ((hl _).1 he)⟩
  · obtain ⟨n, hn, s1, t1, a1, _⟩ := k1 he
    obtain ⟨n', hn', s2, t2, a2, _⟩ := k2 (fun h => he ((hl _).2 h))
    have p1 := c93_places ho hn
    have p2 := c93_places ho' hn'
    have lists_eq : ∀ {p : List Str × List Str} {A B : Str → Prop}, Lists p A B → (· ∈ p.1) = A ∧ (· ∈ p.2) = B := by
      intro p A B h
      exact ⟨funext fun x => propext (h.1 x), funext fun x => propext (h.2 x)⟩
    refine .inr ⟨n, n', hn, hn', ?_, ?_, ?_, ?_⟩
    · intro a; rw [s1, s2]; simp only [Starts, hl]
    · intro a; rw [t1, t2]; simp only [Ends, hl]
    · intro a; rw [a1, a2]; simp only [Occurs, hl]
    · intro A B
      constructor
      · rintro ⟨p, hp, hAB⟩
        obtain ⟨rfl, rfl⟩ := lists_eq hAB
        obtain ⟨q, hq, hq', _⟩ := p2.2 _ _ (maximalPair_congr hl (p1.1 p hp))
        exact ⟨q, hq, hq'⟩
      · rintro ⟨p, hp, hAB⟩
        obtain ⟨rfl, rfl⟩ := lists_eq hAB
        obtain ⟨q, hq, hq', _⟩ := p1.2 _ _ (maximalPair_congr (fun t => (hl t).symm) (p2.1 p hp))
        exact ⟨q, hq, hq'⟩

section
variable {F : Type} [PyFloat F]

/-- C148: the compressed log (example/filter_compress_log.py) has the same net. -/
theorem c148_compressed {order order' : List Str → List Str} {orderP orderP' : List (List Str × List Str) → List (List Str × List Str)}
    (ho : Enumerates order) (ho' : Enumerates order') {c : Classifier} {ident : Event F → Str} {log new : List (Trace F)}
    (hn : Names c ident log) (hc : compress c log = .ok new) :
    ∃ ids ids', logIds c log = .ok ids ∧ logIds c new = .ok ids' ∧
    ((alpha order orderP ids = .error .indexError ∧ alpha order' orderP' ids' = .error .indexError) ∨
      ∃ n n', alpha order orderP ids = .ok n ∧ alpha order' orderP' ids' = .ok n' ∧ SameNet n n') := by
  obtain ⟨_, h2, h3⟩ := c95_variants hn hc
  exact ⟨_, _, logIds_eq hn, logIds_eq (fun t ht => hn t (h3.subset ht)), c148_variants ho ho' fun t => (h2 t).symm⟩

theorem clusterIds_by_identity {c : Classifier} : ∀ {es es1 : List (Event F)}, es1.map (classIdentity c) = es.map (classIdentity c) →
    clusterIds c es1 = clusterIds c es
  | [], [], _ => rfl
  | [], _ :: _, h => by simp at h
  | _ :: _, [], h => by simp at h
  | e :: es, e1 :: es1, h => by
    simp only [List.map_cons, List.cons.injEq] at h
    simp only [clusterIds, h.1, clusterIds_by_identity h.2]

theorem logIds_by_identity {c : Classifier} : ∀ {ts ts1 : List (Trace F)},
    ts1.map (fun t => t.events.map (classIdentity c)) = ts.map (fun t => t.events.map (classIdentity c)) → logIds c ts1 = logIds c ts
  | [], [], _ => rfl
  | [], _ :: _, h => by simp at h
  | _ :: _, [], h => by simp at h
  | t :: ts, t1 :: ts1, h => by
    simp only [List.map_cons, List.cons.injEq] at h
    simp only [logIds, clusterIds_by_identity h.1, logIds_by_identity h.2]

/-- C148: the log loaded from the file a log was saved to gives the algorithm the same input, when what the attributes under the keys
of the classifier print survives the file (C143). -/
theorem c148_loaded (hf : FloatText F) {mgr : ExtMgr} {modern : Bool} {L L1 : Log F} (hL : WritableLog L)
    (h : FileHolds mgr modern L L1.content) {c : Classifier}
    (hk : ∀ t ∈ L.traces, ∀ e ∈ t.events, PrintKept (valueBack modern) c.keys e.attrs) : logIds c L1.traces = logIds c L.traces :=
  logIds_by_identity (c143_identities hf hL h hk)

end

/-! ## C149 -/

/-- The traces of the log have no activity twice, and no activity in common. -/
structure SeparateTraces (log : List (List Str)) : Prop where
  once : ∀ t ∈ log, t.Nodup
  apart : ∀ s ∈ log, ∀ t ∈ log, ∀ a, a ∈ s → a ∈ t → s = t

theorem split_unique {a : Str} : ∀ {u v u' v' : List Str}, (u ++ a :: v).Nodup → u ++ a :: v = u' ++ a :: v' → u = u' ∧ v = v' := by
  intro u
  induction u with
  | nil =>
    intro v u' v' hn h
    cases u' with
    | nil => simpa using h
    | cons x u' =>
      simp only [List.nil_append, List.cons_append, List.cons.injEq] at h
      obtain ⟨rfl, rfl⟩ := h
      simp at hn
  | cons y u ih =>
    intro v u' v' hn h
    cases u' with
    | nil =>
      simp only [List.nil_append, List.cons_append, List.cons.injEq] at h
      obtain ⟨rfl, rfl⟩ := h
      simp at hn
    | cons x u' =>
      simp only [List.cons_append, List.cons.injEq] at h
      obtain ⟨rfl, h⟩ := h
      obtain ⟨rfl, rfl⟩ := ih (List.nodup_cons.1 hn).2 h
      exact ⟨rfl, rfl⟩

theorem split_same {log : List (List Str)} (hs : SeparateTraces log) {a : Str} {u v u' v' : List Str} (h : u ++ a :: v ∈ log)
    (h' : u' ++ a :: v' ∈ log) : u = u' ∧ v = v' :=
  split_unique (hs.once _ h) (hs.apart _ h _ h' a (by simp) (by simp))

theorem follows_split {log : List (List Str)} {a b : Str} : Follows log a b ↔ ∃ u v, u ++ a :: b :: v ∈ log := by
  constructor
  · rintro ⟨t, ht, u, v, rfl⟩
    exact ⟨u, v, ht⟩
  · rintro ⟨u, v, h⟩
    exact ⟨_, h, u, v, rfl⟩

theorem follows_next {log : List (List Str)} (hs : SeparateTraces log) {a b : Str} {u v : List Str} (h : u ++ a :: v ∈ log) :
    Follows log a b ↔ ∃ w, v = b :: w := by
  rw [follows_split]
  constructor
  · rintro ⟨u', v', h'⟩
    obtain ⟨_, e⟩ := split_same hs h h'
    exact ⟨v', e⟩
  · rintro ⟨w, rfl⟩
    exact ⟨u, w, h⟩

theorem follows_prev {log : List (List Str)} (hs : SeparateTraces log) {a b : Str} {u v : List Str} (h : u ++ b :: v ∈ log) :
    Follows log a b ↔ ∃ w, u = w ++ [a] := by
  rw [follows_split]
  constructor
  · rintro ⟨u', v', h'⟩
    have h'' : (u' ++ [a]) ++ b :: v' ∈ log := by simpa using h'
    obtain ⟨e, _⟩ := split_same hs h h''
    exact ⟨u', e⟩
  · rintro ⟨w, rfl⟩
    exact ⟨w, v, by simpa using h⟩

theorem follows_causes {log : List (List Str)} (hs : SeparateTraces log) {a b : Str} (h : Follows log a b) : Causes log a b := by
  refine ⟨h, fun h' => ?_⟩
  obtain ⟨u, v, h1⟩ := follows_split.1 h
  have h2 : (u ++ [a]) ++ b :: v ∈ log := by simpa using h1
  obtain ⟨w, hw⟩ := (follows_next hs h2).1 h'
  subst hw
  have := hs.once _ h1
  simp [List.nodup_append, List.nodup_cons] at this

theorem not_follows_self {log : List (List Str)} (hs : SeparateTraces log) {a : Str} : ¬ Follows log a a :=
  fun h => (follows_causes hs h).2 h

theorem causes_unique_left {log : List (List Str)} (hs : SeparateTraces log) {a a' b : Str} (h : Follows log a b) (h' : Follows log a' b) :
    a' = a := by
  obtain ⟨u, v, h1⟩ := follows_split.1 h
  have h2 : (u ++ [a]) ++ b :: v ∈ log := by simpa using h1
  obtain ⟨w, hw⟩ := (follows_prev hs h2).1 h'
  have := congrArg List.getLast? hw
  simpa using this.symm

theorem causes_unique_right {log : List (List Str)} (hs : SeparateTraces log) {a b b' : Str} (h : Follows log a b) (h' : Follows log a b') :
    b' = b := by
  obtain ⟨u, v, h1⟩ := follows_split.1 h
  obtain ⟨w, hw⟩ := (follows_next hs h1).1 h'
  simp only [List.cons.injEq] at hw
  exact hw.1.symm

theorem maximalPair_iff {log : List (List Str)} (hs : SeparateTraces log) {A B : Str → Prop} :
    MaximalPair log A B ↔ ∃ a b, Follows log a b ∧ A = (· = a) ∧ B = (· = b) := by
  have one : ∀ {A B : Str → Prop}, AlphaPair log A B → ∀ {a b}, A a → B b → (∀ x, A x ↔ x = a) ∧ (∀ x, B x ↔ x = b) := by
    intro A B h a b ha hb
    have hab := (h.causes a b ha hb).1
    refine ⟨fun x => ⟨fun hx => causes_unique_left hs hab (h.causes x b hx hb).1, fun hx => hx ▸ ha⟩,
      fun x => ⟨fun hx => causes_unique_right hs hab (h.causes a x ha hx).1, fun hx => hx ▸ hb⟩⟩
  constructor
  · intro h
    obtain ⟨⟨a, ha⟩, b, hb⟩ := h.isPair.nonempty
    obtain ⟨h1, h2⟩ := one h.isPair ha hb
    exact ⟨a, b, (h.isPair.causes a b ha hb).1, funext fun x => propext (h1 x), funext fun x => propext (h2 x)⟩
  · rintro ⟨a, b, hab, rfl, rfl⟩
    refine ⟨⟨?_, ⟨⟨a, rfl⟩, b, rfl⟩, ?_, ?_⟩, ?_⟩
    · obtain ⟨u, v, h1⟩ := follows_split.1 hab
      exact ⟨fun x hx => ⟨_, h1, by simp [hx]⟩, fun x hx => ⟨_, h1, by simp [hx]⟩⟩
    · rintro x y rfl rfl
      exact follows_causes hs hab
    · exact ⟨by rintro x y rfl rfl; exact ⟨not_follows_self hs, not_follows_self hs⟩,
        by rintro x y rfl rfl; exact ⟨not_follows_self hs, not_follows_self hs⟩⟩
    · intro A' B' h ha hb
      exact one h (ha a rfl) (hb b rfl)

section
variable {order : List Str → List Str} {orderP : List (List Str × List Str) → List (List Str × List Str)} {log : List (List Str)}
  {net : AlphaNet}

theorem hasPlace_iff (ho : Enumerates order) (h : alpha order orderP log = .ok net) {A B : Str → Prop} :
    (∃ p ∈ net.places, Lists p A B) ↔ MaximalPair log A B := by
  obtain ⟨h1, h2⟩ := c93_places ho h
  constructor
  · rintro ⟨p, hp, hl⟩
    obtain rfl : (· ∈ p.1) = A := funext fun x => propext (hl.1 x)
    obtain rfl : (· ∈ p.2) = B := funext fun x => propext (hl.2 x)
    exact h1 p hp
  · intro hm
    obtain ⟨p, hp, hl, _⟩ := h2 A B hm
    exact ⟨p, hp, hl⟩

/-- The place of the token between the part of a trace that has happened and the rest. -/
def placeAt (u v : List Str) : NetPlace :=
  match u.getLast?, v.head? with
  | none, _ => .start
  | some _, none => .stop
  | some a, some b => .between (· = a) (· = b)

theorem between_inj {a b a' b' : Str} : NetPlace.between (· = a) (· = b) = .between (· = a') (· = b') ↔ a = a' ∧ b = b' := by
  constructor
  · intro h
    injection h with h1 h2
    exact ⟨(congrFun h1 a).mp rfl, (congrFun h2 b).mp rfl⟩
  · rintro ⟨rfl, rfl⟩
    rfl

/-- Each activity takes from the one place before it ... -/
theorem takes_iff (ho : Enumerates order) (hs : SeparateTraces log) (h : alpha order orderP log = .ok net) {u v : List Str} {e : Str}
    (ht : u ++ e :: v ∈ log) (n : NetPlace) : Takes net e n ↔ n = placeAt u (e :: v) := by
  obtain ⟨_, hst, _, _, _⟩ := alpha_events h
  rcases List.eq_nil_or_concat u with rfl | ⟨w, a, rfl⟩
  · have hp : ∀ a, ¬ Follows log a e := fun a hf => by
      obtain ⟨w, hw⟩ := (follows_prev hs ht).1 hf
      simp at hw
    cases n with
    | start => exact ⟨fun _ => rfl, fun _ => (hst e).2 ⟨_, ht, rfl⟩⟩
    | stop => simp [Takes, placeAt]
    | between A B =>
      simp only [Takes, hasPlace_iff ho h, maximalPair_iff hs, placeAt, List.getLast?_nil, reduceCtorEq, iff_false]
      rintro ⟨⟨a, b, hf, rfl, rfl⟩, hb⟩
      exact hp a (hb ▸ hf)
  · have ha : Follows log a e := (follows_prev hs ht).2 ⟨w, by simp⟩
    have hpl : placeAt (w.concat a) (e :: v) = .between (· = a) (· = e) := by simp [placeAt]
    rw [hpl]
    cases n with
    | start =>
      simp only [Takes, hst, reduceCtorEq, iff_false]
      rintro ⟨t, htl, hh⟩
      cases t with
      | nil => simp at hh
      | cons x t =>
        obtain rfl : x = e := by simpa using hh
        obtain ⟨hw, _⟩ := split_same (u := w.concat a) (u' := []) hs ht htl
        simp at hw
    | stop => simp [Takes]
    | between A B =>
      simp only [Takes, hasPlace_iff ho h, maximalPair_iff hs]
      constructor
      · rintro ⟨⟨a', b, hf, rfl, rfl⟩, hb⟩
        subst hb
        rw [causes_unique_left hs ha hf]
      · intro hn
        injection hn with h1 h2
        subst h1 h2
        exact ⟨⟨a, e, ha, rfl, rfl⟩, rfl⟩

/-- ... and puts into the one place after it. -/
theorem puts_iff (ho : Enumerates order) (hs : SeparateTraces log) (h : alpha order orderP log = .ok net) {u v : List Str} {e : Str}
    (ht : u ++ e :: v ∈ log) (n : NetPlace) : Puts net e n ↔ n = placeAt (u ++ [e]) v := by
  obtain ⟨_, _, hen, _, _⟩ := alpha_events h
  cases v with
  | nil =>
    have hpl : placeAt (u ++ [e]) [] = .stop := by simp [placeAt]
    rw [hpl]
    cases n with
    | start => simp [Puts]
    | stop => exact ⟨fun _ => rfl, fun _ => (hen e).2 ⟨_, ht, by simp⟩⟩
    | between A B =>
      simp only [Puts, hasPlace_iff ho h, maximalPair_iff hs, reduceCtorEq, iff_false]
      rintro ⟨⟨a, b, hf, rfl, rfl⟩, ha⟩
      obtain ⟨w, hw⟩ := (follows_next hs ht).1 (ha ▸ hf : Follows log e b)
      cases hw
  | cons b v =>
    have hb : Follows log e b := (follows_next hs ht).2 ⟨v, rfl⟩
    have hpl : placeAt (u ++ [e]) (b :: v) = .between (· = e) (· = b) := by simp [placeAt]
    rw [hpl]
    cases n with
    | start => simp [Puts]
    | stop =>
      simp only [Puts, hen, reduceCtorEq, iff_false]
      rintro ⟨t, htl, hh⟩
      rcases List.eq_nil_or_concat t with rfl | ⟨w, x, rfl⟩
      · simp at hh
      · obtain rfl : x = e := by simpa using hh
        have htl' : w ++ x :: [] ∈ log := by simpa using htl
        obtain ⟨_, hw⟩ := split_same hs ht htl'
        simp at hw
    | between A B =>
      simp only [Puts, hasPlace_iff ho h, maximalPair_iff hs]
      constructor
      · rintro ⟨⟨a, b', hf, rfl, rfl⟩, ha⟩
        subst ha
        rw [causes_unique_right hs hb hf]
      · intro hn
        injection hn with h1 h2
        subst h1 h2
        exact ⟨⟨e, b, hb, rfl, rfl⟩, rfl⟩

theorem oneToken_self (n : NetPlace) : oneToken n n = 1 := by simp [oneToken, tokenIf]

theorem oneToken_pos {n x : NetPlace} : 1 ≤ oneToken n x ↔ x = n := by
  unfold oneToken tokenIf
  split <;> simp [*]

theorem oneToken_inj {n x : NetPlace} (h : oneToken n = oneToken x) : n = x := by
  have := congrFun h n
  rw [oneToken_self] at this
  exact oneToken_pos.1 (Nat.le_of_eq this)

/-- With one token in the net, an activity happens exactly when the token is in the place before it; it is then in the place after. -/
theorem fires_iff (ho : Enumerates order) (hs : SeparateTraces log) (h : alpha order orderP log = .ok net) {n : NetPlace} {e : Str}
    {m : Marking} : Fires net (oneToken n) e m ↔ ∃ u v, u ++ e :: v ∈ log ∧ n = placeAt u (e :: v) ∧ m = oneToken (placeAt (u ++ [e]) v) := by
  obtain ⟨_, _, _, hall, _⟩ := alpha_events h
  have key : ∀ {u v : List Str}, u ++ e :: v ∈ log → ∀ x,
      oneToken (placeAt u (e :: v)) x - tokenIf (Takes net e x) + tokenIf (Puts net e x) =
        oneToken (placeAt (u ++ [e]) v) x := by
    intro u v ht x
    rw [propext (takes_iff ho hs h ht x), propext (puts_iff ho hs h ht x), oneToken, oneToken]
    omega
  constructor
  · rintro ⟨h1, h2, h3⟩
    obtain ⟨t, ht, het⟩ := (hall e).1 h1
    obtain ⟨u, v, rfl⟩ := List.append_of_mem het
    have hn := oneToken_pos.1 (h2 _ ((takes_iff ho hs h ht _).2 rfl))
    refine ⟨u, v, ht, hn.symm, funext fun x => ?_⟩
    rw [h3 x, ← hn]
    exact key ht x
  · rintro ⟨u, v, ht, rfl, rfl⟩
    refine ⟨(hall e).2 ⟨_, ht, by simp⟩, fun x hx => oneToken_pos.2 ((takes_iff ho hs h ht x).1 hx), fun x => ?_⟩
    exact (key ht x).symm

theorem runs_rest (ho : Enumerates order) (hs : SeparateTraces log) (h : alpha order orderP log = .ok net) :
    ∀ {es u v : List Str}, u ≠ [] → u ++ v ∈ log → (Runs net (oneToken (placeAt u v)) es (oneToken .stop) ↔ es = v) := by
  intro es
  induction es with
  | nil =>
    intro u v hu ht
    constructor
    · intro hr
      generalize hm : oneToken (placeAt u v) = m at hr
      generalize hm' : oneToken .stop = m' at hr
      cases hr
      have := oneToken_inj (hm.trans hm'.symm)
      cases v with
      | nil => rfl
      | cons b v =>
        obtain ⟨w, a, rfl⟩ := (List.eq_nil_or_concat u).resolve_left hu
        simp [placeAt] at this
    · intro hv
      subst hv
      obtain ⟨w, a, rfl⟩ := (List.eq_nil_or_concat u).resolve_left hu
      have : placeAt (w.concat a) [] = .stop := by simp [placeAt]
      rw [this]
      exact .nil
  | cons e es ih =>
    intro u v hu ht
    obtain ⟨w, a, rfl⟩ := (List.eq_nil_or_concat u).resolve_left hu
    constructor
    · rintro (_ | ⟨hf, hr⟩)
      obtain ⟨u', v', ht', hp, rfl⟩ := (fires_iff ho hs h).1 hf
      have he := (ih (by simp) (by simpa using ht')).1 hr
      subst he
      cases v with
      | nil =>
        rcases List.eq_nil_or_concat u' with rfl | ⟨w', a', rfl⟩
        · simp [placeAt] at hp
        · simp [placeAt] at hp
      | cons b v =>
        rcases List.eq_nil_or_concat u' with rfl | ⟨w', a', rfl⟩
        · simp [placeAt] at hp
        · simp only [placeAt, List.concat_eq_append, List.getLast?_append, List.getLast?_singleton, Option.some_or, List.head?_cons] at hp
          obtain ⟨rfl, rfl⟩ := between_inj.1 hp
          exact (split_same hs ht ht').2 ▸ rfl
    · intro hv
      subst hv
      exact .cons ((fires_iff ho hs h).2 ⟨_, _, ht, rfl, rfl⟩) ((ih (by simp) (by simpa using ht)).2 rfl)

/-- C149: when no activity occurs twice in a trace or in two different traces, the net accepts exactly the traces of the log. -/
theorem c149_exact (ho : Enumerates order) (hs : SeparateTraces log) (h : alpha order orderP log = .ok net) (es : List Str) :
    Accepts net es ↔ es ∈ log := by
  have hne := (alpha_events h).1
  cases es with
  | nil =>
    refine ⟨fun hr => ?_, fun h => absurd h hne⟩
    unfold Accepts at hr
    generalize hm : oneToken .start = m at hr
    generalize hm' : oneToken .stop = m' at hr
    cases hr
    cases oneToken_inj (hm.trans hm'.symm)
  | cons e es =>
    have start : ∀ {u v : List Str}, NetPlace.start = placeAt u (e :: v) ↔ u = [] := by
      intro u v
      rcases List.eq_nil_or_concat u with rfl | ⟨w, a, rfl⟩
      · simp [placeAt]
      · simp [placeAt]
    constructor
    · rintro (_ | ⟨hf, hr⟩)
      obtain ⟨u, v, ht, hp, rfl⟩ := (fires_iff ho hs h).1 hf
      obtain rfl := start.1 hp
      obtain rfl := (runs_rest ho hs h (by simp) (by simpa using ht)).1 hr
      exact ht
    · intro ht
      exact .cons ((fires_iff ho hs h).2 ⟨[], es, ht, start.2 rfl, rfl⟩) ((runs_rest ho hs h (by simp) (by simpa using ht)).2 rfl)

end


theorem runs_start {net : AlphaNet} {m m' : Marking} {es : List Str} (h : Runs net m es m') :
    m .start = m' .start + es.countP (· ∈ net.events.starting) := by
  induction h with
  | nil => rfl
  | @cons m m1 m2 e es hf hr ih =>
    have h1 := hf.2.2 .start
    have h2 := hf.2.1 .start
    simp only [Takes, Puts] at h1 h2
    rw [List.countP_cons]
    by_cases he : e ∈ net.events.starting
    · have h2 := h2 he
      simp only [he, tokenIf, if_true, if_false, decide_true] at h1 ⊢
      omega
    · simp only [he, tokenIf, if_false, decide_false, Bool.false_eq_true] at h1 ⊢
      omega

theorem runs_stop {net : AlphaNet} {m m' : Marking} {es : List Str} (h : Runs net m es m') :
    m' .stop = m .stop + es.countP (· ∈ net.events.ending) := by
  induction h with
  | nil => rfl
  | @cons m m1 m2 e es hf hr ih =>
    have h1 := hf.2.2 .stop
    simp only [Takes, Puts] at h1
    rw [List.countP_cons]
    by_cases he : e ∈ net.events.ending
    · simp only [he, tokenIf, if_true, if_false, decide_true] at h1 ⊢
      omega
    · simp only [he, tokenIf, if_false, decide_false, Bool.false_eq_true] at h1 ⊢
      omega

/-- C149: whatever the log, an accepted sequence has exactly one activity that begins a trace of the log and one that ends a trace. -/
theorem c149_ends {net : AlphaNet} {es : List Str} (h : Accepts net es) :
    es.countP (· ∈ net.events.starting) = 1 ∧ es.countP (· ∈ net.events.ending) = 1 := by
  have h1 := runs_start h
  have h2 := runs_stop h
  simp [oneToken, tokenIf] at h1 h2
  omega

/-- The log `abac`. -/
def returnLog : List (List Str) := [[py!"a", py!"b", py!"a", py!"c"]]

/-- C149 is violated by a log whose first activity comes again: the net does not accept the trace it was made from. -/
theorem c149_refuted : ∃ log net, alpha id id log = .ok net ∧ ∃ t ∈ log, ¬ Accepts net t := by
  obtain ⟨_, h2⟩ := c94_events id id returnLog
  obtain ⟨net, hn, hs, _⟩ := h2 (by decide)
  refine ⟨_, net, hn, _, List.mem_singleton.2 rfl, fun h => ?_⟩
  have ha : py!"a" ∈ net.events.starting := (hs _).2 ⟨_, List.mem_singleton.2 rfl, rfl⟩
  have := (c149_ends h).1
  simp only [List.countP_cons, ha, decide_true, if_true] at this
  omega

/-- The log `abbc`. -/
def repeatLog : List (List Str) := [[py!"a", py!"b", py!"b", py!"c"]]

/-- C149 is violated by a log in which an activity follows itself: the net accepts a sequence that is not in the log. -/
theorem c149_more_refuted : ∃ log net, alpha id id log = .ok net ∧ ∃ es, es ∉ log ∧ Accepts net es := by
  obtain ⟨net, hn⟩ : ∃ net, alpha id id repeatLog = .ok net := ⟨_, rfl⟩
  have h1 : net.places = [] := by
    have : (alpha id id repeatLog).map (·.places) = .ok [] := by decide +kernel
    rw [hn] at this
    injection this
  have h2 : net.events.starting = [py!"a"] := by
    have : (alpha id id repeatLog).map (·.events.starting) = .ok [py!"a"] := by decide +kernel
    rw [hn] at this
    injection this
  have h3 : net.events.ending = [py!"c"] := by
    have : (alpha id id repeatLog).map (·.events.ending) = .ok [py!"c"] := by decide +kernel
    rw [hn] at this
    injection this
  have h4 : net.events.all = [py!"a", py!"b", py!"c"] := by
    have : (alpha id id repeatLog).map (·.events.all) = .ok [py!"a", py!"b", py!"c"] := by decide +kernel
    rw [hn] at this
    injection this
  refine ⟨_, net, hn, [py!"a", py!"c"], by decide, ?_⟩
  refine .cons (m' := fun _ => 0) ⟨by simp [h4], ?_, ?_⟩ (.cons (m' := oneToken .stop) ⟨by simp [h4], ?_, ?_⟩ .nil)
  · intro n hn
    cases n <;> simp [Takes, h1] at hn
    simp [oneToken, tokenIf]
  · intro n
    cases n <;> simp [Takes, Puts, h1, h2, h3, oneToken, tokenIf]
  · intro n hn
    cases n <;> simp [Takes, h1, h2] at hn
  · intro n
    cases n <;> simp [Puts, h1, h3, oneToken, tokenIf]

/-! ## Examples -/

/-- Two variants without common activities, one of them twice. -/
def apartLog : List (List Str) := [[py!"a", py!"b"], [py!"c"], [py!"a", py!"b"]]

theorem apartLog_separate : SeparateTraces apartLog := by
  refine ⟨by decide, ?_⟩
  intro s hs t ht a ha hb
  simp only [apartLog, List.mem_cons, List.not_mem_nil, or_false] at hs ht
  rcases hs with rfl | rfl | rfl <;> rcases ht with rfl | rfl | rfl <;> simp_all

example : ∃ net, alpha id List.reverse apartLog = .ok net ∧ Accepts net [py!"a", py!"b"] ∧ Accepts net [py!"c"] ∧ ¬ Accepts net [py!"a"] := by
  obtain ⟨net, hn, _⟩ := (c94_events id List.reverse apartLog).2 (by decide)
  have h := c149_exact (order := id) (fun _ => .refl _) apartLog_separate hn
  refine ⟨net, hn, (h _).2 (by decide), (h _).2 (by decide), fun hh => absurd ((h _).1 hh) (by decide)⟩

/-- The textbook log and one with its variants in another order and repeated have the same net, though the places are listed differently. -/
example : (alpha id id textbookLog).map (fun n => n.places.length) =
    (alpha List.reverse id (textbookLog.reverse ++ textbookLog)).map (fun n => n.places.length) := by decide +kernel

example : ∀ t, t ∈ textbookLog ↔ t ∈ textbookLog.reverse ++ textbookLog := by simp

end Opy
