import Verif.Model.Log
import Verif.Props.Attr
/-
Properties C13-C16 (XTrace.insert_ordered).
-/
set_option linter.unusedSectionVars false

namespace Opy

section
variable {F : Type} [PyFloat F]

/-! ## Specification -/

/-- The point in time an event carries, if it carries a timestamp attribute. -/
def instOf (e : Event F) : Option Int :=
  match dget py!"time:timestamp" e.attrs with
  | some a => match a.val with | .dt d => some d.instant | _ => none
  | none => none

/-- The event has no "time:timestamp" at all, or a proper timestamp attribute whose value is aware
or naive as `aw` says. -/
def StampOk (aw : Bool) (e : Event F) : Prop :=
  ∀ a, dget py!"time:timestamp" e.attrs = some a → a.kind = .timestamp ∧ ∃ d, a.val = .dt d ∧ d.tz.isSome = aw

/-- Points in time never decrease. -/
def InOrder (l : List Int) : Prop := l.Pairwise (· ≤ ·)

/-- Every event carries a time and the times never decrease. -/
def SortedTrace (l : List (Event F)) : Prop :=
  (∀ e ∈ l, (instOf e).isSome) ∧ InOrder (l.filterMap instOf)

/-! ## C13 -/

theorem scanBack_le {ts : PyVal F} : ∀ {l : List (Event F)} {i : Nat}, scanBack ts l = .ok (some i) → i ≤ l.length := by
  intro l
  induction l with
  | nil => intro i h; simp [scanBack] at h; simp [← h]
  | cons e rest ih =>
    intro i h
    simp only [scanBack] at h
    split at h
    · simp at h
    · split at h
      · simp at h
      · split at h
        · simp at h
        · simp at h; simp [← h]
        · exact Nat.le_trans (ih h) (by simp)

/-- C13: whenever insert_ordered returns, the new trace holds the event at the returned index and
is otherwise the old trace. -/
theorem c13_insert {t t' : List (Event F)} {e : Event F} {i : Nat} (h : insertOrdered t e = .ok (t', i)) :
    i ≤ t.length ∧ t'[i]? = some e ∧ t'.eraseIdx i = t := by
  have app : (t ++ [e])[t.length]? = some e ∧ (t ++ [e]).eraseIdx t.length = t := by
    refine ⟨by simp, ?_⟩
    rw [List.eraseIdx_append_of_length_le (Nat.le_refl _)]
    simp
  unfold insertOrdered at h
  split at h
  · next h0 =>
    simp at h h0
    subst h0
    rw [← h.1, ← h.2]
    simp
  · split at h
    · simp at h
      rw [← h.1, ← h.2]
      exact ⟨Nat.le_refl _, app⟩
    · split at h
      · simp at h
      · split at h
        · simp at h
        · simp at h
          rw [← h.1, ← h.2]
          exact ⟨Nat.le_refl _, app⟩
        · next i' hs =>
          have hi := scanBack_le hs
          simp at hi
          simp only [Except.ok.injEq, Prod.mk.injEq] at h
          obtain ⟨h1, h2⟩ := h
          subst h2
          rw [← h1]
          have hl : (t.take i').length = i' := by simp [hi]
          refine ⟨hi, ?_, ?_⟩
          · rw [List.append_assoc, List.getElem?_append_right (by omega), hl]
            simp
          · rw [List.append_assoc, List.eraseIdx_append_of_length_le (by omega), hl]
            simp

/-! ## What the scan does on proper timestamps -/

theorem instOf_some {aw : Bool} {e : Event F} (h : StampOk aw e) {τ : Int} (hi : instOf e = some τ) :
    ∃ a d, dget timeKey e.attrs = some a ∧ getValue a = .ok (.dt d) ∧ d.tz.isSome = aw ∧ d.instant = τ := by
  unfold instOf at hi
  cases hg : dget py!"time:timestamp" e.attrs with
  | none => rw [hg] at hi; simp at hi
  | some a =>
    rw [hg] at hi
    obtain ⟨hk, d, hd, htz⟩ := h a hg
    simp only [hd, Option.some.injEq] at hi
    exact ⟨a, d, hg, by simp [getValue, hk, Kind.isCollection, hd], htz, hi⟩

theorem instOf_none {aw : Bool} {e : Event F} (h : StampOk aw e) (hi : instOf e = none) :
    dget timeKey e.attrs = none := by
  unfold instOf at hi
  cases hg : dget py!"time:timestamp" e.attrs with
  | none => exact hg
  | some a =>
    rw [hg] at hi
    obtain ⟨hk, d, hd, htz⟩ := h a hg
    simp [hd] at hi

theorem pyGe_dt {d e : DateTime} (h : d.tz.isSome = e.tz.isSome) :
    pyGe (F := F) (.dt d) (.dt e) = .ok (decide (e.instant ≤ d.instant)) := by
  have h2 : (decide (e.instant < d.instant) || d.instant == e.instant) = decide (e.instant ≤ d.instant) := by
    rw [Bool.eq_iff_iff]
    simp
    omega
  simp [pyGe, pyGt, pyEq, DateTime.lt, DateTime.eq, h, h2]

/-- The outcome of the backward scan: `s` are the events passed (all strictly later), `p` the rest. -/
theorem scanBack_spec {aw : Bool} {d : DateTime} (hd : d.tz.isSome = aw) : ∀ (l : List (Event F)),
    (∀ e ∈ l, StampOk aw e) → ∃ s p, l = s ++ p ∧ (∀ x ∈ s, ∃ τ, instOf x = some τ ∧ d.instant < τ) ∧
      ((p = [] ∧ scanBack (.dt d) l = .ok (some 0)) ∨
       (∃ u q, p = u :: q ∧ instOf u = none ∧ scanBack (.dt d) l = .ok none) ∨
       (∃ u q τ, p = u :: q ∧ instOf u = some τ ∧ τ ≤ d.instant ∧ scanBack (.dt d) l = .ok (some p.length))) := by
  intro l
  induction l with
  | nil => intro _; exact ⟨[], [], rfl, by simp, Or.inl ⟨rfl, rfl⟩⟩
  | cons e rest ih =>
    intro hok
    have he := hok e (by simp)
    cases hi : instOf e with
    | none =>
      refine ⟨[], e :: rest, rfl, by simp, Or.inr (Or.inl ⟨e, rest, rfl, hi, ?_⟩)⟩
      simp [scanBack, instOf_none he hi]
    | some τ =>
      obtain ⟨a, d', hg, hv, htz, hτ⟩ := instOf_some he hi
      have hge := pyGe_dt (F := F) (d := d) (e := d') (by rw [hd, htz])
      by_cases hle : d'.instant ≤ d.instant
      · refine ⟨[], e :: rest, rfl, by simp, Or.inr (Or.inr ⟨e, rest, τ, rfl, hi, hτ ▸ hle, ?_⟩)⟩
        simp [scanBack, hg, hv, hge, hle]
      · obtain ⟨s, p, h1, h2, h3⟩ := ih (fun x hx => hok x (List.mem_cons_of_mem _ hx))
        have hstep : scanBack (.dt d) (e :: rest) = scanBack (.dt d) rest := by
          simp [scanBack, hg, hv, hge, hle]
        refine ⟨e :: s, p, by simp [h1], ?_, ?_⟩
        · intro x hx
          rcases List.mem_cons.1 hx with rfl | hx
          · exact ⟨τ, hi, by omega⟩
          · exact h2 x hx
        · rw [hstep]; exact h3

/-- insert_ordered of a timestamped event, in terms of the trace read from the front: `s` is the
longest run of strictly later events at the end. -/
theorem insertOrdered_spec {aw : Bool} {t : List (Event F)} {e : Event F} {τ : Int}
    (hok : ∀ x ∈ t, StampOk aw x) (he : StampOk aw e) (hi : instOf e = some τ) :
    ∃ p s, t = p ++ s ∧ (∀ x ∈ s, ∃ σ, instOf x = some σ ∧ τ < σ) ∧
      ((p = [] ∧ insertOrdered t e = .ok (e :: s, 0)) ∨
       (∃ q u, p = q ++ [u] ∧ instOf u = none ∧ insertOrdered t e = .ok (t ++ [e], t.length)) ∨
       (∃ q u σ, p = q ++ [u] ∧ instOf u = some σ ∧ σ ≤ τ ∧ insertOrdered t e = .ok (p ++ e :: s, p.length))) := by
  obtain ⟨a, d, hg, hv, htz, hτ⟩ := instOf_some he hi
  obtain ⟨s, p, h1, h2, h3⟩ := scanBack_spec htz t.reverse (fun x hx => hok x (List.mem_reverse.1 hx))
  have ht : t = p.reverse ++ s.reverse := by
    rw [← List.reverse_append, ← h1, List.reverse_reverse]
  refine ⟨p.reverse, s.reverse, ht, ?_, ?_⟩
  · intro x hx
    rw [← hτ]
    exact h2 x (List.mem_reverse.1 hx)
  · by_cases h0 : t.length = 0
    · have : t = [] := List.length_eq_zero_iff.1 h0
      rw [this] at ht
      obtain ⟨hp, hs⟩ := List.append_eq_nil_iff.1 ht.symm
      left
      refine ⟨hp, ?_⟩
      rw [hs, this]
      simp [insertOrdered]
    · rcases h3 with ⟨hp, hsc⟩ | ⟨u, q, hp, hu, hsc⟩ | ⟨u, q, σ, hp, hu, hle, hsc⟩
      · left
        refine ⟨by simp [hp], ?_⟩
        rw [hp] at ht
        simp at ht
        simp only [insertOrdered, h0, if_false, hg, hv, hsc, List.take_zero, List.drop_zero]
        rw [ht]; simp
      · right; left
        refine ⟨q.reverse, u, by simp [hp], hu, ?_⟩
        simp only [insertOrdered, h0, if_false, hg, hv, hsc]
      · right; right
        refine ⟨q.reverse, u, σ, by simp [hp], hu, hτ ▸ hle, ?_⟩
        simp only [insertOrdered, h0, if_false, hg, hv, hsc]
        have e1 : t.take p.length = p.reverse := by rw [ht]; simp
        have e2 : t.drop p.length = s.reverse := by rw [ht]; simp
        rw [e1, e2]; simp

/-! ## C14 -/

theorem inOrder_append {a b : List Int} :
    InOrder (a ++ b) ↔ InOrder a ∧ InOrder b ∧ ∀ x ∈ a, ∀ y ∈ b, x ≤ y := by
  unfold InOrder; rw [List.pairwise_append]

theorem inOrder_cons {x : Int} {b : List Int} : InOrder (x :: b) ↔ (∀ y ∈ b, x ≤ y) ∧ InOrder b := by
  unfold InOrder; rw [List.pairwise_cons]

/-- C14: inserting into a sorted trace never raises and gives a sorted trace, in which the events
before the new one are not later and the events behind it are strictly later. -/
theorem c14_sorted {aw : Bool} {t : List (Event F)} {e : Event F} {τ : Int}
    (hok : ∀ x ∈ t, StampOk aw x) (he : StampOk aw e) (hs : SortedTrace t) (hi : instOf e = some τ) :
    ∃ t' i, insertOrdered t e = .ok (t', i) ∧ SortedTrace t' ∧
      (∀ x ∈ t'.take i, ∃ σ, instOf x = some σ ∧ σ ≤ τ) ∧
      (∀ x ∈ t'.drop (i + 1), ∃ σ, instOf x = some σ ∧ τ < σ) := by
  obtain ⟨p, s, ht, hlate, hc⟩ := insertOrdered_spec hok he hi
  obtain ⟨hsome, hord⟩ := hs
  rcases hc with ⟨hp, hr⟩ | ⟨q, u, hp, hu, hr⟩ | ⟨q, u, σ, hp, hu, hle, hr⟩
  · subst hp
    simp at ht
    subst ht
    refine ⟨_, _, hr, ⟨?_, ?_⟩, by simp, by simpa using hlate⟩
    · intro x hx
      rcases List.mem_cons.1 hx with rfl | hx
      · simp [hi]
      · exact hsome x hx
    · rw [List.filterMap_cons_some hi, inOrder_cons]
      refine ⟨?_, hord⟩
      intro y hy
      obtain ⟨x, hx, hxy⟩ := List.mem_filterMap.1 hy
      obtain ⟨σ, h1, h2⟩ := hlate x hx
      rw [hxy] at h1; simp at h1; omega
  · exfalso
    have := hsome u (by rw [ht, hp]; simp)
    simp [hu] at this
  · have hpre : ∀ x ∈ p, ∃ ρ, instOf x = some ρ ∧ ρ ≤ τ := by
      intro x hx
      rw [ht, List.filterMap_append, inOrder_append, hp, List.filterMap_append, inOrder_append] at hord
      obtain ⟨ρ, hρ⟩ := Option.isSome_iff_exists.1 (hsome x (by rw [ht]; exact List.mem_append_left _ hx))
      refine ⟨ρ, hρ, ?_⟩
      rw [hp] at hx
      rcases List.mem_append.1 hx with hx | hx
      · have := hord.1.2.2 ρ (List.mem_filterMap.2 ⟨x, hx, hρ⟩) σ (List.mem_filterMap.2 ⟨u, by simp, hu⟩)
        omega
      · simp at hx
        subst hx
        rw [hu] at hρ; simp at hρ; omega
    refine ⟨_, _, hr, ⟨?_, ?_⟩, by simpa using hpre, ?_⟩
    · intro x hx
      rcases List.mem_append.1 hx with hx | hx
      · exact hsome x (by rw [ht]; exact List.mem_append_left _ hx)
      · rcases List.mem_cons.1 hx with rfl | hx
        · simp [hi]
        · exact hsome x (by rw [ht]; exact List.mem_append_right _ hx)
    · rw [ht, List.filterMap_append, inOrder_append] at hord
      rw [List.filterMap_append, List.filterMap_cons_some hi, inOrder_append, inOrder_cons]
      refine ⟨hord.1, ⟨?_, hord.2.1⟩, ?_⟩
      · intro y hy
        obtain ⟨x, hx, hxy⟩ := List.mem_filterMap.1 hy
        obtain ⟨ρ, h1, h2⟩ := hlate x hx
        rw [hxy] at h1; simp at h1; omega
      · intro x hx y hy
        obtain ⟨x', hx', hxx⟩ := List.mem_filterMap.1 hx
        obtain ⟨ρ, h1, h2⟩ := hpre x' hx'
        rw [hxx] at h1; simp at h1; subst h1
        rcases List.mem_cons.1 hy with rfl | hy
        · exact h2
        · exact hord.2.2 x hx y hy
    · intro x hx
      have : List.drop (p.length + 1) (p ++ e :: s) = s := by
        rw [← List.drop_drop]; simp
      rw [this] at hx
      exact hlate x hx

/-! ## C15 -/

/-- The claim of C15 for one trace and one event. -/
def KeepsStampedOrder (t : List (Event F)) (e : Event F) : Prop :=
  ∀ t' i, insertOrdered t e = .ok (t', i) → InOrder (t.filterMap instOf) → InOrder (t'.filterMap instOf)

/-- Walking back from the end over the events strictly later than `τ`, the first other event met
has no timestamp, although the trace holds an event that is strictly later. -/
def GapInside (t : List (Event F)) (τ : Int) : Prop :=
  (∃ q u s, t = q ++ u :: s ∧ instOf u = none ∧ ∀ x ∈ s, ∃ σ, instOf x = some σ ∧ τ < σ) ∧
  ∃ x ∈ t, ∃ σ, instOf x = some σ ∧ τ < σ

/-- C15, exact: for a trace whose timestamped events are in order and a timestamped event, the
order is kept if and only if there is no such gap. -/
theorem c15_order_kept_iff {aw : Bool} {t : List (Event F)} {e : Event F} {τ : Int}
    (hok : ∀ x ∈ t, StampOk aw x) (he : StampOk aw e) (hi : instOf e = some τ)
    (hord : InOrder (t.filterMap instOf)) : KeepsStampedOrder t e ↔ ¬ GapInside t τ := by
  obtain ⟨p, s, ht, hlate, hc⟩ := insertOrdered_spec hok he hi
  -- a gap can only be the one the scan found
  have uniq : GapInside t τ → ∃ q u, p = q ++ [u] ∧ instOf u = none := by
    rintro ⟨⟨q', u', s', ht', hu', hl'⟩, -⟩
    -- compare the two decompositions from the end
    have key : ∀ (p s q' s' : List (Event F)) (u' : Event F), p ++ s = q' ++ u' :: s' → instOf u' = none →
        (∀ x ∈ s, ∃ σ, instOf x = some σ ∧ τ < σ) → (∀ x ∈ s', ∃ σ, instOf x = some σ ∧ τ < σ) →
        ∃ r, s' = r ++ s ∧ p = q' ++ u' :: r := by
      intro p s q' s' u' heq hu hs hs'
      rcases List.append_eq_append_iff.1 heq with ⟨a, h1, h2⟩ | ⟨a, h1, h2⟩
      · -- s = a ++ u' :: s', contradiction
        exfalso
        obtain ⟨σ, h, -⟩ := hs u' (by rw [h2]; simp)
        rw [hu] at h; simp at h
      · cases a with
        | nil =>
          exfalso
          simp at h2
          obtain ⟨σ, h, -⟩ := hs u' (by rw [← h2]; simp)
          rw [hu] at h; simp at h
        | cons b r =>
          simp only [List.cons_append, List.cons.injEq] at h2
          obtain ⟨rfl, h2⟩ := h2
          exact ⟨r, h2, h1⟩
    obtain ⟨r, hr1, hr2⟩ := key p s q' s' u' (by rw [← ht, ht']) hu' hlate hl'
    rcases hc with ⟨hp, -⟩ | ⟨q, u, hp, hu, -⟩ | ⟨q, u, σ, hp, hu, hle, -⟩
    · rw [hp] at hr2; simp at hr2
    · cases hr : r.reverse with
      | nil =>
        have : r = [] := List.reverse_eq_nil_iff.1 hr
        exact ⟨q, u, hp, hu⟩
      | cons w r' =>
        exfalso
        have hr' : r = r'.reverse ++ [w] := by rw [← List.reverse_cons, ← hr, List.reverse_reverse]
        have : u = w := by
          rw [hp, hr'] at hr2
          have e2 : q' ++ u' :: (r'.reverse ++ [w]) = (q' ++ u' :: r'.reverse) ++ [w] := by simp
          rw [e2] at hr2
          have := (List.append_inj' hr2 rfl).2
          simpa using this
        obtain ⟨σ, h, -⟩ := hl' w (by rw [hr1, hr']; simp)
        rw [this] at hu
        rw [hu] at h; simp at h
    · exfalso
      cases hr : r.reverse with
      | nil =>
        have : r = [] := List.reverse_eq_nil_iff.1 hr
        subst this
        have : u = u' := by
          rw [hp] at hr2
          have := (List.append_inj' hr2 rfl).2
          simpa using this
        rw [this, hu'] at hu; simp at hu
      | cons w r' =>
        have hr' : r = r'.reverse ++ [w] := by rw [← List.reverse_cons, ← hr, List.reverse_reverse]
        have : u = w := by
          rw [hp, hr'] at hr2
          have e2 : q' ++ u' :: (r'.reverse ++ [w]) = (q' ++ u' :: r'.reverse) ++ [w] := by simp
          rw [e2] at hr2
          have := (List.append_inj' hr2 rfl).2
          simpa using this
        obtain ⟨σ', h, h'⟩ := hl' w (by rw [hr1, hr']; simp)
        rw [← this, hu] at h; simp at h; omega
  constructor
  · intro hk hgap
    obtain ⟨q, u, hp, hu⟩ := uniq hgap
    rcases hc with ⟨hp', -⟩ | ⟨q', u', hp', hu', hr⟩ | ⟨q', u', σ, hp', hu', hle, -⟩
    · rw [hp] at hp'; simp at hp'
    · have := hk _ _ hr hord
      rw [List.filterMap_append, inOrder_append] at this
      obtain ⟨-, x, hx, σ, h1, h2⟩ := hgap
      have := this.2.2 σ (List.mem_filterMap.2 ⟨x, hx, h1⟩) τ (by simp [hi])
      omega
    · rw [hp] at hp'
      have := (List.append_inj' hp' rfl).2
      simp at this
      rw [this, hu'] at hu; simp at hu
  · intro hg t' i hr' _
    rcases hc with ⟨hp, hr⟩ | ⟨q, u, hp, hu, hr⟩ | ⟨q, u, σ, hp, hu, hle, hr⟩
    · rw [hr] at hr'
      simp at hr'
      rw [← hr'.1]
      rw [List.filterMap_cons_some hi, inOrder_cons]
      have : t = s := by rw [ht, hp]; rfl
      refine ⟨?_, this ▸ hord⟩
      intro y hy
      obtain ⟨x, hx, hxy⟩ := List.mem_filterMap.1 hy
      obtain ⟨ρ, h1, h2⟩ := hlate x hx
      rw [hxy] at h1; simp at h1; omega
    · -- the scan stopped at an event without timestamp: no event is later
      have hall : ∀ x ∈ t, ∀ σ, instOf x = some σ → σ ≤ τ := by
        intro x hx σ hσ
        apply Classical.byContradiction
        intro h
        exact hg ⟨⟨q, u, s, by rw [ht, hp]; simp, hu, hlate⟩, x, hx, σ, hσ, by omega⟩
      rw [hr] at hr'
      simp at hr'
      rw [← hr'.1, List.filterMap_append, inOrder_append]
      refine ⟨hord, by simp [hi, InOrder], ?_⟩
      intro x hx y hy
      obtain ⟨x', hx', hxx⟩ := List.mem_filterMap.1 hx
      simp [hi] at hy
      rw [hy]
      exact hall x' hx' x hxx
    · rw [hr] at hr'
      simp at hr'
      rw [← hr'.1]
      rw [ht, List.filterMap_append, inOrder_append] at hord
      rw [List.filterMap_append, List.filterMap_cons_some hi, inOrder_append, inOrder_cons]
      have hpre : ∀ x ∈ p.filterMap instOf, x ≤ τ := by
        intro x hx
        have h1 := hord.1
        rw [hp, List.filterMap_append] at h1 hx
        rcases List.mem_append.1 hx with hx | hx
        · have := (inOrder_append.1 h1).2.2 x hx σ (by simp [hu])
          omega
        · simp [hu] at hx; omega
      have hpost : ∀ x ∈ s.filterMap instOf, τ ≤ x := by
        intro x hx
        obtain ⟨x', hx', hxx⟩ := List.mem_filterMap.1 hx
        obtain ⟨ρ, h1, h2⟩ := hlate x' hx'
        rw [hxx] at h1; simp at h1; omega
      refine ⟨hord.1, ⟨hpost, hord.2.1⟩, ?_⟩
      intro x hx y hy
      rcases List.mem_cons.1 hy with rfl | hy
      · exact hpre x hx
      · exact hord.2.2 x hx y hy

/-- A timestamped event for the examples: naive, year `y`, identity `n`. -/
def stamped (n y : Nat) : Event F :=
  ⟨⟨n % 2 ^ 128, Nat.mod_lt _ (by decide)⟩, [(py!"time:timestamp", .mk .timestamp py!"time:timestamp" none
    (.dt ⟨y, 1, 1, 0, 0, 0, 0, none⟩) [] [])]⟩

/-- An event without timestamp for the examples. -/
def unstamped (n : Nat) : Event F := ⟨⟨n % 2 ^ 128, Nat.mod_lt _ (by decide)⟩, []⟩

theorem stamped_ok (n y : Nat) : StampOk (F := F) false (stamped n y) := by
  intro a ha
  simp [stamped, dget] at ha
  subst ha
  exact ⟨rfl, _, rfl, rfl⟩

theorem unstamped_ok (n : Nat) : StampOk (F := F) false (unstamped n) := by
  intro a ha
  simp [unstamped] at ha

/-- C15 is false in general: into [no timestamp, 2005] the event of 2003 goes behind 2005. -/
theorem c15_refuted : ∃ (t : List (Event F)) (e : Event F), (∀ x ∈ t, StampOk false x) ∧ StampOk false e ∧
    InOrder (t.filterMap instOf) ∧ ¬ KeepsStampedOrder t e := by
  refine ⟨[unstamped 1, stamped 2 2005], stamped 3 2003, ?_, stamped_ok _ _, ?_, ?_⟩
  · intro x hx
    simp at hx
    rcases hx with rfl | rfl
    · exact unstamped_ok _
    · exact stamped_ok _ _
  · exact List.pairwise_singleton _ _
  · intro h
    have := h [unstamped 1, stamped 2 2005, stamped 3 2003] 2 rfl (List.pairwise_singleton _ _)
    revert this
    have e : List.filterMap instOf ([unstamped 1, stamped 2 2005, stamped 3 2003] : List (Event F))
        = [DateTime.instant ⟨2005, 1, 1, 0, 0, 0, 0, none⟩, DateTime.instant ⟨2003, 1, 1, 0, 0, 0, 0, none⟩] := rfl
    rw [e]
    simp only [InOrder]
    decide

/-! ## C16 -/

theorem filter_take_drop_insert (f : Event F → Bool) (p s : List (Event F)) (e : Event F)
    (h : f e = true → ∀ x ∈ s, f x = false) : (p ++ e :: s).filter f = (p ++ s).filter f ++ [e].filter f := by
  simp only [List.filter_append, List.filter_cons]
  split
  · next he =>
    have : s.filter f = [] := by
      rw [List.filter_eq_nil_iff]
      intro x hx
      simp [h he x hx]
    simp [this]
  · simp

/-- C16: inserting timestamped events one by one into an empty trace never raises and gives the
stable sort: the same events, sorted, and events of the same time in their order of arrival. -/
theorem c16_sorts {aw : Bool} (es : List (Event F)) (hok : ∀ e ∈ es, StampOk aw e)
    (hs : ∀ e ∈ es, (instOf e).isSome) :
    ∃ t, insertAll [] es = .ok t ∧ t.Perm es ∧ SortedTrace t ∧
      ∀ τ, t.filter (fun e => instOf e == some τ) = es.filter (fun e => instOf e == some τ) := by
  have gen : ∀ (es t0 : List (Event F)), (∀ e ∈ es, StampOk aw e) → (∀ e ∈ es, (instOf e).isSome) →
      (∀ e ∈ t0, StampOk aw e) → SortedTrace t0 →
      ∃ t, insertAll t0 es = .ok t ∧ t.Perm (t0 ++ es) ∧ SortedTrace t ∧
        ∀ τ, t.filter (fun e => instOf e == some τ) = (t0 ++ es).filter (fun e => instOf e == some τ) := by
    intro es
    induction es with
    | nil => intro t0 _ _ _ h; exact ⟨t0, rfl, by simp, h, by simp⟩
    | cons e es ih =>
      intro t0 h1 h2 h3 h4
      obtain ⟨τ, hτ⟩ := Option.isSome_iff_exists.1 (h2 e (by simp))
      obtain ⟨t', i, hr, hsort, hpre, hpost⟩ := c14_sorted h3 (h1 e (by simp)) h4 hτ
      obtain ⟨hi, hget, herase⟩ := c13_insert hr
      have hil : i < t'.length := (List.getElem?_eq_some_iff.1 hget).1
      have hgi : t'[i] = e := (List.getElem?_eq_some_iff.1 hget).2
      have hsplit : t' = t'.take i ++ e :: t'.drop (i + 1) := by
        rw [← hgi, ← List.drop_eq_getElem_cons hil, List.take_append_drop]
      have h0 : t0 = t'.take i ++ t'.drop (i + 1) := by
        rw [← herase, List.eraseIdx_eq_take_drop_succ]
      have hperm : t'.Perm (t0 ++ [e]) := by
        rw [hsplit, h0]
        simp only [List.append_assoc]
        apply List.Perm.append_left
        exact List.perm_append_comm (l₁ := [e])
      have hok' : ∀ x ∈ t', StampOk aw x := by
        intro x hx
        rcases List.mem_append.1 (hperm.mem_iff.1 hx) with hx | hx
        · exact h3 x hx
        · simp at hx; subst hx; exact h1 x (by simp)
      obtain ⟨t, k1, k2, k3, k4⟩ := ih t' (fun x hx => h1 x (List.mem_cons_of_mem _ hx))
        (fun x hx => h2 x (List.mem_cons_of_mem _ hx)) hok' hsort
      refine ⟨t, by simp [insertAll, hr, k1], ?_, k3, ?_⟩
      · refine k2.trans ?_
        have := hperm.append_right es
        simpa using this
      · intro ρ
        rw [k4, List.filter_append]
        have hf : t'.filter (fun e => instOf e == some ρ) =
            t0.filter (fun e => instOf e == some ρ) ++ [e].filter (fun e => instOf e == some ρ) := by
          rw [congrArg (List.filter _) hsplit, filter_take_drop_insert, ← h0]
          intro he x hx
          obtain ⟨σ, hσ, hlt⟩ := hpost x hx
          simp only [hτ, beq_iff_eq, Option.some.injEq] at he
          simp only [hσ, beq_eq_false_iff_ne, ne_eq, Option.some.injEq]
          omega
        rw [hf, List.append_assoc, ← List.filter_append, ← List.filter_append]
        rfl
  obtain ⟨t, k1, k2, k3, k4⟩ := gen es [] hok hs (by simp) ⟨by simp, by simp [InOrder]⟩
  exact ⟨t, k1, by simpa using k2, k3, by simpa using k4⟩

/-! ## Examples -/

example : insertAll [] [stamped (F := F) 1 2005, stamped 2 2001, stamped 3 2005, stamped 4 2003]
    = .ok [stamped 2 2001, stamped 4 2003, stamped 1 2005, stamped 3 2005] := by rfl
example : ∀ e ∈ [stamped (F := F) 1 2005, stamped 2 2001], StampOk false e ∧ (instOf e).isSome := by
  intro e he
  simp at he
  rcases he with rfl | rfl <;> exact ⟨stamped_ok _ _, rfl⟩
example : GapInside [unstamped (F := F) 1, stamped 2 2005] (DateTime.instant ⟨2003, 1, 1, 0, 0, 0, 0, none⟩) :=
  ⟨⟨[], unstamped 1, [stamped 2 2005], rfl, rfl, by
      intro x hx; simp at hx; subst hx; exact ⟨_, rfl, by decide⟩⟩,
    stamped 2 2005, by simp, _, rfl, by decide⟩
example : insertOrdered [stamped (F := F) 1 2001, stamped 2 2005] (stamped 3 2003)
    = .ok ([stamped 1 2001, stamped 3 2003, stamped 2 2005], 1) := by rfl

end

end Opy
