import Verif.Props.AlphaRun
/-
C178: what the alpha algorithm makes of short loops (example/AlphaAlgorithm.py).
-/
set_option linter.unusedSectionVars false
namespace Opy

section
variable {order : List Str → List Str} {orderP : List (List Str × List Str) → List (List Str × List Str)} {log : List (List Str)} {net : AlphaNet}

theorem runs_append {m m' : Marking} {u v : List Str} : Runs net m (u ++ v) m' ↔ ∃ k, Runs net m u k ∧ Runs net k v m' := by
  induction u generalizing m with
  | nil =>
    constructor
    · exact fun h => ⟨m, .nil, h⟩
    · rintro ⟨k, h1, h2⟩
      cases h1
      exact h2
  | cons a u ih =>
    constructor
    · intro h
      cases h with
      | cons hf hr =>
        obtain ⟨k, h1, h2⟩ := ih.1 hr
        exact ⟨k, .cons hf h1, h2⟩
    · rintro ⟨k, h1, h2⟩
      cases h1 with
      | cons hf hr => exact .cons hf (ih.2 ⟨k, hr, h2⟩)

/-- An activity that follows itself, and neither begins nor ends a trace, takes nothing and puts nothing. -/
theorem self_idle (ho : Enumerates order) (h : alpha order orderP log = .ok net) {e : Str} (he : Follows log e e) (hs : ¬ Starts log e) (hn : ¬ Ends log e)
    (x : NetPlace) : ¬ Takes net e x ∧ ¬ Puts net e x := by
  obtain ⟨_, h1, h2, _, _⟩ := alpha_events h
  have h3 := c94_self_loop ho h he
  cases x with
  | start => exact ⟨fun k => hs ((h1 e).1 k), fun k => k⟩
  | stop => exact ⟨fun k => k, fun k => hn ((h2 e).1 k)⟩
  | between A B =>
    constructor
    · rintro ⟨⟨p, hp, hl⟩, hb⟩
      exact (h3 p hp).2 ((hl.2 e).2 hb)
    · rintro ⟨⟨p, hp, hl⟩, ha⟩
      exact (h3 p hp).1 ((hl.1 e).2 ha)

/-- C178: an activity that follows itself somewhere, and neither begins nor ends a trace, may be put anywhere into a sequence that the net
accepts, and be left out anywhere. -/
theorem c178_free (ho : Enumerates order) (h : alpha order orderP log = .ok net) {e : Str} (he : Follows log e e) (hs : ¬ Starts log e) (hn : ¬ Ends log e)
    (u v : List Str) : Accepts net (u ++ e :: v) ↔ Accepts net (u ++ v) := by
  have idle := self_idle ho h he hs hn
  obtain ⟨_, _, _, h3, _⟩ := alpha_events h
  have occ : Occurs log e := by
    obtain ⟨t, ht, u, v, rfl⟩ := he
    exact ⟨_, ht, by simp⟩
  have same : ∀ {m m' : Marking}, Fires net m e m' → m' = m := by
    rintro m m' ⟨_, _, k⟩
    funext x
    rw [k x, tokenIf, tokenIf, if_neg (idle x).1, if_neg (idle x).2]
    omega
  have can : ∀ m : Marking, Fires net m e m := by
    intro m
    refine ⟨(h3 e).2 occ, fun x hx => absurd hx (idle x).1, fun x => ?_⟩
    rw [tokenIf, tokenIf, if_neg (idle x).1, if_neg (idle x).2]
    omega
  unfold Accepts
  rw [runs_append, runs_append]
  constructor
  · rintro ⟨k, h1, h2⟩
    cases h2 with
    | cons hf hr =>
      rw [same hf] at hr
      exact ⟨k, h1, hr⟩
  · rintro ⟨k, h1, h2⟩
    exact ⟨k, h1, .cons (can k) h2⟩

/-- C178: ... so that only the other activities count. -/
theorem c178_only_others (ho : Enumerates order) (h : alpha order orderP log = .ok net) {e : Str} (he : Follows log e e) (hs : ¬ Starts log e)
    (hn : ¬ Ends log e) (t : List Str) : Accepts net t ↔ Accepts net (t.filter (· ≠ e)) := by
  have key : ∀ (v u : List Str), Accepts net (u ++ v) ↔ Accepts net (u ++ v.filter (· ≠ e)) := by
    intro v
    induction v with
    | nil => exact fun u => Iff.rfl
    | cons a v ih =>
      intro u
      by_cases ha : a = e
      · subst ha
        rw [c178_free ho h he hs hn, ih u]
        simp
      · have := ih (u ++ [a])
        simpa [List.filter_cons, ha] using this
  exact key t []

/-- C178: an activity that begins or ends some trace stands at most once in a sequence that the net accepts. -/
theorem c178_ends (h : alpha order orderP log = .ok net) {e : Str} (hs : Starts log e ∨ Ends log e) {u v w : List Str} :
    ¬ Accepts net (u ++ e :: v ++ e :: w) := by
  intro ha
  obtain ⟨_, h1, h2, _, _⟩ := alpha_events h
  obtain ⟨k1, k2⟩ := c149_ends ha
  rcases hs with hs | hs
  · have := (h1 e).2 hs
    simp only [List.countP_append, List.countP_cons, this, decide_true, if_true] at k1
    omega
  · have := (h2 e).2 hs
    simp only [List.countP_append, List.countP_cons, this, decide_true, if_true] at k2
    omega

/-- C178: two neighbours of a sequence that the net accepts may change places, unless the first is seen right before the second in the log and
never right behind it. -/
theorem c178_swap (ho : Enumerates order) (h : alpha order orderP log = .ok net) {a b : Str} (hc : ¬ Causes log a b) {u v : List Str}
    (ha : Accepts net (u ++ a :: b :: v)) : Accepts net (u ++ b :: a :: v) := by
  have apart : ∀ x, ¬ (Puts net a x ∧ Takes net b x) := by
    intro x
    cases x with
    | start => exact fun k => k.1
    | stop => exact fun k => k.2
    | between A B =>
      rintro ⟨⟨⟨p, hp, hl⟩, k1⟩, _, k2⟩
      exact hc (((c93_places ho h).1 p hp).isPair.causes a b ((hl.1 a).2 k1) ((hl.2 b).2 k2))
  unfold Accepts at ha ⊢
  obtain ⟨m, h1, h2⟩ := runs_append.1 ha
  cases h2 with
  | cons f1 h2 =>
    cases h2 with
    | cons f2 h2 =>
      obtain ⟨a1, a2, a3⟩ := f1
      obtain ⟨b1, b2, b3⟩ := f2
      have t1 : ∀ {p : Prop}, p → tokenIf p = 1 := fun hp => by rw [tokenIf, if_pos hp]
      have t0 : ∀ {p : Prop}, ¬ p → tokenIf p = 0 := fun hp => by rw [tokenIf, if_neg hp]
      have le : ∀ p : Prop, tokenIf p ≤ 1 := fun p => by unfold tokenIf; split <;> omega
      have enough : ∀ x, tokenIf (Takes net a x) + tokenIf (Takes net b x) ≤ m x := by
        intro x
        have q3 := a3 x
        by_cases hb : Takes net b x
        · have q2 := b2 x hb
          rw [t0 (fun hp => apart x ⟨hp, hb⟩)] at q3
          rw [t1 hb]
          by_cases ha : Takes net a x
          · have := a2 x ha
            rw [t1 ha] at q3 ⊢
            omega
          · rw [t0 ha] at q3 ⊢
            omega
        · rw [t0 hb]
          by_cases ha : Takes net a x
          · have := a2 x ha
            rw [t1 ha]
            omega
          · rw [t0 ha]
            omega
      refine runs_append.2 ⟨m, h1, .cons (m' := fun x => m x - tokenIf (Takes net b x) + tokenIf (Puts net b x)) ⟨b1, fun x hx => ?_, fun x => rfl⟩
        (.cons ⟨a1, fun x hx => ?_, fun x => ?_⟩ h2)⟩
      · have := enough x
        rw [t1 hx] at this
        omega
      · have := enough x
        rw [t1 hx] at this
        show 1 ≤ m x - tokenIf (Takes net b x) + tokenIf (Puts net b x)
        omega
      · have := enough x
        have q := apart x
        rw [b3 x, a3 x]
        show _ = m x - tokenIf (Takes net b x) + tokenIf (Puts net b x) - tokenIf (Takes net a x) + tokenIf (Puts net a x)
        omega

theorem long_list : ∀ (log : List (List Str)), ∃ n, ∀ t ∈ log, t.length < n
  | [] => ⟨0, by simp⟩
  | t :: log => by
    obtain ⟨n, hn⟩ := long_list log
    refine ⟨max n (t.length + 1), fun s hs => ?_⟩
    rcases List.mem_cons.1 hs with rfl | hs
    · omega
    · have := hn s hs
      omega

/-- C178: if an activity follows itself in a trace, some trace is not accepted or infinitely many sequences are. -/
theorem c178_self (ho : Enumerates order) (h : alpha order orderP log = .ok net) {e : Str} (he : Follows log e e) :
    (∃ t ∈ log, ¬ Accepts net t) ∨ ∀ n, ∃ t, n ≤ t.length ∧ Accepts net t := by
  obtain ⟨t, ht, u, v, rfl⟩ := id he
  by_cases hs : Starts log e ∨ Ends log e
  · refine Or.inl ⟨_, ht, ?_⟩
    have := c178_ends h hs (u := u) (v := []) (w := v)
    simpa using this
  · by_cases ha : Accepts net (u ++ e :: e :: v)
    · refine Or.inr fun n => ⟨List.replicate n e ++ (u ++ e :: e :: v), by simp, ?_⟩
      induction n with
      | zero => exact ha
      | succ n ih =>
        rw [List.replicate_succ]
        exact (c178_free ho h he (fun k => hs (Or.inl k)) (fun k => hs (Or.inr k)) [] _).2 ih
    · exact Or.inl ⟨_, ht, ha⟩

/-- C178: so the net of a log in which an activity comes again at once, or after one other activity, never accepts exactly the traces of the log. -/
theorem c178_exact (ho : Enumerates order) (h : alpha order orderP log = .ok net) (hx : ∀ t, Accepts net t ↔ t ∈ log) :
    ∀ t ∈ log, ∀ a u v, t ≠ u ++ a :: a :: v ∧ ∀ b, t ≠ u ++ a :: b :: a :: v := by
  have one : ∀ a, ¬ Follows log a a := by
    intro a ha
    rcases c178_self ho h ha with ⟨t, ht, k⟩ | k
    · exact k ((hx t).2 ht)
    · obtain ⟨n, hn⟩ := long_list log
      obtain ⟨t, k1, k2⟩ := k n
      have := hn t ((hx t).1 k2)
      omega
  intro t ht a u v
  refine ⟨fun e => one a ⟨t, ht, u, v, e⟩, fun b e => ?_⟩
  subst e
  have f1 : Follows log a b := ⟨_, ht, u, a :: v, rfl⟩
  have k := c178_swap ho h (a := b) (b := a) (fun c => c.2 f1) (u := u ++ [a]) (v := v) (by simpa using (hx _).2 ht)
  exact one a ⟨_, (hx _).1 k, u, b :: v, by simp⟩

end

/-! ## Examples -/

/-- `b` follows itself in the log `a b b c`: the net accepts `a c`, `a b c`, and `b a c b b`. -/
example : ∃ net, alpha id id repeatLog = .ok net ∧ Follows repeatLog py!"b" py!"b" ∧ ¬ Starts repeatLog py!"b" ∧ ¬ Ends repeatLog py!"b" ∧
    (Accepts net [py!"b", py!"a", py!"c", py!"b", py!"b"] ↔ Accepts net [py!"a", py!"c"]) := by
  obtain ⟨net, hn⟩ : ∃ net, alpha id id repeatLog = .ok net := ⟨_, rfl⟩
  have f : Follows repeatLog py!"b" py!"b" := ⟨_, List.mem_singleton.2 rfl, [py!"a"], [py!"c"], rfl⟩
  have s : ¬ Starts repeatLog py!"b" := by
    rintro ⟨t, ht, k⟩
    rw [List.mem_singleton.1 ht] at k
    revert k
    decide
  have e : ¬ Ends repeatLog py!"b" := by
    rintro ⟨t, ht, k⟩
    rw [List.mem_singleton.1 ht] at k
    revert k
    decide
  refine ⟨net, hn, f, s, e, ?_⟩
  rw [c178_only_others (fun _ => .refl _) hn f s e]
  rfl

/-- In the textbook log neighbours that are seen in both orders may change places. -/
example : ∃ net, alpha id id [[py!"a", py!"b", py!"c", py!"d"], [py!"a", py!"c", py!"b", py!"d"]] = .ok net ∧
    (Accepts net [py!"a", py!"b", py!"c", py!"d"] → Accepts net [py!"a", py!"c", py!"b", py!"d"]) := by
  obtain ⟨net, hn⟩ : ∃ net, alpha id id [[py!"a", py!"b", py!"c", py!"d"], [py!"a", py!"c", py!"b", py!"d"]] = .ok net := ⟨_, rfl⟩
  exact ⟨net, hn, c178_swap (fun _ => .refl _) hn (fun c => c.2 ⟨_, by simp, [py!"a"], [py!"d"], rfl⟩) (u := [py!"a"])⟩

/-- A log in which `b` comes again after `c`: its net does not accept exactly its traces. -/
example (net : AlphaNet) (h : alpha id id [[py!"a", py!"b", py!"c", py!"b", py!"d"]] = .ok net) :
    ¬ ∀ t, Accepts net t ↔ t ∈ [[py!"a", py!"b", py!"c", py!"b", py!"d"]] := fun hx =>
  (c178_exact (fun _ => .refl _) h hx _ (List.mem_singleton.2 rfl) py!"b" [py!"a"] [py!"d"]).2 py!"c" rfl

end Opy
