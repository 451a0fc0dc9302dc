import Verif.Model.AlphaSave
import Verif.Props.Alpha
import Verif.Props.MxmlStamp
import Verif.Lemmas.Bytes
set_option linter.unusedSectionVars false
namespace Opy

/-! # The text of a net tells which net it is (C157) -/

/-! ## Spec -/

/-- The two logs have the same net: the same activities, first and last activities, and maximal pairs. -/
structure AlikeNet (log log' : List (List Str)) : Prop where
  activities : ∀ a, Occurs log a ↔ Occurs log' a
  starts : ∀ a, Starts log a ↔ Starts log' a
  ends : ∀ a, Ends log a ↔ Ends log' a
  places : ∀ A B : Str → Prop, MaximalPair log A B ↔ MaximalPair log' A B

/-- No activity has a double quote in its name. -/
def NoQuote (log : List (List Str)) : Prop := ∀ a, Occurs log a → '"' ∉ a

/-! ## Reading the text -/

theorem cut_quote {x y : Str} : ∀ {a b : Str}, '"' ∉ a → '"' ∉ b → a ++ '"' :: x = b ++ '"' :: y → a = b ∧ x = y
  | [], [], _, _, h => by simpa using h
  | [], d :: b, _, hb, h => by
    simp only [List.nil_append, List.cons_append, List.cons.injEq] at h
    exact absurd (h.1 ▸ List.mem_cons_self ..) hb
  | c :: a, [], ha, _, h => by
    simp only [List.nil_append, List.cons_append, List.cons.injEq] at h
    exact absurd (h.1 ▸ List.mem_cons_self ..) ha
  | c :: a, d :: b, ha, hb, h => by
    simp only [List.cons_append, List.cons.injEq] at h
    have := cut_quote (fun m => ha (List.mem_cons_of_mem _ m)) (fun m => hb (List.mem_cons_of_mem _ m)) h.2
    exact ⟨by rw [h.1, this.1], this.2⟩

theorem cut_quoted {c d : Char} (hc : c ≠ '"') (hd : d ≠ '"') {x y : Str} : ∀ {l m : List Str}, (∀ n ∈ l, '"' ∉ n) → (∀ n ∈ m, '"' ∉ n) →
    quoted l ++ ' ' :: c :: x = quoted m ++ ' ' :: d :: y → l = m ∧ c :: x = d :: y
  | [], [], _, _, h => by simpa [quoted] using h
  | [], [n], _, _, h => by simp [quoted] at h
  | [], n :: m :: r, _, _, h => by simp [quoted] at h
  | [n], [], _, _, h => by simp [quoted] at h
  | n :: m :: r, [], _, _, h => by simp [quoted] at h
  | [n], [m], hl, hm, h => by
    simp only [quoted, List.cons_append, List.nil_append, List.append_assoc, List.cons.injEq, true_and] at h
    have := cut_quote (hl _ (List.mem_cons_self ..)) (hm _ (List.mem_cons_self ..)) h
    exact ⟨by rw [this.1], (List.cons.inj this.2).2⟩
  | [n], m :: m' :: r, hl, hm, h => by
    simp only [quoted, List.cons_append, List.nil_append, List.append_assoc, List.cons.injEq, true_and] at h
    have := (cut_quote (hl _ (List.mem_cons_self ..)) (hm _ (List.mem_cons_self ..)) h).2
    cases r <;> simp [quoted] at this <;> exact absurd this.1 hc
  | n :: n' :: r, [m], hl, hm, h => by
    simp only [quoted, List.cons_append, List.nil_append, List.append_assoc, List.cons.injEq, true_and] at h
    have := (cut_quote (hl _ (List.mem_cons_self ..)) (hm _ (List.mem_cons_self ..)) h).2
    cases r <;> simp [quoted] at this <;> exact absurd this.1.symm hd
  | n :: n' :: r, m :: m' :: q, hl, hm, h => by
    simp only [quoted, List.cons_append, List.nil_append, List.append_assoc, List.cons.injEq, true_and] at h
    have h1 := cut_quote (hl _ (List.mem_cons_self ..)) (hm _ (List.mem_cons_self ..)) h
    have h2 := cut_quoted hc hd (fun k hk => hl k (List.mem_cons_of_mem _ hk)) (fun k hk => hm k (List.mem_cons_of_mem _ hk)) (List.cons.inj h1.2).2
    exact ⟨by rw [h1.1, h2.1], h2.2⟩

/-- Names without quotes. -/
def Arc (a : List Str × List Str) : Prop := (∀ n ∈ a.1, '"' ∉ n) ∧ ∀ n ∈ a.2, '"' ∉ n

theorem cut_trans {n : Nat} {e e' : Str} {a a' : List Str × List Str} {x y : Str} (he : '"' ∉ e) (he' : '"' ∉ e') (ha : Arc a) (ha' : Arc a')
    (h : transLine n e a ++ x = transLine n e' a' ++ y) : e = e' ∧ a = a' ∧ x = y := by
  simp only [transLine, List.append_assoc, List.cons_append, List.nil_append, List.append_cancel_left_eq, List.cons.injEq, true_and] at h
  have q : ∀ {e : Str}, '"' ∉ e → '"' ∉ e ++ py!"+complete" := fun h m => (List.mem_append.1 m).elim h (by decide)
  have assoc : ∀ (e z : Str), e ++ '+' :: 'c' :: 'o' :: 'm' :: 'p' :: 'l' :: 'e' :: 't' :: 'e' :: '"' :: z = (e ++ py!"+complete") ++ '"' :: z := by
    intro e z; simp
  rw [assoc, assoc] at h
  obtain ⟨h1, h2⟩ := cut_quote (q he) (q he') h
  simp only [List.cons.injEq, true_and] at h2
  obtain ⟨h3, h4⟩ := cut_quoted (by decide) (by decide) ha.1 ha'.1 h2
  simp only [List.cons.injEq, true_and] at h4
  obtain ⟨h5, h6⟩ := cut_quoted (by decide) (by decide) ha.2 ha'.2 h4
  exact ⟨List.append_cancel_right h1, Prod.ext h3 h5, (List.cons.inj h6).2⟩

/-- Every line with a line end. -/
def ended (ls : List Str) : Str := ls.flatMap fun l => l ++ ['\n']

theorem ended_join : ∀ ls : List Str, ls ≠ [] → ended ls = (py!"\n").intercalate ls ++ ['\n']
  | [], h => absurd rfl h
  | [l], _ => by simp [ended, List.intercalate]
  | l :: m :: r, _ => by
    have := ended_join (m :: r) (by simp)
    simp only [ended, List.flatMap_cons] at this ⊢
    rw [this]
    simp [List.intercalate]

theorem trans_unique {ps ps' : List (Place Str)} (hp : ∀ e, Arc (arcs e ps)) (hp' : ∀ e, Arc (arcs e ps')) : ∀ (n : Nat) (es es' : List Str), (∀ e ∈ es, '"' ∉ e) →
    (∀ e ∈ es', '"' ∉ e) → ended (transLines ps n es) = ended (transLines ps' n es') → transLines ps n es = transLines ps' n es'
  | _, [], [], _, _, _ => rfl
  | n, [], e :: es, _, _, h => by simp [ended, transLines, transLine] at h
  | n, e :: es, [], _, _, h => by simp [ended, transLines, transLine] at h
  | n, e :: es, e' :: es', h1, h2, h => by
    simp only [transLines, ended, List.flatMap_cons, List.append_assoc] at h
    obtain ⟨q1, q2, q3⟩ := cut_trans (h1 e (List.mem_cons_self ..)) (h2 e' (List.mem_cons_self ..)) (hp e) (hp' e') h
    have := trans_unique hp hp' (n + 1) es es' (fun k hk => h1 k (List.mem_cons_of_mem _ hk)) (fun k hk => h2 k (List.mem_cons_of_mem _ hk))
      (List.append_cancel_left q3)
    simp only [transLines, this]
    rw [q2, q1]

/-- The line of the place with a number. -/
def numberLine (i : Nat) : Str := if i = 0 then py!"Place \"place_0\" init 1;" else py!"Place \"" ++ placeName i ++ py!"\";"

theorem place_unique {x y : Str} (hx : x.head? ≠ some 'P') (hy : y.head? ≠ some 'P') : ∀ (i k m : Nat),
    ended ((List.range' i k).map numberLine) ++ x = ended ((List.range' i m).map numberLine) ++ y → k = m ∧ x = y
  | i, 0, 0, h => by simpa [ended] using h
  | i, 0, m + 1, h => by
    exfalso; apply hx
    simp only [List.range'_zero, List.map_nil, ended, List.flatMap_nil, List.nil_append] at h
    rw [h]
    simp only [List.range'_succ, List.map_cons, List.flatMap_cons, numberLine]
    split <;> rfl
  | i, k + 1, 0, h => by
    exfalso; apply hy
    simp only [List.range'_zero, List.map_nil, ended, List.flatMap_nil, List.nil_append] at h
    rw [← h]
    simp only [List.range'_succ, List.map_cons, List.flatMap_cons, numberLine]
    split <;> rfl
  | i, k + 1, m + 1, h => by
    simp only [List.range'_succ, List.map_cons, ended, List.flatMap_cons, List.append_assoc, List.append_cancel_left_eq] at h
    have := place_unique hx hy (i + 1) k m h
    exact ⟨by rw [this.1], this.2⟩

theorem trans_head (ps : List (Place Str)) (n : Nat) (es : List Str) : (ended (transLines ps n es)).head? ≠ some 'P' := by
  cases es with
  | nil => simp [ended, transLines]
  | cons e es => simp [ended, transLines, transLine]

theorem placeName_quote (i : Nat) : '"' ∉ placeName i := by
  have : ∀ c ∈ intStr (i : Int), c ∈ py!"0123456789" := (natStr_field i).1
  intro h
  rcases List.mem_append.1 h with h | h
  · exact absurd h (by decide)
  · exact absurd (this _ h) (by decide)

theorem placeName_inj {i j : Nat} (h : placeName i = placeName j) : i = j := by
  have := intStr_inj (List.append_cancel_left h)
  omega

theorem arcs_names (e : Str) : ∀ ps : List (Place Str), ∀ n, (n ∈ (arcs e ps).1 ∨ n ∈ (arcs e ps).2) → ∃ p ∈ ps, n = p.name := by
  intro ps
  induction ps with
  | nil => intro n h; simp [arcs] at h
  | cons p ps ih =>
    intro n h
    simp only [arcs] at h
    split at h
    · simp only [List.mem_cons] at h
      rcases h with (h | h) | h
      · exact ⟨p, by simp, h⟩
      · obtain ⟨q, hq, e⟩ := ih n (.inl h); exact ⟨q, by simp [hq], e⟩
      · obtain ⟨q, hq, e⟩ := ih n (.inr h); exact ⟨q, by simp [hq], e⟩
    split at h
    · simp only [List.mem_cons] at h
      rcases h with h | h | h
      · obtain ⟨q, hq, e⟩ := ih n (.inl h); exact ⟨q, by simp [hq], e⟩
      · exact ⟨p, by simp, h⟩
      · obtain ⟨q, hq, e⟩ := ih n (.inr h); exact ⟨q, by simp [hq], e⟩
    · obtain ⟨q, hq, e⟩ := ih n h; exact ⟨q, by simp [hq], e⟩

theorem allPlaces_name (x : Extracted Str) (pl : List (List Str × List Str)) : ∀ p ∈ allPlaces x pl, ∃ i, p.name = placeName i := by
  intro p hp
  obtain ⟨i, hi⟩ := List.mem_iff_getElem?.1 hp
  rw [allPlaces, nameFrom_get] at hi
  obtain ⟨q, _, rfl⟩ := Option.map_eq_some_iff.1 hi
  exact ⟨_, rfl⟩

theorem allPlaces_arc (x : Extracted Str) (pl : List (List Str × List Str)) (e : Str) : Arc (arcs e (allPlaces x pl)) := by
  constructor
  · intro n hn
    obtain ⟨p, hp, rfl⟩ := arcs_names e _ n (.inl hn)
    obtain ⟨i, h⟩ := allPlaces_name x pl p hp
    rw [h]; exact placeName_quote i
  · intro n hn
    obtain ⟨p, hp, rfl⟩ := arcs_names e _ n (.inr hn)
    obtain ⟨i, h⟩ := allPlaces_name x pl p hp
    rw [h]; exact placeName_quote i

section
variable {order order' : List Str → List Str} {orderP orderP' : List (List Str × List Str) → List (List Str × List Str)}
variable {log log' : List (List Str)} {net net' : AlphaNet}

/-- The lines of the places by number. -/
theorem alpha_lines (ho : Enumerates order) (hP : Enumerates orderP) (h : alpha order orderP log = .ok net) :
    net.text = (List.range' 0 ((orderP net.places).length + 2)).map numberLine ++
      transLines (allPlaces net.events (orderP net.places)) ((orderP net.places).length + 3) (order net.events.all) := by
  obtain ⟨_, t0, ti, _⟩ := c93_text ho hP h
  obtain ⟨_, _, _, e4⟩ := alpha_ok h
  have hlen : (allPlaces net.events (orderP net.places)).length = (orderP net.places).length + 2 := by
    simp [allPlaces, nameFrom_length]
  rw [hlen] at e4
  rw [e4]
  congr 1
  apply List.ext_getElem?
  intro i
  by_cases hi : i < (orderP net.places).length + 2
  · have : ((allPlaces net.events (orderP net.places)).map placeLine)[i]? = net.text[i]? := by
      rw [e4, List.getElem?_append_left (by simpa [hlen] using hi)]
    rw [this]
    have hr : ((List.range' 0 ((orderP net.places).length + 2)).map numberLine)[i]? = some (numberLine i) := by
      rw [List.getElem?_map, List.getElem?_range' hi]; simp
    rw [hr]
    by_cases h0 : i = 0
    · subst h0; exact t0
    · rw [ti i (by omega) hi, numberLine, if_neg h0]
  · rw [List.getElem?_eq_none (by simp [hlen]; omega), List.getElem?_eq_none (by simp; omega)]

/-- Equal texts have equal lines. -/
theorem alpha_text_lines (ho : Enumerates order) (hP : Enumerates orderP) (ho' : Enumerates order') (hP' : Enumerates orderP')
    (h : alpha order orderP log = .ok net) (h' : alpha order' orderP' log' = .ok net') (hq : NoQuote log) (hq' : NoQuote log')
    (he : net.str = net'.str) : net.text = net'.text ∧ (orderP net.places).length = (orderP' net'.places).length := by
  have e := alpha_lines ho hP h
  have e' := alpha_lines ho' hP' h'
  have n1 : net.text ≠ [] := by rw [e]; simp
  have n2 : net'.text ≠ [] := by rw [e']; simp
  have hj : ended net.text = ended net'.text := by rw [ended_join _ n1, ended_join _ n2]; exact congrArg (· ++ ['\n']) he
  have happ : ∀ a b : List Str, ended (a ++ b) = ended a ++ ended b := fun a b => by simp [ended]
  rw [e, e', happ, happ] at hj
  obtain ⟨h1, h2⟩ := place_unique (trans_head _ _ _) (trans_head _ _ _) 0 _ _ hj
  have hk : (orderP net.places).length = (orderP' net'.places).length := by omega
  refine ⟨?_, hk⟩
  rw [e, e', hk]
  rw [hk] at h2
  congr 1
  refine trans_unique (allPlaces_arc _ _) (allPlaces_arc _ _) _ _ _ ?_ ?_ h2
  · exact fun a ha => hq a ((alpha_events h).2.2.2.1 a |>.1 ((ho _).mem_iff.1 ha))
  · exact fun a ha => hq' a ((alpha_events h').2.2.2.1 a |>.1 ((ho' _).mem_iff.1 ha))

/-- **C157**: two logs whose nets have the same text have the same net, if no activity has a double quote in its name. -/
theorem c157_text (ho : Enumerates order) (hP : Enumerates orderP) (ho' : Enumerates order') (hP' : Enumerates orderP')
    (h : alpha order orderP log = .ok net) (h' : alpha order' orderP' log' = .ok net') (hq : NoQuote log) (hq' : NoQuote log')
    (he : net.str = net'.str) : AlikeNet log log' := by
  obtain ⟨ht, hk⟩ := alpha_text_lines ho hP ho' hP' h h' hq hq' he
  obtain ⟨l1, _, _, t1⟩ := c93_text ho hP h
  obtain ⟨l2, _, _, t2⟩ := c93_text ho' hP' h'
  have hocc : ∀ a, a ∈ order net.events.all ↔ Occurs log a := fun a => (ho _).mem_iff.trans ((alpha_events h).2.2.2.1 a)
  have hocc' : ∀ a, a ∈ order' net'.events.all ↔ Occurs log' a := fun a => (ho' _).mem_iff.trans ((alpha_events h').2.2.2.1 a)
  -- what the line of an activity says
  have key : ∀ (j : Nat) (e e' : Str), (order net.events.all)[j]? = some e → (order' net'.events.all)[j]? = some e' → e = e' ∧ ∃ ins outs : List Str,
      ((∀ n, n ∈ ins ↔ (n = placeName 0 ∧ Starts log e) ∨ ∃ i p, (orderP net.places)[i]? = some p ∧ e ∈ p.2 ∧ n = placeName (i + 2)) ∧
        (∀ n, n ∈ outs ↔ (n = placeName 1 ∧ Ends log e) ∨ ∃ i p, (orderP net.places)[i]? = some p ∧ e ∈ p.1 ∧ n = placeName (i + 2))) ∧
      ((∀ n, n ∈ ins ↔ (n = placeName 0 ∧ Starts log' e) ∨ ∃ i p, (orderP' net'.places)[i]? = some p ∧ e ∈ p.2 ∧ n = placeName (i + 2)) ∧
        (∀ n, n ∈ outs ↔ (n = placeName 1 ∧ Ends log' e) ∨ ∃ i p, (orderP' net'.places)[i]? = some p ∧ e ∈ p.1 ∧ n = placeName (i + 2))) := by
    intro j e e' hj hj'
    obtain ⟨ins, outs, a1, a2, a3, a4, a5⟩ := t1 j e hj
    obtain ⟨ins', outs', b1, b2, b3, b4, b5⟩ := t2 j e' hj'
    have qn : ∀ {l : List Str} {k}, l.Sublist ((List.range k).map placeName) → ∀ n ∈ l, '"' ∉ n := by
      intro l k hs n hn
      obtain ⟨i, _, rfl⟩ := List.mem_map.1 (hs.subset hn)
      exact placeName_quote i
    rw [ht, hk, b1] at a1
    have a1 := Option.some.inj a1
    have : transLine ((orderP' net'.places).length + 3 + j) e' (ins', outs') ++ [] = transLine ((orderP' net'.places).length + 3 + j) e (ins, outs) ++ [] := by
      simp only [transLine, quoted_eq, List.append_nil]
      exact a1
    obtain ⟨q1, q2, _⟩ := cut_trans (hq' _ ((hocc' _).1 (List.mem_of_getElem? hj'))) (hq _ ((hocc _).1 (List.mem_of_getElem? hj)))
      ⟨qn b2, qn b3⟩ ⟨qn a2, qn a3⟩ this
    subst q1
    cases q2
    exact ⟨rfl, ins, outs, ⟨a4, a5⟩, b4, b5⟩
  have hev : (order net.events.all).length = (order' net'.events.all).length := by
    have := congrArg List.length ht
    rw [l1, l2, hk] at this
    omega
  have hord : order net.events.all = order' net'.events.all := by
    apply List.ext_getElem hev
    intro j h1 h2
    exact (key j _ _ (List.getElem?_eq_getElem h1) (List.getElem?_eq_getElem h2)).1
  have act : ∀ a, Occurs log a ↔ Occurs log' a := fun a => by rw [← hocc, ← hocc', hord]
  have line : ∀ a, Occurs log a → ∃ ins outs : List Str,
      ((∀ n, n ∈ ins ↔ (n = placeName 0 ∧ Starts log a) ∨ ∃ i p, (orderP net.places)[i]? = some p ∧ a ∈ p.2 ∧ n = placeName (i + 2)) ∧
        (∀ n, n ∈ outs ↔ (n = placeName 1 ∧ Ends log a) ∨ ∃ i p, (orderP net.places)[i]? = some p ∧ a ∈ p.1 ∧ n = placeName (i + 2))) ∧
      ((∀ n, n ∈ ins ↔ (n = placeName 0 ∧ Starts log' a) ∨ ∃ i p, (orderP' net'.places)[i]? = some p ∧ a ∈ p.2 ∧ n = placeName (i + 2)) ∧
        (∀ n, n ∈ outs ↔ (n = placeName 1 ∧ Ends log' a) ∨ ∃ i p, (orderP' net'.places)[i]? = some p ∧ a ∈ p.1 ∧ n = placeName (i + 2))) := by
    intro a ha
    obtain ⟨j, hj⟩ := List.mem_iff_getElem?.1 ((hocc a).2 ha)
    exact (key j a a hj (hord ▸ hj)).2
  have occS : ∀ {l : List (List Str)} {a}, Starts l a → Occurs l a := fun ⟨t, ht, hh⟩ => ⟨t, ht, List.mem_of_mem_head? hh⟩
  have occE : ∀ {l : List (List Str)} {a}, Ends l a → Occurs l a := fun ⟨t, ht, hh⟩ => ⟨t, ht, List.mem_of_mem_getLast? hh⟩
  have hS : ∀ a, Occurs log a → (Starts log a ↔ Starts log' a) := by
    intro a ha
    obtain ⟨ins, outs, ⟨c1, _⟩, c2, _⟩ := line a ha
    have z : ∀ i, placeName 0 ≠ placeName (i + 2) := fun i h => by have := placeName_inj h; omega
    have r1 : placeName 0 ∈ ins ↔ Starts log a := by rw [c1]; simp [z]
    have r2 : placeName 0 ∈ ins ↔ Starts log' a := by rw [c2]; simp [z]
    rw [← r1, r2]
  have hE : ∀ a, Occurs log a → (Ends log a ↔ Ends log' a) := by
    intro a ha
    obtain ⟨ins, outs, ⟨_, c1⟩, _, c2⟩ := line a ha
    have z : ∀ i, placeName 1 ≠ placeName (i + 2) := fun i h => by have := placeName_inj h; omega
    have r1 : placeName 1 ∈ outs ↔ Ends log a := by rw [c1]; simp [z]
    have r2 : placeName 1 ∈ outs ↔ Ends log' a := by rw [c2]; simp [z]
    rw [← r1, r2]
  -- the sets of the places with the same number
  have sets : ∀ (i : Nat) (p p' : List Str × List Str), (orderP net.places)[i]? = some p → (orderP' net'.places)[i]? = some p' →
      ∀ a, Occurs log a → ((a ∈ p.1 ↔ a ∈ p'.1) ∧ (a ∈ p.2 ↔ a ∈ p'.2)) := by
    intro i p p' hp hp' a ha
    obtain ⟨ins, outs, ⟨c1, d1⟩, c2, d2⟩ := line a ha
    have z0 : placeName (i + 2) ≠ placeName 0 := fun h => by have := placeName_inj h; omega
    have z1 : placeName (i + 2) ≠ placeName 1 := fun h => by have := placeName_inj h; omega
    have one : ∀ {l : List (List Str × List Str)} {q : List Str × List Str} (P : List Str × List Str → Prop), l[i]? = some q →
        ((∃ i' p, l[i']? = some p ∧ P p ∧ placeName (i + 2) = placeName (i' + 2)) ↔ P q) := by
      intro l q P hl
      constructor
      · rintro ⟨i', p, h1, h2, h3⟩
        have := placeName_inj h3
        obtain rfl : i' = i := by omega
        rw [hl] at h1; cases h1; exact h2
      · exact fun h => ⟨i, q, hl, h, rfl⟩
    have r1 : placeName (i + 2) ∈ ins ↔ a ∈ p.2 := by rw [c1, one (a ∈ ·.2) hp]; simp [z0]
    have r2 : placeName (i + 2) ∈ ins ↔ a ∈ p'.2 := by rw [c2, one (a ∈ ·.2) hp']; simp [z0]
    have s1 : placeName (i + 2) ∈ outs ↔ a ∈ p.1 := by rw [d1, one (a ∈ ·.1) hp]; simp [z1]
    have s2 : placeName (i + 2) ∈ outs ↔ a ∈ p'.1 := by rw [d2, one (a ∈ ·.1) hp']; simp [z1]
    exact ⟨s1.symm.trans s2, r1.symm.trans r2⟩
  refine ⟨act, ?_, ?_, ?_⟩
  · exact fun a => ⟨fun hs => (hS a (occS hs)).1 hs, fun hs => (hS a ((act a).2 (occS hs))).2 hs⟩
  · exact fun a => ⟨fun hs => (hE a (occE hs)).1 hs, fun hs => (hE a ((act a).2 (occE hs))).2 hs⟩
  · intro A B
    obtain ⟨m1, m2⟩ := c93_places ho h
    obtain ⟨m1', m2'⟩ := c93_places ho' h'
    have same : ∀ (i : Nat) (p p' : List Str × List Str), (orderP net.places)[i]? = some p → (orderP' net'.places)[i]? = some p' →
        ((· ∈ p.1) = (· ∈ p'.1)) ∧ ((· ∈ p.2) = (· ∈ p'.2)) := by
      intro i p p' hp hp'
      have mp := (m1 p ((hP _).mem_iff.1 (List.mem_of_getElem? hp))).isPair.fromLog
      have mp' := (m1' p' ((hP' _).mem_iff.1 (List.mem_of_getElem? hp'))).isPair.fromLog
      refine ⟨funext fun a => propext ⟨fun ha => ?_, fun ha => ?_⟩, funext fun a => propext ⟨fun ha => ?_, fun ha => ?_⟩⟩
      · exact (sets i p p' hp hp' a (mp.1 a ha)).1.1 ha
      · exact (sets i p p' hp hp' a ((act a).2 (mp'.1 a ha))).1.2 ha
      · exact (sets i p p' hp hp' a (mp.2 a ha)).2.1 ha
      · exact (sets i p p' hp hp' a ((act a).2 (mp'.2 a ha))).2.2 ha
    constructor
    · intro hm
      obtain ⟨p, hp, hl, _⟩ := m2 A B hm
      obtain ⟨i, hi⟩ := List.mem_iff_getElem?.1 ((hP _).mem_iff.2 hp)
      have hlt : i < (orderP' net'.places).length := hk ▸ (List.getElem?_eq_some_iff.1 hi).1
      obtain ⟨s1, s2⟩ := same i p _ hi (List.getElem?_eq_getElem hlt)
      have := m1' _ ((hP' _).mem_iff.1 (List.getElem_mem hlt))
      rw [← s1, ← s2] at this
      obtain rfl : (· ∈ p.1) = A := funext fun x => propext (hl.1 x)
      obtain rfl : (· ∈ p.2) = B := funext fun x => propext (hl.2 x)
      exact this
    · intro hm
      obtain ⟨p, hp, hl, _⟩ := m2' A B hm
      obtain ⟨i, hi⟩ := List.mem_iff_getElem?.1 ((hP' _).mem_iff.2 hp)
      have hlt : i < (orderP net.places).length := hk ▸ (List.getElem?_eq_some_iff.1 hi).1
      obtain ⟨s1, s2⟩ := same i _ p (List.getElem?_eq_getElem hlt) hi
      have := m1 _ ((hP _).mem_iff.1 (List.getElem_mem hlt))
      rw [s1, s2] at this
      obtain rfl : (· ∈ p.1) = A := funext fun x => propext (hl.1 x)
      obtain rfl : (· ∈ p.2) = B := funext fun x => propext (hl.2 x)
      exact this

theorem quoted_cr : ∀ {l : List Str}, (∀ n ∈ l, '\r' ∉ n) → '\r' ∉ quoted l
  | [], _ => by simp [quoted]
  | [n], h => by simpa [quoted] using h
  | n :: m :: r, h => by
    have := quoted_cr fun k hk => h k (List.mem_cons_of_mem n hk)
    simp only [quoted, List.mem_append, not_or]
    exact ⟨⟨⟨⟨by decide, h n (by simp)⟩, by decide⟩, by decide⟩, this⟩

theorem digits_cr (i : Nat) : '\r' ∉ intStr (i : Int) := fun h => absurd ((natStr_field i).1 _ h) (by decide)

theorem placeName_cr (i : Nat) : '\r' ∉ placeName i := by
  simp only [placeName, List.mem_append, not_or]
  exact ⟨by decide, digits_cr i⟩

theorem transLines_cr (x : Extracted Str) (pl : List (List Str × List Str)) : ∀ (n : Nat) (es : List Str), (∀ e ∈ es, '\r' ∉ e) →
    ∀ l ∈ transLines (allPlaces x pl) n es, '\r' ∉ l
  | _, [], _, l, hl => by simp [transLines] at hl
  | n, e :: es, h, l, hl => by
    simp only [transLines, List.mem_cons] at hl
    rcases hl with rfl | hl
    · have nm : ∀ k, (k ∈ (arcs e (allPlaces x pl)).1 ∨ k ∈ (arcs e (allPlaces x pl)).2) → '\r' ∉ k := by
        intro k hk
        obtain ⟨p, hp, rfl⟩ := arcs_names e _ k hk
        obtain ⟨i, hi⟩ := allPlaces_name x pl p hp
        rw [hi]; exact placeName_cr i
      simp only [transLine, List.mem_append, not_or]
      exact ⟨⟨⟨⟨⟨⟨⟨⟨by decide, digits_cr n⟩, by decide⟩, h e (by simp)⟩, by decide⟩, quoted_cr fun k hk => nm k (.inl hk)⟩, by decide⟩,
        quoted_cr fun k hk => nm k (.inr hk)⟩, by decide⟩
    · exact transLines_cr x pl (n + 1) es (fun k hk => h k (List.mem_cons_of_mem _ hk)) l hl

/-- No carriage return in the names, none in the text. -/
theorem alpha_cr (ho : Enumerates order) (hP : Enumerates orderP) (h : alpha order orderP log = .ok net) (hr : ∀ a, Occurs log a → '\r' ∉ a) : '\r' ∉ net.str := by
  have e := alpha_lines ho hP h
  have n1 : net.text ≠ [] := by rw [e]; simp
  have : '\r' ∉ ended net.text := by
    intro hm
    obtain ⟨l, hl, hm⟩ := List.mem_flatMap.1 hm
    have hm : '\r' ∈ l := by simpa using hm
    rw [e] at hl
    rcases List.mem_append.1 hl with hl | hl
    · obtain ⟨i, _, rfl⟩ := List.mem_map.1 hl
      unfold numberLine at hm
      split at hm
      · exact absurd hm (by decide)
      · simp only [List.mem_append] at hm
        rcases hm with (hm | hm) | hm
        · exact absurd hm (by decide)
        · exact placeName_cr i hm
        · exact absurd hm (by decide)
    · exact transLines_cr _ _ _ _ (fun a ha => hr a ((alpha_events h).2.2.2.1 a |>.1 ((ho _).mem_iff.1 ha))) l hl hm
  rw [ended_join _ n1] at this
  exact fun hm => this (List.mem_append_left _ hm)

/-- **C157**: so do two logs whose files have the same bytes, wherever they are and whatever the encoding, if in addition no activity has a carriage
return in its name where line ends are CR LF. -/
theorem c157_file (ho : Enumerates order) (hP : Enumerates orderP) (ho' : Enumerates order') (hP' : Enumerates orderP')
    (h : alpha order orderP log = .ok net) (h' : alpha order' orderP' log' = .ok net') (hq : NoQuote log) (hq' : NoQuote log')
    {codec : Codec} (hc : codec.Sound) {crlf : Bool} (hr : crlf = true → ∀ a, Occurs log a ∨ Occurs log' a → '\r' ∉ a) {name name' path path' : Str} {b : List Nat}
    (hs : net.save codec crlf name = .ok (path, b)) (hs' : net'.save codec crlf name' = .ok (path', b)) : AlikeNet log log' ∧ path = name ++ py!".tpn" := by
  simp only [AlphaNet.save, bind_ok, Except.ok.injEq, Prod.mk.injEq] at hs hs'
  obtain ⟨b1, w1, rfl, rfl⟩ := hs
  obtain ⟨b2, w2, rfl, rfl⟩ := hs'
  refine ⟨c157_text ho hP ho' hP' h h' hq hq' ?_, rfl⟩
  have dec : ∀ {t : Str}, writePlain codec crlf t = .ok b2 → codec.dec b2 = some (if crlf then replaceAll ['\n'] ['\r', '\n'] t else t) := by
    intro t ht
    unfold writePlain at ht
    split at ht
    · rename_i b' hb; cases ht; exact hc _ _ hb
    · cases ht
  have e := Option.some.inj ((dec w1).symm.trans (dec w2))
  cases crlf with
  | false => simpa using e
  | true =>
    simp only [if_true] at e
    have := congrArg normEol e
    rwa [normEol_crlf (alpha_cr ho hP h fun a ha => hr rfl a (.inl ha)), normEol_crlf (alpha_cr ho' hP' h' fun a ha => hr rfl a (.inr ha))] at this

end

/-! ## Examples -/

/-- A log with one activity whose name looks like two lines of a net. -/
def trickyName : Str := py!"a+complete\" in \"place_0\" out \"place_1\" ;\ntrans \"t_4\"~\"b"

/-- The nets of two different logs have the same text when a name has quotes. -/
theorem c157_refuted : ∃ net net', alpha id id [[trickyName]] = .ok net ∧ alpha id id [[py!"a"], [py!"b"]] = .ok net' ∧ net.str = net'.str ∧
    ¬ AlikeNet [[trickyName]] [[py!"a"], [py!"b"]] := by
  refine ⟨_, _, rfl, rfl, by decide +kernel, fun h => ?_⟩
  have : Occurs [[trickyName]] py!"a" := (h.activities _).2 ⟨_, List.mem_cons_self .., List.mem_cons_self ..⟩
  obtain ⟨t, ht, ha⟩ := this
  simp only [List.mem_singleton] at ht
  subst ht
  simp only [List.mem_singleton] at ha
  exact absurd ha (by decide)

/-- The text of a small net. -/
example : ∃ net, alpha id id [[py!"a", py!"b"]] = .ok net ∧ net.str =
    py!"Place \"place_0\" init 1;\nPlace \"place_1\";\nPlace \"place_2\";\ntrans \"t_4\"~\"a+complete\" in \"place_0\" out \"place_2\" ;\ntrans \"t_5\"~\"b+complete\" in \"place_2\" out \"place_1\" ;" :=
  ⟨_, rfl, by decide +kernel⟩

/-- Another order of the traces may give the same text, and then the net is the same. -/
example : AlikeNet [[py!"a", py!"b"], [py!"a", py!"c"]] [[py!"a", py!"b"], [py!"a", py!"c"], [py!"a", py!"b"]] := by
  have ho : Enumerates (id : List Str → List Str) := fun _ => .refl _
  have hP : Enumerates (id : List (List Str × List Str) → _) := fun _ => .refl _
  have q : ∀ {log : List (List Str)}, (log.all fun t => t.all fun a => !a.elem '"') = true → NoQuote log := by
    rintro log h a ⟨t, ht, ha⟩ hc
    simp only [List.all_eq_true] at h
    have := h t ht a ha
    simp [hc] at this
  exact c157_text ho hP ho hP rfl rfl (q (by decide)) (q (by decide)) (by decide +kernel)

/-- In UTF-8 every net can be saved. -/
theorem c157_saved (net : AlphaNet) (crlf : Bool) (name : Str) : ∃ b, net.save utf8Codec crlf name = .ok (name ++ py!".tpn", b) := by
  refine ⟨utf8 (if crlf then replaceAll ['\n'] ['\r', '\n'] net.str else net.str), ?_⟩
  simp only [AlphaNet.save, writePlain, utf8Codec_encode]
  rfl

end Opy
