import Verif.Props.MxmlStamp
/-
C166: the text of time bounds tells the bounds (XTimeBounds.__str__), and the text of a timestamp the timestamp.
-/
namespace Opy

/-! ## Specification -/

/-- The text of a bound: the timestamp, or None. -/
def BoundSays (t : Str) : Option DateTime → Prop
  | none => t = py!"None"
  | some d => StampSays t d

/-- The text of time bounds: both bounds with two hyphens between them. -/
def BoundsSay (t : Str) (b : TimeBounds) : Prop := ∃ x y, t = x ++ py!" -- " ++ y ∧ BoundSays x b.first ∧ BoundSays y b.last

/-! ## Uniqueness -/

theorem field_eq {w : Nat} {s : Str} {m n : Nat} (h : Field w s m) (h' : Field w s n) : m = n := h.2.symm.trans h'.2

theorem Field.len {w : Nat} {s : Str} {n : Nat} (h : Field w s n) : s.length = w := by
  have := h.1.1; have := h.1.2.1; omega

theorem field_app {w : Nat} {s s' x x' : Str} {m n : Nat} (h : Field w s m) (h' : Field w s' n) (e : s ++ x = s' ++ x') : m = n ∧ x = x' := by
  obtain ⟨rfl, rfl⟩ := List.append_inj e (h.len.trans h'.len.symm)
  exact ⟨field_eq h h', rfl⟩

theorem field_cons {w : Nat} {s s' x x' : Str} {c : Char} {m n : Nat} (h : Field w s m) (h' : Field w s' n) (e : s ++ c :: x = s' ++ c :: x') :
    m = n ∧ x = x' := by
  obtain ⟨h1, h2⟩ := field_app h h' e
  exact ⟨h1, (List.cons.inj h2).2⟩

theorem zone_unique {z : Str} {a b : Option Int} (h : StampZone z a) (h' : StampZone z b) : a = b := by
  have full : ∀ {h m : Str} {c : Char} {s h' m' : Str} {H M H' M' : Nat}, Field 2 h H → Field 2 m M → Field 2 h' H' → Field 2 m' M' →
      h ++ ':' :: m ≠ h' ++ ':' :: (m' ++ c :: s) := by
    intro h m c s h' m' H M H' M' h1 h2 h3 h4 e
    have := (field_cons h1 h3 e).2
    have := congrArg List.length this
    simp only [List.length_append, List.length_cons, h2.len, h4.len] at this
    omega
  cases h with
  | none => cases h'; rfl
  | east h1 h2 =>
    generalize hz : ('+' :: _ : Str) = z at h'
    cases h' with
    | none => simp at hz
    | east h3 h4 =>
      obtain ⟨e1, e2⟩ := field_cons h1 h3 (List.cons.inj hz).2
      subst e2
      rw [e1, field_eq h2 h4]
    | west => exact absurd (List.cons.inj hz).1 (by decide)
    | east' h3 h4 => exact absurd (List.cons.inj hz).2 (full h1 h2 h3 h4)
    | west' => exact absurd (List.cons.inj hz).1 (by decide)
  | west h1 h2 =>
    generalize hz : ('-' :: _ : Str) = z at h'
    cases h' with
    | none => simp at hz
    | west h3 h4 =>
      obtain ⟨e1, e2⟩ := field_cons h1 h3 (List.cons.inj hz).2
      subst e2
      rw [e1, field_eq h2 h4]
    | east => exact absurd (List.cons.inj hz).1 (by decide)
    | west' h3 h4 => exact absurd (List.cons.inj hz).2 (full h1 h2 h3 h4)
    | east' => exact absurd (List.cons.inj hz).1 (by decide)
  | east' h1 h2 h5 =>
    generalize hz : ('+' :: _ : Str) = z at h'
    cases h' with
    | none => simp at hz
    | east' h3 h4 h6 =>
      obtain ⟨e1, e2⟩ := field_cons h1 h3 (List.cons.inj hz).2
      obtain ⟨e3, e4⟩ := field_cons h2 h4 e2
      subst e4
      rw [e1, e3, field_eq h5 h6]
    | west' => exact absurd (List.cons.inj hz).1 (by decide)
    | east h3 h4 => exact absurd (List.cons.inj hz).2.symm (full h3 h4 h1 h2)
    | west => exact absurd (List.cons.inj hz).1 (by decide)
  | west' h1 h2 h5 =>
    generalize hz : ('-' :: _ : Str) = z at h'
    cases h' with
    | none => simp at hz
    | west' h3 h4 h6 =>
      obtain ⟨e1, e2⟩ := field_cons h1 h3 (List.cons.inj hz).2
      obtain ⟨e3, e4⟩ := field_cons h2 h4 e2
      subst e4
      rw [e1, e3, field_eq h5 h6]
    | east' => exact absurd (List.cons.inj hz).1 (by decide)
    | west h3 h4 => exact absurd (List.cons.inj hz).2.symm (full h3 h4 h1 h2)
    | east => exact absurd (List.cons.inj hz).1 (by decide)

theorem zone_head {z : Str} {a : Option Int} (h : StampZone z a) : '.' ≠ z.headD ' ' := by
  cases h <;> simp

/-- A text states at most one time. -/
theorem c166_stamp {t : Str} {d d' : DateTime} (h : StampSays t d) (h' : StampSays t d') : d = d' := by
  obtain ⟨y, mo, da, ho, mi, s, f, z, e, h1, h2, h3, h4, h5, h6, h7, h8⟩ := h
  obtain ⟨y', mo', da', ho', mi', s', f', z', e', g1, g2, g3, g4, g5, g6, g7, g8⟩ := h'
  rw [e] at e'
  obtain ⟨i1, e'⟩ := field_cons h1 g1 e'
  obtain ⟨i2, e'⟩ := field_cons h2 g2 e'
  obtain ⟨i3, e'⟩ := field_cons h3 g3 e'
  obtain ⟨i4, e'⟩ := field_cons h4 g4 e'
  obtain ⟨i5, e'⟩ := field_cons h5 g5 e'
  obtain ⟨i6, e'⟩ := field_app h6 g6 e'
  have : d.micro = d'.micro ∧ d.tz = d'.tz := by
    rcases h7 with ⟨rfl, hm⟩ | ⟨x, rfl, hm, hx⟩
    · rcases g7 with ⟨rfl, gm⟩ | ⟨x', rfl, gm, gx⟩
      · simp only [List.nil_append] at e'
        subst e'
        exact ⟨hm.trans gm.symm, zone_unique h8 g8⟩
      · simp only [List.nil_append] at e'
        exact absurd (by rw [e']; rfl) (zone_head h8)
    · rcases g7 with ⟨rfl, gm⟩ | ⟨x', rfl, gm, gx⟩
      · simp only [List.nil_append] at e'
        exact absurd (by rw [← e']; rfl) (zone_head g8)
      · simp only [List.cons_append, List.cons.injEq, true_and] at e'
        obtain ⟨j1, j2⟩ := field_app hx gx e'
        subst j2
        exact ⟨j1, zone_unique h8 g8⟩
  cases d; cases d'
  simp_all

theorem Field.noSpace {w : Nat} {s : Str} {n : Nat} (h : Field w s n) : ' ' ∉ s := fun hc => absurd (h.1.2.2 _ hc) (by decide)

theorem zone_noSpace {z : Str} {a : Option Int} (h : StampZone z a) : ' ' ∉ z := by
  cases h with
  | none => simp
  | east h1 h2 => simp [h1.noSpace, h2.noSpace]
  | west h1 h2 => simp [h1.noSpace, h2.noSpace]
  | east' h1 h2 h3 => simp [h1.noSpace, h2.noSpace, h3.noSpace]
  | west' h1 h2 h3 => simp [h1.noSpace, h2.noSpace, h3.noSpace]

/-- The date and the time of day. -/
theorem stamp_parts {t : Str} {d : DateTime} (h : StampSays t d) : ∃ p q, t = p ++ ' ' :: q ∧ ' ' ∉ p ∧ ' ' ∉ q ∧ q.headD '-' ≠ '-' := by
  obtain ⟨y, mo, da, ho, mi, s, f, z, e, h1, h2, h3, h4, h5, h6, h7, h8⟩ := h
  refine ⟨y ++ '-' :: (mo ++ '-' :: da), ho ++ ':' :: (mi ++ ':' :: (s ++ (f ++ z))), by rw [e]; simp,
    by simp [h1.noSpace, h2.noSpace, h3.noSpace], ?_, ?_⟩
  · have : ' ' ∉ f := by
      rcases h7 with ⟨rfl, _⟩ | ⟨x, rfl, _, hx⟩
      · simp
      · simp [hx.noSpace]
    simp [h4.noSpace, h5.noSpace, h6.noSpace, this, zone_noSpace h8]
  · cases ho with
    | nil => have := h4.len; simp at this
    | cons c r =>
      have := h4.1.2.2 c List.mem_cons_self
      intro hc
      simp only [List.cons_append, List.headD_cons] at hc
      rw [hc] at this
      exact absurd this (by decide)

theorem cut_space {x y : Str} : ∀ {a b : Str}, ' ' ∉ a → ' ' ∉ b → a ++ ' ' :: x = b ++ ' ' :: y → a = b ∧ x = y
  | [], [], _, _, h => ⟨rfl, (List.cons.inj h).2⟩
  | [], c :: b, _, hb, h => absurd (by rw [(List.cons.inj h).1]; exact List.mem_cons_self) hb
  | c :: a, [], ha, _, h => absurd (by rw [← (List.cons.inj h).1]; exact List.mem_cons_self) ha
  | c :: a, d :: b, ha, hb, h => by
    obtain ⟨h1, h2⟩ := List.cons.inj h
    obtain ⟨h3, h4⟩ := cut_space (fun hm => ha (List.mem_cons_of_mem _ hm)) (fun hm => hb (List.mem_cons_of_mem _ hm)) h2
    exact ⟨by rw [h1, h3], h4⟩

/-- The text before the hyphens is determined. -/
theorem bound_cut {x x' y y' : Str} {a a' : Option DateTime} (h : BoundSays x a) (h' : BoundSays x' a')
    (e : x ++ py!" -- " ++ y = x' ++ py!" -- " ++ y') : x = x' ∧ y = y' := by
  have hy : ∀ {u : Str}, x ++ py!" -- " ++ u = x ++ ' ' :: '-' :: '-' :: ' ' :: u := by intro u; simp
  have nn : ' ' ∉ py!"None" := by decide
  have key : x = x' := by
    cases a with
    | none =>
      cases a' with
      | none => exact h.trans h'.symm
      | some d =>
        obtain ⟨p, q, rfl, hp, hq, hh⟩ := stamp_parts h'
        have h1 : x = py!"None" := h
        subst h1
        have e1 : py!"None" ++ ' ' :: ('-' :: '-' :: ' ' :: y) = p ++ ' ' :: (q ++ py!" -- " ++ y') := by simpa using e
        have e2 := (cut_space nn hp e1).2
        cases q with
        | nil => exact absurd rfl hh
        | cons c q => simp only [List.cons_append, List.cons.injEq] at e2; exact absurd e2.1.symm hh
    | some d =>
      obtain ⟨p, q, rfl, hp, hq, hh⟩ := stamp_parts h
      cases a' with
      | none =>
        have h1 : x' = py!"None" := h'
        subst h1
        have e1 : p ++ ' ' :: (q ++ py!" -- " ++ y) = py!"None" ++ ' ' :: ('-' :: '-' :: ' ' :: y') := by simpa using e
        have e2 := (cut_space hp nn e1).2
        cases q with
        | nil => exact absurd rfl hh
        | cons c q => simp only [List.cons_append, List.cons.injEq] at e2; exact absurd e2.1 hh
      | some d' =>
        obtain ⟨p', q', rfl, hp', hq', _⟩ := stamp_parts h'
        have e1 : p ++ ' ' :: (q ++ ' ' :: ('-' :: '-' :: ' ' :: y)) = p' ++ ' ' :: (q' ++ ' ' :: ('-' :: '-' :: ' ' :: y')) := by simpa using e
        obtain ⟨e2, e3⟩ := cut_space hp hp' e1
        rw [e2, (cut_space hq hq' e3).1]
  subst key
  rw [List.append_assoc, List.append_assoc] at e
  exact ⟨rfl, List.append_cancel_left (List.append_cancel_left e)⟩

theorem bound_unique {x : Str} {a a' : Option DateTime} (h : BoundSays x a) (h' : BoundSays x a') : a = a' := by
  cases a with
  | none =>
    cases a' with
    | none => rfl
    | some d =>
      obtain ⟨p, q, e, _⟩ := stamp_parts h'
      have : ' ' ∈ x := by rw [e]; simp
      rw [show x = py!"None" from h] at this
      exact absurd this (by decide)
  | some d =>
    cases a' with
    | none =>
      obtain ⟨p, q, e, _⟩ := stamp_parts h
      have : ' ' ∈ x := by rw [e]; simp
      rw [show x = py!"None" from h'] at this
      exact absurd this (by decide)
    | some d' => rw [c166_stamp h h']

/-- C166: what the text of time bounds is. -/
theorem c166_text {b : TimeBounds} (h1 : ∀ d, b.first = some d → InRange d) (h2 : ∀ d, b.last = some d → InRange d) : BoundsSay b.text b := by
  refine ⟨_, _, rfl, ?_, ?_⟩
  · cases hb : b.first with
    | none => rfl
    | some d => exact pyStr_says (h1 d hb)
  · cases hb : b.last with
    | none => rfl
    | some d => exact pyStr_says (h2 d hb)

/-- C166: a text says at most one pair of bounds. -/
theorem c166_unique {t : Str} {b b' : TimeBounds} (h : BoundsSay t b) (h' : BoundsSay t b') : b = b' := by
  obtain ⟨x, y, e, h1, h2⟩ := h
  obtain ⟨x', y', e', g1, g2⟩ := h'
  obtain ⟨rfl, rfl⟩ := bound_cut h1 g1 (e.symm.trans e')
  cases b; cases b'
  simp only [TimeBounds.mk.injEq]
  exact ⟨bound_unique h1 g1, bound_unique h2 g2⟩

/-- C166: time bounds with the same text are the same. -/
theorem c166_same {b b' : TimeBounds} (h1 : ∀ d, b.first = some d → InRange d) (h2 : ∀ d, b.last = some d → InRange d)
    (g1 : ∀ d, b'.first = some d → InRange d) (g2 : ∀ d, b'.last = some d → InRange d) (e : b.text = b'.text) : b = b' :=
  c166_unique (c166_text h1 h2) (e ▸ c166_text g1 g2)

/- Examples -/

example : TimeBounds.empty.text = py!"None -- None" := by decide

example : let d : DateTime := ⟨2020, 2, 29, 23, 5, 7, 12, some 3600⟩
    (TimeBounds.mk (some d) (some { d with micro := 0, tz := none })).text = py!"2020-02-29 23:05:07.000012+01:00 -- 2020-02-29 23:05:07" := by
  decide +kernel

example : InRange ⟨2020, 2, 29, 23, 5, 7, 12, some 3600⟩ :=
  ⟨by decide, by decide, by decide, by decide, by decide, by decide, by decide, fun o h => by cases h; decide⟩

end Opy
