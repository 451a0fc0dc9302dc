import Verif.Props.DateText
import Verif.Model.Mxml
import Verif.Props.Info
import Verif.Props.Attr
/-
Property C136: the timestamps in MXML files.
-/
set_option linter.unusedSectionVars false
namespace Opy

/-! ## Specification -/

/-- Exactly `w` decimal digits with the value `n`. -/
def Field (w : Nat) (s : Str) (n : Nat) : Prop := Digits s w w ∧ number s = n

/-- The end of a timestamp and the offset in seconds: nothing, or sign, hours, minutes and, unless they are zero, seconds. -/
inductive StampZone : Str → Option Int → Prop where
  | none : StampZone [] none
  | east {h m : Str} {H M : Nat} : Field 2 h H → Field 2 m M → StampZone ('+' :: (h ++ ':' :: m)) (some (3600 * H + 60 * M))
  | west {h m : Str} {H M : Nat} : Field 2 h H → Field 2 m M → StampZone ('-' :: (h ++ ':' :: m)) (some (- (3600 * H + 60 * M)))
  | east' {h m s : Str} {H M S : Nat} : Field 2 h H → Field 2 m M → Field 2 s S → S ≠ 0 →
    StampZone ('+' :: (h ++ ':' :: (m ++ ':' :: s))) (some (3600 * H + 60 * M + S))
  | west' {h m s : Str} {H M S : Nat} : Field 2 h H → Field 2 m M → Field 2 s S → S ≠ 0 →
    StampZone ('-' :: (h ++ ':' :: (m ++ ':' :: s))) (some (- (3600 * H + 60 * M + S)))

/-- The text states the time: `2020-02-29 23:05:07.000012+01:00`, without the fraction if it is zero. -/
def StampSays (t : Str) (d : DateTime) : Prop :=
  ∃ y mo da h mi s f z, t = y ++ '-' :: (mo ++ '-' :: (da ++ ' ' :: (h ++ ':' :: (mi ++ ':' :: (s ++ (f ++ z)))))) ∧
    Field 4 y d.year ∧ Field 2 mo d.month ∧ Field 2 da d.day ∧ Field 2 h d.hour ∧ Field 2 mi d.minute ∧ Field 2 s d.second ∧
    ((f = [] ∧ d.micro = 0) ∨ ∃ x, f = '.' :: x ∧ d.micro ≠ 0 ∧ Field 6 x d.micro) ∧ StampZone z d.tz

/-- The ranges that `datetime` keeps to. -/
structure InRange (d : DateTime) : Prop where
  year : d.year ≤ 9999
  month : d.month ≤ 12
  day : d.day ≤ 31
  hour : d.hour < 24
  minute : d.minute < 60
  second : d.second < 60
  micro : d.micro < 1000000
  zone : ∀ o, d.tz = some o → -86400 < o ∧ o < 86400

/-! ## Fields -/

theorem natStr_field (n : Nat) : (∀ c ∈ natStr n, c ∈ py!"0123456789") ∧ number (natStr n) = n := by
  induction n using Nat.strongRecOn with
  | _ n ih =>
    by_cases h : n < 10
    · rw [natStr_lt h]
      refine ⟨?_, ?_⟩
      · simp only [List.mem_singleton, forall_eq]
        exact digitChar_digit h
      · rw [number_one, dig_digitChar h]
    · obtain ⟨h1, h2⟩ := ih (n / 10) (by omega)
      rw [natStr_ge (by omega)]
      refine ⟨?_, ?_⟩
      · intro c hc
        rcases List.mem_append.1 hc with hc | hc
        · exact h1 c hc
        · rw [List.mem_singleton] at hc
          subst hc
          exact digitChar_digit (by omega)
      · rw [number_append, h2, number_one, dig_digitChar (by omega)]
        simp only [List.length_singleton, Nat.pow_one]
        omega

theorem natStr_length : ∀ (w n : Nat), n < 10 ^ (w + 1) → (natStr n).length ≤ w + 1
  | 0, n, h => by rw [natStr_lt (by omega)]; simp
  | w + 1, n, h => by
    by_cases h1 : n < 10
    · rw [natStr_lt h1]; simp
    · rw [natStr_ge (by omega), List.length_append, List.length_singleton]
      have := natStr_length w (n / 10) (by rw [Nat.pow_succ] at h; omega)
      omega

theorem padNat_field {w n : Nat} (hw : w ≠ 0) (h : n < 10 ^ w) : Field w (padNat w n) n := by
  obtain ⟨w, rfl⟩ := Nat.exists_eq_succ_of_ne_zero hw
  have hl := natStr_length w n h
  obtain ⟨h1, h2⟩ := natStr_field n
  refine ⟨⟨?_, ?_, ?_⟩, ?_⟩
  · simp only [padNat, List.length_append, List.length_replicate]; omega
  · simp only [padNat, List.length_append, List.length_replicate, Nat.succ_eq_add_one]; omega
  · intro c hc
    rcases List.mem_append.1 hc with hc | hc
    · rw [(List.mem_replicate.1 hc).2]; decide
    · exact h1 c hc
  · rw [padNat, number_append, number_zeros, h2]; omega

/-! ## C136 -/

/-- The text of a date states it. -/
theorem pyStr_says {d : DateTime} (h : InRange d) : StampSays d.pyStr d := by
  have f2 : ∀ {n : Nat}, n < 100 → Field 2 (padNat 2 n) n := fun h => padNat_field (by decide) h
  refine ⟨padNat 4 d.year, padNat 2 d.month, padNat 2 d.day, padNat 2 d.hour, padNat 2 d.minute, padNat 2 d.second,
    (if d.micro = 0 then [] else '.' :: padNat 6 d.micro), (match d.tz with
         | .none => []
         | .some o =>
           (if o < 0 then ['-'] else ['+']) ++ padNat 2 (o.natAbs / 3600) ++ [':'] ++ padNat 2 (o.natAbs / 60 % 60)
            ++ (if o.natAbs % 60 = 0 then [] else ':' :: padNat 2 (o.natAbs % 60))),
    ?_, padNat_field (by decide) (by have := h.year; omega),
    f2 (by have := h.month; omega), f2 (by have := h.day; omega), f2 (by have := h.hour; omega), f2 (by have := h.minute; omega),
    f2 (by have := h.second; omega), ?_, ?_⟩
  · simp only [DateTime.pyStr, List.append_assoc, List.cons_append, List.nil_append]
    cases d.tz <;> rfl
  · by_cases hm : d.micro = 0
    · exact .inl ⟨by simp [hm], hm⟩
    · exact .inr ⟨_, by simp [hm], hm, padNat_field (by decide) h.micro⟩
  · cases ht : d.tz with
    | none => exact .none
    | some o =>
      have hr := h.zone o ht
      have g1 : Field 2 (padNat 2 (o.natAbs / 3600)) (o.natAbs / 3600) := f2 (by omega)
      have g2 : Field 2 (padNat 2 (o.natAbs / 60 % 60)) (o.natAbs / 60 % 60) := f2 (by omega)
      have g3 : Field 2 (padNat 2 (o.natAbs % 60)) (o.natAbs % 60) := f2 (by omega)
      by_cases hs : o.natAbs % 60 = 0
      · by_cases hneg : o < 0
        · have := StampZone.west g1 g2
          have e : (- (3600 * ((o.natAbs / 3600 : Nat) : Int) + 60 * ((o.natAbs / 60 % 60 : Nat) : Int))) = o := by omega
          rw [e] at this
          simpa [hneg, hs] using this
        · have := StampZone.east g1 g2
          have e : (3600 * ((o.natAbs / 3600 : Nat) : Int) + 60 * ((o.natAbs / 60 % 60 : Nat) : Int)) = o := by omega
          rw [e] at this
          simpa [hneg, hs] using this
      · by_cases hneg : o < 0
        · have := StampZone.west' g1 g2 g3 hs
          have e : (- (3600 * ((o.natAbs / 3600 : Nat) : Int) + 60 * ((o.natAbs / 60 % 60 : Nat) : Int) + ((o.natAbs % 60 : Nat) : Int))) = o := by omega
          rw [e] at this
          simpa [hneg, hs] using this
        · have := StampZone.east' g1 g2 g3 hs
          have e : (3600 * ((o.natAbs / 3600 : Nat) : Int) + 60 * ((o.natAbs / 60 % 60 : Nat) : Int) + ((o.natAbs % 60 : Nat) : Int)) = o := by omega
          rw [e] at this
          simpa [hneg, hs] using this

theorem pad_noT (w n : Nat) {c : Char} (hc : c ∉ py!"0123456789") : c ∉ padNat w n := by
  intro hm
  rcases List.mem_append.1 hm with hm | hm
  · rw [(List.mem_replicate.1 hm).2] at hc; exact hc (by decide)
  · exact hc ((natStr_field n).1 c hm)

theorem pyStr_noT (d : DateTime) {c : Char} (hc : c = 'T' ∨ c = 't') : c ∉ d.pyStr := by
  have h0 : c ∉ py!"0123456789" ∧ c ≠ '-' ∧ c ≠ ':' ∧ c ≠ ' ' ∧ c ≠ '.' ∧ c ≠ '+' := by rcases hc with rfl | rfl <;> decide
  have hp : ∀ w n, c ∉ padNat w n := fun w n => pad_noT w n h0.1
  obtain ⟨_, h1, h2, h3, h4, h5⟩ := h0
  simp only [DateTime.pyStr, List.mem_append, List.mem_singleton, not_or]
  refine ⟨⟨⟨⟨⟨⟨⟨⟨⟨⟨⟨⟨hp _ _, h1⟩, hp _ _⟩, h1⟩, hp _ _⟩, h3⟩, hp _ _⟩, h2⟩, hp _ _⟩, h2⟩, hp _ _⟩, ?_⟩, ?_⟩
  · split
    · simp
    · simp [h4, hp]
  · split
    · simp
    · simp only [List.mem_append, List.mem_singleton, not_or]
      refine ⟨⟨⟨⟨?_, hp _ _⟩, h2⟩, hp _ _⟩, ?_⟩
      · split <;> simp [h1, h5]
      · split
        · simp
        · simp [h2, hp]

theorem core_hasT {core : Str} {t : DateTime} (h : CoreSays core t) : 'T' ∈ core ∨ 't' ∈ core := by
  obtain ⟨y, mo, d, h, mi, s, T, f, rfl, hT, -⟩ := h
  rcases hT with rfl | rfl
  · left; simp
  · right; simp

theorem zone_sub {s core : Str} {o : Int} (h : ZoneSays s core o) : ∀ c ∈ core, c ∈ s := by
  cases h with
  | utc _ e => subst e; intro c hc; exact (List.mem_filter.1 hc).1
  | none _ e => subst e; exact fun c hc => hc
  | plus _ e => subst e; intro c hc; simp [hc]
  | minus _ _ e => subst e; intro c hc; simp [hc]

/-- C136 (violated): no text that the serializer writes for a date is read as a date. -/
theorem c136_refuted (d : DateTime) : parseDateTime d.pyStr = .ok none := by
  have key : ∀ core t off, CoreSays core t → ¬ ZoneSays d.pyStr core off := by
    intro core t off hc hz
    rcases core_hasT hc with h | h
    · exact pyStr_noT d (.inl rfl) (zone_sub hz _ h)
    · exact pyStr_noT d (.inr rfl) (zone_sub hz _ h)
  refine c124_none.2 ⟨?_, ?_⟩
  · rintro d' ⟨core, t, off, h1, h2, -⟩
    exact key core t off h1 h2
  · rintro ⟨core, t, off, h1, h2, -⟩
    exact key core t off h1 h2

section
variable {F : Type} [PyFloat F]

/-- C136, what holds: an event with a date as its timestamp gets one element, whose text states the date. -/
theorem c136_states_partial {m : AttrMap F} {a : Attr F} {d : DateTime} (ha : dget py!"time:timestamp" m = some a) (hv : getValue a = .ok (.dt d))
    (hd : InRange d) {x : List MNode} (h : timestampXml m = .ok x) :
    ∃ r t, x = [.elem py!"timestamp" r [.text t]] ∧ StampSays t d ∧ parseDateTime t = .ok none := by
  simp only [timestampXml, ha, hv] at h
  obtain ⟨r, _, h⟩ := bind_ok.1 h
  cases h
  exact ⟨r, d.pyStr, rfl, pyStr_says hd, c136_refuted d⟩

end

/-- An example: a zone west of Greenwich. -/
example : (DateTime.mk 2020 2 29 23 5 7 12 (some (-12600))).pyStr = py!"2020-02-29 23:05:07.000012-03:30" ∧
    parseDateTime py!"2020-02-29 23:05:07.000012-03:30" = .ok none ∧
    parseDateTime py!"2020-02-29T23:05:07.000012-03:30" = .ok (some ⟨2020, 2, 29, 23, 5, 7, 12, some (-12600)⟩) := by decide +kernel

example : timestampXml (F := ToyFloat) [(py!"time:timestamp", .mk .timestamp py!"time:timestamp" none (.dt ⟨2020, 2, 29, 23, 5, 7, 0, some 0⟩) [] [])] =
    .ok [.elem py!"timestamp" [] [.text py!"2020-02-29 23:05:07+00:00"]] := by rfl

end Opy
