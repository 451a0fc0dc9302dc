import Verif.Lemmas.DateTime
/-
Properties C04, C05, C06 (timestamps as text) and C82 (order of datetimes).
-/
namespace Opy

/-! ## Specification -/

/-- Is the year a leap year of the Gregorian calendar? -/
def GregLeap (y : Nat) : Prop := (4 ∣ y ∧ ¬ 100 ∣ y) ∨ 400 ∣ y

instance (y : Nat) : Decidable (GregLeap y) := by unfold GregLeap; infer_instance

/-- The number of days of a month in the Gregorian calendar. -/
def monthLength (y : Nat) : Nat → Nat
  | 1 => 31 | 2 => if GregLeap y then 29 else 28 | 3 => 31 | 4 => 30 | 5 => 31 | 6 => 30
  | 7 => 31 | 8 => 31 | 9 => 30 | 10 => 31 | 11 => 30 | _ => 31

theorem isLeap_iff (y : Nat) : isLeap y = true ↔ GregLeap y := by
  unfold isLeap GregLeap
  simp only [Bool.and_eq_true, Bool.or_eq_true, beq_iff_eq, bne_iff_ne, ne_eq]
  omega

theorem monthLength_eq {y m : Nat} (h : 1 ≤ m ∧ m ≤ 12) : monthLength y m = daysInMonth y m := by
  obtain ⟨h1, h2⟩ := h
  have hl := isLeap_iff y
  have : m = 1 ∨ m = 2 ∨ m = 3 ∨ m = 4 ∨ m = 5 ∨ m = 6 ∨ m = 7 ∨ m = 8 ∨ m = 9 ∨ m = 10 ∨ m = 11 ∨ m = 12 := by omega
  rcases this with h | h | h | h | h | h | h | h | h | h | h | h <;> subst h <;> simp [monthLength, daysInMonth]
  simp [hl]

/-- A `datetime` that exists in the calendar, with every field in range, and whose UTC offset, if
any, is a whole number of minutes strictly between -24h and 24h. -/
structure GoodDateTime (d : DateTime) : Prop where
  year : 1 ≤ d.year ∧ d.year ≤ 9999
  month : 1 ≤ d.month ∧ d.month ≤ 12
  day : 1 ≤ d.day ∧ d.day ≤ monthLength d.year d.month
  clock : d.hour < 24 ∧ d.minute < 60 ∧ d.second < 60 ∧ d.micro < 1000000
  offset : ∀ o, d.tz = some o → -86400 < o ∧ o < 86400 ∧ o % 60 = 0

/-- What should come back: the same fields, cut to milliseconds, aware. -/
def toMillisAware (d : DateTime) : DateTime :=
  { d with micro := d.micro - d.micro % 1000, tz := some (d.tz.getD 0) }

theorem GoodDateTime.valid {d : DateTime} (g : GoodDateTime d) : d.valid = true := by
  rw [valid_iff]
  exact ⟨g.year.1, g.year.2, g.month.1, g.month.2, g.day.1, monthLength_eq g.month ▸ g.day.2, g.clock.1, g.clock.2.1,
    g.clock.2.2.1, g.clock.2.2.2, fun o h => ⟨(g.offset o h).1, (g.offset o h).2.1⟩⟩

/-! ## Property theorems -/

/-- C04: a timestamp survives being written and read, to the millisecond. -/
theorem c04_roundtrip {d : DateTime} (g : GoodDateTime d) :
    parseDateTime d.xesStr = .ok (some (toMillisAware d)) := by
  have hv := g.valid
  have hmicro : d.micro / 1000 * 1000 = d.micro - d.micro % 1000 := by omega
  rw [xesStr_eq]
  unfold toMillisAware
  cases htz : d.tz with
  | none =>
    have : zoneText none = ['Z'] := rfl
    rw [this]
    unfold parseDateTime
    rw [splitZone_none hv]
    simp only [dot_mem_body, decide_true, strptime_body hv]
    simp [zoneOffset, hmicro]
  | some o =>
    obtain ⟨h1, h2, h3⟩ := g.offset o htz
    by_cases h0 : o = 0
    · subst h0
      have : zoneText (some 0) = [] := by decide
      rw [this, List.append_nil]
      unfold parseDateTime
      rw [splitZone_zero hv]
      simp only [dot_mem_body, decide_true, strptime_body hv]
      simp [zoneOffset, hmicro]
    · obtain ⟨hh, mm, hz, hs⟩ := zoneOffset_text h0 h3 ⟨h1, h2⟩
      unfold parseDateTime
      rw [splitZone_some hv h0 h3 ⟨h1, h2⟩]
      simp only [dot_mem_body, decide_true, strptime_body hv, hz, hs]
      rw [if_neg (by omega), if_pos ⟨h1, h2⟩]
      simp [hmicro]

/-- Non-vacuity of C04. -/
example : GoodDateTime ⟨2020, 2, 29, 23, 5, 7, 123456, some (-19800)⟩ :=
  ⟨by decide, by decide, by decide, by decide, by intro o h; cases h; decide⟩
example : parseDateTime (DateTime.xesStr ⟨2020, 2, 29, 23, 5, 7, 123456, some (-19800)⟩) =
    .ok (some ⟨2020, 2, 29, 23, 5, 7, 123000, some (-19800)⟩) := by decide
example : (DateTime.xesStr ⟨2020, 2, 29, 23, 5, 7, 123456, some (-19800)⟩) =
    py!"2020-02-29T23:05:07.123-05:30" := by decide

/-- C04, consequence: the instant that is read back is the instant that was written, truncated to
milliseconds. -/
theorem c04_instant {d : DateTime} (g : GoodDateTime d) :
    ∃ d', parseDateTime d.xesStr = .ok (some d') ∧ d'.instant = d.instant - (d.micro % 1000 : Nat) := by
  refine ⟨_, c04_roundtrip g, ?_⟩
  have : d.micro % 1000 ≤ d.micro := Nat.mod_le _ _
  simp only [toMillisAware, DateTime.instant, DateTime.ordinal]
  cases d.tz <;> simp <;> omega

/-- C04, the excluded case: an offset with seconds is lost (the date is reported unreadable). -/
theorem c04_subminute_offset_lost :
    parseDateTime (DateTime.xesStr ⟨2020, 2, 29, 23, 5, 7, 0, some 19815⟩) = .ok none := by decide

/-! ### C05 -/

theorem digitsVal_lt {acc : Nat} {us : Bool} {s : Str} {n : Nat} (h : digitsVal acc us s = some n) :
    n < (acc + 1) * 10 ^ s.length := by
  induction s generalizing acc us with
  | nil =>
    simp only [digitsVal] at h
    split at h
    · exact absurd h (by simp)
    · simp at h; simp; omega
  | cons c cs ih =>
    simp only [digitsVal] at h
    have hpow : 10 ^ (c :: cs).length = 10 * 10 ^ cs.length := by
      rw [List.length_cons, Nat.pow_succ, Nat.mul_comm]
    have hmul : (acc + 1) * (10 * 10 ^ cs.length) = (10 * acc + 10) * 10 ^ cs.length := by
      rw [← Nat.mul_assoc]; congr 1; omega
    rw [hpow, hmul]
    split at h
    · next d hd =>
      have h1 := ih h
      have hd9 : d ≤ 9 := digitVal?_le hd
      exact Nat.lt_of_lt_of_le h1 (Nat.mul_le_mul_right _ (by omega))
    · split at h
      · have h1 := ih h
        exact Nat.lt_of_lt_of_le h1 (Nat.mul_le_mul_right _ (by omega))
      · exact absurd h (by simp)

theorem unsignedVal_lt {s : Str} {n : Nat} (h : unsignedVal s = some n) : n < 10 ^ s.length := by
  cases s with
  | nil => simp [unsignedVal] at h
  | cons c cs =>
    simp only [unsignedVal] at h
    split at h
    · next d hd =>
      have h1 := digitsVal_lt h
      have hd9 : d ≤ 9 := digitVal?_le hd
      have hpow : 10 ^ (c :: cs).length = 10 * 10 ^ cs.length := by
        rw [List.length_cons, Nat.pow_succ, Nat.mul_comm]
      rw [hpow]
      exact Nat.lt_of_lt_of_le h1 (Nat.mul_le_mul_right _ (by omega))
    · exact absurd h (by simp)

/-- An integer literal of `k` characters is below `10^k` in absolute value. -/
theorem pyInt_natAbs_lt {s : Str} {z : Int} (h : pyInt s = some z) : z.natAbs < 10 ^ s.length := by
  have hl : (intStrip s).length ≤ s.length := (intStrip_sublist s).length_le
  have hp : 10 ^ (intStrip s).length ≤ 10 ^ s.length := Nat.pow_le_pow_right (by omega) hl
  unfold pyInt at h
  split at h
  · next r e =>
    cases hu : unsignedVal r with
    | none => simp [hu] at h
    | some n =>
      have := unsignedVal_lt hu
      rw [hu] at h
      simp at h
      rw [e] at hp
      have h2 : 10 ^ r.length ≤ 10 ^ ('-' :: r).length := Nat.pow_le_pow_right (by omega) (by simp)
      have : z.natAbs = n := by omega
      omega
  · next r e =>
    cases hu : unsignedVal r with
    | none => simp [hu] at h
    | some n =>
      have := unsignedVal_lt hu
      rw [hu] at h
      simp at h
      rw [e] at hp
      have h2 : 10 ^ r.length ≤ 10 ^ ('+' :: r).length := Nat.pow_le_pow_right (by omega) (by simp)
      have : z.natAbs = n := by omega
      omega
  · cases hu : unsignedVal (intStrip s) with
    | none => simp [hu] at h
    | some n =>
      have := unsignedVal_lt hu
      rw [hu] at h
      simp at h
      have : z.natAbs = n := by omega
      omega

theorem splitChar_two {c : Char} {s a b : Str} (h : splitChar c s = [a, b]) :
    s.length = a.length + b.length + 1 := by
  induction s generalizing a with
  | nil => simp [splitChar] at h
  | cons x xs ih =>
    by_cases hx : x = c
    · subst hx
      rw [splitChar_cons_self] at h
      simp at h
      obtain ⟨rfl, h⟩ := h
      have hx : x ∉ xs := by
        intro hm
        have := (splitChar_length x xs).2 hm
        rw [h] at this
        simp at this
      rw [splitChar_of_not_mem hx] at h
      simp at h
      simp [h]
    · obtain ⟨p, ps, hp, hq⟩ := splitChar_cons_ne (c := c) xs hx
      rw [hq] at h
      simp at h
      obtain ⟨rfl, rfl⟩ := h
      have := ih hp
      simp [this]
      omega

theorem zoneOffset_small {z : Str} {h m : Int} (hz : zoneOffset z = some (h, m)) (hl : z.length ≤ 11) :
    (60 * h + m).natAbs < 1000000000000 := by
  unfold zoneOffset at hz
  split at hz
  · split at hz
    · next a b e =>
      have hlen := splitChar_two e
      cases hb : pyInt b with
      | none => simp [hb] at hz
      | some mi =>
        cases ha : pyInt a with
        | none => simp [hb, ha] at hz
        | some hi =>
          simp only [hb, ha, Option.bind_eq_bind, Option.bind_some, Option.some.injEq, Prod.mk.injEq] at hz
          obtain ⟨rfl, hm⟩ := hz
          have h1 := pyInt_natAbs_lt ha
          have h2 := pyInt_natAbs_lt hb
          have p1 : 10 ^ a.length ≤ 10 ^ 10 := Nat.pow_le_pow_right (by omega) (by omega)
          have p2 : 10 ^ b.length ≤ 10 ^ 10 := Nat.pow_le_pow_right (by omega) (by omega)
          have e10 : 10 ^ 10 = 10000000000 := by decide
          have : m.natAbs = mi.natAbs := by
            rw [← hm]; split <;> omega
          omega
    · exact absurd hz (by simp)
  · simp at hz
    obtain ⟨rfl, rfl⟩ := hz
    decide

/-- C05, refuted: there is a text on which `parse_date_time` raises. -/
theorem c05_never_raises_refuted :
    parseDateTime py!"2020-01-01T00:00:00+99999999999:00" = .error .overflowError := by decide

/-- C05, what holds: the only exception is OverflowError, and it needs more than ten characters
behind the first plus sign (a normal offset has five).  Missing: texts with absurdly long offsets
(false, see `c05_never_raises_refuted`). -/
theorem c05_never_raises_partial {s : Str} {e : PyErr} (h : parseDateTime s = .error e) :
    e = .overflowError ∧ ∃ v z, s = v ++ '+' :: z ∧ '+' ∉ v ∧ 10 < z.length := by
  unfold parseDateTime at h
  generalize hsz : splitZone s = vz at h
  obtain ⟨v, z⟩ := vz
  simp only at h
  split at h
  · next hh mm t hz ht =>
    split at h
    · next hov =>
      simp at h
      refine ⟨h.symm, ?_⟩
      have hlen : ¬ z.length ≤ 11 := by
        intro hl
        have := zoneOffset_small hz hl
        omega
      unfold splitZone at hsz
      split at hsz
      · cases hsz; exact absurd (by decide) hlen
      · split at hsz
        · next v' z' hb =>
          cases hsz
          obtain ⟨h1, h2, t', h3⟩ := breakAt_some hb
          subst h3
          refine ⟨v, t', h1, h2, ?_⟩
          simp at hlen
          omega
        · next hnp =>
          exfalso
          split at hsz
          · next hm =>
            split at hsz
            · next z' m' v' hb =>
              simp only [Prod.mk.injEq] at hsz
              obtain ⟨rfl, rfl⟩ := hsz
              obtain ⟨h1, h2, t', h3⟩ := breakAt_some hb
              -- the first '-' of the reversed text lies within its first seven characters
              have : z'.length ≤ 6 := by
                apply Classical.byContradiction
                intro hgt
                rw [h1, List.take_append_of_le_length (by omega)] at hm
                exact h2 (List.mem_of_mem_take hm)
              simp at hlen
              omega
            · cases hsz; exact absurd (by decide) hlen
          · cases hsz; exact absurd (by decide) hlen
    · split at h <;> exact absurd h (by simp)
  · exact absurd h (by simp)

/-- Non-vacuity: ordinary texts are covered, readable or not. -/
example : parseDateTime py!"2020-01-01T00:00:00.000+01:00" =
    .ok (some ⟨2020, 1, 1, 0, 0, 0, 0, some 3600⟩) := by decide
example : parseDateTime py!"yesterday" = .ok none := by decide

/-! ### C06 -/

theorem strptime_valid {f : Bool} {v : Str} {t : DateTime} (h : strptime f v = some t) :
    t.valid = true ∧ t.tz = none := by
  obtain ⟨_, _, _, _, _, _, _, rfl, hv⟩ := strptime_text.1 h
  exact ⟨hv, rfl⟩

/-- C06: whatever `parse_date_time` returns is a real, aware datetime with a whole-minute offset. -/
theorem c06_result_good {s : Str} {d : DateTime} (h : parseDateTime s = .ok (some d)) :
    GoodDateTime d ∧ d.tz ≠ none := by
  unfold parseDateTime at h
  generalize hsz : splitZone s = vz at h
  obtain ⟨v, z⟩ := vz
  simp only at h
  split at h
  · next hh mm t hz ht =>
    split at h
    · exact absurd h (by simp)
    · split at h
      · next hr =>
        simp at h
        subst h
        obtain ⟨hv, _⟩ := strptime_valid ht
        rw [valid_iff] at hv
        obtain ⟨a1, a2, a3, a4, a5, a6, a7, a8, a9, a10, _⟩ := hv
        refine ⟨⟨⟨a1, a2⟩, ⟨a3, a4⟩, ⟨a5, by rw [monthLength_eq ⟨a3, a4⟩]; exact a6⟩, ⟨a7, a8, a9, a10⟩, ?_⟩, by simp⟩
        intro o ho
        simp at ho
        subst ho
        exact ⟨hr.1, hr.2, by omega⟩
      · exact absurd h (by simp)
  · exact absurd h (by simp)

/-- Non-vacuity of C06, and consequence of C04 and C06: writing and reading what was read is
stable. -/
theorem c06_stable {s : Str} {d : DateTime} (h : parseDateTime s = .ok (some d))
    (hm : d.micro % 1000 = 0) : parseDateTime d.xesStr = .ok (some d) := by
  obtain ⟨g, hz⟩ := c06_result_good h
  rw [c04_roundtrip g]
  unfold toMillisAware
  cases htz : d.tz with
  | none => exact absurd htz hz
  | some o =>
    simp only [hm, Nat.sub_zero, Option.getD_some]
    rw [← htz]

example : ∃ d, parseDateTime py!"2020-02-29T1:2:3-00:30" = .ok (some d) ∧ d.micro % 1000 = 0 :=
  ⟨⟨2020, 2, 29, 1, 2, 3, 0, some (-1800)⟩, by decide, by decide⟩

/-! ### C82 -/

theorem daysBeforeMonth_succ (y : Nat) {m : Nat} (h : 1 ≤ m) : daysBeforeMonth y (m + 1) = daysBeforeMonth y m + daysInMonth y m := by
  unfold daysBeforeMonth
  obtain ⟨k, rfl⟩ : ∃ k, m = k + 1 := ⟨m - 1, by omega⟩
  simp [List.range_succ]

theorem daysBeforeMonth_mono (y : Nat) {m k : Nat} (h : 1 ≤ m) : daysBeforeMonth y (m + k) ≥ daysBeforeMonth y m := by
  induction k with
  | zero => simp
  | succ k ih =>
    have := daysBeforeMonth_succ y (m := m + k) (by omega)
    rw [← Nat.add_assoc, this]
    omega

theorem daysBeforeMonth_13 (y : Nat) : daysBeforeMonth y 13 = 365 + if isLeap y then 1 else 0 := by
  unfold daysBeforeMonth daysInMonth
  simp [List.range_succ]
  split <;> rfl

theorem daysBeforeYear_succ {y : Nat} (h : 1 ≤ y) : daysBeforeYear (y + 1) = daysBeforeYear y + daysBeforeMonth y 13 := by
  rw [daysBeforeMonth_13]
  have hl := isLeap_iff y
  unfold GregLeap at hl
  unfold daysBeforeYear
  split
  · next hh => have := hl.1 hh; simp only; omega
  · next hh =>
    have : ¬ ((4 ∣ y ∧ ¬ 100 ∣ y) ∨ 400 ∣ y) := fun x => hh (hl.2 x)
    simp only
    omega

/-- The order of calendar days. -/
def dayBefore (a b : DateTime) : Prop :=
  a.year < b.year ∨ (a.year = b.year ∧ (a.month < b.month ∨ (a.month = b.month ∧ a.day < b.day)))

theorem daysBeforeYear_mono {y k : Nat} (h : 1 ≤ y) : daysBeforeYear y ≤ daysBeforeYear (y + k) := by
  induction k with
  | zero => simp
  | succ k ih => rw [← Nat.add_assoc, daysBeforeYear_succ (by omega)]; omega

theorem ordinal_lt {a b : DateTime} (ga : GoodDateTime a) (gb : GoodDateTime b) (h : dayBefore a b) : a.ordinal < b.ordinal := by
  have hm : ∀ y m k, 1 ≤ m → daysBeforeMonth y m + daysInMonth y m ≤ daysBeforeMonth y (m + 1 + k) := by
    intro y m k hm
    rw [← daysBeforeMonth_succ y hm]
    exact daysBeforeMonth_mono y (by omega)
  unfold DateTime.ordinal
  have a1 := ga.month; have a2 := ga.day; have b1 := gb.month; have b2 := gb.day
  rw [monthLength_eq a1] at a2
  rw [monthLength_eq b1] at b2
  rcases h with h | ⟨hy, h | ⟨h1, h2⟩⟩
  · obtain ⟨k, hk⟩ : ∃ k, b.year = a.year + 1 + k := ⟨b.year - a.year - 1, by omega⟩
    have h1 := daysBeforeYear_mono (y := a.year + 1) (k := k) (by omega)
    rw [← hk, daysBeforeYear_succ ga.year.1] at h1
    have h2 := hm a.year a.month (12 - a.month) a1.1
    have : a.month + 1 + (12 - a.month) = 13 := by omega
    rw [this] at h2
    omega
  · rw [hy]
    obtain ⟨k, hk⟩ : ∃ k, b.month = a.month + 1 + k := ⟨b.month - a.month - 1, by omega⟩
    have h2 := hm a.year a.month k a1.1
    rw [← hk, hy] at h2
    rw [hy] at a2
    omega
  · rw [hy, h1]; omega

/-- The order of the moments shown by two clocks of the same zone. -/
def clockBefore (a b : DateTime) : Prop :=
  dayBefore a b ∨ ((a.year = b.year ∧ a.month = b.month ∧ a.day = b.day) ∧
    (a.hour < b.hour ∨ (a.hour = b.hour ∧ (a.minute < b.minute ∨ (a.minute = b.minute ∧
      (a.second < b.second ∨ (a.second = b.second ∧ a.micro < b.micro)))))))

theorem instant_lt {a b : DateTime} (ga : GoodDateTime a) (gb : GoodDateTime b) (hz : a.tz = b.tz) (h : clockBefore a b) :
    a.instant < b.instant := by
  unfold DateTime.instant
  have a1 := ga.clock; have b1 := gb.clock
  rw [hz]
  rcases h with h | ⟨⟨h1, h2, h3⟩, h⟩
  · have := ordinal_lt ga gb h
    omega
  · have : a.ordinal = b.ordinal := by unfold DateTime.ordinal; rw [h1, h2, h3]
    rw [this]
    omega

/-- **C82.** Two datetimes of the same zone compare like calendar and clock. -/
theorem c82_chronological {a b : DateTime} (ga : GoodDateTime a) (gb : GoodDateTime b) (hz : a.tz = b.tz) :
    (a.lt b = .ok true ↔ clockBefore a b) ∧ (a.eq b = true ↔ a = b) := by
  have h1 := fun h => instant_lt ga gb hz h
  have h2 := fun h => instant_lt gb ga hz.symm h
  have h3 : clockBefore a b ∨ clockBefore b a ∨ a = b := by
    obtain ⟨y, mo, d, h, mi, s, u, z⟩ := a
    obtain ⟨y', mo', d', h', mi', s', u', z'⟩ := b
    simp only at hz
    subst hz
    simp only [clockBefore, dayBefore, DateTime.mk.injEq, and_true]
    omega
  have e1 : a.lt b = .ok (a.instant < b.instant) := by simp [DateTime.lt, hz]
  have e2 : a.eq b = (a.instant == b.instant) := by simp [DateTime.eq, hz]
  rw [e1, e2]
  simp only [Except.ok.injEq, decide_eq_true_eq, beq_iff_eq]
  refine ⟨⟨fun h => ?_, h1⟩, ⟨fun h => ?_, fun h => by rw [h]⟩⟩
  · rcases h3 with h3 | h3 | h3
    · exact h3
    · have := h2 h3; omega
    · rw [h3] at h; omega
  · rcases h3 with h3 | h3 | h3
    · have := h1 h3; omega
    · have := h2 h3; omega
    · exact h3

/-- **C82, zones.** Of two aware datetimes, one is the same moment as the other exactly if moving both
clocks to UTC (subtracting the offset) makes them agree; an offset of `o` seconds makes the moment `o`
seconds earlier. -/
theorem c82_zones (d : DateTime) (o : Int) :
    ({ d with tz := some o } : DateTime).instant = ({ d with tz := some 0 } : DateTime).instant - o * 1000000 := by
  simp only [DateTime.instant, DateTime.ordinal, Option.getD_some]
  omega

/-- The calendar day after. -/
def nextDay (d : DateTime) : DateTime :=
  if d.day < monthLength d.year d.month then { d with day := d.day + 1 }
  else if d.month < 12 then { d with month := d.month + 1, day := 1 }
  else { d with year := d.year + 1, month := 1, day := 1 }

/-- **C82, calendar.** The same time on the next calendar day is 24 hours later. -/
theorem c82_next_day {d : DateTime} (g : GoodDateTime d) : (nextDay d).instant = d.instant + 86400 * 1000000 := by
  have hml := monthLength_eq (y := d.year) g.month
  have g1 := g.day
  rw [hml] at g1
  have hord : (nextDay d).ordinal = d.ordinal + 1 := by
    unfold nextDay
    split
    · simp [DateTime.ordinal]; omega
    · split
      · simp only [DateTime.ordinal]
        rw [daysBeforeMonth_succ _ g.month.1]
        omega
      · next hd _ =>
        have : d.month = 12 := by have := g.month; omega
        rw [this] at hd
        simp only [DateTime.ordinal]
        rw [daysBeforeYear_succ g.year.1, this]
        rw [this] at g1 hml
        have e := daysBeforeMonth_succ d.year (m := 12) (by omega)
        have e1 : daysBeforeMonth (d.year + 1) 1 = 0 := by simp [daysBeforeMonth]
        rw [e1]
        simp only [Nat.reduceAdd] at e
        omega
  have hfields : (nextDay d).hour = d.hour ∧ (nextDay d).minute = d.minute ∧ (nextDay d).second = d.second ∧
      (nextDay d).micro = d.micro ∧ (nextDay d).tz = d.tz := by
    unfold nextDay
    split
    · exact ⟨rfl, rfl, rfl, rfl, rfl⟩
    · split <;> exact ⟨rfl, rfl, rfl, rfl, rfl⟩
  unfold DateTime.instant
  rw [hord, hfields.1, hfields.2.1, hfields.2.2.1, hfields.2.2.2.1, hfields.2.2.2.2]
  push_cast
  omega

/-- Cases: two moments of one zone; the same moment in two zones; the end of February in a leap year. -/
example : clockBefore ⟨2020, 2, 29, 23, 5, 7, 1, some 3600⟩ ⟨2020, 3, 1, 0, 0, 0, 0, some 3600⟩ := by
  unfold clockBefore dayBefore; decide
example : DateTime.eq ⟨2020, 2, 29, 23, 30, 0, 0, some 3600⟩ ⟨2020, 3, 1, 0, 30, 0, 0, some 7200⟩ = true := by decide +kernel
example : nextDay ⟨2020, 2, 29, 12, 0, 0, 0, none⟩ = ⟨2020, 3, 1, 12, 0, 0, 0, none⟩ := by decide

end Opy
