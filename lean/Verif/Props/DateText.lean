import Verif.Props.DateTime
/-
Properties C123 and C124: which texts parse_date_time reads, and as which date.
-/
namespace Opy

/-! ## Specification -/

/-- `core` is a date and time without zone: the year in four digits, month, day, hour, minute and second in one or two
(a one-digit day may have a blank in front), separated as in `2020-2-29T23:05:07`, and up to six digits of a fraction; and
`t` is that date, which has to exist.  (Digits of other scripts are allowed in the year, for a time below ten and
behind a first digit of 1 or 2 in a day, 0 or 1 in an hour and 0 to 5 in minutes and seconds: see `DayText` and `OneTwo`.) -/
def CoreSays (core : Str) (t : DateTime) : Prop :=
  ∃ (y mo d h mi s : Str) (T : Char) (f : Option Str),
    core = y ++ '-' :: (mo ++ '-' :: (d ++ T :: (h ++ ':' :: (mi ++ ':' :: (s ++ fracText f))))) ∧
    (T = 'T' ∨ T = 't') ∧ YearText y ∧ Digits mo 1 2 ∧ DayText d ∧ OneTwo py!"01" h ∧ OneTwo py!"012345" mi ∧
    OneTwo py!"012345" s ∧ (∀ x, f = some x → Digits x 1 6) ∧
    t = ⟨number y, number mo, number d, number h, number mi, number s, micros f, none⟩ ∧
    1 ≤ t.year ∧ 1 ≤ t.month ∧ t.month ≤ 12 ∧ 1 ≤ t.day ∧ t.day ≤ monthLength t.year t.month ∧ t.hour < 24 ∧ t.minute < 60 ∧ t.second < 60

/-- The zones of xs:dateTime: none, `Z`, `+hh:mm` and `-hh:mm`. -/
inductive Zone where
  | none
  | utc
  | east (h m : Str)
  | west (h m : Str)

/-- Its text. -/
def Zone.text : Zone → Str
  | .none => []
  | .utc => ['Z']
  | .east h m => '+' :: (h ++ ':' :: m)
  | .west h m => '-' :: (h ++ ':' :: m)

/-- Seconds east of Greenwich. -/
def Zone.offset : Zone → Int
  | .none => 0
  | .utc => 0
  | .east h m => (60 * number h + number m) * 60
  | .west h m => - ((60 * number h + number m) * 60)

/-- Hours and minutes have one or two digits and are less than a day. -/
def Zone.Ok : Zone → Prop
  | .none => True
  | .utc => True
  | .east h m => Digits h 1 2 ∧ Digits m 1 2 ∧ 60 * number h + number m < 1440
  | .west h m => Digits h 1 2 ∧ Digits m 1 2 ∧ 60 * number h + number m < 1440

/-- What the function takes for the zone, exactly: `s` is `core` with a zone, `off` the offset in seconds. -/
inductive ZoneSays (s core : Str) : Int → Prop where
  | utc : 'Z' ∈ s → core = s.filter (· ≠ 'Z') → ZoneSays s core 0
  | none : 'Z' ∉ s → s = core → ZoneSays s core 0
  | plus {h m : Str} {H M : Int} : 'Z' ∉ s → s = core ++ '+' :: (h ++ ':' :: m) → ':' ∉ h → ':' ∉ m → IntText ('+' :: h) H → IntText m M →
      ZoneSays s core ((60 * H + M) * 60)
  | minus {h m : Str} {H M : Int} : 'Z' ∉ s → '+' ∉ s → s = core ++ '-' :: (h ++ ':' :: m) → '-' ∉ h → '-' ∉ m → ':' ∉ h → ':' ∉ m →
      h.length + m.length ≤ 5 → IntText ('-' :: h) H → IntText m M → ZoneSays s core ((60 * H - M) * 60)

/-- `s` says the date `d`: a date and time with a zone of less than a day. -/
def DateSays (s : Str) (d : DateTime) : Prop :=
  ∃ core t off, CoreSays core t ∧ ZoneSays s core off ∧ -86400 < off ∧ off < 86400 ∧ d = { t with tz := some off }

/-- A date and time with a zone of a billion days, or about so many. -/
def HugeZone (s : Str) : Prop :=
  ∃ core t off, CoreSays core t ∧ ZoneSays s core off ∧ (off < -999999999 * 86400 ∨ 1000000000 * 86400 ≤ off)

/-! ## The fields -/

theorem not_mem_digits {s : Str} {lo hi : Nat} (h : Digits s lo hi) {c : Char} (hc : c ∉ py!"0123456789") : c ∉ s := fun hm => hc (h.2.2 c hm)

theorem not_mem_isDigit {s : Str} (h : ∀ c ∈ s, IsDigit c) {c : Char} (hc : ¬ IsDigit c) : c ∉ s := fun hm => hc (h c hm)

theorem OneTwo.digits {first s : Str} (h : OneTwo first s) (hf : ∀ c ∈ first, c ∈ py!"0123456789") {c : Char} (hc : c ∈ s) : IsDigit c :=
  (h.isDigit hf).2 c hc

theorem DayText.chars {s : Str} (h : DayText s) {c : Char} (hc : c ∈ s) : IsDigit c ∨ c = ' ' := by
  rcases h.cases with h | ⟨b, hb, rfl⟩
  · exact .inl (h.2 c hc)
  · rcases List.mem_cons.1 hc with rfl | hc
    · exact .inr rfl
    · rw [List.mem_singleton.1 hc]; exact .inl hb

theorem DayText.ne_nil {s : Str} (h : DayText s) : s ≠ [] := by
  rcases h.cases with h | ⟨b, hb, rfl⟩
  · exact h.1
  · simp

/-- The characters in front of the fraction. -/
theorem core_front {y mo d h mi s : Str} {T : Char} (hT : T = 'T' ∨ T = 't') (hy : YearText y) (hmo : Digits mo 1 2) (hd : DayText d) (hh : OneTwo py!"01" h)
    (hmi : OneTwo py!"012345" mi) (hs : OneTwo py!"012345" s) {c : Char}
    (hc : c ∈ y ++ '-' :: (mo ++ '-' :: (d ++ T :: (h ++ ':' :: (mi ++ ':' :: s))))) : IsDigit c ∨ c ∈ py!"-: Tt" := by
  have e1 : '-' ∈ py!"-: Tt" := by decide
  have e2 : ':' ∈ py!"-: Tt" := by decide
  have e4 : ' ' ∈ py!"-: Tt" := by decide
  have e5 : T ∈ py!"-: Tt" := by rcases hT with rfl | rfl <;> decide
  rw [List.mem_append, List.mem_cons, List.mem_append, List.mem_cons, List.mem_append, List.mem_cons, List.mem_append, List.mem_cons, List.mem_append,
    List.mem_cons] at hc
  rcases hc with hm | rfl | hm | rfl | hm | rfl | hm | rfl | hm | rfl | hm
  · exact .inl (hy.2 c hm)
  · exact .inr e1
  · exact .inl (hmo.isDigit hm)
  · exact .inr e1
  · rcases hd.chars hm with h | rfl
    · exact .inl h
    · exact .inr e4
  · exact .inr e5
  · exact .inl (hh.digits (by decide) hm)
  · exact .inr e2
  · exact .inl (hmi.digits (by decide) hm)
  · exact .inr e2
  · exact .inl (hs.digits (by decide) hm)

theorem monthLength_all (y m : Nat) : daysInMonth y m = monthLength y m := by
  by_cases h : 1 ≤ m ∧ m ≤ 12
  · exact (monthLength_eq h).symm
  · have h1 : daysInMonth y m = 31 := by
      unfold daysInMonth
      rw [if_neg (by omega), if_neg (by omega)]
    have h2 : monthLength y m = 31 := by
      unfold monthLength
      split <;> first | omega | rfl
    rw [h1, h2]

theorem micros_lt {x : Str} (h : Digits x 1 6) : micros (some x) < 1000000 := by
  have h1 := number_lt x
  have h2 : x.length + (6 - x.length) = 6 := by have := h.2.1; omega
  calc micros (some x) = number x * 10 ^ (6 - x.length) := rfl
    _ < 10 ^ x.length * 10 ^ (6 - x.length) := Nat.mul_lt_mul_of_pos_right h1 (Nat.pow_pos (by omega))
    _ = 1000000 := by rw [← Nat.pow_add, h2]

/-- `strptime` accepts exactly the dates of the specification. -/
theorem strptime_iff {v : Str} {t : DateTime} : strptime ('.' ∈ v) v = some t ↔ CoreSays v t := by
  have dot : ∀ {y mo d h mi s : Str} {T : Char} {f : Option Str}, (T = 'T' ∨ T = 't') → YearText y → Digits mo 1 2 →
      DayText d → OneTwo py!"01" h → OneTwo py!"012345" mi → OneTwo py!"012345" s →
      decide ('.' ∈ y ++ '-' :: (mo ++ '-' :: (d ++ T :: (h ++ ':' :: (mi ++ ':' :: (s ++ fracText f)))))) = f.isSome := by
    intro y mo d h mi s T f hT hy hmo hd hh hmi hs
    have hn : '.' ∉ y ++ '-' :: (mo ++ '-' :: (d ++ T :: (h ++ ':' :: (mi ++ ':' :: s)))) := fun hm => by
      rcases core_front hT hy hmo hd hh hmi hs hm with h | h
      · exact absurd h (by unfold IsDigit; decide)
      · exact absurd h (by decide)
    have e : y ++ '-' :: (mo ++ '-' :: (d ++ T :: (h ++ ':' :: (mi ++ ':' :: (s ++ fracText f))))) =
        (y ++ '-' :: (mo ++ '-' :: (d ++ T :: (h ++ ':' :: (mi ++ ':' :: s))))) ++ fracText f := by simp
    rw [e]
    cases f with
    | none => rw [fracText, List.append_nil]; simpa using hn
    | some x => simp [fracText]
  constructor
  · intro hp
    obtain ⟨⟨y, mo, d, h, mi, s⟩, T, f, ⟨hy, hmo, hd, hh, hmi, hs⟩, hT, hf, hv, rfl, hr⟩ := strptime_text.1 hp
    rw [valid_iff] at hr
    simp only [monthLength_all] at hr
    exact ⟨y, mo, d, h, mi, s, T, f, hv, hT, hy, hmo.1, hd.1, hh.1, hmi.1, hs.1, hf.2, rfl, hr.1, hr.2.2.1, hr.2.2.2.1, hr.2.2.2.2.1, hr.2.2.2.2.2.1,
      hr.2.2.2.2.2.2.1, hr.2.2.2.2.2.2.2.1, hr.2.2.2.2.2.2.2.2.1⟩
  · rintro ⟨y, mo, d, h, mi, s, T, f, rfl, hT, hy, hmo, hd, hh, hmi, hs, hf, rfl, hr⟩
    simp only at hr
    rw [dot hT hy hmo hd hh hmi hs, strptime_text]
    have hy' : number y ≤ 9999 := by
      have h1 := number_lt y
      rw [hy.1] at h1; omega
    have hml : monthLength (number y) (number mo) ≤ 31 := by rw [← monthLength_all]; exact daysInMonth_le _ _
    have hs3 : micros f < 1000000 := by
      cases f with
      | none => decide
      | some x => exact micros_lt (hf x rfl)
    refine ⟨⟨y, mo, d, h, mi, s⟩, T, f, ⟨hy, ⟨hmo, hr.2.1, hr.2.2.1⟩, ⟨hd, hr.2.2.2.1, ?_⟩, ⟨hh, ?_⟩, ⟨hmi, ?_⟩, hs, ?_⟩, hT, ⟨rfl, hf⟩, rfl, rfl, ?_⟩
    · simp only; omega
    · simp only; omega
    · simp only; omega
    · simp only; omega
    · rw [valid_iff]
      simp only [monthLength_all]
      exact ⟨hr.1, hy', hr.2.1, hr.2.2.1, hr.2.2.2.1, hr.2.2.2.2.1, hr.2.2.2.2.2.1, hr.2.2.2.2.2.2.1, hr.2.2.2.2.2.2.2, hs3, by simp⟩

/-! ## The zone -/

theorem splitChar_pair {c : Char} {s a b : Str} : splitChar c s = [a, b] ↔ s = a ++ c :: b ∧ c ∉ a ∧ c ∉ b := by
  constructor
  · intro h
    induction s generalizing a with
    | nil => simp [splitChar] at h
    | cons x xs ih =>
      by_cases hx : x = c
      · subst hx
        rw [splitChar_cons_self] at h
        simp only [List.cons.injEq] at h
        obtain ⟨rfl, h⟩ := h
        have hx : x ∉ xs := fun hm => by
          have := (splitChar_length x xs).2 hm
          rw [h] at this
          simp at this
        rw [splitChar_of_not_mem hx] at h
        simp only [List.cons.injEq, and_true] at h
        subst h
        exact ⟨rfl, by simp, hx⟩
      · obtain ⟨p, ps, hp, hq⟩ := splitChar_cons_ne (c := c) xs hx
        rw [hq] at h
        simp only [List.cons.injEq] at h
        obtain ⟨rfl, rfl⟩ := h
        obtain ⟨rfl, h1, h2⟩ := ih hp
        exact ⟨rfl, by simp [h1, Ne.symm hx], h2⟩
  · rintro ⟨rfl, h1, h2⟩
    rw [splitChar_append_sep h1, splitChar_of_not_mem h2]

theorem numeral_chars {s : Str} {n : Nat} (h : Numeral 10 digitVal? s n) {c : Char} (hc : c ∈ s) : IsDigit c ∨ c = '_' := by
  induction h with
  | one h => rw [List.mem_singleton.1 hc]; exact .inl (by unfold IsDigit; rw [h]; rfl)
  | more _ hd ih =>
    rcases List.mem_append.1 hc with hc | hc
    · exact ih hc
    · rw [List.mem_singleton.1 hc]; exact .inl (by unfold IsDigit; rw [hd]; rfl)
  | under _ hd ih =>
    rcases List.mem_append.1 hc with hc | hc
    · exact ih hc
    · rcases List.mem_cons.1 hc with rfl | hc
      · exact .inr rfl
      · rw [List.mem_singleton.1 hc]; exact .inl (by unfold IsDigit; rw [hd]; rfl)

theorem numeral_ne_nil {s : Str} {n : Nat} (h : Numeral 10 digitVal? s n) : s ≠ [] := by
  cases h <;> simp

theorem pyInt_plus {h : Str} {H : Int} (hi : IntText ('+' :: h) H) : '-' ∉ h := by
  obtain ⟨l, m, r, e, hs, hm⟩ := hi
  have hl : l = [] := by
    cases l with
    | nil => rfl
    | cons x l =>
      simp only [List.cons_append, List.cons.injEq] at e
      have := hs x (by simp)
      rw [← e.1] at this
      exact absurd this (by decide)
  subst hl
  have hr : '-' ∉ r := fun hm => absurd (hs '-' (by simp [hm])) (by decide)
  rw [List.nil_append] at e
  have hn : ∀ {s : Str} {n : Nat}, Numeral 10 digitVal? s n → '-' ∉ s := fun h hm => by
    rcases numeral_chars h hm with h | h
    · exact absurd h (by unfold IsDigit; decide)
    · exact absurd h (by decide)
  cases hm with
  | none h1 =>
    cases m with
    | nil => exact absurd rfl (numeral_ne_nil h1)
    | cons x m =>
      simp only [List.cons_append, List.cons.injEq] at e
      rcases numeral_chars h1 (List.mem_cons_self) with h | h
      · rw [← e.1] at h; exact absurd h (by unfold IsDigit; decide)
      · rw [← e.1] at h; exact absurd h (by decide)
  | plus h1 =>
    simp only [List.cons_append, List.cons.injEq, true_and] at e
    subst e
    simp [hn h1, hr]
  | minus h1 =>
    simp only [List.cons_append, List.cons.injEq] at e
    exact absurd e.1 (by decide)

theorem core_chars {core : Str} {t : DateTime} (h : CoreSays core t) {c : Char} (hc : c ∈ core) : IsDigit c ∨ c ∈ py!"-:. Tt" := by
  obtain ⟨y, mo, d, h, mi, s, T, f, rfl, hT, hy, hmo, hd, hh, hmi, hs, hf, -⟩ := h
  rw [show y ++ '-' :: (mo ++ '-' :: (d ++ T :: (h ++ ':' :: (mi ++ ':' :: (s ++ fracText f))))) =
        (y ++ '-' :: (mo ++ '-' :: (d ++ T :: (h ++ ':' :: (mi ++ ':' :: s))))) ++ fracText f by simp] at hc
  rcases List.mem_append.1 hc with hc | hc
  · rcases core_front hT hy hmo hd hh hmi hs hc with h | h
    · exact .inl h
    · have : ∀ c ∈ py!"-: Tt", c ∈ py!"-:. Tt" := by decide
      exact .inr (this c h)
  · cases f with
    | none => simp [fracText] at hc
    | some x =>
      rcases List.mem_cons.1 hc with rfl | hm
      · exact .inr (by decide)
      · exact .inl ((hf x rfl).isDigit hm)

theorem core_no {c : Char} (h1 : digitVal? c = none) (h2 : c ∉ py!"-:. Tt") {core : Str} {t : DateTime} (h : CoreSays core t) : c ∉ core := fun hm => by
  rcases core_chars h hm with h | h
  · unfold IsDigit at h; rw [h1] at h; cases h
  · exact h2 h

theorem core_no_Z {core : Str} {t : DateTime} (h : CoreSays core t) : 'Z' ∉ core := core_no (by decide) (by decide) h

theorem core_no_plus {core : Str} {t : DateTime} (h : CoreSays core t) : '+' ∉ core := core_no (by decide) (by decide) h

theorem core_tail {core : Str} {t : DateTime} (h : CoreSays core t) : '-' ∉ core.reverse.take 7 := by
  obtain ⟨y, mo, d, h, mi, s, T, f, rfl, hT, hy, hmo, hd, hh, hmi, hs, hf, -⟩ := h
  have n : ¬ IsDigit '-' := by unfold IsDigit; decide
  have hfr : '-' ∉ fracText f := by
    cases f with
    | none => simp [fracText]
    | some x =>
      simp only [fracText, List.mem_cons, not_or]
      exact ⟨by decide, not_mem_digits (hf x rfl) (by decide)⟩
  have hdd : '-' ∉ d := fun hm => by
    rcases hd.chars hm with h | h
    · exact n h
    · exact absurd h (by decide)
  have pos : ∀ {l : Str}, l ≠ [] → 1 ≤ l.length := fun h => List.length_pos_iff.2 h
  have hTT : '-' ≠ T := by rcases hT with rfl | rfl <;> decide
  obtain ⟨h1, h2⟩ := hh.isDigit (by decide)
  obtain ⟨h3, h4⟩ := hmi.isDigit (by decide)
  obtain ⟨h5, h6⟩ := hs.isDigit (by decide)
  generalize htl : d ++ T :: (h ++ ':' :: (mi ++ ':' :: (s ++ fracText f))) = tl
  have hn : '-' ∉ tl := by
    subst htl
    have e : '-' ≠ ':' := by decide
    simp [hdd, hTT, not_mem_isDigit h2 n, not_mem_isDigit h4 n, not_mem_isDigit h6 n, hfr, e]
  have hl : 7 ≤ tl.length := by
    subst htl
    have := pos hd.ne_nil
    have := pos h1
    have := pos h3
    have := pos h5
    simp only [List.length_append, List.length_cons]
    omega
  rw [show y ++ '-' :: (mo ++ '-' :: tl) = (y ++ '-' :: (mo ++ ['-'])) ++ tl by simp, List.reverse_append, List.take_append_of_le_length (by simpa using hl)]
  exact fun hm => hn (List.mem_reverse.1 (List.mem_of_mem_take hm))

theorem zoneOffset_plus {h m : Str} {H M : Int} (h1 : ':' ∉ h) (h2 : ':' ∉ m) (h3 : IntText ('+' :: h) H) (h4 : IntText m M) :
    zoneOffset ('+' :: (h ++ ':' :: m)) = some (H, M) := by
  have e : splitChar ':' ('+' :: (h ++ ':' :: m)) = ['+' :: h, m] := splitChar_pair.2 ⟨rfl, by simp [h1], h2⟩
  have hm : '-' ∉ '+' :: h := by simpa using pyInt_plus h3
  unfold zoneOffset
  rw [if_pos ⟨by simp, by simp⟩, e]
  simp [pyInt_iff.2 h3, pyInt_iff.2 h4, hm]

theorem zoneOffset_minus {h m : Str} {H M : Int} (h1 : ':' ∉ h) (h2 : ':' ∉ m) (h3 : IntText ('-' :: h) H) (h4 : IntText m M) :
    zoneOffset ('-' :: (h ++ ':' :: m)) = some (H, -M) := by
  have e : splitChar ':' ('-' :: (h ++ ':' :: m)) = ['-' :: h, m] := splitChar_pair.2 ⟨rfl, by simp [h1], h2⟩
  unfold zoneOffset
  rw [if_pos ⟨by simp, by simp⟩, e]
  simp [pyInt_iff.2 h3, pyInt_iff.2 h4]

theorem zone_split {s core : Str} {off : Int} (hcp : '+' ∉ core) (hct : '-' ∉ core.reverse.take 7) (hz : ZoneSays s core off) :
    ∃ z H M, splitZone s = (core, z) ∧ zoneOffset z = some (H, M) ∧ off = (60 * H + M) * 60 := by
  cases hz with
  | utc h1 h2 =>
    refine ⟨['Z'], 0, 0, ?_, by decide, by decide⟩
    unfold splitZone
    rw [if_pos h1, replaceAll_char, h2]
  | none h1 h2 =>
    subst h2
    refine ⟨[], 0, 0, ?_, by decide, by decide⟩
    unfold splitZone
    rw [if_neg h1, breakAt_none hcp]
    simp only
    rw [if_neg hct]
  | @plus h m H M h1 h2 h3 h4 h5 h6 =>
    subst h2
    refine ⟨'+' :: (h ++ ':' :: m), H, M, ?_, zoneOffset_plus h3 h4 h5 h6, rfl⟩
    unfold splitZone
    rw [if_neg h1, breakAt_append hcp]
  | @minus h m H M h1 h2 h3 h4 h5 h6 h7 h8 h9 h10 =>
    subst h3
    refine ⟨'-' :: (h ++ ':' :: m), H, -M, ?_, zoneOffset_minus h6 h7 h9 h10, by omega⟩
    have hr : (core ++ '-' :: (h ++ ':' :: m)).reverse = (h ++ ':' :: m).reverse ++ '-' :: core.reverse := by simp
    have hn : '-' ∉ (h ++ ':' :: m).reverse := by simp [h4, h5]
    unfold splitZone
    rw [if_neg h1, breakAt_none h2]
    simp only
    rw [hr, if_pos, breakAt_append hn]
    · simp
    · generalize hu : (h ++ ':' :: m).reverse = u
      have hl : u.length ≤ 6 := by
        rw [← hu]
        simp only [List.length_append, List.length_cons, List.length_reverse]
        omega
      rw [List.take_append, show 7 - u.length = (6 - u.length) + 1 by omega]
      simp

theorem split_zone {s v z : Str} {H M : Int} (h1 : splitZone s = (v, z)) (h2 : zoneOffset z = some (H, M)) : ZoneSays s v ((60 * H + M) * 60) := by
  unfold splitZone at h1
  split at h1
  · rename_i hZ
    cases h1
    have : zoneOffset ['Z'] = some (0, 0) := by decide
    rw [this] at h2
    cases h2
    exact .utc hZ (replaceAll_char _ _)
  · rename_i hZ
    have noZone : ∀ w : Str, (s, ([] : Str)) = (v, w) → w = z → ZoneSays s v ((60 * H + M) * 60) := by
      intro w e1 e2
      cases e1
      subst e2
      have : zoneOffset [] = some (0, 0) := by decide
      rw [this] at h2
      cases h2
      exact .none hZ rfl
    split at h1
    · rename_i a b hb
      cases h1
      obtain ⟨h3, h4, w, rfl⟩ := breakAt_some hb
      unfold zoneOffset at h2
      rw [if_pos ⟨by simp, by simp⟩] at h2
      split at h2
      · rename_i hh mm hsp
        obtain ⟨h5, h6, h7⟩ := splitChar_pair.1 hsp
        cases hh with
        | nil => simp at h5
        | cons x hh =>
          simp only [List.cons_append, List.cons.injEq] at h5
          obtain ⟨rfl, rfl⟩ := h5
          simp only [bind, Option.bind_eq_some_iff, Option.some.injEq, Prod.mk.injEq] at h2
          obtain ⟨mi, hmi, hi, hhi, rfl, rfl⟩ := h2
          have hm : '-' ∉ '+' :: hh := by simpa using pyInt_plus (pyInt_iff.1 hhi)
          rw [if_neg hm]
          exact .plus hZ h3 (fun hm => h6 (by simp [hm])) h7 (pyInt_iff.1 hhi) (pyInt_iff.1 hmi)
      · cases h2
    · rename_i hb
      have hp : '+' ∉ s := by
        intro hm
        obtain ⟨a, b, rfl, hn⟩ := List.eq_append_cons_of_mem hm
        rw [breakAt_append hn] at hb
        cases hb
      split at h1
      · rename_i h7
        split at h1
        · rename_i a x b hb'
          cases h1
          obtain ⟨h3, h4, w, h5⟩ := breakAt_some hb'
          cases h5
          have hs : s = b.reverse ++ '-' :: a.reverse := by
            have := congrArg List.reverse h3
            simpa using this
          have hl : a.length < 7 := by
            rw [h3, List.mem_take_iff_getElem] at h7
            obtain ⟨i, hi, hge⟩ := h7
            rcases Nat.lt_or_ge i a.length with hia | hia
            · rw [List.getElem_append_left hia] at hge
              exact absurd (hge ▸ List.getElem_mem hia) h4
            · omega
          simp only [List.reverse_append, List.reverse_cons, List.reverse_nil, List.nil_append, List.singleton_append] at h2
          unfold zoneOffset at h2
          rw [if_pos ⟨by simp, by simp⟩] at h2
          split at h2
          · rename_i hh mm hsp
            obtain ⟨h5, h6, h8⟩ := splitChar_pair.1 hsp
            cases hh with
            | nil => simp at h5
            | cons x hh =>
              simp only [List.cons_append, List.cons.injEq] at h5
              obtain ⟨rfl, h5⟩ := h5
              simp only [bind, Option.bind_eq_some_iff, Option.some.injEq, Prod.mk.injEq] at h2
              obtain ⟨mi, hmi, hi, hhi, rfl, rfl⟩ := h2
              rw [if_pos (by simp)]
              have h4' : '-' ∉ hh ++ ':' :: mm := by rw [← h5]; simpa using h4
              simp only [List.mem_append, List.mem_cons, not_or] at h4'
              have hlen : hh.length + mm.length ≤ 5 := by
                have := congrArg List.length h5
                simp only [List.length_reverse, List.length_append, List.length_cons] at this
                omega
              have := ZoneSays.minus (core := b.reverse) hZ hp (by rw [hs, h5]) h4'.1 h4'.2.2 (fun hm => h6 (by simp [hm])) h8 hlen (pyInt_iff.1 hhi) (pyInt_iff.1 hmi)
              rw [show 60 * hi + mi * -1 = 60 * hi - mi by omega]
              exact this
          · cases h2
        · exact noZone _ h1 rfl
      · exact noZone _ h1 rfl

/-- C124. parse_date_time returns a date exactly for a date and time of the specification with a zone of the specification
whose offset is less than a day; and then it is that date in that zone. -/
theorem c124_exact {s : Str} {d : DateTime} : parseDateTime s = .ok (some d) ↔ DateSays s d := by
  constructor
  · intro h
    unfold parseDateTime at h
    cases hs : splitZone s with
    | mk v z =>
      rw [hs] at h
      simp only at h
      split at h
      · rename_i H M t hz ht
        split at h
        · cases h
        · split at h
          · rename_i hr
            cases h
            exact ⟨v, t, _, strptime_iff.1 ht, split_zone hs hz, hr.1, hr.2, rfl⟩
          · cases h
      · cases h
  · rintro ⟨core, t, off, hc, hz, h1, h2, rfl⟩
    obtain ⟨z, H, M, hs, ho, rfl⟩ := zone_split (core_no_plus hc) (core_tail hc) hz
    unfold parseDateTime
    rw [hs]
    simp only [ho, strptime_iff.2 hc]
    rw [if_neg (by omega), if_pos ⟨h1, h2⟩]

/-- C05, exactly: an exception is raised if and only if the text is an existing date with a zone of a billion days or more east, or of
more than 999999999 days west; and it is OverflowError.  Texts with such zones are the only ones. -/
theorem c05_exact {s : Str} {e : PyErr} : parseDateTime s = .error e ↔ e = .overflowError ∧ HugeZone s := by
  constructor
  · intro h
    unfold parseDateTime at h
    cases hs : splitZone s with
    | mk v z =>
      rw [hs] at h
      simp only at h
      split at h
      · rename_i H M t hz ht
        split at h
        · rename_i ho
          cases h
          exact ⟨rfl, v, t, _, strptime_iff.1 ht, split_zone hs hz, by omega⟩
        · split at h <;> cases h
      · cases h
  · rintro ⟨rfl, core, t, off, hc, hz, h1⟩
    obtain ⟨z, H, M, hs, ho, rfl⟩ := zone_split (core_no_plus hc) (core_tail hc) hz
    unfold parseDateTime
    rw [hs]
    simp only [ho, strptime_iff.2 hc]
    rw [if_pos (by omega)]

/-- C124: None is returned for all other texts. -/
theorem c124_none {s : Str} : parseDateTime s = .ok none ↔ (∀ d, ¬ DateSays s d) ∧ ¬ HugeZone s := by
  constructor
  · intro h
    refine ⟨fun d hd => ?_, fun hh => ?_⟩
    · rw [c124_exact.2 hd] at h; cases h
    · rw [c05_exact.2 ⟨rfl, hh⟩] at h; cases h
  · rintro ⟨h1, h2⟩
    cases h : parseDateTime s with
    | error e => exact absurd (c05_exact.1 h).2 h2
    | ok o => cases o with
      | none => rfl
      | some d => exact absurd (c124_exact.1 h) (h1 d)

theorem intText_number {s : Str} (h : Digits s 1 2) :
    IntText s (number s : Int) ∧ IntText ('+' :: s) (number s : Int) ∧ IntText ('-' :: s) (-(number s : Int)) := by
  have hn : Numeral 10 digitVal? s (number s) := .of_digits (by rintro rfl; have := h.1; simp at this) fun c hc => h.isDigit hc
  exact ⟨⟨[], s, [], by simp, by simp, .none hn⟩, ⟨[], '+' :: s, [], by simp, by simp, .plus hn⟩, ⟨[], '-' :: s, [], by simp, by simp, .minus hn⟩⟩

theorem zone_says {core : Str} {z : Zone} (hz : z.Ok) (hZ : 'Z' ∉ core) (hp : '+' ∉ core) : ZoneSays (core ++ z.text) core z.offset := by
  have n1 : 'Z' ∉ py!"0123456789" := by decide
  have n2 : '+' ∉ py!"0123456789" := by decide
  have n3 : '-' ∉ py!"0123456789" := by decide
  have n4 : ':' ∉ py!"0123456789" := by decide
  cases z with
  | none => exact .none (by simpa [Zone.text] using hZ) (by simp [Zone.text])
  | utc =>
    refine .utc (by simp [Zone.text]) ?_
    rw [List.filter_append, List.filter_eq_self.2 fun c hc => decide_eq_true (show c ≠ 'Z' from fun e => hZ (e ▸ hc))]
    simp [Zone.text]
  | east h m =>
    obtain ⟨h1, h2, h3⟩ := hz
    refine .plus (h := h) (m := m) ?_ rfl (not_mem_digits h1 n4) (not_mem_digits h2 n4) (intText_number h1).2.1 (intText_number h2).1
    have e1 : 'Z' ≠ '+' := by decide
    have e2 : 'Z' ≠ ':' := by decide
    simp [Zone.text, hZ, not_mem_digits h1 n1, not_mem_digits h2 n1, e1, e2]
  | west h m =>
    obtain ⟨h1, h2, h3⟩ := hz
    have e1 : 'Z' ≠ '-' := by decide
    have e2 : 'Z' ≠ ':' := by decide
    have e3 : '+' ≠ '-' := by decide
    have e4 : '+' ≠ ':' := by decide
    have := ZoneSays.minus (s := core ++ (Zone.west h m).text) (core := core) (h := h) (m := m)
      (by simp [Zone.text, hZ, not_mem_digits h1 n1, not_mem_digits h2 n1, e1, e2])
      (by simp [Zone.text, hp, not_mem_digits h1 n2, not_mem_digits h2 n2, e3, e4]) rfl (not_mem_digits h1 n3) (not_mem_digits h2 n3)
      (not_mem_digits h1 n4) (not_mem_digits h2 n4) (by have := h1.2.1; have := h2.2.1; omega) (intText_number h1).2.2 (intText_number h2).1
    rw [show (Zone.west h m).offset = (60 * -(number h : Int) - number m) * 60 by simp only [Zone.offset]; omega]
    exact this

theorem zone_range {z : Zone} (hz : z.Ok) : -86400 < z.offset ∧ z.offset < 86400 := by
  cases z with
  | none => decide
  | utc => decide
  | east h m => have := hz.2.2; simp only [Zone.offset]; omega
  | west h m => have := hz.2.2; simp only [Zone.offset]; omega

/-- C123, the part that holds. A date and time with at most six digits of a fraction and any zone of less than a day is read
as the instant it denotes (without a zone: as UTC). -/
theorem c123_reads_partial {core : Str} {t : DateTime} (hc : CoreSays core t) {z : Zone} (hz : z.Ok) :
    parseDateTime (core ++ z.text) = .ok (some { t with tz := some z.offset }) :=
  c124_exact.2 ⟨core, t, z.offset, hc, zone_says hz (core_no_Z hc) (core_no_plus hc), (zone_range hz).1, (zone_range hz).2, rfl⟩

/-- C123 does not hold in full: with more than six digits of a fraction, which xs:dateTime allows, the date is not read. -/
theorem c123_refuted {core : Str} {t : DateTime} (hc : CoreSays core t) (hd : '.' ∉ core) {f : Str} {n : Nat} (hf : Digits f 7 n) {z : Zone} (hz : z.Ok) :
    parseDateTime ((core ++ '.' :: f) ++ z.text) = .ok none := by
  have n1 : 'Z' ∉ py!"0123456789" := by decide
  have n2 : '+' ∉ py!"0123456789" := by decide
  have n3 : '-' ∉ py!"0123456789" := by decide
  have n4 : '.' ∉ py!"0123456789" := by decide
  have hZ : 'Z' ∉ core ++ '.' :: f := by
    have e : 'Z' ≠ '.' := by decide
    simp [core_no_Z hc, not_mem_digits hf n1, e]
  have hp : '+' ∉ core ++ '.' :: f := by
    have e : '+' ≠ '.' := by decide
    simp [core_no_plus hc, not_mem_digits hf n2, e]
  have ht : '-' ∉ (core ++ '.' :: f).reverse.take 7 := by
    rw [List.reverse_append, List.reverse_cons, List.append_assoc, List.take_append_of_le_length (by simpa using hf.1)]
    exact fun hm => not_mem_digits hf n3 (List.mem_reverse.1 (List.mem_of_mem_take hm))
  have hst : strptime (decide ('.' ∈ core ++ '.' :: f)) (core ++ '.' :: f) = none := by
    cases hs : strptime (decide ('.' ∈ core ++ '.' :: f)) (core ++ '.' :: f) with
    | none => rfl
    | some t' =>
      obtain ⟨y, mo, d, h, mi, s, T, g, e, hT, hy, hmo, hdd, hh, hmi, hs', hg, -⟩ := strptime_iff.1 hs
      have hpre : '.' ∉ y ++ '-' :: (mo ++ '-' :: (d ++ T :: (h ++ ':' :: (mi ++ ':' :: s)))) := fun hm => by
        rcases core_front hT hy hmo hdd hh hmi hs' hm with h | h
        · exact absurd h (by unfold IsDigit; decide)
        · exact absurd h (by decide)
      have e' : core ++ '.' :: f = (y ++ '-' :: (mo ++ '-' :: (d ++ T :: (h ++ ':' :: (mi ++ ':' :: s))))) ++ fracText g := by rw [e]; simp
      cases g with
      | none =>
        rw [fracText, List.append_nil] at e'
        exact absurd (e' ▸ hpre) (by simp)
      | some x =>
        have := breakAt_append hd f
        rw [e', fracText, breakAt_append hpre] at this
        simp only [Option.some.injEq, Prod.mk.injEq, List.cons.injEq, true_and] at this
        have hx := (hg x rfl).2.1
        rw [this.2] at hx
        have := hf.1
        omega
  obtain ⟨w, H, M, hs, ho, hoff⟩ := zone_split hp ht (zone_says hz hZ hp)
  unfold parseDateTime
  rw [hs]
  simp only [ho, hst]

/-- C123 does not hold in full: neither is midnight as `24:00:00`. -/
theorem c123_midnight_refuted : parseDateTime py!"2020-02-28T24:00:00Z" = .ok none := by decide +kernel

/-- C124: hence a text that says a date of the specification is no other date. -/
theorem c124_unique {s : Str} {d d' : DateTime} {core core' : Str} {t t' : DateTime} {off off' : Int}
    (h1 : CoreSays core t) (h2 : ZoneSays s core off) (h3 : CoreSays core' t') (h4 : ZoneSays s core' off')
    (hr : -86400 < off ∧ off < 86400) (hr' : -86400 < off' ∧ off' < 86400)
    (hd : d = { t with tz := some off }) (hd' : d' = { t' with tz := some off' }) : d = d' := by
  have e1 := c124_exact.2 ⟨core, t, off, h1, h2, hr.1, hr.2, hd⟩
  have e2 := c124_exact.2 ⟨core', t', off', h3, h4, hr'.1, hr'.2, hd'⟩
  rw [e1] at e2
  simpa using e2

/-! ## Cases -/

example : CoreSays py!"2020-2-29T23:05:07.25" ⟨2020, 2, 29, 23, 5, 7, 250000, none⟩ :=
  strptime_iff.1 (by decide +kernel)

example : parseDateTime py!"2020-2-29T23:05:07.25-03:30" = .ok (some ⟨2020, 2, 29, 23, 5, 7, 250000, some (-12600)⟩) :=
  c123_reads_partial (core := py!"2020-2-29T23:05:07.25") (t := ⟨2020, 2, 29, 23, 5, 7, 250000, none⟩) (z := .west py!"03" py!"30")
    (strptime_iff.1 (by decide +kernel)) (by
    refine ⟨⟨by decide, by decide, by decide⟩, ⟨by decide, by decide, by decide⟩, by decide⟩)

example : parseDateTime py!"2020-02-28T01:02:03.1234567+01:00" = .ok none :=
  c123_refuted (core := py!"2020-02-28T01:02:03") (t := ⟨2020, 2, 28, 1, 2, 3, 0, none⟩) (n := 7) (z := .east py!"01" py!"00") (strptime_iff.1 (by decide +kernel))
    (by decide) (f := py!"1234567") ⟨by decide, by decide, by decide⟩ ⟨⟨by decide, by decide, by decide⟩, ⟨by decide, by decide, by decide⟩, by decide⟩

/-- The letter Z counts wherever it is. -/
example : parseDateTime py!"2020Z-02-28T01:02:03" = .ok (some ⟨2020, 2, 28, 1, 2, 3, 0, some 0⟩) :=
  c124_exact.2 ⟨py!"2020-02-28T01:02:03", ⟨2020, 2, 28, 1, 2, 3, 0, none⟩, 0, strptime_iff.1 (by decide +kernel), .utc (by decide) (by decide), by decide, by decide, rfl⟩

/-- A billion days and more. -/
example : parseDateTime py!"2020-02-28T01:02:03+24000000000:00" = .error .overflowError :=
  c05_exact.2 ⟨rfl, py!"2020-02-28T01:02:03", ⟨2020, 2, 28, 1, 2, 3, 0, none⟩, 86400000000000, strptime_iff.1 (by decide +kernel),
    .plus (h := py!"24000000000") (m := py!"00") (H := 24000000000) (M := 0) (by decide) rfl (by decide) (by decide) (pyInt_iff.1 (by decide +kernel)) (pyInt_iff.1 (by decide +kernel)), .inr (by decide)⟩

/-- Digits of other scripts: an Arabic-Indic year and the second digit of the hour. -/
example : CoreSays py!"٢٠٢٠-02-28T1٩:02:03" ⟨2020, 2, 28, 19, 2, 3, 0, none⟩ := strptime_iff.1 (by decide +kernel)

/-- But not in the month. -/
example : parseDateTime py!"2020-0٢-28T19:02:03" = .ok none := by decide +kernel

/-- There is no thirtieth of February, and no day of 24 hours from Greenwich. -/
example : ¬ ∃ d, parseDateTime py!"2020-02-30T01:02:03" = .ok (some d) := by
  rw [show parseDateTime py!"2020-02-30T01:02:03" = .ok none by decide +kernel]
  simp

end Opy
