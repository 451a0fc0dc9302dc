import Verif.Model.DateTime
import Verif.Lemmas.Strptime
/- Lemmas for the timestamp round trip. -/
namespace Opy

theorem breakAt_append {c : Char} {a : Str} (h : c ∉ a) (b : Str) :
    breakAt c (a ++ c :: b) = some (a, c :: b) := by
  induction a with
  | nil => simp [breakAt]
  | cons x xs ih =>
    have hx : x ≠ c := fun e => h (by simp [e])
    simp [breakAt, hx, ih (fun m => h (List.mem_cons_of_mem _ m))]

theorem breakAt_none {c : Char} {a : Str} (h : c ∉ a) : breakAt c a = none := by
  induction a with
  | nil => simp [breakAt]
  | cons x xs ih =>
    have hx : x ≠ c := fun e => h (by simp [e])
    simp [breakAt, hx, ih (fun m => h (List.mem_cons_of_mem _ m))]

theorem breakAt_some {c : Char} {s a b : Str} (h : breakAt c s = some (a, b)) :
    s = a ++ b ∧ c ∉ a ∧ ∃ t, b = c :: t := by
  induction s generalizing a b with
  | nil => simp [breakAt] at h
  | cons x xs ih =>
    simp only [breakAt] at h
    split at h
    · next hx => cases h; exact ⟨rfl, by simp, xs, by rw [hx]⟩
    · next hx =>
      split at h
      · exact absurd h (by simp)
      · next a' b' e =>
        cases h
        obtain ⟨h1, h2, h3⟩ := ih e
        exact ⟨by simp [h1], by simp [h2, Ne.symm hx], h3⟩

theorem replaceAll_of_not_mem {o : Char} {os new s : Str} (h : o ∉ s) :
    replaceAll (o :: os) new s = s := by
  unfold replaceAll
  induction s with
  | nil => simp [replaceGo]
  | cons x xs ih =>
    have hx : o ≠ x := fun e => h (by simp [e])
    simp only [replaceGo, List.isPrefixOf]
    simp [hx, ih (fun m => h (List.mem_cons_of_mem _ m))]

theorem replaceGo_cons_of_not_prefix {o : Char} {os new s : Str} (h : o ∉ s)
    (hp : (o :: os).isPrefixOf (o :: s) = false) :
    replaceAll (o :: os) new (o :: s) = o :: s := by
  have := replaceAll_of_not_mem (os := os) (new := new) h
  unfold replaceAll at this ⊢
  simp only [replaceGo, hp, this]
  simp

theorem replaceAll_UTC {s : Str} (h : 'U' ∉ s) : replaceAll py!"UTC" [] (py!"UTC" ++ s) = s := by
  have h1 := replaceAll_of_not_mem (os := ['T', 'C']) (new := []) h
  unfold replaceAll at h1 ⊢
  simp [replaceGo, List.isPrefixOf, h1]

/-! ### fields -/

theorem digitChar_digit {n : Nat} (h : n < 10) : digitChar n ∈ py!"0123456789" := by
  have : ∀ n : Fin 10, digitChar n.val ∈ py!"0123456789" := by decide
  exact this ⟨n, h⟩

theorem dig_digitChar {n : Nat} (h : n < 10) : dig (digitChar n) = n := by
  unfold dig; rw [digitVal?_digitChar h]; rfl

theorem pad2_digits {n : Nat} (h : n < 100) : Digits (padNat 2 n) 1 2 ∧ number (padNat 2 n) = n := by
  rw [padNat_2 h, number_two, dig_digitChar (by omega), dig_digitChar (by omega)]
  refine ⟨⟨by simp, by simp, ?_⟩, by omega⟩
  simp only [List.forall_mem_cons, List.not_mem_nil, false_implies, implies_true, and_true]
  exact ⟨digitChar_digit (by omega), digitChar_digit (by omega)⟩

theorem pad3_digits {n : Nat} (h : n < 1000) : Digits (padNat 3 n) 1 6 ∧ (padNat 3 n).length = 3 ∧ number (padNat 3 n) = n := by
  rw [padNat_3 h]
  refine ⟨⟨by simp, by simp, ?_⟩, by simp, ?_⟩
  · simp only [List.forall_mem_cons, List.not_mem_nil, false_implies, implies_true, and_true]
    exact ⟨digitChar_digit (by omega), digitChar_digit (by omega), digitChar_digit (by omega)⟩
  · rw [show ∀ a b c : Char, [a, b, c] = [a, b] ++ [c] from fun _ _ _ => rfl, number_append, number_two, number_one, dig_digitChar (by omega),
      dig_digitChar (by omega), dig_digitChar (by omega)]
    simp only [List.length_singleton, Nat.pow_one]
    omega

theorem pad4_digits {n : Nat} (h : n < 10000) : YearText (padNat 4 n) ∧ number (padNat 4 n) = n := by
  rw [padNat_4 h]
  refine ⟨⟨by simp, ?_⟩, ?_⟩
  · have hd : ∀ {k : Nat}, k < 10 → IsDigit (digitChar k) := fun hk => isDigit_ascii (digit_iff.1 (digitChar_digit hk))
    simp only [List.forall_mem_cons, List.not_mem_nil, false_implies, implies_true, and_true]
    exact ⟨hd (by omega), hd (by omega), hd (by omega), hd (by omega)⟩
  · rw [show ∀ a b c d : Char, [a, b, c, d] = [a, b] ++ [c, d] from fun _ _ _ _ => rfl, number_append, number_two, number_two, dig_digitChar (by omega),
      dig_digitChar (by omega), dig_digitChar (by omega), dig_digitChar (by omega)]
    simp only [List.length_cons, List.length_nil]
    omega

theorem digit_not_mem_pad2 {c : Char} (hc : c.toNat < 48 ∨ 57 < c.toNat) {n : Nat} (h : n < 100) :
    c ∉ padNat 2 n := by
  rw [padNat_2 h]
  simp only [List.mem_cons, List.not_mem_nil, or_false, not_or]
  exact ⟨(digitChar_ne (by omega) c hc).symm, (digitChar_ne (by omega) c hc).symm⟩

theorem digit_not_mem_pad3 {c : Char} (hc : c.toNat < 48 ∨ 57 < c.toNat) {n : Nat} (h : n < 1000) :
    c ∉ padNat 3 n := by
  rw [padNat_3 h]
  simp only [List.mem_cons, List.not_mem_nil, or_false, not_or]
  exact ⟨(digitChar_ne (by omega) c hc).symm, (digitChar_ne (by omega) c hc).symm,
    (digitChar_ne (by omega) c hc).symm⟩

theorem digit_not_mem_pad4 {c : Char} (hc : c.toNat < 48 ∨ 57 < c.toNat) {n : Nat} (h : n < 10000) :
    c ∉ padNat 4 n := by
  rw [padNat_4 h]
  simp only [List.mem_cons, List.not_mem_nil, or_false, not_or]
  exact ⟨(digitChar_ne (by omega) c hc).symm, (digitChar_ne (by omega) c hc).symm,
    (digitChar_ne (by omega) c hc).symm, (digitChar_ne (by omega) c hc).symm⟩

/-! ### The text without zone -/

/-- The zone-free part of the printed timestamp. -/
def DateTime.body (d : DateTime) : Str :=
  padNat 4 d.year ++ '-' :: (padNat 2 d.month ++ '-' :: (padNat 2 d.day ++ 'T' ::
  (padNat 2 d.hour ++ ':' :: (padNat 2 d.minute ++ ':' :: (padNat 2 d.second ++ '.' ::
  padNat 3 (d.micro / 1000))))))

theorem xesStr_eq (d : DateTime) : d.xesStr = d.body ++ zoneText d.tz := by
  simp [DateTime.xesStr, DateTime.body]

/-- The ranges that `valid` guarantees. -/
theorem valid_iff (d : DateTime) : d.valid = true ↔
    (1 ≤ d.year ∧ d.year ≤ 9999 ∧ 1 ≤ d.month ∧ d.month ≤ 12 ∧ 1 ≤ d.day ∧
    d.day ≤ daysInMonth d.year d.month ∧ d.hour < 24 ∧ d.minute < 60 ∧ d.second < 60 ∧
    d.micro < 1000000 ∧ ∀ o, d.tz = some o → -86400 < o ∧ o < 86400) := by
  unfold DateTime.valid
  cases h : d.tz with
  | none => simp [and_assoc]
  | some o => simp [and_assoc]

theorem daysInMonth_le (y m : Nat) : daysInMonth y m ≤ 31 := by
  unfold daysInMonth; split <;> (try split) <;> omega

theorem not_mem_body {d : DateTime} (h : d.valid = true) {c : Char} (hc : c.toNat < 48 ∨ 57 < c.toNat)
    (h1 : c ≠ '-') (h2 : c ≠ 'T') (h3 : c ≠ ':') (h4 : c ≠ '.') : c ∉ d.body := by
  rw [valid_iff] at h
  have hd := daysInMonth_le d.year d.month
  unfold DateTime.body
  simp only [List.mem_append, List.mem_cons, not_or]
  exact ⟨digit_not_mem_pad4 hc (by omega), h1, digit_not_mem_pad2 hc (by omega), h1,
    digit_not_mem_pad2 hc (by omega), h2, digit_not_mem_pad2 hc (by omega), h3,
    digit_not_mem_pad2 hc (by omega), h3, digit_not_mem_pad2 hc (by omega), h4,
    digit_not_mem_pad3 hc (by omega)⟩

theorem strptime_body {d : DateTime} (h : d.valid = true) :
    strptime true d.body = some { d with micro := d.micro / 1000 * 1000, tz := none } := by
  have hv : DateTime.valid ⟨d.year, d.month, d.day, d.hour, d.minute, d.second, d.micro / 1000 * 1000, none⟩ = true := by
    rw [valid_iff] at h ⊢
    obtain ⟨a1, a2, a3, a4, a5, a6, a7, a8, a9, a10, _⟩ := h
    exact ⟨a1, a2, a3, a4, a5, a6, a7, a8, a9, by show d.micro / 1000 * 1000 < _; omega, by simp⟩
  rw [valid_iff] at h
  have hd := daysInMonth_le d.year d.month
  rw [strptime_text]
  have p2 : ∀ {n : Nat}, n < 100 → Digits (padNat 2 n) 1 2 := fun h => (pad2_digits h).1
  have n2 : ∀ {n : Nat}, n < 100 → number (padNat 2 n) = n := fun h => (pad2_digits h).2
  obtain ⟨y1, y2⟩ := pad4_digits (n := d.year) (by omega)
  obtain ⟨f1, f2, f3⟩ := pad3_digits (n := d.micro / 1000) (by omega)
  refine ⟨⟨padNat 4 d.year, padNat 2 d.month, padNat 2 d.day, padNat 2 d.hour, padNat 2 d.minute, padNat 2 d.second⟩, 'T', some (padNat 3 (d.micro / 1000)),
    ⟨y1, ⟨p2 (by omega), ?_, ?_⟩, ⟨.inl (p2 (by omega)), ?_, ?_⟩, ⟨.inl (p2 (by omega)), ?_⟩, ⟨.inl (p2 (by omega)), ?_⟩, .inl (p2 (by omega)), ?_⟩,
    .inl rfl, ⟨rfl, fun w hw => by cases hw; exact f1⟩, rfl, ?_, hv⟩
  · rw [n2 (by omega)]; omega
  · rw [n2 (by omega)]; omega
  · rw [n2 (by omega)]; omega
  · rw [n2 (by omega)]; omega
  · rw [n2 (by omega)]; omega
  · rw [n2 (by omega)]; omega
  · rw [n2 (by omega)]; omega
  · simp only [micros]
    rw [y2, n2 (by omega), n2 (by omega), n2 (by omega), n2 (by omega), n2 (by omega), f2, f3]

theorem dot_mem_body (d : DateTime) : '.' ∈ d.body := by simp [DateTime.body]

/-! ### The zone text -/

theorem zoneText_some {o : Int} (h : o ≠ 0) (hm : o % 60 = 0) (hr : -86400 < o ∧ o < 86400) :
    zoneText (some o) = (if o < 0 then '-' else '+') ::
      (padNat 2 (o.natAbs / 3600) ++ ':' :: padNat 2 (o.natAbs / 60 % 60)) := by
  have hmod : o.natAbs % 60 = 0 := by omega
  unfold zoneText tzname
  simp only [h, if_false, hmod, if_true, List.append_nil]
  generalize hA : o.natAbs / 3600 = A
  generalize hB : o.natAbs / 60 % 60 = B
  have hA' : A < 100 := by omega
  have hB' : B < 100 := by omega
  have hAB : ¬ (A = 0 ∧ B = 0) := by omega
  rw [List.append_assoc, List.append_assoc, List.append_assoc, replaceAll_UTC]
  · have key : ∀ c : Char, c ∉ ['+', '-', ':'] → (c.toNat < 48 ∨ 57 < c.toNat) →
        True := fun _ _ _ => trivial
    have hp1 : '+' ∉ padNat 2 A ++ ':' :: padNat 2 B := by
      simp only [List.mem_append, List.mem_cons, not_or]
      exact ⟨digit_not_mem_pad2 (by decide) hA', by decide, digit_not_mem_pad2 (by decide) hB'⟩
    have hp2 : '-' ∉ padNat 2 A ++ ':' :: padNat 2 B := by
      simp only [List.mem_append, List.mem_cons, not_or]
      exact ⟨digit_not_mem_pad2 (by decide) hA', by decide, digit_not_mem_pad2 (by decide) hB'⟩
    have hz : ∀ s : Char, List.isPrefixOf [s, '0', '0', ':', '0', '0'] (s :: (padNat 2 A ++ ':' :: padNat 2 B)) = false := by
      intro s
      rw [padNat_2 hA', padNat_2 hB']
      simp only [List.isPrefixOf, List.cons_append, List.nil_append, beq_self_eq_true, Bool.true_and, Bool.and_true,
        Bool.and_eq_false_iff, beq_eq_false_iff_ne]
      have hz0 : ∀ x, x < 10 → '0' = digitChar x → x = 0 := fun x hx e =>
        digitChar_inj (by omega) (by omega) (show digitChar x = digitChar 0 from e.symm)
      apply Classical.byContradiction
      intro hcon
      simp only [not_or, Decidable.not_not] at hcon
      have e1 := hz0 _ (by omega) hcon.1
      have e2 := hz0 _ (by omega) hcon.2.1
      have e3 := hz0 _ (by omega) hcon.2.2.1
      have e4 := hz0 _ (by omega) hcon.2.2.2
      omega
    by_cases hneg : o < 0
    · simp only [hneg, if_true, List.cons_append, List.nil_append]
      rw [replaceAll_of_not_mem (o := '+'), replaceGo_cons_of_not_prefix hp2 (hz '-')]
      simp only [List.mem_cons, not_or]
      exact ⟨by decide, hp1⟩
    · simp only [hneg, if_false, List.cons_append, List.nil_append]
      rw [replaceGo_cons_of_not_prefix hp1 (hz '+'), replaceAll_of_not_mem (o := '-')]
      simp only [List.mem_cons, not_or]
      exact ⟨by decide, hp2⟩
  · simp only [List.mem_append, List.mem_cons, not_or]
    refine ⟨?_, digit_not_mem_pad2 (by decide) hA', by decide, digit_not_mem_pad2 (by decide) hB'⟩
    split <;> decide

theorem pyInt_pad2 {n : Nat} (h : n < 100) : pyInt (padNat 2 n) = some (n : Int) := by
  rw [padNat_2 h]
  have := pyInt_digits [n / 10, n % 10] (by simp; omega) (by simp)
  simp only [List.map_cons, List.map_nil] at this
  rw [this]
  simp [decVal]
  omega

theorem pyInt_plus_pad2 {n : Nat} (h : n < 100) : pyInt ('+' :: padNat 2 n) = some (n : Int) := by
  rw [padNat_2 h]
  have := pyInt_pos_digits [n / 10, n % 10] (by simp; omega) (by simp)
  simp only [List.map_cons, List.map_nil] at this
  rw [this]
  simp [decVal]
  omega

theorem pyInt_minus_pad2 {n : Nat} (h : n < 100) : pyInt ('-' :: padNat 2 n) = some (-(n : Int)) := by
  rw [padNat_2 h]
  have := pyInt_neg_digits [n / 10, n % 10] (by simp; omega) (by simp)
  simp only [List.map_cons, List.map_nil] at this
  rw [this]
  simp [decVal]
  omega

theorem zoneOffset_text {o : Int} (h : o ≠ 0) (hm : o % 60 = 0) (hr : -86400 < o ∧ o < 86400) :
    ∃ hh mm : Int, zoneOffset (zoneText (some o)) = some (hh, mm) ∧ (60 * hh + mm) * 60 = o := by
  rw [zoneText_some h hm hr]
  generalize hA : o.natAbs / 3600 = A
  generalize hB : o.natAbs / 60 % 60 = B
  have hA' : A < 100 := by omega
  have hB' : B < 100 := by omega
  have hsum : 60 * (60 * A + B) = o.natAbs := by omega
  by_cases hneg : o < 0
  · refine ⟨-(A : Int), -(B : Int), ?_, by omega⟩
    simp only [hneg, if_true]
    unfold zoneOffset
    have hs : splitChar ':' (('-' :: padNat 2 A) ++ ':' :: padNat 2 B) = ['-' :: padNat 2 A, padNat 2 B] := by
      rw [splitChar_append_sep, splitChar_of_not_mem]
      · exact digit_not_mem_pad2 (by decide) hB'
      · simp only [List.mem_cons, not_or]
        exact ⟨by decide, digit_not_mem_pad2 (by decide) hA'⟩
    rw [if_pos ⟨by simp, by simp⟩]
    simp only [List.cons_append] at hs
    rw [hs]
    simp only [Option.bind_eq_bind, pyInt_pad2 hB', pyInt_minus_pad2 hA', Option.bind_some]
    simp
  · refine ⟨A, B, ?_, by omega⟩
    simp only [hneg, if_false]
    unfold zoneOffset
    have hs : splitChar ':' (('+' :: padNat 2 A) ++ ':' :: padNat 2 B) = ['+' :: padNat 2 A, padNat 2 B] := by
      rw [splitChar_append_sep, splitChar_of_not_mem]
      · exact digit_not_mem_pad2 (by decide) hB'
      · simp only [List.mem_cons, not_or]
        exact ⟨by decide, digit_not_mem_pad2 (by decide) hA'⟩
    rw [if_pos ⟨by simp, by simp⟩]
    simp only [List.cons_append] at hs
    rw [hs]
    simp only [Option.bind_eq_bind, pyInt_pad2 hB', pyInt_plus_pad2 hA', Option.bind_some]
    have : '-' ∉ padNat 2 A := digit_not_mem_pad2 (by decide) hA'
    simp [this]

theorem body_tail {d : DateTime} (h : d.valid = true) : '-' ∉ d.body.reverse.take 7 := by
  rw [valid_iff] at h
  have hd := daysInMonth_le d.year d.month
  unfold DateTime.body
  rw [padNat_2 (n := d.second) (by omega), padNat_3 (by omega)]
  simp only [List.reverse_append, List.reverse_cons, List.append_assoc, List.cons_append, List.nil_append,
    List.reverse_nil, List.take_succ_cons, List.take_zero, List.mem_cons, List.not_mem_nil, or_false, not_or]
  refine ⟨?_, ?_, ?_, by decide, ?_, ?_, by decide⟩ <;>
    exact (digitChar_ne (by omega) _ (by decide)).symm

theorem splitZone_none {d : DateTime} (h : d.valid = true) : splitZone (d.body ++ ['Z']) = (d.body, ['Z']) := by
  unfold splitZone
  rw [if_pos (by simp), replaceAll_char]
  have hZ : 'Z' ∉ d.body := not_mem_body h (by decide) (by decide) (by decide) (by decide) (by decide)
  rw [List.filter_append, List.filter_eq_self.2]
  · simp
  · intro a ha
    simp only [decide_eq_true_eq]
    exact fun e => hZ (e ▸ ha)

theorem splitZone_zero {d : DateTime} (h : d.valid = true) : splitZone d.body = (d.body, []) := by
  unfold splitZone
  rw [if_neg (not_mem_body h (by decide) (by decide) (by decide) (by decide) (by decide)),
    breakAt_none (not_mem_body h (by decide) (by decide) (by decide) (by decide) (by decide))]
  simp only
  rw [if_neg (body_tail h)]

theorem splitZone_some {d : DateTime} (h : d.valid = true) {o : Int} (h0 : o ≠ 0) (hm : o % 60 = 0)
    (hr : -86400 < o ∧ o < 86400) :
    splitZone (d.body ++ zoneText (some o)) = (d.body, zoneText (some o)) := by
  rw [zoneText_some h0 hm hr]
  generalize hA : o.natAbs / 3600 = A
  generalize hB : o.natAbs / 60 % 60 = B
  have hA' : A < 100 := by omega
  have hB' : B < 100 := by omega
  have hZb : 'Z' ∉ d.body := not_mem_body h (by decide) (by decide) (by decide) (by decide) (by decide)
  have hPb : '+' ∉ d.body := not_mem_body h (by decide) (by decide) (by decide) (by decide) (by decide)
  by_cases hneg : o < 0
  · simp only [hneg, if_true]
    have hZ : 'Z' ∉ d.body ++ '-' :: (padNat 2 A ++ ':' :: padNat 2 B) := by
      simp only [List.mem_append, List.mem_cons, not_or]
      exact ⟨hZb, by decide, digit_not_mem_pad2 (by decide) hA', by decide, digit_not_mem_pad2 (by decide) hB'⟩
    have hP : '+' ∉ d.body ++ '-' :: (padNat 2 A ++ ':' :: padNat 2 B) := by
      simp only [List.mem_append, List.mem_cons, not_or]
      exact ⟨hPb, by decide, digit_not_mem_pad2 (by decide) hA', by decide, digit_not_mem_pad2 (by decide) hB'⟩
    have hM : '-' ∉ (padNat 2 A ++ ':' :: padNat 2 B).reverse := by
      simp only [List.mem_reverse, List.mem_append, List.mem_cons, not_or]
      exact ⟨digit_not_mem_pad2 (by decide) hA', by decide, digit_not_mem_pad2 (by decide) hB'⟩
    have hrev : (d.body ++ '-' :: (padNat 2 A ++ ':' :: padNat 2 B)).reverse =
        (padNat 2 A ++ ':' :: padNat 2 B).reverse ++ '-' :: d.body.reverse := by simp
    unfold splitZone
    rw [if_neg hZ, breakAt_none hP, hrev]
    simp only
    rw [if_pos, breakAt_append hM]
    · simp
    · rw [padNat_2 hA', padNat_2 hB']
      simp
  · simp only [hneg, if_false]
    have hZ : 'Z' ∉ d.body ++ '+' :: (padNat 2 A ++ ':' :: padNat 2 B) := by
      simp only [List.mem_append, List.mem_cons, not_or]
      exact ⟨hZb, by decide, digit_not_mem_pad2 (by decide) hA', by decide, digit_not_mem_pad2 (by decide) hB'⟩
    unfold splitZone
    rw [if_neg hZ, breakAt_append hPb]

end Opy
