import Verif.Props.Examples
import Verif.Props.DateText
/-
Properties C132 and C133: the times in a CSV file, and the script as a whole.
-/
set_option linter.unusedSectionVars false
set_option linter.unusedSimpArgs false
namespace Opy

/-! ## Specification -/

/-- What the names of time columns are made of: day, month, year, hour and minute. -/
inductive TimeTok where
  | dd | MM | yyyy | HH | mm
  deriving DecidableEq

/-- As in the header. -/
def TimeTok.text : TimeTok → Str
  | .dd => py!"dd" | .MM => py!"MM" | .yyyy => py!"yyyy" | .HH => py!"HH" | .mm => py!"mm"

/-- A text made from the parts, where each is followed by what separates it from the next. -/
def spelled (f : TimeTok → Str) (pre : Str) : List (TimeTok × Str) → Str
  | [] => pre
  | p :: l => pre ++ (f p.1 ++ spelled f p.2 l)

/-- A separator: no digit, none of the letters of the parts, no percent sign, semicolon or line end. -/
def SepChar (c : Char) : Prop := ¬ IsDigit c ∧ c ∉ py!"dMyHm%;\n"

/-- The name of a time column: the parts in any order, each at most once, the year among them, with something in between. -/
structure TimeName (pre : Str) (l : List (TimeTok × Str)) : Prop where
  seps : ∀ c ∈ pre, SepChar c
  between : ∀ p ∈ l, ∀ c ∈ p.2, SepChar c
  apart : ∀ p ∈ l.dropLast, p.2 ≠ []
  once : (l.map Prod.fst).Nodup
  year : TimeTok.yyyy ∈ l.map Prod.fst

/-- The number of a part, if it occurs. -/
def partOr (v : TimeTok → Str) (l : List (TimeTok × Str)) (t : TimeTok) (default : Nat) : Nat :=
  if t ∈ l.map Prod.fst then number (v t) else default

/-- The time that the numbers say; what does not occur is the first of January at midnight. -/
def timeOf (v : TimeTok → Str) (l : List (TimeTok × Str)) : DateTime :=
  ⟨number (v .yyyy), partOr v l .MM 1, partOr v l .dd 1, partOr v l .HH 0, partOr v l .mm 0, 0, 0, none⟩

/-- The numbers are written with one or two digits, the year with four, and the time exists. -/
structure TimeNumbers (v : TimeTok → Str) (l : List (TimeTok × Str)) : Prop where
  digits : ∀ t ∈ l.map Prod.fst, t ≠ .yyyy → Digits (v t) 1 2
  year : Digits (v .yyyy) 4 4
  exist : 1 ≤ (timeOf v l).year ∧ 1 ≤ (timeOf v l).month ∧ (timeOf v l).month ≤ 12 ∧ 1 ≤ (timeOf v l).day ∧
    (timeOf v l).day ≤ monthLength (timeOf v l).year (timeOf v l).month ∧ (timeOf v l).hour < 24 ∧ (timeOf v l).minute < 60

/-- The text of the file. -/
def fileText (header : List Str) (rows : List (List Str)) : Str := ((header :: rows).map rowText).flatten

/-! ## The format -/

/-- The directive of a part. -/
def TimeTok.letter : TimeTok → Char
  | .dd => 'd' | .MM => 'm' | .yyyy => 'Y' | .HH => 'H' | .mm => 'M'

theorem replaceGo_skip (old new : Str) : ∀ (n : Nat) (s r : Str), s.length = n → replaceGo old new n (s ++ r) = replaceGo old new 0 r
  | 0, [], r, _ => rfl
  | n + 1, _ :: s, r, h => by
    rw [List.cons_append, replaceGo]
    exact replaceGo_skip old new n s r (by simpa using h)

theorem replaceAll_self {o : Char} {os new r : Str} : replaceAll (o :: os) new ((o :: os) ++ r) = new ++ replaceAll (o :: os) new r := by
  unfold replaceAll
  rw [List.cons_append, replaceGo]
  have : (o :: os).isPrefixOf (o :: (os ++ r)) = true := by
    rw [List.isPrefixOf_iff_prefix]; exact ⟨r, rfl⟩
  rw [if_pos this, replaceGo_skip _ _ _ os r (by simp)]

theorem replaceAll_pass {o : Char} {os new : Str} : ∀ {a : Str}, o ∉ a → ∀ r, replaceAll (o :: os) new (a ++ r) = a ++ replaceAll (o :: os) new r
  | [], _, r => rfl
  | x :: a, h, r => by
    have hx : o ≠ x := fun e => h (by simp [e])
    have := replaceAll_pass (os := os) (new := new) (a := a) (fun hm => h (List.mem_cons_of_mem _ hm)) r
    unfold replaceAll at this ⊢
    rw [List.cons_append, replaceGo, this, if_neg]
    · rfl
    · simp [List.isPrefixOf, hx]

theorem replaceAll_nil (old new : Str) : replaceAll old new [] = [] := by unfold replaceAll; rw [replaceGo]

/-- One replacement, part by part. -/
theorem replace_spelled {o : Char} {os new : Str} (ho : o ∈ py!"dMyHm") {f g : TimeTok → Str}
    (h : ∀ t, replaceAll (o :: os) new (f t) = g t ∧ ∀ x r, SepChar x → replaceAll (o :: os) new (f t ++ x :: r) = g t ++ replaceAll (o :: os) new (x :: r)) :
    ∀ (l : List (TimeTok × Str)) (pre : Str), (∀ c ∈ pre, SepChar c) → (∀ p ∈ l, ∀ c ∈ p.2, SepChar c) → (∀ p ∈ l.dropLast, p.2 ≠ []) →
      replaceAll (o :: os) new (spelled f pre l) = spelled g pre l := by
  have hsep : ∀ {s : Str}, (∀ c ∈ s, SepChar c) → o ∉ s := fun hs hm => (hs o hm).2 (by
    simp only [List.mem_cons, List.not_mem_nil, or_false] at ho ⊢
    rcases ho with h | h | h | h | h <;> simp [h])
  intro l
  induction l with
  | nil =>
    intro pre h1 _ _
    have := replaceAll_pass (os := os) (new := new) (hsep h1) []
    simpa [spelled, replaceAll_nil] using this
  | cons p l ih =>
    intro pre h1 h2 h3
    rw [spelled, replaceAll_pass (hsep h1), spelled]
    congr 1
    have hp := h2 p (by simp)
    cases l with
    | nil =>
      simp only [spelled]
      cases hs : p.2 with
      | nil => simpa using (h p.1).1
      | cons x s =>
        rw [hs] at hp
        rw [(h p.1).2 x s (hp x (by simp))]
        have := replaceAll_pass (os := os) (new := new) (hsep hp) []
        rw [List.append_nil, replaceAll_nil, List.append_nil] at this
        rw [this]
    | cons q l =>
      have hne : p.2 ≠ [] := h3 p (by simp)
      have e := ih p.2 hp (fun p' hp' => h2 p' (List.mem_cons_of_mem _ hp')) (fun p' hp' => h3 p' (by
        rw [List.dropLast_cons_of_ne_nil (by simp)]
        exact List.mem_cons_of_mem _ hp'))
      cases hs : p.2 with
      | nil => exact absurd hs hne
      | cons x s =>
        rw [hs] at hp e
        rw [← e]
        rw [spelled, List.cons_append]
        exact (h p.1).2 x _ (hp x (by simp))

/-- The parts after some of the replacements. -/
def stage (n : Nat) : TimeTok → Str
  | .dd => if 1 ≤ n then py!"%d" else py!"dd"
  | .MM => if 2 ≤ n then py!"%m" else py!"MM"
  | .yyyy => if 3 ≤ n then py!"%Y" else py!"yyyy"
  | .HH => if 4 ≤ n then py!"%H" else py!"HH"
  | .mm => if 5 ≤ n then py!"%M" else py!"mm"

theorem sepChar_ne {x : Char} (h : SepChar x) : x ≠ 'd' ∧ x ≠ 'M' ∧ x ≠ 'y' ∧ x ≠ 'H' ∧ x ≠ 'm' ∧ x ≠ '%' ∧ x ≠ ';' ∧ x ≠ '\n' := by
  have := h.2
  simpa using this

theorem columnType_format {pre : Str} {l : List (TimeTok × Str)} (h : TimeName pre l) :
    replaceAll py!"mm" py!"%M" (replaceAll py!"HH" py!"%H" (replaceAll py!"yyyy" py!"%Y" (replaceAll py!"MM" py!"%m" (replaceAll py!"dd" py!"%d"
      (spelled TimeTok.text pre l))))) = spelled (stage 5) pre l := by
  have e0 : TimeTok.text = stage 0 := by funext t; cases t <;> rfl
  have step : ∀ {o : Char} {os new : Str} {n : Nat}, o ∈ py!"dMyHm" →
      (∀ t, replaceAll (o :: os) new (stage n t) = stage (n + 1) t ∧
        ∀ x r, SepChar x → replaceAll (o :: os) new (stage n t ++ x :: r) = stage (n + 1) t ++ replaceAll (o :: os) new (x :: r)) →
      replaceAll (o :: os) new (spelled (stage n) pre l) = spelled (stage (n + 1)) pre l :=
    fun ho hh => replace_spelled ho hh l pre h.seps h.between h.apart
  rw [e0, step (n := 0) (by decide), step (n := 1) (by decide), step (n := 2) (by decide), step (n := 3) (by decide), step (n := 4) (by decide)]
  all_goals
    intro t
    refine ⟨by cases t <;> decide, fun x r hx => ?_⟩
    obtain ⟨n1, n2, n3, n4, n5, n6, -⟩ := sepChar_ne hx
    cases t <;> simp [stage, replaceAll, replaceGo, List.isPrefixOf, n1, n2, n3, n4, n5, n6, Ne.symm n1, Ne.symm n2, Ne.symm n3, Ne.symm n4, Ne.symm n5]

/-! ## Matching -/

theorem isDigit_range {y : Char} (h : IsDigit y) : (48 ≤ y.toNat ∧ y.toNat ≤ 57) ∨ 1632 ≤ y.toNat := by
  unfold IsDigit digitVal? at h
  split at h
  · next h' => exact .inl h'
  · split at h
    · simp at h
    · omega

/-- White space is no digit. -/
theorem isDigit_not_space {y : Char} (h : IsDigit y) : isSpace y = false := by
  rcases isDigit_range h with hr | hr
  · unfold isSpace
    simp
    omega
  · by_contra hs
    have hs : isSpace y = true := by simpa using hs
    have hn : y.toNat ∈ [0x1680, 0x2000, 0x2001, 0x2002, 0x2003, 0x2004, 0x2005, 0x2006, 0x2007, 0x2008, 0x2009, 0x200A, 0x2028, 0x2029, 0x202F, 0x205F, 0x3000] := by
      unfold isSpace at hs
      simp at hs
      simp only [List.mem_cons, List.not_mem_nil, or_false]
      omega
    have key : ∀ n ∈ [0x1680, 0x2000, 0x2001, 0x2002, 0x2003, 0x2004, 0x2005, 0x2006, 0x2007, 0x2008, 0x2009, 0x200A, 0x2028, 0x2029, 0x202F, 0x205F, 0x3000],
        (digitVal? (Char.ofNat n)).isSome = false := by decide +kernel
    have := key _ hn
    rw [Char.ofNat_toNat] at this
    unfold IsDigit at h
    rw [h] at this
    cases this

theorem litEq_digit {c y : Char} (hc : ¬ IsDigit c) (hy : IsDigit y) : litEq c y = false := by
  by_contra h
  have h : litEq c y = true := by simpa using h
  have key : ∀ n ∈ [0x130, 0x131, 0x17F, 0x212A], (digitVal? (Char.ofNat n)).isSome = false := by decide +kernel
  have no : ∀ n ∈ [0x130, 0x131, 0x17F, 0x212A], y.toNat ≠ n := fun n hn e => by
    have := key n hn
    rw [← e, Char.ofNat_toNat] at this
    unfold IsDigit at hy
    rw [hy] at this
    cases this
  have n1 := no 0x130 (by decide)
  have n2 := no 0x131 (by decide)
  have n3 := no 0x17F (by decide)
  have n4 := no 0x212A (by decide)
  simp only [litEq, Bool.or_eq_true, beq_iff_eq, Bool.and_eq_true, n1, n2, n3, n4, and_false, or_self, or_false] at h
  have hr := isDigit_range hy
  have ly : lowerChar y = y := by
    rcases lowerChar_cases y with h' | h'
    · exact h'.1
    · omega
  rw [ly] at h
  rcases lowerChar_cases c with h' | h'
  · rw [h'.1] at h
    exact hc (h ▸ hy)
  · have := congrArg Char.toNat h
    omega

/-- A field followed by what does not begin with a digit. -/
theorem match_field_stop {k : Char} {alts : List (List Cls)} {is : List FmtItem} {t s : Str} {g : List (Char × Str)}
    (ht : ∃ a ∈ alts, Fits a t) (hn : t ≠ []) (hd : ∀ c ∈ t, IsDigit c)
    (htail : ∀ a ∈ alts, ∀ c ∈ a.tail, ∀ y, c.test y = true → IsDigit y)
    (hs : ∃ x r, s = x :: r ∧ ¬ IsDigit x) (hm : matchItems is s = some (g, []))
    (hrej : ∀ y r, IsDigit y → matchItems is (y :: r) = none) : matchItems (.field k alts :: is) (t ++ s) = some ((k, t) :: g, []) := by
  rw [matchItems]
  obtain ⟨x, r, rfl, hx⟩ := hs
  apply findSome?_const
  · intro a ha
    cases hc : matchCls a (t ++ x :: r) with
    | none => exact .inl rfl
    | some p =>
      obtain ⟨m, q⟩ := p
      obtain ⟨h1, h2⟩ := matchCls_iff.1 hc
      simp only
      rcases List.append_eq_append_iff.1 h1 with ⟨u, hu1, hu2⟩ | ⟨u, hu1, hu2⟩
      · -- the alternative takes more
        cases u with
        | nil =>
          simp only [List.append_nil] at hu1
          simp only [List.nil_append] at hu2
          subst hu1 hu2
          right
          rw [hm]
          rfl
        | cons z u =>
          exfalso
          simp only [List.cons_append, List.cons.injEq] at hu2
          obtain ⟨rfl, -⟩ := hu2
          obtain ⟨b, hb, hf⟩ := ht
          cases t with
          | nil => exact absurd rfl hn
          | cons w t =>
            subst hu1
            cases a with
            | nil => have := h2.length; simp at this
            | cons c0 a =>
              rw [List.cons_append, fits_cons] at h2
              obtain ⟨c', t', he, -, hf'⟩ := h2
              simp only [List.cons.injEq] at he
              obtain ⟨rfl, rfl⟩ := he
              obtain ⟨c, hc1, hc2⟩ := hf'.mem (c := x) (by simp)
              exact hx (htail _ ha c hc1 x hc2)
      · cases u with
        | nil =>
          simp only [List.append_nil] at hu1
          simp only [List.nil_append] at hu2
          subst hu1 hu2
          right
          rw [hm]
          rfl
        | cons z u =>
          left
          subst hu2
          rw [List.cons_append, hrej z _ (hd z (by rw [hu1]; simp))]
          rfl
  · obtain ⟨a, ha, hf⟩ := ht
    refine ⟨a, ha, ?_⟩
    rw [matchCls_iff.2 ⟨rfl, hf⟩]
    simp only
    rw [hm]
    rfl

/-- The separators in front of `w`. -/
theorem match_seps {w wc : Str} {is : List FmtItem} {g : List (Char × Str)} (hw : ∀ sp, compileFmt sp w = some is)
    (hwc : ∀ x r, wc = x :: r → isSpace x = false) (hm : matchItems is wc = some (g, [])) : ∀ (pre : Str) (sp : Bool), (∀ c ∈ pre, SepChar c) →
    ∃ js, compileFmt sp (pre ++ w) = some js ∧ fieldNames js = fieldNames is ∧ (.foreign ∈ js → .foreign ∈ is) ∧
      matchItems js ((if sp then pre.dropWhile isSpace else pre) ++ wc) = some (g, []) ∧
      (pre ≠ [] → sp = false → ∀ y r, IsDigit y → matchItems js (y :: r) = none)
  | [], sp, _ => ⟨is, hw sp, rfl, id, by cases sp <;> simpa using hm, fun h => absurd rfl h⟩
  | c :: pre, sp, h => by
    have hc := h c (by simp)
    obtain ⟨-, -, -, -, -, hp, -⟩ := sepChar_ne hc
    have hpre : ∀ c ∈ pre, SepChar c := fun c' hc' => h c' (List.mem_cons_of_mem _ hc')
    by_cases hs : isSpace c = true
    · obtain ⟨js, h1, h2, h3, h4, -⟩ := match_seps hw hwc hm pre true hpre
      rw [if_pos rfl] at h4
      cases sp with
      | true =>
        refine ⟨js, ?_, h2, h3, ?_, by simp⟩
        · rw [List.cons_append, compileFmt.eq_def]
          simp [hp, hs, h1]
        · simpa [List.dropWhile_cons, hs] using h4
      | false =>
        refine ⟨.spaces :: js, ?_, h2, fun hf => h3 (by simpa using hf), ?_, ?_⟩
        · rw [List.cons_append, compileFmt.eq_def]
          simp [hp, hs, h1]
        · rw [if_neg (by simp), matchItems]
          have ht : ((c :: pre) ++ wc).takeWhile isSpace = c :: pre.takeWhile isSpace := by
            rw [List.cons_append, List.takeWhile_cons, if_pos hs]
            congr 1
            have e : ∀ p : Str, (p ++ wc).takeWhile isSpace = p.takeWhile isSpace := by
              intro p
              induction p with
              | nil =>
                cases wc with
                | nil => rfl
                | cons x r => simp [List.takeWhile_cons, hwc x r rfl]
              | cons a p ih => rw [List.cons_append, List.takeWhile_cons, List.takeWhile_cons, ih]
            exact e pre
          rw [ht, List.length_cons, List.range_succ, List.reverse_append, List.reverse_singleton, List.singleton_append, List.findSome?_cons]
          have hd : ((c :: pre) ++ wc).drop ((pre.takeWhile isSpace).length + 1) = pre.dropWhile isSpace ++ wc := by
            rw [List.cons_append, List.drop_succ_cons]
            conv => lhs; rw [← List.takeWhile_append_dropWhile (p := isSpace) (l := pre), List.append_assoc]
            rw [List.takeWhile_append_dropWhile, List.drop_left]
          rw [hd, h4]
        · intro _ _ y r hy
          rw [matchItems]
          simp [List.takeWhile_cons, isDigit_not_space hy]
    · obtain ⟨js, h1, h2, h3, h4, -⟩ := match_seps hw hwc hm pre false hpre
      rw [if_neg (by simp)] at h4
      refine ⟨.lit c :: js, ?_, h2, fun hf => h3 (by simpa using hf), ?_, ?_⟩
      · rw [List.cons_append, compileFmt.eq_def]
        simp [hp, hs, h1]
      · have : (if sp then (c :: pre).dropWhile isSpace else c :: pre) = c :: pre := by
          cases sp <;> simp [List.dropWhile_cons, hs]
        rw [this, List.cons_append, matchItems]
        simp [litEq_self, h4]
      · intro _ _ y r hy
        rw [matchItems]
        simp [litEq_digit hc.1 hy]

/-- The text of a part is one of the alternatives of its directive. -/
theorem tok_fits {v : TimeTok → Str} {l : List (TimeTok × Str)} (hv : TimeNumbers v l) {t : TimeTok} (ht : t ∈ l.map Prod.fst) :
    (∃ a ∈ altsOf t.letter, Fits a (v t)) ∧ v t ≠ [] ∧ (∀ c ∈ v t, c ∈ py!"0123456789") := by
  have ne : ∀ {s : Str} {n m : Nat}, Digits s (n + 1) m → s ≠ [] := fun h e => by
    have := h.1
    rw [e] at this
    simp at this
  obtain ⟨e1, e2, e3, e4, e5, e6, e7⟩ := hv.exist
  cases t with
  | dd =>
    have hd := hv.digits .dd ht (by decide)
    have ed : (timeOf v l).day = number (v .dd) := by simp [timeOf, partOr, ht]
    refine ⟨day_iff.2 ⟨.inl hd, by omega, ?_⟩, ne hd, hd.2.2⟩
    have : monthLength (timeOf v l).year (timeOf v l).month ≤ 31 := by rw [← monthLength_all]; exact daysInMonth_le _ _
    omega
  | MM =>
    have hd := hv.digits .MM ht (by decide)
    have ed : (timeOf v l).month = number (v .MM) := by simp [timeOf, partOr, ht]
    exact ⟨month_iff.2 ⟨hd, by omega, by omega⟩, ne hd, hd.2.2⟩
  | yyyy =>
    have hd := hv.year
    exact ⟨year_iff.2 ⟨by have := hd.1; have := hd.2.1; omega, fun c hc => hd.isDigit hc⟩, ne hd, hd.2.2⟩
  | HH =>
    have hd := hv.digits .HH ht (by decide)
    have ed : (timeOf v l).hour = number (v .HH) := by simp [timeOf, partOr, ht]
    exact ⟨hour_iff.2 ⟨.inl hd, by omega⟩, ne hd, hd.2.2⟩
  | mm =>
    have hd := hv.digits .mm ht (by decide)
    have ed : (timeOf v l).minute = number (v .mm) := by simp [timeOf, partOr, ht]
    exact ⟨minute_iff.2 ⟨.inl hd, by omega⟩, ne hd, hd.2.2⟩

theorem tok_alts (t : TimeTok) : fieldAlts t.letter = some (altsOf t.letter) ∧ t.letter ≠ '%' ∧ stage 5 t = ['%', t.letter] := by
  cases t <;> exact ⟨rfl, by decide, rfl⟩

theorem tok_tail (t : TimeTok) : ∀ a ∈ altsOf t.letter, ∀ c ∈ a.tail, ∀ y, c.test y = true → IsDigit y := by
  have key : ∀ a ∈ altsOf t.letter, ∀ c ∈ a.tail, c = .digit ∨ ∃ p ∈ [(48, 49), (48, 50), (48, 51), (49, 57)], c = .range p.1 p.2 := by
    cases t <;> decide
  intro a ha c hc y hy
  rcases key a ha c hc with rfl | ⟨p, hp, rfl⟩
  · exact hy
  · have := test_range.1 hy
    apply isDigit_ascii
    simp only [List.mem_cons, List.not_mem_nil, or_false] at hp
    rcases hp with rfl | rfl | rfl | rfl <;> simp only at this <;> omega

/-- A part at the end. -/
theorem tok_end {v : TimeTok → Str} {l : List (TimeTok × Str)} (hv : TimeNumbers v l) {t : TimeTok} (ht : t ∈ l.map Prod.fst) :
    matchItems [.field t.letter (altsOf t.letter)] (v t) = some ([(t.letter, v t)], []) := by
  obtain ⟨hf, hne, hd⟩ := tok_fits hv ht
  by_cases hdd : t = .dd
  · subst hdd
    have e : altsOf TimeTok.dd.letter = [[.range 51 51, .range 48 49], [.range 49 50, .digit], [.range 48 48, .range 49 57], [.range 49 57]] ++
      [[.range 32 32, .range 49 57]] := rfl
    rw [e] at hf ⊢
    have hf' : ∃ a ∈ [[Cls.range 51 51, .range 48 49], [.range 49 50, .digit], [.range 48 48, .range 49 57], [.range 49 57]], Fits a (v .dd) := by
      obtain ⟨a, ha, hf⟩ := hf
      rcases List.mem_append.1 ha with ha | ha
      · exact ⟨a, ha, hf⟩
      · rw [List.mem_singleton.1 ha] at hf
        obtain ⟨x, y, hxy, hx, -⟩ := fits_two.1 hf
        have h1 := hd x (by rw [hxy]; simp)
        rw [digit_iff] at h1
        have h2 := test_range.1 hx
        omega
    have := match_field_end (k := TimeTok.dd.letter) hf' (by decide)
    rw [matchItems] at this ⊢
    rw [List.findSome?_append, this]
    rfl
  · exact match_field_end hf (by cases t <;> first | exact absurd rfl hdd | decide)

/-- The whole cell. -/
theorem match_cell {v : TimeTok → Str} {l₀ : List (TimeTok × Str)} (hv : TimeNumbers v l₀) : ∀ (l : List (TimeTok × Str)) (pre : Str),
    (∀ p ∈ l, p.1 ∈ l₀.map Prod.fst) → (∀ c ∈ pre, SepChar c) → (∀ p ∈ l, ∀ c ∈ p.2, SepChar c) → (∀ p ∈ l.dropLast, p.2 ≠ []) →
    ∃ js, compileFmt false (spelled (stage 5) pre l) = some js ∧ fieldNames js = l.map (fun p => p.1.letter) ∧ .foreign ∉ js ∧
      matchItems js (spelled v pre l) = some (l.map (fun p => (p.1.letter, v p.1)), []) ∧
      (pre ≠ [] → ∀ y r, IsDigit y → matchItems js (y :: r) = none) := by
  intro l
  induction l with
  | nil =>
    intro pre _ h1 _ _
    obtain ⟨js, g1, g2, g3, g4, g5⟩ := match_seps (w := []) (wc := []) (is := []) (g := []) (fun sp => by rw [compileFmt]) (by simp) (by rw [matchItems]) pre false h1
    refine ⟨js, by simpa [spelled] using g1, by simpa [fieldNames] using g2, fun hf => by simpa using g3 hf, by simpa [spelled] using g4, fun hp => g5 hp rfl⟩
  | cons p l ih =>
    intro pre hl h1 h2 h3
    have hp := h2 p (by simp)
    have hin := hl p (by simp)
    obtain ⟨hf, hne, hd⟩ := tok_fits hv hin
    obtain ⟨ha, hpc, hst⟩ := tok_alts p.1
    have hdig : ∀ c ∈ v p.1, IsDigit c := fun c hc => isDigit_ascii (digit_iff.1 (hd c hc))
    obtain ⟨js, g1, g2, g3, g4, g5⟩ := ih p.2 (fun q hq => hl q (List.mem_cons_of_mem _ hq)) hp (fun q hq => h2 q (List.mem_cons_of_mem _ hq)) (fun q hq => by
      cases l with
      | nil => simp at hq
      | cons q' l => exact h3 q (by rw [List.dropLast_cons_of_ne_nil (by simp)]; exact List.mem_cons_of_mem _ hq))
    have hm : matchItems (.field p.1.letter (altsOf p.1.letter) :: js) (v p.1 ++ spelled v p.2 l) =
        some ((p.1.letter, v p.1) :: l.map (fun p => (p.1.letter, v p.1)), []) := by
      by_cases hs : p.2 = []
      · have : l = [] := by
          by_contra hl'
          obtain ⟨q, l', rfl⟩ := List.exists_cons_of_ne_nil hl'
          exact h3 p (by rw [List.dropLast_cons_of_ne_nil (by simp)]; simp) hs
        subst this
        rw [hs] at g1 ⊢
        simp only [spelled, compileFmt, Option.some.injEq] at g1
        subst g1
        simpa [spelled] using tok_end hv hin
      · refine match_field_stop hf hne hdig (tok_tail p.1) ?_ g4 (g5 hs)
        obtain ⟨x, r, hx⟩ := List.exists_cons_of_ne_nil hs
        cases l with
        | nil => exact ⟨x, r, by rw [spelled, hx], (hp x (by rw [hx]; simp)).1⟩
        | cons q l => exact ⟨x, _, by rw [spelled, hx, List.cons_append], (hp x (by rw [hx]; simp)).1⟩
    obtain ⟨is, k1, k2, k3, k4, k5⟩ := match_seps (w := stage 5 p.1 ++ spelled (stage 5) p.2 l) (wc := v p.1 ++ spelled v p.2 l)
      (is := .field p.1.letter (altsOf p.1.letter) :: js) (g := (p.1.letter, v p.1) :: l.map (fun p => (p.1.letter, v p.1)))
      (fun sp => by
        rw [hst, List.cons_append, List.cons_append, List.nil_append, compileFmt]
        simp [hpc, ha, g1])
      (fun x r hx => by
        obtain ⟨y, t, hy⟩ := List.exists_cons_of_ne_nil hne
        rw [hy, List.cons_append, List.cons.injEq] at hx
        rw [← hx.1]
        exact isDigit_not_space (hdig y (by rw [hy]; simp))) hm pre false h1
    refine ⟨is, k1, by rw [k2, fieldNames, g2]; rfl, fun hf' => ?_, by simpa [spelled] using k4, fun hp' => k5 hp' rfl⟩
    have := k3 hf'
    simp only [List.mem_cons, reduceCtorEq, false_or] at this
    exact g3 this

theorem letter_inj {s t : TimeTok} (h : s.letter = t.letter) : s = t := by
  cases s <;> cases t <;> first | rfl | exact absurd h (by decide)

theorem lookup_groups (v : TimeTok → Str) (t : TimeTok) : ∀ l : List (TimeTok × Str),
    (l.map (fun p => (p.1.letter, v p.1))).lookup t.letter = if t ∈ l.map Prod.fst then some (v t) else none
  | [] => rfl
  | p :: l => by
    rw [List.map_cons, List.lookup_cons]
    by_cases h : t = p.1
    · subst h; simp
    · have : (t.letter == p.1.letter) = false := by simpa using fun e => h (letter_inj e)
      have ih := lookup_groups v t l
      rw [this]
      show (l.map (fun p => (p.1.letter, v p.1))).lookup t.letter = _
      rw [ih]
      have : t ∈ (p :: l).map Prod.fst ↔ t ∈ l.map Prod.fst := by simp only [List.map_cons, List.mem_cons, h, false_or]
      simp only [this]

theorem lookup_other (v : TimeTok → Str) {k : Char} (hk : k = 'S' ∨ k = 'f') : ∀ l : List (TimeTok × Str),
    (l.map (fun p => (p.1.letter, v p.1))).lookup k = none
  | [] => rfl
  | p :: l => by
    rw [List.map_cons, List.lookup_cons]
    have : (k == p.1.letter) = false := by
      rcases hk with rfl | rfl <;> cases p.1 <;> rfl
    rw [this]
    exact lookup_other v hk l

/-- `strptime` with the format of a time column. -/
theorem strptime_cell {ext : Str → Str → Except PyErr DateTime} {v : TimeTok → Str} {pre : Str} {l : List (TimeTok × Str)} (hn : TimeName pre l)
    (hv : TimeNumbers v l) : strptimeFmt ext (spelled (stage 5) pre l) (spelled v pre l) = .ok (timeOf v l) := by
  obtain ⟨js, g1, g2, g3, g4, -⟩ := match_cell hv l pre (fun p hp => List.mem_map_of_mem hp) hn.seps hn.between hn.apart
  have hnd : (fieldNames js).Nodup := by
    have : l.map (fun p => p.1.letter) = (l.map Prod.fst).map TimeTok.letter := by simp
    rw [g2, this]
    exact hn.once.map (fun _ _ => letter_inj)
  have hnum : ∀ (t : TimeTok) (d : Nat), groupNum (l.map (fun p => (p.1.letter, v p.1))) t.letter d = some (partOr v l t d) := by
    intro t d
    unfold groupNum partOr
    rw [lookup_groups]
    by_cases ht : t ∈ l.map Prod.fst
    · obtain ⟨-, hne, hd⟩ := tok_fits hv ht
      rw [if_pos ht, if_pos ht]
      simp only
      rw [pyInt_isDigit hne (fun c hc => isDigit_ascii (digit_iff.1 (hd c hc)))]
      simp
    · rw [if_neg ht, if_neg ht]
  have hdate : groupsDate (l.map (fun p => (p.1.letter, v p.1))) = some (timeOf v l) := by
    unfold groupsDate
    have hS : groupNum (l.map (fun p => (p.1.letter, v p.1))) 'S' 0 = some 0 := by unfold groupNum; rw [lookup_other v (.inl rfl)]
    have hf : groupMicro (l.map (fun p => (p.1.letter, v p.1))) = some 0 := by unfold groupMicro; rw [lookup_other v (.inr rfl)]
    have hY : partOr v l .yyyy 1900 = number (v .yyyy) := by simp [partOr, hn.year]
    have e1 := hnum .yyyy 1900
    have e2 := hnum .MM 1
    have e3 := hnum .dd 1
    have e4 := hnum .HH 0
    have e5 := hnum .mm 0
    simp only [TimeTok.letter] at e1 e2 e3 e4 e5 hS hf ⊢
    rw [e1, e2, e3, e4, e5, hS, hf, hY]
    simp only [Option.bind_eq_bind, Option.bind_some]
    obtain ⟨x1, x2, x3, x4, x5, x6, x7⟩ := hv.exist
    have hy : (timeOf v l).year ≤ 9999 := by
      have h := number_lt (v .yyyy)
      have h' := hv.year.2.1
      have : 10 ^ (v .yyyy).length ≤ 10 ^ 4 := Nat.pow_le_pow_right (by omega) h'
      have : number (v .yyyy) < 10000 := by omega
      simp only [timeOf]
      omega
    rw [← monthLength_all] at x5
    have hval : (timeOf v l).valid = true := by
      simp only [DateTime.valid, Bool.and_eq_true, decide_eq_true_eq]
      refine ⟨⟨⟨⟨⟨⟨⟨⟨⟨⟨x1, hy⟩, x2⟩, x3⟩, x4⟩, x5⟩, x6⟩, x7⟩, ?_⟩, ?_⟩, ?_⟩ <;> simp [timeOf]
    rw [if_pos (by simpa [timeOf] using hval)]
    rfl
  unfold strptimeFmt
  rw [g1]
  simp only [if_neg g3, hnd, not_true_eq_false, if_false]
  rw [g4]
  simp only [hdate]

/-! ## Header and lines -/

theorem isSub_infix {sub : Str} : ∀ {s : Str}, isSub sub s = true ↔ sub <:+: s
  | [] => by
    rw [isSub, List.isPrefixOf_iff_prefix]
    simp
  | x :: s => by
    rw [isSub, Bool.or_eq_true, isSub_infix, List.isPrefixOf_iff_prefix, List.infix_cons_iff]

theorem prefix_lineEnd {old s : Str} (h : '\n' ∉ old) : old.isPrefixOf (s ++ py!"\n") = old.isPrefixOf s := by
  rw [Bool.eq_iff_iff, List.isPrefixOf_iff_prefix, List.isPrefixOf_iff_prefix]
  constructor
  · rintro ⟨r, hr⟩
    rcases List.append_eq_append_iff.1 hr with ⟨u, h1, -⟩ | ⟨u, h1, h2⟩
    · exact ⟨u, h1.symm⟩
    · cases u with
      | nil => exact ⟨[], by simpa using h1⟩
      | cons x u =>
        simp only [List.cons_append, List.cons.injEq] at h2
        exact absurd (by rw [h1, ← h2.1]; simp) h
  · rintro ⟨r, rfl⟩
    exact ⟨r ++ py!"\n", by simp⟩

theorem replaceGo_lineEnd {old new : Str} (h : '\n' ∉ old) (ho : old ≠ []) : ∀ (s : Str) (n : Nat), n ≤ s.length →
    replaceGo old new n (s ++ py!"\n") = replaceGo old new n s ++ py!"\n"
  | [], n, hn => by
    obtain rfl : n = 0 := by simpa using hn
    obtain ⟨o, os, rfl⟩ := List.exists_cons_of_ne_nil ho
    have ho' : o ≠ '\n' := fun e => h (by simp [e])
    simp [replaceGo, List.isPrefixOf, ho']
  | x :: s, n + 1, hn => by
    rw [List.cons_append, replaceGo, replaceGo]
    exact replaceGo_lineEnd h ho s n (by simpa using hn)
  | x :: s, 0, _ => by
    have hp := prefix_lineEnd (s := x :: s) h
    rw [List.cons_append] at hp
    rw [List.cons_append, replaceGo, replaceGo, hp]
    by_cases hc : old.isPrefixOf (x :: s) = true
    · rw [if_pos hc, if_pos hc, replaceGo_lineEnd h ho s _ ?_, List.append_assoc]
      have := (List.isPrefixOf_iff_prefix.1 hc).length_le
      simp only [List.length_cons] at this
      omega
    · rw [if_neg hc, if_neg hc, replaceGo_lineEnd h ho s 0 (by omega)]
      rfl

theorem replaceAll_lineEnd {old new : Str} (h : '\n' ∉ old) (ho : old ≠ []) (s : Str) :
    replaceAll old new (s ++ py!"\n") = replaceAll old new s ++ py!"\n" := replaceGo_lineEnd h ho s 0 (by omega)

theorem stripLineEnds_lineEnd (s : Str) : stripLineEnds (s ++ py!"\n") = stripLineEnds s := by
  unfold stripLineEnds
  rw [List.dropWhile_append]
  cases h : s.dropWhile (fun c => decide (c = '\n')) with
  | nil => simp
  | cons x t => simp

theorem stripLineEnds_clean {s : Str} (h : '\n' ∉ s) : stripLineEnds s = s := by
  have e : ∀ t : Str, '\n' ∉ t → t.dropWhile (fun c => decide (c = '\n')) = t := by
    intro t ht
    cases t with
    | nil => rfl
    | cons x t =>
      rw [List.dropWhile_cons, if_neg]
      simpa using fun e => ht (by simp [e])
  unfold stripLineEnds
  rw [e s h, e _ (by simpa using h), List.reverse_reverse]

/-- The line end behind the last name of the header makes no difference. -/
theorem columnType_lineEnd (cell : Str) : columnType (cell ++ py!"\n") = columnType cell := by
  have hs : isSub py!"yyyy" (cell ++ py!"\n") = isSub py!"yyyy" cell := by
    rw [Bool.eq_iff_iff, isSub_infix, isSub_infix]
    constructor
    · rintro ⟨a, b, hab⟩
      have hr := congrArg List.reverse hab
      simp only [List.reverse_append] at hr
      cases hb : b.reverse with
      | nil =>
        rw [hb] at hr
        exact absurd (List.cons.inj hr).1 (by decide)
      | cons x t =>
        rw [hb, List.cons_append] at hr
        have := (List.cons.inj hr).2
        refine ⟨a, t.reverse, ?_⟩
        have := congrArg List.reverse this
        simpa using this
    · rintro ⟨a, b, rfl⟩
      exact ⟨a, b ++ py!"\n", by simp⟩
  unfold columnType
  rw [hs]
  split
  · rw [replaceAll_lineEnd (by decide) (by decide), replaceAll_lineEnd (by decide) (by decide), replaceAll_lineEnd (by decide) (by decide),
      replaceAll_lineEnd (by decide) (by decide), replaceAll_lineEnd (by decide) (by decide), stripLineEnds_lineEnd]
  · exact stripLineEnds_lineEnd cell

theorem spelled_infix (f : TimeTok → Str) {t : TimeTok} : ∀ (l : List (TimeTok × Str)) (pre : Str), t ∈ l.map Prod.fst → f t <:+: spelled f pre l
  | [], pre, h => by simp at h
  | p :: l, pre, h => by
    rw [spelled]
    rcases List.mem_cons.1 h with rfl | h
    · exact ⟨pre, spelled f p.2 l, by simp⟩
    · obtain ⟨a, b, hab⟩ := spelled_infix f l p.2 h
      exact ⟨pre ++ f p.1 ++ a, b, by rw [← hab]; simp⟩

theorem spelled_mem (f : TimeTok → Str) {c : Char} : ∀ (l : List (TimeTok × Str)) (pre : Str), c ∈ spelled f pre l →
    c ∈ pre ∨ (∃ p ∈ l, c ∈ p.2) ∨ ∃ t, c ∈ f t
  | [], pre, h => .inl h
  | p :: l, pre, h => by
    rw [spelled, List.mem_append, List.mem_append] at h
    rcases h with h | h | h
    · exact .inl h
    · exact .inr (.inr ⟨_, h⟩)
    · rcases spelled_mem f l p.2 h with h | ⟨q, hq, h⟩ | h
      · exact .inr (.inl ⟨p, by simp, h⟩)
      · exact .inr (.inl ⟨q, List.mem_cons_of_mem _ hq, h⟩)
      · exact .inr (.inr h)

theorem columnType_time {pre : Str} {l : List (TimeTok × Str)} (h : TimeName pre l) :
    columnType (spelled TimeTok.text pre l) = spelled (stage 5) pre l := by
  unfold columnType
  have hy : isSub py!"yyyy" (spelled TimeTok.text pre l) = true := isSub_infix.2 (spelled_infix TimeTok.text l pre h.year)
  rw [if_pos hy, columnType_format h, stripLineEnds_clean]
  intro hm
  rcases spelled_mem _ l pre hm with hm | ⟨p, hp, hm⟩ | ⟨t, ht⟩
  · exact (sepChar_ne (h.seps _ hm)).2.2.2.2.2.2.2 rfl
  · exact (sepChar_ne (h.between p hp _ hm)).2.2.2.2.2.2.2 rfl
  · cases t <;> exact absurd ht (by decide)

theorem columnType_plain {name : Str} (h : ¬ py!"yyyy" <:+: name) (hn : '\n' ∉ name) : columnType name = name := by
  unfold columnType
  rw [if_neg (fun h' => h (isSub_infix.1 h')), stripLineEnds_clean hn]

theorem readLine_line : ∀ {a : Str}, '\n' ∉ a → ∀ r, readLine (a ++ (py!"\n" ++ r)) = (a ++ py!"\n", r)
  | [], _, r => by simp [readLine]
  | x :: a, h, r => by
    have hx : x ≠ '\n' := fun e => h (by simp [e])
    rw [List.cons_append, readLine, if_neg hx, readLine_line (fun hm => h (List.mem_cons_of_mem _ hm)) r]
    rfl

theorem readLines_line : ∀ {a : Str}, '\n' ∉ a → ∀ r, readLines (a ++ (py!"\n" ++ r)) = (a ++ py!"\n") :: readLines r
  | [], _, r => by simp [readLines]
  | x :: a, h, r => by
    have hx : x ≠ '\n' := fun e => h (by simp [e])
    rw [List.cons_append, readLines, if_neg hx, readLines_line (fun hm => h (List.mem_cons_of_mem _ hm)) r]
    rfl

/-- Cells that can be written: no semicolon and no line end. -/
def CleanRow (cells : List Str) : Prop := ∀ c ∈ cells, ';' ∉ c ∧ '\n' ∉ c

theorem intercalate_clean : ∀ {cells : List Str}, CleanRow cells → '\n' ∉ (py!";").intercalate cells
  | [], _ => by simp [List.intercalate]
  | [c], h => by simpa [List.intercalate] using (h c (by simp)).2
  | c :: d :: cells, h => by
    have ih := intercalate_clean (cells := d :: cells) (fun x hx => h x (List.mem_cons_of_mem _ hx))
    have e : (py!";").intercalate (c :: d :: cells) = c ++ (py!";" ++ (py!";").intercalate (d :: cells)) := by simp [List.intercalate]
    rw [e]
    simp only [List.mem_append, not_or]
    exact ⟨(h c (by simp)).2, by decide, ih⟩

/-- The cells that the script gets for a row. -/
def withLineEnd : List Str → List Str
  | [] => [py!"\n"]
  | [c] => [c ++ py!"\n"]
  | c :: d :: cells => c :: withLineEnd (d :: cells)

theorem withLineEnd_snoc : ∀ (cells : List Str) (x : Str), withLineEnd (cells ++ [x]) = cells ++ [x ++ py!"\n"]
  | [], x => rfl
  | [c], x => rfl
  | c :: d :: cells, x => by
    have := withLineEnd_snoc (d :: cells) x
    simp only [List.cons_append] at this ⊢
    rw [withLineEnd, this]

theorem split_row {cells : List Str} (h : CleanRow cells) (hne : cells ≠ []) : splitChar ';' (rowText cells) = withLineEnd cells := by
  obtain ⟨front, x, rfl⟩ : ∃ front x, cells = front ++ [x] := ⟨_, _, (List.dropLast_append_getLast hne).symm⟩
  rw [split_rowText front x (fun c hc => (h c (by simp [hc])).1) (h x (by simp)).1, withLineEnd_snoc]

theorem map_columnType_withLineEnd : ∀ {cells : List Str}, cells ≠ [] → (withLineEnd cells).map columnType = cells.map columnType
  | [], h => absurd rfl h
  | [c], _ => by simp [withLineEnd, columnType_lineEnd c]
  | c :: d :: cells, _ => by
    have := map_columnType_withLineEnd (cells := d :: cells) (by simp)
    rw [withLineEnd, List.map_cons, this]
    rfl

theorem withLineEnd_drop (a b : Str) {cells : List Str} (h : cells ≠ []) : withLineEnd (a :: b :: cells) = a :: b :: withLineEnd cells := by
  obtain ⟨c, cs, rfl⟩ := List.exists_cons_of_ne_nil h
  rfl

/-! ## C132 -/

section
variable {F : Type} [PyFloat F]

/-- What a cell says that is not in the last column: `name` is the name of the column in the header. -/
inductive CellSays (name cell : Str) : Attr F → Prop
  | text : name = py!"Activity" ∨ name = py!"Resource" → CellSays name cell (.mk .literal name none (.str cell) [] [])
  | number {n : Int} : name ≠ py!"Activity" → name ≠ py!"Resource" → ¬ py!"yyyy" <:+: name → ¬ py!"%Y" <:+: name → IntText cell n →
      CellSays name cell (.mk .discrete name none (.int n) [] [])
  | time {pre : Str} {l : List (TimeTok × Str)} {v : TimeTok → Str} : TimeName pre l → TimeNumbers v l → name = spelled TimeTok.text pre l →
      cell = spelled v pre l → CellSays name cell (.mk .timestamp py!"time" none (.dt (timeOf v l)) [] [])

/-- What a cell of the last column says: texts have the line end with them. -/
inductive LastSays (name cell : Str) : Attr F → Prop
  | text : name = py!"Activity" ∨ name = py!"Resource" → LastSays name cell (.mk .literal name none (.str (cell ++ py!"\n")) [] [])
  | number {n : Int} : name ≠ py!"Activity" → name ≠ py!"Resource" → ¬ py!"yyyy" <:+: name → ¬ py!"%Y" <:+: name → IntText cell n →
      LastSays name cell (.mk .discrete name none (.int n) [] [])

/-- What the cells from the third column on say. -/
inductive RowSays : List Str → List Str → List (Attr F) → Prop
  | last {name cell : Str} {a : Attr F} : LastSays name cell a → RowSays [name] [cell] [a]
  | cons {name cell : Str} {a : Attr F} {names cells : List Str} {as : List (Attr F)} : CellSays name cell a → RowSays names cells as →
      RowSays (name :: names) (cell :: cells) (a :: as)

/-- A row of the file: the case, an identifier that is not used, the other cells, and what they say. -/
structure CsvRow (F : Type) where
  case : Str
  id : Str
  cells : List Str
  attrs : List (Attr F)

/-- The cells of a row. -/
def CsvRow.all (r : CsvRow F) : List Str := r.case :: r.id :: r.cells

/-- The attributes of its event. -/
def CsvRow.map (r : CsvRow F) : AttrMap F := r.attrs.map fun a => (a.key, a)

variable {ext : Str → Str → Except PyErr DateTime}

theorem csvAttr_number {strptime : Str → Str → Except PyErr DateTime} {name cell : Str} {n : Int} (h1 : name ≠ py!"Activity") (h2 : name ≠ py!"Resource")
    (h3 : ¬ py!"yyyy" <:+: name) (h4 : ¬ py!"%Y" <:+: name) (hn : '\n' ∉ name) (h : pyInt cell = some n) :
    csvAttr (F := F) strptime (columnType name) cell = .ok (.mk .discrete name none (.int n) [] []) := by
  have hs : ¬ isSub py!"%Y" name = true := fun h' => h4 (isSub_infix.1 h')
  rw [columnType_plain h3 hn, csvAttr, if_neg (by simp only [h1, h2, or_self, not_false_eq_true]), if_neg hs, h]

theorem csvAttr_text {strptime : Str → Str → Except PyErr DateTime} {name cell : Str} (h : name = py!"Activity" ∨ name = py!"Resource") :
    csvAttr (F := F) strptime (columnType name) cell = .ok (.mk .literal name none (.str cell) [] []) := by
  have e : columnType name = name := by rcases h with rfl | rfl <;> decide
  rw [e, csvAttr, if_pos h]

theorem time_type {pre : Str} {l : List (TimeTok × Str)} (hn : TimeName pre l) : py!"%Y" <:+: spelled (stage 5) pre l := spelled_infix (stage 5) l pre hn.year

theorem csvAttr_time {strptime : Str → Str → Except PyErr DateTime} {pre : Str} {l : List (TimeTok × Str)} (hn : TimeName pre l) (cell : Str) :
    csvAttr (F := F) strptime (columnType (spelled TimeTok.text pre l)) cell =
      (do .ok (.mk .timestamp py!"time" none (.dt (← strptime cell (spelled (stage 5) pre l))) [] [])) := by
  have hne : ∀ s : Str, '%' ∉ s → spelled (stage 5) pre l ≠ s := fun s hs e => by
    obtain ⟨a, b, hab⟩ := time_type hn
    rw [e] at hab
    exact hs (by rw [← hab]; simp)
  rw [columnType_time hn, csvAttr, if_neg (by simp [hne]), if_pos (isSub_infix.2 (time_type hn))]

theorem cellSays_csvAttr {name cell : Str} {a : Attr F} (hn : '\n' ∉ name) (h : CellSays name cell a) :
    csvAttr (fun c f => strptimeFmt ext f c) (columnType name) cell = .ok a := by
  cases h with
  | text h => exact csvAttr_text h
  | number h1 h2 h3 h4 h => exact csvAttr_number h1 h2 h3 h4 hn (pyInt_iff.2 h)
  | time h1 h2 h3 h4 =>
    subst h3 h4
    rw [csvAttr_time h1, strptime_cell h1 h2]
    rfl

theorem lastSays_csvAttr {name cell : Str} {a : Attr F} (hn : '\n' ∉ name) (h : LastSays name cell a) :
    csvAttr (fun c f => strptimeFmt ext f c) (columnType name) (cell ++ py!"\n") = .ok a := by
  cases h with
  | text h => exact csvAttr_text h
  | number h1 h2 h3 h4 h => exact csvAttr_number h1 h2 h3 h4 hn (by rw [pyInt_lineEnd]; exact pyInt_iff.2 h)

theorem rowSays_ne {names cells : List Str} {as : List (Attr F)} (h : RowSays names cells as) : names ≠ [] ∧ cells ≠ [] := by
  cases h <;> simp

theorem rowSays_csvAttrs {names cells : List Str} {as : List (Attr F)} (h : RowSays names cells as) : (∀ n ∈ names, '\n' ∉ n) → ∀ m : AttrMap F,
    (dkeys m ++ as.map Attr.key).Nodup →
    csvAttrs (fun c f => strptimeFmt ext f c) m (names.map columnType) (withLineEnd cells) = .ok (m ++ as.map fun a => (a.key, a)) := by
  have fresh : ∀ {m : AttrMap F} {a : Attr F} {as : List (Attr F)}, (dkeys m ++ (a :: as).map Attr.key).Nodup → a.key ∉ dkeys m := fun hnd hm =>
    (List.nodup_append.1 hnd).2.2 _ hm _ (by simp) rfl
  induction h with
  | last h =>
    intro hn m hnd
    simp only [withLineEnd, List.map_cons, List.map_nil, csvAttrs]
    rw [lastSays_csvAttr (hn _ (by simp)) h]
    simp only [bind, Except.bind]
    rw [dset_eq_append _ (fresh hnd)]
  | @cons name cell a names cells as hc hr ih =>
    intro hn m hnd
    obtain ⟨d, cs, hcs⟩ := List.exists_cons_of_ne_nil (rowSays_ne hr).2
    have e : withLineEnd (cell :: cells) = cell :: withLineEnd cells := by rw [hcs]; rfl
    rw [e, List.map_cons, csvAttrs, cellSays_csvAttr (hn _ (by simp)) hc]
    simp only [bind, Except.bind]
    rw [dset_eq_append _ (fresh hnd), ih (fun n hn' => hn n (List.mem_cons_of_mem _ hn'))]
    · simp
    · have : dkeys (m ++ [(a.key, a)]) = dkeys m ++ [a.key] := by simp [dkeys]
      rw [this]
      simpa using hnd

/-- The rows of the file say what they should. -/
structure CsvFile (h0 h1 : Str) (names : List Str) (rows : List (CsvRow F)) : Prop where
  header : CleanRow (h0 :: h1 :: names)
  clean : ∀ r ∈ rows, CleanRow r.all
  meaning : ∀ r ∈ rows, RowSays names r.cells r.attrs
  keys : ∀ r ∈ rows, (r.attrs.map Attr.key).Nodup

theorem convertLine_row {h0 h1 : Str} {names : List Str} {rows : List (CsvRow F)} (h : CsvFile h0 h1 names rows) {r : CsvRow F} (hr : r ∈ rows) :
    convertLine (fun c f => strptimeFmt ext f c) ((h0 :: h1 :: names).map columnType) (splitChar ';' (rowText r.all)) = .ok r.map ∧
      (splitChar ';' (rowText r.all)).headD [] = r.case := by
  have hs := h.meaning r hr
  rw [split_row (h.clean r hr) (by simp [CsvRow.all]), CsvRow.all, withLineEnd_drop _ _ (rowSays_ne hs).2]
  refine ⟨?_, rfl⟩
  unfold convertLine
  simp only [List.map_cons, List.drop_succ_cons, List.drop_zero]
  rw [rowSays_csvAttrs hs (fun n hn => (h.header n (by simp [hn])).2) [] (by simpa [dkeys] using h.keys r hr)]
  rfl

theorem readLine_row {cells : List Str} (h : CleanRow cells) (r : Str) : readLine (rowText cells ++ r) = (rowText cells, r) := by
  unfold rowText
  rw [List.append_assoc]
  exact readLine_line (intercalate_clean h) r

theorem readLines_rows : ∀ {rows : List (List Str)}, (∀ r ∈ rows, CleanRow r) → readLines (rows.map rowText).flatten = rows.map rowText
  | [], _ => rfl
  | r :: rows, h => by
    rw [List.map_cons, List.flatten_cons]
    conv => lhs; unfold rowText
    rw [List.append_assoc, readLines_line (intercalate_clean (h r (by simp)))]
    have := readLines_rows (rows := rows) (fun x hx => h x (List.mem_cons_of_mem _ hx))
    rw [← rowText]
    congr 1

theorem convertRows_rows {h0 h1 : Str} {names : List Str} {all : List (CsvRow F)} (h : CsvFile h0 h1 names all) : ∀ {rows : List (CsvRow F)}, (∀ r ∈ rows, r ∈ all) →
    convertRows (fun c f => strptimeFmt ext f c) ((h0 :: h1 :: names).map columnType) ((rows.map CsvRow.all).map rowText) = .ok (rows.map fun r => (r.case, r.map))
  | [], _ => rfl
  | r :: rows, hr => by
    obtain ⟨e1, e2⟩ := convertLine_row (ext := ext) h (hr r (by simp))
    show convertRows _ _ (rowText r.all :: (rows.map CsvRow.all).map rowText) = _
    rw [convertRows, e1, convertRows_rows h (fun x hx => hr x (List.mem_cons_of_mem _ hx)), e2]
    rfl

theorem csvScript_rows {h0 h1 : Str} {names : List Str} {rows : List (CsvRow F)} (h : CsvFile h0 h1 names rows) (hne : rows ≠ []) :
    csvScript (fun c f => strptimeFmt ext f c) (fileText (h0 :: h1 :: names) (rows.map CsvRow.all)) = .ok (csvTraces (rows.map fun r => (r.case, r.map))) := by
  obtain ⟨r, rows, rfl⟩ := List.exists_cons_of_ne_nil hne
  unfold csvScript fileText
  rw [List.map_cons, List.map_cons, List.map_cons, List.flatten_cons, List.flatten_cons, readLine_row h.header]
  simp only
  rw [readLine_row (h.clean r (by simp))]
  simp only
  rw [split_row h.header (by simp), map_columnType_withLineEnd (by simp), readLines_rows (by
    intro x hx
    obtain ⟨q, hq, rfl⟩ := List.mem_map.1 hx
    exact h.clean q (List.mem_cons_of_mem _ hq))]
  obtain ⟨e1, e2⟩ := convertLine_row (ext := ext) h (r := r) (by simp)
  rw [e1, convertRows_rows h (fun x hx => List.mem_cons_of_mem _ hx), e2]
  rfl

/-- **C132**: the events of the log have the texts, numbers and times of the cells.  (The rows are cut into traces before every row
whose case is not that of the first, and the last trace is missing: C96.) -/
theorem c132_file {h0 h1 : Str} {names : List Str} {r : CsvRow F} {rows : List (CsvRow F)} (h : CsvFile h0 h1 names (r :: rows)) :
    ∃ b blocks, csvScript (fun c f => strptimeFmt ext f c) (fileText (h0 :: h1 :: names) ((r :: rows).map CsvRow.all)) =
        .ok ((b :: blocks).dropLast.map (List.map CsvRow.map)) ∧
      (b :: blocks).flatten = r :: rows ∧ (∃ t, b = r :: t ∧ ∀ y ∈ t, y.case = r.case) ∧
      (∀ x ∈ blocks, ∃ q t, x = q :: t ∧ q.case ≠ r.case ∧ ∀ y ∈ t, y.case = r.case) := by
  have key : ∀ (rows b : List (CsvRow F)),
      ∃ (c : List (CsvRow F)) (blocks : List (List (CsvRow F))), csvLoop r.case (b.map CsvRow.map) (rows.map fun r => (r.case, r.map)) =
          ((b ++ c) :: blocks).dropLast.map (List.map CsvRow.map) ∧ c ++ blocks.flatten = rows ∧ (∀ y ∈ c, y.case = r.case) ∧
        ∀ x ∈ blocks, ∃ q t, x = q :: t ∧ q.case ≠ r.case ∧ ∀ y ∈ t, y.case = r.case := by
    intro rows
    induction rows with
    | nil => exact fun b => ⟨[], [], by simp [csvLoop], rfl, by simp, by simp⟩
    | cons q rows ih =>
      intro b
      by_cases hq : q.case = r.case
      · obtain ⟨c, blocks, i1, i2, i3, i4⟩ := ih (b ++ [q])
        refine ⟨q :: c, blocks, ?_, by rw [List.cons_append, i2], ?_, i4⟩
        · rw [List.map_cons, csvLoop, if_pos hq]
          simpa using i1
        · intro y hy
          rcases List.mem_cons.1 hy with rfl | hy
          · exact hq
          · exact i3 y hy
      · obtain ⟨c, blocks, i1, i2, i3, i4⟩ := ih [q]
        refine ⟨[], (q :: c) :: blocks, ?_, by simp [← i2], by simp, ?_⟩
        · rw [List.map_cons, csvLoop, if_neg hq]
          have : [q].map CsvRow.map = [q.map] := rfl
          rw [this] at i1
          rw [i1]
          simp
        · intro x hx
          rcases List.mem_cons.1 hx with rfl | hx
          · exact ⟨q, c, rfl, hq, i3⟩
          · exact i4 x hx
  obtain ⟨c, blocks, i1, i2, i3, i4⟩ := key rows [r]
  refine ⟨r :: c, blocks, ?_, by simp [← i2], ⟨c, rfl, i3⟩, i4⟩
  rw [csvScript_rows h (by simp), List.map_cons, csvTraces]
  have : [r].map CsvRow.map = [r.map] := rfl
  rw [this] at i1
  rw [i1]
  rfl

/-! ## C133 -/

theorem compileFmt_items : ∀ (fmt : Str) (sp : Bool) {js : List FmtItem}, compileFmt sp fmt = some js →
    (∀ j ∈ js, (∃ c ∈ fmt, j = .lit c) ∨ j = .spaces ∨ (∃ k alts, fieldAlts k = some alts ∧ j = .field k alts) ∨ j = .foreign) ∧
    (∀ c, fmt.getLast? = some c → isSpace c = false → js ≠ [] ∧ js.getLast? ≠ some .spaces)
  | [], sp, js, h => by
    rw [compileFmt] at h
    injection h with h
    subst h
    simp
  | [c], sp, js, h => by
    rw [compileFmt.eq_def] at h
    simp only at h
    by_cases hp : c = '%'
    · simp [hp] at h
    · rw [if_neg hp] at h
      by_cases hs : isSpace c = true
      · rw [if_pos hs] at h
        refine ⟨?_, fun d hd hd' => ?_⟩
        · cases sp <;> simp [compileFmt] at h <;> subst h <;> simp
        · simp only [List.getLast?_singleton, Option.some.injEq] at hd
          rw [← hd, hs] at hd'
          cases hd'
      · rw [if_neg hs] at h
        simp only [compileFmt, Option.map_some, Option.some.injEq] at h
        subst h
        simp
  | c :: k :: r, sp, js, h => by
    have step : ∀ {j : FmtItem} {is : List FmtItem} {t : Str}, ((∃ d ∈ c :: k :: r, j = .lit d) ∨ (∃ k alts, fieldAlts k = some alts ∧ j = .field k alts) ∨ j = .foreign) →
        t <:+ c :: k :: r → (t = [] ∨ t.getLast? = (c :: k :: r).getLast?) →
        ((∀ j ∈ is, (∃ c ∈ t, j = .lit c) ∨ j = .spaces ∨ (∃ k alts, fieldAlts k = some alts ∧ j = .field k alts) ∨ j = .foreign) ∧
          (∀ c, t.getLast? = some c → isSpace c = false → is ≠ [] ∧ is.getLast? ≠ some .spaces)) → (t = [] → is = []) →
        ((∀ j' ∈ j :: is, (∃ d ∈ c :: k :: r, j' = .lit d) ∨ j' = .spaces ∨ (∃ k alts, fieldAlts k = some alts ∧ j' = .field k alts) ∨ j' = .foreign) ∧
          (∀ d, (c :: k :: r).getLast? = some d → isSpace d = false → j :: is ≠ [] ∧ (j :: is).getLast? ≠ some .spaces)) := by
      intro j is t hj hsuf hlast ih hnil
      refine ⟨fun j' hj' => ?_, fun d hd hd' => ⟨by simp, ?_⟩⟩
      · rcases List.mem_cons.1 hj' with rfl | hj'
        · rcases hj with h | h | h
          · exact .inl h
          · exact .inr (.inr (.inl h))
          · exact .inr (.inr (.inr h))
        · rcases ih.1 j' hj' with ⟨d, hd, e⟩ | h
          · exact .inl ⟨d, hsuf.subset hd, e⟩
          · exact .inr h
      · rcases hlast with rfl | hlast
        · rw [hnil rfl]
          intro e
          simp only [List.getLast?_singleton, Option.some.injEq] at e
          subst e
          rcases hj with ⟨d, -, h⟩ | ⟨k, alts, -, h⟩ | h <;> cases h
        · obtain ⟨h1, h2⟩ := ih.2 d (by rw [hlast, hd]) hd'
          obtain ⟨x, xs, rfl⟩ := List.exists_cons_of_ne_nil h1
          rw [List.getLast?_cons_cons]
          exact h2
    have hr : r <:+ c :: k :: r := ⟨[c, k], rfl⟩
    have hkr : k :: r <:+ c :: k :: r := ⟨[c], rfl⟩
    have lr : r = [] ∨ r.getLast? = (c :: k :: r).getLast? := by
      cases r with
      | nil => exact .inl rfl
      | cons x r => exact .inr (by simp [List.getLast?_cons_cons])
    have lkr : (k :: r) = [] ∨ (k :: r).getLast? = (c :: k :: r).getLast? := .inr (by rw [List.getLast?_cons_cons])
    have nilr : ∀ {is : List FmtItem}, compileFmt false r = some is → r = [] → is = [] := by
      rintro is h rfl
      rw [compileFmt] at h
      injection h with h
      exact h.symm
    rw [compileFmt.eq_def] at h
    simp only at h
    by_cases hp : c = '%'
    · rw [if_pos hp] at h
      by_cases hk : k = '%'
      · rw [if_pos hk, Option.map_eq_some_iff] at h
        obtain ⟨is, his, rfl⟩ := h
        exact step (.inl ⟨'%', by simp [hp], rfl⟩) hr lr (compileFmt_items r false his) (nilr his)
      · rw [if_neg hk] at h
        cases ha : fieldAlts k with
        | some alts =>
          rw [ha] at h
          simp only [Option.map_eq_some_iff] at h
          obtain ⟨is, his, rfl⟩ := h
          exact step (.inr (.inl ⟨k, alts, ha, rfl⟩)) hr lr (compileFmt_items r false his) (nilr his)
        | none =>
          rw [ha] at h
          simp only at h
          split at h
          · rw [Option.map_eq_some_iff] at h
            obtain ⟨is, his, rfl⟩ := h
            exact step (.inr (.inr rfl)) hr lr (compileFmt_items r false his) (nilr his)
          · cases h
    · rw [if_neg hp] at h
      by_cases hs : isSpace c = true
      · rw [if_pos hs] at h
        have rest : ∀ {is : List FmtItem}, compileFmt true (k :: r) = some is →
            (∀ j ∈ is, (∃ d ∈ c :: k :: r, j = .lit d) ∨ j = .spaces ∨ (∃ k alts, fieldAlts k = some alts ∧ j = .field k alts) ∨ j = .foreign) ∧
            (∀ d, (c :: k :: r).getLast? = some d → isSpace d = false → is ≠ [] ∧ is.getLast? ≠ some .spaces) := by
          intro is his
          obtain ⟨i1, i2⟩ := compileFmt_items (k :: r) true his
          refine ⟨fun j hj => ?_, fun d hd hd' => i2 d (by rw [← hd, List.getLast?_cons_cons]) hd'⟩
          rcases i1 j hj with ⟨d, hd, e⟩ | h
          · exact .inl ⟨d, List.mem_cons_of_mem _ hd, e⟩
          · exact .inr h
        cases sp with
        | true => exact rest (by simpa using h)
        | false =>
          simp only [Bool.false_eq_true, if_false, Option.map_eq_some_iff] at h
          obtain ⟨is, his, rfl⟩ := h
          obtain ⟨i1, i2⟩ := rest his
          refine ⟨fun j hj => ?_, fun d hd hd' => ⟨by simp, ?_⟩⟩
          · rcases List.mem_cons.1 hj with rfl | hj
            · exact .inr (.inl rfl)
            · exact i1 j hj
          · obtain ⟨h1, h2⟩ := i2 d hd hd'
            obtain ⟨x, xs, rfl⟩ := List.exists_cons_of_ne_nil h1
            rw [List.getLast?_cons_cons]
            exact h2
      · rw [if_neg hs, Option.map_eq_some_iff] at h
        obtain ⟨is, his, rfl⟩ := h
        exact step (.inl ⟨c, by simp, rfl⟩) hkr lkr (compileFmt_items (k :: r) false his) (by simp)

theorem fieldAlts_class {k : Char} {alts : List (List Cls)} (h : fieldAlts k = some alts) : ∀ a ∈ alts, a ≠ [] ∧ ∀ c ∈ a, c.test '\n' = false := by
  have hk : k ∈ py!"dfHmMSY" := by
    unfold fieldAlts at h
    split at h <;> first | decide | cases h
  have key : ∀ k ∈ py!"dfHmMSY", ∀ a ∈ (fieldAlts k).getD [], a ≠ [] ∧ ∀ c ∈ a, c.test '\n' = false := by decide +kernel
  have := key k hk
  rw [h] at this
  exact this

theorem litEq_lineEnd {c : Char} (h : litEq c '\n' = true) : c = '\n' := by
  have l : lowerChar '\n' = '\n' := by decide
  have n : ('\n' : Char).toNat = 10 := rfl
  simp only [litEq, l, n, Bool.or_eq_true, beq_iff_eq, Bool.and_eq_true] at h
  rcases lowerChar_cases c with h' | h'
  · rw [h'.1] at h
    simpa using h
  · rcases h with ((h | h) | h) | h
    · have := congrArg Char.toNat h
      rw [n] at this
      omega
    all_goals simp at h

/-- The last character that is matched. -/
theorem pieces_last {is : List FmtItem} {s e : Str} {g : List (Char × Str)} (h : Pieces is s g e) : e = [] → is ≠ [] → is.getLast? ≠ some .spaces →
    (∀ j ∈ is, (∃ c, c ≠ '\n' ∧ j = .lit c) ∨ j = .spaces ∨ (∃ k alts, fieldAlts k = some alts ∧ j = .field k alts) ∨ j = .foreign) →
    ∃ y, s.getLast? = some y ∧ y ≠ '\n' := by
  have more : ∀ {w s : Str} {y : Char}, s.getLast? = some y → (w ++ s).getLast? = some y := fun h => by rw [List.getLast?_append, h]; rfl
  induction h with
  | nil => exact fun _ h => absurd rfl h
  | @lit c x is s e g hx hp ih =>
    intro he _ hl hj
    cases is with
    | nil =>
      subst he
      cases hp
      refine ⟨x, rfl, ?_⟩
      rintro rfl
      rcases hj (.lit c) (by simp) with ⟨d, hd, e⟩ | e | ⟨_, _, _, e⟩ | e
      · injection e with e
        exact hd (e ▸ litEq_lineEnd hx)
      all_goals cases e
    | cons i is =>
      rw [List.getLast?_cons_cons] at hl
      obtain ⟨y, h1, h2⟩ := ih he (by simp) hl (fun j hj' => hj j (List.mem_cons_of_mem _ hj'))
      exact ⟨y, more (w := [x]) h1, h2⟩
  | @spaces w is s e g hw hs hp ih =>
    intro he _ hl hj
    cases is with
    | nil => exact absurd rfl hl
    | cons i is =>
      rw [List.getLast?_cons_cons] at hl
      obtain ⟨y, h1, h2⟩ := ih he (by simp) hl (fun j hj' => hj j (List.mem_cons_of_mem _ hj'))
      exact ⟨y, more h1, h2⟩
  | @field k alts a m is s e g ha hf hp ih =>
    intro he _ hl hj
    cases is with
    | nil =>
      subst he
      cases hp
      rcases hj (.field k alts) (by simp) with ⟨d, hd, e⟩ | e | ⟨k', alts', hk, e⟩ | e
      · cases e
      · cases e
      · injection e with e1 e2
        subst e1 e2
        obtain ⟨hne, hc⟩ := fieldAlts_class hk a ha
        have hm : m ≠ [] := fun e => by
          have := hf.length
          rw [e] at this
          exact hne (List.length_eq_zero_iff.1 this.symm)
        refine ⟨m.getLast hm, by rw [List.append_nil, List.getLast?_eq_some_getLast hm], fun e => ?_⟩
        obtain ⟨c, hc1, hc2⟩ := hf.mem (List.getLast_mem hm)
        rw [e, hc c hc1] at hc2
        cases hc2
      · cases e
    | cons i is =>
      rw [List.getLast?_cons_cons] at hl
      obtain ⟨y, h1, h2⟩ := ih he (by simp) hl (fun j hj' => hj j (List.mem_cons_of_mem _ hj'))
      exact ⟨y, more h1, h2⟩

/-- Some numbers. -/
def someNumbers : TimeTok → Str
  | .yyyy => py!"2000"
  | _ => py!"01"

theorem someNumbers_ok (l : List (TimeTok × Str)) : TimeNumbers someNumbers l := by
  refine ⟨?_, by refine ⟨by decide, by decide, by decide⟩, ?_⟩
  · intro t _ ht
    cases t <;> first | exact absurd rfl ht | exact ⟨by decide, by decide, by decide⟩
  · have h1 : ∀ t, t ≠ .yyyy → number (someNumbers t) = 1 := by
      intro t ht
      cases t <;> first | exact absurd rfl ht | decide
    have h2 : number (someNumbers .yyyy) = 2000 := by decide
    have h3 : ∀ t, t ≠ .yyyy → ∀ d ≤ 1, partOr someNumbers l t d ≤ 1 := by
      intro t ht d hd
      unfold partOr
      split
      · rw [h1 t ht]
      · exact hd
    have h4 : ∀ t, t ≠ .yyyy → partOr someNumbers l t 1 = 1 := by
      intro t ht
      unfold partOr
      split
      · rw [h1 t ht]
      · rfl
    have h5 := h3 .HH (by decide) 0 (by omega)
    have h6 := h3 .mm (by decide) 0 (by omega)
    simp only [timeOf, h2, h4 .MM (by decide), h4 .dd (by decide)]
    refine ⟨by omega, by omega, by omega, by omega, by decide, by omega, by omega⟩

theorem stage_last : ∀ (l : List (TimeTok × Str)) (pre : Str), (∀ c, (spelled TimeTok.text pre l).getLast? = some c → isSpace c = false) →
    ∀ c, (spelled (stage 5) pre l).getLast? = some c → isSpace c = false
  | [], pre, h => h
  | p :: l, pre, h => by
    have ih := stage_last l p.2 (fun c hc => h c (by
      rw [spelled, List.getLast?_append, List.getLast?_append, hc]
      rfl))
    intro c hc
    rw [spelled, List.getLast?_append, List.getLast?_append] at hc
    cases hr : (spelled (stage 5) p.2 l).getLast? with
    | some d =>
      rw [hr] at hc
      simp only [Option.some_or, Option.some.injEq] at hc
      exact hc ▸ ih d hr
    | none =>
      obtain ⟨-, -, hst⟩ := tok_alts p.1
      rw [hr, hst] at hc
      have : c = p.1.letter := by simpa using hc.symm
      subst this
      cases p.1 <;> decide

/-- **C133**: the time in the last column cannot be read, because of the line end. -/
theorem c133_cell {pre : Str} {l : List (TimeTok × Str)} (hn : TimeName pre l) (hend : ∀ c, (spelled TimeTok.text pre l).getLast? = some c → isSpace c = false)
    (cell : Str) : strptimeFmt ext (columnType (spelled TimeTok.text pre l)) (cell ++ py!"\n") = .error .valueError := by
  rw [columnType_time hn]
  obtain ⟨js, g1, g2, g3, -, -⟩ := match_cell (someNumbers_ok l) l pre (fun p hp => List.mem_map_of_mem hp) hn.seps hn.between hn.apart
  obtain ⟨i1, i2⟩ := compileFmt_items _ _ g1
  have hne : spelled (stage 5) pre l ≠ [] := fun e => by
    have := time_type hn
    rw [e] at this
    simp at this
  obtain ⟨j1, j2⟩ := i2 _ (List.getLast?_eq_some_getLast hne) (stage_last l pre hend _ (List.getLast?_eq_some_getLast hne))
  have hnd : (fieldNames js).Nodup := by
    have : l.map (fun p => p.1.letter) = (l.map Prod.fst).map TimeTok.letter := by simp
    rw [g2, this]
    exact hn.once.map (fun _ _ => letter_inj)
  have hno : ∀ g, matchItems js (cell ++ py!"\n") ≠ some (g, []) := fun g hm => by
    obtain ⟨y, hy, hy'⟩ := pieces_last (matchItems_pieces js hm) rfl j1 j2 (fun j hj => by
      rcases i1 j hj with ⟨c, hc, e⟩ | h
      · refine .inl ⟨c, ?_, e⟩
        rintro rfl
        rcases spelled_mem _ l pre hc with hm | ⟨p, hp, hm⟩ | ⟨t, ht⟩
        · exact (sepChar_ne (hn.seps _ hm)).2.2.2.2.2.2.2 rfl
        · exact (sepChar_ne (hn.between p hp _ hm)).2.2.2.2.2.2.2 rfl
        · cases t <;> exact absurd ht (by decide)
      · exact .inr h)
    simp only [List.getLast?_append, List.getLast?_singleton, Option.some_or, Option.some.injEq] at hy
    exact hy' hy.symm
  unfold strptimeFmt
  rw [g1]
  simp only [if_neg g3, hnd, not_true_eq_false, if_false]

theorem csvAttrs_last {strptime : Str → Str → Except PyErr DateTime} {t x : Str} {e : PyErr} (h : csvAttr (F := F) strptime t x = .error e) :
    ∀ (types cells : List Str) (m : AttrMap F), types.length = cells.length → ∃ e, csvAttrs strptime m (types ++ [t]) (cells ++ [x]) = .error e
  | [], [], m, _ => ⟨e, by
    simp only [List.nil_append, csvAttrs, h]
    rfl⟩
  | t' :: types, c :: cells, m, hl => by
    simp only [List.cons_append, csvAttrs]
    cases ha : csvAttr (F := F) strptime t' c with
    | error e => exact ⟨e, rfl⟩
    | ok a => exact csvAttrs_last h types cells _ (by simpa using hl)

/-- **C133**: so no file is converted whose last column is a time column with a name that does not end in white space. -/
theorem c133_refuted {h0 h1 a b last : Str} {names cells : List Str} {pre : Str} {l : List (TimeTok × Str)} (hn : TimeName pre l)
    (hend : ∀ c, (spelled TimeTok.text pre l).getLast? = some c → isSpace c = false)
    (hh : CleanRow (h0 :: h1 :: names ++ [spelled TimeTok.text pre l])) (hr : CleanRow (a :: b :: cells ++ [last])) (hl : names.length = cells.length)
    (rest : Str) :
    ∃ e, csvScript (F := F) (fun c f => strptimeFmt ext f c)
      (rowText (h0 :: h1 :: names ++ [spelled TimeTok.text pre l]) ++ (rowText (a :: b :: cells ++ [last]) ++ rest)) = .error e := by
  have hattr : csvAttr (F := F) (fun c f => strptimeFmt ext f c) (columnType (spelled TimeTok.text pre l)) (last ++ py!"\n") = .error .valueError := by
    have := c133_cell (ext := ext) hn hend last
    rw [columnType_time hn] at this
    rw [csvAttr_time hn, this]
    rfl
  obtain ⟨e, he⟩ := csvAttrs_last hattr (names.map columnType) cells [] (by simpa using hl)
  refine ⟨e, ?_⟩
  have hc : convertLine (F := F) (fun c f => strptimeFmt ext f c) ((h0 :: h1 :: names ++ [spelled TimeTok.text pre l]).map columnType)
      (splitChar ';' (rowText (a :: b :: cells ++ [last]))) = .error e := by
    rw [split_row hr (by simp), withLineEnd_snoc, convertLine]
    simpa using he
  unfold csvScript
  rw [readLine_row hh]
  simp only
  rw [readLine_row hr]
  simp only
  rw [split_row hh (by simp), map_columnType_withLineEnd (by simp), hc]
  rfl

end

/-! ## Examples -/

/-- `dd-MM-yyyy:HH.mm`, as in example/xes_file/csv_file.csv. -/
def exName : List (TimeTok × Str) := [(.dd, py!"-"), (.MM, py!"-"), (.yyyy, py!":"), (.HH, py!"."), (.mm, [])]

def exNumbers : TimeTok → Str
  | .dd => py!"30" | .MM => py!"12" | .yyyy => py!"2010" | .HH => py!"11" | .mm => py!"02"

theorem exName_ok : TimeName [] exName := by
  refine ⟨by simp, ?_, by decide, by decide, by decide⟩
  have : ∀ p ∈ exName, ∀ c ∈ p.2, c ∈ py!"-:." := by decide
  intro p hp c hc
  have h := this p hp c hc
  have k : ∀ c ∈ py!"-:.", ¬ (digitVal? c).isSome ∧ c ∉ py!"dMyHm%;\n" := by decide
  exact k c h

theorem exNumbers_ok : TimeNumbers exNumbers exName :=
  ⟨by intro t _ h; cases t <;> first | exact absurd rfl h | (unfold Digits; decide), by unfold Digits; decide, by decide +kernel⟩

example : spelled TimeTok.text [] exName = py!"dd-MM-yyyy:HH.mm" ∧ spelled exNumbers [] exName = py!"30-12-2010:11.02" ∧
    timeOf exNumbers exName = ⟨2010, 12, 30, 11, 2, 0, 0, none⟩ := by decide +kernel

example : (csvScript (F := ToyFloat) (fun c f => strptimeFmt (fun _ _ => .error .other) f c)
    py!"Case ID;Event ID;dd-MM-yyyy:HH.mm;Activity;Resource;Costs\n1;1;30-12-2010:11.02;register;Pete;50\n1;2;31-12-2010:10.06;check;Sue;400\n2;3;30-12-2010:11.32;register;Mike;100\n").toOption.map
      (List.map (List.map (fun m => (dget py!"time" m).map Attr.val))) =
    some [[some (.dt ⟨2010, 12, 30, 11, 2, 0, 0, none⟩), some (.dt ⟨2010, 12, 31, 10, 6, 0, 0, none⟩)]] := by decide +kernel

/-- A file that meets the hypotheses of `c132_file`. -/
def exRow : CsvRow ToyFloat where
  case := py!"1"
  id := py!"7"
  cells := [py!"30-12-2010:11.02", py!"register", py!"50"]
  attrs := [.mk .timestamp py!"time" none (.dt (timeOf exNumbers exName)) [] [], .mk .literal py!"Activity" none (.str py!"register") [] [],
    .mk .discrete py!"Costs" none (.int 50) [] []]

example : CsvFile py!"Case ID" py!"Event ID" [py!"dd-MM-yyyy:HH.mm", py!"Activity", py!"Costs"] [exRow] where
  header := by unfold CleanRow; decide
  clean := by simp only [List.mem_singleton, forall_eq]; unfold CleanRow; decide
  meaning := by
    simp only [List.mem_singleton, forall_eq]
    refine .cons (.time exName_ok exNumbers_ok (by decide) (by decide)) (.cons (.text (by decide)) (.last (.number (by decide) (by decide) ?_ ?_ ?_)))
    · rw [← isSub_infix]; decide
    · rw [← isSub_infix]; decide
    · exact pyInt_iff.1 (by decide +kernel)
  keys := by simp only [List.mem_singleton, forall_eq]; decide

end Opy
