import Verif.Model.XmlText
/-
The XML declaration: what `declPart` and `declared` of Model/XmlText.lean accept, as a grammar.
-/
namespace Opy

/-- White space in the declaration. -/
def DeclBlank (c : Char) : Prop := c = ' ' ∨ c = '\t' ∨ c = '\n' ∨ c = '\r'

/-- A character of a value in the declaration. -/
def DeclLetter (c : Char) : Prop := c.isAlpha = true ∨ c.isDigit = true ∨ c = '.' ∨ c = '-' ∨ c = '_'

/-- A part of the XML declaration: `name = "value"` behind white space, in either quotes. -/
def PartText (name value t : Str) : Prop :=
  ∃ g w w' q, g ≠ [] ∧ (∀ c ∈ g ++ w ++ w', DeclBlank c) ∧ (q = '"' ∨ q = '\'') ∧ (∀ c ∈ value, DeclLetter c) ∧
    t = g ++ (name ++ (w ++ '=' :: (w' ++ q :: (value ++ [q]))))

/-- What stands between `<?xml` and `?>`: the version, perhaps an encoding, perhaps `standalone`. -/
def DeclSays (s : Str) (e : Option Str) : Prop :=
  ∃ v c y w x, s = v ++ (c ++ (y ++ w)) ∧ PartText py!"version" x v ∧
    ((c = [] ∧ e = none) ∨ ∃ a n, e = some (a :: n) ∧ a.isAlpha = true ∧ PartText py!"encoding" (a :: n) c) ∧
    (y = [] ∨ PartText py!"standalone" py!"yes" y ∨ PartText py!"standalone" py!"no" y) ∧ ∀ c ∈ w, DeclBlank c

/-- The same with the tests of the model. -/
def PartRun (name value t : Str) : Prop :=
  ∃ g w w' q, g ≠ [] ∧ (∀ c ∈ g ++ w ++ w', declSpace c = true) ∧ (q = '"' ∨ q = '\'') ∧ (∀ c ∈ value, declChar c = true) ∧
    t = g ++ (name ++ (w ++ '=' :: (w' ++ q :: (value ++ [q]))))

/-- The same with the tests of the model. -/
def DeclRun (s : Str) (e : Option Str) : Prop :=
  ∃ v c y w x, s = v ++ (c ++ (y ++ w)) ∧ PartRun py!"version" x v ∧
    ((c = [] ∧ e = none) ∨ ∃ a n, e = some (a :: n) ∧ a.isAlpha = true ∧ PartRun py!"encoding" (a :: n) c) ∧
    (y = [] ∨ PartRun py!"standalone" py!"yes" y ∨ PartRun py!"standalone" py!"no" y) ∧ ∀ c ∈ w, declSpace c = true

theorem declSpace_iff {c : Char} : declSpace c = true ↔ DeclBlank c := by
  simp only [declSpace, DeclBlank, Bool.or_eq_true, decide_eq_true_eq, or_assoc]

theorem declChar_iff {c : Char} : declChar c = true ↔ DeclLetter c := by
  simp only [declChar, DeclLetter, Bool.or_eq_true, decide_eq_true_eq, or_assoc]

theorem partRun_iff {n v t : Str} : PartRun n v t ↔ PartText n v t := by
  simp only [PartRun, PartText, declSpace_iff, declChar_iff]

theorem declRun_iff {s : Str} {e : Option Str} : DeclRun s e ↔ DeclSays s e := by
  simp only [DeclRun, DeclSays, partRun_iff, declSpace_iff]

theorem dropWhile_head {p : Char → Bool} : ∀ {s : Str} {c : Char} {r : Str}, s.dropWhile p = c :: r → p c = false ∧ s = s.takeWhile p ++ c :: r
  | [], _, _, h => by simp at h
  | a :: s, c, r, h => by
    by_cases ha : p a = true
    · rw [List.dropWhile_cons_of_pos ha] at h
      obtain ⟨h1, h2⟩ := dropWhile_head h
      exact ⟨h1, by rw [List.takeWhile_cons_of_pos ha, List.cons_append, ← h2]⟩
    · rw [List.dropWhile_cons_of_neg ha] at h
      obtain ⟨rfl, rfl⟩ := List.cons.inj h
      exact ⟨by simpa using ha, by rw [List.takeWhile_cons_of_neg ha, List.nil_append]⟩

theorem mem_takeWhile {p : Char → Bool} : ∀ {s : Str} {c : Char}, c ∈ s.takeWhile p → p c = true
  | [], _, h => by simp at h
  | a :: s, c, h => by
    by_cases ha : p a = true
    · rw [List.takeWhile_cons_of_pos ha] at h
      rcases List.mem_cons.1 h with rfl | h
      · exact ha
      · exact mem_takeWhile h
    · rw [List.takeWhile_cons_of_neg ha] at h
      cases h

theorem span_at {p : Char → Bool} {a : Str} {c : Char} {r : Str} (h : ∀ x ∈ a, p x = true) (hc : p c = false) :
    (a ++ c :: r).dropWhile p = c :: r ∧ (a ++ c :: r).takeWhile p = a := by
  rw [List.dropWhile_append_of_pos h, List.takeWhile_append_of_pos h]
  rw [List.dropWhile_cons_of_neg (by simp [hc]), List.takeWhile_cons_of_neg (by simp [hc])]
  simp

theorem declPart_nil {s : Str} : declPart s = some none ↔ ∀ c ∈ s, declSpace c = true := by
  cases s with
  | nil => simp [declPart]
  | cons c s =>
    simp only [declPart]
    by_cases hc : declSpace c = false
    · rw [if_pos hc]
      constructor
      · intro h; cases h
      · intro h; rw [h c (by simp)] at hc; cases hc
    · rw [if_neg hc]
      cases hd : (c :: s).dropWhile declSpace with
      | nil =>
        simp only [true_iff]
        intro x hx
        have := List.takeWhile_append_dropWhile (p := declSpace) (l := c :: s)
        rw [hd, List.append_nil] at this
        exact mem_takeWhile (this ▸ hx)
      | cons d t =>
        constructor
        · intro h
          exfalso
          revert h
          simp only
          split
          · intro h; cases h
          · split
            · split
              · split
                · split
                  · split <;> intro h <;> cases h
                  · intro h; cases h
                · intro h; cases h
              · intro h; cases h
            · intro h; cases h
        · intro h
          obtain ⟨h1, h2⟩ := dropWhile_head hd
          rw [h d (by rw [h2]; simp)] at h1
          cases h1

/-- The names of the parts. -/
def partName (n : Str) : Bool := n != [] && n.all fun c => ! (c = '=' || declSpace c)

theorem declPart_some {s n v r : Str} : declPart s = some (some (n, v, r)) ↔ partName n = true ∧ ∃ t, s = t ++ r ∧ PartRun n v t := by
  constructor
  · intro h
    cases s with
    | nil => simp [declPart] at h
    | cons c s =>
      simp only [declPart] at h
      by_cases hc : declSpace c = false
      · rw [if_pos hc] at h; cases h
      rw [if_neg hc] at h
      cases hd : (c :: s).dropWhile declSpace with
      | nil => rw [hd] at h; cases h
      | cons d t =>
        rw [hd] at h
        simp only at h
        by_cases hde : d = '='
        · rw [if_pos hde] at h; cases h
        rw [if_neg hde] at h
        split at h
        · rename_i u hu
          split at h
          · rename_i q w hq
            split at h
            · rename_i hqq
              split at h
              · rename_i q' rest hv
                split at h
                · rename_i hall
                  simp only [Option.some.injEq, Prod.mk.injEq] at h
                  obtain ⟨rfl, rfl, rfl⟩ := h
                  obtain ⟨hv1, hv2⟩ := dropWhile_head hv
                  obtain ⟨hq1, hq2⟩ := dropWhile_head hq
                  obtain ⟨hu1, hu2⟩ := dropWhile_head hu
                  obtain ⟨hd1, hd2⟩ := dropWhile_head hd
                  have hq' : q' = q := by simpa using hv1
                  subst hq'
                  have hn : ((d :: t).takeWhile fun c => ! (c = '=' || declSpace c)) ≠ [] := by
                    intro e
                    rw [List.takeWhile_cons_of_pos (by simp [hd1, hde])] at e
                    cases e
                  refine ⟨?_, (c :: s).takeWhile declSpace ++ (((d :: t).takeWhile fun c => ! (c = '=' || declSpace c)) ++
                    ((((d :: t).dropWhile fun c => ! (c = '=' || declSpace c)).takeWhile declSpace) ++ '=' ::
                    (u.takeWhile declSpace ++ q' :: ((w.takeWhile fun c => c != q') ++ [q'])))), ?_,
                    (c :: s).takeWhile declSpace, _, _, q', ?_, ?_, hqq, ?_, rfl⟩
                  · simp only [partName, Bool.and_eq_true, bne_iff_ne, ne_eq, List.all_eq_true]
                    exact ⟨hn, fun x hx => mem_takeWhile hx⟩
                  · have e1 := List.takeWhile_append_dropWhile (p := fun c => ! (decide (c = '=') || declSpace c)) (l := d :: t)
                    calc c :: s = (c :: s).takeWhile declSpace ++ (d :: t) := hd2
                      _ = _ := by
                        rw [List.append_assoc, List.append_assoc, List.append_assoc, List.cons_append, List.append_assoc, List.cons_append,
                          List.append_assoc, List.singleton_append, ← hv2, ← hq2, ← hu2, e1]
                  · intro e
                    rw [List.takeWhile_cons_of_pos (by simpa using hc)] at e
                    cases e
                  · intro x hx
                    simp only [List.mem_append] at hx
                    rcases hx with (hx | hx) | hx <;> exact mem_takeWhile hx
                  · exact fun x hx => List.all_eq_true.1 hall x hx
                · cases h
              · cases h
            · cases h
          · cases h
        · cases h
  · rintro ⟨hn, t, rfl, g, w, w', q, hg, hs, hq, hv, rfl⟩
    simp only [partName, Bool.and_eq_true, bne_iff_ne, ne_eq, List.all_eq_true] at hn
    simp only [List.mem_append] at hs
    obtain ⟨c, g, rfl⟩ := List.exists_cons_of_ne_nil hg
    obtain ⟨d, n, rfl⟩ := List.exists_cons_of_ne_nil hn.1
    have hd := hn.2 d (by simp)
    have hd' : declSpace d = false := by
      simp only [Bool.not_eq_true', Bool.or_eq_false_iff] at hd
      exact hd.2
    have h1 := (span_at (p := declSpace) (a := c :: g) (c := d) (r := n ++ (w ++ '=' :: (w' ++ q :: (v ++ q :: r)))) (fun x hx => hs x (.inl (.inl hx))) hd').1
    have hwe : ∃ y z, w ++ '=' :: (w' ++ q :: (v ++ q :: r)) = y :: z ∧ (! (decide (y = '=') || declSpace y)) = false := by
      cases w with
      | nil => exact ⟨_, _, rfl, by decide⟩
      | cons y w => exact ⟨_, _, rfl, by simp [hs y (by simp)]⟩
    obtain ⟨y, z, hyz, hy⟩ := hwe
    have h2 := span_at (p := fun c => ! (decide (c = '=') || declSpace c)) (a := d :: n) (r := z) hn.2 hy
    rw [← hyz] at h2
    have h3 := (span_at (p := declSpace) (a := w) (c := '=') (r := w' ++ q :: (v ++ q :: r)) (fun x hx => hs x (.inl (.inr hx))) (by decide)).1
    have h4 := (span_at (p := declSpace) (a := w') (c := q) (r := v ++ q :: r) (fun x hx => hs x (.inr hx)) (by rcases hq with rfl | rfl <;> decide)).1
    have h5 := span_at (p := fun c => c != q) (a := v) (c := q) (r := r) (fun x hx => by
      have := hv x hx
      rw [bne_iff_ne]
      rintro rfl
      rcases hq with rfl | rfl <;> exact absurd this (by decide)) (by simp)
    have e : c :: g ++ (d :: n ++ (w ++ '=' :: (w' ++ q :: (v ++ [q])))) ++ r = c :: (g ++ d :: (n ++ (w ++ '=' :: (w' ++ q :: (v ++ q :: r))))) := by simp
    rw [e]
    simp only [List.cons_append] at h1 h2
    simp only [declPart]
    rw [if_neg (by simp [hs c (by simp)]), h1]
    simp only
    rw [if_neg (by rintro rfl; simp at hd), h2.1, h2.2, h3]
    simp only
    rw [h4]
    simp only
    rw [if_pos hq, h5.1, h5.2]
    simp only
    rw [if_pos (List.all_eq_true.2 hv)]

theorem standalone_says {n v r : Str} : standaloneOk n v r = true ↔
    n = py!"standalone" ∧ (v = py!"yes" ∨ v = py!"no") ∧ ∀ c ∈ r, declSpace c = true := by
  simp only [standaloneOk, Bool.and_eq_true, Bool.or_eq_true, decide_eq_true_eq, List.all_eq_true, and_assoc]

/-- A gap is no part. -/
theorem gap_or_part {y w n v r : Str} (hw : ∀ c ∈ w, declSpace c = true)
    (hy : y = [] ∨ PartRun py!"standalone" py!"yes" y ∨ PartRun py!"standalone" py!"no" y) (h : declPart (y ++ w) = some (some (n, v, r))) :
    standaloneOk n v r = true := by
  rcases hy with rfl | hy | hy
  · rw [List.nil_append, declPart_nil.2 hw] at h; cases h
  · rw [declPart_some.2 ⟨by decide, y, rfl, hy⟩] at h
    simp only [Option.some.injEq, Prod.mk.injEq] at h
    obtain ⟨rfl, rfl, rfl⟩ := h
    exact standalone_says.2 ⟨rfl, .inl rfl, hw⟩
  · rw [declPart_some.2 ⟨by decide, y, rfl, hy⟩] at h
    simp only [Option.some.injEq, Prod.mk.injEq] at h
    obtain ⟨rfl, rfl, rfl⟩ := h
    exact standalone_says.2 ⟨rfl, .inr rfl, hw⟩

theorem gap_or_part_ne {y w : Str} (hw : ∀ c ∈ w, declSpace c = true)
    (hy : y = [] ∨ PartRun py!"standalone" py!"yes" y ∨ PartRun py!"standalone" py!"no" y) : declPart (y ++ w) ≠ none := by
  rcases hy with rfl | hy | hy
  · rw [List.nil_append, declPart_nil.2 hw]; simp
  · rw [declPart_some.2 ⟨by decide, y, rfl, hy⟩]; simp
  · rw [declPart_some.2 ⟨by decide, y, rfl, hy⟩]; simp

/-- The declaration is accepted exactly if it has the right form. -/
theorem declared_run {s : Str} {e : Option Str} : declared s = some e ↔ DeclRun s e := by
  constructor
  · intro h
    unfold declared at h
    split at h
    · rename_i n x s1 h1
      split at h
      · rename_i hn
        subst hn
        obtain ⟨-, v, rfl, hv⟩ := declPart_some.1 h1
        split at h
        · cases h
        · rename_i h2
          cases h
          exact ⟨v, [], [], s1, x, rfl, hv, .inl ⟨rfl, rfl⟩, .inl rfl, declPart_nil.1 h2⟩
        · rename_i n2 v2 s2 h2
          obtain ⟨-, c, rfl, hc⟩ := declPart_some.1 h2
          split at h
          · rename_i hn
            subst hn
            split at h
            · cases h
            · rename_i a v2
              split at h
              · rename_i ha
                split at h
                · cases h
                · rename_i h3
                  cases h
                  exact ⟨v, c, [], s2, x, rfl, hv, .inr ⟨a, v2, rfl, ha, hc⟩, .inl rfl, declPart_nil.1 h3⟩
                · rename_i n3 y3 s3 h3
                  obtain ⟨-, y, rfl, hy⟩ := declPart_some.1 h3
                  split at h
                  · rename_i hst
                    cases h
                    obtain ⟨rfl, hyn, hsp⟩ := standalone_says.1 hst
                    refine ⟨v, c, y, s3, x, rfl, hv, .inr ⟨a, v2, rfl, ha, hc⟩, ?_, hsp⟩
                    rcases hyn with rfl | rfl
                    · exact .inr (.inl hy)
                    · exact .inr (.inr hy)
                  · cases h
              · cases h
          · split at h
            · rename_i hst
              cases h
              obtain ⟨rfl, hyn, hsp⟩ := standalone_says.1 hst
              refine ⟨v, [], c, s2, x, rfl, hv, .inl ⟨rfl, rfl⟩, ?_, hsp⟩
              rcases hyn with rfl | rfl
              · exact .inr (.inl hc)
              · exact .inr (.inr hc)
            · cases h
      · cases h
    · cases h
  · rintro ⟨v, c, y, w, x, rfl, hv, hc, hy, hw⟩
    have h1 : declPart (v ++ (c ++ (y ++ w))) = some (some (py!"version", x, c ++ (y ++ w))) := declPart_some.2 ⟨by decide, v, rfl, hv⟩
    simp only [declared, h1, if_true]
    rcases hc with ⟨rfl, rfl⟩ | ⟨a, n, rfl, ha, hc⟩
    · rw [List.nil_append]
      cases h2 : declPart (y ++ w) with
      | none => exact absurd h2 (gap_or_part_ne hw hy)
      | some o =>
        cases o with
        | none => rfl
        | some o =>
          obtain ⟨n, z, r⟩ := o
          have h3 := gap_or_part hw hy h2
          have h4 := (standalone_says.1 h3).1
          subst h4
          simp only [h3, if_true]
          rw [if_neg (by decide)]
    · have h2 : declPart (c ++ (y ++ w)) = some (some (py!"encoding", a :: n, y ++ w)) := declPart_some.2 ⟨by decide, c, rfl, hc⟩
      simp only [h2, if_true, ha]
      cases h3 : declPart (y ++ w) with
      | none => exact absurd h3 (gap_or_part_ne hw hy)
      | some o =>
        cases o with
        | none => rfl
        | some o =>
          obtain ⟨n', z, r⟩ := o
          simp only [gap_or_part hw hy h3, if_true]

/-- ... in the words of the specification. -/
theorem declared_says {s : Str} {e : Option Str} : declared s = some e ↔ DeclSays s e := declared_run.trans declRun_iff

/-- Nothing but a declaration is taken for one. -/
theorem upToPi_spec : ∀ {s d : Str}, upToPi s = some d → ∃ r, s = d ++ '?' :: '>' :: r
  | [], _, h => by cases h
  | c :: s, d, h => by
    simp only [upToPi] at h
    split at h
    · rename_i hc
      cases h
      obtain ⟨rfl, hs⟩ := hc
      cases s with
      | nil => cases hs
      | cons x s => cases hs; exact ⟨s, rfl⟩
    · cases h2 : upToPi s with
      | none => rw [h2] at h; cases h
      | some d' =>
        rw [h2] at h
        cases h
        obtain ⟨r, rfl⟩ := upToPi_spec h2
        exact ⟨r, rfl⟩

theorem upToPi_plain {d : Str} (h : ∀ c ∈ d, c ≠ '?') (r : Str) : upToPi (d ++ '?' :: '>' :: r) = some d := by
  induction d with
  | nil => simp [upToPi]
  | cons c d ih =>
    simp only [List.cons_append, upToPi]
    rw [if_neg (fun e => h c (by simp) e.1), ih fun x hx => h x (by simp [hx])]
    rfl

theorem partText_plain {n v t : Str} (hn : '?' ∉ n) (h : PartRun n v t) : ∀ c ∈ t, c ≠ '?' := by
  obtain ⟨g, w, w', q, -, hs, hq, hv, rfl⟩ := h
  intro c hc
  simp only [List.mem_append, List.mem_cons, List.not_mem_nil, or_false] at hc hs
  rintro rfl
  rcases hc with hc | hc | hc | hc | hc | hc | hc | hc
  · exact absurd (hs _ (.inl (.inl hc))) (by decide)
  · exact hn hc
  · exact absurd (hs _ (.inl (.inr hc))) (by decide)
  · exact absurd hc (by decide)
  · exact absurd (hs _ (.inr hc)) (by decide)
  · rcases hq with rfl | rfl <;> exact absurd hc (by decide)
  · exact absurd (hv _ hc) (by decide)
  · rcases hq with rfl | rfl <;> exact absurd hc (by decide)

theorem declSays_plain {d : Str} {e : Option Str} (h : DeclRun d e) : ∀ c ∈ d, c ≠ '?' := by
  obtain ⟨v, c, y, w, x, rfl, hv, hc, hy, hw⟩ := h
  intro z hz
  simp only [List.mem_append] at hz
  rcases hz with hz | hz | hz | hz
  · exact partText_plain (by decide) hv z hz
  · rcases hc with ⟨rfl, -⟩ | ⟨a, n, -, -, hc⟩
    · cases hz
    · exact partText_plain (by decide) hc z hz
  · rcases hy with rfl | hy | hy
    · cases hz
    · exact partText_plain (by decide) hy z hz
    · exact partText_plain (by decide) hy z hz
  · rintro rfl
    exact absurd (hw _ hz) (by decide)

theorem declOf_run {d : Str} {e : Option Str} (h : DeclRun d e) (r : Str) : declOf (py!"<?xml" ++ (d ++ '?' :: '>' :: r)) = some d := by
  have h1 := upToPi_plain (declSays_plain h) r
  obtain ⟨v, c, y, w, x, rfl, hv, -⟩ := h
  obtain ⟨g, w1, w', q, hg, hs, -, -, rfl⟩ := hv
  obtain ⟨a, g, rfl⟩ := List.exists_cons_of_ne_nil hg
  have ha : declSpace a = true := hs a (by simp)
  simp only [List.cons_append] at h1 ⊢
  show (if declSpace a = true ∨ a = '?' then upToPi (a :: _) else none) = _
  rw [if_pos (.inl ha)]
  exact h1

/-- A document that begins with a declaration. -/
theorem declOf_decl {d : Str} {e : Option Str} (h : DeclSays d e) (r : Str) : declOf (py!"<?xml" ++ (d ++ '?' :: '>' :: r)) = some d :=
  declOf_run (declRun_iff.2 h) r

theorem declOk_decl {d : Str} {e : Option Str} (h : DeclSays d e) (r : Str) : declOk (py!"<?xml" ++ (d ++ '?' :: '>' :: r)) = true := by
  simp only [declOk, declOf_decl h, declared_says.2 h, Option.isSome_some]

/-- A document that begins with something else. -/
theorem declOk_elem {c : Char} (hc : c ≠ '?') (r : Str) : declOk ('<' :: c :: r) = true := by
  have : declOf ('<' :: c :: r) = none := by
    unfold declOf
    split
    · rename_i heq
      simp only [List.cons.injEq, true_and] at heq
      exact absurd heq.1 hc
    · rfl
  simp only [declOk, this]

theorem declOk_other {c : Char} (hc : c ≠ '<') (r : Str) : declOk (c :: r) = true := by
  have : declOf (c :: r) = none := by
    unfold declOf
    split
    · rename_i heq
      simp only [List.cons.injEq] at heq
      exact absurd heq.1 hc
    · rfl
  simp only [declOk, this]

end Opy
