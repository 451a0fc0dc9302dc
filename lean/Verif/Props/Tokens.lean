import Verif.Model.Tokens
import Verif.Lemmas.Str
/-
Properties C01, C02, C03 (classifier key lists as token strings).
-/
namespace Opy

/-! ## Specification -/

/-- No white space at either end. -/
def Trimmed (t : Str) : Prop :=
  (∀ c, t.head? = some c → isSpace c = false) ∧ (∀ c, t.getLast? = some c → isSpace c = false)

/-- A key a user would write: not empty, trimmed, without a quote. -/
structure GoodKey (t : Str) : Prop where
  ne : t ≠ []
  trimmed : Trimmed t
  noQuote : '\'' ∉ t

/-- Glue every maximal run of neighbouring blank-free keys into one key, joined by blanks. -/
def glue : List Str → List Str
  | [] => []
  | [a] => [a]
  | a :: b :: rest =>
    if ' ' ∉ a ∧ ' ' ∉ b then
      match glue (b :: rest) with
      | [] => [a]
      | g :: gs => (a ++ ' ' :: g) :: gs
    else a :: glue (b :: rest)

/-- No two neighbours are both free of blanks. -/
def NoBareNeighbours (ts : List Str) : Prop :=
  ∀ pre a b post, ts = pre ++ a :: b :: post → ' ' ∈ a ∨ ' ' ∈ b

/-! ## Lemmas -/

theorem noBare_cons_cons {a b : Str} {rest : List Str} :
    NoBareNeighbours (a :: b :: rest) ↔ (' ' ∈ a ∨ ' ' ∈ b) ∧ NoBareNeighbours (b :: rest) := by
  constructor
  · intro h
    refine ⟨h [] a b rest rfl, fun pre x y post e => h (a :: pre) x y post (by simp [e])⟩
  · rintro ⟨h1, h2⟩ pre x y post e
    cases pre with
    | nil => simp at e; obtain ⟨rfl, rfl, rfl⟩ := e; exact h1
    | cons p ps => simp at e; exact h2 ps x y post e.2

theorem noBare_single (a : Str) : NoBareNeighbours [a] := by
  intro pre x y post e
  have := congrArg List.length e
  simp at this
  omega

theorem noBare_nil : NoBareNeighbours [] := by
  intro pre x y post e; simp at e

theorem glue_ne_nil {a : Str} {rest : List Str} : glue (a :: rest) ≠ [] := by
  cases rest with
  | nil => simp [glue]
  | cons b rest =>
    simp only [glue]
    split
    · split <;> simp
    · simp

/-- The first glued key starts with the first key. -/
theorem glue_head {a : Str} {rest : List Str} :
    ∃ t gs, glue (a :: rest) = (a ++ t) :: gs := by
  cases rest with
  | nil => exact ⟨[], [], by simp [glue]⟩
  | cons b rest =>
    simp only [glue]
    split
    · split
      · exact ⟨[], [], by simp⟩
      · exact ⟨_, _, rfl⟩
    · exact ⟨[], glue (b :: rest), by simp⟩

theorem glue_length_le (ts : List Str) : (glue ts).length ≤ ts.length := by
  induction ts with
  | nil => simp [glue]
  | cons a rest ih =>
    cases rest with
    | nil => simp [glue]
    | cons b rest =>
      simp only [glue]
      split
      · split
        · simp
        · next h => rw [h] at ih; simp at ih ⊢; omega
      · simp at ih ⊢; omega

theorem glue_eq_self_iff (ts : List Str) : glue ts = ts ↔ NoBareNeighbours ts := by
  induction ts with
  | nil => simp [glue, noBare_nil]
  | cons a rest ih =>
    cases rest with
    | nil => simp [glue, noBare_single]
    | cons b rest =>
      rw [noBare_cons_cons, ← ih]
      simp only [glue]
      split
      · next h =>
        constructor
        · intro e
          exfalso
          have h1 := congrArg List.length e
          have h2 := glue_length_le (b :: rest)
          split at h1
          · simp at h1
          · next g gs hg =>
            rw [hg] at h2
            simp at h1 h2
            omega
        · rintro ⟨h1, _⟩
          exact absurd h1 (by simp [h.1, h.2])
      · next h =>
        have : ' ' ∈ a ∨ ' ' ∈ b := by
          by_cases ha : ' ' ∈ a
          · exact Or.inl ha
          · by_cases hb : ' ' ∈ b
            · exact Or.inr hb
            · exact absurd ⟨ha, hb⟩ h
        simp [this]

theorem noBare_glue (ts : List Str) : NoBareNeighbours (glue ts) := by
  have key : ∀ ts : List Str, NoBareNeighbours (glue ts) ∧
      ∀ a rest, ts = a :: rest → ' ' ∈ a → ∃ gs, glue ts = a :: gs := by
    intro ts
    induction ts with
    | nil => exact ⟨noBare_nil, by simp⟩
    | cons a rest ih =>
      cases rest with
      | nil => exact ⟨noBare_single a, by simp [glue]⟩
      | cons b rest =>
        simp only [glue]
        split
        · next h =>
          refine ⟨?_, ?_⟩
          · split
            · exact noBare_single _
            · next g gs hg =>
              have h1 := ih.1
              rw [hg] at h1
              cases gs with
              | nil => exact noBare_single _
              | cons g' gs' =>
                rw [noBare_cons_cons] at h1 ⊢
                exact ⟨Or.inl (by simp), h1.2⟩
          · intro x r e hx
            simp at e
            rw [← e.1] at hx
            exact absurd hx h.1
        · next h =>
          refine ⟨?_, fun x r e _ => ⟨_, by simp at e; rw [e.1]⟩⟩
          have h1 := ih.1
          cases hg : glue (b :: rest) with
          | nil => exact noBare_single _
          | cons g gs =>
            rw [hg] at h1
            rw [noBare_cons_cons]
            refine ⟨?_, h1⟩
            by_cases ha : ' ' ∈ a
            · exact Or.inl ha
            · have hb : ' ' ∈ b := by
                by_cases hb : ' ' ∈ b
                · exact hb
                · exact absurd ⟨ha, hb⟩ h
              obtain ⟨gs', hgs⟩ := ih.2 b rest rfl hb
              rw [hg] at hgs
              cases hgs
              exact Or.inr hb
  exact (key ts).1

theorem quoteToken_of_mem {a : Str} (h : ' ' ∈ a) : quoteToken a = '\'' :: a ++ ['\''] := by
  unfold quoteToken
  rw [if_pos ((splitChar_length ' ' a).2 h)]

theorem quoteToken_of_not_mem {a : Str} (h : ' ' ∉ a) : quoteToken a = a := by
  unfold quoteToken
  rw [if_neg (fun h' => h ((splitChar_length ' ' a).1 h'))]

theorem formatToken_eq {ts : List Str} (h : ∀ t ∈ ts, GoodKey t) :
    formatToken ts = join [' '] (ts.map quoteToken) := by
  unfold formatToken
  congr 1
  rw [List.filter_eq_self]
  intro e he
  obtain ⟨t, ht, rfl⟩ := List.mem_map.1 he
  have g := h t ht
  simp only [decide_eq_true_eq, replaceAll_char]
  by_cases hb : ' ' ∈ t
  · rw [quoteToken_of_mem hb]
    simp
  · rw [quoteToken_of_not_mem hb]
    intro hf
    apply g.ne
    cases t with
    | nil => rfl
    | cons x xs =>
      exfalso
      have : x ≠ ' ' := fun e => hb (by simp [e])
      simp [this] at hf

theorem extractTokens_space (s : Str) : extractTokens (' ' :: s) = extractTokens s := by
  unfold extractTokens
  obtain ⟨p, ps, hp, hq⟩ := splitChar_cons_ne (c := '\'') (x := ' ') s (by decide)
  rw [hp, hq]
  simp only [List.map_cons]
  rw [strip_cons_space (by decide)]

theorem GoodKey.strip {t : Str} (g : GoodKey t) : strip t = t := strip_eq_self g.trimmed.1 g.trimmed.2

theorem extract_quoted {t s : Str} (g : GoodKey t) :
    extractTokens ('\'' :: t ++ ['\''] ++ s) = t :: extractTokens s := by
  unfold extractTokens
  simp only [List.cons_append, List.append_assoc, List.nil_append]
  rw [splitChar_cons_self, splitChar_append_sep g.noQuote]
  have h0 : Opy.strip [] = [] := by decide
  simp only [List.map_cons, h0, List.filter_cons, g.strip]
  simp [g.ne]

/-- What the text of a well-formed, non-empty key list decodes to, with the shape of the
first piece, needed for the induction. -/
theorem extract_join {a : Str} {rest : List Str} (h : ∀ t ∈ a :: rest, GoodKey t) :
    extractTokens (join [' '] ((a :: rest).map quoteToken)) = glue (a :: rest) ∧
    (' ' ∉ a → ∃ p ps, splitChar '\'' (join [' '] ((a :: rest).map quoteToken)) = (a ++ p) :: ps) := by
  induction rest generalizing a with
  | nil =>
    have g := h a (by simp)
    by_cases hb : ' ' ∈ a
    · refine ⟨?_, fun h' => absurd hb h'⟩
      simp only [List.map_cons, List.map_nil, join, quoteToken_of_mem hb, glue]
      have := extract_quoted (s := []) g
      simp only [List.append_nil] at this
      rw [this]
      rfl
    · simp only [List.map_cons, List.map_nil, join, quoteToken_of_not_mem hb, glue]
      have e := splitChar_of_not_mem g.noQuote
      refine ⟨?_, fun _ => ⟨[], [], by simpa using e⟩⟩
      unfold extractTokens
      rw [e]
      simp [g.strip, g.ne]
  | cons b rest ih =>
    have g := h a (by simp)
    have gb := h b (by simp)
    obtain ⟨ih1, ih2⟩ := ih (a := b) (fun t ht => h t (List.mem_cons_of_mem _ ht))
    have hj : join [' '] ((a :: b :: rest).map quoteToken) =
        quoteToken a ++ ' ' :: join [' '] ((b :: rest).map quoteToken) := by
      simp [join]
    rw [hj]
    by_cases hb : ' ' ∈ a
    · refine ⟨?_, fun h' => absurd hb h'⟩
      rw [quoteToken_of_mem hb, extract_quoted g, extractTokens_space, ih1]
      simp [glue, hb]
    · rw [quoteToken_of_not_mem hb]
      have hnq : '\'' ∉ a ++ [' '] := by simp [g.noQuote]
      obtain ⟨p, ps, hp, hq⟩ := splitChar_append hnq (join [' '] ((b :: rest).map quoteToken))
      have hq' : splitChar '\'' (a ++ ' ' :: join [' '] ((b :: rest).map quoteToken)) =
          (a ++ (' ' :: p)) :: ps := by simpa using hq
      refine ⟨?_, fun _ => ⟨_, _, hq'⟩⟩
      unfold extractTokens at ih1 ⊢
      rw [hp] at ih1
      rw [hq']
      simp only [List.map_cons, List.filter_cons] at ih1 ⊢
      by_cases hbb : ' ' ∈ b
      · -- the next piece is empty
        have hpe : p = [] := by
          have e : splitChar '\'' (join [' '] ((b :: rest).map quoteToken)) = p :: ps := hp
          have : ∃ s, join [' '] ((b :: rest).map quoteToken) = '\'' :: s := by
            cases rest with
            | nil => exact ⟨b ++ ['\''], by simp [join, quoteToken_of_mem hbb]⟩
            | cons c rest =>
              refine ⟨b ++ ['\''] ++ [' '] ++ join [' '] ((c :: rest).map quoteToken), ?_⟩
              simp only [List.map_cons, join, quoteToken_of_mem hbb, List.cons_append]
          obtain ⟨s, hs⟩ := this
          rw [hs, splitChar_cons_self] at e
          cases e; rfl
        subst hpe
        have hst : Opy.strip (a ++ [' ']) = a := by
          have := strip_space_append_space (a := []) (s := a) (b := [' ']) (by simp) (by simp; decide)
          simpa [g.strip] using this
        have h0 : Opy.strip [] = [] := by decide
        rw [hst]
        rw [h0] at ih1
        simp [g.ne, glue, hbb] at ih1 ⊢
        exact ih1
      · -- the next piece starts with b
        obtain ⟨q, qs, hq2⟩ := ih2 hbb
        rw [hq2] at hp
        cases hp
        have hbl : lstrip (b ++ q) = b ++ q := by
          apply lstrip_eq_self
          intro c hc
          apply gb.trimmed.1
          cases hbe : b with
          | nil => exact absurd hbe gb.ne
          | cons x xs => rw [hbe] at hc; simpa using hc
        have hbr : rstrip (b ++ q) ≠ [] := by
          intro e
          have h1 : Opy.strip (b ++ q) = [] := by unfold Opy.strip; rw [hbl, e]
          have h2 : ∃ c, b.head? = some c := by
            cases hbe : b with
            | nil => exact absurd hbe gb.ne
            | cons x xs => exact ⟨x, rfl⟩
          obtain ⟨c, hc⟩ := h2
          have hcs := gb.trimmed.1 c hc
          have hmem : c ∈ (b ++ q) := by
            cases hbe : b with
            | nil => exact absurd hbe gb.ne
            | cons x xs => rw [hbe] at hc; simp at hc; simp [hc]
          have : (b ++ q).reverse.dropWhile isSpace = [] := by
            simpa [rstrip] using e
          rw [dropWhile_nil_iff] at this
          have := this c (List.mem_reverse.2 hmem)
          simp [hcs] at this
        have hsb : Opy.strip (b ++ q) = rstrip (b ++ q) := by unfold Opy.strip; rw [hbl]
        have hal : lstrip (a ++ ' ' :: (b ++ q)) = a ++ ' ' :: (b ++ q) := by
          apply lstrip_eq_self
          intro c hc
          apply g.trimmed.1
          cases hae : a with
          | nil => exact absurd hae g.ne
          | cons x xs => rw [hae] at hc; simpa using hc
        have hsa : Opy.strip (a ++ ' ' :: (b ++ q)) = a ++ ' ' :: rstrip (b ++ q) := by
          unfold Opy.strip
          rw [hal]
          have := rstrip_append (a := a ++ [' ']) hbr
          simpa using this
        rw [hsb] at ih1
        rw [hsa]
        simp only [glue, hb, hbb, not_false_eq_true, and_self, if_true]
        rw [← ih1]
        simp [hbr]

/-! ## Property theorems -/

/-- C01 (first half): decoding the encoded key list glues runs of blank-free neighbours and
changes nothing else. -/
theorem c01_extract_format {ts : List Str} (h : ∀ t ∈ ts, GoodKey t) :
    extractTokens (formatToken ts) = glue ts := by
  rw [formatToken_eq h]
  cases ts with
  | nil => decide
  | cons a rest => exact (extract_join h).1

/-- C01 (second half): the key list survives exactly when no two neighbours are blank-free. -/
theorem c01_roundtrip_iff {ts : List Str} (h : ∀ t ∈ ts, GoodKey t) :
    extractTokens (formatToken ts) = ts ↔ NoBareNeighbours ts := by
  rw [c01_extract_format h, glue_eq_self_iff]

theorem goodKey_ab : ∀ t ∈ [py!"concept:name", py!"Activity code", py!"org:resource"], GoodKey t := by
  intro t ht
  simp only [List.mem_cons, List.not_mem_nil, or_false] at ht
  rcases ht with rfl | rfl | rfl <;>
    exact ⟨by decide, ⟨by intro c hc; simp at hc; subst hc; decide, by intro c hc; simp at hc; subst hc; decide⟩, by decide⟩

/-- Non-vacuity of C01: a three-key list that survives. -/
example : extractTokens (formatToken [py!"concept:name", py!"Activity code", py!"org:resource"]) =
    [py!"concept:name", py!"Activity code", py!"org:resource"] := by decide
example : NoBareNeighbours [py!"concept:name", py!"Activity code", py!"org:resource"] :=
  (c01_roundtrip_iff goodKey_ab).1 (by decide)
/-- ... and one with a run that is glued. -/
example : glue [py!"a", py!"b", py!"c d", py!"e"] = [py!"a b", py!"c d", py!"e"] := by decide

/-- C02, refuted: there are well-formed key lists that do not survive; in fact every list with
two blank-free neighbours does not. -/
theorem c02_lossless_refuted :
    ∃ ts : List Str, (∀ t ∈ ts, GoodKey t) ∧ extractTokens (formatToken ts) ≠ ts :=
  ⟨[py!"concept:name", py!"lifecycle:transition"], by
    intro t ht
    simp only [List.mem_cons, List.not_mem_nil, or_false] at ht
    rcases ht with rfl | rfl <;>
      exact ⟨by decide, ⟨by intro c hc; simp at hc; subst hc; decide, by intro c hc; simp at hc; subst hc; decide⟩, by decide⟩,
   by decide⟩

/-- C02, what holds: key lists in which every key contains a blank, and single keys, survive.
Missing: lists with two blank-free neighbours (false, see `c02_lossless_refuted`). -/
theorem c02_lossless_partial {ts : List Str} (h : ∀ t ∈ ts, GoodKey t)
    (hs : (∀ t ∈ ts, ' ' ∈ t) ∨ ts.length ≤ 1) : extractTokens (formatToken ts) = ts := by
  rw [c01_roundtrip_iff h]
  rintro pre a b post rfl
  rcases hs with hs | hs
  · exact Or.inl (hs a (by simp))
  · simp at hs; omega

example : extractTokens (formatToken [py!"a b", py!"c d"]) = [py!"a b", py!"c d"] := by decide

/-- C03 (first half): every extracted token of any string is well-formed. -/
theorem c03_tokens_clean (s : Str) : ∀ t ∈ extractTokens s, GoodKey t := by
  intro t ht
  unfold extractTokens at ht
  simp only [List.mem_filter, List.mem_map, decide_eq_true_eq] at ht
  obtain ⟨⟨p, hp, rfl⟩, hne⟩ := ht
  exact ⟨hne, ⟨fun c => strip_head, fun c => strip_last⟩,
    fun hm => not_mem_of_mem_splitChar hp ((strip_sublist p).subset hm)⟩

/-- C03 (second half): a second trip changes nothing. -/
theorem c03_second_trip {ts : List Str} (h : ∀ t ∈ ts, GoodKey t) :
    extractTokens (formatToken (extractTokens (formatToken ts))) = extractTokens (formatToken ts) := by
  rw [c01_roundtrip_iff (c03_tokens_clean _), c01_extract_format h]
  exact noBare_glue ts

/-- The second trip can still change key lists that contain quotes, so the hypothesis matters. -/
example : extractTokens (formatToken (extractTokens (formatToken [py!"a'b"]))) ≠
    extractTokens (formatToken [py!"a'b"]) := by decide

end Opy
