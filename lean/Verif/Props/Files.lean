import Verif.Model.Files
import Mathlib.Data.List.Induction
import Mathlib.Tactic.ByContra
import Mathlib.Tactic.Conv
/-
C52-C56: which files the parsers accept, the universal parser, registries.
-/
namespace Opy

/-! ## C52 -/

/-- Specification: `name` ends with `suffix` and is longer than it. -/
def ProperSuffix (suffix name : Str) : Prop := ∃ stem : Str, stem ≠ [] ∧ name = stem ++ suffix

/-- Specification: the file name endings of each format. -/
def endings : Parser → List Str
  | .mxml => [py!".mxml", py!".xml"]
  | .mxmlGz => [py!".mxml.gz"]
  | .xes => [py!".xes"]
  | .xesGz => [py!".xes.gz"]

theorem isSub_of_length_le {sub s : Str} (h : s.length ≤ sub.length) : isSub sub s = true ↔ s = sub := by
  induction s with
  | nil =>
    simp only [isSub, List.isPrefixOf_iff_prefix, List.prefix_nil]
    exact eq_comm
  | cons x xs ih =>
    have h1 : isSub sub xs = true → False := by
      intro h2
      have := (ih (by simp at h; omega)).1 h2
      subst this
      simp at h
      omega
    simp only [isSub, Bool.or_eq_true, List.isPrefixOf_iff_prefix]
    constructor
    · rintro (h2 | h2)
      · exact (h2.eq_of_length_le h).symm
      · exact (h1 h2).elim
    · intro h2
      exact Or.inl (h2 ▸ List.prefix_rfl)

theorem endsWithIgnoreCase_iff (name suffix : Str) :
    endsWithIgnoreCase name suffix = true ↔ ProperSuffix suffix name := by
  unfold endsWithIgnoreCase ProperSuffix
  by_cases hi : (name.length : Int) - suffix.length > 0
  · have hn : ((name.length : Int) - suffix.length).toNat = name.length - suffix.length := by omega
    simp only [hi, if_true, hn]
    rw [isSub_of_length_le (by simp; omega)]
    constructor
    · intro h
      refine ⟨name.take (name.length - suffix.length), ?_, ?_⟩
      · intro h0
        have := congrArg List.length h0
        simp at this
        omega
      · conv_lhs => rw [← List.take_append_drop (name.length - suffix.length) name, h]
    · rintro ⟨stem, _, rfl⟩
      simp
  · simp only [hi, if_false]
    constructor
    · intro h; cases h
    · rintro ⟨stem, h0, rfl⟩
      have : stem.length > 0 := List.length_pos_iff.2 h0
      rw [List.length_append] at hi
      omega

/-- C52: each shipped parser accepts exactly the names that consist of a non-empty stem followed
by one of its endings, compared letter by letter. -/
theorem c52_can_parse (p : Parser) (name : Str) :
    canParse p name = true ↔ ∃ s ∈ endings p, ∃ stem : Str, stem ≠ [] ∧ name = stem ++ s := by
  cases p <;> simp [canParse, endings, endsWithIgnoreCase_iff, ProperSuffix]

example : canParse .xes py!"log.xes" = true ∧ canParse .xes py!".xes" = false ∧
    canParse .xes py!"a.xes.gz" = false ∧ canParse .mxml py!"a.b/log.xml" = true := by decide

/-! ## C53 -/

/-- C53 is false: the upper-case spelling of an accepted name is rejected. -/
theorem c53_ignoring_case_refuted :
    ∃ (p : Parser) (a b : Str), lower a = lower b ∧ canParse p a ≠ canParse p b :=
  ⟨.xes, py!"log.xes", py!"LOG.XES", by decide, by decide⟩

/-- What is left of C53, for every name: a parser rejects every name that contains no lower-case
ASCII letter at all, in particular the upper-case spelling of every name it accepts; and the case
of the letters before the ending does not matter. -/
theorem c53_partial (p : Parser) (name : Str) :
    canParse p (upper name) = false ∧
    ∀ s ∈ endings p, ∀ a b : Str, lower a = lower b → canParse p (a ++ s) = canParse p (b ++ s) := by
  have hne : ∀ c ∈ upper name, ¬ ('a'.toNat ≤ c.toNat ∧ c.toNat ≤ 'z'.toNat) := by
    intro c hc
    simp only [upper, List.mem_map] at hc
    obtain ⟨d, _, rfl⟩ := hc
    unfold upperChar
    split
    · rename_i h
      have h97 : 'a'.toNat = 97 := rfl
      have h122 : 'z'.toNat = 122 := rfl
      simp only [h97, h122] at h ⊢
      have hv : (d.toNat - 32).isValidChar := Or.inl (by omega)
      have : (Char.ofNat (d.toNat - 32)).toNat = d.toNat - 32 := by
        unfold Char.ofNat
        rw [dif_pos hv]
        rfl
      rw [this]
      omega
    · assumption
  have key : ∀ s ∈ endings p, ∃ c ∈ s, 'a'.toNat ≤ c.toNat ∧ c.toNat ≤ 'z'.toNat := by
    cases p <;> simp [endings]
  constructor
  · rw [Bool.eq_false_iff]
    intro h
    obtain ⟨s, hs, stem, _, h⟩ := (c52_can_parse p (upper name)).1 h
    obtain ⟨c, hc, hl⟩ := key s hs
    exact hne c (by rw [h]; simp [hc]) hl
  · intro s hs a b hab
    have hlen : a.length = b.length := by
      have := congrArg List.length hab
      simpa [lower] using this
    have hnil : a = [] ↔ b = [] := by
      rw [← List.length_eq_zero_iff, ← List.length_eq_zero_iff, hlen]
    have pos : ∀ x : Str, x ≠ [] → canParse p (x ++ s) = true := fun x hx =>
      (c52_can_parse p _).2 ⟨s, hs, x, hx, rfl⟩
    by_cases ha : a = []
    · rw [ha, hnil.1 ha]
    · rw [pos a ha, pos b (fun h => ha (hnil.2 h))]

example : canParse .xes py!"LOG.xes" = canParse .xes py!"log.xes" := by decide

/-! ## C54 -/

theorem endings_disjoint (p q : Parser) (s t : Str) (hs : s ∈ endings p) (ht : t ∈ endings q) (a b : Str)
    (h : a ++ s = b ++ t) : p = q := by
  have h2 : s <:+ t ∨ t <:+ s := by
    have h3 : s <:+ b ++ t := h ▸ List.suffix_append a s
    have h4 : t <:+ b ++ t := List.suffix_append b t
    exact List.suffix_or_suffix_of_suffix h3 h4
  have h5 : s.isSuffixOf t = true ∨ t.isSuffixOf s = true := by
    simpa [List.isSuffixOf_iff_suffix] using h2
  revert h5 h2
  clear h
  cases p <;> cases q <;> simp only [endings, List.mem_cons, List.not_mem_nil, or_false] at hs ht <;>
    first
    | (intros; rfl)
    | (rcases hs with rfl | rfl <;> rcases ht with rfl | rfl <;> decide)

/-- C54, first part: no name is accepted by two of the shipped parsers. -/
theorem c54_one_parser (name : Str) (p q : Parser) (hp : canParse p name = true) (hq : canParse q name = true) :
    p = q := by
  obtain ⟨s, hs, a, _, ha⟩ := (c52_can_parse p name).1 hp
  obtain ⟨t, ht, b, _, hb⟩ := (c52_can_parse q name).1 hq
  exact endings_disjoint p q s t hs ht a b (ha ▸ hb)

/-- The parser registry holds exactly the four shipped parsers, once each. -/
theorem parserRegistry_items : parserRegistry.items.Nodup ∧ ∀ p : Parser, p ∈ parserRegistry.items := by
  constructor
  · decide
  · intro p; cases p <;> decide

theorem universalParse_none {β : Type} {name : Str} {run : List Parser → Parser → Except PyErr β}
    {order : List Parser} (h : ∀ p ∈ order, canParse p name = false) (tried : List Parser) :
    universalParse name run tried order = .error .other := by
  induction order generalizing tried with
  | nil => rfl
  | cons q qs ih =>
    simp only [universalParse, h q (by simp)]
    exact ih (fun p hp => h p (by simp [hp])) tried

/-- C54, second part: whatever the order in which the registry enumerates its parsers, and however
the parsers behave (even if earlier attempts disturb the file object), `XUniversalParser.parse`
returns the logs of the one accepting parser, run on the untouched file; it raises exactly if no
parser accepts the name or the accepting parser raises. -/
theorem c54_universal {β : Type} (name : Str) (run : List Parser → Parser → Except PyErr β)
    (order : List Parser) (ho : order.Perm parserRegistry.items) :
    (∀ logs, universalParse name run [] order = .ok logs ↔ ∃ p, canParse p name = true ∧ run [] p = .ok logs) ∧
    (∀ e, universalParse name run [] order = .error e ↔
      e = .other ∧ ∀ p, canParse p name = true → ∃ e', run [] p = .error e') ∧
    (universalCanParse name order = true ↔ ∃ p, canParse p name = true) := by
  have hmem : ∀ p, p ∈ order := fun p => ho.mem_iff.2 (parserRegistry_items.2 p)
  have hnd : order.Nodup := ho.nodup_iff.2 parserRegistry_items.1
  have huc : ∀ os : List Parser, universalCanParse name os = true ↔ ∃ p ∈ os, canParse p name = true := by
    intro os
    induction os with
    | nil => simp [universalCanParse]
    | cons q qs ih =>
      by_cases hq : canParse q name = true
      · simp [universalCanParse, hq]
      · simp [universalCanParse, hq, ih]
  have main : ∀ (os : List Parser) (p : Parser), os.Nodup → p ∈ os → canParse p name = true →
      universalParse name run [] os = match run [] p with | .ok r => .ok r | .error _ => .error .other := by
    intro os p hn hp hc
    induction os with
    | nil => cases hp
    | cons q qs ih =>
      by_cases hq : q = p
      · subst hq
        simp only [universalParse, hc, if_true]
        cases hr : run [] q with
        | ok r => rfl
        | error e =>
          refine universalParse_none (name := name) (order := qs) (fun p' hp' => ?_) _
          by_contra h
          have := c54_one_parser name p' q (by simpa using h) hc
          subst this
          exact (List.nodup_cons.1 hn).1 hp'
      · have hq2 : canParse q name = false := by
          by_contra h
          exact hq (c54_one_parser name q p (by simpa using h) hc)
        simp only [universalParse, hq2]
        rcases List.mem_cons.1 hp with h | h
        · exact (hq h.symm).elim
        · exact ih (List.nodup_cons.1 hn).2 h
  refine ⟨?_, ?_, ?_⟩
  · intro logs
    by_cases hex : ∃ p, canParse p name = true
    · obtain ⟨p, hp⟩ := hex
      rw [main order p hnd (hmem p) hp]
      constructor
      · intro h
        refine ⟨p, hp, ?_⟩
        cases hr : run [] p with
        | ok r => rw [hr] at h; exact h
        | error e => rw [hr] at h; cases h
      · rintro ⟨p', hp', hr⟩
        have := c54_one_parser name p' p hp' hp
        subst this
        rw [hr]
    · rw [universalParse_none (fun p _ => by simpa using fun h => hex ⟨p, h⟩)]
      constructor
      · intro h; cases h
      · rintro ⟨p, hp, _⟩; exact (hex ⟨p, hp⟩).elim
  · intro e
    by_cases hex : ∃ p, canParse p name = true
    · obtain ⟨p, hp⟩ := hex
      rw [main order p hnd (hmem p) hp]
      constructor
      · intro h
        cases hr : run [] p with
        | ok r => rw [hr] at h; cases h
        | error e' =>
          rw [hr] at h
          refine ⟨?_, fun p' hp' => ?_⟩
          · cases h; rfl
          · have := c54_one_parser name p' p hp' hp
            subst this
            exact ⟨e', hr⟩
      · rintro ⟨rfl, h⟩
        obtain ⟨e', hr⟩ := h p hp
        rw [hr]
    · rw [universalParse_none (fun p _ => by simpa using fun h => hex ⟨p, h⟩)]
      constructor
      · intro h
        cases h
        exact ⟨rfl, fun p hp => (hex ⟨p, hp⟩).elim⟩
      · rintro ⟨rfl, _⟩; rfl
  · rw [huc]
    constructor
    · rintro ⟨p, _, h⟩; exact ⟨p, h⟩
    · rintro ⟨p, h⟩; exact ⟨p, hmem p, h⟩

/-- An order other than that of registration, a failing parser that must not be reached, and the
accepting parser in last position. -/
example : universalParse (β := Nat) py!"dir/log.xes.gz"
    (fun tried p => if p = .xesGz ∧ tried = [] then .ok 7 else .error .valueError) []
    [.xes, .mxmlGz, .mxml, .xesGz] = .ok 7 ∧
    [Parser.xes, .mxmlGz, .mxml, .xesGz].Perm parserRegistry.items := by decide

/-! ## C55 -/

/-- C55 is false for the suffix `xez` of the compressed XES serializer: no file name with it is
accepted by the universal parser, whatever the stem. -/
theorem c55_xez_refuted (stem : Str) (order : List Parser) :
    py!"xez" ∈ sufficesOf .xesGz ∧ universalCanParse (stem ++ py!".xez") order = false := by
  refine ⟨by decide, ?_⟩
  have hno : ∀ p, canParse p (stem ++ py!".xez") = false := by
    intro p
    rw [Bool.eq_false_iff]
    intro h
    obtain ⟨s, hs, a, _, ha⟩ := (c52_can_parse p _).1 h
    have h3 : py!".xez" <:+ s ∨ s <:+ py!".xez" :=
      List.suffix_or_suffix_of_suffix (List.suffix_append stem _) (ha ▸ List.suffix_append a s)
    have h5 : (py!".xez").isSuffixOf s = true ∨ s.isSuffixOf py!".xez" = true := by
      simpa only [List.isSuffixOf_iff_suffix] using h3
    revert h5
    clear ha h3 h
    cases p <;> simp only [endings, List.mem_cons, List.not_mem_nil, or_false] at hs
    · rcases hs with rfl | rfl <;> decide
    all_goals subst hs; decide
  induction order with
  | nil => rfl
  | cons q qs ih => simp [universalCanParse, hno q, ih]

/-- Specification: the parser of the format that a serializer writes. -/
def sameFormat : Serializer → Parser
  | .mxml => .mxml
  | .mxmlGz => .mxmlGz
  | .xes => .xes
  | .xesGz => .xesGz

/-- C55 for all other advertised suffixes: a file name made of a non-empty stem, a dot and the suffix
is accepted by the universal parser, whatever the enumeration order - and the parser that accepts
is the one of the same format. -/
theorem c55_suffices_partial (z : Serializer) (s : Str) (hs : s ∈ sufficesOf z) (hx : s ≠ py!"xez")
    (stem : Str) (hstem : stem ≠ []) (order : List Parser) (ho : order.Perm parserRegistry.items) :
    universalCanParse (stem ++ '.' :: s) order = true ∧
    canParse (sameFormat z) (stem ++ '.' :: s) = true := by
  have key : canParse (sameFormat z) (stem ++ '.' :: s) = true := by
    rw [c52_can_parse]
    refine ⟨'.' :: s, ?_, stem, hstem, rfl⟩
    cases z <;> simp only [sufficesOf, List.mem_cons, List.not_mem_nil, or_false] at hs
    · subst hs; decide
    · subst hs; decide
    · subst hs; decide
    · rcases hs with rfl | rfl
      · exact (hx rfl).elim
      · decide
  exact ⟨(c54_universal (β := Unit) _ (fun _ _ => .ok ()) order ho).2.2.2 ⟨_, key⟩, key⟩

example : universalCanParse (py!"log" ++ '.' :: py!"xes.gz") parserRegistry.items = true := by decide

/-! ## C56 -/

section
variable {α : Type} [DecidableEq α]

/-- The object passed to a call. -/
def RegCall.arg : RegCall α → α
  | .register x => x
  | .setDefault x => x

/-- Specification: the default is the last object set explicitly; if there is none, the first object
registered. -/
def specDefault (calls : List (RegCall α)) : Option α :=
  match (calls.filterMap fun | .setDefault x => some x | .register _ => none).getLast? with
  | some x => some x
  | none => (calls.map RegCall.arg).head?

theorem setAdd_mem (x y : α) (xs : List α) : y ∈ setAdd x xs ↔ y ∈ xs ∨ y = x := by
  unfold setAdd
  split
  · constructor
    · exact Or.inl
    · rintro (h | rfl) <;> assumption
  · simp

theorem setAdd_nodup (x : α) (xs : List α) (h : xs.Nodup) : (setAdd x xs).Nodup := by
  unfold setAdd
  split
  · exact h
  · rename_i hx
    rw [List.nodup_append]
    refine ⟨h, by simp, ?_⟩
    intro a ha b hb
    simp at hb
    subst hb
    rintro rfl
    exact hx ha

/-- C56: after any history of `register` and `set_current_default` calls the registry contains
exactly the objects passed, each once, and the default is the last one set explicitly, else the
first one registered (`None` only if there was no call). -/
theorem c56_registry (calls : List (RegCall α)) :
    (Registry.run calls).items.Nodup ∧
    (∀ x, x ∈ (Registry.run calls).items ↔ ∃ c ∈ calls, c.arg = x) ∧
    (Registry.run calls).current = specDefault calls ∧
    ((Registry.run calls).current = none ↔ calls = []) := by
  have main : (Registry.run calls).items.Nodup ∧
      (∀ x, x ∈ (Registry.run calls).items ↔ ∃ c ∈ calls, c.arg = x) ∧
      (Registry.run calls).current = specDefault calls ∧
      ((Registry.run calls).current = none ↔ calls = []) := by
    induction calls using List.reverseRecOn with
    | nil => simp [Registry.run, Registry.empty, specDefault]
    | append_singleton cs c ih =>
      obtain ⟨h1, h2, h3, h4⟩ := ih
      have hrun : Registry.run (cs ++ [c]) = (Registry.run cs).step c := by simp [Registry.run]
      rw [hrun]
      cases c with
      | setDefault x =>
        refine ⟨setAdd_nodup x _ h1, ?_, ?_, ?_⟩
        · intro y
          simp only [Registry.step, Registry.setCurrentDefault, setAdd_mem, h2]
          simp only [List.mem_append, List.mem_singleton]
          constructor
          · rintro (⟨c, hc, he⟩ | rfl)
            · exact ⟨c, Or.inl hc, he⟩
            · exact ⟨_, Or.inr rfl, rfl⟩
          · rintro ⟨c, hc | rfl, he⟩
            · exact Or.inl ⟨c, hc, he⟩
            · exact Or.inr he.symm
        · simp [Registry.step, Registry.setCurrentDefault, specDefault]
        · simp [Registry.step, Registry.setCurrentDefault]
      | register x =>
        have hspec : specDefault (cs ++ [.register x]) =
            match specDefault cs with | none => some x | some d => some d := by
          unfold specDefault
          simp only [List.filterMap_append, List.filterMap_cons, List.filterMap_nil, List.append_nil]
          cases (cs.filterMap fun | .setDefault x => some x | .register _ => none).getLast? with
          | some d => rfl
          | none =>
            cases cs with
            | nil => rfl
            | cons d ds => rfl
        by_cases hx : x ∈ (Registry.run cs).items
        · have hs : (Registry.run cs).step (.register x) = Registry.run cs := by
            simp [Registry.step, Registry.register, hx]
          have hne : cs ≠ [] := by
            rintro rfl
            obtain ⟨c, hc, _⟩ := (h2 x).1 hx
            cases hc
          rw [hs]
          refine ⟨h1, ?_, ?_, ?_⟩
          · intro y
            rw [h2]
            constructor
            · rintro ⟨c, hc, he⟩
              exact ⟨c, by simp [hc], he⟩
            · rintro ⟨c, hc, he⟩
              rcases List.mem_append.1 hc with h | h
              · exact ⟨c, h, he⟩
              · simp at h
                subst h
                subst he
                exact (h2 x).1 hx
          · rw [hspec, ← h3]
            cases hcur : (Registry.run cs).current with
            | none => exact (hne (h4.1 hcur)).elim
            | some d => rfl
          · constructor
            · intro h; exact (hne (h4.1 h)).elim
            · intro h; simp at h
        · have hs : (Registry.run cs).step (.register x) =
              { items := setAdd x (Registry.run cs).items,
                current := match (Registry.run cs).current with | none => some x | some c => some c } := by
            simp only [Registry.step, Registry.register, hx, if_false]
            rfl
          rw [hs]
          refine ⟨setAdd_nodup x _ h1, ?_, ?_, ?_⟩
          · intro y
            simp only [setAdd_mem, h2]
            simp only [List.mem_append, List.mem_singleton]
            constructor
            · rintro (⟨c, hc, he⟩ | rfl)
              · exact ⟨c, Or.inl hc, he⟩
              · exact ⟨_, Or.inr rfl, rfl⟩
            · rintro ⟨c, hc | rfl, he⟩
              · exact Or.inl ⟨c, hc, he⟩
              · exact Or.inr he.symm
          · rw [hspec, ← h3]
          · constructor
            · intro h
              cases hcur : (Registry.run cs).current <;> simp [hcur] at h
            · intro h; simp at h
  exact main

end

/-- The shipped parser registry as such a history. -/
example : (Registry.run [RegCall.register Parser.mxml, .register .mxmlGz, .register .xes, .setDefault .xesGz,
    .register .mxml]).items = [.mxml, .mxmlGz, .xes, .xesGz] ∧
    specDefault [RegCall.register Parser.mxml, .register .mxmlGz, .register .xes, .setDefault .xesGz,
      .register .mxml] = some .xesGz := by decide

/-- What the registry of the model is: the history of data_in/XParserRegistry.py. -/
example : parserRegistry.items = (Registry.run [RegCall.register Parser.mxml, .register .mxmlGz, .register .xes,
    .setDefault .xesGz]).items := by decide

end Opy
