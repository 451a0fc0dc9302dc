import Verif.Props.Ext
/-
C77: assign_nested_values (nested cost amounts and drivers).
-/
set_option linter.unusedSectionVars false
namespace Opy

variable {F : Type} [PyFloat F]

/-! ## Specification -/

/-- Specification: the attribute reached from an attribute map by following the keys. -/
def attrAt : List Str → AttrMap F → Option (Attr F)
  | [], _ => none
  | [k], m => dget k m
  | k :: k' :: rest, m => match dget k m with
    | some a => attrAt (k' :: rest) a.attrs
    | none => none

/-- Specification: an attribute without the attributes nested in it. -/
def bare : Attr F → Attr F
  | .mk k key e v _ c => .mk k key e v [] c

/-- Specification: the amount of the attribute reached by the keys. -/
def amountAt (path : List Str) (m : AttrMap F) : Option (Attr F) := attrAt (path ++ [py!"cost:amount"]) m

/-- Specification: the amounts are positive numbers. -/
def AllPositive (amounts : List (List Str × PyVal F)) : Prop := ∀ p ∈ amounts, pyGt p.2 (.int 0) = .ok true

theorem attrAt_cons {k : Str} {t : List Str} (ht : t ≠ []) (m : AttrMap F) :
    attrAt (k :: t) m = match dget k m with | some a => attrAt t a.attrs | none => none := by
  cases t with
  | nil => exact absurd rfl ht
  | cons a t => rfl

theorem attrAt_nil_map (q : List Str) : attrAt q ([] : AttrMap F) = none := by
  cases q with
  | nil => rfl
  | cons k t =>
    cases t with
    | nil => rfl
    | cons a t => rfl

/-- One step of `assignNested`, without the pattern matching. -/
theorem assignNested_cons (av : AttrMap F → Except PyErr (AttrMap F)) (key : Str) (tail : List Str) (m m' : AttrMap F) :
    assignNested av (key :: tail) m = .ok m' ↔
      ∃ k ky e v sub c sub', reachAttr key m = Attr.mk k ky e v sub c ∧
        (if tail = [] then av sub else assignNested av tail sub) = .ok sub' ∧
        m' = dset key (.mk k ky e v sub' c) m := by
  simp only [assignNested, bind_ok, Except.ok.injEq]
  generalize hA : reachAttr key m = A
  obtain ⟨k, ky, e, v, sub, c⟩ := A
  simp only [withAttrs, Attr.attrs]
  constructor
  · rintro ⟨sub', h1, h2⟩
    exact ⟨k, ky, e, v, sub, c, sub', rfl, h1, h2.symm⟩
  · rintro ⟨k2, ky2, e2, v2, sub2, c2, sub', h0, h1, h2⟩
    simp only [Attr.mk.injEq] at h0
    obtain ⟨rfl, rfl, rfl, rfl, rfl, rfl⟩ := h0
    exact ⟨sub', h1, h2.symm⟩

/-- What assigning a value at one path does, for every value assignment `av` that stores one attribute
`a` without nested attributes under the key `kv`: every path `q` that does not start with the path
of the value is as before, except that missing attributes on the way are created as empty literals. -/
theorem assignNested_at {av : AttrMap F → Except PyErr (AttrMap F)} {kv : Str} {a : Attr F} (ha : a.attrs = [])
    (hav : ∀ m, ∃ m', av m = .ok m' ∧ Stored kv a m m') :
    ∀ (ks : List Str) (m : AttrMap F), ks ≠ [] → ∃ m', assignNested av ks m = .ok m' ∧
      (∀ r, attrAt (ks ++ kv :: r) m' = if r = [] then some a else none) ∧
      (∀ q, ¬ (ks ++ [kv]) <+: q → (attrAt q m').map bare =
        match attrAt q m with
        | some b => some (bare b)
        | none => if q ≠ [] ∧ q <+: ks then q.getLast?.map emptyLiteral else none)
  | [], _, h => absurd rfl h
  | key :: tail, m, _ => by
    obtain ⟨k, ky, e, v, sub, c, hA⟩ : ∃ k ky e v sub c,
        reachAttr key m = Attr.mk k ky e v sub c := by
      generalize reachAttr key m = A
      obtain ⟨k, ky, e, v, sub, c⟩ := A
      exact ⟨k, ky, e, v, sub, c, rfl⟩
    -- the attribute before the assignment
    have hold : ∀ t, t ≠ [] → attrAt (key :: t) m = attrAt t sub := by
      intro t ht
      rw [attrAt_cons ht]
      cases hd : dget key m with
      | none =>
        simp only [reachAttr, hd] at hA
        simp only [emptyLiteral, Attr.mk.injEq] at hA
        obtain ⟨_, _, _, _, rfl, _⟩ := hA
        rw [attrAt_nil_map]
      | some b =>
        simp only [reachAttr, hd] at hA
        rw [hA]; rfl
    have hnew : ∀ (t : List Str) (sub' : AttrMap F), t ≠ [] →
        attrAt (key :: t) (dset key (.mk k ky e v sub' c) m) = attrAt t sub' := by
      intro t sub' ht
      rw [attrAt_cons ht, dget_dset_self]; rfl
    have hother : ∀ (x : Str) (t : List Str) (b : Attr F), x ≠ key → attrAt (x :: t) (dset key b m) = attrAt (x :: t) m := by
      intro x t b hx
      cases t with
      | nil => exact dget_dset_ne hx _ _
      | cons y t => simp only [attrAt, dget_dset_ne hx]
    have hself : ∀ sub', (attrAt [key] (dset key (.mk k ky e v sub' c) m)).map bare =
        match attrAt [key] m with
        | some b => some (bare b)
        | none => some (emptyLiteral key) := by
      intro sub'
      simp only [attrAt, dget_dset_self, Option.map_some, bare]
      cases hd : dget key m with
      | none =>
        simp only [reachAttr, hd] at hA
        simp only [emptyLiteral, Attr.mk.injEq] at hA ⊢
        obtain ⟨rfl, rfl, rfl, rfl, _, rfl⟩ := hA
        rfl
      | some b =>
        simp only [reachAttr, hd] at hA
        rw [hA]
    by_cases htail : tail = []
    · subst htail
      obtain ⟨sub', h1, h2⟩ := hav sub
      refine ⟨dset key (.mk k ky e v sub' c) m,
        (assignNested_cons av key [] m _).2 ⟨k, ky, e, v, sub, c, sub', hA, by simpa using h1, rfl⟩, ?_, ?_⟩
      · intro r
        rw [List.cons_append, List.nil_append, hnew _ _ (by simp)]
        cases r with
        | nil => simp only [attrAt, h2.1, if_true]
        | cons x r =>
          simp only [attrAt, h2.1, ha, attrAt_nil_map]
          simp
      · intro q hq
        cases q with
        | nil => simp [attrAt]
        | cons x t =>
          by_cases hx : x = key
          · subst hx
            cases t with
            | nil =>
              rw [hself]
              cases hd : attrAt [x] m <;> simp
            | cons y t =>
              rw [hnew _ _ (by simp), hold _ (by simp)]
              have hy : y ≠ kv := by
                rintro rfl
                exact hq ⟨t, rfl⟩
              have he : attrAt (y :: t) sub' = attrAt (y :: t) sub := by
                cases t with
                | nil => exact h2.2 y hy
                | cons z t => simp only [attrAt, h2.2 y hy]
              rw [he]
              cases attrAt (y :: t) sub with
              | some b => rfl
              | none => simp
          · rw [hother x t _ hx]
            cases attrAt (x :: t) m with
            | some b => rfl
            | none =>
              have : ¬ (x :: t) <+: [key] := by
                intro h
                have := (List.cons_prefix_cons.1 h).1
                exact hx this
              simp [this]
    · obtain ⟨sub', h1, h2, h3⟩ := assignNested_at ha hav tail sub htail
      refine ⟨dset key (.mk k ky e v sub' c) m,
        (assignNested_cons av key tail m _).2 ⟨k, ky, e, v, sub, c, sub', hA, by rw [if_neg htail]; exact h1, rfl⟩, ?_, ?_⟩
      · intro r
        rw [List.cons_append, hnew _ _ (by simp)]
        exact h2 r
      · intro q hq
        cases q with
        | nil => simp [attrAt]
        | cons x t =>
          by_cases hx : x = key
          · subst hx
            cases t with
            | nil =>
              rw [hself]
              cases hd : attrAt [x] m <;> simp
            | cons y t =>
              rw [hnew _ _ (by simp), hold _ (by simp), h3 (y :: t) (fun h => hq (by
                rw [List.cons_append]; exact List.cons_prefix_cons.2 ⟨rfl, h⟩))]
              cases attrAt (y :: t) sub with
              | some b => rfl
              | none => simp
          · rw [hother x t _ hx]
            cases attrAt (x :: t) m with
            | some b => rfl
            | none =>
              have : ¬ (x :: t) <+: (key :: tail) := by
                intro h
                have := (List.cons_prefix_cons.1 h).1
                exact hx this
              simp [this]

/-! ## C77 -/

/-- Specification: the amount attribute. -/
def amountAttr (v : PyVal F) : Attr F := plain .continuous py!"cost:amount" costExt v

theorem assignAmount_stored {v : PyVal F} (hv : pyGt v (.int 0) = .ok true) (m : AttrMap F) :
    ∃ m', assignAmount v m = .ok m' ∧ Stored py!"cost:amount" (amountAttr v) m m' := by
  obtain ⟨m', h1, _, h2⟩ := (c64_positive hv m).2
  exact ⟨m', h1, h2⟩

theorem append_inj_last {a b : List Str} {x : Str} (h : a ++ [x] = b ++ [x]) : a = b := by
  simpa using h

theorem attrAt_snoc : ∀ (ks : List Str) (x : Str) (m : AttrMap F), ks ≠ [] →
    attrAt (ks ++ [x]) m = match attrAt ks m with | some b => dget x b.attrs | none => none
  | [], _, _, h => absurd rfl h
  | [k], x, m, _ => rfl
  | k :: k' :: rest, x, m, _ => by
    rw [List.cons_append, attrAt_cons (by simp), attrAt_cons (by simp)]
    cases dget k m with
    | none => rfl
    | some a => exact attrAt_snoc (k' :: rest) x a.attrs (by simp)

/-- Specification: the paths of the dict have keys, do not go through an amount, and are different. -/
structure GoodPaths (amounts : List (List Str × PyVal F)) : Prop where
  keys : ∀ p ∈ amounts, p.1 ≠ []
  outside : ∀ p ∈ amounts, py!"cost:amount" ∉ p.1
  distinct : (amounts.map Prod.fst).Nodup

theorem amounts_assigned (amounts : List (List Str × PyVal F)) (m : AttrMap F) (hp : AllPositive amounts)
    (hg : GoodPaths amounts) :
    ∃ m', assignNestedValues assignAmount amounts m = .ok m' ∧
      (∀ p ∈ amounts, (amountAt p.1 m').map bare = some (amountAttr p.2)) ∧
      (∀ q, q ∉ amounts.map Prod.fst → py!"cost:amount" ∉ q →
        (amountAt q m').map bare = (amountAt q m).map bare) ∧
      (∀ q, py!"cost:amount" ∉ q → (attrAt q m').map bare =
        match attrAt q m with
        | some b => some (bare b)
        | none => if q ≠ [] ∧ ∃ p ∈ amounts, q <+: p.1 then q.getLast?.map emptyLiteral else none) := by
  induction amounts generalizing m with
  | nil =>
    refine ⟨m, rfl, by simp, fun q _ _ => rfl, fun q _ => ?_⟩
    cases attrAt q m <;> simp
  | cons p rest ih =>
    obtain ⟨ks, v⟩ := p
    have hv : pyGt v (.int 0) = .ok true := hp (ks, v) (by simp)
    obtain ⟨m1, h1, h2, h3⟩ := assignNested_at (av := assignAmount v) (kv := py!"cost:amount") (a := amountAttr v) rfl
      (fun m => assignAmount_stored hv m) ks m (hg.keys (ks, v) (by simp))
    have hd := hg.distinct
    simp only [List.map_cons, List.nodup_cons] at hd
    obtain ⟨m2, h4, h5, h6, h8⟩ := ih m1 (fun p h => hp p (by simp [h]))
      ⟨fun p h => hg.keys p (by simp [h]), fun p h => hg.outside p (by simp [h]), hd.2⟩
    have hk0 := hg.outside (ks, v) (by simp)
    -- one assignment leaves the amounts of other paths alone
    have frame : ∀ q, q ≠ ks → py!"cost:amount" ∉ q → (amountAt q m1).map bare = (amountAt q m).map bare := by
      intro q hq hqk
      rw [amountAt, h3]
      · cases ho : attrAt (q ++ [py!"cost:amount"]) m with
        | some b => simp [amountAt, ho]
        | none =>
          simp only
          rw [if_neg, amountAt, ho]
          · rfl
          · rintro ⟨_, hpre⟩
            exact hk0 (hpre.subset (by simp))
      · intro hpre
        obtain ⟨t, ht⟩ := hpre
        rcases List.eq_nil_or_concat t with rfl | ⟨t', y, rfl⟩
        · rw [List.append_nil] at ht
          exact hq (append_inj_last ht).symm
        · rw [List.concat_eq_append, ← List.append_assoc] at ht
          have := (List.append_inj' ht rfl).1
          exact hqk (by rw [← this]; simp)
    refine ⟨m2, ?_, ?_, ?_, ?_⟩
    · simp only [assignNestedValues, h1, bind, Except.bind]; exact h4
    · intro p hpm
      rcases List.mem_cons.1 hpm with rfl | hpm
      · have := h6 ks hd.1 hk0
        have h7 : amountAt ks m1 = some (amountAttr v) := by
          have := h2 []
          simpa [amountAt] using this
        rw [this, h7]; rfl
      · exact h5 p hpm
    · intro q hq hqk
      simp only [List.map_cons, List.mem_cons, not_or] at hq
      rw [h6 q hq.2 hqk, frame q hq.1 hqk]
    · intro q hqk
      rw [h8 q hqk]
      have h9 := h3 q (fun h => hqk (h.subset (by simp)))
      cases ho : attrAt q m with
      | some b =>
        rw [ho] at h9
        simp only at h9 ⊢
        cases h1' : attrAt q m1 with
        | none => rw [h1'] at h9; simp at h9
        | some b1 => rw [h1'] at h9; simpa using h9
      | none =>
        rw [ho] at h9
        simp only at h9 ⊢
        cases h1' : attrAt q m1 with
        | some b1 =>
          rw [h1'] at h9
          simp only [Option.map_some] at h9 ⊢
          by_cases hq : q ≠ [] ∧ q <+: ks
          · rw [if_pos hq] at h9
            rw [if_pos ⟨hq.1, (ks, v), by simp, hq.2⟩, h9]
          · rw [if_neg hq] at h9; simp at h9
        | none =>
          rw [h1'] at h9
          simp only [Option.map_none] at h9 ⊢
          by_cases hq : q ≠ [] ∧ q <+: ks
          · rw [if_pos hq] at h9
            cases hl : q.getLast? with
            | none => exact absurd (List.getLast?_eq_none_iff.1 hl) hq.1
            | some x => rw [hl] at h9; simp at h9
          · by_cases hr : q ≠ [] ∧ ∃ p ∈ rest, q <+: p.1
            · obtain ⟨hq0, p, hpm, hpp⟩ := hr
              rw [if_pos ⟨hq0, p, hpm, hpp⟩, if_pos ⟨hq0, p, by simp [hpm], hpp⟩]
            · rw [if_neg hr, if_neg]
              rintro ⟨hq0, p, hpm, hpp⟩
              rcases List.mem_cons.1 hpm with rfl | hpm
              · exact hq ⟨hq0, hpp⟩
              · exact hr ⟨hq0, p, hpm, hpp⟩

/-- Nested amounts can be assigned: for every element and every dict of positive amounts with different
paths outside of amounts, assign_nested_amounts succeeds, and afterwards the attribute at each path
exists and extract_amount returns its amount. -/
theorem c77_amounts (amounts : List (List Str × PyVal F)) (m : AttrMap F) (hp : AllPositive amounts)
    (hg : GoodPaths amounts) :
    ∃ m', assignNestedValues assignAmount amounts m = .ok m' ∧
      ∀ p ∈ amounts, ∃ b, attrAt p.1 m' = some b ∧ extractAmount b.attrs = .ok p.2 := by
  obtain ⟨m', h1, h2, _⟩ := amounts_assigned amounts m hp hg
  refine ⟨m', h1, fun p hpm => ?_⟩
  have h3 := h2 p hpm
  rw [amountAt, attrAt_snoc _ _ _ (hg.keys p hpm)] at h3
  cases hb : attrAt p.1 m' with
  | none => rw [hb] at h3; simp at h3
  | some b =>
    rw [hb] at h3
    simp only at h3
    refine ⟨b, rfl, ?_⟩
    cases hc : dget py!"cost:amount" b.attrs with
    | none => rw [hc] at h3; simp at h3
    | some x =>
      rw [hc] at h3
      obtain ⟨k, ky, e, v, sub, c⟩ := x
      simp only [Option.map_some, bare, amountAttr, plain, Option.some.injEq, Attr.mk.injEq] at h3
      obtain ⟨rfl, rfl, rfl, rfl, _, rfl⟩ := h3
      exact extractOr_of rfl hc

/-- Everything else stays: an attribute outside of amounts keeps its class, key, extension, value and
members, and the only new ones are empty literals on the way to an amount; the amounts of other
attributes keep their values. -/
theorem c77_frame (amounts : List (List Str × PyVal F)) (m m' : AttrMap F) (hp : AllPositive amounts)
    (hg : GoodPaths amounts) (h : assignNestedValues assignAmount amounts m = .ok m') (q : List Str)
    (hq : py!"cost:amount" ∉ q) :
    (∀ b, attrAt q m = some b → (attrAt q m').map bare = some (bare b)) ∧
    (attrAt q m = none → (∃ p ∈ amounts, q <+: p.1) → (attrAt q m').map bare = q.getLast?.map emptyLiteral) ∧
    (attrAt q m = none → (¬ ∃ p ∈ amounts, q <+: p.1) → attrAt q m' = none) ∧
    (q ∉ amounts.map Prod.fst → (amountAt q m').map bare = (amountAt q m).map bare) := by
  obtain ⟨m2, h1, _, h3, h4⟩ := amounts_assigned amounts m hp hg
  rw [h] at h1
  simp only [Except.ok.injEq] at h1
  subst h1
  refine ⟨fun b hb => ?_, fun hn hx => ?_, fun hn hx => ?_, fun hx => h3 q hx hq⟩
  · rw [h4 q hq, hb]
  · rw [h4 q hq, hn]
    by_cases hq0 : q = []
    · subst hq0; simp
    · simp only [hq0, ne_eq, not_false_eq_true, true_and, hx, if_true]
  · have := h4 q hq
    rw [hn] at this
    simp only [hx, and_false, if_false] at this
    simpa using this

/-- Two amounts on an event, one below a new attribute. -/
def sampleAmounts : List (List Str × PyVal ToyFloat) :=
  [([py!"concept:name"], .int 5), ([py!"new", py!"sub"], .int 7)]

example : AllPositive sampleAmounts ∧ GoodPaths sampleAmounts := by
  refine ⟨?_, ?_, ?_, ?_⟩
  · intro p hp
    simp only [sampleAmounts, List.mem_cons, List.not_mem_nil, or_false] at hp
    rcases hp with rfl | rfl <;> rfl
  · intro p hp
    simp only [sampleAmounts, List.mem_cons, List.not_mem_nil, or_false] at hp
    rcases hp with rfl | rfl <;> simp
  · intro p hp
    simp only [sampleAmounts, List.mem_cons, List.not_mem_nil, or_false] at hp
    rcases hp with rfl | rfl <;> decide
  · simp only [sampleAmounts, List.map_cons, List.map_nil]; decide

/-- Nested drivers: one assignment of a non-blank driver at any path succeeds and is read back at that
path; see `assignNested_at` for the frame. -/
theorem c77_driver {x : Str} (hx : NonBlank x) (ks : List Str) (hks : ks ≠ []) (m : AttrMap F) :
    ∃ m', assignNestedValues assignDriverVal [(ks, .str x)] m = .ok m' ∧
      ∃ b, attrAt ks m' = some b ∧ extractDriver b.attrs = .ok (.str x) := by
  obtain ⟨m', h1, h2, _⟩ := assignNested_at (av := assignDriverVal (.str x)) (kv := py!"cost:driver")
    (a := plain .literal py!"cost:driver" costExt (.str x)) rfl
    (fun m => ⟨_, rfl, ((c64_driver x m).1 hx).2⟩) ks m hks
  refine ⟨m', by simp only [assignNestedValues, h1, bind, Except.bind], ?_⟩
  have h3 := h2 []
  rw [attrAt_snoc _ _ _ hks, if_pos rfl] at h3
  cases hb : attrAt ks m' with
  | none => rw [hb] at h3; simp at h3
  | some b => rw [hb] at h3; exact ⟨b, rfl, extractOr_of rfl h3⟩

/-- Nested types cannot be assigned: whatever the texts, what is stored is the class object `type`. -/
theorem c77_types_refuted {x : Str} (hx : NonBlank x) (key : Str) (m : AttrMap F) :
    ∃ m', assignNestedValues assignTypeVal [([key], .str x)] m = .ok m' ∧
      ∃ b, attrAt [key] m' = some b ∧ extractType b.attrs = .ok .typ := by
  simp only [assignNestedValues, assignNested, assignTypeVal, bind, Except.bind, if_true]
  refine ⟨_, rfl, _, dget_dset_self _ _ _, ?_⟩
  cases reachAttr key m
  exact (c64_refuted hx _).2.2

/-! ## C127 -/

/-- **C127** is violated: amounts and drivers cannot be assigned by key at all; every dict with an entry raises TypeError. -/
theorem c127_refuted (p : Str × PyVal F) (r : List (Str × PyVal F)) (m : AttrMap F) :
    assignAmounts (p :: r) m = .error .typeError ∧ assignDrivers (p :: r) m = .error .typeError := ⟨rfl, rfl⟩

/-- C127 is violated for types: a key of two or more characters is taken for a path of keys of one character each. The attribute of that
key is neither created nor changed, and at the end of the path the class object `type` is stored. -/
theorem c127_types_refuted {x : Str} (hx : NonBlank x) (c d : Char) (cs : Str) (m : AttrMap F) :
    ∃ m', assignTypes [(c :: d :: cs, .str x)] m = .ok m' ∧ dget (c :: d :: cs) m' = dget (c :: d :: cs) m ∧
      ∃ b, attrAt ((c :: d :: cs).map fun c => [c]) m' = some b ∧ extractType b.attrs = .ok .typ := by
  have hks : (c :: d :: cs).map (fun c => [c]) ≠ [] := by simp
  obtain ⟨m', h1, h2, _⟩ := assignNested_at (av := assignTypeVal (.str x)) (kv := py!"cost:type")
    (a := plain .literal py!"cost:type" costExt .typ) rfl
    (fun m => ⟨_, rfl, by simp only [assignType, (given_iff x).2 hx, if_true]; exact stored_dset _ _ _⟩) _ m hks
  refine ⟨m', by simp only [assignTypes, List.map_cons, List.map_nil, assignNestedValues, bind, Except.bind]; rw [List.map_cons, List.map_cons] at h1; rw [h1], ?_, ?_⟩
  · rw [List.map_cons, assignNested_cons] at h1
    obtain ⟨k, ky, e, v, sub, cl, sub', _, _, rfl⟩ := h1
    exact dget_dset_ne (by simp) _ _
  · have h3 := h2 []
    rw [attrAt_snoc _ _ _ hks, if_pos rfl] at h3
    cases hb : attrAt ((c :: d :: cs).map fun c => [c]) m' with
    | none => rw [hb] at h3; simp at h3
    | some b => rw [hb] at h3; exact ⟨b, rfl, extractOr_of rfl h3⟩

/-- Empty dicts change nothing. -/
theorem c127_empty_partial (m : AttrMap F) : assignAmounts [] m = .ok m ∧ assignDrivers [] m = .ok m ∧ assignTypes [] m = .ok m := ⟨rfl, rfl, rfl⟩

example : ∃ m', assignTypes [(py!"ab", .str py!"Fixed")] ([] : AttrMap ToyFloat) = .ok m' ∧ dget py!"ab" m' = none ∧
    ∃ b, attrAt [py!"a", py!"b"] m' = some b ∧ extractType b.attrs = .ok .typ := c127_types_refuted ⟨'F', by decide, by decide⟩ 'a' 'b' [] []

end Opy
