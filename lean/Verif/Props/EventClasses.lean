import Verif.Props.Classify
/-
Properties C19-C23 (event classes and the AND classifier).
-/
set_option linter.unusedSectionVars false

namespace Opy

section
variable {F : Type} [PyFloat F]

/-! ## Specification -/

/-- All events of a log, in order. -/
def allEvents (log : Log F) : List (Event F) := (log.traces.map Trace.events).flatten

/-- `ids` are the class identities of all events of the log, in order. -/
def IdentitiesOf (c : Classifier) (log : Log F) (ids : List Str) : Prop :=
  (allEvents log).map (classIdentity c) = ids.map .ok

/-! ## Registration -/

theorem registerEvents_ids {c : Classifier} : ∀ {es : List (Event F)} {ids : List Str} (m : ClassMap),
    es.map (classIdentity c) = ids.map .ok → registerEvents c m es = .ok (ids.foldl registerId m) := by
  intro es
  induction es with
  | nil => intro ids m h; cases ids <;> simp_all [registerEvents]
  | cons e es ih =>
    intro ids m h
    cases ids with
    | nil => simp at h
    | cons s ids =>
      simp only [List.map_cons, List.cons.injEq] at h
      simp only [registerEvents, registerEvent, h.1, bind, Except.bind, List.foldl_cons]
      exact ih _ h.2

theorem registerTraces_ids {c : Classifier} : ∀ {ts : List (Trace F)} {ids : List Str} (m : ClassMap),
    (ts.map Trace.events).flatten.map (classIdentity c) = ids.map .ok →
    registerTraces c m ts = .ok (ids.foldl registerId m) := by
  intro ts
  induction ts with
  | nil => intro ids m h; cases ids <;> simp_all [registerTraces]
  | cons t ts ih =>
    intro ids m h
    simp only [List.map_cons, List.flatten_cons, List.map_append] at h
    have hsplit := congrArg (List.take t.events.length) h
    have hsplit2 := congrArg (List.drop t.events.length) h
    rw [List.take_left' (by simp), ← List.map_take] at hsplit
    rw [List.drop_left' (by simp), ← List.map_drop] at hsplit2
    simp only [registerTraces, registerEvents_ids m hsplit, bind, Except.bind]
    rw [ih _ hsplit2, ← List.foldl_append, List.take_append_drop]

/-- What registration has collected after the identities `ids`. -/
structure Collected (m : ClassMap) (ids : List Str) : Prop where
  nodup : (dkeys m).Nodup
  keys : ∀ s, s ∈ dkeys m ↔ s ∈ ids
  entry : ∀ s c, dget s m = some c → c.id = s ∧ c.size = ids.count s

theorem Collected.step {m : ClassMap} {ids : List Str} (h : Collected m ids) (s : Str) :
    Collected (registerId m s) (ids ++ [s]) := by
  unfold registerId
  cases hd : dget s m with
  | none =>
    have hs : s ∉ dkeys m := dget_eq_none.1 hd
    have hs' : s ∉ ids := fun e => hs ((h.keys s).2 e)
    refine ⟨nodup_dset h.nodup, ?_, ?_⟩
    · intro x
      rw [dkeys_dset, if_neg hs, List.mem_append, h.keys, List.mem_append]
    · intro x c hx
      rw [dget_dset] at hx
      split at hx
      · next e =>
        subst e
        simp at hx
        subst hx
        simp [List.count_append, List.count_eq_zero_of_not_mem hs']
      · next e =>
        obtain ⟨h1, h2⟩ := h.entry x c hx
        refine ⟨h1, ?_⟩
        rw [List.count_append, h2]
        simp [Ne.symm e]
  | some c0 =>
    have hs : s ∈ dkeys m := dget_isSome.1 ⟨_, hd⟩
    refine ⟨nodup_dset h.nodup, ?_, ?_⟩
    · intro x
      rw [dkeys_dset, if_pos hs, h.keys, List.mem_append]
      constructor
      · exact Or.inl
      · rintro (hx | hx)
        · exact hx
        · simp at hx; subst hx; exact (h.keys x).1 hs
    · intro x c hx
      rw [dget_dset] at hx
      split at hx
      · next e =>
        subst e
        simp at hx
        subst hx
        obtain ⟨h1, h2⟩ := h.entry x c0 hd
        simp [List.count_append, h1, h2]
      · next e =>
        obtain ⟨h1, h2⟩ := h.entry x c hx
        refine ⟨h1, ?_⟩
        rw [List.count_append, h2]
        simp [Ne.symm e]

theorem collected_foldl (ids : List Str) : ∀ (m : ClassMap) (done : List Str), Collected m done →
    Collected (ids.foldl registerId m) (done ++ ids) := by
  induction ids with
  | nil => intro m done h; simpa using h
  | cons s ids ih =>
    intro m done h
    have := ih _ _ (h.step s)
    simpa using this

theorem collected (ids : List Str) : Collected (ids.foldl registerId []) ids := by
  have := collected_foldl ids [] [] ⟨by simp [dkeys], by simp [dkeys], by simp⟩
  simpa using this

/-! ## Harmonization -/

theorem harmonizeFrom_eq : ∀ (cs : List EventClass) (i : Nat) (m : ClassMap),
    (dkeys m ++ cs.map EventClass.id).Nodup →
    harmonizeFrom i m cs = m ++ (cs.zipIdx i).map (fun p => (p.1.id, ⟨p.1.id, p.2, p.1.size⟩)) := by
  intro cs
  induction cs with
  | nil => intro i m _; simp [harmonizeFrom]
  | cons c cs ih =>
    intro i m h
    have hc : c.id ∉ dkeys m := by
      intro hm
      rw [List.nodup_append] at h
      exact h.2.2 _ hm c.id (by simp) rfl
    simp only [harmonizeFrom]
    rw [dset_eq_append _ hc, ih]
    · simp
    · have : dkeys (m ++ [(c.id, (⟨c.id, i, c.size⟩ : EventClass))]) = dkeys m ++ [c.id] := by simp [dkeys]
      rw [this]
      simpa using h

/-- The table of classes for a list of identities `K` and sizes taken from `ids`. -/
def classTable (K ids : List Str) : ClassMap :=
  K.zipIdx.map (fun p => (p.1, ⟨p.1, p.2, ids.count p.1⟩))

theorem harmonize_table {m : ClassMap} {ids : List Str} (h : Collected m ids) :
    ∃ K, harmonize m = classTable K ids ∧ K.Pairwise (fun a b => strLt a b = true) ∧ ∀ s, s ∈ K ↔ s ∈ ids := by
  let lt : EventClass → EventClass → Bool := fun a b => decide (compareStr a.id b.id < 0)
  let S := pySorted lt (dvals m)
  have hperm : S.Perm (dvals m) := pySorted_perm _ _
  have hlt : ∀ a b : EventClass, lt a b = strLt a.id b.id := by
    intro a b
    rw [Bool.eq_iff_iff]
    simp only [lt, decide_eq_true_eq]
    exact compareStr_neg
  -- ids of the values are the keys
  have hval : ∀ c ∈ dvals m, dget c.id m = some c := by
    intro c hc
    obtain ⟨⟨k, v⟩, hp, rfl⟩ := List.mem_map.1 hc
    have := mem_dget h.nodup hp
    rw [(h.entry k v this).1]
    exact this
  have hids : (dvals m).map EventClass.id = dkeys m := by
    unfold dvals dkeys
    rw [List.map_map]
    apply List.map_congr_left
    intro p hp
    have := mem_dget h.nodup (k := p.1) (v := p.2) hp
    exact (h.entry _ _ this).1
  have hnd : (S.map EventClass.id).Nodup := by
    rw [(hperm.map EventClass.id).nodup_iff, hids]
    exact h.nodup
  have hsorted : S.Pairwise (fun a b => lt b a = false) := by
    apply pySorted_sorted
    · intro a b hab
      rw [hlt] at *
      exact strLt_asymm hab
    · intro a b c hab hbc
      rw [hlt] at *
      cases hac : strLt a.id c.id with
      | false => rfl
      | true =>
        rcases strLt_trichotomy a.id b.id with e | e | e
        · rw [e] at hab; simp at hab
        · rw [e, hbc] at hac; simp at hac
        · have := strLt_trans e hac
          rw [hbc] at this; simp at this
  refine ⟨S.map EventClass.id, ?_, ?_, ?_⟩
  · unfold harmonize
    rw [harmonizeFrom_eq _ _ _ (by simpa [dkeys] using hnd)]
    unfold classTable
    rw [List.nil_append]
    change S.zipIdx.map _ = _
    have gen : ∀ (T : List EventClass) (i : Nat), (∀ c ∈ T, c.size = ids.count c.id) →
        (T.zipIdx i).map (fun p => ((p.1.id, ⟨p.1.id, p.2, p.1.size⟩) : Str × EventClass))
        = ((T.map EventClass.id).zipIdx i).map (fun p => (p.1, ⟨p.1, p.2, ids.count p.1⟩)) := by
      intro T
      induction T with
      | nil => intro i _; rfl
      | cons c T ih =>
        intro i hT
        simp only [List.zipIdx_cons, List.map_cons]
        rw [ih _ (fun c hc => hT c (List.mem_cons_of_mem _ hc)), hT c (by simp)]
    apply gen
    intro c hc
    have := hval c (hperm.mem_iff.1 hc)
    exact (h.entry _ _ this).2
  · rw [List.pairwise_map]
    have hnd' : S.Pairwise (fun a b => a.id ≠ b.id) := by
      rw [← List.pairwise_map (f := EventClass.id) (R := (· ≠ ·))]; exact hnd
    refine (hsorted.and hnd').imp ?_
    rintro a b ⟨h1, h2⟩
    rw [hlt] at h1
    rcases strLt_trichotomy a.id b.id with e | e | e
    · exact e
    · exact absurd e h2
    · rw [h1] at e; simp at e
  · intro s
    rw [(hperm.map EventClass.id).mem_iff, hids, h.keys]

/-- Deriving the classes of a log gives the table of its distinct identities in alphabetical order. -/
theorem derive_table {c : Classifier} {log : Log F} {ids : List Str} (h : IdentitiesOf c log ids) :
    ∃ K, deriveClasses c log = .ok (classTable K ids) ∧ K.Pairwise (fun a b => strLt a b = true) ∧
      ∀ s, s ∈ K ↔ s ∈ ids := by
  obtain ⟨K, h1, h2, h3⟩ := harmonize_table (collected ids)
  refine ⟨K, ?_, h2, h3⟩
  simp only [deriveClasses, registerTraces_ids [] h, bind, Except.bind, h1]

theorem classTable_keys (K ids : List Str) : dkeys (classTable K ids) = K := by
  unfold classTable dkeys
  rw [List.map_map]
  exact List.zipIdx_map_fst 0 K

theorem sorted_nodup {K : List Str} (h : K.Pairwise (fun a b => strLt a b = true)) : K.Nodup :=
  h.imp (fun hab => strLt_ne hab)

theorem classTable_get {K ids : List Str} (hK : K.Nodup) {s : Str} {cl : EventClass} :
    dget s (classTable K ids) = some cl ↔ ∃ i : Nat, K[i]? = some s ∧ cl = ⟨s, i, ids.count s⟩ := by
  have hn : (dkeys (classTable K ids)).Nodup := by rw [classTable_keys]; exact hK
  constructor
  · intro h
    have := dget_mem h
    simp only [classTable, List.mem_map, Prod.mk.injEq, Prod.exists] at this
    obtain ⟨a, i, h1, rfl, h2⟩ := this
    exact ⟨i, by simpa [List.mem_zipIdx_iff_getElem?] using h1, h2.symm⟩
  · rintro ⟨i, h1, rfl⟩
    apply mem_dget hn
    simp only [classTable, List.mem_map, Prod.mk.injEq, Prod.exists]
    exact ⟨s, i, by simpa [List.mem_zipIdx_iff_getElem?] using h1, rfl, rfl⟩

theorem count_sum {K : List Str} (hK : K.Nodup) : ∀ {ids : List Str}, (∀ s ∈ ids, s ∈ K) →
    (K.map (fun s => ids.count s)).sum = ids.length := by
  have one : ∀ (K : List Str) (x : Str) (ids : List Str), K.Nodup →
      (K.map (fun s => (x :: ids).count s)).sum = (K.map (fun s => ids.count s)).sum + (if x ∈ K then 1 else 0) := by
    intro K x ids
    induction K with
    | nil => intro _; simp
    | cons y K ih =>
      intro h
      rw [List.nodup_cons] at h
      have ih := ih h.2
      simp only [List.map_cons, List.sum_cons, List.mem_cons]
      rw [ih]
      by_cases e : x = y
      · subst e
        simp [h.1]
        omega
      · simp [e]
        omega
  intro ids
  induction ids with
  | nil =>
    intro _
    have : ∀ K : List Str, (K.map (fun s => ([] : List Str).count s)).sum = 0 := by
      intro K
      induction K with
      | nil => rfl
      | cons y K ih => rw [List.map_cons, List.sum_cons, ih]; rfl
    simpa using this K
  | cons x ids ih =>
    intro h
    rw [one K x ids hK, if_pos (h x (by simp)), ih (fun s hs => h s (List.mem_cons_of_mem _ hs))]
    simp

/-! ## C19 -/

/-- C19: deriving event classes never fails on a log whose identities exist; the classes are
pairwise distinct, there is one for exactly the identities that occur, each counts its events, and
the sizes add up to the number of events. -/
theorem c19_partition {c : Classifier} {log : Log F} {ids : List Str} (h : IdentitiesOf c log ids) :
    ∃ m, deriveClasses c log = .ok m ∧ ((dvals m).map EventClass.id).Nodup ∧
      (∀ cl ∈ dvals m, cl.id ∈ ids ∧ cl.size = ids.count cl.id) ∧
      (∀ s ∈ ids, ∃ cl ∈ dvals m, cl.id = s) ∧
      ((dvals m).map EventClass.size).sum = (allEvents log).length := by
  obtain ⟨K, h1, h2, h3⟩ := derive_table h
  have hK := sorted_nodup h2
  have hlen : (allEvents log).length = ids.length := by
    have := congrArg List.length h
    simpa using this
  have hids : (dvals (classTable K ids)).map EventClass.id = K := by
    unfold classTable dvals
    simp only [List.map_map]
    exact List.zipIdx_map_fst 0 K
  refine ⟨_, h1, by rw [hids]; exact hK, ?_, ?_, ?_⟩
  · intro cl hcl
    simp only [dvals, classTable, List.mem_map, Prod.exists] at hcl
    obtain ⟨a, b, ⟨a', i, hm, he⟩, rfl⟩ := hcl
    simp only [Prod.mk.injEq] at he
    obtain ⟨rfl, rfl⟩ := he
    refine ⟨(h3 _).1 ?_, rfl⟩
    rw [List.mem_zipIdx_iff_getElem?] at hm
    exact List.mem_of_getElem? hm
  · intro s hs
    have : s ∈ (dvals (classTable K ids)).map EventClass.id := by rw [hids]; exact (h3 s).2 hs
    obtain ⟨cl, h4, h5⟩ := List.mem_map.1 this
    exact ⟨cl, h4, h5⟩
  · rw [hlen]
    have : (dvals (classTable K ids)).map EventClass.size = K.map (fun s => ids.count s) := by
      unfold classTable dvals
      simp only [List.map_map]
      have : (EventClass.size ∘ Prod.snd ∘ fun p : Str × Nat => (p.1, (⟨p.1, p.2, ids.count p.1⟩ : EventClass)))
          = (fun s => ids.count s) ∘ Prod.fst := rfl
      rw [this, ← List.map_map, List.zipIdx_map_fst]
    rw [this]
    exact count_sum hK (fun s hs => (h3 s).2 hs)

/-! ## C20 -/

/-- C20: indices are 0..n-1 in alphabetical order; get_by_index(i) finds a class exactly for the
integers in that range, and it is the one with that index. -/
theorem c20_indices {c : Classifier} {log : Log F} {ids : List Str} (h : IdentitiesOf c log ids) :
    ∃ m, deriveClasses c log = .ok m ∧
      (∀ a ∈ dvals m, ∀ b ∈ dvals m, a.index < b.index ↔ strLt a.id b.id = true) ∧
      (∀ i : Int, (0 ≤ i ∧ i < m.length) ↔ ∃ cl, getByIndex m i = some cl) ∧
      (∀ (i : Int) cl, getByIndex m i = some cl ↔ cl ∈ dvals m ∧ cl.index = i) := by
  obtain ⟨K, h1, h2, h3⟩ := derive_table h
  have hmem : ∀ cl, cl ∈ dvals (classTable K ids) ↔ ∃ (s : Str) (j : Nat), K[j]? = some s ∧ cl = ⟨s, j, ids.count s⟩ := by
    intro cl
    simp only [dvals, classTable, List.mem_map, Prod.exists]
    constructor
    · rintro ⟨a, b, ⟨a', i, hm, he⟩, rfl⟩
      simp only [Prod.mk.injEq] at he
      obtain ⟨rfl, rfl⟩ := he
      exact ⟨a', i, by simpa [List.mem_zipIdx_iff_getElem?] using hm, rfl⟩
    · rintro ⟨s, j, hj, rfl⟩
      exact ⟨s, _, ⟨s, j, by simpa [List.mem_zipIdx_iff_getElem?] using hj, rfl⟩, rfl⟩
  have hord : ∀ (i j : Nat) (s t : Str), K[i]? = some s → K[j]? = some t → i < j → strLt s t = true := by
    intro i j s t hi hj hij
    obtain ⟨hi', rfl⟩ := List.getElem?_eq_some_iff.1 hi
    obtain ⟨hj', rfl⟩ := List.getElem?_eq_some_iff.1 hj
    exact List.pairwise_iff_getElem.1 h2 i j hi' hj' hij
  have hfind : ∀ (i : Int) cl, getByIndex (classTable K ids) i = some cl ↔ cl ∈ dvals (classTable K ids) ∧ cl.index = i := by
    intro i cl
    constructor
    · intro hf
      exact ⟨List.mem_of_find?_eq_some hf, by simpa using List.find?_some hf⟩
    · rintro ⟨hm, hi⟩
      cases hf : getByIndex (classTable K ids) i with
      | none =>
        have := List.find?_eq_none.1 hf cl hm
        simp [hi] at this
      | some d =>
        have hd := List.mem_of_find?_eq_some hf
        have hdi : d.index = i := by simpa using List.find?_some hf
        obtain ⟨s, j, hj, rfl⟩ := (hmem cl).1 hm
        obtain ⟨t, k, hk, rfl⟩ := (hmem d).1 hd
        simp only at hi hdi
        have : j = k := by omega
        subst this
        rw [hj] at hk
        simp at hk
        rw [hk]
  refine ⟨_, h1, ?_, ?_, hfind⟩
  · intro a ha b hb
    obtain ⟨s, j, hj, rfl⟩ := (hmem a).1 ha
    obtain ⟨t, k, hk, rfl⟩ := (hmem b).1 hb
    simp only
    constructor
    · intro hlt
      exact hord j k s t hj hk (by omega)
    · intro hst
      apply Classical.byContradiction
      intro hge
      have hge' : k ≤ j := by omega
      rcases Nat.lt_or_eq_of_le hge' with hlt | rfl
      · have := hord k j t s hk hj hlt
        rw [strLt_asymm this] at hst; simp at hst
      · rw [hj] at hk; simp at hk; subst hk
        rw [strLt_irrefl] at hst; simp at hst
  · intro i
    have hl : (classTable K ids).length = K.length := by simp [classTable]
    constructor
    · rintro ⟨h0, hn⟩
      rw [hl] at hn
      obtain ⟨n, rfl⟩ := Int.eq_ofNat_of_zero_le h0
      have hn' : n < K.length := by omega
      exact ⟨⟨K[n], n, ids.count K[n]⟩, (hfind _ _).2 ⟨(hmem _).2 ⟨K[n], n, by simp [hn'], rfl⟩, rfl⟩⟩
    · rintro ⟨cl, hcl⟩
      obtain ⟨hm, hi⟩ := (hfind _ _).1 hcl
      obtain ⟨s, j, hj, rfl⟩ := (hmem cl).1 hm
      have := (List.getElem?_eq_some_iff.1 hj).1
      simp only at hi
      rw [hl]
      omega

/-! ## C21 -/

theorem sorted_unique : ∀ {K L : List Str}, K.Pairwise (fun a b => strLt a b = true) →
    L.Pairwise (fun a b => strLt a b = true) → (∀ s, s ∈ K ↔ s ∈ L) → K = L := by
  intro K
  induction K with
  | nil =>
    intro L _ _ h
    cases L with
    | nil => rfl
    | cons y L => have := (h y).2 (by simp); simp at this
  | cons x K ih =>
    intro L hK hL h
    cases L with
    | nil => have := (h x).1 (by simp); simp at this
    | cons y L =>
      rw [List.pairwise_cons] at hK hL
      have exy : x = y := by
        rcases List.mem_cons.1 ((h x).1 (by simp)) with e | hx
        · exact e
        · rcases List.mem_cons.1 ((h y).2 (by simp)) with e | hy
          · exact e.symm
          · have h1 := hL.1 x hx
            have h2 := hK.1 y hy
            rw [strLt_asymm h1] at h2; simp at h2
      subst exy
      have : ∀ s, s ∈ K ↔ s ∈ L := by
        intro s
        constructor
        · intro hs
          rcases List.mem_cons.1 ((h s).1 (List.mem_cons_of_mem _ hs)) with e | hs'
          · subst e
            have := hK.1 s hs
            rw [strLt_irrefl] at this; simp at this
          · exact hs'
        · intro hs
          rcases List.mem_cons.1 ((h s).2 (List.mem_cons_of_mem _ hs)) with e | hs'
          · subst e
            have := hL.1 s hs
            rw [strLt_irrefl] at this; simp at this
          · exact hs'
      rw [ih hK.2 hL.2 this]

/-- C21: logs with the same events in any order and any division into traces have the same classes,
sizes and indices. -/
theorem c21_order_irrelevant {c : Classifier} {log log' : Log F} {ids : List Str} (h : IdentitiesOf c log ids)
    (hp : (allEvents log).Perm (allEvents log')) : deriveClasses c log = deriveClasses c log' ∧
      ∃ m, deriveClasses c log = .ok m := by
  have hp' := hp.map (classIdentity c)
  rw [h] at hp'
  -- the identities of the second log exist as well
  have hex : ∃ ids', IdentitiesOf c log' ids' := by
    have : ∀ l : List (Except PyErr Str), (∀ x ∈ l, ∃ s, x = .ok s) → ∃ r : List Str, l = r.map .ok := by
      intro l
      induction l with
      | nil => intro _; exact ⟨[], rfl⟩
      | cons x l ih =>
        intro hx
        obtain ⟨s, rfl⟩ := hx x (by simp)
        obtain ⟨r, rfl⟩ := ih (fun y hy => hx y (List.mem_cons_of_mem _ hy))
        exact ⟨s :: r, rfl⟩
    apply this
    intro x hx
    have := hp'.mem_iff.2 hx
    obtain ⟨s, -, rfl⟩ := List.mem_map.1 this
    exact ⟨s, rfl⟩
  obtain ⟨ids', h'⟩ := hex
  rw [h'] at hp'
  have hids : ids.Perm ids' := by
    have hf := hp'.filterMap Except.toOption
    rw [List.filterMap_map, List.filterMap_map] at hf
    have e : (Except.toOption ∘ (Except.ok : Str → Except PyErr Str)) = some := rfl
    rw [e] at hf
    simpa using hf
  obtain ⟨K, h1, h2, h3⟩ := derive_table h
  obtain ⟨K', h1', h2', h3'⟩ := derive_table h'
  have hK : K = K' := sorted_unique h2 h2' (fun s => by rw [h3, h3', hids.mem_iff])
  refine ⟨?_, _, h1⟩
  rw [h1, h1', hK]
  unfold classTable
  congr 1
  apply List.map_congr_left
  intro p _
  rw [hids.count_eq]

/-! ## C22 -/

/-- C22: looking up any event gives the class carrying its identity if the identity occurs in the
log, and None otherwise. -/
theorem c22_lookup {c : Classifier} {log : Log F} {ids : List Str} (h : IdentitiesOf c log ids)
    (e : Event F) {s : Str} (hs : classIdentity c e = .ok s) :
    ∃ m, deriveClasses c log = .ok m ∧
      (s ∈ ids → ∃ cl, classOf c m e = .ok (some cl) ∧ cl.id = s ∧ cl.size = ids.count s) ∧
      (s ∉ ids → classOf c m e = .ok none) := by
  obtain ⟨K, h1, h2, h3⟩ := derive_table h
  have hK := sorted_nodup h2
  refine ⟨_, h1, ?_, ?_⟩
  · intro hm
    obtain ⟨i, hi, rfl⟩ := List.mem_iff_getElem.1 ((h3 s).2 hm)
    refine ⟨⟨K[i], i, ids.count K[i]⟩, ?_, rfl, rfl⟩
    simp only [classOf, hs, bind, Except.bind]
    rw [(classTable_get hK).2 ⟨i, by simp [hi], rfl⟩]
  · intro hm
    simp only [classOf, hs, bind, Except.bind]
    rw [dget_eq_none.2]
    rw [classTable_keys]
    exact fun e => hm ((h3 s).1 e)

/-- C22: every event of the log is found. -/
theorem c22_own_events {c : Classifier} {log : Log F} {ids : List Str} (h : IdentitiesOf c log ids)
    {e : Event F} (he : e ∈ allEvents log) : ∃ m cl, deriveClasses c log = .ok m ∧ classOf c m e = .ok (some cl) ∧
      classIdentity c e = .ok cl.id := by
  have : classIdentity c e ∈ ids.map Except.ok := by rw [← h]; exact List.mem_map_of_mem he
  obtain ⟨s, hs, hse⟩ := List.mem_map.1 this
  obtain ⟨m, h1, h2, -⟩ := c22_lookup h e hse.symm
  obtain ⟨cl, h3, h4, -⟩ := h2 hs
  exact ⟨m, cl, h1, h3, by rw [← hse, h4]⟩

/-! ## C23 -/

theorem addKeys_spec : ∀ (new keys : List Str), keys.Nodup →
    (addKeys keys new).Nodup ∧ ∀ k, k ∈ addKeys keys new ↔ k ∈ keys ∨ k ∈ new := by
  intro new
  induction new with
  | nil => intro keys h; simp [addKeys, h]
  | cons x new ih =>
    intro keys h
    simp only [addKeys]
    split
    · next hx =>
      obtain ⟨h1, h2⟩ := ih keys h
      refine ⟨h1, ?_⟩
      intro k
      rw [h2, List.mem_cons]
      constructor
      · rintro (h | h)
        · exact Or.inl h
        · exact Or.inr (Or.inr h)
      · rintro (h | rfl | h)
        · exact Or.inl h
        · exact Or.inl hx
        · exact Or.inr h
    · next hx =>
      have hn : (keys ++ [x]).Nodup := by
        rw [List.nodup_append]
        exact ⟨h, by simp, by intro a ha b hb; simp at hb; subst hb; exact fun e => hx (e ▸ ha)⟩
      obtain ⟨h1, h2⟩ := ih _ hn
      refine ⟨h1, ?_⟩
      intro k
      rw [h2]
      simp [or_assoc]

theorem strLt_sorted (l : List Str) (hn : l.Nodup) : (pySorted strLt l).Pairwise (fun a b => strLt a b = true) := by
  have h1 : (pySorted strLt l).Pairwise (fun a b => strLt b a = false) := by
    apply pySorted_sorted
    · intro a b h; exact strLt_asymm h
    · intro a b c hab hbc
      cases hac : strLt a c with
      | false => rfl
      | true =>
        rcases strLt_trichotomy a b with e | e | e
        · rw [e] at hab; simp at hab
        · rw [e, hbc] at hac; simp at hac
        · have := strLt_trans e hac
          rw [hbc] at this; simp at this
  have h2 : (pySorted strLt l).Nodup := (pySorted_perm _ _).nodup_iff.2 hn
  refine (h1.and h2).imp ?_
  rintro a b ⟨h1, h2⟩
  rcases strLt_trichotomy a b with e | e | e
  · exact e
  · exact absurd e h2
  · rw [h1] at e; simp at e

/-- C23: the AND classifier of a non-empty list exists; its keys are the union of the parts' keys,
strictly sorted (so without duplicates). -/
theorem c23_keys (c : Classifier) (cs : List Classifier) : ∃ d, andClassifier (c :: cs) = .ok d ∧
    d.keys.Pairwise (fun a b => strLt a b = true) ∧ ∀ k, k ∈ d.keys ↔ ∃ p ∈ c :: cs, k ∈ p.keys := by
  have fold : ∀ (cs : List Classifier) (keys : List Str), keys.Nodup →
      (cs.foldl (fun ks d => addKeys ks d.keys) keys).Nodup ∧
      ∀ k, k ∈ cs.foldl (fun ks d => addKeys ks d.keys) keys ↔ k ∈ keys ∨ ∃ p ∈ cs, k ∈ p.keys := by
    intro cs
    induction cs with
    | nil => intro keys h; simp [h]
    | cons x cs ih =>
      intro keys h
      obtain ⟨h1, h2⟩ := addKeys_spec x.keys keys h
      obtain ⟨h3, h4⟩ := ih _ h1
      refine ⟨h3, ?_⟩
      intro k
      rw [List.foldl_cons, h4, h2]
      simp [or_assoc]
  obtain ⟨h1, h2⟩ := addKeys_spec c.keys [] (by simp)
  obtain ⟨h3, h4⟩ := fold cs _ h1
  refine ⟨_, rfl, strLt_sorted _ h3, ?_⟩
  intro k
  simp only
  rw [(pySorted_perm _ _).mem_iff, h4, h2]
  simp

/-- C23: an empty list of parts is refused with ValueError. -/
theorem c23_empty : andClassifier [] = .error .valueError := rfl

/-- C23: when all keys are there and print without '&', events in one class of the AND classifier
are in one class of every part. -/
theorem c23_finer_partial {cs : List Classifier} {d : Classifier} (hd : andClassifier cs = .ok d)
    {a b : Event F} (ha : Printable a) (hb : Printable b) (pa : PlainOn d.keys a) (pb : PlainOn d.keys b)
    (h : sameEventClass d a b = .ok true) : ∀ p ∈ cs, sameEventClass p a b = .ok true := by
  intro p hp
  cases cs with
  | nil => simp at hp
  | cons c cs =>
    obtain ⟨d', h1, -, h3⟩ := c23_keys c cs
    rw [hd] at h1
    simp at h1
    subst h1
    have := c18_same_agree_partial ha hb pa pb h
    exact c18_agree_same ha hb (fun k hk => this k ((h3 k).2 ⟨p, hp, hk⟩))

/-- C23: conversely, agreeing on all keys of all parts always puts events in one AND class. -/
theorem c23_coarse {cs : List Classifier} {d : Classifier} (hd : andClassifier cs = .ok d)
    {a b : Event F} (ha : Printable a) (hb : Printable b) (h : ∀ p ∈ cs, Agree p.keys a b) :
    sameEventClass d a b = .ok true := by
  cases cs with
  | nil => simp [andClassifier] at hd
  | cons c cs =>
    obtain ⟨d', h1, -, h3⟩ := c23_keys c cs
    rw [hd] at h1
    simp at h1
    subst h1
    apply c18_agree_same ha hb
    intro k hk
    obtain ⟨p, hp, hk'⟩ := (h3 k).1 hk
    exact h p hp k hk'

/-- C23 is false in general: two events in one AND class that a part separates. -/
theorem c23_refuted : ∃ (cs : List Classifier) (d : Classifier) (a b : Event F), andClassifier cs = .ok d ∧
    Printable a ∧ Printable b ∧ sameEventClass d a b = .ok true ∧ ∃ p ∈ cs, sameEventClass p a b = .ok false := by
  refine ⟨[⟨py!"n", [py!"x"]⟩, ⟨py!"m", [py!"y"]⟩], _, litEvent 1 [(py!"x", py!"p&&q"), (py!"y", py!"r")],
    litEvent 2 [(py!"x", py!"p"), (py!"y", py!"q&&r")], rfl, litEvent_printable _ _, litEvent_printable _ _, rfl,
    ⟨py!"n", [py!"x"]⟩, by simp, rfl⟩

/-! ## Examples -/

/-- A log with three events in two traces. -/
def sampleLog : Log F :=
  { attrs := [], extensions := [], classifiers := [], globalTrace := [], globalEvent := [], features := [],
    traces := [⟨[], [litEvent 1 [(py!"x", py!"b")], litEvent 2 [(py!"x", py!"a")]]⟩, ⟨[], [litEvent 3 [(py!"x", py!"b")]]⟩] }

example : IdentitiesOf ⟨py!"c", [py!"x"]⟩ (sampleLog (F := F)) [py!"b", py!"a", py!"b"] := by rfl
example : deriveClasses ⟨py!"c", [py!"x"]⟩ (sampleLog (F := F))
    = .ok [(py!"a", ⟨py!"a", 0, 1⟩), (py!"b", ⟨py!"b", 1, 2⟩)] := by rfl
example : (andClassifier [⟨py!"N", [py!"y", py!"x"]⟩, ⟨py!"M", [py!"x", py!"a"]⟩])
    = .ok ⟨py!"(N AND M)", [py!"a", py!"x", py!"y"]⟩ := by decide

end

end Opy
