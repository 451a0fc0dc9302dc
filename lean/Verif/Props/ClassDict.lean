import Verif.Model.ClassDict
import Verif.Props.LogInfo
/-
Property C160: a summary answers for the classifiers it was made with, whatever their names are later.
-/
set_option linter.unusedSectionVars false
namespace Opy

section
variable {F : Type} [PyFloat F]

/-! ## Specification -/

/-- The hash that the language computes for the classifier `c`: of its keys and its name. -/
def KeyHash (ht : List Str → Int) (hs : Str → Int) (c : Classifier) : Int := (31 + ht c.keys) * 31 + hs c.name

/-- The classifiers of a summary, made with the classifiers `cs`, the default one `d` and the three of the library. -/
def Covers (std : List Nat) (d : Nat) (cs : List Nat) (r : Nat) : Prop := r ∈ cs ∨ r = d ∨ r ∈ std

/-! ## Proofs -/

theorem classMatch_iff {V : Type} {ht : List Str → Int} {hs : Str → Int} {s : CState} {r : Nat} {e : Int × Nat × V} :
    classMatch ht hs s r e = true ↔ e.1 = KeyHash ht hs (s.val r) ∧ s.val e.2.1 = s.val r := by
  simp only [classMatch, Bool.and_eq_true, beq_iff_eq, Bool.or_eq_true, classifierEq_iff, CState.hash, classifierHash, KeyHash]
  constructor
  · rintro ⟨h1, h2 | h2⟩
    · exact ⟨h1, by rw [h2]⟩
    · exact ⟨h1, h2⟩
  · rintro ⟨h1, h2⟩
    exact ⟨h1, .inr h2⟩

theorem ClassDict.find_eq {V : Type} {ht : List Str → Int} {hs : Str → Int} {s : CState} {r : Nat} :
    ∀ d : ClassDict V, d.find ht hs s r = List.find? (classMatch ht hs s r) d
  | [] => rfl
  | e :: d => by
    simp only [ClassDict.find, List.find?]
    cases classMatch ht hs s r e with
    | true => rfl
    | false => exact ClassDict.find_eq d

/-- What is known of the keys while the dict is made: the hash stored is that of the key, keys differ, and the classifier of
the value equals the key. -/
structure KeysOk (ht : List Str → Int) (hs : Str → Int) (s : CState) (rs : List Nat) (d : ClassDict Nat) : Prop where
  hash : ∀ e ∈ d, e.1 = KeyHash ht hs (s.val e.2.1)
  val : ∀ e ∈ d, s.val e.2.2 = s.val e.2.1
  mem : ∀ e ∈ d, e.2.1 ∈ rs
  all : ∀ r ∈ rs, ∃ e ∈ d, s.val e.2.1 = s.val r
  nodup : (d.map (fun e => s.val e.2.1)).Nodup

theorem ClassDict.set_keys {ht : List Str → Int} {hs : Str → Int} {s : CState} {rs : List Nat} {d : ClassDict Nat} (h : KeysOk ht hs s rs d)
    (r : Nat) : KeysOk ht hs s (rs ++ [r]) (ClassDict.set ht hs s r r d) := by
  have key : ∀ d : ClassDict Nat, (∀ e ∈ d, e.1 = KeyHash ht hs (s.val e.2.1)) →
      (ClassDict.set ht hs s r r d = d ++ [(KeyHash ht hs (s.val r), r, r)] ∧ ∀ e ∈ d, s.val e.2.1 ≠ s.val r) ∨
      ∃ l e t, d = l ++ e :: t ∧ s.val e.2.1 = s.val r ∧ ClassDict.set ht hs s r r d = l ++ (e.1, e.2.1, r) :: t := by
    intro d
    induction d with
    | nil => intro _; exact .inl ⟨rfl, by simp⟩
    | cons e d ih =>
      intro hh
      simp only [ClassDict.set]
      by_cases hm : classMatch ht hs s r e = true
      · rw [if_pos hm]
        exact .inr ⟨[], e, d, rfl, (classMatch_iff.1 hm).2, rfl⟩
      · rw [if_neg hm]
        have hne : s.val e.2.1 ≠ s.val r := by
          intro he
          exact hm (classMatch_iff.2 ⟨by rw [hh e (by simp), he], he⟩)
        rcases ih (fun x hx => hh x (List.mem_cons_of_mem _ hx)) with ⟨h1, h2⟩ | ⟨l, x, t, h1, h2, h3⟩
        · refine .inl ⟨by rw [h1]; rfl, ?_⟩
          intro x hx
          rcases List.mem_cons.1 hx with rfl | hx
          · exact hne
          · exact h2 x hx
        · exact .inr ⟨e :: l, x, t, by rw [h1]; rfl, h2, by rw [h3]; rfl⟩
  rcases key d h.hash with ⟨h1, h2⟩ | ⟨l, e, t, h1, h2, h3⟩
  · rw [h1]
    refine ⟨?_, ?_, ?_, ?_, ?_⟩
    · intro x hx
      rcases List.mem_append.1 hx with hx | hx
      · exact h.hash x hx
      · simp only [List.mem_singleton] at hx; subst hx; rfl
    · intro x hx
      rcases List.mem_append.1 hx with hx | hx
      · exact h.val x hx
      · simp only [List.mem_singleton] at hx; subst hx; rfl
    · intro x hx
      rcases List.mem_append.1 hx with hx | hx
      · exact List.mem_append_left _ (h.mem x hx)
      · simp only [List.mem_singleton] at hx; subst hx; simp
    · intro x hx
      rcases List.mem_append.1 hx with hx | hx
      · obtain ⟨e, he, hv⟩ := h.all x hx
        exact ⟨e, List.mem_append_left _ he, hv⟩
      · simp only [List.mem_singleton] at hx; subst hx
        exact ⟨(KeyHash ht hs (s.val x), x, x), by simp, rfl⟩
    · rw [List.map_append, List.nodup_append]
      refine ⟨h.nodup, by simp, ?_⟩
      intro a ha b hb
      obtain ⟨e, he, rfl⟩ := List.mem_map.1 ha
      simp only [List.map_cons, List.map_nil, List.mem_singleton] at hb
      rw [hb]
      exact h2 e he
  · rw [h3]
    subst h1
    have sub : ∀ x ∈ l ++ (e.1, e.2.1, r) :: t, (x ∈ l ++ e :: t) ∨ x = (e.1, e.2.1, r) := by
      intro x hx
      simp only [List.mem_append, List.mem_cons] at hx ⊢
      rcases hx with hx | hx | hx
      · exact .inl (.inl hx)
      · exact .inr hx
      · exact .inl (.inr (.inr hx))
    refine ⟨?_, ?_, ?_, ?_, ?_⟩
    · intro x hx
      rcases sub x hx with hx | rfl
      · exact h.hash x hx
      · exact h.hash e (by simp)
    · intro x hx
      rcases sub x hx with hx | rfl
      · exact h.val x hx
      · exact h2.symm
    · intro x hx
      rcases sub x hx with hx | rfl
      · exact List.mem_append_left _ (h.mem x hx)
      · exact List.mem_append_left _ (h.mem e (by simp))
    · intro x hx
      have have1 : ∀ y ∈ rs, ∃ e' ∈ l ++ (e.1, e.2.1, r) :: t, s.val e'.2.1 = s.val y := by
        intro y hy
        obtain ⟨e', he', hv⟩ := h.all y hy
        simp only [List.mem_append, List.mem_cons] at he'
        rcases he' with he' | rfl | he'
        · exact ⟨e', by simp [he'], hv⟩
        · exact ⟨(e'.1, e'.2.1, r), by simp, hv⟩
        · exact ⟨e', by simp [he'], hv⟩
      rcases List.mem_append.1 hx with hx | hx
      · exact have1 x hx
      · simp only [List.mem_singleton] at hx; subst hx
        exact ⟨(e.1, e.2.1, x), by simp, h2⟩
    · have := h.nodup
      simpa only [List.map_append, List.map_cons] using this

theorem classKeys_ok (ht : List Str → Int) (hs : Str → Int) (s : CState) (rs : List Nat) : KeysOk ht hs s rs (classKeys ht hs s rs) := by
  have gen : ∀ (rs done : List Nat) (d : ClassDict Nat), KeysOk ht hs s done d →
      KeysOk ht hs s (done ++ rs) (rs.foldl (fun d r => ClassDict.set ht hs s r r d) d) := by
    intro rs
    induction rs with
    | nil => intro done d h; simpa using h
    | cons r rs ih =>
      intro done d h
      have := ih (done ++ [r]) _ (ClassDict.set_keys h r)
      simpa using this
  have := gen rs [] [] ⟨by simp, by simp, by simp, by simp, by simp⟩
  rw [List.nil_append] at this
  exact this

/-- The entries with the classes are those without. -/
theorem fillClasses_ok {s : CState} {log : Log F} : ∀ {d : ClassDict Nat} {d' : ClassDict ClassMap}, fillClasses s log d = .ok d' →
    d'.map (fun e => (e.1, e.2.1)) = d.map (fun e => (e.1, e.2.1)) ∧
    ∀ h k m, (h, k, m) ∈ d' → ∃ c, (h, k, c) ∈ d ∧ deriveClasses (s.val c) log = .ok m
  | [], d', h => by
    simp only [fillClasses, Except.ok.injEq] at h
    subst h
    exact ⟨rfl, by simp⟩
  | (h0, k0, c0) :: d, d', h => by
    simp only [fillClasses, bind_ok, Except.ok.injEq] at h
    obtain ⟨m, h1, t, h2, rfl⟩ := h
    obtain ⟨g1, g2⟩ := fillClasses_ok h2
    refine ⟨by simp [g1], ?_⟩
    intro x k m' hm
    rcases List.mem_cons.1 hm with hm | hm
    · cases hm
      exact ⟨c0, by simp, h1⟩
    · obtain ⟨c, hc, hd⟩ := g2 x k m' hm
      exact ⟨c, List.mem_cons_of_mem _ hc, hd⟩

/-- The entries of a summary. -/
structure Entries (ht : List Str → Int) (hs : Str → Int) (s : CState) (std : List Nat) (log : Log F) (d : Nat) (cs : List Nat)
    (D : ClassDict ClassMap) : Prop where
  hash : ∀ e ∈ D, e.1 = KeyHash ht hs (s.val e.2.1)
  derived : ∀ e ∈ D, deriveClasses (s.val e.2.1) log = .ok e.2.2
  mem : ∀ e ∈ D, Covers std d cs e.2.1
  all : ∀ r, Covers std d cs r → ∃ e ∈ D, s.val e.2.1 = s.val r

theorem entries_of_make {ht : List Str → Int} {hs : Str → Int} {s : CState} {std : List Nat} {log : Log F} {d : Nat} {cs : List Nat}
    {i : RefSummary} (h : RefSummary.make ht hs s std log d cs = .ok i) : i.default = d ∧ Entries ht hs s std log d cs i.classes := by
  simp only [RefSummary.make, bind_ok, Except.ok.injEq] at h
  obtain ⟨D, h1, rfl⟩ := h
  refine ⟨rfl, ?_⟩
  have ok := classKeys_ok ht hs s (cs ++ [d] ++ std)
  obtain ⟨f1, f2⟩ := fillClasses_ok h1
  have cov : ∀ r, r ∈ cs ++ [d] ++ std ↔ Covers std d cs r := by
    intro r; simp [Covers]
  refine ⟨?_, ?_, ?_, ?_⟩
  · rintro ⟨x, k, m⟩ he
    obtain ⟨c, hc, _⟩ := f2 x k m he
    exact ok.hash _ hc
  · rintro ⟨x, k, m⟩ he
    obtain ⟨c, hc, hd⟩ := f2 x k m he
    have := ok.val _ hc
    simp only at this ⊢
    rw [← this]; exact hd
  · rintro ⟨x, k, m⟩ he
    obtain ⟨c, hc, _⟩ := f2 x k m he
    exact (cov _).1 (ok.mem _ hc)
  · intro r hr
    obtain ⟨e, he, hv⟩ := ok.all r ((cov r).2 hr)
    have : (e.1, e.2.1) ∈ D.map (fun e => (e.1, e.2.1)) := by
      rw [f1]; exact List.mem_map.2 ⟨e, he, rfl⟩
    obtain ⟨e', he', hx⟩ := List.mem_map.1 this
    refine ⟨e', he', ?_⟩
    have h2 : e'.2.1 = e.2.1 := (Prod.mk.inj hx).2
    rw [h2]; exact hv

theorem get_some_eq {ht : List Str → Int} {hs : Str → Int} {s : CState} {i : RefSummary} {q : Nat} :
    i.get ht hs s (some q) = (List.find? (classMatch ht hs s q) i.classes).map (·.2.2) := by
  simp only [RefSummary.get, ClassDict.find_eq]

theorem get_none_eq {ht : List Str → Int} {hs : Str → Int} {s : CState} {i : RefSummary} :
    i.get ht hs s none = i.get ht hs s (some i.default) := rfl

/-- C160, exactly: what a summary made in the state `s` answers in the state `t`.  Classes are found for a classifier exactly if a
classifier of the summary equals it now and has the hash it had when the summary was made; the classes are those that the
classifier of the summary had then. -/
theorem c160_exact {ht : List Str → Int} {hs : Str → Int} {s t : CState} {std : List Nat} {log : Log F} {d : Nat} {cs : List Nat}
    {i : RefSummary} (h : RefSummary.make ht hs s std log d cs = .ok i) (q : Nat) :
    (∀ m, i.get ht hs t (some q) = some m → ∃ r, Covers std d cs r ∧ t.val r = t.val q ∧
      KeyHash ht hs (s.val r) = KeyHash ht hs (t.val r) ∧ deriveClasses (s.val r) log = .ok m) ∧
    (i.get ht hs t (some q) = none → ∀ r, Covers std d cs r → (∀ r', Covers std d cs r' → s.val r' = s.val r → t.val r' = t.val r) →
      t.val r = t.val q → KeyHash ht hs (s.val r) ≠ KeyHash ht hs (t.val r)) := by
  obtain ⟨_, en⟩ := entries_of_make h
  rw [get_some_eq]
  refine ⟨?_, ?_⟩
  · intro m hm
    simp only [Option.map_eq_some_iff] at hm
    obtain ⟨e, he, rfl⟩ := hm
    obtain ⟨h1, h2⟩ := classMatch_iff.1 (List.find?_some he)
    have hmem := List.mem_of_find?_eq_some he
    exact ⟨e.2.1, en.mem e hmem, h2, by rw [← en.hash e hmem, h1, h2], en.derived e hmem⟩
  · intro hn r hr hu heq hk
    simp only [Option.map_eq_none_iff, List.find?_eq_none] at hn
    obtain ⟨e, he, hv⟩ := en.all r hr
    have hv' := hu e.2.1 (en.mem e he) hv
    exact hn e he (classMatch_iff.2 ⟨by rw [en.hash e he, hv, hk, heq], by rw [hv', heq]⟩)

/-- C160, the part that holds: as long as the classifiers of the summary are what they were, the classes are found for every classifier
that equals one of them, and they are the classes of the log for it; for all others nothing is found. -/
theorem c160_unchanged_partial {ht : List Str → Int} {hs : Str → Int} {s t : CState} {std : List Nat} {log : Log F} {d : Nat} {cs : List Nat}
    {i : RefSummary} (h : RefSummary.make ht hs s std log d cs = .ok i) (hu : ∀ r, Covers std d cs r → t.val r = s.val r) (q : Nat) :
    ((∃ r, Covers std d cs r ∧ t.val r = t.val q) → ∃ m, i.get ht hs t (some q) = some m ∧ deriveClasses (t.val q) log = .ok m) ∧
    (¬ (∃ r, Covers std d cs r ∧ t.val r = t.val q) → i.get ht hs t (some q) = none) ∧
    (∃ m, i.get ht hs t none = some m ∧ deriveClasses (t.val d) log = .ok m) := by
  obtain ⟨e1, en⟩ := entries_of_make h
  have found : ∀ q, (∃ r, Covers std d cs r ∧ t.val r = t.val q) → ∃ m, i.get ht hs t (some q) = some m ∧ deriveClasses (t.val q) log = .ok m := by
    rintro q ⟨r, hr, heq⟩
    cases hg : i.get ht hs t (some q) with
    | none =>
      exact absurd (by rw [hu r hr]) ((c160_exact h q).2 hg r hr (fun r' hr' hv => by rw [hu r' hr', hu r hr, hv]) heq)
    | some m =>
      obtain ⟨r', hr', h1, _, h3⟩ := (c160_exact h q).1 m hg
      exact ⟨m, rfl, by rw [← h1, hu r' hr']; exact h3⟩
  refine ⟨found q, ?_, ?_⟩
  · intro hn
    cases hg : i.get ht hs t (some q) with
    | none => rfl
    | some m =>
      obtain ⟨r', hr', h1, _, _⟩ := (c160_exact h q).1 m hg
      exact absurd ⟨r', hr', h1⟩ hn
  · rw [get_none_eq, e1]
    exact found d ⟨d, .inr (.inl rfl), rfl⟩

/-- C160 is false: when the default classifier gets a name with another hash, the summary has no classes for it any more, unless
another classifier of the summary has the new name and the same keys.  Nor are they found for a classifier that is what the
renamed one was. -/
theorem c160_renamed_refuted {ht : List Str → Int} {hs : Str → Int} {s : CState} {std : List Nat} {log : Log F} {d : Nat} {cs : List Nat}
    {i : RefSummary} (h : RefSummary.make ht hs s std log d cs = .ok i) {n : Str} (hn : hs n ≠ hs (s.name d))
    (ho : ∀ r, Covers std d cs r → r ≠ d → s.val r ≠ ⟨n, (s.val d).keys⟩ ∧ s.val r ≠ s.val d) :
    i.get ht hs (s.step (.setName d n)) none = none ∧ i.get ht hs (s.step (.setName d n)) (some d) = none ∧
    ∀ q, q ≠ d → s.val q = s.val d → i.get ht hs (s.step (.setName d n)) (some q) = none := by
  obtain ⟨e1, _⟩ := entries_of_make h
  have vd : (s.step (.setName d n)).val d = ⟨n, (s.val d).keys⟩ := by simp [CState.step, CState.val]
  have vo : ∀ r, r ≠ d → (s.step (.setName d n)).val r = s.val r := by intro r hr; simp [CState.step, CState.val, hr]
  have hk : KeyHash ht hs (s.val d) ≠ KeyHash ht hs ((s.step (.setName d n)).val d) := by
    rw [vd]
    simp only [KeyHash]
    intro he
    apply hn
    have : (s.val d).name = s.name d := rfl
    rw [this] at he
    omega
  have main : ∀ q, ((s.step (.setName d n)).val q = ⟨n, (s.val d).keys⟩ ∨ (s.step (.setName d n)).val q = s.val d) →
      i.get ht hs (s.step (.setName d n)) (some q) = none := by
    intro q hq
    cases hg : i.get ht hs (s.step (.setName d n)) (some q) with
    | none => rfl
    | some m =>
      obtain ⟨r, hr, h1, h2, _⟩ := (c160_exact h q).1 m hg
      by_cases hrd : r = d
      · subst hrd; exact absurd h2 hk
      · rw [vo r hrd] at h1
        rcases hq with hq | hq
        · exact absurd (h1.trans hq) (ho r hr hrd).1
        · exact absurd (h1.trans hq) (ho r hr hrd).2
  refine ⟨?_, main d (.inl vd), ?_⟩
  · rw [get_none_eq, e1]; exact main d (.inl vd)
  · intro q hq hv
    exact main q (.inr (by rw [vo q hq, hv]))

/-- C160: an entry whose key has another hash than it had is not found with any classifier, whatever happens to the others: what
is found is never due to it. -/
theorem c160_lost {ht : List Str → Int} {hs : Str → Int} {s t : CState} {std : List Nat} {log : Log F} {d : Nat} {cs : List Nat}
    {i : RefSummary} (h : RefSummary.make ht hs s std log d cs = .ok i)
    (hl : ∀ r, Covers std d cs r → KeyHash ht hs (s.val r) ≠ KeyHash ht hs (t.val r)) (q : Option Nat) : i.get ht hs t q = none := by
  have main : ∀ q, i.get ht hs t (some q) = none := by
    intro q
    cases hg : i.get ht hs t (some q) with
    | none => rfl
    | some m =>
      obtain ⟨r, hr, _, h2, _⟩ := (c160_exact h q).1 m hg
      exact absurd h2 (hl r hr)
  cases q with
  | none => rw [get_none_eq]; exact main _
  | some q => exact main q

/-- C160: whatever was done to the classifiers, once their names and keys are what they were, the summary answers as at first. -/
theorem c160_back {ht : List Str → Int} {hs : Str → Int} {s : CState} {i : RefSummary} (L : List CStep)
    (hb : ∀ r, (s.steps L).val r = s.val r) (q : Option Nat) : i.get ht hs (s.steps L) q = i.get ht hs s q := by
  have main : ∀ q, i.get ht hs (s.steps L) (some q) = i.get ht hs s (some q) := by
    intro q
    rw [get_some_eq, get_some_eq]
    congr 2
    funext e
    rw [Bool.eq_iff_iff, classMatch_iff, classMatch_iff, hb, hb]
  cases q with
  | none => rw [get_none_eq, get_none_eq]; exact main _
  | some q => exact main q

/-- C160: the log keeps giving out the summary for the classifier it was made with, also after this was renamed. -/
theorem c160_cached (s : CState) (L : List CStep) (d : Nat) (i : RefSummary) : cachedFor (s.steps L) d i d = some i := by
  simp [cachedFor, classifierEq_iff.2]

/-- ... and for every classifier which now has the name and the keys this one now has, and for no other. -/
theorem c160_cached_iff (s : CState) (L : List CStep) (d : Nat) (i : RefSummary) (r : Nat) :
    cachedFor (s.steps L) d i r = some i ↔ (s.steps L).val r = (s.steps L).val d := by
  unfold cachedFor
  rw [← classifierEq_iff]
  split <;> simp_all

/-- Renaming changes one classifier; a change of a list of keys changes every classifier that has this list object. -/
theorem c160_steps (s : CState) :
    (∀ r n q, (s.step (.setName r n)).val q = if q = r then ⟨n, (s.val r).keys⟩ else s.val q) ∧
    (∀ l ks q, (s.step (.setList l ks)).val q = if s.keyList q = l then ⟨(s.val q).name, ks⟩ else s.val q) := by
  refine ⟨?_, ?_⟩
  · intro r n q
    by_cases h : q = r
    · subst h; simp [CState.step, CState.val]
    · simp [CState.step, CState.val, h]
  · intro l ks q
    by_cases h : s.keyList q = l <;> simp [CState.step, CState.val, h]

/-- The summary of the model in Model/Info and this one have the same classes, if the three classifiers of the library are what they
are at first. -/
theorem c160_summary {ht : List Str → Int} {hs : Str → Int} {s : CState} {a b c : Nat} {log : Log F} {d : Nat} {cs : List Nat}
    (ha : s.val a = nameClassifier) (hb : s.val b = resourceClassifier) (hc : s.val c = lifeTransClassifier) {j : LogInfo}
    (h : createInfo log (some (s.val d)) (cs.map s.val) = .ok j) :
    ∃ i, RefSummary.make ht hs s [a, b, c] log d cs = .ok i ∧ ∀ q, i.get ht hs s (some q) = dget (s.val q) j.classes := by
  obtain ⟨c1, c2⟩ := c72_event_classes h
  have cov : ∀ r, Covers [a, b, c] d cs r → s.val r ∈ dkeys j.classes := by
    intro r hr
    rw [c1]
    rcases hr with hr | hr | hr
    · exact .inl (List.mem_map.2 ⟨r, hr, rfl⟩)
    · exact .inr (.inl (by rw [hr]; rfl))
    · simp only [List.mem_cons, List.not_mem_nil, or_false] at hr
      rcases hr with rfl | rfl | rfl
      · exact .inr (.inr (.inl ha))
      · exact .inr (.inr (.inr (.inl hb)))
      · exact .inr (.inr (.inr (.inr hc)))
  have ok := classKeys_ok ht hs s (cs ++ [d] ++ [a, b, c])
  have fill : ∀ D : ClassDict Nat, (∀ e ∈ D, s.val e.2.2 ∈ dkeys j.classes) → ∃ D', fillClasses s log D = .ok D' := by
    intro D
    induction D with
    | nil => intro _; exact ⟨[], rfl⟩
    | cons e D ih =>
      obtain ⟨x, k, r⟩ := e
      intro hD
      obtain ⟨D', h2⟩ := ih (fun e he => hD e (List.mem_cons_of_mem _ he))
      obtain ⟨m, hm⟩ := dget_isSome.2 (hD (x, k, r) (by simp))
      have hd := c2 _ _ hm
      exact ⟨(x, k, m) :: D', by simp only [fillClasses, hd, h2, bind, Except.bind]⟩
  obtain ⟨D', hD'⟩ := fill (classKeys ht hs s (cs ++ [d] ++ [a, b, c])) (by
    intro e he
    rw [ok.val e he]
    exact cov _ (by have := ok.mem e he; simp [Covers] at this ⊢; exact this))
  have hmake : RefSummary.make ht hs s [a, b, c] log d cs = .ok ⟨d, D'⟩ := by
    simp only [RefSummary.make, hD', bind, Except.bind]
  refine ⟨⟨d, D'⟩, hmake, ?_⟩
  intro q
  obtain ⟨u1, u2, _⟩ := c160_unchanged_partial hmake (t := s) (fun _ _ => rfl) q
  by_cases hq : ∃ r, Covers [a, b, c] d cs r ∧ s.val r = s.val q
  · obtain ⟨m, h1, h2⟩ := u1 hq
    obtain ⟨r, hr, hv⟩ := hq
    have hin := cov r hr
    rw [hv] at hin
    obtain ⟨m', hm'⟩ := dget_isSome.2 hin
    have := c2 _ _ hm'
    rw [h2] at this
    rw [h1, hm']
    exact congrArg some (Except.ok.inj this)
  · rw [u2 hq]
    symm
    rw [dget_eq_none]
    intro hin
    apply hq
    rcases (c1 _).1 hin with hin | hin | hin | hin | hin
    · obtain ⟨r, hr, hv⟩ := List.mem_map.1 hin
      exact ⟨r, .inl hr, hv⟩
    · exact ⟨d, .inr (.inl rfl), by rw [hin]; rfl⟩
    · exact ⟨a, .inr (.inr (by simp)), by rw [hin, ha]⟩
    · exact ⟨b, .inr (.inr (by simp)), by rw [hin, hb]⟩
    · exact ⟨c, .inr (.inr (by simp)), by rw [hin, hc]⟩

/-! ## Cases -/

/-- Classifiers 0, 1 and 2 are those of the library, 3 is the standard one, 4 is a new one like it. -/
def exClassifiers : CState :=
  ⟨fun r => if r = 0 then py!"Event Name" else if r = 1 then py!"Resource" else if r = 2 then py!"Lifecycle transition" else py!"MXML Legacy Classifier",
   fun r => r,
   fun r => if r = 0 then [py!"concept:name"] else if r = 1 then [py!"org:resource"] else if r = 2 then [py!"lifecycle:transition"]
     else [py!"concept:name", py!"lifecycle:transition"]⟩

/-- A hash: the number of characters. -/
def exHash (n : Str) : Int := n.length

/-- A log with one event. -/
def exOneEvent : Log ToyFloat :=
  { attrs := [], extensions := [], classifiers := [], globalTrace := [], globalEvent := [], features := [],
    traces := [⟨[], [⟨5, [(py!"concept:name", .mk .literal (py!"concept:name") none (.str (py!"pay")) [] [])]⟩]⟩] }

/-- After the standard classifier was renamed, the summary has no classes for it; the classes by name are still there. -/
example : ∃ i, RefSummary.make (fun _ => 0) exHash exClassifiers [0, 1, 2] exOneEvent 3 [] = .ok i ∧
    (i.get (fun _ => 0) exHash exClassifiers none).map (·.map Prod.fst) = some [py!"pay&&"] ∧
    (i.get (fun _ => 0) exHash exClassifiers (some 4)).map (·.map Prod.fst) = some [py!"pay&&"] ∧
    i.get (fun _ => 0) exHash (exClassifiers.step (.setName 3 (py!"Mine"))) none = none ∧
    i.get (fun _ => 0) exHash (exClassifiers.step (.setName 3 (py!"Mine"))) (some 4) = none ∧
    (i.get (fun _ => 0) exHash (exClassifiers.step (.setName 3 (py!"Mine"))) (some 0)).map (·.map Prod.fst) = some [py!"pay"] :=
  ⟨_, rfl, by decide +kernel, by decide +kernel, by decide +kernel, by decide +kernel, by decide +kernel⟩

/-- The hypotheses of `c160_renamed_refuted` are met there. -/
example : exHash (py!"Mine") ≠ exHash (exClassifiers.name 3) ∧ ∀ r, Covers [0, 1, 2] 3 [] r → r ≠ 3 →
    exClassifiers.val r ≠ ⟨py!"Mine", (exClassifiers.val 3).keys⟩ ∧ exClassifiers.val r ≠ exClassifiers.val 3 := by
  refine ⟨by decide +kernel, ?_⟩
  intro r hr h3
  simp only [Covers, List.not_mem_nil, false_or, List.mem_cons, or_false] at hr
  rcases hr with rfl | rfl | rfl | rfl
  · exact absurd rfl h3
  · exact ⟨by decide +kernel, by decide +kernel⟩
  · exact ⟨by decide +kernel, by decide +kernel⟩
  · exact ⟨by decide +kernel, by decide +kernel⟩

end

end Opy
