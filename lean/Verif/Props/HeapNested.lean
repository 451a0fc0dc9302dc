import Verif.Model.HeapNested
import Verif.Props.HeapMxml
import Verif.Props.MxmlNone
import Verif.Props.Ext
/-
Property C175: the extensions, the nested values and the text of an attribute end exactly where nothing lies within itself.
-/
set_option linter.unusedSectionVars false
namespace Opy

section
variable {F : Type}

/-! ## Specification -/

/-- One step of the relation or more leads from `x` to something that leads to itself. -/
def Turns (R : Ref → Ref → Prop) (x : Ref) : Prop := ∃ r, (x = r ∨ Relation.TransGen R x r) ∧ Relation.TransGen R r r

/-- There is nothing to be found under the key in the attribute: no attribute, or one whose value is None, zero, False or an empty text.
(A list or container has no value.) -/
def Valueless [PyFloat F] (h : Heap F) (key : Str) (r : Ref) : Prop :=
  ∀ m d s, mapOf h r = .ok m → h.get m = some (.map d) → (key, s) ∈ d →
    ∃ k k' e v mr c, h.get s = some (.attr k k' e v mr c) ∧ k.isCollection = false ∧ Nothing v

/-- What stands under the key in the attribute, if anything, is not a list or container. -/
def Single (h : Heap F) (key : Str) (r : Ref) : Prop :=
  ∀ m d s, mapOf h r = .ok m → h.get m = some (.map d) → (key, s) ∈ d →
    ∃ k k' e v mr c, h.get s = some (.attr k k' e v mr c) ∧ k.isCollection = false

/-- The attribute is not a timestamp without a time. -/
def Timed (h : Heap F) (r : Ref) : Prop := ∀ key e v m c, h.get r = some (.attr .timestamp key e v m c) → ∃ t, v = .dt t

section
variable [PyFloat F]

/-! ## Steps -/

theorem no_steps {R : Ref → Ref → Prop} {N : Nat} (hb : ∀ r s, R r s → r < N ∧ s < N) : ∀ (n : Nat) (path : List Ref) {r : Ref}, r < N → path.Nodup →
    (∀ s ∈ path, s < N ∧ Relation.TransGen R s r) → ¬ Turns R r → N ≤ n + path.length → ¬ StepsFrom R n r := by
  intro n
  induction n with
  | zero =>
    intro path r hr hn hp hl hs _
    have hr' : r ∉ path := fun hm => hl ⟨r, Or.inl rfl, (hp r hm).2⟩
    have : (r :: path).length ≤ N := nodup_below N (List.nodup_cons.mpr ⟨hr', hn⟩) (by
      intro x hx
      rcases List.mem_cons.mp hx with rfl | hx
      · exact hr
      · exact (hp x hx).1)
    simp only [List.length_cons] at this
    omega
  | succ n ih =>
    rintro path r hr hn hp hl hs ⟨s, h1, h2⟩
    have hr' : r ∉ path := fun hm => hl ⟨r, Or.inl rfl, (hp r hm).2⟩
    refine ih (r :: path) (hb r s h1).2 (List.nodup_cons.mpr ⟨hr', hn⟩) ?_ ?_ (by simp only [List.length_cons]; omega) h2
    · intro x hx
      rcases List.mem_cons.mp hx with rfl | hx
      · exact ⟨hr, .single h1⟩
      · exact ⟨(hp x hx).1, .tail (hp x hx).2 h1⟩
    · rintro ⟨q, q1, q2⟩
      refine hl ⟨q, Or.inr ?_, q2⟩
      rcases q1 with rfl | q1
      · exact .single h1
      · exact Relation.TransGen.trans (.single h1) q1

theorem first_step {R : Ref → Ref → Prop} {r s : Ref} (hp : Relation.TransGen R r s) : ∃ u, R r u ∧ (u = s ∨ Relation.TransGen R u s) := by
  induction hp with
  | single q => exact ⟨_, q, Or.inl rfl⟩
  | tail _ q ih =>
    obtain ⟨u, u1, rfl | u2⟩ := ih
    · exact ⟨_, u1, Or.inr (.single q)⟩
    · exact ⟨u, u1, Or.inr (.tail u2 q)⟩

theorem turns_steps {R : Ref → Ref → Prop} {r : Ref} (ht : Turns R r) (n : Nat) : StepsFrom R n r := by
  obtain ⟨q, rfl | q1, q2⟩ := ht
  · exact steps_of_loop q2 n
  · cases n with
    | zero => trivial
    | succ n => exact steps_of_path q1 n (steps_of_loop q2 n)

/-! ## Elements -/

/-- An element of a well-formed heap: its entries are attributes. -/
theorem own_good {h : Heap F} (hw : WellFormed h) {x m : Ref} (hx : mapOf h x = .ok m) :
    ∃ d, ownEntries h x = .ok d ∧ h.get m = some (.map d) ∧ (dkeys d).Nodup ∧ (∀ p ∈ d, IsA h p.2 .attr) ∧ ∀ r, Owns h x r ↔ ∃ n, (n, r) ∈ d := by
  have hm : IsA h m .map := by
    unfold mapOf at hx
    split at hx
    · next g => cases hx; exact (hw x _ g).1
    · next g => cases hx; exact hw x _ g
    · next g => cases hx; exact (hw x _ g).1
    · next g => cases hx; exact (hw x _ g).1
    · cases hx
  obtain ⟨d, gd⟩ := isA_map hm
  obtain ⟨g1, g2⟩ := hw m _ gd
  refine ⟨d, by simp only [ownEntries, hx, ok_bind', entries, gd], gd, g1, g2, fun r => ⟨?_, fun ⟨n, hn⟩ => ⟨m, d, n, hx, gd, hn⟩⟩⟩
  rintro ⟨m', d', n, q1, q2, q3⟩
  rw [hx] at q1
  cases q1
  rw [gd] at q2
  cases q2
  exact ⟨n, q3⟩

theorem mapOf_attr {h : Heap F} {r : Ref} (hr : IsA h r .attr) : ∃ m, mapOf h r = .ok m := by
  obtain ⟨k, key, e, v, m, c, g⟩ := isA_attr hr
  exact ⟨m, by simp only [mapOf, g]⟩

theorem owns_lt {h : Heap F} (hw : WellFormed h) (r s : Ref) (ho : Owns h r s) : r < h.size ∧ s < h.size := by
  have hr : ∃ o, h.get r = some o := by
    obtain ⟨m, _, _, q, _⟩ := ho
    unfold mapOf at q
    split at q <;> first | exact ⟨_, by assumption⟩ | cases q
  obtain ⟨o, ho'⟩ := hr
  obtain ⟨m, d, n, q, gd, hn⟩ := ho
  obtain ⟨o', g', _⟩ := (hw m _ gd).2 _ hn
  exact ⟨get_lt ho', get_lt g'⟩

theorem elem_lt {h : Heap F} {x m : Ref} (hx : mapOf h x = .ok m) : x < h.size := by
  unfold mapOf at hx
  split at hx <;> first | (next g => exact get_lt g) | cases hx

/-! ## Extensions -/

theorem extensionsEach_out {f : Ref → Except PyErr (List Ext)} : ∀ {d : List (Str × Ref)}, (∀ p ∈ d, f p.2 = .ok [] ∨ f p.2 = .error .recursionError) →
    ((∀ p ∈ d, f p.2 = .ok []) ∧ extensionsEach f [] d = .ok []) ∨ ((∃ p ∈ d, f p.2 = .error .recursionError) ∧ extensionsEach f [] d = .error .recursionError)
  | [], _ => Or.inl ⟨by simp, rfl⟩
  | (n, r) :: d, hf => by
    rcases hf (n, r) (by simp) with q | q
    · have : extensionsEach f [] ((n, r) :: d) = extensionsEach f [] d := by simp only [extensionsEach, q, ok_bind']; rfl
      rw [this]
      rcases extensionsEach_out (f := f) (d := d) (fun p hp => hf p (by simp [hp])) with ⟨a, b⟩ | ⟨⟨p, p1, p2⟩, b⟩
      · refine Or.inl ⟨fun p hp => ?_, b⟩
        rcases List.mem_cons.mp hp with rfl | hp
        · exact q
        · exact a p hp
      · exact Or.inr ⟨⟨p, by simp [p1], p2⟩, b⟩
    · exact Or.inr ⟨⟨(n, r), by simp, q⟩, by simp only [extensionsEach, q]; rfl⟩

theorem extensionsAt_out {h : Heap F} (hw : WellFormed h) : ∀ (n : Nat) {x m : Ref}, mapOf h x = .ok m →
    (¬ StepsFrom (Owns h) n x ∧ extensionsAt h n x = .ok []) ∨ (StepsFrom (Owns h) n x ∧ extensionsAt h n x = .error .recursionError)
  | 0, _, _, _ => Or.inr ⟨trivial, rfl⟩
  | n + 1, x, m, hx => by
    obtain ⟨d, g1, _, _, g4, g5⟩ := own_good hw hx
    have each : ∀ p ∈ d, (¬ StepsFrom (Owns h) n p.2 ∧ extensionsAt h n p.2 = .ok []) ∨
        (StepsFrom (Owns h) n p.2 ∧ extensionsAt h n p.2 = .error .recursionError) := fun p hp => by
      obtain ⟨m', hm'⟩ := mapOf_attr (g4 p hp)
      exact extensionsAt_out hw n hm'
    simp only [extensionsAt, g1, ok_bind']
    rcases extensionsEach_out (f := extensionsAt h n) (d := d) (fun p hp => (each p hp).imp (·.2) (·.2)) with ⟨a, b⟩ | ⟨⟨p, p1, p2⟩, b⟩
    · refine Or.inl ⟨?_, b⟩
      rintro ⟨s, s1, s2⟩
      obtain ⟨nm, hs⟩ := (g5 s).1 s1
      rcases each _ hs with ⟨q, _⟩ | ⟨_, q⟩
      · exact q s2
      · rw [a _ hs] at q
        cases q
    · refine Or.inr ⟨?_, b⟩
      rcases each _ p1 with ⟨_, q⟩ | ⟨q, _⟩
      · rw [p2] at q
        cases q
      · exact ⟨p.2, (g5 _).2 ⟨p.1, p1⟩, q⟩

/-- C175: get_extensions returns the empty set if no attribute of the element lies within itself (and as many calls may be nested as there
are objects), and raises RecursionError otherwise, however many calls may be nested. -/
theorem c175_extensions {h : Heap F} (hw : WellFormed h) {x m : Ref} (hx : mapOf h x = .ok m) :
    (¬ Turns (Owns h) x → ∀ n, h.size ≤ n → extensionsAt h n x = .ok []) ∧
    (Turns (Owns h) x → ∀ n, extensionsAt h n x = .error .recursionError) ∧
    ∀ n, extensionsAt h n x = .ok [] ∨ extensionsAt h n x = .error .recursionError := by
  refine ⟨fun q n hn => ?_, fun q n => ?_, fun n => ?_⟩
  · rcases extensionsAt_out hw n hx with ⟨_, e⟩ | ⟨e, _⟩
    · exact e
    · exact absurd e (no_steps (owns_lt hw) n [] (elem_lt hx) List.nodup_nil (fun _ hs => by cases hs) q (by simpa using hn))
  · rcases extensionsAt_out hw n hx with ⟨e, _⟩ | ⟨_, e⟩
    · exact absurd (turns_steps q n) e
    · exact e
  · exact (extensionsAt_out hw n hx).imp (·.2) (·.2)

/-! ## Nested values -/

theorem dget_entry {α : Type} {d : List (Str × α)} (hn : (dkeys d).Nodup) {k : Str} {a : α} : dget k d = some a ↔ (k, a) ∈ d := by
  induction d with
  | nil => simp [dget]
  | cons p d ih =>
    obtain ⟨n, b⟩ := p
    simp only [dkeys, List.map_cons, List.nodup_cons] at hn
    simp only [dget, List.mem_cons, Prod.mk.injEq]
    by_cases hk : n = k
    · subst hk
      simp only [if_true, Option.some.injEq, true_and]
      refine ⟨fun e => Or.inl e.symm, ?_⟩
      rintro (e | e)
      · exact e.symm
      · exact absurd (List.mem_map.2 ⟨_, e, rfl⟩) hn.1
    · simp only [hk, if_false]
      rw [ih hn.2]
      refine ⟨Or.inr, ?_⟩
      rintro (⟨e, _⟩ | e)
      · exact absurd e.symm hk
      · exact e

/-- What extract_value gives for an attribute. -/
theorem costAt_out {h : Heap F} (hw : WellFormed h) {r m : Ref} (hr : mapOf h r = .ok m) {d : List (Str × Ref)} (hd : ownEntries h r = .ok d) (key : Str) :
    (Valueless h key r ∧ ∃ v, costAt h key d = .ok v ∧ pyTruthy v = false) ∨ (¬ Valueless h key r ∧ Single h key r ∧ ∃ v, costAt h key d = .ok v ∧ pyTruthy v = true) ∨
      (¬ Valueless h key r ∧ ¬ Single h key r ∧ costAt h key d = .error .attributeError) := by
  obtain ⟨d', g1, g2, g3, g4, _⟩ := own_good hw hr
  rw [hd] at g1
  cases g1
  have uniq : ∀ {m' : Ref} {d' : List (Str × Ref)} {s s' : Ref}, mapOf h r = .ok m' → h.get m' = some (.map d') → (key, s) ∈ d' → dget key d = some s' → s = s' := by
    intro m' d' s s' q1 q2 q3 q4
    rw [hr] at q1
    cases q1
    rw [g2] at q2
    cases q2
    have := (dget_entry g3).2 q3
    rw [q4] at this
    cases this
    rfl
  cases q : dget key d with
  | none =>
    refine Or.inl ⟨?_, .none, by simp only [costAt, valueUnder, q]; rfl, rfl⟩
    intro m' d' s q1 q2 q3
    rw [hr] at q1
    cases q1
    rw [g2] at q2
    cases q2
    rw [(dget_entry g3).2 q3] at q
    cases q
  | some s =>
    have hs := (dget_entry g3).1 q
    obtain ⟨k, k', e, v, mr, c, g⟩ := isA_attr (g4 _ hs)
    have hc : costAt h key d = if k.isCollection then .error .attributeError else .ok v := by
      simp only [costAt, valueUnder, q, bareAttr, g, ok_bind', getValue, Attr.kind, Attr.val]
      cases k <;> rfl
    have same : ∀ {s' : Ref} {m' : Ref} {d' : List (Str × Ref)}, mapOf h r = .ok m' → h.get m' = some (.map d') → (key, s') ∈ d' → s' = s :=
      fun q1 q2 q3 => uniq q1 q2 q3 q
    by_cases hk : k.isCollection = true
    · refine Or.inr (Or.inr ⟨fun hb => ?_, fun hb => ?_, by simp only [hc, hk, if_true]⟩)
      · obtain ⟨_, _, _, _, _, _, f1, f2, _⟩ := hb m d s hr g2 hs
        rw [g] at f1
        cases f1
        rw [hk] at f2
        cases f2
      · obtain ⟨_, _, _, _, _, _, f1, f2⟩ := hb m d s hr g2 hs
        rw [g] at f1
        cases f1
        rw [hk] at f2
        cases f2
    · have hk' : k.isCollection = false := by simpa using hk
      cases ht : pyTruthy v with
      | false =>
        refine Or.inl ⟨fun m' d' s' q1 q2 q3 => ?_, v, by simp only [hc, hk', Bool.false_eq_true, if_false], ht⟩
        rw [same q1 q2 q3]
        exact ⟨k, k', e, v, mr, c, g, hk', (pyTruthy_iff v).1 ht⟩
      | true =>
        refine Or.inr (Or.inl ⟨fun hb => ?_, fun m' d' s' q1 q2 q3 => ?_, v, by simp only [hc, hk', Bool.false_eq_true, if_false], ht⟩)
        · obtain ⟨_, _, _, _, _, _, f1, _, f3⟩ := hb m d s hr g2 hs
          rw [g] at f1
          cases f1
          rw [(pyTruthy_iff v).2 f3] at ht
          cases ht
        · rw [same q1 q2 q3]
          exact ⟨k, k', e, v, mr, c, g, hk'⟩

/-- What the helper does with an attribute and everything within it. -/
structure NestedOut (h : Heap F) (key : Str) (n : Nat) (acc : List (List Str × PyVal F)) (r : Ref) (o : Except PyErr (List (List Str × PyVal F))) : Prop where
  ok : ∀ d, o = .ok d → d = acc ∧ ¬ StepsFrom (Owns h) n r ∧ ∀ s, (r = s ∨ Relation.TransGen (Owns h) r s) → Valueless h key s
  err : ∀ e, o = .error e → (e = .recursionError ∧ StepsFrom (Owns h) n r) ∨
    (e = .typeError ∧ ∃ s, (r = s ∨ Relation.TransGen (Owns h) r s) ∧ ¬ Valueless h key s ∧ Single h key s) ∨
    (e = .attributeError ∧ ∃ s, (r = s ∨ Relation.TransGen (Owns h) r s) ∧ ¬ Single h key s)

theorem nestedEach_out {h : Heap F} {key : Str} {n : Nat} {f : List Str → List (List Str × PyVal F) → Ref → Except PyErr (List (List Str × PyVal F))} (keys : List Str) :
    ∀ {d : List (Str × Ref)} (acc : List (List Str × PyVal F)), (∀ p ∈ d, NestedOut h key n acc p.2 (f keys acc p.2)) →
    (nestedEach f keys acc d = .ok acc ∧ ∀ p ∈ d, f keys acc p.2 = .ok acc) ∨ ∃ e, nestedEach f keys acc d = .error e ∧ ∃ p ∈ d, f keys acc p.2 = .error e
  | [], acc, _ => Or.inl ⟨rfl, by simp⟩
  | (nm, r) :: d, acc, hf => by
    cases q : f keys acc r with
    | error e => exact Or.inr ⟨e, by simp only [nestedEach, q]; rfl, (nm, r), by simp, q⟩
    | ok a =>
      have ha := ((hf (nm, r) (by simp)).ok a q).1
      subst ha
      have : nestedEach f keys a ((nm, r) :: d) = nestedEach f keys a d := by simp only [nestedEach, q, ok_bind']
      rw [this]
      rcases nestedEach_out (n := n) (f := f) keys (d := d) a (fun p hp => hf p (by simp [hp])) with ⟨b1, b2⟩ | ⟨e, b1, p, p1, p2⟩
      · refine Or.inl ⟨b1, fun p hp => ?_⟩
        rcases List.mem_cons.mp hp with rfl | hp
        · exact q
        · exact b2 p hp
      · exact Or.inr ⟨e, b1, p, by simp [p1], p2⟩

theorem nestedAt_out {h : Heap F} (hw : WellFormed h) (key : Str) : ∀ (n : Nat) (keys : List Str) (acc : List (List Str × PyVal F)) {r : Ref}, IsA h r .attr →
    NestedOut h key n acc r (nestedAt h key n keys acc r)
  | 0, _, _, _, _ => ⟨fun _ e => (nomatch e), fun e q => by cases q; exact Or.inl ⟨rfl, trivial⟩⟩
  | n + 1, keys, acc, r, hr => by
    obtain ⟨m, hm⟩ := mapOf_attr hr
    obtain ⟨d, g1, g2, g3, g4, g5⟩ := own_good hw hm
    obtain ⟨k, k', e, v', mr, c, g⟩ := isA_attr hr
    have hb : bareAttr h r = .ok (.mk k k' e v' [] []) := by simp only [bareAttr, g]
    simp only [nestedAt, g1, ok_bind', hb, Attr.key]
    rcases costAt_out hw hm g1 key with ⟨b, v, c1, c2⟩ | ⟨b, b', v, c1, c2⟩ | ⟨b, b', c1⟩
    · simp only [c1, ok_bind', c2, Bool.false_eq_true, if_false]
      rcases nestedEach_out (h := h) (key := key) (n := n) (f := nestedAt h key n) (keys ++ [k']) (d := d) acc
        (fun p hp => nestedAt_out hw key n _ acc (g4 p hp)) with ⟨q1, q2⟩ | ⟨e', q1, p, p1, p2⟩
      · rw [q1]
        refine ⟨fun d' e' => ?_, fun _ e' => by cases e'⟩
        cases e'
        refine ⟨rfl, ?_, ?_⟩
        · rintro ⟨s, s1, s2⟩
          obtain ⟨nm, hs⟩ := (g5 s).1 s1
          exact ((nestedAt_out hw key n _ acc (g4 _ hs)).ok _ (q2 _ hs)).2.1 s2
        · rintro s (rfl | hs)
          · exact b
          · obtain ⟨u, u1, u2⟩ := first_step hs
            obtain ⟨nm, hu⟩ := (g5 u).1 u1
            exact ((nestedAt_out hw key n _ acc (g4 _ hu)).ok _ (q2 _ hu)).2.2 s u2
      · rw [q1]
        refine ⟨fun _ e' => (nomatch e'), fun _ e'' => ?_⟩
        cases e''
        have ho : Owns h r p.2 := (g5 p.2).2 ⟨p.1, p1⟩
        have deep : ∀ {s}, (p.2 = s ∨ Relation.TransGen (Owns h) p.2 s) → r = s ∨ Relation.TransGen (Owns h) r s := by
          rintro s (rfl | hs)
          · exact Or.inr (.single ho)
          · exact Or.inr (Relation.TransGen.trans (.single ho) hs)
        rcases (nestedAt_out hw key n _ acc (g4 _ p1)).err _ p2 with ⟨w1, w2⟩ | ⟨w1, s, w2, w3⟩ | ⟨w1, s, w2, w3⟩
        · exact Or.inl ⟨w1, p.2, ho, w2⟩
        · exact Or.inr (Or.inl ⟨w1, s, deep w2, w3⟩)
        · exact Or.inr (Or.inr ⟨w1, s, deep w2, w3⟩)
    · simp only [c1, ok_bind', c2, if_true, setListKey]
      refine ⟨fun _ e' => (nomatch e'), fun _ e' => ?_⟩
      cases e'
      exact Or.inr (Or.inl ⟨rfl, r, Or.inl rfl, b, b'⟩)
    · simp only [c1]
      refine ⟨fun _ e' => (nomatch e'), fun _ e' => ?_⟩
      cases e'
      exact Or.inr (Or.inr ⟨rfl, r, Or.inl rfl, b'⟩)

theorem nestedTop_out {h : Heap F} (hw : WellFormed h) (key : Str) (n : Nat) : ∀ {d : List (Str × Ref)}, (∀ p ∈ d, IsA h p.2 .attr) →
    (nestedTop h key n [] d = .ok [] ∧ ∀ p ∈ d, ∃ ks, nestedAt h key n ks [] p.2 = .ok []) ∨
      ∃ e, nestedTop h key n [] d = .error e ∧ ∃ p ∈ d, ∃ ks, nestedAt h key n ks [] p.2 = .error e
  | [], _ => Or.inl ⟨rfl, by simp⟩
  | (nm, r) :: d, hd => by
    obtain ⟨k, k', e, v, mr, c, g⟩ := isA_attr (hd (nm, r) (by simp))
    have hb : bareAttr h r = .ok (.mk k k' e v [] []) := by simp only [bareAttr, g]
    cases q : nestedAt h key n [k'] [] r with
    | error e => exact Or.inr ⟨e, by simp only [nestedTop, hb, ok_bind', Attr.key, q]; rfl, (nm, r), by simp, [k'], q⟩
    | ok a =>
      have ha := ((nestedAt_out hw key n [k'] [] (hd (nm, r) (by simp))).ok a q).1
      subst ha
      have : nestedTop h key n [] ((nm, r) :: d) = nestedTop h key n [] d := by simp only [nestedTop, hb, ok_bind', Attr.key, q]
      rw [this]
      rcases nestedTop_out hw key n (d := d) (fun p hp => hd p (by simp [hp])) with ⟨b1, b2⟩ | ⟨e, b1, p, p1, p2⟩
      · refine Or.inl ⟨b1, fun p hp => ?_⟩
        rcases List.mem_cons.mp hp with rfl | hp
        · exact ⟨[k'], q⟩
        · exact b2 p hp
      · exact Or.inr ⟨e, b1, p, by simp [p1], p2⟩

/-- Everything there is to say about one number of nested calls. -/
theorem nestedValuesAt_out {h : Heap F} (hw : WellFormed h) (key : Str) {x m : Ref} (hx : mapOf h x = .ok m) (n : Nat) :
    (nestedValuesAt h key n x = .ok [] ∧ ¬ StepsFrom (Owns h) (n + 1) x ∧ ∀ s, Relation.TransGen (Owns h) x s → Valueless h key s) ∨
    (nestedValuesAt h key n x = .error .recursionError ∧ StepsFrom (Owns h) (n + 1) x) ∨
    (nestedValuesAt h key n x = .error .typeError ∧ ∃ s, Relation.TransGen (Owns h) x s ∧ ¬ Valueless h key s ∧ Single h key s) ∨
    (nestedValuesAt h key n x = .error .attributeError ∧ ∃ s, Relation.TransGen (Owns h) x s ∧ ¬ Single h key s) := by
  obtain ⟨d, g1, g2, g3, g4, g5⟩ := own_good hw hx
  simp only [nestedValuesAt, g1, ok_bind']
  rcases nestedTop_out hw key n (d := d) g4 with ⟨q1, q2⟩ | ⟨e, q1, p, p1, ks, p2⟩
  · refine Or.inl ⟨q1, ?_, ?_⟩
    · rintro ⟨s, s1, s2⟩
      obtain ⟨nm, hs⟩ := (g5 s).1 s1
      obtain ⟨ks, hk⟩ := q2 _ hs
      exact ((nestedAt_out hw key n ks [] (g4 _ hs)).ok _ hk).2.1 s2
    · intro s hs
      obtain ⟨u, u1, u2⟩ := first_step hs
      obtain ⟨nm, hu⟩ := (g5 u).1 u1
      obtain ⟨ks, hk⟩ := q2 _ hu
      exact ((nestedAt_out hw key n ks [] (g4 _ hu)).ok _ hk).2.2 s u2
  · have ho : Owns h x p.2 := (g5 p.2).2 ⟨p.1, p1⟩
    have deep : ∀ {s}, (p.2 = s ∨ Relation.TransGen (Owns h) p.2 s) → Relation.TransGen (Owns h) x s := by
      rintro s (rfl | hs)
      · exact .single ho
      · exact Relation.TransGen.trans (.single ho) hs
    right
    rcases (nestedAt_out hw key n ks [] (g4 _ p1)).err _ p2 with ⟨rfl, w2⟩ | ⟨rfl, s, w2, w3⟩ | ⟨rfl, s, w2, w3⟩
    · exact Or.inl ⟨q1, p.2, ho, w2⟩
    · exact Or.inr (Or.inl ⟨q1, s, deep w2, w3⟩)
    · exact Or.inr (Or.inr ⟨q1, s, deep w2, w3⟩)

theorem blank_single {h : Heap F} {key : Str} {r : Ref} (hb : Valueless h key r) : Single h key r := by
  intro m d s q1 q2 q3
  obtain ⟨k, k', e, v, mr, c, g, hk, _⟩ := hb m d s q1 q2 q3
  exact ⟨k, k', e, v, mr, c, g, hk⟩

/-- C175: the nested values of an element, for the key of one of the cost classes: the empty dict exactly if no attribute of the element
lies within itself and none has a value under the key; nothing else is ever returned. -/
theorem c175_values {h : Heap F} (hw : WellFormed h) (key : Str) {x m : Ref} (hx : mapOf h x = .ok m) :
    (∀ n d, nestedValuesAt h key n x = .ok d → d = []) ∧
    ((∃ n, nestedValuesAt h key n x = .ok []) ↔ ¬ Turns (Owns h) x ∧ ∀ s, Relation.TransGen (Owns h) x s → Valueless h key s) ∧
    ∀ n, h.size ≤ n → (nestedValuesAt h key n x = .ok [] ↔ ¬ Turns (Owns h) x ∧ ∀ s, Relation.TransGen (Owns h) x s → Valueless h key s) := by
  have big : ∀ n, h.size ≤ n → ¬ Turns (Owns h) x → (∀ s, Relation.TransGen (Owns h) x s → Valueless h key s) → nestedValuesAt h key n x = .ok [] := by
    intro n hn ht hb
    rcases nestedValuesAt_out hw key hx n with ⟨q, _⟩ | ⟨_, q⟩ | ⟨_, s, s1, s2, _⟩ | ⟨_, s, s1, s2⟩
    · exact q
    · exact absurd q (no_steps (owns_lt hw) (n + 1) [] (elem_lt hx) List.nodup_nil (fun _ hs => by cases hs) ht (by simp only [List.length_nil]; omega))
    · exact absurd (hb s s1) s2
    · exact absurd (blank_single (hb s s1)) s2
  have back : ∀ n, nestedValuesAt h key n x = .ok [] → ¬ Turns (Owns h) x ∧ ∀ s, Relation.TransGen (Owns h) x s → Valueless h key s := by
    intro n hn
    rcases nestedValuesAt_out hw key hx n with ⟨_, q1, q2⟩ | ⟨q, _⟩ | ⟨q, _⟩ | ⟨q, _⟩
    · exact ⟨fun ht => q1 (turns_steps ht (n + 1)), q2⟩
    all_goals (rw [hn] at q; cases q)
  refine ⟨fun n d hd => ?_, ⟨fun ⟨n, hn⟩ => back n hn, fun ⟨a, b⟩ => ⟨h.size, big h.size (Nat.le_refl _) a b⟩⟩, fun n hn => ⟨back n, fun ⟨a, b⟩ => big n hn a b⟩⟩
  rcases nestedValuesAt_out hw key hx n with ⟨q, _⟩ | ⟨q, _⟩ | ⟨q, _⟩ | ⟨q, _⟩
  all_goals (rw [hd] at q; cases q)
  rfl

/-- C175: what is raised instead.  TypeError if values are found, none of them is that of a list or container, and nothing lies within
itself; RecursionError if something lies within itself and no value is found. -/
theorem c175_raises {h : Heap F} (hw : WellFormed h) (key : Str) {x m : Ref} (hx : mapOf h x = .ok m) :
    (∀ s, Relation.TransGen (Owns h) x s → Single h key s) →
    ((¬ Turns (Owns h) x → (∃ s, Relation.TransGen (Owns h) x s ∧ ¬ Valueless h key s) → ∀ n, h.size ≤ n → nestedValuesAt h key n x = .error .typeError) ∧
    (Turns (Owns h) x → (∀ s, Relation.TransGen (Owns h) x s → Valueless h key s) → ∀ n, nestedValuesAt h key n x = .error .recursionError) ∧
    (Turns (Owns h) x → ∀ n, nestedValuesAt h key n x = .error .typeError ∨ nestedValuesAt h key n x = .error .recursionError)) := by
  intro hs
  refine ⟨fun ht ⟨s, s1, s2⟩ n hn => ?_, fun ht hb n => ?_, fun ht n => ?_⟩
  · rcases nestedValuesAt_out hw key hx n with ⟨_, _, q⟩ | ⟨_, q⟩ | ⟨q, _⟩ | ⟨_, u, u1, u2⟩
    · exact absurd (q s s1) s2
    · exact absurd q (no_steps (owns_lt hw) (n + 1) [] (elem_lt hx) List.nodup_nil (fun _ hs => by cases hs) ht (by simp only [List.length_nil]; omega))
    · exact q
    · exact absurd (hs u u1) u2
  · rcases nestedValuesAt_out hw key hx n with ⟨_, q, _⟩ | ⟨q, _⟩ | ⟨_, u, u1, u2, _⟩ | ⟨_, u, u1, u2⟩
    · exact absurd (turns_steps ht _) q
    · exact q
    · exact absurd (hb u u1) u2
    · exact absurd (hs u u1) u2
  · rcases nestedValuesAt_out hw key hx n with ⟨_, q, _⟩ | ⟨q, _⟩ | ⟨q, _⟩ | ⟨_, u, u1, u2⟩
    · exact absurd (turns_steps ht _) q
    · exact Or.inr q
    · exact Or.inl q
    · exact absurd (hs u u1) u2

/-- C175: extract_values returns the empty dict where extract_nested_values does, and raises the same otherwise. -/
theorem c175_top {h : Heap F} (hw : WellFormed h) (key : Str) {x m : Ref} (hx : mapOf h x = .ok m) (n : Nat) :
    (nestedValuesAt h key n x = .ok [] ∧ valuesAt h key n x = .ok []) ∨ ∃ e, nestedValuesAt h key n x = .error e ∧ valuesAt h key n x = .error e := by
  rcases nestedValuesAt_out hw key hx n with ⟨q, _⟩ | ⟨q, _⟩ | ⟨q, _⟩ | ⟨q, _⟩
  · exact Or.inl ⟨q, by simp only [valuesAt, q]; rfl⟩
  all_goals exact Or.inr ⟨_, q, by simp only [valuesAt, q]; rfl⟩

/-! ## Text -/

theorem member_lt {h : Heap F} (hw : WellFormed h) (r s : Ref) (hm : MemberOf h r s) : r < h.size ∧ s < h.size := by
  obtain ⟨k, key, e, v, m, c, g, _, hc⟩ := hm
  obtain ⟨_, g', _⟩ := (hw r _ g).2 s hc
  exact ⟨get_lt g, get_lt g'⟩

theorem strAt_plain_ok {h : Heap F} {n : Nat} {r : Ref} {k : Kind} {key : Str} {e : Option Ext} {v : PyVal F} {m : Ref} {c : List Ref}
    (g : h.get r = some (.attr k key e v m c)) (hk : k.isCollection = false) :
    (∃ t, strAt h (n + 1) r = .ok t) ↔ Timed h r := by
  simp only [strAt, g, hk, Bool.false_eq_true, if_false]
  constructor
  · rintro ⟨t, ht⟩ key' e' v' m' c' g'
    rw [g] at g'
    cases g'
    cases v <;> simp only [attrStr, reduceCtorEq] at ht
    exact ⟨_, rfl⟩
  · intro ht
    cases k <;> first | (cases hk; done) | exact ⟨pyStr v, rfl⟩ | exact ⟨pyLower (pyStr v), rfl⟩ | skip
    obtain ⟨t, rfl⟩ := ht _ _ _ _ _ g
    exact ⟨t.xesStr, rfl⟩

theorem membersStr_all {h : Heap F} {f : Ref → Except PyErr Str} : ∀ {rs : List Ref} (sep : Str), (∀ r ∈ rs, IsA h r .attr) → (∀ r ∈ rs, ∃ t, f r = .ok t) →
    ∃ t, membersStr h f sep rs = .ok t
  | [], _, _, _ => ⟨[], rfl⟩
  | r :: rs, sep, ha, hf => by
    obtain ⟨k, key, e, v, m, c, g⟩ := isA_attr (ha r (by simp))
    obtain ⟨s, hs⟩ := hf r (by simp)
    obtain ⟨t, ht⟩ := membersStr_all (rs := rs) [','] (fun q hq => ha q (by simp [hq])) (fun q hq => hf q (by simp [hq]))
    exact ⟨sep ++ key ++ [':'] ++ s ++ t, by simp only [membersStr, bareAttr, g, ok_bind', hs, ht]; rfl⟩

theorem strAt_ok_iff {h : Heap F} (hw : WellFormed h) : ∀ (n : Nat) {r : Ref}, IsA h r .attr →
    ((∃ t, strAt h n r = .ok t) ↔ ¬ StepsFrom (MemberOf h) n r ∧ ∀ s, (r = s ∨ Relation.TransGen (MemberOf h) r s) → Timed h s)
  | 0, r, _ => ⟨fun ⟨_, e⟩ => (nomatch e), fun q => absurd trivial q.1⟩
  | n + 1, r, hr => by
    obtain ⟨k, key, e, v, m, c, g⟩ := isA_attr hr
    have hg := (hw r _ g).2
    by_cases hk : k.isCollection = true
    · have hm : ∀ s, MemberOf h r s ↔ s ∈ c := fun s => ⟨fun ⟨_, _, _, _, _, _, g', _, q⟩ => by rw [g] at g'; cases g'; exact q, fun q => ⟨_, _, _, _, _, _, g, hk, q⟩⟩
      have hrT : Timed h r := by
        intro key' e' v' m' c' g'
        rw [g] at g'
        cases g'
        cases hk
      constructor
      · rintro ⟨t, ht⟩
        refine ⟨strAt_steps (n + 1) ht, ?_⟩
        simp only [strAt, g, hk, if_true] at ht
        obtain ⟨w, h1, _⟩ := bind_ok.mp ht
        rintro s (rfl | hs)
        · exact hrT
        · obtain ⟨u, u1, u2⟩ := first_step hs
          have hu := (hm u).1 u1
          exact ((strAt_ok_iff hw n (hg u hu)).1 (membersStr_ok h1 u hu)).2 s u2
      · rintro ⟨h1, h2⟩
        obtain ⟨t, ht⟩ := membersStr_all (h := h) (f := strAt h n) (rs := c) ['['] hg fun u hu =>
          (strAt_ok_iff hw n (hg u hu)).2 ⟨fun q => h1 ⟨u, (hm u).2 hu, q⟩, fun s hs => h2 s (by
            rcases hs with rfl | hs
            · exact Or.inr (.single ((hm _).2 hu))
            · exact Or.inr (Relation.TransGen.trans (.single ((hm _).2 hu)) hs))⟩
        exact ⟨(if t = [] then ['['] else t) ++ [']'], by simp only [strAt, g, hk, if_true, ht, ok_bind']⟩
    · have hk' : k.isCollection = false := by simpa using hk
      have none : ∀ s, ¬ MemberOf h r s := by
        rintro s ⟨_, _, _, _, _, _, g', q, _⟩
        rw [g] at g'
        cases g'
        exact hk q
      rw [strAt_plain_ok g hk']
      refine ⟨fun q => ⟨fun ⟨s, s1, _⟩ => none s s1, ?_⟩, fun q => q.2 r (Or.inl rfl)⟩
      rintro s (rfl | hs)
      · exact q
      · obtain ⟨u, u1, _⟩ := first_step hs
        exact absurd u1 (none u)

/-- C175: an attribute has a text exactly if no list or container within it is a member of itself and no timestamp within it lacks its
time; as many nested calls as there are objects are enough. -/
theorem c175_text {h : Heap F} (hw : WellFormed h) {r : Ref} (hr : IsA h r .attr) :
    ((∃ n t, strAt h n r = .ok t) ↔ ¬ Turns (MemberOf h) r ∧ ∀ s, (r = s ∨ Relation.TransGen (MemberOf h) r s) → Timed h s) ∧
    ((∃ n t, strAt h n r = .ok t) → ∀ n, h.size ≤ n → ∃ t, strAt h n r = .ok t) := by
  have lt : r < h.size := by
    obtain ⟨o, ho, _⟩ := hr
    exact get_lt ho
  have fwd : (∃ n t, strAt h n r = .ok t) → ¬ Turns (MemberOf h) r ∧ ∀ s, (r = s ∨ Relation.TransGen (MemberOf h) r s) → Timed h s := by
    rintro ⟨n, ht⟩
    obtain ⟨a, b⟩ := (strAt_ok_iff hw n hr).1 ht
    exact ⟨fun q => a (turns_steps q n), b⟩
  have bwd : ¬ Turns (MemberOf h) r ∧ (∀ s, (r = s ∨ Relation.TransGen (MemberOf h) r s) → Timed h s) → ∀ n, h.size ≤ n → ∃ t, strAt h n r = .ok t := by
    rintro ⟨a, b⟩ n hn
    exact (strAt_ok_iff hw n hr).2 ⟨no_steps (member_lt hw) n [] lt List.nodup_nil (fun _ hs => by cases hs) a (by simpa using hn), b⟩
  exact ⟨⟨fwd, fun q => ⟨h.size, bwd q _ (Nat.le_refl _)⟩⟩, fun q => bwd (fwd q)⟩

/-- C175: all of this holds whatever a program did. -/
theorem c175_program {env : ApiEnv} {h h' : Heap F} (hw : WellFormed h) (hP : ProtosOk h env.protos) (hr : Reaches env h h') {x m : Ref}
    (hx : mapOf h' x = .ok m) (key : Str) :
    ((∃ n, extensionsAt h' n x = .ok []) ↔ ¬ Turns (Owns h') x) ∧
    ((∃ n, nestedValuesAt h' key n x = .ok []) ↔ ¬ Turns (Owns h') x ∧ ∀ s, Relation.TransGen (Owns h') x s → Valueless h' key s) := by
  obtain ⟨a, _, _⟩ := c159_reachable hw hP hr
  obtain ⟨b1, b2, _⟩ := c175_extensions a hx
  refine ⟨⟨fun ⟨n, hn⟩ ht => ?_, fun ht => ⟨_, b1 ht _ (Nat.le_refl _)⟩⟩, (c175_values a key hx).2.1⟩
  rw [b2 ht n] at hn
  cases hn

end

end

/-! ## Examples -/

/-- A cost (object 3) stands in an attribute (1) of an event (5) twice over: directly and in a list (7) that is not a meta attribute. -/
def exCosts : Heap ToyFloat :=
  ⟨[.map [], .attr .literal py!"a" none (.str []) 2 [], .map [(py!"cost:amount", 3)], .attr .discrete py!"cost:amount" none (.int 7) 0 [],
    .map [(py!"a", 1), (py!"b", 1)], .event 5 4, .map [(py!"l", 7)], .attr .list py!"l" none .none 0 [7, 3], .event 6 6], 0⟩

theorem exCosts_good : WellFormed exCosts := goodB_sound (by decide +kernel)

example : (nestedValuesAt exCosts py!"cost:amount" 9 5 = .error .typeError) ∧ nestedValuesAt exCosts py!"cost:type" 9 5 = .ok [] ∧
    extensionsAt exCosts 9 5 = .ok [] ∧ nestedValuesAt exCosts py!"l" 9 8 = .ok [] ∧ nestedValuesAt exCosts py!"cost:amount" 1 5 = .error .typeError ∧
    nestedValuesAt exCosts py!"cost:type" 1 5 = .error .recursionError := by
  refine ⟨?_, ?_, ?_, ?_, ?_, ?_⟩ <;> decide +kernel

/-- The list that is a member of itself has no text, but it has extensions. -/
example : (∀ n t, strAt exCosts n 7 ≠ .ok t) ∧ extensionsAt exCosts 9 8 = .ok [] := by
  refine ⟨fun n t ht => ?_, by decide +kernel⟩
  exact ((c175_text exCosts_good (r := 7) (isAB_sound (by decide +kernel))).1.1 ⟨n, t, ht⟩).1
    ⟨7, Or.inl rfl, .single ⟨_, _, _, _, _, _, rfl, rfl, by simp⟩⟩

/-- The attribute in its own attribute map has a text, but its extensions and nested values are never found. -/
example : (∀ n, extensionsAt exCycle n 43 = .error .recursionError) ∧ (∀ n d, nestedValuesAt exCycle py!"cost:amount" n 44 ≠ .ok d) ∧
    strAt exCycle 1 43 = .ok [] := by
  have hw : WellFormed exCycle := goodB_sound (by decide +kernel)
  have gm : exCycle.get 42 = some (.map [(py!"a", 43)]) := by decide +kernel
  have ho : Owns exCycle 43 43 := ⟨42, _, py!"a", by decide +kernel, gm, by simp⟩
  have ho' : Owns exCycle 44 43 := ⟨42, _, py!"a", by decide +kernel, gm, by simp⟩
  refine ⟨(c175_extensions hw (m := 42) (by decide +kernel)).2.1 ⟨43, Or.inl rfl, .single ho⟩, fun n d hd => ?_, by decide +kernel⟩
  obtain ⟨a, b, _⟩ := c175_values hw py!"cost:amount" (x := 44) (m := 42) (by decide +kernel)
  have := a n d hd
  subst this
  exact (b.1 ⟨n, hd⟩).1 ⟨43, Or.inr (.single ho'), .single ho⟩

end Opy
