import Verif.Props.Unshared
import Verif.Props.MxmlHeap
/-
Property C181: in the logs loaded from an MXML file nothing stands in two places, but for the source, which the logs of a file share.
-/
set_option linter.unusedSectionVars false
namespace Opy

section
variable {F : Type} [PyFloat F]

/-- The objects made since `h0`: `made` are the logs, `hold` what the handler holds and has put nowhere, `srcs` the sources. -/
structure Neat (h0 H : Heap F) (made hold srcs : List Ref) : Prop where
  ext : Extends h0 H
  new : ∀ r, r ∈ made ∨ r ∈ hold ∨ r ∈ srcs → New h0 H r
  once : ∀ a, a ∉ srcs → made.count a + hold.count a + heldBy placeRefs h0.size H a ≤ 1
  apart : ∀ a ∈ srcs, a ∉ made ∧ a ∉ hold
  named : ∀ s ∈ srcs, keyOf H s = .ok py!"source"
  stored : ∀ s ∈ srcs, ∀ x o, h0.size ≤ x → H.get x = some o → s ∈ placeRefs o →
    ∃ d, o = .map d ∧ (∀ k, (k, s) ∈ d → k = py!"source") ∧ ∃ l ∈ made, mapOf H l = .ok x

theorem Neat.mono {h0 H : Heap F} {made hold srcs hold' : List Ref} (t : Neat h0 H made hold srcs) (hc : ∀ a, hold'.count a ≤ hold.count a) :
    Neat h0 H made hold' srcs := by
  have sub : ∀ a, a ∈ hold' → a ∈ hold := fun a ha => List.count_pos_iff.1 (Nat.lt_of_lt_of_le (List.count_pos_iff.2 ha) (hc a))
  refine ⟨t.ext, ?_, ?_, ?_, t.named, t.stored⟩
  · intro r hr
    rcases hr with q | q | q
    · exact t.new r (Or.inl q)
    · exact t.new r (Or.inr (Or.inl (sub r q)))
    · exact t.new r (Or.inr (Or.inr q))
  · intro a ha
    have := t.once a ha
    have := hc a
    omega
  · exact fun a ha => ⟨(t.apart a ha).1, fun q => (t.apart a ha).2 (sub a q)⟩

/-- A log, made and never put anywhere. -/
theorem Neat.log {h0 H : Heap F} {made hold srcs : List Ref} {n : Ref} (t : Neat h0 H made (n :: hold) srcs) : Neat h0 H (n :: made) hold srcs := by
  refine ⟨t.ext, ?_, ?_, ?_, t.named, ?_⟩
  · intro r hr
    apply t.new r
    simp only [List.mem_cons] at hr ⊢
    rcases hr with (q | q) | q | q <;> simp [q]
  · intro a ha
    have := t.once a ha
    simp only [List.count_cons] at this ⊢
    omega
  · intro a ha
    have := t.apart a ha
    simp only [List.mem_cons, not_or] at this ⊢
    exact ⟨⟨this.2.1, this.1⟩, this.2.2⟩
  · intro s hs x o hx g hm
    obtain ⟨d, e, hk, l, hl, hm'⟩ := t.stored s hs x o hx g hm
    exact ⟨d, e, hk, l, List.mem_cons_of_mem _ hl, hm'⟩

theorem held_pos {N : Nat} {H : Heap F} {x a : Ref} {o : Obj F} (hx : N ≤ x) (g : H.get x = some o) (ha : a ∈ placeRefs o) : 0 < heldBy placeRefs N H a := by
  have e1 : (H.objs.drop N)[x - N]? = some o := by
    rw [List.getElem?_drop, Nat.add_sub_cancel' hx]; exact g
  exact List.count_pos_iff.2 (List.mem_flatMap.2 ⟨_, List.mem_of_getElem? e1, ha⟩)

/-- A source. -/
theorem Neat.source {h0 H : Heap F} {made hold srcs : List Ref} {n : Ref} (t : Neat h0 H made (n :: hold) srcs) (hk : keyOf H n = .ok py!"source") :
    Neat h0 H made hold (n :: srcs) := by
  have hn : n ∉ srcs := fun q => (t.apart n q).2 (List.mem_cons_self ..)
  have h1 := t.once n hn
  simp only [List.count_cons_self] at h1
  refine ⟨t.ext, ?_, ?_, ?_, ?_, ?_⟩
  · intro r hr
    apply t.new r
    simp only [List.mem_cons] at hr ⊢
    rcases hr with q | q | q | q <;> simp [q]
  · intro a ha
    simp only [List.mem_cons, not_or] at ha
    have := t.once a ha.2
    simp only [List.count_cons] at this
    omega
  · intro a ha
    rcases List.mem_cons.1 ha with rfl | ha
    · constructor
      · intro q
        have := List.count_pos_iff.2 q
        omega
      · intro q
        have := List.count_pos_iff.2 q
        omega
    · have := t.apart a ha
      simp only [List.mem_cons, not_or] at this
      exact ⟨this.1, this.2.2⟩
  · intro s hs
    rcases List.mem_cons.1 hs with rfl | hs
    · exact hk
    · exact t.named s hs
  · intro s hs x o hx g hm
    rcases List.mem_cons.1 hs with rfl | hs
    · have := held_pos hx g hm
      omega
    · exact t.stored s hs x o hx g hm

theorem get_more {H : Heap F} (os : List (Obj F)) (d : Nat) {x : Ref} (hx : x < H.size) : (⟨H.objs ++ os, d⟩ : Heap F).get x = H.get x := by
  simp only [Heap.get]
  rw [List.getElem?_append_left hx]

theorem mapOf_lt {H : Heap F} {x m : Ref} (hm : mapOf H x = .ok m) : x < H.size := by
  obtain ⟨o, g, _⟩ := mapOf_holds hm
  exact get_lt g

theorem keyOf_lt {H : Heap F} {x : Ref} {k : Str} (hk : keyOf H x = .ok k) : x < H.size := by
  unfold keyOf at hk
  split at hk
  · exact get_lt ‹_›
  · cases hk

/-- New objects. -/
theorem Neat.more {h0 H : Heap F} {made hold srcs hold' : List Ref} (t : Neat h0 H made hold srcs) {os : List (Obj F)} {d n : Nat}
    (e : Extends h0 ⟨H.objs ++ os, d⟩) (hs : H.size ≤ (⟨H.objs ++ os, d⟩ : Heap F).size) (hn : New h0 ⟨H.objs ++ os, d⟩ n) (hl : H.size ≤ n)
    (ho : ∀ a, (os.flatMap placeRefs).count a ≤ if H.size ≤ a ∧ a ≠ n then 1 else 0) (hc : ∀ a, hold'.count a ≤ hold.count a + if n = a then 1 else 0) :
    Neat h0 ⟨H.objs ++ os, d⟩ made hold' srcs := by
  have sub : ∀ a, a ∈ hold' → a ∈ hold ∨ a = n := by
    intro a ha
    have h1 := List.count_pos_iff.2 ha
    have h2 := hc a
    by_cases q : n = a
    · exact Or.inr q.symm
    · rw [if_neg q] at h2
      exact Or.inl (List.count_pos_iff.1 (by omega))
  refine ⟨e, ?_, ?_, ?_, ?_, ?_⟩
  · intro r hr
    rcases hr with q | q | q
    · exact (t.new r (Or.inl q)).mono hs
    · rcases sub r q with q | rfl
      · exact (t.new r (Or.inr (Or.inl q))).mono hs
      · exact hn
    · exact (t.new r (Or.inr (Or.inr q))).mono hs
  · intro a ha
    rw [tally_more _ t.ext.grows]
    have h1 := t.once a ha
    have h2 := hc a
    have h3 := ho a
    by_cases hlt : a < H.size
    · rw [if_neg (by omega)] at h2 h3
      omega
    · have c1 : made.count a = 0 := by
        rw [List.count_eq_zero]
        intro q
        exact hlt (t.new a (Or.inl q)).2
      have c2 : hold.count a = 0 := by
        rw [List.count_eq_zero]
        intro q
        exact hlt (t.new a (Or.inr (Or.inl q))).2
      have c3 := tally_new (f := placeRefs) placeRefs_sub t.ext (a := a) (by omega)
      split at h2 <;> split at h3 <;> omega
  · intro a ha
    refine ⟨(t.apart a ha).1, fun q => ?_⟩
    rcases sub a q with q | rfl
    · exact (t.apart a ha).2 q
    · have := (t.new a (Or.inr (Or.inr ha))).2
      omega
  · intro s hs'
    have := t.named s hs'
    have hlt := keyOf_lt this
    simp only [keyOf, get_more os d hlt] at this ⊢
    exact this
  · intro s hs' x o hx g hm
    by_cases hlt : x < H.size
    · rw [get_more os d hlt] at g
      obtain ⟨d', e', hk, l, hl', hm'⟩ := t.stored s hs' x o hx g hm
      refine ⟨d', e', hk, l, hl', ?_⟩
      have := mapOf_lt hm'
      simp only [mapOf, get_more os d this] at hm' ⊢
      exact hm'
    · exfalso
      have hb : s < H.size := (t.new s (Or.inr (Or.inr hs'))).2
      have h3 := ho s
      rw [if_neg (by omega)] at h3
      have : 0 < (os.flatMap placeRefs).count s := by
        refine List.count_pos_iff.2 (List.mem_flatMap.2 ⟨o, ?_, hm⟩)
        simp only [Heap.get] at g
        rw [List.getElem?_append_right (by simpa [Heap.size] using hlt)] at g
        exact List.mem_of_getElem? g
      omega

/-- A new attribute. -/
theorem Neat.attr {h0 H : Heap F} {made hold srcs : List Ref} (t : Neat h0 H made hold srcs) (k : Kind) (key : Str) (e : Option Ext) (v : PyVal F) :
    Neat h0 (newAttr H k key e v).2 made ((newAttr H k key e v).1 :: hold) srcs := by
  rw [newAttr_eq]
  obtain ⟨e1, n1, s1⟩ := t.ext.two (o := .attr k key e v H.size []) (d := H.drawn) (by simp [Obj.refs])
  refine t.more e1 s1 n1 (Nat.le_succ _) ?_ (fun a => by simp [List.count_cons])
  intro a
  simp only [List.flatMap_cons, List.flatMap_nil, placeRefs, List.map_nil, List.nil_append, List.append_nil, List.count_cons, List.count_nil, beq_iff_eq]
  split <;> split <;> omega

/-- A new log, trace or event. -/
theorem Neat.thing {h0 H : Heap F} {made hold srcs : List Ref} (t : Neat h0 H made hold srcs) {o : Obj F} (d : Nat) (ho : o.refs = [H.size + 1])
    (hp : placeRefs o = [H.size + 1]) : Neat h0 ⟨H.objs ++ [.map [], .map [], o], d⟩ made ((H.size + 2) :: hold) srcs := by
  obtain ⟨e1, n1, s1⟩ := t.ext.three (o := o) (d := d) (by simp [ho])
  refine t.more e1 s1 n1 (Nat.le_add_right _ _) ?_ (fun a => by simp [List.count_cons])
  intro a
  simp only [List.flatMap_cons, List.flatMap_nil, hp, show placeRefs (Obj.map [] : Obj F) = [] from rfl, List.nil_append, List.append_nil, List.count_cons, List.count_nil, beq_iff_eq]
  split <;> split <;> omega

/-- An object is changed. -/
theorem Neat.put {h0 H : Heap F} {made hold srcs hold' : List Ref} (t : Neat h0 H made hold srcs) {r : Ref} {old o : Obj F} (hr : New h0 H r)
    (g : H.get r = some old) (hf : ∀ c ∈ o.refs, New h0 H c) (hm : ∀ y, mapOf (H.put r o) y = mapOf H y) (hk : ∀ y, keyOf (H.put r o) y = keyOf H y)
    (hc : ∀ a, hold'.count a ≤ hold.count a)
    (hp : ∀ a, a ∉ srcs → hold'.count a + (placeRefs o).count a ≤ hold.count a + (placeRefs old).count a)
    (hs : ∀ s ∈ srcs, s ∈ placeRefs o → ∃ d, o = .map d ∧ (∀ k, (k, s) ∈ d → k = py!"source") ∧ ∃ l ∈ made, mapOf H l = .ok r) :
    Neat h0 (H.put r o) made hold' srcs := by
  obtain ⟨e1, s1⟩ := t.ext.put hr hf
  have sub : ∀ a, a ∈ hold' → a ∈ hold := fun a ha => List.count_pos_iff.1 (Nat.lt_of_lt_of_le (List.count_pos_iff.2 ha) (hc a))
  refine ⟨e1, ?_, ?_, fun a ha => ⟨(t.apart a ha).1, fun q => (t.apart a ha).2 (sub a q)⟩, fun s q => by rw [hk]; exact t.named s q, ?_⟩
  · intro a ha
    refine (t.new a ?_).mono (Nat.le_of_eq s1.symm)
    rcases ha with q | q | q
    · exact Or.inl q
    · exact Or.inr (Or.inl (sub a q))
    · exact Or.inr (Or.inr q)
  · intro a ha
    have h1 := tally_put placeRefs hr.1 g o a
    have h2 := hp a ha
    have h3 := t.once a ha
    omega
  · intro s q x o' hx g' hmem
    by_cases hxr : x = r
    · subst hxr
      rw [get_put_self _ (get_lt g)] at g'
      cases g'
      obtain ⟨d, e, hk', l, hl, hml⟩ := hs s q hmem
      exact ⟨d, e, hk', l, hl, by rw [hm]; exact hml⟩
    · rw [get_put_ne _ hxr] at g'
      obtain ⟨d, e, hk', l, hl, hml⟩ := t.stored s q x o' hx g' hmem
      exact ⟨d, e, hk', l, hl, by rw [hm]; exact hml⟩

theorem put_seen {H : Heap F} {r : Ref} {old o : Obj F} (g : H.get r = some old) (same : ∀ h h' : Heap F, h.get r = some old → h'.get r = some o →
    mapOf h' r = mapOf h r ∧ keyOf h' r = keyOf h r) : (∀ y, mapOf (H.put r o) y = mapOf H y) ∧ ∀ y, keyOf (H.put r o) y = keyOf H y := by
  have h1 := same H (H.put r o) g (get_put_self _ (get_lt g))
  constructor
  · intro y
    by_cases e : y = r
    · subst e; exact h1.1
    · simp only [mapOf, get_put_ne _ e]
  · intro y
    by_cases e : y = r
    · subst e; exact h1.2
    · simp only [keyOf, get_put_ne _ e]

/-- An attribute gets a value. -/
theorem Neat.value {h0 H H' : Heap F} {made hold srcs : List Ref} (t : Neat h0 H made hold srcs) {a : Ref} (ha : New h0 H a) {w : PyVal F}
    (hr : setValue H a w = .ok H') : Neat h0 H' made hold srcs := by
  obtain ⟨k, key, e, v, m, c, g, rfl⟩ := setValue_ok hr
  obtain ⟨hm, hk⟩ := put_seen (o := .attr k key e w m c) g (by
    intro h h' g1 g2
    simp [mapOf, keyOf, g1, g2])
  refine t.put ha g ?_ hm hk (fun _ => Nat.le_refl _) (fun _ _ => Nat.le_refl _) ?_
  · exact fun x hx => t.ext.closed _ _ ha.1 g x hx
  · intro s q hmem
    obtain ⟨_, e, _⟩ := t.stored s q a _ ha.1 g hmem
    cases e

theorem setValue_key {H H' : Heap F} {a : Ref} {w : PyVal F} (hr : setValue H a w = .ok H') (y : Ref) : keyOf H' y = keyOf H y ∧ mapOf H' y = mapOf H y := by
  obtain ⟨k, key, e, v, m, c, g, rfl⟩ := setValue_ok hr
  obtain ⟨hm, hk⟩ := put_seen (o := .attr k key e w m c) g (by
    intro h h' g1 g2
    simp [mapOf, keyOf, g1, g2])
  exact ⟨hk y, hm y⟩

/-- A log is changed: its map stays, a new attribute may be added to the lists of global attributes. -/
theorem Neat.modLog {h0 H H' : Heap F} {made hold srcs hold' : List Ref} (t : Neat h0 H made hold srcs) {l : Option Ref} (hl : ∀ r, l = some r → New h0 H r)
    {f : LogObj → LogObj} (hr : modLog H l f = .ok H') (hf : ∀ o, (f o).map = o.map) (hp : ∀ o a, hold'.count a + (placeRefs (F := F) (.log (f o))).count a ≤
      hold.count a + (placeRefs (F := F) (.log o)).count a) : Neat h0 H' made hold' srcs := by
  unfold Opy.modLog at hr
  split at hr
  · cases hr
  next r =>
  split at hr
  · next o g =>
    cases hr
    have hn := hl r rfl
    have hc : ∀ a, hold'.count a ≤ hold.count a := by
      intro a
      have h1 := hp ⟨a + 1, [], [], [], [], [], []⟩ a
      simp only [placeRefs, hf, List.count_cons, List.count_nil, List.append_nil, beq_iff_eq] at h1
      omega
    have from' : ∀ c ∈ placeRefs (F := F) (.log (f o)), c ∈ hold ∨ c ∈ placeRefs (F := F) (.log o) := by
      intro c q
      have h1 := List.count_pos_iff.2 q
      have h2 := hp o c
      by_cases q1 : c ∈ hold
      · exact Or.inl q1
      · have := List.count_eq_zero.2 q1
        exact Or.inr (List.count_pos_iff.1 (by omega))
    obtain ⟨hm, hk⟩ := put_seen (o := .log (f o)) g (by
      intro h h' g1 g2
      simp [mapOf, keyOf, g1, g2, hf])
    refine t.put hn g ?_ hm hk hc (fun a _ => hp o a) ?_
    · intro c hc'
      rcases from' c hc' with q | q
      · exact t.new c (Or.inr (Or.inl q))
      · exact t.ext.closed _ _ hn.1 g c q
    · intro s q hmem
      rcases from' s hmem with q1 | q1
      · exact ((t.apart s q).2 q1).elim
      · obtain ⟨_, e, _⟩ := t.stored s q r _ hn.1 g q1
        cases e
  · cases hr

/-- An event is put at the end of a trace. -/
theorem Neat.traceAppend {h0 H H' : Heap F} {made hold srcs hold' : List Ref} (t : Neat h0 H made hold srcs) {x e : Ref} (hx : New h0 H x)
    (he : ∀ a, hold'.count a + (if e = a then 1 else 0) ≤ hold.count a) (hr : traceAppend H x e = .ok H') : Neat h0 H' made hold' srcs := by
  obtain ⟨m, es, g, rfl⟩ := traceAppend_ok hr
  have hin : e ∈ hold := List.count_pos_iff.1 (by have := he e; rw [if_pos rfl] at this; omega)
  obtain ⟨hm, hk⟩ := put_seen (o := .trace m (es ++ [e])) g (by
    intro h h' g1 g2
    simp [mapOf, keyOf, g1, g2])
  refine t.put hx g ?_ hm hk (fun a => by have := he a; omega) ?_ ?_
  · intro c hc
    have : c ∈ (Obj.trace m es : Obj F).refs ∨ c = e := by
      simp only [Obj.refs, List.mem_cons, List.mem_append, List.not_mem_nil, or_false] at hc ⊢
      rcases hc with q | q | q <;> simp [q]
    rcases this with q | rfl
    · exact t.ext.closed _ _ hx.1 g c q
    · exact t.new c (Or.inr (Or.inl hin))
  · intro a _
    have := he a
    simp only [placeRefs, List.count_cons, List.count_append, List.count_nil, beq_iff_eq]
    omega
  · intro s q hmem
    have : s ∈ placeRefs (Obj.trace m es : Obj F) ∨ s = e := by
      simp only [placeRefs, List.mem_cons, List.mem_append, List.not_mem_nil, or_false] at hmem ⊢
      rcases hmem with q | q | q <;> simp [q]
    rcases this with q1 | rfl
    · obtain ⟨_, e, _⟩ := t.stored s q x _ hx.1 g q1
      cases e
    · exact ((t.apart s q).2 hin).elim

/-- A trace is put at the end of a log. -/
theorem Neat.logAppend {h0 H H' : Heap F} {made hold srcs hold' : List Ref} (t : Neat h0 H made hold srcs) {x e : Ref} (hx : New h0 H x)
    (he : ∀ a, hold'.count a + (if e = a then 1 else 0) ≤ hold.count a) (hr : logAppend H x e = .ok H') : Neat h0 H' made hold' srcs := by
  obtain ⟨o, g, rfl⟩ := logAppend_ok hr
  refine t.modLog (l := some x) (hold' := hold') (f := fun o => { o with traces := o.traces ++ [e] }) (fun r hr => Option.some.inj hr ▸ hx)
    (by simp only [Opy.modLog, g]) (fun _ => rfl) ?_
  intro o a
  have := he a
  simp only [placeRefs, List.count_cons, List.count_append, List.count_nil, beq_iff_eq]
  omega

theorem dset_mem {k k' : Str} {v r : Ref} : ∀ {d : List (Str × Ref)}, (k, r) ∈ dset k' v d → (k = k' ∧ r = v) ∨ (k, r) ∈ d
  | [], h => by
    simp only [dset, List.mem_cons, List.not_mem_nil, or_false, Prod.mk.injEq] at h
    exact Or.inl h
  | (k1, v1) :: d, h => by
    simp only [dset] at h
    split at h
    · next e =>
      rcases List.mem_cons.1 h with q | q
      · simp only [Prod.mk.injEq] at q
        first
        | exact Or.inl q
        | exact Or.inl ⟨q.1.trans e, q.2⟩
        | exact Or.inl ⟨q.1.trans e.symm, q.2⟩
      · exact Or.inr (List.mem_cons_of_mem _ q)
    · rcases List.mem_cons.1 h with q | q
      · exact Or.inr (q ▸ List.mem_cons_self ..)
      · rcases dset_mem q with q | q
        · exact Or.inl q
        · exact Or.inr (List.mem_cons_of_mem _ q)

/-- A map gets an entry. -/
theorem Neat.entry {h0 H H' : Heap F} {made hold srcs hold' : List Ref} (t : Neat h0 H made hold srcs) {m a : Ref} {k : Str} (hm : New h0 H m) (ha : New h0 H a)
    (hc : ∀ b, hold'.count b ≤ hold.count b) (hp : ∀ b, b ∉ srcs → hold'.count b + (if a = b then 1 else 0) ≤ hold.count b)
    (hs : a ∈ srcs → k = py!"source" ∧ ∃ l ∈ made, mapOf H l = .ok m) (hr : mapSet H m k a = .ok H') : Neat h0 H' made hold' srcs := by
  obtain ⟨d, g, rfl⟩ := mapSet_ok hr
  obtain ⟨hm', hk⟩ := put_seen (o := .map (dset k a d)) g (by
    intro h h' g1 g2
    simp [mapOf, keyOf, g1, g2])
  refine t.put hm g ?_ hm' hk hc ?_ ?_
  · intro c hc'
    rcases dset_snd hc' with rfl | q
    · exact ha
    · exact t.ext.closed _ _ hm.1 g c q
  · intro b hb
    have h1 := dset_count k a b d
    have h2 := hp b hb
    simp only [placeRefs]
    omega
  · intro s q hmem
    have old : ∀ {k'}, (k', s) ∈ d → k' = py!"source" ∧ ∃ l ∈ made, mapOf H l = .ok m := by
      intro k' hd
      obtain ⟨d', e, hk', hl⟩ := t.stored s q m _ hm.1 g (List.mem_map.2 ⟨_, hd, rfl⟩)
      cases e
      exact ⟨hk' k' hd, hl⟩
    have each : ∀ {k'}, (k', s) ∈ dset k a d → k' = py!"source" ∧ ∃ l ∈ made, mapOf H l = .ok m := by
      intro k' hd
      rcases dset_mem hd with ⟨rfl, rfl⟩ | hd
      · exact hs q
      · exact old hd
    obtain ⟨⟨k', s'⟩, hd, e⟩ := List.mem_map.1 hmem
    simp only at e
    subst e
    exact ⟨_, rfl, fun k'' hd' => (each hd').1, (each hd).2⟩

/-- An attribute that is held nowhere is stored. -/
theorem Neat.keep {h0 H H' : Heap F} {made hold srcs hold' : List Ref} (t : Neat h0 H made hold srcs) {x : Option Ref} {a : Ref} (hx : ∀ r, x = some r → New h0 H r)
    (hc : ∀ b, hold'.count b + (if a = b then 1 else 0) ≤ hold.count b) (hr : keepAttr H x a = .ok H') : Neat h0 H' made hold' srcs := by
  have hin : a ∈ hold := List.count_pos_iff.1 (by have := hc a; rw [if_pos rfl] at this; omega)
  unfold keepAttr at hr
  split at hr
  · cases hr
  next r =>
  obtain ⟨m, hm, hr⟩ := bind_ok.1 hr
  obtain ⟨k, hk, hr⟩ := bind_ok.1 hr
  exact t.entry (mapOf_new t.ext (hx r rfl) hm) (t.new a (Or.inr (Or.inl hin))) (fun b => by have := hc b; omega) (fun b _ => hc b)
    (fun q => ((t.apart a q).2 hin).elim) hr

/-- The source is stored in a log. -/
theorem Neat.keepSource {h0 H H' : Heap F} {made hold srcs : List Ref} (t : Neat h0 H made hold srcs) {l s : Ref} (hl : l ∈ made) (hs : s ∈ srcs)
    (hr : keepAttr H (some l) s = .ok H') : Neat h0 H' made hold srcs := by
  simp only [keepAttr] at hr
  obtain ⟨m, hm, hr⟩ := bind_ok.1 hr
  obtain ⟨k, hk, hr⟩ := bind_ok.1 hr
  have hk' := t.named s hs
  rw [hk] at hk'
  cases hk'
  refine t.entry (mapOf_new t.ext (t.new l (Or.inl hl)) hm) (t.new s (Or.inr (Or.inr hs))) (fun _ => Nat.le_refl _) (fun b hb => ?_) (fun _ => ⟨rfl, l, hl, hm⟩) hr
  rw [if_neg (fun e : s = b => hb (e ▸ hs))]
  exact Nat.le_refl _

theorem cloneAttr_new {H H' : Heap F} {p a : Ref} (hr : cloneAttr H p = .ok (a, H')) : ∃ k key e v, (a, H') = newAttr H k key e v := by
  unfold cloneAttr at hr
  repeat' split at hr
  all_goals first
    | (cases hr; done)
    | exact ⟨_, _, _, _, (Except.ok.inj hr).symm⟩

/-- A copy of a prototype. -/
theorem Neat.clone {h0 H H' : Heap F} {made hold srcs : List Ref} (t : Neat h0 H made hold srcs) {p a : Ref} (hr : cloneAttr H p = .ok (a, H')) :
    Neat h0 H' made (a :: hold) srcs := by
  obtain ⟨k, key, e, v, q⟩ := cloneAttr_new hr
  have := t.attr k key e v
  rw [← q] at this
  exact this

theorem Neat.newHold {h0 H : Heap F} {made hold srcs : List Ref} {a : Ref} (t : Neat h0 H made (a :: hold) srcs) : New h0 H a :=
  t.new a (Or.inr (Or.inl (List.mem_cons_self ..)))

theorem count_step (a : Ref) (hold : List Ref) (b : Ref) : hold.count b + (if a = b then 1 else 0) ≤ (a :: hold).count b := by
  simp [List.count_cons]

theorem Neat.ref {h0 H H' : Heap F} {made hold srcs : List Ref} (t : Neat h0 H made hold srcs) {P : Protos} {as : List (Str × Str)} {x : Option Ref}
    (hx : ∀ r, x = some r → r ∈ made ∨ r ∈ hold ∨ r ∈ srcs) (hr : mobRef P as H x = .ok H') : Neat h0 H' made hold srcs := by
  unfold mobRef at hr
  split at hr
  · cases hr
    exact t
  · obtain ⟨⟨a, H1⟩, h1, hr⟩ := bind_ok.1 hr
    obtain ⟨H2, h2, hr⟩ := bind_ok.1 hr
    have t1 := t.clone h1
    have t2 := t1.value t1.newHold h2
    refine t2.keep (fun r e => t2.new r ?_) (fun b => by simp [List.count_cons]) hr
    rcases hx r e with q | q | q <;> simp [q]

theorem Neat.given {h0 H H' : Heap F} {made hold srcs : List Ref} (t : Neat h0 H made hold srcs) {p : Ref} {key : Str} {v : Option Str} {f : Str → PyVal F} {x : Ref}
    (hx : x ∈ made ∨ x ∈ hold) (hr : mobExt (storeGiven p key v f H x) = .ok H') : Neat h0 H' made hold srcs := by
  unfold storeGiven at hr
  split at hr
  · cases hr
    exact t
  split at hr
  · unfold storeClone at hr
    split at hr
    · cases hr
    next a H1 h1 =>
    simp only at hr
    split at hr
    · cases hr
    next H2 h2 =>
    split at hr
    · cases hr
    next m hm =>
    split at hr
    · cases hr
    next H3 h3 =>
    cases hr
    have t1 := t.clone h1
    have t2 := t1.value t1.newHold h2
    have nx : New h0 H2 x := t2.new x (by rcases hx with q | q <;> simp [q])
    exact t2.entry (mapOf_new t2.ext nx hm) t2.newHold (fun b => by simp [List.count_cons]) (fun b _ => by simp [List.count_cons])
      (fun q => ((t2.apart a q).2 (List.mem_cons_self ..)).elim) h3
  · cases hr
    exact t

theorem Neat.description {h0 H H' : Heap F} {made hold srcs : List Ref} (t : Neat h0 H made hold srcs) {keep : Str → Bool} {as : List (Str × Str)} {x : Ref}
    (hx : x ∈ made ∨ x ∈ hold) (hr : mobDescription keep as H x = .ok H') : Neat h0 H' made hold srcs := by
  unfold mobDescription at hr
  split at hr
  · cases hr
    exact t
  split at hr
  · next d _ _ =>
    have t1 := t.attr .literal py!"description" none (.str d)
    refine t1.keep (hold' := hold) (fun r e => t1.new r ?_) (count_step _ _) hr
    cases e
    rcases hx with q | q
    · exact Or.inl q
    · exact Or.inr (Or.inl (List.mem_cons_of_mem _ q))
  · cases hr
    exact t

/-- What the handler holds and has put nowhere. -/
def mobHold (st : MobSt F) : List Ref :=
  st.inst.toList ++ (st.entry.toList ++ (st.generic.toList ++ (st.eventType.toList ++ st.originator.toList)))

/-- The objects made since `h0`, seen from the handler. -/
def MobNeat (h0 : Heap F) (st : MobSt F) : Prop :=
  ∃ made srcs, Neat h0 st.heap made (mobHold st) srcs ∧ (∀ a, (st.logs ++ st.process.toList).count a ≤ made.count a) ∧ ∀ s, st.source = some s → s ∈ srcs

theorem opt_count (x : Option Ref) (a b : Ref) (h : x = some a) : x.toList.count b = if a = b then 1 else 0 := by
  subst h
  simp [List.count_cons]

theorem count_mem {l : List Ref} {r : Ref} {made : List Ref} (hc : ∀ a, l.count a ≤ made.count a) (hr : r ∈ l) : r ∈ made :=
  List.count_pos_iff.1 (Nat.lt_of_lt_of_le (List.count_pos_iff.2 hr) (hc r))

theorem mobStart_neat {h0 : Heap F} {rnd : Nat → Uuid} {P : Protos} {st st' : MobSt F} {tag : Str} {as : List (Str × Str)} (q : MobNeat h0 st)
    (hr : mobStart rnd P st tag as = .ok st') : MobNeat h0 st' := by
  obtain ⟨made, srcs, t, hc, hs⟩ := q
  unfold mobStart at hr
  split at hr
  · cases hr; exact ⟨made, srcs, t, hc, hs⟩
  split at hr
  · unfold mobStartSource at hr
    simp only at hr
    obtain ⟨H1, h1, hr⟩ := bind_ok.1 hr
    cases hr
    have t1 := t.attr .literal py!"source" none (match dget py!"program" as with
      | some s => .str s
      | none => .none)
    have t2 := t1.source (by
      rw [newAttr_eq]
      simp [keyOf, Heap.get, Heap.size])
    exact ⟨made, _, t2.ref (fun r e => by cases e; exact Or.inr (Or.inr (List.mem_cons_self ..))) h1, hc, fun s e => by cases e; exact List.mem_cons_self ..⟩
  split at hr
  · unfold mobStartProcess at hr
    simp only [createLog_eq] at hr
    obtain ⟨H1, h1, hr⟩ := bind_ok.1 hr
    have t0 := (t.thing (o := .log ⟨st.heap.size + 1, [], [], [], [], [], []⟩) st.heap.drawn (by simp [Obj.refs]) (by simp [placeRefs])).log
    have hin : st.heap.size + 2 ∈ (st.heap.size + 2) :: made := List.mem_cons_self ..
    have t1 := t0.modLog (hold' := mobHold st) (fun r e => by cases e; exact t0.new _ (Or.inl hin)) h1 (fun _ => rfl) (fun o a => by simp [placeRefs])
    obtain ⟨H2, t2, hr⟩ : ∃ H2, Neat h0 H2 ((st.heap.size + 2) :: made) (mobHold st) srcs ∧ (do
        let h ← mobExt (assignNameAt P (dget py!"id" as) H2 (st.heap.size + 2))
        let h ← mobExt (assignModelAt P (some py!"standard") h (st.heap.size + 2))
        let h ← mobDescription (fun d => 0 < (pyLower d).length) as h (st.heap.size + 2)
        let h ← mobRef P as h (some (st.heap.size + 2))
        .ok { st with heap := h, process := some (st.heap.size + 2) } : Except PyErr (MobSt F)) = .ok st' := by
      cases e : st.source with
      | none =>
        simp only [e] at hr
        obtain ⟨H2, h2, hr⟩ := bind_ok.1 hr
        cases h2
        exact ⟨H1, t1, by simpa only [e] using hr⟩
      | some s =>
        simp only [e] at hr
        obtain ⟨H2, h2, hr⟩ := bind_ok.1 hr
        exact ⟨H2, t1.keepSource hin (hs s e) h2, by simpa only [e] using hr⟩
    obtain ⟨H3, h3, hr⟩ := bind_ok.1 hr
    obtain ⟨H4, h4, hr⟩ := bind_ok.1 hr
    obtain ⟨H5, h5, hr⟩ := bind_ok.1 hr
    obtain ⟨H6, h6, hr⟩ := bind_ok.1 hr
    cases hr
    have t3 := t2.given (Or.inl hin) h3
    have t4 := t3.given (Or.inl hin) h4
    have t5 := t4.description (Or.inl hin) h5
    have t6 := t5.ref (fun r e => by cases e; exact Or.inl hin) h6
    refine ⟨_, srcs, t6, fun a => ?_, hs⟩
    have := hc a
    simp only [List.count_append, List.count_cons, Option.toList_some, List.count_nil] at this ⊢
    omega
  split at hr
  · unfold mobStartInstance at hr
    simp only [createTrace_eq] at hr
    obtain ⟨H3, h3, hr⟩ := bind_ok.1 hr
    obtain ⟨H5, h5, hr⟩ := bind_ok.1 hr
    obtain ⟨H6, h6, hr⟩ := bind_ok.1 hr
    cases hr
    have t0 := t.thing (o := .trace (st.heap.size + 1) []) st.heap.drawn (by simp [Obj.refs]) (by simp [placeRefs])
    have hin : st.heap.size + 2 ∈ (st.heap.size + 2) :: mobHold st := List.mem_cons_self ..
    have t3 := t0.given (Or.inr hin) h3
    have t5 := t3.description (Or.inr hin) h5
    have t6 := t5.ref (fun r e => by cases e; exact Or.inr (Or.inl hin)) h6
    refine ⟨_, srcs, t6.mono fun a => ?_, hc, hs⟩
    simp only [mobHold, List.count_append, List.count_cons, Option.toList_some, List.count_nil]
    omega
  split at hr
  · cases hr
    have t0 := t.thing (o := .event (rnd st.heap.drawn) (st.heap.size + 1)) (st.heap.drawn + 1) (by simp [Obj.refs]) (by simp [placeRefs])
    simp only [mobStartEntry, createEvent_eq]
    refine ⟨_, srcs, t0.mono fun a => ?_, hc, hs⟩
    simp only [mobHold, List.count_append, List.count_cons, Option.toList_some, List.count_nil]
    omega
  split at hr
  · unfold mobStartAttribute at hr
    split at hr
    · cases hr
    next n _ =>
    simp only at hr
    obtain ⟨H1, h1, hr⟩ := bind_ok.1 hr
    cases hr
    have t1 := t.attr .literal (strip n) none (.str py!"DEFAULT_VALUE")
    refine ⟨_, srcs, (t1.ref (fun r e => by cases e; exact Or.inr (Or.inl (List.mem_cons_self ..))) h1).mono fun a => ?_, hc, hs⟩
    simp only [mobHold, List.count_append, List.count_cons, Option.toList_some, List.count_nil]
    omega
  split at hr
  · unfold mobStartEventType at hr
    obtain ⟨⟨a, H1⟩, h1, hr⟩ := bind_ok.1 hr
    obtain ⟨H2, h2, hr⟩ := bind_ok.1 hr
    obtain ⟨H3, h3, hr⟩ := bind_ok.1 hr
    cases hr
    have t1 := t.clone h1
    have t2 := t1.value t1.newHold h2
    refine ⟨_, srcs, (t2.ref (fun r e => by cases e; exact Or.inr (Or.inl (List.mem_cons_self ..))) h3).mono fun a => ?_, hc, hs⟩
    simp only [mobHold, List.count_append, List.count_cons, Option.toList_some, List.count_nil]
    omega
  split at hr
  · unfold mobStartElementName at hr
    obtain ⟨H1, h1, hr⟩ := bind_ok.1 hr
    cases hr
    exact ⟨_, srcs, t.ref (fun r e => by simp [mobHold, e]) h1, hc, hs⟩
  split at hr
  · unfold mobStartOriginator at hr
    obtain ⟨⟨a, H1⟩, h1, hr⟩ := bind_ok.1 hr
    obtain ⟨H3, h3, hr⟩ := bind_ok.1 hr
    cases hr
    have t1 := t.clone h1
    refine ⟨_, srcs, (t1.ref (fun r e => by cases e; exact Or.inr (Or.inl (List.mem_cons_self ..))) h3).mono fun a => ?_, hc, hs⟩
    simp only [mobHold, List.count_append, List.count_cons, Option.toList_some, List.count_nil]
    omega
  · cases hr; exact ⟨made, srcs, t, hc, hs⟩

theorem mobAppend_neat {h0 : Heap F} {st st' : MobSt F} {made srcs : List Ref} (t : Neat h0 st.heap made (mobHold st) srcs) (hr : mobAppend st = .ok st') :
    st' = { st with heap := st'.heap } ∧ Neat h0 st'.heap made (mobHold { st with entry := none }) srcs := by
  unfold mobAppend at hr
  split at hr
  · cases hr
  next x hx =>
  have hin : x ∈ mobHold st := by simp [mobHold, hx]
  cases he : st.entry with
  | some e =>
    simp only [he] at hr
    obtain ⟨H1, h1, hr⟩ := bind_ok.1 hr
    cases hr
    refine ⟨rfl, t.traceAppend (t.new x (Or.inr (Or.inl hin))) (fun a => ?_) h1⟩
    simp only [mobHold, he, List.count_append, List.count_cons, Option.toList_some, Option.toList_none, List.count_nil, beq_iff_eq]
    omega
  | none =>
    simp only [he] at hr
    obtain ⟨H1, h1, hr⟩ := bind_ok.1 hr
    cases hr
    obtain ⟨e1, _, _⟩ := t.ext.alloc (o := .pyNone) (by simp [Obj.refs])
    have t1 : Neat h0 (st.heap.alloc .pyNone).2 made (st.heap.size :: mobHold st) srcs :=
      t.more (os := [.pyNone]) (d := st.heap.drawn) (n := st.heap.size) e1 (by simp [Heap.size]) ⟨t.ext.grows, by simp [Heap.size]⟩ (Nat.le_refl _) (fun a => by simp [placeRefs])
        (fun a => by simp [List.count_cons])
    refine ⟨rfl, t1.traceAppend (t1.new x (Or.inr (Or.inl (List.mem_cons_of_mem _ hin)))) (fun a => ?_) h1⟩
    have : (st.heap.alloc .pyNone).1 = st.heap.size := rfl
    simp only [mobHold, he, this, List.count_append, List.count_cons, Option.toList_none, List.count_nil, beq_iff_eq]
    omega

theorem mobStop_neat {h0 : Heap F} {P : Protos} {st st' : MobSt F} {tag : Str} (q : MobNeat h0 st)
    (hr : mobStopBody P st tag = .ok st') : MobNeat h0 st' := by
  obtain ⟨made, srcs, t, hc, hs⟩ := q
  have proc : ∀ r, st.process = some r → r ∈ made := fun r e => count_mem hc (by simp [e])
  unfold mobStopBody at hr
  split at hr
  · cases hr; exact ⟨made, srcs, t, hc, hs⟩
  split at hr
  · unfold mobStopProcess at hr
    obtain ⟨H1, h1, hr⟩ := bind_ok.1 hr
    obtain ⟨⟨a, H2⟩, h2, hr⟩ := bind_ok.1 hr
    obtain ⟨H3, h3, hr⟩ := bind_ok.1 hr
    obtain ⟨⟨b, H4⟩, h4, hr⟩ := bind_ok.1 hr
    obtain ⟨H5, h5, hr⟩ := bind_ok.1 hr
    obtain ⟨⟨c, H6⟩, h6, hr⟩ := bind_ok.1 hr
    obtain ⟨H7, h7, hr⟩ := bind_ok.1 hr
    cases hr
    have t1 := t.modLog (hold' := mobHold st) (fun r e => t.new r (Or.inl (proc r e))) h1 (fun _ => rfl) (fun o a => by simp [placeRefs])
    have t2 := t1.clone h2
    have t3 := t2.modLog (hold' := mobHold st) (fun r e => t2.new r (Or.inl (proc r e))) h3 (fun _ => rfl) (fun o a => by
      simp only [placeRefs, List.count_cons, List.count_append, List.count_nil]; omega)
    have t4 := t3.clone h4
    have t5 := t4.modLog (hold' := mobHold st) (fun r e => t4.new r (Or.inl (proc r e))) h5 (fun _ => rfl) (fun o a => by
      simp only [placeRefs, List.count_cons, List.count_append, List.count_nil]; omega)
    have t6 := t5.clone h6
    have t7 := t6.modLog (hold' := mobHold st) (fun r e => t6.new r (Or.inl (proc r e))) h7 (fun _ => rfl) (fun o a => by
      simp only [placeRefs, List.count_cons, List.count_append, List.count_nil]; omega)
    exact ⟨made, srcs, t7, by simpa using hc, hs⟩
  split at hr
  · unfold mobStopInstance at hr
    obtain ⟨n, h1, hr⟩ := bind_ok.1 hr
    split at hr
    · split at hr
      · next p x hp hx =>
        obtain ⟨H1, h2, hr⟩ := bind_ok.1 hr
        cases hr
        refine ⟨made, srcs, t.logAppend (t.new p (Or.inl (proc p hp))) (fun a => ?_) h2, hc, hs⟩
        simp only [mobHold, hx, List.count_append, List.count_cons, Option.toList_some, Option.toList_none, List.count_nil, beq_iff_eq]
        omega
      · cases hr
    · cases hr
      refine ⟨made, srcs, t.mono fun a => ?_, hc, hs⟩
      simp only [mobHold, List.count_append, Option.toList_none, List.count_nil]
      omega
  split at hr
  · unfold mobStopEntry at hr
    obtain ⟨s, h1, hr⟩ := bind_ok.1 hr
    cases hr
    have fin : ∀ s', mobAppend st = .ok s' → ∀ lt, MobNeat h0 { s' with lastTimestamp := lt, entry := none } := by
      intro s' h2 lt
      obtain ⟨e, t'⟩ := mobAppend_neat t h2
      rw [e]
      exact ⟨made, srcs, t', hc, hs⟩
    split at h1
    · exact fin s h1 s.lastTimestamp
    · split at h1
      · obtain ⟨s', h2, h1⟩ := bind_ok.1 h1
        cases h1
        exact fin s' h2 _
      · obtain ⟨g, _, h1⟩ := bind_ok.1 h1
        obtain ⟨s', h2, h1⟩ := bind_ok.1 h1
        split at h1
        · cases h1
          exact fin s' h2 _
        · cases h1
          exact fin s h2 s.lastTimestamp
  split at hr
  · unfold mobStopAttribute at hr
    split at hr
    · split at hr
      · cases hr
      next a ha =>
      obtain ⟨H1, h1, hr⟩ := bind_ok.1 hr
      obtain ⟨H2, h2, hr⟩ := bind_ok.1 hr
      cases hr
      have hin : a ∈ mobHold st := by simp [mobHold, ha]
      have t1 := t.value (t.new a (Or.inr (Or.inl hin))) h1
      have cnt : ∀ b, (mobHold { st with generic := none }).count b + (if a = b then 1 else 0) ≤ (mobHold st).count b := by
        intro b
        simp only [mobHold, ha, List.count_append, List.count_cons, Option.toList_some, Option.toList_none, List.count_nil, beq_iff_eq]
        omega
      refine ⟨made, srcs, ?_, hc, hs⟩
      unfold mobRoute at h2
      split at h2
      · exact t1.keep (fun r e => t1.new r (by simp [mobHold, e])) cnt h2
      split at h2
      · exact t1.keep (fun r e => t1.new r (by simp [mobHold, e])) cnt h2
      split at h2
      · exact t1.keep (fun r e => t1.new r (Or.inl (proc r e))) cnt h2
      split at h2
      · exact t1.keep (fun r e => t1.new r (Or.inr (Or.inr (hs r e)))) cnt h2
      · cases h2
        exact t1.mono fun b => Nat.le_trans (Nat.le_add_right _ _) (cnt b)
    · cases hr
      refine ⟨made, srcs, t.mono fun a => ?_, hc, hs⟩
      simp only [mobHold, List.count_append, Option.toList_none, List.count_nil]
      omega
  split at hr
  · unfold mobStopEventType at hr
    split at hr
    · cases hr
    next a ha =>
    obtain ⟨v, _, hr⟩ := bind_ok.1 hr
    obtain ⟨H1, h1, hr⟩ := bind_ok.1 hr
    cases hr
    have hin : a ∈ mobHold st := by simp [mobHold, ha]
    have cnt : ∀ b, (mobHold { st with eventType := none }).count b + (if a = b then 1 else 0) ≤ (mobHold st).count b := by
      intro b
      simp only [mobHold, ha, List.count_append, List.count_cons, Option.toList_some, Option.toList_none, List.count_nil, beq_iff_eq]
      omega
    refine ⟨made, srcs, ?_, hc, hs⟩
    split at h1
    · split at h1
      · obtain ⟨H2, h2, h1⟩ := bind_ok.1 h1
        have t1 := t.value (t.new a (Or.inr (Or.inl hin))) h2
        exact t1.keep (fun r e => t1.new r (by simp [mobHold, e])) cnt h1
      · cases h1
        exact t.mono fun b => Nat.le_trans (Nat.le_add_right _ _) (cnt b)
    · exact t.keep (fun r e => t.new r (by simp [mobHold, e])) cnt h1
  split at hr
  · unfold mobStopElementName at hr
    split at hr
    · split at hr
      · cases hr
      next e he =>
      obtain ⟨H1, h1, hr⟩ := bind_ok.1 hr
      cases hr
      exact ⟨made, srcs, t.given (Or.inr (by simp [mobHold, he])) h1, hc, hs⟩
    · cases hr; exact ⟨made, srcs, t, hc, hs⟩
  split at hr
  · unfold mobStopTimestamp at hr
    obtain ⟨p, _, hr⟩ := bind_ok.1 hr
    split at hr
    · cases hr; exact ⟨made, srcs, t, hc, hs⟩
    · obtain ⟨⟨a, H1⟩, h1, hr⟩ := bind_ok.1 hr
      obtain ⟨H2, h2, hr⟩ := bind_ok.1 hr
      obtain ⟨H3, h3, hr⟩ := bind_ok.1 hr
      cases hr
      have t1 := t.clone h1
      have t2 := t1.value t1.newHold h2
      exact ⟨made, srcs, t2.keep (hold' := mobHold st) (fun r e => t2.new r (by simp [mobHold, e])) (count_step _ _) h3, hc, hs⟩
  split at hr
  · unfold mobStopOriginator at hr
    split at hr
    · cases hr
    next a ha =>
    obtain ⟨H1, h1, hr⟩ := bind_ok.1 hr
    obtain ⟨H2, h2, hr⟩ := bind_ok.1 hr
    cases hr
    have hin : a ∈ mobHold st := by simp [mobHold, ha]
    have cnt : ∀ b, (mobHold { st with originator := none }).count b + (if a = b then 1 else 0) ≤ (mobHold st).count b := by
      intro b
      simp only [mobHold, ha, List.count_append, List.count_cons, Option.toList_some, Option.toList_none, List.count_nil, beq_iff_eq]
      omega
    have t1 : Neat h0 H1 made (mobHold st) srcs := by
      split at h1
      · exact t.value (t.new a (Or.inr (Or.inl hin))) h1
      · cases h1
        exact t
    exact ⟨made, srcs, t1.keep (fun r e => t1.new r (by simp [mobHold, e])) cnt h2, hc, hs⟩
  · cases hr; exact ⟨made, srcs, t, hc, hs⟩

theorem mobRun_neat {h0 : Heap F} {rnd : Nat → Uuid} {P : Protos} : ∀ {file : List MSax} {st st' : MobSt F}, MobNeat h0 st →
    mobRun rnd P st file = .ok st' → MobNeat h0 st'
  | [], _, _, q, hr => by
    cases hr
    exact q
  | e :: es, st, st', q, hr => by
    simp only [mobRun] at hr
    obtain ⟨s, h1, h2⟩ := bind_ok.1 hr
    refine mobRun_neat ?_ h2
    cases e with
    | start tag as => exact mobStart_neat q h1
    | stop tag =>
      obtain ⟨s1, h3, h4⟩ := bind_ok.1 h1
      cases h4
      obtain ⟨made, srcs, t⟩ := mobStop_neat q h3
      exact ⟨made, srcs, t⟩
    | chars c =>
      cases h1
      exact q

theorem init_neat (h : Heap F) : MobNeat h (.init h) := by
  refine ⟨[], [], ⟨⟨Nat.le_refl _, fun _ _ => rfl, ?_⟩, ?_, ?_, ?_, ?_, ?_⟩, ?_, ?_⟩
  · intro x o hx g
    exact absurd (get_lt g) (by simpa [MobSt.init] using hx)
  all_goals simp [MobSt.init, mobHold, heldBy, Heap.size]

/-- A source stands in a log, under its key. -/
theorem Neat.sourceAt {h0 H : Heap F} {made hold srcs : List Ref} (t : Neat h0 H made hold srcs) {x r : Ref} {p : Spot} (hx : New h0 H x)
    (s : StandsAt H x p r) (hr : r ∈ srcs) : x ∈ made ∧ p = .own py!"source" := by
  rcases standsAt_cases s with ⟨k, m, d, rfl, hm, g, hd⟩ | ⟨o, g, dx⟩
  · have nm := mapOf_new t.ext hx hm
    obtain ⟨d', e, hk, l, hl, hml⟩ := t.stored r hr m _ nm.1 g (List.mem_map.2 ⟨_, hd, rfl⟩)
    cases e
    obtain ⟨ox, gx, mx⟩ := mapOf_holds hm
    obtain ⟨ol, gl, ml⟩ := mapOf_holds hml
    have hm' : m ∉ srcs := fun q => by
      have := t.named m q
      simp [keyOf, g] at this
    have := tally_once (Nat.le_trans (Nat.le_add_left _ _) (t.once m hm')) hx.1 (t.new l (Or.inl hl)).1 gx gl mx ml
    subst this
    exact ⟨hl, by rw [hk k hd]⟩
  · obtain ⟨d, e, _⟩ := t.stored r hr x _ hx.1 g dx.mem
    subst e
    cases dx

/-- One object, one place, unless it is a source. -/
theorem Neat.standsOnce {h0 H : Heap F} {made hold srcs : List Ref} (t : Neat h0 H made hold srcs) {x y r : Ref} {p p' : Spot} (hx : New h0 H x)
    (hy : New h0 H y) (s : StandsAt H x p r) (s' : StandsAt H y p' r) :
    (x = y ∧ p = p') ∨ (x ∈ made ∧ y ∈ made ∧ p = .own py!"source" ∧ p' = .own py!"source") := by
  by_cases hr : r ∈ srcs
  · obtain ⟨h1, h2⟩ := t.sourceAt hx s hr
    obtain ⟨h3, h4⟩ := t.sourceAt hy s' hr
    exact Or.inr ⟨h1, h3, h2, h4⟩
  left
  have u : heldBy placeRefs h0.size H r ≤ 1 := Nat.le_trans (Nat.le_add_left _ _) (t.once r hr)
  have cross : ∀ {m z : Ref} {k : Str} {d : List (Str × Ref)} {p : Spot} {o : Obj F}, h0.size ≤ m → h0.size ≤ z → H.get m = some (.map d) → (k, r) ∈ d →
      H.get z = some o → Direct r p o → False := by
    intro m z k d p o nm nz g hd gz dz
    have := tally_once u nm nz g gz (List.mem_map.2 ⟨_, hd, rfl⟩) dz.mem
    subst this
    rw [g] at gz
    cases gz
    cases dz
  rcases standsAt_cases s with ⟨k, m, d, rfl, hm, g, hd⟩ | ⟨o, g, dx⟩
  · have nm := mapOf_new t.ext hx hm
    rcases standsAt_cases s' with ⟨k', m', d', rfl, hm', g', hd'⟩ | ⟨o', g', dx'⟩
    · obtain ⟨ox, gx, mx⟩ := mapOf_holds hm
      obtain ⟨oy, gy, my⟩ := mapOf_holds hm'
      have := tally_once u nm.1 (mapOf_new t.ext hy hm').1 g g' (List.mem_map.2 ⟨_, hd, rfl⟩) (List.mem_map.2 ⟨_, hd', rfl⟩)
      subst this
      rw [g] at g'
      cases g'
      have hm'' : m ∉ srcs := fun q => by
        have := t.named m q
        simp [keyOf, g] at this
      exact ⟨tally_once (Nat.le_trans (Nat.le_add_left _ _) (t.once m hm'')) hx.1 hy.1 gx gy mx my, by rw [count_key (tally_within u nm.1 g) hd hd']⟩
    · exact (cross nm.1 hy.1 g hd g' dx').elim
  · rcases standsAt_cases s' with ⟨k', m', d', rfl, hm', g', hd'⟩ | ⟨o', g', dx'⟩
    · exact (cross (mapOf_new t.ext hy hm').1 hx.1 g' hd' g dx).elim
    · have := tally_once u hx.1 hy.1 g g' dx.mem dx'.mem
      subst this
      rw [g] at g'
      cases g'
      exact ⟨rfl, dx.once dx' (tally_within u hx.1 g)⟩

/-- A log stands nowhere. -/
theorem Neat.top {h0 H : Heap F} {made hold srcs : List Ref} (t : Neat h0 H made hold srcs) {l x : Ref} (hl : l ∈ made) (hx : x ∈ made) {ps : List Spot}
    (w : Leads H l ps x) : ps = [] ∧ x = l := by
  cases w with
  | here => exact ⟨rfl, rfl⟩
  | there w s =>
    have h1 := (s.new t.ext (w.new t.ext (t.new l (Or.inl hl)))).2
    have h2 := t.once x (fun q => (t.apart x q).1 hx)
    have h3 := List.count_pos_iff.2 hx
    omega

theorem neat_of_parse {rnd : Nat → Uuid} {P : Protos} {h h' : Heap F} {file : List MSax} {refs : List Ref} (hr : mobParse rnd P h file = .ok (refs, h')) :
    ∃ made hold srcs, Neat h h' made hold srcs ∧ ∀ a, refs.count a ≤ made.count a := by
  obtain ⟨st, h1, h2⟩ := bind_ok.1 hr
  cases h2
  obtain ⟨made, srcs, t, hc, _⟩ := mobRun_neat (init_neat h) h1
  refine ⟨made, _, srcs, t, fun a => ?_⟩
  have := hc a
  rw [List.count_append] at this
  omega

/-- C181: whatever the MXML file, two places of a loaded log hold two objects: an attribute stands under one key of one element (or at one
position of one global list), an event at one position of one trace, a trace at one position of the log. -/
theorem c181_once {rnd : Nat → Uuid} {P : Protos} {h h' : Heap F} {file : List MSax} {refs : List Ref} (hr : mobParse rnd P h file = .ok (refs, h'))
    {l : Ref} (hl : l ∈ refs) {ps qs : List Spot} {r : Ref} (wp : Leads h' l ps r) (wq : Leads h' l qs r) : ps = qs := by
  obtain ⟨made, hold, srcs, t, hc⟩ := neat_of_parse hr
  have hl' : l ∈ made := count_mem hc hl
  have nl := t.new l (Or.inl hl')
  induction wp generalizing qs with
  | here => exact (t.top hl' hl' wq).1.symm
  | there w sp ih =>
    cases wq with
    | here => exact (t.top hl' hl' (.there w sp)).1
    | there w' sq =>
      rcases t.standsOnce (w.new t.ext nl) (w'.new t.ext nl) sp sq with ⟨rfl, rfl⟩ | ⟨h1, h2, rfl, rfl⟩
      · rw [ih w']
      · rw [(t.top hl' h1 w).1, (t.top hl' h2 w').1]

/-- C181: ... two logs of the file have an object in common only as their source or within it, at the same place. -/
theorem c181_apart {rnd : Nat → Uuid} {P : Protos} {h h' : Heap F} {file : List MSax} {refs : List Ref} (hr : mobParse rnd P h file = .ok (refs, h'))
    {l k : Ref} (hl : l ∈ refs) (hk : k ∈ refs) (hn : l ≠ k) {ps qs : List Spot} {r : Ref} (wp : Leads h' l ps r) (wq : Leads h' k qs r) :
    ps = qs ∧ ps.getLast? = some (.own py!"source") := by
  obtain ⟨made, hold, srcs, t, hc⟩ := neat_of_parse hr
  have hl' : l ∈ made := count_mem hc hl
  have hk' : k ∈ made := count_mem hc hk
  have nl := t.new l (Or.inl hl')
  have nk := t.new k (Or.inl hk')
  induction wp generalizing qs with
  | here => exact absurd (t.top hk' hl' wq).2 hn
  | there w sp ih =>
    cases wq with
    | here => exact absurd (t.top hl' hk' (.there w sp)).2.symm hn
    | there w' sq =>
      rcases t.standsOnce (w.new t.ext nl) (w'.new t.ext nk) sp sq with ⟨rfl, rfl⟩ | ⟨h1, h2, rfl, rfl⟩
      · obtain ⟨rfl, e⟩ := ih w'
        refine ⟨rfl, ?_⟩
        rw [List.getLast?_cons, e]
        rfl
      · rw [(t.top hl' h1 w).1, (t.top hk' h2 w').1]
        exact ⟨rfl, rfl⟩

/-- C181: ... the logs are different objects, all that is reached from them is new, and what was there before is as it was. -/
theorem c181_new {rnd : Nat → Uuid} {P : Protos} {h h' : Heap F} {file : List MSax} {refs : List Ref} (hr : mobParse rnd P h file = .ok (refs, h')) :
    refs.Nodup ∧ (∀ l ∈ refs, ∀ r, Reach h' l r → h.size ≤ r ∧ r < h'.size) ∧ ∀ x, x < h.size → h'.get x = h.get x := by
  obtain ⟨made, hold, srcs, t, hc⟩ := neat_of_parse hr
  refine ⟨List.nodup_iff_count.2 fun a => ?_, fun l hl r w => t.ext.reach (t.new l (Or.inl (count_mem hc hl))) w, t.ext.same⟩
  by_cases ha : a ∈ made
  · have := t.once a (fun q => (t.apart a q).1 ha)
    have := hc a
    omega
  · have := hc a
    rw [List.count_eq_zero.2 ha] at this
    omega

/-- C181: giving the attribute at one place another value leaves what stands at every other place where it is and as it was, the source of
another log aside. -/
theorem c181_change {rnd : Nat → Uuid} {P : Protos} {h h' h2 : Heap F} {file : List MSax} {refs : List Ref} (hr : mobParse rnd P h file = .ok (refs, h'))
    {l k : Ref} (hl : l ∈ refs) (hk : k ∈ refs) {ps qs : List Spot} {r s : Ref} (wp : Leads h' l ps r) (wq : Leads h' k qs s)
    (hn : if l = k then ps ≠ qs else qs.getLast? ≠ some (.own py!"source")) {w : PyVal F} (hw : setValue h' r w = .ok h2) :
    Leads h2 k qs s ∧ h2.get s = h'.get s := by
  have hne : s ≠ r := by
    intro e
    subst e
    by_cases hlk : l = k
    · subst hlk
      rw [if_pos rfl] at hn
      exact hn (c181_once hr hl wp wq)
    · rw [if_neg hlk] at hn
      obtain ⟨rfl, e⟩ := c181_apart hr hl hk hlk wp wq
      exact hn e
  clear hn
  constructor
  · clear hne
    induction wq with
    | here => exact .here
    | there _ hs ih => exact .there ih (setValue_stands hw hs)
  · obtain ⟨k, key, e, v, m, c, g, rfl⟩ := setValue_ok hw
    exact get_put_ne _ hne

end

/-- Two logs of one file, the first one with two equal entries. -/
def c181Doc : MNode :=
  .elem py!"WorkflowLog" [] [.elem py!"Source" [(py!"program", py!"p")] [],
    .elem py!"Process" [(py!"id", py!"P")] [.elem py!"ProcessInstance" [(py!"id", py!"1")] [
      .elem py!"AuditTrailEntry" [] [.elem py!"WorkflowModelElement" [] [.text py!"a"]],
      .elem py!"AuditTrailEntry" [] [.elem py!"WorkflowModelElement" [] [.text py!"a"]]]],
    .elem py!"Process" [(py!"id", py!"P")] []]

/-- The objects of the example. -/
def c181Heap : Heap ToyFloat :=
  match mobParse (fun _ => 7) exProtos (exKept ToyFloat) c181Doc.say with
  | .ok p => p.2
  | .error _ => ⟨[], 0⟩

/-- The names of the two entries are two objects, and the second one keeps its value when the first one gets another. -/
example : ∃ r s h2, mobParse (fun _ => 7) exProtos (exKept ToyFloat) c181Doc.say = .ok ([40, 68], c181Heap) ∧
    Leads c181Heap 40 [.own py!"concept:name", .event 0, .trace 0] r ∧ Leads c181Heap 40 [.own py!"concept:name", .event 1, .trace 0] s ∧
    setValue c181Heap r (.str py!"b") = .ok h2 ∧ valAt h2 r = some py!"b" ∧ valAt h2 s = some py!"a" := by
  refine ⟨54, 59, _, rfl, ?_, ?_, rfl, by decide +kernel, by decide +kernel⟩
  · exact .there (.there (.there .here (.trace (r := 47) rfl rfl)) (.event (r := 52) rfl rfl)) (.own (m := 51) rfl rfl (by decide +kernel))
  · exact .there (.there (.there .here (.trace (r := 47) rfl rfl)) (.event (r := 57) rfl rfl)) (.own (m := 56) rfl rfl (by decide +kernel))

/-- The source is the exception: the two logs have the same object there. -/
example : Leads c181Heap 40 [.own py!"source"] 37 ∧ Leads c181Heap 68 [.own py!"source"] 37 :=
  ⟨.there .here (.own (m := 39) rfl rfl (by decide +kernel)), .there .here (.own (m := 67) rfl rfl (by decide +kernel))⟩

end Opy
