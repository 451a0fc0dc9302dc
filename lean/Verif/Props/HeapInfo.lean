import Verif.Model.HeapInfo
import Verif.Props.HeapSave
import Verif.Props.InfoExact
import Verif.Props.Nones
/-
Property C173: the summary of a log depends only on what its objects show; attributes that lie within themselves, and `None` among the
traces or events, make it fail.
-/
set_option linter.unusedSectionVars false
namespace Opy

section
variable {F : Type}

/-! ## Specification -/

mutual
/-- The object shows this tree: its meta attributes and its members show those of the tree. -/
def Whole (h : Heap F) : Attr F → Ref → Prop
  | .mk k key e v m c, r => ∃ mr cr d, h.get r = some (.attr k key e v mr cr) ∧ h.get mr = some (.map d) ∧ WholeMap h m d ∧ WholeList h c cr
/-- The same for the entries of a map. -/
def WholeMap (h : Heap F) : List (Str × Attr F) → List (Str × Ref) → Prop
  | [], d => d = []
  | (n, x) :: m, d => ∃ r d', d = (n, r) :: d' ∧ Whole h x r ∧ WholeMap h m d'
/-- The same for a list. -/
def WholeList (h : Heap F) : List (Attr F) → List Ref → Prop
  | [], rs => rs = []
  | x :: xs, rs => ∃ r rs', rs = r :: rs' ∧ Whole h x r ∧ WholeList h xs rs'
end

/-- The event shows this. -/
def WholeEvent (h : Heap F) (x : Event F) (e : Ref) : Prop :=
  ∃ m d, h.get e = some (.event x.id m) ∧ h.get m = some (.map d) ∧ WholeMap h x.attrs d

/-- The trace shows this. -/
def WholeTrace (h : Heap F) (x : Trace F) (t : Ref) : Prop :=
  ∃ m d es, h.get t = some (.trace m es) ∧ h.get m = some (.map d) ∧ WholeMap h x.attrs d ∧ DenAll (WholeEvent h) x.events es

/-- The log shows this, as far as summaries look at it: its attributes and its traces. -/
def WholeLog (h : Heap F) (x : Log F) (l : Ref) : Prop :=
  ∃ lo d, h.get l = some (.log lo) ∧ h.get lo.map = some (.map d) ∧ WholeMap h x.attrs d ∧ DenAll (WholeTrace h) x.traces lo.traces

mutual
/-- How many attributes stand one within the other, at most, from this one on. -/
def Attr.depth : Attr F → Nat
  | .mk _ _ _ _ m c => 1 + max (depthMap m) (depthList c)
/-- The same for the entries of a map. -/
def depthMap : List (Str × Attr F) → Nat
  | [] => 0
  | (_, x) :: m => max x.depth (depthMap m)
/-- The same for a list. -/
def depthList : List (Attr F) → Nat
  | [] => 0
  | x :: xs => max x.depth (depthList xs)
end

/-- The same for a log: its attributes and those of its traces and events. -/
def Log.depth (x : Log F) : Nat :=
  max (depthMap x.attrs) (most (fun t => max (depthMap t.attrs) (most (fun e => depthMap e.attrs) t.events)) x.traces)

/-- `s` is a meta attribute of `r`. -/
def MetaOf (h : Heap F) (r s : Ref) : Prop :=
  ∃ k key e v m c d n, h.get r = some (.attr k key e v m c) ∧ h.get m = some (.map d) ∧ (n, s) ∈ d

/-- `s` is a meta attribute or a member of `r`. -/
def PartOf (h : Heap F) (r s : Ref) : Prop := MetaOf h r s ∨ ∃ k key e v m c, h.get r = some (.attr k key e v m c) ∧ s ∈ c

/-- The attributes that stand directly in the log, its traces, or its events. -/
inductive InLog (h : Heap F) (l : Ref) : Ref → Prop where
  | log {r : Ref} : Owns h l r → InLog h l r
  | trace {lo : LogObj} {t r : Ref} : h.get l = some (.log lo) → t ∈ lo.traces → Owns h t r → InLog h l r
  | event {lo : LogObj} {t e m r : Ref} {es : List Ref} : h.get l = some (.log lo) → t ∈ lo.traces → h.get t = some (.trace m es) → e ∈ es →
    Owns h e r → InLog h l r

/-- Some attribute of the log lies within itself, where one step is the relation. -/
def LoopBy (R : Ref → Ref → Prop) (h : Heap F) (l : Ref) : Prop :=
  ∃ s r, InLog h l s ∧ (s = r ∨ Relation.TransGen R s r) ∧ Relation.TransGen R r r

/-- The outcomes are the same, unless more calls are needed than may be nested: then a RecursionError is possible. -/
def Cut {α : Type} (n need : Nat) (a b : Except PyErr α) : Prop := a = b ∨ n < need ∧ a = .error .recursionError

section
variable [PyFloat F]

/-! ## Trees -/

theorem Cut.rfl' {α : Type} {n p : Nat} (a : Except PyErr α) : Cut n p a a := Or.inl rfl

theorem Cut.bind {α β : Type} {n p : Nat} {a b : Except PyErr α} {f g : α → Except PyErr β} (h1 : Cut n p a b)
    (h2 : ∀ x, Cut n p (f x) (g x)) : Cut n p (a >>= f) (b >>= g) := by
  rcases h1 with rfl | ⟨hn, rfl⟩
  · cases a with
    | error e => exact Or.inl rfl
    | ok x => exact h2 x
  · exact Or.inr ⟨hn, rfl⟩

theorem Cut.mono {α : Type} {n p q : Nat} {a b : Except PyErr α} (h : Cut n p a b) (hq : p ≤ q) : Cut n q a b := by
  rcases h with h | ⟨hn, h⟩
  · exact Or.inl h
  · exact Or.inr ⟨by omega, h⟩

theorem Cut.succ {α : Type} {n p : Nat} {a b : Except PyErr α} (h : Cut n p a b) : Cut (n + 1) (1 + p) a b := by
  rcases h with h | ⟨hn, h⟩
  · exact Or.inl h
  · exact Or.inr ⟨by omega, h⟩

theorem depth_pos (x : Attr F) : 0 < x.depth := by
  obtain ⟨k, key, e, v, m, c⟩ := x
  simp only [Attr.depth]
  omega

theorem Whole.bare {h : Heap F} {k : Kind} {key : Str} {e : Option Ext} {v : PyVal F} {m : List (Str × Attr F)} {c : List (Attr F)} {r : Ref}
    (hs : Whole h (.mk k key e v m c) r) : bareAttr h r = .ok (.mk k key e v [] []) := by
  simp only [Whole] at hs
  obtain ⟨mr, cr, d, g, _⟩ := hs
  simp only [bareAttr, g]

mutual
theorem strAt_whole {h : Heap F} : ∀ (n : Nat) {x : Attr F} {r : Ref}, Whole h x r → Cut n x.depth (strAt h n r) (attrStr x)
  | 0, x, r, _ => Or.inr ⟨depth_pos x, rfl⟩
  | n + 1, .mk k key e v m c, r, hs => by
    simp only [Whole] at hs
    obtain ⟨mr, cr, d, g, g1, g2, g3⟩ := hs
    simp only [strAt, g]
    split
    · next hk =>
      have := ((membersStr_whole n ['['] g3).bind fun t => Cut.rfl' (.ok ((if t = [] then ['['] else t) ++ [']']))).succ
      refine Cut.mono (p := 1 + depthList c) ?_ (by simp only [Attr.depth]; omega)
      cases k <;> first | (cases hk; done) | exact this
    · next hk =>
      rw [attrStr_alone (by simpa using hk) key e v m [] c []]
      exact .rfl' _
theorem membersStr_whole {h : Heap F} (n : Nat) (sep : Str) : ∀ {xs : List (Attr F)} {rs : List Ref}, WholeList h xs rs →
    Cut n (depthList xs) (membersStr h (strAt h n) sep rs) (collStr sep xs)
  | [], rs, hs => by
    simp only [WholeList] at hs
    subst hs
    exact .rfl' _
  | .mk k key e v m c :: xs, rs, hs => by
    simp only [WholeList] at hs
    obtain ⟨r, rs', rfl, h1, h2⟩ := hs
    simp only [membersStr, h1.bare, ok_bind', collStr, depthList]
    exact ((strAt_whole n h1).mono (by omega)).bind fun s => ((membersStr_whole n [','] h2).mono (by omega)).bind fun t => .rfl' _
end

theorem whole_dget {h : Heap F} (k : Str) : ∀ {m : List (Str × Attr F)} {d : List (Str × Ref)}, WholeMap h m d →
    (dget k m = none ∧ dget k d = none) ∨ ∃ x r, dget k m = some x ∧ dget k d = some r ∧ Whole h x r ∧ x.depth ≤ depthMap m
  | [], d, hs => by
    simp only [WholeMap] at hs
    subst hs
    exact Or.inl ⟨rfl, rfl⟩
  | (n, x) :: m, d, hs => by
    simp only [WholeMap] at hs
    obtain ⟨r, d', rfl, h1, h2⟩ := hs
    simp only [dget, depthMap]
    by_cases hn : n = k
    · simp only [hn, if_true]
      exact Or.inr ⟨x, r, rfl, rfl, h1, by omega⟩
    · simp only [hn, if_false]
      rcases whole_dget k h2 with q | ⟨x, r, q1, q2, q3, q4⟩
      · exact Or.inl q
      · exact Or.inr ⟨x, r, q1, q2, q3, by omega⟩

theorem printAt_whole {h : Heap F} (n : Nat) {x : Event F} {d : List (Str × Ref)} (hs : WholeMap h x.attrs d) (k : Str) :
    Cut n (depthMap x.attrs) (printAt h n d k) (printAttr x k) := by
  simp only [printAt, printAttr]
  rcases whole_dget k hs with ⟨q1, q2⟩ | ⟨y, r, q1, q2, q3, q4⟩
  · rw [q1, q2]
    exact .rfl' _
  · simp only [q1, q2]
    rcases (strAt_whole n q3).mono q4 with q | ⟨hn, q⟩
    · rw [q]
      exact .rfl' _
    · rw [q]
      exact Or.inr ⟨hn, rfl⟩

theorem partsAt_whole {h : Heap F} (n : Nat) {x : Event F} {d : List (Str × Ref)} (hs : WholeMap h x.attrs d) :
    ∀ ks : List Str, Cut n (depthMap x.attrs) (partsAt h n d ks) (identityParts x ks)
  | [] => .rfl' _
  | k :: ks => (printAt_whole n hs k).bind fun _ => (partsAt_whole n hs ks).bind fun _ => .rfl' _

theorem identityAt_whole {h : Heap F} (n : Nat) {x : Event F} {d : List (Str × Ref)} (hs : WholeMap h x.attrs d) (c : Classifier) :
    Cut n (depthMap x.attrs) (identityAt h n c d) (classIdentity c x) := by
  obtain ⟨nm, ks⟩ := c
  rcases ks with _ | ⟨k1, _ | ⟨k2, _ | ⟨k3, ks⟩⟩⟩
  · exact (partsAt_whole n hs _).bind fun _ => .rfl' _
  · exact (printAt_whole n hs _).bind fun _ => .rfl' _
  · exact (printAt_whole n hs _).bind fun _ => (printAt_whole n hs _).bind fun _ => .rfl' _
  · exact (partsAt_whole n hs _).bind fun _ => .rfl' _

theorem classesAt_whole {h : Heap F} (n : Nat) {x : Event F} {d : List (Str × Ref)} (hs : WholeMap h x.attrs d) :
    ∀ cs : List (Classifier × ClassMap), Cut n (depthMap x.attrs) (classesAt h n d cs) (registerInClasses x cs)
  | [] => .rfl' _
  | (c, m) :: cs => by
    simp only [classesAt, registerInClasses, registerEvent]
    rcases identityAt_whole n hs c with q | ⟨hn, q⟩
    · rw [q]
      cases classIdentity c x with
      | error e => exact .rfl' _
      | ok s => exact (classesAt_whole n hs cs).bind fun _ => .rfl' _
    · rw [q]
      exact Or.inr ⟨hn, rfl⟩

theorem boundsAt_whole {h : Heap F} {x : Event F} {d : List (Str × Ref)} (hs : WholeMap h x.attrs d) (b : TimeBounds) :
    boundsAt h b d = b.registerEvent x := by
  simp only [boundsAt, TimeBounds.registerEvent]
  rcases whole_dget timeKey hs with ⟨q1, q2⟩ | ⟨y, r, q1, q2, q3, q4⟩
  · rw [q1, q2]
  · obtain ⟨k, key, e, v, m, c⟩ := y
    simp only [Whole] at q3
    obtain ⟨mr, cr, d', g, _⟩ := q3
    simp only [q1, q2, g]
    have : getValue (.mk k key e v [] [] : Attr F) = getValue (.mk k key e v m c) := by cases k <;> rfl
    rw [this]
    rfl

theorem register_bare (i : AttrInfo) (k : Kind) (key : Str) (e : Option Ext) (v : PyVal F) (m : List (Str × Attr F)) (c : List (Attr F)) :
    i.register (.mk k key e v [] []) = i.register (.mk k key e v m c) := rfl

mutual
theorem metaAt_whole {h : Heap F} : ∀ (n : Nat) (mi : AttrInfo) {x : Attr F} {r : Ref}, Whole h x r →
    Cut n x.depth (metaAt h n mi r) (registerNested mi x)
  | 0, _, x, r, _ => Or.inr ⟨depth_pos x, rfl⟩
  | n + 1, mi, .mk k key e v m c, r, hs => by
    simp only [Whole] at hs
    obtain ⟨mr, cr, d, g, g1, g2, g3⟩ := hs
    simp only [metaAt, ownEntries, mapOf, g, entries, g1, ok_bind', registerNested]
    exact (metaLoop_whole n mi g2).succ.mono (by simp only [Attr.depth]; omega)
theorem metaLoop_whole {h : Heap F} (n : Nat) : ∀ (mi : AttrInfo) {m : List (Str × Attr F)} {d : List (Str × Ref)}, WholeMap h m d →
    Cut n (depthMap m) (metaLoop h (metaAt h n) mi d) (registerMap mi m)
  | mi, [], d, hs => by
    simp only [WholeMap] at hs
    subst hs
    exact .rfl' _
  | mi, (nm, .mk k key e v m' c) :: m, d, hs => by
    simp only [WholeMap] at hs
    obtain ⟨r, d', rfl, h1, h2⟩ := hs
    simp only [metaLoop, h1.bare, ok_bind', registerMap, depthMap]
    rw [register_bare mi k key e v m' c]
    exact (Cut.rfl' _).bind fun mi1 => ((metaAt_whole n mi1 h1).mono (by omega)).bind fun mi2 => (metaLoop_whole n mi2 h2).mono (by omega)
end

theorem levelLoop_whole {h : Heap F} (n : Nat) : ∀ (info mi : AttrInfo) {m : List (Str × Attr F)} {d : List (Str × Ref)}, WholeMap h m d →
    Cut n (depthMap m) (levelLoop h n info mi d) (registerLevel info mi m)
  | info, mi, [], d, hs => by
    simp only [WholeMap] at hs
    subst hs
    exact .rfl' _
  | info, mi, (nm, .mk k key e v m' c) :: m, d, hs => by
    simp only [WholeMap] at hs
    obtain ⟨r, d', rfl, h1, h2⟩ := hs
    simp only [levelLoop, h1.bare, ok_bind', registerLevel, depthMap]
    rw [register_bare info k key e v m' c]
    exact (Cut.rfl' _).bind fun i1 => ((metaAt_whole n mi h1).mono (by omega)).bind fun mi2 => (levelLoop_whole n i1 mi2 h2).mono (by omega)

theorem levelAt_whole {h : Heap F} (n : Nat) (info mi : AttrInfo) {m : List (Str × Attr F)} {d : List (Str × Ref)} {x mr : Ref}
    (hx : mapOf h x = .ok mr) (hm : h.get mr = some (.map d)) (hs : WholeMap h m d) :
    Cut n (depthMap m) (levelAt h n info mi x) (registerLevel info mi m) := by
  simp only [levelAt, ownEntries, hx, ok_bind', entries, hm]
  exact levelLoop_whole n info mi hs

theorem eventsAt_whole {h : Heap F} (n : Nat) : ∀ (i : LogInfo) (tb : TimeBounds) {xs : List (Event F)} {es : List Ref}, DenAll (WholeEvent h) xs es →
    Cut n (most (fun e => depthMap e.attrs) xs) (eventsAt h n i tb es) (setupEvents i tb xs)
  | i, tb, [], es, hs => by
    simp only [DenAll] at hs
    subst hs
    exact .rfl' _
  | i, tb, x :: xs, es, hs => by
    simp only [DenAll] at hs
    obtain ⟨e, es', rfl, ⟨m, d, g1, g2, g3⟩, h2⟩ := hs
    have hx : mapOf h e = .ok m := by simp only [mapOf, g1]
    simp only [eventsAt, setupEvents, most]
    refine ((levelAt_whole n i.eventAttrs i.metaAttrs hx g2 g3).mono (by omega)).bind fun p => ?_
    have hd : ownEntries h e = .ok d := by simp only [ownEntries, hx, ok_bind', entries, g2]
    simp only [hd, ok_bind']
    refine ((classesAt_whole n g3 i.classes).mono (by omega)).bind fun cls => ?_
    rw [boundsAt_whole g3]
    exact (Cut.rfl' _).bind fun tb' => (eventsAt_whole n _ tb' h2).mono (by omega)

theorem tracesAt_whole {h : Heap F} (n : Nat) : ∀ (i : LogInfo) {xs : List (Trace F)} {ts : List Ref}, DenAll (WholeTrace h) xs ts →
    Cut n (most (fun t => max (depthMap t.attrs) (most (fun e => depthMap e.attrs) t.events)) xs) (tracesAt h n i ts) (setupTraces i xs)
  | i, [], ts, hs => by
    simp only [DenAll] at hs
    subst hs
    exact .rfl' _
  | i, x :: xs, ts, hs => by
    simp only [DenAll] at hs
    obtain ⟨t, ts', rfl, ⟨m, d, es, g1, g2, g3, g4⟩, h2⟩ := hs
    have hx : mapOf h t = .ok m := by simp only [mapOf, g1]
    simp only [tracesAt, setupTraces, most]
    refine ((levelAt_whole n i.traceAttrs i.metaAttrs hx g2 g3).mono (by omega)).bind fun p => ?_
    have he : traceEvents h t = .ok es := by simp only [traceEvents, g1]
    simp only [he, ok_bind']
    refine ((eventsAt_whole n _ _ g4).mono (by omega)).bind fun q => ?_
    exact (Cut.rfl' _).bind fun lb => (tracesAt_whole n _ h2).mono (by omega)

/-- C173: summarising a log that shows a tree is summarising that tree, whatever the objects share, if enough calls may be nested; otherwise
the outcome is the same or a RecursionError. -/
theorem c173_tree {h : Heap F} {x : Log F} {l : Ref} (hs : WholeLog h x l) (d : Option Classifier) (cs : List Classifier) (n : Nat) :
    infoAt h n l d cs = createInfo x d cs ∨ n < x.depth ∧ infoAt h n l d cs = .error .recursionError := by
  obtain ⟨lo, dd, g1, g2, g3, g4⟩ := hs
  have hx : mapOf h l = .ok lo.map := by simp only [mapOf, g1]
  have : Cut n x.depth (infoAt h n l d cs) (createInfo x d cs) := by
    simp only [infoAt, g1, createInfo, Log.depth]
    refine ((levelAt_whole n _ _ hx g2 g3).mono (by omega)).bind fun p => ?_
    exact ((tracesAt_whole n _ g4).mono (by omega)).bind fun i => .rfl' _
  exact this

/-! ## Loops -/

/-- There are `n` steps one after the other from `r` on. -/
def StepsFrom (R : Ref → Ref → Prop) : Nat → Ref → Prop
  | 0, _ => True
  | n + 1, r => ∃ s, R r s ∧ StepsFrom R n s

theorem steps_of_path {R : Ref → Ref → Prop} {r s : Ref} (hp : Relation.TransGen R r s) : ∀ n, StepsFrom R n s → StepsFrom R (n + 1) r := by
  induction hp with
  | single q => exact fun n hn => ⟨_, q, hn⟩
  | tail _ q ih =>
    intro n hn
    have := ih (n + 1) ⟨_, q, hn⟩
    obtain ⟨u, u1, u2⟩ := this
    refine ⟨u, u1, ?_⟩
    clear ih u1
    revert u
    have less : ∀ (n : Nat) (u : Ref), StepsFrom R (n + 1) u → StepsFrom R n u := by
      intro n
      induction n with
      | zero => exact fun _ _ => trivial
      | succ n ih => exact fun u ⟨v, v1, v2⟩ => ⟨v, v1, ih v v2⟩
    exact fun u hu => less n u hu

theorem steps_of_loop {R : Ref → Ref → Prop} {r : Ref} (hp : Relation.TransGen R r r) : ∀ n, StepsFrom R n r
  | 0 => trivial
  | n + 1 => steps_of_path hp n (steps_of_loop hp n)

theorem metaLoop_ok {h : Heap F} {f : AttrInfo → Ref → Except PyErr AttrInfo} : ∀ {d : List (Str × Ref)} {mi mi' : AttrInfo},
    metaLoop h f mi d = .ok mi' → ∀ p ∈ d, ∃ a b, f a p.2 = .ok b
  | [], _, _, _, _, hm => by cases hm
  | (n, r) :: d, mi, mi', he, p, hm => by
    simp only [metaLoop] at he
    obtain ⟨a, _, he⟩ := bind_ok.mp he
    obtain ⟨mi1, _, he⟩ := bind_ok.mp he
    obtain ⟨mi2, h1, he⟩ := bind_ok.mp he
    rcases List.mem_cons.mp hm with rfl | hm
    · exact ⟨mi1, mi2, h1⟩
    · exact metaLoop_ok he p hm

/-- Where the meta attributes of an attribute were registered, fewer than `n` steps lead from it. -/
theorem metaAt_steps {h : Heap F} : ∀ (n : Nat) {mi mi' : AttrInfo} {r : Ref}, metaAt h n mi r = .ok mi' → ¬ StepsFrom (MetaOf h) n r
  | 0, _, _, _, he => by cases he
  | n + 1, mi, mi', r, he => by
    rintro ⟨s, ⟨k, key, e, v, m, c, d, nm, g1, g2, hm⟩, hs⟩
    simp only [metaAt, ownEntries, mapOf, g1, entries, g2, ok_bind'] at he
    obtain ⟨a, b, hb⟩ := metaLoop_ok he _ hm
    exact metaAt_steps n hb hs

theorem levelLoop_ok {h : Heap F} {n : Nat} : ∀ {d : List (Str × Ref)} {i mi : AttrInfo} {q : AttrInfo × AttrInfo},
    levelLoop h n i mi d = .ok q → ∀ p ∈ d, ∃ a b, metaAt h n a p.2 = .ok b
  | [], _, _, _, _, _, hm => by cases hm
  | (nm, r) :: d, i, mi, q, he, p, hm => by
    simp only [levelLoop] at he
    obtain ⟨a, _, he⟩ := bind_ok.mp he
    obtain ⟨i1, _, he⟩ := bind_ok.mp he
    obtain ⟨mi2, h1, he⟩ := bind_ok.mp he
    rcases List.mem_cons.mp hm with rfl | hm
    · exact ⟨mi, mi2, h1⟩
    · exact levelLoop_ok he p hm

theorem levelAt_ok {h : Heap F} {n : Nat} {i mi : AttrInfo} {x : Ref} {q : AttrInfo × AttrInfo} (he : levelAt h n i mi x = .ok q) :
    (∃ m, mapOf h x = .ok m) ∧ ∀ r, Owns h x r → ∃ a b, metaAt h n a r = .ok b := by
  simp only [levelAt, ownEntries] at he
  obtain ⟨d, h1, h2⟩ := bind_ok.mp he
  obtain ⟨m, h3, h4⟩ := bind_ok.mp h1
  refine ⟨⟨m, h3⟩, ?_⟩
  rintro r ⟨m', d', nm, f1, f2, f3⟩
  rw [h3] at f1
  cases f1
  simp only [entries, f2] at h4
  cases h4
  exact levelLoop_ok h2 _ f3

theorem eventsAt_ok {h : Heap F} {n : Nat} : ∀ {es : List Ref} {i : LogInfo} {tb : TimeBounds} {q : LogInfo × TimeBounds},
    eventsAt h n i tb es = .ok q → ∀ e ∈ es, ∃ a b q, levelAt h n a b e = .ok q
  | [], _, _, _, _, _, hm => by cases hm
  | e :: es, i, tb, q, he, e', hm => by
    simp only [eventsAt] at he
    obtain ⟨p, h1, he⟩ := bind_ok.mp he
    obtain ⟨d, _, he⟩ := bind_ok.mp he
    obtain ⟨cl, _, he⟩ := bind_ok.mp he
    obtain ⟨tb', _, he⟩ := bind_ok.mp he
    rcases List.mem_cons.mp hm with rfl | hm
    · exact ⟨_, _, p, h1⟩
    · exact eventsAt_ok he e' hm

theorem tracesAt_ok {h : Heap F} {n : Nat} : ∀ {ts : List Ref} {i i' : LogInfo}, tracesAt h n i ts = .ok i' → ∀ t ∈ ts,
    (∃ a b q, levelAt h n a b t = .ok q) ∧ ∃ m es, h.get t = some (.trace m es) ∧ ∀ e ∈ es, ∃ a b q, levelAt h n a b e = .ok q
  | [], _, _, _, _, hm => by cases hm
  | t :: ts, i, i', he, t', hm => by
    simp only [tracesAt] at he
    obtain ⟨p, h1, he⟩ := bind_ok.mp he
    obtain ⟨es, h2, he⟩ := bind_ok.mp he
    obtain ⟨q, h3, he⟩ := bind_ok.mp he
    obtain ⟨lb, _, he⟩ := bind_ok.mp he
    rcases List.mem_cons.mp hm with rfl | hm
    · refine ⟨⟨_, _, p, h1⟩, ?_⟩
      unfold traceEvents at h2
      split at h2
      · next m es' g =>
        cases h2
        exact ⟨m, _, g, eventsAt_ok h3⟩
      · cases h2
    · exact tracesAt_ok he t' hm

theorem infoAt_ok {h : Heap F} {n : Nat} {l : Ref} {d : Option Classifier} {cs : List Classifier} {i : LogInfo} (he : infoAt h n l d cs = .ok i) :
    ∃ lo, h.get l = some (.log lo) ∧ (∃ a b q, levelAt h n a b l = .ok q) ∧ ∀ t ∈ lo.traces,
      (∃ a b q, levelAt h n a b t = .ok q) ∧ ∃ m es, h.get t = some (.trace m es) ∧ ∀ e ∈ es, ∃ a b q, levelAt h n a b e = .ok q := by
  unfold infoAt at he
  split at he
  · next lo g =>
    simp only at he
    obtain ⟨p, h1, he⟩ := bind_ok.mp he
    obtain ⟨i', h2, he⟩ := bind_ok.mp he
    exact ⟨lo, g, ⟨_, _, p, h1⟩, tracesAt_ok h2⟩
  · cases he

/-- C173: a log in which some attribute is a meta attribute of itself, directly or not, is never summarised, however many calls may be
nested. -/
theorem c173_loop {h : Heap F} {l : Ref} (hl : LoopBy (MetaOf h) h l) (n : Nat) (d : Option Classifier) (cs : List Classifier) (i : LogInfo) :
    infoAt h n l d cs ≠ .ok i := by
  intro he
  obtain ⟨s, r, ht, hr, hp⟩ := hl
  obtain ⟨lo, g, h1, h2⟩ := infoAt_ok he
  have reg : ∃ a b, metaAt h n a s = .ok b := by
    cases ht with
    | log ho =>
      obtain ⟨a, b, q, h1⟩ := h1
      exact (levelAt_ok h1).2 s ho
    | trace g' hm ho =>
      rw [g] at g'
      cases g'
      obtain ⟨⟨a, b, q, h3⟩, _⟩ := h2 _ hm
      exact (levelAt_ok h3).2 s ho
    | event g' hm gt hme ho =>
      rw [g] at g'
      cases g'
      obtain ⟨_, m, es, g3, h3⟩ := h2 _ hm
      rw [gt] at g3
      cases g3
      obtain ⟨a, b, q, h4⟩ := h3 _ hme
      exact (levelAt_ok h4).2 s ho
  obtain ⟨a, b, reg⟩ := reg
  refine metaAt_steps n reg ?_
  rcases hr with rfl | hr
  · exact steps_of_loop hp n
  · cases n with
    | zero => trivial
    | succ n => exact steps_of_path hr n (steps_of_loop hp n)

/-- C173: a log that holds `None` as a trace, or a trace that holds `None` as an event, is never summarised. -/
theorem c173_none {h : Heap F} {l : Ref} (hn : LogHoldsNone h l) (n : Nat) (d : Option Classifier) (cs : List Classifier) (i : LogInfo) :
    infoAt h n l d cs ≠ .ok i := by
  intro he
  obtain ⟨lo, g, _, h2⟩ := infoAt_ok he
  rcases hn with ⟨r, gr, ⟨m, es, g', _⟩ | ⟨lo', g', hm⟩⟩ | ⟨lo', t, g', ht, r, gr, ⟨m, es, gt, hm⟩ | ⟨l2, gt, _⟩⟩
  · rw [g] at g'
    cases g'
  · rw [g] at g'
    cases g'
    obtain ⟨_, m, es, g3, _⟩ := h2 r hm
    rw [gr] at g3
    cases g3
  · rw [g] at g'
    cases g'
    obtain ⟨_, m', es', g3, h3⟩ := h2 t ht
    rw [gt] at g3
    cases g3
    obtain ⟨a, b, q, h4⟩ := h3 r hm
    obtain ⟨⟨m2, q2⟩, _⟩ := levelAt_ok h4
    simp only [mapOf, gr] at q2
    cases q2
  · rw [g] at g'
    cases g'
    obtain ⟨_, m', es', g3, h3⟩ := h2 t ht
    rw [gt] at g3
    cases g3

/-! ## Without loops there is a tree -/

theorem wholeList_of {h : Heap F} : ∀ {rs : List Ref}, (∀ s ∈ rs, ∃ x, Whole h x s) → ∃ xs, WholeList h xs rs
  | [], _ => ⟨[], rfl⟩
  | r :: rs, hs => by
    obtain ⟨x, hx⟩ := hs r (by simp)
    obtain ⟨xs, hxs⟩ := wholeList_of (rs := rs) fun s hm => hs s (by simp [hm])
    exact ⟨x :: xs, r, rs, rfl, hx, hxs⟩

theorem wholeMap_of {h : Heap F} : ∀ {d : List (Str × Ref)}, (∀ p ∈ d, ∃ x, Whole h x p.2) → ∃ m, WholeMap h m d
  | [], _ => ⟨[], rfl⟩
  | (n, r) :: d, hs => by
    obtain ⟨x, hx⟩ := hs (n, r) (by simp)
    obtain ⟨m, hm⟩ := wholeMap_of (d := d) fun s hm => hs s (by simp [hm])
    exact ⟨(n, x) :: m, r, d, rfl, hx, hm⟩

theorem whole_of_noLoop {h : Heap F} (hw : WellFormed h) : ∀ (n : Nat) (path : List Ref) {r : Ref}, IsA h r .attr → path.Nodup →
    (∀ s ∈ path, s < h.size ∧ Relation.TransGen (PartOf h) s r) →
    (∀ s, (s = r ∨ Relation.TransGen (PartOf h) r s) → ¬ Relation.TransGen (PartOf h) s s) → h.size ≤ n + path.length → ∃ x, Whole h x r := by
  intro n
  induction n with
  | zero =>
    intro path r hr hn hp hl hs
    exfalso
    have hr' : r ∉ path := fun hm => hl r (Or.inl rfl) (hp r hm).2
    have : (r :: path).length ≤ h.size := nodup_below h.size (List.nodup_cons.mpr ⟨hr', hn⟩) (by
      intro x hx
      rcases List.mem_cons.mp hx with rfl | hx
      · obtain ⟨o, ho, _⟩ := hr
        exact get_lt ho
      · exact (hp x hx).1)
    simp only [List.length_cons] at this
    omega
  | succ n ih =>
    intro path r hr hn hp hl hs
    have hr' : r ∉ path := fun hm => hl r (Or.inl rfl) (hp r hm).2
    obtain ⟨o, ho, hc⟩ := hr
    cases o <;> first | (cases hc; done) | skip
    next k key e v m c =>
    have hg := hw r _ ho
    obtain ⟨d, gd⟩ := isA_map hg.1
    have next : ∀ s, PartOf h r s → IsA h s .attr → ∃ x, Whole h x s := by
      intro s hb ha
      refine ih (r :: path) ha (List.nodup_cons.mpr ⟨hr', hn⟩) ?_ ?_ (by simp only [List.length_cons]; omega)
      · intro x hx
        rcases List.mem_cons.mp hx with rfl | hx
        · exact ⟨get_lt ho, .single hb⟩
        · exact ⟨(hp x hx).1, .tail (hp x hx).2 hb⟩
      · intro x hx
        refine hl x (Or.inr ?_)
        rcases hx with rfl | hx
        · exact .single hb
        · exact Relation.TransGen.trans (.single hb) hx
    obtain ⟨xs, hxs⟩ := wholeMap_of (d := d) fun p hp => next p.2 (Or.inl ⟨k, key, e, v, m, c, d, p.1, ho, gd, hp⟩) ((hw m _ gd).2 p hp)
    obtain ⟨ys, hys⟩ := wholeList_of (rs := c) fun s hs => next s (Or.inr ⟨k, key, e, v, m, c, ho, hs⟩) (hg.2 s hs)
    exact ⟨.mk k key e v xs ys, by simp only [Whole]; exact ⟨m, c, d, ho, gd, hxs, hys⟩⟩

/-- C173: a log in which no attribute is a meta attribute or a member of itself, directly or not, shows a tree. -/
theorem c173_shows {h : Heap F} (hw : WellFormed h) {l : Ref} (hl : IsA h l .log) (hn : ¬ LoopBy (PartOf h) h l) : ∃ x, WholeLog h x l := by
  have one : ∀ r, InLog h l r → IsA h r .attr → ∃ x, Whole h x r := by
    intro r ht hr
    exact whole_of_noLoop hw h.size [] hr List.nodup_nil (fun s hs => by cases hs) (fun s hs q => hn ⟨r, s, ht, hs.imp (·.symm) id, q⟩) (by simp)
  obtain ⟨o, ho, hc⟩ := hl
  cases o <;> first | (cases hc; done) | skip
  next lo =>
  obtain ⟨g1, _, _, g4⟩ := hw l _ ho
  obtain ⟨d, gd⟩ := isA_map g1
  obtain ⟨as, k3⟩ := wholeMap_of (d := d) fun p hp => one p.2 (.log ⟨lo.map, d, p.1, by simp only [mapOf, ho], gd, hp⟩) ((hw _ _ gd).2 p hp)
  obtain ⟨tr, k4⟩ : ∃ xs, DenAll (WholeTrace h) xs lo.traces := by
    refine denAll_of fun t ht => ?_
    obtain ⟨o, hot, hc⟩ := g4 t ht
    cases o <;> first | (cases hc; done) | skip
    next m es =>
    obtain ⟨f1, f2⟩ := hw t _ hot
    obtain ⟨d', gd'⟩ := isA_map f1
    obtain ⟨as', k5⟩ := wholeMap_of (d := d') fun p hp => one p.2 (.trace ho ht ⟨m, d', p.1, by simp only [mapOf, hot], gd', hp⟩) ((hw _ _ gd').2 p hp)
    obtain ⟨ev, k6⟩ : ∃ xs, DenAll (WholeEvent h) xs es := by
      refine denAll_of fun e hm => ?_
      obtain ⟨o, hoe, hc⟩ := f2 e hm
      cases o <;> first | (cases hc; done) | skip
      next u m' =>
      obtain ⟨d'', gd''⟩ := isA_map (hw e _ hoe)
      obtain ⟨as'', k7⟩ := wholeMap_of (d := d'') fun p hp => one p.2 (.event ho ht hot hm ⟨m', d'', p.1, by simp only [mapOf, hoe], gd'', hp⟩) ((hw _ _ gd'').2 p hp)
      exact ⟨⟨u, as''⟩, m', d'', hoe, gd'', k7⟩
    exact ⟨⟨as', ev⟩, m, d', es, hot, gd', k5, k6⟩
  exact ⟨⟨as, [], [], [], [], [], tr⟩, lo, d, ho, gd, k3, k4⟩

/-- C173: whatever a program did, a log that it has got in which nothing lies within itself is summarised as the tree that it shows, and
one in which an attribute is a meta attribute of itself is never summarised. -/
theorem c173_program {env : ApiEnv} {h h' : Heap F} (hw : WellFormed h) (hP : ProtosOk h env.protos) (hr : Reaches env h h') {l : Ref}
    (hl : IsA h' l .log) (d : Option Classifier) (cs : List Classifier) :
    (¬ LoopBy (PartOf h') h' l → ∃ x, WholeLog h' x l ∧ ∀ n, x.depth ≤ n → infoAt h' n l d cs = createInfo x d cs) ∧
    (LoopBy (MetaOf h') h' l → ∀ n i, infoAt h' n l d cs ≠ .ok i) := by
  obtain ⟨a, _, _⟩ := c159_reachable hw hP hr
  refine ⟨fun q => ?_, fun q n i => c173_loop q n d cs i⟩
  obtain ⟨x, hx⟩ := c173_shows a hl q
  refine ⟨x, hx, fun n hn => ?_⟩
  rcases c173_tree hx d cs n with e | ⟨e, _⟩
  · exact e
  · omega

mutual
theorem Den.whole {h : Heap F} {a b : Nat} : ∀ {x : Attr F} {r : Ref}, Den h a b x r → Whole h x r
  | .mk k key e v m c, r, hd => by
    simp only [Den] at hd
    obtain ⟨mr, d, cr, _, g1, g2, g3, g4⟩ := hd
    simp only [Whole]
    exact ⟨mr, cr, d, g1, g2, g3.whole, g4.whole⟩
theorem DenMap.whole {h : Heap F} {a b : Nat} : ∀ {m : List (Str × Attr F)} {d : List (Str × Ref)}, DenMap h a b m d → WholeMap h m d
  | [], d, hd => by simpa only [DenMap, WholeMap] using hd
  | (n, x) :: m, d, hd => by
    simp only [DenMap] at hd
    obtain ⟨r, d', e, h1, h2⟩ := hd
    simp only [WholeMap]
    exact ⟨r, d', e, h1.whole, h2.whole⟩
theorem DenList.whole {h : Heap F} {a b : Nat} : ∀ {m : List (Attr F)} {d : List Ref}, DenList h a b m d → WholeList h m d
  | [], d, hd => by simpa only [DenList, WholeList] using hd
  | x :: m, d, hd => by
    simp only [DenList] at hd
    obtain ⟨r, d', e, h1, h2⟩ := hd
    simp only [WholeList]
    exact ⟨r, d', e, h1.whole, h2.whole⟩
end

/-- Summaries do not look at the identifiers of events. -/
theorem classIdentity_attrs {x y : Event F} (h : x.attrs = y.attrs) (c : Classifier) : classIdentity c x = classIdentity c y := by
  have p : ∀ k, printAttr x k = printAttr y k := fun k => by simp only [printAttr, h]
  have q : ∀ ks, identityParts x ks = identityParts y ks := by
    intro ks
    induction ks with
    | nil => rfl
    | cons k ks ih => simp only [identityParts, p, ih]
  simp only [classIdentity, p, q]

theorem registerInClasses_attrs {x y : Event F} (h : x.attrs = y.attrs) : ∀ cs, registerInClasses x cs = registerInClasses y cs
  | [] => rfl
  | (c, m) :: cs => by simp only [registerInClasses, registerEvent, classIdentity_attrs h, registerInClasses_attrs h cs]

theorem denEvents_whole {h : Heap F} {a b : Nat} : ∀ {xs : List (Event F)} {es : List Ref}, DenAll (DenEvent h a b) (xs.map Event.attrs) es →
    ∃ ys, DenAll (WholeEvent h) ys es ∧ ∀ i tb, setupEvents i tb ys = setupEvents i tb xs
  | [], es, hd => ⟨[], hd, fun _ _ => rfl⟩
  | x :: xs, es, hd => by
    obtain ⟨e, es, rfl, ⟨u, mr, d, _, g1, g2, g3⟩, h2⟩ := hd
    obtain ⟨ys, y1, y2⟩ := denEvents_whole h2
    refine ⟨⟨u, x.attrs⟩ :: ys, ⟨e, es, rfl, ⟨mr, d, g1, g2, g3.whole⟩, y1⟩, fun i tb => ?_⟩
    simp only [setupEvents, y2, TimeBounds.registerEvent, registerInClasses_attrs (x := ⟨u, x.attrs⟩) (y := x) rfl]

theorem denTraces_whole {h : Heap F} {a b : Nat} : ∀ {xs : List (Trace F)} {ts : List Ref},
    DenAll (DenTrace h a b) (xs.map fun t => (t.attrs, t.events.map Event.attrs)) ts →
    ∃ ys, DenAll (WholeTrace h) ys ts ∧ ∀ i, setupTraces i ys = setupTraces i xs
  | [], ts, hd => ⟨[], hd, fun _ => rfl⟩
  | x :: xs, ts, hd => by
    obtain ⟨t, ts, rfl, ⟨mr, d, es, _, g1, g2, g3, g4⟩, h2⟩ := hd
    obtain ⟨ys, y1, y2⟩ := denTraces_whole h2
    obtain ⟨zs, z1, z2⟩ := denEvents_whole g4
    exact ⟨⟨x.attrs, zs⟩ :: ys, ⟨t, ts, rfl, ⟨mr, d, es, g1, g2, g3.whole, z1⟩, y1⟩, fun i => by simp only [setupTraces, z2, y2]⟩

/-- C173: a log whose objects are those of a tree, such as every log that is loaded, shows a tree with the same summaries. -/
theorem c173_loaded {h : Heap F} {a b : Nat} {L : Log F} {l : Ref} (hd : DenLog h a b L.content l) :
    ∃ x, WholeLog h x l ∧ ∀ d cs, createInfo x d cs = createInfo L d cs := by
  obtain ⟨mr, d, gt, ge, ts, _, g1, g2, g3, g4, g5, g6⟩ := hd
  obtain ⟨ys, y1, y2⟩ := denTraces_whole g6
  exact ⟨⟨L.attrs, [], [], [], [], [], ys⟩, ⟨_, d, g1, g2, g3.whole, y1⟩, fun d cs => by simp only [createInfo, y2]⟩

end

end

/-! ## Examples -/

/-- A log (object 3) with a trace whose only event is `None`. -/
example : LogHoldsNone (⟨[.map [], .pyNone, .trace 0 [1], .log ⟨0, [], [], [], [], [], [2]⟩], 0⟩ : Heap ToyFloat) 3 :=
  Or.inr ⟨_, 2, rfl, by simp, 1, rfl, Or.inl ⟨0, [1], rfl, by simp⟩⟩

/-- The log whose trace, event and attributes are shared (object 6 of `exShared`): the shared objects count each time. -/
theorem exShared_whole : WholeLog exShared exSharedTree 6 := by
  have b : Whole exShared (.mk .literal py!"b" none (.str py!"x") [] []) 1 := by
    simp only [Whole]
    exact ⟨0, [], [], rfl, rfl, rfl, rfl⟩
  have m : WholeMap exShared [(py!"b", .mk .literal py!"b" none (.str py!"x") [] [])] [(py!"b", 1)] := by
    simp only [WholeMap]
    exact ⟨1, [], rfl, b, rfl⟩
  have t : WholeTrace exShared ⟨[], [⟨5, [(py!"b", .mk .literal py!"b" none (.str py!"x") [] [])]⟩, ⟨5, [(py!"b", .mk .literal py!"b" none (.str py!"x") [] [])]⟩]⟩ 4 :=
    ⟨0, [], [3, 3], rfl, rfl, rfl, 3, [3], rfl, ⟨2, _, rfl, rfl, m⟩, 3, [], rfl, ⟨2, _, rfl, rfl, m⟩, rfl⟩
  exact ⟨_, _, rfl, rfl, m, 4, [4], rfl, t, 4, [], rfl, t, rfl⟩

example : exSharedTree.depth = 1 ∧ infoAt exShared 1 6 none [] = createInfo exSharedTree none [] ∧
    ((infoAt exShared 1 6 none []).toOption.map fun i => (i.nEvents, i.eventAttrs.frequency py!"b")) = some (4, some 4) ∧
    (infoAt exShared 0 6 none []).isOk = false := by
  refine ⟨by decide +kernel, ?_, by decide +kernel, by decide +kernel⟩
  rcases c173_tree exShared_whole none [] 1 with q | ⟨q, _⟩
  · exact q
  · exact absurd q (by decide +kernel)

example : LoopBy (MetaOf exCycle) exCycle 44 ∧ ∀ n i, infoAt exCycle n 44 none [] ≠ .ok i := by
  have g : exCycle.get 43 = some (.attr .literal py!"a" none (.str []) 42 []) := by decide +kernel
  have gm : exCycle.get 42 = some (.map [(py!"a", 43)]) := by decide +kernel
  have hl : LoopBy (MetaOf exCycle) exCycle 44 :=
    ⟨43, 43, .log ⟨42, _, py!"a", by decide +kernel, gm, by simp⟩, Or.inl rfl,
      .single ⟨_, _, _, _, _, _, _, py!"a", g, gm, by simp⟩⟩
  exact ⟨hl, fun n i => c173_loop hl n none [] i⟩

end Opy
