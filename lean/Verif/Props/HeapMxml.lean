import Verif.Model.HeapMxml
import Verif.Props.HeapInfo
/-
Property C174: what saving a log as MXML writes depends only on the attributes of the log, traces and events and on their meta attributes;
attributes that lie within themselves do no harm, except in a model reference that is a collection.
-/
set_option linter.unusedSectionVars false
namespace Opy

section
variable {F : Type}

/-! ## Specification -/

/-- The object has this class, key, extension and value. -/
def Bare (h : Heap F) : Attr F → Ref → Prop
  | .mk k key e v _ _, r => ∃ mr cr, h.get r = some (.attr k key e v mr cr)

/-- The map has these keys, with attributes of this class, key, extension and value. -/
def BareMap (h : Heap F) : List (Str × Attr F) → List (Str × Ref) → Prop
  | [], d => d = []
  | (n, x) :: m, d => ∃ r d', d = (n, r) :: d' ∧ Bare h x r ∧ BareMap h m d'

/-- The attribute shows this at a glance: itself and its meta attributes, without what lies deeper. -/
def Glance (h : Heap F) (x : Attr F) (r : Ref) : Prop :=
  ∃ k key e v m mr cr d, x = .mk k key e v m [] ∧ h.get r = some (.attr k key e v mr cr) ∧ h.get mr = some (.map d) ∧ BareMap h m d ∧
    ∀ p ∈ m, p.2.attrs = [] ∧ p.2.coll = []

/-- The same for the entries of a map. -/
def GlanceMap (h : Heap F) : List (Str × Attr F) → List (Str × Ref) → Prop
  | [], d => d = []
  | (n, x) :: m, d => ∃ r d', d = (n, r) :: d' ∧ Glance h x r ∧ GlanceMap h m d'

/-- The event shows this at a glance. -/
def GlanceEvent (h : Heap F) (x : Event F) (e : Ref) : Prop :=
  ∃ m d, h.get e = some (.event x.id m) ∧ h.get m = some (.map d) ∧ GlanceMap h x.attrs d

/-- The trace shows this at a glance. -/
def GlanceTrace (h : Heap F) (x : Trace F) (t : Ref) : Prop :=
  ∃ m d es, h.get t = some (.trace m es) ∧ h.get m = some (.map d) ∧ GlanceMap h x.attrs d ∧ DenAll (GlanceEvent h) x.events es

/-- The log shows this at a glance. -/
def GlanceLog (h : Heap F) (x : Log F) (l : Ref) : Prop :=
  ∃ lo d, h.get l = some (.log lo) ∧ h.get lo.map = some (.map d) ∧ GlanceMap h x.attrs d ∧ DenAll (GlanceTrace h) x.traces lo.traces

/-- No model reference of the log, a trace or an event is a list or container. -/
def PlainRefs (h : Heap F) (l : Ref) : Prop :=
  ∀ r, InLog h l r → ∀ k key e v m c, h.get r = some (.attr k key e v m c) → key = py!"semantic:modelReference" → k.isCollection = false

/-- `s` is a member of the list or container `r`. -/
def MemberOf (h : Heap F) (r s : Ref) : Prop := ∃ k key e v m c, h.get r = some (.attr k key e v m c) ∧ k.isCollection = true ∧ s ∈ c

section
variable [PyFloat F]

/-! ## What both kinds of trees have in common -/

/-- The attribute agrees with the tree in what is looked at. -/
def Like (h : Heap F) (n need : Nat) (x : Attr F) (r : Ref) : Prop :=
  ∃ k key e v m c mr cr d, x = .mk k key e v m c ∧ h.get r = some (.attr k key e v mr cr) ∧ h.get mr = some (.map d) ∧ BareMap h m d ∧
    (key = py!"semantic:modelReference" → Cut n need (strAt h n r) (attrStr x))

def LikeMap (h : Heap F) (n need : Nat) : List (Str × Attr F) → List (Str × Ref) → Prop
  | [], d => d = []
  | (nm, x) :: m, d => ∃ r d', d = (nm, r) :: d' ∧ Like h n need x r ∧ LikeMap h n need m d'

def LikeEvent (h : Heap F) (n need : Nat) (x : Event F) (e : Ref) : Prop :=
  ∃ m d, h.get e = some (.event x.id m) ∧ h.get m = some (.map d) ∧ LikeMap h n need x.attrs d

def LikeTrace (h : Heap F) (n need : Nat) (x : Trace F) (t : Ref) : Prop :=
  ∃ m d es, h.get t = some (.trace m es) ∧ h.get m = some (.map d) ∧ LikeMap h n need x.attrs d ∧ DenAll (LikeEvent h n need) x.events es

def LikeLog (h : Heap F) (n need : Nat) (x : Log F) (l : Ref) : Prop :=
  ∃ lo d, h.get l = some (.log lo) ∧ h.get lo.map = some (.map d) ∧ LikeMap h n need x.attrs d ∧ DenAll (LikeTrace h n need) x.traces lo.traces

theorem Like.bare {h : Heap F} {n need : Nat} {x : Attr F} {r : Ref} (hl : Like h n need x r) : Bare h x r := by
  obtain ⟨k, key, e, v, m, c, mr, cr, d, rfl, g, _⟩ := hl
  exact ⟨mr, cr, g⟩

theorem LikeMap.bare {h : Heap F} {n need : Nat} : ∀ {m : List (Str × Attr F)} {d : List (Str × Ref)}, LikeMap h n need m d → BareMap h m d
  | [], _, hl => hl
  | (_, _) :: _, _, ⟨r, d', e, h1, h2⟩ => ⟨r, d', e, h1.bare, h2.bare⟩

theorem bareMap_dget {h : Heap F} (k : Str) : ∀ {m : List (Str × Attr F)} {d : List (Str × Ref)}, BareMap h m d →
    (dget k m = none ∧ dget k d = none) ∨ ∃ x r, dget k m = some x ∧ dget k d = some r ∧ Bare h x r
  | [], d, hs => by
    simp only [BareMap] at hs
    subst hs
    exact Or.inl ⟨rfl, rfl⟩
  | (n, x) :: m, d, hs => by
    obtain ⟨r, d', rfl, h1, h2⟩ := hs
    simp only [dget]
    by_cases hn : n = k
    · simp only [hn, if_true]
      exact Or.inr ⟨x, r, rfl, rfl, h1⟩
    · simp only [hn, if_false]
      exact bareMap_dget k h2

theorem likeMap_dget {h : Heap F} {n need : Nat} (k : Str) : ∀ {m : List (Str × Attr F)} {d : List (Str × Ref)}, LikeMap h n need m d →
    (dget k m = none ∧ dget k d = none) ∨ ∃ x r, dget k m = some x ∧ dget k d = some r ∧ Like h n need x r
  | [], d, hs => by
    simp only [LikeMap] at hs
    subst hs
    exact Or.inl ⟨rfl, rfl⟩
  | (n', x) :: m, d, hs => by
    obtain ⟨r, d', rfl, h1, h2⟩ := hs
    simp only [dget]
    by_cases hn : n' = k
    · simp only [hn, if_true]
      exact Or.inr ⟨x, r, rfl, rfl, h1⟩
    · simp only [hn, if_false]
      exact likeMap_dget k h2

/-- The value of the attribute is read through the object. -/
theorem bare_value {h : Heap F} {x : Attr F} {r : Ref} (hb : Bare h x r) {β : Type} (f : PyVal F → Except PyErr β) :
    (bareAttr h r >>= fun a => getValue a >>= f) = (getValue x >>= f) := by
  obtain ⟨k, key, e, v, m, c⟩ := x
  obtain ⟨mr, cr, g⟩ := hb
  simp only [bareAttr, g, ok_bind']
  rfl

theorem valueUnder_bare {h : Heap F} {m : List (Str × Attr F)} {d : List (Str × Ref)} (hb : BareMap h m d) (key : Str) :
    valueUnder h d key = match dget key m with
      | none => .ok none
      | some x => getValue x >>= fun v => .ok (some v) := by
  simp only [valueUnder]
  rcases bareMap_dget key hb with ⟨q1, q2⟩ | ⟨x, r, q1, q2, q3⟩
  · rw [q1, q2]
  · simp only [q1, q2]
    exact bare_value q3 _

theorem refUnder_bare {h : Heap F} {m : List (Str × Attr F)} {d : List (Str × Ref)} (hb : BareMap h m d) : refUnder h d = refAttr m := by
  simp only [refUnder, refAttr, valueUnder_bare hb]
  cases dget py!"semantic:modelReference" m with
  | none => rfl
  | some x =>
    simp only
    cases getValue x with
    | error e => rfl
    | ok v => rfl

theorem nameUnder_bare {h : Heap F} {m : List (Str × Attr F)} {d : List (Str × Ref)} (hb : BareMap h m d) : nameUnder h d = extractName m := by
  simp only [nameUnder, extractName, extractOr, valueUnder_bare hb]
  cases dget py!"concept:name" m with
  | none => rfl
  | some x =>
    simp only
    cases getValue x with
    | error e => rfl
    | ok v => rfl

theorem idUnder_bare {h : Heap F} {m : List (Str × Attr F)} {d : List (Str × Ref)} (hb : BareMap h m d) : idUnder h d = mxmlId m := by
  simp only [idUnder, mxmlId, nameUnder_bare hb]
  rfl

theorem refAt_like {h : Heap F} {n need : Nat} {x : Attr F} {r : Ref} (hl : Like h n need x r) : refAt h r = refAttr x.attrs := by
  obtain ⟨k, key, e, v, m, c, mr, cr, d, rfl, g, g1, g2, _⟩ := hl
  simp only [refAt, ownEntries, mapOf, g, ok_bind', entries, g1]
  exact refUnder_bare g2

theorem bareMap_length {h : Heap F} : ∀ {m : List (Str × Attr F)} {d : List (Str × Ref)}, BareMap h m d → d.length = m.length
  | [], _, hs => by
    simp only [BareMap] at hs
    subst hs
    rfl
  | (_, _) :: _, _, ⟨_, _, e, _, h2⟩ => by
    rw [e, List.length_cons, List.length_cons, bareMap_length h2]

theorem dataKidsAt_like {h : Heap F} {n need : Nat} : ∀ {m : List (Str × Attr F)} {d : List (Str × Ref)}, LikeMap h n need m d →
    Cut n need (dataKidsAt h n d) (dataKids m)
  | [], d, hs => by
    simp only [LikeMap] at hs
    subst hs
    exact .rfl' _
  | (nm, x) :: m, d, hs => by
    obtain ⟨r, d', rfl, h1, h2⟩ := hs
    have href := refAt_like h1
    obtain ⟨k, key, e, v, m', c, mr, cr, d, rfl, g, g1, g2, g3⟩ := h1
    have hb : bareAttr h r = .ok (.mk k key e v [] []) := by simp only [bareAttr, g]
    simp only [dataKidsAt, hb, ok_bind', dataKids]
    by_cases hk : key = py!"semantic:modelReference"
    · have k1 : (.mk k key e v [] [] : Attr F).key = py!"semantic:modelReference" := hk
      have k2 : (.mk k key e v m' c : Attr F).key = py!"semantic:modelReference" := hk
      rw [if_pos k1, if_pos k2, href]
      refine (Cut.rfl' _).bind fun ref => (g3 hk).bind fun t => ?_
      simp only [ownEntries, mapOf, g, ok_bind', entries, g1, bareMap_length g2]
      have ha : (.mk k key e v m' c : Attr F).attrs = m' := rfl
      rw [ha]
      by_cases h0 : 0 < m'.length
      · rw [if_pos h0, if_pos h0]
        exact .rfl' _
      · rw [if_neg h0, if_neg h0]
        exact (dataKidsAt_like h2).bind fun _ => .rfl' _
    · have k1 : (.mk k key e v [] [] : Attr F).key ≠ py!"semantic:modelReference" := hk
      have k2 : (.mk k key e v m' c : Attr F).key ≠ py!"semantic:modelReference" := hk
      rw [if_neg k1, if_neg k2]
      exact dataKidsAt_like h2

theorem dataAt_like {h : Heap F} {n need : Nat} {m : List (Str × Attr F)} {d : List (Str × Ref)} (hs : LikeMap h n need m d) :
    Cut n need (dataAt h n d) (dataXml m) := (dataKidsAt_like hs).bind fun _ => .rfl' _

theorem typeAt_like {h : Heap F} {n need : Nat} {m : List (Str × Attr F)} {d : List (Str × Ref)} (hs : LikeMap h n need m d) :
    typeAt h d = typeXml m := by
  simp only [typeAt, typeXml]
  rcases likeMap_dget py!"lifecycle:transition" hs with ⟨q1, q2⟩ | ⟨x, r, q1, q2, q3⟩
  · rw [q1, q2]
  · simp only [q1, q2, refAt_like q3]
    congr 1
    funext ref
    exact bare_value q3.bare _

theorem originatorAt_like {h : Heap F} {n need : Nat} {m : List (Str × Attr F)} {d : List (Str × Ref)} (hs : LikeMap h n need m d) :
    originatorAt h d = originatorXml m := by
  have key : ∀ {x : Option (Attr F)} {r : Option Ref}, (x = none ∧ r = none) ∨ (∃ y s, x = some y ∧ r = some s ∧ Like h n need y s) →
      (match r with
        | none => (.ok [] : Except PyErr (List MNode))
        | some r => do
          let ref ← refAt h r
          let a ← bareAttr h r
          let v ← getValue a
          let t ← xmlText v
          .ok [.elem py!"originator" ref t]) =
      (match x with
        | none => .ok []
        | some a => do
          let r ← refAttr a.attrs
          let t ← xmlText (← getValue a)
          .ok [.elem py!"originator" r t]) := by
    rintro x r (⟨rfl, rfl⟩ | ⟨y, s, rfl, rfl, q⟩)
    · rfl
    · simp only [refAt_like q]
      congr 1
      funext ref
      exact bare_value q.bare _
  simp only [originatorAt, originatorXml]
  apply key
  have l1 := likeMap_dget py!"org:resource" hs
  have l2 := likeMap_dget py!"org:role" hs
  have l3 := likeMap_dget py!"org:group" hs
  rcases l1 with ⟨a1, a2⟩ | ⟨x, r, a1, a2, a3⟩
  · rw [a1, a2]
    rcases l2 with ⟨b1, b2⟩ | ⟨x, r, b1, b2, b3⟩
    · rw [b1, b2]
      rcases l3 with ⟨c1, c2⟩ | ⟨x, r, c1, c2, c3⟩
      · rw [c1, c2]
        exact Or.inl ⟨rfl, rfl⟩
      · rw [c1, c2]
        exact Or.inr ⟨x, r, rfl, rfl, c3⟩
    · rw [b1, b2]
      exact Or.inr ⟨x, r, rfl, rfl, b3⟩
  · rw [a1, a2]
    exact Or.inr ⟨x, r, rfl, rfl, a3⟩

theorem timestampAt_like {h : Heap F} {n need : Nat} {m : List (Str × Attr F)} {d : List (Str × Ref)} (hs : LikeMap h n need m d) :
    timestampAt h d = timestampXml m := by
  simp only [timestampAt, timestampXml]
  rcases likeMap_dget py!"time:timestamp" hs with ⟨q1, q2⟩ | ⟨x, r, q1, q2, q3⟩
  · rw [q1, q2]
  · simp only [q1, q2, refAt_like q3]
    congr 1
    funext ref
    exact bare_value q3.bare _

theorem entryAt_like {h : Heap F} {n need : Nat} {x : Event F} {e : Ref} (hs : LikeEvent h n need x e) : Cut n need (entryAt h n e) (entryXml x) := by
  obtain ⟨m, d, g1, g2, g3⟩ := hs
  simp only [entryAt, ownEntries, mapOf, g1, ok_bind', entries, g2, entryXml]
  refine (dataAt_like g3).bind fun dt => ?_
  rw [refUnder_bare g3.bare, nameUnder_bare g3.bare, typeAt_like g3, originatorAt_like g3, timestampAt_like g3]
  exact .rfl' _

theorem entriesAt_like {h : Heap F} {n need : Nat} : ∀ {xs : List (Event F)} {es : List Ref}, DenAll (LikeEvent h n need) xs es →
    Cut n need (eachNode (entryAt h n) es) (entriesXml xs)
  | [], es, hs => by
    simp only [DenAll] at hs
    subst hs
    exact .rfl' _
  | x :: xs, es, hs => by
    obtain ⟨e, es', rfl, h1, h2⟩ := hs
    exact (entryAt_like h1).bind fun _ => (entriesAt_like h2).bind fun _ => .rfl' _

theorem instanceAt_like {h : Heap F} {n need : Nat} {x : Trace F} {t : Ref} (hs : LikeTrace h n need x t) :
    Cut n need (instanceAt h n t) (instanceXml x) := by
  obtain ⟨m, d, es, g1, g2, g3, g4⟩ := hs
  simp only [instanceAt, ownEntries, mapOf, g1, ok_bind', entries, g2, instanceXml, traceEvents]
  rw [idUnder_bare g3.bare, refUnder_bare g3.bare]
  exact (Cut.rfl' _).bind fun id => (Cut.rfl' _).bind fun ref => (dataAt_like g3).bind fun dt => (entriesAt_like g4).bind fun _ => .rfl' _

theorem instancesAt_like {h : Heap F} {n need : Nat} : ∀ {xs : List (Trace F)} {ts : List Ref}, DenAll (LikeTrace h n need) xs ts →
    Cut n need (eachNode (instanceAt h n) ts) (instancesXml xs)
  | [], es, hs => by
    simp only [DenAll] at hs
    subst hs
    exact .rfl' _
  | x :: xs, es, hs => by
    obtain ⟨e, es', rfl, h1, h2⟩ := hs
    exact (instanceAt_like h1).bind fun _ => (instancesAt_like h2).bind fun _ => .rfl' _

theorem saveMxmlAt_like {h : Heap F} {n need : Nat} {x : Log F} {l : Ref} (hs : LikeLog h n need x l) :
    Cut n need (saveMxmlAt h n l) (serializeMxml x) := by
  obtain ⟨lo, d, g1, g2, g3, g4⟩ := hs
  simp only [saveMxmlAt, ownEntries, mapOf, g1, ok_bind', entries, g2, serializeMxml]
  rw [idUnder_bare g3.bare, refUnder_bare g3.bare]
  exact (Cut.rfl' _).bind fun id => (Cut.rfl' _).bind fun ref => (dataAt_like g3).bind fun dt => (instancesAt_like g4).bind fun _ => .rfl' _

/-! ## Trees -/

theorem wholeMap_bare {h : Heap F} : ∀ {m : List (Str × Attr F)} {d : List (Str × Ref)}, WholeMap h m d → BareMap h m d
  | [], d, hs => by simpa only [WholeMap, BareMap] using hs
  | (n, .mk k key e v m' c) :: m, d, hs => by
    simp only [WholeMap] at hs
    obtain ⟨r, d', rfl, h1, h2⟩ := hs
    simp only [Whole] at h1
    obtain ⟨mr, cr, _, g, _⟩ := h1
    exact ⟨r, d', rfl, ⟨mr, cr, g⟩, wholeMap_bare h2⟩

theorem Whole.like {h : Heap F} {n need : Nat} {x : Attr F} {r : Ref} (hs : Whole h x r) (hn : x.depth ≤ need) : Like h n need x r := by
  have hc := (strAt_whole n hs).mono hn
  obtain ⟨k, key, e, v, m, c⟩ := x
  simp only [Whole] at hs
  obtain ⟨mr, cr, d, g, g1, g2, g3⟩ := hs
  exact ⟨k, key, e, v, m, c, mr, cr, d, rfl, g, g1, wholeMap_bare g2, fun _ => hc⟩

theorem WholeMap.like {h : Heap F} {n need : Nat} : ∀ {m : List (Str × Attr F)} {d : List (Str × Ref)}, WholeMap h m d → depthMap m ≤ need →
    LikeMap h n need m d
  | [], d, hs, _ => by simpa only [WholeMap, LikeMap] using hs
  | (nm, x) :: m, d, hs, hn => by
    simp only [WholeMap] at hs
    obtain ⟨r, d', rfl, h1, h2⟩ := hs
    simp only [depthMap] at hn
    exact ⟨r, d', rfl, h1.like (by omega), h2.like (by omega)⟩

theorem wholeEvents_like {h : Heap F} {n need : Nat} : ∀ {xs : List (Event F)} {es : List Ref}, DenAll (WholeEvent h) xs es →
    most (fun e => depthMap e.attrs) xs ≤ need → DenAll (LikeEvent h n need) xs es
  | [], _, hs, _ => hs
  | x :: xs, _, ⟨e, es, q, ⟨m, d, g1, g2, g3⟩, h2⟩, hn => by
    simp only [most] at hn
    exact ⟨e, es, q, ⟨m, d, g1, g2, g3.like (by omega)⟩, wholeEvents_like h2 (by omega)⟩

theorem wholeTraces_like {h : Heap F} {n need : Nat} : ∀ {xs : List (Trace F)} {ts : List Ref}, DenAll (WholeTrace h) xs ts →
    most (fun t => max (depthMap t.attrs) (most (fun e => depthMap e.attrs) t.events)) xs ≤ need → DenAll (LikeTrace h n need) xs ts
  | [], _, hs, _ => hs
  | x :: xs, _, ⟨t, ts, q, ⟨m, d, es, g1, g2, g3, g4⟩, h2⟩, hn => by
    simp only [most] at hn
    exact ⟨t, ts, q, ⟨m, d, es, g1, g2, g3.like (by omega), wholeEvents_like g4 (by omega)⟩, wholeTraces_like h2 (by omega)⟩

/-- C174: saving a log that shows a tree as MXML is saving that tree, whatever the objects share, if enough calls may be nested; otherwise
the outcome is the same or a RecursionError. -/
theorem c174_tree {h : Heap F} {x : Log F} {l : Ref} (hs : WholeLog h x l) (n : Nat) :
    saveMxmlAt h n l = serializeMxml x ∨ n < x.depth ∧ saveMxmlAt h n l = .error .recursionError := by
  obtain ⟨lo, d, g1, g2, g3, g4⟩ := hs
  exact saveMxmlAt_like (need := x.depth)
    ⟨lo, d, g1, g2, g3.like (by simp only [Log.depth]; omega), wholeTraces_like g4 (by simp only [Log.depth]; omega)⟩

/-! ## At a glance -/

theorem strAt_plain {h : Heap F} {n : Nat} (hn : 0 < n) {r : Ref} {k : Kind} {key : Str} {e : Option Ext} {v : PyVal F} {mr : Ref} {cr : List Ref}
    (g : h.get r = some (.attr k key e v mr cr)) (hk : k.isCollection = false) (m : List (Str × Attr F)) :
    strAt h n r = attrStr (.mk k key e v m []) := by
  cases n with
  | zero => omega
  | succ n =>
    simp only [strAt, g, hk, Bool.false_eq_true, if_false]
    exact attrStr_alone hk key e v [] m [] []

theorem glanceMap_like {h : Heap F} {n : Nat} (hn : 0 < n) : ∀ {m : List (Str × Attr F)} {d : List (Str × Ref)}, GlanceMap h m d →
    (∀ p ∈ d, ∀ k key e v m c, h.get p.2 = some (.attr k key e v m c) → key = py!"semantic:modelReference" → k.isCollection = false) →
    LikeMap h n 0 m d
  | [], _, hs, _ => hs
  | (nm, x) :: m, _, ⟨r, d', q, h1, h2⟩, hp => by
    subst q
    refine ⟨r, d', rfl, ?_, glanceMap_like hn h2 fun p hm => hp p (by simp [hm])⟩
    obtain ⟨k, key, e, v, m', mr, cr, d, rfl, g, g1, g2, _⟩ := h1
    exact ⟨k, key, e, v, m', [], mr, cr, d, rfl, g, g1, g2, fun q => Or.inl (strAt_plain hn g (hp (nm, r) (by simp) k key e v mr cr g q) m')⟩

/-- C174: if no model reference is a list or container, a log is saved as what it shows at a glance, however attributes lie within each
other or themselves further down. -/
theorem c174_glance {h : Heap F} {x : Log F} {l : Ref} (hs : GlanceLog h x l) (hp : PlainRefs h l) {n : Nat} (hn : 0 < n) :
    saveMxmlAt h n l = serializeMxml x := by
  obtain ⟨lo, d, g1, g2, g3, g4⟩ := hs
  have ev : ∀ {t m : Ref} {es : List Ref}, t ∈ lo.traces → h.get t = some (.trace m es) → ∀ {xs : List (Event F)} {es' : List Ref}, (∀ e ∈ es', e ∈ es) →
      DenAll (GlanceEvent h) xs es' → DenAll (LikeEvent h n 0) xs es' := by
    intro t m es ht gt xs
    induction xs with
    | nil => exact fun _ hs => hs
    | cons x xs ih =>
      rintro es' hsub ⟨e, es2, rfl, ⟨m', d', f1, f2, f3⟩, h2⟩
      exact ⟨e, es2, rfl, ⟨m', d', f1, f2, glanceMap_like hn f3 fun p hm =>
        hp p.2 (.event g1 ht gt (hsub e (by simp)) ⟨m', d', p.1, by simp only [mapOf, f1], f2, hm⟩)⟩, ih (fun e he => hsub e (by simp [he])) h2⟩
  have tr : ∀ {xs : List (Trace F)} {ts : List Ref}, (∀ t ∈ ts, t ∈ lo.traces) → DenAll (GlanceTrace h) xs ts → DenAll (LikeTrace h n 0) xs ts := by
    intro xs
    induction xs with
    | nil => exact fun _ hs => hs
    | cons x xs ih =>
      rintro ts hsub ⟨t, ts2, rfl, ⟨m, d', es, f1, f2, f3, f4⟩, h2⟩
      have ht := hsub t (by simp)
      exact ⟨t, ts2, rfl, ⟨m, d', es, f1, f2, glanceMap_like hn f3 fun p hm =>
        hp p.2 (.trace g1 ht ⟨m, d', p.1, by simp only [mapOf, f1], f2, hm⟩), ev ht f1 (fun _ he => he) f4⟩, ih (fun e he => hsub e (by simp [he])) h2⟩
  rcases saveMxmlAt_like (n := n) (need := 0) (x := x) (l := l)
    ⟨lo, d, g1, g2, glanceMap_like hn g3 fun p hm => hp p.2 (.log ⟨lo.map, d, p.1, by simp only [mapOf, g1], g2, hm⟩), tr (fun _ ht => ht) g4⟩ with q | ⟨q, _⟩
  · exact q
  · omega

theorem bareMap_of {h : Heap F} : ∀ {d : List (Str × Ref)}, (∀ p ∈ d, IsA h p.2 .attr) →
    ∃ m, BareMap h m d ∧ ∀ p ∈ m, p.2.attrs = [] ∧ p.2.coll = []
  | [], _ => ⟨[], rfl, by simp⟩
  | (n, r) :: d, hs => by
    obtain ⟨k, key, e, v, mr, cr, g⟩ := isA_attr (hs (n, r) (by simp))
    obtain ⟨m, m1, m2⟩ := bareMap_of (d := d) fun p hp => hs p (by simp [hp])
    refine ⟨(n, .mk k key e v [] []) :: m, ⟨r, d, rfl, ⟨mr, cr, g⟩, m1⟩, ?_⟩
    intro p hp
    rcases List.mem_cons.mp hp with rfl | hp
    · exact ⟨rfl, rfl⟩
    · exact m2 p hp

theorem glanceMap_of {h : Heap F} (hw : WellFormed h) : ∀ {d : List (Str × Ref)}, (∀ p ∈ d, IsA h p.2 .attr) → ∃ m, GlanceMap h m d
  | [], _ => ⟨[], rfl⟩
  | (n, r) :: d, hs => by
    obtain ⟨k, key, e, v, mr, cr, g⟩ := isA_attr (hs (n, r) (by simp))
    obtain ⟨d', gd⟩ := isA_map (hw r _ g).1
    obtain ⟨m, m1, m2⟩ := bareMap_of (h := h) (d := d') (hw mr _ gd).2
    obtain ⟨ms, hm⟩ := glanceMap_of hw (d := d) fun p hp => hs p (by simp [hp])
    exact ⟨(n, .mk k key e v m []) :: ms, r, d, rfl, ⟨k, key, e, v, m, mr, cr, d', rfl, g, gd, m1, m2⟩, hm⟩

/-- C174: every log shows something at a glance. -/
theorem c174_shows {h : Heap F} (hw : WellFormed h) {l : Ref} (hl : IsA h l .log) : ∃ x, GlanceLog h x l := by
  obtain ⟨lo, ho⟩ := isA_log hl
  obtain ⟨g1, _, _, g4⟩ := hw l _ ho
  obtain ⟨d, gd⟩ := isA_map g1
  obtain ⟨as, k3⟩ := glanceMap_of hw (hw _ _ gd).2
  obtain ⟨tr, k4⟩ : ∃ xs, DenAll (GlanceTrace h) xs lo.traces := by
    refine denAll_of fun t ht => ?_
    obtain ⟨m, es, hot⟩ := isA_trace (g4 t ht)
    obtain ⟨f1, f2⟩ := hw t _ hot
    obtain ⟨d', gd'⟩ := isA_map f1
    obtain ⟨as', k5⟩ := glanceMap_of hw (hw _ _ gd').2
    obtain ⟨ev, k6⟩ : ∃ xs, DenAll (GlanceEvent h) xs es := by
      refine denAll_of fun e hm => ?_
      obtain ⟨u, m', hoe⟩ := isA_event (f2 e hm)
      obtain ⟨d'', gd''⟩ := isA_map (hw e _ hoe)
      obtain ⟨as'', k7⟩ := glanceMap_of hw (hw _ _ gd'').2
      exact ⟨⟨u, as''⟩, m', d'', hoe, gd'', k7⟩
    exact ⟨⟨as', ev⟩, m, d', es, hot, gd', k5, k6⟩
  exact ⟨⟨as, [], [], [], [], [], tr⟩, lo, d, ho, gd, k3, k4⟩

theorem eachNode_ok {f : Ref → Except PyErr MNode} : ∀ {rs : List Ref} {ys : List MNode}, eachNode f rs = .ok ys → ∀ r ∈ rs, ∃ y, f r = .ok y
  | [], _, _, _, hm => by cases hm
  | r :: rs, ys, he, s, hm => by
    simp only [eachNode] at he
    obtain ⟨y, h1, h2⟩ := bind_ok.mp he
    obtain ⟨zs, h3, _⟩ := bind_ok.mp h2
    rcases List.mem_cons.mp hm with rfl | hm
    · exact ⟨y, h1⟩
    · exact eachNode_ok h3 s hm

theorem membersStr_ok {h : Heap F} {f : Ref → Except PyErr Str} : ∀ {rs : List Ref} {sep t : Str}, membersStr h f sep rs = .ok t →
    ∀ r ∈ rs, ∃ u, f r = .ok u
  | [], _, _, _, _, hm => by cases hm
  | r :: rs, sep, t, he, s, hm => by
    simp only [membersStr] at he
    obtain ⟨_, _, he⟩ := bind_ok.mp he
    obtain ⟨u, h1, he⟩ := bind_ok.mp he
    obtain ⟨w, h2, _⟩ := bind_ok.mp he
    rcases List.mem_cons.mp hm with rfl | hm
    · exact ⟨u, h1⟩
    · exact membersStr_ok h2 s hm

/-- What is printed has fewer than `n` members one within the other. -/
theorem strAt_steps {h : Heap F} : ∀ (n : Nat) {r : Ref} {t : Str}, strAt h n r = .ok t → ¬ StepsFrom (MemberOf h) n r
  | 0, _, _, he => by cases he
  | n + 1, r, t, he => by
    rintro ⟨s, ⟨k, key, e, v, m, c, g, hk, hm⟩, hs⟩
    simp only [strAt, g, hk, if_true] at he
    obtain ⟨w, h1, _⟩ := bind_ok.mp he
    obtain ⟨u, h2⟩ := membersStr_ok h1 s hm
    exact strAt_steps n h2 hs

theorem dataKidsAt_ok {h : Heap F} {n : Nat} : ∀ {d : List (Str × Ref)} {ys : List MNode}, dataKidsAt h n d = .ok ys → ∀ p ∈ d,
    ∀ k key e v m c, h.get p.2 = some (.attr k key e v m c) → key = py!"semantic:modelReference" → ∃ t, strAt h n p.2 = .ok t
  | [], _, _, _, hm => by cases hm
  | (nm, r) :: d, ys, he, p, hm => by
    intro k key e v m c g hk
    simp only [dataKidsAt] at he
    obtain ⟨a, h1, he⟩ := bind_ok.mp he
    rcases List.mem_cons.mp hm with rfl | hm
    · simp only [bareAttr, g] at h1
      cases h1
      have k1 : (.mk k key e v [] [] : Attr F).key = py!"semantic:modelReference" := hk
      rw [if_pos k1] at he
      obtain ⟨_, _, he⟩ := bind_ok.mp he
      obtain ⟨t, h2, _⟩ := bind_ok.mp he
      exact ⟨t, h2⟩
    · split at he
      · obtain ⟨_, _, he⟩ := bind_ok.mp he
        obtain ⟨_, _, he⟩ := bind_ok.mp he
        obtain ⟨_, _, he⟩ := bind_ok.mp he
        split at he
        · cases he
        · obtain ⟨ks, h3, _⟩ := bind_ok.mp he
          exact dataKidsAt_ok h3 p hm k key e v m c g hk
      · exact dataKidsAt_ok he p hm k key e v m c g hk

/-- If the log is saved, its model references are printed. -/
theorem saved_refs {h : Heap F} {n : Nat} {l : Ref} {y : MNode} (he : saveMxmlAt h n l = .ok y) {r : Ref} (hr : InLog h l r) {k : Kind}
    {e : Option Ext} {v : PyVal F} {m : Ref} {c : List Ref} (g : h.get r = some (.attr k py!"semantic:modelReference" e v m c)) :
    ∃ t, strAt h n r = .ok t := by
  have own : ∀ {x : Ref} {d : List (Str × Ref)} {dt : MNode}, ownEntries h x = .ok d → dataAt h n d = .ok dt → Owns h x r → ∃ t, strAt h n r = .ok t := by
    rintro x d dt h1 h2 ⟨m', d', nm, f1, f2, f3⟩
    simp only [ownEntries, f1, ok_bind', entries, f2] at h1
    cases h1
    simp only [dataAt] at h2
    obtain ⟨ks, h3, _⟩ := bind_ok.mp h2
    exact dataKidsAt_ok h3 _ f3 k _ e v m c g rfl
  unfold saveMxmlAt at he
  split at he
  · next lo gl =>
    obtain ⟨d, h1, he⟩ := bind_ok.mp he
    obtain ⟨id, _, he⟩ := bind_ok.mp he
    obtain ⟨ref, _, he⟩ := bind_ok.mp he
    obtain ⟨dt, h2, he⟩ := bind_ok.mp he
    obtain ⟨is, h3, _⟩ := bind_ok.mp he
    have tr : ∀ t ∈ lo.traces, ∃ d dt m es xs, ownEntries h t = .ok d ∧ dataAt h n d = .ok dt ∧ h.get t = some (.trace m es) ∧
        eachNode (entryAt h n) es = .ok xs := by
      intro t ht
      obtain ⟨z, hz⟩ := eachNode_ok h3 t ht
      simp only [instanceAt] at hz
      obtain ⟨d, z1, hz⟩ := bind_ok.mp hz
      obtain ⟨_, _, hz⟩ := bind_ok.mp hz
      obtain ⟨_, _, hz⟩ := bind_ok.mp hz
      obtain ⟨dt, z4, hz⟩ := bind_ok.mp hz
      obtain ⟨es, z2, hz⟩ := bind_ok.mp hz
      obtain ⟨xs, z3, hz⟩ := bind_ok.mp hz
      unfold traceEvents at z2
      split at z2
      · next m es' gt =>
        cases z2
        exact ⟨d, dt, m, _, xs, z1, z4, gt, z3⟩
      · cases z2
    cases hr with
    | log ho => exact own h1 h2 ho
    | trace g' hm ho =>
      rw [gl] at g'
      cases g'
      obtain ⟨d, dt, _, _, _, z1, z2, _, _⟩ := tr _ hm
      exact own z1 z2 ho
    | event g' hm gt hme ho =>
      rw [gl] at g'
      cases g'
      obtain ⟨d, dt, _, es, xs, _, _, z3, z4⟩ := tr _ hm
      rw [gt] at z3
      cases z3
      obtain ⟨w, hw⟩ := eachNode_ok z4 _ hme
      simp only [entryAt] at hw
      obtain ⟨d, w1, hw⟩ := bind_ok.mp hw
      obtain ⟨dt, w2, _⟩ := bind_ok.mp hw
      exact own w1 w2 ho
  · cases he

/-- C174: a log with a model reference that is a collection with a member that is a member of itself, directly or not, is never saved as
MXML, however many calls may be nested. -/
theorem c174_loop {h : Heap F} {l r s : Ref} (hr : InLog h l r) {k : Kind} {e : Option Ext} {v : PyVal F} {m : Ref} {c : List Ref}
    (g : h.get r = some (.attr k py!"semantic:modelReference" e v m c)) (hs : r = s ∨ Relation.TransGen (MemberOf h) r s)
    (hl : Relation.TransGen (MemberOf h) s s) (n : Nat) (y : MNode) : saveMxmlAt h n l ≠ .ok y := by
  intro he
  obtain ⟨t, ht⟩ := saved_refs he hr g
  refine strAt_steps n ht ?_
  rcases hs with rfl | hs
  · exact steps_of_loop hl n
  · cases n with
    | zero => trivial
    | succ n => exact steps_of_path hs n (steps_of_loop hl n)

theorem none_entries {h : Heap F} {r : Ref} (g : h.get r = some .pyNone) (d : List (Str × Ref)) : ownEntries h r ≠ .ok d := by
  intro he
  simp only [ownEntries, mapOf, g] at he
  cases he

/-- C174: a log that holds `None` as a trace, or a trace that holds `None` as an event, is never saved as MXML. -/
theorem c174_none {h : Heap F} {l : Ref} (hn : LogHoldsNone h l) (n : Nat) (y : MNode) : saveMxmlAt h n l ≠ .ok y := by
  intro he
  unfold saveMxmlAt at he
  split at he
  · next lo g =>
    obtain ⟨d, _, he⟩ := bind_ok.mp he
    obtain ⟨id, _, he⟩ := bind_ok.mp he
    obtain ⟨ref, _, he⟩ := bind_ok.mp he
    obtain ⟨dt, _, he⟩ := bind_ok.mp he
    obtain ⟨is, h1, _⟩ := bind_ok.mp he
    have tr : ∀ t ∈ lo.traces, (∃ d, ownEntries h t = .ok d) ∧ ∃ m es, h.get t = some (.trace m es) ∧ ∀ e ∈ es, ∃ d, ownEntries h e = .ok d := by
      intro t ht
      obtain ⟨z, hz⟩ := eachNode_ok h1 t ht
      simp only [instanceAt] at hz
      obtain ⟨d, z1, hz⟩ := bind_ok.mp hz
      obtain ⟨_, _, hz⟩ := bind_ok.mp hz
      obtain ⟨_, _, hz⟩ := bind_ok.mp hz
      obtain ⟨_, _, hz⟩ := bind_ok.mp hz
      obtain ⟨es, z2, hz⟩ := bind_ok.mp hz
      obtain ⟨xs, z3, hz⟩ := bind_ok.mp hz
      refine ⟨⟨d, z1⟩, ?_⟩
      unfold traceEvents at z2
      split at z2
      · next m es' gt =>
        cases z2
        refine ⟨m, _, gt, fun e hm => ?_⟩
        obtain ⟨w, hw⟩ := eachNode_ok z3 e hm
        simp only [entryAt] at hw
        obtain ⟨d, w1, _⟩ := bind_ok.mp hw
        exact ⟨d, w1⟩
      · cases z2
    rcases hn with ⟨r, gr, ⟨m, es, g', _⟩ | ⟨lo', g', hm⟩⟩ | ⟨lo', t, g', ht, r, gr, ⟨m, es, gt, hm⟩ | ⟨l2, gt, _⟩⟩
    · rw [g] at g'
      cases g'
    · rw [g] at g'
      cases g'
      obtain ⟨⟨d, q⟩, _⟩ := tr r hm
      exact none_entries gr d q
    · rw [g] at g'
      cases g'
      obtain ⟨_, m', es', g3, h3⟩ := tr t ht
      rw [gt] at g3
      cases g3
      obtain ⟨d, q⟩ := h3 r hm
      exact none_entries gr d q
    · rw [g] at g'
      cases g'
      obtain ⟨_, m', es', g3, h3⟩ := tr t ht
      rw [gt] at g3
      cases g3
  · cases he

/-- C174: whatever a program did, a log that it has got, without collections as model references, is saved as MXML just as what it shows at a
glance. -/
theorem c174_program {env : ApiEnv} {h h' : Heap F} (hw : WellFormed h) (hP : ProtosOk h env.protos) (hr : Reaches env h h') {l : Ref}
    (hl : IsA h' l .log) (hp : PlainRefs h' l) : ∃ x, GlanceLog h' x l ∧ ∀ n, 0 < n → saveMxmlAt h' n l = serializeMxml x := by
  obtain ⟨a, _, _⟩ := c159_reachable hw hP hr
  obtain ⟨x, hx⟩ := c174_shows a hl
  exact ⟨x, hx, fun n hn => c174_glance hx hp hn⟩

end

end

/-! ## Examples -/

example : saveMxmlAt exShared 1 6 = serializeMxml exSharedTree ∧ (saveMxmlAt exShared 1 6).isOk = true := by
  refine ⟨?_, by decide +kernel⟩
  rcases c174_tree exShared_whole 1 with q | ⟨q, _⟩
  · exact q
  · exact absurd q (by decide +kernel)

/-- The log with an attribute within itself is saved as MXML, but never as XES, and never summarised. -/
example : (saveMxmlAt exCycle 1 44).isOk = true ∧ PlainRefs exCycle 44 ∧ ∀ n y, saveObjects exCycle n 44 ≠ .ok y := by
  have g : exCycle.get 43 = some (.attr .literal py!"a" none (.str []) 42 []) := by decide +kernel
  have gm : exCycle.get 42 = some (.map [(py!"a", 43)]) := by decide +kernel
  have gl : exCycle.get 44 = some (.log ⟨42, [], [], [], [], [], []⟩) := by decide +kernel
  have hl : HasLoop exCycle 44 :=
    ⟨43, 43, .log ⟨42, _, py!"a", by decide +kernel, gm, by simp⟩, Or.inl rfl, .single (.nested (n := py!"a") g rfl gm (by simp))⟩
  refine ⟨by decide +kernel, ?_, fun n y => c169_loop hl n y⟩
  intro r hr k key e v m c gr hk
  cases hr with
  | log ho =>
    obtain ⟨m', d', nm, f1, f2, f3⟩ := ho
    simp only [mapOf, gl] at f1
    cases f1
    rw [gm] at f2
    cases f2
    simp only [List.mem_singleton] at f3
    cases f3
    rw [g] at gr
    cases gr
    rfl
  | trace g' hm _ => rw [gl] at g'; cases g'; cases hm
  | event g' hm _ _ _ => rw [gl] at g'; cases g'; cases hm

/-- A model reference (object 1) that is a list with itself as a member is never printed, so the log (object 3) is never saved. -/
def exRefLoop : Heap ToyFloat :=
  ⟨[.map [], .attr .list py!"semantic:modelReference" none (.str []) 0 [1], .map [(py!"x", 1)], .log ⟨2, [], [], [], [], [], []⟩], 0⟩

example : ∀ n y, saveMxmlAt exRefLoop n 3 ≠ .ok y :=
  c174_loop (r := 1) (s := 1) (.log ⟨2, _, py!"x", rfl, rfl, by simp⟩) rfl (Or.inl rfl) (.single ⟨_, _, _, _, _, _, rfl, rfl, by simp⟩)

end Opy
