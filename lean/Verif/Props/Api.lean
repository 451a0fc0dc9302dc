import Verif.Model.Api
import Verif.Props.AliasNested
import Verif.Props.Fresh
/-
Property C159: whatever a program does through the library, its objects stay well formed; and the part of C142 for elements with shared
maps.
-/
set_option linter.unusedSectionVars false
namespace Opy

section
variable {F : Type}

/-! ## Specification -/

/-- The classes of objects; the attribute classes count as one, and `None` is an object. -/
inductive ObjCls where
  | map | attr | event | trace | log | pyNone
  deriving DecidableEq

/-- The class of an object. -/
def Obj.cls : Obj F → ObjCls
  | .map _ => .map
  | .attr .. => .attr
  | .event .. => .event
  | .trace .. => .trace
  | .log _ => .log
  | .pyNone => .pyNone

/-- The reference is an object of the class. -/
def IsA (h : Heap F) (r : Ref) (c : ObjCls) : Prop := ∃ o, h.get r = some o ∧ o.cls = c

/-- What an object refers to has the classes that the documentation says: attribute maps hold attributes under distinct keys, everything
else has an attribute map, members of collections and global attributes are attributes, traces hold events, logs hold traces.  (No object is stored as `None`.) -/
def ObjGood (h : Heap F) : Obj F → Prop
  | .map d => (dkeys d).Nodup ∧ ∀ p ∈ d, IsA h p.2 .attr
  | .attr _ _ _ _ m c => IsA h m .map ∧ ∀ a ∈ c, IsA h a .attr
  | .event _ m => IsA h m .map
  | .trace m es => IsA h m .map ∧ ∀ e ∈ es, IsA h e .event
  | .log l => IsA h l.map .map ∧ (∀ a ∈ l.globalTrace, IsA h a .attr) ∧ (∀ a ∈ l.globalEvent, IsA h a .attr) ∧ ∀ t ∈ l.traces, IsA h t .trace
  | .pyNone => False

/-- All objects are good. -/
def WellFormed (h : Heap F) : Prop := ∀ r o, h.get r = some o → ObjGood h o

/-- An object behind a call: of the same class, and an attribute keeps its class, key and extension. -/
def Kin : Obj F → Obj F → Prop
  | .map _, .map _ => True
  | .attr k key e _ _ _, .attr k' key' e' _ _ _ => k = k' ∧ key = key' ∧ e = e'
  | .event .., .event .. => True
  | .trace .., .trace .. => True
  | .log _, .log _ => True
  | .pyNone, .pyNone => True
  | _, _ => False

/-- The start and end tags with this name alternate: no such element stands within another one. -/
def Alternates (name : Str) : Bool → List Sax → Prop
  | _, [] => True
  | inside, .start t _ :: es => if lower t = name then inside = false ∧ Alternates name true es else Alternates name inside es
  | inside, .stop t :: es => if lower t = name then inside = true ∧ Alternates name false es else Alternates name inside es

/-- A document in which no event stands within an event and no trace within a trace. -/
def FlatText (text : Str) : Prop :=
  ∀ es, readXml text = .ok es → Alternates py!"event" false (xesEvents es) ∧ Alternates py!"trace" false (xesEvents es)

/-- The start and end tags with this name alternate, in an MXML document. -/
def OneAtATime (name : Str) : Bool → List MSax → Prop
  | _, [] => True
  | inside, .start t _ :: es => if t = name then inside = false ∧ OneAtATime name true es else OneAtATime name inside es
  | inside, .stop t :: es => if t = name then inside = true ∧ OneAtATime name false es else OneAtATime name inside es
  | inside, .chars _ :: es => OneAtATime name inside es

/-- A document in which no entry stands within an entry. -/
def FlatMxml (text : Str) : Prop := ∀ es, readXml text = .ok es → OneAtATime py!"AuditTrailEntry" false es

/-- The arguments of a call are objects of the classes that the documentation asks for.  The attributes that the extensions keep are not
given other values.  (Timestamp attributes are made and cloned with datetime values only: the constructor converts or drops others, which
Model/Heap leaves out.) -/
def ApiCall.Fits (env : ApiEnv) (h : Heap F) : ApiCall F → Prop
  | .createMap => True
  | .createAttr k _ _ v => k = .timestamp → ∃ d, v = .dt d
  | .createEvent m _ | .createTrace m | .createLog m | .newEvent m _ | .newTrace m | .newLog m => ∀ r, m = some r → IsA h r .map
  | .setAttributes x m => (∃ o, h.get x = some o ∧ o.cls ≠ .map) ∧ IsA h m .map
  | .store m _ a => IsA h m .map ∧ IsA h a .attr
  | .delete m _ => IsA h m .map
  | .setValue a _ => (∃ k key e v m c, h.get a = some (.attr k key e v m c) ∧ k.isCollection = false) ∧ ∀ x, env.protos x ≠ a
  | .setId e _ => IsA h e .event
  | .addToCollection c a => (∃ k key e v m as, h.get c = some (.attr k key e v m as) ∧ k.isCollection = true) ∧ IsA h a .attr
  | .appendEvent t e => IsA h t .trace ∧ IsA h e .event
  | .appendTrace l t => IsA h l .log ∧ IsA h t .trace
  | .events t es => IsA h t .trace ∧ ∀ e ∈ es, IsA h e .event
  | .traces l ts => IsA h l .log ∧ ∀ t ∈ ts, IsA h t .trace
  | .header l _ _ gt ge _ => IsA h l .log ∧ (∀ a ∈ gt, IsA h a .attr) ∧ ∀ a ∈ ge, IsA h a .attr
  | .cloneMap m => IsA h m .map
  | .cloneAttr a => ∃ k key e v m c, h.get a = some (.attr k key e v m c) ∧ (k = .timestamp → ∃ d, v = .dt d)
  | .cloneEvent e => IsA h e .event
  | .cloneTrace t => IsA h t .trace
  | .cloneLog l => IsA h l .log
  | .ext _ x | .nested _ _ x => ∃ o, h.get x = some o ∧ o.cls ≠ .map
  | .load _ _ text => FlatText text
  | .loadMxml text => FlatMxml text

/-- Whether the call loads a file. -/
def ApiCall.isLoad : ApiCall F → Bool
  | .load .. | .loadMxml _ => true
  | _ => false

/-- The class of the object that the call returns, if it returns one. -/
def ApiCall.makes : ApiCall F → Option ObjCls
  | .createMap | .cloneMap _ => some .map
  | .createAttr .. | .cloneAttr _ => some .attr
  | .createEvent .. | .newEvent .. | .cloneEvent _ => some .event
  | .createTrace _ | .newTrace _ | .cloneTrace _ => some .trace
  | .createLog _ | .newLog _ | .cloneLog _ | .load .. => some .log
  | _ => none

section
variable [PyFloat F]

/-- The states that programs reach from a state. -/
inductive Reaches (env : ApiEnv) (h : Heap F) : Heap F → Prop where
  | start : Reaches env h h
  | call {h' : Heap F} {c : ApiCall F} : Reaches env h h' → c.Fits env h' → Reaches env h (c.run env h').2

/-- Which calls raise, and what: deleting a key that is not there, cloning a collection or an ID attribute whose value is not an
identifier, and the calls of extensions whose arguments make them raise on any element. -/
inductive Raises (env : ApiEnv) (h : Heap F) : ApiCall F → PyErr → Prop where
  | delete {m : Ref} {key : Str} {d : List (Str × Ref)} : h.get m = some (.map d) → (∀ a, (key, a) ∉ d) → Raises env h (.delete m key) .keyError
  | collection {a : Ref} {k : Kind} {key : Str} {e : Option Ext} {v : PyVal F} {m : Ref} {c : List Ref} :
    h.get a = some (.attr k key e v m c) → k = .list ∨ k = .container → Raises env h (.cloneAttr a) .attributeError
  | id {a : Ref} {key : Str} {e : Option Ext} {v : PyVal F} {m : Ref} {c : List Ref} :
    h.get a = some (.attr .id key e v m c) → (∀ u, v ≠ .xid u) → Raises env h (.cloneAttr a) .attributeError
  | ext {c : ExtCall F} {x : Ref} {e : PyErr} : c.outcome env.time [] = .error e → Raises env h (.ext c x) e
  | nested {c : PyVal F → ExtCall F} {x : Ref} {before rest : List (List Str × PyVal F)} {path : List Str} {v : PyVal F} {e : PyErr} :
    (∀ p ∈ before, (p.1 = [] ∧ ¬ IsA h x .attr) ∨ (c p.2).outcome env.time [] = .ok ()) → (path ≠ [] ∨ IsA h x .attr) →
    (c v).outcome env.time [] = .error e → Raises env h (.nested c (before ++ (path, v) :: rest) x) e

end

/-! ## Heaps that grow -/

theorem Kin.refl (o : Obj F) : Kin o o := by cases o <;> simp [Kin]

theorem Kin.trans {a b c : Obj F} (h1 : Kin a b) (h2 : Kin b c) : Kin a c := by
  cases a <;> cases b <;> simp only [Kin] at h1 <;> cases c <;> simp only [Kin] at h2 ⊢
  obtain ⟨rfl, rfl, rfl⟩ := h1
  exact h2

theorem Kin.cls {a b : Obj F} (h : Kin a b) : b.cls = a.cls := by
  cases a <;> cases b <;> simp only [Kin, Obj.cls] at h ⊢

/-- Objects keep their classes. -/
def Kept (h h' : Heap F) : Prop := ∀ r o, h.get r = some o → ∃ o', h'.get r = some o' ∧ Kin o o'

theorem Kept.refl (h : Heap F) : Kept h h := fun _ o ho => ⟨o, ho, .refl o⟩

theorem Kept.trans {h h' h'' : Heap F} (a : Kept h h') (b : Kept h' h'') : Kept h h'' := by
  intro r o ho
  obtain ⟨o', h1, h2⟩ := a r o ho
  obtain ⟨o'', h3, h4⟩ := b r o' h1
  exact ⟨o'', h3, h2.trans h4⟩

theorem Kept.isA {h h' : Heap F} (k : Kept h h') {r : Ref} {c : ObjCls} (hi : IsA h r c) : IsA h' r c := by
  obtain ⟨o, h1, h2⟩ := hi
  obtain ⟨o', h3, h4⟩ := k r o h1
  exact ⟨o', h3, h4.cls.trans h2⟩

theorem ObjGood.mono {h h' : Heap F} (k : Kept h h') {o : Obj F} (hg : ObjGood h o) : ObjGood h' o := by
  cases o with
  | map d => exact ⟨hg.1, fun p hp => k.isA (hg.2 p hp)⟩
  | attr => exact ⟨k.isA hg.1, fun a ha => k.isA (hg.2 a ha)⟩
  | event => exact k.isA hg
  | trace => exact ⟨k.isA hg.1, fun a ha => k.isA (hg.2 a ha)⟩
  | log l => exact ⟨k.isA hg.1, fun a ha => k.isA (hg.2.1 a ha), fun a ha => k.isA (hg.2.2.1 a ha), fun a ha => k.isA (hg.2.2.2 a ha)⟩
  | pyNone => exact hg.elim

/-- The value of an attribute stays. -/
def Vals (h h' : Heap F) : Prop := ∀ r k key e v m c, h.get r = some (.attr k key e v m c) → ∃ m' c', h'.get r = some (.attr k key e v m' c')

/-- What every call but `set_value` leaves behind. -/
structure Fine (h h' : Heap F) : Prop where
  wf : WellFormed h'
  kept : Kept h h'
  vals : Vals h h'

theorem Fine.refl {h : Heap F} (hw : WellFormed h) : Fine h h := ⟨hw, .refl h, fun _ _ _ _ _ m c g => ⟨m, c, g⟩⟩

theorem Fine.trans {h h' h'' : Heap F} (a : Fine h h') (b : Fine h' h'') : Fine h h'' := by
  refine ⟨b.wf, a.kept.trans b.kept, ?_⟩
  intro r k key e v m c g
  obtain ⟨m', c', g'⟩ := a.vals r k key e v m c g
  exact b.vals r k key e v m' c' g'

theorem kept_put {h : Heap F} {r : Ref} {o o' : Obj F} (hr : h.get r = some o) (hk : Kin o o') : Kept h (h.put r o') := by
  intro x ox hx
  by_cases e : x = r
  · subst e
    rw [hr] at hx
    cases hx
    exact ⟨o', get_put_self _ (get_lt hr), hk⟩
  · exact ⟨ox, by rw [get_put_ne _ e]; exact hx, .refl ox⟩

theorem wf_put {h : Heap F} (hw : WellFormed h) {r : Ref} {o o' : Obj F} (hr : h.get r = some o) (hk : Kin o o') (hg : ObjGood h o') :
    WellFormed (h.put r o') := by
  have kp := kept_put hr hk
  intro x ox hx
  by_cases e : x = r
  · subst e
    rw [get_put_self _ (get_lt hr)] at hx
    cases hx
    exact hg.mono kp
  · rw [get_put_ne _ e] at hx
    exact (hw x ox hx).mono kp

/-- Overwriting an object that is not an attribute. -/
theorem Fine.put {h : Heap F} (hw : WellFormed h) {r : Ref} {o o' : Obj F} (hr : h.get r = some o) (hk : Kin o o') (hn : o.cls ≠ .attr)
    (hg : ObjGood h o') : Fine h (h.put r o') := by
  refine ⟨wf_put hw hr hk hg, kept_put hr hk, ?_⟩
  intro x k key e v m c g
  refine ⟨m, c, ?_⟩
  rw [get_put_ne _ (fun q => by subst q; rw [hr] at g; cases g; exact hn rfl)]
  exact g

/-- Overwriting an attribute with one of the same value. -/
theorem Fine.putAttr {h : Heap F} (hw : WellFormed h) {r : Ref} {k : Kind} {key : Str} {e : Option Ext} {v : PyVal F} {m m' : Ref} {c c' : List Ref}
    (hr : h.get r = some (.attr k key e v m c)) (hg : ObjGood h (.attr k key e v m' c')) : Fine h (h.put r (.attr k key e v m' c')) := by
  have hk : Kin (.attr k key e v m c) (.attr k key e v m' c') := ⟨rfl, rfl, rfl⟩
  refine ⟨wf_put hw hr hk hg, kept_put hr hk, ?_⟩
  intro x k1 key1 e1 v1 m1 c1 g
  by_cases ex : x = r
  · subst ex
    rw [hr] at g
    cases g
    exact ⟨m', c', get_put_self _ (get_lt hr)⟩
  · exact ⟨m1, c1, by rw [get_put_ne _ ex]; exact g⟩

theorem kept_grow (h : Heap F) (os : List (Obj F)) (d : Nat) : Kept h ⟨h.objs ++ os, d⟩ :=
  fun r o ho => ⟨o, by rw [get_append_left (get_lt ho)]; exact ho, .refl o⟩

/-- New objects that are good behind it. -/
theorem Fine.grow {h : Heap F} (hw : WellFormed h) (os : List (Obj F)) (d : Nat) (hg : ∀ o ∈ os, ObjGood (⟨h.objs ++ os, d⟩ : Heap F) o) :
    Fine h ⟨h.objs ++ os, d⟩ := by
  refine ⟨?_, kept_grow h os d, fun r k key e v m c g => ⟨m, c, by rw [get_append_left (get_lt g)]; exact g⟩⟩
  intro r o ho
  by_cases hr : r < h.size
  · rw [get_append_left hr] at ho
    exact (hw r o ho).mono (kept_grow h os d)
  · obtain ⟨i, rfl⟩ := Nat.exists_eq_add_of_le (Nat.le_of_not_lt hr)
    rw [get_append_right] at ho
    exact hg o (List.mem_of_getElem? ho)

theorem isA_new {h : Heap F} {os : List (Obj F)} {d : Nat} {i : Nat} {o : Obj F} (ho : os[i]? = some o) :
    IsA (⟨h.objs ++ os, d⟩ : Heap F) (h.size + i) o.cls := ⟨o, by rw [get_append_right]; exact ho, rfl⟩

theorem isA_old {h : Heap F} {os : List (Obj F)} {d : Nat} {r : Ref} {c : ObjCls} (hi : IsA h r c) : IsA (⟨h.objs ++ os, d⟩ : Heap F) r c :=
  (kept_grow h os d).isA hi

theorem Fine.alloc {h : Heap F} (hw : WellFormed h) {o : Obj F} (hg : ObjGood h o) :
    Fine h (h.alloc o).2 ∧ (h.alloc o).1 = h.size ∧ IsA (h.alloc o).2 h.size o.cls := by
  refine ⟨.grow hw [o] h.drawn (fun o' ho => ?_), rfl, isA_new (i := 0) rfl⟩
  simp only [List.mem_singleton] at ho
  subst ho
  exact hg.mono (kept_grow h _ _)

theorem Fine.drawn {h h' : Heap F} (a : Fine h h') (d : Nat) : Fine h { h' with drawn := d } := by
  refine ⟨fun r o ho => (a.wf r o ho).mono (fun r o ho => ⟨o, ho, .refl o⟩), a.kept, a.vals⟩

theorem Kept.size {h h' : Heap F} (k : Kept h h') : h.size ≤ h'.size := by
  rcases Nat.lt_or_ge h'.size h.size with q | q
  · obtain ⟨o, ho⟩ : ∃ o, h.get h'.size = some o := ⟨_, List.getElem?_eq_getElem q⟩
    obtain ⟨o', ho', _⟩ := k _ o ho
    exact absurd (get_lt ho') (Nat.lt_irrefl _)
  · exact q

/-- A new object of a class. -/
def Made (h h' : Heap F) (r : Ref) (c : ObjCls) : Prop := IsA h' r c ∧ h.size ≤ r

theorem Made.before {h h1 h' : Heap F} {r : Ref} {c : ObjCls} (hm : Made h1 h' r c) (k : Kept h h1) : Made h h' r c :=
  ⟨hm.1, Nat.le_trans k.size hm.2⟩

theorem Made.behind {h h1 h' : Heap F} {r : Ref} {c : ObjCls} (hm : Made h h1 r c) (k : Kept h1 h') : Made h h' r c :=
  ⟨k.isA hm.1, hm.2⟩

/-! ## The constructors -/

theorem good_empty (h : Heap F) : ObjGood h (.map []) := ⟨by simp [dkeys], by simp⟩

theorem initMap_fine {h : Heap F} (hw : WellFormed h) {m : Option Ref} (hm : ∀ r, m = some r → IsA h r .map) :
    Fine h (initMap h m).2 ∧ IsA (initMap h m).2 (initMap h m).1 .map := by
  obtain ⟨a1, a2, a3⟩ := Fine.alloc hw (good_empty h)
  unfold initMap
  cases m with
  | none => exact ⟨a1, a3⟩
  | some r =>
    simp only
    split
    · exact ⟨.refl hw, hm r rfl⟩
    · exact ⟨a1, a3⟩

/-- A new object with a map. -/
theorem init_alloc_fine {h : Heap F} (hw : WellFormed h) {m : Option Ref} (hm : ∀ r, m = some r → IsA h r .map) (f : Ref → Obj F)
    (hf : ∀ (h' : Heap F) (r : Ref), IsA h' r .map → ObjGood h' (f r)) :
    Fine h ((initMap h m).2.alloc (f (initMap h m).1)).2 := by
  obtain ⟨a1, a2⟩ := initMap_fine hw hm
  exact a1.trans (Fine.alloc a1.wf (hf _ _ a2)).1

theorem newTrace_fine {h : Heap F} (hw : WellFormed h) {m : Option Ref} (hm : ∀ r, m = some r → IsA h r .map) :
    Fine h (newTrace h m).2 ∧ Made h (newTrace h m).2 (newTrace h m).1 .trace := by
  obtain ⟨a1, a2⟩ := initMap_fine hw hm
  obtain ⟨b1, b2, b3⟩ := Fine.alloc a1.wf (o := .trace (initMap h m).1 []) ⟨a2, by simp⟩
  exact ⟨a1.trans b1, b3, a1.kept.size⟩

theorem newLog_fine {h : Heap F} (hw : WellFormed h) {m : Option Ref} (hm : ∀ r, m = some r → IsA h r .map) :
    Fine h (newLog h m).2 ∧ Made h (newLog h m).2 (newLog h m).1 .log := by
  obtain ⟨a1, a2⟩ := initMap_fine hw hm
  obtain ⟨b1, b2, b3⟩ := Fine.alloc a1.wf (o := .log ⟨(initMap h m).1, [], [], [], [], [], []⟩) ⟨a2, by simp, by simp, by simp⟩
  exact ⟨a1.trans b1, b3, a1.kept.size⟩

theorem newAttr_fine {h : Heap F} (hw : WellFormed h) (k : Kind) (key : Str) (e : Option Ext) (v : PyVal F) :
    Fine h (newAttr h k key e v).2 ∧ Made h (newAttr h k key e v).2 (newAttr h k key e v).1 .attr := by
  obtain ⟨a1, a2⟩ := initMap_fine hw (m := none) (by simp)
  obtain ⟨b1, b2, b3⟩ := Fine.alloc a1.wf (o := .attr k key e v (initMap h none).1 []) ⟨a2, by simp⟩
  exact ⟨a1.trans b1, b3, a1.kept.size⟩

theorem newEvent_fine (rnd : Nat → Uuid) {h : Heap F} (hw : WellFormed h) {m : Option Ref} (hm : ∀ r, m = some r → IsA h r .map) (i : Option Uuid) :
    Fine h (newEvent rnd h m i).2 ∧ Made h (newEvent rnd h m i).2 (newEvent rnd h m i).1 .event := by
  have last : ∀ {h1 : Heap F} (_ : Fine h h1) {m1 : Option Ref} (_ : ∀ r, m1 = some r → IsA h1 r .map) (u : Uuid),
      Fine h ((initMap h1 m1).2.alloc (.event u (initMap h1 m1).1)).2 ∧
        Made h ((initMap h1 m1).2.alloc (.event u (initMap h1 m1).1)).2 ((initMap h1 m1).2.alloc (.event u (initMap h1 m1).1)).1 .event := by
    intro h1 f1 m1 hm1 u
    obtain ⟨a1, a2⟩ := initMap_fine f1.wf hm1
    obtain ⟨b1, b2, b3⟩ := Fine.alloc a1.wf (o := .event u (initMap h1 m1).1) a2
    exact ⟨(f1.trans a1).trans b1, b3, (f1.trans a1).kept.size⟩
  unfold newEvent
  by_cases ht : mapTruthy h m = true
  · simp only [ht, if_true]
    cases i with
    | some u => exact last (.refl hw) hm u
    | none => exact last (h1 := (h.draw rnd).2) ((Fine.refl hw).drawn _) hm _
  · simp only [ht, Bool.false_eq_true, if_false]
    obtain ⟨a1, a2, a3⟩ := Fine.alloc hw (good_empty h)
    cases i with
    | some u => exact last a1 (m1 := some (h.alloc (.map [])).1) (by rintro r ⟨⟩; exact a3) u
    | none => exact last (h1 := ((h.alloc (.map [])).2.draw rnd).2) (a1.drawn _) (m1 := some (h.alloc (.map [])).1) (by rintro r ⟨⟩; exact a3) _

theorem createEvent_fine (rnd : Nat → Uuid) {h : Heap F} (hw : WellFormed h) {m : Option Ref} (hm : ∀ r, m = some r → IsA h r .map) (i : Option Uuid) :
    Fine h (createEvent rnd h m i).2 ∧ Made h (createEvent rnd h m i).2 (createEvent rnd h m i).1 .event := by
  unfold createEvent
  split
  · exact newEvent_fine rnd hw hm i
  · split
    · exact newEvent_fine rnd hw hm none
    · exact newEvent_fine rnd hw (by simp) none

theorem createTrace_fine {h : Heap F} (hw : WellFormed h) {m : Option Ref} (hm : ∀ r, m = some r → IsA h r .map) :
    Fine h (createTrace h m).2 ∧ Made h (createTrace h m).2 (createTrace h m).1 .trace := by
  unfold createTrace
  split
  · exact newTrace_fine hw hm
  · obtain ⟨a1, a2, a3⟩ := Fine.alloc hw (good_empty h)
    obtain ⟨b1, b2⟩ := newTrace_fine a1.wf (m := some (h.alloc (.map [])).1) (by rintro r ⟨⟩; exact a3)
    exact ⟨a1.trans b1, b2.before a1.kept⟩

theorem createLog_fine {h : Heap F} (hw : WellFormed h) {m : Option Ref} (hm : ∀ r, m = some r → IsA h r .map) :
    Fine h (createLog h m).2 ∧ Made h (createLog h m).2 (createLog h m).1 .log := by
  unfold createLog
  split
  · exact newLog_fine hw hm
  · obtain ⟨a1, a2, a3⟩ := Fine.alloc hw (good_empty h)
    obtain ⟨b1, b2⟩ := newLog_fine a1.wf (m := some (h.alloc (.map [])).1) (by rintro r ⟨⟩; exact a3)
    exact ⟨a1.trans b1, b2.before a1.kept⟩

/-! ## The methods -/

/-- Not an attribute map, hence with an attribute map of its own. -/
def Carrier (h : Heap F) (x : Ref) : Prop := ∃ o, h.get x = some o ∧ o.cls ≠ .map

theorem IsA.carrier {h : Heap F} {x : Ref} {c : ObjCls} (hi : IsA h x c) (hc : c ≠ .map) : Carrier h x := by
  obtain ⟨o, h1, h2⟩ := hi
  exact ⟨o, h1, h2 ▸ hc⟩

theorem Carrier.kept {h h' : Heap F} (k : Kept h h') {x : Ref} (hx : Carrier h x) : Carrier h' x := by
  obtain ⟨o, h1, h2⟩ := hx
  exact (k.isA ⟨o, h1, rfl⟩).carrier h2

theorem isA_map {h : Heap F} {r : Ref} (hi : IsA h r .map) : ∃ d, h.get r = some (.map d) := by
  obtain ⟨o, h1, h2⟩ := hi
  cases o <;> simp only [Obj.cls, reduceCtorEq] at h2
  exact ⟨_, h1⟩

theorem isA_attr {h : Heap F} {r : Ref} (hi : IsA h r .attr) : ∃ k key e v m c, h.get r = some (.attr k key e v m c) := by
  obtain ⟨o, h1, h2⟩ := hi
  cases o <;> simp only [Obj.cls, reduceCtorEq] at h2
  exact ⟨_, _, _, _, _, _, h1⟩

theorem isA_event {h : Heap F} {r : Ref} (hi : IsA h r .event) : ∃ u m, h.get r = some (.event u m) := by
  obtain ⟨o, h1, h2⟩ := hi
  cases o <;> simp only [Obj.cls, reduceCtorEq] at h2
  exact ⟨_, _, h1⟩

theorem isA_trace {h : Heap F} {r : Ref} (hi : IsA h r .trace) : ∃ m es, h.get r = some (.trace m es) := by
  obtain ⟨o, h1, h2⟩ := hi
  cases o <;> simp only [Obj.cls, reduceCtorEq] at h2
  exact ⟨_, _, h1⟩

theorem isA_log {h : Heap F} {r : Ref} (hi : IsA h r .log) : ∃ o, h.get r = some (.log o) := by
  obtain ⟨o, h1, h2⟩ := hi
  cases o <;> simp only [Obj.cls, reduceCtorEq] at h2
  exact ⟨_, h1⟩

theorem mapOf_fine {h : Heap F} (hw : WellFormed h) {x : Ref} (hx : Carrier h x) : ∃ m, mapOf h x = .ok m ∧ IsA h m .map := by
  obtain ⟨o, h1, h2⟩ := hx
  have g := hw x o h1
  cases o with
  | map => exact absurd rfl h2
  | attr => exact ⟨_, by simp only [mapOf, h1], g.1⟩
  | event => exact ⟨_, by simp only [mapOf, h1], g⟩
  | trace => exact ⟨_, by simp only [mapOf, h1], g.1⟩
  | log => exact ⟨_, by simp only [mapOf, h1], g.1⟩
  | pyNone => exact g.elim

theorem setMap_fine {h : Heap F} (hw : WellFormed h) {x m : Ref} (hx : Carrier h x) (hm : IsA h m .map) :
    ∃ h', setMap h x m = .ok h' ∧ Fine h h' := by
  obtain ⟨o, h1, h2⟩ := hx
  have g := hw x o h1
  cases o with
  | map => exact absurd rfl h2
  | attr k key e v _ c => exact ⟨h.put x (.attr k key e v m c), by simp only [setMap, h1], .putAttr hw h1 ⟨hm, g.2⟩⟩
  | event i _ => exact ⟨h.put x (.event i m), by simp only [setMap, h1], .put hw h1 trivial (by simp [Obj.cls]) hm⟩
  | trace _ es => exact ⟨h.put x (.trace m es), by simp only [setMap, h1], .put hw h1 trivial (by simp [Obj.cls]) ⟨hm, g.2⟩⟩
  | log l => exact ⟨h.put x (.log { l with map := m }), by simp only [setMap, h1], .put hw h1 trivial (by simp [Obj.cls]) ⟨hm, g.2⟩⟩
  | pyNone => exact g.elim

theorem snd_dset {k : Str} {v : Ref} {d : List (Str × Ref)} {p : Str × Ref} (hp : p ∈ dset k v d) : p.2 = v ∨ p.2 ∈ d.map Prod.snd :=
  dset_snd (List.mem_map_of_mem hp)

theorem mapSet_fine {h : Heap F} (hw : WellFormed h) {m a : Ref} (key : Str) (hm : IsA h m .map) (ha : IsA h a .attr) :
    ∃ h', mapSet h m key a = .ok h' ∧ Fine h h' := by
  obtain ⟨d, h1⟩ := isA_map hm
  have g := hw m _ h1
  refine ⟨h.put m (.map (dset key a d)), by simp only [mapSet, h1], .put hw h1 trivial (by simp [Obj.cls]) ⟨nodup_dset g.1, fun p hp => ?_⟩⟩
  rcases snd_dset hp with q | q
  · exact q ▸ ha
  · obtain ⟨p', q1, q2⟩ := List.mem_map.1 q
    exact q2 ▸ g.2 p' q1

theorem ddel_mem {k : Str} {α : Type} {p : Str × α} : ∀ {d : List (Str × α)}, p ∈ ddel k d → p ∈ d
  | [], h => h
  | (k', v) :: d, h => by
    simp only [ddel] at h
    split at h
    · exact List.mem_cons_of_mem _ h
    · rcases List.mem_cons.1 h with q | q
      · exact q ▸ List.mem_cons_self
      · exact List.mem_cons_of_mem _ (ddel_mem q)

theorem ddel_keys_nodup {k : Str} {α : Type} : ∀ {d : List (Str × α)}, (dkeys d).Nodup → (dkeys (ddel k d)).Nodup
  | [], h => h
  | (k', v) :: d, h => by
    simp only [dkeys, List.map_cons, List.nodup_cons] at h
    simp only [ddel]
    split
    · exact h.2
    · simp only [dkeys, List.map_cons, List.nodup_cons]
      refine ⟨fun q => ?_, ddel_keys_nodup h.2⟩
      obtain ⟨p, q1, q2⟩ := List.mem_map.1 q
      exact h.1 (List.mem_map.2 ⟨p, ddel_mem q1, q2⟩)

theorem mapDel_fine {h : Heap F} (hw : WellFormed h) {m : Ref} {key : Str} {d : List (Str × Ref)} (hm : h.get m = some (.map d))
    (hk : key ∈ dkeys d) : ∃ h', mapDel h m key = .ok h' ∧ Fine h h' := by
  have g := hw m _ hm
  exact ⟨h.put m (.map (ddel key d)), by simp only [mapDel, hm, hk, if_true], .put hw hm trivial (by simp [Obj.cls]) ⟨ddel_keys_nodup g.1, fun p hp => g.2 p (ddel_mem hp)⟩⟩

theorem setId_fine {h : Heap F} (hw : WellFormed h) {e : Ref} (u : Uuid) (he : IsA h e .event) : ∃ h', setId h e u = .ok h' ∧ Fine h h' := by
  obtain ⟨i, m, h1⟩ := isA_event he
  exact ⟨h.put e (.event u m), by simp only [setId, h1], .put hw h1 trivial (by simp [Obj.cls]) (show IsA h m .map from hw e (.event i m) h1)⟩

theorem traceAppend_fine {h : Heap F} (hw : WellFormed h) {t e : Ref} (ht : IsA h t .trace) (he : IsA h e .event) :
    ∃ h', traceAppend h t e = .ok h' ∧ Fine h h' := by
  obtain ⟨m, es, h1⟩ := isA_trace ht
  have g := hw t _ h1
  refine ⟨h.put t (.trace m (es ++ [e])), by simp only [traceAppend, h1], .put hw h1 trivial (by simp [Obj.cls]) ⟨g.1, fun x hx => ?_⟩⟩
  rcases List.mem_append.1 hx with q | q
  · exact g.2 x q
  · exact List.mem_singleton.1 q ▸ he

theorem logAppend_fine {h : Heap F} (hw : WellFormed h) {l t : Ref} (hl : IsA h l .log) (ht : IsA h t .trace) :
    ∃ h', logAppend h l t = .ok h' ∧ Fine h h' := by
  obtain ⟨o, h1⟩ := isA_log hl
  have g := hw l _ h1
  refine ⟨h.put l (.log { o with traces := o.traces ++ [t] }), by simp only [logAppend, h1], .put hw h1 trivial (by simp [Obj.cls]) ⟨g.1, g.2.1, g.2.2.1, fun x hx => ?_⟩⟩
  rcases List.mem_append.1 hx with q | q
  · exact g.2.2.2 x q
  · exact List.mem_singleton.1 q ▸ ht

theorem modLog_fine {h : Heap F} (hw : WellFormed h) {l : Ref} (hl : IsA h l .log) {f : LogObj → LogObj}
    (hf : ∀ o, ObjGood h (.log o) → ObjGood h (.log (f o))) : ∃ h', modLog h (some l) f = .ok h' ∧ Fine h h' := by
  obtain ⟨o, h1⟩ := isA_log hl
  exact ⟨h.put l (.log (f o)), by simp only [modLog, h1], .put hw h1 trivial (by simp [Obj.cls]) (hf o (hw l _ h1))⟩

theorem setEvents_fine {h : Heap F} (hw : WellFormed h) {t : Ref} {es : List Ref} (ht : IsA h t .trace) (he : ∀ e ∈ es, IsA h e .event) :
    ∃ h', setEvents h t es = .ok h' ∧ Fine h h' := by
  obtain ⟨m, es', h1⟩ := isA_trace ht
  exact ⟨h.put t (.trace m es), by simp only [setEvents, h1], .put hw h1 trivial (by simp [Obj.cls]) ⟨(hw t _ h1).1, he⟩⟩

theorem addMember_fine {h : Heap F} (hw : WellFormed h) {c a : Ref} {k : Kind} {key : Str} {e : Option Ext} {v : PyVal F} {m : Ref} {as : List Ref}
    (hc : h.get c = some (.attr k key e v m as)) (hk : k.isCollection = true) (ha : IsA h a .attr) : ∃ h', addMember h c a = .ok h' ∧ Fine h h' := by
  have g := hw c _ hc
  refine ⟨h.put c (.attr k key e v m (as ++ [a])), by simp only [addMember, hc, hk, if_true], .putAttr hw hc ⟨g.1, fun x hx => ?_⟩⟩
  rcases List.mem_append.1 hx with q | q
  · exact g.2 x q
  · exact List.mem_singleton.1 q ▸ ha

/-! ## Cloning -/

theorem foldl_dset_good {h : Heap F} : ∀ {d acc : List (Str × Ref)}, (dkeys acc).Nodup → (∀ p ∈ acc, IsA h p.2 .attr) → (∀ p ∈ d, IsA h p.2 .attr) →
    ObjGood h (.map (d.foldl (fun acc p => dset p.1 p.2 acc) acc))
  | [], _, h1, h2, _ => ⟨h1, h2⟩
  | p :: d, acc, h1, h2, h3 => by
    refine foldl_dset_good (d := d) (nodup_dset h1) (fun q hq => ?_) (fun q hq => h3 q (List.mem_cons_of_mem _ hq))
    rcases snd_dset hq with e | e
    · exact e ▸ h3 p List.mem_cons_self
    · obtain ⟨p', q1, q2⟩ := List.mem_map.1 e
      exact q2 ▸ h2 p' q1

theorem cloneMap_fine {h : Heap F} (hw : WellFormed h) {m : Ref} (hm : IsA h m .map) :
    ∃ r h', cloneMap h m = .ok (r, h') ∧ Fine h h' ∧ Made h h' r .map := by
  obtain ⟨d, h1⟩ := isA_map hm
  obtain ⟨a1, a2, a3⟩ := Fine.alloc hw (foldl_dset_good (h := h) (acc := []) (d := d) (by simp [dkeys]) (by simp) (hw m _ h1).2)
  exact ⟨_, _, by simp only [cloneMap, entries, h1]; rfl, a1, a3, Nat.le_refl _⟩

theorem cloneEvent_fine (rnd : Nat → Uuid) {h : Heap F} (hw : WellFormed h) {e : Ref} (he : IsA h e .event) :
    ∃ r h', cloneEvent rnd h e = .ok (r, h') ∧ Fine h h' ∧ Made h h' r .event := by
  obtain ⟨a1, a2⟩ := newEvent_fine rnd hw (m := none) (by simp) none
  obtain ⟨m, b1, b2⟩ := mapOf_fine a1.wf ((a1.kept.isA he).carrier (by simp))
  obtain ⟨m', h2, c1, c2, c3⟩ := cloneMap_fine a1.wf b2
  have d2 := c2.kept.isA a2.1
  obtain ⟨h3, e1, e2⟩ := setMap_fine c2.wf (d2.carrier (by simp)) c3.1
  have e3 : Fine h3 (h3.draw rnd).2 := (Fine.refl e2.wf).drawn _
  have d3 := e3.kept.isA (e2.kept.isA d2)
  obtain ⟨h4, f1, f2⟩ := setId_fine e3.wf (h3.draw rnd).1 d3
  refine ⟨_, h4, ?_, (((a1.trans c2).trans e2).trans e3).trans f2, f2.kept.isA d3, a2.2⟩
  simp only [cloneEvent, b1, c1, e1, f1, bind, Except.bind]

theorem cloneEvents_fine (rnd : Nat → Uuid) : ∀ (es : List Ref) {h : Heap F}, WellFormed h → ∀ {c : Ref}, IsA h c .trace → (∀ e ∈ es, IsA h e .event) →
    ∃ h', cloneEvents rnd h c es = .ok h' ∧ Fine h h'
  | [], h, hw, c, _, _ => ⟨h, rfl, .refl hw⟩
  | e :: es, h, hw, c, hc, he => by
    obtain ⟨r, h1, a1, a2, a3⟩ := cloneEvent_fine rnd hw (he e List.mem_cons_self)
    obtain ⟨h2, b1, b2⟩ := traceAppend_fine a2.wf (a2.kept.isA hc) a3.1
    have k := a2.trans b2
    obtain ⟨h3, c1, c2⟩ := cloneEvents_fine rnd es k.wf (k.kept.isA hc) (fun x hx => k.kept.isA (he x (List.mem_cons_of_mem _ hx)))
    exact ⟨h3, by simp only [cloneEvents, a1, b1, c1, bind, Except.bind], k.trans c2⟩

theorem cloneTrace_fine (rnd : Nat → Uuid) {h : Heap F} (hw : WellFormed h) {t : Ref} (ht : IsA h t .trace) :
    ∃ r h', cloneTrace rnd h t = .ok (r, h') ∧ Fine h h' ∧ Made h h' r .trace := by
  obtain ⟨m, es, g⟩ := isA_trace ht
  have gg := hw t _ g
  obtain ⟨m', h1, a1, a2, a3⟩ := cloneMap_fine hw gg.1
  obtain ⟨b1, b2⟩ := newTrace_fine a2.wf (m := some m') (by rintro r ⟨⟩; exact a3.1)
  have k := a2.trans b1
  obtain ⟨h3, c1, c2⟩ := cloneEvents_fine rnd es k.wf b2.1 (fun x hx => k.kept.isA (gg.2 x hx))
  exact ⟨_, h3, by simp only [cloneTrace, g, a1, c1, bind, Except.bind], k.trans c2, (b2.before a2.kept).behind c2.kept⟩

theorem cloneTraces_fine (rnd : Nat → Uuid) : ∀ (ts : List Ref) {h : Heap F}, WellFormed h → ∀ {c : Ref}, IsA h c .log → (∀ t ∈ ts, IsA h t .trace) →
    ∃ h', cloneTraces rnd h c ts = .ok h' ∧ Fine h h'
  | [], h, hw, c, _, _ => ⟨h, rfl, .refl hw⟩
  | e :: es, h, hw, c, hc, he => by
    obtain ⟨r, h1, a1, a2, a3⟩ := cloneTrace_fine rnd hw (he e List.mem_cons_self)
    obtain ⟨h2, b1, b2⟩ := logAppend_fine a2.wf (a2.kept.isA hc) a3.1
    have k := a2.trans b2
    obtain ⟨h3, c1, c2⟩ := cloneTraces_fine rnd es k.wf (k.kept.isA hc) (fun x hx => k.kept.isA (he x (List.mem_cons_of_mem _ hx)))
    exact ⟨h3, by simp only [cloneTraces, a1, b1, c1, bind, Except.bind], k.trans c2⟩

theorem cloneLog_fine (rnd : Nat → Uuid) {h : Heap F} (hw : WellFormed h) {l : Ref} (hl : IsA h l .log) :
    ∃ r h', cloneLog rnd h l = .ok (r, h') ∧ Fine h h' ∧ Made h h' r .log := by
  obtain ⟨o, g⟩ := isA_log hl
  have gg := hw l _ g
  obtain ⟨m', h1, a1, a2, a3⟩ := cloneMap_fine hw gg.1
  obtain ⟨b1, b2⟩ := newLog_fine a2.wf (m := some m') (by rintro r ⟨⟩; exact a3.1)
  have k := a2.trans b1
  obtain ⟨n, n1⟩ := isA_log b2.1
  have ng := b1.wf _ _ n1
  have p : Fine (newLog h1 (some m')).2 ((newLog h1 (some m')).2.put (newLog h1 (some m')).1 (.log { n with
        extensions := o.extensions
        classifiers := o.classifiers
        globalTrace := o.globalTrace
        globalEvent := o.globalEvent
        features := o.features })) :=
    .put b1.wf n1 trivial (by simp [Obj.cls]) ⟨ng.1, fun a ha => k.kept.isA (gg.2.1 a ha), fun a ha => k.kept.isA (gg.2.2.1 a ha), ng.2.2.2⟩
  have k2 := k.trans p
  obtain ⟨h3, c1, c2⟩ := cloneTraces_fine rnd o.traces p.wf (p.kept.isA b2.1) (fun x hx => k2.kept.isA (gg.2.2.2 x hx))
  exact ⟨_, h3, by simp only [cloneLog, g, a1, n1, c1, bind, Except.bind], k2.trans c2, ((b2.before a2.kept).behind p.kept).behind c2.kept⟩

theorem cloneAttr_fine {h : Heap F} (hw : WellFormed h) {a : Ref} {k : Kind} {key : Str} {e : Option Ext} {v : PyVal F} {m : Ref} {c : List Ref}
    (ha : h.get a = some (.attr k key e v m c)) (hd : k = .timestamp → ∃ d, v = .dt d) :
    (∃ r h', cloneAttr h a = .ok (r, h') ∧ Fine h h' ∧ Made h h' r .attr ∧ k.isCollection = false ∧ (k = .id → ∃ u, v = .xid u)) ∨
      (cloneAttr h a = .error .attributeError ∧ ((k = .list ∨ k = .container) ∨ (k = .id ∧ ∀ u, v ≠ .xid u))) := by
  have new : ∀ (k : Kind) (v : PyVal F), Fine h (newAttr h k key e v).2 ∧ Made h (newAttr h k key e v).2 (newAttr h k key e v).1 .attr :=
    fun k v => newAttr_fine hw k key e v
  cases k with
  | list => exact .inr ⟨by simp only [cloneAttr, ha], .inl (.inl rfl)⟩
  | container => exact .inr ⟨by simp only [cloneAttr, ha], .inl (.inr rfl)⟩
  | timestamp =>
    obtain ⟨d, rfl⟩ := hd rfl
    exact .inl ⟨_, _, by simp only [cloneAttr, ha]; rfl, (new _ _).1, (new _ _).2, rfl, by simp⟩
  | id =>
    cases v with
    | xid u => exact .inl ⟨_, _, by simp only [cloneAttr, ha]; rfl, (new _ _).1, (new _ _).2, rfl, fun _ => ⟨u, rfl⟩⟩
    | _ => exact .inr ⟨by simp only [cloneAttr, ha], .inr ⟨rfl, by simp⟩⟩
  | _ => exact .inl ⟨_, _, by simp only [cloneAttr, ha]; rfl, (new _ _).1, (new _ _).2, rfl, by simp⟩

theorem Fine.protos {h h' : Heap F} (f : Fine h h') {P : Protos} (hP : ProtosOk h P) : ProtosOk h' P := by
  intro x
  obtain ⟨v, m, c, g, r⟩ := hP x
  obtain ⟨m', c', g'⟩ := f.vals _ _ _ _ _ _ _ g
  exact ⟨v, m', c', g', r⟩

/-! ## The extensions -/

section
variable [PyFloat F]

/-- How an action ends does not depend on the map. -/
theorem Act.same (a : Act F) (m m' : AttrMap F) : (match a.tree m with | .ok _ => .ok () | .error e => .error e : Except PyErr Unit) =
    (match a.tree m' with | .ok _ => .ok () | .error e => .error e) := by
  cases a <;> rfl

theorem Act.fine {P : Protos} (a : Act F) {h : Heap F} (hw : WellFormed h) (hP : ProtosOk h P) {x : Ref} (hx : Carrier h x) :
    ∃ h', a.at P h x = ((match a.tree [] with | .ok _ => .ok () | .error e => .error e), h') ∧ Fine h h' := by
  cases a with
  | skip => exact ⟨h, rfl, .refl hw⟩
  | fail e => exact ⟨h, rfl, .refl hw⟩
  | cloneFail y key e =>
    obtain ⟨v0, hc⟩ := cloneAttr_proto hP y
    exact ⟨_, by simp only [Act.at, storeClone, hc, Act.tree], (newAttr_fine hw y.kind y.key (some y.ext) v0).1⟩
  | store y key v =>
    obtain ⟨v0, hc⟩ := cloneAttr_proto hP y
    obtain ⟨f1, f2⟩ := newAttr_fine hw y.kind y.key (some y.ext) v
    have hcol : y.kind.isCollection = false := by cases y <;> rfl
    have hs : setValue (newAttr h y.kind y.key (some y.ext) v0).2 (newAttr h y.kind y.key (some y.ext) v0).1 v =
        .ok (newAttr h y.kind y.key (some y.ext) v).2 := by
      simp only [newAttr_heap]
      have q1 : (⟨h.objs ++ [.map [], .attr y.kind y.key (some y.ext) v0 h.size []], h.drawn⟩ : Heap F).get (h.size + 1) =
          some (.attr y.kind y.key (some y.ext) v0 h.size []) := get_append_right (h := h) 1
      simp only [setValue, q1, hcol, Bool.false_eq_true, if_false]
      simp [Heap.put, Heap.size]
    have he : (newAttr h y.kind y.key (some y.ext) v0).1 = (newAttr h y.kind y.key (some y.ext) v).1 := by simp only [newAttr_heap]
    obtain ⟨m, m1, m2⟩ := mapOf_fine f1.wf (hx.kept f1.kept)
    obtain ⟨h2, s1, s2⟩ := mapSet_fine f1.wf key m2 f2.1
    refine ⟨h2, ?_, f1.trans s2⟩
    simp only [Act.at, storeClone, hc, hs, m1, Act.tree]
    rw [he, s1]
  | drop key =>
    obtain ⟨m, m1, m2⟩ := mapOf_fine hw hx
    obtain ⟨d, hd⟩ := isA_map m2
    by_cases hk : key ∈ dkeys d
    · obtain ⟨h2, s1, s2⟩ := mapDel_fine hw hd hk
      exact ⟨h2, by simp only [Act.at, dropKey, m1, entries, hd, hk, if_true, s1, Act.tree], s2⟩
    · exact ⟨h, by simp only [Act.at, dropKey, m1, entries, hd, hk, if_false, Act.tree], .refl hw⟩

theorem ext_fine {P : Protos} (lt : LocalTime) (c : ExtCall F) {h : Heap F} (hw : WellFormed h) (hP : ProtosOk h P) {x : Ref} (hx : Carrier h x) :
    ∃ h', c.at lt P h x = (c.outcome lt [], h') ∧ Fine h h' := by
  obtain ⟨a, a1, a2⟩ := c.act lt P
  obtain ⟨h', b1, b2⟩ := a.fine hw hP hx
  exact ⟨h', by rw [a1, b1, ExtCall.outcome, a2]; cases a.tree [] <;> rfl, b2⟩

theorem nested_fine {P : Protos} (lt : LocalTime) (c : ExtCall F) : ∀ (ks : List Str) {h : Heap F}, WellFormed h → ProtosOk h P → ∀ {x : Ref},
    Carrier h x → ∃ o h', assignNestedAt (c.at lt P) ks h x = (o, h') ∧ Fine h h' ∧ ((ks ≠ [] ∨ IsA h x .attr) → o = c.outcome lt []) ∧
      ((ks = [] ∧ ¬ IsA h x .attr) → o = .ok ())
  | [], h, hw, hP, x, hx => by
    obtain ⟨h', e1, e2⟩ := ext_fine lt c hw hP hx
    obtain ⟨o, g1, g2⟩ := hx
    cases o with
    | attr => exact ⟨_, h', by simp only [assignNestedAt, g1, e1], e2, fun _ => rfl, fun q => absurd ⟨_, g1, rfl⟩ q.2⟩
    | map => exact absurd rfl g2
    | _ =>
      refine ⟨_, h, by simp only [assignNestedAt, g1], .refl hw, ?_, fun _ => rfl⟩
      rintro (q | ⟨o, q1, q2⟩)
      · exact absurd rfl q
      · rw [g1] at q1
        cases q1
        cases q2
  | key :: t, h, hw, hP, x, hx => by
    obtain ⟨m, m1, m2⟩ := mapOf_fine hw hx
    obtain ⟨d, hd⟩ := isA_map m2
    cases hg : dget key d with
    | some a =>
      have ha : IsA h a .attr := (hw m _ hd).2 _ (dget_mem hg)
      obtain ⟨o, h', e1, e2, e3, _⟩ := nested_fine lt c t hw hP (ha.carrier (by simp))
      exact ⟨o, h', by simp only [assignNestedAt, m1, entries, hd, hg, e1], e2, fun _ => e3 (.inr ha), fun q => absurd q.1 (by simp)⟩
    | none =>
      obtain ⟨f1, f2⟩ := newAttr_fine hw .literal key none (.str [])
      obtain ⟨h2, s1, s2⟩ := mapSet_fine f1.wf key (f1.kept.isA m2) f2.1
      have f := f1.trans s2
      have ha := s2.kept.isA f2.1
      obtain ⟨o, h', e1, e2, e3, _⟩ := nested_fine lt c t f.wf (f.protos hP) (ha.carrier (by simp))
      exact ⟨o, h', by simp only [assignNestedAt, m1, entries, hd, hg, s1, e1], f.trans e2, fun _ => e3 (.inr ha), fun q => absurd q.1 (by simp)⟩

theorem Kept.attr_iff {h h' : Heap F} (k : Kept h h') {x : Ref} (hx : Carrier h x) : IsA h' x .attr ↔ IsA h x .attr := by
  obtain ⟨o, h1, _⟩ := hx
  obtain ⟨o', h3, h4⟩ := k x o h1
  constructor
  · rintro ⟨p, p1, p2⟩
    rw [h3] at p1
    cases p1
    exact ⟨o, h1, h4.cls.symm.trans p2⟩
  · exact k.isA

/-- The first path whose call raises. -/
def FirstRaise (lt : LocalTime) (c : PyVal F → ExtCall F) (A : Prop) (vals : List (List Str × PyVal F)) (e : PyErr) : Prop :=
  ∃ before path v rest, vals = before ++ (path, v) :: rest ∧ (∀ p ∈ before, (p.1 = [] ∧ ¬ A) ∨ (c p.2).outcome lt [] = .ok ()) ∧ (path ≠ [] ∨ A) ∧
    (c v).outcome lt [] = .error e

theorem nestedValues_fine {P : Protos} (lt : LocalTime) (c : PyVal F → ExtCall F) {A : Prop} : ∀ (vals : List (List Str × PyVal F)) {h : Heap F},
    WellFormed h → ProtosOk h P → ∀ {x : Ref}, Carrier h x → (IsA h x .attr ↔ A) →
    ∃ o h', assignNestedValuesAt (fun v => (c v).at lt P) vals h x = (o, h') ∧ Fine h h' ∧ ∀ e, o = .error e ↔ FirstRaise lt c A vals e
  | [], h, hw, hP, x, hx, hA => by
    refine ⟨_, h, rfl, .refl hw, fun e => ⟨fun q => (by cases q), ?_⟩⟩
    rintro ⟨b, p, v, r, q, _⟩
    simp at q
  | (ks, v) :: vals, h, hw, hP, x, hx, hA => by
    obtain ⟨o, h1, e1, e2, e3, e4⟩ := nested_fine lt (c v) ks hw hP hx
    rw [hA] at e3 e4
    cases o with
    | error e =>
      have act : ks ≠ [] ∨ A := by
        by_cases q : ks ≠ [] ∨ A
        · exact q
        · simp only [not_or, ne_eq, Decidable.not_not] at q
          exact absurd (e4 q) (by simp)
      refine ⟨.error e, h1, by simp only [assignNestedValuesAt, e1], e2, fun e' => ⟨?_, ?_⟩⟩
      · intro q
        cases q
        exact ⟨[], ks, v, vals, rfl, by simp, act, (e3 act).symm⟩
      · rintro ⟨b, p, w, r, q1, q2, q3, q4⟩
        cases b with
        | nil =>
          simp only [List.nil_append, List.cons.injEq, Prod.mk.injEq] at q1
          obtain ⟨⟨rfl, rfl⟩, rfl⟩ := q1
          rw [e3 act, q4]
        | cons y b =>
          simp only [List.cons_append, List.cons.injEq] at q1
          obtain ⟨rfl, rfl⟩ := q1
          rcases q2 _ List.mem_cons_self with q | q
          · exact absurd (e4 q) (by simp)
          · exact absurd ((e3 act).trans q) (by simp)
    | ok u =>
      obtain ⟨o, h2, f1, f2, f3⟩ := nestedValues_fine lt c vals e2.wf (e2.protos hP) (hx.kept e2.kept) ((e2.kept.attr_iff hx).trans hA)
      refine ⟨o, h2, by simp only [assignNestedValuesAt, e1, f1], e2.trans f2, fun e => (f3 e).trans ⟨?_, ?_⟩⟩
      · rintro ⟨b, p, w, r, rfl, q2, q3, q4⟩
        refine ⟨(ks, v) :: b, p, w, r, rfl, fun y hy => ?_, q3, q4⟩
        rcases List.mem_cons.1 hy with rfl | hy
        · by_cases q : ks ≠ [] ∨ A
          · exact .inr (e3 q).symm
          · simp only [not_or, ne_eq, Decidable.not_not] at q
            exact .inl q
        · exact q2 y hy
      · rintro ⟨b, p, w, r, q1, q2, q3, q4⟩
        cases b with
        | nil =>
          simp only [List.nil_append, List.cons.injEq, Prod.mk.injEq] at q1
          obtain ⟨⟨rfl, rfl⟩, rfl⟩ := q1
          exact absurd ((e3 q3).trans q4) (by simp)
        | cons y b =>
          simp only [List.cons_append, List.cons.injEq] at q1
          obtain ⟨rfl, rfl⟩ := q1
          exact ⟨b, p, w, r, rfl, fun y hy => q2 y (List.mem_cons_of_mem _ hy), q3, q4⟩

/-! ## Loading -/

/-- Everything the handler holds is of the right class. -/
structure TypedSt (h : Heap F) (st : XesSt F) : Prop where
  heap : Fine h st.heap
  log : ∀ r, st.log = some r → Made h st.heap r .log
  trace : ∀ r, st.trace = some r → IsA st.heap r .trace
  event : ∀ r, st.event = some r → IsA st.heap r .event
  attrs : ∀ r ∈ st.attrs, IsA st.heap r .attr
  objs : ∀ r ∈ st.objs, Carrier st.heap r
  globals : ∀ r b, st.globals = some (r, b) → IsA st.heap r .log

theorem TypedSt.grown {h : Heap F} {st : XesSt F} (s : TypedSt h st) {h2 : Heap F} (f : Fine st.heap h2) : TypedSt h { st with heap := h2 } where
  heap := s.heap.trans f
  log r hr := (s.log r hr).behind f.kept
  trace r hr := f.kept.isA (s.trace r hr)
  event r hr := f.kept.isA (s.event r hr)
  attrs r hr := f.kept.isA (s.attrs r hr)
  objs r hr := (s.objs r hr).kept f.kept
  globals r b hr := f.kept.isA (s.globals r b hr)

theorem modLog_typed {h h2 : Heap F} (hw : WellFormed h) {l : Option Ref} (hl : ∀ r, l = some r → IsA h r .log) {f : LogObj → LogObj}
    (hf : ∀ o, ObjGood h (.log o) → ObjGood h (.log (f o))) (hm : modLog h l f = .ok h2) : Fine h h2 := by
  cases l with
  | none => cases hm
  | some r =>
    obtain ⟨h', a1, a2⟩ := modLog_fine hw (hl r rfl) hf
    rw [a1] at hm
    cases hm
    exact a2

theorem addToColl_fine {h : Heap F} (hw : WellFormed h) {as : List Ref} {i : Ref} (hi : IsA h i .attr) : Fine h (addToColl h as i) := by
  unfold addToColl
  split
  · exact .refl hw
  · next t _ =>
    split
    · next ho =>
      have g := hw t _ ho
      split
      · refine .putAttr hw ho ⟨g.1, fun x hx => ?_⟩
        rcases List.mem_append.1 hx with q | q
        · exact g.2 x q
        · exact List.mem_singleton.1 q ▸ hi
      · exact .refl hw
    · exact .refl hw

theorem step_typed {h : Heap F} {rnd : Nat → Uuid} {mgr : ExtMgr} {st st' : XesSt F} (s : TypedSt h st) {e : Sax}
    (hev : ∀ t, e = .stop t → lower t = py!"event" → st.event ≠ none) (htr : ∀ t, e = .stop t → lower t = py!"trace" → st.trace ≠ none)
    (hr : xesStep (stdFactory F rnd) mgr st e = .ok st') : TypedSt h st' := by
  have hw := s.heap.wf
  have logs : ∀ r, st.log = some r → IsA st.heap r .log := fun r hr => (s.log r hr).1
  cases e with
  | start t as =>
    simp only [xesStep] at hr
    by_cases ht : lower t ∈ attrTags
    · rw [xesStart_attr _ mgr st ht] at hr
      obtain ⟨o, _, hr⟩ := bind_ok.1 hr
      cases o with
      | none =>
        cases hr
        exact s
      | some kv =>
        simp only [stdFactory, Except.ok.injEq] at hr
        subst hr
        obtain ⟨f1, n1⟩ := newAttr_fine hw kv.1 (elemKey as) (extOfKey mgr (elemKey as)) kv.2
        have s2 := s.grown f1
        exact { s2 with
          attrs := fun r hr => by
            rcases List.mem_cons.1 hr with h' | h'
            · exact h' ▸ n1.1
            · exact s2.attrs r h'
          objs := fun r hr => by
            rcases List.mem_cons.1 hr with h' | h'
            · exact h' ▸ n1.1.carrier (by simp)
            · exact s2.objs r h' }
    · simp only [xesStart, ht, not_false_eq_true, if_true] at hr
      split at hr
      · simp only [stdFactory, Except.ok.injEq] at hr
        subst hr
        obtain ⟨f1, n1⟩ := createEvent_fine rnd hw (m := none) (by simp) none
        have s2 := s.grown f1
        exact { s2 with
          event := fun r hr => by cases hr; exact n1.1
          objs := fun r hr => by
            rcases List.mem_cons.1 hr with h' | h'
            · exact h' ▸ n1.1.carrier (by simp)
            · exact s2.objs r h' }
      split at hr
      · simp only [stdFactory, Except.ok.injEq] at hr
        subst hr
        obtain ⟨f1, n1⟩ := createTrace_fine hw (m := none) (by simp)
        have s2 := s.grown f1
        exact { s2 with
          trace := fun r hr => by cases hr; exact n1.1
          objs := fun r hr => by
            rcases List.mem_cons.1 hr with h' | h'
            · exact h' ▸ n1.1.carrier (by simp)
            · exact s2.objs r h' }
      split at hr
      · simp only [stdFactory] at hr
        obtain ⟨h3, hm, hr⟩ := bind_ok.1 hr
        simp only [Except.ok.injEq] at hr
        subst hr
        obtain ⟨f1, n1⟩ := createLog_fine hw (m := none) (by simp)
        have f2 := modLog_typed f1.wf (by intro r hr; cases hr; exact n1.1) (by intro o ho; exact ho) hm
        have s3 := s.grown (f1.trans f2)
        have n2 := (n1.before s.heap.kept).behind f2.kept
        exact { s3 with
          log := fun r hr => by cases hr; exact n2
          objs := fun r hr => by
            rcases List.mem_cons.1 hr with h' | h'
            · exact h' ▸ n2.1.carrier (by simp)
            · exact s3.objs r h' }
      split at hr
      · split at hr
        all_goals
          obtain ⟨o, _, hr⟩ := bind_ok.1 hr
          split at hr
          · obtain ⟨h3, hm, hr⟩ := bind_ok.1 hr
            cases hr
            exact s.grown (modLog_typed hw logs (by intro o ho; exact ho) hm)
          · cases hr
            exact s
          · cases hr
      split at hr
      · split at hr
        · cases hr
        · split at hr
          · split at hr
            · cases hr
            · next l hl =>
              cases hr
              exact { s with globals := fun r b hg => by cases hg; exact logs _ hl }
          · split at hr
            · split at hr
              · cases hr
              · next l hl =>
                cases hr
                exact { s with globals := fun r b hg => by cases hg; exact logs _ hl }
            · cases hr
              exact s
      split at hr
      · split at hr
        · split at hr
          · obtain ⟨h3, hm, hr⟩ := bind_ok.1 hr
            cases hr
            exact s.grown (modLog_typed hw logs (by intro o ho; exact ho) hm)
          · cases hr
            exact s
        · cases hr
          exact s
      · cases hr
        exact s
  | stop t =>
    simp only [xesStep, xesStop] at hr
    split at hr
    · cases hr
      exact { s with globals := fun r b hg => by cases hg }
    by_cases ht : lower t ∈ attrTags
    case neg =>
      simp only [ht, not_false_eq_true, if_true] at hr
      split at hr
      · split at hr
        · next t e ht he =>
          obtain ⟨h3, hm, hr⟩ := bind_ok.1 hr
          obtain ⟨h4, a1, a2⟩ := traceAppend_fine hw (s.trace _ ht) (s.event _ he)
          rw [a1] at hm
          cases hm
          have s3 := s.grown a2
          split at hr
          · cases hr
          · next x objs ho =>
            cases hr
            exact { s3 with
              event := fun r hr => by cases hr
              objs := fun r hr => s3.objs r (by simp only [ho]; exact List.mem_cons_of_mem _ hr) }
        · cases hr
        · next he => exact absurd he (hev _ rfl ‹_›)
      split at hr
      · split at hr
        · next l t hl ht =>
          obtain ⟨h3, hm, hr⟩ := bind_ok.1 hr
          obtain ⟨h4, a1, a2⟩ := logAppend_fine hw (logs _ hl) (s.trace _ ht)
          rw [a1] at hm
          cases hm
          have s3 := s.grown a2
          split at hr
          · cases hr
          · next x objs ho =>
            cases hr
            exact { s3 with
              trace := fun r hr => by cases hr
              objs := fun r hr => s3.objs r (by simp only [ho]; exact List.mem_cons_of_mem _ hr) }
        · cases hr
        · next he => exact absurd he (htr _ rfl ‹_›)
      split at hr
      · split at hr
        · cases hr
        · next x objs ho =>
          cases hr
          exact { s with objs := fun r hr => s.objs r (by simp only [ho]; exact List.mem_cons_of_mem _ hr) }
      · cases hr
        exact s
    case pos =>
      simp only [ht, not_true, if_false] at hr
      split at hr
      · cases hr
      · next i attrs ha =>
        have hi : IsA st.heap i .attr := s.attrs i (by simp [ha])
        split at hr
        · cases hr
        · next x objs ho =>
          split at hr
          · next l ev hg =>
            obtain ⟨h3, hm, hr⟩ := bind_ok.1 hr
            cases hr
            have f := modLog_typed hw (fun r hr => by cases hr; exact s.globals _ _ hg) (by
              intro o ho
              split
              · refine ⟨ho.1, ho.2.1, fun a ha => ?_, ho.2.2.2⟩
                rcases List.mem_append.1 ha with q | q
                · exact ho.2.2.1 a q
                · exact List.mem_singleton.1 q ▸ hi
              · refine ⟨ho.1, fun a ha => ?_, ho.2.2⟩
                rcases List.mem_append.1 ha with q | q
                · exact ho.2.1 a q
                · exact List.mem_singleton.1 q ▸ hi) hm
            have s3 := s.grown f
            exact { s3 with
              attrs := fun r hr => s3.attrs r (by simp [ha, hr])
              objs := fun r hr => s3.objs r (by simp [ho, hr]) }
          · split at hr
            · cases hr
            · next p rest =>
              obtain ⟨m, hm, hr⟩ := bind_ok.1 hr
              obtain ⟨k, _, hr⟩ := bind_ok.1 hr
              obtain ⟨h3, hs, hr⟩ := bind_ok.1 hr
              cases hr
              obtain ⟨m', m1, m2⟩ := mapOf_fine hw (s.objs p (by simp [ho]))
              rw [m1] at hm
              cases hm
              obtain ⟨h4, a1, a2⟩ := mapSet_fine hw k m2 hi
              rw [a1] at hs
              cases hs
              have s4 := s.grown (a2.trans (addToColl_fine a2.wf (as := attrs) (a2.kept.isA hi)))
              exact { s4 with
                attrs := fun r hr => s4.attrs r (by simp [ha, hr])
                objs := fun r hr => s4.objs r (by simp only [ho]; exact List.mem_cons_of_mem _ hr) }

/-- Which event and trace are open behind a step. -/
theorem step_open {rnd : Nat → Uuid} {mgr : ExtMgr} {st st' : XesSt F} {e : Sax} (hr : xesStep (stdFactory F rnd) mgr st e = .ok st') :
    (match e with
      | .start t _ => (lower t = py!"event" → st'.event ≠ none) ∧ (lower t ≠ py!"event" → st'.event = st.event) ∧
          (lower t = py!"trace" → st'.trace ≠ none) ∧ (lower t ≠ py!"trace" → st'.trace = st.trace)
      | .stop t => (lower t ≠ py!"event" → st'.event = st.event) ∧ (lower t ≠ py!"trace" → st'.trace = st.trace)) := by
  cases e with
  | start t as =>
    simp only [xesStep, xesStart] at hr ⊢
    by_cases he : lower t = py!"event"
    · rw [he] at hr ⊢
      rw [if_pos (by decide), if_pos rfl] at hr
      cases hr
      exact ⟨fun _ => by simp, fun q => absurd rfl q, fun q => absurd q (by decide), fun _ => rfl⟩
    by_cases ht : lower t = py!"trace"
    · rw [ht] at hr ⊢
      rw [if_pos (by decide), if_neg (by decide), if_pos rfl] at hr
      cases hr
      exact ⟨fun q => absurd q (by decide), fun _ => rfl, fun _ => by simp, fun q => absurd rfl q⟩
    suffices h : st'.event = st.event ∧ st'.trace = st.trace from ⟨fun q => absurd q he, fun _ => h.1, fun q => absurd q ht, fun _ => h.2⟩
    rw [if_neg he, if_neg ht] at hr
    by_cases hA : lower t ∈ attrTags
    · rw [if_neg (by simpa using hA)] at hr
      obtain ⟨x, _, hr⟩ := bind_ok.1 hr
      cases x <;> (cases hr; exact ⟨rfl, rfl⟩)
    · rw [if_pos hA] at hr
      repeat' (first | (cases hr; done) | (cases hr; exact ⟨rfl, rfl⟩) | (obtain ⟨_, _, hr⟩ := bind_ok.1 hr) | (split at hr))
  | stop t =>
    simp only [xesStep, xesStop] at hr ⊢
    suffices h : (lower t ≠ py!"event" → st'.event = st.event) ∧ (lower t ≠ py!"trace" → st'.trace = st.trace) from h
    repeat' (first | (cases hr; done) | (cases hr; exact ⟨fun _ => rfl, fun _ => rfl⟩) | (cases hr; exact ⟨fun q => absurd ‹_› q, fun _ => rfl⟩) |
      (cases hr; exact ⟨fun _ => rfl, fun q => absurd ‹_› q⟩) | (obtain ⟨_, _, hr⟩ := bind_ok.1 hr) | (split at hr))

theorem run_typed {h : Heap F} {rnd : Nat → Uuid} {mgr : ExtMgr} : ∀ {evs : List Sax} {st st' : XesSt F} {a b : Bool}, TypedSt h st →
    Alternates py!"event" a evs → Alternates py!"trace" b evs → (a = true → st.event ≠ none) → (b = true → st.trace ≠ none) →
    xesRun (stdFactory F rnd) mgr st evs = .ok st' → TypedSt h st' := by
  intro evs
  induction evs with
  | nil =>
    intro st st' a b s _ _ _ _ hr
    cases hr
    exact s
  | cons e es ih =>
    intro st st' a b s ha hb hia hib hr
    obtain ⟨s1, h1, h2⟩ := bind_ok.1 hr
    have ho := step_open h1
    cases e with
    | start t as =>
      have s1' := step_typed s (by simp) (by simp) h1
      simp only [Alternates] at ha hb
      obtain ⟨o1, o2, o3, o4⟩ := ho
      by_cases he : lower t = py!"event"
      · rw [if_pos he] at ha
        have ht : lower t ≠ py!"trace" := by rw [he]; decide
        rw [if_neg ht] at hb
        exact ih s1' ha.2 hb (fun _ => o1 he) (fun q => by rw [o4 ht]; exact hib q) h2
      · rw [if_neg he] at ha
        by_cases ht : lower t = py!"trace"
        · rw [if_pos ht] at hb
          exact ih s1' ha hb.2 (fun q => by rw [o2 he]; exact hia q) (fun _ => o3 ht) h2
        · rw [if_neg ht] at hb
          exact ih s1' ha hb (fun q => by rw [o2 he]; exact hia q) (fun q => by rw [o4 ht]; exact hib q) h2
    | stop t =>
      simp only [Alternates] at ha hb
      obtain ⟨o2, o4⟩ := ho
      by_cases he : lower t = py!"event"
      · rw [if_pos he] at ha
        have ht : lower t ≠ py!"trace" := by rw [he]; decide
        rw [if_neg ht] at hb
        have s1' := step_typed s (fun t' q _ => hia ha.1) (fun t' q q' => by cases q; exact absurd q' ht) h1
        exact ih s1' ha.2 hb (fun q => by cases q) (fun q => by rw [o4 ht]; exact hib q) h2
      · rw [if_neg he] at ha
        by_cases ht : lower t = py!"trace"
        · rw [if_pos ht] at hb
          have s1' := step_typed s (fun t' q q' => by cases q; exact absurd q' he) (fun t' q _ => hib hb.1) h1
          exact ih s1' ha hb.2 (fun q => by rw [o2 he]; exact hia q) (fun q => by cases q) h2
        · rw [if_neg ht] at hb
          have s1' := step_typed s (fun t' q q' => by cases q; exact absurd q' he) (fun t' q q' => by cases q; exact absurd q' ht) h1
          exact ih s1' ha hb (fun q => by rw [o2 he]; exact hia q) (fun q => by rw [o4 ht]; exact hib q) h2

theorem load_fine {given : Option (Factory F)} {rnd : Nat → Uuid} {mgr : ExtMgr} {h h' : Heap F} (hw : WellFormed h) {text : Str} (hft : FlatText text) {l : Option Ref}
    (hl : loadXes given (stdFactory F rnd) mgr h text = .ok (l, h')) : Fine h h' ∧ ∀ r, l = some r → Made h h' r .log := by
  obtain ⟨es, hre, hl⟩ := bind_ok.1 hl
  obtain ⟨st, h1, h2⟩ := bind_ok.1 hl
  have s0 : TypedSt h (.init h) := ⟨.refl hw, fun r hr => (by cases hr), fun r hr => (by cases hr), fun r hr => (by cases hr),
    fun r hr => (by cases hr), fun r hr => (by cases hr), fun r b hr => (by cases hr)⟩
  have s := run_typed s0 (hft es hre).1 (hft es hre).2 (fun q => by cases q) (fun q => by cases q) h1
  simp only [Except.ok.injEq, Prod.mk.injEq] at h2
  obtain ⟨rfl, rfl⟩ := h2
  exact ⟨s.heap, s.log⟩

/-! ## Loading MXML files -/

/-- A step of a call that has begun at `h`: attributes made since then may get other values. -/
structure StepOf (h h1 h2 : Heap F) : Prop where
  fine : Fine h h2
  kept : Kept h1 h2

theorem StepOf.refl {h h1 : Heap F} (f : Fine h h1) : StepOf h h1 h1 := ⟨f, .refl h1⟩

theorem StepOf.trans {h h1 h2 h3 : Heap F} (a : StepOf h h1 h2) (b : StepOf h h2 h3) : StepOf h h1 h3 := ⟨b.fine, a.kept.trans b.kept⟩

theorem StepOf.of {h h1 h2 : Heap F} (f : Fine h h1) (g : Fine h1 h2) : StepOf h h1 h2 := ⟨f.trans g, g.kept⟩

theorem setValue_step {h h1 h2 : Heap F} (f : Fine h h1) {a : Ref} (ha : h.size ≤ a) {v : PyVal F} (hr : setValue h1 a v = .ok h2) : StepOf h h1 h2 := by
  unfold setValue at hr
  split at hr
  · rename_i k key e v0 m c g
    split at hr
    · cases hr
    · cases hr
      have hkin : Kin (.attr k key e v0 m c) (.attr k key e v m c) := ⟨rfl, rfl, rfl⟩
      have kp := kept_put (h := h1) g hkin
      refine ⟨⟨wf_put f.wf g hkin (show ObjGood h1 (.attr k key e v m c) from (f.wf a (.attr k key e v0 m c) g : _ ∧ _)), f.kept.trans kp, ?_⟩, kp⟩
      intro r k' key' e' v' m' c' q
      obtain ⟨m2, c2, q2⟩ := f.vals r k' key' e' v' m' c' q
      refine ⟨m2, c2, ?_⟩
      rw [get_put_ne _ (fun w => by subst w; exact absurd (get_lt q) (Nat.not_lt.2 ha))]
      exact q2
  · cases hr

theorem cloneProto_step {P : Protos} {h h1 h2 : Heap F} (f : Fine h h1) (hP : ProtosOk h P) {x : ExtAttr} {a : Ref}
    (hr : cloneAttr h1 (P x) = .ok (a, h2)) : StepOf h h1 h2 ∧ Made h h2 a .attr := by
  obtain ⟨v, m, c, g, g1, g2⟩ := f.protos hP x
  rcases cloneAttr_fine f.wf g g2 with ⟨r, h', a1, a2, a3, _⟩ | ⟨a1, _⟩
  · rw [hr] at a1
    cases a1
    exact ⟨.of f a2, a3.before f.kept⟩
  · rw [hr] at a1
    cases a1

theorem newAttr_step {h h1 : Heap F} (f : Fine h h1) (k : Kind) (key : Str) (e : Option Ext) (v : PyVal F) :
    StepOf h h1 (newAttr h1 k key e v).2 ∧ Made h (newAttr h1 k key e v).2 (newAttr h1 k key e v).1 .attr := by
  obtain ⟨a, b⟩ := newAttr_fine f.wf k key e v
  exact ⟨.of f a, b.before f.kept⟩

theorem keepAttr_step {h h1 h2 : Heap F} (f : Fine h h1) {x : Option Ref} (hx : ∀ r, x = some r → Carrier h1 r) {a : Ref} (ha : IsA h1 a .attr)
    (hr : keepAttr h1 x a = .ok h2) : StepOf h h1 h2 := by
  unfold keepAttr at hr
  split at hr
  · cases hr
  · rename_i x
    obtain ⟨m, hm, hr⟩ := bind_ok.1 hr
    obtain ⟨k, _, hr⟩ := bind_ok.1 hr
    obtain ⟨m', m1, m2⟩ := mapOf_fine f.wf (hx x rfl)
    rw [m1] at hm
    cases hm
    obtain ⟨h3, a1, a2⟩ := mapSet_fine f.wf k m2 ha
    rw [a1] at hr
    cases hr
    exact .of f a2

theorem mobRef_step {P : Protos} {h h1 h2 : Heap F} (f : Fine h h1) (hP : ProtosOk h P) {as : List (Str × Str)} {x : Option Ref}
    (hx : ∀ r, x = some r → Carrier h1 r) (hr : mobRef P as h1 x = .ok h2) : StepOf h h1 h2 := by
  unfold mobRef at hr
  split at hr
  · cases hr
    exact .refl f
  · obtain ⟨⟨a, h3⟩, g1, hr⟩ := bind_ok.1 hr
    obtain ⟨h4, g2, hr⟩ := bind_ok.1 hr
    obtain ⟨s1, n1⟩ := cloneProto_step f hP g1
    have s2 := setValue_step s1.fine n1.2 g2
    have s12 := s1.trans s2
    exact s12.trans (keepAttr_step s2.fine (fun r q => (hx r q).kept s12.kept) (s2.kept.isA n1.1) hr)

theorem mobExt_step {P : Protos} (c : ExtCall F) {h h1 h2 : Heap F} (f : Fine h h1) (hP : ProtosOk h P) {x : Ref} (hx : Carrier h1 x) (lt : LocalTime)
    (hr : mobExt (c.at lt P h1 x) = .ok h2) : StepOf h h1 h2 := by
  obtain ⟨h', e1, e2⟩ := ext_fine lt c f.wf (f.protos hP) hx
  rw [e1] at hr
  unfold mobExt at hr
  split at hr
  · rename_i q
    cases hr
    cases congrArg Prod.snd q
    exact .of f e2
  · cases hr

theorem mobDescription_step {keep : Str → Bool} {as : List (Str × Str)} {h h1 h2 : Heap F} (f : Fine h h1) {x : Ref} (hx : Carrier h1 x)
    (hr : mobDescription keep as h1 x = .ok h2) : StepOf h h1 h2 := by
  unfold mobDescription at hr
  split at hr
  · cases hr
    exact .refl f
  · split at hr
    · obtain ⟨s1, n1⟩ := newAttr_step f .literal py!"description" none _
      exact s1.trans (keepAttr_step s1.fine (fun r q => by cases q; exact hx.kept s1.kept) n1.1 hr)
    · cases hr
      exact .refl f

/-- Naming and model calls do not ask for the time. -/
def anyTime : LocalTime := ⟨fun _ => .error .other, fun _ => .error .other⟩

/-- Everything the handler holds is new and of the right class. -/
structure TypedMob (h : Heap F) (st : MobSt F) : Prop where
  heap : Fine h st.heap
  logs : ∀ r ∈ st.logs, Made h st.heap r .log
  process : ∀ r, st.process = some r → Made h st.heap r .log
  inst : ∀ r, st.inst = some r → Made h st.heap r .trace
  entry : ∀ r, st.entry = some r → Made h st.heap r .event
  source : ∀ r, st.source = some r → Made h st.heap r .attr
  generic : ∀ r, st.generic = some r → Made h st.heap r .attr
  eventType : ∀ r, st.eventType = some r → Made h st.heap r .attr
  originator : ∀ r, st.originator = some r → Made h st.heap r .attr

theorem TypedMob.grown {h : Heap F} {st : MobSt F} (s : TypedMob h st) {h2 : Heap F} (f : StepOf h st.heap h2) : TypedMob h { st with heap := h2 } where
  heap := f.fine
  logs r hr := (s.logs r hr).behind f.kept
  process r hr := (s.process r hr).behind f.kept
  inst r hr := (s.inst r hr).behind f.kept
  entry r hr := (s.entry r hr).behind f.kept
  source r hr := (s.source r hr).behind f.kept
  generic r hr := (s.generic r hr).behind f.kept
  eventType r hr := (s.eventType r hr).behind f.kept
  originator r hr := (s.originator r hr).behind f.kept

theorem TypedMob.entryHas {h : Heap F} {st : MobSt F} (s : TypedMob h st) {h2 : Heap F} (k : Kept st.heap h2) :
    ∀ r, st.entry = some r → Carrier h2 r := fun r q => ((s.entry r q).1.carrier (by simp)).kept k

theorem mobStart_typed {P : Protos} {rnd : Nat → Uuid} {h : Heap F} (hP : ProtosOk h P) {st st' : MobSt F} (s : TypedMob h st) {t : Str}
    {as : List (Str × Str)} (hr : mobStart rnd P st t as = .ok st') : TypedMob h st' := by
  have f := s.heap
  unfold mobStart at hr
  split at hr
  · cases hr; exact s
  split at hr
  · obtain ⟨h1, g1, hr⟩ := bind_ok.1 hr
    cases hr
    obtain ⟨s1, n1⟩ := newAttr_step f .literal py!"source" none _
    have s2 := mobRef_step s1.fine hP (fun r q => by cases q; exact n1.1.carrier (by simp)) g1
    have s3 := s.grown (s1.trans s2)
    exact { s3 with source := fun r q => by cases q; exact n1.behind s2.kept }
  split at hr
  · unfold mobStartProcess at hr
    have fn := createLog_fine f.wf (m := none) (by simp)
    generalize createLog st.heap none = lh at hr fn
    obtain ⟨l, h0⟩ := lh
    obtain ⟨f1, n1⟩ := fn
    have s1 : StepOf h st.heap h0 := .of f f1
    have n1 := n1.before f.kept
    obtain ⟨h1, g1, hr⟩ := bind_ok.1 hr
    have m1 : Fine h0 h1 := modLog_typed s1.fine.wf (by intro r hr; cases hr; exact n1.1) (by intro o ho; exact ho) g1
    have s2 := s1.trans (.of s1.fine m1)
    have n2 := n1.behind m1.kept
    simp only at hr
    have hr : ∃ h2, StepOf h h1 h2 ∧ (do
        let h ← mobExt (assignNameAt P (dget py!"id" as) h2 l)
        let h ← mobExt (assignModelAt P (some py!"standard") h l)
        let h ← mobDescription (fun d => decide (0 < List.length (pyLower d))) as h l
        let h ← mobRef P as h (some l)
        Except.ok { st with heap := h, process := some l }) = .ok st' := by
      split at hr
      · rename_i sr hsr
        obtain ⟨h2, g2, hr⟩ := bind_ok.1 hr
        exact ⟨h2, keepAttr_step s2.fine (fun r q => by cases q; exact n2.1.carrier (by simp)) (s2.kept.isA (s.source _ hsr).1) g2, hr⟩
      · exact ⟨h1, .refl s2.fine, hr⟩
    obtain ⟨h2, s3, hr⟩ := hr
    have n3 := n2.behind s3.kept
    obtain ⟨h3, g3, hr⟩ := bind_ok.1 hr
    have s4 := mobExt_step (.name (dget py!"id" as)) s3.fine hP (n3.1.carrier (by simp)) anyTime g3
    have n4 := n3.behind s4.kept
    obtain ⟨h4, g4, hr⟩ := bind_ok.1 hr
    have s5 := mobExt_step (.model (some py!"standard")) s4.fine hP (n4.1.carrier (by simp)) anyTime g4
    have n5 := n4.behind s5.kept
    obtain ⟨h5, g5, hr⟩ := bind_ok.1 hr
    have s6 := mobDescription_step s5.fine (n5.1.carrier (by simp)) g5
    have n6 := n5.behind s6.kept
    obtain ⟨h6, g6, hr⟩ := bind_ok.1 hr
    cases hr
    have s7 := mobRef_step s6.fine hP (fun r q => by cases q; exact n6.1.carrier (by simp)) g6
    have n7 := n6.behind s7.kept
    have s8 := s.grown (s2.trans (s3.trans (s4.trans (s5.trans (s6.trans s7)))))
    exact { s8 with process := fun r q => by cases q; exact n7 }
  split at hr
  · unfold mobStartInstance at hr
    have fn := createTrace_fine f.wf (m := none) (by simp)
    generalize createTrace st.heap none = lh at hr fn
    obtain ⟨l, h0⟩ := lh
    obtain ⟨f1, n1⟩ := fn
    have s1 : StepOf h st.heap h0 := .of f f1
    have n1 := n1.before f.kept
    obtain ⟨h3, g3, hr⟩ := bind_ok.1 hr
    have s4 := mobExt_step (.name (some ((dget py!"id" as).getD py!"None"))) s1.fine hP (n1.1.carrier (by simp)) anyTime g3
    have n4 := n1.behind s4.kept
    obtain ⟨h5, g5, hr⟩ := bind_ok.1 hr
    have s6 := mobDescription_step s4.fine (n4.1.carrier (by simp)) g5
    have n6 := n4.behind s6.kept
    obtain ⟨h6, g6, hr⟩ := bind_ok.1 hr
    cases hr
    have s7 := mobRef_step s6.fine hP (fun r q => by cases q; exact n6.1.carrier (by simp)) g6
    have n7 := n6.behind s7.kept
    have s8 := s.grown (s1.trans (s4.trans (s6.trans s7)))
    exact { s8 with inst := fun r q => by cases q; exact n7 }
  split at hr
  · cases hr
    obtain ⟨f1, n1⟩ := createEvent_fine rnd f.wf (m := none) (by simp) none
    have s2 := s.grown (.of f f1)
    exact { s2 with entry := fun r q => by cases q; exact n1.before f.kept }
  split at hr
  · unfold mobStartAttribute at hr
    split at hr
    · cases hr
    · obtain ⟨h1, g1, hr⟩ := bind_ok.1 hr
      cases hr
      obtain ⟨s1, n1⟩ := newAttr_step f .literal (strip ‹Str›) none _
      have s2 := mobRef_step s1.fine hP (fun r q => by cases q; exact n1.1.carrier (by simp)) g1
      have s3 := s.grown (s1.trans s2)
      exact { s3 with generic := fun r q => by cases q; exact n1.behind s2.kept }
  split at hr
  · obtain ⟨⟨a, h1⟩, g1, hr⟩ := bind_ok.1 hr
    obtain ⟨h2, g2, hr⟩ := bind_ok.1 hr
    obtain ⟨h3, g3, hr⟩ := bind_ok.1 hr
    cases hr
    obtain ⟨s1, n1⟩ := cloneProto_step f hP g1
    have s2 := setValue_step s1.fine n1.2 g2
    have n2 := n1.behind s2.kept
    have s3 := mobRef_step s2.fine hP (fun r q => by cases q; exact n2.1.carrier (by simp)) g3
    have s4 := s.grown (s1.trans (s2.trans s3))
    exact { s4 with eventType := fun r q => by cases q; exact n2.behind s3.kept }
  split at hr
  · obtain ⟨h1, g1, hr⟩ := bind_ok.1 hr
    cases hr
    exact s.grown (mobRef_step f hP (s.entryHas (.refl _)) g1)
  split at hr
  · obtain ⟨⟨a, h1⟩, g1, hr⟩ := bind_ok.1 hr
    obtain ⟨h3, g3, hr⟩ := bind_ok.1 hr
    cases hr
    obtain ⟨s1, n1⟩ := cloneProto_step f hP g1
    have s3 := mobRef_step s1.fine hP (fun r q => by cases q; exact n1.1.carrier (by simp)) g3
    have s4 := s.grown (s1.trans s3)
    exact { s4 with originator := fun r q => by cases q; exact n1.behind s3.kept }
  · cases hr; exact s

theorem addGlobal_step {P : Protos} {h h1 h2 h3 : Heap F} (f : Fine h h1) (hP : ProtosOk h P) {x : ExtAttr} {a : Ref} {l : Option Ref}
    (hl : ∀ r, l = some r → IsA h1 r .log) (hc : cloneAttr h1 (P x) = .ok (a, h2)) {g : LogObj → LogObj}
    (hg : ∀ o, ObjGood h2 (.log o) → IsA h2 a .attr → ObjGood h2 (.log (g o))) (hm : modLog h2 l g = .ok h3) : StepOf h h1 h3 := by
  obtain ⟨s1, n1⟩ := cloneProto_step f hP hc
  exact s1.trans (.of s1.fine (modLog_typed s1.fine.wf (fun r q => s1.kept.isA (hl r q)) (fun o ho => hg o ho n1.1) hm))

theorem mobAppend_typed {h : Heap F} {st st' : MobSt F} (s : TypedMob h st) (he : st.entry ≠ none) (hr : mobAppend st = .ok st') :
    TypedMob h st' := by
  unfold mobAppend at hr
  split at hr
  · cases hr
  · rename_i t ht
    cases hq : st.entry with
    | none => exact absurd hq he
    | some e =>
      simp only [hq] at hr
      obtain ⟨h1, g1, hr⟩ := bind_ok.1 hr
      cases hr
      obtain ⟨h2, a1, a2⟩ := traceAppend_fine s.heap.wf (s.inst _ ht).1 (s.entry _ hq).1
      rw [g1] at a1
      cases a1
      have := s.grown (.of s.heap a2)
      rw [hq] at this
      exact this

theorem TypedMob.without {h : Heap F} {st : MobSt F} (s : TypedMob h st) (b : List Str) (so : Bool) (t l : Option DateTime) :
    TypedMob h { st with buffer := b, sourceOpen := so, timestamp := t, lastTimestamp := l } :=
  ⟨s.heap, s.logs, s.process, s.inst, s.entry, s.source, s.generic, s.eventType, s.originator⟩

theorem mobStop_typed {P : Protos} {h : Heap F} (hP : ProtosOk h P) {st st' : MobSt F} (s : TypedMob h st) {t : Str}
    (he : t = py!"AuditTrailEntry" → st.entry ≠ none) (hr : mobStopBody P st t = .ok st') : TypedMob h st' := by
  have f := s.heap
  unfold mobStopBody at hr
  split at hr
  · cases hr; exact s
  split at hr
  · unfold mobStopProcess at hr
    obtain ⟨h1, g1, hr⟩ := bind_ok.1 hr
    obtain ⟨⟨a2, h2⟩, g2, hr⟩ := bind_ok.1 hr
    obtain ⟨h3, g3, hr⟩ := bind_ok.1 hr
    obtain ⟨⟨a4, h4⟩, g4, hr⟩ := bind_ok.1 hr
    obtain ⟨h5, g5, hr⟩ := bind_ok.1 hr
    obtain ⟨⟨a6, h6⟩, g6, hr⟩ := bind_ok.1 hr
    obtain ⟨h7, g7, hr⟩ := bind_ok.1 hr
    cases hr
    have l0 : ∀ r, st.process = some r → IsA st.heap r .log := fun r q => (s.process r q).1
    have s1 : StepOf h st.heap h1 := .of f (modLog_typed f.wf l0 (by intro o ho; exact ho) g1)
    have ev : ∀ {h2 : Heap F} {a : Ref} (o : LogObj), ObjGood h2 (.log o) → IsA h2 a .attr → ObjGood h2 (.log { o with globalEvent := o.globalEvent ++ [a] }) := by
      intro h2 a o ho ha
      refine ⟨ho.1, ho.2.1, fun x hx => ?_, ho.2.2.2⟩
      rcases List.mem_append.1 hx with q | q
      · exact ho.2.2.1 x q
      · exact List.mem_singleton.1 q ▸ ha
    have s2 := addGlobal_step s1.fine hP (fun r q => s1.kept.isA (l0 r q)) g2 (by
      intro o ho ha
      refine ⟨ho.1, fun x hx => ?_, ho.2.2⟩
      rcases List.mem_append.1 hx with q | q
      · exact ho.2.1 x q
      · exact List.mem_singleton.1 q ▸ ha) g3
    have k2 := s1.trans s2
    have s3 := addGlobal_step s2.fine hP (fun r q => k2.kept.isA (l0 r q)) g4 ev g5
    have k3 := k2.trans s3
    have s4 := addGlobal_step s3.fine hP (fun r q => k3.kept.isA (l0 r q)) g6 ev g7
    have s5 := s.grown (k3.trans s4)
    exact { s5 with
      logs := fun r q => by
        rcases List.mem_append.1 q with q | q
        · exact s5.logs r q
        · exact s5.process r (by simpa using q)
      process := fun r q => by cases q }
  split at hr
  · unfold mobStopInstance at hr
    obtain ⟨n, g1, hr⟩ := bind_ok.1 hr
    split at hr
    · split at hr
      · rename_i p t hp ht
        obtain ⟨h2, g2, hr⟩ := bind_ok.1 hr
        cases hr
        obtain ⟨h3, a1, a2⟩ := logAppend_fine f.wf (s.process _ hp).1 (s.inst _ ht).1
        rw [g2] at a1
        cases a1
        have s2 := (s.grown (.of f a2)).without st.buffer st.sourceOpen st.timestamp none
        exact { s2 with inst := fun r q => by cases q }
      · cases hr
    · cases hr
      have s2 := s.without st.buffer st.sourceOpen st.timestamp none
      exact { s2 with inst := fun r q => by cases q }
  split at hr
  · have he := he ‹_›
    unfold mobStopEntry at hr
    obtain ⟨s1, g1, hr⟩ := bind_ok.1 hr
    cases hr
    suffices h : TypedMob h s1 from { h with entry := fun r q => by cases q }
    split at g1
    · exact mobAppend_typed s he g1
    split at g1
    · obtain ⟨s2, g2, g1⟩ := bind_ok.1 g1
      cases g1
      exact (mobAppend_typed s he g2).without s2.buffer s2.sourceOpen s2.timestamp _
    · obtain ⟨gt, _, g1⟩ := bind_ok.1 g1
      obtain ⟨s2, g2, g1⟩ := bind_ok.1 g1
      have := mobAppend_typed s he g2
      split at g1 <;> cases g1
      · exact this.without s2.buffer s2.sourceOpen s2.timestamp _
      · exact this
  split at hr
  · unfold mobStopAttribute at hr
    split at hr
    · split at hr
      · cases hr
      · rename_i a ha
        obtain ⟨h1, g1, hr⟩ := bind_ok.1 hr
        obtain ⟨h2, g2, hr⟩ := bind_ok.1 hr
        cases hr
        have s1 := setValue_step f (s.generic _ ha).2 g1
        have ka := s1.kept.isA (s.generic _ ha).1
        have s2 : StepOf h h1 h2 := by
          unfold mobRoute at g2
          split at g2
          · exact keepAttr_step s1.fine (s.entryHas s1.kept) ka g2
          split at g2
          · exact keepAttr_step s1.fine (fun r q => ((s.inst r q).1.carrier (by simp)).kept s1.kept) ka g2
          split at g2
          · exact keepAttr_step s1.fine (fun r q => ((s.process r q).1.carrier (by simp)).kept s1.kept) ka g2
          split at g2
          · exact keepAttr_step s1.fine (fun r q => ((s.source r q).1.carrier (by simp)).kept s1.kept) ka g2
          · cases g2
            exact .refl s1.fine
        have s3 := s.grown (s1.trans s2)
        exact { s3 with generic := fun r q => by cases q }
    · cases hr
      exact { s with generic := fun r q => by cases q }
  split at hr
  · unfold mobStopEventType at hr
    split at hr
    · cases hr
    · rename_i a ha
      obtain ⟨v, _, hr⟩ := bind_ok.1 hr
      obtain ⟨h1, g1, hr⟩ := bind_ok.1 hr
      cases hr
      have na := s.eventType _ ha
      suffices h' : StepOf h st.heap h1 from
        let s3 := s.grown h'
        { s3 with eventType := fun r q => by cases q }
      split at g1
      · split at g1
        · obtain ⟨h2, g2, g3⟩ := bind_ok.1 g1
          have s1 := setValue_step f na.2 g2
          exact s1.trans (keepAttr_step s1.fine (s.entryHas s1.kept) (s1.kept.isA na.1) g3)
        · cases g1
          exact .refl f
      · exact keepAttr_step f (s.entryHas (.refl _)) na.1 g1
  split at hr
  · unfold mobStopElementName at hr
    split at hr
    · split at hr
      · cases hr
      · rename_i e hq
        obtain ⟨h1, g1, hr⟩ := bind_ok.1 hr
        cases hr
        exact s.grown (mobExt_step (.name (some (mobText st))) f hP ((s.entry _ hq).1.carrier (by simp)) anyTime g1)
    · cases hr; exact s
  split at hr
  · unfold mobStopTimestamp at hr
    obtain ⟨v, _, hr⟩ := bind_ok.1 hr
    split at hr
    · cases hr
      exact s.without st.buffer st.sourceOpen none st.lastTimestamp
    · obtain ⟨⟨a, h1⟩, g1, hr⟩ := bind_ok.1 hr
      obtain ⟨h2, g2, hr⟩ := bind_ok.1 hr
      obtain ⟨h3, g3, hr⟩ := bind_ok.1 hr
      cases hr
      obtain ⟨s1, n1⟩ := cloneProto_step f hP g1
      have s2 := s1.trans (setValue_step s1.fine n1.2 g2)
      have s3 := s2.trans (keepAttr_step s2.fine (s.entryHas s2.kept) ((setValue_step s1.fine n1.2 g2).kept.isA n1.1) g3)
      exact (s.grown s3).without st.buffer st.sourceOpen _ st.lastTimestamp
  split at hr
  · unfold mobStopOriginator at hr
    split at hr
    · cases hr
    · rename_i a ha
      obtain ⟨h1, g1, hr⟩ := bind_ok.1 hr
      obtain ⟨h2, g2, hr⟩ := bind_ok.1 hr
      cases hr
      have na := s.originator _ ha
      have s1 : StepOf h st.heap h1 := by
        split at g1
        · exact setValue_step f na.2 g1
        · cases g1
          exact .refl f
      have s3 := s.grown (s1.trans (keepAttr_step s1.fine (s.entryHas s1.kept) (s1.kept.isA na.1) g2))
      exact { s3 with originator := fun r q => by cases q }
  · cases hr; exact s

/-- An entry is open behind its start tag, and other tags leave it open. -/
theorem mobStart_entry {P : Protos} {rnd : Nat → Uuid} {st st' : MobSt F} {t : Str} {as : List (Str × Str)}
    (hr : mobStart rnd P st t as = .ok st') : (t = py!"AuditTrailEntry" → st'.entry ≠ none) ∧ (t ≠ py!"AuditTrailEntry" → st'.entry = st.entry) := by
  by_cases ht : t = py!"AuditTrailEntry"
  · subst ht
    cases hr
    exact ⟨fun _ => by simp [mobStartEntry], fun q => absurd rfl q⟩
  · refine ⟨fun q => absurd q ht, fun _ => ?_⟩
    unfold mobStart at hr
    rw [if_neg ht] at hr
    split at hr
    · cases hr; rfl
    split at hr
    · obtain ⟨_, _, hr⟩ := bind_ok.1 hr
      cases hr; rfl
    split at hr
    · unfold mobStartProcess at hr
      obtain ⟨_, _, hr⟩ := bind_ok.1 hr
      simp only at hr
      split at hr
      · obtain ⟨_, _, hr⟩ := bind_ok.1 hr
        obtain ⟨_, _, hr⟩ := bind_ok.1 hr
        obtain ⟨_, _, hr⟩ := bind_ok.1 hr
        obtain ⟨_, _, hr⟩ := bind_ok.1 hr
        obtain ⟨_, _, hr⟩ := bind_ok.1 hr
        cases hr; rfl
      · obtain ⟨_, _, hr⟩ := bind_ok.1 hr
        obtain ⟨_, _, hr⟩ := bind_ok.1 hr
        obtain ⟨_, _, hr⟩ := bind_ok.1 hr
        obtain ⟨_, _, hr⟩ := bind_ok.1 hr
        obtain ⟨_, _, hr⟩ := bind_ok.1 hr
        cases hr; rfl
    split at hr
    · unfold mobStartInstance at hr
      obtain ⟨_, _, hr⟩ := bind_ok.1 hr
      obtain ⟨_, _, hr⟩ := bind_ok.1 hr
      obtain ⟨_, _, hr⟩ := bind_ok.1 hr
      cases hr; rfl
    split at hr
    · unfold mobStartAttribute at hr
      split at hr
      · cases hr
      · obtain ⟨_, _, hr⟩ := bind_ok.1 hr
        cases hr; rfl
    split at hr
    · obtain ⟨_, _, hr⟩ := bind_ok.1 hr
      obtain ⟨_, _, hr⟩ := bind_ok.1 hr
      obtain ⟨_, _, hr⟩ := bind_ok.1 hr
      cases hr; rfl
    split at hr
    · obtain ⟨_, _, hr⟩ := bind_ok.1 hr
      cases hr; rfl
    split at hr
    · obtain ⟨_, _, hr⟩ := bind_ok.1 hr
      obtain ⟨_, _, hr⟩ := bind_ok.1 hr
      cases hr; rfl
    · cases hr; rfl

theorem mobStop_entry {P : Protos} {st st' : MobSt F} {t : Str} (ht : t ≠ py!"AuditTrailEntry") (hr : mobStopBody P st t = .ok st') :
    st'.entry = st.entry := by
  unfold mobStopBody at hr
  rw [if_neg ht] at hr
  split at hr
  · cases hr; rfl
  split at hr
  · unfold mobStopProcess at hr
    obtain ⟨_, _, hr⟩ := bind_ok.1 hr
    obtain ⟨_, _, hr⟩ := bind_ok.1 hr
    obtain ⟨_, _, hr⟩ := bind_ok.1 hr
    obtain ⟨_, _, hr⟩ := bind_ok.1 hr
    obtain ⟨_, _, hr⟩ := bind_ok.1 hr
    obtain ⟨_, _, hr⟩ := bind_ok.1 hr
    obtain ⟨_, _, hr⟩ := bind_ok.1 hr
    cases hr; rfl
  split at hr
  · unfold mobStopInstance at hr
    obtain ⟨_, _, hr⟩ := bind_ok.1 hr
    split at hr
    · split at hr
      · obtain ⟨_, _, hr⟩ := bind_ok.1 hr
        cases hr; rfl
      · cases hr
    · cases hr; rfl
  split at hr
  · unfold mobStopAttribute at hr
    split at hr
    · split at hr
      · cases hr
      · obtain ⟨_, _, hr⟩ := bind_ok.1 hr
        obtain ⟨_, _, hr⟩ := bind_ok.1 hr
        cases hr; rfl
    · cases hr; rfl
  split at hr
  · unfold mobStopEventType at hr
    split at hr
    · cases hr
    · obtain ⟨_, _, hr⟩ := bind_ok.1 hr
      obtain ⟨_, _, hr⟩ := bind_ok.1 hr
      cases hr; rfl
  split at hr
  · unfold mobStopElementName at hr
    split at hr
    · split at hr
      · cases hr
      · obtain ⟨_, _, hr⟩ := bind_ok.1 hr
        cases hr; rfl
    · cases hr; rfl
  split at hr
  · unfold mobStopTimestamp at hr
    obtain ⟨_, _, hr⟩ := bind_ok.1 hr
    split at hr
    · cases hr; rfl
    · obtain ⟨_, _, hr⟩ := bind_ok.1 hr
      obtain ⟨_, _, hr⟩ := bind_ok.1 hr
      obtain ⟨_, _, hr⟩ := bind_ok.1 hr
      cases hr; rfl
  split at hr
  · unfold mobStopOriginator at hr
    split at hr
    · cases hr
    · obtain ⟨_, _, hr⟩ := bind_ok.1 hr
      obtain ⟨_, _, hr⟩ := bind_ok.1 hr
      cases hr; rfl
  · cases hr; rfl

theorem mobRun_typed {P : Protos} {rnd : Nat → Uuid} {h : Heap F} (hP : ProtosOk h P) : ∀ {evs : List MSax} {st st' : MobSt F} {o : Bool},
    TypedMob h st → OneAtATime py!"AuditTrailEntry" o evs → (o = true → st.entry ≠ none) → mobRun rnd P st evs = .ok st' → TypedMob h st'
  | [], _, _, _, s, _, _, hr => by
    cases hr
    exact s
  | .chars c :: evs, st, st', o, s, ho, hi, hr => by
    obtain ⟨s1, h1, h2⟩ := bind_ok.1 hr
    cases h1
    exact mobRun_typed (evs := evs) hP (s.without (st.buffer ++ [c]) st.sourceOpen st.timestamp st.lastTimestamp) ho hi h2
  | .start t as :: evs, st, st', o, s, ho, hi, hr => by
    obtain ⟨s1, h1, h2⟩ := bind_ok.1 hr
    obtain ⟨e1, e2⟩ := mobStart_entry h1
    have k := mobStart_typed hP s h1
    simp only [OneAtATime] at ho
    split at ho
    · exact mobRun_typed hP k ho.2 (fun _ => e1 ‹_›) h2
    · exact mobRun_typed hP k ho (fun q => by rw [e2 ‹_›]; exact hi q) h2
  | .stop t :: evs, st, st', o, s, ho, hi, hr => by
    obtain ⟨s1, h1, h2⟩ := bind_ok.1 hr
    obtain ⟨s2, h3, h4⟩ := bind_ok.1 h1
    cases h4
    simp only [OneAtATime] at ho
    split at ho
    · have k := mobStop_typed hP s (fun _ => hi ho.1) h3
      exact mobRun_typed hP (k.without [] s2.sourceOpen s2.timestamp s2.lastTimestamp) ho.2 (fun q => by cases q) h2
    · have k := mobStop_typed hP s (fun q => absurd q ‹_›) h3
      exact mobRun_typed hP (k.without [] s2.sourceOpen s2.timestamp s2.lastTimestamp) ho (fun q => by
        show s2.entry ≠ none
        rw [mobStop_entry ‹_› h3]
        exact hi q) h2

theorem loadMob_fine {P : Protos} {rnd : Nat → Uuid} {h h' : Heap F} (hw : WellFormed h) (hP : ProtosOk h P) {text : Str} (hft : FlatMxml text)
    {ls : List Ref} (hl : loadMob rnd P h text = .ok (ls, h')) : Fine h h' ∧ ∀ r ∈ ls, Made h h' r .log := by
  obtain ⟨es, hre, hl⟩ := bind_ok.1 hl
  obtain ⟨st, h1, h2⟩ := bind_ok.1 hl
  have s0 : TypedMob h (.init h) := ⟨.refl hw, fun r q => (by cases q), fun r q => (by cases q), fun r q => (by cases q), fun r q => (by cases q),
    fun r q => (by cases q), fun r q => (by cases q), fun r q => (by cases q), fun r q => (by cases q)⟩
  have s := mobRun_typed hP s0 (hft es hre) (fun q => by cases q) h1
  simp only [Except.ok.injEq, Prod.mk.injEq] at h2
  obtain ⟨rfl, rfl⟩ := h2
  exact ⟨s.heap, s.logs⟩

/-! ## Calls -/

/-- Everything that is claimed of a call. -/
structure GoodCall (env : ApiEnv) (h : Heap F) (c : ApiCall F) : Prop where
  wf : WellFormed (c.run env h).2
  kept : Kept h (c.run env h).2
  protos : ProtosOk (c.run env h).2 env.protos
  raises : c.isLoad = false → ∀ e, (c.run env h).1 = .error e ↔ Raises env h c e
  result : ∀ o, (c.run env h).1 = .ok o → (∀ r, o = some r → ∃ k, c.makes = some k ∧ Made h (c.run env h).2 r k) ∧
    (c.isLoad = false → (o = none ↔ c.makes = none))

theorem GoodCall.made {env : ApiEnv} {h h' : Heap F} (hP : ProtosOk h env.protos) {c : ApiCall F} {r : Ref} {k : ObjCls}
    (hr : c.run env h = (.ok (some r), h')) (hf : Fine h h') (hm : Made h h' r k) (hk : c.makes = some k) (hn : ∀ e, ¬ Raises env h c e) :
    GoodCall env h c where
  wf := hr ▸ hf.wf
  kept := hr ▸ hf.kept
  protos := hr ▸ hf.protos hP
  raises _ e := by rw [hr]; exact ⟨fun q => (by cases q), fun q => absurd q (hn e)⟩
  result o ho := by
    rw [hr] at ho ⊢
    cases ho
    exact ⟨fun x hx => by cases hx; exact ⟨k, hk, hm⟩, fun _ => by simp [hk]⟩

theorem GoodCall.done {env : ApiEnv} {h h' : Heap F} (hP : ProtosOk h env.protos) {c : ApiCall F}
    (hr : c.run env h = (.ok none, h')) (hf : Fine h h') (hk : c.makes = none) (hn : ∀ e, ¬ Raises env h c e) : GoodCall env h c where
  wf := hr ▸ hf.wf
  kept := hr ▸ hf.kept
  protos := hr ▸ hf.protos hP
  raises _ e := by rw [hr]; exact ⟨fun q => (by cases q), fun q => absurd q (hn e)⟩
  result o ho := by
    rw [hr] at ho ⊢
    cases ho
    exact ⟨fun x hx => (by cases hx), fun _ => by simp [hk]⟩

theorem GoodCall.failed {env : ApiEnv} {h h' : Heap F} (hP : ProtosOk h env.protos) {c : ApiCall F} {e : PyErr}
    (hr : c.run env h = (.error e, h')) (hf : Fine h h') (hn : ∀ e', Raises env h c e' ↔ e' = e) : GoodCall env h c where
  wf := hr ▸ hf.wf
  kept := hr ▸ hf.kept
  protos := hr ▸ hf.protos hP
  raises _ e' := by
    rw [hr, hn]
    simp only [Except.error.injEq]
    exact eq_comm
  result o ho := by
    rw [hr] at ho
    cases ho

theorem call_good {env : ApiEnv} {h : Heap F} (hw : WellFormed h) (hP : ProtosOk h env.protos) (c : ApiCall F) (hf : c.Fits env h) :
    GoodCall env h c := by
  cases c with
  | createMap =>
    obtain ⟨a1, a2, a3⟩ := Fine.alloc hw (good_empty h)
    exact .made hP rfl a1 ⟨a3, Nat.le_refl _⟩ rfl (fun e q => by cases q)
  | createAttr k key e v =>
    obtain ⟨a1, a2⟩ := newAttr_fine hw k key e v
    exact .made hP rfl a1 a2 rfl (fun e q => by cases q)
  | createEvent m i =>
    obtain ⟨a1, a2⟩ := createEvent_fine env.rnd hw hf i
    exact .made hP rfl a1 a2 rfl (fun e q => by cases q)
  | createTrace m =>
    obtain ⟨a1, a2⟩ := createTrace_fine hw hf
    exact .made hP rfl a1 a2 rfl (fun e q => by cases q)
  | createLog m =>
    obtain ⟨a1, a2⟩ := createLog_fine hw hf
    exact .made hP rfl a1 a2 rfl (fun e q => by cases q)
  | newEvent m i =>
    obtain ⟨a1, a2⟩ := newEvent_fine env.rnd hw hf i
    exact .made hP rfl a1 a2 rfl (fun e q => by cases q)
  | newTrace m =>
    obtain ⟨a1, a2⟩ := newTrace_fine hw hf
    exact .made hP rfl a1 a2 rfl (fun e q => by cases q)
  | newLog m =>
    obtain ⟨a1, a2⟩ := newLog_fine hw hf
    exact .made hP rfl a1 a2 rfl (fun e q => by cases q)
  | setAttributes x m =>
    obtain ⟨h', a1, a2⟩ := setMap_fine hw hf.1 hf.2
    exact .done hP (by simp only [ApiCall.run, a1, does]) a2 rfl (fun e q => by cases q)
  | store m key a =>
    obtain ⟨h', a1, a2⟩ := mapSet_fine hw key hf.1 hf.2
    exact .done hP (by simp only [ApiCall.run, a1, does]) a2 rfl (fun e q => by cases q)
  | delete m key =>
    obtain ⟨d, hd⟩ := isA_map hf
    by_cases hk : key ∈ dkeys d
    · obtain ⟨h', a1, a2⟩ := mapDel_fine hw hd hk
      refine .done hP (by simp only [ApiCall.run, a1, does]) a2 rfl (fun e q => ?_)
      cases q with
      | delete q1 q2 =>
        rw [hd] at q1
        cases q1
        obtain ⟨⟨k, a⟩, p1, rfl⟩ := List.mem_map.1 hk
        exact q2 a p1
    · refine .failed hP (e := .keyError) (by simp only [ApiCall.run, mapDel, hd, hk, if_false, does]) (.refl hw) (fun e => ⟨fun q => ?_, ?_⟩)
      · cases q
        rfl
      · rintro rfl
        exact .delete hd (fun a q => hk (List.mem_map.2 ⟨_, q, rfl⟩))
  | setValue a v =>
    obtain ⟨⟨k, key, e, v0, m, c, g, hk⟩, hp⟩ := hf
    have hr : (ApiCall.setValue a v).run env h = (.ok none, h.put a (.attr k key e v m c)) := by
      simp only [ApiCall.run, setValue, g, hk, Bool.false_eq_true, if_false, does]
    have hkin : Kin (.attr k key e v0 m c) (.attr k key e v m c) := ⟨rfl, rfl, rfl⟩
    refine ⟨?_, ?_, ?_, ?_, ?_⟩
    · rw [hr]
      exact wf_put hw g hkin (show ObjGood h (.attr k key e v m c) from (hw a (.attr k key e v0 m c) g : _ ∧ _))
    · rw [hr]
      exact kept_put g hkin
    · rw [hr]
      intro x
      obtain ⟨v, m, c, q, r⟩ := hP x
      exact ⟨v, m, c, by rw [get_put_ne _ (hp x)]; exact q, r⟩
    · intro _ e
      rw [hr]
      exact ⟨fun q => (by cases q), fun q => (by cases q)⟩
    · intro o ho
      rw [hr] at ho
      cases ho
      exact ⟨fun r hr => (by cases hr), fun _ => by simp [ApiCall.makes]⟩
  | setId e u =>
    obtain ⟨h', a1, a2⟩ := setId_fine hw u hf
    exact .done hP (by simp only [ApiCall.run, a1, does]) a2 rfl (fun e q => by cases q)
  | addToCollection c a =>
    obtain ⟨⟨k, key, e, v, m, as, g, hk⟩, ha⟩ := hf
    obtain ⟨h', a1, a2⟩ := addMember_fine hw g hk ha
    exact .done hP (by simp only [ApiCall.run, a1, does]) a2 rfl (fun e q => by cases q)
  | appendEvent t e =>
    obtain ⟨h', a1, a2⟩ := traceAppend_fine hw hf.1 hf.2
    exact .done hP (by simp only [ApiCall.run, a1, does]) a2 rfl (fun e q => by cases q)
  | appendTrace l t =>
    obtain ⟨h', a1, a2⟩ := logAppend_fine hw hf.1 hf.2
    exact .done hP (by simp only [ApiCall.run, a1, does]) a2 rfl (fun e q => by cases q)
  | events t es =>
    obtain ⟨h', a1, a2⟩ := setEvents_fine hw hf.1 hf.2
    exact .done hP (by simp only [ApiCall.run, a1, does]) a2 rfl (fun e q => by cases q)
  | traces l ts =>
    obtain ⟨h', a1, a2⟩ := modLog_fine hw hf.1 (f := fun o => { o with traces := ts }) (fun o ho => ⟨ho.1, ho.2.1, ho.2.2.1, hf.2⟩)
    exact .done hP (by simp only [ApiCall.run, a1, does]) a2 rfl (fun e q => by cases q)
  | header l exts cls gt ge feats =>
    obtain ⟨h', a1, a2⟩ := modLog_fine hw hf.1 (f := fun o =>
      { o with extensions := exts, classifiers := cls, globalTrace := gt, globalEvent := ge, features := feats })
      (fun o ho => ⟨ho.1, hf.2.1, hf.2.2, ho.2.2.2⟩)
    exact .done hP (by simp only [ApiCall.run, a1, does]) a2 rfl (fun e q => by cases q)
  | cloneMap m =>
    obtain ⟨r, h', a1, a2, a3⟩ := cloneMap_fine hw hf
    exact .made hP (by simp only [ApiCall.run, a1, gives]) a2 a3 rfl (fun e q => by cases q)
  | cloneAttr a =>
    obtain ⟨k, key, e, v, m, c, g, hd⟩ := hf
    rcases cloneAttr_fine hw g hd with ⟨r, h', a1, a2, a3, a4, a5⟩ | ⟨a1, a2⟩
    · refine .made hP (by simp only [ApiCall.run, a1, gives]) a2 a3 rfl (fun e q => ?_)
      cases q with
      | collection q1 q2 =>
        rw [g] at q1
        cases q1
        rcases q2 with rfl | rfl <;> cases a4
      | id q1 q2 =>
        rw [g] at q1
        cases q1
        obtain ⟨u, hu⟩ := a5 rfl
        exact q2 u hu
    · refine .failed hP (e := .attributeError) (by simp only [ApiCall.run, a1, gives]) (.refl hw) (fun e => ⟨fun q => (by cases q <;> rfl), ?_⟩)
      rintro rfl
      rcases a2 with q | ⟨rfl, q⟩
      · exact .collection g q
      · exact .id g q
  | cloneEvent e =>
    obtain ⟨r, h', a1, a2, a3⟩ := cloneEvent_fine env.rnd hw hf
    exact .made hP (by simp only [ApiCall.run, a1, gives]) a2 a3 rfl (fun e q => by cases q)
  | cloneTrace t =>
    obtain ⟨r, h', a1, a2, a3⟩ := cloneTrace_fine env.rnd hw hf
    exact .made hP (by simp only [ApiCall.run, a1, gives]) a2 a3 rfl (fun e q => by cases q)
  | cloneLog l =>
    obtain ⟨r, h', a1, a2, a3⟩ := cloneLog_fine env.rnd hw hf
    exact .made hP (by simp only [ApiCall.run, a1, gives]) a2 a3 rfl (fun e q => by cases q)
  | ext c x =>
    obtain ⟨h', a1, a2⟩ := ext_fine env.time c hw hP hf
    cases ho : c.outcome env.time [] with
    | ok u =>
      refine .done hP (by simp only [ApiCall.run, a1, ho, doesExt]) a2 rfl (fun e q => ?_)
      cases q with
      | ext q => rw [ho] at q; cases q
    | error e =>
      refine .failed hP (e := e) (by simp only [ApiCall.run, a1, ho, doesExt]) a2 (fun e' => ⟨fun q => ?_, ?_⟩)
      · cases q with
        | ext q => rw [ho] at q; cases q; rfl
      · rintro rfl
        exact .ext ho
  | nested c vals x =>
    obtain ⟨o, h', a1, a2, a3⟩ := nestedValues_fine env.time c vals hw hP hf (A := IsA h x .attr) Iff.rfl
    have hR : ∀ e, Raises env h (.nested c vals x) e ↔ FirstRaise env.time c (IsA h x .attr) vals e := by
      intro e
      constructor
      · intro q
        cases q with
        | nested q1 q2 q3 => exact ⟨_, _, _, _, rfl, q1, q2, q3⟩
      · rintro ⟨b, p, v, r, rfl, q1, q2, q3⟩
        exact .nested q1 q2 q3
    cases o with
    | ok u =>
      refine .done hP (by simp only [ApiCall.run, a1, doesExt]) a2 rfl (fun e q => ?_)
      have := (a3 e).2 ((hR e).1 q)
      cases this
    | error e =>
      refine .failed hP (e := e) (by simp only [ApiCall.run, a1, doesExt]) a2 (fun e' => ?_)
      rw [hR, ← a3]
      simp only [Except.error.injEq]
      exact eq_comm
  | load given mgr text =>
    cases hl : loadXes given (stdFactory F env.rnd) mgr h text with
    | error e =>
      have hr : (ApiCall.load given mgr text).run env h = (.error e, h) := by simp only [ApiCall.run, hl]
      refine ⟨hr ▸ hw, hr ▸ .refl h, hr ▸ hP, fun q => (by cases q), fun o ho => ?_⟩
      rw [hr] at ho
      cases ho
    | ok p =>
      obtain ⟨l, h'⟩ := p
      obtain ⟨a1, a2⟩ := load_fine hw hf hl
      have hr : (ApiCall.load given mgr text).run env h = (.ok l, h') := by simp only [ApiCall.run, hl]
      refine ⟨hr ▸ a1.wf, hr ▸ a1.kept, hr ▸ a1.protos hP, fun q => (by cases q), fun o ho => ?_⟩
      rw [hr] at ho ⊢
      cases ho
      exact ⟨fun r hr => ⟨.log, rfl, a2 r hr⟩, fun q => (by cases q)⟩
  | loadMxml text =>
    cases hl : loadMob env.rnd env.protos h text with
    | error e =>
      have hr : (ApiCall.loadMxml text).run env h = (.error e, h) := by simp only [ApiCall.run, hl]
      refine ⟨hr ▸ hw, hr ▸ .refl h, hr ▸ hP, fun q => (by cases q), fun o ho => ?_⟩
      rw [hr] at ho
      cases ho
    | ok p =>
      obtain ⟨ls, h'⟩ := p
      obtain ⟨a1, _⟩ := loadMob_fine hw hP hf hl
      have hr : (ApiCall.loadMxml text).run env h = (.ok none, h') := by simp only [ApiCall.run, hl]
      refine ⟨hr ▸ a1.wf, hr ▸ a1.kept, hr ▸ a1.protos hP, fun q => (by cases q), fun o ho => ?_⟩
      rw [hr] at ho ⊢
      cases ho
      exact ⟨fun r hr => (by cases hr), fun q => (by cases q)⟩

/-! ## C159 -/

/-- C159: in every state that a program reaches all objects are well formed, and no object has changed its class; attributes have kept
their key and extension. -/
theorem c159_reachable {env : ApiEnv} {h h' : Heap F} (hw : WellFormed h) (hP : ProtosOk h env.protos) (hr : Reaches env h h') :
    WellFormed h' ∧ ProtosOk h' env.protos ∧ ∀ r o, h.get r = some o → ∃ o', h'.get r = some o' ∧ Kin o o' := by
  induction hr with
  | start => exact ⟨hw, hP, Kept.refl h⟩
  | call _ hf ih =>
    have g := call_good ih.1 ih.2.1 _ hf
    exact ⟨g.wf, g.protos, Kept.trans ih.2.2 g.kept⟩

/-- C159: in every such state a call that gets the objects it asks for raises exactly in the listed cases, with the listed exception. -/
theorem c159_raises {env : ApiEnv} {h h' : Heap F} (hw : WellFormed h) (hP : ProtosOk h env.protos) (hr : Reaches env h h') {c : ApiCall F}
    (hf : c.Fits env h') (hl : c.isLoad = false) (e : PyErr) : (c.run env h').1 = .error e ↔ Raises env h' c e := by
  obtain ⟨a, b, _⟩ := c159_reachable hw hP hr
  exact (call_good a b c hf).raises hl e

/-- C159: ... and what it returns is a new object of the class that the call is for. -/
theorem c159_returns {env : ApiEnv} {h h' : Heap F} (hw : WellFormed h) (hP : ProtosOk h env.protos) (hr : Reaches env h h') {c : ApiCall F}
    (hf : c.Fits env h') {o : Option Ref} (ho : (c.run env h').1 = .ok o) :
    (∀ r, o = some r → ∃ k, c.makes = some k ∧ IsA (c.run env h').2 r k ∧ h'.get r = none) ∧ (c.isLoad = false → (o = none ↔ c.makes = none)) := by
  obtain ⟨a, b, _⟩ := c159_reachable hw hP hr
  obtain ⟨g1, g2⟩ := (call_good a b c hf).result o ho
  refine ⟨fun r hr => ?_, g2⟩
  obtain ⟨k, k1, k2, k3⟩ := g1 r hr
  exact ⟨k, k1, k2, List.getElem?_eq_none k3⟩

/-- C159: ... and loading an MXML file gives new logs. -/
theorem c159_mxml {env : ApiEnv} {h h' h'' : Heap F} (hw : WellFormed h) (hP : ProtosOk h env.protos) (hr : Reaches env h h') {text : Str}
    (hf : FlatMxml text) {ls : List Ref} (hl : loadMob env.rnd env.protos h' text = .ok (ls, h'')) :
    ∀ r ∈ ls, IsA h'' r .log ∧ h'.get r = none := by
  obtain ⟨a, b, _⟩ := c159_reachable hw hP hr
  exact fun r q => ⟨((loadMob_fine a b hf hl).2 r q).1, List.getElem?_eq_none ((loadMob_fine a b hf hl).2 r q).2⟩

theorem WellFormed.event {h : Heap F} (hw : WellFormed h) {e : Ref} (he : IsA h e .event) : IsEvent h e := by
  obtain ⟨u, m, g⟩ := isA_event he
  obtain ⟨d, hd⟩ := isA_map (show IsA h m .map from hw e _ g)
  exact ⟨u, m, d, g, hd, (hw m _ hd).1⟩

theorem WellFormed.trace {h : Heap F} (hw : WellFormed h) {t : Ref} (ht : IsA h t .trace) : IsTrace h t := by
  obtain ⟨m, es, g⟩ := isA_trace ht
  obtain ⟨d, hd⟩ := isA_map (hw t _ g).1
  exact ⟨m, es, d, g, hd, (hw m _ hd).1, fun e he => hw.event ((hw t _ g).2 e he)⟩

theorem WellFormed.log {h : Heap F} (hw : WellFormed h) {l : Ref} (hl : IsA h l .log) : IsLog h l := by
  obtain ⟨o, g⟩ := isA_log hl
  obtain ⟨d, hd⟩ := isA_map (hw l _ g).1
  exact ⟨o, d, g, hd, (hw _ _ hd).1, fun t ht => hw.trace ((hw l _ g).2.2.2 t ht)⟩

/-- C159: every event, trace and log that a program has can be cloned, and the theorems about clones (C32, C34, C141) hold for it. -/
theorem c159_clones {env : ApiEnv} {h h' : Heap F} (hw : WellFormed h) (hP : ProtosOk h env.protos) (hr : Reaches env h h') {x : Ref} {o : Obj F}
    (hx : h'.get x = some o) (ho : o.cls = .event ∨ o.cls = .trace ∨ o.cls = .log) : ∃ c h'', Cloned env.rnd h' x c h'' := by
  obtain ⟨a, b, _⟩ := c159_reachable hw hP hr
  rcases ho with q | q | q
  · obtain ⟨r, h2, a1, _⟩ := cloneEvent_fine env.rnd a ⟨o, hx, q⟩
    exact ⟨r, h2, .event (a.event ⟨o, hx, q⟩) a1⟩
  · obtain ⟨r, h2, a1, _⟩ := cloneTrace_fine env.rnd a ⟨o, hx, q⟩
    exact ⟨r, h2, .trace (a.trace ⟨o, hx, q⟩) a1⟩
  · obtain ⟨r, h2, a1, _⟩ := cloneLog_fine env.rnd a ⟨o, hx, q⟩
    exact ⟨r, h2, .log (a.log ⟨o, hx, q⟩) a1⟩

/-! ## Nested values on any objects (C142) -/

/-- The object that keys lead to, each key through the map of the object before it. -/
inductive Walk (h : Heap F) : Ref → List Str → Ref → Prop where
  | here {x : Ref} : Walk h x [] x
  | step {x w a y : Ref} {d : List (Str × Ref)} {k : Str} {ks : List Str} : mapOf h x = .ok w → h.get w = some (.map d) → (k, a) ∈ d →
    Walk h a ks y → Walk h x (k :: ks) y

theorem outcome_same (lt : LocalTime) (c : ExtCall F) (m m' : AttrMap F) : c.outcome lt m = c.outcome lt m' := by
  obtain ⟨a, -, a2⟩ := c.act lt exProtos
  simp only [ExtCall.outcome, a2]
  cases a <;> rfl

theorem restOutcome_same (lt : LocalTime) (c : ExtCall F) : ∀ (ks : List Str) (m : AttrMap F), restOutcome lt c ks m = c.outcome lt []
  | [], m => by simp only [restOutcome, if_true]; exact outcome_same lt c m []
  | k :: t, m => by rw [restOutcome_cons]; exact restOutcome_same lt c t _

/-- C142: whatever objects are shared below the element, also if it is below itself: the keys are followed as far as they lead; there the
call is made if that is the whole path (on an attribute; other elements are left alone).  Otherwise one new attribute is put behind the
entries of the map that lacks the next key, with the rest of the path and the result of the call below it, and no other object that was
there changes. -/
theorem c142_any {P : Protos} (lt : LocalTime) (c : ExtCall F) : ∀ (ks : List Str) {h : Heap F}, WellFormed h → ProtosOk h P → ∀ {el : Ref},
    Carrier h el → ∃ ks1 ks2 x, ks = ks1 ++ ks2 ∧ Walk h el ks1 x ∧
      ((ks2 = [] ∧ IsA h x .attr ∧ assignNestedAt (c.at lt P) ks h el = c.at lt P h x) ∨
       (ks2 = [] ∧ ¬ IsA h x .attr ∧ assignNestedAt (c.at lt P) ks h el = (.ok (), h)) ∨
       ∃ k t w d h' a tree, ks2 = k :: t ∧ mapOf h x = .ok w ∧ h.get w = some (.map d) ∧ k ∉ dkeys d ∧
         assignNestedAt (c.at lt P) ks h el = (c.outcome lt [], h') ∧ h.get a = none ∧ h'.get w = some (.map (d ++ [(k, a)])) ∧
         (∀ r, r < h.size → r ≠ w → h'.get r = h.get r) ∧ pathAfter lt c (k :: t) [] = [(k, tree)] ∧ Shows h' tree a)
  | [], h, hw, hP, el, hel => by
    refine ⟨[], [], el, rfl, .here, ?_⟩
    obtain ⟨o, g1, g2⟩ := hel
    cases o with
    | attr => exact .inl ⟨rfl, ⟨_, g1, rfl⟩, by simp only [assignNestedAt, g1]⟩
    | map => exact absurd rfl g2
    | _ =>
      refine .inr (.inl ⟨rfl, ?_, by simp only [assignNestedAt, g1]⟩)
      rintro ⟨o, q1, q2⟩
      rw [g1] at q1
      cases q1
      cases q2
  | k :: t, h, hw, hP, el, hel => by
    obtain ⟨w, m1, m2⟩ := mapOf_fine hw hel
    obtain ⟨d, hd⟩ := isA_map m2
    cases hg : dget k d with
    | some a =>
      have ha : IsA h a .attr := (hw w _ hd).2 _ (dget_mem hg)
      obtain ⟨ks1, ks2, x, rfl, e2, e3⟩ := c142_any lt c t hw hP (ha.carrier (by simp))
      have hs : assignNestedAt (c.at lt P) (k :: (ks1 ++ ks2)) h el = assignNestedAt (c.at lt P) (ks1 ++ ks2) h a := by
        simp only [assignNestedAt, m1, entries, hd, hg]
      refine ⟨k :: ks1, ks2, x, rfl, .step m1 hd (dget_mem hg) e2, ?_⟩
      rw [hs]
      exact e3
    | none =>
      have hk : k ∉ dkeys d := dget_none_not_mem hg
      have hlt := get_lt hd
      let h0 : Heap F := ⟨h.objs ++ [.map [], .attr .literal k none (.str []) h.size []], h.drawn⟩
      let h1 : Heap F := h0.put w (.map (dset k (h.size + 1) d))
      have e1 : ∀ r, r < h.size → h0.get r = h.get r := fun r hr => get_append_left hr
      have e2 : h0.get h.size = some (.map []) := get_append_right (h := h) 0
      have e3 : h0.get (h.size + 1) = some (.attr .literal k none (.str []) h.size []) := get_append_right (h := h) 1
      have s1 : h0.size = h.size + 2 := by simp [h0, Heap.size]
      have g1 : ∀ r, r ≠ w → h1.get r = h0.get r := fun r hr => get_put_ne _ hr
      have g2 : h1.get w = some (.map (dset k (h.size + 1) d)) := get_put_self _ (by omega)
      have sz : h1.size = h.size + 2 := by simp only [h1, size_put]; omega
      have hb : Behind h h1 w := ⟨by omega, fun r hr hn => by rw [g1 r hn, e1 r hr], rfl⟩
      have hs : mapSet h0 w k (h.size + 1) = .ok h1 := by simp only [mapSet, e1 w hlt, hd]; rfl
      have a1 : h1.get (h.size + 1) = some (.attr .literal k none (.str []) h.size []) := by rw [g1 _ (by omega)]; exact e3
      have a2 : h1.get h.size = some (.map []) := by rw [g1 _ (by omega)]; exact e2
      obtain ⟨h', r1, r2⟩ := rest_effect lt c t (hP.frame (hb.keeps hd)) a1 a2 (m := []) (fs := []) (by simp [FootMap]) (by simp)
      obtain ⟨d', fs', b1, b2, -⟩ := r2.ex
      refine ⟨[], k :: t, el, rfl, .here, .inr (.inr ⟨k, t, w, d, h', h.size + 1, withAttrs (restAfter lt c t []) (emptyLiteral k), rfl, m1, hd, hk,
        ?_, List.getElem?_eq_none (Nat.le_succ _), ?_, ?_, ?_, ?_⟩)⟩
      · simp only [assignNestedAt, m1, entries, hd, hg, newAttr_heap]
        rw [show mapSet (⟨h.objs ++ [.map [], .attr .literal k none (.str []) h.size []], h.drawn⟩ : Heap F) w k (h.size + 1) = .ok h1 from hs]
        simp only [r1, restOutcome_same]
      · rw [r2.within.old w (by omega) (by simp; omega), g2, dset_eq_append _ hk]
      · intro r hr hne
        rw [r2.within.old r (by omega) (by simp; omega), hb.old r hr hne]
      · rw [pathAfter_rest]
        rfl
      · simp only [emptyLiteral, withAttrs, Shows]
        exact ⟨h.size, d', [], r2.within.keeps _ _ _ _ _ _ _ a1, b1, b2.shows, by simp [ShowsList]⟩

/-- What one path does on any objects: the three cases of `c142_any`. -/
def PathDone (P : Protos) (lt : LocalTime) (c : ExtCall F) (ks : List Str) (el : Ref) (h : Heap F) (o : Except PyErr Unit) (h' : Heap F) : Prop :=
  ∃ ks1 ks2 x, ks = ks1 ++ ks2 ∧ Walk h el ks1 x ∧
    ((ks2 = [] ∧ IsA h x .attr ∧ (o, h') = c.at lt P h x) ∨ (ks2 = [] ∧ ¬ IsA h x .attr ∧ o = .ok () ∧ h' = h) ∨
     ∃ k t w d a tree, ks2 = k :: t ∧ mapOf h x = .ok w ∧ h.get w = some (.map d) ∧ k ∉ dkeys d ∧ o = c.outcome lt [] ∧ h.get a = none ∧
       h'.get w = some (.map (d ++ [(k, a)])) ∧ (∀ r, r < h.size → r ≠ w → h'.get r = h.get r) ∧ pathAfter lt c (k :: t) [] = [(k, tree)] ∧
       Shows h' tree a)

/-- The paths in order, each on the objects that the one before left, up to the first that raises. -/
inductive PathsDone (P : Protos) (lt : LocalTime) (c : PyVal F → ExtCall F) (el : Ref) :
    List (List Str × PyVal F) → Heap F → Except PyErr Unit → Heap F → Prop where
  | none {h : Heap F} : PathsDone P lt c el [] h (.ok ()) h
  | raised {h h' : Heap F} {ks : List Str} {v : PyVal F} {rest : List (List Str × PyVal F)} {e : PyErr} :
    PathDone P lt (c v) ks el h (.error e) h' → PathsDone P lt c el ((ks, v) :: rest) h (.error e) h'
  | next {h h' h'' : Heap F} {ks : List Str} {v : PyVal F} {rest : List (List Str × PyVal F)} {o : Except PyErr Unit} :
    PathDone P lt (c v) ks el h (.ok ()) h' → PathsDone P lt c el rest h' o h'' → PathsDone P lt c el ((ks, v) :: rest) h o h''

/-- C142: several paths, on any objects. -/
theorem c142_values_any {P : Protos} (lt : LocalTime) (c : PyVal F → ExtCall F) : ∀ (vals : List (List Str × PyVal F)) {h : Heap F}, WellFormed h →
    ProtosOk h P → ∀ {el : Ref}, Carrier h el →
    ∃ o h', assignNestedValuesAt (fun v => (c v).at lt P) vals h el = (o, h') ∧ PathsDone P lt c el vals h o h' ∧ WellFormed h'
  | [], h, hw, hP, el, hel => ⟨_, _, rfl, .none, hw⟩
  | (ks, v) :: rest, h, hw, hP, el, hel => by
    obtain ⟨o, h1, e1, e2, -, -⟩ := nested_fine lt (c v) ks hw hP hel
    have hd : PathDone P lt (c v) ks el h o h1 := by
      obtain ⟨ks1, ks2, x, q1, q2, q3⟩ := c142_any lt (c v) ks hw hP hel
      refine ⟨ks1, ks2, x, q1, q2, ?_⟩
      rcases q3 with ⟨r1, r2, r3⟩ | ⟨r1, r2, r3⟩ | ⟨k, t, w, d, h', a, tree, r1, r2, r3, r4, r5, r6⟩
      · exact .inl ⟨r1, r2, e1.symm.trans r3⟩
      · rw [e1] at r3
        cases r3
        exact .inr (.inl ⟨r1, r2, rfl, rfl⟩)
      · rw [e1] at r5
        cases r5
        exact .inr (.inr ⟨k, t, w, d, a, tree, r1, r2, r3, r4, rfl, r6⟩)
    cases o with
    | error e => exact ⟨.error e, h1, by simp only [assignNestedValuesAt, e1], .raised hd, e2.wf⟩
    | ok u =>
      obtain ⟨o, h2, f1, f2, f3⟩ := c142_values_any lt c rest e2.wf (e2.protos hP) (hel.kept e2.kept)
      exact ⟨o, h2, by simp only [assignNestedValuesAt, e1, f1], .next hd f2, f3⟩

/-! ## Examples -/

/-- `IsA`, computed. -/
def isAB (h : Heap F) (r : Ref) (c : ObjCls) : Bool :=
  match h.get r with
  | some o => o.cls = c
  | none => false

theorem isAB_sound {h : Heap F} {r : Ref} {c : ObjCls} (hb : isAB h r c = true) : IsA h r c := by
  unfold isAB at hb
  split at hb
  · next o ho => exact ⟨o, ho, by simpa using hb⟩
  · cases hb

/-- `ObjGood`, computed. -/
def goodB (h : Heap F) : Obj F → Bool
  | .map d => decide (dkeys d).Nodup && d.all (fun p => isAB h p.2 .attr)
  | .attr _ _ _ _ m c => isAB h m .map && c.all (fun a => isAB h a .attr)
  | .event _ m => isAB h m .map
  | .trace m es => isAB h m .map && es.all (fun e => isAB h e .event)
  | .log l => isAB h l.map .map && l.globalTrace.all (fun a => isAB h a .attr) && l.globalEvent.all (fun a => isAB h a .attr) &&
      l.traces.all (fun t => isAB h t .trace)
  | .pyNone => false

theorem goodB_sound {h : Heap F} (hb : h.objs.all (goodB h) = true) : WellFormed h := by
  intro r o ho
  have := List.all_eq_true.1 hb o (List.mem_of_getElem? ho)
  cases o <;> simp only [goodB, Bool.and_eq_true, decide_eq_true_eq, List.all_eq_true] at this
  · exact ⟨this.1, fun p hp => isAB_sound (this.2 p hp)⟩
  · exact ⟨isAB_sound this.1, fun p hp => isAB_sound (this.2 p hp)⟩
  · exact isAB_sound this
  · exact ⟨isAB_sound this.1, fun p hp => isAB_sound (this.2 p hp)⟩
  · exact ⟨isAB_sound this.1.1.1, fun p hp => isAB_sound (this.1.1.2 p hp), fun p hp => isAB_sound (this.1.2 p hp),
      fun p hp => isAB_sound (this.2 p hp)⟩
  · cases this

end

end

/-- What the example programs run in. -/
def exEnv : ApiEnv := ⟨fun _ => 7, ⟨fun _ => .ok 0, fun _ => .error .overflowError⟩, exProtos⟩

/-- The start of the example programs. -/
def exStart : Heap ToyFloat := exAlias 3

theorem exStart_wf : WellFormed exStart := goodB_sound (by decide +kernel)

theorem exStart_protos : ProtosOk exStart exEnv.protos := exAlias_protos 3

/-- A program: a trace (object 44), the event in it, a clone of the trace, a nested value. -/
example : ∃ h : Heap ToyFloat, Reaches exEnv exStart h ∧ WellFormed h ∧ IsA h 44 .trace ∧ exStart.size < h.size := by
  refine ⟨_, .call (c := .nested (fun v => .total v) [([py!"a", py!"b"], .int 5)] 41) (.call (c := .cloneTrace 44) (.call (c := .appendEvent 44 41)
    (.call (c := .createTrace none) .start (by intro r hr; cases hr)) ?_) ?_) ?_, ?_⟩
  · exact ⟨isAB_sound (by decide +kernel), isAB_sound (by decide +kernel)⟩
  · exact isAB_sound (by decide +kernel)
  · exact (isAB_sound (c := .event) (by decide +kernel) : IsA _ _ _).carrier (by simp)
  · exact ⟨goodB_sound (by decide +kernel), isAB_sound (by decide +kernel), by decide +kernel⟩

/-- A call that raises, on an element of the start. -/
example : Raises exEnv exStart (.delete 40 py!"x") .keyError := .delete (d := [(py!"concept:name", 39)]) rfl (by intro a q; simp at q)

/-- The condition on extension calls is met by a cost that is a text. -/
example : Raises exEnv exStart (.ext (.total (.str py!"x")) 41) .typeError := .ext rfl

/-- An event (object 44) whose attribute (object 43) is its own meta attribute: no tree shows it, and `c142_any` applies. -/
def exLoop : Heap ToyFloat :=
  ⟨exStart.objs ++ [.map [(py!"a", 43)], .attr .literal py!"a" none (.str []) 42 [], .event 5 42], 0⟩

example : WellFormed exLoop ∧ ProtosOk exLoop exEnv.protos ∧ Carrier exLoop 44 ∧ Walk exLoop 44 [py!"a", py!"a", py!"a"] 43 ∧
    ((assignNestedAt ((ExtCall.total (.int 5)).at exEnv.time exEnv.protos) [py!"a", py!"a"] exLoop 44).1.isOk = true) := by
  refine ⟨goodB_sound (by decide +kernel), ?_, ⟨_, rfl, by simp [Obj.cls]⟩, ?_, by decide +kernel⟩
  · refine ProtosOk.frame exStart_protos ?_
    intro r k key e v m c g
    exact (get_append_left (get_lt g)).trans g
  · exact .step (w := 42) (a := 43) rfl rfl (by simp) (.step (w := 42) (a := 43) rfl rfl (by simp) (.step (w := 42) (a := 43) rfl rfl (by simp) .here))

/-- A document with one trace of one event. -/
def exXesText : Str := py!"<log><trace><event><string key='a' value='b'/></event></trace></log>"

/-- A document with two processes, the first with one entry. -/
def exMxmlText : Str :=
  py!"<WorkflowLog><Process id='P'><ProcessInstance id='1'><AuditTrailEntry><WorkflowModelElement>a</WorkflowModelElement></AuditTrailEntry></ProcessInstance></Process><Process/></WorkflowLog>"

/-- Computes `OneAtATime`. -/
def oneAtATimeB (name : Str) : Bool → List MSax → Bool
  | _, [] => true
  | inside, .start t _ :: es => if t = name then !inside && oneAtATimeB name true es else oneAtATimeB name inside es
  | inside, .stop t :: es => if t = name then inside && oneAtATimeB name false es else oneAtATimeB name inside es
  | inside, .chars _ :: es => oneAtATimeB name inside es

theorem oneAtATimeB_sound {name : Str} : ∀ {es : List MSax} {inside : Bool}, oneAtATimeB name inside es = true → OneAtATime name inside es
  | [], _, _ => trivial
  | .start t as :: es, inside, h => by
    simp only [oneAtATimeB, OneAtATime] at h ⊢
    split
    · rw [if_pos ‹_›, Bool.and_eq_true] at h
      exact ⟨by simpa using h.1, oneAtATimeB_sound h.2⟩
    · rw [if_neg ‹_›] at h
      exact oneAtATimeB_sound h
  | .stop t :: es, inside, h => by
    simp only [oneAtATimeB, OneAtATime] at h ⊢
    split
    · rw [if_pos ‹_›, Bool.and_eq_true] at h
      exact ⟨h.1, oneAtATimeB_sound h.2⟩
    · rw [if_neg ‹_›] at h
      exact oneAtATimeB_sound h
  | .chars _ :: es, inside, h => oneAtATimeB_sound (es := es) (inside := inside) h

/-- Computes `Alternates`. -/
def alternatesB (name : Str) : Bool → List Sax → Bool
  | _, [] => true
  | inside, .start t _ :: es => if lower t = name then !inside && alternatesB name true es else alternatesB name inside es
  | inside, .stop t :: es => if lower t = name then inside && alternatesB name false es else alternatesB name inside es

theorem alternatesB_sound {name : Str} : ∀ {es : List Sax} {inside : Bool}, alternatesB name inside es = true → Alternates name inside es
  | [], _, _ => trivial
  | .start t as :: es, inside, h => by
    simp only [alternatesB, Alternates] at h ⊢
    split
    · rw [if_pos ‹_›, Bool.and_eq_true] at h
      exact ⟨by simpa using h.1, alternatesB_sound h.2⟩
    · rw [if_neg ‹_›] at h
      exact alternatesB_sound h
  | .stop t :: es, inside, h => by
    simp only [alternatesB, Alternates] at h ⊢
    split
    · rw [if_pos ‹_›, Bool.and_eq_true] at h
      exact ⟨h.1, alternatesB_sound h.2⟩
    · rw [if_neg ‹_›] at h
      exact alternatesB_sound h

/-- Loading both documents fits, and is not refused. -/
example : FlatText exXesText ∧ FlatMxml exMxmlText ∧
    (match (ApiCall.load none ⟨fun _ => none, fun _ => .ok none⟩ exXesText).run exEnv exStart with
      | (.ok (some l), h) => decide (exStart.size < h.size) && isAB h l .log
      | _ => false) = true ∧
    (match loadMob exEnv.rnd exEnv.protos exStart exMxmlText with
      | .ok (ls, h) => decide (ls.length = 2) && ls.all fun l => isAB h l .log
      | _ => false) = true := by
  refine ⟨fun es h => ?_, fun es h => ?_, by decide +kernel, by decide +kernel⟩
  · have q : (match readXml exXesText with
      | .ok es => alternatesB py!"event" false (xesEvents es) && alternatesB py!"trace" false (xesEvents es)
      | .error _ => false) = true := by decide +kernel
    rw [h] at q
    simp only [Bool.and_eq_true] at q
    exact ⟨alternatesB_sound q.1, alternatesB_sound q.2⟩
  · have q : (match readXml exMxmlText with
      | .ok es => oneAtATimeB py!"AuditTrailEntry" false es
      | .error _ => false) = true := by decide +kernel
    rw [h] at q
    exact oneAtATimeB_sound q

end Opy
