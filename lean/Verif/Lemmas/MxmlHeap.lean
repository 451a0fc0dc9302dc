import Verif.Model.MxmlHeap
import Verif.Props.Alias
import Verif.Props.HeapSave
import Verif.Props.Nones
/- The MXML handler on objects keeps to the handler on values: what it builds, object by object. -/
set_option linter.unusedSectionVars false
namespace Opy

section
variable {F : Type} [PyFloat F]

/-! ## Values behind references within a set -/

/-- `h'` has what `h` has at the references of `P`, and they are in `Q`. -/
def Held (h h' : Heap F) (P Q : Ref → Prop) : Prop := ∀ r o, P r → h.get r = some o → Q r ∧ h'.get r = some o

mutual
/-- The attribute is behind the reference, with all its objects in `P`. -/
def AttrAt (h : Heap F) (P : Ref → Prop) : Attr F → Ref → Prop
  | .mk k key e v m c, r => P r ∧ k.isCollection = false ∧ c = [] ∧
      ∃ mr d, P mr ∧ h.get r = some (.attr k key e v mr []) ∧ h.get mr = some (.map d) ∧ EntriesAt h P m d
/-- The same for the entries of a map. -/
def EntriesAt (h : Heap F) (P : Ref → Prop) : List (Str × Attr F) → List (Str × Ref) → Prop
  | [], d => d = []
  | (n, x) :: m, d => ∃ r d', d = (n, r) :: d' ∧ AttrAt h P x r ∧ EntriesAt h P m d'
end

/-- Entries of two maps, one by one. -/
def PairAll {α : Type} (R : α → Ref → Prop) : List (Str × α) → List (Str × Ref) → Prop
  | [], d => d = []
  | (n, x) :: m, d => ∃ r d', d = (n, r) :: d' ∧ R x r ∧ PairAll R m d'

theorem entriesAt_iff {h : Heap F} {P : Ref → Prop} : ∀ {m : List (Str × Attr F)} {d : List (Str × Ref)},
    EntriesAt h P m d ↔ PairAll (AttrAt h P) m d
  | [], d => by simp only [EntriesAt, PairAll]
  | (n, x) :: m, d => by simp only [EntriesAt, PairAll, entriesAt_iff (m := m)]

theorem PairAll.imp {α : Type} {R S : α → Ref → Prop} (h : ∀ x r, R x r → S x r) : ∀ {m : List (Str × α)} {d : List (Str × Ref)},
    PairAll R m d → PairAll S m d
  | [], _, hd => hd
  | (n, x) :: m, d, hd => by
    obtain ⟨r, d', e, h1, h2⟩ := hd
    exact ⟨r, d', e, h _ _ h1, PairAll.imp h h2⟩

theorem PairAll.dset {α : Type} {R : α → Ref → Prop} {k : Str} {a : α} {b : Ref} (hx : R a b) :
    ∀ {m : List (Str × α)} {d : List (Str × Ref)}, PairAll R m d → PairAll R (dset k a m) (dset k b d)
  | [], d, hd => by
    simp only [PairAll] at hd
    subst hd
    exact ⟨b, [], rfl, hx, rfl⟩
  | (n, x) :: m, d, hd => by
    obtain ⟨r, d', rfl, h1, h2⟩ := hd
    by_cases hn : n = k
    · subst hn
      simp only [Opy.dset, if_true]
      exact ⟨b, d', rfl, hx, h2⟩
    · simp only [Opy.dset, if_neg hn]
      exact ⟨r, Opy.dset k b d', rfl, h1, PairAll.dset hx h2⟩

mutual
theorem AttrAt.held {h h' : Heap F} {P Q : Ref → Prop} (hk : Held h h' P Q) : ∀ {a : Attr F} {r : Ref}, AttrAt h P a r → AttrAt h' Q a r
  | .mk k key e v m c, r, ha => by
    simp only [AttrAt] at ha ⊢
    obtain ⟨hr, h1, h2, mr, d, hm, g1, g2, g3⟩ := ha
    obtain ⟨q1, g1⟩ := hk _ _ hr g1
    obtain ⟨q2, g2⟩ := hk _ _ hm g2
    exact ⟨q1, h1, h2, mr, d, q2, g1, g2, EntriesAt.held hk g3⟩
theorem EntriesAt.held {h h' : Heap F} {P Q : Ref → Prop} (hk : Held h h' P Q) : ∀ {m : List (Str × Attr F)} {d : List (Str × Ref)},
    EntriesAt h P m d → EntriesAt h' Q m d
  | [], _, hd => hd
  | (n, x) :: m, d, hd => by
    simp only [EntriesAt] at hd ⊢
    obtain ⟨r, d', e, h1, h2⟩ := hd
    exact ⟨r, d', e, AttrAt.held hk h1, EntriesAt.held hk h2⟩
end

mutual
theorem AttrAt.sees {h : Heap F} {P : Ref → Prop} : ∀ {a : Attr F} {r : Ref}, AttrAt h P a r → Sees h a r
  | .mk k key e v m c, r, ha => by
    simp only [AttrAt] at ha
    obtain ⟨hr, h1, h2, mr, d, hm, g1, g2, g3⟩ := ha
    simp only [Sees]
    refine ⟨mr, [], g1, ?_⟩
    rw [if_neg (by simp [h1])]
    exact ⟨h2, d, g2, EntriesAt.sees g3⟩
theorem EntriesAt.sees {h : Heap F} {P : Ref → Prop} : ∀ {m : List (Str × Attr F)} {d : List (Str × Ref)}, EntriesAt h P m d → SeesMap h m d
  | [], _, hd => hd
  | (n, x) :: m, d, hd => by
    simp only [EntriesAt] at hd
    obtain ⟨r, d', e, h1, h2⟩ := hd
    exact ⟨r, d', e, AttrAt.sees h1, EntriesAt.sees h2⟩
end

theorem seesMap_iff {h : Heap F} : ∀ {m : List (Str × Attr F)} {d : List (Str × Ref)}, SeesMap h m d ↔ PairAll (Sees h) m d
  | [], d => by simp only [SeesMap, PairAll]
  | (n, x) :: m, d => by simp only [SeesMap, PairAll, seesMap_iff (m := m)]

theorem seesList_iff {h : Heap F} : ∀ {m : List (Attr F)} {d : List Ref}, SeesList h m d ↔ DenAll (Sees h) m d
  | [], d => by simp only [SeesList, DenAll]
  | x :: m, d => by simp only [SeesList, DenAll, seesList_iff (m := m)]

/-- An attribute that is still being built: the attribute in `Q`, its map in `M`, the rest in `P`. -/
def OpenAttr (h : Heap F) (Q M P : Ref → Prop) (a : Attr F) (r : Ref) : Prop :=
  Q r ∧ a.kind.isCollection = false ∧ a.coll = [] ∧
    ∃ mr d, M mr ∧ h.get r = some (.attr a.kind a.key a.ext a.val mr []) ∧ h.get mr = some (.map d) ∧ PairAll (AttrAt h P) a.attrs d

theorem OpenAttr.held {h h' : Heap F} {Q M P Q' M' P' : Ref → Prop} (hq : Held h h' Q Q') (hm : Held h h' M M') (hp : Held h h' P P')
    {a : Attr F} {r : Ref} (ha : OpenAttr h Q M P a r) : OpenAttr h' Q' M' P' a r := by
  obtain ⟨hr, h1, h2, mr, d, hmr, g1, g2, g3⟩ := ha
  obtain ⟨q1, g1⟩ := hq _ _ hr g1
  obtain ⟨q2, g2⟩ := hm _ _ hmr g2
  exact ⟨q1, h1, h2, mr, d, q2, g1, g2, g3.imp fun _ _ => AttrAt.held hp⟩

theorem OpenAttr.attrAt {h h' : Heap F} {Q M P P' : Ref → Prop} (hq : Held h h' Q P') (hm : Held h h' M P') (hp : Held h h' P P')
    {a : Attr F} {r : Ref} (ha : OpenAttr h Q M P a r) : AttrAt h' P' a r := by
  obtain ⟨hr, h1, h2, mr, d, hmr, g1, g2, g3⟩ := ha.held hq hm hp
  cases a
  exact ⟨hr, h1, h2, mr, d, hmr, g1, g2, entriesAt_iff.2 g3⟩

/-- An event. -/
def EventGen (h : Heap F) (Q M P : Ref → Prop) (x : Event F) (e : Ref) : Prop :=
  Q e ∧ ∃ m d, M m ∧ h.get e = some (.event x.id m) ∧ h.get m = some (.map d) ∧ PairAll (AttrAt h P) x.attrs d

theorem EventGen.held {h h' : Heap F} {Q M P Q' M' P' : Ref → Prop} (hq : Held h h' Q Q') (hm : Held h h' M M') (hp : Held h h' P P')
    {x : Event F} {r : Ref} (ha : EventGen h Q M P x r) : EventGen h' Q' M' P' x r := by
  obtain ⟨hr, mr, d, hmr, g1, g2, g3⟩ := ha
  obtain ⟨q1, g1⟩ := hq _ _ hr g1
  obtain ⟨q2, g2⟩ := hm _ _ hmr g2
  exact ⟨q1, mr, d, q2, g1, g2, g3.imp fun _ _ => AttrAt.held hp⟩

/-- A trace. -/
def TraceGen (h : Heap F) (Q M P : Ref → Prop) (x : Trace F) (t : Ref) : Prop :=
  Q t ∧ ∃ m d es, M m ∧ h.get t = some (.trace m es) ∧ h.get m = some (.map d) ∧ PairAll (AttrAt h P) x.attrs d ∧
    DenAll (EventGen h P P P) x.events es

theorem TraceGen.held {h h' : Heap F} {Q M P Q' M' P' : Ref → Prop} (hq : Held h h' Q Q') (hm : Held h h' M M') (hp : Held h h' P P')
    {x : Trace F} {r : Ref} (ha : TraceGen h Q M P x r) : TraceGen h' Q' M' P' x r := by
  obtain ⟨hr, mr, d, es, hmr, g1, g2, g3, g4⟩ := ha
  obtain ⟨q1, g1⟩ := hq _ _ hr g1
  obtain ⟨q2, g2⟩ := hm _ _ hmr g2
  exact ⟨q1, mr, d, es, q2, g1, g2, g3.imp fun _ _ => AttrAt.held hp, g4.imp fun _ _ => EventGen.held hp hp hp⟩

/-- What an entry in the map of a log refers to. -/
def RefAt (srcs : List Ref) (h : Heap F) (P : Ref → Prop) : MRef F → Ref → Prop
  | .own a, r => AttrAt h P a r
  | .source i, r => srcs[i]? = some r

/-- More sources than before. -/
def MoreSrcs (srcs srcs' : List Ref) : Prop := ∀ (i : Nat) (r : Ref), srcs[i]? = some r → srcs'[i]? = some r

theorem MoreSrcs.refl (srcs : List Ref) : MoreSrcs srcs srcs := fun _ _ q => q

theorem MoreSrcs.snoc (srcs : List Ref) (r : Ref) : MoreSrcs srcs (srcs ++ [r]) := fun i x q => by
  rw [List.getElem?_append_left (List.getElem?_eq_some_iff.1 q).1]
  exact q

theorem RefAt.held {h h' : Heap F} {P Q : Ref → Prop} {srcs srcs' : List Ref} (hs : MoreSrcs srcs srcs') (hk : Held h h' P Q) :
    ∀ {a : MRef F} {r : Ref}, RefAt srcs h P a r → RefAt srcs' h' Q a r
  | .own _, _, ha => AttrAt.held hk ha
  | .source i, r, ha => hs i r ha

/-- A log. -/
def MLogGen (srcs : List Ref) (h : Heap F) (Q M P : Ref → Prop) (x : MLog F) (l : Ref) : Prop :=
  Q l ∧ ∃ o d, M o.map ∧ h.get l = some (.log o) ∧ h.get o.map = some (.map d) ∧ o.extensions = x.extensions ∧
    o.classifiers = x.classifiers ∧ o.features = [] ∧ PairAll (RefAt srcs h P) x.attrs d ∧
    DenAll (AttrAt h P) x.globalTrace o.globalTrace ∧ DenAll (AttrAt h P) x.globalEvent o.globalEvent ∧
    DenAll (TraceGen h P P P) x.traces o.traces

theorem MLogGen.held {h h' : Heap F} {srcs srcs' : List Ref} {Q M P Q' M' P' : Ref → Prop} (hs : MoreSrcs srcs srcs') (hq : Held h h' Q Q')
    (hm : Held h h' M M') (hp : Held h h' P P') {x : MLog F} {r : Ref} (ha : MLogGen srcs h Q M P x r) : MLogGen srcs' h' Q' M' P' x r := by
  obtain ⟨hr, o, d, hmr, g1, g2, e1, e2, e3, g3, g4, g5, g6⟩ := ha
  obtain ⟨q1, g1⟩ := hq _ _ hr g1
  obtain ⟨q2, g2⟩ := hm _ _ hmr g2
  exact ⟨q1, o, d, q2, g1, g2, e1, e2, e3, g3.imp fun _ _ => RefAt.held hs hp, g4.imp fun _ _ => AttrAt.held hp,
    g5.imp fun _ _ => AttrAt.held hp, g6.imp fun _ _ => TraceGen.held hp hp hp⟩

/-! ## Putting a new attribute into a map -/

/-- The attributes that the extensions keep have their usual values. -/
structure MxmlProtos (h : Heap F) (P : Protos) : Prop where
  ok : ProtosOk h P
  name : ∃ m c, h.get (P .name) = some (.attr .literal py!"concept:name" (some conceptExt) (.str py!"UNKNOWN") m c)
  transition : ∃ m c, h.get (P .transition) = some (.attr .literal py!"lifecycle:transition" (some lifecycleExt) (.str py!"complete") m c)
  resource : ∃ m c, h.get (P .resource) = some (.attr .literal py!"org:resource" (some orgExt) (.str py!"UNKNOWN") m c)

theorem MxmlProtos.frame {h h' : Heap F} {P : Protos} (hP : MxmlProtos h P) (hk : ∀ r o, h.get r = some o → h'.get r = some o) :
    MxmlProtos h' P := by
  obtain ⟨h1, ⟨m2, c2, h2⟩, ⟨m3, c3, h3⟩, ⟨m4, c4, h4⟩⟩ := hP
  refine ⟨fun x => ?_, ⟨m2, c2, hk _ _ h2⟩, ⟨m3, c3, hk _ _ h3⟩, ⟨m4, c4, hk _ _ h4⟩⟩
  obtain ⟨v, m, c, g, q⟩ := h1 x
  exact ⟨v, m, c, hk _ _ g, q⟩

/-- `h'` is `h` with the new attribute `a` in the map `m`. -/
structure NewIn (h h' : Heap F) (m : Ref) (a : Attr F) : Prop where
  size : h.size ≤ h'.size
  drawn : h'.drawn = h.drawn
  old : ∀ r o, r ≠ m → h.get r = some o → h'.get r = some o
  map : ∃ d r, h.get m = some (.map d) ∧ h'.get m = some (.map (dset a.key r d)) ∧ AttrAt h' (h.size ≤ ·) a r

/-- The same for an attribute that may be missing. -/
def PutIn (h h' : Heap F) (m : Ref) : Option (Attr F) → Prop
  | none => h' = h
  | some a => NewIn h h' m a

theorem get_newAttr_attr (h : Heap F) (k : Kind) (key : Str) (e : Option Ext) (v : PyVal F) :
    (newAttr h k key e v).2.get (h.size + 1) = some (.attr k key e v h.size []) := by
  rw [newAttr_heap]
  simp [Heap.get, Heap.size]

theorem get_newAttr_map (h : Heap F) (k : Kind) (key : Str) (e : Option Ext) (v : PyVal F) :
    (newAttr h k key e v).2.get h.size = some (.map []) := by
  rw [newAttr_heap]
  simp [Heap.get, Heap.size]

theorem get_newAttr_old {h : Heap F} (k : Kind) (key : Str) (e : Option Ext) (v : PyVal F) {r : Ref} {o : Obj F} (hr : h.get r = some o) :
    (newAttr h k key e v).2.get r = some o := by
  rw [newAttr_heap]
  simp only [Heap.get] at hr ⊢
  rw [List.getElem?_append_left (List.getElem?_eq_some_iff.1 hr).1]
  exact hr

theorem size_newAttr (h : Heap F) (k : Kind) (key : Str) (e : Option Ext) (v : PyVal F) : (newAttr h k key e v).2.size = h.size + 2 := by
  rw [newAttr_heap]
  simp [Heap.size]

theorem fst_newAttr (h : Heap F) (k : Kind) (key : Str) (e : Option Ext) (v : PyVal F) : (newAttr h k key e v).1 = h.size + 1 := by
  rw [newAttr_heap]

theorem drawn_newAttr (h : Heap F) (k : Kind) (key : Str) (e : Option Ext) (v : PyVal F) : (newAttr h k key e v).2.drawn = h.drawn := by
  rw [newAttr_heap]

theorem setValue_new (h : Heap F) {k : Kind} (hk : k.isCollection = false) (key : Str) (e : Option Ext) (v w : PyVal F) :
    setValue (newAttr h k key e v).2 (h.size + 1) w = .ok (newAttr h k key e w).2 := by
  unfold setValue
  rw [get_newAttr_attr]
  simp only [hk, Bool.false_eq_true, if_false]
  rw [newAttr_heap, newAttr_heap]
  simp [Heap.put, Heap.size]

theorem newIn_put {h : Heap F} {k : Kind} (hk : k.isCollection = false) (key : Str) (e : Option Ext) (v : PyVal F) {m : Ref}
    {d : List (Str × Ref)} (hm : h.get m = some (.map d)) :
    NewIn h ((newAttr h k key e v).2.put m (.map (dset key (h.size + 1) d))) m (.mk k key e v [] []) := by
  have hlt := get_lt hm
  refine ⟨by rw [size_put, size_newAttr]; omega, by rw [drawn_put, drawn_newAttr], ?_, d, h.size + 1, hm, ?_, ?_⟩
  · intro r o hr ho
    rw [get_put_ne _ hr]
    exact get_newAttr_old _ _ _ _ ho
  · exact get_put_self _ (by rw [size_newAttr]; omega)
  · simp only [AttrAt]
    refine ⟨by omega, hk, trivial, h.size, [], by omega, ?_, ?_, rfl⟩
    · rw [get_put_ne _ (by omega)]; exact get_newAttr_attr ..
    · rw [get_put_ne _ (by omega)]; exact get_newAttr_map ..

theorem keep_new {h : Heap F} {k : Kind} (hk : k.isCollection = false) (key : Str) (e : Option Ext) (v : PyVal F) {el m : Ref}
    {d : List (Str × Ref)} (he : mapOf h el = .ok m) (hm : h.get m = some (.map d)) :
    ∃ h', keepAttr (newAttr h k key e v).2 (some el) (h.size + 1) = .ok h' ∧ NewIn h h' m (.mk k key e v [] []) := by
  refine ⟨_, ?_, newIn_put hk key e v hm⟩
  obtain ⟨o, ho, _⟩ := mapOf_ok he
  have h1 : mapOf (newAttr h k key e v).2 el = .ok m := by
    unfold mapOf at he ⊢
    rw [get_newAttr_old _ _ _ _ ho]
    rw [ho] at he
    exact he
  simp only [keepAttr, h1, ok_bind', keyOf, get_newAttr_attr, mapSet, get_newAttr_old _ _ _ _ hm]

theorem clone_set {h : Heap F} {P : Protos} (hP : ProtosOk h P) {x : ExtAttr} (hk : x.kind.isCollection = false) (v : PyVal F) :
    ∃ w, cloneAttr h (P x) = .ok (newAttr h x.kind x.key (some x.ext) w) ∧
      setValue (newAttr h x.kind x.key (some x.ext) w).2 (h.size + 1) v = .ok (newAttr h x.kind x.key (some x.ext) v).2 := by
  obtain ⟨w, hw⟩ := cloneAttr_proto hP x
  exact ⟨w, hw, setValue_new _ hk _ _ _ _⟩

/-- The model reference, if there is one. -/
def refOf (as : List (Str × Str)) : Option (Attr F) :=
  (modelRef as).map fun v => cloned .literal py!"semantic:modelReference" semanticExt (.str v)

/-- The description, if there is one. -/
def descOf (keep : Str → Bool) (as : List (Str × Str)) : Option (Attr F) :=
  match dget py!"description" as with
  | some d => if keep d then some (literalOf py!"description" (.str d) []) else none
  | none => none

/-- The name, if there is one. -/
def nameAttr (v : Option Str) : Option (Attr F) :=
  match v with
  | none => none
  | some n => if given (some n) then some (cloned .literal py!"concept:name" conceptExt (.str n)) else none

/-- The lifecycle model, if there is one. -/
def modelAttr (v : Option Str) : Option (Attr F) :=
  match v with
  | none => none
  | some n => if given (some n) then some (cloned .literal py!"lifecycle:model" lifecycleExt (.str (strip n))) else none

/-- Storing an attribute that may be missing. -/
def putAll {α : Type} (inj : Attr F → α) (a : Option (Attr F)) (m : List (Str × α)) : List (Str × α) :=
  match a with
  | none => m
  | some a => dset a.key (inj a) m

theorem addRef_eq (as : List (Str × Str)) (m : AttrMap F) : addRef as m = putAll id (refOf as) m := by
  unfold addRef refOf
  cases modelRef as <;> rfl

theorem description_eq (keep : Str → Bool) (as : List (Str × Str)) (m : AttrMap F) : description keep as m = putAll id (descOf keep as) m := by
  unfold description descOf
  cases dget py!"description" as with
  | none => rfl
  | some d => cases h : keep d <;> simp [h, putAll, literalOf, Attr.key]

theorem assignName_eq (v : Option Str) (m : AttrMap F) : assignName v m = putAll id (nameAttr v) m := by
  unfold assignName nameAttr
  cases v with
  | none => rfl
  | some d => cases h : given (some d) <;> simp [h, putAll, cloned, Attr.key]

theorem assignModel_eq (v : Option Str) (m : AttrMap F) : assignModel v m = putAll id (modelAttr v) m := by
  unfold assignModel modelAttr
  cases v with
  | none => rfl
  | some d => cases h : given (some d) <;> simp [h, putAll, cloned, Attr.key]

theorem mobRef_puts {h : Heap F} {P : Protos} (hP : ProtosOk h P) (as : List (Str × Str)) {el m : Ref} {d : List (Str × Ref)}
    (he : mapOf h el = .ok m) (hm : h.get m = some (.map d)) :
    ∃ h', mobRef P as h (some el) = .ok h' ∧ PutIn h h' m (refOf as) := by
  unfold mobRef refOf
  cases modelRef as with
  | none => exact ⟨h, rfl, rfl⟩
  | some v =>
    obtain ⟨w, h1, h2⟩ := clone_set hP (x := .reference) rfl (.str v)
    obtain ⟨h', h3, h4⟩ := keep_new (k := .literal) rfl py!"semantic:modelReference" (some semanticExt) (.str v) he hm
    refine ⟨h', ?_, h4⟩
    simp only [h1, ok_bind', fst_newAttr, h2]
    exact h3

theorem mobDescription_puts {h : Heap F} (keep : Str → Bool) (as : List (Str × Str)) {el m : Ref} {d : List (Str × Ref)}
    (he : mapOf h el = .ok m) (hm : h.get m = some (.map d)) :
    ∃ h', mobDescription keep as h el = .ok h' ∧ PutIn h h' m (descOf keep as) := by
  unfold mobDescription descOf
  cases dget py!"description" as with
  | none => exact ⟨h, rfl, rfl⟩
  | some t =>
    cases hk : keep t with
    | false => exact ⟨h, by simp [hk], by simp [hk, PutIn]⟩
    | true =>
      obtain ⟨h', h3, h4⟩ := keep_new (k := .literal) rfl py!"description" none (.str t) he hm
      refine ⟨h', ?_, ?_⟩
      · simp only [hk, if_true, fst_newAttr]
        exact h3
      · simp only [hk, if_true, PutIn]
        exact h4

theorem storeGiven_puts {h : Heap F} {P : Protos} (hP : ProtosOk h P) (x : ExtAttr) (hx : x.kind.isCollection = false) (v : Option Str)
    (f : Str → PyVal F) {el m : Ref} {d : List (Str × Ref)} (he : mapOf h el = .ok m) (hm : h.get m = some (.map d)) :
    ∃ h', mobExt (storeGiven (P x) x.key v f h el) = .ok h' ∧ PutIn h h' m (match v with
      | none => none
      | some n => if given (some n) then some (cloned x.kind x.key x.ext (f n)) else none) := by
  unfold storeGiven
  cases v with
  | none => exact ⟨h, rfl, rfl⟩
  | some s =>
    cases hk : given (some s) with
    | false => exact ⟨h, by simp [hk, mobExt], by simp [hk, PutIn]⟩
    | true =>
      obtain ⟨w, h1, h2⟩ := clone_set hP (x := x) hx (f s)
      obtain ⟨h', h3, h4⟩ := keep_new (k := x.kind) hx x.key (some x.ext) (f s) he hm
      refine ⟨h', ?_, ?_⟩
      · simp only [hk, if_true, storeClone, h1]
        simp only [fst_newAttr, h2]
        simp only [keepAttr] at h3
        cases h5 : mapOf (newAttr h x.kind x.key (some x.ext) (f s)).2 el with
        | error e => rw [h5] at h3; cases h3
        | ok m' =>
          simp only [h5, ok_bind', keyOf, get_newAttr_attr] at h3
          simp only [h3, mobExt]
      · simp only [hk, if_true, PutIn]
        exact h4

theorem name_puts {h : Heap F} {P : Protos} (hP : ProtosOk h P) (v : Option Str) {el m : Ref} {d : List (Str × Ref)}
    (he : mapOf h el = .ok m) (hm : h.get m = some (.map d)) :
    ∃ h', mobExt (assignNameAt P v h el) = .ok h' ∧ PutIn h h' m (nameAttr v) := by
  exact storeGiven_puts hP .name rfl v .str he hm

theorem model_puts {h : Heap F} {P : Protos} (hP : ProtosOk h P) (v : Option Str) {el m : Ref} {d : List (Str × Ref)}
    (he : mapOf h el = .ok m) (hm : h.get m = some (.map d)) :
    ∃ h', mobExt (assignModelAt P v h el) = .ok h' ∧ PutIn h h' m (modelAttr v) := by
  exact storeGiven_puts hP .model rfl v (fun s => .str (strip s)) he hm

/-! ## Building an element -/

/-- An element and its map among new objects. -/
structure Building {α : Type} (R : Heap F → (Ref → Prop) → α → Ref → Prop) (h0 h : Heap F) (el m : Ref) (o : Obj F)
    (xs : List (Str × α)) : Prop where
  size : h0.size ≤ h.size
  old : ∀ r ob, h0.get r = some ob → h.get r = some ob
  elem : h.get el = some o
  mapOf : mapOf h el = .ok m
  newEl : h0.size ≤ el
  newMap : h0.size ≤ m
  apart : el ≠ m
  map : ∃ d, h.get m = some (.map d) ∧ PairAll (R h fun x => h0.size ≤ x ∧ x ≠ el ∧ x ≠ m) xs d

theorem Building.puts {α : Type} {R : Heap F → (Ref → Prop) → α → Ref → Prop} {inj : Attr F → α}
    (hR : ∀ (h h' : Heap F) (P Q : Ref → Prop) a r, Held h h' P Q → R h P a r → R h' Q a r)
    (hI : ∀ (h : Heap F) (P : Ref → Prop) a r, AttrAt h P a r → R h P (inj a) r)
    {h0 h h' : Heap F} {el m : Ref} {o : Obj F} {xs : List (Str × α)} (hb : Building R h0 h el m o xs) {a : Option (Attr F)}
    (hp : PutIn h h' m a) : Building R h0 h' el m o (putAll inj a xs) := by
  cases a with
  | none => cases hp; exact hb
  | some a =>
    obtain ⟨p1, p2, p3, d, r, p4, p5, p6⟩ := hp
    obtain ⟨d0, b1, b2⟩ := hb.map
    have hlt := get_lt b1
    have hel := get_lt hb.elem
    rw [b1] at p4
    cases p4
    refine ⟨Nat.le_trans hb.size p1, ?_, p3 _ _ hb.apart hb.elem, ?_, hb.newEl, hb.newMap, hb.apart, _, p5, ?_⟩
    · intro x ob hx
      exact p3 _ _ (fun q => by have := get_lt hx; have := hb.newMap; omega) (hb.old _ _ hx)
    · have := hb.mapOf
      unfold Opy.mapOf at this ⊢
      rw [hb.elem] at this
      rw [p3 _ _ hb.apart hb.elem]
      exact this
    · refine PairAll.dset (hI _ _ _ _ (p6.held ?_)) (b2.imp fun x y => hR _ _ _ _ _ _ ?_)
      · intro x ob (hx : h.size ≤ x) ho
        exact ⟨⟨Nat.le_trans hb.size hx, by omega, by omega⟩, ho⟩
      · intro x ob hx ho
        exact ⟨hx, p3 _ _ hx.2.2 ho⟩

theorem Building.putsAttr {h0 h h' : Heap F} {el m : Ref} {o : Obj F} {xs : AttrMap F} (hb : Building AttrAt h0 h el m o xs)
    {a : Option (Attr F)} (hp : PutIn h h' m a) : Building AttrAt h0 h' el m o (putAll id a xs) :=
  hb.puts (fun _ _ _ _ _ _ hk ha => ha.held hk) (fun _ _ _ _ ha => ha) hp

theorem Building.putsRef {srcs : List Ref} {h0 h h' : Heap F} {el m : Ref} {o : Obj F} {xs : List (Str × MRef F)}
    (hb : Building (RefAt srcs) h0 h el m o xs) {a : Option (Attr F)} (hp : PutIn h h' m a) :
    Building (RefAt srcs) h0 h' el m o (putAll .own a xs) :=
  hb.puts (R := RefAt srcs) (inj := MRef.own) (fun _ _ _ _ _ _ hk ha => RefAt.held (MoreSrcs.refl _) hk ha) (fun _ _ _ _ ha => ha) hp

theorem PutIn.drawn {h h' : Heap F} {m : Ref} {a : Option (Attr F)} (hp : PutIn h h' m a) : h'.drawn = h.drawn := by
  cases a with
  | none => cases hp; rfl
  | some a => exact NewIn.drawn hp

/-- A new attribute and its model reference. -/
theorem built {h : Heap F} {P : Protos} (hP : ProtosOk h P) (as : List (Str × Str)) (k : Kind) (key : Str) (e : Option Ext) (v : PyVal F) :
    ∃ h', mobRef P as (newAttr h k key e v).2 (some (h.size + 1)) = .ok h' ∧ h'.drawn = h.drawn ∧
      Building AttrAt h h' (h.size + 1) h.size (.attr k key e v h.size []) (addRef as []) := by
  have h0 : Building AttrAt h (newAttr h k key e v).2 (h.size + 1) h.size (.attr k key e v h.size []) [] :=
    ⟨by rw [size_newAttr]; omega, fun _ _ hr => get_newAttr_old _ _ _ _ hr, get_newAttr_attr .., by
      unfold Opy.mapOf; rw [get_newAttr_attr], by omega, by omega, by omega, [], get_newAttr_map .., rfl⟩
  obtain ⟨d, h1, _⟩ := h0.map
  obtain ⟨h', h2, h3⟩ := mobRef_puts (hP.frame fun _ _ _ _ _ _ _ g => get_newAttr_old _ _ _ _ g) as h0.mapOf h1
  exact ⟨h', h2, by rw [h3.drawn, drawn_newAttr], by rw [addRef_eq]; exact h0.putsAttr h3⟩

theorem Building.openAttr {h0 h : Heap F} {r m : Ref} {k : Kind} {key : Str} {e : Option Ext} {v : PyVal F} {xs : AttrMap F}
    (hk : k.isCollection = false) (hb : Building AttrAt h0 h r m (.attr k key e v m []) xs) :
    OpenAttr h (· = r) (· = m) (fun x => h0.size ≤ x ∧ x ≠ r ∧ x ≠ m) (.mk k key e v xs []) r := by
  obtain ⟨d, h1, h2⟩ := hb.map
  exact ⟨rfl, hk, rfl, m, d, rfl, hb.elem, h1, h2⟩

/-! ## Who owns which object -/

/-- The attributes that the handler is building. -/
inductive Slot where
  | gen | typ | ori
  deriving DecidableEq

/-- The owners of objects: what was there before, an attribute that is being built (it, and its map and what is below), the open entry
(it and its attributes; its map), the open trace (it; its map; what is below), the open log (the same), a log of the result, a source
(all but the map; its map). -/
inductive Tag where
  | old | head (s : Slot) | opn (s : Slot) | ent | entMap | insHead | insMap | ins | proHead | proMap | pro | done (i : Nat) | src (i : Nat)
  | srcMap (i : Nat)
  deriving DecidableEq

/-- The objects of these owners are the same. -/
def SameTags (T : Tag → Prop) (h h' : Heap F) (own own' : Ref → Tag) : Prop :=
  ∀ r o, T (own r) → h.get r = some o → own' r = own r ∧ h'.get r = some o

theorem SameTags.held {T : Tag → Prop} {h h' : Heap F} {own own' : Ref → Tag} (hs : SameTags T h h' own own') {t : Tag} (ht : T t) :
    Held h h' (own · = t) (own' · = t) := by
  intro r o hr ho
  obtain ⟨h1, h2⟩ := hs r o (by rw [hr]; exact ht) ho
  exact ⟨h1.trans hr, h2⟩

/-- Owners of new objects: an element, its map and the rest. -/
def newTags (n : Nat) (el m : Ref) (te tm tb : Tag) (own : Ref → Tag) : Ref → Tag :=
  fun x => if x < n then own x else if x = el then te else if x = m then tm else tb

/-- Nothing here and nothing there, or related things. -/
def OptRel {α : Type} (R : α → Ref → Prop) : Option α → Option Ref → Prop
  | none, none => True
  | some x, some r => R x r
  | _, _ => False

theorem OptRel.imp {α : Type} {R S : α → Ref → Prop} (h : ∀ x r, R x r → S x r) : ∀ {x : Option α} {r : Option Ref}, OptRel R x r → OptRel S x r
  | none, none, _ => trivial
  | some _, some _, q => h _ _ q
  | none, some _, q => q.elim
  | some _, none, q => q.elim

/-- An attribute that is being built. -/
def SlotRel (h : Heap F) (own : Ref → Tag) (s : Slot) : Option (Attr F) → Option Ref → Prop :=
  OptRel (OpenAttr h (own · = .head s) (own · = .opn s) (own · = .opn s))

/-- The open entry. -/
def EntryRel (h : Heap F) (own : Ref → Tag) : Option (Event F) → Option Ref → Prop :=
  OptRel (EventGen h (own · = .ent) (own · = .entMap) (own · = .ent))

/-- The open trace. -/
def InstRel (h : Heap F) (own : Ref → Tag) : Option (Trace F) → Option Ref → Prop :=
  OptRel (TraceGen h (own · = .insHead) (own · = .insMap) (own · = .ins))

/-- The open log. -/
def ProcRel (srcs : List Ref) (h : Heap F) (own : Ref → Tag) : Option (MLog F) → Option Ref → Prop :=
  OptRel (MLogGen srcs h (own · = .proHead) (own · = .proMap) (own · = .pro))

/-- The logs. -/
def LogsRel (srcs : List Ref) (h : Heap F) (own : Ref → Tag) (xs : List (MLog F)) (rs : List Ref) : Prop :=
  xs.length = rs.length ∧ ∀ (i : Nat) x r, xs[i]? = some x → rs[i]? = some r →
    MLogGen srcs h (own · = .done i) (own · = .done i) (own · = .done i) x r

/-- The sources. -/
def SrcsRel (h : Heap F) (own : Ref → Tag) (xs : List (Attr F)) (rs : List Ref) : Prop :=
  xs.length = rs.length ∧ ∀ (i : Nat) x r, xs[i]? = some x → rs[i]? = some r →
    OpenAttr h (own · = .src i) (own · = .srcMap i) (own · = .src i) x r

section
variable {T : Tag → Prop} {h h' : Heap F} {own own' : Ref → Tag}

theorem SlotRel.same {s : Slot} {x : Option (Attr F)} {r : Option Ref} (hr : SlotRel h own s x r) (hs : SameTags T h h' own own')
    (h1 : T (.head s) := by simp) (h2 : T (.opn s) := by simp) : SlotRel h' own' s x r :=
  OptRel.imp (fun _ _ => OpenAttr.held (hs.held h1) (hs.held h2) (hs.held h2)) hr

theorem EntryRel.same {x : Option (Event F)} {r : Option Ref} (hr : EntryRel h own x r) (hs : SameTags T h h' own own')
    (h1 : T .ent := by simp) (h2 : T .entMap := by simp) : EntryRel h' own' x r :=
  OptRel.imp (fun _ _ => EventGen.held (hs.held h1) (hs.held h2) (hs.held h1)) hr

theorem InstRel.same {x : Option (Trace F)} {r : Option Ref} (hr : InstRel h own x r) (hs : SameTags T h h' own own')
    (h1 : T .insHead := by simp) (h2 : T .insMap := by simp) (h3 : T .ins := by simp) : InstRel h' own' x r :=
  OptRel.imp (fun _ _ => TraceGen.held (hs.held h1) (hs.held h2) (hs.held h3)) hr

theorem ProcRel.same {srcs srcs' : List Ref} {x : Option (MLog F)} {r : Option Ref} (hr : ProcRel srcs h own x r)
    (hs : SameTags T h h' own own') (hm : MoreSrcs srcs srcs' := by exact MoreSrcs.refl _)
    (h1 : T .proHead := by simp) (h2 : T .proMap := by simp) (h3 : T .pro := by simp) : ProcRel srcs' h' own' x r :=
  OptRel.imp (fun _ _ => MLogGen.held hm (hs.held h1) (hs.held h2) (hs.held h3)) hr

theorem LogsRel.same {srcs srcs' : List Ref} {x : List (MLog F)} {r : List Ref} (hr : LogsRel srcs h own x r)
    (hs : SameTags T h h' own own') (hm : MoreSrcs srcs srcs' := by exact MoreSrcs.refl _)
    (h1 : ∀ i, T (.done i) := by simp) : LogsRel srcs' h' own' x r :=
  ⟨hr.1, fun i _ _ hx hy => MLogGen.held hm (hs.held (h1 i)) (hs.held (h1 i)) (hs.held (h1 i)) (hr.2 i _ _ hx hy)⟩

theorem SrcsRel.same {x : List (Attr F)} {r : List Ref} (hr : SrcsRel h own x r) (hs : SameTags T h h' own own')
    (h1 : ∀ i, T (.src i) := by simp) (h2 : ∀ i, T (.srcMap i) := by simp) : SrcsRel h' own' x r :=
  ⟨hr.1, fun i _ _ hx hy => OpenAttr.held (hs.held (h1 i)) (hs.held (h2 i)) (hs.held (h1 i)) (hr.2 i _ _ hx hy)⟩

end

/-- The two handlers agree. -/
structure MobRel (h0 : Heap F) (st : MxmlSt F) (hs : MobSt F) (own : Ref → Tag) (srcs : List Ref) : Prop where
  kept : ∀ r o, h0.get r = some o → own r = .old ∧ hs.heap.get r = some o
  drawn : hs.heap.drawn = h0.drawn + st.drawn
  buffer : hs.buffer = st.buffer
  sourceOpen : hs.sourceOpen = st.sourceOpen
  timestamp : hs.timestamp = st.timestamp
  lastTimestamp : hs.lastTimestamp = st.lastTimestamp
  generic : SlotRel hs.heap own .gen st.generic hs.generic
  eventType : SlotRel hs.heap own .typ st.eventType hs.eventType
  originator : SlotRel hs.heap own .ori st.originator hs.originator
  entry : EntryRel hs.heap own st.entry hs.entry
  inst : InstRel hs.heap own st.inst hs.inst
  process : ProcRel srcs hs.heap own st.process hs.process
  logs : LogsRel srcs hs.heap own st.logs hs.logs
  sources : SrcsRel hs.heap own st.sources srcs
  source : hs.source = st.source.bind (srcs[·]?)
  sourceLt : ∀ i, st.source = some i → i < st.sources.length
  sourceKey : ∀ a ∈ st.sources, a.key = py!"source"

theorem MobRel.protos {h0 : Heap F} {st : MxmlSt F} {hs : MobSt F} {own : Ref → Tag} {srcs : List Ref} (R : MobRel h0 st hs own srcs)
    {P : Protos} (hP : MxmlProtos h0 P) : MxmlProtos hs.heap P := hP.frame fun r o hr => (R.kept r o hr).2

theorem kept_same {T : Tag → Prop} {h0 h h' : Heap F} {own own' : Ref → Tag} (hk : ∀ r o, h0.get r = some o → own r = .old ∧ h.get r = some o)
    (hs : SameTags T h h' own own') (h1 : T .old := by simp) : ∀ r o, h0.get r = some o → own' r = .old ∧ h'.get r = some o := by
  intro r o hr
  obtain ⟨h2, h3⟩ := hk r o hr
  exact hs.held h1 r o h2 h3

/-- The outcome of both: they agree, unless the handler on values has met an entry within an entry. -/
def MobSim (h0 : Heap F) (x : Except PyErr (MxmlSt F)) (y : Except PyErr (MobSt F)) : Prop :=
  match x with
  | .ok st => ∃ hs own srcs, y = .ok hs ∧ MobRel h0 st hs own srcs
  | .error e => e ≠ .other → y = .error e

/-! ### New objects -/

theorem sameTags_new {α : Type} {R : Heap F → (Ref → Prop) → α → Ref → Prop} {h h' : Heap F} {el m : Ref} {o : Obj F} {xs : List (Str × α)}
    (hb : Building R h h' el m o xs) (own : Ref → Tag) (te tm tb : Tag) :
    SameTags (fun _ => True) h h' own (newTags h.size el m te tm tb own) := by
  intro r ob _ hr
  exact ⟨by simp [newTags, get_lt hr], hb.old _ _ hr⟩

section
variable {α : Type} {R : Heap F → (Ref → Prop) → α → Ref → Prop} {h h' : Heap F} {el m : Ref} {o : Obj F} {xs : List (Str × α)}

theorem Building.heldEl (hb : Building R h h' el m o xs) (own : Ref → Tag) (te tm tb : Tag) :
    Held h' h' (· = el) (newTags h.size el m te tm tb own · = te) := by
  intro r ob hr hg
  subst hr
  exact ⟨by simp [newTags, Nat.not_lt.2 hb.newEl], hg⟩

theorem Building.heldMap (hb : Building R h h' el m o xs) (own : Ref → Tag) (te tm tb : Tag) :
    Held h' h' (· = m) (newTags h.size el m te tm tb own · = tm) := by
  intro r ob hr hg
  subst hr
  exact ⟨by simp [newTags, Nat.not_lt.2 hb.newMap, hb.apart.symm], hg⟩

theorem Building.heldBody (_ : Building R h h' el m o xs) (own : Ref → Tag) (te tm tb : Tag) :
    Held h' h' (fun x => h.size ≤ x ∧ x ≠ el ∧ x ≠ m) (newTags h.size el m te tm tb own · = tb) := by
  intro r ob hr hg
  exact ⟨by simp [newTags, Nat.not_lt.2 hr.1, hr.2.1, hr.2.2], hg⟩

end

theorem Building.slotRel {h h' : Heap F} {r m : Ref} {k : Kind} {key : Str} {e : Option Ext} {v : PyVal F} {xs : AttrMap F}
    (hb : Building AttrAt h h' r m (.attr k key e v m []) xs) (hk : k.isCollection = false) (own : Ref → Tag) (te tm tb : Tag) :
    OpenAttr h' (newTags h.size r m te tm tb own · = te) (newTags h.size r m te tm tb own · = tm) (newTags h.size r m te tm tb own · = tb)
      (.mk k key e v xs []) r :=
  (hb.openAttr hk).held (hb.heldEl own te tm tb) (hb.heldMap own te tm tb) (hb.heldBody own te tm tb)

/-! ### The starts of elements -/

section
variable {h0 : Heap F} {st : MxmlSt F} {hs : MobSt F} {own : Ref → Tag} {srcs : List Ref} {P : Protos}

/-- The value of a source. -/
def programVal (as : List (Str × Str)) : PyVal F :=
  match dget py!"program" as with
  | some s => .str s
  | none => .none

/-- The value of an event type to begin with. -/
def typeVal (as : List (Str × Str)) : Str :=
  match dget py!"unknowntype" as with
  | some u => if u = [] then py!"UNKNOWN" else u
  | none => py!"UNKNOWN"

theorem startSource_sim (R : MobRel h0 st hs own srcs) (hP : MxmlProtos h0 P) (as : List (Str × Str)) :
    MobSim h0 (.ok (startSource st as)) (mobStartSource P hs as) := by
  obtain ⟨h', q1, q2, q3⟩ := built (R.protos hP).ok as .literal py!"source" none (programVal as)
  have sm := sameTags_new q3 own (.src srcs.length) (.srcMap srcs.length) (.src srcs.length)
  have q4 := q3.slotRel rfl own (.src srcs.length) (.srcMap srcs.length) (.src srcs.length)
  refine ⟨{ hs with heap := h', sourceOpen := true, source := some (hs.heap.size + 1) }, _, srcs ++ [hs.heap.size + 1], ?_, kept_same R.kept sm, q2.trans R.drawn, R.buffer, rfl, R.timestamp, R.lastTimestamp,
    R.generic.same sm, R.eventType.same sm, R.originator.same sm, R.entry.same sm, R.inst.same sm, R.process.same sm (.snoc _ _),
    R.logs.same sm (.snoc _ _), ?_, ?_, ?_, ?_⟩
  · simp only [mobStartSource, fst_newAttr]
    show (mobRef P as (newAttr hs.heap .literal py!"source" none (programVal as)).2 (some (hs.heap.size + 1)) >>= _) = _
    rw [q1]
    rfl
  · have := R.sources.same sm
    refine ⟨by simp [startSource, this.1], fun i x r hx hr => ?_⟩
    simp only [startSource] at hx
    by_cases hi : i < srcs.length
    · rw [List.getElem?_append_left (by rw [this.1]; exact hi)] at hx
      rw [List.getElem?_append_left hi] at hr
      exact this.2 i x r hx hr
    · have hi' : i = srcs.length := by
        have := (List.getElem?_eq_some_iff.1 hr).1
        simp at this
        omega
      subst hi'
      rw [← this.1, List.getElem?_append_right (Nat.le_refl _)] at hx
      rw [List.getElem?_append_right (Nat.le_refl _)] at hr
      simp at hx hr
      subst hx hr
      exact q4
  · simp [startSource, R.sources.1]
  · intro i hi
    simp only [startSource, Option.some.injEq] at hi
    simp [startSource, ← hi]
  · intro a ha
    simp only [startSource, List.mem_append, List.mem_singleton] at ha
    rcases ha with q | rfl
    · exact R.sourceKey a q
    · rfl

theorem startAttribute_sim (R : MobRel h0 st hs own srcs) (hP : MxmlProtos h0 P) (as : List (Str × Str)) :
    MobSim h0 (startAttribute st as) (mobStartAttribute P hs as) := by
  unfold startAttribute mobStartAttribute
  cases dget py!"name" as with
  | none => exact fun _ => rfl
  | some n =>
    obtain ⟨h', q1, q2, q3⟩ := built (R.protos hP).ok as .literal (strip n) none (.str py!"DEFAULT_VALUE")
    have sm := sameTags_new q3 own (.head .gen) (.opn .gen) (.opn .gen)
    refine ⟨{ hs with heap := h', generic := some (hs.heap.size + 1) }, _, srcs, ?_, kept_same R.kept sm, q2.trans R.drawn, R.buffer, R.sourceOpen, R.timestamp, R.lastTimestamp,
      q3.slotRel rfl own _ _ _, R.eventType.same sm, R.originator.same sm, R.entry.same sm, R.inst.same sm, R.process.same sm,
      R.logs.same sm, R.sources.same sm, R.source, R.sourceLt, R.sourceKey⟩
    simp only [fst_newAttr]
    rw [q1]
    rfl

theorem startEventType_sim (R : MobRel h0 st hs own srcs) (hP : MxmlProtos h0 P) (as : List (Str × Str)) :
    MobSim h0 (.ok (startEventType st as)) (mobStartEventType P hs as) := by
  obtain ⟨w, c1, c2⟩ := clone_set (R.protos hP).ok (x := .transition) rfl (.str (typeVal as))
  obtain ⟨h', q1, q2, q3⟩ := built (R.protos hP).ok as .literal py!"lifecycle:transition" (some lifecycleExt) (.str (typeVal as))
  have sm := sameTags_new q3 own (.head .typ) (.opn .typ) (.opn .typ)
  refine ⟨{ hs with heap := h', eventType := some (hs.heap.size + 1) }, _, srcs, ?_, kept_same R.kept sm, q2.trans R.drawn, R.buffer, R.sourceOpen, R.timestamp, R.lastTimestamp,
    R.generic.same sm, q3.slotRel rfl own _ _ _, R.originator.same sm, R.entry.same sm, R.inst.same sm, R.process.same sm,
    R.logs.same sm, R.sources.same sm, R.source, R.sourceLt, R.sourceKey⟩
  simp only [mobStartEventType, c1, ok_bind', fst_newAttr]
  show (setValue _ _ (.str (typeVal as)) >>= _) = _
  rw [c2, ok_bind']
  simp only [ExtAttr.kind, ExtAttr.key, ExtAttr.ext]
  rw [q1]
  rfl

theorem startOriginator_sim (R : MobRel h0 st hs own srcs) (hP : MxmlProtos h0 P) (as : List (Str × Str)) :
    MobSim h0 (.ok (startOriginator st as)) (mobStartOriginator P hs as) := by
  obtain ⟨m, c, c1⟩ := (R.protos hP).resource
  obtain ⟨h', q1, q2, q3⟩ := built (R.protos hP).ok as .literal py!"org:resource" (some orgExt) (.str py!"UNKNOWN")
  have sm := sameTags_new q3 own (.head .ori) (.opn .ori) (.opn .ori)
  refine ⟨{ hs with heap := h', originator := some (hs.heap.size + 1) }, _, srcs, ?_, kept_same R.kept sm, q2.trans R.drawn, R.buffer, R.sourceOpen, R.timestamp, R.lastTimestamp,
    R.generic.same sm, R.eventType.same sm, q3.slotRel rfl own _ _ _, R.entry.same sm, R.inst.same sm, R.process.same sm,
    R.logs.same sm, R.sources.same sm, R.source, R.sourceLt, R.sourceKey⟩
  simp only [mobStartOriginator, cloneAttr, c1, ok_bind', fst_newAttr]
  rw [q1]
  rfl

theorem get_objs (h : Heap F) (os : List (Obj F)) (d : Nat) (i : Nat) : (⟨h.objs ++ os, d⟩ : Heap F).get (h.size + i) = os[i]? := by
  simp only [Heap.get, Heap.size]
  rw [List.getElem?_append_right (by omega)]
  simp

theorem startEntry_sim (rnd : Nat → Uuid) (R : MobRel h0 st hs own srcs) :
    MobSim h0 (.ok (startEntry (fun k => rnd (h0.drawn + k)) st)) (.ok (mobStartEntry rnd hs)) := by
  have e : mobStartEntry rnd hs = { hs with
      heap := ⟨hs.heap.objs ++ [.map [], .map [], .event (rnd hs.heap.drawn) (hs.heap.size + 1)], hs.heap.drawn + 1⟩,
      entry := some (hs.heap.size + 2) } := by
    simp [mobStartEntry, createEvent, newEvent_eq, mapTruthy]
  have hb : Building AttrAt hs.heap ⟨hs.heap.objs ++ [.map [], .map [], .event (rnd hs.heap.drawn) (hs.heap.size + 1)], hs.heap.drawn + 1⟩
      (hs.heap.size + 2) (hs.heap.size + 1) (.event (rnd hs.heap.drawn) (hs.heap.size + 1)) [] :=
    ⟨by simp [Heap.size], fun r o hr => by rw [get_append_left (get_lt hr)]; exact hr, get_objs .., by
      unfold Opy.mapOf; rw [get_objs]; rfl, by omega, by omega, by omega, [], get_objs .., rfl⟩
  have sm := sameTags_new hb own .ent .entMap .ent
  rw [e]
  refine ⟨_, _, srcs, rfl, kept_same R.kept sm, ?_, R.buffer, R.sourceOpen, R.timestamp, R.lastTimestamp,
    R.generic.same sm, R.eventType.same sm, R.originator.same sm, ?_, R.inst.same sm, R.process.same sm,
    R.logs.same sm, R.sources.same sm, R.source, R.sourceLt, R.sourceKey⟩
  · simp only [startEntry, R.drawn]
    omega
  · refine ⟨(hb.heldEl own _ _ _ _ _ rfl hb.elem).1, _, [], (hb.heldMap own _ _ _ _ _ rfl (get_objs hs.heap _ _ 1)).1, ?_,
      get_objs hs.heap _ _ 1, rfl⟩
    rw [hb.elem, R.drawn]

theorem startInstance_sim (R : MobRel h0 st hs own srcs) (hP : MxmlProtos h0 P) (as : List (Str × Str)) :
    MobSim h0 (.ok (startInstance st as)) (mobStartInstance P hs as) := by
  have hb : Building AttrAt hs.heap ⟨hs.heap.objs ++ [.map [], .map [], .trace (hs.heap.size + 1) []], hs.heap.drawn⟩
      (hs.heap.size + 2) (hs.heap.size + 1) (.trace (hs.heap.size + 1) []) [] :=
    ⟨by simp [Heap.size], fun r o hr => by rw [get_append_left (get_lt hr)]; exact hr, get_objs .., by
      unfold Opy.mapOf; rw [get_objs]; rfl, by omega, by omega, by omega, [], get_objs .., rfl⟩
  obtain ⟨d1, g1, _⟩ := hb.map
  obtain ⟨h1, e1, p1⟩ := name_puts ((R.protos hP).frame hb.old).ok (some ((dget py!"id" as).getD py!"None")) hb.mapOf g1
  have hb1 := hb.putsAttr p1
  obtain ⟨d2, g2, _⟩ := hb1.map
  obtain ⟨h2, e2, p2⟩ := mobDescription_puts (fun d => 0 < (strip d).length) as hb1.mapOf g2
  have hb2 := hb1.putsAttr p2
  obtain ⟨d3, g3, _⟩ := hb2.map
  obtain ⟨h3, e3, p3⟩ := mobRef_puts ((R.protos hP).frame hb2.old).ok as hb2.mapOf g3
  have hb3 := hb2.putsAttr p3
  rw [← assignName_eq, ← description_eq, ← addRef_eq] at hb3
  have sm := sameTags_new hb3 own .insHead .insMap .ins
  refine ⟨{ hs with heap := h3, inst := some (hs.heap.size + 2) }, _, srcs, ?_, kept_same R.kept sm, ?_, R.buffer, R.sourceOpen, R.timestamp, R.lastTimestamp,
    R.generic.same sm, R.eventType.same sm, R.originator.same sm, R.entry.same sm, ?_, R.process.same sm,
    R.logs.same sm, R.sources.same sm, R.source, R.sourceLt, R.sourceKey⟩
  · simp only [mobStartInstance, createTrace_none, e1, ok_bind', e2, e3]
  · rw [p3.drawn, p2.drawn, p1.drawn]
    exact R.drawn
  · obtain ⟨d, g, gp⟩ := hb3.map
    exact ⟨(hb3.heldEl own _ _ _ _ _ rfl hb3.elem).1, _, d, [], (hb3.heldMap own _ _ _ _ _ rfl g).1, hb3.elem, g,
      gp.imp fun _ _ => AttrAt.held (hb3.heldBody own _ _ _), rfl⟩

theorem dset_fresh {α : Type} {k : Str} {v : α} : ∀ {m : List (Str × α)}, k ∉ dkeys m → dset k v m = m ++ [(k, v)]
  | [], _ => rfl
  | (n, x) :: m, hk => by
    simp only [dkeys, List.map_cons, List.mem_cons, not_or] at hk
    simp only [Opy.dset, if_neg (Ne.symm hk.1), List.cons_append]
    rw [dset_fresh hk.2]

theorem ownAll_put {m : AttrMap F} {a : Option (Attr F)} {base : List (Str × MRef F)} (hk : ∀ x, a = some x → x.key ∉ dkeys m) :
    ownAll (putAll id a m) base = putAll .own a (ownAll m base) := by
  cases a with
  | none => rfl
  | some a =>
    simp only [putAll, id]
    rw [dset_fresh (hk a rfl)]
    simp [ownAll, List.foldl_append]

theorem putAll_keys {m : AttrMap F} {a : Option (Attr F)} {k : Str} (hk : k ∈ dkeys (putAll id a m)) : k ∈ dkeys m ∨ ∃ x, a = some x ∧ k = x.key := by
  cases a with
  | none => exact .inl hk
  | some a =>
    simp only [putAll, dkeys_dset] at hk
    split at hk
    · exact .inl hk
    · rcases List.mem_append.1 hk with q | q
      · exact .inl q
      · exact .inr ⟨a, rfl, by simpa using q⟩

theorem nameAttr_key {v : Option Str} {x : Attr F} (hx : nameAttr v = some x) : x.key = py!"concept:name" := by
  unfold nameAttr at hx
  split at hx
  · cases hx
  · split at hx
    · cases hx; rfl
    · cases hx

theorem modelAttr_key {v : Option Str} {x : Attr F} (hx : modelAttr v = some x) : x.key = py!"lifecycle:model" := by
  unfold modelAttr at hx
  split at hx
  · cases hx
  · split at hx
    · cases hx; rfl
    · cases hx

theorem descOf_key {keep : Str → Bool} {as : List (Str × Str)} {x : Attr F} (hx : descOf keep as = some x) : x.key = py!"description" := by
  unfold descOf at hx
  split at hx
  · split at hx
    · cases hx; rfl
    · cases hx
  · cases hx

theorem refOf_key {as : List (Str × Str)} {x : Attr F} (hx : refOf as = some x) : x.key = py!"semantic:modelReference" := by
  unfold refOf at hx
  cases h : modelRef as with
  | none => rw [h] at hx; cases hx
  | some v => rw [h] at hx; cases hx; rfl

theorem ownAll_process (as : List (Str × Str)) (keep : Str → Bool) (v w : Option Str) (base : List (Str × MRef F)) :
    ownAll (addRef as (description keep as (assignModel v (assignName w [])))) base =
      putAll .own (refOf as) (putAll .own (descOf keep as) (putAll .own (modelAttr v) (putAll .own (nameAttr w) base))) := by
  rw [addRef_eq, description_eq, assignModel_eq, assignName_eq]
  rw [ownAll_put, ownAll_put, ownAll_put, ownAll_put]
  · rfl
  · intro x _ hx; simp [dkeys] at hx
  · intro x hx hk
    rcases putAll_keys hk with q | ⟨y, hy, q⟩
    · simp [dkeys] at q
    · rw [modelAttr_key hx, nameAttr_key hy] at q; exact absurd q (by decide)
  · intro x hx hk
    rcases putAll_keys hk with q | ⟨y, hy, q⟩
    · rcases putAll_keys q with q | ⟨y, hy, q⟩
      · simp [dkeys] at q
      · rw [descOf_key hx, nameAttr_key hy] at q; exact absurd q (by decide)
    · rw [descOf_key hx, modelAttr_key hy] at q; exact absurd q (by decide)
  · intro x hx hk
    rcases putAll_keys hk with q | ⟨y, hy, q⟩
    · rcases putAll_keys q with q | ⟨y, hy, q⟩
      · rcases putAll_keys q with q | ⟨y, hy, q⟩
        · simp [dkeys] at q
        · rw [refOf_key hx, nameAttr_key hy] at q; exact absurd q (by decide)
      · rw [refOf_key hx, modelAttr_key hy] at q; exact absurd q (by decide)
    · rw [refOf_key hx, descOf_key hy] at q; exact absurd q (by decide)

/-- The extensions of a log that is read. -/
def mxmlExts : List Ext := extAdd timeExt (extAdd semanticExt (extAdd lifecycleExt (extAdd orgExt (extAdd conceptExt []))))

/-- The objects behind the start of a process, before its attributes. -/
def procHeap (h : Heap F) : Heap F :=
  ⟨h.objs ++ [.map [], .map [], .log ⟨h.size + 1, mxmlExts, [], [], [], [], []⟩], h.drawn⟩

theorem startProcess_sim (R : MobRel h0 st hs own srcs) (hP : MxmlProtos h0 P) (as : List (Str × Str)) :
    MobSim h0 (.ok (startProcess st as)) (mobStartProcess P hs as) := by
  have ex : modLog (createLog hs.heap none).2 (some (hs.heap.size + 2)) (fun o => { o with
      extensions := extAdd timeExt (extAdd semanticExt (extAdd lifecycleExt (extAdd orgExt (extAdd conceptExt o.extensions)))) }) =
      .ok (procHeap hs.heap) := by
    rw [createLog_none]
    simp only [modLog, get_objs]
    simp [Heap.put, Heap.size, procHeap, mxmlExts]
  have hb0 : Building (RefAt srcs) hs.heap (procHeap hs.heap) (hs.heap.size + 2) (hs.heap.size + 1)
      (.log ⟨hs.heap.size + 1, mxmlExts, [], [], [], [], []⟩) [] :=
    ⟨by simp [Heap.size, procHeap], fun r o hr => by rw [procHeap, get_append_left (get_lt hr)]; exact hr, get_objs .., by
      unfold Opy.mapOf; rw [procHeap, get_objs]; rfl, by omega, by omega, by omega, [], get_objs .., rfl⟩
  obtain ⟨h1, e1, hd1, hb1⟩ : ∃ h1, (match hs.source with
      | some s => keepAttr (procHeap hs.heap) (some (hs.heap.size + 2)) s
      | none => .ok (procHeap hs.heap)) = .ok h1 ∧ h1.drawn = hs.heap.drawn ∧
      Building (RefAt srcs) hs.heap h1 (hs.heap.size + 2) (hs.heap.size + 1) (.log ⟨hs.heap.size + 1, mxmlExts, [], [], [], [], []⟩)
        (match st.source with
        | some i => [(py!"source", .source i)]
        | none => []) := by
    rw [R.source]
    cases hq : st.source with
    | none => exact ⟨_, rfl, rfl, hb0⟩
    | some i =>
      have hi := R.sourceLt i hq
      have hi' : i < srcs.length := by rw [← R.sources.1]; exact hi
      have hx := List.getElem?_eq_getElem hi
      have hr := List.getElem?_eq_getElem hi'
      obtain ⟨o1, _, _, mr, d, o2, o3, _⟩ := R.sources.2 i _ _ hx hr
      have hkey : (st.sources[i]).key = py!"source" := R.sourceKey _ (List.getElem_mem hi)
      have hn := get_lt o3
      refine ⟨(procHeap hs.heap).put (hs.heap.size + 1) (.map [(py!"source", srcs[i])]), ?_, rfl, ?_⟩
      · simp only [Option.bind_some, hr, keepAttr, hb0.mapOf, ok_bind', keyOf, hb0.old _ _ o3, hkey, mapSet]
        rw [procHeap, get_objs]
        rfl
      · refine ⟨by rw [size_put]; exact hb0.size, fun r ob ho => ?_, ?_, ?_, hb0.newEl, hb0.newMap, hb0.apart, _, get_put_self _ ?_, srcs[i], [], rfl, hr, rfl⟩
        · rw [get_put_ne _ (by have := get_lt ho; omega)]
          exact hb0.old _ _ ho
        · rw [get_put_ne _ (by omega)]; exact hb0.elem
        · have := hb0.mapOf
          unfold Opy.mapOf at this ⊢
          rw [get_put_ne _ (by omega)]; exact this
        · simp [procHeap, Heap.size]
  obtain ⟨d2, g2, _⟩ := hb1.map
  obtain ⟨h2, e2, p2⟩ := name_puts ((R.protos hP).frame hb1.old).ok (dget py!"id" as) hb1.mapOf g2
  have hb2 := hb1.putsRef p2
  obtain ⟨d3, g3, _⟩ := hb2.map
  obtain ⟨h3, e3, p3⟩ := model_puts ((R.protos hP).frame hb2.old).ok (some py!"standard") hb2.mapOf g3
  have hb3 := hb2.putsRef p3
  obtain ⟨d4, g4, _⟩ := hb3.map
  obtain ⟨h4, e4, p4⟩ := mobDescription_puts (fun d => 0 < (pyLower d).length) as hb3.mapOf g4
  have hb4 := hb3.putsRef p4
  obtain ⟨d5, g5, _⟩ := hb4.map
  obtain ⟨h5, e5, p5⟩ := mobRef_puts ((R.protos hP).frame hb4.old).ok as hb4.mapOf g5
  have hb5 := hb4.putsRef p5
  rw [← ownAll_process] at hb5
  have sm := sameTags_new hb5 own .proHead .proMap .pro
  refine ⟨{ hs with heap := h5, process := some (hs.heap.size + 2) }, _, srcs, ?_, kept_same R.kept sm, ?_, R.buffer, R.sourceOpen,
    R.timestamp, R.lastTimestamp, R.generic.same sm, R.eventType.same sm, R.originator.same sm, R.entry.same sm, R.inst.same sm, ?_,
    R.logs.same sm, R.sources.same sm, R.source, R.sourceLt, R.sourceKey⟩
  · simp only [mobStartProcess]
    rw [show (createLog hs.heap none).1 = hs.heap.size + 2 by rw [createLog_none], ex, ok_bind']
    cases hq : hs.source <;> simp only [hq] at e1 ⊢ <;> simp only [e1, ok_bind', e2, e3, e4, e5]
  · show h5.drawn = _
    rw [p5.drawn, p4.drawn, p3.drawn, p2.drawn, hd1]
    exact R.drawn
  · obtain ⟨d, g, gp⟩ := hb5.map
    exact ⟨(hb5.heldEl own _ _ _ _ _ rfl hb5.elem).1, _, d, (hb5.heldMap own _ _ _ _ _ rfl g).1, hb5.elem, g, rfl, rfl, rfl,
      gp.imp fun _ _ => RefAt.held (MoreSrcs.refl _) (hb5.heldBody own _ _ _), rfl, rfl, rfl⟩

end

/-! ### Moving an attribute into an element -/

/-- The owners when the attribute that is being built becomes part of an element. -/
def moved (s : Slot) (t : Tag) (own : Ref → Tag) : Ref → Tag := fun x => if own x = .head s ∨ own x = .opn s then t else own x

theorem SlotRel.setVal {h : Heap F} {own : Ref → Tag} {s : Slot} {a : Attr F} {r : Ref} (hr : SlotRel h own s (some a) (some r)) (v : PyVal F) :
    ∃ h', setValue h r v = .ok h' ∧ h'.drawn = h.drawn ∧ SameTags (· ≠ .head s) h h' own own ∧
      SlotRel h' own s (some (withVal v a)) (some r) := by
  obtain ⟨o1, o2, o3, mr, d, o4, o5, o6, o7⟩ := hr
  have sm : SameTags (· ≠ .head s) h (h.put r (.attr a.kind a.key a.ext v mr [])) own own := by
    intro x o hx ho
    refine ⟨rfl, ?_⟩
    rw [get_put_ne _ (fun q => hx (by rw [q]; exact o1))]
    exact ho
  refine ⟨h.put r (.attr a.kind a.key a.ext v mr []), ?_, rfl, sm, ?_⟩
  · simp only [setValue, o5, o2, Bool.false_eq_true, if_false]
  · cases a
    exact ⟨o1, o2, o3, mr, d, o4, get_put_self _ (get_lt o5), (sm.held (by simp) _ _ o4 o6).2,
      o7.imp fun _ _ => AttrAt.held (sm.held (by simp))⟩

theorem keep_eq {h : Heap F} {x m r : Ref} {d : List (Str × Ref)} {k : Kind} {key : Str} {e : Option Ext} {v : PyVal F} {mr : Ref} {c : List Ref}
    (he : mapOf h x = .ok m) (hm : h.get m = some (.map d)) (hr : h.get r = some (.attr k key e v mr c)) :
    keepAttr h (some x) r = .ok (h.put m (.map (dset key r d))) := by
  simp only [keepAttr, he, ok_bind', keyOf, hr, mapSet, hm]

theorem attach {h : Heap F} {own : Ref → Tag} {s : Slot} {a : Attr F} {r : Ref} (hr : SlotRel h own s (some a) (some r)) {x m : Ref}
    {d : List (Str × Ref)} (he : mapOf h x = .ok m) (hm : h.get m = some (.map d)) (t : Tag) (h1 : own m ≠ .head s) (h2 : own m ≠ .opn s) :
    ∃ h', keepAttr h (some x) r = .ok h' ∧ h'.drawn = h.drawn ∧ h'.get m = some (.map (dset a.key r d)) ∧
      SameTags (fun u => u ≠ own m ∧ u ≠ .head s ∧ u ≠ .opn s) h h' own (moved s t own) ∧ moved s t own m = own m ∧
      AttrAt h' (moved s t own · = t) a r := by
  have hr' := hr
  obtain ⟨o1, o2, o3, mr, d', o4, o5, o6, o7⟩ := hr
  have q : ∀ u, u = .head s ∨ u = .opn s → Held h (h.put m (.map (dset a.key r d))) (own · = u) (moved s t own · = t) := by
    intro u hu y o hy ho
    have hy : own y = u := hy
    refine ⟨by simp only [moved, hy, if_pos hu], ?_⟩
    rw [get_put_ne _ (fun z => by subst z; rcases hu with rfl | rfl; exact h1 hy; exact h2 hy)]
    exact ho
  refine ⟨_, keep_eq he hm o5, rfl, get_put_self _ (get_lt hm), ?_, by simp [moved, h1, h2], OpenAttr.attrAt (q _ (.inl rfl)) (q _ (.inr rfl)) (q _ (.inr rfl)) hr'⟩
  intro y o hy ho
  refine ⟨by simp [moved, hy.2.1, hy.2.2], ?_⟩
  rw [get_put_ne _ (fun z => hy.1 (by rw [z]))]
  exact ho

/-- The same owners for what is kept under the element `t`. -/
theorem entry_attach {h : Heap F} {own : Ref → Tag} {s : Slot} {a : Attr F} {r : Ref} (hr : SlotRel h own s (some a) (some r)) {x : Event F}
    {e : Ref} (he : EntryRel h own (some x) (some e)) :
    ∃ h', keepAttr h (some e) r = .ok h' ∧ h'.drawn = h.drawn ∧
      SameTags (fun u => u ≠ .entMap ∧ u ≠ .head s ∧ u ≠ .opn s) h h' own (moved s .ent own) ∧
      EntryRel h' (moved s .ent own) (some { x with attrs := dset a.key a x.attrs }) (some e) := by
  obtain ⟨e1, m, d, (e2 : own m = .entMap), e3, e4, e5⟩ := he
  obtain ⟨h', a1, a2, a3, a4, a5, a6⟩ := attach hr (x := e) (by unfold mapOf; rw [e3]) e4 .ent (by rw [e2]; simp) (by rw [e2]; simp)
  rw [e2] at a4 a5
  have k := a4.held (t := .ent) (by simp)
  exact ⟨h', a1, a2, a4, (k _ _ e1 e3).1, m, _, a5, (k _ _ e1 e3).2, a3, PairAll.dset a6 (e5.imp fun _ _ => AttrAt.held k)⟩

theorem inst_attach {h : Heap F} {own : Ref → Tag} {s : Slot} {a : Attr F} {r : Ref} (hr : SlotRel h own s (some a) (some r)) {x : Trace F}
    {e : Ref} (he : InstRel h own (some x) (some e)) :
    ∃ h', keepAttr h (some e) r = .ok h' ∧ h'.drawn = h.drawn ∧
      SameTags (fun u => u ≠ .insMap ∧ u ≠ .head s ∧ u ≠ .opn s) h h' own (moved s .ins own) ∧
      InstRel h' (moved s .ins own) (some { x with attrs := dset a.key a x.attrs }) (some e) := by
  obtain ⟨e1, m, d, es, (e2 : own m = .insMap), e3, e4, e5, e6⟩ := he
  obtain ⟨h', a1, a2, a3, a4, a5, a6⟩ := attach hr (x := e) (by unfold mapOf; rw [e3]) e4 .ins (by rw [e2]; simp) (by rw [e2]; simp)
  rw [e2] at a4 a5
  have k := a4.held (t := .insHead) (by simp)
  have k' := a4.held (t := .ins) (by simp)
  exact ⟨h', a1, a2, a4, (k _ _ e1 e3).1, m, _, es, a5, (k _ _ e1 e3).2, a3, PairAll.dset a6 (e5.imp fun _ _ => AttrAt.held k'),
    e6.imp fun _ _ => EventGen.held k' k' k'⟩

theorem proc_attach {srcs : List Ref} {h : Heap F} {own : Ref → Tag} {s : Slot} {a : Attr F} {r : Ref} (hr : SlotRel h own s (some a) (some r)) {x : MLog F}
    {e : Ref} (he : ProcRel srcs h own (some x) (some e)) :
    ∃ h', keepAttr h (some e) r = .ok h' ∧ h'.drawn = h.drawn ∧
      SameTags (fun u => u ≠ .proMap ∧ u ≠ .head s ∧ u ≠ .opn s) h h' own (moved s .pro own) ∧
      ProcRel srcs h' (moved s .pro own) (some { x with attrs := dset a.key (.own a) x.attrs }) (some e) := by
  obtain ⟨e1, o, d, (e2 : own o.map = .proMap), e3, e4, x1, x2, x3, e5, e6, e7, e8⟩ := he
  obtain ⟨h', a1, a2, a3, a4, a5, a6⟩ := attach hr (x := e) (by unfold mapOf; rw [e3]) e4 .pro (by rw [e2]; simp) (by rw [e2]; simp)
  rw [e2] at a4 a5
  have k := a4.held (t := .proHead) (by simp)
  have k' := a4.held (t := .pro) (by simp)
  exact ⟨h', a1, a2, a4, (k _ _ e1 e3).1, o, _, a5, (k _ _ e1 e3).2, a3, x1, x2, x3,
    PairAll.dset (R := RefAt srcs h' _) (a := MRef.own a) a6 (e5.imp fun _ _ => RefAt.held (.refl _) k'),
    e6.imp fun _ _ => AttrAt.held k', e7.imp fun _ _ => AttrAt.held k', e8.imp fun _ _ => TraceGen.held k' k' k'⟩

theorem srcs_attach {srcs : List Ref} {h : Heap F} {own : Ref → Tag} {s : Slot} {a : Attr F} {r : Ref} (hr : SlotRel h own s (some a) (some r))
    {xs : List (Attr F)} (he : SrcsRel h own xs srcs) {i : Nat} {x : Attr F} {e : Ref} (hx : xs[i]? = some x) (hi : srcs[i]? = some e) :
    ∃ h', keepAttr h (some e) r = .ok h' ∧ h'.drawn = h.drawn ∧
      SameTags (fun u => u ≠ .srcMap i ∧ u ≠ .head s ∧ u ≠ .opn s) h h' own (moved s (.src i) own) ∧
      SrcsRel h' (moved s (.src i) own) (xs.modify i fun x => withAttrs (dset a.key a x.attrs) x) srcs := by
  obtain ⟨e1, b1, b2, m, d, (e2 : own m = .srcMap i), e3, e4, e5⟩ := he.2 i x e hx hi
  obtain ⟨h', a1, a2, a3, a4, a5, a6⟩ := attach hr (x := e) (by unfold mapOf; rw [e3]) e4 (.src i) (by rw [e2]; simp) (by rw [e2]; simp)
  rw [e2] at a4 a5
  have k := a4.held (t := .src i) (by simp)
  refine ⟨h', a1, a2, a4, by simp [he.1], fun j y f hy hf => ?_⟩
  rw [List.getElem?_modify] at hy
  by_cases hj : i = j
  · subst hj
    rw [hi] at hf
    cases hf
    rw [hx] at hy
    simp at hy
    subst hy
    cases x
    exact ⟨(k _ _ e1 e3).1, b1, b2, m, _, a5, (k _ _ e1 e3).2, a3, PairAll.dset a6 (e5.imp fun _ _ => AttrAt.held k)⟩
  · simp [hj] at hy
    have k' := a4.held (t := .srcMap j) (by simp [Ne.symm hj])
    have k := a4.held (t := .src j) (by simp)
    exact (he.2 j y f hy hf).held k k' k

theorem entry_store {h h' : Heap F} {own : Ref → Tag} {x : Event F} {e : Ref} (he : EntryRel h own (some x) (some e)) :
    ∃ m d, mapOf h e = .ok m ∧ h.get m = some (.map d) ∧ ∀ a, PutIn h h' m a →
      ∃ own', SameTags (· ≠ .entMap) h h' own own' ∧ EntryRel h' own' (some { x with attrs := putAll id a x.attrs }) (some e) := by
  have he' := he
  obtain ⟨e1, m, d, (e2 : own m = .entMap), e3, e4, e5⟩ := he
  refine ⟨m, d, by unfold mapOf; rw [e3], e4, fun a hp => ?_⟩
  cases a with
  | none => cases hp; exact ⟨own, fun _ _ _ ho => ⟨rfl, ho⟩, he'⟩
  | some a =>
    obtain ⟨p1, p2, p3, d', r, p4, p5, p6⟩ := hp
    rw [e4] at p4
    cases p4
    have sm : SameTags (· ≠ .entMap) h h' own (fun y => if y < h.size then own y else .ent) := by
      intro y o hy ho
      exact ⟨by simp [get_lt ho], p3 _ _ (fun z => hy (by rw [z]; exact e2)) ho⟩
    have k := sm.held (t := .ent) (by simp)
    refine ⟨_, sm, (k _ _ e1 e3).1, m, _, ?_, (k _ _ e1 e3).2, p5, PairAll.dset (p6.held ?_) (e5.imp fun _ _ => AttrAt.held k)⟩
    · simp only [get_lt e4, if_true]; exact e2
    · intro y o (hy : h.size ≤ y) ho
      exact ⟨by simp [Nat.not_lt.2 hy], ho⟩


end

end Opy
