import Verif.Model.HeapSave
import Verif.Props.Api
import Verif.Props.XesTrip
/-
Property C169: what saving a log writes depends only on what the objects show; attributes that lie within themselves cannot be saved.
-/
set_option linter.unusedSectionVars false
namespace Opy

section
variable {F : Type}

/-! ## Specification -/

/-- `s` is written directly inside of `r`: a member of a collection, a meta attribute of another attribute. -/
inductive Below (h : Heap F) : Ref → Ref → Prop where
  | member {r s : Ref} {k : Kind} {key : Str} {e : Option Ext} {v : PyVal F} {m : Ref} {c : List Ref} :
    h.get r = some (.attr k key e v m c) → k.isCollection = true → s ∈ c → Below h r s
  | nested {r s : Ref} {k : Kind} {key : Str} {e : Option Ext} {v : PyVal F} {m : Ref} {c : List Ref} {d : List (Str × Ref)} {n : Str} :
    h.get r = some (.attr k key e v m c) → k.isCollection = false → h.get m = some (.map d) → (n, s) ∈ d → Below h r s

/-- The attributes of an element. -/
def Owns (h : Heap F) (x r : Ref) : Prop := ∃ m d n, mapOf h x = .ok m ∧ h.get m = some (.map d) ∧ (n, r) ∈ d

/-- The attributes that stand directly in the log, its traces, its events, or its lists of global attributes. -/
inductive TopLevel (h : Heap F) (l : Ref) : Ref → Prop where
  | globalTrace {lo : LogObj} {r : Ref} : h.get l = some (.log lo) → r ∈ lo.globalTrace → TopLevel h l r
  | globalEvent {lo : LogObj} {r : Ref} : h.get l = some (.log lo) → r ∈ lo.globalEvent → TopLevel h l r
  | log {r : Ref} : Owns h l r → TopLevel h l r
  | trace {lo : LogObj} {t r : Ref} : h.get l = some (.log lo) → t ∈ lo.traces → Owns h t r → TopLevel h l r
  | event {lo : LogObj} {t m e r : Ref} {es : List Ref} : h.get l = some (.log lo) → t ∈ lo.traces → h.get t = some (.trace m es) → e ∈ es →
    Owns h e r → TopLevel h l r

/-- Some attribute that belongs to the log lies within itself. -/
def HasLoop (h : Heap F) (l : Ref) : Prop :=
  ∃ s r, TopLevel h l s ∧ (s = r ∨ Relation.TransGen (Below h) s r) ∧ Relation.TransGen (Below h) r r

mutual
/-- The object shows this tree, as far as files show it: the members of collections and the meta attributes of other attributes. -/
def Sees (h : Heap F) : Attr F → Ref → Prop
  | .mk k key e v m c, r => ∃ mr cr, h.get r = some (.attr k key e v mr cr) ∧
      if k.isCollection then m = [] ∧ SeesList h c cr else c = [] ∧ ∃ d, h.get mr = some (.map d) ∧ SeesMap h m d
/-- The same for the entries of a map. -/
def SeesMap (h : Heap F) : List (Str × Attr F) → List (Str × Ref) → Prop
  | [], d => d = []
  | (n, x) :: m, d => ∃ r d', d = (n, r) :: d' ∧ Sees h x r ∧ SeesMap h m d'
/-- The same for a list. -/
def SeesList (h : Heap F) : List (Attr F) → List Ref → Prop
  | [], rs => rs = []
  | x :: xs, rs => ∃ r rs', rs = r :: rs' ∧ Sees h x r ∧ SeesList h xs rs'
end

/-- The event shows this. -/
def SeesEvent (h : Heap F) (x : Event F) (e : Ref) : Prop :=
  ∃ m d, h.get e = some (.event x.id m) ∧ h.get m = some (.map d) ∧ SeesMap h x.attrs d

/-- The trace shows this. -/
def SeesTrace (h : Heap F) (x : Trace F) (t : Ref) : Prop :=
  ∃ m d es, h.get t = some (.trace m es) ∧ h.get m = some (.map d) ∧ SeesMap h x.attrs d ∧ DenAll (SeesEvent h) x.events es

/-- The log shows this. -/
def SeesLog (h : Heap F) (x : Log F) (l : Ref) : Prop :=
  ∃ lo d, h.get l = some (.log lo) ∧ h.get lo.map = some (.map d) ∧ lo.extensions = x.extensions ∧ lo.classifiers = x.classifiers ∧
    lo.features = x.features ∧ SeesMap h x.attrs d ∧ SeesList h x.globalTrace lo.globalTrace ∧ SeesList h x.globalEvent lo.globalEvent ∧
    DenAll (SeesTrace h) x.traces lo.traces

mutual
/-- How deep attributes are nested below an attribute (an empty collection counts as one level). -/
def Attr.levels : Attr F → Nat
  | .mk k _ _ _ m c => if k.isCollection then levelsList c + 1 else if m = [] then 0 else levelsMap m + 1
/-- The same for the entries of a map. -/
def levelsMap : List (Str × Attr F) → Nat
  | [] => 0
  | (_, x) :: m => max x.levels (levelsMap m)
/-- The same for a list. -/
def levelsList : List (Attr F) → Nat
  | [] => 0
  | x :: xs => max x.levels (levelsList xs)
end

/-- The greatest of the numbers. -/
def most {α : Type} (f : α → Nat) : List α → Nat
  | [] => 0
  | x :: xs => max (f x) (most f xs)

/-- How deep attributes are nested in a log: one level if no attribute has meta attributes or members. -/
def Log.levels (x : Log F) : Nat :=
  1 + max (max (levelsList x.globalTrace) (levelsList x.globalEvent))
    (max (levelsMap x.attrs) (most (fun t => max (levelsMap t.attrs) (most (fun e => levelsMap e.attrs) t.events)) x.traces))

/-- With enough levels the outcomes agree; with too few, the first one is the same exception or a RecursionError. -/
def UpTo {α : Type} (n need : Nat) (a b : Except PyErr α) : Prop :=
  (need ≤ n → a = b) ∧ (n < need → a = .error .recursionError ∨ ∃ e, a = .error e ∧ b = .error e)

section
variable [PyFloat F]

/-! ## Saving what the objects show -/

theorem UpTo.ok {α : Type} {n : Nat} {x : α} : UpTo n 0 (.ok x) (.ok x) := ⟨fun _ => rfl, fun h => by omega⟩

theorem UpTo.same {α : Type} {n need : Nat} {a : Except PyErr α} (h : ¬ need ≤ n → a = .error .recursionError) : UpTo n need a a :=
  ⟨fun _ => rfl, fun hn => Or.inl (h (by omega))⟩

theorem UpTo.bind {α β : Type} {n p q : Nat} {a b : Except PyErr α} {f g : α → Except PyErr β} (h1 : UpTo n p a b)
    (h2 : ∀ x, b = .ok x → UpTo n q (f x) (g x)) : UpTo n (max p q) (a >>= f) (b >>= g) := by
  by_cases hp : p ≤ n
  · rw [h1.1 hp]
    cases hb : b with
    | error e => exact ⟨fun _ => rfl, fun _ => Or.inr ⟨e, rfl, rfl⟩⟩
    | ok x =>
      have := h2 x hb
      exact ⟨fun h => this.1 (by omega), fun h => this.2 (by omega)⟩
  · refine ⟨fun h => by omega, fun _ => ?_⟩
    rcases h1.2 (by omega) with e | ⟨e, e1, e2⟩
    · rw [e]; exact Or.inl rfl
    · rw [e1, e2]; exact Or.inr ⟨e, rfl, rfl⟩

theorem UpTo.map {α β : Type} {n p : Nat} {a b : Except PyErr α} {f : α → Except PyErr β} (h1 : UpTo n p a b) :
    UpTo n p (a >>= f) (b >>= f) := by
  refine ⟨fun h => by rw [h1.1 h], fun h => ?_⟩
  rcases h1.2 h with e | ⟨e, e1, e2⟩
  · rw [e]; exact Or.inl rfl
  · rw [e1, e2]; exact Or.inr ⟨e, rfl, rfl⟩

theorem ok_bind' {α β : Type} (x : α) (f : α → Except PyErr β) : ((.ok x : Except PyErr α) >>= f) = f x := rfl

theorem attrStr_alone {k : Kind} (hk : k.isCollection = false) (key : Str) (e : Option Ext) (v : PyVal F) (m m' : List (Str × Attr F))
    (c c' : List (Attr F)) : attrStr (.mk k key e v m c) = attrStr (.mk k key e v m' c') := by
  cases k <;> first | rfl | (cases hk; done) | (cases v <;> rfl) | simp [attrStr]

/-- The body of the loop of add_attributes. -/
def attrElem (h : Heap F) (n : Nat) (r : Ref) : Except PyErr Xml :=
  match h.get r with
  | some (.attr k key e v m c) =>
    if k.isCollection then do
      let ks ← addAttributes h n c
      .ok (.elem k.tag [(py!"key", key)] ks)
    else do
      let s ← attrStr (.mk k key e v [] [])
      let d ← entries h m
      let ks ← if d = [] then .ok [] else addAttributes h n (d.map (·.2))
      .ok (.elem k.tag [(py!"key", key), (py!"value", s)] ks)
  | _ => .error .attributeError

theorem addAttributes_succ (h : Heap F) (n : Nat) (rs : List Ref) : addAttributes h (n + 1) rs = eachXml (attrElem h n) rs := rfl

theorem add_zero_upTo (h : Heap F) (rs : List Ref) {p : Nat} {b : Except PyErr (List Xml)} : UpTo 0 (p + 1) (addAttributes h 0 rs) b :=
  ⟨fun h => by omega, fun _ => Or.inl rfl⟩

mutual
theorem attrElem_sees {h : Heap F} (n : Nat) : ∀ {x : Attr F} {r : Ref}, Sees h x r → UpTo n x.levels (attrElem h n r) (attrXml x)
  | .mk k key e v m c, r, hs => by
    simp only [Sees] at hs
    obtain ⟨mr, cr, g, hs⟩ := hs
    cases hk : k.isCollection with
    | true =>
      rw [if_pos hk] at hs
      simp only [attrElem, g, attrXml, Attr.levels, if_pos hk]
      refine UpTo.map ?_
      cases n with
      | zero => exact add_zero_upTo h cr
      | succ n =>
        have := eachXml_list n hs.2
        rw [addAttributes_succ]
        exact ⟨fun q => this.1 (by omega), fun q => this.2 (by omega)⟩
    | false =>
      have hk' : ¬ k.isCollection = true := by rw [hk]; simp
      rw [if_neg hk'] at hs
      obtain ⟨rfl, d, gd, hs⟩ := hs
      simp only [attrElem, g, attrXml, Attr.levels, if_neg hk', entries, gd]
      rw [attrStr_alone hk key e v m [] [] []]
      cases hst : attrStr (.mk k key e v [] []) with
      | error er => exact ⟨fun _ => rfl, fun _ => Or.inr ⟨er, rfl, rfl⟩⟩
      | ok s =>
        simp only [ok_bind']
        cases m with
        | nil =>
          simp only [SeesMap] at hs
          subst hs
          exact UpTo.ok
        | cons p m' =>
          have hd : d ≠ [] := by
            obtain ⟨_, _, rfl, _⟩ := hs
            simp
          rw [if_neg hd, if_neg (by simp)]
          refine UpTo.map ?_
          cases n with
          | zero => exact add_zero_upTo h _
          | succ n =>
            have := eachXml_map n hs
            rw [addAttributes_succ]
            exact ⟨fun q => this.1 (by omega), fun q => this.2 (by omega)⟩
theorem eachXml_map {h : Heap F} (n : Nat) : ∀ {m : List (Str × Attr F)} {d : List (Str × Ref)}, SeesMap h m d →
    UpTo n (levelsMap m) (eachXml (attrElem h n) (d.map (·.2))) (mapXml m)
  | [], d, hs => by
    simp only [SeesMap] at hs
    subst hs
    exact UpTo.ok
  | (nm, x) :: m, d, hs => by
    simp only [SeesMap] at hs
    obtain ⟨r, d', rfl, h1, h2⟩ := hs
    exact (attrElem_sees n h1).bind fun _ _ => (eachXml_map n h2).map
theorem eachXml_list {h : Heap F} (n : Nat) : ∀ {xs : List (Attr F)} {rs : List Ref}, SeesList h xs rs →
    UpTo n (levelsList xs) (eachXml (attrElem h n) rs) (attrsXml xs)
  | [], rs, hs => by
    simp only [SeesList] at hs
    subst hs
    exact UpTo.ok
  | x :: xs, rs, hs => by
    simp only [SeesList] at hs
    obtain ⟨r, rs', rfl, h1, h2⟩ := hs
    exact (attrElem_sees n h1).bind fun _ _ => (eachXml_list n h2).map
end

theorem addMap_upTo {h : Heap F} (n : Nat) {m : List (Str × Attr F)} {d : List (Str × Ref)} (hs : SeesMap h m d) :
    UpTo n (1 + levelsMap m) (addAttributes h n (d.map (·.2))) (mapXml m) := by
  cases n with
  | zero => rw [Nat.add_comm]; exact add_zero_upTo h _
  | succ n =>
    have := eachXml_map n hs
    exact ⟨fun q => this.1 (by omega), fun q => this.2 (by omega)⟩

theorem addList_upTo {h : Heap F} (n : Nat) {m : List (Attr F)} {d : List Ref} (hs : SeesList h m d) :
    UpTo n (1 + levelsList m) (addAttributes h n d) (attrsXml m) := by
  cases n with
  | zero => rw [Nat.add_comm]; exact add_zero_upTo h _
  | succ n =>
    have := eachXml_list n hs
    exact ⟨fun q => this.1 (by omega), fun q => this.2 (by omega)⟩


theorem globals_upTo {h : Heap F} (n : Nat) (scope : Str) {m : List (Attr F)} {d : List Ref} (hs : SeesList h m d) :
    UpTo n (if m = [] then 0 else 1 + levelsList m) (globalElems h n scope d) (globalXml scope m) := by
  cases m with
  | nil =>
    simp only [SeesList] at hs
    subst hs
    exact UpTo.ok
  | cons x xs =>
    have ha := addList_upTo n hs
    obtain ⟨r, rs, rfl, _⟩ := hs
    simp only [globalElems, globalXml, List.length_cons, Nat.succ_pos, if_true, gt_iff_lt, reduceCtorEq, if_false]
    exact ha.map

theorem own_upTo {h : Heap F} (n : Nat) {x m : Ref} {d : List (Str × Ref)} {as : List (Str × Attr F)} (hx : mapOf h x = .ok m)
    (hm : h.get m = some (.map d)) (hs : SeesMap h as d) : UpTo n (1 + levelsMap as) (addOwn h n x) (mapXml as) := by
  simp only [addOwn, hx, entries, hm, ok_bind']
  exact addMap_upTo n hs

theorem events_upTo {h : Heap F} (n : Nat) : ∀ {xs : List (Event F)} {es : List Ref}, DenAll (SeesEvent h) xs es →
    UpTo n (most (fun e => 1 + levelsMap e.attrs) xs) (eachXml (eventElem h n) es) (eventsXml xs)
  | [], es, hs => by
    simp only [DenAll] at hs
    subst hs
    exact UpTo.ok
  | x :: xs, es, hs => by
    obtain ⟨e, es, rfl, ⟨m, d, g1, g2, g3⟩, h2⟩ := hs
    have h1 : UpTo n (1 + levelsMap x.attrs) (eventElem h n e) (mapXml x.attrs >>= fun ks => .ok (.elem py!"event" [] ks)) :=
      (own_upTo n (by simp only [mapOf, g1]) g2 g3).map
    have := h1.bind (f := fun y => eachXml (eventElem h n) es >>= fun ys => .ok (y :: ys))
      (g := fun y => eventsXml xs >>= fun ys => .ok (y :: ys)) fun _ _ => (events_upTo n h2).map
    simp only [eachXml, eventsXml, most]
    simpa only [bind_assoc, ok_bind'] using this

theorem traces_upTo {h : Heap F} (n : Nat) : ∀ {xs : List (Trace F)} {ts : List Ref}, DenAll (SeesTrace h) xs ts →
    UpTo n (most (fun t => max (1 + levelsMap t.attrs) (most (fun e => 1 + levelsMap e.attrs) t.events)) xs) (eachXml (traceElem h n) ts)
      (tracesXml xs)
  | [], ts, hs => by
    simp only [DenAll] at hs
    subst hs
    exact UpTo.ok
  | x :: xs, ts, hs => by
    obtain ⟨t, ts, rfl, ⟨m, d, es, g1, g2, g3, g4⟩, h2⟩ := hs
    have h1 : UpTo n (max (1 + levelsMap x.attrs) (most (fun e => 1 + levelsMap e.attrs) x.events)) (traceElem h n t)
        (mapXml x.attrs >>= fun ks => eventsXml x.events >>= fun es => .ok (.elem py!"trace" [] (ks ++ es))) := by
      simp only [traceElem, g1]
      exact (own_upTo n (by simp only [mapOf, g1]) g2 g3).bind fun _ _ => (events_upTo n g4).map
    have := h1.bind (f := fun y => eachXml (traceElem h n) ts >>= fun ys => .ok (y :: ys))
      (g := fun y => tracesXml xs >>= fun ys => .ok (y :: ys)) fun _ _ => (traces_upTo n h2).map
    simp only [eachXml, tracesXml, most]
    simpa only [bind_assoc, ok_bind'] using this

theorem most_add {α : Type} (f : α → Nat) : ∀ xs : List α, max 1 (most (fun x => 1 + f x) xs) = 1 + most f xs
  | [] => rfl
  | x :: xs => by
    have := most_add f xs
    simp only [most]
    omega

theorem most_cut {α : Type} {f g : α → Nat} (h : ∀ x, max 1 (f x) = max 1 (g x)) : ∀ xs : List α, max 1 (most f xs) = max 1 (most g xs)
  | [] => rfl
  | x :: xs => by
    have := most_cut h xs
    have := h x
    simp only [most]
    omega

theorem log_upTo {h : Heap F} (n : Nat) {x : Log F} {l : Ref} (hs : SeesLog h x l) : UpTo n x.levels (saveObjects h n l) (serializeXes x) := by
  obtain ⟨lo, d, g1, g2, g3, g4, _, g5, g6, g7, g8⟩ := hs
  have := (globals_upTo n py!"trace" g6).bind (f := fun gt => globalElems h n py!"event" lo.globalEvent >>= fun ge => addOwn h n l >>= fun as =>
      eachXml (traceElem h n) lo.traces >>= fun ts => .ok (Xml.elem py!"log" versionAttrs
        (lo.extensions.map extXml ++ gt ++ ge ++ lo.classifiers.map classifierXml ++ as ++ ts)))
    fun gt _ => (globals_upTo n py!"event" g7).bind fun ge _ => (own_upTo n (x := l) (by simp only [mapOf, g1]) g2 g5).bind fun as _ =>
      (traces_upTo n g8).map
  have e : x.levels = max (if x.globalTrace = [] then 0 else 1 + levelsList x.globalTrace)
      (max (if x.globalEvent = [] then 0 else 1 + levelsList x.globalEvent) (max (1 + levelsMap x.attrs)
        (most (fun t => max (1 + levelsMap t.attrs) (most (fun e => 1 + levelsMap e.attrs) t.events)) x.traces))) := by
    have a1 : ∀ y : List (Attr F), max 1 (if y = [] then 0 else 1 + levelsList y) = 1 + levelsList y := by
      intro y
      cases y with
      | nil => rfl
      | cons y ys => simp only [reduceCtorEq, if_false]; omega
    have a2 := most_add (fun t : Trace F => max (levelsMap t.attrs) (most (fun e => levelsMap e.attrs) t.events)) x.traces
    have a3 := most_cut (f := fun t : Trace F => max (1 + levelsMap t.attrs) (most (fun e => 1 + levelsMap e.attrs) t.events))
      (g := fun t : Trace F => 1 + max (levelsMap t.attrs) (most (fun e => levelsMap e.attrs) t.events)) (by
        intro t
        have := most_add (fun e : Event F => levelsMap e.attrs) t.events
        omega) x.traces
    have := a1 x.globalTrace
    have := a1 x.globalEvent
    simp only [Log.levels]
    omega
  rw [e]
  simp only [saveObjects, g1, serializeXes, ← g3, ← g4]
  exact this

/-! ## When the objects show a tree -/

theorem seesList_mem {h : Heap F} : ∀ {xs : List (Attr F)} {rs : List Ref}, SeesList h xs rs → ∀ s ∈ rs, ∃ y, Sees h y s ∧ y.levels ≤ levelsList xs
  | [], rs, hs, s, hm => by
    simp only [SeesList] at hs
    subst hs
    cases hm
  | x :: xs, rs, hs, s, hm => by
    simp only [SeesList] at hs
    obtain ⟨r, rs', rfl, h1, h2⟩ := hs
    rcases List.mem_cons.mp hm with rfl | hm
    · exact ⟨x, h1, by simp only [levelsList]; omega⟩
    · obtain ⟨y, y1, y2⟩ := seesList_mem h2 s hm
      exact ⟨y, y1, by simp only [levelsList]; omega⟩

theorem seesMap_mem {h : Heap F} : ∀ {xs : List (Str × Attr F)} {d : List (Str × Ref)}, SeesMap h xs d → ∀ p ∈ d,
    ∃ y, Sees h y p.2 ∧ y.levels ≤ levelsMap xs
  | [], rs, hs, s, hm => by
    simp only [SeesMap] at hs
    subst hs
    cases hm
  | (n, x) :: xs, rs, hs, s, hm => by
    simp only [SeesMap] at hs
    obtain ⟨r, rs', rfl, h1, h2⟩ := hs
    rcases List.mem_cons.mp hm with rfl | hm
    · exact ⟨x, h1, by simp only [levelsMap]; omega⟩
    · obtain ⟨y, y1, y2⟩ := seesMap_mem h2 s hm
      exact ⟨y, y1, by simp only [levelsMap]; omega⟩

theorem sees_below {h : Heap F} {x : Attr F} {r s : Ref} (hs : Sees h x r) (hb : Below h r s) : ∃ y, Sees h y s ∧ y.levels < x.levels := by
  obtain ⟨k, key, e, v, m, c⟩ := x
  simp only [Sees] at hs
  obtain ⟨mr, cr, g, hs⟩ := hs
  cases hb with
  | member g' hk hm =>
    rw [g] at g'
    cases g'
    rw [if_pos hk] at hs
    obtain ⟨y, y1, y2⟩ := seesList_mem hs.2 s hm
    exact ⟨y, y1, by simp only [Attr.levels, if_pos hk]; omega⟩
  | nested g' hk gd hm =>
    rw [g] at g'
    cases g'
    have hk' : ¬ k.isCollection = true := by rw [hk]; simp
    rw [if_neg hk'] at hs
    obtain ⟨_, d, gd', hs⟩ := hs
    rw [gd] at gd'
    cases gd'
    obtain ⟨y, y1, y2⟩ := seesMap_mem hs _ hm
    refine ⟨y, y1, ?_⟩
    have : m ≠ [] := by
      rintro rfl
      simp only [SeesMap] at hs
      subst hs
      cases hm
    simp only [Attr.levels, if_neg hk', if_neg this]
    omega

theorem sees_within {h : Heap F} {r s : Ref} (hb : Relation.TransGen (Below h) r s) : ∀ {x : Attr F}, Sees h x r → ∃ y, Sees h y s ∧ y.levels < x.levels := by
  induction hb with
  | single hb => exact fun hs => sees_below hs hb
  | tail _ hb ih =>
    intro x hs
    obtain ⟨y, y1, y2⟩ := ih hs
    obtain ⟨z, z1, z2⟩ := sees_below y1 hb
    exact ⟨z, z1, by omega⟩

theorem loop_unseen {h : Heap F} {r : Ref} (hl : Relation.TransGen (Below h) r r) : ∀ (n : Nat) {x : Attr F}, x.levels < n → ¬ Sees h x r
  | 0, _, hn => by omega
  | n + 1, x, hn => fun hs => by
    obtain ⟨y, y1, y2⟩ := sees_within hl hs
    exact loop_unseen hl n (by omega) y1

/-- A log that shows a tree has no attribute that lies within itself. -/
theorem seesLog_noLoop {h : Heap F} {x : Log F} {l : Ref} (hs : SeesLog h x l) : ¬ HasLoop h l := by
  rintro ⟨s, r, ht, hr, hl⟩
  obtain ⟨lo, d, g1, g2, _, _, _, g5, g6, g7, g8⟩ := hs
  have own : ∀ {y m : Ref} {d : List (Str × Ref)} {as : List (Str × Attr F)}, mapOf h y = .ok m → h.get m = some (.map d) → SeesMap h as d →
      Owns h y s → ∃ z, Sees h z s := by
    intro y m d as e1 e2 e3 ho
    obtain ⟨m', d', n, f1, f2, f3⟩ := ho
    rw [e1] at f1
    cases f1
    rw [e2] at f2
    cases f2
    obtain ⟨z, z1, _⟩ := seesMap_mem e3 _ f3
    exact ⟨z, z1⟩
  have all : ∀ {α : Type} {P : α → Ref → Prop} {xs : List α} {rs : List Ref}, DenAll P xs rs → ∀ s ∈ rs, ∃ y, P y s := by
    intro α P xs
    induction xs with
    | nil =>
      intro rs hs s hm
      simp only [DenAll] at hs
      subst hs
      cases hm
    | cons y ys ih =>
      intro rs hs s hm
      obtain ⟨r, rs', rfl, h1, h2⟩ := hs
      rcases List.mem_cons.mp hm with rfl | hm
      · exact ⟨y, h1⟩
      · exact ih h2 s hm
  have hz : ∃ z, Sees h z s := by
    cases ht with
    | globalTrace g hm =>
      rw [g1] at g
      cases g
      obtain ⟨z, z1, _⟩ := seesList_mem g6 s hm
      exact ⟨z, z1⟩
    | globalEvent g hm =>
      rw [g1] at g
      cases g
      obtain ⟨z, z1, _⟩ := seesList_mem g7 s hm
      exact ⟨z, z1⟩
    | log ho => exact own (y := l) (m := lo.map) (by simp only [mapOf, g1]) g2 g5 ho
    | trace g hm ho =>
      rw [g1] at g
      cases g
      obtain ⟨y, m, d, es, e1, e2, e3, _⟩ := all g8 _ hm
      exact own (by simp only [mapOf, e1]) e2 e3 ho
    | event g hm ge he ho =>
      rw [g1] at g
      cases g
      obtain ⟨y, m, d, es, e1, e2, _, e4⟩ := all g8 _ hm
      rw [e1] at ge
      cases ge
      obtain ⟨y, m, d, e1, e2, e3⟩ := all e4 _ he
      exact own (by simp only [mapOf, e1]) e2 e3 ho
  obtain ⟨z, hz⟩ := hz
  rcases hr with rfl | hr
  · exact loop_unseen hl _ (Nat.lt_succ_self _) hz
  · obtain ⟨y, y1, _⟩ := sees_within hr hz
    exact loop_unseen hl _ (Nat.lt_succ_self _) y1

theorem seesList_of {h : Heap F} : ∀ {rs : List Ref}, (∀ s ∈ rs, ∃ x, Sees h x s) → ∃ xs, SeesList h xs rs
  | [], _ => ⟨[], rfl⟩
  | r :: rs, hs => by
    obtain ⟨x, hx⟩ := hs r (by simp)
    obtain ⟨xs, hxs⟩ := seesList_of (rs := rs) fun s hm => hs s (by simp [hm])
    exact ⟨x :: xs, by simp only [SeesList]; exact ⟨r, rs, rfl, hx, hxs⟩⟩

theorem seesMap_of {h : Heap F} : ∀ {d : List (Str × Ref)}, (∀ p ∈ d, ∃ x, Sees h x p.2) → ∃ m, SeesMap h m d
  | [], _ => ⟨[], rfl⟩
  | (n, r) :: d, hs => by
    obtain ⟨x, hx⟩ := hs (n, r) (by simp)
    obtain ⟨m, hm⟩ := seesMap_of (d := d) fun s hm => hs s (by simp [hm])
    exact ⟨(n, x) :: m, by simp only [SeesMap]; exact ⟨r, d, rfl, hx, hm⟩⟩

theorem denAll_of {α : Type} {P : α → Ref → Prop} : ∀ {rs : List Ref}, (∀ s ∈ rs, ∃ x, P x s) → ∃ xs, DenAll P xs rs
  | [], _ => ⟨[], rfl⟩
  | r :: rs, hs => by
    obtain ⟨x, hx⟩ := hs r (by simp)
    obtain ⟨xs, hxs⟩ := denAll_of (rs := rs) fun s hm => hs s (by simp [hm])
    exact ⟨x :: xs, r, rs, rfl, hx, hxs⟩

/-- An attribute shows a tree if everything directly below it does. -/
theorem sees_of_below {h : Heap F} {r : Ref} {k : Kind} {key : Str} {e : Option Ext} {v : PyVal F} {m : Ref} {c : List Ref}
    (g : h.get r = some (.attr k key e v m c)) (hm : k.isCollection = false → ∃ d, h.get m = some (.map d))
    (hb : ∀ s, Below h r s → ∃ x, Sees h x s) : ∃ x, Sees h x r := by
  cases hk : k.isCollection with
  | true =>
    obtain ⟨xs, hxs⟩ := seesList_of fun s hs => hb s (.member g hk hs)
    exact ⟨.mk k key e v [] xs, by simp only [Sees]; exact ⟨m, c, g, by rw [if_pos hk]; exact ⟨trivial, hxs⟩⟩⟩
  | false =>
    obtain ⟨d, gd⟩ := hm hk
    obtain ⟨xs, hxs⟩ := seesMap_of (d := d) fun p hp => hb p.2 (.nested (n := p.1) g hk gd hp)
    exact ⟨.mk k key e v xs [], by simp only [Sees]; exact ⟨m, c, g, by rw [if_neg (by rw [hk]; simp)]; exact ⟨trivial, d, gd, hxs⟩⟩⟩

theorem eachXml_ok {f : Ref → Except PyErr Xml} : ∀ {rs : List Ref} {ys : List Xml}, eachXml f rs = .ok ys → ∀ r ∈ rs, ∃ y, f r = .ok y
  | [], _, _, _, hm => by cases hm
  | r :: rs, ys, he, s, hm => by
    simp only [eachXml] at he
    obtain ⟨y, h1, h2⟩ := bind_ok.mp he
    obtain ⟨zs, h3, _⟩ := bind_ok.mp h2
    rcases List.mem_cons.mp hm with rfl | hm
    · exact ⟨y, h1⟩
    · exact eachXml_ok h3 s hm

theorem attrElem_ok {h : Heap F} : ∀ (n : Nat) {r : Ref} {y : Xml}, attrElem h n r = .ok y → ∃ x, Sees h x r := by
  intro n
  induction n with
  | zero =>
    intro r y hy
    unfold attrElem at hy
    split at hy
    · next k key e v m c g =>
      split at hy
      · next hk => cases hy
      · next hk =>
        obtain ⟨s, _, h2⟩ := bind_ok.mp hy
        obtain ⟨d, h3, h4⟩ := bind_ok.mp h2
        simp only [entries] at h3
        split at h3
        · next d' gd =>
          cases h3
          refine sees_of_below g (fun _ => ⟨_, gd⟩) fun s hb => ?_
          cases hb with
          | member g' hk' _ => rw [g] at g'; cases g'; exact (hk hk').elim
          | nested g' _ gd' hm =>
            rw [g] at g'
            cases g'
            rw [gd] at gd'
            cases gd'
            split at h4
            · next e => subst e; cases hm
            · cases h4
        · cases h3
    · cases hy
  | succ n ih =>
    intro r y hy
    unfold attrElem at hy
    split at hy
    · next k key e v m c g =>
      split at hy
      · next hk =>
        obtain ⟨ks, h1, _⟩ := bind_ok.mp hy
        refine sees_of_below g (fun q => by rw [hk] at q; cases q) fun s hb => ?_
        cases hb with
        | member g' _ hm =>
          rw [g] at g'
          cases g'
          obtain ⟨y, hy⟩ := eachXml_ok h1 s hm
          exact ih hy
        | nested g' hk' _ _ => rw [g] at g'; cases g'; rw [hk] at hk'; cases hk'
      · next hk =>
        obtain ⟨s, _, h2⟩ := bind_ok.mp hy
        obtain ⟨d, h3, h4⟩ := bind_ok.mp h2
        simp only [entries] at h3
        split at h3
        · next d' gd =>
          cases h3
          refine sees_of_below g (fun _ => ⟨_, gd⟩) fun s hb => ?_
          cases hb with
          | member g' hk' _ => rw [g] at g'; cases g'; exact (hk hk').elim
          | nested g' _ gd' hm =>
            rw [g] at g'
            cases g'
            rw [gd] at gd'
            cases gd'
            split at h4
            · next e => subst e; cases hm
            · obtain ⟨ks, h5, _⟩ := bind_ok.mp h4
              obtain ⟨y, hy⟩ := eachXml_ok h5 s (List.mem_map_of_mem (f := (·.2)) hm)
              exact ih hy
        · cases h3
    · cases hy

theorem addAttributes_ok {h : Heap F} {n : Nat} {rs : List Ref} {ys : List Xml} (he : addAttributes h n rs = .ok ys) :
    ∀ r ∈ rs, ∃ x, Sees h x r := by
  intro r hr
  cases n with
  | zero => cases he
  | succ n =>
    obtain ⟨y, hy⟩ := eachXml_ok he r hr
    exact attrElem_ok n hy

theorem addOwn_ok {h : Heap F} {n : Nat} {x : Ref} {ys : List Xml} (he : addOwn h n x = .ok ys) :
    ∃ m d as, mapOf h x = .ok m ∧ h.get m = some (.map d) ∧ SeesMap h as d := by
  simp only [addOwn] at he
  obtain ⟨m, h1, h2⟩ := bind_ok.mp he
  obtain ⟨d, h3, h4⟩ := bind_ok.mp h2
  simp only [entries] at h3
  split at h3
  · next d' gd =>
    cases h3
    obtain ⟨as, ha⟩ := seesMap_of (h := h) (d := d) fun p hp => addAttributes_ok h4 p.2 (List.mem_map_of_mem (f := (·.2)) hp)
    exact ⟨m, d, as, h1, gd, ha⟩
  · cases h3

theorem globalElems_ok {h : Heap F} {n : Nat} {sc : Str} {rs : List Ref} {ys : List Xml} (he : globalElems h n sc rs = .ok ys) :
    ∃ xs, SeesList h xs rs := by
  simp only [globalElems] at he
  split at he
  · obtain ⟨ks, h1, _⟩ := bind_ok.mp he
    exact seesList_of (addAttributes_ok h1)
  · next hn =>
    have : rs = [] := List.length_eq_zero_iff.mp (by omega)
    subst this
    exact ⟨[], rfl⟩

/-- Where the classes of the objects matter: the traces and events of the log are traces and events, and not `None`. -/
def EventsAreEvents (h : Heap F) (l : Ref) : Prop :=
  ∀ lo, h.get l = some (.log lo) → ∀ t ∈ lo.traces, ∀ m es, h.get t = some (.trace m es) → ∀ e ∈ es, IsA h e .event ∨ IsA h e .pyNone

/-- A log that is saved shows a tree. -/
theorem saved_sees {h : Heap F} {n : Nat} {l : Ref} {y : Xml} (hc : EventsAreEvents h l) (he : saveObjects h n l = .ok y) : ∃ x, SeesLog h x l := by
  unfold saveObjects at he
  split at he
  · next lo g =>
    obtain ⟨gt, h1, he⟩ := bind_ok.mp he
    obtain ⟨ge, h2, he⟩ := bind_ok.mp he
    obtain ⟨as, h3, he⟩ := bind_ok.mp he
    obtain ⟨ts, h4, _⟩ := bind_ok.mp he
    obtain ⟨gts, k1⟩ := globalElems_ok h1
    obtain ⟨ges, k2⟩ := globalElems_ok h2
    obtain ⟨m, d, am, e1, e2, e3⟩ := addOwn_ok h3
    have : lo.map = m := by simp only [mapOf, g] at e1; cases e1; rfl
    subst this
    obtain ⟨tr, k3⟩ : ∃ xs, DenAll (SeesTrace h) xs lo.traces := by
      refine denAll_of fun t ht => ?_
      obtain ⟨z, hz⟩ := eachXml_ok h4 t ht
      simp only [traceElem] at hz
      obtain ⟨ks, z1, z2⟩ := bind_ok.mp hz
      split at z2
      · next mt es gt =>
        obtain ⟨xs, z3, _⟩ := bind_ok.mp z2
        obtain ⟨m', d', a', f1, f2, f3⟩ := addOwn_ok z1
        have : mt = m' := by simp only [mapOf, gt] at f1; cases f1; rfl
        subst this
        obtain ⟨ev, k4⟩ : ∃ xs, DenAll (SeesEvent h) xs es := by
          refine denAll_of fun e hm => ?_
          obtain ⟨w, hw⟩ := eachXml_ok z3 e hm
          simp only [eventElem] at hw
          obtain ⟨ks, w1, w2⟩ := bind_ok.mp hw
          obtain ⟨m'', d'', a'', f1', f2', f3'⟩ := addOwn_ok w1
          rcases hc lo g t ht mt es gt e hm with ⟨o, ho, hcl⟩ | ⟨o, ho, hcl⟩
          · cases o <;> first | (cases hcl; done) | skip
            next u m0 =>
            have : m0 = m'' := by simp only [mapOf, ho] at f1'; cases f1'; rfl
            subst this
            exact ⟨⟨u, a''⟩, m0, d'', ho, f2', f3'⟩
          · cases o <;> first | (cases hcl; done) | skip
            simp only [mapOf, ho] at f1'
            cases f1'
        exact ⟨⟨a', ev⟩, mt, d', es, gt, f2, f3, k4⟩
      · cases z2
    exact ⟨⟨am, lo.extensions, lo.classifiers, gts, ges, lo.features, tr⟩, lo, d, g, e2, rfl, rfl, rfl, e3, k1, k2, k3⟩
  · cases he

/-! ## Without loops there is a tree -/

theorem nodup_below : ∀ (n : Nat) {l : List Nat}, l.Nodup → (∀ x ∈ l, x < n) → l.length ≤ n
  | 0, l, _, hb => by
    cases l with
    | nil => simp
    | cons x l => exact absurd (hb x (by simp)) (by omega)
  | n + 1, l, hn, hb => by
    have h1 := nodup_below n (l := l.erase n) (hn.erase n) (by
      intro x hx
      have := hb x (List.mem_of_mem_erase hx)
      have : x ≠ n := (hn.mem_erase_iff.mp hx).1
      omega)
    by_cases hm : n ∈ l
    · have := List.length_erase_of_mem hm
      have : 0 < l.length := List.length_pos_of_mem hm
      omega
    · rw [List.erase_of_not_mem hm] at h1
      omega

theorem sees_of_noLoop {h : Heap F} (hw : WellFormed h) : ∀ (n : Nat) (path : List Ref) {r : Ref}, IsA h r .attr → path.Nodup →
    (∀ s ∈ path, s < h.size ∧ Relation.TransGen (Below h) s r) →
    (∀ s, (s = r ∨ Relation.TransGen (Below h) r s) → ¬ Relation.TransGen (Below h) s s) → h.size ≤ n + path.length → ∃ x, Sees h x r := by
  intro n
  induction n with
  | zero =>
    intro path r hr hn hp hl hs
    exfalso
    have hr' : r ∉ path := fun hm => hl r (Or.inl rfl) (hp r hm).2
    have : (r :: path).length ≤ h.size := nodup_below h.size (List.nodup_cons.mpr ⟨hr', hn⟩) (by
      intro x hx
      rcases List.mem_cons.mp hx with rfl | hx
      · obtain ⟨o, ho, _⟩ := hr
        exact get_lt ho
      · exact (hp x hx).1)
    simp only [List.length_cons] at this
    omega
  | succ n ih =>
    intro path r hr hn hp hl hs
    have hr' : r ∉ path := fun hm => hl r (Or.inl rfl) (hp r hm).2
    obtain ⟨o, ho, hc⟩ := hr
    cases o <;> first | (cases hc; done) | skip
    next k key e v m c =>
    have hg := hw r _ ho
    refine sees_of_below ho (fun _ => isA_map hg.1) fun s hb => ?_
    refine ih (r :: path) ?_ (List.nodup_cons.mpr ⟨hr', hn⟩) ?_ ?_ (by simp only [List.length_cons]; omega)
    · cases hb with
      | member g' _ hm =>
        rw [ho] at g'
        cases g'
        exact hg.2 s hm
      | nested g' _ gd hm => exact (hw _ _ gd).2 _ hm
    · intro x hx
      rcases List.mem_cons.mp hx with rfl | hx
      · exact ⟨get_lt ho, .single hb⟩
      · exact ⟨(hp x hx).1, .tail (hp x hx).2 hb⟩
    · intro x hx
      refine hl x (Or.inr ?_)
      rcases hx with rfl | hx
      · exact .single hb
      · exact Relation.TransGen.trans (.single hb) hx

theorem seesLog_of_noLoop {h : Heap F} (hw : WellFormed h) {l : Ref} (hl : IsA h l .log) (hn : ¬ HasLoop h l) : ∃ x, SeesLog h x l := by
  have one : ∀ r, TopLevel h l r → IsA h r .attr → ∃ x, Sees h x r := by
    intro r ht hr
    refine sees_of_noLoop hw h.size [] hr List.nodup_nil (fun s hs => by cases hs) (fun s hs q => hn ⟨r, s, ht, ?_, q⟩) (by simp)
    rcases hs with rfl | hs
    · exact Or.inl rfl
    · exact Or.inr hs
  obtain ⟨o, ho, hc⟩ := hl
  cases o <;> first | (cases hc; done) | skip
  next lo =>
  obtain ⟨g1, g2, g3, g4⟩ := hw l _ ho
  obtain ⟨d, gd⟩ := isA_map g1
  obtain ⟨gts, k1⟩ := seesList_of fun s hs => one s (.globalTrace ho hs) (g2 s hs)
  obtain ⟨ges, k2⟩ := seesList_of fun s hs => one s (.globalEvent ho hs) (g3 s hs)
  obtain ⟨as, k3⟩ := seesMap_of (d := d) fun p hp => one p.2 (.log ⟨lo.map, d, p.1, by simp only [mapOf, ho], gd, hp⟩) ((hw _ _ gd).2 p hp)
  obtain ⟨tr, k4⟩ : ∃ xs, DenAll (SeesTrace h) xs lo.traces := by
    refine denAll_of fun t ht => ?_
    obtain ⟨o, hot, hc⟩ := g4 t ht
    cases o <;> first | (cases hc; done) | skip
    next m es =>
    obtain ⟨f1, f2⟩ := hw t _ hot
    obtain ⟨d', gd'⟩ := isA_map f1
    obtain ⟨as', k5⟩ := seesMap_of (d := d') fun p hp => one p.2 (.trace ho ht ⟨m, d', p.1, by simp only [mapOf, hot], gd', hp⟩) ((hw _ _ gd').2 p hp)
    obtain ⟨ev, k6⟩ : ∃ xs, DenAll (SeesEvent h) xs es := by
      refine denAll_of fun e hm => ?_
      obtain ⟨o, hoe, hc⟩ := f2 e hm
      cases o <;> first | (cases hc; done) | skip
      next u m' =>
      obtain ⟨d'', gd''⟩ := isA_map (hw e _ hoe)
      obtain ⟨as'', k7⟩ := seesMap_of (d := d'') fun p hp => one p.2 (.event ho ht hot hm ⟨m', d'', p.1, by simp only [mapOf, hoe], gd'', hp⟩) ((hw _ _ gd'').2 p hp)
      exact ⟨⟨u, as''⟩, m', d'', hoe, gd'', k7⟩
    exact ⟨⟨as', ev⟩, m, d', es, hot, gd', k5, k6⟩
  exact ⟨⟨as, lo.extensions, lo.classifiers, gts, ges, lo.features, tr⟩, lo, d, ho, gd, rfl, rfl, rfl, k3, k1, k2, k4⟩

/-! ## The tree is determined -/

mutual
theorem Sees.unique {h : Heap F} : ∀ {x y : Attr F} {r : Ref}, Sees h x r → Sees h y r → x = y
  | .mk k key e v m c, .mk k' key' e' v' m' c', r, h1, h2 => by
    simp only [Sees] at h1 h2
    obtain ⟨mr, cr, g, h1⟩ := h1
    obtain ⟨mr', cr', g', h2⟩ := h2
    rw [g] at g'
    cases g'
    split at h1
    · next hk =>
      rw [if_pos hk] at h2
      obtain ⟨rfl, h1⟩ := h1
      obtain ⟨rfl, h2⟩ := h2
      rw [SeesList.unique h1 h2]
    · next hk =>
      rw [if_neg hk] at h2
      obtain ⟨rfl, d, gd, h1⟩ := h1
      obtain ⟨rfl, d', gd', h2⟩ := h2
      rw [gd] at gd'
      cases gd'
      rw [SeesMap.unique h1 h2]
theorem SeesMap.unique {h : Heap F} : ∀ {x y : List (Str × Attr F)} {d : List (Str × Ref)}, SeesMap h x d → SeesMap h y d → x = y
  | [], [], _, _, _ => rfl
  | [], (_, _) :: _, d, h1, h2 => by
    simp only [SeesMap] at h1 h2
    obtain ⟨_, _, e, _⟩ := h2
    rw [h1] at e
    cases e
  | (_, _) :: _, [], d, h1, h2 => by
    simp only [SeesMap] at h1 h2
    obtain ⟨_, _, e, _⟩ := h1
    rw [h2] at e
    cases e
  | (n, x) :: m, (n', x') :: m', d, h1, h2 => by
    simp only [SeesMap] at h1 h2
    obtain ⟨r, d', rfl, a1, a2⟩ := h1
    obtain ⟨r', d'', e, b1, b2⟩ := h2
    cases e
    rw [Sees.unique a1 b1, SeesMap.unique a2 b2]
theorem SeesList.unique {h : Heap F} : ∀ {x y : List (Attr F)} {d : List Ref}, SeesList h x d → SeesList h y d → x = y
  | [], [], _, _, _ => rfl
  | [], _ :: _, d, h1, h2 => by
    simp only [SeesList] at h1 h2
    obtain ⟨_, _, e, _⟩ := h2
    rw [h1] at e
    cases e
  | _ :: _, [], d, h1, h2 => by
    simp only [SeesList] at h1 h2
    obtain ⟨_, _, e, _⟩ := h1
    rw [h2] at e
    cases e
  | x :: m, x' :: m', d, h1, h2 => by
    simp only [SeesList] at h1 h2
    obtain ⟨r, d', rfl, a1, a2⟩ := h1
    obtain ⟨r', d'', e, b1, b2⟩ := h2
    cases e
    rw [Sees.unique a1 b1, SeesList.unique a2 b2]
end

theorem denAll_unique {α : Type} {P : α → Ref → Prop} (hP : ∀ x y r, P x r → P y r → x = y) : ∀ {x y : List α} {d : List Ref},
    DenAll P x d → DenAll P y d → x = y
  | [], [], _, _, _ => rfl
  | [], _ :: _, d, h1, h2 => by
    simp only [DenAll] at h1 h2
    obtain ⟨_, _, e, _⟩ := h2
    rw [h1] at e
    cases e
  | _ :: _, [], d, h1, h2 => by
    simp only [DenAll] at h1 h2
    obtain ⟨_, _, e, _⟩ := h1
    rw [h2] at e
    cases e
  | x :: m, x' :: m', d, h1, h2 => by
    obtain ⟨r, d', rfl, a1, a2⟩ := h1
    obtain ⟨r', d'', e, b1, b2⟩ := h2
    cases e
    rw [hP _ _ _ a1 b1, denAll_unique hP a2 b2]

theorem SeesEvent.unique {h : Heap F} (x y : Event F) (r : Ref) (h1 : SeesEvent h x r) (h2 : SeesEvent h y r) : x = y := by
  obtain ⟨u, a⟩ := x
  obtain ⟨u', a'⟩ := y
  obtain ⟨m, d, g1, g2, g3⟩ := h1
  obtain ⟨m', d', g1', g2', g3'⟩ := h2
  simp only at g1 g1' g3 g3'
  rw [g1] at g1'
  cases g1'
  rw [g2] at g2'
  cases g2'
  rw [g3.unique g3']

theorem SeesTrace.unique {h : Heap F} (x y : Trace F) (r : Ref) (h1 : SeesTrace h x r) (h2 : SeesTrace h y r) : x = y := by
  obtain ⟨a, es⟩ := x
  obtain ⟨a', es'⟩ := y
  obtain ⟨m, d, e, g1, g2, g3, g4⟩ := h1
  obtain ⟨m', d', e', g1', g2', g3', g4'⟩ := h2
  simp only at g3 g3' g4 g4'
  rw [g1] at g1'
  cases g1'
  rw [g2] at g2'
  cases g2'
  rw [g3.unique g3', denAll_unique SeesEvent.unique g4 g4']

theorem SeesLog.unique {h : Heap F} {x y : Log F} {l : Ref} (h1 : SeesLog h x l) (h2 : SeesLog h y l) : x = y := by
  obtain ⟨a, b, c, d, e, f, t⟩ := x
  obtain ⟨a', b', c', d', e', f', t'⟩ := y
  obtain ⟨lo, dd, g1, g2, g3, g4, g5, g6, g7, g8, g9⟩ := h1
  obtain ⟨lo', dd', g1', g2', g3', g4', g5', g6', g7', g8', g9'⟩ := h2
  simp only at g3 g3' g4 g4' g5 g5' g6 g6' g7 g7' g8 g8' g9 g9'
  rw [g1] at g1'
  cases g1'
  rw [g2] at g2'
  cases g2'
  rw [← g3, ← g3', ← g4, ← g4', ← g5, ← g5', g6.unique g6', g7.unique g7', g8.unique g8', denAll_unique SeesTrace.unique g9 g9']

/-! ## Loops and None are never saved -/

/-- If a log is saved, each attribute that stands in it shows a tree. -/
theorem saved_top {h : Heap F} {n : Nat} {l : Ref} {y : Xml} (he : saveObjects h n l = .ok y) {s : Ref} (ht : TopLevel h l s) : ∃ x, Sees h x s := by
  have own : ∀ {x : Ref} {ys : List Xml}, addOwn h n x = .ok ys → Owns h x s → ∃ z, Sees h z s := by
    intro x ys ha ho
    obtain ⟨m, d, as, e1, e2, e3⟩ := addOwn_ok ha
    obtain ⟨m', d', nm, f1, f2, f3⟩ := ho
    rw [e1] at f1
    cases f1
    rw [e2] at f2
    cases f2
    obtain ⟨z, z1, _⟩ := seesMap_mem e3 _ f3
    exact ⟨z, z1⟩
  unfold saveObjects at he
  split at he
  · next lo g =>
    obtain ⟨gt, h1, he⟩ := bind_ok.mp he
    obtain ⟨ge, h2, he⟩ := bind_ok.mp he
    obtain ⟨as, h3, he⟩ := bind_ok.mp he
    obtain ⟨ts, h4, _⟩ := bind_ok.mp he
    have tr : ∀ t ∈ lo.traces, ∃ ks m es xs, addOwn h n t = .ok ks ∧ h.get t = some (.trace m es) ∧ eachXml (eventElem h n) es = .ok xs := by
      intro t htr
      obtain ⟨z, hz⟩ := eachXml_ok h4 t htr
      simp only [traceElem] at hz
      obtain ⟨ks, z1, z2⟩ := bind_ok.mp hz
      split at z2
      · next mt es gt =>
        obtain ⟨xs, z3, _⟩ := bind_ok.mp z2
        exact ⟨ks, mt, es, xs, z1, gt, z3⟩
      · cases z2
    cases ht with
    | globalTrace g' hm =>
      rw [g] at g'
      cases g'
      obtain ⟨xs, k⟩ := globalElems_ok h1
      obtain ⟨z, z1, _⟩ := seesList_mem k s hm
      exact ⟨z, z1⟩
    | globalEvent g' hm =>
      rw [g] at g'
      cases g'
      obtain ⟨xs, k⟩ := globalElems_ok h2
      obtain ⟨z, z1, _⟩ := seesList_mem k s hm
      exact ⟨z, z1⟩
    | log ho => exact own h3 ho
    | trace g' hm ho =>
      rw [g] at g'
      cases g'
      obtain ⟨ks, _, _, _, k, _⟩ := tr _ hm
      exact own k ho
    | event g' hm gt hme ho =>
      rw [g] at g'
      cases g'
      obtain ⟨ks, m, es, xs, _, k1, k2⟩ := tr _ hm
      rw [gt] at k1
      cases k1
      obtain ⟨w, hw⟩ := eachXml_ok k2 _ hme
      simp only [eventElem] at hw
      obtain ⟨ks, w1, _⟩ := bind_ok.mp hw
      exact own w1 ho
  · cases he

/-- The values of timestamp attributes are datetimes, as the constructor makes them. -/
def Dated (h : Heap F) : Prop := ∀ r key e v m c, h.get r = some (.attr .timestamp key e v m c) → ∃ d, v = .dt d

/-- A value, or a RecursionError. -/
def OkOrDeep {α : Type} (a : Except PyErr α) : Prop := (∃ x, a = .ok x) ∨ a = .error .recursionError

theorem OkOrDeep.bind {α β : Type} {a : Except PyErr α} {f : α → Except PyErr β} (h1 : OkOrDeep a) (h2 : ∀ x, OkOrDeep (f x)) :
    OkOrDeep (a >>= f) := by
  rcases h1 with ⟨x, rfl⟩ | rfl
  · exact h2 x
  · exact Or.inr rfl

theorem OkOrDeep.ok {α : Type} (x : α) : OkOrDeep (.ok x) := Or.inl ⟨x, rfl⟩

theorem eachXml_deep {f : Ref → Except PyErr Xml} : ∀ {rs : List Ref}, (∀ r ∈ rs, OkOrDeep (f r)) → OkOrDeep (eachXml f rs)
  | [], _ => .ok _
  | r :: rs, h => by
    simp only [eachXml]
    exact (h r (by simp)).bind fun _ => (eachXml_deep fun s hs => h s (by simp [hs])).bind fun _ => .ok _

theorem addAttributes_deep {h : Heap F} (hw : WellFormed h) (hd : Dated h) : ∀ (n : Nat) {rs : List Ref}, (∀ r ∈ rs, IsA h r .attr) →
    OkOrDeep (addAttributes h n rs)
  | 0, _, _ => Or.inr rfl
  | n + 1, rs, hr => by
    rw [addAttributes_succ]
    refine eachXml_deep fun r hm => ?_
    obtain ⟨k, key, e, v, m, c, g⟩ := isA_attr (hr r hm)
    have hg := hw r _ g
    simp only [attrElem, g]
    split
    · exact (addAttributes_deep hw hd n hg.2).bind fun _ => .ok _
    · next hk =>
      obtain ⟨d, gd⟩ := isA_map hg.1
      have hs : OkOrDeep (attrStr (.mk k key e v [] [] : Attr F)) := by
        cases k <;> first | (exact .ok _) | (exact (hk rfl).elim) | skip
        obtain ⟨t, rfl⟩ := hd r key e v m c g
        exact .ok _
      refine hs.bind fun s => ?_
      simp only [entries, gd, ok_bind']
      split
      · exact .ok _
      · refine (addAttributes_deep hw hd n fun s hs => ?_).bind fun _ => .ok _
        obtain ⟨p, hp, rfl⟩ := List.mem_map.mp hs
        exact (hw m _ gd).2 p hp

theorem addOwn_deep {h : Heap F} (hw : WellFormed h) (hd : Dated h) (n : Nat) {x m : Ref} (hx : mapOf h x = .ok m) (hm : IsA h m .map) :
    OkOrDeep (addOwn h n x) := by
  obtain ⟨d, gd⟩ := isA_map hm
  simp only [addOwn, hx, entries, gd, ok_bind']
  refine addAttributes_deep hw hd n fun s hs => ?_
  obtain ⟨p, hp, rfl⟩ := List.mem_map.mp hs
  exact (hw m _ gd).2 p hp

theorem globalElems_deep {h : Heap F} (hw : WellFormed h) (hd : Dated h) (n : Nat) (sc : Str) {rs : List Ref} (hr : ∀ r ∈ rs, IsA h r .attr) :
    OkOrDeep (globalElems h n sc rs) := by
  simp only [globalElems]
  split
  · exact (addAttributes_deep hw hd n hr).bind fun _ => .ok _
  · exact .ok _

theorem saveObjects_deep {h : Heap F} (hw : WellFormed h) (hd : Dated h) (n : Nat) {l : Ref} (hl : IsA h l .log) : OkOrDeep (saveObjects h n l) := by
  obtain ⟨lo, g⟩ := isA_log hl
  obtain ⟨g1, g2, g3, g4⟩ := hw l _ g
  simp only [saveObjects, g]
  refine (globalElems_deep hw hd n _ g2).bind fun _ => (globalElems_deep hw hd n _ g3).bind fun _ =>
    (addOwn_deep hw hd n (by simp only [mapOf, g]) g1).bind fun _ => (eachXml_deep fun t ht => ?_).bind fun _ => .ok _
  obtain ⟨m, es, gt⟩ := isA_trace (g4 t ht)
  obtain ⟨f1, f2⟩ := hw t _ gt
  simp only [traceElem, gt]
  refine (addOwn_deep hw hd n (by simp only [mapOf, gt]) f1).bind fun _ => (eachXml_deep fun e he => ?_).bind fun _ => .ok _
  obtain ⟨u, m', ge⟩ := isA_event (f2 e he)
  simp only [eventElem]
  exact (addOwn_deep hw hd n (by simp only [mapOf, ge]) (hw e _ ge)).bind fun _ => .ok _

/-! ## C169 -/

/-- C169: saving a log that shows a tree is saving that tree, whatever the objects share, if enough calls may be nested; otherwise it raises
RecursionError (or what saving the tree raises). -/
theorem c169_tree {h : Heap F} {x : Log F} {l : Ref} (hs : SeesLog h x l) (n : Nat) :
    (x.levels ≤ n → saveObjects h n l = serializeXes x) ∧
    (n < x.levels → saveObjects h n l = .error .recursionError ∨ ∃ e, saveObjects h n l = .error e ∧ serializeXes x = .error e) :=
  log_upTo n hs

/-- C169: a log shows at most one tree. -/
theorem c169_unique {h : Heap F} {x y : Log F} {l : Ref} (h1 : SeesLog h x l) (h2 : SeesLog h y l) : x = y := h1.unique h2

/-- C169: a log shows a tree exactly if no attribute in it lies within itself. -/
theorem c169_exact {h : Heap F} (hw : WellFormed h) {l : Ref} (hl : IsA h l .log) : (∃ x, SeesLog h x l) ↔ ¬ HasLoop h l :=
  ⟨fun ⟨_, hx⟩ => seesLog_noLoop hx, seesLog_of_noLoop hw hl⟩

/-- C169: a log in which some attribute lies within itself is never saved, however many calls may be nested. -/
theorem c169_loop {h : Heap F} {l : Ref} (hl : HasLoop h l) (n : Nat) (y : Xml) : saveObjects h n l ≠ .ok y := by
  intro he
  obtain ⟨s, r, ht, hr, hl⟩ := hl
  obtain ⟨z, hz⟩ := saved_top he ht
  rcases hr with rfl | hr
  · exact loop_unseen hl _ (Nat.lt_succ_self _) hz
  · obtain ⟨y, y1, _⟩ := sees_within hr hz
    exact loop_unseen hl _ (Nat.lt_succ_self _) y1

/-- C169: ... and if timestamps are datetimes, what is raised is a RecursionError. -/
theorem c169_recursion {h : Heap F} (hw : WellFormed h) (hd : Dated h) {l : Ref} (hl : IsA h l .log) (hp : HasLoop h l) (n : Nat) :
    saveObjects h n l = .error .recursionError := by
  rcases saveObjects_deep hw hd n hl with ⟨y, hy⟩ | e
  · exact (c169_loop hp n y hy).elim
  · exact e

/-- C169: a log that holds `None` as a trace, or a trace that holds `None` as an event, is never saved. -/
theorem c169_none {h : Heap F} {l : Ref} {lo : LogObj} (g : h.get l = some (.log lo)) {t : Ref} (ht : t ∈ lo.traces)
    (hn : h.get t = some .pyNone ∨ ∃ m es, h.get t = some (.trace m es) ∧ ∃ e ∈ es, h.get e = some .pyNone) (n : Nat) (y : Xml) :
    saveObjects h n l ≠ .ok y := by
  intro he
  simp only [saveObjects, g] at he
  obtain ⟨gt, _, he⟩ := bind_ok.mp he
  obtain ⟨ge, _, he⟩ := bind_ok.mp he
  obtain ⟨as, _, he⟩ := bind_ok.mp he
  obtain ⟨ts, h4, _⟩ := bind_ok.mp he
  obtain ⟨z, hz⟩ := eachXml_ok h4 t ht
  simp only [traceElem] at hz
  obtain ⟨ks, z1, z2⟩ := bind_ok.mp hz
  rcases hn with q | ⟨m, es, q, e, hm, qe⟩
  · obtain ⟨m, _, _, e1, _⟩ := addOwn_ok z1
    simp only [mapOf, q] at e1
    cases e1
  · simp only [q] at z2
    obtain ⟨xs, z3, _⟩ := bind_ok.mp z2
    obtain ⟨w, hw⟩ := eachXml_ok z3 e hm
    simp only [eventElem] at hw
    obtain ⟨ks, w1, _⟩ := bind_ok.mp hw
    obtain ⟨m, _, _, e1, _⟩ := addOwn_ok w1
    simp only [mapOf, qe] at e1
    cases e1

/-- C169: whatever a program did, each log it has got is saved as the one tree that it shows, or has an attribute that lies within itself
and is never saved. -/
theorem c169_program {env : ApiEnv} {h h' : Heap F} (hw : WellFormed h) (hP : ProtosOk h env.protos) (hr : Reaches env h h') {l : Ref}
    (hl : IsA h' l .log) :
    (¬ HasLoop h' l ∧ ∃ x, SeesLog h' x l ∧ ∀ n, x.levels ≤ n → saveObjects h' n l = serializeXes x) ∨
    (HasLoop h' l ∧ (¬ ∃ x, SeesLog h' x l) ∧ ∀ n y, saveObjects h' n l ≠ .ok y) := by
  obtain ⟨a, _, _⟩ := c159_reachable hw hP hr
  by_cases q : HasLoop h' l
  · exact Or.inr ⟨q, fun hx => (c169_exact a hl).mp hx q, c169_loop q⟩
  · obtain ⟨x, hx⟩ := (c169_exact a hl).mpr q
    exact Or.inl ⟨q, x, hx, fun n hn => (c169_tree hx n).1 hn⟩

/-! ## Loaded logs -/

mutual
/-- The tree without what files do not show. -/
def Attr.shown : Attr F → Attr F
  | .mk k key e v m c => if k.isCollection then .mk k key e v [] (shownList c) else .mk k key e v (shownMap m) []
/-- The same for the entries of a map. -/
def shownMap : List (Str × Attr F) → List (Str × Attr F)
  | [] => []
  | (n, x) :: m => (n, x.shown) :: shownMap m
/-- The same for a list. -/
def shownList : List (Attr F) → List (Attr F)
  | [] => []
  | x :: xs => x.shown :: shownList xs
end

mutual
theorem Den.sees {h : Heap F} {a b : Nat} : ∀ {x : Attr F} {r : Ref}, Den h a b x r → Sees h x.shown r
  | .mk k key e v m c, r, hd => by
    simp only [Den] at hd
    obtain ⟨mr, d, cr, _, g1, g2, g3, g4⟩ := hd
    simp only [Attr.shown]
    split
    · next hk =>
      simp only [Sees]
      exact ⟨mr, cr, g1, by rw [if_pos hk]; exact ⟨trivial, g4.sees⟩⟩
    · next hk =>
      simp only [Sees]
      exact ⟨mr, cr, g1, by rw [if_neg hk]; exact ⟨trivial, d, g2, g3.sees⟩⟩
theorem DenMap.sees {h : Heap F} {a b : Nat} : ∀ {m : List (Str × Attr F)} {d : List (Str × Ref)}, DenMap h a b m d → SeesMap h (shownMap m) d
  | [], d, hd => by simpa only [DenMap, shownMap, SeesMap] using hd
  | (n, x) :: m, d, hd => by
    simp only [DenMap] at hd
    obtain ⟨r, d', e, h1, h2⟩ := hd
    simp only [shownMap, SeesMap]
    exact ⟨r, d', e, h1.sees, h2.sees⟩
theorem DenList.sees {h : Heap F} {a b : Nat} : ∀ {m : List (Attr F)} {d : List Ref}, DenList h a b m d → SeesList h (shownList m) d
  | [], d, hd => by simpa only [DenList, shownList, SeesList] using hd
  | x :: m, d, hd => by
    simp only [DenList] at hd
    obtain ⟨r, d', e, h1, h2⟩ := hd
    simp only [shownList, SeesList]
    exact ⟨r, d', e, h1.sees, h2.sees⟩
end

mutual
theorem attrXml_shown : ∀ x : Attr F, attrXml x.shown = attrXml x
  | .mk k key e v m c => by
    simp only [Attr.shown]
    cases hk : k.isCollection with
    | true => simp only [if_true, attrXml, hk, attrsXml_shown c]
    | false =>
      simp only [Bool.false_eq_true, if_false, attrXml, hk, mapXml_shown m]
      rw [attrStr_alone hk key e v (shownMap m) m [] c]
theorem mapXml_shown : ∀ m : List (Str × Attr F), mapXml (shownMap m) = mapXml m
  | [] => rfl
  | (n, x) :: m => by simp only [shownMap, mapXml, attrXml_shown x, mapXml_shown m]
theorem attrsXml_shown : ∀ m : List (Attr F), attrsXml (shownList m) = attrsXml m
  | [] => rfl
  | x :: m => by simp only [shownList, attrsXml, attrXml_shown x, attrsXml_shown m]
end

theorem globalXml_shown (sc : Str) (m : List (Attr F)) : globalXml sc (shownList m) = globalXml sc m := by
  cases m with
  | nil => rfl
  | cons x m =>
    simp only [globalXml]
    rw [attrsXml_shown]
    simp only [shownList, List.length_cons, Nat.succ_pos, if_true, gt_iff_lt]

theorem denEvents_sees {h : Heap F} {a b : Nat} : ∀ {xs : List (Event F)} {es : List Ref}, DenAll (DenEvent h a b) (xs.map Event.attrs) es →
    ∃ ys, DenAll (SeesEvent h) ys es ∧ eventsXml ys = eventsXml xs
  | [], es, hd => ⟨[], hd, rfl⟩
  | x :: xs, es, hd => by
    obtain ⟨e, es, rfl, ⟨u, mr, d, _, g1, g2, g3⟩, h2⟩ := hd
    obtain ⟨ys, y1, y2⟩ := denEvents_sees h2
    exact ⟨⟨u, shownMap x.attrs⟩ :: ys, ⟨e, es, rfl, ⟨mr, d, g1, g2, g3.sees⟩, y1⟩, by simp only [eventsXml, y2, mapXml_shown]⟩

theorem denTraces_sees {h : Heap F} {a b : Nat} : ∀ {xs : List (Trace F)} {ts : List Ref},
    DenAll (DenTrace h a b) (xs.map fun t => (t.attrs, t.events.map Event.attrs)) ts →
    ∃ ys, DenAll (SeesTrace h) ys ts ∧ tracesXml ys = tracesXml xs
  | [], ts, hd => ⟨[], hd, rfl⟩
  | x :: xs, ts, hd => by
    obtain ⟨t, ts, rfl, ⟨mr, d, es, _, g1, g2, g3, g4⟩, h2⟩ := hd
    obtain ⟨ys, y1, y2⟩ := denTraces_sees h2
    obtain ⟨zs, z1, z2⟩ := denEvents_sees g4
    exact ⟨⟨shownMap x.attrs, zs⟩ :: ys, ⟨t, ts, rfl, ⟨mr, d, es, g1, g2, g3.sees, z1⟩, y1⟩, by simp only [tracesXml, y2, z2, mapXml_shown]⟩

/-- C169: a log whose objects are those of a tree, such as every log that is loaded, shows a tree that is saved like the tree. -/
theorem c169_loaded {h : Heap F} {a b : Nat} {L : Log F} {l : Ref} (hd : DenLog h a b L.content l) :
    ∃ x, SeesLog h x l ∧ serializeXes x = serializeXes L := by
  obtain ⟨mr, d, gt, ge, ts, _, g1, g2, g3, g4, g5, g6⟩ := hd
  obtain ⟨ys, y1, y2⟩ := denTraces_sees g6
  refine ⟨⟨shownMap L.attrs, L.extensions, L.classifiers, shownList L.globalTrace, shownList L.globalEvent, L.features, ys⟩,
    ⟨_, d, g1, g2, rfl, rfl, rfl, g3.sees, g4.sees, g5.sees, y1⟩, ?_⟩
  simp only [serializeXes, globalXml_shown, mapXml_shown, y2]

end

end

/-! ## Examples -/

/-- A log (object 6) with the same trace twice, the trace with the same event twice, and one attribute (object 1) as an attribute of the
event, of the log, as a global attribute, and as a member of a list (object 5) twice. -/
def exShared : Heap ToyFloat :=
  ⟨[.map [], .attr .literal py!"b" none (.str py!"x") 0 [], .map [(py!"b", 1)], .event 5 2, .trace 0 [3, 3], .attr .list py!"l" none (.str []) 0 [1, 1],
    .log ⟨2, [], [], [1, 5], [], [], [4, 4]⟩], 0⟩

/-- The tree that it shows. -/
def exSharedTree : Log ToyFloat :=
  let b : Attr ToyFloat := .mk .literal py!"b" none (.str py!"x") [] []
  let t : Trace ToyFloat := ⟨[], [⟨5, [(py!"b", b)]⟩, ⟨5, [(py!"b", b)]⟩]⟩
  ⟨[(py!"b", b)], [], [], [b, .mk .list py!"l" none (.str []) [] [b, b]], [], [], [t, t]⟩

example : WellFormed exShared ∧ IsA exShared 6 .log ∧ Dated exShared := by
  refine ⟨goodB_sound (by decide +kernel), isAB_sound (by decide +kernel), ?_⟩
  intro r key e v m c g
  have hr := get_lt g
  have : r < 7 := hr
  rcases r with _ | _ | _ | _ | _ | _ | _ | r <;> first | (cases g; done) | omega

theorem exShared_sees : SeesLog exShared exSharedTree 6 := by
  have b : Sees exShared (.mk .literal py!"b" none (.str py!"x") [] []) 1 := by
    simp only [Sees]
    exact ⟨0, [], rfl, trivial, [], rfl, rfl⟩
  have m : SeesMap exShared [(py!"b", .mk .literal py!"b" none (.str py!"x") [] [])] [(py!"b", 1)] := by
    simp only [SeesMap]
    exact ⟨1, [], rfl, b, rfl⟩
  have t : SeesTrace exShared ⟨[], [⟨5, [(py!"b", .mk .literal py!"b" none (.str py!"x") [] [])]⟩, ⟨5, [(py!"b", .mk .literal py!"b" none (.str py!"x") [] [])]⟩]⟩ 4 :=
    ⟨0, [], [3, 3], rfl, rfl, rfl, 3, [3], rfl, ⟨2, _, rfl, rfl, m⟩, 3, [], rfl, ⟨2, _, rfl, rfl, m⟩, rfl⟩
  have l : Sees exShared (.mk .list py!"l" none (.str []) [] [.mk .literal py!"b" none (.str py!"x") [] [], .mk .literal py!"b" none (.str py!"x") [] []]) 5 := by
    simp only [Sees]
    refine ⟨0, [1, 1], rfl, trivial, ?_⟩
    simp only [SeesList]
    exact ⟨1, [1], rfl, b, 1, [], rfl, b, rfl⟩
  refine ⟨_, _, rfl, rfl, rfl, rfl, rfl, m, ?_, rfl, 4, [4], rfl, t, 4, [], rfl, t, rfl⟩
  simp only [SeesList, exSharedTree]
  exact ⟨1, [5], rfl, b, 5, [], rfl, l, rfl⟩

/-- It is two levels deep: two nested calls suffice, one does not. -/
example : exSharedTree.levels = 2 ∧ saveObjects exShared 2 6 = serializeXes exSharedTree ∧ (∃ y, saveObjects exShared 2 6 = .ok y) ∧
    saveObjects exShared 1 6 = .error .recursionError := by
  refine ⟨by decide +kernel, (c169_tree exShared_sees 2).1 (by decide +kernel), ?_, ?_⟩
  · have ok : (saveObjects exShared 2 6).isOk = true := by decide +kernel
    cases q : saveObjects exShared 2 6 with
    | ok y => exact ⟨y, rfl⟩
    | error e => rw [q] at ok; cases ok
  · rcases (c169_tree exShared_sees 1).2 (by decide +kernel) with q | ⟨e, _, q⟩
    · exact q
    · have ok : (serializeXes exSharedTree).isOk = true := by decide +kernel
      rw [q] at ok
      cases ok

/-- A program that puts an attribute (object 43) into its own attribute map and makes a log (object 44) of that map. -/
def exCycle : Heap ToyFloat :=
  ((ApiCall.newLog (some 42)).run exEnv ((ApiCall.store 42 py!"a" 43).run exEnv ((ApiCall.createAttr .literal py!"a" none (.str [])).run exEnv exStart).2).2).2

theorem exCycle_reached : Reaches exEnv exStart exCycle := by
  refine .call (.call (.call .start ?_) ?_) ?_
  · intro q; cases q
  · exact ⟨isAB_sound (by decide +kernel), isAB_sound (by decide +kernel)⟩
  · intro r q
    cases q
    exact isAB_sound (by decide +kernel)

example : IsA exCycle 44 .log ∧ HasLoop exCycle 44 ∧ ∀ n y, saveObjects exCycle n 44 ≠ .ok y := by
  have g : exCycle.get 43 = some (.attr .literal py!"a" none (.str []) 42 []) := by decide +kernel
  have gm : exCycle.get 42 = some (.map [(py!"a", 43)]) := by decide +kernel
  have hl : HasLoop exCycle 44 :=
    ⟨43, 43, .log ⟨42, _, py!"a", by decide +kernel, gm, by simp⟩, Or.inl rfl, .single (.nested (n := py!"a") g rfl gm (by simp))⟩
  exact ⟨isAB_sound (by decide +kernel), hl, fun n y => c169_loop hl n y⟩

end Opy
