import Verif.Lemmas.Heap
/-
Properties C32-C37 (clone, identities, sharing of attribute maps).
-/
set_option linter.unusedSectionVars false

namespace Opy

section
variable {F : Type}

/-! ## Specification: what an element shows

Attributes are given as objects (references), so two views are equal only if the very same attribute
objects are shown under the same keys in the same order. -/

/-- An event: identifier and attributes. -/
structure EventView where
  id : Uuid
  attrs : List (Str × Ref)
  deriving DecidableEq

/-- A trace: attributes and events. -/
structure TraceView where
  attrs : List (Str × Ref)
  events : List (Option EventView)
  deriving DecidableEq

/-- A log: attributes, extensions, classifiers, globals, features and traces. -/
structure LogView where
  attrs : List (Str × Ref)
  extensions : List Ext
  classifiers : List Classifier
  globalTrace : List Ref
  globalEvent : List Ref
  features : List (Str × Str)
  traces : List (Option TraceView)

/-- The content of a map object. -/
def viewMap (h : Heap F) (m : Ref) : Option (List (Str × Ref)) :=
  match h.get m with
  | some (.map d) => some d
  | _ => none

/-- What an event shows. -/
def viewEvent (h : Heap F) (r : Ref) : Option EventView :=
  match h.get r with
  | some (.event i m) => (viewMap h m).map (fun d => ⟨i, d⟩)
  | _ => none

/-- What a trace shows. -/
def viewTrace (h : Heap F) (r : Ref) : Option TraceView :=
  match h.get r with
  | some (.trace m es) => (viewMap h m).map (fun d => ⟨d, es.map (viewEvent h)⟩)
  | _ => none

/-- What a log shows. -/
def viewLog (h : Heap F) (r : Ref) : Option LogView :=
  match h.get r with
  | some (.log o) => (viewMap h o.map).map (fun d =>
      ⟨d, o.extensions, o.classifiers, o.globalTrace, o.globalEvent, o.features, o.traces.map (viewTrace h)⟩)
  | _ => none

/-! ## Specification: changing the structure of an element from outside -/

/-- The `i`-th event of a trace, the `i`-th trace of a log. -/
def child (h : Heap F) (r : Ref) (i : Nat) : Option Ref :=
  match h.get r with
  | some (.trace _ es) => es[i]?
  | some (.log o) => o.traces[i]?
  | _ => none

/-- Walk down from an element: `[]` itself, `[i]` its `i`-th trace or event, `[i, j]` event `j` of
trace `i`. -/
def locate (h : Heap F) (r : Ref) : List Nat → Option Ref
  | [] => some r
  | i :: p => match child h r i with
    | some c => locate h c p
    | none => none

/-- Changes of the structure, each applied to the element found by a path from the root. -/
inductive StructOp where
  /-- `x.get_attributes()[k] = a` -/
  | setAttr (path : List Nat) (k : Str) (a : Ref)
  /-- `del x.get_attributes()[k]` -/
  | delAttr (path : List Nat) (k : Str)
  /-- append a new event to a trace / a new trace to a log -/
  | addNew (path : List Nat)
  /-- delete the `i`-th event or trace -/
  | remove (path : List Nat) (i : Nat)
  /-- `event.set_id(u)` -/
  | setId (path : List Nat) (u : Uuid)
  /-- give a log other extensions, classifiers, globals and features -/
  | editLog (path : List Nat) (ex : List Ext) (cl : List Classifier) (gt ge : List Ref) (fe : List (Str × Str))

/-- Carry out the change on the element itself; `none` if it raises. -/
def applyAt (rnd : Nat → Uuid) (h : Heap F) (r : Ref) : StructOp → Option (Heap F)
  | .setAttr _ k a => (mapOf h r >>= fun m => mapSet h m k a).toOption
  | .delAttr _ k => (mapOf h r >>= fun m => mapDel h m k).toOption
  | .addNew _ =>
    match h.get r with
    | some (.trace _ _) => (traceAppend (createEvent rnd h none none).2 r (createEvent rnd h none none).1).toOption
    | some (.log _) => (logAppend (createTrace h none).2 r (createTrace h none).1).toOption
    | _ => none
  | .remove _ i =>
    match h.get r with
    | some (.trace m es) => some (h.put r (.trace m (es.eraseIdx i)))
    | some (.log o) => some (h.put r (.log { o with traces := o.traces.eraseIdx i }))
    | _ => none
  | .setId _ u => (setId h r u).toOption
  | .editLog _ ex cl gt ge fe =>
    match h.get r with
    | some (.log o) => some (h.put r (.log ⟨o.map, ex, cl, gt, ge, fe, o.traces⟩))
    | _ => none

/-- The path of a change. -/
def StructOp.path : StructOp → List Nat
  | .setAttr p _ _ | .delAttr p _ | .addNew p | .remove p _ | .setId p _ | .editLog p _ _ _ _ _ => p

/-- Carry out a change starting at `root`; a change that raises leaves everything as it was. -/
def change (rnd : Nat → Uuid) (h : Heap F) (root : Ref) (op : StructOp) : Heap F :=
  match locate h root op.path with
  | none => h
  | some r => match applyAt rnd h r op with
    | none => h
    | some h' => h'

/-- A history of changes, each made through the first or the second element. -/
def history (rnd : Nat → Uuid) (a b : Ref) (h : Heap F) : List (Bool × StructOp) → Heap F
  | [] => h
  | (true, op) :: ops => history rnd a b (change rnd h a op) ops
  | (false, op) :: ops => history rnd a b (change rnd h b op) ops

/-! ## Closed sets of cells -/

/-- The attribute map an object points to. -/
def mapPtr : Obj F → Option Ref
  | .map _ => none
  | .attr _ _ _ _ m _ => some m
  | .event _ m => some m
  | .trace m _ => some m
  | .log o => some o.map
  | .pyNone => none

/-- The elements an object contains. -/
def kids : Obj F → List Ref
  | .trace _ es => es
  | .log o => o.traces
  | _ => []

/-- Everything structurally reachable from a cell of `C` is in `C`. -/
def Closed (h : Heap F) (C : Ref → Prop) : Prop :=
  ∀ r, C r → ∃ o, h.get r = some o ∧ (∀ m, mapPtr o = some m → C m) ∧ (∀ k ∈ kids o, C k)

theorem Closed.lt {h : Heap F} {C : Ref → Prop} (hc : Closed h C) {r : Ref} (hr : C r) : r < h.size := by
  obtain ⟨o, ho, -⟩ := hc r hr
  exact get_lt ho

theorem viewMap_frame {h h' : Heap F} {m : Ref} (hs : h'.get m = h.get m) : viewMap h' m = viewMap h m := by
  unfold viewMap; rw [hs]

theorem viewEvent_frame {h h' : Heap F} {C : Ref → Prop} (hc : Closed h C) (hs : ∀ r, C r → h'.get r = h.get r)
    {r : Ref} (hr : C r) : viewEvent h' r = viewEvent h r := by
  obtain ⟨o, ho, hm, hk⟩ := hc r hr
  unfold viewEvent
  rw [hs r hr, ho]
  cases o with
  | event i m => simp only; rw [viewMap_frame (hs m (hm m rfl))]
  | _ => rfl

theorem viewTrace_frame {h h' : Heap F} {C : Ref → Prop} (hc : Closed h C) (hs : ∀ r, C r → h'.get r = h.get r)
    {r : Ref} (hr : C r) : viewTrace h' r = viewTrace h r := by
  obtain ⟨o, ho, hm, hk⟩ := hc r hr
  unfold viewTrace
  rw [hs r hr, ho]
  cases o with
  | trace m es =>
    simp only
    have hl : es.map (viewEvent h') = es.map (viewEvent h) :=
      List.map_congr_left (fun e he => viewEvent_frame hc hs (hk e he))
    rw [viewMap_frame (hs m (hm m rfl)), hl]
  | _ => rfl

theorem viewLog_frame {h h' : Heap F} {C : Ref → Prop} (hc : Closed h C) (hs : ∀ r, C r → h'.get r = h.get r)
    {r : Ref} (hr : C r) : viewLog h' r = viewLog h r := by
  obtain ⟨o, ho, hm, hk⟩ := hc r hr
  unfold viewLog
  rw [hs r hr, ho]
  cases o with
  | log o =>
    simp only
    have hl : o.traces.map (viewTrace h') = o.traces.map (viewTrace h) :=
      List.map_congr_left (fun e he => viewTrace_frame hc hs (hk e he))
    rw [viewMap_frame (hs o.map (hm _ rfl)), hl]
  | _ => rfl

/-- A change of a log object is not seen when looking at a trace. -/
theorem viewTrace_frame_log {h h' : Heap F} {C : Ref → Prop} (hc : Closed h C)
    (hs : ∀ r, C r → h'.get r = h.get r ∨ ∃ o o', h.get r = some (.log o) ∧ h'.get r = some (.log o'))
    {r : Ref} (hr : C r) : viewTrace h' r = viewTrace h r := by
  have vm : ∀ {m}, C m → viewMap h' m = viewMap h m := by
    intro m hm
    rcases hs m hm with e | ⟨o, o', e1, e2⟩
    · exact viewMap_frame e
    · simp [viewMap, e1, e2]
  have ve : ∀ {e}, C e → viewEvent h' e = viewEvent h e := by
    intro e he
    obtain ⟨o, ho, hm, hk⟩ := hc e he
    rcases hs e he with q | ⟨o, o', e1, e2⟩
    · unfold viewEvent
      rw [q, ho]
      cases o with
      | event i m => simp only; rw [vm (hm m rfl)]
      | _ => rfl
    · simp [viewEvent, e1, e2]
  obtain ⟨o, ho, hm, hk⟩ := hc r hr
  rcases hs r hr with q | ⟨o, o', e1, e2⟩
  · unfold viewTrace
    rw [q, ho]
    cases o with
    | trace m es =>
      simp only
      have hl : es.map (viewEvent h') = es.map (viewEvent h) := List.map_congr_left (fun e he => ve (hk e he))
      rw [vm (hm m rfl), hl]
    | _ => rfl
  · simp [viewTrace, e1, e2]

theorem locate_mem {h : Heap F} {C : Ref → Prop} (hc : Closed h C) : ∀ {p : List Nat} {r x : Ref}, C r →
    locate h r p = some x → C x := by
  intro p
  induction p with
  | nil => intro r x hr hl; simp [locate] at hl; subst hl; exact hr
  | cons i p ih =>
    intro r x hr hl
    simp only [locate] at hl
    cases hch : child h r i with
    | none => rw [hch] at hl; simp at hl
    | some c =>
      rw [hch] at hl
      apply ih _ hl
      obtain ⟨o, ho, -, hk⟩ := hc r hr
      unfold child at hch
      rw [ho] at hch
      cases o with
      | trace m es => exact hk c (List.mem_of_getElem? hch)
      | log o => exact hk c (List.mem_of_getElem? hch)
      | map d => simp at hch
      | pyNone => simp at hch
      | attr => simp at hch
      | event => simp at hch

/-- What a change does to the cells: it touches only `C` and new cells, and `C` with the new cells is
closed again. -/
structure Confined (h h' : Heap F) (C : Ref → Prop) : Prop where
  size : h.size ≤ h'.size
  old : ∀ r, r < h.size → ¬ C r → h'.get r = h.get r
  closed : Closed h' (fun r => C r ∨ (h.size ≤ r ∧ r < h'.size))

theorem Confined.refl {h : Heap F} {C : Ref → Prop} (hc : Closed h C) : Confined h h C := by
  refine ⟨Nat.le_refl _, fun _ _ _ => rfl, ?_⟩
  intro r hr
  rcases hr with hr | hr
  · obtain ⟨o, ho, h1, h2⟩ := hc r hr
    exact ⟨o, ho, fun m hm => Or.inl (h1 m hm), fun k hk => Or.inl (h2 k hk)⟩
  · omega

/-- Overwriting a cell of `C` by an object that points into `C`. -/
theorem Confined.put {h : Heap F} {C : Ref → Prop} (hc : Closed h C) {r : Ref} (hr : C r) {o : Obj F}
    (h1 : ∀ m, mapPtr o = some m → C m) (h2 : ∀ k ∈ kids o, C k) : Confined h (h.put r o) C := by
  refine ⟨by simp, ?_, ?_⟩
  · intro x _ hx
    exact get_put_ne o (fun e => hx (e ▸ hr))
  · intro x hx
    rcases hx with hx | hx
    · by_cases e : x = r
      · subst e
        exact ⟨o, get_put_self o (hc.lt hr), fun m hm => Or.inl (h1 m hm), fun k hk => Or.inl (h2 k hk)⟩
      · obtain ⟨o', ho', h3, h4⟩ := hc x hx
        exact ⟨o', by rw [get_put_ne o e]; exact ho', fun m hm => Or.inl (h3 m hm), fun k hk => Or.inl (h4 k hk)⟩
    · simp at hx; omega

theorem createEvent_none (rnd : Nat → Uuid) (h : Heap F) : createEvent rnd h none none =
    (h.size + 2, ⟨h.objs ++ [.map [], .map [], .event (rnd h.drawn) (h.size + 1)], h.drawn + 1⟩) := by
  simp [createEvent, newEvent, mapTruthy, initMap, Heap.alloc, Heap.draw, entries, Heap.get, Heap.size]

theorem newEvent_none (rnd : Nat → Uuid) (h : Heap F) : newEvent rnd h none none =
    (h.size + 2, ⟨h.objs ++ [.map [], .map [], .event (rnd h.drawn) (h.size + 1)], h.drawn + 1⟩) := by
  simp [newEvent, mapTruthy, initMap, Heap.alloc, Heap.draw, entries, Heap.get, Heap.size]

theorem createTrace_none (h : Heap F) : createTrace h none =
    (h.size + 2, ⟨h.objs ++ [.map [], .map [], .trace (h.size + 1) []], h.drawn⟩) := by
  simp [createTrace, newTrace, mapTruthy, initMap, Heap.alloc, entries, Heap.get, Heap.size]

/-- Adding new objects that point only to new objects, then letting a cell of `C` point to one. -/
theorem Confined.grow {h : Heap F} {C : Ref → Prop} (hc : Closed h C) (os : List (Obj F)) (d : Nat)
    (hos : ∀ o ∈ os, (∀ m, mapPtr o = some m → h.size ≤ m ∧ m < h.size + os.length) ∧
      (∀ k ∈ kids o, h.size ≤ k ∧ k < h.size + os.length))
    {r : Ref} (hr : C r) {o : Obj F} (h1 : ∀ m, mapPtr o = some m → C m)
    (h2 : ∀ k ∈ kids o, C k ∨ (h.size ≤ k ∧ k < h.size + os.length)) :
    Confined h ((⟨h.objs ++ os, d⟩ : Heap F).put r o) C := by
  have hlt := hc.lt hr
  have hsz : ((⟨h.objs ++ os, d⟩ : Heap F).put r o).size = h.size + os.length := by
    rw [size_put]; simp [Heap.size]
  have hold : ∀ x, x < h.size → (⟨h.objs ++ os, d⟩ : Heap F).get x = h.get x := by
    intro x hx
    unfold Heap.get Heap.size at *
    exact List.getElem?_append_left hx
  refine ⟨by omega, ?_, ?_⟩
  · intro x hx hxc
    rw [get_put_ne o (r' := x) (fun e => hxc (e ▸ hr))]
    exact hold x hx
  · intro x hx
    rw [hsz] at hx
    by_cases e : x = r
    · subst e
      refine ⟨o, get_put_self o ?_, fun m hm => Or.inl (h1 m hm), ?_⟩
      · have : (⟨h.objs ++ os, d⟩ : Heap F).size = h.size + os.length := by simp [Heap.size]
        omega
      · rw [hsz]; exact h2
    · rcases hx with hx | hx
      · obtain ⟨o', ho', h3, h4⟩ := hc x hx
        exact ⟨o', by rw [get_put_ne o e, hold x (get_lt ho')]; exact ho', fun m hm => Or.inl (h3 m hm),
          fun k hk => Or.inl (h4 k hk)⟩
      · have hget : (⟨h.objs ++ os, d⟩ : Heap F).get x = os[x - h.size]? := by
          unfold Heap.get Heap.size at *
          rw [List.getElem?_append_right hx.1]
        have hi : x - h.size < os.length := by omega
        refine ⟨os[x - h.size], ?_, ?_, ?_⟩
        · rw [get_put_ne o e, hget, List.getElem?_eq_getElem hi]
        · intro m hm
          rw [hsz]
          exact Or.inr ((hos _ (List.getElem_mem hi)).1 m hm)
        · intro k hk
          rw [hsz]
          exact Or.inr ((hos _ (List.getElem_mem hi)).2 k hk)

theorem mapOf_ok {h : Heap F} {r m : Ref} (hm : mapOf h r = .ok m) : ∃ o, h.get r = some o ∧ mapPtr o = some m := by
  unfold mapOf at hm
  split at hm <;> simp at hm <;> subst hm
  all_goals (first | exact ⟨_, by assumption, rfl⟩)

theorem applyAt_confined {rnd : Nat → Uuid} {h h' : Heap F} {C : Ref → Prop} (hc : Closed h C) {r : Ref} (hr : C r)
    {op : StructOp} (ha : applyAt rnd h r op = some h') : Confined h h' C := by
  obtain ⟨o, ho, hmp, hkd⟩ := hc r hr
  have viaMap : ∀ {m : Ref}, mapOf h r = .ok m → C m := by
    intro m hm
    obtain ⟨o', ho', hp⟩ := mapOf_ok hm
    rw [ho] at ho'
    simp at ho'
    subst ho'
    exact hmp m hp
  cases op with
  | setAttr p k a =>
    simp only [applyAt] at ha
    cases hm : mapOf h r with
    | error e => rw [hm] at ha; simp [bind, Except.bind, Except.toOption] at ha
    | ok m =>
      rw [hm] at ha
      simp only [bind, Except.bind, mapSet] at ha
      split at ha
      · simp [Except.toOption] at ha
        subst ha
        exact Confined.put hc (viaMap hm) (by simp [mapPtr]) (by simp [kids])
      · simp [Except.toOption] at ha
  | delAttr p k =>
    simp only [applyAt] at ha
    cases hm : mapOf h r with
    | error e => rw [hm] at ha; simp [bind, Except.bind, Except.toOption] at ha
    | ok m =>
      rw [hm] at ha
      simp only [bind, Except.bind, mapDel] at ha
      split at ha
      · split at ha
        · simp [Except.toOption] at ha
          subst ha
          exact Confined.put hc (viaMap hm) (by simp [mapPtr]) (by simp [kids])
        · simp [Except.toOption] at ha
      · simp [Except.toOption] at ha
  | addNew p =>
    simp only [applyAt, ho] at ha
    cases o with
    | trace m es =>
      simp only [createEvent_none, traceAppend] at ha
      have hg : (⟨h.objs ++ [.map [], .map [], .event (rnd h.drawn) (h.size + 1)], h.drawn + 1⟩ : Heap F).get r
          = some (.trace m es) := by
        rw [← ho]
        unfold Heap.get
        exact List.getElem?_append_left (get_lt ho)
      rw [hg] at ha
      simp only [Except.toOption, Option.some.injEq] at ha
      subst ha
      refine Confined.grow hc _ _ ?_ hr ?_ ?_
      rotate_left
      · intro m' hm'; exact hmp m' hm'
      · intro k hk
        simp only [kids, List.mem_append, List.mem_singleton] at hk
        rcases hk with hk | rfl
        · exact Or.inl (hkd k hk)
        · right; simp
      · intro o' ho'
        simp at ho'
        rcases ho' with rfl | rfl <;> simp [mapPtr, kids]
    | log o =>
      simp only [createTrace_none, logAppend] at ha
      have hg : (⟨h.objs ++ [.map [], .map [], .trace (h.size + 1) []], h.drawn⟩ : Heap F).get r
          = some (.log o) := by
        rw [← ho]
        unfold Heap.get
        exact List.getElem?_append_left (get_lt ho)
      rw [hg] at ha
      simp only [Except.toOption, Option.some.injEq] at ha
      subst ha
      refine Confined.grow hc _ _ ?_ hr ?_ ?_
      rotate_left
      · intro m' hm'; exact hmp m' hm'
      · intro k hk
        simp only [kids, List.mem_append, List.mem_singleton] at hk
        rcases hk with hk | rfl
        · exact Or.inl (hkd k hk)
        · right; simp
      · intro o' ho'
        simp at ho'
        rcases ho' with rfl | rfl <;> simp [mapPtr, kids]
    | map d => simp at ha
    | pyNone => simp at ha
    | attr => simp at ha
    | event => simp at ha
  | remove p i =>
    simp only [applyAt, ho] at ha
    cases o with
    | trace m es =>
      simp only [Option.some.injEq] at ha
      subst ha
      exact Confined.put hc hr (fun m' hm' => hmp m' hm') (fun k hk => hkd k (List.mem_of_mem_eraseIdx hk))
    | log o =>
      simp only [Option.some.injEq] at ha
      subst ha
      exact Confined.put hc hr (fun m' hm' => hmp m' hm') (fun k hk => hkd k (List.mem_of_mem_eraseIdx hk))
    | map d => simp at ha
    | pyNone => simp at ha
    | attr => simp at ha
    | event => simp at ha
  | setId p u =>
    simp only [applyAt, setId, ho] at ha
    cases o with
    | event i m =>
      simp only [Except.toOption, Option.some.injEq] at ha
      subst ha
      exact Confined.put hc hr (fun m' hm' => hmp m' hm') (by simp [kids])
    | map d => simp [Except.toOption] at ha
    | pyNone => simp [Except.toOption] at ha
    | attr => simp [Except.toOption] at ha
    | trace => simp [Except.toOption] at ha
    | log => simp [Except.toOption] at ha
  | editLog p ex cl gt ge fe =>
    simp only [applyAt, ho] at ha
    cases o with
    | log o =>
      simp only [Option.some.injEq] at ha
      subst ha
      exact Confined.put hc hr (fun m' hm' => hmp m' hm') (fun k hk => hkd k hk)
    | map d => simp at ha
    | pyNone => simp at ha
    | attr => simp at ha
    | event => simp at ha
    | trace => simp at ha

theorem change_confined {rnd : Nat → Uuid} {h : Heap F} {C : Ref → Prop} (hc : Closed h C) {root : Ref} (hr : C root)
    (op : StructOp) : Confined h (change rnd h root op) C := by
  unfold change
  cases hl : locate h root op.path with
  | none => exact Confined.refl hc
  | some r =>
    cases ha : applyAt rnd h r op with
    | none => simp only [ha]; exact Confined.refl hc
    | some h' => simp only [ha]; exact applyAt_confined hc (locate_mem hc hr hl) ha

/-- The two elements live in disjoint closed sets of cells. -/
structure Apart (h : Heap F) (a b : Ref) : Prop where
  ex : ∃ A B : Ref → Prop, A a ∧ B b ∧ Closed h A ∧ Closed h B ∧ ∀ r, A r → B r → False

theorem Apart.symm {h : Heap F} {a b : Ref} (h0 : Apart h a b) : Apart h b a := by
  obtain ⟨A, B, h1, h2, h3, h4, h5⟩ := h0.ex
  exact ⟨B, A, h2, h1, h4, h3, fun r x y => h5 r y x⟩

theorem Apart.change {rnd : Nat → Uuid} {h : Heap F} {a b : Ref} (h0 : Apart h a b) (op : StructOp) :
    Apart (change rnd h a op) a b ∧ viewEvent (change rnd h a op) b = viewEvent h b ∧
    viewTrace (change rnd h a op) b = viewTrace h b ∧ viewLog (change rnd h a op) b = viewLog h b := by
  obtain ⟨A, B, h1, h2, h3, h4, h5⟩ := h0.ex
  have hcf := change_confined (rnd := rnd) h3 h1 op
  have hs : ∀ r, B r → (Opy.change rnd h a op).get r = h.get r :=
    fun r hr => hcf.old r (h4.lt hr) (fun hA => h5 r hA hr)
  refine ⟨⟨_, B, Or.inl h1, h2, hcf.closed, ?_, ?_⟩, viewEvent_frame h4 hs h2, viewTrace_frame h4 hs h2,
    viewLog_frame h4 hs h2⟩
  · intro r hr
    obtain ⟨o, ho, i1, i2⟩ := h4 r hr
    exact ⟨o, by rw [hs r hr]; exact ho, i1, i2⟩
  · intro r hA hB
    rcases hA with hA | hA
    · exact h5 r hA hB
    · have := h4.lt hB; omega

theorem Apart.history {rnd : Nat → Uuid} {a b : Ref} : ∀ (ops : List (Bool × StructOp)) {h : Heap F}, Apart h a b →
    Apart (history rnd a b h ops) a b := by
  intro ops
  induction ops with
  | nil => intro h h0; exact h0
  | cons op ops ih =>
    obtain ⟨side, op⟩ := op
    intro h h0
    cases side with
    | true => exact ih (h0.change op).1
    | false => exact ih (h0.symm.change op).1.symm

/-! ## What clone does to the heap -/

/-- New cells only point to new cells. -/
def FreshClosed (n : Nat) (h : Heap F) : Prop := Closed h (fun r => n ≤ r ∧ r < h.size)

theorem cloneMap_ok {h : Heap F} {m : Ref} {d : List (Str × Ref)} (hg : h.get m = some (.map d)) (hn : (dkeys d).Nodup) :
    cloneMap h m = .ok (h.size, ⟨h.objs ++ [.map d], h.drawn⟩) := by
  simp [cloneMap, entries, hg, foldl_dset_self hn, Heap.alloc, Heap.size]

/-- The reference is an event with its map. -/
def IsEvent (h : Heap F) (e : Ref) : Prop :=
  ∃ u m d, h.get e = some (.event u m) ∧ h.get m = some (.map d) ∧ (dkeys d).Nodup

/-- The reference is a trace of events. -/
def IsTrace (h : Heap F) (t : Ref) : Prop :=
  ∃ m es d, h.get t = some (.trace m es) ∧ h.get m = some (.map d) ∧ (dkeys d).Nodup ∧ ∀ e ∈ es, IsEvent h e

/-- The reference is a log of traces of events. -/
def IsLog (h : Heap F) (l : Ref) : Prop :=
  ∃ o d, h.get l = some (.log o) ∧ h.get o.map = some (.map d) ∧ (dkeys d).Nodup ∧ ∀ t ∈ o.traces, IsTrace h t

theorem get_append_left {h : Heap F} {os : List (Obj F)} {d : Nat} {r : Ref} (hr : r < h.size) :
    (⟨h.objs ++ os, d⟩ : Heap F).get r = h.get r := by
  unfold Heap.get Heap.size at *
  exact List.getElem?_append_left hr

theorem get_append_right {h : Heap F} {os : List (Obj F)} {d : Nat} (i : Nat) :
    (⟨h.objs ++ os, d⟩ : Heap F).get (h.size + i) = os[i]? := by
  unfold Heap.get Heap.size
  rw [List.getElem?_append_right (by omega)]
  congr 1
  omega

theorem cloneEvent_ok (rnd : Nat → Uuid) {h : Heap F} {e : Ref} {u : Uuid} {m : Ref} {d : List (Str × Ref)}
    (he : h.get e = some (.event u m)) (hm : h.get m = some (.map d)) (hn : (dkeys d).Nodup) :
    cloneEvent rnd h e = .ok (h.size + 2,
      ⟨h.objs ++ [.map [], .map [], .event (rnd (h.drawn + 1)) (h.size + 3), .map d], h.drawn + 2⟩) := by
  unfold cloneEvent
  rw [newEvent_none]
  simp only
  have e1 : mapOf (⟨h.objs ++ [.map [], .map [], .event (rnd h.drawn) (h.size + 1)], h.drawn + 1⟩ : Heap F) e = .ok m := by
    unfold mapOf
    rw [get_append_left (get_lt he), he]
  rw [e1]
  simp only [bind, Except.bind]
  rw [cloneMap_ok (d := d) (by rw [get_append_left (get_lt hm)]; exact hm) hn]
  simp only [Heap.size, List.length_append, List.length_cons, List.length_nil, List.append_assoc, List.cons_append,
    List.nil_append]
  have g : ∀ (os : List (Obj F)) (k : Nat) (i : Nat), (⟨h.objs ++ os, k⟩ : Heap F).get (h.objs.length + i) = os[i]? :=
    fun os k i => get_append_right i
  simp only [setMap, g]
  simp [Heap.put, Heap.draw, setId, g]

theorem cloneEvents_ok (rnd : Nat → Uuid) : ∀ (es : List Ref) {h : Heap F} {c m : Ref} {acc : List Ref} {n : Nat},
    h.get c = some (.trace m acc) → n ≤ c → FreshClosed n h → (∀ e ∈ es, IsEvent h e ∧ e < n) →
    (∀ e ∈ es, ∀ u m, h.get e = some (.event u m) → m < n) →
    ∃ h' cs idx, cloneEvents rnd h c es = .ok h' ∧ h'.get c = some (.trace m (acc ++ cs)) ∧
      h.size ≤ h'.size ∧ (∀ r, r < h.size → r ≠ c → h'.get r = h.get r) ∧ FreshClosed n h' ∧
      h.drawn ≤ h'.drawn ∧ idx.length = es.length ∧ idx.Pairwise (· < ·) ∧ (∀ i ∈ idx, h.drawn ≤ i ∧ i < h'.drawn) ∧
      cs.map (viewEvent h') = List.zipWith (fun e i => (viewEvent h e).map (fun v => ⟨rnd i, v.attrs⟩)) es idx := by
  intro es
  induction es with
  | nil =>
    intro h c m acc n hc hnc hf _ _
    exact ⟨h, [], [], rfl, by simpa using hc, Nat.le_refl _, fun _ _ _ => rfl, hf, Nat.le_refl _, rfl, by simp, by simp, rfl⟩
  | cons e es ih =>
    intro h c m acc n hc hnc hf hes hmn
    obtain ⟨⟨u, me, d, he, hme, hn⟩, hen⟩ := hes e (by simp)
    have hmen := hmn e (by simp) u me he
    have hcl := get_lt hc
    have hcm : n ≤ m ∧ m < h.size := by
      obtain ⟨o, ho, h1, -⟩ := hf c ⟨hnc, hcl⟩
      rw [hc] at ho; simp at ho; subst ho
      exact h1 m rfl
    -- heap after cloning the event
    let os : List (Obj F) := [.map [], .map [], .event (rnd (h.drawn + 1)) (h.size + 3), .map d]
    let h1 : Heap F := ⟨h.objs ++ os, h.drawn + 2⟩
    have hce : cloneEvent rnd h e = .ok (h.size + 2, h1) := cloneEvent_ok rnd he hme hn
    have hs1 : h1.size = h.size + 4 := by simp [h1, os, Heap.size]
    have g1 : ∀ i, h1.get (h.size + i) = os[i]? := fun i => get_append_right i
    have g0 : ∀ r, r < h.size → h1.get r = h.get r := fun r hr => get_append_left hr
    let h2 : Heap F := h1.put c (.trace m (acc ++ [h.size + 2]))
    have hta : traceAppend h1 c (h.size + 2) = .ok h2 := by
      unfold traceAppend
      rw [g0 c hcl, hc]
    have hs2 : h2.size = h.size + 4 := by rw [← hs1]; exact size_put _ _ _
    have k2 : ∀ r, r ≠ c → h2.get r = h1.get r := fun r hr => get_put_ne _ hr
    have hc2 : h2.get c = some (.trace m (acc ++ [h.size + 2])) := get_put_self _ (by omega)
    have hacc : ∀ k ∈ acc, n ≤ k ∧ k < h.size := by
      obtain ⟨o, ho, -, h2⟩ := hf c ⟨hnc, hcl⟩
      rw [hc] at ho; simp at ho; subst ho
      exact h2
    have hf2 : FreshClosed n h2 := by
      intro r hr
      rw [hs2] at hr ⊢
      by_cases hrc : r = c
      · subst hrc
        refine ⟨_, hc2, ?_, ?_⟩
        · intro m' hm'
          simp [mapPtr] at hm'
          subst hm'
          omega
        · intro k hk
          simp only [kids, List.mem_append, List.mem_singleton] at hk
          rcases hk with hk | rfl
          · have := hacc k hk; omega
          · omega
      · by_cases hrl : r < h.size
        · obtain ⟨o, ho, j1, j2⟩ := hf r ⟨hr.1, hrl⟩
          refine ⟨o, by rw [k2 r hrc, g0 r hrl]; exact ho, ?_, ?_⟩
          · intro m' hm'; have := j1 m' hm'; omega
          · intro k hk; have := j2 k hk; omega
        · obtain ⟨i, rfl⟩ : ∃ i, r = h.size + i := ⟨r - h.size, by omega⟩
          have hi : i < 4 := by omega
          rw [k2 _ hrc, g1 i]
          have : i = 0 ∨ i = 1 ∨ i = 2 ∨ i = 3 := by omega
          rcases this with rfl | rfl | rfl | rfl
          · exact ⟨_, rfl, by simp [mapPtr], by simp [kids]⟩
          · exact ⟨_, rfl, by simp [mapPtr], by simp [kids]⟩
          · refine ⟨_, rfl, ?_, by simp [kids]⟩
            intro m' hm'
            simp [mapPtr] at hm'
            subst hm'
            omega
          · exact ⟨_, rfl, by simp [mapPtr], by simp [kids]⟩
    have keep : ∀ r, r < n → h2.get r = h.get r := by
      intro r hr
      rw [k2 r (by omega), g0 r (by omega)]
    have hev : ∀ x, IsEvent h x ∧ x < n → (∀ u m, h.get x = some (.event u m) → m < n) → IsEvent h2 x ∧ x < n := by
      rintro x ⟨⟨u, mx, dx, i1, i2, i3⟩, i4⟩ i5
      have := i5 u mx i1
      exact ⟨⟨u, mx, dx, by rw [keep x i4]; exact i1, by rw [keep mx this]; exact i2, i3⟩, i4⟩
    obtain ⟨h', cs, idx, r1, r2, r3, r4, r5, r6, r7, r8, r9, r10⟩ := ih (h := h2) (c := c) (m := m)
      (acc := acc ++ [h.size + 2]) (n := n) hc2 hnc hf2
      (fun x hx => hev x (hes x (List.mem_cons_of_mem _ hx)) (hmn x (List.mem_cons_of_mem _ hx)))
      (fun x hx u mx hg => hmn x (List.mem_cons_of_mem _ hx) u mx (by
        rw [← keep x (hes x (List.mem_cons_of_mem _ hx)).2]; exact hg))
    have hd2 : h2.drawn = h.drawn + 2 := rfl
    refine ⟨h', (h.size + 2) :: cs, (h.drawn + 1) :: idx, ?_, ?_, by omega, ?_, r5, by omega, by simp [r7], ?_, ?_, ?_⟩
    · simp only [cloneEvents, hce, bind, Except.bind, hta]
      exact r1
    · rw [r2]; simp
    · intro r hr hrc
      rw [r4 r (by omega) hrc, k2 r hrc, g0 r hr]
    · rw [List.pairwise_cons]
      refine ⟨?_, r8⟩
      intro i hi
      have := (r9 i hi).1
      omega
    · intro i hi
      rcases List.mem_cons.1 hi with rfl | hi
      · omega
      · have := r9 i hi; omega
    · simp only [List.map_cons, List.zipWith_cons_cons, List.cons.injEq]
      constructor
      · have hv : viewEvent h e = some ⟨u, d⟩ := by simp [viewEvent, he, viewMap, hme]
        have q1 : h'.get (h.size + 2) = some (.event (rnd (h.drawn + 1)) (h.size + 3)) := by
          rw [r4 _ (by omega) (by omega), k2 _ (by omega), g1 2]; rfl
        have q2 : h'.get (h.size + 3) = some (.map d) := by
          rw [r4 _ (by omega) (by omega), k2 _ (by omega), g1 3]; rfl
        rw [hv]
        simp [viewEvent, q1, viewMap, q2]
      · rw [r10]
        have : ∀ x ∈ es, viewEvent h2 x = viewEvent h x := by
          intro x hx
          obtain ⟨⟨ux, mx, dx, i1, i2, -⟩, i4⟩ := hes x (List.mem_cons_of_mem _ hx)
          have i5 := hmn x (List.mem_cons_of_mem _ hx) ux mx i1
          simp [viewEvent, keep x i4, i1, viewMap, keep mx i5, i2]
        have zip : ∀ (l : List Ref) (ix : List Nat), (∀ x ∈ l, viewEvent h2 x = viewEvent h x) →
            List.zipWith (fun e i => (viewEvent h2 e).map (fun v => (⟨rnd i, v.attrs⟩ : EventView))) l ix
            = List.zipWith (fun e i => (viewEvent h e).map (fun v => ⟨rnd i, v.attrs⟩)) l ix := by
          intro l
          induction l with
          | nil => intro ix _; rfl
          | cons x l ihl =>
            intro ix hl
            cases ix with
            | nil => rfl
            | cons i ix =>
              simp only [List.zipWith_cons_cons]
              rw [hl x (by simp), ihl ix (fun y hy => hl y (List.mem_cons_of_mem _ hy))]
        exact zip es idx this

theorem FreshClosed.append {n : Nat} {h : Heap F} (hf : FreshClosed n h) (os : List (Obj F)) (d : Nat)
    (hos : ∀ o ∈ os, (∀ m, mapPtr o = some m → n ≤ m ∧ m < h.size + os.length) ∧
      (∀ k ∈ kids o, n ≤ k ∧ k < h.size + os.length)) : FreshClosed n (⟨h.objs ++ os, d⟩ : Heap F) := by
  have hsz : (⟨h.objs ++ os, d⟩ : Heap F).size = h.size + os.length := by simp [Heap.size]
  intro r hr
  rw [hsz] at hr ⊢
  by_cases hrl : r < h.size
  · obtain ⟨o, ho, j1, j2⟩ := hf r ⟨hr.1, hrl⟩
    refine ⟨o, by rw [get_append_left hrl]; exact ho, ?_, ?_⟩
    · intro m' hm'; have := j1 m' hm'; omega
    · intro k hk; have := j2 k hk; omega
  · obtain ⟨i, rfl⟩ : ∃ i, r = h.size + i := ⟨r - h.size, by omega⟩
    have hi : i < os.length := by omega
    exact ⟨os[i], by rw [get_append_right, List.getElem?_eq_getElem hi], (hos _ (List.getElem_mem hi)).1,
      (hos _ (List.getElem_mem hi)).2⟩

theorem FreshClosed.put {n : Nat} {h : Heap F} (hf : FreshClosed n h) (c : Ref) (o : Obj F)
    (h1 : ∀ m, mapPtr o = some m → n ≤ m ∧ m < h.size) (h2 : ∀ k ∈ kids o, n ≤ k ∧ k < h.size) :
    FreshClosed n (h.put c o) := by
  intro r hr
  rw [size_put] at hr ⊢
  by_cases e : r = c
  · subst e
    exact ⟨o, get_put_self o hr.2, h1, h2⟩
  · obtain ⟨o', ho', j1, j2⟩ := hf r hr
    exact ⟨o', by rw [get_put_ne o e]; exact ho', j1, j2⟩

theorem Keeps.append (h : Heap F) (os : List (Obj F)) (d : Nat) : Keeps h.size h ⟨h.objs ++ os, d⟩ :=
  ⟨by simp [Heap.size], fun _ hr => get_append_left hr⟩

/-- Copying a map and building an element on the copy: the element gets a fresh map with the same
entries. -/
theorem initMap_ok {h : Heap F} {m : Ref} {d : List (Str × Ref)} (hm : h.get m = some (.map d)) :
    (d ≠ [] ∧ initMap h (some m) = (m, h)) ∨
    (d = [] ∧ initMap h (some m) = (h.size, ⟨h.objs ++ [.map []], h.drawn⟩)) := by
  by_cases hd : d = []
  · right; simp [initMap, mapTruthy, entries, hm, hd, Heap.alloc, Heap.size]
  · left; simp [initMap, mapTruthy, entries, hm, hd]

/-- The copied map an element is built on, common to traces and logs: `mk m'` is the new object. -/
theorem cloneInit_ok {h : Heap F} {m n : Ref} {d : List (Str × Ref)} (hm : h.get m = some (.map d))
    (hn : (dkeys d).Nodup) (hf : FreshClosed n h) (hns : n ≤ h.size) (mk : Ref → Obj F)
    (hmk : ∀ m', mapPtr (mk m') = some m' ∧ kids (mk m') = []) :
    ∃ m1 h1, cloneMap h m = .ok (m1, h1) ∧ ∃ c h2 m', (initMap h1 (some m1)).2.alloc (mk (initMap h1 (some m1)).1) = (c, h2) ∧
      h2.get c = some (mk m') ∧ h2.get m' = some (.map d) ∧ Keeps h.size h h2 ∧ FreshClosed n h2 ∧ h.size ≤ c ∧
      c < h2.size ∧ h.size ≤ m' ∧ m' < h2.size ∧ m' ≠ c ∧ h2.drawn = h.drawn := by
  refine ⟨h.size, ⟨h.objs ++ [.map d], h.drawn⟩, cloneMap_ok hm hn, ?_⟩
  have g : (⟨h.objs ++ [.map d], h.drawn⟩ : Heap F).get h.size = some (.map d) := by
    have := get_append_right (h := h) (os := [.map d]) (d := h.drawn) 0
    simpa using this
  rcases initMap_ok g with ⟨hd, e⟩ | ⟨hd, e⟩
  · rw [e]
    refine ⟨h.size + 1, ⟨h.objs ++ [.map d, mk h.size], h.drawn⟩, h.size, ?_, ?_, ?_, Keeps.append _ _ _, ?_, by omega, ?_,
      Nat.le_refl _, ?_, by omega, rfl⟩
    · simp [Heap.alloc, Heap.size]
    · exact get_append_right (h := h) 1
    · exact get_append_right (h := h) 0
    · apply hf.append
      intro o ho
      simp at ho
      rcases ho with rfl | rfl
      · simp [mapPtr, kids]
      · refine ⟨?_, by simp [(hmk h.size).2]⟩
        intro m' hm'
        rw [(hmk h.size).1] at hm'
        simp at hm'
        subst hm'
        simp; omega
    · simp [Heap.size]
    · simp [Heap.size]
  · rw [e]
    subst hd
    refine ⟨h.size + 2, ⟨h.objs ++ [.map [], .map [], mk (h.size + 1)], h.drawn⟩, h.size + 1, ?_, ?_, ?_, Keeps.append _ _ _, ?_,
      by omega, ?_, by omega, ?_, by omega, rfl⟩
    · simp [Heap.alloc, Heap.size]
    · exact get_append_right (h := h) 2
    · exact get_append_right (h := h) 1
    · apply hf.append
      intro o ho
      simp at ho
      rcases ho with rfl | rfl
      · simp [mapPtr, kids]
      · refine ⟨?_, by simp [(hmk (h.size + 1)).2]⟩
        intro m' hm'
        rw [(hmk (h.size + 1)).1] at hm'
        simp at hm'
        subst hm'
        simp; omega
    · simp [Heap.size]
    · simp [Heap.size]

/-- A view of a trace with the identifiers replaced by the ones drawn at the given positions. -/
def TraceView.relabel (rnd : Nat → Uuid) (v : TraceView) (idx : List Nat) : TraceView :=
  ⟨v.attrs, List.zipWith (fun e i => e.map (fun w => ⟨rnd i, w.attrs⟩)) v.events idx⟩

/-- A view of a log with the identifiers replaced. -/
def LogView.relabel (rnd : Nat → Uuid) (v : LogView) (idx : List (List Nat)) : LogView :=
  { v with traces := List.zipWith (fun t ix => t.map (fun w => w.relabel rnd ix)) v.traces idx }

theorem Keeps.event {h0 h : Heap F} (hk : Keeps h0.size h0 h) {e : Ref} (he : IsEvent h0 e) :
    IsEvent h e ∧ e < h0.size ∧ (∀ u m, h.get e = some (.event u m) → m < h0.size) ∧ viewEvent h e = viewEvent h0 e := by
  obtain ⟨u, m, d, h1, h2, h3⟩ := he
  have e1 := hk.old e (get_lt h1)
  have e2 := hk.old m (get_lt h2)
  refine ⟨⟨u, m, d, by rw [e1]; exact h1, by rw [e2]; exact h2, h3⟩, get_lt h1, ?_, ?_⟩
  · intro u' m' hg
    rw [e1, h1] at hg
    simp at hg
    rw [← hg.2]
    exact get_lt h2
  · simp [viewEvent, viewMap, e1, h1, e2, h2]

theorem cloneTrace_ok (rnd : Nat → Uuid) {h0 h : Heap F} (hk : Keeps h0.size h0 h) (hf : FreshClosed h0.size h) {t : Ref}
    (ht : IsTrace h0 t) : ∃ c h' idx v, cloneTrace rnd h t = .ok (c, h') ∧ h.size ≤ c ∧ c < h'.size ∧ Keeps h.size h h' ∧
      FreshClosed h0.size h' ∧ h.drawn ≤ h'.drawn ∧ idx.Pairwise (· < ·) ∧ (∀ i ∈ idx, h.drawn ≤ i ∧ i < h'.drawn) ∧
      viewTrace h0 t = some v ∧ idx.length = v.events.length ∧ viewTrace h' c = some (v.relabel rnd idx) := by
  obtain ⟨m, es, d, t1, t2, t3, t4⟩ := ht
  have e1 : h.get t = some (.trace m es) := by rw [hk.old t (get_lt t1)]; exact t1
  have e2 : h.get m = some (.map d) := by rw [hk.old m (get_lt t2)]; exact t2
  obtain ⟨m1, h1, i1, c, h2, m', i2, i3, i4, i5, i6, i7, i8, i9, i10, i11, i12⟩ := cloneInit_ok e2 t3 hf hk.size
    (fun m => .trace m []) (fun m => ⟨rfl, rfl⟩)
  have hk2 : Keeps h0.size h0 h2 := hk.trans (i5.mono hk.size)
  have hnc : h0.size ≤ c := Nat.le_trans hk.size i7
  obtain ⟨h', cs, idx, r1, r2, r3, r4, r5, r6, r7, r8, r9, r10⟩ := cloneEvents_ok rnd es i3 hnc i6
    (fun e he => ⟨(hk2.event (t4 e he)).1, (hk2.event (t4 e he)).2.1⟩)
    (fun e he => (hk2.event (t4 e he)).2.2.1)
  refine ⟨c, h', idx, ⟨d, es.map (viewEvent h0)⟩, ?_, i7, by omega, ?_, r5, by omega, r8, ?_, ?_, by simp [r7], ?_⟩
  · simp only [cloneTrace, e1, i1, bind, Except.bind, newTrace]
    rw [i2]
    simp only
    rw [r1]
  · exact ⟨by omega, fun r hr => by rw [r4 r (by omega) (by omega)]; exact i5.old r hr⟩
  · intro i hi; have := r9 i hi; omega
  · simp [viewTrace, t1, viewMap, t2]
  · have q : h'.get m' = some (.map d) := by rw [r4 m' i10 i11]; exact i4
    simp only [viewTrace, r2, viewMap, q, Option.map_some, List.nil_append, TraceView.relabel, Option.some.injEq,
      TraceView.mk.injEq, true_and]
    rw [r10]
    clear r1 r7 r9 r10 i1 i2 e1 t1
    induction es generalizing idx with
    | nil => rfl
    | cons e es ih =>
      cases idx with
      | nil => rfl
      | cons i idx =>
        simp only [List.zipWith_cons_cons, List.map_cons]
        rw [(hk2.event (t4 e (by simp))).2.2.2]
        congr 1
        exact ih (fun x hx => t4 x (List.mem_cons_of_mem _ hx)) idx (List.pairwise_cons.1 r8).2

theorem cloneTraces_ok (rnd : Nat → Uuid) {h0 : Heap F} : ∀ (ts : List Ref) {h : Heap F} {c : Ref} {o : LogObj},
    Keeps h0.size h0 h → FreshClosed h0.size h → h.get c = some (.log o) → h0.size ≤ c → (∀ t ∈ ts, IsTrace h0 t) →
    ∃ h' cs idx, cloneTraces rnd h c ts = .ok h' ∧ h'.get c = some (.log { o with traces := o.traces ++ cs }) ∧
      h.size ≤ h'.size ∧ (∀ r, r < h.size → r ≠ c → h'.get r = h.get r) ∧ FreshClosed h0.size h' ∧ h.drawn ≤ h'.drawn ∧
      idx.flatten.Pairwise (· < ·) ∧ (∀ i ∈ idx.flatten, h.drawn ≤ i ∧ i < h'.drawn) ∧
      (ts.map (viewTrace h0)).map (fun v => v.map (fun v => v.events.length)) = idx.map (fun ix => some ix.length) ∧
      cs.map (viewTrace h') = List.zipWith (fun t ix => t.map (fun w => TraceView.relabel rnd w ix)) (ts.map (viewTrace h0)) idx := by
  intro ts
  induction ts with
  | nil =>
    intro h c o _ hf hc _ _
    exact ⟨h, [], [], rfl, by simpa using hc, Nat.le_refl _, fun _ _ _ => rfl, hf, Nat.le_refl _, by simp, by simp, rfl, rfl⟩
  | cons t ts ih =>
    intro h c o hk hf hc hnc hts
    obtain ⟨t', h1, ix, v, s1, s2, s3, s4, s5, s6, s7, s8, s9, s10, s11⟩ := cloneTrace_ok rnd hk hf (hts t (by simp))
    have hcl := get_lt hc
    have e1 : h1.get c = some (.log o) := by rw [s4.old c hcl]; exact hc
    let h2 : Heap F := h1.put c (.log { o with traces := o.traces ++ [t'] })
    have hla : logAppend h1 c t' = .ok h2 := by unfold logAppend; rw [e1]
    have hs2 : h2.size = h1.size := size_put _ _ _
    have k2 : ∀ r, r ≠ c → h2.get r = h1.get r := fun r hr => get_put_ne _ hr
    have hs4 := s4.size
    have hks := hk.size
    have hc2 : h2.get c = some (.log { o with traces := o.traces ++ [t'] }) := get_put_self _ (by omega)
    obtain ⟨oc, hoc, p1, p2⟩ := s5 c ⟨hnc, by omega⟩
    rw [e1] at hoc
    simp at hoc
    subst hoc
    have hf2 : FreshClosed h0.size h2 := by
      apply s5.put
      · intro m hm; exact p1 m hm
      · intro k hk'
        simp only [kids, List.mem_append, List.mem_singleton] at hk'
        rcases hk' with hk' | rfl
        · exact p2 k hk'
        · omega
    have hkk : Keeps h0.size h0 h2 := ⟨by omega, fun r hr => by
      rw [k2 r (by omega), s4.old r (by omega)]; exact hk.old r hr⟩
    obtain ⟨h', cs, idx, r1, r2, r3, r4, r5, r6, r7, r8, r9, r10⟩ := ih hkk hf2 hc2 hnc
      (fun x hx => hts x (List.mem_cons_of_mem _ hx))
    have hd2 : h2.drawn = h1.drawn := rfl
    refine ⟨h', t' :: cs, ix :: idx, ?_, ?_, by omega, ?_, r5, by omega, ?_, ?_, ?_, ?_⟩
    · simp only [cloneTraces, s1, bind, Except.bind, hla]
      exact r1
    · rw [r2]; simp
    · intro r hr hrc
      rw [r4 r (by omega) hrc, k2 r hrc, s4.old r hr]
    · rw [List.flatten_cons, List.pairwise_append]
      refine ⟨s7, r7, ?_⟩
      intro i hi j hj
      have := s8 i hi
      have := r8 j hj
      omega
    · intro i hi
      rw [List.flatten_cons, List.mem_append] at hi
      rcases hi with hi | hi
      · have := s8 i hi; omega
      · have := r8 i hi; omega
    · simp only [List.map_cons, s9, Option.map_some, s10, r9]
    · simp only [List.map_cons, List.zipWith_cons_cons, s9, Option.map_some]
      rw [r10]
      congr 1
      -- later clones do not touch this one
      rw [← s11]
      refine viewTrace_frame_log s5 ?_ ⟨by omega, s3⟩
      intro r hr
      by_cases hrc : r = c
      · subst hrc
        exact Or.inr ⟨_, _, e1, r2⟩
      · left
        rw [r4 r (by omega) hrc, k2 r hrc]

theorem cloneLog_ok (rnd : Nat → Uuid) {h : Heap F} {l : Ref} (hl : IsLog h l) :
    ∃ c h' idx v, cloneLog rnd h l = .ok (c, h') ∧ h.size ≤ c ∧ c < h'.size ∧ Keeps h.size h h' ∧
      FreshClosed h.size h' ∧ h.drawn ≤ h'.drawn ∧ idx.flatten.Pairwise (· < ·) ∧
      (∀ i ∈ idx.flatten, h.drawn ≤ i ∧ i < h'.drawn) ∧ viewLog h l = some v ∧
      v.traces.map (fun t => t.map (fun t => t.events.length)) = idx.map (fun ix => some ix.length) ∧
      viewLog h' c = some (v.relabel rnd idx) := by
  obtain ⟨o, d, e1, e2, e3, e4⟩ := hl
  have hf : FreshClosed h.size h := fun r hr => absurd hr.2 (by omega)
  obtain ⟨m1, h1, i1, c, h2, m', i2, i3, i4, i5, i6, i7, i8, i9, i10, i11, i12⟩ := cloneInit_ok e2 e3 hf (Nat.le_refl _)
    (fun m => .log ⟨m, [], [], [], [], [], []⟩) (fun m => ⟨rfl, rfl⟩)
  have hs5 := i5.size
  let n' : LogObj := ⟨m', o.extensions, o.classifiers, o.globalTrace, o.globalEvent, o.features, []⟩
  let h3 : Heap F := h2.put c (.log n')
  have hs3 : h3.size = h2.size := size_put _ _ _
  have hc3 : h3.get c = some (.log n') := get_put_self _ i8
  have k3 : ∀ r, r ≠ c → h3.get r = h2.get r := fun r hr => get_put_ne _ hr
  have hf3 : FreshClosed h.size h3 := by
    apply i6.put
    · intro m hm
      simp [mapPtr, n'] at hm
      omega
    · intro k hk
      simp [kids, n'] at hk
  have hk3 : Keeps h.size h h3 := ⟨by omega, fun r hr => by rw [k3 r (by omega)]; exact i5.old r hr⟩
  obtain ⟨h', cs, idx, r1, r2, r3, r4, r5, r6, r7, r8, r9, r10⟩ := cloneTraces_ok rnd o.traces hk3 hf3 hc3 i7 e4
  have hd : h3.drawn = h2.drawn := rfl
  refine ⟨c, h', idx, ⟨d, o.extensions, o.classifiers, o.globalTrace, o.globalEvent, o.features, o.traces.map (viewTrace h)⟩,
    ?_, i7, by omega, ?_, r5, by omega, r7, ?_, ?_, r9, ?_⟩
  · simp only [cloneLog, e1, i1, bind, Except.bind, newLog]
    rw [i2]
    simp only [i3]
    rw [r1]
  · exact ⟨by omega, fun r hr => by rw [r4 r (by omega) (by omega)]; exact hk3.old r hr⟩
  · intro i hi; have := r8 i hi; omega
  · simp [viewLog, e1, viewMap, e2]
  · have q : h'.get m' = some (.map d) := by rw [r4 m' (by omega) i11, k3 m' i11]; exact i4
    simp only [viewLog, r2, n', viewMap, q, Option.map_some, List.nil_append, LogView.relabel, Option.some.injEq,
      LogView.mk.injEq, true_and]
    exact r10

/-! ## Closed set of an original -/

/-- All cells of the heap that are maps, events, traces or logs of the proper kind. -/
def Cell (h : Heap F) (r : Ref) : Prop :=
  (∃ d, h.get r = some (.map d)) ∨ IsEvent h r ∨ IsTrace h r ∨ IsLog h r

theorem cell_closed (h : Heap F) : Closed h (Cell h) := by
  intro r hr
  rcases hr with ⟨d, hd⟩ | ⟨u, m, d, h1, h2, h3⟩ | ⟨m, es, d, h1, h2, h3, h4⟩ | ⟨o, d, h1, h2, h3, h4⟩
  · exact ⟨_, hd, by simp [mapPtr], by simp [kids]⟩
  · refine ⟨_, h1, ?_, by simp [kids]⟩
    intro m' hm'; simp [mapPtr] at hm'; subst hm'
    exact Or.inl ⟨d, h2⟩
  · refine ⟨_, h1, ?_, fun k hk => Or.inr (Or.inl (h4 k hk))⟩
    intro m' hm'; simp [mapPtr] at hm'; subst hm'
    exact Or.inl ⟨d, h2⟩
  · refine ⟨_, h1, ?_, fun k hk => Or.inr (Or.inr (Or.inl (h4 k hk)))⟩
    intro m' hm'; simp [mapPtr] at hm'; subst hm'
    exact Or.inl ⟨d, h2⟩

theorem apart_of_fresh {h h' : Heap F} {a c : Ref} (ha : Cell h a) (hk : Keeps h.size h h') (hf : FreshClosed h.size h')
    (hc : h.size ≤ c ∧ c < h'.size) : Apart h' a c := by
  refine ⟨Cell h, fun r => h.size ≤ r ∧ r < h'.size, ha, hc, ?_, hf, ?_⟩
  · intro r hr
    obtain ⟨o, ho, h1, h2⟩ := cell_closed h r hr
    exact ⟨o, by rw [hk.old r (get_lt ho)]; exact ho, h1, h2⟩
  · intro r hA hB
    have := (cell_closed h).lt hA
    omega

/-! ## C32 -/

/-- The three kinds of clone. -/
inductive Cloned (rnd : Nat → Uuid) (h : Heap F) (x c : Ref) (h' : Heap F) : Prop where
  | event (hx : IsEvent h x) (hc : cloneEvent rnd h x = .ok (c, h'))
  | trace (hx : IsTrace h x) (hc : cloneTrace rnd h x = .ok (c, h'))
  | log (hx : IsLog h x) (hc : cloneLog rnd h x = .ok (c, h'))

theorem Cloned.apart {rnd : Nat → Uuid} {h h' : Heap F} {x c : Ref} (hcl : Cloned rnd h x c h') : Apart h' x c := by
  cases hcl with
  | event hx hc =>
    obtain ⟨u, m, d, h1, h2, h3⟩ := id hx
    rw [cloneEvent_ok rnd h1 h2 h3] at hc
    simp only [Except.ok.injEq, Prod.mk.injEq] at hc
    obtain ⟨rfl, rfl⟩ := hc
    refine apart_of_fresh (Or.inr (Or.inl hx)) (Keeps.append _ _ _) ?_ ⟨by omega, by simp [Heap.size]⟩
    have hf : FreshClosed h.size h := fun r hr => absurd hr.2 (by omega)
    apply hf.append
    intro o ho
    simp at ho
    rcases ho with rfl | rfl | rfl <;> simp [mapPtr, kids]
  | trace hx hc =>
    have hf : FreshClosed h.size h := fun r hr => absurd hr.2 (by omega)
    obtain ⟨c', h'', idx, v, r1, r2, r3, r4, r5, -⟩ := cloneTrace_ok rnd (Keeps.refl _ h) hf hx
    rw [hc] at r1
    simp at r1
    obtain ⟨rfl, rfl⟩ := r1
    exact apart_of_fresh (Or.inr (Or.inr (Or.inl hx))) r4 r5 ⟨r2, r3⟩
  | log hx hc =>
    obtain ⟨c', h'', idx, v, r1, r2, r3, r4, r5, -⟩ := cloneLog_ok rnd hx
    rw [hc] at r1
    simp at r1
    obtain ⟨rfl, rfl⟩ := r1
    exact apart_of_fresh (Or.inr (Or.inr (Or.inr hx))) r4 r5 ⟨r2, r3⟩

/-- C32.  After cloning an event, a trace or a log, and after any history of structural changes made
through either of the two, one more change made through one of them does not alter what the other
shows (as event, trace or log). -/
theorem c32_clone_independent_structure (rnd : Nat → Uuid) {h h' : Heap F} {x c : Ref} (hcl : Cloned rnd h x c h')
    (ops : List (Bool × StructOp)) (op : StructOp) :
    let H := history rnd x c h' ops
    (viewEvent (change rnd H c op) x = viewEvent H x ∧ viewTrace (change rnd H c op) x = viewTrace H x ∧
      viewLog (change rnd H c op) x = viewLog H x) ∧
    (viewEvent (change rnd H x op) c = viewEvent H c ∧ viewTrace (change rnd H x op) c = viewTrace H c ∧
      viewLog (change rnd H x op) c = viewLog H c) := by
  have ha := Apart.history (rnd := rnd) ops hcl.apart
  exact ⟨(ha.symm.change op).2, (ha.change op).2⟩

/-- Only changes through the clone: the original shows throughout what it showed before cloning. -/
theorem c32_original_untouched (rnd : Nat → Uuid) {h h' : Heap F} {x c : Ref} (hcl : Cloned rnd h x c h')
    (ops : List StructOp) :
    let H := history rnd x c h' (ops.map (fun op => (false, op)))
    viewEvent H x = viewEvent h' x ∧ viewTrace H x = viewTrace h' x ∧ viewLog H x = viewLog h' x := by
  have : ∀ (ops : List StructOp) {h' : Heap F}, Apart h' x c →
      let H := history rnd x c h' (ops.map (fun op => (false, op)))
      viewEvent H x = viewEvent h' x ∧ viewTrace H x = viewTrace h' x ∧ viewLog H x = viewLog h' x := by
    intro ops
    induction ops with
    | nil => intro h' _; exact ⟨rfl, rfl, rfl⟩
    | cons op ops ih =>
      intro h' ha
      obtain ⟨a1, a2, a3, a4⟩ := ha.symm.change (rnd := rnd) op
      obtain ⟨b1, b2, b3⟩ := ih a1.symm
      exact ⟨b1.trans a2, b2.trans a3, b3.trans a4⟩
  exact this ops hcl.apart

/-! ## C34 -/

/-- C34 for events: cloning succeeds, leaves the original as it was, and the clone shows the same
attributes with an identifier drawn during cloning. -/
theorem c34_event (rnd : Nat → Uuid) {h : Heap F} {e : Ref} (he : IsEvent h e) :
    ∃ c h' v i, cloneEvent rnd h e = .ok (c, h') ∧ viewEvent h e = some v ∧ viewEvent h' e = some v ∧
      viewEvent h' c = some ⟨rnd i, v.attrs⟩ ∧ h.drawn ≤ i ∧ i < h'.drawn ∧ c ≠ e := by
  obtain ⟨u, m, d, h1, h2, h3⟩ := he
  refine ⟨_, _, ⟨u, d⟩, h.drawn + 1, cloneEvent_ok rnd h1 h2 h3, ?_, ?_, ?_, by omega, by simp, ?_⟩
  · simp [viewEvent, h1, viewMap, h2]
  · simp [viewEvent, viewMap, get_append_left (get_lt h1), h1, get_append_left (get_lt h2), h2]
  · have g2 := get_append_right (h := h) (os := [.map [], .map [], .event (rnd (h.drawn + 1)) (h.size + 3), .map d])
      (d := h.drawn + 2) 2
    have g3 := get_append_right (h := h) (os := [.map [], .map [], .event (rnd (h.drawn + 1)) (h.size + 3), .map d])
      (d := h.drawn + 2) 3
    simp only [viewEvent, g2]
    simp [viewMap, g3]
  · have := get_lt h1; omega

/-- C34 for traces: same attributes, same number and order of events with the same attributes; the
identifiers are drawn during cloning, at pairwise different positions. -/
theorem c34_trace (rnd : Nat → Uuid) {h : Heap F} {t : Ref} (ht : IsTrace h t) :
    ∃ c h' v idx, cloneTrace rnd h t = .ok (c, h') ∧ viewTrace h t = some v ∧ viewTrace h' t = some v ∧
      viewTrace h' c = some (v.relabel rnd idx) ∧ idx.length = v.events.length ∧ idx.Nodup ∧
      (∀ i ∈ idx, h.drawn ≤ i ∧ i < h'.drawn) ∧ c ≠ t := by
  have hf : FreshClosed h.size h := fun r hr => absurd hr.2 (by omega)
  obtain ⟨c, h', idx, v, r1, r2, r3, r4, r5, r6, r7, r8, r9, r10, r11⟩ := cloneTrace_ok rnd (Keeps.refl _ h) hf ht
  refine ⟨c, h', v, idx, r1, r9, ?_, r11, r10, r7.imp (fun hab => Nat.ne_of_lt hab), r8, ?_⟩
  · rw [← r9]
    exact viewTrace_frame (cell_closed h) (fun r hr => r4.old r ((cell_closed h).lt hr)) (Or.inr (Or.inr (Or.inl ht)))
  · obtain ⟨_, _, _, q, -⟩ := ht
    have := get_lt q; omega

/-- C34 for logs. -/
theorem c34_log (rnd : Nat → Uuid) {h : Heap F} {l : Ref} (hl : IsLog h l) :
    ∃ c h' v idx, cloneLog rnd h l = .ok (c, h') ∧ viewLog h l = some v ∧ viewLog h' l = some v ∧
      viewLog h' c = some (v.relabel rnd idx) ∧
      v.traces.map (fun t => t.map (fun t => t.events.length)) = idx.map (fun ix => some ix.length) ∧
      idx.flatten.Nodup ∧ (∀ i ∈ idx.flatten, h.drawn ≤ i ∧ i < h'.drawn) ∧ c ≠ l := by
  obtain ⟨c, h', idx, v, r1, r2, r3, r4, r5, r6, r7, r8, r9, r10, r11⟩ := cloneLog_ok rnd hl
  refine ⟨c, h', v, idx, r1, r9, ?_, r11, r10, r7.imp (fun hab => Nat.ne_of_lt hab), r8, ?_⟩
  · rw [← r9]
    exact viewLog_frame (cell_closed h) (fun r hr => r4.old r ((cell_closed h).lt hr)) (Or.inr (Or.inr (Or.inr hl)))
  · obtain ⟨_, _, q, -⟩ := hl
    have := get_lt q; omega

/-- If the identifiers drawn so far do not repeat (trusted: uuid4), the clone of an event has an
identifier no event obtained before. -/
theorem c34_event_new_id (rnd : Nat → Uuid) {h : Heap F} {e : Ref} (he : IsEvent h e)
    (hinj : ∀ i j, i < j → j < h.drawn + 2 → rnd i ≠ rnd j)
    (hold : ∀ r u m, h.get r = some (.event u m) → ∃ i, i < h.drawn ∧ u = rnd i) :
    ∃ c h' w, cloneEvent rnd h e = .ok (c, h') ∧ viewEvent h' c = some w ∧
      ∀ r u m, h.get r = some (.event u m) → w.id ≠ u := by
  obtain ⟨c, h', v, i, r1, r2, r3, r4, r5, r6, r7⟩ := c34_event rnd he
  have hd : h'.drawn = h.drawn + 2 := by
    obtain ⟨u, m, d, h1, h2, h3⟩ := he
    rw [cloneEvent_ok rnd h1 h2 h3] at r1
    simp only [Except.ok.injEq, Prod.mk.injEq] at r1
    rw [← r1.2]
  refine ⟨c, h', _, r1, r4, ?_⟩
  intro r u m hg heq
  obtain ⟨j, hj, rfl⟩ := hold r u m hg
  exact hinj j i (by omega) (by omega) heq.symm

/-- The view of a relabelled trace: attributes position by position. -/
theorem relabel_attrs (rnd : Nat → Uuid) (v : TraceView) (idx : List Nat) (h : idx.length = v.events.length) :
    (v.relabel rnd idx).attrs = v.attrs ∧
    (v.relabel rnd idx).events.map (fun e => e.map EventView.attrs) = v.events.map (fun e => e.map EventView.attrs) := by
  refine ⟨rfl, ?_⟩
  simp only [TraceView.relabel]
  generalize v.events = es at h
  induction es generalizing idx with
  | nil => simp
  | cons e es ih =>
    cases idx with
    | nil => simp at h
    | cons i idx =>
      simp only [List.zipWith_cons_cons, List.map_cons, Option.map_map]
      rw [ih idx (by simpa using h)]
      rfl

/-! ## C33 -/

/-- The value shown under a key of an event. -/
def shownValue (h : Heap F) (e : Ref) (k : Str) : Option (PyVal F) :=
  match viewEvent h e with
  | some v => match dget k v.attrs with
    | some a => match h.get a with
      | some (.attr _ _ _ x _ _) => some x
      | _ => none
    | none => none
  | none => none

/-- C33 fails for every event and every one of its typed attributes: setting another value through the
clone changes what the original shows. -/
theorem c33_clone_values_refuted (rnd : Nat → Uuid) {h : Heap F} {e : Ref} (he : IsEvent h e) {v : EventView}
    (hv : viewEvent h e = some v) {k : Str} {a : Ref} (hk : dget k v.attrs = some a) {kd : Kind} {key : Str}
    {ex : Option Ext} {old : PyVal F} {m : Ref} {cl : List Ref} (ha : h.get a = some (.attr kd key ex old m cl))
    (hkd : kd.isCollection = false) (new : PyVal F) :
    ∃ c h' h'' w, cloneEvent rnd h e = .ok (c, h') ∧ viewEvent h' c = some w ∧ dget k w.attrs = some a ∧
      setValue h' a new = .ok h'' ∧ shownValue h' e k = some old ∧ shownValue h'' e k = some new := by
  obtain ⟨u, mm, d, h1, h2, h3⟩ := he
  have hv' : v = ⟨u, d⟩ := by simp [viewEvent, h1, viewMap, h2] at hv; exact hv.symm
  subst hv'
  let os : List (Obj F) := [.map [], .map [], .event (rnd (h.drawn + 1)) (h.size + 3), .map d]
  let h' : Heap F := ⟨h.objs ++ os, h.drawn + 2⟩
  have o1 : h'.get e = some (.event u mm) := by rw [← h1]; exact get_append_left (get_lt h1)
  have o2 : h'.get mm = some (.map d) := by rw [← h2]; exact get_append_left (get_lt h2)
  have o3 : h'.get a = some (.attr kd key ex old m cl) := by rw [← ha]; exact get_append_left (get_lt ha)
  have g2 : h'.get (h.size + 2) = some (.event (rnd (h.drawn + 1)) (h.size + 3)) := get_append_right (h := h) (os := os) 2
  have g3 : h'.get (h.size + 3) = some (.map d) := get_append_right (h := h) (os := os) 3
  let h'' : Heap F := h'.put a (.attr kd key ex new m cl)
  have n1 : e ≠ a := by intro q; rw [q, o3] at o1; simp at o1
  have n2 : mm ≠ a := by intro q; rw [q, o3] at o2; simp at o2
  have p1 : h''.get e = some (.event u mm) := by rw [← o1]; exact get_put_ne _ n1
  have p2 : h''.get mm = some (.map d) := by rw [← o2]; exact get_put_ne _ n2
  have p3 : h''.get a = some (.attr kd key ex new m cl) := get_put_self _ (get_lt o3)
  refine ⟨_, h', h'', ⟨rnd (h.drawn + 1), d⟩, cloneEvent_ok rnd h1 h2 h3, ?_, hk, ?_, ?_, ?_⟩
  · simp [viewEvent, g2, viewMap, g3]
  · simp [setValue, o3, hkd, h'']
  · simp only [shownValue, viewEvent, o1, viewMap, o2, Option.map_some]
    rw [hk]
    simp [o3]
  · simp only [shownValue, viewEvent, p1, viewMap, p2, Option.map_some]
    rw [hk]
    simp [p3]

/-! ## C35 -/

/-- C35, the part that holds: the clone of a typed attribute is a new object of the same class with the
same key, value and extension, and the original is unchanged. -/
theorem c35_clone_attr_partial {h h' : Heap F} {a c : Ref} {k : Kind} {key : Str} {e : Option Ext} {v : PyVal F} {m : Ref}
    {cl : List Ref} (ha : h.get a = some (.attr k key e v m cl)) (hc : cloneAttr h a = .ok (c, h')) :
    (∃ m', h'.get c = some (.attr k key e v m' []) ∧ h'.get m' = some (.map [])) ∧ c ≠ a ∧ Keeps h.size h h' := by
  have key' : ∀ w, newAttr h k key e w = (h.size + 1, ⟨h.objs ++ [.map [], .attr k key e w h.size []], h.drawn⟩) := by
    intro w
    simp [newAttr, initMap, Heap.alloc, Heap.size]
  have main : ∀ {w}, w = v → newAttr h k key e w = (c, h') →
      (∃ m', h'.get c = some (.attr k key e v m' []) ∧ h'.get m' = some (.map [])) ∧ c ≠ a ∧ Keeps h.size h h' := by
    intro w hw hn
    subst hw
    rw [key'] at hn
    simp only [Prod.mk.injEq] at hn
    obtain ⟨rfl, rfl⟩ := hn
    have := get_lt ha
    exact ⟨⟨h.size, get_append_right (h := h) 1, get_append_right (h := h) 0⟩, by omega, Keeps.append _ _ _⟩
  unfold cloneAttr at hc
  rw [ha] at hc
  cases k <;> simp only [reduceCtorEq] at hc
  case literal => exact main rfl (by simpa using hc)
  case boolean => exact main rfl (by simpa using hc)
  case continuous => exact main rfl (by simpa using hc)
  case discrete => exact main rfl (by simpa using hc)
  case id => split at hc <;> simp only [Except.ok.injEq, reduceCtorEq] at hc; exact main rfl hc
  case timestamp => split at hc <;> simp only [Except.ok.injEq, reduceCtorEq] at hc; exact main rfl hc

/-- C35 fails: whatever nested attributes the attribute had, the clone has none. -/
theorem c35_nested_dropped_refuted {h h' : Heap F} {a c : Ref} {k : Kind} {key : Str} {e : Option Ext} {v : PyVal F} {m : Ref}
    {cl : List Ref} (ha : h.get a = some (.attr k key e v m cl)) (hc : cloneAttr h a = .ok (c, h')) :
    ∃ m', mapOf h' c = .ok m' ∧ entries h' m' = .ok [] := by
  obtain ⟨⟨m', h1, h2⟩, -⟩ := c35_clone_attr_partial ha hc
  exact ⟨m', by simp [mapOf, h1], by simp [entries, h2]⟩

/-- C35 fails: lists and containers cannot be cloned. -/
theorem c35_collection_refuted {h : Heap F} {a : Ref} {k : Kind} {key : Str} {e : Option Ext} {v : PyVal F} {m : Ref}
    {cl : List Ref} (ha : h.get a = some (.attr k key e v m cl)) (hk : k.isCollection = true) :
    cloneAttr h a = .error .attributeError := by
  unfold cloneAttr
  rw [ha]
  cases k <;> simp_all [Kind.isCollection]

/-! ## C36 -/

/-- C36, the part that holds: with a non-empty attribute map, the event gets the given id and the given
map. -/
theorem c36_create_event_partial (rnd : Nat → Uuid) {h : Heap F} {m : Ref} {d : List (Str × Ref)}
    (hm : h.get m = some (.map d)) (hd : d ≠ []) (u : Uuid) :
    let r := createEvent rnd h (some m) (some u)
    r.2.get r.1 = some (.event u m) ∧ viewEvent r.2 r.1 = some ⟨u, d⟩ := by
  have ht : mapTruthy h (some m) = true := by simp [mapTruthy, entries, hm, hd]
  have hr : createEvent rnd h (some m) (some u) = (h.size, ⟨h.objs ++ [.event u m], h.drawn⟩) := by
    simp [createEvent, ht, newEvent, initMap, Heap.alloc, Heap.size]
  rw [hr]
  have g : (⟨h.objs ++ [.event u m], h.drawn⟩ : Heap F).get h.size = some (.event u m) := by
    have := get_append_right (h := h) (os := [.event u m]) (d := h.drawn) 0
    simpa using this
  refine ⟨g, ?_⟩
  simp [viewEvent, g, viewMap, get_append_left (get_lt hm), hm]

/-- C36 fails: without attributes (None or an empty map) the given id is replaced by a fresh one,
whatever it was. -/
theorem c36_create_event_refuted (rnd : Nat → Uuid) {h : Heap F} {m : Option Ref}
    (hm : m = none ∨ ∃ r, m = some r ∧ h.get r = some (.map [])) (u : Uuid) :
    let r := createEvent rnd h m (some u)
    viewEvent r.2 r.1 = some ⟨rnd h.drawn, []⟩ := by
  have hf : mapTruthy h m = false := by
    rcases hm with rfl | ⟨r, rfl, hr⟩
    · rfl
    · simp [mapTruthy, entries, hr]
  have hr : createEvent rnd h m (some u) = newEvent rnd h none none := by simp [createEvent, hf]
  rw [hr, newEvent_none]
  have g1 := get_append_right (h := h) (os := [.map [], .map [], .event (rnd h.drawn) (h.size + 1)]) (d := h.drawn + 1) 1
  have g2 := get_append_right (h := h) (os := [.map [], .map [], .event (rnd h.drawn) (h.size + 1)]) (d := h.drawn + 1) 2
  simp only [viewEvent, g2]
  simp [viewMap, g1]

/-! ## C37 -/

/-- Later steps of a program: changes of any attribute map, new objects, changes of attributes, of
event identities and of the lists of events and traces. -/
inductive HeapOp (F : Type) where
  | mapSet (m : Ref) (k : Str) (a : Ref)
  | mapDel (m : Ref) (k : Str)
  | newAttr (k : Kind) (key : Str) (e : Option Ext) (v : PyVal F)
  | newEvent (m : Option Ref) (i : Option Uuid)
  | newTrace (m : Option Ref)
  | setValue (a : Ref) (v : PyVal F)
  | setId (e : Ref) (u : Uuid)
  | traceAppend (t e : Ref)
  | logAppend (l t : Ref)

/-- Carry out a step; a step that raises changes nothing. -/
def HeapOp.run (rnd : Nat → Uuid) (h : Heap F) : HeapOp F → Heap F
  | .mapSet m k a => (Opy.mapSet h m k a).toOption.getD h
  | .mapDel m k => (Opy.mapDel h m k).toOption.getD h
  | .newAttr k key e v => (Opy.newAttr h k key e v).2
  | .newEvent m i => (Opy.newEvent rnd h m i).2
  | .newTrace m => (Opy.newTrace h m).2
  | .setValue a v => (Opy.setValue h a v).toOption.getD h
  | .setId e u => (Opy.setId h e u).toOption.getD h
  | .traceAppend t e => (Opy.traceAppend h t e).toOption.getD h
  | .logAppend l t => (Opy.logAppend h l t).toOption.getD h

/-- The attribute map a non-map object points to survives a step. -/
def PtrKept (h h' : Heap F) : Prop :=
  ∀ x o m, h.get x = some o → mapPtr o = some m → ∃ o', h'.get x = some o' ∧ mapPtr o' = some m

theorem PtrKept.refl (h : Heap F) : PtrKept h h := fun _ o _ h1 h2 => ⟨o, h1, h2⟩

theorem PtrKept.trans {h h' h'' : Heap F} (a : PtrKept h h') (b : PtrKept h' h'') : PtrKept h h'' := by
  intro x o m h1 h2
  obtain ⟨o', h3, h4⟩ := a x o m h1 h2
  exact b x o' m h3 h4

theorem PtrKept.alloc (h : Heap F) (o : Obj F) : PtrKept h (h.alloc o).2 :=
  fun _ o' _ h1 h2 => ⟨o', by rw [get_alloc_old o (get_lt h1)]; exact h1, h2⟩

theorem PtrKept.draw (rnd : Nat → Uuid) (h : Heap F) : PtrKept h (h.draw rnd).2 := fun _ o _ h1 h2 => ⟨o, h1, h2⟩

theorem PtrKept.put {h : Heap F} {r : Ref} {o o' : Obj F} (hr : h.get r = some o) (hp : mapPtr o' = mapPtr o) :
    PtrKept h (h.put r o') := by
  intro x ox m h1 h2
  by_cases e : x = r
  · subst e
    rw [hr] at h1
    simp at h1
    subst h1
    exact ⟨o', get_put_self _ (get_lt hr), by rw [hp]; exact h2⟩
  · exact ⟨ox, by rw [get_put_ne _ e]; exact h1, h2⟩

theorem PtrKept.initMap (h : Heap F) (m : Option Ref) : PtrKept h (initMap h m).2 := by
  unfold Opy.initMap
  split
  · split
    · exact PtrKept.refl h
    · exact PtrKept.alloc _ _
  · exact PtrKept.alloc _ _

theorem HeapOp.ptrKept (rnd : Nat → Uuid) (h : Heap F) (op : HeapOp F) : PtrKept h (op.run rnd h) := by
  cases op with
  | mapSet m k a =>
    simp only [HeapOp.run, Opy.mapSet]
    split
    · rename_i hg
      exact PtrKept.put hg rfl
    · exact PtrKept.refl h
  | mapDel m k =>
    simp only [HeapOp.run, Opy.mapDel]
    split
    · rename_i hg
      split
      · exact PtrKept.put hg rfl
      · exact PtrKept.refl h
    · exact PtrKept.refl h
  | newAttr k key e v => exact (PtrKept.initMap h none).trans (PtrKept.alloc _ _)
  | newEvent m i =>
    have b : ∀ (h : Heap F) (u : Uuid) (mm : Option Ref), PtrKept h
        ((Opy.initMap h mm).2.alloc (.event u (Opy.initMap h mm).1)).2 :=
      fun h u mm => (PtrKept.initMap h mm).trans (PtrKept.alloc _ _)
    have c : ∀ (h : Heap F) (mm : Option Ref), PtrKept h ((match i with
        | some u => (Opy.initMap h mm).2.alloc (.event u (Opy.initMap h mm).1)
        | none => (Opy.initMap (h.draw rnd).2 mm).2.alloc (.event (h.draw rnd).1 (Opy.initMap (h.draw rnd).2 mm).1)) :
          Ref × Heap F).2 := by
      intro h mm
      cases i with
      | none => exact (PtrKept.draw rnd h).trans (b _ _ mm)
      | some u => exact b h u mm
    by_cases ht : mapTruthy h m = true
    · have := c h m
      cases i <;> simpa only [HeapOp.run, Opy.newEvent, ht, if_true] using this
    · have := (PtrKept.alloc h (.map [])).trans (c (h.alloc (.map [])).2 (some (h.alloc (.map [])).1))
      rw [Bool.not_eq_true] at ht
      cases i <;> simpa only [HeapOp.run, Opy.newEvent, ht, Bool.false_eq_true, if_false] using this
  | newTrace m => exact (PtrKept.initMap h m).trans (PtrKept.alloc _ _)
  | setValue a v =>
    simp only [HeapOp.run, Opy.setValue]
    split
    · rename_i hg
      split
      · exact PtrKept.refl h
      · exact PtrKept.put hg rfl
    · exact PtrKept.refl h
  | setId e u =>
    simp only [HeapOp.run, Opy.setId]
    split
    · rename_i hg
      exact PtrKept.put hg rfl
    · exact PtrKept.refl h
  | traceAppend t e =>
    simp only [HeapOp.run, Opy.traceAppend]
    split
    · rename_i hg
      exact PtrKept.put hg rfl
    · exact PtrKept.refl h
  | logAppend l t =>
    simp only [HeapOp.run, Opy.logAppend]
    split
    · rename_i hg
      exact PtrKept.put hg rfl
    · exact PtrKept.refl h

/-- A whole run of later steps. -/
def runOps (rnd : Nat → Uuid) (h : Heap F) (ops : List (HeapOp F)) : Heap F := ops.foldl (HeapOp.run rnd) h

theorem runOps_ptrKept (rnd : Nat → Uuid) (ops : List (HeapOp F)) (h : Heap F) : PtrKept h (runOps rnd h ops) := by
  induction ops generalizing h with
  | nil => exact PtrKept.refl h
  | cons op ops ih => exact (HeapOp.ptrKept rnd h op).trans (ih _)

/-- The three constructors that take an attribute map. -/
def construct (rnd : Nat → Uuid) (h : Heap F) (m : Option Ref) : Fin 3 → Ref × Heap F
  | 0 => newEvent rnd h m none
  | 1 => newTrace h m
  | 2 => newLog h m

/-- C37, the part that holds: an event, trace or log built on a non-empty map has this very map as its
attributes after every history of later steps, so it always shows exactly what the map contains. -/
theorem c37_shares_map_partial (rnd : Nat → Uuid) {h : Heap F} {m : Ref} {d : List (Str × Ref)}
    (hm : h.get m = some (.map d)) (hd : d ≠ []) (which : Fin 3) (ops : List (HeapOp F)) :
    let r := construct rnd h (some m) which
    let H := runOps rnd r.2 ops
    mapOf H r.1 = .ok m ∧ (mapOf H r.1 >>= entries H) = entries H m := by
  have ht : mapTruthy h (some m) = true := by simp [mapTruthy, entries, hm, hd]
  have base : ∃ o, (construct rnd h (some m) which).2.get (construct rnd h (some m) which).1 = some o ∧ mapPtr o = some m := by
    have : which = 0 ∨ which = 1 ∨ which = 2 := by omega
    rcases this with rfl | rfl | rfl
    · refine ⟨.event (rnd h.drawn) m, ?_, rfl⟩
      have hn : newEvent rnd h (some m) none = (h.size, ⟨h.objs ++ [.event (rnd h.drawn) m], h.drawn + 1⟩) := by
        have ht' : mapTruthy (h.draw rnd).2 (some m) = true := ht
        simp only [newEvent, ht, if_true, initMap, ht']
        simp [Heap.alloc, Heap.draw, Heap.size]
      simp only [construct, hn]
      have := get_append_right (h := h) (os := [.event (rnd h.drawn) m]) (d := h.drawn + 1) 0
      simpa using this
    · refine ⟨.trace m [], ?_, rfl⟩
      simp only [construct, newTrace, initMap, ht, if_true]
      exact get_alloc_new h _
    · refine ⟨.log ⟨m, [], [], [], [], [], []⟩, ?_, rfl⟩
      simp only [construct, newLog, initMap, ht, if_true]
      exact get_alloc_new h _
  obtain ⟨o, h1, h2⟩ := base
  obtain ⟨o', h3, h4⟩ := runOps_ptrKept rnd ops _ _ _ _ h1 h2
  have hmo : mapOf (runOps rnd (construct rnd h (some m) which).2 ops) (construct rnd h (some m) which).1 = .ok m := by
    unfold mapOf
    rw [h3]
    cases o' <;> simp [mapPtr] at h4 <;> simp [h4]
  exact ⟨hmo, by simp only [hmo]; rfl⟩

/-- C37 fails for a map that is empty at construction: an attribute put into the map later is not
visible through the element. -/
theorem c37_empty_map_refuted (rnd : Nat → Uuid) {h : Heap F} {m : Ref} (hm : h.get m = some (.map [])) (which : Fin 3)
    (k : Str) (a : Ref) :
    let r := construct rnd h (some m) which
    let H := runOps rnd r.2 [.mapSet m k a]
    entries H m = .ok [(k, a)] ∧ (mapOf H r.1 >>= entries H) = .ok [] := by
  have hf : mapTruthy h (some m) = false := by simp [mapTruthy, entries, hm]
  have hml := get_lt hm
  have gen : ∀ (h2 : Heap F) (c m' : Ref) (o : Obj F), h2.get m = some (.map []) → h2.get c = some o → mapPtr o = some m' →
      h2.get m' = some (.map []) → m' ≠ m →
      let H := runOps rnd h2 [.mapSet m k a]
      entries H m = .ok [(k, a)] ∧ (mapOf H c >>= entries H) = .ok [] := by
    intro h2 c m' o g1 g2 g3 g4 g5
    have hH : runOps rnd h2 [.mapSet m k a] = h2.put m (.map [(k, a)]) := by
      simp [runOps, HeapOp.run, mapSet, g1, Except.toOption, dset]
    have hcm : c ≠ m := by
      intro q; subst q; rw [g1] at g2; simp at g2; subst g2; simp [mapPtr] at g3
    have hmo : mapOf (h2.put m (.map [(k, a)])) c = .ok m' := by
      unfold mapOf
      rw [get_put_ne _ hcm, g2]
      cases o <;> simp [mapPtr] at g3 <;> simp [g3]
    simp only [hH]
    refine ⟨by simp [entries, get_put_self _ (get_lt g1)], ?_⟩
    rw [hmo]
    simp [bind, Except.bind, entries, get_put_ne _ g5, g4]
  have : which = 0 ∨ which = 1 ∨ which = 2 := by omega
  rcases this with rfl | rfl | rfl
  · have hn : newEvent rnd h (some m) none = newEvent rnd h none none := by
      have hf' : mapTruthy h (none : Option Ref) = false := rfl
      simp only [newEvent, hf, hf', Bool.false_eq_true, if_false]
    simp only [construct, hn, newEvent_none]
    refine gen _ _ (h.size + 1) (.event (rnd h.drawn) (h.size + 1)) ?_ (get_append_right (h := h) 2) rfl
      (get_append_right (h := h) 1) (by omega)
    rw [get_append_left hml]; exact hm
  · have hn : newTrace h (some m) = (h.size + 1, ⟨h.objs ++ [.map [], .trace h.size []], h.drawn⟩) := by
      simp [newTrace, initMap, hf, Heap.alloc, Heap.size]
    simp only [construct, hn]
    refine gen _ _ h.size (.trace h.size []) ?_ (get_append_right (h := h) 1) rfl
      (get_append_right (h := h) 0) (by omega)
    rw [get_append_left hml]; exact hm
  · have hn : newLog h (some m) = (h.size + 1, ⟨h.objs ++ [.map [], .log ⟨h.size, [], [], [], [], [], []⟩], h.drawn⟩) := by
      simp [newLog, initMap, hf, Heap.alloc, Heap.size]
    simp only [construct, hn]
    refine gen _ _ h.size (.log ⟨h.size, [], [], [], [], [], []⟩) ?_ (get_append_right (h := h) 1) rfl
      (get_append_right (h := h) 0) (by omega)
    rw [get_append_left hml]; exact hm

/-! ## Concrete cases -/

/-- A log with one trace of two events; the second event shares no cell with the first; both traces'
attributes are set. -/
def exHeap (u v : Uuid) : Heap F :=
  ⟨[ .map [], .attr .literal py!"concept:name" none (.str py!"a") 0 [],   -- 0, 1: an attribute
     .map [(py!"concept:name", 1)], .event u 2,                              -- 2, 3: an event
     .map [],   .event v 4,                                                  -- 4, 5: an event without attributes
     .map [], .trace 6 [3, 5],                                                -- 6, 7: a trace
     .map [(py!"k", 1)], .log ⟨8, [], [], [], [], [], [7]⟩ ], 0⟩                -- 8, 9: a log

theorem exHeap_event3 (u v : Uuid) : IsEvent (exHeap u v : Heap F) 3 := ⟨_, _, _, rfl, rfl, by simp [dkeys]⟩
theorem exHeap_event5 (u v : Uuid) : IsEvent (exHeap u v : Heap F) 5 := ⟨_, _, _, rfl, rfl, by simp [dkeys]⟩
theorem exHeap_trace (u v : Uuid) : IsTrace (exHeap u v : Heap F) 7 := by
  refine ⟨_, _, _, rfl, rfl, by simp [dkeys], ?_⟩
  intro e he
  simp at he
  rcases he with rfl | rfl
  · exact exHeap_event3 u v
  · exact exHeap_event5 u v
theorem exHeap_log (u v : Uuid) : IsLog (exHeap u v : Heap F) 9 := by
  refine ⟨_, _, rfl, rfl, by simp [dkeys], ?_⟩
  intro e he
  simp at he
  subst he
  exact exHeap_trace u v

/-- The clone of the log exists, and a change deep inside it takes effect there. -/
example : ((cloneLog (fun _ => 5) (exHeap 3 4 : Heap Unit) 9).toOption.bind (fun r =>
      viewLog (change (fun _ => 6) r.2 r.1 (.setAttr [0, 1] py!"x" 1)) r.1)).map
      (fun v => v.traces.flatMap (fun t => t.toList.flatMap (fun t => t.events.flatMap (fun e => e.toList.map EventView.attrs)))) =
      some [[(py!"concept:name", 1)], [(py!"x", 1)]] := by
  decide +kernel

/-- The hypotheses of `c33_clone_values_refuted` hold for event 3. -/
example (u v : Uuid) : ∃ w, viewEvent (exHeap u v : Heap F) 3 = some w ∧ dget py!"concept:name" w.attrs = some 1 :=
  ⟨_, rfl, rfl⟩

/-- An attribute with a nested attribute and its clone without. -/
example : let h : Heap F := ⟨[.map [(py!"n", 0)], .attr .literal py!"k" none (.str py!"v") 0 []], 0⟩
    (cloneAttr h 1).toOption.map (fun r => r.2.get r.1) = some (some (.attr .literal py!"k" none (.str py!"v") 2 [])) := rfl

/-- The hypotheses of `c34_event_new_id` can be met. -/
example : ∃ (rnd : Nat → Uuid) (h : Heap F) (e : Ref), IsEvent h e ∧ (∀ i j, i < j → j < h.drawn + 2 → rnd i ≠ rnd j) ∧
    (∀ r u m, h.get r = some (.event u m) → ∃ i, i < h.drawn ∧ u = rnd i) := by
  refine ⟨fun i => if i = 0 then 0 else if i = 1 then 1 else 2, ⟨[.map [], .event 0 0], 1⟩, 1,
    ⟨_, _, _, rfl, rfl, by simp [dkeys]⟩, ?_, ?_⟩
  · intro i j h1 h2
    have h3 : (i = 0 ∧ j = 1) ∨ (i = 0 ∧ j = 2) ∨ (i = 1 ∧ j = 2) := by simp at h2; omega
    rcases h3 with ⟨rfl, rfl⟩ | ⟨rfl, rfl⟩ | ⟨rfl, rfl⟩ <;> simp <;> decide
  · intro r u m hg
    match r with
    | 0 => simp [Heap.get] at hg
    | 1 => simp [Heap.get] at hg; exact ⟨0, by simp, hg.1.symm⟩
    | r + 2 => simp [Heap.get] at hg

end

end Opy
