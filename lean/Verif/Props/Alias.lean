import Verif.Lemmas.Foot
import Verif.Props.Attr
/-
Property C141: the methods of the extensions on objects that share attributes.
-/
set_option linter.unusedSectionVars false

namespace Opy

section
variable {F : Type} [PyFloat F]

/-! ## Specification -/

/-- The attributes that the extensions keep are where `P` says. -/
def ProtosOk (h : Heap F) (P : Protos) : Prop :=
  ∀ x : ExtAttr, ∃ v m c, h.get (P x) = some (.attr x.kind x.key (some x.ext) v m c) ∧ (x.kind = .id → ∃ u, v = .xid u) ∧
    (x.kind = .timestamp → ∃ d, v = .dt d)

/-- The attribute map behind a call: a call that raises changes nothing. -/
def ExtCall.after (lt : LocalTime) (c : ExtCall F) (m : AttrMap F) : AttrMap F :=
  match c.tree lt m with
  | .ok m' => m'
  | .error _ => m

/-- How the call ends. -/
def ExtCall.outcome (lt : LocalTime) (c : ExtCall F) (m : AttrMap F) : Except PyErr Unit :=
  match c.tree lt m with
  | .ok _ => .ok ()
  | .error e => .error e

/-- A history of calls on several elements; exceptions are caught. -/
def runCalls {ι : Type} (lt : LocalTime) (P : Protos) (els : ι → Ref) : List (ι × ExtCall F) → Heap F → Heap F
  | [], h => h
  | (i, c) :: cs, h => runCalls lt P els cs (c.at lt P h (els i)).2

/-- The calls on one element, on its attribute map. -/
def ownCalls {ι : Type} [DecidableEq ι] (lt : LocalTime) (i : ι) : List (ι × ExtCall F) → AttrMap F → AttrMap F
  | [], m => m
  | (j, c) :: cs, m => ownCalls lt i cs (if j = i then c.after lt m else m)

/-! ## One call -/

/-- What a call comes down to. -/
inductive Act (F : Type) where
  | skip
  | fail (e : PyErr)
  | store (x : ExtAttr) (key : Str) (v : PyVal F)
  | cloneFail (x : ExtAttr) (key : Str) (e : PyErr)
  | drop (key : Str)

/-- On an object. -/
def Act.at (P : Protos) : Act F → Heap F → Ref → HRes F
  | .skip, h, _ => (.ok (), h)
  | .fail e, h, _ => (.error e, h)
  | .store x key v, h, el => storeClone (P x) key (.ok v) h el
  | .cloneFail x key e, h, el => storeClone (P x) key (.error e) h el
  | .drop key, h, el => dropKey key h el

/-- On an attribute map. -/
def Act.tree : Act F → AttrMap F → Except PyErr (AttrMap F)
  | .skip, m => .ok m
  | .fail e, _ => .error e
  | .store x key v, m => .ok (dset key (cloned x.kind x.key x.ext v) m)
  | .cloneFail _ _ e, _ => .error e
  | .drop key, m => .ok (removeKey key m)

theorem act_given (P : Protos) (x : ExtAttr) (key : Str) (v : Option Str) (f : Str → PyVal F) :
    ∃ a : Act F, (∀ h el, storeGiven (P x) key v f h el = a.at P h el) ∧
      ∀ m, (match v with
        | none => m
        | some s => if given (some s) then dset key (cloned x.kind x.key x.ext (f s)) m else m) = (match a.tree m with | .ok m' => m' | .error _ => m) ∧
        ∃ m', a.tree m = .ok m' := by
  cases v with
  | none => exact ⟨.skip, fun h el => rfl, fun m => ⟨rfl, m, rfl⟩⟩
  | some s =>
    by_cases hg : given (some s) = true
    · exact ⟨.store x key (f s), fun h el => by simp [storeGiven, hg, Act.at], fun m => ⟨by simp [hg, Act.tree], _, rfl⟩⟩
    · exact ⟨.skip, fun h el => by simp [storeGiven, hg, Act.at], fun m => ⟨by simp [hg, Act.tree], _, rfl⟩⟩

theorem ExtCall.act (lt : LocalTime) (P : Protos) (c : ExtCall F) :
    ∃ a : Act F, (∀ h el, c.at lt P h el = a.at P h el) ∧ ∀ m, c.tree lt m = a.tree m := by
  have giv : ∀ (x : ExtAttr) (key : Str) (v : Option Str) (f : Str → PyVal F) (t : AttrMap F → AttrMap F),
      (∀ m, t m = (match v with
        | none => m
        | some s => if given (some s) then dset key (cloned x.kind x.key x.ext (f s)) m else m)) →
      ∃ a : Act F, (∀ h el, storeGiven (P x) key v f h el = a.at P h el) ∧ ∀ m, Except.ok (t m) = a.tree m := by
    intro x key v f t ht
    obtain ⟨a, h1, h2⟩ := act_given P x key v f
    refine ⟨a, h1, fun m => ?_⟩
    obtain ⟨h3, m', h4⟩ := h2 m
    rw [ht m, h3, h4]
  have iff' : ∀ (x : ExtAttr) (key : Str) (b : Except PyErr Bool) (v : PyVal F) (t : AttrMap F → Except PyErr (AttrMap F)),
      (∀ m, t m = (do if ← b then .ok (dset key (cloned x.kind x.key x.ext v) m) else .ok m)) →
      ∃ a : Act F, (∀ h el, storeIf (P x) key b v h el = a.at P h el) ∧ ∀ m, t m = a.tree m := by
    intro x key b v t ht
    cases b with
    | error e => exact ⟨.fail e, fun h el => rfl, fun m => by rw [ht]; rfl⟩
    | ok b =>
      cases b with
      | true => exact ⟨.store x key v, fun h el => rfl, fun m => by rw [ht]; rfl⟩
      | false => exact ⟨.skip, fun h el => rfl, fun m => by rw [ht]; rfl⟩
  cases c with
  | name v => exact giv .name _ v _ _ (fun m => by cases v <;> rfl)
  | inst v => exact giv .inst _ v _ _ (fun m => by cases v <;> rfl)
  | org f v =>
    cases f with
    | resource => exact giv .resource _ v _ _ (fun m => by cases v <;> rfl)
    | role => exact giv .role _ v _ _ (fun m => by cases v <;> rfl)
    | group => exact giv .group _ v _ _ (fun m => by cases v <;> rfl)
  | model v => exact giv .model _ v _ _ (fun m => by cases v <;> rfl)
  | transition v => exact giv .transition _ v _ _ (fun m => by cases v <;> rfl)
  | standardTransition v => exact giv .transition py!"lifecycle:transition" (some (decodeTransition v)) (fun s => .str (strip s)) (assignStandardTransition v) (fun m => by rfl)
  | total v => exact iff' .total _ _ v _ (fun m => by rfl)
  | currency v => exact giv .currency _ v _ _ (fun m => by cases v <;> rfl)
  | amount v => exact iff' .amount _ _ v _ (fun m => by rfl)
  | driver v =>
    have H : ∀ s, ∃ a : Act F, (∀ h el, storeGiven (P .driver) py!"cost:driver" (some s) .str h el = a.at P h el) ∧
        ∀ m, Except.ok (assignDriver (some s) m) = a.tree m := fun s => giv .driver _ (some s) _ _ (fun m => by rfl)
    cases v with
    | none => exact ⟨.skip, fun h el => rfl, fun m => rfl⟩
    | str s => exact H s
    | _ => exact ⟨.fail .attributeError, fun h el => rfl, fun m => rfl⟩
  | type v =>
    have H : ∀ s, ∃ a : Act F, (∀ h el, storeGiven (P .type) py!"cost:type" (some s) (fun _ => .typ) h el = a.at P h el) ∧
        ∀ m, Except.ok (assignType (some s) m) = a.tree m := fun s => giv .type _ (some s) _ _ (fun m => by rfl)
    cases v with
    | none => exact ⟨.skip, fun h el => rfl, fun m => rfl⟩
    | str s => exact H s
    | _ => exact ⟨.fail .attributeError, fun h el => rfl, fun m => rfl⟩
  | level v => exact iff' .level _ _ v _ (fun m => by rfl)
  | removeLevel => exact ⟨.drop _, fun h el => rfl, fun m => rfl⟩
  | parentId v =>
    cases v with
    | none => exact ⟨.drop py!"micro:parentId", fun h el => rfl, fun m => rfl⟩
    | _ => exact ⟨.cloneFail .parentId py!"micro:parentId" .attributeError, fun h el => rfl, fun m => rfl⟩
  | removeParentId => exact ⟨.drop _, fun h el => rfl, fun m => rfl⟩
  | length v => exact iff' .length _ _ v _ (fun m => by rfl)
  | removeLength => exact ⟨.drop _, fun h el => rfl, fun m => rfl⟩
  | id v =>
    cases v with
    | none => exact ⟨.skip, fun h el => rfl, fun m => rfl⟩
    | str s => exact ⟨.store .id py!"identity:id" (.str s), fun h el => rfl, fun m => rfl⟩
    | int s => exact ⟨.store .id py!"identity:id" (.int s), fun h el => rfl, fun m => rfl⟩
    | float s => exact ⟨.store .id py!"identity:id" (.float s), fun h el => rfl, fun m => rfl⟩
    | bool s => exact ⟨.store .id py!"identity:id" (.bool s), fun h el => rfl, fun m => rfl⟩
    | xid s => exact ⟨.store .id py!"identity:id" (.xid s), fun h el => rfl, fun m => rfl⟩
    | dt s => exact ⟨.store .id py!"identity:id" (.dt s), fun h el => rfl, fun m => rfl⟩
    | typ => exact ⟨.store .id py!"identity:id" .typ, fun h el => rfl, fun m => rfl⟩
  | references refs =>
    by_cases hg : (pyLower (refs.flatMap (fun r => r ++ [' ']))).length > 0
    · refine ⟨.store .reference py!"semantic:modelReference" (.str (refs.flatMap (fun r => r ++ [' ']))), fun h el => ?_, fun m => ?_⟩
      · show assignReferencesAt P refs h el = _
        simp only [assignReferencesAt, hg, if_true]; rfl
      · show Except.ok (assignModelReferences refs m) = _
        simp only [assignModelReferences, hg, if_true]; rfl
    · refine ⟨.skip, fun h el => ?_, fun m => ?_⟩
      · show assignReferencesAt P refs h el = _
        simp only [assignReferencesAt, hg, if_false]; rfl
      · show Except.ok (assignModelReferences refs m) = _
        simp only [assignModelReferences, hg, if_false]; rfl
  | timestamp d =>
    have H : ∀ aux : Int, ∃ a : Act F, (∀ h el, storeClone (P .timestamp) timeKey (match lt.fromMillis aux with | .ok d => .ok (.dt d) | .error e => .error e) h el = a.at P h el) ∧
        ∀ m, (do let v ← lt.fromMillis aux; .ok (dset timeKey (cloned .timestamp timeKey timeExt (.dt v)) m) : Except PyErr (AttrMap F)) = a.tree m := by
      intro aux
      cases hf : lt.fromMillis aux with
      | error e => exact ⟨.cloneFail .timestamp timeKey e, fun h el => rfl, fun m => rfl⟩
      | ok v => exact ⟨.store .timestamp timeKey (.dt v), fun h el => rfl, fun m => rfl⟩
    cases d with
    | millis ms => exact H ms
    | datetime d =>
      cases hm : lt.mktime { d with micro := 0, tz := none } with
      | error e =>
        refine ⟨.fail e, fun h el => ?_, fun m => ?_⟩
        · show assignTimestampAt lt P (.datetime d) h el = _
          simp only [assignTimestampAt, hm]; rfl
        · show assignTimestamp lt (.datetime d) m = _
          simp only [assignTimestamp, hm]; rfl
      | ok s =>
        obtain ⟨a, h1, h2⟩ := H (s * 1000)
        refine ⟨a, fun h el => ?_, fun m => ?_⟩
        · rw [← h1]
          show assignTimestampAt lt P (.datetime d) h el = _
          simp only [assignTimestampAt, hm]; rfl
        · rw [← h2]
          show assignTimestamp lt (.datetime d) m = _
          simp only [assignTimestamp, hm]; rfl

/-- What is behind a call on an element with map `mr`: old objects other than the map are as before. -/
structure Behind (h h' : Heap F) (mr : Ref) : Prop where
  size : h.size ≤ h'.size
  old : ∀ r, r < h.size → r ≠ mr → h'.get r = h.get r
  drawn : h'.drawn = h.drawn

theorem Behind.keeps {h h' : Heap F} {mr : Ref} {d : List (Str × Ref)} (hb : Behind h h' mr) (hm : h.get mr = some (.map d)) :
    KeepsAttrs h h' := by
  intro r k key e v m c hg
  rw [hb.old r (get_lt hg) (fun q => by rw [q, hm] at hg; simp at hg)]
  exact hg

theorem Behind.mapOf {h h' : Heap F} {mr el : Ref} {d : List (Str × Ref)} (hb : Behind h h' mr) (hm : h.get mr = some (.map d))
    {mm : Ref} (he : mapOf h el = .ok mm) : Opy.mapOf h' el = .ok mm := by
  obtain ⟨o, ho, hp⟩ := mapOf_ok he
  have : h'.get el = h.get el := hb.old el (get_lt ho) (fun q => by rw [q, hm] at ho; simp at ho; subst ho; simp [mapPtr] at hp)
  unfold Opy.mapOf at he ⊢
  rw [this]
  exact he

theorem cloneAttr_proto {h : Heap F} {P : Protos} (hP : ProtosOk h P) (x : ExtAttr) :
    ∃ v, cloneAttr h (P x) = .ok (newAttr h x.kind x.key (some x.ext) v) := by
  obtain ⟨v, m, c, g, h1, h2⟩ := hP x
  refine ⟨v, ?_⟩
  unfold cloneAttr
  rw [g]
  cases x <;> simp only [ExtAttr.kind] at h1 h2 ⊢
  all_goals first
    | (obtain ⟨u, rfl⟩ := h1 trivial; rfl)
    | (obtain ⟨u, rfl⟩ := h2 trivial; rfl)
    | rfl

theorem newAttr_heap (h : Heap F) (k : Kind) (key : Str) (e : Option Ext) (v : PyVal F) :
    newAttr h k key e v = (h.size + 1, ⟨h.objs ++ [.map [], .attr k key e v h.size []], h.drawn⟩) := by
  simp [newAttr, initMap, Heap.alloc, Heap.size]

/-- The effect of an action: the element's map, the new footprint, and nothing else. -/
theorem Act.effect {P : Protos} (a : Act F) {h : Heap F} (hP : ProtosOk h P) {el mr : Ref} {d : List (Str × Ref)} {m : AttrMap F}
    {fs : List Ref} (he : mapOf h el = .ok mr) (hm : h.get mr = some (.map d)) (hf : FootMap h m d fs) :
    ∃ h' d' fs', (a.at P h el) = ((match a.tree m with | .ok _ => .ok () | .error e => .error e), h') ∧ Behind h h' mr ∧
      h'.get mr = some (.map d') ∧ FootMap h' (match a.tree m with | .ok m' => m' | .error _ => m) d' fs' ∧
      (∀ w, w < h.size → fs'.count w ≤ fs.count w) ∧ (∀ w, h.size ≤ w → fs'.count w ≤ 1) ∧
      ((∃ e, a.tree m = .error e) → d' = d) := by
  have same : ∃ h' d' fs', ((.ok () : Except PyErr Unit), h) = ((.ok () : Except PyErr Unit), h') ∧ Behind h h' mr ∧
      h'.get mr = some (.map d') ∧ FootMap h' m d' fs' ∧
      (∀ w, w < h.size → fs'.count w ≤ fs.count w) ∧ (∀ w, h.size ≤ w → fs'.count w ≤ 1) ∧ d' = d :=
    ⟨h, d, fs, rfl, ⟨Nat.le_refl _, fun _ _ _ => rfl, rfl⟩, hm, hf, fun _ _ => Nat.le_refl _,
      fun w hw => by rw [List.count_eq_zero_of_not_mem (fun q => by have := hf.lt w q; omega)]; omega, rfl⟩
  have hlt := get_lt hm
  obtain ⟨o, ho, hp⟩ := mapOf_ok he
  have hel := get_lt ho
  cases a with
  | skip =>
    obtain ⟨h', d', fs', q, r⟩ := same
    exact ⟨h', d', fs', q, r.1, r.2.1, r.2.2.1, r.2.2.2.1, r.2.2.2.2.1, fun ⟨e, q⟩ => by simp [Act.tree] at q⟩
  | fail e =>
    obtain ⟨h', d', fs', q, r⟩ := same
    simp only [Prod.mk.injEq, true_and] at q
    exact ⟨h', d', fs', by rw [q]; rfl, r.1, r.2.1, r.2.2.1, r.2.2.2.1, r.2.2.2.2.1, fun _ => r.2.2.2.2.2⟩
  | cloneFail x key e =>
    obtain ⟨v, hc⟩ := cloneAttr_proto hP x
    have hk : KeepsAttrs h ⟨h.objs ++ [.map [], .attr x.kind x.key (some x.ext) v h.size []], h.drawn⟩ :=
      fun r _ _ _ _ _ _ g => by rw [get_append_left (get_lt g)]; exact g
    refine ⟨⟨h.objs ++ [.map [], .attr x.kind x.key (some x.ext) v h.size []], h.drawn⟩, d, fs, ?_, ⟨by simp [Heap.size], ?_, rfl⟩, ?_, ?_,
      fun _ _ => Nat.le_refl _, fun w hw => ?_, fun _ => rfl⟩
    · simp only [Act.at, storeClone, hc, newAttr_heap, Act.tree]
    · intro r hr _; exact get_append_left hr
    · rw [get_append_left hlt]; exact hm
    · exact hf.frame hk (fun w hw => get_append_left (hf.lt w hw))
    · rw [List.count_eq_zero_of_not_mem (fun q => by have := hf.lt w q; omega)]; omega
  | store x key v =>
    obtain ⟨v0, hc⟩ := cloneAttr_proto hP x
    let h1 : Heap F := ⟨h.objs ++ [.map [], .attr x.kind x.key (some x.ext) v h.size []], h.drawn⟩
    let h2 : Heap F := h1.put mr (.map (dset key (h.size + 1) d))
    have e1 : ∀ r, r < h.size → h1.get r = h.get r := fun r hr => get_append_left hr
    have e2 : h1.get h.size = some (.map []) := get_append_right (h := h) 0
    have e3 : h1.get (h.size + 1) = some (.attr x.kind x.key (some x.ext) v h.size []) := get_append_right (h := h) 1
    have s1 : h1.size = h.size + 2 := by simp [h1, Heap.size]
    have g1 : ∀ r, r ≠ mr → h2.get r = h1.get r := fun r hr => get_put_ne _ hr
    have g2 : h2.get mr = some (.map (dset key (h.size + 1) d)) := get_put_self _ (by omega)
    have hb : Behind h h2 mr := ⟨by simp only [h2, size_put]; omega, fun r hr hn => by rw [g1 r hn, e1 r hr], rfl⟩
    have hf2 : FootMap h2 m d fs := hf.frame (hb.keeps hm) (fun w hw => by
      rw [g1 w (fun q => FootMap.own hm hf (q ▸ hw)), e1 w (hf.lt w hw)])
    have hx : Foot h2 (cloned x.kind x.key x.ext v) (h.size + 1) [h.size] := by
      simp only [cloned, Foot]
      refine ⟨h.size, [], [], [], [], ?_, ?_, ?_, ?_, rfl⟩
      · rw [g1 _ (by omega)]; exact e3
      · rw [g1 _ (by omega)]; exact e2
      · simp [FootMap]
      · simp [FootList]
    obtain ⟨gs, k1, k2⟩ := hf2.dset (k := key) hx
    refine ⟨h2, _, gs, ?_, hb, g2, k1, ?_, ?_, ?_⟩
    · have hcol : x.kind.isCollection = false := by cases x <;> rfl
      have q1 : (⟨h.objs ++ [.map [], .attr x.kind x.key (some x.ext) v0 h.size []], h.drawn⟩ : Heap F).get (h.size + 1) =
          some (.attr x.kind x.key (some x.ext) v0 h.size []) := get_append_right (h := h) 1
      have q2 : (⟨h.objs ++ [.map [], .attr x.kind x.key (some x.ext) v0 h.size []], h.drawn⟩ : Heap F).put (h.size + 1)
          (.attr x.kind x.key (some x.ext) v h.size []) = h1 := by
        simp [Heap.put, Heap.size, h1]
      have q3 : mapOf h1 el = .ok mr := by
        have : h1.get el = h.get el := e1 el hel
        unfold mapOf at he ⊢
        rw [this]; exact he
      have q4 : mapSet h1 mr key (h.size + 1) = .ok h2 := by
        simp only [mapSet, e1 mr hlt, hm, h2]
      simp only [Act.at, storeClone, hc, newAttr_heap, setValue, q1, hcol, Bool.false_eq_true, if_false, q2, q3, q4, Act.tree]
    · intro w hw
      have := k2 w
      have hz : [h.size].count w = 0 := by simp [List.count_cons]; omega
      omega
    · intro w hw
      have := k2 w
      have hz : fs.count w = 0 := List.count_eq_zero_of_not_mem (fun q => by have := hf.lt w q; omega)
      have : [h.size].count w ≤ 1 := by simp only [List.count_cons, List.count_nil]; split <;> omega
      omega
    · rintro ⟨e, q⟩; simp [Act.tree] at q
  | drop key =>
    have hk : dkeys d = dkeys m := hf.keys
    by_cases hin : key ∈ dkeys d
    · let h2 : Heap F := h.put mr (.map (ddel key d))
      have g1 : ∀ r, r ≠ mr → h2.get r = h.get r := fun r hr => get_put_ne _ hr
      have g2 : h2.get mr = some (.map (ddel key d)) := get_put_self _ hlt
      have hb : Behind h h2 mr := ⟨by simp [h2], fun r hr hn => g1 r hn, rfl⟩
      have hf2 : FootMap h2 m d fs := hf.frame (hb.keeps hm) (fun w hw => g1 w (fun q => FootMap.own hm hf (q ▸ hw)))
      obtain ⟨gs, k1, k2⟩ := hf2.ddel (k := key)
      refine ⟨h2, _, gs, ?_, hb, g2, ?_, fun w _ => k2 w, fun w hw => ?_, ?_⟩
      · simp only [Act.at, dropKey, he, entries, hm, hin, if_true, mapDel, Act.tree, h2]
      · simp only [Act.tree, removeKey, ← hk, hin, if_true]; exact k1
      · have := k2 w
        have hz : fs.count w = 0 := List.count_eq_zero_of_not_mem (fun q => by have := hf.lt w q; omega)
        omega
      · rintro ⟨e, q⟩; simp [Act.tree] at q
    · obtain ⟨h', d', fs', q, r⟩ := same
      refine ⟨h', d', fs', ?_, r.1, r.2.1, ?_, r.2.2.2.1, r.2.2.2.2.1, fun ⟨e, q⟩ => by simp [Act.tree] at q⟩
      · simp only [Prod.mk.injEq, true_and] at q
        rw [← q]
        simp only [Act.at, dropKey, he, entries, hm, hin, if_false, Act.tree]
      · simp only [Act.tree, removeKey, ← hk, hin, if_false]; exact r.2.2.1

theorem ProtosOk.frame {h h' : Heap F} {P : Protos} (hP : ProtosOk h P) (hk : KeepsAttrs h h') : ProtosOk h' P := by
  intro x
  obtain ⟨v, m, c, g, r⟩ := hP x
  exact ⟨v, m, c, hk _ _ _ _ _ _ _ g, r⟩

/-- `Act.effect` for calls. -/
theorem ExtCall.effect {P : Protos} (lt : LocalTime) (c : ExtCall F) {h : Heap F} (hP : ProtosOk h P) {el mr : Ref}
    {d : List (Str × Ref)} {m : AttrMap F} {fs : List Ref} (he : mapOf h el = .ok mr) (hm : h.get mr = some (.map d))
    (hf : FootMap h m d fs) :
    ∃ h' d' fs', c.at lt P h el = (c.outcome lt m, h') ∧ Behind h h' mr ∧ h'.get mr = some (.map d') ∧
      FootMap h' (c.after lt m) d' fs' ∧ (∀ w, w < h.size → fs'.count w ≤ fs.count w) ∧ (∀ w, h.size ≤ w → fs'.count w ≤ 1) ∧
      ((∃ e, c.tree lt m = .error e) → d' = d) := by
  obtain ⟨a, h1, h2⟩ := c.act lt P
  unfold ExtCall.outcome ExtCall.after
  rw [h1, h2]
  exact a.effect hP he hm hf

/-! ## C141 -/

/-- What an element shows is determined by the objects. -/
theorem c141_determined {h : Heap F} {el : Ref} {m m' : AttrMap F} (h1 : ElemShows h el m) (h2 : ElemShows h el m') : m = m' := by
  obtain ⟨mr, d, a1, a2, a3⟩ := h1
  obtain ⟨mr', d', b1, b2, b3⟩ := h2
  rw [a1] at b1
  simp only [Except.ok.injEq] at b1
  subst b1
  rw [a2] at b2
  simp only [Option.some.injEq, Obj.map.injEq] at b2
  subst b2
  obtain ⟨f1, a3⟩ := a3.foot
  obtain ⟨f2, b3⟩ := b3.foot
  exact (a3.unique b3).1

/-- C141 for one call: the element shows what the method does on its attribute map, the map is the only object that is changed, the
map is not changed when the method raises, and no identifier is drawn. -/
theorem c141_call {P : Protos} (lt : LocalTime) (c : ExtCall F) {h : Heap F} (hP : ProtosOk h P) {el : Ref} {m : AttrMap F}
    (hs : ElemShows h el m) :
    ∃ mr h', mapOf h el = .ok mr ∧ c.at lt P h el = (c.outcome lt m, h') ∧ ElemShows h' el (c.after lt m) ∧
      (∀ r, r < h.size → r ≠ mr → h'.get r = h.get r) ∧ ((∃ e, c.tree lt m = .error e) → h'.get mr = h.get mr) ∧
      h'.drawn = h.drawn ∧ ProtosOk h' P := by
  obtain ⟨mr, d, a1, a2, a3⟩ := hs
  obtain ⟨fs, a3⟩ := a3.foot
  obtain ⟨h', d', fs', b1, b2, b3, b4, -, -, b5⟩ := c.effect lt hP a1 a2 a3
  exact ⟨mr, h', a1, b1, ⟨mr, d', b2.mapOf a2 a1, b3, b4.shows⟩, b2.old, fun q => by rw [b3, a2, b5 q], b2.drawn, hP.frame (b2.keeps a2)⟩

/-- Elements with the given attribute maps; the map object of one is not the map object of another and not used inside another. -/
def OwnMaps {ι : Type} (h : Heap F) (els : ι → Ref) (ts : ι → AttrMap F) : Prop :=
  ∃ (mr : ι → Ref) (d : ι → List (Str × Ref)) (fs : ι → List Ref),
    (∀ i, mapOf h (els i) = .ok (mr i) ∧ h.get (mr i) = some (.map (d i)) ∧ FootMap h (ts i) (d i) (fs i)) ∧
    ∀ i j, i ≠ j → mr i ≠ mr j ∧ mr i ∉ fs j

theorem OwnMaps.call {ι : Type} [DecidableEq ι] {P : Protos} (lt : LocalTime) (c : ExtCall F) {h : Heap F} (hP : ProtosOk h P) {els : ι → Ref}
    {ts : ι → AttrMap F} (ho : OwnMaps h els ts) (i : ι) :
    OwnMaps (c.at lt P h (els i)).2 els (fun j => if i = j then c.after lt (ts j) else ts j) ∧ ProtosOk (c.at lt P h (els i)).2 P := by
  obtain ⟨mr, d, fs, h1, h2⟩ := ho
  obtain ⟨a1, a2, a3⟩ := h1 i
  obtain ⟨h', d', fs', b1, b2, b3, b4, b5, b6, -⟩ := c.effect lt hP a1 a2 a3
  rw [b1]
  refine ⟨⟨mr, fun j => if i = j then d' else d j, fun j => if i = j then fs' else fs j, fun j => ?_, fun j k hjk => ⟨(h2 j k hjk).1, ?_⟩⟩,
    hP.frame (b2.keeps a2)⟩
  · by_cases e : i = j
    · subst e
      simp only [if_true]
      exact ⟨b2.mapOf a2 a1, b3, b4⟩
    · simp only [e, if_false]
      obtain ⟨c1, c2, c3⟩ := h1 j
      refine ⟨b2.mapOf a2 c1, ?_, ?_⟩
      · rw [b2.old _ (get_lt c2) (fun q => (h2 i j e).1 q.symm)]; exact c2
      · exact c3.frame (b2.keeps a2) (fun w hw => b2.old w (c3.lt w hw) (fun q => (h2 i j e).2 (q ▸ hw)))
  · by_cases e : i = k
    · subst e
      simp only [if_true]
      intro hmem
      have hlt := get_lt (h1 j).2.1
      have := b5 (mr j) hlt
      have h0 : (fs i).count (mr j) = 0 := List.count_eq_zero_of_not_mem (h2 j i hjk).2
      have := List.count_pos_iff.2 hmem
      omega
    · simp only [e, if_false]
      exact (h2 j k hjk).2

theorem OwnMaps.run {ι : Type} [DecidableEq ι] {P : Protos} (lt : LocalTime) {els : ι → Ref} : ∀ (cs : List (ι × ExtCall F)) {h : Heap F}
    {ts : ι → AttrMap F}, ProtosOk h P → OwnMaps h els ts → OwnMaps (runCalls lt P els cs h) els (fun j => ownCalls lt j cs (ts j))
  | [], h, ts, _, ho => ho
  | (i, c) :: cs, h, ts, hP, ho => by
    obtain ⟨h1, h2⟩ := ho.call lt c hP i
    have := OwnMaps.run lt cs h2 h1
    exact this

theorem OwnMaps.shows {ι : Type} {h : Heap F} {els : ι → Ref} {ts : ι → AttrMap F} (ho : OwnMaps h els ts) (i : ι) : ElemShows h (els i) (ts i) := by
  obtain ⟨mr, d, fs, h1, -⟩ := ho
  obtain ⟨a1, a2, a3⟩ := h1 i
  exact ⟨_, _, a1, a2, a3.shows⟩

/-- C141 for histories: when the map objects are their own, each element shows in the end what the calls on it make of its attributes. -/
theorem c141_history {ι : Type} [DecidableEq ι] {P : Protos} (lt : LocalTime) {els : ι → Ref} {h : Heap F} (hP : ProtosOk h P)
    {ts : ι → AttrMap F} (ho : OwnMaps h els ts) (cs : List (ι × ExtCall F)) (i : ι) :
    ElemShows (runCalls lt P els cs h) (els i) (ownCalls lt i cs (ts i)) := (ho.run lt cs hP).shows i

/-- Elements that share all their attributes, each with a map of its own, have their own maps in the above sense. -/
theorem ownMaps_sharing {ι : Type} {els mr : ι → Ref} {h : Heap F} {d : List (Str × Ref)} {m : AttrMap F}
    (h1 : ∀ i, mapOf h (els i) = .ok (mr i) ∧ h.get (mr i) = some (.map d)) (h2 : ∀ i j, i ≠ j → mr i ≠ mr j) (hs : ShowsMap h m d) :
    OwnMaps h els (fun _ => m) := by
  obtain ⟨fs, hf⟩ := hs.foot
  exact ⟨mr, fun _ => d, fun _ => fs, fun i => ⟨(h1 i).1, (h1 i).2, hf⟩, fun i j hij => ⟨h2 i j hij, FootMap.own (h1 i).2 hf⟩⟩

/-- C141 for elements that share all their attributes. -/
theorem c141_sharing {ι : Type} [DecidableEq ι] {P : Protos} (lt : LocalTime) {els mr : ι → Ref} {h : Heap F} (hP : ProtosOk h P)
    {d : List (Str × Ref)} {m : AttrMap F} (h1 : ∀ i, mapOf h (els i) = .ok (mr i) ∧ h.get (mr i) = some (.map d))
    (h2 : ∀ i j, i ≠ j → mr i ≠ mr j) (hs : ShowsMap h m d) (cs : List (ι × ExtCall F)) (i : ι) :
    ElemShows (runCalls lt P els cs h) (els i) (ownCalls lt i cs m) :=
  c141_history lt hP (ownMaps_sharing h1 h2 hs) cs i

/-! ### Clones -/

/-- The content of the map of the element at a path. -/
def dictAt (h : Heap F) (r : Ref) (path : List Nat) : Option (List (Str × Ref)) :=
  (locate h r path).bind (fun p => (mapOf h p).toOption.bind (viewMap h))

theorem dictAt_event {h : Heap F} {x c : Ref} {v w : EventView} (hx : viewEvent h x = some v) (hc : viewEvent h c = some w)
    (ha : v.attrs = w.attrs) (path : List Nat) : dictAt h x path = dictAt h c path := by
  have one : ∀ {y : Ref} {u : EventView}, viewEvent h y = some u → ∃ i m, h.get y = some (.event i m) ∧ viewMap h m = some u.attrs := by
    intro y u hu
    unfold viewEvent at hu
    split at hu
    · rename_i i m hg
      cases hv : viewMap h m with
      | none => rw [hv] at hu; simp at hu
      | some d =>
        rw [hv] at hu
        simp only [Option.map_some, Option.some.injEq] at hu
        exact ⟨i, m, hg, by rw [hv, ← hu]⟩
    · simp at hu
  obtain ⟨i, m, g1, g2⟩ := one hx
  obtain ⟨i', m', g1', g2'⟩ := one hc
  cases path with
  | nil => simp [dictAt, locate, mapOf, g1, g1', g2, g2', ha, Except.toOption]
  | cons j path => simp [dictAt, locate, child, g1, g1']

theorem viewTrace_some {h : Heap F} {x : Ref} {v : TraceView} (hx : viewTrace h x = some v) :
    ∃ m es, h.get x = some (.trace m es) ∧ viewMap h m = some v.attrs ∧ es.map (viewEvent h) = v.events := by
  unfold viewTrace at hx
  split at hx
  · rename_i m es hg
    cases hv : viewMap h m with
    | none => rw [hv] at hx; simp at hx
    | some d =>
      rw [hv] at hx
      simp only [Option.map_some, Option.some.injEq] at hx
      exact ⟨m, es, hg, by rw [hv, ← hx], by rw [← hx]⟩
  · simp at hx

theorem dictAt_trace {rnd : Nat → Uuid} {h : Heap F} {x c : Ref} {v : TraceView} {idx : List Nat} (hx : viewTrace h x = some v)
    (hc : viewTrace h c = some (v.relabel rnd idx)) (hl : idx.length = v.events.length) (hs : ∀ e ∈ v.events, e.isSome) (path : List Nat) :
    dictAt h x path = dictAt h c path := by
  obtain ⟨m, es, g1, g2, g3⟩ := viewTrace_some hx
  obtain ⟨m', es', g1', g2', g3'⟩ := viewTrace_some hc
  cases path with
  | nil => simp [dictAt, locate, mapOf, g1, g1', g2, g2', Except.toOption, TraceView.relabel]
  | cons j path =>
    have hlen : es'.length = es.length := by
      have q1 : es.length = v.events.length := by rw [← g3]; simp
      have q2 : es'.length = (v.relabel rnd idx).events.length := by rw [← g3']; simp
      rw [q2, TraceView.relabel, List.length_zipWith]; omega
    by_cases hj : j < es.length
    · have hj' : j < es'.length := by omega
      have e1 : dictAt h x (j :: path) = dictAt h es[j] path := by
        simp [dictAt, locate, child, g1, List.getElem?_eq_getElem hj]
      have e2 : dictAt h c (j :: path) = dictAt h es'[j] path := by
        simp [dictAt, locate, child, g1', List.getElem?_eq_getElem hj']
      rw [e1, e2]
      have v1 : v.events[j]? = some (viewEvent h es[j]) := by rw [← g3]; simp [List.getElem?_eq_getElem hj]
      have v2 : (v.relabel rnd idx).events[j]? = some (viewEvent h es'[j]) := by rw [← g3']; simp [List.getElem?_eq_getElem hj']
      have hsome := hs _ (List.mem_of_getElem? v1)
      obtain ⟨w, hw⟩ := Option.isSome_iff_exists.1 hsome
      have hji : j < idx.length := by rw [hl, ← g3]; simpa using hj
      simp only [TraceView.relabel, List.getElem?_zipWith, v1, List.getElem?_eq_getElem hji, Option.some.injEq, hw, Option.map_some] at v2
      exact dictAt_event hw v2.symm rfl path
    · have hj' : ¬ j < es'.length := by omega
      simp [dictAt, locate, child, g1, g1', List.getElem?_eq_none (Nat.le_of_not_lt hj), List.getElem?_eq_none (Nat.le_of_not_lt hj')]

theorem viewTrace_events {h : Heap F} {t : Ref} (ht : IsTrace h t) {v : TraceView} (hv : viewTrace h t = some v) : ∀ e ∈ v.events, e.isSome := by
  obtain ⟨m, es, d, g1, g2, g3, g4⟩ := ht
  simp only [viewTrace, g1, viewMap, g2, Option.map_some, Option.some.injEq] at hv
  subst hv
  intro e he
  simp only [List.mem_map] at he
  obtain ⟨a, ha, rfl⟩ := he
  obtain ⟨u, m', d', q1, q2, -⟩ := g4 a ha
  simp [viewEvent, q1, viewMap, q2]

theorem viewLog_some {h : Heap F} {x : Ref} {v : LogView} (hx : viewLog h x = some v) :
    ∃ o, h.get x = some (.log o) ∧ viewMap h o.map = some v.attrs ∧ o.traces.map (viewTrace h) = v.traces := by
  unfold viewLog at hx
  split at hx
  · rename_i o hg
    cases hv : viewMap h o.map with
    | none => rw [hv] at hx; simp at hx
    | some d =>
      rw [hv] at hx
      simp only [Option.map_some, Option.some.injEq] at hx
      exact ⟨o, hg, by rw [hv, ← hx], by rw [← hx]⟩
  · simp at hx

theorem dictAt_log {rnd : Nat → Uuid} {h : Heap F} {x c : Ref} {v : LogView} {idx : List (List Nat)} (hx : viewLog h x = some v)
    (hc : viewLog h c = some (v.relabel rnd idx))
    (hl : v.traces.map (fun t => t.map (fun t => t.events.length)) = idx.map (fun ix => some ix.length))
    (hs : ∀ t ∈ v.traces, ∀ w, t = some w → ∀ e ∈ w.events, e.isSome) (path : List Nat) :
    dictAt h x path = dictAt h c path := by
  obtain ⟨o, g1, g2, g3⟩ := viewLog_some hx
  obtain ⟨o', g1', g2', g3'⟩ := viewLog_some hc
  have hll : v.traces.length = idx.length := by have := congrArg List.length hl; simpa using this
  cases path with
  | nil => simp [dictAt, locate, mapOf, g1, g1', g2, g2', Except.toOption, LogView.relabel]
  | cons j path =>
    have hlen : o'.traces.length = o.traces.length := by
      have q1 : o.traces.length = v.traces.length := by rw [← g3]; simp
      have q2 : o'.traces.length = (v.relabel rnd idx).traces.length := by rw [← g3']; simp
      rw [q2, LogView.relabel, List.length_zipWith]; omega
    by_cases hj : j < o.traces.length
    · have hj' : j < o'.traces.length := by omega
      have e1 : dictAt h x (j :: path) = dictAt h o.traces[j] path := by
        simp [dictAt, locate, child, g1, List.getElem?_eq_getElem hj]
      have e2 : dictAt h c (j :: path) = dictAt h o'.traces[j] path := by
        simp [dictAt, locate, child, g1', List.getElem?_eq_getElem hj']
      rw [e1, e2]
      have v1 : v.traces[j]? = some (viewTrace h o.traces[j]) := by rw [← g3]; simp [List.getElem?_eq_getElem hj]
      have v2 : (v.relabel rnd idx).traces[j]? = some (viewTrace h o'.traces[j]) := by rw [← g3']; simp [List.getElem?_eq_getElem hj']
      have hji : j < idx.length := by rw [← hll, ← g3]; simpa using hj
      have hlj := congrArg (fun l => l[j]?) hl
      simp only [List.getElem?_map, v1, List.getElem?_eq_getElem hji, Option.map_some, Option.some.injEq] at hlj
      cases hw : viewTrace h o.traces[j] with
      | none => rw [hw] at hlj; simp at hlj
      | some w =>
        rw [hw] at hlj
        simp only [Option.map_some, Option.some.injEq] at hlj
        simp only [LogView.relabel, List.getElem?_zipWith, v1, List.getElem?_eq_getElem hji, Option.some.injEq, hw, Option.map_some] at v2
        exact dictAt_trace hw v2.symm hlj.symm (hs _ (List.mem_of_getElem? v1) w hw) path
    · have hj' : ¬ j < o'.traces.length := by omega
      simp [dictAt, locate, child, g1, g1', List.getElem?_eq_none (Nat.le_of_not_lt hj), List.getElem?_eq_none (Nat.le_of_not_lt hj')]

/-- The parts of a clone have maps with the same content as the parts of the original. -/
theorem Cloned.dicts {rnd : Nat → Uuid} {h h' : Heap F} {x c : Ref} (hcl : Cloned rnd h x c h') (path : List Nat) :
    dictAt h' x path = dictAt h' c path := by
  cases hcl with
  | event hx hc =>
    obtain ⟨c', h'', v, i, r1, r2, r3, r4, -⟩ := c34_event rnd hx
    rw [hc] at r1
    simp only [Except.ok.injEq, Prod.mk.injEq] at r1
    obtain ⟨rfl, rfl⟩ := r1
    exact dictAt_event r3 r4 rfl path
  | trace hx hc =>
    obtain ⟨c', h'', v, idx, r1, r2, r3, r4, r5, -⟩ := c34_trace rnd hx
    rw [hc] at r1
    simp only [Except.ok.injEq, Prod.mk.injEq] at r1
    obtain ⟨rfl, rfl⟩ := r1
    exact dictAt_trace r3 r4 r5 (viewTrace_events hx r2) path
  | log hx hc =>
    obtain ⟨c', h'', v, idx, r1, r2, r3, r4, r5, -⟩ := c34_log rnd hx
    rw [hc] at r1
    simp only [Except.ok.injEq, Prod.mk.injEq] at r1
    obtain ⟨rfl, rfl⟩ := r1
    refine dictAt_log r3 r4 r5 ?_ path
    obtain ⟨o, d, q1, q2, q3, q4⟩ := hx
    simp only [viewLog, q1, viewMap, q2, Option.map_some, Option.some.injEq] at r2
    subst r2
    intro t ht w hw
    simp only [List.mem_map] at ht
    obtain ⟨a, ha, rfl⟩ := ht
    exact viewTrace_events (q4 a ha) hw

/-- A part of the original and the part of the clone at the same place have maps of their own with the same content. -/
theorem Cloned.twins {rnd : Nat → Uuid} {h h' : Heap F} {x c : Ref} (hcl : Cloned rnd h x c h') {path : List Nat} {p q : Ref}
    (hp : locate h' x path = some p) (hq : locate h' c path = some q) {mp : Ref} {d : List (Str × Ref)} (a1 : mapOf h' p = .ok mp)
    (a2 : h'.get mp = some (.map d)) : ∃ mq, mapOf h' q = .ok mq ∧ h'.get mq = some (.map d) ∧ mp ≠ mq := by
  have hd := hcl.dicts path
  simp only [dictAt, hp, hq, Option.bind_some, a1, Except.toOption, viewMap, a2] at hd
  obtain ⟨mq, b1, b2⟩ : ∃ mq, mapOf h' q = .ok mq ∧ h'.get mq = some (.map d) := by
    cases hm : mapOf h' q with
    | error e => rw [hm] at hd; simp at hd
    | ok mq =>
      rw [hm] at hd
      simp only [Option.bind_some, viewMap] at hd
      refine ⟨mq, rfl, ?_⟩
      split at hd
      · rename_i d' hg
        simp only [Option.some.injEq] at hd
        rw [hg, hd]
      · simp at hd
  refine ⟨mq, b1, b2, ?_⟩
  obtain ⟨A, B, h1, h2, h3, h4, h5⟩ := hcl.apart.ex
  have kp := locate_mem h3 h1 hp
  have kq := locate_mem h4 h2 hq
  obtain ⟨o1, u1, u2⟩ := mapOf_ok a1
  obtain ⟨o2, w1, w2⟩ := mapOf_ok b1
  obtain ⟨o1', t1, t2, -⟩ := h3 p kp
  obtain ⟨o2', s1, s2, -⟩ := h4 q kq
  rw [u1] at t1; simp only [Option.some.injEq] at t1; subst t1
  rw [w1] at s1; simp only [Option.some.injEq] at s1; subst s1
  intro e
  exact h5 mp (t2 mp u2) (e ▸ s2 mq w2)

/-- C141 for clones: `p` is a part of the original (or the original), `q` the part of the clone at the same place.  They show the same
attributes, and behind any history of calls on the two each shows what the calls on it make of these. -/
theorem c141_clone {rnd : Nat → Uuid} {P : Protos} (lt : LocalTime) {h h' : Heap F} {x c : Ref} (hcl : Cloned rnd h x c h')
    (hP : ProtosOk h' P) {path : List Nat} {p q : Ref} (hp : locate h' x path = some p) (hq : locate h' c path = some q) {m : AttrMap F}
    (hs : ElemShows h' p m) :
    ElemShows h' q m ∧ ∀ cs : List (Bool × ExtCall F),
      let H := runCalls lt P (fun b => if b then p else q) cs h'
      ElemShows H p (ownCalls lt true cs m) ∧ ElemShows H q (ownCalls lt false cs m) := by
  obtain ⟨mp, d, a1, a2, a3⟩ := hs
  obtain ⟨mq, b1, b2, hne⟩ := hcl.twins hp hq a1 a2
  refine ⟨⟨mq, d, b1, b2, a3⟩, fun cs => ?_⟩
  have H := fun i => c141_sharing lt (els := fun b => if b then p else q) (mr := fun b => if b then mp else mq) hP (d := d) (m := m)
    (fun i => by cases i <;> simp [a1, a2, b1, b2]) (fun i j hij => by cases i <;> cases j <;> simp_all [hne.symm]) a3 cs i
  exact ⟨H true, H false⟩

/-! ### Concrete cases -/

/-- The attributes of the extensions, in the order in which `exAlias` has them. -/
def extAttrs : List ExtAttr :=
  [.name, .inst, .resource, .role, .group, .model, .transition, .total, .currency, .amount, .driver, .type, .level, .parentId, .length, .id,
    .reference, .timestamp]

/-- Where they are in `exAlias`. -/
def exProtos : Protos := fun x => 2 * extAttrs.idxOf x + 1

/-- A value for each. -/
def ExtAttr.value : ExtAttr → PyVal F
  | .id | .parentId => .xid 0
  | .timestamp => .dt ⟨2000, 1, 1, 0, 0, 0, 0, none⟩
  | _ => .str []

/-- The kept attributes, and an event with a name that has a nested attribute. -/
def exAlias (u : Uuid) : Heap F :=
  ⟨(extAttrs.zipIdx.flatMap (fun (x, i) => [.map [], .attr x.kind x.key (some x.ext) x.value (2 * i) []])) ++
    [ .map [], .attr .literal py!"n" none (.str py!"deep") 36 [],                       -- 36, 37: a nested attribute
      .map [(py!"n", 37)], .attr .literal py!"concept:name" none (.str py!"a") 38 [],   -- 38, 39: a name
      .map [(py!"concept:name", 39)], .event u 40 ], 0⟩                                   -- 40, 41: an event

theorem exAlias_protos (u : Uuid) : ProtosOk (exAlias u : Heap F) exProtos := by
  intro x
  refine ⟨x.value, 2 * extAttrs.idxOf x, [], ?_, ?_, ?_⟩
  · cases x <;> rfl
  · intro h; cases x <;> simp [ExtAttr.kind] at h <;> exact ⟨_, rfl⟩
  · intro h; cases x <;> simp [ExtAttr.kind] at h <;> exact ⟨_, rfl⟩

/-- The attributes of the event. -/
def exAliasMap : AttrMap F :=
  [(py!"concept:name", .mk .literal py!"concept:name" none (.str py!"a") [(py!"n", .mk .literal py!"n" none (.str py!"deep") [] [])] [])]

theorem exAlias_shows (u : Uuid) : ElemShows (exAlias u : Heap F) 41 exAliasMap := by
  refine ⟨40, [(py!"concept:name", 39)], rfl, rfl, ?_⟩
  simp only [exAliasMap, ShowsMap, Shows, ShowsList]
  exact ⟨39, [], rfl, ⟨38, [(py!"n", 37)], [], rfl, rfl, ⟨37, [], rfl, ⟨36, [], [], rfl, rfl, rfl, rfl⟩, rfl⟩, rfl⟩, rfl⟩

theorem exAlias_event (u : Uuid) : IsEvent (exAlias u : Heap F) 41 := ⟨u, 40, _, rfl, rfl, by simp [dkeys]⟩

/-- The hypotheses of `c141_clone` are met, also those of the theorems before it. -/
example (rnd : Nat → Uuid) (u : Uuid) : ∃ c h', Cloned rnd (exAlias u : Heap F) 41 c h' ∧ ProtosOk h' exProtos ∧
    locate h' 41 [] = some 41 ∧ locate h' c [] = some c ∧ ElemShows h' 41 exAliasMap := by
  obtain ⟨v, m, d, h1, h2, h3⟩ := exAlias_event (F := F) u
  refine ⟨_, _, .event ⟨v, m, d, h1, h2, h3⟩ (cloneEvent_ok rnd h1 h2 h3), ?_, rfl, rfl, ?_⟩
  · exact (exAlias_protos u).frame (fun r _ _ _ _ _ _ g => by rw [get_append_left (get_lt g)]; exact g)
  · obtain ⟨mr, d', a1, a2, a3⟩ := exAlias_shows (F := F) u
    obtain ⟨fs, a3⟩ := a3.foot
    refine ⟨mr, d', ?_, by rw [get_append_left (get_lt a2)]; exact a2, (a3.frame (fun r _ _ _ _ _ _ g => by
      rw [get_append_left (get_lt g)]; exact g) (fun w hw => get_append_left (a3.lt w hw))).shows⟩
    obtain ⟨o, ho, -⟩ := mapOf_ok a1
    unfold mapOf at a1 ⊢
    rw [get_append_left (get_lt ho)]
    exact a1

/-- Keys and values under an element. -/
def shownPairs (h : Heap F) (el : Ref) : List (Str × Option (PyVal F)) :=
  match mapOf h el with
  | .ok m => match h.get m with
    | some (.map d) => d.map (fun (k, a) => (k, match h.get a with | some (.attr _ _ _ v _ _) => some v | _ => none))
    | _ => []
  | .error _ => []

/-- The comparison of the example below. -/
abbrev AliasRow := List (Str × Option (PyVal ToyFloat))

instance : DecidableEq AliasRow := inferInstance

/-- The event of `exAlias` is 41, its clone 44.  The clone gets another name, the event a level and a reference; the other calls do
nothing or raise. -/
def exAliasRun : Option (Ref × AliasRow × AliasRow) :=
  match cloneEvent (fun _ => 7) (exAlias 3 : Heap ToyFloat) 41 with
  | .error _ => none
  | .ok (c, h) =>
    let H := runCalls ⟨fun _ => .ok 0, fun _ => .error .overflowError⟩ exProtos (fun b => if b then 41 else c)
      [(false, .name (some py!"b")), (true, .level (.int 2)), (false, .currency (some py!" ")), (true, .parentId (.str py!"x")),
        (true, .references [py!"r"]), (true, .timestamp (.millis 5))] h
    some (c, shownPairs H 41, shownPairs H c)

example : exAliasRun = some (44,
    [(py!"concept:name", some (.str py!"a")), (py!"micro:level", some (.int 2)), (py!"semantic:modelReference", some (.str py!"r "))],
    [(py!"concept:name", some (.str py!"b"))]) := by
  decide +kernel

end

end Opy
