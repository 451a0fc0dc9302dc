import Verif.Props.Analyse
import Verif.Props.Ext
/-
Property C167: what the getters of the standard extensions read from a saved and loaded log.
-/
set_option linter.unusedSectionVars false
namespace Opy

/-! ## Specification -/

section
variable {F : Type} [PyFloat F]

/-- The getters of the standard extensions that read the value of one attribute, each with the key it looks for. -/
def readers : List (Str × (AttrMap F → Except PyErr (PyVal F))) :=
  [(py!"concept:name", extractName), (py!"concept:instance", extractInstance),
   (py!"org:resource", extractOrg .resource), (py!"org:role", extractOrg .role), (py!"org:group", extractOrg .group),
   (py!"lifecycle:model", extractModel), (py!"lifecycle:transition", extractTransition),
   (py!"cost:total", extractTotal), (py!"cost:currency", extractCurrency), (py!"cost:amount", extractAmount),
   (py!"cost:driver", extractDriver), (py!"cost:type", extractType),
   (py!"micro:level", extractLevel), (py!"micro:parentId", extractParentId), (py!"micro:length", extractLength),
   (py!"identity:id", extractId), (py!"time:timestamp", extractTimestamp)]

/-- What a file makes of an answer: a text comes back as the XML parser gives it, a timestamp is cut to milliseconds and has an
offset (UTC if it had none); everything else, the default and the exception stay. -/
def storedAnswer (modern : Bool) : Except PyErr (PyVal F) → Except PyErr (PyVal F)
  | .ok (.str s) => .ok (.str (valueBack modern s))
  | .ok (.dt d) => .ok (.dt { d with micro := d.micro / 1000 * 1000, tz := some (d.tz.getD 0) })
  | r => r

/-- The attributes `m` of the log, of a trace or of an event, and the attributes `m1` at the same place of another log. -/
inductive SamePlace (L L1 : Log F) : AttrMap F → AttrMap F → Prop where
  | log : SamePlace L L1 L.attrs L1.attrs
  | trace {i : Nat} {t t1 : Trace F} : L.traces[i]? = some t → L1.traces[i]? = some t1 → SamePlace L L1 t.attrs t1.attrs
  | event {i j : Nat} {t t1 : Trace F} {e e1 : Event F} : L.traces[i]? = some t → L1.traces[i]? = some t1 →
      t.events[j]? = some e → t1.events[j]? = some e1 → SamePlace L L1 e.attrs e1.attrs

/-- The last attribute of the map whose own key comes back from the file as `k` (under whatever key it is stored). -/
def lastOwn (modern : Bool) (k : Str) (m : AttrMap F) : Option (Attr F) :=
  (m.map Prod.snd).reverse.find? fun a => valueBack modern a.key == k

/-- A setter of the standard extensions has stored `v` for the getter of key `k`: the map before and after. -/
inductive Stores : Str → PyVal F → AttrMap F → AttrMap F → Prop where
  | name {s : Str} {m : AttrMap F} : given (some s) = true → Stores py!"concept:name" (.str s) m (assignName (some s) m)
  | resource {s : Str} {m : AttrMap F} : given (some s) = true → Stores py!"org:resource" (.str s) m (assignOrg .resource (some s) m)
  | role {s : Str} {m : AttrMap F} : given (some s) = true → Stores py!"org:role" (.str s) m (assignOrg .role (some s) m)
  | group {s : Str} {m : AttrMap F} : given (some s) = true → Stores py!"org:group" (.str s) m (assignOrg .group (some s) m)
  | model {s : Str} {m : AttrMap F} : given (some s) = true → Stores py!"lifecycle:model" (.str (strip s)) m (assignModel (some s) m)
  | transition {s : Str} {m : AttrMap F} : given (some s) = true →
      Stores py!"lifecycle:transition" (.str (strip s)) m (assignTransition (some s) m)
  | total {v : PyVal F} {m m' : AttrMap F} : positive v = .ok true → assignTotal v m = .ok m' → Stores py!"cost:total" v m m'
  | amount {v : PyVal F} {m m' : AttrMap F} : positive v = .ok true → assignAmount v m = .ok m' → Stores py!"cost:amount" v m m'
  | driver {s : Str} {m : AttrMap F} : given (some s) = true → Stores py!"cost:driver" (.str s) m (assignDriver (some s) m)
  | level {v : PyVal F} {m m' : AttrMap F} : pyGt v (.int 0) = .ok true → assignLevel v m = .ok m' → Stores py!"micro:level" v m m'
  | length {v : PyVal F} {m m' : AttrMap F} : pyGe v (.int 0) = .ok true → assignLength v m = .ok m' → Stores py!"micro:length" v m m'
  | id {u : Uuid} {m : AttrMap F} : Stores py!"identity:id" (.xid u) m (assignId (.xid u) m)
  | timestamp {lt : LocalTime} {n : Int} {d : DateTime} {m m' : AttrMap F} : lt.fromMillis n = .ok d →
      assignTimestamp lt (.millis n) m = .ok m' → Stores py!"time:timestamp" (.dt d) m m'

/-! ## Reading one key -/

/-- A getter reads the attribute stored under its key, and nothing else. -/
theorem readers_only {g : AttrMap F → Except PyErr (PyVal F)} {k : Str} (h : (k, g) ∈ readers) (m : AttrMap F) :
    g m = g ((dget k m).map fun a => (k, a)).toList := by
  simp only [readers, List.mem_cons, Prod.mk.injEq, List.not_mem_nil, or_false] at h
  rcases h with ⟨rfl, rfl⟩ | ⟨rfl, rfl⟩ | ⟨rfl, rfl⟩ | ⟨rfl, rfl⟩ | ⟨rfl, rfl⟩ | ⟨rfl, rfl⟩ | ⟨rfl, rfl⟩ | ⟨rfl, rfl⟩ | ⟨rfl, rfl⟩ |
    ⟨rfl, rfl⟩ | ⟨rfl, rfl⟩ | ⟨rfl, rfl⟩ | ⟨rfl, rfl⟩ | ⟨rfl, rfl⟩ | ⟨rfl, rfl⟩ | ⟨rfl, rfl⟩ | ⟨rfl, rfl⟩
  all_goals
    simp only [extractName, extractInstance, extractOrg, extractModel, extractTransition, extractTotal, extractCurrency, extractAmount,
      extractDriver, extractType, extractLevel, extractParentId, extractLength, extractId, extractTimestamp, extractOr]
    try unfold timeKey
    generalize hd : dget _ m = o
    cases o <;> rfl

/-- ... and answers with its value. -/
theorem readers_one {g : AttrMap F → Except PyErr (PyVal F)} {k : Str} (h : (k, g) ∈ readers) (a : Attr F) : g [(k, a)] = getValue a := by
  simp only [readers, List.mem_cons, Prod.mk.injEq, List.not_mem_nil, or_false] at h
  rcases h with ⟨rfl, rfl⟩ | ⟨rfl, rfl⟩ | ⟨rfl, rfl⟩ | ⟨rfl, rfl⟩ | ⟨rfl, rfl⟩ | ⟨rfl, rfl⟩ | ⟨rfl, rfl⟩ | ⟨rfl, rfl⟩ | ⟨rfl, rfl⟩ |
    ⟨rfl, rfl⟩ | ⟨rfl, rfl⟩ | ⟨rfl, rfl⟩ | ⟨rfl, rfl⟩ | ⟨rfl, rfl⟩ | ⟨rfl, rfl⟩ | ⟨rfl, rfl⟩ | ⟨rfl, rfl⟩ <;> rfl

/-- The answer for an absent attribute is not changed by a file. -/
theorem readers_nil {g : AttrMap F → Except PyErr (PyVal F)} {k : Str} (h : (k, g) ∈ readers) (modern : Bool) :
    storedAnswer modern (g []) = g [] := by
  simp only [readers, List.mem_cons, Prod.mk.injEq, List.not_mem_nil, or_false] at h
  rcases h with ⟨rfl, rfl⟩ | ⟨rfl, rfl⟩ | ⟨rfl, rfl⟩ | ⟨rfl, rfl⟩ | ⟨rfl, rfl⟩ | ⟨rfl, rfl⟩ | ⟨rfl, rfl⟩ | ⟨rfl, rfl⟩ | ⟨rfl, rfl⟩ |
    ⟨rfl, rfl⟩ | ⟨rfl, rfl⟩ | ⟨rfl, rfl⟩ | ⟨rfl, rfl⟩ | ⟨rfl, rfl⟩ | ⟨rfl, rfl⟩ | ⟨rfl, rfl⟩ | ⟨rfl, rfl⟩ <;> rfl

theorem getValue_loaded (mgr : ExtMgr) (modern : Bool) (a : Attr F) :
    getValue (normAttr mgr (valueBack modern) a) = storedAnswer modern (getValue a) := by
  obtain ⟨k, key, e, v, m, c⟩ := a
  have q : ∀ n : Nat, n - n % 1000 = n / 1000 * 1000 := fun n => by omega
  cases hk : k.isCollection <;> cases v <;>
    simp [normAttr, hk, getValue, Attr.kind, Attr.val, normVal, storedAnswer, toMillisAware, q]

theorem dget_rekey (cs : List (Attr F)) (k : Str) : dget k (rekey cs) = cs.reverse.find? fun a => a.key == k := by
  have gen : ∀ (cs : List (Attr F)) (acc : List (Str × Attr F)),
      dget k (cs.foldl (fun m c => dset c.key c m) acc) = (cs.reverse.find? fun a => a.key == k).or (dget k acc) := by
    intro cs
    induction cs with
    | nil => intro acc; simp
    | cons c cs ih =>
      intro acc
      rw [List.foldl_cons, ih, dget_dset, List.reverse_cons, List.find?_append]
      by_cases h : k = c.key
      · cases List.find? (fun a => a.key == k) cs.reverse <;> simp [h]
      · cases List.find? (fun a => a.key == k) cs.reverse <;> simp [h, Ne.symm h]
  rw [rekey, gen, dget, Option.or_none]

/-- What is found under a key after loading. -/
theorem loaded_last (mgr : ExtMgr) (modern : Bool) (m : AttrMap F) (k : Str) :
    dget k (rekey (normVals mgr (valueBack modern) m)) = (lastOwn modern k m).map (normAttr mgr (valueBack modern)) := by
  rw [dget_rekey, normVals_map, lastOwn]
  generalize hf : m.reverse = r
  rw [← List.map_reverse, ← List.map_reverse, hf]
  clear hf
  induction r with
  | nil => rfl
  | cons p r ih =>
    simp only [List.map_cons, List.find?_cons, normAttr_key]
    split
    · rfl
    · exact ih

/-! ## Places -/

theorem place_loaded {mgr : ExtMgr} {ws : Str → Str} {L L1 : Log F} (hn : L1.content = norm mgr ws L.content) {m m1 : AttrMap F}
    (hp : SamePlace L L1 m m1) : m1 = rekey (normVals mgr ws m) := by
  have ht : ∀ {i : Nat} {t t1 : Trace F}, L.traces[i]? = some t → L1.traces[i]? = some t1 →
      t1.attrs = rekey (normVals mgr ws t.attrs) ∧ t1.events.map Event.attrs = t.events.map fun e => rekey (normVals mgr ws e.attrs) := by
    intro i t t1 h h1
    have hc : L1.content.traces = (norm mgr ws L.content).traces := by rw [hn]
    simp only [Log.content, norm, List.map_map] at hc
    have := congrArg (fun l => l[i]?) hc
    simp only [List.getElem?_map, h, h1, Option.map_some, Option.some.injEq, Function.comp_apply, Prod.mk.injEq, List.map_map] at this
    exact ⟨this.1, this.2⟩
  cases hp with
  | log =>
    have : L1.content.attrs = (norm mgr ws L.content).attrs := by rw [hn]
    exact this
  | trace h h1 => exact (ht h h1).1
  | event h h1 g g1 =>
    next j _ _ _ _ =>
    have := congrArg (fun l => l[(j : Nat)]?) (ht h h1).2
    simp only [List.getElem?_map, g, g1, Option.map_some, Option.some.injEq] at this
    exact this

/-! ## The theorems -/

/-- **C167**, for all logs that are saved: a getter reads, at every place of the loaded log, what it would read of the last attribute
whose own key is the one it looks for; its default if there is none. -/
theorem c167_last (hf : FloatText F) {mgr : ExtMgr} {modern : Bool} {L L1 : Log F} (hL : WritableLog L) (h : FileHolds mgr modern L L1.content)
    {m m1 : AttrMap F} (hp : SamePlace L L1 m m1) {k : Str} {g : AttrMap F → Except PyErr (PyVal F)} (hg : (k, g) ∈ readers) :
    g m1 = storedAnswer modern (g ((lastOwn modern k m).map fun a => (k, a)).toList) := by
  rw [place_loaded (holds_norm hf hL h).2 hp, readers_only hg, loaded_last]
  cases lastOwn modern k m with
  | none => exact (readers_nil hg modern).symm
  | some a =>
    simp only [Option.map_some, Option.toList_some]
    rw [readers_one hg, readers_one hg, getValue_loaded]

/-- **C167** holds where the attributes are stored under their own keys and these survive the file: the getters read the same. -/
theorem c167_partial (hf : FloatText F) {mgr : ExtMgr} {modern : Bool} {L L1 : Log F} (hL : WritableLog L) (h : FileHolds mgr modern L L1.content)
    {m m1 : AttrMap F} (hp : SamePlace L L1 m m1) (hk : KeysKept (valueBack modern) m) {k : Str} {g : AttrMap F → Except PyErr (PyVal F)}
    (hg : (k, g) ∈ readers) : g m1 = storedAnswer modern (g m) := by
  rw [place_loaded (holds_norm hf hL h).2 hp, readers_only hg, loaded_dget mgr hk, readers_only hg m]
  cases dget k m with
  | none => exact (readers_nil hg modern).symm
  | some a =>
    simp only [Option.map_some, Option.toList_some]
    rw [readers_one hg, readers_one hg, getValue_loaded]

/-- The loaded log has the same places. -/
theorem c167_places (hf : FloatText F) {mgr : ExtMgr} {modern : Bool} {L L1 : Log F} (hL : WritableLog L) (h : FileHolds mgr modern L L1.content) :
    L1.traces.map (fun t => t.events.length) = L.traces.map fun t => t.events.length := by
  have hc : L1.content.traces = (norm mgr (valueBack modern) L.content).traces := by rw [(holds_norm hf hL h).2]
  simp only [Log.content, norm, List.map_map] at hc
  have := congrArg (List.map fun p : AttrMap F × List (AttrMap F) => p.2.length) hc
  simpa [List.map_map, Function.comp_def] using this

/-- A setter stores one attribute. -/
theorem stores_dset {k : Str} {v : PyVal F} {m m' : AttrMap F} (h : Stores k v m m') :
    ∃ kind e, m' = dset k (cloned kind k e v) m ∧ kind.isCollection = false := by
  cases h with
  | name h => exact ⟨.literal, conceptExt, by simp only [assignName, h, if_true], rfl⟩
  | resource h => exact ⟨.literal, orgExt, by simp only [assignOrg, h, if_true], rfl⟩
  | role h => exact ⟨.literal, orgExt, by simp only [assignOrg, h, if_true], rfl⟩
  | group h => exact ⟨.literal, orgExt, by simp only [assignOrg, h, if_true], rfl⟩
  | model h => exact ⟨.literal, lifecycleExt, by simp only [assignModel, h, if_true], rfl⟩
  | transition h => exact ⟨.literal, lifecycleExt, by simp only [assignTransition, h, if_true], rfl⟩
  | total h h' =>
    simp only [assignTotal, h, bind, Except.bind, if_true, Except.ok.injEq] at h'
    exact ⟨.continuous, costExt, h'.symm, rfl⟩
  | amount h h' =>
    simp only [assignAmount, h, bind, Except.bind, if_true, Except.ok.injEq] at h'
    exact ⟨.continuous, costExt, h'.symm, rfl⟩
  | driver h => exact ⟨.literal, costExt, by simp only [assignDriver, h, if_true], rfl⟩
  | level h h' =>
    simp only [assignLevel, h, bind, Except.bind, if_true, Except.ok.injEq] at h'
    exact ⟨.discrete, microExt, h'.symm, rfl⟩
  | length h h' =>
    simp only [assignLength, h, bind, Except.bind, if_true, Except.ok.injEq] at h'
    exact ⟨.discrete, microExt, h'.symm, rfl⟩
  | id => exact ⟨.id, identityExt, rfl, rfl⟩
  | timestamp h h' =>
    simp only [assignTimestamp, h, bind, Except.bind, Except.ok.injEq] at h'
    exact ⟨.timestamp, timeExt, h'.symm, rfl⟩

theorem keysKept_dset {ws : Str → Str} {m : AttrMap F} (h : KeysKept ws m) {k : Str} (hk : ws k = k) {a : Attr F} (ha : a.key = k) :
    KeysKept ws (dset k a m) where
  own := ⟨nodup_dset h.own.1, fun p hp => by
    rcases mem_dset hp with hp | rfl
    · exact h.own.2 p hp
    · exact ha.symm⟩
  kept p hp := by
    rcases mem_dset hp with hp | rfl
    · exact h.kept p hp
    · exact hk

theorem readers_plain (modern : Bool) {k : Str} {g : AttrMap F → Except PyErr (PyVal F)} (h : (k, g) ∈ readers) : valueBack modern k = k := by
  have w : ∀ s ∈ (readers (F := F)).map Prod.fst, valueBack modern s = s := by
    simp only [readers, List.map_cons, List.map_nil]
    cases modern <;> decide
  exact w k (List.mem_map.2 ⟨_, h, rfl⟩)

/-- **C167**, from the setter to the getter: what was stored is read from the loaded log, and all the other getters read what they
would have read without it. -/
theorem c167_stored (hf : FloatText F) {mgr : ExtMgr} {modern : Bool} {L L1 : Log F} (hL : WritableLog L) (h : FileHolds mgr modern L L1.content)
    {m0 m m1 : AttrMap F} (hp : SamePlace L L1 m m1) (hk : KeysKept (valueBack modern) m0) {k : Str} {v : PyVal F} (hs : Stores k v m0 m)
    {k' : Str} {g : AttrMap F → Except PyErr (PyVal F)} (hg : (k', g) ∈ readers) :
    g m1 = storedAnswer modern (if k' = k then .ok v else g m0) := by
  obtain ⟨kind, e, hm, hc⟩ := stores_dset hs
  have hkk : valueBack modern k = k := by
    have : ∃ g', (k, g') ∈ readers (F := F) := by cases hs <;> simp [readers]
    exact readers_plain modern this.choose_spec
  subst hm
  rw [c167_partial hf hL h hp (keysKept_dset hk hkk rfl) hg, readers_only hg, dget_dset]
  by_cases hq : k' = k
  · rw [if_pos hq, if_pos hq, Option.map_some, Option.toList_some, readers_one hg]
    simp [cloned, getValue, Attr.kind, hc, Attr.val]
  · rw [if_neg hq, if_neg hq, ← readers_only hg]

/-- **C167** is violated by an instance or a currency that was assigned: it is stored under `concept:name`, where the getter of names
finds it; after loading the getter of names finds nothing, and the getter of instances or currencies, which found nothing, finds it. -/
theorem c167_misplaced_refuted (hf : FloatText F) {mgr : ExtMgr} {modern : Bool} {L L1 : Log F} (hL : WritableLog L)
    (h : FileHolds mgr modern L L1.content) {m0 m m1 : AttrMap F} (hp : SamePlace L L1 m m1) (hk : KeysKept (valueBack modern) m0) {s : Str}
    (hs : given (some s) = true) :
    (m = assignInstance (some s) m0 → py!"concept:instance" ∉ dkeys m0 →
      extractName m = .ok (.str s) ∧ extractInstance m = .ok .none ∧
      extractName m1 = .ok .none ∧ extractInstance m1 = .ok (.str (valueBack modern s))) ∧
    (m = assignCurrency (some s) m0 → py!"cost:currency" ∉ dkeys m0 →
      extractName m = .ok (.str s) ∧ extractCurrency m = .ok .none ∧
      extractName m1 = .ok .none ∧ extractCurrency m1 = .ok (.str (valueBack modern s))) := by
  -- the map as it will be: the attribute under its own key
  have gen : ∀ (key : Str) (e : Ext), key ≠ py!"concept:name" → valueBack modern key = key → key ∉ dkeys m0 →
      let a : Attr F := cloned .literal key e (.str s)
      lastOwn modern py!"concept:name" (dset py!"concept:name" a m0) = none ∧ lastOwn modern key (dset py!"concept:name" a m0) = some a := by
    intro key e hne hw hnk a
    have hmem : ∀ p ∈ dset py!"concept:name" a m0, p.2 = a ∨ (p.1 ≠ py!"concept:name" ∧ p ∈ m0) := by
      intro p hp
      by_cases hq : p.1 = py!"concept:name"
      · left
        have := mem_dget (nodup_dset hk.own.1) (show (p.1, p.2) ∈ _ from hp)
        rw [hq, dget_dset_self] at this
        exact (Option.some.inj this).symm
      · rcases mem_dset hp with hp | rfl
        · exact .inr ⟨hq, hp⟩
        · exact .inl rfl
    have hown : ∀ p ∈ m0, valueBack modern p.2.key = p.1 := fun p hp => by rw [← hk.own.2 p hp, hk.kept p hp]
    constructor
    · rw [lastOwn, List.find?_eq_none]
      intro b hb
      simp only [List.mem_reverse, List.mem_map] at hb
      obtain ⟨p, hp, rfl⟩ := hb
      rcases hmem p hp with he | ⟨h1, h2⟩
      · rw [he]
        simp only [a, cloned, Attr.key, hw, beq_iff_eq]
        exact hne
      · simp only [hown p h2, beq_iff_eq]
        exact h1
    · have hin : a ∈ (dset py!"concept:name" a m0).map Prod.snd :=
        List.mem_map.2 ⟨(py!"concept:name", a), dget_mem (dget_dset_self _ _ _), rfl⟩
      cases hd : lastOwn modern key (dset py!"concept:name" a m0) with
      | none =>
        rw [lastOwn, List.find?_eq_none] at hd
        exact absurd (hd a (by simpa using hin)) (by simp [a, cloned, Attr.key, hw])
      | some b =>
        have h1 := List.find?_some hd
        have h2 := List.mem_of_find?_eq_some hd
        simp only [List.mem_reverse, List.mem_map] at h2
        obtain ⟨p, hp, rfl⟩ := h2
        rcases hmem p hp with he | ⟨_, h3⟩
        · rw [he]
        · simp only [hown p h3, beq_iff_eq] at h1
          exact absurd (List.mem_map.2 ⟨p, h3, h1⟩) hnk
  have w : ∀ s ∈ [py!"concept:instance", py!"cost:currency"], valueBack modern s = s := by cases modern <;> decide
  constructor
  · intro hm hnk
    obtain ⟨g1, g2⟩ := gen py!"concept:instance" conceptExt (by decide) (w _ (by simp)) hnk
    have hm' : m = dset py!"concept:name" (cloned .literal py!"concept:instance" conceptExt (.str s)) m0 := by
      rw [hm]
      simp only [assignInstance, hs, if_true]
    rw [← hm'] at g1 g2
    refine ⟨?_, ?_, ?_, ?_⟩
    · rw [hm', extractName, extractOr, dget_dset_self]
      rfl
    · rw [hm', extractInstance, extractOr, dget_dset_ne (by decide), dget_eq_none.2 hnk]
    · rw [c167_last hf hL h hp (k := py!"concept:name") (g := extractName) (by simp [readers]), g1]
      rfl
    · rw [c167_last hf hL h hp (k := py!"concept:instance") (g := extractInstance) (by simp [readers]), g2]
      rfl
  · intro hm hnk
    obtain ⟨g1, g2⟩ := gen py!"cost:currency" costExt (by decide) (w _ (by simp)) hnk
    have hm' : m = dset py!"concept:name" (cloned .literal py!"cost:currency" costExt (.str s)) m0 := by
      rw [hm]
      simp only [assignCurrency, hs, if_true]
    rw [← hm'] at g1 g2
    refine ⟨?_, ?_, ?_, ?_⟩
    · rw [hm', extractName, extractOr, dget_dset_self]
      rfl
    · rw [hm', extractCurrency, extractOr, dget_dset_ne (by decide), dget_eq_none.2 hnk]
    · rw [c167_last hf hL h hp (k := py!"concept:name") (g := extractName) (by simp [readers]), g1]
      rfl
    · rw [c167_last hf hL h hp (k := py!"cost:currency") (g := extractCurrency) (by simp [readers]), g2]
      rfl

/-- **C167**, the getters that interpret a text: where the text survives the file, they answer the same. -/
theorem c167_derived (hf : FloatText F) {mgr : ExtMgr} {modern : Bool} {L L1 : Log F} (hL : WritableLog L) (h : FileHolds mgr modern L L1.content)
    {m m1 : AttrMap F} (hp : SamePlace L L1 m m1) (hk : KeysKept (valueBack modern) m)
    (hv : ∀ p ∈ m, ∀ s, getValue p.2 = .ok (.str s) → valueBack modern s = s) :
    usesStandardModel m1 = usesStandardModel m ∧ extractStandardTransition m1 = extractStandardTransition m ∧
    extractModelReferences m1 = extractModelReferences m := by
  -- an answer is the same unless it is a timestamp
  have sv : ∀ (k : Str) (a : Attr F), dget k m = some a →
      storedAnswer modern (getValue a) = getValue a ∨ ∃ d d', getValue a = .ok (.dt d) ∧ storedAnswer modern (getValue a) = .ok (.dt d') := by
    intro k a hd
    have hva := hv _ (dget_mem hd)
    simp only at hva
    cases hg : getValue a with
    | error e => exact .inl rfl
    | ok v =>
      cases v
      case str s => exact .inl (by simp only [storedAnswer, hva s hg])
      case dt d => exact .inr ⟨d, _, rfl, rfl⟩
      all_goals exact .inl rfl
  have e := place_loaded (holds_norm hf hL h).2 hp
  refine ⟨?_, ?_, ?_⟩
  · have g := c167_partial hf hL h hp hk (k := py!"lifecycle:model") (g := extractModel) (by simp [readers])
    unfold usesStandardModel
    rw [g, extractModel, extractOr]
    cases hd : dget py!"lifecycle:model" m with
    | none => rfl
    | some a =>
      rcases sv _ a hd with hs | ⟨d, d', h1, -⟩
      · simp only [hs]
      · simp only [h1, storedAnswer, bind, Except.bind]
  · have g := c167_partial hf hL h hp hk (k := py!"lifecycle:transition") (g := extractTransition) (by simp [readers])
    unfold extractStandardTransition
    rw [g, extractTransition, extractOr]
    cases hd : dget py!"lifecycle:transition" m with
    | none => rfl
    | some a =>
      rcases sv _ a hd with hs | ⟨d, d', h1, -⟩
      · simp only [hs]
      · simp only [h1, storedAnswer, bind, Except.bind]
  · unfold extractModelReferences
    rw [e, loaded_dget mgr hk]
    cases hd : dget py!"semantic:modelReference" m with
    | none => rfl
    | some a =>
      simp only [Option.map_some, getValue_loaded]
      rcases sv _ a hd with hs | ⟨d, d', h1, -⟩
      · simp only [hs]
      · simp only [h1, storedAnswer, bind, Except.bind]

end

/-! ## The theorems apply -/

/-- A log of one event. -/
def oneEvent (m : AttrMap ToyFloat) : Log ToyFloat := ⟨[], [], [], [], [], [], [⟨[], [⟨0, m⟩]⟩]⟩

theorem oneEvent_typed {m : AttrMap ToyFloat} (h : TypedMap m) : WritableLog (oneEvent m) where
  attrs := by simp [oneEvent, TypedMap]
  globalTrace := by simp [oneEvent, TypedList]
  globalEvent := by simp [oneEvent, TypedList]
  traces := by simp [oneEvent, TypedMap, h]

theorem oneEvent_legal {m : AttrMap ToyFloat} (h : LegalMap m) : LegalLog (oneEvent m) where
  attrs := by simp [oneEvent, LegalMap]
  extensions := by simp [oneEvent]
  classifiers := by simp [oneEvent]
  globalTrace := by simp [oneEvent, LegalAttrs]
  globalEvent := by simp [oneEvent, LegalAttrs]
  traces := by simp [oneEvent, LegalMap, h]

/-- The first event of a log and of another one of the same shape. -/
theorem oneEvent_place (m : AttrMap ToyFloat) (modern : Bool) : SamePlace (oneEvent m) (logOf (norm tripMgr (valueBack modern) (oneEvent m).content)) m
    (rekey (normVals tripMgr (valueBack modern) m)) :=
  .event (i := 0) (j := 0) (t := ⟨[], [⟨0, m⟩]⟩) (t1 := ⟨[], [⟨0, rekey (normVals tripMgr (valueBack modern) m)⟩]⟩)
    (e := ⟨0, m⟩) (e1 := ⟨0, rekey (normVals tripMgr (valueBack modern) m)⟩) rfl rfl rfl rfl

theorem oneEvent_holds {m : AttrMap ToyFloat} (modern : Bool) (ht : TypedMap m) (hl : LegalMap m) :
    FileHolds tripMgr modern (oneEvent m) (logOf (norm tripMgr (valueBack modern) (oneEvent m).content)).content := by
  rw [logOf_content]
  exact c110_file toyFloatText tripMgr modern (oneEvent_typed ht) (oneEvent_legal hl)

/-- A name is assigned to an event that has a resource, and both are read from the file. -/
example (modern : Bool) : ∃ L1 m1, FileHolds tripMgr modern (oneEvent (assignName (some py!"a<b") (assignOrg .resource (some py!"x") []))) L1.content ∧
    SamePlace (oneEvent (assignName (some py!"a<b") (assignOrg .resource (some py!"x") []))) L1
      (assignName (some py!"a<b") (assignOrg .resource (some py!"x") [])) m1 ∧
    extractName m1 = .ok (.str py!"a<b") ∧ extractOrg .resource m1 = .ok (.str py!"x") := by
  have l : ∀ s ∈ [py!"concept:name", py!"a<b", py!"x", py!"org:resource"], LegalText s := by unfold LegalText; decide
  have w : ∀ s ∈ [py!"concept:name", py!"a<b", py!"x", py!"org:resource"], valueBack modern s = s := by cases modern <;> decide
  have hm : assignName (some py!"a<b") (assignOrg .resource (some py!"x") ([] : AttrMap ToyFloat)) =
      [(py!"org:resource", cloned .literal py!"org:resource" orgExt (.str py!"x")),
        (py!"concept:name", cloned .literal py!"concept:name" conceptExt (.str py!"a<b"))] := rfl
  have ht : TypedMap (assignName (some py!"a<b") (assignOrg .resource (some py!"x") ([] : AttrMap ToyFloat))) := by
    rw [hm]; simp [TypedMap, Typed, cloned, GoodVal, Kind.isCollection]
  have hl : LegalMap (assignName (some py!"a<b") (assignOrg .resource (some py!"x") ([] : AttrMap ToyFloat))) := by
    rw [hm]; simp [LegalMap, LegalAttr, LegalVal, cloned, Kind.isCollection, l]
  have hk : KeysKept (valueBack modern) (assignOrg .resource (some py!"x") ([] : AttrMap ToyFloat)) := by
    refine ⟨⟨by decide, ?_⟩, ?_⟩
    · intro p hp
      simp [assignOrg, given, dset] at hp
      rw [hp.2]; rfl
    · intro p hp
      simp [assignOrg, given, dset] at hp
      rw [hp.2]; exact w _ (by simp)
  have hs := Stores.name (F := ToyFloat) (s := py!"a<b") (m := assignOrg .resource (some py!"x") []) (by decide)
  refine ⟨_, _, oneEvent_holds modern ht hl, oneEvent_place _ modern, ?_, ?_⟩
  · rw [c167_stored toyFloatText (oneEvent_typed ht) (oneEvent_holds modern ht hl) (oneEvent_place _ modern) hk hs
      (k' := py!"concept:name") (g := extractName) (by simp [readers]), if_pos rfl]
    simp only [storedAnswer, w py!"a<b" (by simp)]
  · rw [c167_stored toyFloatText (oneEvent_typed ht) (oneEvent_holds modern ht hl) (oneEvent_place _ modern) hk hs
      (k' := py!"org:resource") (g := extractOrg .resource) (by simp [readers]), if_neg (by decide)]
    show storedAnswer modern (.ok (.str py!"x")) = _
    simp only [storedAnswer, w py!"x" (by simp)]

/-- An assigned instance is read as the name before saving and as the instance after loading. -/
example (modern : Bool) : ∃ L1 m1, FileHolds tripMgr modern (oneEvent (assignInstance (some py!"7") [])) L1.content ∧
    SamePlace (oneEvent (assignInstance (some py!"7") [])) L1 (assignInstance (some py!"7") []) m1 ∧
    extractName (assignInstance (some py!"7") ([] : AttrMap ToyFloat)) = .ok (.str py!"7") ∧ extractName m1 = .ok .none ∧
    extractInstance m1 = .ok (.str (valueBack modern py!"7")) := by
  have l : ∀ s ∈ [py!"concept:instance", py!"7"], LegalText s := by unfold LegalText; decide
  have hm : assignInstance (some py!"7") ([] : AttrMap ToyFloat) =
      [(py!"concept:name", cloned .literal py!"concept:instance" conceptExt (.str py!"7"))] := rfl
  have ht : TypedMap (assignInstance (some py!"7") ([] : AttrMap ToyFloat)) := by
    rw [hm]; simp [TypedMap, Typed, cloned, GoodVal, Kind.isCollection]
  have hl : LegalMap (assignInstance (some py!"7") ([] : AttrMap ToyFloat)) := by
    rw [hm]; simp [LegalMap, LegalAttr, LegalVal, cloned, Kind.isCollection, l]
  have := (c167_misplaced_refuted toyFloatText (oneEvent_typed ht) (oneEvent_holds modern ht hl) (oneEvent_place _ modern)
    (m0 := []) ⟨⟨by decide, by simp⟩, by simp⟩ (s := py!"7") (by decide)).1 rfl (by simp [dkeys])
  exact ⟨_, _, oneEvent_holds modern ht hl, oneEvent_place _ modern, this.1, this.2.2⟩

end Opy
