import Verif.Props.XmlText
import Verif.Props.LogInfo
import Verif.Props.Resave
/-
Property C143: what is computed from a log (event classes, summary, time bounds) is computed alike from the file it was saved to.
-/
set_option linter.unusedSectionVars false
namespace Opy

/-! ## Specification -/

section
variable {F : Type} [PyFloat F]

/-- The printed value survives the file: a text that comes back unchanged, a timestamp that knows its offset (without one it prints
a `Z`, which is gone after loading). -/
def ShownVal (ws : Str → Str) : PyVal F → Prop
  | .str s => ws s = s
  | .dt d => d.tz ≠ none
  | _ => True

mutual
/-- What the attribute prints survives the file: its value, or the keys and values of its members. -/
def Shown (ws : Str → Str) : Attr F → Prop
  | .mk k _ _ v _ c => ShownVal ws v ∧ (k.isCollection = true → ShownList ws c)
/-- The same for the members of a collection. -/
def ShownList (ws : Str → Str) : List (Attr F) → Prop
  | [] => True
  | .mk k key e v m c :: as => ws key = key ∧ Shown ws (.mk k key e v m c) ∧ ShownList ws as
end

/-- The attributes of an event are stored under their own keys, and their keys survive the file. -/
structure KeysKept (ws : Str → Str) (m : AttrMap F) : Prop where
  own : OwnKeys m
  kept : ∀ p ∈ m, ws p.1 = p.1

/-- ... and what is stored under the keys `ks` prints something that survives the file. -/
structure PrintKept (ws : Str → Str) (ks : List Str) (m : AttrMap F) : Prop extends KeysKept ws m where
  shown : ∀ p ∈ m, p.1 ∈ ks → Shown ws p.2

/-- The dates of bounds, as points in time cut to milliseconds. -/
def cutInstants (b : TimeBounds) : Option Int × Option Int :=
  (b.first.map fun d => d.instant - (d.micro % 1000 : Nat), b.last.map fun d => d.instant - (d.micro % 1000 : Nat))

mutual
/-- Everything written of the attribute survives the file: keys, texts, and nested attributes under their own keys. -/
def AllKept (ws : Str → Str) : Attr F → Prop
  | .mk _ key _ v m _ => ws key = key ∧ ShownVal ws v ∧ OwnKeys m ∧ AllKeptMap ws m
/-- The same for a map. -/
def AllKeptMap (ws : Str → Str) : List (Str × Attr F) → Prop
  | [] => True
  | (_, a) :: as => AllKept ws a ∧ AllKeptMap ws as
end

/-- The same for all attributes of a log, its traces and its events. -/
structure LogKept (ws : Str → Str) (L : Log F) : Prop where
  attrs : OwnKeys L.attrs ∧ AllKeptMap ws L.attrs
  traces : ∀ t ∈ L.traces, (OwnKeys t.attrs ∧ AllKeptMap ws t.attrs) ∧ ∀ e ∈ t.events, OwnKeys e.attrs ∧ AllKeptMap ws e.attrs

/-- The statistics of a level say the same about numbers of attributes. -/
def SameCounts (i j : AttrInfo) : Prop := i.total = j.total ∧ ∀ k, i.frequency k = j.frequency k ∧ i.relative k = j.relative k

/-- Two summaries agree on everything but the prototypes of attributes (for these see `AttrInfo.loaded`). -/
structure SameInfo (i j : LogInfo) : Prop where
  events : i.nEvents = j.nEvents
  traces : i.nTraces = j.nTraces
  classes : i.classes = j.classes
  bounds : i.logBounds = j.logBounds ∧ i.traceBounds = j.traceBounds
  logAttrs : SameCounts i.logAttrs j.logAttrs
  traceAttrs : SameCounts i.traceAttrs j.traceAttrs
  eventAttrs : SameCounts i.eventAttrs j.eventAttrs
  metaAttrs : SameCounts i.metaAttrs j.metaAttrs

/-! ## One event -/

theorem normAttr_key (mgr : ExtMgr) (ws : Str → Str) : ∀ a : Attr F, (normAttr mgr ws a).key = ws a.key
  | .mk k key e v m c => by
    simp only [normAttr]
    split <;> rfl

/-- The loaded attributes of a map with its own keys. -/
theorem loadedMap (mgr : ExtMgr) {ws : Str → Str} {m : AttrMap F} (h : KeysKept ws m) :
    rekey (normVals mgr ws m) = m.map fun p => (p.1, normAttr mgr ws p.2) := by
  have e : normVals mgr ws m = (m.map fun p => (p.1, normAttr mgr ws p.2)).map Prod.snd := by
    rw [normVals_map, List.map_map]
    rfl
  rw [e]
  apply rekey_vals
  refine ⟨?_, ?_⟩
  · have : dkeys (m.map fun p => (p.1, normAttr mgr ws p.2)) = dkeys m := by
      simp [dkeys, List.map_map, Function.comp_def]
    rw [this]
    exact h.own.1
  · intro p hp
    obtain ⟨q, hq, rfl⟩ := List.mem_map.1 hp
    simp only [normAttr_key]
    rw [← h.own.2 q hq, h.kept q hq]

theorem loaded_dget (mgr : ExtMgr) {ws : Str → Str} {m : AttrMap F} (h : KeysKept ws m) (k : Str) :
    dget k (rekey (normVals mgr ws m)) = (dget k m).map (normAttr mgr ws) := by
  rw [loadedMap mgr h, dget_map]

theorem shownVal_str {d : DateTime} (h : d.tz ≠ none) : (toMillisAware d).xesStr = d.xesStr := by
  cases ht : d.tz with
  | none => exact absurd ht h
  | some o =>
    have : (d.micro - d.micro % 1000) / 1000 = d.micro / 1000 := by omega
    simp only [DateTime.xesStr, toMillisAware, ht, Option.getD_some, this]

mutual
theorem attrStr_loaded (mgr : ExtMgr) (ws : Str → Str) : ∀ a : Attr F, Typed a → Shown ws a → attrStr (normAttr mgr ws a) = attrStr a
  | .mk k key e v m c, ht, hs => by
    simp only [Typed] at ht
    simp only [Shown] at hs
    obtain ⟨g, ht⟩ := ht
    obtain ⟨sv, hs⟩ := hs
    cases k <;> cases v <;> simp only [GoodVal] at g <;>
      simp only [normAttr, Kind.isCollection, Bool.false_eq_true, if_false, if_true, attrStr, normVal, ShownVal, forall_const] at *
    all_goals first
      | rw [sv]
      | rw [shownVal_str sv]
      | rw [collStr_loaded mgr ws ['['] c ht hs]
theorem collStr_loaded (mgr : ExtMgr) (ws : Str → Str) (sep : Str) : ∀ as : List (Attr F), TypedList as → ShownList ws as →
    collStr sep (normList mgr ws as) = collStr sep as
  | [], _, _ => by simp only [normList]
  | .mk k key e v m c :: as, ht, hs => by
    simp only [TypedList] at ht
    simp only [ShownList] at hs
    have h1 := attrStr_loaded mgr ws (.mk k key e v m c) ht.1 hs.2.1
    have h2 := collStr_loaded mgr ws [','] as ht.2 hs.2.2
    have hk := normAttr_key mgr ws (.mk k key e v m c)
    simp only [normList]
    cases hn : normAttr mgr ws (.mk k key e v m c) with
    | mk k' key' e' v' m' c' =>
      rw [hn] at h1 hk
      simp only [Attr.key, hs.1] at hk
      subst hk
      simp only [collStr, h1, h2]
end

theorem typedMap_mem : ∀ {m : List (Str × Attr F)}, TypedMap m → ∀ p ∈ m, Typed p.2
  | [], _, _, h => by simp at h
  | (k, a) :: m, ht, p, h => by
    simp only [TypedMap] at ht
    rcases List.mem_cons.1 h with rfl | h
    · exact ht.1
    · exact typedMap_mem ht.2 p h

theorem printAttr_loaded (mgr : ExtMgr) {ws : Str → Str} {ks : List Str} {e e1 : Event F} (ht : TypedMap e.attrs)
    (hp : PrintKept ws ks e.attrs) (he : e1.attrs = rekey (normVals mgr ws e.attrs)) {k : Str} (hk : k ∈ ks) :
    printAttr e1 k = printAttr e k := by
  unfold printAttr
  rw [he, loaded_dget mgr hp.toKeysKept]
  cases hd : dget k e.attrs with
  | none => rfl
  | some a =>
    have hm := dget_mem hd
    simp only [Option.map_some]
    rw [attrStr_loaded mgr ws a (typedMap_mem ht _ hm) (hp.shown _ hm hk)]

theorem identityParts_congr {e e1 : Event F} : ∀ {ks : List Str}, (∀ k ∈ ks, printAttr e1 k = printAttr e k) →
    identityParts e1 ks = identityParts e ks
  | [], _ => rfl
  | k :: ks, h => by
    simp only [identityParts, h k (by simp), identityParts_congr (ks := ks) fun k hk => h k (by simp [hk])]

theorem classIdentity_congr {c : Classifier} {e e1 : Event F} (h : ∀ k ∈ c.keys, printAttr e1 k = printAttr e k) :
    classIdentity c e1 = classIdentity c e := by
  unfold classIdentity
  split
  · next k hk => rw [h k (by rw [hk]; simp)]
  · next k1 k2 hk => rw [h k1 (by rw [hk]; simp), h k2 (by rw [hk]; simp)]
  · rw [identityParts_congr h]

/-! ## The whole log -/

/-- What a file holds is the normal form. -/
theorem holds_norm (hf : FloatText F) {mgr : ExtMgr} {modern : Bool} {L : Log F} {c : Content F} (hL : WritableLog L)
    (h : FileHolds mgr modern L c) : LegalLog L ∧ c = norm mgr (valueBack modern) L.content := by
  have hl : LegalLog L := by
    apply Classical.byContradiction
    intro hn
    obtain ⟨text, ht, _⟩ := h
    rw [(c111_partial hf modern hL).2 hn] at ht
    cases ht
  exact ⟨hl, c110_unique h (c110_file hf mgr modern hL hl)⟩

/-- A function of events that depends only on the attributes and does not see the file, event by event. -/
theorem eventwise {mgr : ExtMgr} {ws : Str → Str} {L L1 : Log F} (hn : L1.content = norm mgr ws L.content) {β : Type}
    (f g : Event F → β) (hfg : ∀ t ∈ L.traces, ∀ e ∈ t.events, ∀ e1 : Event F, e1.attrs = rekey (normVals mgr ws e.attrs) → g e1 = f e) :
    L1.traces.map (fun t => t.events.map g) = L.traces.map fun t => t.events.map f := by
  have ht : L1.content.traces = (norm mgr ws L.content).traces := by rw [hn]
  simp only [Log.content, norm, List.map_map] at ht
  have key : ∀ (ts ts1 : List (Trace F)),
      ts1.map (fun t => (t.attrs, t.events.map Event.attrs)) =
        ts.map ((fun t => (rekey (normVals mgr ws t.1), t.2.map fun m => rekey (normVals mgr ws m))) ∘ fun t => (t.attrs, t.events.map Event.attrs)) →
      (∀ t ∈ ts, ∀ e ∈ t.events, ∀ e1 : Event F, e1.attrs = rekey (normVals mgr ws e.attrs) → g e1 = f e) →
      ts1.map (fun t => t.events.map g) = ts.map fun t => t.events.map f := by
    intro ts
    induction ts with
    | nil =>
      intro ts1 h _
      simp only [List.map_nil, List.map_eq_nil_iff] at h
      subst h
      rfl
    | cons t ts ih =>
      intro ts1 h hh
      cases ts1 with
      | nil => simp at h
      | cons t1 ts1 =>
        simp only [List.map_cons, List.cons.injEq, Function.comp_apply, Prod.mk.injEq, List.map_map] at h
        obtain ⟨⟨-, h1⟩, h2⟩ := h
        simp only [List.map_cons]
        rw [ih ts1 h2 fun t ht => hh t (by simp [ht])]
        congr 1
        have key2 : ∀ (es es1 : List (Event F)), es1.map Event.attrs = es.map ((fun m => rekey (normVals mgr ws m)) ∘ Event.attrs) →
            (∀ e ∈ es, ∀ e1 : Event F, e1.attrs = rekey (normVals mgr ws e.attrs) → g e1 = f e) → es1.map g = es.map f := by
          intro es
          induction es with
          | nil =>
            intro es1 h _
            simp only [List.map_nil, List.map_eq_nil_iff] at h
            subst h
            rfl
          | cons e es ih =>
            intro es1 h hh
            cases es1 with
            | nil => simp at h
            | cons e1 es1 =>
              simp only [List.map_cons, List.cons.injEq, Function.comp_apply] at h
              simp only [List.map_cons]
              rw [hh e (by simp) e1 h.1, ih es1 h.2 fun e he => hh e (by simp [he])]
        exact key2 _ _ h1 (hh t (by simp))
  exact key _ _ ht hfg

/-- The class map depends on the identities of the events only. -/
theorem registerEvents_by_identity {c : Classifier} : ∀ {es es1 : List (Event F)} (m : ClassMap),
    es1.map (classIdentity c) = es.map (classIdentity c) → registerEvents c m es1 = registerEvents c m es
  | [], es1, m, h => by
    simp only [List.map_nil, List.map_eq_nil_iff] at h
    subst h
    rfl
  | e :: es, [], m, h => by simp at h
  | e :: es, e1 :: es1, m, h => by
    simp only [List.map_cons, List.cons.injEq] at h
    have ih := fun m => registerEvents_by_identity (c := c) (es := es) (es1 := es1) m h.2
    simp only [registerEvents, registerEvent, h.1, ih]

theorem registerTraces_by_identity {c : Classifier} : ∀ {ts ts1 : List (Trace F)} (m : ClassMap),
    ts1.map (fun t => t.events.map (classIdentity c)) = ts.map (fun t => t.events.map (classIdentity c)) →
    registerTraces c m ts1 = registerTraces c m ts
  | [], ts1, m, h => by
    simp only [List.map_nil, List.map_eq_nil_iff] at h
    subst h
    rfl
  | t :: ts, [], m, h => by simp at h
  | t :: ts, t1 :: ts1, m, h => by
    simp only [List.map_cons, List.cons.injEq] at h
    have ih := fun m => registerTraces_by_identity (c := c) (ts := ts) (ts1 := ts1) m h.2
    simp only [registerTraces, registerEvents_by_identity m h.1, ih]

/-! ## C143: event classes -/

/-- C143: when the attributes under the keys of a classifier print something that survives the file, every event of the loaded log
has the class identity of the saved event ... -/
theorem c143_identities (hf : FloatText F) {mgr : ExtMgr} {modern : Bool} {L L1 : Log F} (hL : WritableLog L)
    (h : FileHolds mgr modern L L1.content) {c : Classifier}
    (hk : ∀ t ∈ L.traces, ∀ e ∈ t.events, PrintKept (valueBack modern) c.keys e.attrs) :
    L1.traces.map (fun t => t.events.map (classIdentity c)) = L.traces.map fun t => t.events.map (classIdentity c) := by
  apply eventwise (holds_norm hf hL h).2
  intro t ht e he e1 he1
  exact classIdentity_congr fun k hkk => printAttr_loaded mgr ((hL.traces t ht).2 e he) (hk t ht e he) he1 hkk

/-- ... and the loaded log has the event classes of the saved one: the same classes with the same sizes and indices, or the same
exception. -/
theorem c143_classes (hf : FloatText F) {mgr : ExtMgr} {modern : Bool} {L L1 : Log F} (hL : WritableLog L)
    (h : FileHolds mgr modern L L1.content) {c : Classifier}
    (hk : ∀ t ∈ L.traces, ∀ e ∈ t.events, PrintKept (valueBack modern) c.keys e.attrs) :
    deriveClasses c L1 = deriveClasses c L := by
  unfold deriveClasses
  rw [registerTraces_by_identity [] (c143_identities hf hL h hk)]

/-! ## C143: time bounds -/

/-- The date XTimeBounds.register takes from an event. -/
def dateOf (e : Event F) : Option DateTime :=
  match dget timeKey e.attrs with
  | some a => match a.val with
    | .dt d => some d
    | _ => none
  | none => none

/-- What is stored under `time:timestamp` is not a collection. -/
def NoListDate (e : Event F) : Prop := ∀ a, dget timeKey e.attrs = some a → a.kind.isCollection = false

theorem registerEvent_date {b b1 : TimeBounds} {e : Event F} : b.registerEvent e = .ok b1 ↔
    NoListDate e ∧ registerDates b (dateOf e).toList = .ok b1 := by
  unfold TimeBounds.registerEvent NoListDate dateOf
  cases hd : dget timeKey e.attrs with
  | none => simp [registerDates]
  | some a =>
    obtain ⟨k, key, ex, v, m, c⟩ := a
    simp only [getValue, Attr.kind, Attr.val, Option.some.injEq, forall_eq']
    by_cases hk : k.isCollection = true
    · simp [hk]
    · simp only [Bool.not_eq_true] at hk
      cases v <;> simp [registerDates, hk]
      rename_i d
      cases b.register d <;> simp [bind, Except.bind]

theorem registerDates_append {b b1 : TimeBounds} : ∀ {ds es : List DateTime},
    registerDates b (ds ++ es) = .ok b1 ↔ ∃ b2, registerDates b ds = .ok b2 ∧ registerDates b2 es = .ok b1 := by
  intro ds
  induction ds generalizing b with
  | nil => intro es; simp [registerDates]
  | cons d ds ih =>
    intro es
    simp only [List.cons_append, registerDates]
    cases b.register d with
    | error x => simp [bind, Except.bind]
    | ok b2 => simpa [bind, Except.bind] using ih

theorem boundsAfter_dates : ∀ {es : List (Event F)} {b b1 : TimeBounds}, boundsAfter b es = .ok b1 ↔
    (∀ e ∈ es, NoListDate e) ∧ registerDates b (es.filterMap dateOf) = .ok b1
  | [], b, b1 => by simp [boundsAfter, registerDates]
  | e :: es, b, b1 => by
    have hs : (e :: es).filterMap dateOf = (dateOf e).toList ++ es.filterMap dateOf := by
      cases h : dateOf e <;> simp [h]
    rw [hs, registerDates_append]
    simp only [boundsAfter]
    constructor
    · intro h
      obtain ⟨b2, h1, h2⟩ := bind_ok.1 h
      obtain ⟨h3, h4⟩ := registerEvent_date.1 h1
      obtain ⟨h5, h6⟩ := boundsAfter_dates.1 h2
      refine ⟨?_, b2, h4, h6⟩
      intro e' he'
      rcases List.mem_cons.1 he' with rfl | he'
      · exact h3
      · exact h5 e' he'
    · rintro ⟨h1, b2, h2, h3⟩
      exact bind_ok.2 ⟨b2, registerEvent_date.2 ⟨h1 e (by simp), h2⟩, boundsAfter_dates.2 ⟨fun e he => h1 e (by simp [he]), h3⟩⟩

/-- Dates can only be registered together when all are aware or all are naive. -/
theorem register_aware {aw : Bool} {b b1 : TimeBounds} {f : DateTime} (hf : b.first = some f) (ha : f.tz.isSome = aw) {d : DateTime}
    (h : b.register d = .ok b1) : d.tz.isSome = aw ∧ ∃ f1, b1.first = some f1 ∧ f1.tz.isSome = aw := by
  simp only [TimeBounds.register, hf] at h
  by_cases hd : d.tz.isSome = f.tz.isSome
  · refine ⟨hd.trans ha, ?_⟩
    rw [dt_lt hd] at h
    by_cases hlt : d.instant < f.instant
    · simp only [hlt, decide_true, Except.ok.injEq] at h
      subst h
      exact ⟨d, rfl, hd.trans ha⟩
    · simp only [hlt, decide_false] at h
      cases hl : b.last with
      | none => simp [hl] at h
      | some l =>
        simp only [hl] at h
        cases hh : l.lt d with
        | error x => simp [hh] at h
        | ok r =>
          cases r <;> simp only [hh, Except.ok.injEq] at h <;> subst h <;> exact ⟨f, by simp [hf], ha⟩
  · simp [DateTime.lt, hd] at h

theorem registerDates_aware {aw : Bool} : ∀ {ds : List DateTime} {b b1 : TimeBounds} {f : DateTime}, b.first = some f → f.tz.isSome = aw →
    registerDates b ds = .ok b1 → OneAwareness aw ds
  | [], _, _, _, _, _, _ => by intro d hd; simp at hd
  | d :: ds, b, b1, f, hf, ha, h => by
    obtain ⟨b2, h1, h2⟩ := bind_ok.1 h
    obtain ⟨h3, f1, h4, h5⟩ := register_aware hf ha h1
    intro x hx
    rcases List.mem_cons.1 hx with rfl | hx
    · exact h3
    · exact registerDates_aware h4 h5 h2 x hx

theorem registerDates_ok {ds : List DateTime} {b : TimeBounds} (h : registerDates TimeBounds.empty ds = .ok b) :
    ∃ aw, OneAwareness aw ds := by
  cases ds with
  | nil => exact ⟨true, by intro d hd; simp at hd⟩
  | cons d ds =>
    obtain ⟨b2, h1, h2⟩ := bind_ok.1 h
    simp only [TimeBounds.register, TimeBounds.empty, Except.ok.injEq] at h1
    subst h1
    refine ⟨d.tz.isSome, ?_⟩
    intro x hx
    rcases List.mem_cons.1 hx with rfl | hx
    · rfl
    · exact registerDates_aware rfl rfl h2 x hx

theorem cut_instant (d : DateTime) : (toMillisAware d).instant = d.instant - (d.micro % 1000 : Nat) := by
  have : d.micro % 1000 ≤ d.micro := Nat.mod_le _ _
  simp only [toMillisAware, DateTime.instant, DateTime.ordinal]
  cases d.tz <;> simp <;> omega

theorem cut_mono {d e : DateTime} (h : d.instant ≤ e.instant) : (toMillisAware d).instant ≤ (toMillisAware e).instant := by
  rw [cut_instant, cut_instant]
  simp only [DateTime.instant] at *
  omega

/-- Bounds of dates cut to milliseconds. -/
theorem bounds_cut {ds : List DateTime} {b b1 : TimeBounds} (h : BoundsOf b ds) (h1 : BoundsOf b1 (ds.map toMillisAware)) :
    instants b1 = cutInstants b := by
  rcases h with ⟨rfl, hf, hl⟩ | ⟨f, l, hf, hl, f1, l1, hmin, hmax⟩
  · rcases h1 with ⟨_, hf1, hl1⟩ | ⟨f', l', _, _, hm, _⟩
    · simp [instants, cutInstants, hf, hl, hf1, hl1]
    · simp at hm
  · rcases h1 with ⟨he, _, _⟩ | ⟨f', l', hf', hl', mf', ml', hmin', hmax'⟩
    · simp only [List.map_eq_nil_iff] at he
      subst he
      simp at f1
    · obtain ⟨x, hx, rfl⟩ := List.mem_map.1 mf'
      obtain ⟨y, hy, rfl⟩ := List.mem_map.1 ml'
      have a1 := cut_mono (hmin x hx)
      have a2 := hmin' _ (List.mem_map_of_mem f1)
      have a3 := cut_mono (hmax y hy)
      have a4 := hmax' _ (List.mem_map_of_mem l1)
      have c1 := cut_instant f
      have c2 := cut_instant l
      simp only [instants, cutInstants, hf, hl, hf', hl', Option.map_some, Prod.mk.injEq, Option.some.injEq]
      constructor <;> omega

theorem dateOf_loaded (mgr : ExtMgr) {ws : Str → Str} {e e1 : Event F} (hp : KeysKept ws e.attrs)
    (he : e1.attrs = rekey (normVals mgr ws e.attrs)) :
    dateOf e1 = (dateOf e).map toMillisAware ∧ (NoListDate e1 ↔ NoListDate e) := by
  unfold dateOf NoListDate
  rw [he, loaded_dget mgr hp]
  cases hd : dget timeKey e.attrs with
  | none => simp
  | some a =>
    obtain ⟨k, key, ex, v, m, c⟩ := a
    cases v <;> cases hk : k.isCollection <;> simp [normAttr, normVal, Attr.val, Attr.kind, hk]

/-- C143: when the dates of a trace have bounds, those of the loaded trace have the same bounds, cut to milliseconds. -/
theorem c143_bounds (hf : FloatText F) {mgr : ExtMgr} {modern : Bool} {L L1 : Log F} (hL : WritableLog L)
    (h : FileHolds mgr modern L L1.content)
    (hk : ∀ t ∈ L.traces, ∀ e ∈ t.events, KeysKept (valueBack modern) e.attrs)
    {i : Nat} {t t1 : Trace F} (ht : L.traces[i]? = some t) (ht1 : L1.traces[i]? = some t1) {b : TimeBounds}
    (hb : boundsAfter TimeBounds.empty t.events = .ok b) :
    ∃ b1, boundsAfter TimeBounds.empty t1.events = .ok b1 ∧ instants b1 = cutInstants b := by
  have hn := (holds_norm hf hL h).2
  have e1 := eventwise hn (fun e => (dateOf e).map toMillisAware) dateOf
    fun t ht e he e1 he1 => (dateOf_loaded mgr (hk t ht e he) he1).1
  have e2 := eventwise hn NoListDate NoListDate
    fun t ht e he e1 he1 => propext (dateOf_loaded mgr (hk t ht e he) he1).2
  obtain ⟨n, hd⟩ := boundsAfter_dates.1 hb
  have e3 := congrArg (fun l => l[i]?) e1
  simp only [List.getElem?_map, ht, ht1, Option.map_some, Option.some.injEq] at e3
  have hds : t1.events.filterMap dateOf = (t.events.filterMap dateOf).map toMillisAware := by
    have : ∀ es : List (Event F), es.filterMap dateOf = (es.map dateOf).filterMap id := by
      intro es; rw [List.filterMap_map]; rfl
    rw [this, e3, List.filterMap_map, List.map_filterMap]
    rfl
  obtain ⟨aw, ha⟩ := registerDates_ok hd
  obtain ⟨b', hb', hB⟩ := c24_bounds _ ha
  rw [hd] at hb'
  cases hb'
  obtain ⟨b1, hb1, hB1⟩ := c24_bounds (aw := true) ((t.events.filterMap dateOf).map toMillisAware) (by
    intro d hd
    obtain ⟨x, _, rfl⟩ := List.mem_map.1 hd
    rfl)
  refine ⟨b1, boundsAfter_dates.2 ⟨?_, by rw [hds]; exact hb1⟩, bounds_cut hB hB1⟩
  have e4 := congrArg (fun l => l[i]?) e2
  simp only [List.getElem?_map, ht, ht1, Option.map_some, Option.some.injEq] at e4
  intro e he
  have : NoListDate e ∈ t.events.map NoListDate := e4 ▸ List.mem_map_of_mem he
  obtain ⟨e', he', h'⟩ := List.mem_map.1 this
  exact h' ▸ n e' he'

/-! ## C143: the summary -/

theorem allKeptMap_mem {ws : Str → Str} : ∀ {m : List (Str × Attr F)}, AllKeptMap ws m → ∀ p ∈ m, AllKept ws p.2
  | [], _, _, h => by simp at h
  | (k, a) :: m, hk, p, h => by
    simp only [AllKeptMap] at hk
    rcases List.mem_cons.1 h with rfl | h
    · exact hk.1
    · exact allKeptMap_mem hk.2 p h

theorem allKept_key {ws : Str → Str} : ∀ {a : Attr F}, AllKept ws a → ws a.key = a.key
  | .mk .., h => by
    simp only [AllKept] at h
    exact h.1

theorem allKept_keys {ws : Str → Str} {m : AttrMap F} (h : OwnKeys m ∧ AllKeptMap ws m) : KeysKept ws m where
  own := h.1
  kept p hp := by
    rw [h.1.2 p hp]
    exact allKept_key (allKeptMap_mem h.2 p hp)

theorem allKept_shown {ws : Str → Str} : ∀ {a : Attr F}, AllKept ws a → SimpleKind a → Shown ws a
  | .mk k key e v m c, h, hs => by
    simp only [AllKept] at h
    simp only [Shown]
    refine ⟨h.2.1, ?_⟩
    rcases hs with hs | hs | hs | hs | hs <;> simp only [Attr.kind] at hs <;> subst hs <;> simp [Kind.isCollection]

theorem simple_flat {a : Attr F} (h : SimpleKind a) : a.kind.isCollection = false := by
  rcases h with h | h | h | h | h <;> rw [h] <;> rfl

theorem preorder_cons (k : Str) (a : Attr F) (r : List (Str × Attr F)) : preorder ((k, a) :: r) = a :: (nestedIn a ++ preorder r) := by
  cases a
  simp only [preorder]

theorem normAttr_kind (mgr : ExtMgr) (ws : Str → Str) : ∀ a : Attr F, (normAttr mgr ws a).kind = a.kind
  | .mk k key e v m c => by
    simp only [normAttr]
    split <;> rfl

theorem normAttr_val (mgr : ExtMgr) (ws : Str → Str) : ∀ a : Attr F, (normAttr mgr ws a).val = normVal ws a.val
  | .mk k key e v m c => by
    simp only [normAttr]
    split <;> rfl

theorem typedVal_of {a : Attr F} (h : Typed a) : TypedVal a ∧ ∀ (mgr : ExtMgr) (ws : Str → Str), TypedVal (normAttr mgr ws a) := by
  have key : ∀ {k : Kind} {v : PyVal F} {b : Attr F}, b.kind = k → b.val = v → GoodVal k v → TypedVal b := by
    intro k v b hk hv hg
    unfold TypedVal
    rw [hk, hv]
    cases k <;> cases v <;> simp_all [GoodVal]
  obtain ⟨k, key', e, v, m, c⟩ := a
  simp only [Typed] at h
  exact ⟨key rfl rfl h.1, fun mgr ws => key (normAttr_kind mgr ws _) (normAttr_val mgr ws _) (goodVal_norm h.1)⟩

mutual
/-- The nested attributes of a loaded attribute. -/
theorem nestedIn_loaded (mgr : ExtMgr) (ws : Str → Str) : ∀ a : Attr F, AllKept ws a → SimpleKind a → (∀ x ∈ nestedIn a, SimpleKind x) →
    nestedIn (normAttr mgr ws a) = (nestedIn a).map (normAttr mgr ws)
  | .mk k key e v m c, hk, hs, hn => by
    have hc := simple_flat hs
    simp only [Attr.kind] at hc
    simp only [AllKept] at hk
    simp only [normAttr, hc, Bool.false_eq_true, if_false, nestedIn] at hn ⊢
    rw [loadedMap mgr (allKept_keys hk.2.2)]
    exact preorder_loaded mgr ws m hk.2.2.2 hn
/-- ... and of a map. -/
theorem preorder_loaded (mgr : ExtMgr) (ws : Str → Str) : ∀ m : List (Str × Attr F), AllKeptMap ws m → (∀ x ∈ preorder m, SimpleKind x) →
    preorder (m.map fun p => (p.1, normAttr mgr ws p.2)) = (preorder m).map (normAttr mgr ws)
  | [], _, _ => by simp only [List.map_nil, preorder]
  | (k, a) :: r, hk, hn => by
    simp only [AllKeptMap] at hk
    rw [preorder_cons] at hn ⊢
    have h1 := nestedIn_loaded mgr ws a hk.1 (hn a (by simp)) fun x hx => hn x (by simp [hx])
    have h2 := preorder_loaded mgr ws r hk.2 fun x hx => hn x (by simp [hx])
    simp only [List.map_cons]
    rw [preorder_cons, h1, h2, List.map_append]
end

mutual
theorem typed_nested : ∀ a : Attr F, Typed a → SimpleKind a → (∀ x ∈ nestedIn a, SimpleKind x) → ∀ x ∈ nestedIn a, Typed x
  | .mk k key e v m c, ht, hs, hn => by
    have hc := simple_flat hs
    simp only [Attr.kind] at hc
    simp only [Typed, hc, Bool.false_eq_true, if_false] at ht
    simp only [nestedIn] at hn ⊢
    exact typed_preorder m ht.2 hn
theorem typed_preorder : ∀ m : List (Str × Attr F), TypedMap m → (∀ x ∈ preorder m, SimpleKind x) → ∀ x ∈ preorder m, Typed x
  | [], _, _ => by simp only [preorder]; intro x hx; simp at hx
  | (k, a) :: r, ht, hn => by
    simp only [TypedMap] at ht
    rw [preorder_cons] at hn ⊢
    have h1 := typed_nested a ht.1 (hn a (by simp)) fun x hx => hn x (by simp [hx])
    have h2 := typed_preorder r ht.2 fun x hx => hn x (by simp [hx])
    intro x hx
    rcases List.mem_cons.1 hx with rfl | hx
    · exact ht.1
    · rcases List.mem_append.1 hx with hx | hx
      · exact h1 x hx
      · exact h2 x hx
end

/-- The attributes of a map and those nested in them. -/
theorem level_typed {m : AttrMap F} (ht : TypedMap m) (hs : ∀ x ∈ dvals m ++ nestedOf m, SimpleKind x) :
    ∀ x ∈ dvals m ++ nestedOf m, Typed x := by
  intro x hx
  rcases List.mem_append.1 hx with hx | hx
  · obtain ⟨p, hp, rfl⟩ := List.mem_map.1 hx
    exact typedMap_mem ht p hp
  · obtain ⟨a, ha, hxa⟩ := List.mem_flatMap.1 hx
    obtain ⟨p, hp, rfl⟩ := List.mem_map.1 ha
    exact typed_nested _ (typedMap_mem ht p hp) (hs _ (by simp [ha])) (fun y hy => hs y (by
      simp only [List.mem_append]
      exact .inr (List.mem_flatMap.2 ⟨p.2, ha, hy⟩))) x hxa

theorem level_loaded (mgr : ExtMgr) {ws : Str → Str} {m : AttrMap F} (h : OwnKeys m ∧ AllKeptMap ws m)
    (hs : ∀ x ∈ dvals m ++ nestedOf m, SimpleKind x) :
    dvals (rekey (normVals mgr ws m)) = (dvals m).map (normAttr mgr ws) ∧
    nestedOf (rekey (normVals mgr ws m)) = (nestedOf m).map (normAttr mgr ws) := by
  rw [loadedMap mgr (allKept_keys h)]
  have e : dvals (m.map fun p => (p.1, normAttr mgr ws p.2)) = (dvals m).map (normAttr mgr ws) := by
    simp [dvals, List.map_map, Function.comp_def]
  refine ⟨e, ?_⟩
  unfold nestedOf
  rw [e, List.flatMap_map, List.map_flatMap]
  have : ∀ as : List (Attr F), (∀ a ∈ as, a ∈ dvals m) →
      as.flatMap (fun a => nestedIn (normAttr mgr ws a)) = as.flatMap fun a => (nestedIn a).map (normAttr mgr ws) := by
    intro as
    induction as with
    | nil => intro _; rfl
    | cons a as ih =>
      intro ha
      have hm := ha a (by simp)
      obtain ⟨p, hp, hpa⟩ := List.mem_map.1 hm
      subst hpa
      simp only [List.flatMap_cons, ih fun a h => ha a (by simp [h])]
      rw [nestedIn_loaded mgr ws p.2 (allKeptMap_mem h.2 p hp) (hs _ (by simp [hm])) fun x hx => hs x (by
        simp only [List.mem_append]
        exact .inr (List.mem_flatMap.2 ⟨p.2, hm, hx⟩))]
  exact this _ fun a h => h

theorem sameCounts_of {i j : AttrInfo} {as : List (Attr F)} {mgr : ExtMgr} {ws : Str → Str} (hk : ∀ a ∈ as, ws a.key = a.key)
    (h1 : Counts i (as.map (normAttr mgr ws))) (h2 : Counts j as) : SameCounts i j := by
  have hkey : ∀ k, keyCount k (as.map (normAttr mgr ws)) = keyCount k as := by
    intro k
    unfold keyCount
    rw [List.map_map]
    congr 1
    apply List.map_congr_left
    intro a ha
    simp only [Function.comp_apply, normAttr_key, hk a ha]
  have hfr : ∀ k, i.frequency k = j.frequency k := fun k => by rw [h1.2, h2.2, hkey]
  have ht : i.total = j.total := by rw [h1.1, h2.1, List.length_map]
  refine ⟨ht, fun k => ⟨hfr k, ?_⟩⟩
  have := hfr k
  simp only [AttrInfo.frequency] at this
  simp only [AttrInfo.relative, this, ht]

theorem classesAfter_by_identity {es es1 : List (Event F)} : ∀ {cs : List (Classifier × ClassMap)},
    (∀ p ∈ cs, es1.map (classIdentity p.1) = es.map (classIdentity p.1)) → classesAfter es1 cs = classesAfter es cs
  | [], _ => rfl
  | (c, m) :: cs, h => by
    have ih := classesAfter_by_identity (cs := cs) fun p hp => h p (by simp [hp])
    simp only [classesAfter, registerEvents_by_identity m (h (c, m) (by simp)), ih]

/-- The levels of a log in terms of its content. -/
theorem levels_content (L : Log F) :
    logLevel L = dvals L.content.attrs ∧ traceLevel L = L.content.traces.flatMap (fun t => dvals t.1) ∧
    eventLevel L = L.content.traces.flatMap (fun t => t.2.flatMap dvals) ∧
    metaLevel L = nestedOf L.content.attrs ++ L.content.traces.flatMap (fun t => nestedOf t.1 ++ t.2.flatMap nestedOf) := by
  refine ⟨rfl, ?_, ?_, ?_⟩
  · simp [traceLevel, Log.content, List.flatMap_map]
  · simp only [eventLevel, allEvents, ← List.flatMap_def, List.flatMap_assoc, Log.content, List.flatMap_map]
  · simp [metaLevel, Log.content, List.flatMap_map]

theorem flatMap_congr_mem {α β : Type} {f g : α → List β} : ∀ {l : List α}, (∀ a ∈ l, f a = g a) → l.flatMap f = l.flatMap g
  | [], _ => rfl
  | a :: l, h => by
    simp only [List.flatMap_cons, h a (by simp), flatMap_congr_mem (l := l) fun a ha => h a (by simp [ha])]

/-- The levels of the loaded log. -/
theorem levels_loaded {mgr : ExtMgr} {ws : Str → Str} {L L1 : Log F} (hn : L1.content = norm mgr ws L.content) (hk : LogKept ws L)
    (hs : ∀ a ∈ everyAttr L, SimpleKind a) :
    logLevel L1 = (logLevel L).map (normAttr mgr ws) ∧ traceLevel L1 = (traceLevel L).map (normAttr mgr ws) ∧
    eventLevel L1 = (eventLevel L).map (normAttr mgr ws) ∧ metaLevel L1 = (metaLevel L).map (normAttr mgr ws) := by
  have s1 : ∀ x ∈ dvals L.attrs ++ nestedOf L.attrs, SimpleKind x := by
    intro x hx
    apply hs
    simp only [everyAttr, logLevel, metaLevel, List.mem_append] at hx ⊢
    rcases hx with hx | hx
    · exact .inl (.inl (.inl hx))
    · exact .inr (.inl hx)
  have s2 : ∀ t ∈ L.traces, ∀ x ∈ dvals t.attrs ++ nestedOf t.attrs, SimpleKind x := by
    intro t ht x hx
    apply hs
    simp only [everyAttr, traceLevel, metaLevel, List.mem_append, List.mem_flatMap] at hx ⊢
    rcases hx with hx | hx
    · exact .inl (.inl (.inr ⟨t, ht, hx⟩))
    · exact .inr (.inr ⟨t, ht, .inl hx⟩)
  have s3 : ∀ t ∈ L.traces, ∀ e ∈ t.events, ∀ x ∈ dvals e.attrs ++ nestedOf e.attrs, SimpleKind x := by
    intro t ht e he x hx
    apply hs
    have he' := allEvents_mem ht he
    simp only [everyAttr, eventLevel, metaLevel, List.mem_append, List.mem_flatMap] at hx ⊢
    rcases hx with hx | hx
    · exact .inl (.inr ⟨e, he', hx⟩)
    · exact .inr (.inr ⟨t, ht, .inr ⟨e, he, hx⟩⟩)
  have l1 := level_loaded mgr hk.attrs s1
  have l2 := fun t ht => level_loaded mgr (hk.traces t ht).1 (s2 t ht)
  have l3 := fun t ht e he => level_loaded mgr ((hk.traces t ht).2 e he) (s3 t ht e he)
  obtain ⟨c1, c2, c3, c4⟩ := levels_content L1
  rw [hn] at c1 c2 c3 c4
  simp only [norm, Log.content, List.map_map, List.flatMap_map, Function.comp_def] at c1 c2 c3 c4
  refine ⟨?_, ?_, ?_, ?_⟩
  · rw [c1, l1.1]; rfl
  · rw [c2, traceLevel, List.map_flatMap]
    exact flatMap_congr_mem fun t ht => (l2 t ht).1
  · rw [c3, (levels_content L).2.2.1, Log.content]
    simp only [List.flatMap_map, List.map_flatMap]
    exact flatMap_congr_mem fun t ht => flatMap_congr_mem fun e he => (l3 t ht e he).1
  · rw [c4, metaLevel, List.map_append, l1.2, List.map_flatMap]
    congr 1
    refine flatMap_congr_mem fun t ht => ?_
    rw [List.map_append, (l2 t ht).2, List.map_flatMap]
    congr 1
    exact flatMap_congr_mem fun e he => (l3 t ht e he).2

theorem typedLog_of {L : Log F} (hL : WritableLog L) (hs : ∀ a ∈ everyAttr L, SimpleKind a) : ∀ a ∈ everyAttr L, Typed a := by
  have s1 := level_typed hL.attrs fun x hx => hs x (by
    simp only [everyAttr, logLevel, metaLevel, List.mem_append] at hx ⊢
    rcases hx with hx | hx
    · exact .inl (.inl (.inl hx))
    · exact .inr (.inl hx))
  have s2 := fun t ht => level_typed (hL.traces t ht).1 fun x hx => hs x (by
    simp only [everyAttr, traceLevel, metaLevel, List.mem_append, List.mem_flatMap] at hx ⊢
    rcases hx with hx | hx
    · exact .inl (.inl (.inr ⟨t, ht, hx⟩))
    · exact .inr (.inr ⟨t, ht, .inl hx⟩))
  have s3 := fun t ht e he => level_typed ((hL.traces t ht).2 e he) fun x hx => hs x (by
    have he' := allEvents_mem ht he
    simp only [everyAttr, eventLevel, metaLevel, List.mem_append, List.mem_flatMap] at hx ⊢
    rcases hx with hx | hx
    · exact .inl (.inr ⟨e, he', hx⟩)
    · exact .inr (.inr ⟨t, ht, .inr ⟨e, he, hx⟩⟩))
  intro a ha
  simp only [everyAttr, List.mem_append] at ha
  rcases ha with ((ha | ha) | ha) | ha
  · exact s1 a (by simp only [List.mem_append]; exact .inl ha)
  · obtain ⟨t, ht, ha⟩ := List.mem_flatMap.1 ha
    exact s2 t ht a (by simp only [List.mem_append]; exact .inl ha)
  · obtain ⟨e, he, ha⟩ := List.mem_flatMap.1 ha
    obtain ⟨es, hes, he⟩ := List.mem_flatten.1 he
    obtain ⟨t, ht, rfl⟩ := List.mem_map.1 hes
    exact s3 t ht e he a (by simp only [List.mem_append]; exact .inl ha)
  · simp only [metaLevel, List.mem_append, List.mem_flatMap] at ha
    rcases ha with ha | ⟨t, ht, ha | ⟨e, he, ha⟩⟩
    · exact s1 a (by simp only [List.mem_append]; exact .inr ha)
    · exact s2 t ht a (by simp only [List.mem_append]; exact .inr ha)
    · exact s3 t ht e he a (by simp only [List.mem_append]; exact .inr ha)

theorem logKept_nested {ws : Str → Str} {L : Log F} (hk : LogKept ws L) : ∀ a ∈ everyAttr L, ws a.key = a.key := by
  have nest : ∀ n, (∀ a : Attr F, sizeOf a < n → AllKept ws a → ∀ x ∈ nestedIn a, ws x.key = x.key) ∧
      (∀ m : List (Str × Attr F), sizeOf m < n → AllKeptMap ws m → ∀ x ∈ preorder m, ws x.key = x.key) := by
    intro n
    induction n with
    | zero => exact ⟨fun _ h => by omega, fun _ h => by omega⟩
    | succ n ih =>
      refine ⟨?_, ?_⟩
      · intro a ha hk
        cases a with
        | mk k key e v m c =>
          simp only [AllKept] at hk
          simp only [nestedIn]
          exact ih.2 m (by simp at ha; omega) hk.2.2.2
      · intro m hm hk
        cases m with
        | nil => intro x hx; simp [preorder] at hx
        | cons p r =>
          obtain ⟨k, a⟩ := p
          simp only [AllKeptMap] at hk
          rw [preorder_cons]
          intro x hx
          have h1 : sizeOf a < n := by simp at hm; omega
          have h2 : sizeOf r < n := by simp at hm; omega
          rcases List.mem_cons.1 hx with rfl | hx
          · exact allKept_key hk.1
          · rcases List.mem_append.1 hx with hx | hx
            · exact ih.1 a h1 hk.1 x hx
            · exact ih.2 r h2 hk.2 x hx
  have top : ∀ {m : AttrMap F}, AllKeptMap ws m → ∀ x ∈ dvals m ++ nestedOf m, ws x.key = x.key := by
    intro m hm x hx
    rcases List.mem_append.1 hx with hx | hx
    · obtain ⟨p, hp, rfl⟩ := List.mem_map.1 hx
      exact allKept_key (allKeptMap_mem hm p hp)
    · obtain ⟨a, ha, hx⟩ := List.mem_flatMap.1 hx
      obtain ⟨p, hp, rfl⟩ := List.mem_map.1 ha
      exact (nest _).1 p.2 (Nat.lt_succ_self _) (allKeptMap_mem hm p hp) x hx
  intro a ha
  simp only [everyAttr, List.mem_append] at ha
  rcases ha with ((ha | ha) | ha) | ha
  · exact top hk.attrs.2 a (by simp only [List.mem_append]; exact .inl ha)
  · obtain ⟨t, ht, ha⟩ := List.mem_flatMap.1 ha
    exact top (hk.traces t ht).1.2 a (by simp only [List.mem_append]; exact .inl ha)
  · obtain ⟨e, he, ha⟩ := List.mem_flatMap.1 ha
    obtain ⟨es, hes, he⟩ := List.mem_flatten.1 he
    obtain ⟨t, ht, rfl⟩ := List.mem_map.1 hes
    exact top ((hk.traces t ht).2 e he).2 a (by simp only [List.mem_append]; exact .inl ha)
  · simp only [metaLevel, List.mem_append, List.mem_flatMap] at ha
    rcases ha with ha | ⟨t, ht, ha | ⟨e, he, ha⟩⟩
    · exact top hk.attrs.2 a (by simp only [List.mem_append]; exact .inr ha)
    · exact top (hk.traces t ht).1.2 a (by simp only [List.mem_append]; exact .inr ha)
    · exact top ((hk.traces t ht).2 e he).2 a (by simp only [List.mem_append]; exact .inr ha)

/-- C143: a log of which a summary can be built (C29: without timestamps, lists and containers) and whose texts survive the file has
the same summary after loading: the same numbers, the same event classes for every classifier, the same frequencies. -/
theorem c143_info (hf : FloatText F) {mgr : ExtMgr} {modern : Bool} {L L1 : Log F} (hL : WritableLog L)
    (h : FileHolds mgr modern L L1.content) (hk : LogKept (valueBack modern) L) (hs : ∀ a ∈ everyAttr L, SimpleKind a)
    (d : Option Classifier) (cs : List Classifier) :
    ∃ i i1, createInfo L d cs = .ok i ∧ createInfo L1 d cs = .ok i1 ∧ SameInfo i1 i := by
  have hn := (holds_norm hf hL h).2
  have ht := typedLog_of hL hs
  obtain ⟨e1, e2, e3, e4⟩ := levels_loaded hn hk hs
  have he : everyAttr L1 = (everyAttr L).map (normAttr mgr (valueBack modern)) := by
    simp only [everyAttr, e1, e2, e3, e4, List.map_append]
  have hs1 : ∀ a ∈ everyAttr L1, SimpleKind a := by
    intro a ha
    rw [he] at ha
    obtain ⟨x, hx, rfl⟩ := List.mem_map.1 ha
    have := hs x hx
    unfold SimpleKind at *
    rwa [normAttr_kind]
  have ht1 : TypedLog L1 := by
    intro a ha
    rw [he] at ha
    obtain ⟨x, hx, rfl⟩ := List.mem_map.1 ha
    exact (typedVal_of (ht x hx)).2 _ _
  obtain ⟨i, hi⟩ := c29_sufficient (fun a ha => (typedVal_of (ht a ha)).1) hs d cs
  obtain ⟨i1, hi1⟩ := c29_sufficient ht1 hs1 d cs
  refine ⟨i, i1, hi, hi1, ?_⟩
  obtain ⟨n1, n2, n3, n4, n5, n6⟩ := c28_counts hi
  obtain ⟨m1, m2, m3, m4, m5, m6⟩ := c28_counts hi1
  rw [e1] at m3
  rw [e2] at m4
  rw [e3] at m5
  rw [e4] at m6
  have hkk := logKept_nested hk
  have k1 : ∀ a ∈ logLevel L, valueBack modern a.key = a.key := fun a ha => hkk a (by simp [everyAttr, ha])
  have k2 : ∀ a ∈ traceLevel L, valueBack modern a.key = a.key := fun a ha => hkk a (by simp [everyAttr, ha])
  have k3 : ∀ a ∈ eventLevel L, valueBack modern a.key = a.key := fun a ha => hkk a (by simp [everyAttr, ha])
  have k4 : ∀ a ∈ metaLevel L, valueBack modern a.key = a.key := fun a ha => hkk a (by simp [everyAttr, ha])
  have lens := eventwise hn (fun _ => ()) (fun _ => ()) fun _ _ _ _ _ _ => rfl
  have hlen : L1.traces.length = L.traces.length := by
    have := congrArg List.length lens
    simpa using this
  have hcls : ∀ c : Classifier, (allEvents L1).map (classIdentity c) = (allEvents L).map (classIdentity c) := by
    intro c
    have := c143_identities hf hL h (c := c) fun t ht' e he' =>
      { allKept_keys ((hk.traces t ht').2 e he') with
        shown := fun p hp _ => allKept_shown (allKeptMap_mem ((hk.traces t ht').2 e he').2 p hp)
          (hs _ (by
            have := eventLevel_mem (allEvents_mem ht' he') (List.mem_map_of_mem (f := Prod.snd) hp)
            simp [everyAttr, this])) }
    have := congrArg List.flatten this
    simpa [allEvents, List.map_flatten, List.map_map, Function.comp_def] using this
  obtain ⟨la, ta, ea, ma, cls, lb, tbs, -, -, -, -, q5, q6, q7⟩ := createInfo_ok.1 hi
  obtain ⟨la1, ta1, ea1, ma1, cls1, lb1, tbs1, -, -, -, -, r5, r6, r7⟩ := createInfo_ok.1 hi1
  rw [classesAfter_by_identity fun p _ => hcls p.1, q5] at r5
  cases r5
  have bd : ∀ {M : Log F}, TypedLog M → (∀ a ∈ everyAttr M, SimpleKind a) →
      ∀ t ∈ M.traces, ∀ e ∈ t.events, ∀ a ∈ dvals e.attrs, SimpleKind a ∧ TypedVal a := by
    intro M hT hS t ht' e he' a ha
    have := eventLevel_mem (allEvents_mem ht' he') ha
    exact ⟨hS a (by simp [everyAttr, this]), hT a (by simp [everyAttr, this])⟩
  rw [allBounds_simple (bd (fun a ha => (typedVal_of (ht a ha)).1) hs)] at q6
  rw [allBounds_simple (bd ht1 hs1), hlen] at r6
  cases q6
  cases r6
  refine ⟨?_, by rw [m1, n1, hlen], by rw [r7, q7], by rw [r7, q7]; exact ⟨rfl, rfl⟩, sameCounts_of k1 m3 n3, sameCounts_of k2 m4 n4,
    sameCounts_of k3 m5 n5, sameCounts_of k4 m6 n6⟩
  rw [m2, n2]
  have := congrArg (List.map List.length) lens
  simp only [List.map_map, Function.comp_def, List.length_map] at this
  rw [this]

/-- The statistics of a level as they are found in the log that was loaded: everything is the same, but the prototype of each key has
the extension that belongs to the key (get_attributes, get_attribute_keys, get_attributes_for_type, ...). -/
def AttrInfo.loaded (mgr : ExtMgr) (i : AttrInfo) : AttrInfo :=
  { i with keyMap := i.keyMap.map fun p => (p.1, { p.2 with ext := extFor mgr p.1 }) }

theorem dget_mapped {K V : Type} [DecidableEq K] (f : K → V → V) (k : K) : ∀ m : List (K × V),
    dget k (m.map fun p => (p.1, f p.1 p.2)) = (dget k m).map (f k)
  | [] => rfl
  | (k', v) :: m => by
    simp only [List.map_cons, dget]
    split
    · rename_i h; subst h; rfl
    · exact dget_mapped f k m

theorem dset_mapped {K V : Type} [DecidableEq K] (f : K → V → V) (k : K) (v : V) : ∀ m : List (K × V),
    dset k (f k v) (m.map fun p => (p.1, f p.1 p.2)) = (dset k v m).map fun p => (p.1, f p.1 p.2)
  | [] => rfl
  | (k', w) :: m => by
    simp only [List.map_cons, dset]
    split
    · rename_i h; subst h; rfl
    · rw [dset_mapped f k v m]; rfl

theorem deriveProto_simple {a : Attr F} (hs : SimpleKind a) (ht : TypedVal a) : deriveProto a = .ok ⟨a.kind, a.key, a.ext⟩ := by
  unfold TypedVal at ht
  unfold deriveProto
  rcases hs with h | h | h | h | h <;> simp only [h] at ht ⊢
  all_goals (cases hv : a.val <;> simp_all)

theorem register_loaded (mgr : ExtMgr) {ws : Str → Str} {a : Attr F} (hk : ws a.key = a.key) (hs : SimpleKind a) (ht : Typed a)
    (i : AttrInfo) : (i.loaded mgr).register (normAttr mgr ws a) = (i.register a).map (AttrInfo.loaded mgr) := by
  have key : (normAttr mgr ws a).key = a.key := by rw [normAttr_key, hk]
  have ext : (normAttr mgr ws a).ext = extFor mgr a.key := by
    cases a
    simp only [Attr.key] at hk
    simp only [normAttr, Attr.key, hk]
    split <;> rfl
  have hs1 : SimpleKind (normAttr mgr ws a) := by unfold SimpleKind at *; rwa [normAttr_kind]
  unfold AttrInfo.register
  rw [deriveProto_simple hs (typedVal_of ht).1, deriveProto_simple hs1 ((typedVal_of ht).2 mgr ws), key, normAttr_kind, ext]
  have e1 := dget_mapped (fun k (p : Proto) => { p with ext := extFor mgr k }) a.key i.keyMap
  have e2 := dset_mapped (fun k (p : Proto) => { p with ext := extFor mgr k }) a.key ⟨a.kind, a.key, a.ext⟩ i.keyMap
  simp only [AttrInfo.loaded] at e1 e2 ⊢
  rw [e1]
  cases dget a.key i.keyMap with
  | none =>
    show Except.ok _ = Except.ok _
    simp only [e2]
    rfl
  | some p =>
    simp only [Option.map_some]
    cases dget a.key i.freq <;> rfl

theorem registerAll_loaded (mgr : ExtMgr) {ws : Str → Str} : ∀ {as : List (Attr F)}, (∀ a ∈ as, ws a.key = a.key) →
    (∀ a ∈ as, SimpleKind a) → (∀ a ∈ as, Typed a) → ∀ {i j : AttrInfo}, i.registerAll as = .ok j →
    (i.loaded mgr).registerAll (as.map (normAttr mgr ws)) = .ok (j.loaded mgr)
  | [], _, _, _, i, j, h => by cases h; rfl
  | a :: as, hk, hs, ht, i, j, h => by
    obtain ⟨i', h1, h2⟩ := bind_ok.1 h
    have := register_loaded mgr (hk a (by simp)) (hs a (by simp)) (ht a (by simp)) i
    rw [h1] at this
    exact bind_ok.2 ⟨_, this, registerAll_loaded mgr (fun a h => hk a (by simp [h])) (fun a h => hs a (by simp [h]))
      (fun a h => ht a (by simp [h])) h2⟩

/-- C143: the statistics of the four levels are the same but for the extensions of the prototypes, which are those that belong to
their keys. -/
theorem c143_prototypes (hf : FloatText F) {mgr : ExtMgr} {modern : Bool} {L L1 : Log F} (hL : WritableLog L)
    (h : FileHolds mgr modern L L1.content) (hk : LogKept (valueBack modern) L) (hs : ∀ a ∈ everyAttr L, SimpleKind a)
    {d : Option Classifier} {cs : List Classifier} {i i1 : LogInfo} (hi : createInfo L d cs = .ok i) (hi1 : createInfo L1 d cs = .ok i1) :
    i1.logAttrs = i.logAttrs.loaded mgr ∧ i1.traceAttrs = i.traceAttrs.loaded mgr ∧ i1.eventAttrs = i.eventAttrs.loaded mgr ∧
    i1.metaAttrs = i.metaAttrs.loaded mgr := by
  have hn := (holds_norm hf hL h).2
  have ht := typedLog_of hL hs
  obtain ⟨e1, e2, e3, e4⟩ := levels_loaded hn hk hs
  have hkk := logKept_nested hk
  obtain ⟨la, ta, ea, ma, cls, lb, tbs, q1, q2, q3, q4, -, -, rfl⟩ := createInfo_ok.1 hi
  obtain ⟨la1, ta1, ea1, ma1, cls1, lb1, tbs1, r1, r2, r3, r4, -, -, rfl⟩ := createInfo_ok.1 hi1
  have go : ∀ {as : List (Attr F)} {j j1 : AttrInfo}, (∀ a ∈ as, a ∈ everyAttr L) → AttrInfo.empty.registerAll as = .ok j →
      AttrInfo.empty.registerAll (as.map (normAttr mgr (valueBack modern))) = .ok j1 → j1 = j.loaded mgr := by
    intro as j j1 hm h1 h2
    have := registerAll_loaded mgr (fun a ha => hkk a (hm a ha)) (fun a ha => hs a (hm a ha)) (fun a ha => ht a (hm a ha)) h1
    have h3 : AttrInfo.empty.registerAll (as.map (normAttr mgr (valueBack modern))) = .ok (j.loaded mgr) := this
    rw [h3] at h2
    cases h2
    rfl
  refine ⟨go (fun a ha => ?_) q1 (e1 ▸ r1), go (fun a ha => ?_) q2 (e2 ▸ r2), go (fun a ha => ?_) q3 (e3 ▸ r3), go (fun a ha => ?_) q4 (e4 ▸ r4)⟩ <;>
  simp [everyAttr, ha]

/-- C143: so the whole summary is the same exactly if the prototypes had the extensions of their keys before. -/
theorem c143_same_prototypes {mgr : ExtMgr} {i : AttrInfo} : i.loaded mgr = i ↔ ∀ p ∈ i.keyMap, p.2.ext = extFor mgr p.1 := by
  constructor
  · intro h p hp
    have h1 := congrArg AttrInfo.keyMap h
    simp only [AttrInfo.loaded] at h1
    have h2 : ∀ (l : List (Str × Proto)), (l.map fun p => (p.1, { p.2 with ext := extFor mgr p.1 })) = l → ∀ p ∈ l, p.2.ext = extFor mgr p.1 := by
      intro l
      induction l with
      | nil => intro _ p hp; cases hp
      | cons q l ih =>
        intro hl p hp
        simp only [List.map_cons, List.cons.injEq] at hl
        rcases List.mem_cons.1 hp with rfl | hp
        · rw [← congrArg (fun x => x.2.ext) hl.1]
        · exact ih hl.2 p hp
    exact h2 _ h1 p hp
  · intro h
    have : (i.keyMap.map fun p => (p.1, { p.2 with ext := extFor mgr p.1 })) = i.keyMap := by
      conv => rhs; rw [← List.map_id i.keyMap]
      apply List.map_congr_left
      intro p hp
      rw [← h p hp]
      rfl
    simp only [AttrInfo.loaded, this]

/-! ## The conditions are needed -/

/-- A log of some content. -/
def logOf (c : Content F) : Log F :=
  ⟨c.attrs, c.extensions, c.classifiers, c.globalTrace, c.globalEvent, c.features, c.traces.map fun t => ⟨t.1, t.2.map fun m => ⟨0, m⟩⟩⟩

theorem logOf_content (c : Content F) : (logOf c).content = c := by
  simp [logOf, Log.content, List.map_map, Function.comp_def]

/-- A log with one trace of two events. -/
def twoEvents (a b : AttrMap F) : Log F := ⟨[], [], [], [], [], [], [⟨[], [⟨0, a⟩, ⟨1, b⟩]⟩]⟩

theorem twoEvents_typed {a b : AttrMap F} (ha : TypedMap a) (hb : TypedMap b) : WritableLog (twoEvents a b) where
  attrs := by simp [twoEvents, TypedMap]
  globalTrace := by simp [twoEvents, TypedList]
  globalEvent := by simp [twoEvents, TypedList]
  traces := by simp [twoEvents, TypedMap, ha, hb]

theorem twoEvents_legal {a b : AttrMap F} (ha : LegalMap a) (hb : LegalMap b) : LegalLog (twoEvents a b) where
  attrs := by simp [twoEvents, LegalMap]
  extensions := by simp [twoEvents]
  classifiers := by simp [twoEvents]
  globalTrace := by simp [twoEvents, LegalAttrs]
  globalEvent := by simp [twoEvents, LegalAttrs]
  traces := by simp [twoEvents, LegalMap, ha, hb]

end

/-- An event with a text under a key. -/
def textUnder (k key v : Str) : AttrMap ToyFloat := [(k, .mk .literal key none (.str v) [] [])]

/-- An event with a timestamp. -/
def timeUnder (tz : Option Int) : AttrMap ToyFloat := [(timeKey, .mk .timestamp timeKey none (.dt ⟨2020, 2, 29, 23, 5, 7, 123456, tz⟩) [] [])]

/-- Two events of different classes before, of one class after: the claim without its conditions fails in three ways. -/
def Merged (modern : Bool) (c : Classifier) (L : Log ToyFloat) : Prop :=
  WritableLog L ∧ ∃ L1 m m1, FileHolds tripMgr modern L L1.content ∧ deriveClasses c L = .ok m ∧ m.length = 2 ∧
    deriveClasses c L1 = .ok m1 ∧ m1.length = 1

theorem merged_of {modern : Bool} {c : Classifier} {a b : AttrMap ToyFloat} (ta : TypedMap a) (tb : TypedMap b) (la : LegalMap a) (lb : LegalMap b)
    {m m1 : ClassMap} (h1 : deriveClasses c (twoEvents a b) = .ok m) (h2 : m.length = 2)
    (h3 : deriveClasses c (logOf (norm tripMgr (valueBack modern) (twoEvents a b).content)) = .ok m1) (h4 : m1.length = 1) :
    Merged modern c (twoEvents a b) :=
  ⟨twoEvents_typed ta tb, _, m, m1, by
    rw [logOf_content]
    exact c110_file toyFloatText tripMgr modern (twoEvents_typed ta tb) (twoEvents_legal la lb), h1, h2, h3, h4⟩

/-- C143, before Python 3.13: a tab in a name becomes a blank. -/
theorem c143_tab_refuted : Merged false ⟨py!"n", [py!"n"]⟩ (twoEvents (textUnder py!"n" py!"n" py!"a\tb") (textUnder py!"n" py!"n" py!"a b")) := by
  have l : ∀ s ∈ [py!"n", py!"a\tb", py!"a b"], LegalText s := by unfold LegalText; decide
  refine merged_of (by simp [textUnder, TypedMap, Typed, GoodVal, Kind.isCollection]) (by simp [textUnder, TypedMap, Typed, GoodVal, Kind.isCollection])
    (by simp [textUnder, LegalMap, LegalAttr, LegalVal, Kind.isCollection, l]) (by simp [textUnder, LegalMap, LegalAttr, LegalVal, Kind.isCollection, l])
    (m := [(py!"a\tb", ⟨py!"a\tb", 0, 1⟩), (py!"a b", ⟨py!"a b", 1, 1⟩)]) (m1 := [(py!"a b", ⟨py!"a b", 0, 2⟩)]) ?_ rfl ?_ rfl
  · decide +kernel
  · decide +kernel

/-- C143: a timestamp without an offset prints a `Z`, after loading it prints none. -/
theorem c143_naive_refuted (modern : Bool) : Merged modern ⟨py!"t", [timeKey]⟩ (twoEvents (timeUnder none) (timeUnder (some 0))) := by
  have l : LegalText timeKey := by unfold LegalText; decide
  have g : ∀ tz : Option Int, tz = none ∨ tz = some 0 → GoodDateTime ⟨2020, 2, 29, 23, 5, 7, 123456, tz⟩ := by
    intro tz h
    rcases h with rfl | rfl
    · exact ⟨by decide, by decide, by decide, by decide, by intro o ho; cases ho⟩
    · exact ⟨by decide, by decide, by decide, by decide, by intro o ho; cases ho; decide⟩
  refine merged_of (by simp [timeUnder, TypedMap, Typed, GoodVal, Kind.isCollection, g]) (by simp [timeUnder, TypedMap, Typed, GoodVal, Kind.isCollection, g])
    (by simp [timeUnder, LegalMap, LegalAttr, LegalVal, Kind.isCollection, l]) (by simp [timeUnder, LegalMap, LegalAttr, LegalVal, Kind.isCollection, l])
    (m := [(py!"2020-02-29T23:05:07.123", ⟨py!"2020-02-29T23:05:07.123", 0, 1⟩), (py!"2020-02-29T23:05:07.123Z", ⟨py!"2020-02-29T23:05:07.123Z", 1, 1⟩)])
    (m1 := [(py!"2020-02-29T23:05:07.123", ⟨py!"2020-02-29T23:05:07.123", 0, 2⟩)]) ?_ rfl ?_ rfl
  · decide +kernel
  · cases modern <;> decide +kernel

/-- C143: an attribute stored under a key that is not its own is found under its own key after loading. -/
theorem c143_foreign_key_refuted (modern : Bool) : Merged modern ⟨py!"n", [py!"n"]⟩ (twoEvents (textUnder py!"n" py!"x" py!"a") []) := by
  have l : ∀ s ∈ [py!"n", py!"x", py!"a"], LegalText s := by unfold LegalText; decide
  refine merged_of (by simp [textUnder, TypedMap, Typed, GoodVal, Kind.isCollection]) (by simp [TypedMap])
    (by simp [textUnder, LegalMap, LegalAttr, LegalVal, Kind.isCollection, l]) (by simp [LegalMap])
    (m := [([], ⟨[], 0, 1⟩), (py!"a", ⟨py!"a", 1, 1⟩)]) (m1 := [([], ⟨[], 0, 2⟩)]) ?_ rfl ?_ rfl
  · decide +kernel
  · cases modern <;> decide +kernel

/-! ## The theorems apply -/

/-- A log with a name, a list with a member, and a timestamp with an offset. -/
def analysed : Log ToyFloat :=
  twoEvents
    [(py!"concept:name", .mk .literal py!"concept:name" none (.str py!"a<b") [] []), (py!"xs", .mk .list py!"xs" none .none [] [.mk .discrete py!"n" none (.int 3) [] []]),
      (timeKey, .mk .timestamp timeKey none (.dt ⟨2020, 2, 29, 23, 5, 7, 123456, some 3600⟩) [] [])]
    (textUnder py!"concept:name" py!"concept:name" py!"c")

theorem analysed_typed : WritableLog analysed := by
  have g : GoodDateTime ⟨2020, 2, 29, 23, 5, 7, 123456, some 3600⟩ :=
    ⟨by decide, by decide, by decide, by decide, by intro o h; cases h; decide⟩
  exact twoEvents_typed (by simp [TypedMap, Typed, TypedList, GoodVal, Kind.isCollection, g]) (by simp [textUnder, TypedMap, Typed, GoodVal, Kind.isCollection])

theorem analysed_legal : LegalLog analysed := by
  have l : ∀ s ∈ [py!"concept:name", py!"a<b", py!"c", py!"xs", py!"n", timeKey], LegalText s := by unfold LegalText; decide
  exact twoEvents_legal (by simp [LegalMap, LegalAttr, LegalAttrs, LegalVal, Kind.isCollection, l])
    (by simp [textUnder, LegalMap, LegalAttr, LegalVal, Kind.isCollection, l])

theorem analysed_kept (ks : List Str) : ∀ t ∈ analysed.traces, ∀ e ∈ t.events, PrintKept (valueBack false) ks e.attrs := by
  have w : ∀ s ∈ [py!"concept:name", py!"a<b", py!"c", py!"xs", py!"n", timeKey], valueBack false s = s := by decide
  intro t ht e he
  simp only [analysed, twoEvents, List.mem_singleton] at ht
  subst ht
  simp only [List.mem_cons, List.not_mem_nil, or_false] at he
  rcases he with rfl | rfl
  · refine ⟨⟨⟨by decide, by simp [Attr.key]⟩, by simp [w]⟩, ?_⟩
    simp [Shown, ShownList, ShownVal, Kind.isCollection, w]
  · refine ⟨⟨⟨by decide, by simp [textUnder, Attr.key]⟩, by simp [textUnder, w]⟩, ?_⟩
    simp [textUnder, Shown, ShownVal, Kind.isCollection, w]

/-- C143 applies: the classes of the loaded log by name, list and time together. -/
example : ∃ L1 : Log ToyFloat, FileHolds tripMgr false analysed L1.content ∧
    deriveClasses ⟨py!"all", [py!"concept:name", py!"xs", timeKey]⟩ L1 =
      .ok [(py!"a<b&&[n:3]&&2020-02-29T23:05:07.123+01:00", ⟨py!"a<b&&[n:3]&&2020-02-29T23:05:07.123+01:00", 0, 1⟩), (py!"c", ⟨py!"c", 1, 1⟩)] := by
  refine ⟨logOf (norm tripMgr (valueBack false) analysed.content), ?_, ?_⟩
  · rw [logOf_content]
    exact c110_file toyFloatText tripMgr false analysed_typed analysed_legal
  · rw [c143_classes toyFloatText analysed_typed (mgr := tripMgr) (modern := false)
      (by rw [logOf_content]; exact c110_file toyFloatText tripMgr false analysed_typed analysed_legal) (analysed_kept _)]
    decide +kernel

/-- ... and the time bounds of its trace are cut to milliseconds. -/
example : ∃ b b1 : TimeBounds, boundsAfter TimeBounds.empty ((analysed.traces.map Trace.events).flatten) = .ok b ∧
    boundsAfter TimeBounds.empty (((logOf (norm tripMgr (valueBack false) analysed.content)).traces.map Trace.events).flatten) = .ok b1 ∧
    b.first.map DateTime.micro = some 123456 ∧ b1.first.map DateTime.micro = some 123000 :=
  ⟨_, _, rfl, rfl, by decide +kernel, by decide +kernel⟩

/-- The part of the log without list and timestamp has a summary, which is kept. -/
example : ∃ i i1, createInfo (twoEvents (textUnder py!"a" py!"a" py!"x") (textUnder py!"a" py!"a" py!"y")) none [] = .ok i ∧
    createInfo (logOf (norm tripMgr (valueBack false) (twoEvents (textUnder py!"a" py!"a" py!"x") (textUnder py!"a" py!"a" py!"y")).content)) none [] = .ok i1 ∧
    SameInfo i1 i := by
  have w : ∀ s ∈ [py!"a", py!"x", py!"y"], valueBack false s = s := by decide
  have l : ∀ s ∈ [py!"a", py!"x", py!"y"], LegalText s := by unfold LegalText; decide
  have ht : ∀ v, TypedMap (textUnder py!"a" py!"a" v) := fun v => by simp [textUnder, TypedMap, Typed, GoodVal, Kind.isCollection]
  have hk : ∀ v ∈ [py!"x", py!"y"], OwnKeys (textUnder py!"a" py!"a" v) ∧ AllKeptMap (valueBack false) (textUnder py!"a" py!"a" v) := by
    intro v hv
    have hv' : valueBack false v = v := w v (by simp at hv ⊢; tauto)
    simp [textUnder, OwnKeys, dkeys, Attr.key, AllKeptMap, AllKept, ShownVal, w, hv']
  refine c143_info toyFloatText (twoEvents_typed (ht _) (ht _)) (mgr := tripMgr) (modern := false) ?_ ⟨?_, ?_⟩ ?_ none []
  · rw [logOf_content]
    exact c110_file toyFloatText tripMgr false (twoEvents_typed (ht _) (ht _)) (twoEvents_legal
      (by simp [textUnder, LegalMap, LegalAttr, LegalVal, Kind.isCollection, l]) (by simp [textUnder, LegalMap, LegalAttr, LegalVal, Kind.isCollection, l]))
  · simp [twoEvents, OwnKeys, dkeys, AllKeptMap]
  · simp only [twoEvents, List.mem_singleton, forall_eq]
    refine ⟨by simp [OwnKeys, dkeys, AllKeptMap], ?_⟩
    intro e he
    simp only [List.mem_cons, List.not_mem_nil, or_false] at he
    rcases he with rfl | rfl
    · exact hk _ (by simp)
    · exact hk _ (by simp)
  · intro a ha
    simp [everyAttr, logLevel, traceLevel, eventLevel, metaLevel, allEvents, twoEvents, textUnder, dvals, nestedOf, nestedIn, preorder] at ha
    rcases ha with rfl | rfl <;> simp [SimpleKind, Attr.kind]

end Opy
