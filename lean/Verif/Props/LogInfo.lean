import Verif.Props.Info
/-
Properties C28-C31 (log summaries and their cache), C72, C73.
-/
set_option linter.unusedSectionVars false

namespace Opy

section
variable {F : Type} [PyFloat F]

/-! ## Specification: the attributes of each level -/

mutual
/-- All attributes nested in an attribute at any depth, parents first. -/
def nestedIn : Attr F → List (Attr F)
  | .mk _ _ _ _ m _ => preorder m
/-- All attributes of a map and everything nested in them, parents first. -/
def preorder : List (Str × Attr F) → List (Attr F)
  | [] => []
  | (_, .mk k key e v m c) :: r => .mk k key e v m c :: (nestedIn (.mk k key e v m c) ++ preorder r)
end

/-- All attributes nested in the attributes of a map (without those attributes themselves). -/
def nestedOf (m : AttrMap F) : List (Attr F) := (dvals m).flatMap nestedIn

/-- The attributes of the log itself. -/
def logLevel (log : Log F) : List (Attr F) := dvals log.attrs
/-- The attributes of all traces. -/
def traceLevel (log : Log F) : List (Attr F) := log.traces.flatMap (fun t => dvals t.attrs)
/-- The attributes of all events. -/
def eventLevel (log : Log F) : List (Attr F) := (allEvents log).flatMap (fun e => dvals e.attrs)
/-- All attributes of attributes, anywhere in the log. -/
def metaLevel (log : Log F) : List (Attr F) :=
  nestedOf log.attrs ++ log.traces.flatMap (fun t => nestedOf t.attrs ++ t.events.flatMap (fun e => nestedOf e.attrs))

/-- Every attribute of the log, on whatever level. -/
def everyAttr (log : Log F) : List (Attr F) := logLevel log ++ traceLevel log ++ eventLevel log ++ metaLevel log

/-! ## Taking the construction apart -/

mutual
theorem registerNested_eq (mi : AttrInfo) : ∀ a : Attr F, registerNested mi a = mi.registerAll (nestedIn a)
  | .mk _ _ _ _ m _ => by simp only [registerNested, nestedIn]; exact registerMap_eq mi m
theorem registerMap_eq (mi : AttrInfo) : ∀ m : List (Str × Attr F), registerMap mi m = mi.registerAll (preorder m)
  | [] => by simp only [registerMap, preorder, AttrInfo.registerAll]
  | (_, .mk k key e v m c) :: r => by
    simp only [registerMap, preorder, AttrInfo.registerAll]
    cases h1 : mi.register (Attr.mk k key e v m c) with
    | error x => rfl
    | ok m1 =>
      simp only [bind, Except.bind]
      rw [registerNested_eq m1 (.mk k key e v m c), registerAll_append]
      cases h2 : m1.registerAll (nestedIn (Attr.mk k key e v m c)) with
      | error x => rfl
      | ok m2 => simp only [bind, Except.bind]; exact registerMap_eq m2 r
end

theorem registerAll_append_ok {i j : AttrInfo} {as bs : List (Attr F)} :
    i.registerAll (as ++ bs) = .ok j ↔ ∃ k, i.registerAll as = .ok k ∧ k.registerAll bs = .ok j := by
  rw [registerAll_append, bind_ok]

theorem registerLevel_ok : ∀ {m : AttrMap F} {i mi i' mi' : AttrInfo},
    registerLevel i mi m = .ok (i', mi') ↔
      i.registerAll (dvals m) = .ok i' ∧ mi.registerAll (nestedOf m) = .ok mi' := by
  intro m
  induction m with
  | nil => intro i mi i' mi'; simp [registerLevel, dvals, nestedOf, AttrInfo.registerAll]
  | cons p m ih =>
    obtain ⟨k, a⟩ := p
    intro i mi i' mi'
    have hn : nestedOf ((k, a) :: m) = nestedIn a ++ nestedOf m := by simp [nestedOf, dvals]
    have hv : dvals ((k, a) :: m) = a :: dvals m := rfl
    rw [hn, hv]
    simp only [registerLevel, registerNested_eq, AttrInfo.registerAll, bind_ok, registerAll_append_ok, ih]
    constructor
    · rintro ⟨i1, h1, m1, h2, h3, h4⟩
      exact ⟨⟨i1, h1, h3⟩, m1, h2, h4⟩
    · rintro ⟨⟨i1, h1, h3⟩, m1, h2, h4⟩
      exact ⟨i1, h1, m1, h2, h3, h4⟩

/-- All class maps after a list of events. -/
def classesAfter (es : List (Event F)) : List (Classifier × ClassMap) → Except PyErr (List (Classifier × ClassMap))
  | [] => .ok []
  | (c, m) :: r => do
    let m ← registerEvents c m es
    let r ← classesAfter es r
    .ok ((c, m) :: r)

theorem registerEvents_append_ok {c : Classifier} {es es' : List (Event F)} : ∀ {m m' : ClassMap},
    registerEvents c m (es ++ es') = .ok m' ↔ ∃ m1, registerEvents c m es = .ok m1 ∧ registerEvents c m1 es' = .ok m' := by
  induction es with
  | nil => intro m m'; simp [registerEvents]
  | cons e es ih =>
    intro m m'
    simp only [List.cons_append, registerEvents, bind_ok, ih]
    constructor
    · rintro ⟨a, h1, b, h2, h3⟩; exact ⟨b, ⟨a, h1, h2⟩, h3⟩
    · rintro ⟨b, ⟨a, h1, h2⟩, h3⟩; exact ⟨a, h1, b, h2, h3⟩

theorem classesAfter_append {es es' : List (Event F)} : ∀ {cs cs' : List (Classifier × ClassMap)},
    classesAfter (es ++ es') cs = .ok cs' ↔ ∃ c1, classesAfter es cs = .ok c1 ∧ classesAfter es' c1 = .ok cs' := by
  intro cs
  induction cs with
  | nil => intro cs'; simp [classesAfter]
  | cons p cs ih =>
    obtain ⟨c, m⟩ := p
    intro cs'
    simp only [classesAfter, bind_ok, registerEvents_append_ok, ih]
    constructor
    · rintro ⟨m2, ⟨m1, h1, h2⟩, r2, ⟨r1, h3, h4⟩, h5⟩
      refine ⟨(c, m1) :: r1, ⟨m1, h1, r1, h3, rfl⟩, ?_⟩
      simp only [classesAfter, bind_ok]
      exact ⟨m2, h2, r2, h4, h5⟩
    · rintro ⟨c1, ⟨m1, h1, r1, h3, h5⟩, h6⟩
      simp only [Except.ok.injEq] at h5
      subst h5
      simp only [classesAfter, bind_ok] at h6
      obtain ⟨m2, h2, r2, h4, h7⟩ := h6
      exact ⟨m2, ⟨m1, h1, h2⟩, r2, ⟨r1, h3, h4⟩, h7⟩

theorem registerInClasses_eq (e : Event F) (cs : List (Classifier × ClassMap)) :
    registerInClasses e cs = classesAfter [e] cs := by
  induction cs with
  | nil => rfl
  | cons p cs ih =>
    obtain ⟨c, m⟩ := p
    simp only [registerInClasses, classesAfter, ih, registerEvents]
    cases h : registerEvent c m e with
    | error x => rfl
    | ok m' => rfl

theorem classesAfter_nil (cs : List (Classifier × ClassMap)) : classesAfter (F := F) [] cs = .ok cs := by
  induction cs with
  | nil => rfl
  | cons p cs ih => obtain ⟨c, m⟩ := p; simp [classesAfter, registerEvents, ih, bind, Except.bind]

/-- The bounds of a trace after its events. -/
def boundsAfter (b : TimeBounds) : List (Event F) → Except PyErr TimeBounds
  | [] => .ok b
  | e :: es => do
    let b ← b.registerEvent e
    boundsAfter b es

/-- The bounds of the log and of its traces. -/
def allBounds (lb : TimeBounds) (tbs : List TimeBounds) : List (Trace F) → Except PyErr (TimeBounds × List TimeBounds)
  | [] => .ok (lb, tbs)
  | t :: ts => do
    let tb ← boundsAfter TimeBounds.empty t.events
    let lb ← lb.merge tb
    allBounds lb (tbs ++ [tb]) ts

theorem setupEvents_ok : ∀ {es : List (Event F)} {i i' : LogInfo} {tb tb' : TimeBounds},
    setupEvents i tb es = .ok (i', tb') ↔ ∃ ea ma cls,
      i.eventAttrs.registerAll (es.flatMap (fun e => dvals e.attrs)) = .ok ea ∧
      i.metaAttrs.registerAll (es.flatMap (fun e => nestedOf e.attrs)) = .ok ma ∧
      classesAfter es i.classes = .ok cls ∧ boundsAfter tb es = .ok tb' ∧
      i' = { i with nEvents := i.nEvents + es.length, eventAttrs := ea, metaAttrs := ma, classes := cls } := by
  intro es
  induction es with
  | nil =>
    intro i i' tb tb'
    simp only [setupEvents, List.flatMap_nil, AttrInfo.registerAll, classesAfter_nil, boundsAfter, Except.ok.injEq,
      Prod.mk.injEq, List.length_nil, Nat.add_zero]
    constructor
    · rintro ⟨rfl, rfl⟩; exact ⟨_, _, _, rfl, rfl, rfl, rfl, rfl⟩
    · rintro ⟨ea, ma, cls, rfl, rfl, rfl, rfl, rfl⟩; exact ⟨rfl, rfl⟩
  | cons e es ih =>
    intro i i' tb tb'
    simp only [setupEvents, bind_ok, Prod.exists, registerLevel_ok, List.flatMap_cons, registerAll_append_ok,
      registerInClasses_eq, boundsAfter, ih]
    have hcl : ∀ cls, classesAfter (e :: es) i.classes = .ok cls ↔
        ∃ c1, classesAfter [e] i.classes = .ok c1 ∧ classesAfter es c1 = .ok cls := by
      intro cls
      rw [← classesAfter_append]; rfl
    simp only [hcl]
    constructor
    · rintro ⟨ea1, ma1, ⟨h1, h2⟩, c1, h3, b1, h4, ea, ma, cls, h5, h6, h7, h8, rfl⟩
      refine ⟨ea, ma, cls, ⟨ea1, h1, h5⟩, ⟨ma1, h2, h6⟩, ⟨c1, h3, h7⟩, ⟨b1, h4, h8⟩, ?_⟩
      simp only [List.length_cons, LogInfo.mk.injEq, and_true, true_and]
      omega
    · rintro ⟨ea, ma, cls, ⟨ea1, h1, h5⟩, ⟨ma1, h2, h6⟩, ⟨c1, h3, h7⟩, ⟨b1, h4, h8⟩, rfl⟩
      refine ⟨ea1, ma1, ⟨h1, h2⟩, c1, h3, b1, h4, ea, ma, cls, h5, h6, h7, h8, ?_⟩
      simp only [List.length_cons, LogInfo.mk.injEq, and_true, true_and]
      omega

theorem setupTraces_ok : ∀ {ts : List (Trace F)} {i i' : LogInfo},
    setupTraces i ts = .ok i' ↔ ∃ ta ea ma cls lb tbs,
      i.traceAttrs.registerAll (ts.flatMap (fun t => dvals t.attrs)) = .ok ta ∧
      i.eventAttrs.registerAll ((ts.map Trace.events).flatten.flatMap (fun e => dvals e.attrs)) = .ok ea ∧
      i.metaAttrs.registerAll (ts.flatMap (fun t => nestedOf t.attrs ++ t.events.flatMap (fun e => nestedOf e.attrs))) = .ok ma ∧
      classesAfter (ts.map Trace.events).flatten i.classes = .ok cls ∧
      allBounds i.logBounds i.traceBounds ts = .ok (lb, tbs) ∧
      i' = { i with nTraces := i.nTraces + ts.length, nEvents := i.nEvents + (ts.map Trace.events).flatten.length,
                    traceAttrs := ta, eventAttrs := ea, metaAttrs := ma, classes := cls, logBounds := lb, traceBounds := tbs } := by
  intro ts
  induction ts with
  | nil =>
    intro i i'
    simp only [setupTraces, List.flatMap_nil, List.map_nil, List.flatten_nil, AttrInfo.registerAll, classesAfter_nil,
      allBounds, Except.ok.injEq, Prod.mk.injEq, List.length_nil, Nat.add_zero]
    constructor
    · rintro rfl; exact ⟨_, _, _, _, _, _, rfl, rfl, rfl, rfl, ⟨rfl, rfl⟩, rfl⟩
    · rintro ⟨ta, ea, ma, cls, lb, tbs, rfl, rfl, rfl, rfl, ⟨rfl, rfl⟩, rfl⟩; rfl
  | cons t ts ih =>
    intro i i'
    simp only [setupTraces, bind_ok, Prod.exists, registerLevel_ok, setupEvents_ok, List.flatMap_cons, List.map_cons,
      List.flatten_cons, List.flatMap_append, registerAll_append_ok, classesAfter_append, allBounds, ih]
    constructor
    · rintro ⟨ta1, ma1, ⟨h1, h2⟩, i2, tb, ⟨ea1, ma2, c1, h3, h4, h5, h6, rfl⟩, lb1, h7, ta, ea, ma, cls, lb, tbs,
        h8, h9, h10, h11, h12, rfl⟩
      refine ⟨ta, ea, ma, cls, lb, tbs, ⟨ta1, h1, h8⟩, ⟨ea1, h3, h9⟩, ⟨ma2, ⟨ma1, h2, h4⟩, h10⟩, ⟨c1, h5, h11⟩,
        ⟨tb, h6, lb1, h7, h12⟩, ?_⟩
      simp only [List.length_cons, List.length_append, LogInfo.mk.injEq, and_true, true_and]
      omega
    · rintro ⟨ta, ea, ma, cls, lb, tbs, ⟨ta1, h1, h8⟩, ⟨ea1, h3, h9⟩, ⟨ma2, ⟨ma1, h2, h4⟩, h10⟩, ⟨c1, h5, h11⟩,
        ⟨tb, h6, lb1, h7, h12⟩, rfl⟩
      refine ⟨ta1, ma1, ⟨h1, h2⟩, _, tb, ⟨ea1, ma2, c1, h3, h4, h5, h6, rfl⟩, lb1, h7, ta, ea, ma, cls, lb, tbs,
        h8, h9, h10, h11, h12, ?_⟩
      simp only [List.length_cons, List.length_append, LogInfo.mk.injEq, and_true, true_and]
      omega

/-- The default classifier actually used. -/
def chosen (d : Option Classifier) : Classifier := match d with | none => standardClassifier | some c => c

/-- What a successful construction is made of. -/
theorem createInfo_ok {log : Log F} {d : Option Classifier} {cs : List Classifier} {i : LogInfo} :
    createInfo log d cs = .ok i ↔ ∃ la ta ea ma cls lb tbs,
      AttrInfo.empty.registerAll (logLevel log) = .ok la ∧ AttrInfo.empty.registerAll (traceLevel log) = .ok ta ∧
      AttrInfo.empty.registerAll (eventLevel log) = .ok ea ∧ AttrInfo.empty.registerAll (metaLevel log) = .ok ma ∧
      classesAfter (allEvents log) (initialClasses (chosen d) cs) = .ok cls ∧
      allBounds TimeBounds.empty [] log.traces = .ok (lb, tbs) ∧
      i = { classes := cls.map (fun p => (p.1, harmonize p.2)), nEvents := (allEvents log).length,
            nTraces := log.traces.length, logBounds := lb, traceBounds := tbs, logAttrs := la, traceAttrs := ta,
            eventAttrs := ea, metaAttrs := ma } := by
  simp only [createInfo, bind_ok, Prod.exists, registerLevel_ok, setupTraces_ok, logLevel, traceLevel, eventLevel,
    metaLevel, registerAll_append_ok, Except.ok.injEq]
  constructor
  · rintro ⟨la, ma1, ⟨h1, h2⟩, i1, ⟨ta, ea, ma, cls, lb, tbs, h3, h4, h5, h6, h7, rfl⟩, rfl⟩
    exact ⟨la, ta, ea, ma, cls, lb, tbs, h1, h3, h4, ⟨ma1, h2, h5⟩, h6, h7, by simp [allEvents]⟩
  · rintro ⟨la, ta, ea, ma, cls, lb, tbs, h1, h3, h4, ⟨ma1, h2, h5⟩, h6, h7, rfl⟩
    exact ⟨la, ma1, ⟨h1, h2⟩, _, ⟨ta, ea, ma, cls, lb, tbs, h3, h4, h5, h6, h7, rfl⟩, by simp [allEvents]⟩

/-! ## C28 -/

/-- The statistics count exactly the attributes `as`. -/
def Counts (i : AttrInfo) (as : List (Attr F)) : Prop :=
  i.total = as.length ∧ ∀ k, i.frequency k = if keyCount k as = 0 then none else some (keyCount k as)

/-- C28: whenever the summary can be built, its numbers of traces and events are those of the log and
the four statistics count exactly the attributes of their level. -/
theorem c28_counts {log : Log F} {d : Option Classifier} {cs : List Classifier} {i : LogInfo}
    (h : createInfo log d cs = .ok i) :
    i.nTraces = log.traces.length ∧ i.nEvents = (log.traces.map (fun t => t.events.length)).sum ∧
    Counts i.logAttrs (logLevel log) ∧ Counts i.traceAttrs (traceLevel log) ∧
    Counts i.eventAttrs (eventLevel log) ∧ Counts i.metaAttrs (metaLevel log) := by
  obtain ⟨la, ta, ea, ma, cls, lb, tbs, h1, h2, h3, h4, -, -, rfl⟩ := createInfo_ok.1 h
  have key : ∀ {as : List (Attr F)} {j : AttrInfo}, AttrInfo.empty.registerAll as = .ok j → Counts j as := by
    intro as j hj
    exact ⟨by have := (Stats.all Stats.empty hj).total; simpa using this, (c26_counts hj).1⟩
  refine ⟨rfl, ?_, key h1, key h2, key h3, key h4⟩
  simp [allEvents, List.length_flatten, List.map_map, Function.comp_def]

/-! ## C29 -/

/-- Every value has the type of its class, everywhere in the log. -/
def TypedLog (log : Log F) : Prop := ∀ a ∈ everyAttr log, TypedVal a

/-- Within a level, attributes with the same key are of the same class. -/
def OneTypePerKey (as : List (Attr F)) : Prop := ∀ a ∈ as, ∀ b ∈ as, a.key = b.key → a.kind = b.kind

/-- Within every level, a key always comes with the same class of attribute. -/
def ConsistentLog (log : Log F) : Prop :=
  OneTypePerKey (logLevel log) ∧ OneTypePerKey (traceLevel log) ∧ OneTypePerKey (eventLevel log) ∧
  OneTypePerKey (metaLevel log)

theorem firstSimple_of_all {as : List (Attr F)} (h : ∀ a ∈ as, SimpleKind a) : FirstSimple as := by
  intro pre a post e _
  exact h a (by rw [e]; simp)

theorem all_of_firstSimple {as : List (Attr F)} (hc : OneTypePerKey as) (h : FirstSimple as) :
    ∀ a ∈ as, SimpleKind a := by
  have first : ∀ (as : List (Attr F)) (k : Str), k ∈ as.map Attr.key →
      ∃ pre b post, as = pre ++ b :: post ∧ b.key = k ∧ k ∉ pre.map Attr.key := by
    intro as k
    induction as with
    | nil => intro h; simp at h
    | cons x as ih =>
      intro h
      by_cases e : x.key = k
      · exact ⟨[], x, as, rfl, e, by simp⟩
      · simp only [List.map_cons, List.mem_cons] at h
        rcases h with h | h
        · exact absurd h.symm e
        · obtain ⟨pre, b, post, h1, h2, h3⟩ := ih h
          refine ⟨x :: pre, b, post, by rw [h1]; rfl, h2, ?_⟩
          simp only [List.map_cons, List.mem_cons, not_or]
          exact ⟨fun e' => e e'.symm, h3⟩
  intro a ha
  obtain ⟨pre, b, post, h1, h2, h3⟩ := first as a.key (List.mem_map_of_mem ha)
  have hb := h pre b post h1 (by rw [h2]; exact h3)
  have hk := hc a ha b (by rw [h1]; simp) h2.symm
  unfold SimpleKind at *
  rw [hk]; exact hb

theorem attrStr_simple {a : Attr F} (h : SimpleKind a) : ∃ s, attrStr a = .ok s := by
  obtain ⟨k, key, e, v, m, c⟩ := a
  rcases h with h | h | h | h | h <;> simp only [Attr.kind] at h <;> subst h <;> exact ⟨_, rfl⟩

theorem printAttr_simple {e : Event F} (h : ∀ a ∈ dvals e.attrs, SimpleKind a) (k : Str) :
    ∃ s, printAttr e k = .ok s := by
  unfold printAttr
  cases hd : dget k e.attrs with
  | none => exact ⟨_, rfl⟩
  | some a =>
    obtain ⟨s, hs⟩ := attrStr_simple (h a (List.mem_map_of_mem (dget_mem hd)))
    exact ⟨some s, by simp [hs]⟩

theorem identityParts_simple {e : Event F} (h : ∀ a ∈ dvals e.attrs, SimpleKind a) :
    ∀ ks, ∃ s, identityParts e ks = .ok s
  | [] => ⟨_, rfl⟩
  | k :: ks => by
    obtain ⟨s, hs⟩ := printAttr_simple h k
    obtain ⟨r, hr⟩ := identityParts_simple h ks
    exact ⟨_, by simp only [identityParts, hs, hr]; rfl⟩

theorem classIdentity_simple {e : Event F} (h : ∀ a ∈ dvals e.attrs, SimpleKind a) (c : Classifier) :
    ∃ s, classIdentity c e = .ok s := by
  unfold classIdentity
  split
  · next k _ =>
    obtain ⟨s, hs⟩ := printAttr_simple h k
    rw [hs]
    cases s <;> exact ⟨_, rfl⟩
  · next k1 k2 _ =>
    obtain ⟨s1, hs1⟩ := printAttr_simple h k1
    obtain ⟨s2, hs2⟩ := printAttr_simple h k2
    rw [hs1, hs2]
    cases s1 <;> cases s2 <;> exact ⟨_, rfl⟩
  · next ks _ _ =>
    obtain ⟨r, hr⟩ := identityParts_simple h c.keys
    exact ⟨_, by rw [hr]; rfl⟩

theorem registerEvents_simple {es : List (Event F)} (h : ∀ e ∈ es, ∀ a ∈ dvals e.attrs, SimpleKind a) (c : Classifier) :
    ∀ m, ∃ m', registerEvents c m es = .ok m' := by
  induction es with
  | nil => intro m; exact ⟨_, rfl⟩
  | cons e es ih =>
    intro m
    obtain ⟨s, hs⟩ := classIdentity_simple (h e (by simp)) c
    obtain ⟨m', hm'⟩ := ih (fun e he => h e (List.mem_cons_of_mem _ he)) (registerId m s)
    exact ⟨m', by simp only [registerEvents, registerEvent, hs, bind, Except.bind]; exact hm'⟩

theorem classesAfter_simple {es : List (Event F)} (h : ∀ e ∈ es, ∀ a ∈ dvals e.attrs, SimpleKind a) :
    ∀ cs, ∃ cs', classesAfter es cs = .ok cs'
  | [] => ⟨_, rfl⟩
  | (c, m) :: cs => by
    obtain ⟨m', hm'⟩ := registerEvents_simple h c m
    obtain ⟨r, hr⟩ := classesAfter_simple h cs
    exact ⟨_, by simp only [classesAfter, hm', hr]; rfl⟩

theorem registerEvent_simple {b : TimeBounds} {e : Event F} (h : ∀ a ∈ dvals e.attrs, SimpleKind a ∧ TypedVal a) :
    b.registerEvent e = .ok b := by
  unfold TimeBounds.registerEvent
  cases hd : dget timeKey e.attrs with
  | none => rfl
  | some a =>
    have ha := h a (List.mem_map_of_mem (dget_mem hd))
    obtain ⟨k, key, ex, v, m, c⟩ := a
    obtain ⟨h1, h2⟩ := ha
    rcases h1 with h1 | h1 | h1 | h1 | h1 <;> simp only [Attr.kind] at h1 <;> subst h1 <;> cases v <;>
      simp_all [TypedVal, Attr.kind, Attr.val, getValue, Kind.isCollection]

theorem boundsAfter_simple {b : TimeBounds} {es : List (Event F)}
    (h : ∀ e ∈ es, ∀ a ∈ dvals e.attrs, SimpleKind a ∧ TypedVal a) : boundsAfter b es = .ok b := by
  induction es with
  | nil => rfl
  | cons e es ih =>
    simp only [boundsAfter, registerEvent_simple (h e (by simp)), bind, Except.bind]
    exact ih (fun e he => h e (List.mem_cons_of_mem _ he))

theorem allBounds_simple {ts : List (Trace F)}
    (h : ∀ t ∈ ts, ∀ e ∈ t.events, ∀ a ∈ dvals e.attrs, SimpleKind a ∧ TypedVal a) :
    ∀ tbs, allBounds TimeBounds.empty tbs ts = .ok (TimeBounds.empty, tbs ++ List.replicate ts.length TimeBounds.empty) := by
  induction ts with
  | nil => intro tbs; simp [allBounds]
  | cons t ts ih =>
    intro tbs
    simp only [allBounds, boundsAfter_simple (h t (by simp)), bind, Except.bind, TimeBounds.merge, TimeBounds.registerOpt,
      TimeBounds.empty]
    have := ih (fun t ht => h t (List.mem_cons_of_mem _ ht)) (tbs ++ [TimeBounds.empty])
    simp only [TimeBounds.empty] at this
    rw [this]
    simp [List.replicate_succ]

theorem eventLevel_mem {log : Log F} {e : Event F} (he : e ∈ allEvents log) {a : Attr F} (ha : a ∈ dvals e.attrs) :
    a ∈ eventLevel log := List.mem_flatMap.2 ⟨e, he, ha⟩

theorem allEvents_mem {log : Log F} {t : Trace F} (ht : t ∈ log.traces) {e : Event F} (he : e ∈ t.events) :
    e ∈ allEvents log := by
  unfold allEvents
  rw [List.mem_flatten]
  exact ⟨t.events, List.mem_map_of_mem ht, he⟩

/-- C29: a summary can be built whenever no timestamp, list or container attribute occurs anywhere
in the (typed) log. -/
theorem c29_sufficient {log : Log F} (ht : TypedLog log) (h : ∀ a ∈ everyAttr log, SimpleKind a)
    (d : Option Classifier) (cs : List Classifier) : ∃ i, createInfo log d cs = .ok i := by
  have m1 : ∀ a ∈ logLevel log, a ∈ everyAttr log := by intro a ha; simp [everyAttr, ha]
  have m2 : ∀ a ∈ traceLevel log, a ∈ everyAttr log := by intro a ha; simp [everyAttr, ha]
  have m3 : ∀ a ∈ eventLevel log, a ∈ everyAttr log := by intro a ha; simp [everyAttr, ha]
  have m4 : ∀ a ∈ metaLevel log, a ∈ everyAttr log := by intro a ha; simp [everyAttr, ha]
  have lv : ∀ {as : List (Attr F)}, (∀ a ∈ as, a ∈ everyAttr log) → ∃ i, AttrInfo.empty.registerAll as = .ok i := by
    intro as has
    exact (c26_goes_through_iff (fun a ha => ht a (has a ha))).2 (firstSimple_of_all (fun a ha => h a (has a ha)))
  obtain ⟨la, h1⟩ := lv m1
  obtain ⟨ta, h2⟩ := lv m2
  obtain ⟨ea, h3⟩ := lv m3
  obtain ⟨ma, h4⟩ := lv m4
  obtain ⟨cls, h5⟩ := classesAfter_simple (es := allEvents log)
    (fun e he a ha => h a (m3 a (eventLevel_mem he ha))) (initialClasses (chosen d) cs)
  have h6 := allBounds_simple (ts := log.traces)
    (fun t ht' e he a ha => ⟨h a (m3 a (eventLevel_mem (allEvents_mem ht' he) ha)),
      ht a (m3 a (eventLevel_mem (allEvents_mem ht' he) ha))⟩) []
  exact ⟨_, createInfo_ok.2 ⟨la, ta, ea, ma, cls, _, _, h1, h2, h3, h4, h5, h6, rfl⟩⟩

theorem simple_of_created {log : Log F} (ht : TypedLog log) (hc : ConsistentLog log) {d : Option Classifier}
    {cs : List Classifier} {i : LogInfo} (h : createInfo log d cs = .ok i) : ∀ a ∈ everyAttr log, SimpleKind a := by
  obtain ⟨la, ta, ea, ma, cls, lb, tbs, h1, h2, h3, h4, -, -, -⟩ := createInfo_ok.1 h
  have lv : ∀ {as : List (Attr F)} {j : AttrInfo}, (∀ a ∈ as, a ∈ everyAttr log) → OneTypePerKey as →
      AttrInfo.empty.registerAll as = .ok j → ∀ a ∈ as, SimpleKind a := by
    intro as j has ho hj
    exact all_of_firstSimple ho ((c26_goes_through_iff (fun a ha => ht a (has a ha))).1 ⟨j, hj⟩)
  intro a ha
  have ha' := ha
  simp only [everyAttr, List.mem_append] at ha
  rcases ha with ((ha | ha) | ha) | ha
  · exact lv (by intro b hb; simp [everyAttr, hb]) hc.1 h1 a ha
  · exact lv (by intro b hb; simp [everyAttr, hb]) hc.2.1 h2 a ha
  · exact lv (by intro b hb; simp [everyAttr, hb]) hc.2.2.1 h3 a ha
  · exact lv (by intro b hb; simp [everyAttr, hb]) hc.2.2.2 h4 a ha

/-- C29: for typed logs in which a key always has the same type within a level, a summary can be
built exactly when no timestamp, list or container attribute occurs anywhere. -/
theorem c29_success_iff {log : Log F} (ht : TypedLog log) (hc : ConsistentLog log) (d : Option Classifier)
    (cs : List Classifier) : (∃ i, createInfo log d cs = .ok i) ↔ ∀ a ∈ everyAttr log, SimpleKind a :=
  ⟨fun ⟨_, h⟩ => simple_of_created ht hc h, fun h => c29_sufficient ht h d cs⟩

/-- A log with a single event that carries a timestamp. -/
def stampedLog : Log F :=
  { attrs := [], extensions := [], classifiers := [], globalTrace := [], globalEvent := [], features := [],
    traces := [⟨[], [⟨⟨1, by decide⟩, [(timeKey, .mk .timestamp timeKey none (.dt ⟨2020, 1, 1, 0, 0, 0, 0, some 0⟩) [] [])]⟩]⟩] }

/-- C29 is false as stated: a log whose single event has a timestamp cannot be summarised. -/
theorem c29_refuted : TypedLog (stampedLog (F := F)) ∧ ConsistentLog (stampedLog (F := F)) ∧
    createInfo (stampedLog (F := F)) none [] = .error .attributeError := by
  refine ⟨?_, ⟨?_, ?_, ?_, ?_⟩, rfl⟩
  · intro a ha
    simp [everyAttr, logLevel, traceLevel, eventLevel, metaLevel, stampedLog, allEvents, dvals, nestedOf, nestedIn, preorder] at ha
    subst ha
    simp [TypedVal, Attr.kind, Attr.val]
  · intro a ha; simp [logLevel, stampedLog, dvals] at ha
  · intro a ha; simp [traceLevel, stampedLog, dvals] at ha
  · intro a ha b hb _
    simp [eventLevel, stampedLog, allEvents, dvals] at ha hb
    rw [ha, hb]
  · intro a ha; simp [metaLevel, stampedLog, dvals, nestedOf, nestedIn, preorder] at ha

/-! ## C72, C73 -/

theorem mem_initialClasses {d : Classifier} {cs : List Classifier} :
    (∀ p ∈ initialClasses d cs, p.2 = []) ∧ (dkeys (initialClasses d cs)).Nodup ∧
    ∀ c, c ∈ dkeys (initialClasses d cs) ↔ c ∈ cs ∨ c = d ∨ c = nameClassifier ∨ c = resourceClassifier ∨ c = lifeTransClassifier := by
  have gen : ∀ (l : List Classifier) (m : List (Classifier × ClassMap)), (∀ p ∈ m, p.2 = []) → (dkeys m).Nodup →
      (∀ p ∈ l.foldl (fun d c => dset c [] d) m, p.2 = []) ∧ (dkeys (l.foldl (fun d c => dset c ([] : ClassMap) d) m)).Nodup ∧
      ∀ c, c ∈ dkeys (l.foldl (fun d c => dset c ([] : ClassMap) d) m) ↔ c ∈ dkeys m ∨ c ∈ l := by
    intro l
    induction l with
    | nil => intro m h1 h2; exact ⟨h1, h2, by simp⟩
    | cons x l ih =>
      intro m h1 h2
      have := ih (dset x [] m) (by
        intro p hp
        rcases mem_dset hp with hp | rfl
        · exact h1 p hp
        · rfl) (nodup_dset h2)
      refine ⟨this.1, this.2.1, ?_⟩
      intro c
      simp only [List.foldl_cons]
      rw [this.2.2 c, dkeys_dset]
      split
      · next hx =>
        simp only [List.mem_cons]
        constructor
        · rintro (h | h)
          · exact Or.inl h
          · exact Or.inr (Or.inr h)
        · rintro (h | h | h)
          · exact Or.inl h
          · subst h; exact Or.inl hx
          · exact Or.inr h
      · simp only [List.mem_append, List.mem_cons, List.not_mem_nil, or_false, or_assoc]
  have := gen (cs ++ [d, nameClassifier, resourceClassifier, lifeTransClassifier]) [] (by simp) (by simp [dkeys])
  refine ⟨this.1, this.2.1, ?_⟩
  intro c
  rw [initialClasses, this.2.2 c]
  simp [dkeys]

theorem registerTraces_flat {c : Classifier} : ∀ {ts : List (Trace F)} {m m' : ClassMap},
    registerTraces c m ts = .ok m' ↔ registerEvents c m (ts.map Trace.events).flatten = .ok m' := by
  intro ts
  induction ts with
  | nil => intro m m'; simp [registerTraces, registerEvents]
  | cons t ts ih =>
    intro m m'
    simp only [registerTraces, bind_ok, List.map_cons, List.flatten_cons, registerEvents_append_ok, ih]

theorem classesAfter_get {es : List (Event F)} {c : Classifier} : ∀ {cs cs' : List (Classifier × ClassMap)} {m : ClassMap},
    classesAfter es cs = .ok cs' → dget c cs = some m →
    ∃ m', dget c cs' = some m' ∧ registerEvents c m es = .ok m' := by
  intro cs
  induction cs with
  | nil => intro cs' m _ h; simp at h
  | cons p cs ih =>
    obtain ⟨c0, m0⟩ := p
    intro cs' m h hd
    simp only [classesAfter, bind_ok, Except.ok.injEq] at h
    obtain ⟨m1, h1, r, h2, rfl⟩ := h
    simp only [dget] at hd ⊢
    split at hd
    · next e =>
      simp at hd
      subst hd
      subst e
      exact ⟨m1, by simp, h1⟩
    · next e =>
      obtain ⟨m', h3, h4⟩ := ih h2 hd
      exact ⟨m', by simp [e, h3], h4⟩

theorem classesAfter_keys {es : List (Event F)} : ∀ {cs cs' : List (Classifier × ClassMap)},
    classesAfter es cs = .ok cs' → dkeys cs' = dkeys cs := by
  intro cs
  induction cs with
  | nil => intro cs' h; simp [classesAfter] at h; subst h; rfl
  | cons p cs ih =>
    obtain ⟨c0, m0⟩ := p
    intro cs' h
    simp only [classesAfter, bind_ok, Except.ok.injEq] at h
    obtain ⟨m1, h1, r, h2, rfl⟩ := h
    have := ih h2
    simp only [dkeys, List.map_cons] at this ⊢
    rw [this]

theorem dget_map {κ α β : Type} [DecidableEq κ] (f : α → β) (k : κ) : ∀ d : List (κ × α),
    dget k (d.map (fun p => (p.1, f p.2))) = (dget k d).map f
  | [] => rfl
  | (k', v) :: r => by
    simp only [List.map_cons, dget]
    split
    · rfl
    · exact dget_map f k r

/-- C72: the event classes in a summary are, for each covered classifier, those that
derive_event_classes gives; covered are the given ones, the default and the three standard ones. -/
theorem c72_event_classes {log : Log F} {d : Option Classifier} {cs : List Classifier} {i : LogInfo}
    (h : createInfo log d cs = .ok i) :
    (∀ c, c ∈ dkeys i.classes ↔
      c ∈ cs ∨ c = chosen d ∨ c = nameClassifier ∨ c = resourceClassifier ∨ c = lifeTransClassifier) ∧
    (∀ c m, dget c i.classes = some m → deriveClasses c log = .ok m) := by
  obtain ⟨la, ta, ea, ma, cls, lb, tbs, -, -, -, -, h5, -, rfl⟩ := createInfo_ok.1 h
  obtain ⟨j1, j2, j3⟩ := mem_initialClasses (d := chosen d) (cs := cs)
  have hk := classesAfter_keys h5
  refine ⟨?_, ?_⟩
  · intro c
    rw [← j3, ← hk]
    simp [dkeys, List.map_map, Function.comp_def]
  · intro c m hm
    simp only [dget_map] at hm
    cases hc : dget c cls with
    | none => rw [hc] at hm; simp at hm
    | some m1 =>
      rw [hc] at hm
      simp only [Option.map_some, Option.some.injEq] at hm
      have hin : c ∈ dkeys (initialClasses (chosen d) cs) := by rw [← hk]; exact dget_isSome.1 ⟨_, hc⟩
      obtain ⟨m0, hm0⟩ := dget_isSome.2 hin
      have h0 : m0 = [] := j1 _ (dget_mem hm0)
      subst h0
      obtain ⟨m2, h6, h7⟩ := classesAfter_get h5 hm0
      rw [hc] at h6
      simp only [Option.some.injEq] at h6
      subst h6
      have := registerTraces_flat.2 h7
      simp only [deriveClasses, this, bind, Except.bind, hm]

/-- C73: for typed logs in which a key always has the same type within a level, a summary that can
be built at all never has any time boundary, neither of the log nor of a trace. -/
theorem c73_no_bounds {log : Log F} (ht : TypedLog log) (hc : ConsistentLog log) {d : Option Classifier}
    {cs : List Classifier} {i : LogInfo} (h : createInfo log d cs = .ok i) :
    i.logBounds = ⟨none, none⟩ ∧ i.traceBounds = List.replicate log.traces.length ⟨none, none⟩ := by
  have hs := simple_of_created ht hc h
  obtain ⟨la, ta, ea, ma, cls, lb, tbs, -, -, -, -, -, h6, rfl⟩ := createInfo_ok.1 h
  have m3 : ∀ a ∈ eventLevel log, a ∈ everyAttr log := by intro a ha; simp [everyAttr, ha]
  have := allBounds_simple (ts := log.traces)
    (fun t ht' e he a ha => ⟨hs a (m3 a (eventLevel_mem (allEvents_mem ht' he) ha)),
      ht a (m3 a (eventLevel_mem (allEvents_mem ht' he) ha))⟩) []
  rw [h6] at this
  simp only [Except.ok.injEq, Prod.mk.injEq, List.nil_append] at this
  exact this

end

/-! ## C30 and C31: the cache of the log -/

/-- A step of a history: the log content changes, or a summary is requested. -/
inductive CacheOp (L : Type) where
  | modify (f : L → L)
  | request (c : Option Classifier)

/-- The state: content of the log and cached summary. -/
structure CacheState (L I : Type) where
  log : L
  cache : InfoCache I

/-- One step; a request that raises leaves everything as it was. -/
def cacheStep {L I : Type} (create : L → Classifier → Except PyErr I) (s : CacheState L I) : CacheOp L → CacheState L I
  | .modify f => { s with log := f s.log }
  | .request c =>
    match createLogInfo create s.log s.cache c with
    | .error _ => s
    | .ok (_, k) => { s with cache := k }

/-- A history. -/
def cacheRun {L I : Type} (create : L → Classifier → Except PyErr I) (s : CacheState L I) (ops : List (CacheOp L)) :
    CacheState L I := ops.foldl (cacheStep create) s

/-- Is the step a modification? -/
def CacheOp.isModify {L : Type} : CacheOp L → Prop
  | .modify _ => True
  | .request _ => False

/-- Is the step a request for this classifier? -/
def CacheOp.asksFor {L : Type} (c : Classifier) : CacheOp L → Prop
  | .modify _ => False
  | .request d => chosen d = c

/-- If something is cached for `c`, it describes the log. -/
def CacheFresh {L I : Type} (create : L → Classifier → Except PyErr I) (c : Classifier) (s : CacheState L I) : Prop :=
  ∀ i, s.cache.get c = some i → create s.log c = .ok i

theorem classifierEq_iff {a b : Classifier} : classifierEq a b = true ↔ a = b := by
  rw [(c17_zero_iff a b).2]
  constructor
  · rintro ⟨h1, h2⟩; cases a; cases b; simp_all
  · rintro rfl; exact ⟨rfl, rfl⟩

theorem InfoCache.get_set {I : Type} (k : InfoCache I) (c c' : Classifier) (i : I) :
    (k.set c i).get c' = if c' = c then some i else none := by
  simp only [InfoCache.set, InfoCache.get]
  by_cases h : c' = c
  · simp [h, classifierEq_iff.2]
  · have : classifierEq c' c = false := by
      cases hh : classifierEq c' c
      · rfl
      · exact absurd (classifierEq_iff.1 hh) h
    simp [h, this]

theorem createLogInfo_eq {L I : Type} (create : L → Classifier → Except PyErr I) (log : L) (k : InfoCache I)
    (c : Option Classifier) : createLogInfo create log k c =
      match k.get (chosen c) with
      | some i => .ok (i, k)
      | none => match create log (chosen c) with
        | .error e => .error e
        | .ok i => .ok (i, k.set (chosen c) i) := by
  cases c <;> rfl

theorem cacheStep_log {L I : Type} (create : L → Classifier → Except PyErr I) (s : CacheState L I)
    (d : Option Classifier) : (cacheStep create s (.request d)).log = s.log := by
  simp only [cacheStep]
  split <;> rfl

/-- A request for `d` leaves nothing cached for another classifier that was not cached before. -/
theorem cacheStep_other {L I : Type} {create : L → Classifier → Except PyErr I} {s : CacheState L I}
    {d : Option Classifier} {c : Classifier} (hne : chosen d ≠ c) {i : I}
    (h : (cacheStep create s (.request d)).cache.get c = some i) : s.cache.get c = some i := by
  simp only [cacheStep, createLogInfo_eq] at h
  cases hg : s.cache.get (chosen d) with
  | some j => rw [hg] at h; exact h
  | none =>
    rw [hg] at h
    simp only at h
    cases hcr : create s.log (chosen d) with
    | error e => rw [hcr] at h; exact h
    | ok j =>
      rw [hcr] at h
      simp only [InfoCache.get_set] at h
      rw [if_neg (fun e => hne e.symm)] at h
      simp at h

theorem createLogInfo_fresh {L I : Type} {create : L → Classifier → Except PyErr I} {s : CacheState L I}
    {c : Classifier} (h : CacheFresh create c s) {d : Option Classifier} (hd : chosen d = c) :
    (createLogInfo create s.log s.cache d).map Prod.fst = create s.log c ∧
    CacheFresh create c (cacheStep create s (.request d)) := by
  simp only [cacheStep, createLogInfo_eq, hd]
  cases hg : s.cache.get c with
  | some i =>
    simp only [Except.map]
    exact ⟨(h _ hg).symm, h⟩
  | none =>
    simp only
    cases hcr : create s.log c with
    | error e => exact ⟨rfl, h⟩
    | ok i =>
      refine ⟨rfl, ?_⟩
      intro i' hi'
      simp only [InfoCache.get_set, if_true, Option.some.injEq] at hi'
      subst hi'
      exact hcr

/-- C30 (part): in every history in which the log is not modified after the first request for the
classifier, a request for that classifier returns a summary of the current content of the log.
Missing from the full claim: histories that modify the log afterwards, for which it is false. -/
theorem c30_fresh_partial {L I : Type} (create : L → Classifier → Except PyErr I) (log : L) (c : Classifier)
    (pre post : List (CacheOp L)) (hpre : ∀ o ∈ pre, ¬ o.asksFor c) (hpost : ∀ o ∈ post, ¬ o.isModify)
    (d : Option Classifier) (hd : chosen d = c) :
    let s := cacheRun create ⟨log, InfoCache.empty⟩ (pre ++ post)
    (createLogInfo create s.log s.cache d).map Prod.fst = create s.log c := by
  intro s
  have h1 : ∀ (pre : List (CacheOp L)) (s0 : CacheState L I), (∀ o ∈ pre, ¬ o.asksFor c) → s0.cache.get c = none →
      (cacheRun create s0 pre).cache.get c = none := by
    intro pre
    induction pre with
    | nil => intro s0 _ h; exact h
    | cons o pre ih =>
      intro s0 hm h
      have ho := hm o (by simp)
      apply ih (cacheStep create s0 o) (fun o ho => hm o (List.mem_cons_of_mem _ ho))
      cases o with
      | modify f => exact h
      | request d' =>
        cases hh : (cacheStep create s0 (.request d')).cache.get c with
        | none => rfl
        | some i => rw [cacheStep_other ho hh] at h; simp at h
  have h2 : ∀ (post : List (CacheOp L)) (s0 : CacheState L I), (∀ o ∈ post, ¬ o.isModify) → CacheFresh create c s0 →
      CacheFresh create c (cacheRun create s0 post) := by
    intro post
    induction post with
    | nil => intro s0 _ h; exact h
    | cons o post ih =>
      intro s0 hr h
      have ho := hr o (by simp)
      apply ih (cacheStep create s0 o) (fun o ho => hr o (List.mem_cons_of_mem _ ho))
      cases o with
      | modify f => exact (ho trivial).elim
      | request d' =>
        by_cases e : chosen d' = c
        · exact (createLogInfo_fresh h e).2
        · intro i hi
          rw [cacheStep_log]
          exact h i (cacheStep_other e hi)
  apply (createLogInfo_fresh _ hd).1
  show CacheFresh create c (cacheRun create _ (pre ++ post))
  unfold cacheRun
  rw [List.foldl_append]
  apply h2 post _ hpost
  intro i hi
  have := h1 pre ⟨log, InfoCache.empty⟩ hpre rfl
  unfold cacheRun at this
  rw [this] at hi
  simp at hi

/-- C30: exactly what a request returns after the content changed: the stale summary if the last
summary that was made belongs to this classifier, and a fresh one otherwise. -/
theorem c30_returns {L I : Type} (create : L → Classifier → Except PyErr I) (log log' : L) (k : InfoCache I)
    (c c' : Option Classifier) {i : I} {k' : InfoCache I} (h : createLogInfo create log k c = .ok (i, k')) :
    (createLogInfo create log' k' c').map Prod.fst =
      if chosen c' = chosen c then .ok i else create log' (chosen c') := by
  have hget : k'.get (chosen c) = some i ∧ (∀ d, d ≠ chosen c → k'.get d = none) := by
    rw [createLogInfo_eq] at h
    cases hg : k.get (chosen c) with
    | some j =>
      rw [hg] at h
      simp only [Except.ok.injEq, Prod.mk.injEq] at h
      obtain ⟨rfl, rfl⟩ := h
      refine ⟨hg, ?_⟩
      intro d hd
      unfold InfoCache.get at hg ⊢
      cases hk : k.classifier with
      | none => rfl
      | some c0 =>
        rw [hk] at hg
        simp only at hg ⊢
        split at hg
        · next e =>
          have := classifierEq_iff.1 e
          subst this
          rw [if_neg]
          intro e'
          exact hd (classifierEq_iff.1 e')
        · simp at hg
    | none =>
      rw [hg] at h
      simp only at h
      cases hcr : create log (chosen c) with
      | error e => rw [hcr] at h; simp at h
      | ok j =>
        rw [hcr] at h
        simp only [Except.ok.injEq, Prod.mk.injEq] at h
        obtain ⟨rfl, rfl⟩ := h
        refine ⟨by rw [InfoCache.get_set]; simp, ?_⟩
        intro d hd
        rw [InfoCache.get_set, if_neg hd]
  rw [createLogInfo_eq]
  by_cases e : chosen c' = chosen c
  · rw [e, hget.1]
    simp [Except.map]
  · rw [hget.2 _ e, if_neg e]
    simp only
    cases create log' (chosen c') <;> rfl

section
variable {F : Type} [PyFloat F]

/-- A log of `n` traces with one event each. -/
def plainLog (n : Nat) : Log F :=
  { attrs := [], extensions := [], classifiers := [], globalTrace := [], globalEvent := [], features := [],
    traces := List.replicate n ⟨[], [litEvent 1 [(py!"concept:name", py!"a")]]⟩ }

/-- C30 is false: ask for a summary, add a trace, ask again: the second answer counts one trace. -/
theorem c30_refuted : ∃ (s : CacheState (Log F) LogInfo) (i : LogInfo) (k : InfoCache LogInfo),
    s = cacheRun (fun l c => createInfo l (some c) []) ⟨plainLog 1, InfoCache.empty⟩
      [.request none, .modify (fun l => { l with traces := l.traces ++ l.traces })] ∧
    createLogInfo (fun l c => createInfo l (some c) []) s.log s.cache none = .ok (i, k) ∧
    s.log.traces.length = 2 ∧ i.nTraces = 1 :=
  ⟨_, _, _, rfl, rfl, rfl, rfl⟩

end

/-- C31: after any history of set_info calls, get_info(c) is the summary of the very last call if
that call was for `c`, and None otherwise (also when nothing was ever set). -/
theorem c31_last_only {I : Type} (hist : List (Classifier × I)) (c : Classifier) :
    (hist.foldl (fun k p => InfoCache.set k p.1 p.2) InfoCache.empty).get c =
      match hist.getLast? with
      | none => none
      | some p => if c = p.1 then some p.2 else none := by
  rcases List.eq_nil_or_concat hist with rfl | ⟨h, p, rfl⟩
  · rfl
  · simp only [List.concat_eq_append, List.foldl_append, List.foldl_cons, List.foldl_nil, List.getLast?_append,
      List.getLast?_singleton, Option.some_or, InfoCache.get_set]

/-! ## Examples -/

section
variable {F : Type} [PyFloat F]

/-- Two dates of one awareness, out of order. -/
example : OneAwareness true [⟨2021, 1, 1, 0, 0, 0, 0, some 0⟩, ⟨2020, 1, 1, 0, 0, 0, 0, some 3600⟩] ∧
    registerDates TimeBounds.empty [⟨2021, 1, 1, 0, 0, 0, 0, some 0⟩, ⟨2020, 1, 1, 0, 0, 0, 0, some 3600⟩]
      = .ok ⟨some ⟨2020, 1, 1, 0, 0, 0, 0, some 3600⟩, some ⟨2021, 1, 1, 0, 0, 0, 0, some 0⟩⟩ := by
  constructor
  · intro d hd; simp at hd; rcases hd with rfl | rfl <;> rfl
  · rfl

/-- Three registrations, two keys. -/
example : ∃ i, AttrInfo.empty.registerAll (F := F)
    [.mk .literal py!"a" none (.str py!"x") [] [], .mk .discrete py!"b" none (.int 3) [] [],
     .mk .literal py!"a" none (.str py!"y") [] []] = .ok i ∧ i.frequency py!"a" = some 2 ∧ i.total = 3 :=
  ⟨_, rfl, rfl, rfl⟩

/-- Registration does not go through for a key that first comes with a timestamp, but does when the
timestamp comes second. -/
example : (∃ e, AttrInfo.empty.registerAll (F := F)
      [.mk .timestamp py!"a" none (.dt ⟨2021, 1, 1, 0, 0, 0, 0, some 0⟩) [] []] = .error e) ∧
    (∃ i, AttrInfo.empty.registerAll (F := F)
      [.mk .literal py!"a" none (.str py!"x") [] [],
       .mk .timestamp py!"a" none (.dt ⟨2021, 1, 1, 0, 0, 0, 0, some 0⟩) [] []] = .ok i) :=
  ⟨⟨_, rfl⟩, ⟨_, rfl⟩⟩

/-- A log that meets the hypotheses of c29_success_iff and can be summarised, with a nested
attribute. -/
def nestedLog : Log F :=
  { attrs := [(py!"l", .mk .literal py!"l" none (.str py!"v") [(py!"n", .mk .discrete py!"n" none (.int 1) [] [])] [])],
    extensions := [], classifiers := [], globalTrace := [], globalEvent := [], features := [],
    traces := [⟨[], [litEvent 1 [(py!"concept:name", py!"a")]]⟩] }

example : TypedLog (nestedLog (F := F)) ∧ ConsistentLog (nestedLog (F := F)) ∧
    (∀ a ∈ everyAttr (nestedLog (F := F)), SimpleKind a) ∧
    (∃ i, createInfo (nestedLog (F := F)) none [] = .ok i ∧ i.nEvents = 1 ∧ i.metaAttrs.frequency py!"n" = some 1) := by
  refine ⟨?_, ⟨?_, ?_, ?_, ?_⟩, ?_, ⟨_, rfl, rfl, rfl⟩⟩
  · intro a ha
    simp [everyAttr, logLevel, traceLevel, eventLevel, metaLevel, nestedLog, allEvents, dvals, nestedOf, nestedIn, preorder, litEvent] at ha
    rcases ha with rfl | rfl | rfl <;> simp [TypedVal, Attr.kind, Attr.val]
  · intro a ha b hb _; simp [logLevel, nestedLog, dvals] at ha hb; rw [ha, hb]
  · intro a ha; simp [traceLevel, nestedLog, dvals] at ha
  · intro a ha b hb _; simp [eventLevel, nestedLog, allEvents, dvals, litEvent] at ha hb; rw [ha, hb]
  · intro a ha b hb _
    simp [metaLevel, nestedLog, dvals, nestedOf, nestedIn, preorder, litEvent] at ha hb; rw [ha, hb]
  · intro a ha
    simp [everyAttr, logLevel, traceLevel, eventLevel, metaLevel, nestedLog, allEvents, dvals, nestedOf, nestedIn, preorder, litEvent] at ha
    rcases ha with rfl | rfl | rfl <;> simp [SimpleKind, Attr.kind]

end

end Opy
