import Verif.Props.LogInfo
import Verif.Props.MxmlSave
/-
C29 for every typed log: exactly which logs can be summarised.
-/
set_option linter.unusedSectionVars false
namespace Opy

section
variable {F : Type} [PyFloat F]

/-! ## Specification -/

/-- The event happened at `d`: a timestamp attribute with this value is stored under "time:timestamp". -/
def HappenedAt (e : Event F) (d : DateTime) : Prop :=
  ∃ a, dget py!"time:timestamp" e.attrs = some a ∧ a.kind = .timestamp ∧ a.val = .dt d

/-- The classifiers a summary uses: the given ones, the default (or the standard one), and the ones by name, by resource and by
lifecycle transition. -/
def Consulted (d : Option Classifier) (cs : List Classifier) (c : Classifier) : Prop :=
  c ∈ cs ∨ d = some c ∨ (d = none ∧ c = ⟨py!"MXML Legacy Classifier", [py!"concept:name", py!"lifecycle:transition"]⟩) ∨
  c = ⟨py!"Event Name", [py!"concept:name"]⟩ ∨ c = ⟨py!"Resource", [py!"org:resource"]⟩ ∨
  c = ⟨py!"Lifecycle transition", [py!"lifecycle:transition"]⟩

/-- What a summary needs. -/
structure Summarisable (log : Log F) (d : Option Classifier) (cs : List Classifier) : Prop where
  /-- On each level, the first attribute of a key is neither a timestamp nor a list nor a container. -/
  ofLog : FirstSimple (logLevel log)
  ofTraces : FirstSimple (traceLevel log)
  ofEvents : FirstSimple (eventLevel log)
  ofMeta : FirstSimple (metaLevel log)
  /-- What the classifiers look at can be printed. -/
  printed : ∀ c, Consulted d cs c → ∀ e ∈ allEvents log, ∀ k ∈ c.keys, ∀ a, dget k e.attrs = some a → Prints a
  /-- No list or container is called "time:timestamp". -/
  noCollection : ∀ e ∈ allEvents log, ∀ a, dget py!"time:timestamp" e.attrs = some a → a.kind ≠ .list ∧ a.kind ≠ .container
  /-- The times of any two events can be compared: both say their offset from UTC, or neither does. -/
  comparable : ∀ e ∈ allEvents log, ∀ e' ∈ allEvents log, ∀ t t', HappenedAt e t → HappenedAt e' t' →
    t.tz.isSome = t'.tz.isSome

/-! ## Classes -/

theorem printAttr_iff {e : Event F} {k : Str} :
    (∃ s, printAttr e k = .ok s) ↔ ∀ a, dget k e.attrs = some a → Prints a := by
  unfold printAttr
  cases h : dget k e.attrs with
  | none => simp
  | some a =>
    have ha := attrStr_okIff a
    cases hs : attrStr a with
    | ok s =>
      rw [hs] at ha
      simp only [OkIff] at ha
      simp only [hs]
      exact ⟨fun _ b hb => by cases hb; exact ha, fun _ => ⟨_, rfl⟩⟩
    | error x =>
      rw [hs] at ha
      simp only [hs]
      exact ⟨fun ⟨_, h⟩ => (nomatch h), fun h => absurd (h a rfl) ha.1⟩

theorem bind_isOk {α β : Type} {x : Except PyErr α} {f : α → Except PyErr β} (hf : ∀ a, ∃ b, f a = .ok b) :
    (∃ b, (x >>= f) = .ok b) ↔ ∃ a, x = .ok a := by
  cases x with
  | error e => exact ⟨fun ⟨_, h⟩ => (nomatch h), fun ⟨_, h⟩ => (nomatch h)⟩
  | ok a => exact ⟨fun _ => ⟨a, rfl⟩, fun _ => hf a⟩

theorem bind_both {α β : Type} {x : Except PyErr α} {f : α → Except PyErr β} {P : Prop}
    (hf : ∀ a, x = .ok a → ((∃ b, f a = .ok b) ↔ P)) :
    (∃ b, (x >>= f) = .ok b) ↔ (∃ a, x = .ok a) ∧ P := by
  cases x with
  | error e => exact ⟨fun ⟨_, h⟩ => (nomatch h), fun ⟨⟨_, h⟩, _⟩ => (nomatch h)⟩
  | ok a => exact ⟨fun h => ⟨⟨a, rfl⟩, (hf a rfl).1 h⟩, fun h => (hf a rfl).2 h.2⟩

theorem identityParts_iff {e : Event F} : ∀ {ks : List Str},
    (∃ s, identityParts e ks = .ok s) ↔ ∀ k ∈ ks, ∃ s, printAttr e k = .ok s
  | [] => ⟨fun _ _ hk => (nomatch hk), fun _ => ⟨_, rfl⟩⟩
  | k :: ks => by
    simp only [identityParts]
    rw [bind_both (P := ∀ k ∈ ks, ∃ s, printAttr e k = .ok s)]
    · simp
    · intro a _
      rw [bind_isOk (fun r => ⟨_, rfl⟩)]
      exact identityParts_iff

theorem classIdentity_iff {e : Event F} {c : Classifier} :
    (∃ s, classIdentity c e = .ok s) ↔ ∀ k ∈ c.keys, ∀ a, dget k e.attrs = some a → Prints a := by
  simp only [← printAttr_iff]
  unfold classIdentity
  split
  · next k hk =>
    rw [hk, bind_isOk (fun a => by cases a <;> exact ⟨_, rfl⟩)]
    simp
  · next k1 k2 hk =>
    rw [hk, bind_both (P := ∃ s, printAttr e k2 = .ok s)]
    · simp
    · intro a _
      rw [bind_isOk (fun b => by cases a <;> cases b <;> exact ⟨_, rfl⟩)]
  · rw [bind_isOk (fun b => ⟨_, rfl⟩)]
    exact identityParts_iff

theorem registerEvents_iff {c : Classifier} : ∀ {es : List (Event F)} {m : ClassMap},
    (∃ m', registerEvents c m es = .ok m') ↔ ∀ e ∈ es, ∃ s, classIdentity c e = .ok s
  | [], m => ⟨fun _ e he => (nomatch he), fun _ => ⟨_, rfl⟩⟩
  | e :: es, m => by
    simp only [registerEvents]
    rw [bind_both (P := ∀ e ∈ es, ∃ s, classIdentity c e = .ok s)]
    · simp only [registerEvent]
      rw [bind_isOk (fun b => ⟨_, rfl⟩)]
      simp
    · intro a _
      exact registerEvents_iff

theorem classesAfter_iff {es : List (Event F)} : ∀ {cs : List (Classifier × ClassMap)},
    (∃ cs', classesAfter es cs = .ok cs') ↔ ∀ c ∈ dkeys cs, ∀ e ∈ es, ∃ s, classIdentity c e = .ok s
  | [] => ⟨fun _ c hc => (nomatch hc), fun _ => ⟨_, rfl⟩⟩
  | (c, m) :: cs => by
    simp only [classesAfter]
    rw [bind_both (P := ∀ c ∈ dkeys cs, ∀ e ∈ es, ∃ s, classIdentity c e = .ok s)]
    · rw [registerEvents_iff]
      simp [dkeys]
    · intro a _
      rw [bind_isOk (fun b => ⟨_, rfl⟩)]
      exact classesAfter_iff

theorem registerTraces_iff {c : Classifier} : ∀ {ts : List (Trace F)} {m : ClassMap},
    (∃ m', registerTraces c m ts = .ok m') ↔ ∀ t ∈ ts, ∀ e ∈ t.events, ∃ s, classIdentity c e = .ok s
  | [], m => ⟨fun _ e he => (nomatch he), fun _ => ⟨_, rfl⟩⟩
  | t :: ts, m => by
    simp only [registerTraces]
    rw [bind_both (P := ∀ t ∈ ts, ∀ e ∈ t.events, ∃ s, classIdentity c e = .ok s)]
    · rw [registerEvents_iff]
      simp
    · intro a _
      exact registerTraces_iff

/-- **C19** to **C22** speak about exactly the logs whose classes can be derived: those whose identities exist, which are those
in which every attribute the classifier looks at can be printed. -/
theorem c19_when (c : Classifier) (log : Log F) :
    ((∃ m, deriveClasses c log = .ok m) ↔ ∃ ids, IdentitiesOf c log ids) ∧
    ((∃ ids, IdentitiesOf c log ids) ↔ ∀ t ∈ log.traces, ∀ e ∈ t.events, ∀ k ∈ c.keys, ∀ a, dget k e.attrs = some a → Prints a) := by
  have key : ∀ es : List (Event F), (∃ ids : List Str, es.map (classIdentity c) = ids.map .ok) ↔ ∀ e ∈ es, ∃ s, classIdentity c e = .ok s := by
    intro es
    induction es with
    | nil => exact ⟨fun _ e he => (nomatch he), fun _ => ⟨[], rfl⟩⟩
    | cons e es ih =>
      constructor
      · rintro ⟨ids, h⟩
        cases ids with
        | nil => simp at h
        | cons i ids =>
          simp only [List.map_cons, List.cons.injEq] at h
          intro x hx
          rcases List.mem_cons.1 hx with rfl | hx
          · exact ⟨i, h.1⟩
          · exact ih.1 ⟨ids, h.2⟩ x hx
      · intro h
        obtain ⟨s, hs⟩ := h e List.mem_cons_self
        obtain ⟨ids, hi⟩ := ih.2 fun x hx => h x (List.mem_cons_of_mem _ hx)
        exact ⟨s :: ids, by simp [hs, hi]⟩
  have hall : (∀ e ∈ allEvents log, ∃ s, classIdentity c e = .ok s) ↔ ∀ t ∈ log.traces, ∀ e ∈ t.events, ∃ s, classIdentity c e = .ok s := by
    simp only [allEvents, List.mem_flatten, List.mem_map]
    exact ⟨fun h t ht e he => h e ⟨_, ⟨t, ht, rfl⟩, he⟩, by rintro h e ⟨_, ⟨t, ht, rfl⟩, he⟩; exact h t ht e he⟩
  have hids : (∃ ids, IdentitiesOf c log ids) ↔ ∀ t ∈ log.traces, ∀ e ∈ t.events, ∃ s, classIdentity c e = .ok s :=
    (key (allEvents log)).trans hall
  refine ⟨⟨fun ⟨m, h⟩ => hids.2 ?_, fun ⟨ids, h⟩ => ?_⟩, hids.trans ?_⟩
  · simp only [deriveClasses, bind_ok] at h
    obtain ⟨m', h, _⟩ := h
    exact registerTraces_iff.1 ⟨m', h⟩
  · obtain ⟨K, h, _⟩ := derive_table h
    exact ⟨_, h⟩
  · simp only [classIdentity_iff]

/-! ## Bounds -/

/-- The times of the events, in order. -/
def timesOf (es : List (Event F)) : List DateTime :=
  es.filterMap fun e => match dget timeKey e.attrs with
    | some a => (match a.val with | .dt d => some d | _ => none)
    | none => none

theorem mem_timesOf {es : List (Event F)} (ht : ∀ e ∈ es, ∀ a ∈ dvals e.attrs, TypedVal a) {d : DateTime} :
    d ∈ timesOf es ↔ ∃ e ∈ es, HappenedAt e d := by
  unfold timesOf HappenedAt
  rw [List.mem_filterMap]
  refine exists_congr fun e => and_congr_right fun he => ?_
  rw [show (py!"time:timestamp" : Str) = timeKey from rfl]
  cases hg : dget timeKey e.attrs with
  | none => simp
  | some a =>
    have h := ht e he a (List.mem_map_of_mem (dget_mem hg))
    obtain ⟨k, key, x, v, m, c⟩ := a
    cases k <;> cases v <;> simp_all [TypedVal, Attr.kind, Attr.val]

/-- No event of these has a list or container called "time:timestamp". -/
def NoTimeList (es : List (Event F)) : Prop := ∀ e ∈ es, ∀ a, dget timeKey e.attrs = some a → a.kind.isCollection = false

theorem boundsAfter_ok {es : List (Event F)} : ∀ {b b' : TimeBounds},
    boundsAfter b es = .ok b' ↔ NoTimeList es ∧ registerDates b (timesOf es) = .ok b' := by
  induction es with
  | nil => intro b b'; simp [boundsAfter, NoTimeList, timesOf, registerDates]
  | cons e es ih =>
    intro b b'
    simp only [boundsAfter, TimeBounds.registerEvent]
    have hn : NoTimeList (e :: es) ↔ (∀ a, dget timeKey e.attrs = some a → a.kind.isCollection = false) ∧ NoTimeList es := by
      simp [NoTimeList]
    cases hg : dget timeKey e.attrs with
    | none =>
      have : timesOf (e :: es) = timesOf es := by simp [timesOf, hg]
      rw [this, hn, hg]
      simp [bind, Except.bind, ih]
    | some a =>
      by_cases hk : a.kind.isCollection = true
      · have hv : getValue a = .error .attributeError := by simp [getValue, hk]
        rw [hn, hg]
        simp only [hv]
        simp [bind, Except.bind, hk]
      · have hk' : a.kind.isCollection = false := by simpa using hk
        have hv : getValue a = .ok a.val := by simp [getValue, hk']
        rw [hn, hg]
        simp only [hv]
        cases hval : a.val with
        | dt d =>
          have : timesOf (e :: es) = d :: timesOf es := by simp [timesOf, hg, hval]
          rw [this]
          simp only [registerDates]
          cases b.register d <;> simp [bind, Except.bind, ih, hk']
        | _ =>
          have : timesOf (e :: es) = timesOf es := by simp [timesOf, hg, hval]
          rw [this]
          simp [bind, Except.bind, ih, hk']

theorem register_alike {b b' : TimeBounds} {ds : List DateTime} {d : DateTime} (hb : BoundsOf b ds)
    (h : b.register d = .ok b') : ds = [] ∨ ∃ f ∈ ds, d.tz.isSome = f.tz.isSome := by
  rcases hb with ⟨rfl, -, -⟩ | ⟨f, l, h1, h2, hf, -, -, -⟩
  · exact .inl rfl
  · refine .inr ⟨f, hf, ?_⟩
    unfold TimeBounds.register at h
    rw [h1] at h
    simp only [DateTime.lt] at h
    split at h
    · simp at h
    · split at *
      · assumption
      · simp at *
    · split at *
      · assumption
      · simp at *

theorem registerDates_alike : ∀ {ds : List DateTime} {b b' : TimeBounds} {done : List DateTime}, BoundsOf b done →
    (∀ x ∈ done, ∀ y ∈ done, x.tz.isSome = y.tz.isSome) → registerDates b ds = .ok b' →
    (∀ x ∈ done ++ ds, ∀ y ∈ done ++ ds, x.tz.isSome = y.tz.isSome) ∧ BoundsOf b' (done ++ ds)
  | [], b, b', done, hb, ha, h => by cases h; simpa using ⟨ha, hb⟩
  | d :: ds, b, b', done, hb, ha, h => by
    simp only [registerDates, bind_ok] at h
    obtain ⟨b1, h1, h2⟩ := h
    have hd := register_alike hb h1
    have hx : ∀ x ∈ done, d.tz.isSome = x.tz.isSome := by
      intro x hx
      rcases hd with rfl | ⟨f, hf, e⟩
      · cases hx
      · rw [e]; exact ha f hf x hx
    have ha' : ∀ x ∈ done ++ [d], ∀ y ∈ done ++ [d], x.tz.isSome = y.tz.isSome := by
      intro x hx' y hy'
      simp only [List.mem_append, List.mem_singleton] at hx' hy'
      rcases hx' with hx' | rfl <;> rcases hy' with hy' | rfl
      · exact ha x hx' y hy'
      · exact (hx x hx').symm
      · exact hx y hy'
      · rfl
    obtain ⟨b2, h3, h4⟩ := register_step (aw := d.tz.isSome) hb (fun x hx' => (hx x hx').symm) rfl
    rw [h1] at h3
    cases h3
    have := registerDates_alike h4 ha' h2
    simpa using this

theorem allBounds_iff : ∀ {ts : List (Trace F)} {lb : TimeBounds} {tbs : List TimeBounds} {done : List DateTime}, BoundsOf lb done →
    (∀ x ∈ done, ∀ y ∈ done, x.tz.isSome = y.tz.isSome) →
    ((∃ r, allBounds lb tbs ts = .ok r) ↔ NoTimeList (ts.map Trace.events).flatten ∧
      ∀ x ∈ done ++ timesOf (ts.map Trace.events).flatten, ∀ y ∈ done ++ timesOf (ts.map Trace.events).flatten,
        x.tz.isSome = y.tz.isSome)
  | [], lb, tbs, done, hb, ha => by
    simp only [allBounds, List.map_nil, List.flatten_nil, timesOf, List.filterMap_nil, List.append_nil]
    exact ⟨fun _ => ⟨fun e he => (nomatch he), ha⟩, fun _ => ⟨_, rfl⟩⟩
  | t :: ts, lb, tbs, done, hb, ha => by
    have hn : NoTimeList ((t :: ts).map Trace.events).flatten ↔ NoTimeList t.events ∧ NoTimeList (ts.map Trace.events).flatten := by
      simp only [NoTimeList, List.map_cons, List.flatten_cons, List.mem_append]
      exact ⟨fun h => ⟨fun e he => h e (.inl he), fun e he => h e (.inr he)⟩, fun h e he => he.elim (h.1 e) (h.2 e)⟩
    have hs : timesOf ((t :: ts).map Trace.events).flatten = timesOf t.events ++ timesOf (ts.map Trace.events).flatten := by
      simp [timesOf, List.filterMap_append]
    rw [hn, hs]
    simp only [allBounds]
    constructor
    · rintro ⟨r, h⟩
      simp only [bind_ok] at h
      obtain ⟨tb, h1, lb', h2, h3⟩ := h
      obtain ⟨n1, r1⟩ := boundsAfter_ok.1 h1
      obtain ⟨a1, b1⟩ := registerDates_alike (b := TimeBounds.empty) (done := []) (.inl ⟨rfl, rfl, rfl⟩) (by simp) r1
      simp only [List.nil_append] at a1 b1
      have key : (∀ x ∈ done ++ timesOf t.events, ∀ y ∈ done ++ timesOf t.events, x.tz.isSome = y.tz.isSome) := by
        rcases b1 with ⟨e, -, -⟩ | ⟨f, l, e1, e2, hf, hl, -, -⟩
        · rw [e]; simpa using ha
        · simp only [TimeBounds.merge, e1, e2, TimeBounds.registerOpt, bind_ok] at h2
          obtain ⟨lb1, m1, m2⟩ := h2
          have hf' : ∀ x ∈ done, x.tz.isSome = f.tz.isSome := by
            rcases register_alike hb m1 with rfl | ⟨g, hg, e⟩
            · intro x hx; cases hx
            · intro x hx; rw [e]; exact ha x hx g hg
          have all : ∀ x ∈ done ++ timesOf t.events, x.tz.isSome = f.tz.isSome := by
            intro x hx
            rcases List.mem_append.1 hx with hx | hx
            · exact hf' x hx
            · exact a1 x hx f hf
          intro x hx y hy
          rw [all x hx, all y hy]
      have hb' : BoundsOf lb' (done ++ timesOf t.events) := by
        cases hcase : done ++ timesOf t.events with
        | nil =>
          obtain ⟨e1, e2⟩ := List.append_eq_nil_iff.1 hcase
          rw [e1] at hb
          rw [e2] at b1
          obtain ⟨b', k1, k2⟩ := merge_bounds (aw := true) hb b1 (fun x hx => by cases hx) (fun x hx => by cases hx)
          rw [h2] at k1
          cases k1
          exact k2
        | cons x0 r =>
          have hx0 : x0 ∈ done ++ timesOf t.events := by rw [hcase]; simp
          obtain ⟨b', k1, k2⟩ := merge_bounds (aw := x0.tz.isSome) hb b1
            (fun x hx => key x (List.mem_append_left _ hx) x0 hx0) (fun x hx => key x (List.mem_append_right _ hx) x0 hx0)
          rw [h2] at k1
          cases k1
          rw [← hcase]
          exact k2
      obtain ⟨n2, a2⟩ := (allBounds_iff hb' key).1 ⟨r, h3⟩
      exact ⟨⟨n1, n2⟩, by simpa using a2⟩
    · rintro ⟨⟨n1, n2⟩, a⟩
      have key : ∃ aw, OneAwareness aw (done ++ timesOf t.events) := by
        cases hcase : done ++ timesOf t.events with
        | nil => exact ⟨true, fun x hx => by cases hx⟩
        | cons x0 r =>
          have sub : ∀ x ∈ x0 :: r, x ∈ done ++ (timesOf t.events ++ timesOf (ts.map Trace.events).flatten) := by
            intro x hx
            rw [← hcase] at hx
            rw [← List.append_assoc]
            exact List.mem_append_left _ hx
          exact ⟨x0.tz.isSome, fun x hx => a x (sub x hx) x0 (sub x0 (by simp))⟩
      obtain ⟨aw, haw⟩ := key
      obtain ⟨tb, k1, k2⟩ := c24_bounds (timesOf t.events) (aw := aw) (fun x hx => haw x (List.mem_append_right _ hx))
      obtain ⟨lb', k3, k4⟩ := merge_bounds hb k2 (fun x hx => haw x (List.mem_append_left _ hx)) (fun x hx => haw x (List.mem_append_right _ hx))
      have k5 := boundsAfter_ok.2 ⟨n1, k1⟩
      rw [k5]
      simp only [bind, Except.bind, k3]
      refine (allBounds_iff k4 ?_).2 ⟨n2, by simpa using a⟩
      intro x hx y hy
      rw [haw x hx, haw y hy]

/-! ## C29 -/

theorem consulted_iff {d : Option Classifier} {cs : List Classifier} {c : Classifier} :
    Consulted d cs c ↔ c ∈ dkeys (initialClasses (chosen d) cs) := by
  rw [mem_initialClasses.2.2]
  unfold Consulted chosen
  cases d with
  | none => simp; rfl
  | some c' => simp [eq_comm, nameClassifier, resourceClassifier, lifeTransClassifier]

/-- C29: the exact condition, for every typed log: XLogInfo.create succeeds if and only if on each level the first attribute of every
key is neither a timestamp nor a list nor a container, what the classifiers consult can be printed, no event has a list or container
called "time:timestamp", and the timestamps of the events all have an offset or all have none. -/
theorem c29_exact {log : Log F} (ht : TypedLog log) (d : Option Classifier) (cs : List Classifier) :
    (∃ i, createInfo log d cs = .ok i) ↔ Summarisable log d cs := by
  have m1 : ∀ a ∈ logLevel log, a ∈ everyAttr log := by intro a ha; simp [everyAttr, ha]
  have m2 : ∀ a ∈ traceLevel log, a ∈ everyAttr log := by intro a ha; simp [everyAttr, ha]
  have m3 : ∀ a ∈ eventLevel log, a ∈ everyAttr log := by intro a ha; simp [everyAttr, ha]
  have m4 : ∀ a ∈ metaLevel log, a ∈ everyAttr log := by intro a ha; simp [everyAttr, ha]
  have lv : ∀ {as : List (Attr F)}, (∀ a ∈ as, a ∈ everyAttr log) →
      ((∃ i, AttrInfo.empty.registerAll as = .ok i) ↔ FirstSimple as) :=
    fun has => c26_goes_through_iff (fun a ha => ht a (has a ha))
  have hte : ∀ e ∈ allEvents log, ∀ a ∈ dvals e.attrs, TypedVal a := fun e he a ha => ht a (m3 a (eventLevel_mem he ha))
  have hb := allBounds_iff (ts := log.traces) (lb := TimeBounds.empty) (tbs := []) (done := []) (.inl ⟨rfl, rfl, rfl⟩) (by simp)
  rw [show (log.traces.map Trace.events).flatten = allEvents log from rfl] at hb
  simp only [List.nil_append] at hb
  have hc := classesAfter_iff (es := allEvents log) (cs := initialClasses (chosen d) cs)
  have hcoll : NoTimeList (allEvents log) ↔
      ∀ e ∈ allEvents log, ∀ a, dget py!"time:timestamp" e.attrs = some a → a.kind ≠ .list ∧ a.kind ≠ .container := by
    refine forall_congr' fun e => forall_congr' fun _ => forall_congr' fun a => ?_
    refine imp_congr Iff.rfl ?_
    cases a.kind <;> simp [Kind.isCollection]
  constructor
  · rintro ⟨i, h⟩
    obtain ⟨la, ta, ea, ma, cls, lb, tbs, h1, h2, h3, h4, h5, h6, -⟩ := createInfo_ok.1 h
    obtain ⟨n, a⟩ := hb.1 ⟨_, h6⟩
    refine ⟨(lv m1).1 ⟨_, h1⟩, (lv m2).1 ⟨_, h2⟩, (lv m3).1 ⟨_, h3⟩, (lv m4).1 ⟨_, h4⟩, ?_, hcoll.1 n, ?_⟩
    · intro c hcc e he
      exact classIdentity_iff.1 (hc.1 ⟨_, h5⟩ c (consulted_iff.1 hcc) e he)
    · intro e he e' he' t t' h h'
      exact a t ((mem_timesOf hte).2 ⟨e, he, h⟩) t' ((mem_timesOf hte).2 ⟨e', he', h'⟩)
  · intro h
    obtain ⟨la, h1⟩ := (lv m1).2 h.ofLog
    obtain ⟨ta, h2⟩ := (lv m2).2 h.ofTraces
    obtain ⟨ea, h3⟩ := (lv m3).2 h.ofEvents
    obtain ⟨ma, h4⟩ := (lv m4).2 h.ofMeta
    obtain ⟨cls, h5⟩ := hc.2 (fun c hcc e he => classIdentity_iff.2 (h.printed c (consulted_iff.2 hcc) e he))
    obtain ⟨⟨lb, tbs⟩, h6⟩ := hb.2 ⟨hcoll.2 h.noCollection, by
      intro x hx y hy
      obtain ⟨e, he, hh⟩ := (mem_timesOf hte).1 hx
      obtain ⟨e', he', hh'⟩ := (mem_timesOf hte).1 hy
      exact h.comparable e he e' he' x y hh hh'⟩
    exact ⟨_, createInfo_ok.2 ⟨la, ta, ea, ma, cls, lb, tbs, h1, h2, h3, h4, h5, h6, rfl⟩⟩

end

/-! A log that can be summarised although it holds timestamps: an event whose "time:timestamp" is a text comes first. -/

def exLateStamp (tz tz' : Option Int) : Log ToyFloat :=
  { attrs := [], extensions := [], classifiers := [], globalTrace := [], globalEvent := [], features := [],
    traces := [⟨[], [⟨⟨1, by decide⟩, [(timeKey, .mk .literal timeKey none (.str py!"soon") [] [])]⟩,
                     ⟨⟨2, by decide⟩, [(timeKey, .mk .timestamp timeKey none (.dt ⟨2020, 1, 1, 0, 0, 0, 0, tz⟩) [] [])]⟩]⟩,
               ⟨[], [⟨⟨3, by decide⟩, [(timeKey, .mk .timestamp timeKey none (.dt ⟨2021, 1, 1, 0, 0, 0, 0, tz'⟩) [] [])]⟩]⟩] }

example : (createInfo (exLateStamp (some 0) (some 3600)) none []).isOk = true := by decide +kernel
example : (createInfo (exLateStamp (some 0) none) none []).isOk = false := by decide +kernel
example : TypedLog (exLateStamp (some 0) (some 3600)) := by
  intro a ha
  simp [everyAttr, logLevel, traceLevel, eventLevel, metaLevel, exLateStamp, allEvents, dvals, nestedOf, nestedIn, preorder] at ha
  rcases ha with rfl | rfl | rfl <;> simp [TypedVal, Attr.kind, Attr.val]

end Opy
