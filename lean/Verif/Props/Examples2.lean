import Verif.Props.Examples
/-
C98-C101: anonymising a log, counting activities and splitting a log into clusters (example scripts).
-/
set_option linter.unusedSectionVars false
namespace Opy

section
variable {F : Type} [PyFloat F]

/-! ## C98 -/

/-- Specification: the attribute names a person. -/
def NamesPerson (a : Attr F) : Prop := a.key = py!"Resource" ∨ a.key = py!"org:resource"

/-- Specification: the attribute does not tell who the person is. -/
def Hidden (a : Attr F) : Prop := NamesPerson a → a.kind.isCollection = false → a.val = .str py!"UNKNOWN"

/-- Specification: the attribute or an attribute inside of it. -/
inductive Inside : Attr F → Attr F → Prop
  | self (a) : Inside a a
  | child {a b c} : b ∈ a.attrs.map Prod.snd ++ a.coll → Inside c b → Inside c a

/-- Specification: nothing inside of the attribute tells who a person is. -/
def Anonymous (a : Attr F) : Prop := ∀ b, Inside b a → Hidden b

/-- The attributes of the traces, the events and the global attributes. -/
def innerAttrs (log : Log F) : List (Attr F) :=
  log.globalTrace ++ (log.globalEvent ++ log.traces.flatMap fun t =>
    t.attrs.map Prod.snd ++ t.events.flatMap fun e => e.attrs.map Prod.snd)

/-- Specification: nothing in the log tells who a person is. -/
def AnonymousLog (log : Log F) : Prop := ∀ a ∈ log.attrs.map Prod.snd ++ innerAttrs log, Anonymous a

open Classical in
/-- Specification: the attribute with its own value hidden. -/
noncomputable def hide : Attr F → Attr F
  | .mk k key e v m c => .mk k key e (if NamesPerson (.mk k key e v m c) then .str py!"UNKNOWN" else v) m c

/-- Specification: the log with `hide` applied to the attributes of the traces, the events and the global
attributes. -/
noncomputable def hideLog (log : Log F) : Log F :=
  { log with
    globalTrace := log.globalTrace.map hide
    globalEvent := log.globalEvent.map hide
    traces := log.traces.map fun t => ⟨t.attrs.map fun p => (p.1, hide p.2),
      t.events.map fun e => { e with attrs := e.attrs.map fun p => (p.1, hide p.2) }⟩ }

/-- The attribute can be changed. -/
def Settable (a : Attr F) : Prop := NamesPerson a → a.kind.isCollection = false

theorem mem_personKeys {k : Str} : k ∈ personKeys ↔ k = py!"Resource" ∨ k = py!"org:resource" := by
  simp [personKeys]

theorem anonAttr_ok {a b : Attr F} : anonAttr a = .ok b ↔ Settable a ∧ b = hide a := by
  obtain ⟨k, key, e, v, m, c⟩ := a
  simp only [anonAttr, hide, Settable]
  have hp : NamesPerson (Attr.mk k key e v m c) ↔ key ∈ personKeys := by
    rw [mem_personKeys]; rfl
  by_cases h : key ∈ personKeys
  · rw [if_pos h, if_pos (hp.2 h)]
    cases hk : k.isCollection with
    | true =>
      simp only [if_true]
      constructor
      · intro h'; cases h'
      · rintro ⟨h', _⟩
        have := h' (hp.2 h)
        simp [Attr.kind, hk] at this
    | false =>
      simp only [Bool.false_eq_true, if_false]
      constructor
      · intro h'
        injection h' with h'
        exact ⟨fun _ => hk, h'.symm⟩
      · rintro ⟨_, rfl⟩; rfl
  · rw [if_neg h, if_neg (fun h' => h (hp.1 h'))]
    constructor
    · intro h'
      injection h' with h'
      exact ⟨fun h'' => absurd (hp.1 h'') h, h'.symm⟩
    · rintro ⟨_, rfl⟩; rfl

theorem anonList_ok : ∀ {as bs : List (Attr F)}, anonList as = .ok bs ↔ (∀ a ∈ as, Settable a) ∧ bs = as.map hide := by
  intro as
  induction as with
  | nil =>
    intro bs
    simp only [anonList, Except.ok.injEq, List.map_nil]
    exact ⟨fun h => ⟨by simp, h.symm⟩, fun h => h.2.symm⟩
  | cons a as ih =>
    intro bs
    simp only [anonList, bind_ok, anonAttr_ok, ih, Except.ok.injEq, List.map_cons, List.forall_mem_cons]
    constructor
    · rintro ⟨x, ⟨h1, rfl⟩, y, ⟨h2, rfl⟩, rfl⟩
      exact ⟨⟨h1, h2⟩, rfl⟩
    · rintro ⟨⟨h1, h2⟩, rfl⟩
      exact ⟨_, ⟨h1, rfl⟩, _, ⟨h2, rfl⟩, rfl⟩

theorem anonMap_ok : ∀ {as bs : AttrMap F}, anonMap as = .ok bs ↔
    (∀ a ∈ as.map Prod.snd, Settable a) ∧ bs = as.map fun p => (p.1, hide p.2) := by
  intro as
  induction as with
  | nil =>
    intro bs
    simp only [anonMap, Except.ok.injEq, List.map_nil]
    exact ⟨fun h => ⟨by simp, h.symm⟩, fun h => h.2.symm⟩
  | cons a as ih =>
    obtain ⟨k, a⟩ := a
    intro bs
    simp only [anonMap, bind_ok, anonAttr_ok, ih, Except.ok.injEq, List.map_cons, List.forall_mem_cons]
    constructor
    · rintro ⟨x, ⟨h1, rfl⟩, y, ⟨h2, rfl⟩, rfl⟩
      exact ⟨⟨h1, h2⟩, rfl⟩
    · rintro ⟨⟨h1, h2⟩, rfl⟩
      exact ⟨_, ⟨h1, rfl⟩, _, ⟨h2, rfl⟩, rfl⟩

theorem anonEvents_ok : ∀ {es bs : List (Event F)}, anonEvents es = .ok bs ↔
    (∀ e ∈ es, ∀ a ∈ e.attrs.map Prod.snd, Settable a) ∧
    bs = es.map fun e => { e with attrs := e.attrs.map fun p => (p.1, hide p.2) } := by
  intro es
  induction es with
  | nil =>
    intro bs
    simp only [anonEvents, Except.ok.injEq, List.map_nil]
    exact ⟨fun h => ⟨by simp, h.symm⟩, fun h => h.2.symm⟩
  | cons a as ih =>
    intro bs
    simp only [anonEvents, bind_ok, anonMap_ok, ih, Except.ok.injEq, List.map_cons, List.forall_mem_cons]
    constructor
    · rintro ⟨x, ⟨h1, rfl⟩, y, ⟨h2, rfl⟩, rfl⟩
      exact ⟨⟨h1, h2⟩, rfl⟩
    · rintro ⟨⟨h1, h2⟩, rfl⟩
      exact ⟨_, ⟨h1, rfl⟩, _, ⟨h2, rfl⟩, rfl⟩

theorem anonTraces_ok : ∀ {es bs : List (Trace F)}, anonTraces es = .ok bs ↔
    (∀ t ∈ es, (∀ a ∈ t.attrs.map Prod.snd, Settable a) ∧ ∀ e ∈ t.events, ∀ a ∈ e.attrs.map Prod.snd, Settable a) ∧
    bs = es.map fun t => ⟨t.attrs.map fun p => (p.1, hide p.2),
      t.events.map fun e => { e with attrs := e.attrs.map fun p => (p.1, hide p.2) }⟩ := by
  intro es
  induction es with
  | nil =>
    intro bs
    simp only [anonTraces, Except.ok.injEq, List.map_nil]
    exact ⟨fun h => ⟨by simp, h.symm⟩, fun h => h.2.symm⟩
  | cons a as ih =>
    intro bs
    simp only [anonTraces, bind_ok, anonMap_ok, anonEvents_ok, ih, Except.ok.injEq, List.map_cons, List.forall_mem_cons]
    constructor
    · rintro ⟨x, ⟨h1, rfl⟩, y, ⟨h2, rfl⟩, z, ⟨h3, rfl⟩, rfl⟩
      exact ⟨⟨⟨h1, h2⟩, h3⟩, rfl⟩
    · rintro ⟨⟨⟨h1, h2⟩, h3⟩, rfl⟩
      exact ⟨_, ⟨h1, rfl⟩, _, ⟨h2, rfl⟩, _, ⟨h3, rfl⟩, rfl⟩

/-- **C98**, what is done: the script goes through exactly for the logs without a list or container with the
key of a person among the attributes of traces and events and the global attributes; it hides the
values of exactly these attributes and changes nothing else. -/
theorem c98_exact_partial (log log' : Log F) :
    anonymize log = .ok log' ↔ (∀ a ∈ innerAttrs log, Settable a) ∧ log' = hideLog log := by
  unfold anonymize
  simp only [bind_ok, anonList_ok, anonTraces_ok, Except.ok.injEq]
  constructor
  · rintro ⟨x, ⟨h1, rfl⟩, y, ⟨h2, rfl⟩, z, ⟨h3, rfl⟩, rfl⟩
    refine ⟨?_, rfl⟩
    intro a ha
    simp only [innerAttrs, List.mem_append, List.mem_flatMap] at ha
    rcases ha with h | h | ⟨t, ht, h | ⟨e, he, h⟩⟩
    · exact h1 a h
    · exact h2 a h
    · exact (h3 t ht).1 a h
    · exact (h3 t ht).2 e he a h
  · rintro ⟨h, rfl⟩
    refine ⟨_, ⟨fun a ha => h a ?_, rfl⟩, _, ⟨fun a ha => h a ?_, rfl⟩, _, ⟨fun t ht => ⟨fun a ha => h a ?_, fun e he a ha => h a ?_⟩, rfl⟩, rfl⟩
    · simp [innerAttrs, ha]
    · simp [innerAttrs, ha]
    · simp only [innerAttrs, List.mem_append, List.mem_flatMap]
      exact .inr (.inr ⟨t, ht, .inl ha⟩)
    · simp only [innerAttrs, List.mem_append, List.mem_flatMap]
      exact .inr (.inr ⟨t, ht, .inr ⟨e, he, ha⟩⟩)

theorem hide_parts (a : Attr F) : (hide a).key = a.key ∧ (hide a).kind = a.kind ∧ (hide a).attrs = a.attrs ∧ (hide a).coll = a.coll := by
  obtain ⟨k, key, e, v, m, c⟩ := a
  exact ⟨rfl, rfl, rfl, rfl⟩

theorem hidden_hide (a : Attr F) : Hidden (hide a) := by
  obtain ⟨k, key, e, v, m, c⟩ := a
  intro h _
  simp only [hide]
  have : NamesPerson (Attr.mk k key e v m c) := h
  rw [if_pos this]
  rfl

theorem anonymous_iff (a : Attr F) : Anonymous a ↔ Hidden a ∧ ∀ b ∈ a.attrs.map Prod.snd ++ a.coll, Anonymous b := by
  constructor
  · intro h
    exact ⟨h a (.self a), fun b hb c hc => h c (.child hb hc)⟩
  · rintro ⟨h1, h2⟩ b hb
    cases hb with
    | self => exact h1
    | child hm hi => exact h2 _ hm _ hi

theorem innerAttrs_hideLog (log : Log F) : innerAttrs (hideLog log) = (innerAttrs log).map hide := by
  simp only [innerAttrs, hideLog, List.map_append, List.map_flatMap, List.flatMap_map, List.map_map]
  rfl

/-- **C98**: the saved log is anonymous exactly if the attributes of the log itself and all nested attributes
already were. -/
theorem c98_anonymous_iff {log log' : Log F} (h : anonymize log = .ok log') :
    AnonymousLog log' ↔ (∀ a ∈ log.attrs.map Prod.snd, Anonymous a) ∧
      ∀ a ∈ innerAttrs log, ∀ b ∈ a.attrs.map Prod.snd ++ a.coll, Anonymous b := by
  obtain ⟨_, rfl⟩ := (c98_exact_partial log log').1 h
  unfold AnonymousLog
  rw [innerAttrs_hideLog]
  have e : (hideLog log).attrs = log.attrs := rfl
  rw [e]
  simp only [List.mem_append, or_imp, forall_and, List.mem_map (f := hide), forall_exists_index, and_imp]
  constructor
  · rintro ⟨h1, h2⟩
    refine ⟨h1, fun a ha b hb => ?_, fun a ha b hb => ?_⟩
    all_goals
      have := ((anonymous_iff _).1 (h2 _ a ha rfl)).2 b
      rw [(hide_parts a).2.2.1, (hide_parts a).2.2.2, List.mem_append] at this
      exact this (by first | exact .inl hb | exact .inr hb)
  · rintro ⟨h1, h2, h3⟩
    refine ⟨h1, ?_⟩
    rintro _ a ha rfl
    rw [anonymous_iff, (hide_parts a).2.2.1, (hide_parts a).2.2.2]
    refine ⟨hidden_hide a, fun b hb => ?_⟩
    rcases List.mem_append.1 hb with hb | hb
    · exact h2 a ha b hb
    · exact h3 a ha b hb

/-- **C98** is violated: an attribute of the log itself keeps the name of the person. -/
theorem c98_refuted : ∃ log log' : Log F, anonymize log = .ok log' ∧ ¬ AnonymousLog log' := by
  refine ⟨⟨[(py!"Resource", .mk .literal py!"Resource" none (.str py!"Pete") [] [])], [], [], [], [], [], []⟩, _, rfl, ?_⟩
  intro h
  have := h (.mk .literal py!"Resource" none (.str py!"Pete") [] []) (by simp) _ (.self _) (.inl rfl) rfl
  simp [Attr.val] at this

/-- **C98** is violated: so does an attribute nested in an attribute of an event. -/
theorem c98_nested_refuted : ∃ log log' : Log F, log.attrs = [] ∧ anonymize log = .ok log' ∧ ¬ AnonymousLog log' := by
  refine ⟨⟨[], [], [], [], [], [], [⟨[], [⟨0, [(py!"x", .mk .literal py!"x" none (.str py!"")
    [(py!"Resource", .mk .literal py!"Resource" none (.str py!"Pete") [] [])] [])]⟩]⟩]⟩, _, rfl, rfl, ?_⟩
  intro h
  have := h (.mk .literal py!"x" none (.str py!"") [(py!"Resource", .mk .literal py!"Resource" none (.str py!"Pete") [] [])] [])
    (by simp [innerAttrs]) (.mk .literal py!"Resource" none (.str py!"Pete") [] []) (.child (by simp [Attr.attrs]) (.self _)) (.inl rfl) rfl
  simp [Attr.val] at this

/-! ## C99 -/

/-- The events of the logs in order. -/
def eventsOf (logs : List (Log F)) : List (Event F) := logs.flatMap fun l => l.traces.flatMap fun t => t.events

/-- The counter `d` has counted the names `l`. -/
def Counted (d : List (Str × Nat)) (l : List Str) : Prop :=
  (∀ p, dget p d = if p ∈ l then some (l.count p) else none) ∧ (dkeys d).Nodup

theorem counts_tally {d : List (Str × Nat)} {l : List Str} (h : Counted d l) (p : Str) : Counted (tally d p) (l ++ [p]) := by
  obtain ⟨h1, h2⟩ := h
  have hg : tally d p = dset p (l.count p + 1) d := by
    unfold tally
    rw [h1 p]
    by_cases hp : p ∈ l
    · simp [hp]
    · simp [hp, List.count_eq_zero_of_not_mem hp]
  rw [hg]
  refine ⟨fun q => ?_, nodup_dset h2⟩
  rw [dget_dset]
  by_cases hq : q = p
  · subst hq
    simp
  · rw [if_neg hq, h1 q]
    have : List.count q [p] = 0 := List.count_eq_zero_of_not_mem (by simpa using hq)
    simp [hq, this]

theorem tallyEvents_counts {c : Classifier} {ident : Event F → Str} : ∀ {es : List (Event F)} {d : List (Str × Nat)} {l : List Str},
    Counted d l → (∀ e ∈ es, classIdentity c e = .ok (ident e)) →
    ∃ d', tallyEvents c d es = .ok d' ∧ Counted d' (l ++ es.map ident) := by
  intro es
  induction es with
  | nil => intro d l h _; exact ⟨d, rfl, by simpa using h⟩
  | cons e es ih =>
    intro d l h hn
    have h1 := hn e (List.mem_cons_self ..)
    obtain ⟨d', h2, h3⟩ := ih (counts_tally h (ident e)) (fun e he => hn e (List.mem_cons_of_mem _ he))
    exact ⟨d', by simp only [tallyEvents, h1, bind, Except.bind, h2], by simpa using h3⟩

theorem tallyTraces_counts {c : Classifier} {ident : Event F → Str} : ∀ {ts : List (Trace F)} {d : List (Str × Nat)} {l : List Str},
    Counted d l → (∀ t ∈ ts, ∀ e ∈ t.events, classIdentity c e = .ok (ident e)) →
    ∃ d', tallyTraces c d ts = .ok d' ∧ Counted d' (l ++ (ts.flatMap fun t => t.events).map ident) := by
  intro ts
  induction ts with
  | nil => intro d l h _; exact ⟨d, rfl, by simpa using h⟩
  | cons t ts ih =>
    intro d l h hn
    obtain ⟨d1, h1, h2⟩ := tallyEvents_counts (c := c) (ident := ident) h (hn t (List.mem_cons_self ..))
    obtain ⟨d', h3, h4⟩ := ih h2 (fun e he => hn e (List.mem_cons_of_mem _ he))
    exact ⟨d', by simp only [tallyTraces, h1, bind, Except.bind, h3], by simpa using h4⟩

theorem tallyLogs_counts {c : Classifier} {ident : Event F → Str} : ∀ {ls : List (Log F)} {d : List (Str × Nat)} {l : List Str},
    Counted d l → (∀ x ∈ ls, ∀ t ∈ x.traces, ∀ e ∈ t.events, classIdentity c e = .ok (ident e)) →
    ∃ d', tallyLogs c d ls = .ok d' ∧ Counted d' (l ++ (eventsOf ls).map ident) := by
  intro ts
  induction ts with
  | nil => intro d l h _; exact ⟨d, rfl, by simpa [eventsOf] using h⟩
  | cons t ts ih =>
    intro d l h hn
    obtain ⟨d1, h1, h2⟩ := tallyTraces_counts (c := c) (ident := ident) h (hn t (List.mem_cons_self ..))
    obtain ⟨d', h3, h4⟩ := ih h2 (fun e he => hn e (List.mem_cons_of_mem _ he))
    exact ⟨d', by simp only [tallyLogs, h1, bind, Except.bind, h3], by simpa [eventsOf] using h4⟩

/-- **C99**: the counter has one entry for each name that occurs in the logs, and it is the number of events
with this name. -/
theorem c99_counts {c : Classifier} {ident : Event F → Str} {logs : List (Log F)}
    (hn : ∀ e ∈ eventsOf logs, classIdentity c e = .ok (ident e)) :
    ∃ d, tallyLogs c [] logs = .ok d ∧ (dkeys d).Nodup ∧
      ∀ p, dget p d = if p ∈ (eventsOf logs).map ident then some ((eventsOf logs).countP fun e => ident e = p) else none := by
  obtain ⟨d, h1, h2, h3⟩ := tallyLogs_counts (c := c) (ident := ident) (ls := logs) (d := []) (l := [])
    ⟨fun p => by simp, List.nodup_nil⟩
    (fun x hx t ht e he => hn e (List.mem_flatMap.2 ⟨x, hx, List.mem_flatMap.2 ⟨t, ht, he⟩⟩))
  refine ⟨d, h1, h3, fun p => ?_⟩
  rw [h2 p, List.nil_append]
  have : List.count p ((eventsOf logs).map ident) = (eventsOf logs).countP fun e => ident e = p := by
    rw [List.count, List.countP_map]
    apply List.countP_congr
    intro x _
    simp
  rw [this]

/-! ## C100 -/

/-- The names of the events of a trace. -/
theorem clusterIds_eq {c : Classifier} {ident : Event F → Str} : ∀ {es : List (Event F)},
    (∀ e ∈ es, classIdentity c e = .ok (ident e)) → clusterIds c es = .ok (es.map ident) := by
  intro es
  induction es with
  | nil => intro _; rfl
  | cons e es ih =>
    intro h
    simp only [clusterIds, h e (List.mem_cons_self ..), ih (fun e he => h e (List.mem_cons_of_mem _ he)), bind, Except.bind, List.map_cons]

theorem logIds_eq {c : Classifier} {ident : Event F → Str} : ∀ {ts : List (Trace F)}, Names c ident ts →
    logIds c ts = .ok (ts.map (variant ident)) := by
  intro ts
  induction ts with
  | nil => intro _; rfl
  | cons t ts ih =>
    intro h
    simp only [logIds, clusterIds_eq (h t (List.mem_cons_self ..)), ih (fun e he => h e (List.mem_cons_of_mem _ he)), bind, Except.bind, List.map_cons]
    rfl

theorem mem_foldl_setAddAll : ∀ {ids : List (List Str)} {s : List Str} {x : Str},
    x ∈ ids.foldl setAddAll s ↔ x ∈ s ∨ ∃ t ∈ ids, x ∈ t := by
  intro ids
  induction ids with
  | nil => intro s x; simp
  | cons t ids ih =>
    intro s x
    rw [List.foldl_cons, ih, mem_setAddAll]
    simp only [List.mem_cons, exists_eq_or_imp]
    tauto

/-- The vector of a trace. -/
def vectorOf (order : List Str → List Str) (ids : List (List Str)) (t : List Str) : List Nat :=
  (order (ids.foldl setAddAll [])).map fun e => t.count e

theorem logVectors_eq (order : List Str → List Str) (ids : List (List Str)) :
    logVectors order ids = ids.map (vectorOf order ids) := rfl

/-- **C100**: two traces have the same vector exactly if every activity occurs in both equally often. -/
theorem c100_vectors {order : List Str → List Str} (ho : Enumerates order) {ids : List (List Str)} {s t : List Str}
    (hs : s ∈ ids) (ht : t ∈ ids) : vectorOf order ids s = vectorOf order ids t ↔ s.Perm t := by
  constructor
  · intro h
    rw [List.perm_iff_count]
    intro a
    unfold vectorOf at h
    by_cases ha : a ∈ order (ids.foldl setAddAll [])
    · exact List.map_inj_left.1 h a ha
    · have hno : ∀ u ∈ ids, a ∉ u := by
        intro u hu hau
        exact ha ((ho _).mem_iff.2 (mem_foldl_setAddAll.2 (.inr ⟨u, hu, hau⟩)))
      rw [List.count_eq_zero_of_not_mem (hno s hs), List.count_eq_zero_of_not_mem (hno t ht)]
  · intro h
    unfold vectorOf
    exact List.map_congr_left fun e _ => h.count_eq e

/-- Adding traces to the logs. -/
theorem distribute_ok {predict : List Nat → Nat} : ∀ {r : List (List Nat × Trace F)} {ls ls' : List (Log F)},
    distribute predict ls r = .ok ls' ↔ (∀ p ∈ r, predict p.1 < ls.length) ∧
      ls' = ls.mapIdx fun i l => { l with traces := l.traces ++ (r.filter fun p => predict p.1 = i).map Prod.snd } := by
  intro r
  induction r with
  | nil =>
    intro ls ls'
    simp only [distribute, Except.ok.injEq, List.filter_nil, List.map_nil, List.append_nil]
    have : (ls.mapIdx fun _ l => { l with traces := l.traces }) = ls := by
      apply List.ext_getElem?
      intro i
      simp
    exact ⟨fun h => ⟨by simp, by rw [this]; exact h.symm⟩, fun h => by rw [h.2, this]⟩
  | cons p r ih =>
    intro ls ls'
    obtain ⟨v, t⟩ := p
    simp only [distribute, bind_ok, ih, List.forall_mem_cons]
    have upd : ∀ l, ls[predict v]? = some l → (ls.set (predict v) { l with traces := l.traces ++ [t] }).mapIdx
          (fun (i : Nat) (l : Log F) => { l with traces := l.traces ++ (r.filter fun (p : List Nat × Trace F) => predict p.1 = i).map Prod.snd }) =
        ls.mapIdx fun (i : Nat) (l : Log F) => { l with traces := l.traces ++ (((v, t) :: r).filter fun (p : List Nat × Trace F) => predict p.1 = i).map Prod.snd } := by
      intro l hl
      apply List.ext_getElem?
      intro i
      rw [List.getElem?_mapIdx, List.getElem?_mapIdx, List.getElem?_set]
      by_cases hi : predict v = i
      · subst hi
        obtain ⟨hlt, hl⟩ := List.getElem?_eq_some_iff.1 hl
        subst hl
        simp [hlt]
      · simp [hi]
    constructor
    · rintro ⟨x, hx, h1, rfl⟩
      unfold addToCluster at hx
      cases hl : ls[predict v]? with
      | none => rw [hl] at hx; cases hx
      | some l =>
        rw [hl] at hx
        injection hx with hx
        subst hx
        refine ⟨⟨(List.getElem?_eq_some_iff.1 hl).1, by simpa using h1⟩, upd l hl⟩
    · rintro ⟨⟨h0, h1⟩, rfl⟩
      obtain ⟨l, hl⟩ : ∃ l, ls[predict v]? = some l := ⟨_, List.getElem?_eq_getElem h0⟩
      refine ⟨_, by unfold addToCluster; rw [hl], by simpa using h1, (upd l hl).symm⟩

/-- **C100**: the script makes one log for each cluster.  The log of a cluster has exactly the traces for which
the cluster is predicted, in the order of the log.  It fails only if a predicted cluster does not exist. -/
theorem c100_clusters {order : List Str → List Str} {c : Classifier} {ident : Event F → Str} {n : Nat}
    {predict : List (List Nat) → List Nat → Nat} {log : Log F} (hn : Names c ident log.traces) :
    ∃ label : Trace F → Nat,
      (∀ t, label t = predict (log.traces.map fun t => vectorOf order (log.traces.map (variant ident)) (variant ident t))
        (vectorOf order (log.traces.map (variant ident)) (variant ident t))) ∧
      ∀ ls, clusterLogs order c n predict log = .ok ls ↔ (∀ t ∈ log.traces, label t < n) ∧
        ls = (List.range n).map fun i => { clusterBase log with traces := log.traces.filter fun t => label t = i } := by
  refine ⟨_, fun _ => rfl, fun ls => ?_⟩
  generalize hids : log.traces.map (variant ident) = ids
  have hvs : logVectors order ids = log.traces.map fun t => vectorOf order ids (variant ident t) := by
    rw [logVectors_eq, ← hids, List.map_map]
    rfl
  unfold clusterLogs
  rw [logIds_eq hn, hids]
  simp only [bind, Except.bind]
  rw [distribute_ok, hvs]
  have hz : ∀ (f : Trace F → List Nat) (ts : List (Trace F)), (ts.map f).zip ts = ts.map fun t => (f t, t) := by
    intro f ts
    induction ts with
    | nil => rfl
    | cons t ts ih => simp [ih]
  rw [hz]
  simp only [List.length_replicate, List.forall_mem_map]
  have e : ∀ (g : List Nat → Nat), ((List.replicate n (clusterBase log)).mapIdx fun i l => { l with traces := l.traces ++
        ((log.traces.map fun t => (vectorOf order ids (variant ident t), t)).filter fun p => g p.1 = i).map Prod.snd }) =
      (List.range n).map fun i => { clusterBase log with traces := log.traces.filter fun t => g (vectorOf order ids (variant ident t)) = i } := by
    intro g
    apply List.ext_getElem
    · simp
    · intro i h1 h2
      simp only [List.getElem_mapIdx, List.getElem_replicate, List.getElem_map, List.getElem_range, List.filter_map, List.map_map]
      have : (clusterBase log).traces = [] := rfl
      rw [this, List.nil_append]
      congr 1
      rw [show (Prod.snd ∘ fun t => (vectorOf order ids (variant ident t), t)) = id from rfl, List.map_id]
      rfl
  rw [e]

theorem distribute_error {predict : List Nat → Nat} : ∀ {ps : List (List Nat × Trace F)} {ls : List (Log F)} {e : PyErr},
    distribute predict ls ps = .error e → e = .keyError
  | [], _, _, h => by cases h
  | (v, t) :: r, ls, e, h => by
    simp only [distribute, addToCluster] at h
    cases hl : ls[predict v]? with
    | none =>
      rw [hl] at h
      cases h
      rfl
    | some l =>
      rw [hl] at h
      exact distribute_error (ps := r) h

/-- **C100**: otherwise it is a KeyError. -/
theorem c100_raises {order : List Str → List Str} {c : Classifier} {ident : Event F → Str} {n : Nat}
    {predict : List (List Nat) → List Nat → Nat} {log : Log F} (hn : Names c ident log.traces) {e : PyErr}
    (h : clusterLogs order c n predict log = .error e) : e = .keyError := by
  unfold clusterLogs at h
  rw [logIds_eq hn] at h
  exact distribute_error h

/-- **C100**: so the traces of the new logs, taken together, are the traces of the log, each as often, and traces
in which every activity occurs equally often come into the same log. -/
theorem c100_partition {order : List Str → List Str} {c : Classifier} {ident : Event F → Str} {n : Nat}
    {predict : List (List Nat) → List Nat → Nat} {log : Log F} (hn : Names c ident log.traces) {ls : List (Log F)}
    (h : clusterLogs order c n predict log = .ok ls) :
    ls.length = n ∧ (ls.flatMap fun l => l.traces).Perm log.traces ∧
    ∀ s ∈ log.traces, ∀ t ∈ log.traces, (variant ident s).Perm (variant ident t) → ∀ l ∈ ls, s ∈ l.traces → t ∈ l.traces := by
  obtain ⟨label, hl, hc⟩ := c100_clusters (order := order) (n := n) (predict := predict) hn
  obtain ⟨h1, rfl⟩ := (hc ls).1 h
  refine ⟨by simp, ?_, ?_⟩
  · rw [List.flatMap_map]
    have : ∀ (m : Nat) (ts : List (Trace F)), (∀ t ∈ ts, label t < m) →
        ((List.range m).flatMap fun i => ts.filter fun t => label t = i).Perm ts := by
      intro m
      induction m with
      | zero =>
        intro ts h
        cases ts with
        | nil => simp
        | cons t ts => exact absurd (h t (List.mem_cons_self ..)) (by simp)
      | succ m ih =>
        intro ts h
        rw [List.range_succ, List.flatMap_append]
        simp only [List.flatMap_cons, List.flatMap_nil, List.append_nil]
        have h1 : ((List.range m).flatMap fun i => ts.filter fun t => label t = i) =
            (List.range m).flatMap fun i => (ts.filter fun t => !decide (label t = m)).filter fun t => label t = i := by
          simp only [List.flatMap]
          congr 1
          apply List.map_congr_left
          intro i hi
          have hi : i < m := List.mem_range.1 hi
          rw [List.filter_filter]
          apply List.filter_congr
          intro t _
          by_cases ht : label t = i
          · have : label t ≠ m := by omega
            simp only [ht, decide_true, Bool.true_and]
            rw [ht] at this
            simp [this]
          · simp [ht]
        rw [h1]
        have h2 := ih (ts.filter fun t => !decide (label t = m)) (by
          intro t ht
          obtain ⟨ht1, ht2⟩ := List.mem_filter.1 ht
          have := h t ht1
          have : label t ≠ m := by simpa using ht2
          omega)
        refine (h2.append_right _).trans ?_
        exact (List.perm_append_comm).trans (List.filter_append_perm (fun t => decide (label t = m)) ts)
    exact this n log.traces h1
  · intro s hs t ht hp l hl' hsl
    obtain ⟨i, hi, rfl⟩ := List.mem_map.1 hl'
    have e : label s = label t := by
      rw [hl s, hl t]
      congr 1
      unfold vectorOf
      exact List.map_congr_left fun e _ => hp.count_eq e
    simp only [List.mem_filter, decide_eq_true_eq] at hsl ⊢
    exact ⟨ht, e ▸ hsl.2⟩

/-! ## C101 -/

/-- Specification: the log has everything of the other log except the traces. -/
def KeepsHeader (log l : Log F) : Prop :=
  l.attrs = log.attrs ∧ l.extensions = log.extensions ∧ l.classifiers = log.classifiers ∧
  l.globalTrace = log.globalTrace ∧ l.globalEvent = log.globalEvent

theorem distribute_header {predict : List Nat → Nat} {r : List (List Nat × Trace F)} {ls ls' : List (Log F)} {P : Log F → Prop}
    (hP : ∀ (l : Log F) ts, P l → P { l with traces := ts }) (h : distribute predict ls r = .ok ls') (hls : ∀ l ∈ ls, P l) :
    ∀ l ∈ ls', P l := by
  obtain ⟨_, rfl⟩ := distribute_ok.1 h
  intro l hl
  obtain ⟨i, hi, rfl⟩ := List.mem_mapIdx.1 hl
  exact hP _ _ (hls _ (List.getElem_mem hi))

/-- **C101**, what is done: the new logs have the attributes and extensions of the log, but no classifiers and no
global attributes, whatever the log has. -/
theorem c101_exact_partial {order : List Str → List Str} {c : Classifier} {n : Nat}
    {predict : List (List Nat) → List Nat → Nat} {log : Log F} {ls : List (Log F)}
    (h : clusterLogs order c n predict log = .ok ls) :
    ∀ l ∈ ls, l.attrs = log.attrs ∧ l.extensions = log.extensions ∧ l.classifiers = [] ∧ l.globalTrace = [] ∧ l.globalEvent = [] := by
  unfold clusterLogs at h
  rw [bind_ok] at h
  obtain ⟨ids, _, h⟩ := h
  refine distribute_header (P := fun l => l.attrs = log.attrs ∧ l.extensions = log.extensions ∧ l.classifiers = [] ∧
    l.globalTrace = [] ∧ l.globalEvent = []) (fun l ts hl => hl) h ?_
  intro l hl
  obtain ⟨_, rfl⟩ := List.mem_replicate.1 hl
  exact ⟨rfl, rfl, rfl, rfl, rfl⟩

/-- **C101** holds exactly for logs without classifiers and global attributes. -/
theorem c101_keeps_iff {order : List Str → List Str} {c : Classifier} {n : Nat}
    {predict : List (List Nat) → List Nat → Nat} {log : Log F} {ls : List (Log F)}
    (h : clusterLogs order c n predict log = .ok ls) :
    ∀ l ∈ ls, KeepsHeader log l ↔ log.classifiers = [] ∧ log.globalTrace = [] ∧ log.globalEvent = [] := by
  intro l hl
  obtain ⟨h1, h2, h3, h4, h5⟩ := c101_exact_partial h l hl
  unfold KeepsHeader
  rw [h1, h2, h3, h4, h5]
  exact ⟨fun ⟨_, _, a, b, c⟩ => ⟨a.symm, b.symm, c.symm⟩, fun ⟨a, b, c⟩ => ⟨rfl, rfl, a.symm, b.symm, c.symm⟩⟩

/-- **C101** is violated. -/
theorem c101_refuted (order : List Str → List Str) (c : Classifier) (predict : List (List Nat) → List Nat → Nat) :
    ∃ (log : Log F) (ls : List (Log F)), clusterLogs order c 1 predict log = .ok ls ∧ ∃ l ∈ ls, ¬ KeepsHeader log l := by
  refine ⟨⟨[], [], [c], [], [], [], []⟩, _, rfl, _, List.mem_singleton.2 rfl, ?_⟩
  intro h
  have := h.2.2.1
  simp [clusterBase] at this

end

/-! ## Examples -/

example : (anonymize (F := ToyFloat) ⟨[], [], [], [], [.mk .literal py!"org:resource" none (.str py!"Pete") [] []], [],
    [⟨[], [⟨0, [(py!"Resource", .mk .literal py!"Resource" none (.str py!"Sue") [] []),
      (py!"Cost", .mk .discrete py!"Cost" none (.int 5) [] [])]⟩]⟩]⟩).toOption.map
      (fun l => (l.globalEvent.map Attr.val, l.traces.map fun t => t.events.map fun e => e.attrs.map fun p => p.2.val)) =
    some ([.str py!"UNKNOWN"], [[[.str py!"UNKNOWN", .int 5]]]) := by decide +kernel

/-- A container with the key of a person makes the script fail. -/
example : (anonymize (F := ToyFloat) ⟨[], [], [], [.mk .container py!"Resource" none .none [] []], [], [], []⟩).toOption.isNone = true := by decide +kernel

def exLog : Log ToyFloat := ⟨[], [], [], [], [], [], [⟨[], [exEvent py!"a", exEvent py!"b"]⟩, ⟨[], [exEvent py!"a"]⟩,
  ⟨[], [exEvent py!"b", exEvent py!"a"]⟩]⟩

example : (tallyLogs activityClassifier [] [exLog, exLog]).toOption = some [(py!"a", 6), (py!"b", 4)] := by decide +kernel

/-- The first and the third trace are permutations of each other and come into the same log. -/
example : (clusterLogs id activityClassifier 2 (fun _ v => if v = [1, 1] then 0 else 1) exLog).toOption.map
    (fun ls => ls.map fun l => l.traces.length) = some [2, 1] := by decide +kernel

end Opy
