import Verif.Props.Api

/-! C168: what a file loads consists of traces and events only.  (The end tag of an event or a trace appends what the handler has in
`__event` or `__trace`, and that is `None` when another one has ended in between.) -/

set_option linter.unusedSectionVars false

namespace Opy

/-! ## Specification -/

mutual
/-- The element, or one within it, has this name (in whatever case). -/
def Xml.has (name : Str) : Xml → Prop
  | .elem t _ ks => lower t = name ∨ hasAny name ks
/-- The same for a list. -/
def hasAny (name : Str) : List Xml → Prop
  | [] => False
  | x :: xs => x.has name ∨ hasAny name xs
end

mutual
/-- No element with this name lies within another one. -/
def Xml.flat (name : Str) : Xml → Prop
  | .elem t _ ks => flatAll name ks ∧ (lower t = name → ¬ hasAny name ks)
/-- The same for a list. -/
def flatAll (name : Str) : List Xml → Prop
  | [] => True
  | x :: xs => x.flat name ∧ flatAll name xs
end

/-- No event within an event, no trace within a trace. -/
def Xml.plainNest (x : Xml) : Prop := x.flat py!"event" ∧ x.flat py!"trace"

section
variable {F : Type} [PyFloat F]

/-- The trace has `None` among its events, or the log among its traces. -/
def HoldsNone (h : Heap F) (x : Ref) : Prop :=
  ∃ r, h.get r = some .pyNone ∧ ((∃ m es, h.get x = some (.trace m es) ∧ r ∈ es) ∨ ∃ l, h.get x = some (.log l) ∧ r ∈ l.traces)

/-- The log, or one of its traces, has `None` in it. -/
def LogHoldsNone (h : Heap F) (l : Ref) : Prop := HoldsNone h l ∨ ∃ o t, h.get l = some (.log o) ∧ t ∈ o.traces ∧ HoldsNone h t

/-! ## The tags -/

mutual
theorem alternates_sax {name : Str} : ∀ (x : Xml) {o : Bool} {rest : List Sax},
    Alternates name o (x.sax ++ rest) ↔ x.flat name ∧ (x.has name → o = false) ∧ Alternates name o rest
  | .elem t as ks, o, rest => by
    have ih := fun {o : Bool} {rest : List Sax} => alternates_saxList (name := name) ks (o := o) (rest := rest)
    simp only [Xml.sax, List.cons_append, List.append_assoc, List.nil_append, Alternates, Xml.flat, Xml.has, ih]
    by_cases ht : lower t = name
    · simp only [ht, if_true, true_and, true_or, true_imp_iff, Bool.true_eq_false, imp_false]
      constructor
      · rintro ⟨rfl, a, b, c⟩
        exact ⟨⟨a, b⟩, rfl, c⟩
      · rintro ⟨⟨a, b⟩, rfl, c⟩
        exact ⟨rfl, a, b, c⟩
    · simp only [ht, if_false, false_or, false_imp_iff, and_true]
theorem alternates_saxList {name : Str} : ∀ (xs : List Xml) {o : Bool} {rest : List Sax},
    Alternates name o (saxList xs ++ rest) ↔ flatAll name xs ∧ (hasAny name xs → o = false) ∧ Alternates name o rest
  | [], o, rest => by simp [saxList, flatAll, hasAny]
  | x :: xs, o, rest => by
    have i1 := fun {o : Bool} {rest : List Sax} => alternates_sax (name := name) x (o := o) (rest := rest)
    have i2 := fun {o : Bool} {rest : List Sax} => alternates_saxList (name := name) xs (o := o) (rest := rest)
    simp only [saxList, List.append_assoc, i1, i2, flatAll, hasAny]
    constructor
    · rintro ⟨a, b, c, d, e⟩
      exact ⟨⟨a, c⟩, fun q => q.elim b d, e⟩
    · rintro ⟨⟨a, c⟩, q, e⟩
      exact ⟨a, fun z => q (.inl z), c, fun z => q (.inr z), e⟩
end

/-- The tags of a whole document alternate exactly when it is flat. -/
theorem alternates_iff_flat {name : Str} {x : Xml} : Alternates name false x.sax ↔ x.flat name := by
  have := alternates_sax (name := name) x (o := false) (rest := [])
  rw [List.append_nil] at this
  simp [this, Alternates]

theorem alternates_prefix {name : Str} : ∀ {a b : List Sax} {o : Bool}, Alternates name o (a ++ b) → Alternates name o a
  | [], _, _, _ => trivial
  | .start t as :: a, b, o, h => by
    simp only [List.cons_append, Alternates] at h ⊢
    split at h
    · next q => rw [if_pos q]; exact ⟨h.1, alternates_prefix h.2⟩
    · next q => rw [if_neg q]; exact alternates_prefix h
  | .stop t :: a, b, o, h => by
    simp only [List.cons_append, Alternates] at h ⊢
    split at h
    · next q => rw [if_pos q]; exact ⟨h.1, alternates_prefix h.2⟩
    · next q => rw [if_neg q]; exact alternates_prefix h

/-! ## What stays in the lists -/

/-- `None`s stay, and what traces and logs hold stays in them. -/
def Lasts (h h' : Heap F) : Prop :=
  (∀ r, h.get r = some .pyNone → h'.get r = some .pyNone) ∧
  (∀ r m es, h.get r = some (.trace m es) → ∃ m' es', h'.get r = some (.trace m' es') ∧ ∀ e ∈ es, e ∈ es') ∧
  (∀ r l, h.get r = some (.log l) → ∃ l', h'.get r = some (.log l') ∧ ∀ e ∈ l.traces, e ∈ l'.traces)

theorem Lasts.refl (h : Heap F) : Lasts h h := ⟨fun _ q => q, fun _ m es q => ⟨m, es, q, fun _ z => z⟩, fun _ l q => ⟨l, q, fun _ z => z⟩⟩

theorem Lasts.trans {a b c : Heap F} (h : Lasts a b) (k : Lasts b c) : Lasts a c := by
  refine ⟨fun r q => k.1 r (h.1 r q), fun r m es q => ?_, fun r l q => ?_⟩
  · obtain ⟨m1, e1, q1, z1⟩ := h.2.1 r m es q
    obtain ⟨m2, e2, q2, z2⟩ := k.2.1 r m1 e1 q1
    exact ⟨m2, e2, q2, fun e he => z2 e (z1 e he)⟩
  · obtain ⟨l1, q1, z1⟩ := h.2.2 r l q
    obtain ⟨l2, q2, z2⟩ := k.2.2 r l1 q1
    exact ⟨l2, q2, fun e he => z2 e (z1 e he)⟩

theorem Lasts.holds {h h' : Heap F} (k : Lasts h h') {x : Ref} (hx : HoldsNone h x) : HoldsNone h' x := by
  obtain ⟨r, h1, ⟨m, es, h2, h3⟩ | ⟨l, h2, h3⟩⟩ := hx
  · obtain ⟨m', es', h4, h5⟩ := k.2.1 _ _ _ h2
    exact ⟨r, k.1 r h1, .inl ⟨m', es', h4, h5 r h3⟩⟩
  · obtain ⟨l', h4, h5⟩ := k.2.2 _ _ h2
    exact ⟨r, k.1 r h1, .inr ⟨l', h4, h5 r h3⟩⟩

theorem Lasts.logHolds {h h' : Heap F} (k : Lasts h h') {l : Ref} (hx : LogHoldsNone h l) : LogHoldsNone h' l := by
  rcases hx with hx | ⟨o, t, h1, h2, h3⟩
  · exact .inl (k.holds hx)
  · obtain ⟨o', h4, h5⟩ := k.2.2 _ _ h1
    exact .inr ⟨o', t, h4, h5 t h2, k.holds h3⟩

/-- Objects that are there stay as they are. -/
theorem Lasts.same {h h' : Heap F} (k : ∀ r o, h.get r = some o → h'.get r = some o) : Lasts h h' :=
  ⟨fun r q => k r _ q, fun r m es q => ⟨m, es, k r _ q, fun _ z => z⟩, fun r l q => ⟨l, k r _ q, fun _ z => z⟩⟩

theorem Lasts.alloc (h : Heap F) (o : Obj F) : Lasts h (h.alloc o).2 := .same fun r o' q => by
  rw [← q]; exact get_alloc_old o (get_lt q)

theorem Lasts.more (h : Heap F) (os : List (Obj F)) (d : Nat) : Lasts h ⟨h.objs ++ os, d⟩ := .same fun r o' q => by
  have := get_lt q
  unfold Heap.get Heap.size at *
  rw [← q]
  exact List.getElem?_append_left this

theorem Lasts.put {h : Heap F} {r : Ref} {o o' : Obj F} (ho : h.get r = some o)
    (hk : match o with
      | .pyNone => False
      | .trace _ es => ∃ m es', o' = .trace m es' ∧ ∀ e ∈ es, e ∈ es'
      | .log l => ∃ l', o' = .log l' ∧ ∀ e ∈ l.traces, e ∈ l'.traces
      | _ => True) : Lasts h (h.put r o') := by
  refine ⟨fun s q => ?_, fun s m es q => ?_, fun s l q => ?_⟩ <;> by_cases hs : s = r
  · subst hs
    rw [q] at ho
    cases ho
    exact hk.elim
  · rw [get_put_ne _ hs]; exact q
  · subst hs
    rw [q] at ho
    cases ho
    obtain ⟨m', es', h1, h2⟩ := hk
    exact ⟨m', es', by rw [get_put_self _ (get_lt q), h1], h2⟩
  · exact ⟨m, es, by rw [get_put_ne _ hs]; exact q, fun _ z => z⟩
  · subst hs
    rw [q] at ho
    cases ho
    obtain ⟨l', h1, h2⟩ := hk
    exact ⟨l', by rw [get_put_self _ (get_lt q), h1], h2⟩
  · exact ⟨l, by rw [get_put_ne _ hs]; exact q, fun _ z => z⟩

theorem traceAppend_lasts {h h' : Heap F} {t e : Ref} (hr : traceAppend h t e = .ok h') : Lasts h h' := by
  unfold traceAppend at hr
  split at hr
  · next m es ho =>
    cases hr
    exact .put ho ⟨_, _, rfl, fun e he => List.mem_append_left _ he⟩
  · cases hr

theorem logAppend_lasts {h h' : Heap F} {t e : Ref} (hr : logAppend h t e = .ok h') : Lasts h h' := by
  unfold logAppend at hr
  split at hr
  · next o ho =>
    cases hr
    exact .put ho ⟨_, rfl, fun e he => List.mem_append_left _ he⟩
  · cases hr

theorem modLog_lasts {h h' : Heap F} {l : Option Ref} {f : LogObj → LogObj} (hf : ∀ o, (f o).traces = o.traces) (hr : modLog h l f = .ok h') : Lasts h h' := by
  unfold modLog at hr
  split at hr
  · cases hr
  · split at hr
    · next o ho =>
      cases hr
      exact .put ho ⟨_, rfl, fun e he => by rw [hf]; exact he⟩
    · cases hr

theorem mapSet_lasts {h h' : Heap F} {m v : Ref} {k : Str} (hr : mapSet h m k v = .ok h') : Lasts h h' := by
  unfold mapSet at hr
  split at hr
  · next d ho =>
    cases hr
    exact .put ho trivial
  · cases hr

theorem addToColl_lasts (h : Heap F) (as : List Ref) (i : Ref) : Lasts h (addToColl h as i) := by
  unfold addToColl
  split
  · exact .refl h
  · split
    · next ho =>
      split
      · exact .put ho trivial
      · exact .refl h
    · exact .refl h

/-- No tag takes a `None`, an event or a trace away. -/
theorem step_lasts {rnd : Nat → Uuid} {mgr : ExtMgr} {st st' : XesSt F} {e : Sax} (hr : xesStep (stdFactory F rnd) mgr st e = .ok st') :
    Lasts st.heap st'.heap := by
  cases e with
  | start t as =>
    simp only [xesStep] at hr
    by_cases ht : lower t ∈ attrTags
    · rw [xesStart_attr _ mgr st ht] at hr
      obtain ⟨o, _, hr⟩ := bind_ok.1 hr
      cases o with
      | none =>
        cases hr
        exact .refl _
      | some kv =>
        simp only [stdFactory, newAttr_eq, Except.ok.injEq] at hr
        subst hr
        exact .more ..
    · simp only [xesStart, ht, not_false_eq_true, if_true, stdFactory, createEvent_eq, createTrace_eq, createLog_eq] at hr
      repeat' (first | (cases hr; done) | (cases hr; exact .refl _) | (cases hr; exact .more ..) |
        (obtain ⟨_, hm, hr⟩ := bind_ok.1 hr; cases hr; first | exact modLog_lasts (by intro _; rfl) hm | exact (Lasts.more ..).trans (modLog_lasts (by intro _; rfl) hm)) |
        (obtain ⟨_, _, hr⟩ := bind_ok.1 hr) | (split at hr))
  | stop t =>
    simp only [xesStep, xesStop] at hr
    split at hr
    · cases hr
      exact .refl _
    split at hr
    · split at hr
      · split at hr
        · obtain ⟨_, hm, hr⟩ := bind_ok.1 hr
          split at hr <;> cases hr
          exact traceAppend_lasts hm
        · cases hr
        · obtain ⟨_, hm, hr⟩ := bind_ok.1 hr
          split at hr <;> cases hr
          exact (Lasts.alloc _ _).trans (traceAppend_lasts hm)
      split at hr
      · split at hr
        · obtain ⟨_, hm, hr⟩ := bind_ok.1 hr
          split at hr <;> cases hr
          exact logAppend_lasts hm
        · cases hr
        · obtain ⟨_, hm, hr⟩ := bind_ok.1 hr
          split at hr <;> cases hr
          exact (Lasts.alloc _ _).trans (logAppend_lasts hm)
      split at hr
      · split at hr <;> cases hr
        exact .refl _
      · cases hr
        exact .refl _
    · split at hr
      · cases hr
      split at hr
      · cases hr
      split at hr
      · obtain ⟨_, hm, hr⟩ := bind_ok.1 hr
        cases hr
        exact modLog_lasts (fun o => by split <;> rfl) hm
      split at hr
      · cases hr
      obtain ⟨_, _, hr⟩ := bind_ok.1 hr
      obtain ⟨_, _, hr⟩ := bind_ok.1 hr
      obtain ⟨_, hm, hr⟩ := bind_ok.1 hr
      cases hr
      exact (mapSet_lasts hm).trans (addToColl_lasts ..)

theorem run_lasts {rnd : Nat → Uuid} {mgr : ExtMgr} : ∀ {evs : List Sax} {st st' : XesSt F}, xesRun (stdFactory F rnd) mgr st evs = .ok st' →
    Lasts st.heap st'.heap
  | [], st, st', hr => by cases hr; exact .refl _
  | e :: es, st, st', hr => by
    obtain ⟨s1, h1, h2⟩ := bind_ok.1 hr
    exact (step_lasts h1).trans (run_lasts h2)

/-! ## Stop tags without a start tag before them -/

/-- Each end tag with this name follows a start tag with this name, with none between them. -/
def CleanStops (name : Str) : Bool → List Sax → Prop
  | _, [] => True
  | o, .start t _ :: es => CleanStops name (if lower t = name then true else o) es
  | o, .stop t :: es => (lower t = name → o = true) ∧ CleanStops name (if lower t = name then false else o) es

/-- Whether the last tag with this name is a start tag. -/
def endFlag (name : Str) : Bool → List Sax → Bool
  | o, [] => o
  | o, .start t _ :: es => endFlag name (if lower t = name then true else o) es
  | o, .stop t :: es => endFlag name (if lower t = name then false else o) es

theorem endFlag_append {name : Str} : ∀ {a b : List Sax} {o : Bool}, endFlag name o (a ++ b) = endFlag name (endFlag name o a) b
  | [], _, _ => rfl
  | .start _ _ :: a, _, _ => endFlag_append (a := a)
  | .stop _ :: a, _, _ => endFlag_append (a := a)

mutual
theorem endFlag_false {name : Str} : ∀ x : Xml, endFlag name false x.sax = false
  | .elem t as ks => by
    simp only [Xml.sax, endFlag, endFlag_append]
    split
    · rfl
    · exact endFlags_false ks
theorem endFlags_false {name : Str} : ∀ xs : List Xml, endFlag name false (saxList xs) = false
  | [] => rfl
  | x :: xs => by rw [saxList, endFlag_append, endFlag_false x, endFlags_false xs]
end

mutual
theorem hasnt_endFlag {name : Str} {o : Bool} : ∀ {x : Xml}, ¬ x.has name → endFlag name o x.sax = o
  | .elem t as ks, h => by
    simp only [Xml.has, not_or] at h
    simp only [Xml.sax, endFlag, endFlag_append, if_neg h.1]
    exact hasntAny_endFlag h.2
theorem hasntAny_endFlag {name : Str} {o : Bool} : ∀ {xs : List Xml}, ¬ hasAny name xs → endFlag name o (saxList xs) = o
  | [], _ => rfl
  | x :: xs, h => by
    simp only [hasAny, not_or] at h
    rw [saxList, endFlag_append, hasnt_endFlag h.1, hasntAny_endFlag h.2]
end

mutual
theorem has_endFlag {name : Str} {o : Bool} : ∀ {x : Xml}, x.has name → endFlag name o x.sax = false
  | .elem t as ks, h => by
    simp only [Xml.sax, endFlag, endFlag_append]
    by_cases ht : lower t = name
    · simp [ht]
    · rw [if_neg ht, if_neg ht]
      exact hasAny_endFlag (h.resolve_left ht)
theorem hasAny_endFlag {name : Str} {o : Bool} : ∀ {xs : List Xml}, hasAny name xs → endFlag name o (saxList xs) = false
  | [], h => h.elim
  | x :: xs, h => by
    rw [saxList, endFlag_append]
    rcases h with h | h
    · rw [has_endFlag h, endFlags_false]
    · exact hasAny_endFlag h
end

theorem cleanStops_append {name : Str} : ∀ {a b : List Sax} {o : Bool},
    CleanStops name o (a ++ b) ↔ CleanStops name o a ∧ CleanStops name (endFlag name o a) b
  | [], _, _ => by simp [CleanStops, endFlag]
  | .start _ _ :: a, _, _ => cleanStops_append (a := a)
  | .stop t :: a, b, o => by
    simp only [List.cons_append, CleanStops, endFlag]
    rw [cleanStops_append (a := a), and_assoc]

mutual
theorem clean_sax {name : Str} {o : Bool} : ∀ {x : Xml}, CleanStops name o x.sax ↔ x.flat name
  | .elem t as ks => by
    have ih := fun o => cleans_sax (name := name) (o := o) (xs := ks)
    simp only [Xml.sax, CleanStops, cleanStops_append, ih, Xml.flat, and_true]
    constructor
    · rintro ⟨a, b⟩
      refine ⟨a, fun ht hk => ?_⟩
      have := b ht
      rw [hasAny_endFlag hk] at this
      cases this
    · rintro ⟨a, b⟩
      refine ⟨a, fun ht => ?_⟩
      rw [hasntAny_endFlag (b ht), if_pos ht]
theorem cleans_sax {name : Str} {o : Bool} : ∀ {xs : List Xml}, CleanStops name o (saxList xs) ↔ flatAll name xs
  | [] => by simp [saxList, CleanStops, flatAll]
  | x :: xs => by rw [saxList, cleanStops_append, clean_sax, cleans_sax, flatAll]
end

/-- The state after a tag: what is open. -/
theorem step_flags {rnd : Nat → Uuid} {mgr : ExtMgr} {st st' : XesSt F} {e : Sax} (hr : xesStep (stdFactory F rnd) mgr st e = .ok st') :
    st'.event.isSome = endFlag py!"event" st.event.isSome [e] ∧ st'.trace.isSome = endFlag py!"trace" st.trace.isSome [e] := by
  have ho := step_open hr
  cases e with
  | start t as =>
    obtain ⟨o1, o2, o3, o4⟩ := ho
    simp only [endFlag]
    constructor
    · by_cases q : lower t = py!"event"
      · rw [if_pos q]; exact Option.isSome_iff_ne_none.2 (o1 q)
      · rw [if_neg q, o2 q]
    · by_cases q : lower t = py!"trace"
      · rw [if_pos q]; exact Option.isSome_iff_ne_none.2 (o3 q)
      · rw [if_neg q, o4 q]
  | stop t =>
    obtain ⟨o2, o4⟩ := ho
    simp only [endFlag]
    constructor
    · by_cases q : lower t = py!"event"
      · rw [if_pos q]
        simp only [xesStep, xesStop, q] at hr
        rw [if_neg (by decide), if_pos (by decide), if_pos trivial] at hr
        split at hr
        · obtain ⟨_, _, hr⟩ := bind_ok.1 hr
          split at hr <;> cases hr
          rfl
        · cases hr
        · next hn =>
          obtain ⟨_, _, hr⟩ := bind_ok.1 hr
          split at hr <;> cases hr
          simp [hn]
      · rw [if_neg q, o2 q]
    · by_cases q : lower t = py!"trace"
      · rw [if_pos q]
        simp only [xesStep, xesStop, q] at hr
        rw [if_neg (by decide), if_pos (by decide), if_neg (by decide), if_pos trivial] at hr
        split at hr
        · obtain ⟨_, _, hr⟩ := bind_ok.1 hr
          split at hr <;> cases hr
          rfl
        · cases hr
        · next hn =>
          obtain ⟨_, _, hr⟩ := bind_ok.1 hr
          split at hr <;> cases hr
          simp [hn]
      · rw [if_neg q, o4 q]

theorem run_flags {rnd : Nat → Uuid} {mgr : ExtMgr} : ∀ {evs : List Sax} {st st' : XesSt F}, xesRun (stdFactory F rnd) mgr st evs = .ok st' →
    st'.event.isSome = endFlag py!"event" st.event.isSome evs ∧ st'.trace.isSome = endFlag py!"trace" st.trace.isSome evs
  | [], st, st', hr => by cases hr; exact ⟨rfl, rfl⟩
  | e :: es, st, st', hr => by
    obtain ⟨s1, h1, h2⟩ := bind_ok.1 hr
    obtain ⟨a, b⟩ := step_flags h1
    obtain ⟨c, d⟩ := run_flags h2
    rw [c, d, a, b, ← endFlag_append, ← endFlag_append]
    exact ⟨rfl, rfl⟩

/-- The end tag of an event when none is open. -/
theorem stop_event_none {rnd : Nat → Uuid} {mgr : ExtMgr} {st st' : XesSt F} {t : Str} (ht : lower t = py!"event") (he : st.event = none)
    (hr : xesStep (stdFactory F rnd) mgr st (.stop t) = .ok st') : ∃ x, st.trace = some x ∧ st'.trace = some x ∧ HoldsNone st'.heap x := by
  simp only [xesStep, xesStop, ht] at hr
  rw [if_neg (by decide), if_pos (by decide), if_pos trivial] at hr
  split at hr
  · next q => rw [he] at q; cases q
  · cases hr
  · next x hx _ =>
    obtain ⟨h', hm, hr⟩ := bind_ok.1 hr
    split at hr <;> cases hr
    refine ⟨x, hx, hx, st.heap.size, (traceAppend_lasts hm).1 _ (get_alloc_new ..), .inl ?_⟩
    unfold traceAppend at hm
    split at hm
    · next m es ho =>
      cases hm
      exact ⟨m, _, get_put_self _ (get_lt ho), by simp [Heap.alloc, Heap.size]⟩
    · cases hm

/-- The end tag of a trace when none is open. -/
theorem stop_trace_none {rnd : Nat → Uuid} {mgr : ExtMgr} {st st' : XesSt F} {t : Str} (ht : lower t = py!"trace") (he : st.trace = none)
    (hr : xesStep (stdFactory F rnd) mgr st (.stop t) = .ok st') : ∃ x, st.log = some x ∧ HoldsNone st'.heap x := by
  simp only [xesStep, xesStop, ht] at hr
  rw [if_neg (by decide), if_pos (by decide), if_neg (by decide), if_pos trivial] at hr
  split at hr
  · next q => rw [he] at q; cases q
  · cases hr
  · next x hx _ =>
    obtain ⟨h', hm, hr⟩ := bind_ok.1 hr
    split at hr <;> cases hr
    refine ⟨x, hx, st.heap.size, (logAppend_lasts hm).1 _ (get_alloc_new ..), .inr ?_⟩
    unfold logAppend at hm
    split at hm
    · next o ho =>
      cases hm
      exact ⟨_, get_put_self _ (get_lt ho), by simp [Heap.alloc, Heap.size]⟩
    · cases hm

/-- The log of the handler. -/
theorem step_log {rnd : Nat → Uuid} {mgr : ExtMgr} {st st' : XesSt F} {e : Sax} (hn : ∀ t as, e = .start t as → lower t ≠ py!"log")
    (hr : xesStep (stdFactory F rnd) mgr st e = .ok st') : st'.log = st.log := by
  cases e with
  | start t as =>
    have hl := hn t as rfl
    simp only [xesStep, xesStart] at hr
    by_cases hA : lower t ∈ attrTags
    · rw [if_neg (by simpa using hA)] at hr
      obtain ⟨x, _, hr⟩ := bind_ok.1 hr
      cases x <;> (cases hr; rfl)
    · rw [if_pos hA, if_neg hl] at hr
      repeat' (first | (cases hr; done) | (cases hr; rfl) | (obtain ⟨_, _, hr⟩ := bind_ok.1 hr) | (split at hr))
  | stop t =>
    simp only [xesStep, xesStop] at hr
    repeat' (first | (cases hr; done) | (cases hr; rfl) | (obtain ⟨_, _, hr⟩ := bind_ok.1 hr) | (split at hr))

/-- An end tag of an event with none open leaves a `None` behind. -/
theorem run_event_none {rnd : Nat → Uuid} {mgr : ExtMgr} : ∀ {evs : List Sax} {st st' : XesSt F},
    xesRun (stdFactory F rnd) mgr st evs = .ok st' → ¬ CleanStops py!"event" st.event.isSome evs → ∃ x, HoldsNone st'.heap x
  | [], _, _, _, hc => absurd trivial hc
  | e :: es, st, st', hr, hc => by
    obtain ⟨s1, h1, h2⟩ := bind_ok.1 hr
    by_cases hc' : CleanStops py!"event" s1.event.isSome es
    · rw [(step_flags h1).1] at hc'
      cases e with
      | start t as => exact absurd hc' hc
      | stop t =>
        have ht : lower t = py!"event" := Classical.byContradiction fun q => hc ⟨fun z => absurd z q, hc'⟩
        have he : st.event = none := by
          cases hq : st.event with
          | none => rfl
          | some x => exact absurd ⟨fun _ => by rw [hq]; rfl, hc'⟩ hc
        obtain ⟨x, _, _, hx⟩ := stop_event_none ht he h1
        exact ⟨x, (run_lasts h2).holds hx⟩
    · exact run_event_none h2 hc'

/-- An end tag of a trace with none open leaves a `None` behind. -/
theorem run_trace_none {rnd : Nat → Uuid} {mgr : ExtMgr} : ∀ {evs : List Sax} {st st' : XesSt F},
    xesRun (stdFactory F rnd) mgr st evs = .ok st' → ¬ CleanStops py!"trace" st.trace.isSome evs →
    ∃ x, HoldsNone st'.heap x ∧ ((∀ t as, .start t as ∈ evs → lower t ≠ py!"log") → st'.log = some x)
  | [], _, _, _, hc => absurd trivial hc
  | e :: es, st, st', hr, hc => by
    have run_log : ∀ {evs : List Sax} {st st' : XesSt F}, (∀ t as, .start t as ∈ evs → lower t ≠ py!"log") →
        xesRun (stdFactory F rnd) mgr st evs = .ok st' → st'.log = st.log := by
      intro evs
      induction evs with
      | nil => intro st st' _ hr; cases hr; rfl
      | cons e es ih =>
        intro st st' hn hr
        obtain ⟨s1, h1, h2⟩ := bind_ok.1 hr
        rw [ih (fun t as q => hn t as (List.mem_cons_of_mem _ q)) h2, step_log (fun t as q => hn t as (by rw [q]; exact List.mem_cons_self)) h1]
    obtain ⟨s1, h1, h2⟩ := bind_ok.1 hr
    by_cases hc' : CleanStops py!"trace" s1.trace.isSome es
    · rw [(step_flags h1).2] at hc'
      cases e with
      | start t as => exact absurd hc' hc
      | stop t =>
        have ht : lower t = py!"trace" := Classical.byContradiction fun q => hc ⟨fun z => absurd z q, hc'⟩
        have he : st.trace = none := by
          cases hq : st.trace with
          | none => rfl
          | some x => exact absurd ⟨fun _ => by rw [hq]; rfl, hc'⟩ hc
        obtain ⟨x, hl, hx⟩ := stop_trace_none ht he h1
        refine ⟨x, (run_lasts h2).holds hx, fun hn => ?_⟩
        rw [run_log hn hr, hl]
    · obtain ⟨x, hx, hl⟩ := run_trace_none h2 hc'
      exact ⟨x, hx, fun hn => hl fun t as q => hn t as (List.mem_cons_of_mem _ q)⟩

/-- The log has a `None` in it, or the open trace has. -/
def NoneInside (st : XesSt F) (l : Ref) : Prop := LogHoldsNone st.heap l ∨ ∃ t, st.trace = some t ∧ HoldsNone st.heap t

theorem step_inside {rnd : Nat → Uuid} {mgr : ExtMgr} {st st' : XesSt F} {l : Ref} {e : Sax} (hl : st.log = some l) (hi : NoneInside st l)
    (hs : ∀ t as, e = .start t as → lower t = py!"trace" → st.trace = none) (hr : xesStep (stdFactory F rnd) mgr st e = .ok st') :
    NoneInside st' l := by
  have hk := step_lasts hr
  rcases hi with hi | ⟨x, h1, h2⟩
  · exact .inl (hk.logHolds hi)
  · have ho := step_open hr
    cases e with
    | start t as =>
      by_cases q : lower t = py!"trace"
      · rw [hs t as rfl q] at h1
        cases h1
      · exact .inr ⟨x, by rw [ho.2.2.2 q]; exact h1, hk.holds h2⟩
    | stop t =>
      by_cases q : lower t = py!"trace"
      · left
        right
        simp only [xesStep, xesStop, q] at hr
        rw [if_neg (by decide), if_pos (by decide), if_neg (by decide), if_pos trivial] at hr
        split at hr
        · next hl' ht' =>
          rw [hl] at hl'
          rw [h1] at ht'
          cases hl'
          cases ht'
          obtain ⟨h', hm, hr⟩ := bind_ok.1 hr
          split at hr <;> cases hr
          have hm' := hm
          unfold logAppend at hm'
          split at hm'
          · next o ho' =>
            cases hm'
            exact ⟨_, x, get_put_self _ (get_lt ho'), by simp, hk.holds h2⟩
          · cases hm'
        · cases hr
        · next hn => rw [h1] at hn; cases hn
      · exact .inr ⟨x, by rw [ho.2 q]; exact h1, hk.holds h2⟩

theorem run_inside {rnd : Nat → Uuid} {mgr : ExtMgr} {l : Ref} : ∀ {evs : List Sax} {st st' : XesSt F},
    st.log = some l → (∀ t as, .start t as ∈ evs → lower t ≠ py!"log") → Alternates py!"trace" st.trace.isSome evs →
    (NoneInside st l ∨ ¬ CleanStops py!"event" st.event.isSome evs) → xesRun (stdFactory F rnd) mgr st evs = .ok st' → NoneInside st' l ∧ st'.log = some l
  | [], _, _, hl, _, _, hi, hr => by
    cases hr
    exact ⟨hi.elim id fun q => absurd trivial q, hl⟩
  | e :: es, st, st', hl, hn, ha, hi, hr => by
    obtain ⟨s1, h1, h2⟩ := bind_ok.1 hr
    have hl1 : s1.log = some l := by rw [step_log (fun t as q => hn t as (by rw [q]; exact List.mem_cons_self)) h1, hl]
    have ha1 : Alternates py!"trace" s1.trace.isSome es ∧ (∀ t as, e = .start t as → lower t = py!"trace" → st.trace = none) := by
      rw [(step_flags h1).2]
      cases e with
      | start t as =>
        simp only [Alternates] at ha
        simp only [endFlag]
        by_cases q : lower t = py!"trace"
        · rw [if_pos q] at ha ⊢
          exact ⟨ha.2, fun _ _ _ _ => by simpa using ha.1⟩
        · rw [if_neg q] at ha ⊢
          exact ⟨ha, fun _ _ z z' => by cases z; exact absurd z' q⟩
      | stop t =>
        simp only [Alternates] at ha
        simp only [endFlag]
        refine ⟨?_, fun _ _ z => by cases z⟩
        by_cases q : lower t = py!"trace"
        · rw [if_pos q] at ha ⊢
          exact ha.2
        · rw [if_neg q] at ha ⊢
          exact ha
    refine run_inside hl1 (fun t as q => hn t as (List.mem_cons_of_mem _ q)) ha1.1 ?_ h2
    rcases hi with hi | hc
    · exact .inl (step_inside hl hi ha1.2 h1)
    · by_cases hc' : CleanStops py!"event" s1.event.isSome es
      · left
        rw [(step_flags h1).1] at hc'
        cases e with
        | start t as => exact absurd hc' hc
        | stop t =>
          have ht : lower t = py!"event" := Classical.byContradiction fun q => hc ⟨fun z => absurd z q, hc'⟩
          have he : st.event = none := by
            cases hq : st.event with
            | none => rfl
            | some x => exact absurd ⟨fun _ => by rw [hq]; rfl, hc'⟩ hc
          obtain ⟨x, _, h3, h4⟩ := stop_event_none ht he h1
          exact .inr ⟨x, h3, h4⟩
      · exact .inr hc'

mutual
theorem start_has {name t : Str} {as : List (Str × Str)} : ∀ {x : Xml}, .start t as ∈ x.sax → lower t = name → x.has name
  | .elem u bs ks, hm, ht => by
    simp only [Xml.sax, List.mem_cons, List.mem_append, List.not_mem_nil, or_false, reduceCtorEq] at hm
    rcases hm with hm | hm
    · cases hm
      exact .inl ht
    · exact .inr (start_hasAny hm ht)
theorem start_hasAny {name t : Str} {as : List (Str × Str)} : ∀ {xs : List Xml}, .start t as ∈ saxList xs → lower t = name → hasAny name xs
  | [], hm, _ => by cases hm
  | x :: xs, hm, ht => by
    simp only [saxList, List.mem_append] at hm
    exact hm.elim (fun hm => .inl (start_has hm ht)) fun hm => .inr (start_hasAny hm ht)
end

/-! ## C168 -/

theorem init_typed {h : Heap F} (hw : WellFormed h) : TypedSt h (.init h) := ⟨.refl hw, fun r hr => (by cases hr), fun r hr => (by cases hr),
  fun r hr => (by cases hr), fun r hr => (by cases hr), fun r hr => (by cases hr), fun r b hr => (by cases hr)⟩

theorem holdsNone_wf {h : Heap F} (hw : WellFormed h) {x : Ref} : ¬ HoldsNone h x := fun ⟨_, h1, _⟩ => hw _ _ h1

/-- C168: from a document without events in events and traces in traces, all that is made is well formed: the log holds traces, they hold
events. -/
theorem c168_partial {given : Option (Factory F)} {rnd : Nat → Uuid} {mgr : ExtMgr} {h h' : Heap F} (hw : WellFormed h) {x : Xml} (hx : x.plainNest)
    {l : Option Ref} (hl : xesParse given (stdFactory F rnd) mgr h x.sax = .ok (l, h')) : WellFormed h' ∧ ∀ r, l = some r → IsA h' r .log := by
  obtain ⟨st, h1, h2⟩ := bind_ok.1 hl
  have s := run_typed (init_typed hw) (alternates_iff_flat.2 hx.1) (alternates_iff_flat.2 hx.2) (fun q => by cases q) (fun q => by cases q) h1
  simp only [Except.ok.injEq, Prod.mk.injEq] at h2
  obtain ⟨rfl, rfl⟩ := h2
  exact ⟨s.heap.wf, fun r hr => (s.log r hr).1⟩

/-- C168: whenever loading succeeds, a trace or a log with `None` in it is made exactly from the other documents. -/
theorem c168_made {given : Option (Factory F)} {rnd : Nat → Uuid} {mgr : ExtMgr} {h h' : Heap F} (hw : WellFormed h) {x : Xml}
    {l : Option Ref} (hl : xesParse given (stdFactory F rnd) mgr h x.sax = .ok (l, h')) : (∃ y, HoldsNone h' y) ↔ ¬ x.plainNest := by
  constructor
  · rintro ⟨y, hy⟩ hx
    exact holdsNone_wf (c168_partial hw hx hl).1 hy
  · intro hx
    obtain ⟨st, h1, h2⟩ := bind_ok.1 hl
    simp only [Except.ok.injEq, Prod.mk.injEq] at h2
    obtain ⟨rfl, rfl⟩ := h2
    by_cases he : x.flat py!"event"
    · obtain ⟨y, hy, _⟩ := run_trace_none h1 (fun q => hx ⟨he, clean_sax.1 q⟩)
      exact ⟨y, hy⟩
    · exact run_event_none h1 (fun q => he (clean_sax.1 q))

/-- C168: if the document is one log element, the `None` is in the log that loading returns, or in a trace of it. -/
theorem c168_exact {given : Option (Factory F)} {rnd : Nat → Uuid} {mgr : ExtMgr} {h h' : Heap F} (hw : WellFormed h) {t : Str} {as : List (Str × Str)}
    {ks : List Xml} (ht : lower t = py!"log") (hk : ¬ hasAny py!"log" ks) {r : Ref}
    (hl : xesParse given (stdFactory F rnd) mgr h (Xml.elem t as ks).sax = .ok (some r, h')) :
    LogHoldsNone h' r ↔ ¬ (Xml.elem t as ks).plainNest := by
  constructor
  · rintro (hy | ⟨_, y, _, _, hy⟩) hx
    · exact holdsNone_wf (c168_partial hw hx hl).1 hy
    · exact holdsNone_wf (c168_partial hw hx hl).1 hy
  · intro hx
    obtain ⟨st, h1, h2⟩ := bind_ok.1 hl
    simp only [Except.ok.injEq, Prod.mk.injEq] at h2
    obtain ⟨h2, rfl⟩ := h2
    have hfl := (run_flags h1).2
    rw [show (XesSt.init h).trace.isSome = false from rfl, endFlag_false] at hfl
    have hno : ∀ t' as', .start t' as' ∈ saxList ks ++ [.stop t] → lower t' ≠ py!"log" := by
      intro t' as' hm
      rcases List.mem_append.1 hm with hm | hm
      · exact fun q => hk (start_hasAny hm q)
      · simp at hm
    have hcl : ∀ name : Str, name ≠ py!"log" → (CleanStops name false (saxList ks ++ [.stop t]) ↔ (Xml.elem t as ks).flat name) := by
      intro name hne
      rw [← clean_sax (o := false)]
      simp only [Xml.sax, CleanStops, ht, if_neg (Ne.symm hne)]
    obtain ⟨s1, h3, h4⟩ := bind_ok.1 h1
    have hf1 := step_flags h3
    rw [show (XesSt.init h).trace.isSome = false from rfl, show (XesSt.init h).event.isSome = false from rfl] at hf1
    simp only [endFlag, ht] at hf1
    rw [if_neg (by decide), if_neg (by decide)] at hf1
    by_cases hf : (Xml.elem t as ks).flat py!"trace"
    · have he : ¬ (Xml.elem t as ks).flat py!"event" := fun q => hx ⟨q, hf⟩
      have ha : Alternates py!"trace" s1.trace.isSome (saxList ks ++ [.stop t]) := by
        have := alternates_iff_flat.2 hf
        simp only [Xml.sax, Alternates, ht] at this
        rw [if_neg (by decide)] at this
        rw [hf1.2]
        exact this
      cases hs1 : s1.log with
      | none =>
        simp only [xesStep, xesStart, ht] at h3
        rw [if_pos (by decide), if_neg (by decide), if_neg (by decide), if_pos trivial] at h3
        obtain ⟨_, _, h3⟩ := bind_ok.1 h3
        cases h3
        cases hs1
      | some y =>
        obtain ⟨hi, hy⟩ := run_inside hs1 hno ha (.inr (by rw [hf1.1, hcl _ (by decide)]; exact he)) h4
        rw [hy] at h2
        cases h2
        rcases hi with hi | ⟨z, hz, _⟩
        · exact hi
        · rw [hz] at hfl
          cases hfl
    · obtain ⟨y, hy, hy'⟩ := run_trace_none h4 (by rw [hf1.2, hcl _ (by decide)]; exact hf)
      rw [hy' hno] at h2
      cases h2
      exact .inl hy

/-! ## Cloning -/

theorem setMap_lasts {h h' : Heap F} {x m : Ref} (hr : setMap h x m = .ok h') : Lasts h h' := by
  unfold setMap at hr
  split at hr <;> cases hr
  · exact .put ‹_› trivial
  · exact .put ‹_› trivial
  · next ho => exact .put ho ⟨_, _, rfl, fun _ z => z⟩
  · next ho => exact .put ho ⟨_, rfl, fun _ z => z⟩

theorem setId_lasts {h h' : Heap F} {x : Ref} {u : Uuid} (hr : setId h x u = .ok h') : Lasts h h' := by
  unfold setId at hr
  split at hr <;> cases hr
  exact .put ‹_› trivial

theorem cloneMap_lasts {h h' : Heap F} {m c : Ref} (hr : cloneMap h m = .ok (c, h')) : Lasts h h' := by
  unfold cloneMap at hr
  split at hr
  · cases hr
  · simp only [Except.ok.injEq] at hr
    rw [show h' = _ from (congrArg Prod.snd hr).symm]
    exact .alloc ..

theorem initMap_lasts (h : Heap F) (m : Option Ref) : Lasts h (initMap h m).2 := by
  unfold initMap
  split
  · split
    · exact .refl h
    · exact .alloc ..
  · exact .alloc ..

theorem newEvent_eq (rnd : Nat → Uuid) (h : Heap F) :
    newEvent rnd h none none = (h.size + 2, ⟨h.objs ++ [.map [], .map [], .event (rnd h.drawn) (h.size + 1)], h.drawn + 1⟩) := by
  simp [newEvent, mapTruthy, initMap, entries, Heap.alloc, Heap.draw, Heap.get, Heap.size]

theorem cloneEvent_lasts {rnd : Nat → Uuid} {h h' : Heap F} {e c : Ref} (hr : cloneEvent rnd h e = .ok (c, h')) : Lasts h h' := by
  unfold cloneEvent at hr
  rw [newEvent_eq] at hr
  obtain ⟨m, _, hr⟩ := bind_ok.1 hr
  obtain ⟨⟨m', h1⟩, h2, hr⟩ := bind_ok.1 hr
  obtain ⟨h3, h4, hr⟩ := bind_ok.1 hr
  obtain ⟨h5, h6, hr⟩ := bind_ok.1 hr
  cases hr
  refine (Lasts.more ..).trans ((cloneMap_lasts h2).trans ((setMap_lasts h4).trans (Lasts.trans ?_ (setId_lasts h6))))
  exact .same fun _ _ q => q

theorem cloneEvent_none {rnd : Nat → Uuid} {h : Heap F} {e : Ref} (he : h.get e = some .pyNone) : cloneEvent rnd h e = .error .attributeError := by
  unfold cloneEvent
  rw [newEvent_eq]
  have := (Lasts.more h [.map [], .map [], .event (rnd h.drawn) (h.size + 1)] (h.drawn + 1)).1 e he
  simp only [mapOf, this, bind, Except.bind]

theorem cloneEvents_lasts {rnd : Nat → Uuid} {c : Ref} : ∀ {es : List Ref} {h h' : Heap F}, cloneEvents rnd h c es = .ok h' →
    Lasts h h' ∧ ∀ e ∈ es, h.get e ≠ some .pyNone
  | [], h, h', hr => by cases hr; exact ⟨.refl h, fun e he => by cases he⟩
  | e :: es, h, h', hr => by
    obtain ⟨⟨e', h1⟩, h2, hr⟩ := bind_ok.1 hr
    obtain ⟨h3, h4, hr⟩ := bind_ok.1 hr
    obtain ⟨a, b⟩ := cloneEvents_lasts hr
    have k := (cloneEvent_lasts h2).trans (traceAppend_lasts h4)
    refine ⟨k.trans a, fun x hx hn => ?_⟩
    rcases List.mem_cons.1 hx with rfl | hx
    · rw [cloneEvent_none hn] at h2
      cases h2
    · exact b x hx (k.1 x hn)

theorem newTrace_lasts (h : Heap F) (m : Option Ref) : Lasts h (newTrace h m).2 := (initMap_lasts h m).trans (.alloc ..)

theorem cloneTrace_lasts {rnd : Nat → Uuid} {h h' : Heap F} {t c : Ref} (hr : cloneTrace rnd h t = .ok (c, h')) :
    Lasts h h' ∧ ¬ HoldsNone h t ∧ h.get t ≠ some .pyNone := by
  unfold cloneTrace at hr
  split at hr
  · next m es ho =>
    obtain ⟨⟨m', h1⟩, h2, hr⟩ := bind_ok.1 hr
    obtain ⟨h3, h4, hr⟩ := bind_ok.1 hr
    simp only [Except.ok.injEq, Prod.mk.injEq] at hr
    obtain ⟨rfl, rfl⟩ := hr
    obtain ⟨a, b⟩ := cloneEvents_lasts h4
    have k := (cloneMap_lasts h2).trans (newTrace_lasts h1 (some m'))
    refine ⟨k.trans a, ?_, by rw [ho]; simp⟩
    rintro ⟨r, h5, ⟨m2, es2, h6, h7⟩ | ⟨l, h6, _⟩⟩
    · rw [ho] at h6
      cases h6
      exact b r h7 (k.1 r h5)
    · rw [ho] at h6
      cases h6
  · cases hr

theorem cloneTraces_lasts {rnd : Nat → Uuid} {c : Ref} : ∀ {ts : List Ref} {h h' : Heap F}, cloneTraces rnd h c ts = .ok h' →
    ∀ t ∈ ts, ¬ HoldsNone h t ∧ h.get t ≠ some .pyNone
  | [], h, h', hr => fun e he => by cases he
  | t :: ts, h, h', hr => by
    obtain ⟨⟨e', h1⟩, h2, hr⟩ := bind_ok.1 hr
    obtain ⟨h3, h4, hr⟩ := bind_ok.1 hr
    have b := cloneTraces_lasts hr
    obtain ⟨a, a1, a2⟩ := cloneTrace_lasts h2
    have k := a.trans (logAppend_lasts h4)
    intro x hx
    rcases List.mem_cons.1 hx with rfl | hx
    · exact ⟨a1, a2⟩
    · exact ⟨fun q => (b x hx).1 (k.holds q), fun q => (b x hx).2 (k.1 x q)⟩

/-- C168: such a log cannot be cloned. -/
theorem c168_clone (rnd : Nat → Uuid) {h : Heap F} {l : Ref} (hl : LogHoldsNone h l) : ∃ e, cloneLog rnd h l = .error e := by
  cases hc : cloneLog rnd h l with
  | error e => exact ⟨e, rfl⟩
  | ok p =>
    exfalso
    unfold cloneLog at hc
    split at hc
    · next o ho =>
      obtain ⟨⟨m', h1⟩, h2, hc⟩ := bind_ok.1 hc
      have k := (cloneMap_lasts h2).trans ((initMap_lasts h1 (some m')).trans (.alloc _ (.log ⟨(initMap h1 (some m')).1, [], [], [], [], [], []⟩)))
      simp only [newLog, Heap.alloc] at hc
      split at hc
      · next n hn =>
        obtain ⟨h5, h6, _⟩ := bind_ok.1 hc
        have b := cloneTraces_lasts h6
        have k2 := k.trans (.put (o' := .log { n with
          extensions := o.extensions
          classifiers := o.classifiers
          globalTrace := o.globalTrace
          globalEvent := o.globalEvent
          features := o.features }) hn ⟨_, rfl, fun _ z => z⟩)
        rcases hl with ⟨r, h7, ⟨_, _, h8, _⟩ | ⟨o', h8, h9⟩⟩ | ⟨o', t, h8, h9, h10⟩
        · rw [ho] at h8
          cases h8
        · rw [ho] at h8
          cases h8
          exact (b r h9).2 (k2.1 r h7)
        · rw [ho] at h8
          cases h8
          exact (b t h9).1 (k2.holds h10)
      · cases hc
    · cases hc

end

/-! ## Examples -/

/-- An event in an event. -/
def nestedEvents : Xml := .elem py!"log" [] [.elem py!"trace" [] [.elem py!"event" [] [.elem py!"Event" [] [.elem py!"string" [(py!"key", py!"concept:name"), (py!"value", py!"a")] []]]]]

/-- A trace in a trace. -/
def nestedTraces : Xml := .elem py!"log" [] [.elem py!"trace" [] [.elem py!"trace" [] [.elem py!"event" [] []]]]

/-- The same without nesting. -/
def flatDoc : Xml := .elem py!"log" [] [.elem py!"trace" [] [.elem py!"event" [] [], .elem py!"event" [] []], .elem py!"trace" [] [.elem py!"event" [] []]]

/-- What the members of the log and of its traces are: `none` for a `None`, the number of events of a trace that are `None`. -/
def logShape (h : Heap ToyFloat) (l : Ref) : List (Option (List Bool)) :=
  match h.get l with
  | some (.log o) => o.traces.map fun t => match h.get t with
    | some (.trace _ es) => some (es.map fun e => match h.get e with
      | some (.event ..) => true
      | _ => false)
    | _ => none
  | _ => []

/-- Load, then the shape of the log, and the exception of `clone`. -/
def loadShape (x : Xml) : Option (List (Option (List Bool)) × Option PyErr) :=
  match xesParse none (stdFactory ToyFloat fun _ => 7) ⟨fun _ => none, fun _ => .ok none⟩ ⟨[], 0⟩ x.sax with
  | .ok (some l, h) => some (logShape h l, match cloneLog (fun _ => 7) h l with
    | .ok _ => none
    | .error e => some e)
  | _ => none

/-- C168, refuted: an event in an event, or a trace in a trace, is read without complaint; `None` stands in the log for the outer one, and
cloning the log raises AttributeError. -/
theorem c168_refuted : loadShape nestedEvents = some ([some [true, false]], some .attributeError) ∧
    loadShape nestedTraces = some ([some [true], none], some .attributeError) := by decide +kernel

example : loadShape flatDoc = some ([some [true, true], some [true]], none) := by decide +kernel

example : flatDoc.plainNest ∧ ¬ nestedEvents.plainNest ∧ ¬ nestedTraces.plainNest ∧ nestedEvents.flat py!"trace" := by
  have e1 : lower py!"event" = py!"event" := by decide +kernel
  have e2 : lower py!"trace" = py!"trace" := by decide +kernel
  have e3 : lower py!"log" = py!"log" := by decide +kernel
  have e4 : lower py!"string" = py!"string" := by decide +kernel
  have e5 : lower py!"Event" = py!"event" := by decide +kernel
  simp [Xml.plainNest, flatDoc, nestedEvents, nestedTraces, Xml.flat, flatAll, hasAny, Xml.has, e1, e2, e3, e4, e5]

/-- `c168_exact` applies. -/
example : ¬ hasAny py!"log" [Xml.elem py!"trace" [] [.elem py!"event" [] []]] := by
  simp only [hasAny, Xml.has]
  decide +kernel

end Opy
