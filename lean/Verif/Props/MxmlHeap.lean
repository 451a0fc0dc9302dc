import Verif.Lemmas.MxmlSim
import Verif.Props.Fresh
import Verif.Props.MxmlAttr
/-
Properties C170 and C171: an MXML file on objects.
-/
set_option linter.unusedSectionVars false
namespace Opy

section
variable {F : Type} [PyFloat F]

/-! ## C170: the objects that loading makes show the logs -/

theorem EventGen.sees {h : Heap F} {Q M P : Ref → Prop} {x : Event F} {e : Ref} (he : EventGen h Q M P x e) : SeesEvent h x e := by
  obtain ⟨_, m, d, _, g1, g2, g3⟩ := he
  exact ⟨m, d, g1, g2, seesMap_iff.2 (g3.imp fun _ _ => AttrAt.sees)⟩

theorem TraceGen.sees {h : Heap F} {Q M P : Ref → Prop} {x : Trace F} {t : Ref} (ht : TraceGen h Q M P x t) : SeesTrace h x t := by
  obtain ⟨_, m, d, es, _, g1, g2, g3, g4⟩ := ht
  exact ⟨m, d, es, g1, g2, seesMap_iff.2 (g3.imp fun _ _ => AttrAt.sees), g4.imp fun _ _ => EventGen.sees⟩

theorem SrcsRel.attrAt {h : Heap F} {own : Ref → Tag} {xs : List (Attr F)} {srcs : List Ref} (hs : SrcsRel h own xs srcs) {i : Nat} {r : Ref}
    (hr : srcs[i]? = some r) : ∃ a, xs[i]? = some a ∧ AttrAt h (fun y => own y = .src i ∨ own y = .srcMap i) a r := by
  have hi : i < xs.length := by rw [hs.1]; exact (List.getElem?_eq_some_iff.1 hr).1
  refine ⟨_, List.getElem?_eq_getElem hi, ?_⟩
  exact (hs.2 i _ r (List.getElem?_eq_getElem hi) hr).attrAt (fun y _ hy ho => ⟨.inl hy, ho⟩) (fun y _ hy ho => ⟨.inr hy, ho⟩)
    (fun y _ hy ho => ⟨.inl hy, ho⟩)

theorem refs_see {h : Heap F} {own : Ref → Tag} {xs : List (Attr F)} {srcs : List Ref} {P : Ref → Prop} (hs : SrcsRel h own xs srcs) :
    ∀ {m : List (Str × MRef F)} {d : List (Str × Ref)}, PairAll (RefAt srcs h P) m d →
      SeesMap h (m.filterMap fun p => p.2.see xs p.1) d
  | [], d, hd => hd
  | (n, .own a) :: m, d, hd => by
    obtain ⟨r, d', e, h1, h2⟩ := hd
    simp only [MRef.see, List.filterMap_cons]
    exact ⟨r, d', e, AttrAt.sees h1, refs_see hs h2⟩
  | (n, .source i) :: m, d, hd => by
    obtain ⟨r, d', e, h1, h2⟩ := hd
    obtain ⟨a, e1, e2⟩ := hs.attrAt h1
    simp only [MRef.see, List.filterMap_cons, e1, Option.map_some]
    exact ⟨r, d', e, AttrAt.sees e2, refs_see hs h2⟩

theorem MLogGen.sees {h : Heap F} {own : Ref → Tag} {xs : List (Attr F)} {srcs : List Ref} {Q M P : Ref → Prop} (hs : SrcsRel h own xs srcs)
    {x : MLog F} {l : Ref} (hl : MLogGen srcs h Q M P x l) : SeesLog h (x.toLog xs) l := by
  obtain ⟨_, o, d, _, g1, g2, e1, e2, e3, g3, g4, g5, g6⟩ := hl
  exact ⟨o, d, g1, g2, e1, e2, e3, refs_see hs g3, seesList_iff.2 (g4.imp fun _ _ => AttrAt.sees), seesList_iff.2 (g5.imp fun _ _ => AttrAt.sees),
    g6.imp fun _ _ => TraceGen.sees⟩

theorem denAll_of_getElem {α : Type} {R : α → Ref → Prop} : ∀ {xs : List α} {rs : List Ref}, xs.length = rs.length →
    (∀ (i : Nat) x r, xs[i]? = some x → rs[i]? = some r → R x r) → DenAll R xs rs
  | [], [], _, _ => rfl
  | [], _ :: _, hl, _ => nomatch hl
  | _ :: _, [], hl, _ => nomatch hl
  | x :: xs, r :: rs, hl, h =>
    ⟨r, rs, rfl, h 0 x r rfl rfl, denAll_of_getElem (by simpa using hl) fun i y s hy hs => h (i + 1) y s (by simpa using hy) (by simpa using hs)⟩

theorem DenAll.map_left {α β : Type} {R : β → Ref → Prop} {f : α → β} : ∀ {xs : List α} {rs : List Ref}, DenAll (fun x r => R (f x) r) xs rs →
    DenAll R (xs.map f) rs
  | [], _, h => h
  | _ :: _, _, ⟨r, rs, e, h1, h2⟩ => ⟨r, rs, e, h1, DenAll.map_left h2⟩

/-- The two parsers. -/
theorem mobParse_sim (rnd : Nat → Uuid) {P : Protos} {h : Heap F} (hP : MxmlProtos h P) (file : List MSax) :
    match mxmlRun (fun k => rnd (h.drawn + k)) (.init F) file with
    | .ok st => ∃ hs own srcs, mobParse rnd P h file = .ok (hs.logs, hs.heap) ∧ MobRel h st hs own srcs
    | .error e => e ≠ .other → mobParse rnd P h file = .error e := by
  have := mobRun_sim rnd hP file (init_sim h)
  rcases h1 : mxmlRun (fun k => rnd (h.drawn + k)) (.init F) file with e | st
  · rw [h1] at this
    intro q
    simp only [mobParse, this q]
    rfl
  · rw [h1] at this
    obtain ⟨hs, own, srcs, q, m⟩ := this
    exact ⟨hs, own, srcs, by simp only [mobParse, q, ok_bind'], m⟩

/-- **C170.** If the attributes that the extensions keep have the values that they have at the start, then loading an MXML file makes one log
object for each log that the file holds, in this order, each showing its log with every trace, event and attribute.  Every object that was
there before is still the same.  The identifiers of the events are the next ones to be drawn. -/
theorem c170_objects (rnd : Nat → Uuid) {P : Protos} {h : Heap F} (hP : MxmlProtos h P) {file : List MSax} {logs : List (Log F)}
    (hf : mxmlParse (fun k => rnd (h.drawn + k)) file = .ok logs) :
    ∃ refs h', mobParse rnd P h file = .ok (refs, h') ∧ DenAll (SeesLog h') logs refs ∧ MxmlProtos h' P ∧
      ∀ r o, h.get r = some o → h'.get r = some o := by
  have := mobParse_sim rnd hP file
  rw [mxmlParse, bind_ok] at hf
  obtain ⟨st, h1, h2⟩ := hf
  cases h2
  rw [h1] at this
  obtain ⟨hs, own, srcs, q, m⟩ := this
  refine ⟨hs.logs, hs.heap, q, ?_, m.protos hP, fun r o hr => (m.kept r o hr).2⟩
  exact DenAll.map_left (denAll_of_getElem m.logs.1 fun i x r hx hr => (m.logs.2 i x r hx hr).sees m.sources)

/-- **C170.** It is refused with the same exception, unless an entry ends where none is open. -/
theorem c170_refused (rnd : Nat → Uuid) {P : Protos} {h : Heap F} (hP : MxmlProtos h P) {file : List MSax} {e : PyErr}
    (hf : (mxmlParse (fun k => rnd (h.drawn + k)) file : Except PyErr (List (Log F))) = .error e) (he : e ≠ .other) :
    mobParse rnd P h file = .error e := by
  have := mobParse_sim rnd hP file
  rcases h1 : mxmlRun (fun k => rnd (h.drawn + k)) (.init F) file with e' | st
  · rw [mxmlParse, h1] at hf
    cases hf
    rw [h1] at this
    exact this he
  · rw [mxmlParse, h1] at hf
    cases hf

/-! ## C171: what the logs of a file have in common -/

theorem reach_head {h : Heap F} {a x : Ref} (hr : Reach h a x) : x = a ∨ ∃ o c, h.get a = some o ∧ c ∈ o.refs ∧ Reach h c x := by
  induction hr with
  | refl => exact .inl rfl
  | step h1 h2 h3 ih =>
    rcases ih with rfl | ⟨o, c, a1, a2, a3⟩
    · exact .inr ⟨_, _, h2, h3, .refl⟩
    · exact .inr ⟨o, c, a1, a2, .step a3 h2 h3⟩

mutual
theorem AttrAt.reach {h : Heap F} {P : Ref → Prop} : ∀ {a : Attr F} {r x : Ref}, AttrAt h P a r → Reach h r x → P x
  | .mk k key e v m c, r, x, ha, hr => by
    simp only [AttrAt] at ha
    obtain ⟨h1, _, _, mr, d, h2, g1, g2, g3⟩ := ha
    rcases reach_head hr with rfl | ⟨o, s, q1, q2, q3⟩
    · exact h1
    rw [g1] at q1
    cases q1
    simp only [Obj.refs, List.mem_singleton] at q2
    subst q2
    rcases reach_head q3 with rfl | ⟨o, s, q1, q2, q4⟩
    · exact h2
    rw [g2] at q1
    cases q1
    simp only [Obj.refs, List.mem_map] at q2
    obtain ⟨⟨n, y⟩, q5, rfl⟩ := q2
    exact EntriesAt.reach g3 q5 q4
theorem EntriesAt.reach {h : Heap F} {P : Ref → Prop} : ∀ {m : List (Str × Attr F)} {d : List (Str × Ref)} {n : Str} {r x : Ref},
    EntriesAt h P m d → (n, r) ∈ d → Reach h r x → P x
  | [], d, _, _, _, hd, hn, _ => by
    simp only [EntriesAt] at hd
    rw [hd] at hn
    cases hn
  | (k, a) :: m, d, n, r, x, hd, hn, hr => by
    simp only [EntriesAt] at hd
    obtain ⟨s, d', e, h1, h2⟩ := hd
    rw [e] at hn
    rcases List.mem_cons.1 hn with q | q
    · cases q
      exact AttrAt.reach h1 hr
    · exact EntriesAt.reach h2 q hr
end

theorem pairAll_mem {α : Type} {R : α → Ref → Prop} : ∀ {m : List (Str × α)} {d : List (Str × Ref)} {n : Str} {r : Ref},
    PairAll R m d → (n, r) ∈ d → ∃ a, (n, a) ∈ m ∧ R a r
  | [], d, _, _, hd, hn => by
    rw [hd] at hn
    cases hn
  | (k, a) :: m, d, n, r, hd, hn => by
    obtain ⟨s, d', e, h1, h2⟩ := hd
    rw [e] at hn
    rcases List.mem_cons.1 hn with q | q
    · cases q
      exact ⟨a, .head _, h1⟩
    · obtain ⟨b, b1, b2⟩ := pairAll_mem h2 q
      exact ⟨b, .tail _ b1, b2⟩

theorem denAll_mem {α : Type} {R : α → Ref → Prop} : ∀ {m : List α} {d : List Ref} {r : Ref},
    DenAll R m d → r ∈ d → ∃ a, a ∈ m ∧ R a r
  | [], d, _, hd, hn => by
    rw [hd] at hn
    cases hn
  | a :: m, d, r, hd, hn => by
    obtain ⟨s, d', e, h1, h2⟩ := hd
    rw [e] at hn
    rcases List.mem_cons.1 hn with q | q
    · cases q
      exact ⟨a, .head _, h1⟩
    · obtain ⟨b, b1, b2⟩ := denAll_mem h2 q
      exact ⟨b, .tail _ b1, b2⟩

theorem entries_reach {h : Heap F} {P : Ref → Prop} {m : List (Str × Attr F)} {d : List (Str × Ref)} {mr x : Ref} (hm : P mr)
    (g : h.get mr = some (.map d)) (hp : PairAll (AttrAt h P) m d) (hr : Reach h mr x) : P x := by
  rcases reach_head hr with rfl | ⟨o, s, q1, q2, q4⟩
  · exact hm
  rw [g] at q1
  cases q1
  simp only [Obj.refs, List.mem_map] at q2
  obtain ⟨⟨n, y⟩, q5, rfl⟩ := q2
  obtain ⟨a, _, ha⟩ := pairAll_mem hp q5
  exact ha.reach q4

theorem EventGen.reach {h : Heap F} {P : Ref → Prop} {a : Event F} {r x : Ref} (he : EventGen h P P P a r) (hr : Reach h r x) : P x := by
  obtain ⟨h1, m, d, h2, g1, g2, g3⟩ := he
  rcases reach_head hr with rfl | ⟨o, s, q1, q2, q3⟩
  · exact h1
  rw [g1] at q1
  cases q1
  simp only [Obj.refs, List.mem_singleton] at q2
  subst q2
  exact entries_reach h2 g2 g3 q3

theorem TraceGen.reach {h : Heap F} {P : Ref → Prop} {a : Trace F} {r x : Ref} (he : TraceGen h P P P a r) (hr : Reach h r x) : P x := by
  obtain ⟨h1, m, d, es, h2, g1, g2, g3, g4⟩ := he
  rcases reach_head hr with rfl | ⟨o, s, q1, q2, q3⟩
  · exact h1
  rw [g1] at q1
  cases q1
  simp only [Obj.refs, List.mem_cons] at q2
  rcases q2 with rfl | q2
  · exact entries_reach h2 g2 g3 q3
  · obtain ⟨e, _, he⟩ := denAll_mem g4 q2
    exact he.reach q3

/-- What is reached from a log: what only this log has, or what belongs to a source. -/
theorem MLogGen.reach {h : Heap F} {srcs : List Ref} {P : Ref → Prop} {a : MLog F} {l x : Ref} (he : MLogGen srcs h P P P a l)
    (hr : Reach h l x) : P x ∨ ∃ (i : Nat) (s : Ref), srcs[i]? = some s ∧ Owns h l s ∧ Reach h s x := by
  obtain ⟨h1, o, d, h2, g1, g2, _, _, _, g3, g4, g5, g6⟩ := he
  rcases reach_head hr with rfl | ⟨ob, s, q1, q2, q3⟩
  · exact .inl h1
  rw [g1] at q1
  cases q1
  simp only [Obj.refs, List.mem_cons, List.mem_append] at q2
  rcases q2 with rfl | (q2 | q2) | q2
  · rcases reach_head q3 with rfl | ⟨ob, s, q1, q2, q4⟩
    · exact .inl h2
    rw [g2] at q1
    cases q1
    simp only [Obj.refs, List.mem_map] at q2
    obtain ⟨⟨n, y⟩, q5, rfl⟩ := q2
    obtain ⟨b, _, hb⟩ := pairAll_mem g3 q5
    cases b with
    | own a => exact .inl (AttrAt.reach hb q4)
    | source i => exact .inr ⟨i, y, hb, ⟨o.map, d, n, by unfold mapOf; rw [g1], g2, q5⟩, q4⟩
  · obtain ⟨b, _, hb⟩ := denAll_mem g4 q2
    exact .inl (hb.reach q3)
  · obtain ⟨b, _, hb⟩ := denAll_mem g5 q2
    exact .inl (hb.reach q3)
  · obtain ⟨b, _, hb⟩ := denAll_mem g6 q2
    exact .inl (hb.reach q3)

/-- **C171, the part that holds.** The logs that an MXML file gives consist of new objects; and whatever two of them have in common lies in
one attribute that both have as their own, namely the attribute for the source. -/
theorem c171_common_partial (rnd : Nat → Uuid) {P : Protos} {h : Heap F} (hP : MxmlProtos h P) {file : List MSax} {logs : List (Log F)}
    (hf : mxmlParse (fun k => rnd (h.drawn + k)) file = .ok logs) {refs : List Ref} {h' : Heap F}
    (hq : mobParse rnd P h file = .ok (refs, h')) :
    (∀ l ∈ refs, ∀ x, Reach h' l x → h.get x = none) ∧
      ∀ (i j : Nat) l k, refs[i]? = some l → refs[j]? = some k → i ≠ j → ∀ x, Reach h' l x → Reach h' k x →
        ∃ s kd e v m c, h'.get s = some (.attr kd py!"source" e v m c) ∧ Owns h' l s ∧ Owns h' k s ∧ Reach h' s x := by
  have := mobParse_sim rnd hP file
  rw [mxmlParse, bind_ok] at hf
  obtain ⟨st, h1, h2⟩ := hf
  cases h2
  rw [h1] at this
  obtain ⟨hs, own, srcs, q, m⟩ := this
  rw [hq] at q
  cases q
  have main : ∀ (i : Nat) l x, hs.logs[i]? = some l → Reach hs.heap l x →
      own x = .done i ∨ ∃ (n : Nat) (s : Ref), srcs[n]? = some s ∧ Owns hs.heap l s ∧ Reach hs.heap s x ∧ (own x = .src n ∨ own x = .srcMap n) := by
    intro i l x hi hx
    have hlt : i < st.logs.length := by rw [m.logs.1]; exact (List.getElem?_eq_some_iff.1 hi).1
    rcases (m.logs.2 i _ l (List.getElem?_eq_getElem hlt) hi).reach hx with q | ⟨n, s, q1, q2, q3⟩
    · exact .inl q
    · obtain ⟨a, _, a2⟩ := m.sources.attrAt q1
      exact .inr ⟨n, s, q1, q2, q3, a2.reach q3⟩
  constructor
  · intro l hl x hx
    obtain ⟨i, hi⟩ := List.mem_iff_getElem?.1 hl
    cases ho : h.get x with
    | none => rfl
    | some o =>
      have e := (m.kept x o ho).1
      rcases main i l x hi hx with q | ⟨n, s, _, _, _, q | q⟩ <;> · rw [e] at q; cases q
  · intro i j l k hi hj hij x hx hy
    rcases main i l x hi hx with q | ⟨n, s, q1, q2, q3, q4⟩
    · rcases main j k x hj hy with w | ⟨n', s', _, _, _, w | w⟩
      · rw [q] at w
        cases w
        exact absurd rfl hij
      · rw [q] at w; cases w
      · rw [q] at w; cases w
    · rcases main j k x hj hy with w | ⟨n', s', w1, w2, w3, w4⟩
      · rcases q4 with q4 | q4 <;> · rw [w] at q4; cases q4
      · have : n = n' := by
          rcases q4 with q4 | q4 <;> rcases w4 with w4 | w4 <;> rw [q4] at w4 <;> cases w4 <;> rfl
        subst this
        rw [q1] at w1
        cases w1
        have hn : n < st.sources.length := by rw [m.sources.1]; exact (List.getElem?_eq_some_iff.1 q1).1
        obtain ⟨_, _, _, mr, d, _, g1, _, _⟩ := m.sources.2 n _ s (List.getElem?_eq_getElem hn) q1
        have := m.sourceKey _ (List.getElem_mem hn)
        rw [this] at g1
        exact ⟨s, _, _, _, _, _, g1, q2, w2, q3⟩

end

/-! ## Examples -/

/-- The values at the start of the attributes that the parser clones. -/
def ExtAttr.start {F : Type} : ExtAttr → PyVal F
  | .name | .resource => .str py!"UNKNOWN"
  | .transition => .str py!"complete"
  | x => x.value

/-- The attributes that the extensions keep. -/
def exKept (F : Type) : Heap F :=
  ⟨extAttrs.zipIdx.flatMap (fun (x, i) => [.map [], .attr x.kind x.key (some x.ext) x.start (2 * i) []]), 0⟩

theorem exKept_protos {F : Type} : MxmlProtos (exKept F) exProtos := by
  refine ⟨fun x => ⟨x.start, 2 * extAttrs.idxOf x, [], ?_, ?_, ?_⟩, ⟨_, _, rfl⟩, ⟨_, _, rfl⟩, ⟨_, _, rfl⟩⟩
  · cases x <;> rfl
  · intro h; cases x <;> simp [ExtAttr.kind] at h <;> exact ⟨_, rfl⟩
  · intro h; cases x <;> simp [ExtAttr.kind] at h <;> exact ⟨_, rfl⟩

/-- A source, a process with an entry and one without. -/
def c170Doc : MNode :=
  .elem py!"WorkflowLog" [] [.elem py!"Source" [(py!"program", py!"p")] [],
    .elem py!"Process" [(py!"id", py!"P")] [.elem py!"ProcessInstance" [(py!"id", py!"1")] [
      .elem py!"AuditTrailEntry" [] [.elem py!"WorkflowModelElement" [] [.text py!"register"], .elem py!"EventType" [] [.text py!"start"]]]],
    .elem py!"Process" [(py!"id", py!"Q")] []]

/-- The object of the attribute `source` of each log. -/
def sourceOf (r : Except PyErr (List Ref × Heap ToyFloat)) : List (Option Ref) :=
  match r with
  | .ok (ls, h) => ls.map fun l => match h.get l with
    | some (.log o) => match h.get o.map with
      | some (.map d) => dget py!"source" d
      | _ => none
    | _ => none
  | .error _ => []

/-- **C171, refuted.** Two logs of one file have the same object as attribute `source`; it is a new object. -/
theorem c171_refuted : sourceOf (mobParse (fun _ => 7) exProtos (exKept ToyFloat) c170Doc.say) = [some 37, some 37] ∧
    (exKept ToyFloat).get 37 = none := by decide +kernel

/-- `c170_objects` and `c171_common_partial` apply to this file. -/
example : ∃ logs : List (Log ToyFloat), mxmlParse (fun _ => 7) c170Doc.say = .ok logs ∧ logs.length = 2 ∧
    logs.map (fun l => l.traces.map fun t => t.events.length) = [[1], []] := by
  cases h : (mxmlParse (fun _ => 7) c170Doc.say : Except PyErr (List (Log ToyFloat))) with
  | ok l => exact ⟨l, rfl, by
      have : ((mxmlParse (fun _ => 7) c170Doc.say : Except PyErr (List (Log ToyFloat))).toOption.map fun ls =>
        ls.map fun l => l.traces.map fun t => t.events.length) = some [[1], []] := by decide +kernel
      rw [h] at this
      simp only [Except.toOption, Option.map_some, Option.some.injEq] at this
      exact ⟨by simpa using congrArg List.length this, this⟩⟩
  | error e => 
    have : (mxmlParse (fun _ => 7) c170Doc.say : Except PyErr (List (Log ToyFloat))).toBool = true := by decide +kernel
    rw [h] at this
    cases this

/-- `c170_refused` applies: an entry outside of an instance. -/
example : (match (mxmlParse (fun _ => 7) (MNode.elem py!"AuditTrailEntry" [] []).say : Except PyErr (List (Log ToyFloat))) with
    | .error .attributeError => true
    | _ => false) = true := by decide +kernel

end Opy
