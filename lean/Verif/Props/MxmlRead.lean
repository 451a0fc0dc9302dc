import Verif.Model.Mxml
import Verif.Props.Ext
import Verif.Lemmas.Str
set_option linter.unusedSectionVars false
namespace Opy

/-! ## Spec: chunking of character data -/

/-- The event stream with adjacent pieces of character data glued together (and empty ones dropped). -/
def glued : List MSax → List MSax
  | [] => []
  | .chars a :: es => match glued es with
    | .chars b :: r => .chars (a ++ b) :: r
    | r => if a = [] then r else .chars a :: r
  | .start t as :: es => .start t as :: glued es
  | .stop t :: es => .stop t :: glued es

section
variable {F : Type} [PyFloat F]

def setBuf (b : List Str) (st : MxmlSt F) : MxmlSt F := { st with buffer := b }

theorem setBuf_self (st : MxmlSt F) : setBuf st.buffer st = st := rfl

theorem bufText_setBuf (b : List Str) (st : MxmlSt F) : bufText (setBuf b st) = strip (join [] b) := rfl

theorem start_buf (rnd : Nat → Uuid) (st : MxmlSt F) (tag : Str) (as : List (Str × Str)) (b : List Str) :
    mxmlStart rnd (setBuf b st) tag as = (mxmlStart rnd st tag as).map (setBuf b) := by
  unfold mxmlStart
  repeat' split
  all_goals first
    | rfl
    | (unfold startAttribute; split <;> rfl)
    | (unfold startElementName; cases modelRef as
       · rfl
       · obtain ⟨_, _, _, _, e, _⟩ := st; cases e <;> rfl)

theorem intoEntry_buf (st : MxmlSt F) (a : Attr F) (b : List Str) :
    intoEntry (setBuf b st) a = (intoEntry st a).map (setBuf b) := by
  unfold intoEntry
  simp only [setBuf]
  cases st.entry <;> rfl

theorem appendEntry_buf (st : MxmlSt F) (b : List Str) :
    appendEntry (setBuf b st) = (appendEntry st).map (setBuf b) := by
  unfold appendEntry
  simp only [setBuf]
  cases st.inst <;> cases st.entry <;> rfl

theorem stopEntry_buf (st : MxmlSt F) (b : List Str) :
    stopEntry (setBuf b st) = (stopEntry st).map (setBuf b) := by
  unfold stopEntry
  rw [appendEntry_buf]
  simp only [setBuf]
  cases st.timestamp with
  | none => cases appendEntry st <;> rfl
  | some t =>
    cases st.lastTimestamp with
    | none => cases appendEntry st <;> rfl
    | some l =>
      simp only
      cases l.lt t with
      | error e => rfl
      | ok g => cases appendEntry st <;> cases g <;> rfl

theorem routeSource_buf (st : MxmlSt F) (a : Attr F) (b : List Str) :
    routeSource (setBuf b st) a = (routeSource st a).map (setBuf b) := by
  obtain ⟨_, _, _, _, _, _, so, _, _, _, o, _⟩ := st
  cases so <;> cases o <;> rfl

theorem routeProcess_buf (st : MxmlSt F) (a : Attr F) (b : List Str) :
    routeProcess (setBuf b st) a = (routeProcess st a).map (setBuf b) := by
  have h := routeSource_buf st a b
  unfold routeProcess
  have : (setBuf b st).process = st.process := rfl
  rw [this]
  cases st.process with
  | none => exact h
  | some p =>
    simp only
    split
    · rfl
    · exact h

theorem route_buf (st : MxmlSt F) (a : Attr F) (b : List Str) :
    routeAttribute (setBuf b st) a = (routeAttribute st a).map (setBuf b) := by
  have h := routeProcess_buf st a b
  unfold routeAttribute
  have h1 : (setBuf b st).entry = st.entry := rfl
  have h2 : (setBuf b st).inst = st.inst := rfl
  rw [h1, h2]
  cases st.entry with
  | some e => rfl
  | none =>
    cases st.inst with
    | none => exact h
    | some t =>
      simp only
      split
      · rfl
      · exact h

theorem stopBody_buf (st : MxmlSt F) (tag : Str) (b : List Str) (h : join [] b = join [] st.buffer) :
    mxmlStopBody (setBuf b st) tag = (mxmlStopBody st tag).map (setBuf b) := by
  have hb : bufText (setBuf b st) = bufText st := by rw [bufText_setBuf, h]; rfl
  unfold mxmlStopBody
  split
  · rfl
  split
  · unfold stopProcess; simp only [setBuf]; cases st.process <;> rfl
  split
  · unfold stopInstance
    simp only [setBuf]
    cases st.inst with
    | none => rfl
    | some t =>
      simp only
      split
      · cases st.process <;> rfl
      · rfl
  split
  · exact stopEntry_buf st b
  split
  · unfold stopAttribute
    rw [hb]
    split
    · have : (setBuf b st).generic = st.generic := rfl
      rw [this]
      cases st.generic with
      | none => rfl
      | some g =>
        simp only [route_buf]
        cases routeAttribute st (withVal (.str (bufText st)) g) <;> rfl
    · rfl
  split
  · unfold stopEventType
    have : (setBuf b st).eventType = st.eventType := rfl
    rw [hb, this]
    cases st.eventType with
    | none => rfl
    | some g =>
      simp only [intoEntry_buf]
      split
      · split
        · cases intoEntry st (withVal (.str (bufText st)) g) <;> rfl
        · rfl
      · cases intoEntry st g <;> rfl
  split
  · unfold stopElementName
    have : (setBuf b st).entry = st.entry := rfl
    rw [hb, this]
    split
    · cases st.entry <;> rfl
    · rfl
  split
  · unfold stopTimestamp
    rw [hb]
    cases parseDateTime (bufText st) with
    | error e => rfl
    | ok d =>
      cases d with
      | none => rfl
      | some d =>
        exact intoEntry_buf { st with timestamp := some d } _ b
  split
  · unfold stopOriginator
    have : (setBuf b st).originator = st.originator := rfl
    rw [hb, this]
    cases st.originator with
    | none => rfl
    | some g =>
      simp only [intoEntry_buf]
      cases intoEntry st (if 0 < (bufText st).length then withVal (.str (bufText st)) g else g) <;> rfl
  · rfl

theorem stop_buf (st : MxmlSt F) (tag : Str) (b : List Str) (h : join [] b = join [] st.buffer) :
    mxmlStop (setBuf b st) tag = mxmlStop st tag := by
  unfold mxmlStop
  rw [stopBody_buf st tag b h]
  cases mxmlStopBody st tag <;> rfl

theorem join_nil_append (a b : List Str) : join [] (a ++ b) = join [] a ++ join [] b := by
  induction a with
  | nil => rfl
  | cons x xs ih =>
    cases xs with
    | nil => cases b with
      | nil => simp [join]
      | cons y ys => simp [join]
    | cons z zs =>
      simp only [List.cons_append, join, List.append_nil] at ih ⊢
      rw [ih]; simp

/-- What can be observed of a run: everything but the pieces of the buffer. -/
def flatSt (st : MxmlSt F) : MxmlSt F := setBuf [join [] st.buffer] st

theorem run_flat (rnd : Nat → Uuid) : ∀ (s : List MSax) (st : MxmlSt F) (b : List Str), join [] b = join [] st.buffer →
    (mxmlRun rnd (setBuf b st) s).map flatSt = (mxmlRun rnd st s).map flatSt
  | [], st, b, h => by simp [mxmlRun, Except.map, flatSt, setBuf, h]
  | .start t as :: s, st, b, h => by
    have hs : ∀ st', mxmlStart rnd st t as = .ok st' → st'.buffer = st.buffer := by
      intro st' h'
      have := start_buf rnd st t as st.buffer
      rw [setBuf_self, h'] at this
      have := Except.ok.inj this
      have h2 := congrArg MxmlSt.buffer this
      exact h2
    simp only [mxmlRun, mxmlStep, start_buf]
    cases hm : mxmlStart rnd st t as with
    | error e => rfl
    | ok st' => exact run_flat rnd s st' b (by rw [hs st' hm]; exact h)
  | .stop t :: s, st, b, h => by
    simp only [mxmlRun, mxmlStep, stop_buf st t b h]
  | .chars c :: s, st, b, h => by
    exact run_flat rnd s { st with buffer := st.buffer ++ [c] } (b ++ [c]) (by simp only [join_nil_append, h])

theorem run_glue (rnd : Nat → Uuid) : ∀ (s : List MSax) (st : MxmlSt F),
    (mxmlRun rnd st (glued s)).map flatSt = (mxmlRun rnd st s).map flatSt
  | [], st => rfl
  | .start t as :: s, st => by
    simp only [glued, mxmlRun, mxmlStep]
    cases mxmlStart rnd st t as with
    | error e => rfl
    | ok st' => exact run_glue rnd s st'
  | .stop t :: s, st => by
    simp only [glued, mxmlRun, mxmlStep]
    cases mxmlStop st t with
    | error e => rfl
    | ok st' => exact run_glue rnd s st'
  | .chars c :: s, st => by
    have ih := run_glue rnd s { st with buffer := st.buffer ++ [c] }
    have : (mxmlRun rnd st (glued (.chars c :: s))).map flatSt =
        (mxmlRun rnd { st with buffer := st.buffer ++ [c] } (glued s)).map flatSt := by
      simp only [glued]
      split
      · rename_i b r hg
        rw [hg]
        exact run_flat rnd r { st with buffer := st.buffer ++ [c] ++ [b] } (st.buffer ++ [c ++ b]) (by simp [join_nil_append, join])
      · rename_i hg
        split
        · rename_i hc
          subst hc
          exact run_flat rnd (glued s) { st with buffer := st.buffer ++ [[]] } st.buffer (by simp [join_nil_append, join])
        · rfl
    rw [this, ih]
    rfl

/-- **C50.** -/
theorem c50_chunking (rnd : Nat → Uuid) (s s' : List MSax) (h : glued s = glued s') :
    mxmlParse (F := F) rnd s = mxmlParse rnd s' := by
  have h1 := run_glue rnd s (MxmlSt.init F)
  have h2 := run_glue rnd s' (MxmlSt.init F)
  rw [h] at h1
  have h3 := h1.symm.trans h2
  unfold mxmlParse
  cases ha : mxmlRun rnd (MxmlSt.init F) s with
  | error e => cases hb : mxmlRun rnd (MxmlSt.init F) s' <;> rw [ha, hb] at h3 <;> simp_all [Except.map]
  | ok x => cases hb : mxmlRun rnd (MxmlSt.init F) s' with
    | error e => rw [ha, hb] at h3; simp [Except.map] at h3
    | ok y =>
      rw [ha, hb] at h3
      have h4 := Except.ok.inj h3
      have h5 := congrArg MxmlSt.logs h4
      change x.logs = y.logs at h5
      have h6 := congrArg MxmlSt.sources h4
      change x.sources = y.sources at h6
      simp [bind, Except.bind, h5, h6]

end
/-! ## Spec: how a document is delivered -/

/-- Layout: pieces of white space. -/
def Gap (g : List MSax) : Prop := ∀ e ∈ g, ∃ w, e = .chars w ∧ ∀ c ∈ w, isSpace c = true

mutual
/-- The event streams by which the content of a written document may come back: attribute values went
through `ws`, texts went through `tx` and come in any pieces, and any layout may stand around the content
of an element. -/
inductive Reads (ws tx : Str → Str) : MNode → List MSax → Prop
  | text {s : Str} {chunks : List Str} : chunks.flatten = tx s → Reads ws tx (.text s) (chunks.map .chars)
  | elem {t : Str} {as : List (Str × Str)} {ks : List MNode} {s : List MSax} : ReadsAll ws tx ks s →
      Reads ws tx (.elem t as ks) (.start t (as.map fun p => (p.1, ws p.2)) :: (s ++ [.stop t]))
inductive ReadsAll (ws tx : Str → Str) : List MNode → List MSax → Prop
  | nil {g : List MSax} : Gap g → ReadsAll ws tx [] g
  | cons {g s s' : List MSax} {n : MNode} {ns : List MNode} : Gap g → Reads ws tx n s → ReadsAll ws tx ns s' →
      ReadsAll ws tx (n :: ns) (g ++ (s ++ s'))
end

/-! ## Spec: documents of processes, instances and entries -/

/-- The tags that make up the structure. -/
def structural (t : Str) : Bool := t == py!"Process" || t == py!"ProcessInstance" || t == py!"AuditTrailEntry"

mutual
/-- No structural element inside. -/
def MNode.loose : MNode → Bool
  | .elem t _ ks => !structural t && looseAll ks
  | .text _ => true
def looseAll : List MNode → Bool
  | [] => true
  | n :: ns => n.loose && looseAll ns
end

/-- Content of an instance: entries and anything else. -/
inductive InstItem where
  | other (n : MNode)
  | entry (as : List (Str × Str)) (body : List MNode)

/-- Content of a process. -/
inductive ProcItem where
  | other (n : MNode)
  | inst (as : List (Str × Str)) (items : List InstItem)

/-- Content of a document. -/
inductive TopItem where
  | other (n : MNode)
  | proc (as : List (Str × Str)) (items : List ProcItem)

def InstItem.node : InstItem → MNode
  | .other n => n
  | .entry as body => .elem py!"AuditTrailEntry" as body
def ProcItem.node : ProcItem → MNode
  | .other n => n
  | .inst as items => .elem py!"ProcessInstance" as (items.map InstItem.node)
def TopItem.node : TopItem → MNode
  | .other n => n
  | .proc as items => .elem py!"Process" as (items.map ProcItem.node)

def InstItem.clean : InstItem → Prop
  | .other n => n.loose = true
  | .entry _ body => looseAll body = true
def ProcItem.clean : ProcItem → Prop
  | .other n => n.loose = true
  | .inst _ items => ∀ i ∈ items, i.clean
def TopItem.clean : TopItem → Prop
  | .other n => n.loose = true
  | .proc _ items => ∀ i ∈ items, i.clean

/-- The document with this content. -/
def docNode (as : List (Str × Str)) (items : List TopItem) : MNode := .elem py!"WorkflowLog" as (items.map TopItem.node)

/-- Number of entries of an instance. -/
def entryCount : List InstItem → Nat
  | [] => 0
  | .other _ :: r => entryCount r
  | .entry _ _ :: r => entryCount r + 1

/-- Number of entries of a process. -/
def procCount : List ProcItem → Nat
  | [] => 0
  | .other _ :: r => procCount r
  | .inst _ is :: r => entryCount is + procCount r

/-- The entries of the document are numbered in document order.  For the content of a process whose
first entry has number `n`: the numbers of the entries of each instance that has any. -/
def keptInsts (n : Nat) : List ProcItem → List (List Nat)
  | [] => []
  | .other _ :: r => keptInsts n r
  | .inst _ is :: r =>
    if entryCount is = 0 then keptInsts n r
    else List.range' n (entryCount is) :: keptInsts (n + entryCount is) r

/-- The same for each process of a document. -/
def keptProcs (n : Nat) : List TopItem → List (List (List Nat))
  | [] => []
  | .other _ :: r => keptProcs n r
  | .proc _ is :: r => keptInsts n is :: keptProcs (n + procCount is) r

section
variable {F : Type} [PyFloat F]

/-! ## Running -/

theorem mxmlRun_append (rnd : Nat → Uuid) : ∀ (a b : List MSax) (st : MxmlSt F),
    mxmlRun rnd st (a ++ b) = (mxmlRun rnd st a).bind (fun s => mxmlRun rnd s b)
  | [], b, st => rfl
  | e :: a, b, st => by
    simp only [List.cons_append, mxmlRun, bind]
    cases mxmlStep rnd st e with
    | error e => rfl
    | ok s => exact mxmlRun_append rnd a b s

theorem mxmlRun_append_ok {rnd : Nat → Uuid} {a b : List MSax} {st st' : MxmlSt F} (h : mxmlRun rnd st (a ++ b) = .ok st') :
    ∃ s, mxmlRun rnd st a = .ok s ∧ mxmlRun rnd s b = .ok st' := by
  rw [mxmlRun_append] at h
  cases ha : mxmlRun rnd st a with
  | error e => rw [ha] at h; simp [Except.bind] at h
  | ok s => rw [ha] at h; exact ⟨s, rfl, h⟩

theorem mxmlRun_cons_ok {rnd : Nat → Uuid} {e : MSax} {b : List MSax} {st st' : MxmlSt F} (h : mxmlRun rnd st (e :: b) = .ok st') :
    ∃ s, mxmlStep rnd st e = .ok s ∧ mxmlRun rnd s b = .ok st' := by
  simp only [mxmlRun, bind] at h
  cases ha : mxmlStep rnd st e with
  | error e => rw [ha] at h; simp [Except.bind] at h
  | ok s => rw [ha] at h; exact ⟨s, rfl, h⟩

/-- The ids of the events, trace by trace. -/
def traceIds (ts : List (Trace F)) : List (List Uuid) := ts.map fun t => t.events.map Event.id

/-- The part of the state that the structural elements work on. -/
def shape (st : MxmlSt F) : Nat × List (List (List Uuid)) × Option (List (List Uuid)) × Option (List Uuid) × Option Uuid :=
  (st.drawn, st.logs.map (fun l => traceIds l.traces), st.process.map (fun p => traceIds p.traces),
   st.inst.map (fun t => t.events.map Event.id), st.entry.map Event.id)

theorem shape_intoEntry {st st' : MxmlSt F} {a : Attr F} (h : intoEntry st a = .ok st') : shape st' = shape st := by
  unfold intoEntry at h
  cases he : st.entry with
  | none => rw [he] at h; simp at h
  | some e => rw [he] at h; simp only [Except.ok.injEq] at h; subst h; simp [shape, he]

theorem shape_route {st st' : MxmlSt F} {a : Attr F} (h : routeAttribute st a = .ok st') : shape st' = shape st := by
  have h1 : ∀ st', routeSource st a = .ok st' → shape st' = shape st := by
    intro st' h
    unfold routeSource at h
    split at h
    · split at h
      · simp only [Except.ok.injEq] at h; subst h; rfl
      · simp at h
    · simp only [Except.ok.injEq] at h; subst h; rfl
  have h2 : ∀ st', routeProcess st a = .ok st' → shape st' = shape st := by
    intro st' h
    unfold routeProcess at h
    split at h
    · rename_i p hp
      split at h
      · simp only [Except.ok.injEq] at h; subst h; simp [shape, hp]
      · exact h1 _ h
    · exact h1 _ h
  unfold routeAttribute at h
  split at h
  · rename_i e he
    simp only [Except.ok.injEq] at h; subst h; simp [shape, he]
  · split at h
    · rename_i t ht
      split at h
      · simp only [Except.ok.injEq] at h; subst h; simp [shape, ht]
      · exact h2 _ h
    · exact h2 _ h

theorem shape_start {rnd : Nat → Uuid} {st st' : MxmlSt F} {t : Str} {as : List (Str × Str)} (ht : structural t = false)
    (h : mxmlStart rnd st t as = .ok st') : shape st' = shape st := by
  simp only [structural, Bool.or_eq_false_iff, beq_eq_false_iff_ne, ne_eq] at ht
  obtain ⟨⟨h1, h2⟩, h3⟩ := ht
  unfold mxmlStart at h
  rw [if_neg h1, if_neg h2, if_neg h3] at h
  repeat' split at h
  all_goals first
    | (simp only [Except.ok.injEq] at h; subst h; rfl)
    | skip
  · unfold startAttribute at h
    split at h
    · simp at h
    · simp only [Except.ok.injEq] at h; subst h; rfl
  · unfold startElementName at h
    split at h
    · simp only [Except.ok.injEq] at h; subst h; rfl
    · split at h
      · simp at h
      · rename_i e he
        simp only [Except.ok.injEq] at h; subst h; simp [shape, he]

theorem shape_stop {st st' : MxmlSt F} {t : Str} (ht : structural t = false)
    (h : mxmlStop st t = .ok st') : shape st' = shape st := by
  simp only [structural, Bool.or_eq_false_iff, beq_eq_false_iff_ne, ne_eq] at ht
  obtain ⟨⟨h1, h2⟩, h3⟩ := ht
  obtain ⟨s, hs, h⟩ := bind_ok.1 h
  simp only [Except.ok.injEq] at h
  subst h
  change shape s = shape st
  unfold mxmlStopBody at hs
  rw [if_neg h1, if_neg h2, if_neg h3] at hs
  split at hs
  · simp only [Except.ok.injEq] at hs; subst hs; rfl
  split at hs
  · unfold stopAttribute at hs
    split at hs
    · split at hs
      · simp at hs
      · obtain ⟨s', hs', h⟩ := bind_ok.1 hs
        simp only [Except.ok.injEq] at h
        subst h
        have := shape_route hs'
        exact this
    · simp only [Except.ok.injEq] at hs; subst hs; rfl
  split at hs
  · unfold stopEventType at hs
    split at hs
    · simp at hs
    · obtain ⟨s', hs', h⟩ := bind_ok.1 hs
      simp only [Except.ok.injEq] at h
      subst h
      change shape s' = _
      split at hs'
      · split at hs'
        · exact shape_intoEntry hs'
        · simp only [Except.ok.injEq] at hs'; subst hs'; rfl
      · exact shape_intoEntry hs'
  split at hs
  · unfold stopElementName at hs
    split at hs
    · split at hs
      · simp at hs
      · rename_i e he
        simp only [Except.ok.injEq] at hs; subst hs; simp [shape, he]
    · simp only [Except.ok.injEq] at hs; subst hs; rfl
  split at hs
  · unfold stopTimestamp at hs
    obtain ⟨d, _, hs⟩ := bind_ok.1 hs
    split at hs
    · simp only [Except.ok.injEq] at hs; subst hs; rfl
    · have := shape_intoEntry hs
      exact this
  split at hs
  · unfold stopOriginator at hs
    split at hs
    · simp at hs
    · obtain ⟨s', hs', h⟩ := bind_ok.1 hs
      simp only [Except.ok.injEq] at h
      subst h
      have := shape_intoEntry hs'
      exact this
  · simp only [Except.ok.injEq] at hs; subst hs; rfl

/-- Events of loose content. -/
def looseEv : MSax → Prop
  | .start t _ => structural t = false
  | .stop t => structural t = false
  | .chars _ => True

theorem shape_run {rnd : Nat → Uuid} : ∀ {s : List MSax} {st st' : MxmlSt F}, (∀ e ∈ s, looseEv e) →
    mxmlRun rnd st s = .ok st' → shape st' = shape st
  | [], st, st', _, h => by simp only [mxmlRun, Except.ok.injEq] at h; rw [h]
  | e :: s, st, st', hl, h => by
    obtain ⟨s', h1, h2⟩ := mxmlRun_cons_ok h
    rw [shape_run (fun e he => hl e (List.mem_cons_of_mem _ he)) h2]
    have he := hl e (List.mem_cons_self ..)
    cases e with
    | start t as => exact shape_start he h1
    | stop t => exact shape_stop he h1
    | chars c => simp only [mxmlStep, Except.ok.injEq] at h1; subst h1; rfl

theorem gap_loose {g : List MSax} (hg : Gap g) : ∀ e ∈ g, looseEv e := by
  intro e he
  obtain ⟨w, rfl, _⟩ := hg e he
  trivial

mutual
theorem reads_loose {ws tx : Str → Str} : ∀ {n : MNode} {s : List MSax}, Reads ws tx n s → n.loose = true → ∀ e ∈ s, looseEv e
  | _, _, .text _, _, e, he => by
    obtain ⟨c, _, rfl⟩ := List.mem_map.1 he
    trivial
  | _, _, .elem hk, hl, e, he => by
    simp only [MNode.loose, Bool.and_eq_true, Bool.not_eq_true'] at hl
    simp only [List.mem_cons, List.mem_append, List.mem_nil_iff, or_false] at he
    rcases he with rfl | he | rfl
    · exact hl.1
    · exact readsAll_loose hk hl.2 e he
    · exact hl.1
theorem readsAll_loose {ws tx : Str → Str} : ∀ {ns : List MNode} {s : List MSax}, ReadsAll ws tx ns s → looseAll ns = true →
    ∀ e ∈ s, looseEv e
  | _, _, .nil hg, _ => gap_loose hg
  | _, _, .cons hg hn hns, hl => by
    simp only [looseAll, Bool.and_eq_true] at hl
    intro e he
    simp only [List.mem_append] at he
    rcases he with he | he | he
    · exact gap_loose hg e he
    · exact reads_loose hn hl.1 e he
    · exact readsAll_loose hns hl.2 e he
end

/-- One entry. -/
theorem shape_entry {rnd : Nat → Uuid} {ws tx : Str → Str} {as : List (Str × Str)} {body : List MNode} {s : List MSax} {st st' : MxmlSt F}
    {d : Nat} {L : List (List (List Uuid))} {P : Option (List (List Uuid))} {I : List Uuid} {E : Option Uuid}
    (hr : Reads ws tx (.elem py!"AuditTrailEntry" as body) s) (hl : looseAll body = true) (h : mxmlRun rnd st s = .ok st')
    (hs : shape st = (d, L, P, some I, E)) : shape st' = (d + 1, L, P, some (I ++ [rnd d]), none) := by
  cases hr with
  | elem hk =>
    rename_i s0
    obtain ⟨s1, h1, h⟩ := mxmlRun_cons_ok h
    obtain ⟨s2, h2, h⟩ := mxmlRun_append_ok h
    obtain ⟨s3, h3, h⟩ := mxmlRun_cons_ok h
    simp only [mxmlRun, Except.ok.injEq] at h
    subst h
    simp only [mxmlStep, mxmlStart] at h1
    have e1 : shape s1 = (d + 1, L, P, some I, some (rnd d)) := by
      have : startEntry rnd st = s1 := by simpa using h1
      rw [← this]
      simp only [shape, Prod.mk.injEq] at hs ⊢
      simp only [startEntry, hs, Option.map_some]
      simp
    have e2 := shape_run (readsAll_loose hk hl) h2
    rw [e1] at e2
    obtain ⟨s4, h4, h5⟩ := bind_ok.1 h3
    simp only [Except.ok.injEq] at h5
    subst h5
    change shape s4 = _
    have h6 : stopEntry s2 = .ok s4 := by simpa [mxmlStopBody] using h4
    have happ : ∀ x, appendEntry s2 = .ok x → shape x = (d + 1, L, P, some (I ++ [rnd d]), some (rnd d)) := by
      intro x hx
      unfold appendEntry at hx
      simp only [shape, Prod.mk.injEq] at e2
      obtain ⟨a1, a2, a3, a4, a5⟩ := e2
      cases hi : s2.inst with
      | none => rw [hi] at a4; simp at a4
      | some t =>
        cases he : s2.entry with
        | none => rw [he] at a5; simp at a5
        | some e =>
          rw [hi, he] at hx
          rw [hi] at a4
          rw [he] at a5
          simp only [Except.ok.injEq] at hx
          subst hx
          simp only [Option.map_some, Option.some.injEq] at a4 a5
          simp [shape, a1, a2, a3, a4, a5]
    unfold stopEntry at h6
    obtain ⟨s5, h5, h6⟩ := bind_ok.1 h6
    simp only [Except.ok.injEq] at h6
    have e5 : shape s5 = (d + 1, L, P, some (I ++ [rnd d]), some (rnd d)) := by
      split at h5
      · exact happ _ h5
      · split at h5
        · obtain ⟨x, hx, h7⟩ := bind_ok.1 h5
          simp only [Except.ok.injEq] at h7
          subst h7
          have := happ _ hx
          exact this
        · obtain ⟨g, _, h5⟩ := bind_ok.1 h5
          obtain ⟨x, hx, h7⟩ := bind_ok.1 h5
          split at h7 <;> (simp only [Except.ok.injEq] at h7; subst h7; have := happ _ hx; exact this)
    subst h6
    simp only [shape, Prod.mk.injEq] at e5 ⊢
    simp [e5]

theorem shape_insts {rnd : Nat → Uuid} {ws tx : Str → Str} : ∀ {items : List InstItem} {s : List MSax} {st st' : MxmlSt F}
    {d : Nat} {L : List (List (List Uuid))} {P : Option (List (List Uuid))} {I : List Uuid},
    ReadsAll ws tx (items.map InstItem.node) s → (∀ i ∈ items, i.clean) → mxmlRun rnd st s = .ok st' →
    shape st = (d, L, P, some I, none) →
    shape st' = (d + entryCount items, L, P, some (I ++ (List.range' d (entryCount items)).map rnd), none)
  | [], s, st, st', d, L, P, I, hr, hc, h, hs => by
    cases hr with
    | nil hg =>
      rw [shape_run (gap_loose hg) h, hs]
      simp [entryCount]
  | i :: items, s, st, st', d, L, P, I, hr, hc, h, hs => by
    cases hr with
    | cons hg hn hns =>
      obtain ⟨s1, h1, h⟩ := mxmlRun_append_ok h
      obtain ⟨s2, h2, h⟩ := mxmlRun_append_ok h
      have e1 := shape_run (gap_loose hg) h1
      rw [hs] at e1
      have hci := hc i (List.mem_cons_self ..)
      have hcs : ∀ i ∈ items, i.clean := fun j hj => hc j (List.mem_cons_of_mem _ hj)
      cases i with
      | other n =>
        have e2 := shape_run (reads_loose hn hci) h2
        rw [e1] at e2
        have e3 := shape_insts hns hcs h e2
        simpa only [entryCount] using e3
      | entry as body =>
        have e2 := shape_entry hn hci h2 e1
        rw [shape_insts hns hcs h e2]
        simp only [entryCount, List.range'_succ, List.map_cons, List.append_assoc, List.cons_append, List.nil_append,
          Prod.mk.injEq, and_true]
        omega

theorem shape_inst {rnd : Nat → Uuid} {ws tx : Str → Str} {as : List (Str × Str)} {items : List InstItem} {s : List MSax}
    {st st' : MxmlSt F} {d : Nat} {L : List (List (List Uuid))} {P : List (List Uuid)}
    (hr : Reads ws tx (.elem py!"ProcessInstance" as (items.map InstItem.node)) s) (hl : ∀ i ∈ items, i.clean)
    (h : mxmlRun rnd st s = .ok st') (hs : shape st = (d, L, some P, none, none)) :
    shape st' = (d + entryCount items, L,
      some (P ++ if entryCount items = 0 then [] else [(List.range' d (entryCount items)).map rnd]), none, none) := by
  cases hr with
  | elem hk =>
    obtain ⟨s1, h1, h⟩ := mxmlRun_cons_ok h
    obtain ⟨s2, h2, h⟩ := mxmlRun_append_ok h
    obtain ⟨s3, h3, h⟩ := mxmlRun_cons_ok h
    simp only [mxmlRun, Except.ok.injEq] at h
    subst h
    have e1 : shape s1 = (d, L, some P, some [], none) := by
      have : Except.ok (startInstance st (as.map fun p => (p.1, ws p.2))) = Except.ok (ε := PyErr) s1 := by simpa [mxmlStep, mxmlStart] using h1
      rw [← Except.ok.inj this]
      simp only [shape, Prod.mk.injEq] at hs ⊢
      simp [startInstance, hs]
    have e2 := shape_insts hk hl h2 e1
    obtain ⟨s4, h4, h5⟩ := bind_ok.1 h3
    simp only [Except.ok.injEq] at h5
    subst h5
    change shape s4 = _
    have h6 : stopInstance s2 = .ok s4 := by simpa [mxmlStopBody] using h4
    simp only [shape, Prod.mk.injEq, List.nil_append] at e2
    obtain ⟨a1, a2, a3, a4, a5⟩ := e2
    unfold stopInstance at h6
    cases hi : s2.inst with
    | none => rw [hi] at a4; simp at a4
    | some t =>
      rw [hi] at a4 h6
      simp only [Option.map_some, Option.some.injEq] at a4
      have hlen : t.events.length = entryCount items := by
        have := congrArg List.length a4
        simpa using this
      simp only [hlen] at h6
      split at h6
      · rename_i hpos
        cases hp : s2.process with
        | none => rw [hp] at a3; simp at a3
        | some p =>
          rw [hp] at a3 h6
          simp only [Option.map_some, Option.some.injEq] at a3
          simp only [Except.ok.injEq] at h6
          subst h6
          have hne : entryCount items ≠ 0 := by omega
          have h7 : traceIds (p.traces ++ [t]) = P ++ [(List.range' d (entryCount items)).map rnd] := by
            rw [← a3, ← a4]; simp [traceIds]
          have h8 : s2.entry = none := by simpa using a5
          simp [shape, a1, a2, h8, h7, hne]
      · rename_i hpos
        have hz : entryCount items = 0 := by omega
        simp only [Except.ok.injEq] at h6
        subst h6
        have h8 : s2.entry = none := by simpa using a5
        simp [shape, a1, a2, a3, h8, hz]

theorem shape_procItems {rnd : Nat → Uuid} {ws tx : Str → Str} : ∀ {items : List ProcItem} {s : List MSax} {st st' : MxmlSt F}
    {d : Nat} {L : List (List (List Uuid))} {P : List (List Uuid)},
    ReadsAll ws tx (items.map ProcItem.node) s → (∀ i ∈ items, i.clean) → mxmlRun rnd st s = .ok st' →
    shape st = (d, L, some P, none, none) →
    shape st' = (d + procCount items, L, some (P ++ (keptInsts d items).map (·.map rnd)), none, none)
  | [], s, st, st', d, L, P, hr, hc, h, hs => by
    cases hr with
    | nil hg =>
      rw [shape_run (gap_loose hg) h, hs]
      simp [procCount, keptInsts]
  | i :: items, s, st, st', d, L, P, hr, hc, h, hs => by
    cases hr with
    | cons hg hn hns =>
      obtain ⟨s1, h1, h⟩ := mxmlRun_append_ok h
      obtain ⟨s2, h2, h⟩ := mxmlRun_append_ok h
      have e1 := shape_run (gap_loose hg) h1
      rw [hs] at e1
      have hci := hc i (List.mem_cons_self ..)
      have hcs : ∀ i ∈ items, i.clean := fun j hj => hc j (List.mem_cons_of_mem _ hj)
      cases i with
      | other n =>
        have e2 := shape_run (reads_loose hn hci) h2
        rw [e1] at e2
        have e3 := shape_procItems hns hcs h e2
        simpa only [procCount, keptInsts] using e3
      | inst as is =>
        have e2 := shape_inst hn hci h2 e1
        rw [shape_procItems hns hcs h e2]
        by_cases hz : entryCount is = 0
        · simp [procCount, keptInsts, hz]
        · simp only [procCount, keptInsts, hz, if_false, List.map_cons, List.append_assoc, List.cons_append, List.nil_append,
            Prod.mk.injEq, and_true]
          omega

theorem shape_top {rnd : Nat → Uuid} {ws tx : Str → Str} : ∀ {items : List TopItem} {s : List MSax} {st st' : MxmlSt F}
    {d : Nat} {L : List (List (List Uuid))},
    ReadsAll ws tx (items.map TopItem.node) s → (∀ i ∈ items, i.clean) → mxmlRun rnd st s = .ok st' →
    shape st = (d, L, none, none, none) →
    (shape st').2.1 = L ++ (keptProcs d items).map (·.map (·.map rnd))
  | [], s, st, st', d, L, hr, hc, h, hs => by
    cases hr with
    | nil hg =>
      rw [shape_run (gap_loose hg) h, hs]
      simp [keptProcs]
  | i :: items, s, st, st', d, L, hr, hc, h, hs => by
    cases hr with
    | cons hg hn hns =>
      obtain ⟨s1, h1, h⟩ := mxmlRun_append_ok h
      obtain ⟨s2, h2, h⟩ := mxmlRun_append_ok h
      have e1 := shape_run (gap_loose hg) h1
      rw [hs] at e1
      have hci := hc i (List.mem_cons_self ..)
      have hcs : ∀ i ∈ items, i.clean := fun j hj => hc j (List.mem_cons_of_mem _ hj)
      cases i with
      | other n =>
        have e2 := shape_run (reads_loose hn hci) h2
        rw [e1] at e2
        have e3 := shape_top hns hcs h e2
        simpa only [keptProcs] using e3
      | proc as is =>
        cases hn with
        | elem hk =>
          obtain ⟨t1, g1, g⟩ := mxmlRun_cons_ok h2
          obtain ⟨t2, g2, g⟩ := mxmlRun_append_ok g
          obtain ⟨t3, g3, g⟩ := mxmlRun_cons_ok g
          simp only [mxmlRun, Except.ok.injEq] at g
          subst g
          have f1 : shape t1 = (d, L, some [], none, none) := by
            have : Except.ok (startProcess s1 (as.map fun p => (p.1, ws p.2))) = Except.ok (ε := PyErr) t1 := by simpa [mxmlStep, mxmlStart] using g1
            rw [← Except.ok.inj this]
            simp only [shape, Prod.mk.injEq] at e1 ⊢
            obtain ⟨b1, b2, b3, b4, b5⟩ := e1
            exact ⟨b1, b2, rfl, b4, b5⟩
          have f2 := shape_procItems hk hci g2 f1
          obtain ⟨t4, g4, g5⟩ := bind_ok.1 g3
          simp only [Except.ok.injEq] at g5
          have g6 : stopProcess t2 = .ok t4 := by simpa [mxmlStopBody] using g4
          have f3 : shape t3 = (d + procCount is, L ++ [(keptInsts d is).map (·.map rnd)], none, none, none) := by
            subst g5
            change shape t4 = _
            simp only [shape, Prod.mk.injEq, List.nil_append] at f2
            obtain ⟨a1, a2, a3, a4, a5⟩ := f2
            unfold stopProcess at g6
            cases hp : t2.process with
            | none => rw [hp] at a3; simp at a3
            | some p =>
              rw [hp] at a3 g6
              simp only [Option.map_some, Option.some.injEq] at a3
              simp only [Except.ok.injEq] at g6
              subst g6
              have h7 : t2.inst = none := by simpa using a4
              have h8 : t2.entry = none := by simpa using a5
              simp [shape, a1, a2, a3, h7, h8]
          rw [shape_top hns hcs h f3]
          simp [keptProcs]

/-- **C49.** -/
theorem c49_kept (rnd : Nat → Uuid) (ws tx : Str → Str) (as : List (Str × Str)) (items : List TopItem)
    (hc : ∀ i ∈ items, i.clean) (s : List MSax) (hr : Reads ws tx (docNode as items) s) (logs : List (Log F))
    (h : mxmlParse rnd s = .ok logs) :
    logs.map (fun l => l.traces.map (fun t => t.events.map Event.id)) = (keptProcs 0 items).map (·.map (·.map rnd)) := by
  obtain ⟨st, hst, h⟩ := bind_ok.1 h
  simp only [Except.ok.injEq] at h
  subst h
  cases hr with
  | elem hk =>
    obtain ⟨s1, h1, h⟩ := mxmlRun_cons_ok hst
    obtain ⟨s2, h2, h⟩ := mxmlRun_append_ok h
    have e1 : s1 = MxmlSt.init F := by simpa [mxmlStep, mxmlStart] using h1.symm
    have e2 := shape_top (d := 0) (L := []) hk hc h2 (by rw [e1]; rfl)
    have e3 := shape_run (s := [.stop py!"WorkflowLog"]) (by simp [looseEv, structural]) h
    rw [← e3] at e2
    simpa [shape, traceIds, MLog.toLog, List.map_map, Function.comp_def] using e2

end

/-! ## Cases -/

/-- Two processes, the first with an instance without entries and one with two entries. -/
def c49Doc : List TopItem :=
  [.other (.elem py!"Source" [(py!"program", py!"p")] []),
   .proc [(py!"id", py!"P")] [
     .inst [(py!"id", py!"1")] [.other (.elem py!"Data" [] [])],
     .inst [(py!"id", py!"2")] [
       .entry [] [.elem py!"Timestamp" [] [.text py!"2020-01-02T00:00:00"]],
       .entry [] [.elem py!"Timestamp" [] [.text py!"2020-01-01T00:00:00"]]]],
   .proc [(py!"id", py!"Q")] [.inst [(py!"id", py!"3")] [.entry [] []]]]

example : ∀ i ∈ c49Doc, i.clean := by
  simp [c49Doc, TopItem.clean, ProcItem.clean, InstItem.clean, MNode.loose, looseAll, structural]

example : keptProcs 0 c49Doc = [[[0, 1]], [[2]]] := by decide

/-- A chunking of `a b` inside an element. -/
example : glued [.start py!"t" [], .chars py!"a", .chars [], .chars py!" b", .stop py!"t"] =
    glued [.start py!"t" [], .chars py!"a b", .stop py!"t"] := rfl

end Opy
