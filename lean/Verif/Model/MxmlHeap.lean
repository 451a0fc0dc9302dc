import Verif.Model.HeapExt
import Verif.Model.Mxml
import Verif.Model.Xes
/-
MXML: data_in/XMxmlParser.py on objects with identity.  Model/Mxml has the same handler on values.

Simplifications: the factory of the registry is the standard one, as in Model/Mxml; logging is dropped.
-/
set_option linter.unusedSectionVars false
namespace Opy

/-- The fields of MxmlHandler, data_in/XMxmlParser.py:80-94, and the objects.  `numUnorderedEntries` is never changed. -/
structure MobSt (F : Type) where
  heap : Heap F
  buffer : List Str
  logs : List Ref
  process : Option Ref
  inst : Option Ref
  entry : Option Ref
  source : Option Ref
  generic : Option Ref
  eventType : Option Ref
  originator : Option Ref
  sourceOpen : Bool
  timestamp : Option DateTime
  lastTimestamp : Option DateTime

/-- data_in/XMxmlParser.py:80-94. -/
def MobSt.init {F : Type} (h : Heap F) : MobSt F := ⟨h, [], [], none, none, none, none, none, none, none, false, none, none⟩

section
variable {F : Type} [PyFloat F]

/-- `x.get_attributes()[a.get_key()] = a`. -/
def keepAttr (h : Heap F) (x : Option Ref) (a : Ref) : Except PyErr (Heap F) :=
  match x with
  | none => .error .attributeError
  | some x => do
    let m ← mapOf h x
    let k ← keyOf h a
    mapSet h m k a

/-- `__add_model_reference__`: data_in/XMxmlParser.py:273-283. -/
def mobRef (P : Protos) (as : List (Str × Str)) (h : Heap F) (subject : Option Ref) : Except PyErr (Heap F) :=
  match modelRef as with
  | none => .ok h
  | some v => do
    let (a, h) ← cloneAttr h (P .reference)
    let h ← setValue h a (.str v)
    keepAttr h subject a

/-- A method of an extension that must not raise here. -/
def mobExt : HRes F → Except PyErr (Heap F)
  | (.ok _, h) => .ok h
  | (.error e, _) => .error e

/-- The description attribute: data_in/XMxmlParser.py:136-139 and 152-154. -/
def mobDescription (keep : Str → Bool) (as : List (Str × Str)) (h : Heap F) (x : Ref) : Except PyErr (Heap F) :=
  match dget py!"description" as with
  | none => .ok h
  | some d => if keep d then
      let (a, h) := newAttr h .literal py!"description" none (.str d)
      keepAttr h (some x) a
    else .ok h

/-- `startElement` for `Source`: data_in/XMxmlParser.py:115-119. -/
def mobStartSource (P : Protos) (st : MobSt F) (as : List (Str × Str)) : Except PyErr (MobSt F) := do
  let (a, h) := newAttr st.heap .literal py!"source" none (match dget py!"program" as with
    | some s => .str s
    | none => .none)
  let h ← mobRef P as h (some a)
  .ok { st with heap := h, sourceOpen := true, source := some a }

/-- `startElement` for `Process`: data_in/XMxmlParser.py:120-141. -/
def mobStartProcess (P : Protos) (st : MobSt F) (as : List (Str × Str)) : Except PyErr (MobSt F) := do
  let (l, h) := createLog st.heap none
  let h ← modLog h (some l) fun o => { o with
    extensions := extAdd timeExt (extAdd semanticExt (extAdd lifecycleExt (extAdd orgExt (extAdd conceptExt o.extensions)))) }
  let h ← match st.source with
    | some s => keepAttr h (some l) s
    | none => .ok h
  let h ← mobExt (assignNameAt P (dget py!"id" as) h l)
  let h ← mobExt (assignModelAt P (some py!"standard") h l)
  let h ← mobDescription (fun d => 0 < (pyLower d).length) as h l
  let h ← mobRef P as h (some l)
  .ok { st with heap := h, process := some l }

/-- `startElement` for `ProcessInstance`: data_in/XMxmlParser.py:143-156. -/
def mobStartInstance (P : Protos) (st : MobSt F) (as : List (Str × Str)) : Except PyErr (MobSt F) := do
  let (t, h) := createTrace st.heap none
  let h ← mobExt (assignNameAt P (some ((dget py!"id" as).getD py!"None")) h t)
  let h ← mobDescription (fun d => 0 < (strip d).length) as h t
  let h ← mobRef P as h (some t)
  .ok { st with heap := h, inst := some t }

/-- `startElement` for `AuditTrailEntry`: data_in/XMxmlParser.py:158-159. -/
def mobStartEntry (rnd : Nat → Uuid) (st : MobSt F) : MobSt F :=
  let (e, h) := createEvent rnd st.heap none none
  { st with heap := h, entry := some e }

/-- `startElement` for `Attribute`: data_in/XMxmlParser.py:161-163. -/
def mobStartAttribute (P : Protos) (st : MobSt F) (as : List (Str × Str)) : Except PyErr (MobSt F) :=
  match dget py!"name" as with
  | none => .error .attributeError
  | some n => do
    let (a, h) := newAttr st.heap .literal (strip n) none (.str py!"DEFAULT_VALUE")
    let h ← mobRef P as h (some a)
    .ok { st with heap := h, generic := some a }

/-- `startElement` for `EventType`: data_in/XMxmlParser.py:165-173. -/
def mobStartEventType (P : Protos) (st : MobSt F) (as : List (Str × Str)) : Except PyErr (MobSt F) := do
  let (a, h) ← cloneAttr st.heap (P .transition)
  let h ← setValue h a (.str (match dget py!"unknowntype" as with
    | some u => if u = [] then py!"UNKNOWN" else u
    | none => py!"UNKNOWN"))
  let h ← mobRef P as h (some a)
  .ok { st with heap := h, eventType := some a }

/-- `startElement` for `WorkflowModelElement`: data_in/XMxmlParser.py:175-176. -/
def mobStartElementName (P : Protos) (st : MobSt F) (as : List (Str × Str)) : Except PyErr (MobSt F) := do
  let h ← mobRef P as st.heap st.entry
  .ok { st with heap := h }

/-- `startElement` for `Originator`: data_in/XMxmlParser.py:178-180. -/
def mobStartOriginator (P : Protos) (st : MobSt F) (as : List (Str × Str)) : Except PyErr (MobSt F) := do
  let (a, h) ← cloneAttr st.heap (P .resource)
  let h ← mobRef P as h (some a)
  .ok { st with heap := h, originator := some a }

/-- `startElement`: data_in/XMxmlParser.py:104-180. -/
def mobStart (rnd : Nat → Uuid) (P : Protos) (st : MobSt F) (tag : Str) (as : List (Str × Str)) : Except PyErr (MobSt F) :=
  if tag = py!"WorkflowLog" then .ok st
  else if tag = py!"Source" then mobStartSource P st as
  else if tag = py!"Process" then mobStartProcess P st as
  else if tag = py!"ProcessInstance" then mobStartInstance P st as
  else if tag = py!"AuditTrailEntry" then .ok (mobStartEntry rnd st)
  else if tag = py!"Attribute" then mobStartAttribute P st as
  else if tag = py!"EventType" then mobStartEventType P st as
  else if tag = py!"WorkflowModelElement" then mobStartElementName P st as
  else if tag = py!"Originator" then mobStartOriginator P st as
  else .ok st

/-- `"".join(self.__buffer).strip()`: data_in/XMxmlParser.py:229,244,253,256,264. -/
def mobText (st : MobSt F) : Str := strip (join [] st.buffer)

/-- `len(trace)`; `len(None)` is a TypeError. -/
def lenTrace (h : Heap F) : Option Ref → Except PyErr Nat
  | none => .error .typeError
  | some t => match h.get t with
    | some (.trace _ es) => .ok es.length
    | _ => .error .typeError

/-- `endElement` for `Process`: data_in/XMxmlParser.py:195-201. -/
def mobStopProcess (P : Protos) (st : MobSt F) : Except PyErr (MobSt F) := do
  let h ← modLog st.heap st.process fun o => { o with classifiers := o.classifiers ++ mxmlClassifiers }
  let (a, h) ← cloneAttr h (P .name)
  let h ← modLog h st.process fun o => { o with globalTrace := o.globalTrace ++ [a] }
  let (a, h) ← cloneAttr h (P .name)
  let h ← modLog h st.process fun o => { o with globalEvent := o.globalEvent ++ [a] }
  let (a, h) ← cloneAttr h (P .transition)
  let h ← modLog h st.process fun o => { o with globalEvent := o.globalEvent ++ [a] }
  .ok { st with heap := h, logs := st.logs ++ st.process.toList, process := none }

/-- `endElement` for `ProcessInstance`: data_in/XMxmlParser.py:206-211. -/
def mobStopInstance (st : MobSt F) : Except PyErr (MobSt F) := do
  let n ← lenTrace st.heap st.inst
  if 0 < n then
    match st.process, st.inst with
    | some p, some t => do
      let h ← logAppend st.heap p t
      .ok { st with heap := h, inst := none, lastTimestamp := none }
    | _, _ => .error .attributeError
  else .ok { st with inst := none, lastTimestamp := none }

/-- `self.__currentInstance.append(self.__entry)`: data_in/XMxmlParser.py:215.  The end of an entry in which another one has ended
appends `None`. -/
def mobAppend (st : MobSt F) : Except PyErr (MobSt F) :=
  match st.inst with
  | none => .error .attributeError
  | some t => do
    let (e, h) := match st.entry with
      | some e => (e, st.heap)
      | none => st.heap.alloc .pyNone
    let h ← traceAppend h t e
    .ok { st with heap := h }

/-- `endElement` for `AuditTrailEntry`: data_in/XMxmlParser.py:213-225. -/
def mobStopEntry (st : MobSt F) : Except PyErr (MobSt F) := do
  let st ← (match st.timestamp with
    | none => mobAppend st
    | some t => match st.lastTimestamp with
      | none => do
        let s ← mobAppend st
        .ok { s with lastTimestamp := some t }
      | some l => do
        let gt ← l.lt t
        let s ← mobAppend st
        if gt then .ok { s with lastTimestamp := some t } else .ok s : Except PyErr (MobSt F))
  .ok { st with entry := none }

/-- The truth value of the trace in `__currentInstance`. -/
def traceTruthy (h : Heap F) : Option Ref → Bool
  | none => false
  | some t => match h.get t with
    | some (.trace _ es) => 0 < es.length
    | _ => true

/-- The truth value of the log in `__currentProcess`. -/
def logTruthy (h : Heap F) : Option Ref → Bool
  | none => false
  | some l => match h.get l with
    | some (.log o) => 0 < o.traces.length
    | _ => true

/-- Where a data attribute goes: data_in/XMxmlParser.py:232-239. -/
def mobRoute (st : MobSt F) (h : Heap F) (a : Ref) : Except PyErr (Heap F) :=
  if st.entry.isSome then keepAttr h st.entry a
  else if traceTruthy h st.inst then keepAttr h st.inst a
  else if logTruthy h st.process then keepAttr h st.process a
  else if st.sourceOpen then keepAttr h st.source a
  else .ok h

/-- `endElement` for `Attribute`: data_in/XMxmlParser.py:228-240. -/
def mobStopAttribute (st : MobSt F) : Except PyErr (MobSt F) :=
  if 0 < (mobText st).length then
    match st.generic with
    | none => .error .attributeError
    | some a => do
      let h ← setValue st.heap a (.str (mobText st))
      let h ← mobRoute st h a
      .ok { st with heap := h, generic := none }
  else .ok { st with generic := none }

/-- `attribute.get_value()`. -/
def valueOf (h : Heap F) : Option Ref → Except PyErr (PyVal F)
  | none => .error .attributeError
  | some a => match h.get a with
    | some (.attr k _ _ v _ _) => if k.isCollection then .error .attributeError else .ok v
    | _ => .error .attributeError

/-- `endElement` for `EventType`: data_in/XMxmlParser.py:242-250. -/
def mobStopEventType (st : MobSt F) : Except PyErr (MobSt F) :=
  match st.eventType with
  | none => .error .attributeError
  | some a => do
    let v ← valueOf st.heap (some a)
    let h ← (if pyEq v (.str py!"UNKNOWN") then
        if 0 < (mobText st).length then do
          let h ← setValue st.heap a (.str (mobText st))
          keepAttr h st.entry a
        else .ok st.heap
      else keepAttr st.heap st.entry a : Except PyErr (Heap F))
    .ok { st with heap := h, eventType := none }

/-- `endElement` for `WorkflowModelElement`: data_in/XMxmlParser.py:252-253. -/
def mobStopElementName (P : Protos) (st : MobSt F) : Except PyErr (MobSt F) :=
  if given (some (mobText st)) then
    match st.entry with
    | none => .error .attributeError
    | some e => do
      let h ← mobExt (assignNameAt P (some (mobText st)) st.heap e)
      .ok { st with heap := h }
  else .ok st

/-- `endElement` for `Timestamp`: data_in/XMxmlParser.py:255-261. -/
def mobStopTimestamp (P : Protos) (st : MobSt F) : Except PyErr (MobSt F) := do
  match ← parseDateTime (mobText st) with
  | none => .ok { st with timestamp := none }
  | some d =>
    let (a, h) ← cloneAttr st.heap (P .timestamp)
    let h ← setValue h a (.dt d)
    let h ← keepAttr h st.entry a
    .ok { st with heap := h, timestamp := some d }

/-- `endElement` for `Originator`: data_in/XMxmlParser.py:263-269. -/
def mobStopOriginator (st : MobSt F) : Except PyErr (MobSt F) :=
  match st.originator with
  | none => .error .attributeError
  | some a => do
    let h ← (if 0 < (mobText st).length then setValue st.heap a (.str (mobText st)) else .ok st.heap : Except PyErr (Heap F))
    let h ← keepAttr h st.entry a
    .ok { st with heap := h, originator := none }

/-- `endElement` up to the last line: data_in/XMxmlParser.py:182-269. -/
def mobStopBody (P : Protos) (st : MobSt F) (tag : Str) : Except PyErr (MobSt F) :=
  if tag = py!"WorkflowLog" then .ok st
  else if tag = py!"Process" then mobStopProcess P st
  else if tag = py!"ProcessInstance" then mobStopInstance st
  else if tag = py!"AuditTrailEntry" then mobStopEntry st
  else if tag = py!"Attribute" then mobStopAttribute st
  else if tag = py!"EventType" then mobStopEventType st
  else if tag = py!"WorkflowModelElement" then mobStopElementName P st
  else if tag = py!"Timestamp" then mobStopTimestamp P st
  else if tag = py!"Originator" then mobStopOriginator st
  else .ok st

/-- One call of the content handler: data_in/XMxmlParser.py:104,182,285,293. -/
def mobStep (rnd : Nat → Uuid) (P : Protos) (st : MobSt F) : MSax → Except PyErr (MobSt F)
  | .start tag as => mobStart rnd P st tag as
  | .stop tag => do
    let s ← mobStopBody P st tag
    .ok { s with buffer := [] }
  | .chars s => .ok { st with buffer := st.buffer ++ [s] }

/-- `xml_parse(file, handler)`: data_in/XMxmlParser.py:56. -/
def mobRun (rnd : Nat → Uuid) (P : Protos) (st : MobSt F) : List MSax → Except PyErr (MobSt F)
  | [] => .ok st
  | e :: es => do mobRun rnd P (← mobStep rnd P st e) es

/-- `parse(file)`: data_in/XMxmlParser.py:42-58,96-102, with the objects behind it. -/
def mobParse (rnd : Nat → Uuid) (P : Protos) (h : Heap F) (file : List MSax) : Except PyErr (List Ref × Heap F) := do
  let st ← mobRun rnd P (.init h) file
  .ok (st.logs, st.heap)

end

end Opy
