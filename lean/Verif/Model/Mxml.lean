import Verif.Model.Ext
import Verif.Model.Log
/-
MXML: data_in/XMxmlParser.py and data_out/XMxmlSerializer.py.

The handler is a state machine on SAX events.  All objects the handler creates are reachable in one
way only and are modelled as values, except the attribute made of a `Source` element: it is put into
every log that follows and is changed later, so logs refer to it by number (`MRef.source`).
`XTrace` and `XLog` are lists, so they are false while they are empty; events and attributes define
neither `__bool__` nor `__len__`, so they are always true.

Simplifications: the factory of the registry is the standard one (XMxmlParser().factory, line 118 and
others; the factory given to the parser is not used by the handler); `characters` and
`ignorableWhitespace` (lines 285-299) do the same and are one event; an `AuditTrailEntry` element that
ends while no entry is open (nested entries) is an error here, in Python `None` is appended
(Model/MxmlHeap does so); logging is dropped.
-/
set_option linter.unusedSectionVars false
namespace Opy

/-- XML content: an element or character data (xml.etree elements with `text`, as built by
data_out/XMxmlSerializer.py:51-119). -/
inductive MNode where
  | elem (tag : Str) (attrs : List (Str × Str)) (kids : List MNode)
  | text (s : Str)

/-- Calls of the content handler, data_in/XMxmlParser.py:104,182,285,293. -/
inductive MSax where
  | start (tag : Str) (attrs : List (Str × Str))
  | stop (tag : Str)
  | chars (s : Str)
  deriving DecidableEq

/-- What the attribute map of a log refers to: an attribute of its own or the attribute of the i-th
`Source` element (data_in/XMxmlParser.py:118,131). -/
inductive MRef (F : Type) where
  | own (a : Attr F)
  | source (i : Nat)

/-- A log under construction, data_in/XMxmlParser.py:124. -/
structure MLog (F : Type) where
  attrs : List (Str × MRef F)
  extensions : List Ext
  classifiers : List Classifier
  globalTrace : List (Attr F)
  globalEvent : List (Attr F)
  traces : List (Trace F)

/-- The fields of MxmlHandler, data_in/XMxmlParser.py:80-94.  `sources` are the attributes of all
`Source` elements so far and `source` the number of the current one; `drawn` counts the random ids
drawn.  `numUnorderedEntries` is never changed and only used for logging. -/
structure MxmlSt (F : Type) where
  buffer : List Str
  logs : List (MLog F)
  process : Option (MLog F)
  inst : Option (Trace F)
  entry : Option (Event F)
  sources : List (Attr F)
  source : Option Nat
  generic : Option (Attr F)
  eventType : Option (Attr F)
  originator : Option (Attr F)
  sourceOpen : Bool
  timestamp : Option DateTime
  lastTimestamp : Option DateTime
  drawn : Nat

/-- data_in/XMxmlParser.py:80-94. -/
def MxmlSt.init (F : Type) : MxmlSt F := ⟨[], [], none, none, none, [], none, none, none, none, false, none, none, 0⟩

/-- `MXML_CLASSIFIERS`: data_in/XMxmlParser.py:22-24, classification/XEventNameClassifier.py:9,
classification/XEventResourceClassifier.py:10. -/
def mxmlClassifiers : List Classifier :=
  [⟨py!"MXML Legacy Classifier", [py!"concept:name", py!"lifecycle:transition"]⟩,
   ⟨py!"Event Name", [py!"concept:name"]⟩, ⟨py!"Resource", [py!"org:resource"]⟩]

section
variable {F : Type} [PyFloat F]

/-- The value looked up in `__add_model_reference__`, if true: data_in/XMxmlParser.py:275-280. -/
def modelRef (as : List (Str × Str)) : Option Str :=
  match dget py!"modelReference" as with
  | some s => if s = [] then none else some s
  | none => none

/-- `__add_model_reference__` on the attribute map of the subject: data_in/XMxmlParser.py:273-283. -/
def addRef (as : List (Str × Str)) (m : AttrMap F) : AttrMap F :=
  match modelRef as with
  | some v => dset py!"semantic:modelReference" (cloned .literal py!"semantic:modelReference" semanticExt (.str v)) m
  | none => m

/-- A fresh literal attribute with key and value, no extension (`create_attribute_literal`,
factory/XFactory.py:123-137). -/
def literalOf (key : Str) (v : PyVal F) (m : AttrMap F) : Attr F := .mk .literal key none v m []

/-- Storing attributes of its own in the map of a log. -/
def ownAll (as : AttrMap F) (m : List (Str × MRef F)) : List (Str × MRef F) :=
  as.foldl (fun m p => dset p.1 (.own p.2) m) m

/-- `startElement` for `Source`: data_in/XMxmlParser.py:115-119. -/
def startSource (st : MxmlSt F) (as : List (Str × Str)) : MxmlSt F :=
  let program : PyVal F := match dget py!"program" as with
    | some s => .str s
    | none => .none
  { st with
    sourceOpen := true,
    source := some st.sources.length,
    sources := st.sources ++ [literalOf py!"source" program (addRef as [])] }

/-- The optional description attribute: data_in/XMxmlParser.py:136-139 (`keep` is the test on the
text) and 152-154. -/
def description (keep : Str → Bool) (as : List (Str × Str)) (m : AttrMap F) : AttrMap F :=
  match dget py!"description" as with
  | some d => if keep d then dset py!"description" (literalOf py!"description" (.str d) []) m else m
  | none => m

/-- `startElement` for `Process`: data_in/XMxmlParser.py:120-141.  The attributes of its own are
collected in an empty map first and then stored, in the same order. -/
def startProcess (st : MxmlSt F) (as : List (Str × Str)) : MxmlSt F :=
  let own := addRef as (description (fun d => 0 < (pyLower d).length) as
    (assignModel (some py!"standard") (assignName (dget py!"id" as) [])))
  let base : List (Str × MRef F) := match st.source with
    | some i => [(py!"source", .source i)]
    | none => []
  { st with process := some {
      attrs := ownAll own base,
      extensions := extAdd timeExt (extAdd semanticExt (extAdd lifecycleExt (extAdd orgExt (extAdd conceptExt [])))),
      classifiers := [], globalTrace := [], globalEvent := [], traces := [] } }

/-- `startElement` for `ProcessInstance`: data_in/XMxmlParser.py:143-156. -/
def startInstance (st : MxmlSt F) (as : List (Str × Str)) : MxmlSt F :=
  let name : Str := (dget py!"id" as).getD py!"None"
  { st with inst := some ⟨addRef as (description (fun d => 0 < (strip d).length) as (assignName (some name) [])), []⟩ }

/-- `startElement` for `AuditTrailEntry`: data_in/XMxmlParser.py:158-159, model/XEvent.py. -/
def startEntry (rnd : Nat → Uuid) (st : MxmlSt F) : MxmlSt F :=
  { st with entry := some ⟨rnd st.drawn, []⟩, drawn := st.drawn + 1 }

/-- `startElement` for `Attribute`: data_in/XMxmlParser.py:161-163; without a name `None.strip()`. -/
def startAttribute (st : MxmlSt F) (as : List (Str × Str)) : Except PyErr (MxmlSt F) :=
  match dget py!"name" as with
  | none => .error .attributeError
  | some n => .ok { st with generic := some (literalOf (strip n) (.str py!"DEFAULT_VALUE") (addRef as [])) }

/-- `startElement` for `EventType`: data_in/XMxmlParser.py:165-173. -/
def startEventType (st : MxmlSt F) (as : List (Str × Str)) : MxmlSt F :=
  let v : Str := match dget py!"unknowntype" as with
    | some u => if u = [] then py!"UNKNOWN" else u
    | none => py!"UNKNOWN"
  { st with eventType := some (.mk .literal py!"lifecycle:transition" (some lifecycleExt) (.str v) (addRef as []) []) }

/-- `startElement` for `WorkflowModelElement`: data_in/XMxmlParser.py:175-176; without an open entry
`None.get_attributes()`, but only if there is a model reference. -/
def startElementName (st : MxmlSt F) (as : List (Str × Str)) : Except PyErr (MxmlSt F) :=
  match modelRef as with
  | none => .ok st
  | some _ => match st.entry with
    | none => .error .attributeError
    | some e => .ok { st with entry := some { e with attrs := addRef as e.attrs } }

/-- `startElement` for `Originator`: data_in/XMxmlParser.py:178-180. -/
def startOriginator (st : MxmlSt F) (as : List (Str × Str)) : MxmlSt F :=
  { st with originator := some (.mk .literal py!"org:resource" (some orgExt) (.str py!"UNKNOWN") (addRef as []) []) }

/-- `startElement`: data_in/XMxmlParser.py:104-180.  Tags are compared exactly. -/
def mxmlStart (rnd : Nat → Uuid) (st : MxmlSt F) (tag : Str) (as : List (Str × Str)) : Except PyErr (MxmlSt F) :=
  if tag = py!"WorkflowLog" then .ok st
  else if tag = py!"Source" then .ok (startSource st as)
  else if tag = py!"Process" then .ok (startProcess st as)
  else if tag = py!"ProcessInstance" then .ok (startInstance st as)
  else if tag = py!"AuditTrailEntry" then .ok (startEntry rnd st)
  else if tag = py!"Attribute" then startAttribute st as
  else if tag = py!"EventType" then .ok (startEventType st as)
  else if tag = py!"WorkflowModelElement" then startElementName st as
  else if tag = py!"Originator" then .ok (startOriginator st as)
  else .ok st

/-- `"".join(self.__buffer).strip()`: data_in/XMxmlParser.py:229,244,253,256,264. -/
def bufText (st : MxmlSt F) : Str := strip (join [] st.buffer)

/-- `set_value` of a literal or timestamp attribute. -/
def withVal (v : PyVal F) : Attr F → Attr F
  | .mk k key e _ m c => .mk k key e v m c

/-- Storing an attribute in the map of the open entry. -/
def intoEntry (st : MxmlSt F) (a : Attr F) : Except PyErr (MxmlSt F) :=
  match st.entry with
  | none => .error .attributeError
  | some e => .ok { st with entry := some { e with attrs := dset a.key a e.attrs } }

/-- `endElement` for `Process`: data_in/XMxmlParser.py:195-201.  The second branch for `Process`
(lines 203-204) is never reached. -/
def stopProcess (st : MxmlSt F) : Except PyErr (MxmlSt F) :=
  match st.process with
  | none => .error .attributeError
  | some p => .ok { st with
      logs := st.logs ++ [{ p with
        classifiers := p.classifiers ++ mxmlClassifiers,
        globalTrace := p.globalTrace ++ [cloned .literal py!"concept:name" conceptExt (.str py!"UNKNOWN")],
        globalEvent := p.globalEvent ++ [cloned .literal py!"concept:name" conceptExt (.str py!"UNKNOWN"),
          cloned .literal py!"lifecycle:transition" lifecycleExt (.str py!"complete")] }],
      process := none }

/-- `endElement` for `ProcessInstance`: data_in/XMxmlParser.py:206-211. -/
def stopInstance (st : MxmlSt F) : Except PyErr (MxmlSt F) :=
  match st.inst with
  | none => .error .typeError
  | some t =>
    if 0 < t.events.length then
      match st.process with
      | none => .error .attributeError
      | some p => .ok { st with process := some { p with traces := p.traces ++ [t] }, inst := none, lastTimestamp := none }
    else .ok { st with inst := none, lastTimestamp := none }

/-- `self.__currentInstance.append(self.__entry)`: data_in/XMxmlParser.py:215. -/
def appendEntry (st : MxmlSt F) : Except PyErr (MxmlSt F) :=
  match st.inst, st.entry with
  | some t, some e => .ok { st with inst := some { t with events := t.events ++ [e] } }
  | none, _ => .error .attributeError
  | some _, none => .error .other

/-- `endElement` for `AuditTrailEntry`: data_in/XMxmlParser.py:213-225. -/
def stopEntry (st : MxmlSt F) : Except PyErr (MxmlSt F) := do
  let st ← (match st.timestamp with
    | none => appendEntry st
    | some t => match st.lastTimestamp with
      | none => do
        let s ← appendEntry st
        .ok { s with lastTimestamp := some t }
      | some l => do
        let gt ← l.lt t
        let s ← appendEntry st
        if gt then .ok { s with lastTimestamp := some t } else .ok s : Except PyErr (MxmlSt F))
  .ok { st with entry := none }

/-- The last branch of the routing of a data attribute: data_in/XMxmlParser.py:238-239. -/
def routeSource (st : MxmlSt F) (a : Attr F) : Except PyErr (MxmlSt F) :=
  if st.sourceOpen then
    match st.source with
    | some i => .ok { st with sources := st.sources.modify i (fun s => withAttrs (dset a.key a s.attrs) s) }
    | none => .error .attributeError
  else .ok st

/-- The last two branches of the routing of a data attribute: data_in/XMxmlParser.py:236-239.  A log
is true if it has traces. -/
def routeProcess (st : MxmlSt F) (a : Attr F) : Except PyErr (MxmlSt F) :=
  match st.process with
  | some p => if 0 < p.traces.length then .ok { st with process := some { p with attrs := dset a.key (.own a) p.attrs } }
      else routeSource st a
  | none => routeSource st a

/-- Where a data attribute goes: data_in/XMxmlParser.py:232-239.  A trace is true if it has events. -/
def routeAttribute (st : MxmlSt F) (a : Attr F) : Except PyErr (MxmlSt F) :=
  match st.entry with
  | some e => .ok { st with entry := some { e with attrs := dset a.key a e.attrs } }
  | none =>
    match st.inst with
    | some t => if 0 < t.events.length then .ok { st with inst := some { t with attrs := dset a.key a t.attrs } }
        else routeProcess st a
    | none => routeProcess st a

/-- `endElement` for `Attribute`: data_in/XMxmlParser.py:228-240. -/
def stopAttribute (st : MxmlSt F) : Except PyErr (MxmlSt F) :=
  if 0 < (bufText st).length then
    match st.generic with
    | none => .error .attributeError
    | some g => do
      let s ← routeAttribute st (withVal (.str (bufText st)) g)
      .ok { s with generic := none }
  else .ok { st with generic := none }

/-- `endElement` for `EventType`: data_in/XMxmlParser.py:242-250. -/
def stopEventType (st : MxmlSt F) : Except PyErr (MxmlSt F) :=
  match st.eventType with
  | none => .error .attributeError
  | some a => do
    let s ← (if pyEq a.val (.str py!"UNKNOWN") then
        if 0 < (bufText st).length then intoEntry st (withVal (.str (bufText st)) a) else .ok st
      else intoEntry st a : Except PyErr (MxmlSt F))
    .ok { s with eventType := none }

/-- `endElement` for `WorkflowModelElement`: data_in/XMxmlParser.py:252-253; `assign_name` touches
the element only if the name is not blank. -/
def stopElementName (st : MxmlSt F) : Except PyErr (MxmlSt F) :=
  if given (some (bufText st)) then
    match st.entry with
    | none => .error .attributeError
    | some e => .ok { st with entry := some { e with attrs := assignName (some (bufText st)) e.attrs } }
  else .ok st

/-- `endElement` for `Timestamp`: data_in/XMxmlParser.py:255-261. -/
def stopTimestamp (st : MxmlSt F) : Except PyErr (MxmlSt F) := do
  match ← parseDateTime (bufText st) with
  | none => .ok { st with timestamp := none }
  | some d => intoEntry { st with timestamp := some d } (cloned .timestamp timeKey timeExt (.dt d))

/-- `endElement` for `Originator`: data_in/XMxmlParser.py:263-269. -/
def stopOriginator (st : MxmlSt F) : Except PyErr (MxmlSt F) :=
  match st.originator with
  | none => .error .attributeError
  | some a => do
    let s ← intoEntry st (if 0 < (bufText st).length then withVal (.str (bufText st)) a else a)
    .ok { s with originator := none }

/-- `endElement` up to the last line: data_in/XMxmlParser.py:182-269. -/
def mxmlStopBody (st : MxmlSt F) (tag : Str) : Except PyErr (MxmlSt F) :=
  if tag = py!"WorkflowLog" then .ok st
  else if tag = py!"Process" then stopProcess st
  else if tag = py!"ProcessInstance" then stopInstance st
  else if tag = py!"AuditTrailEntry" then stopEntry st
  else if tag = py!"Attribute" then stopAttribute st
  else if tag = py!"EventType" then stopEventType st
  else if tag = py!"WorkflowModelElement" then stopElementName st
  else if tag = py!"Timestamp" then stopTimestamp st
  else if tag = py!"Originator" then stopOriginator st
  else .ok st

/-- `endElement`: data_in/XMxmlParser.py:182-271. -/
def mxmlStop (st : MxmlSt F) (tag : Str) : Except PyErr (MxmlSt F) := do
  let s ← mxmlStopBody st tag
  .ok { s with buffer := [] }

/-- One call of the content handler: data_in/XMxmlParser.py:104,182,285,293. -/
def mxmlStep (rnd : Nat → Uuid) (st : MxmlSt F) : MSax → Except PyErr (MxmlSt F)
  | .start tag as => mxmlStart rnd st tag as
  | .stop tag => mxmlStop st tag
  | .chars s => .ok { st with buffer := st.buffer ++ [s] }

/-- `xml_parse(file, handler)`: data_in/XMxmlParser.py:56. -/
def mxmlRun (rnd : Nat → Uuid) (st : MxmlSt F) : List MSax → Except PyErr (MxmlSt F)
  | [] => .ok st
  | e :: es => do mxmlRun rnd (← mxmlStep rnd st e) es

/-- An entry of the attribute map of a log as the caller sees it. -/
def MRef.see (sources : List (Attr F)) (k : Str) : MRef F → Option (Str × Attr F)
  | .own a => some (k, a)
  | .source i => (sources[i]?).map fun a => (k, a)

/-- A log as the caller sees it, with the source attribute as it is now. -/
def MLog.toLog (sources : List (Attr F)) (l : MLog F) : Log F where
  attrs := l.attrs.filterMap fun p => p.2.see sources p.1
  extensions := l.extensions
  classifiers := l.classifiers
  globalTrace := l.globalTrace
  globalEvent := l.globalEvent
  features := []
  traces := l.traces

/-- `parse(file)`: data_in/XMxmlParser.py:42-58,96-102. -/
def mxmlParse (rnd : Nat → Uuid) (file : List MSax) : Except PyErr (List (Log F)) := do
  let st ← mxmlRun rnd (MxmlSt.init F) file
  .ok (st.logs.map (MLog.toLog st.sources))

/-! ## Serializer -/

/-- `__known_types`: data_out/XMxmlSerializer.py:14-27. -/
def mxmlKnownTypes : List Str :=
  [py!"schedule", py!"assign", py!"withdraw", py!"reassign", py!"start", py!"suspend", py!"resume",
   py!"pi_abort", py!"ate_abort", py!"complete", py!"autoskip", py!"manualskip"]

/-- A value used as attribute value of an XML element must be a string (`Et.tostring`). -/
def xmlStr : PyVal F → Except PyErr Str
  | .str s => .ok s
  | _ => .error .typeError

/-- A value used as text of an XML element must be a string or None (`Et.tostring`); no text is an
element without content. -/
def xmlText : PyVal F → Except PyErr (List MNode)
  | .none => .ok []
  | .str s => .ok (if s = [] then [] else [.text s])
  | _ => .error .typeError

/-- `add_model_reference`: data_out/XMxmlSerializer.py:175-186, as the attributes it adds.  The type
error of a value that is not a string is raised later by `Et.tostring` (line 121). -/
def refAttr (m : AttrMap F) : Except PyErr (List (Str × Str)) :=
  match dget py!"semantic:modelReference" m with
  | none => .ok []
  | some a => do
    let s ← xmlStr (← getValue a)
    .ok [(py!"modelReference", s)]

/-- The loop of `add_attribute`: data_out/XMxmlSerializer.py:154-173.  Nested attributes: line 173
passes the key in the place of the attributes, so the loop runs over the characters of a string and
`get_key` fails. -/
def dataKids : List (Str × Attr F) → Except PyErr (List MNode)
  | [] => .ok []
  | (_, a) :: m =>
    if a.key = py!"semantic:modelReference" then do
      let r ← refAttr a.attrs
      let t ← attrStr a
      if 0 < a.attrs.length then .error .attributeError
      else do
        let ks ← dataKids m
        .ok (.elem py!"attribute" ((py!"name", a.key) :: r) (if t = [] then [] else [.text t]) :: ks)
    else dataKids m

/-- `add_attribute(tag, attributes)`: data_out/XMxmlSerializer.py:138-173. -/
def dataXml (m : AttrMap F) : Except PyErr MNode := do .ok (.elem py!"Data" [] (← dataKids m))

/-- The name of an element, `None` if there is none: data_out/XMxmlSerializer.py:56,70.  A name that
is not a string makes the concatenation in lines 64 and 77 fail. -/
def mxmlId (m : AttrMap F) : Except PyErr (Option Str) := do
  match ← extractName m with
  | .none => .ok none
  | .str s => .ok (some s)
  | _ => .error .typeError

/-- The `EventType` element: data_out/XMxmlSerializer.py:87-100. -/
def typeXml (m : AttrMap F) : Except PyErr MNode :=
  match dget py!"lifecycle:transition" m with
  | none => .ok (.elem py!"EventType" [] [.text py!"complete"])
  | some a => do
    let r ← refAttr a.attrs
    match ← getValue a with
    | .str v =>
      if pyLower (strip v) ∈ mxmlKnownTypes then .ok (.elem py!"EventType" r [.text (pyLower (strip v))])
      else .ok (.elem py!"EventType" (r ++ [(py!"unknownType", v)]) [.text py!"unknown"])
    | _ => .error .attributeError

/-- The `originator` element: data_out/XMxmlSerializer.py:102-112. -/
def originatorXml (m : AttrMap F) : Except PyErr (List MNode) :=
  match (dget py!"org:resource" m).or ((dget py!"org:role" m).or (dget py!"org:group" m)) with
  | none => .ok []
  | some a => do
    let r ← refAttr a.attrs
    let t ← xmlText (← getValue a)
    .ok [.elem py!"originator" r t]

/-- The `timestamp` element: data_out/XMxmlSerializer.py:114-119. -/
def timestampXml (m : AttrMap F) : Except PyErr (List MNode) :=
  match dget py!"time:timestamp" m with
  | none => .ok []
  | some a => do
    let r ← refAttr a.attrs
    let v ← getValue a
    .ok [.elem py!"timestamp" r [.text (pyStr v)]]

/-- The `AuditTrailEntry` element: data_out/XMxmlSerializer.py:82-119. -/
def entryXml (e : Event F) : Except PyErr MNode := do
  let d ← dataXml e.attrs
  let r ← refAttr e.attrs
  let n ← xmlText (← extractName e.attrs)
  let t ← typeXml e.attrs
  let o ← originatorXml e.attrs
  let ts ← timestampXml e.attrs
  .ok (.elem py!"AuditTrailEntry" [] ([d, .elem py!"WorkflowModelElement" r n, t] ++ o ++ ts))

/-- The loop over the events: data_out/XMxmlSerializer.py:81. -/
def entriesXml : List (Event F) → Except PyErr (List MNode)
  | [] => .ok []
  | e :: es => do
    let x ← entryXml e
    let xs ← entriesXml es
    .ok (x :: xs)

/-- The `ProcessInstance` element: data_out/XMxmlSerializer.py:69-119. -/
def instanceXml (t : Trace F) : Except PyErr MNode := do
  let id ← mxmlId t.attrs
  let name := id.getD py!"None"
  let r ← refAttr t.attrs
  let d ← dataXml t.attrs
  let es ← entriesXml t.events
  .ok (.elem py!"ProcessInstance" ([(py!"id", name), (py!"description", py!"instance with id " ++ name)] ++ r) (d :: es))

/-- The loop over the traces: data_out/XMxmlSerializer.py:68. -/
def instancesXml : List (Trace F) → Except PyErr (List MNode)
  | [] => .ok []
  | t :: ts => do
    let x ← instanceXml t
    let xs ← instancesXml ts
    .ok (x :: xs)

/-- `serialize(log, out)` up to the XML layer: data_out/XMxmlSerializer.py:38-119.  The layout that
`toprettyxml` adds is left to the relation between the tree and the events read (Props/Mxml.lean).
When several things are wrong, only the fact that an exception is raised is claimed, not which. -/
def serializeMxml (log : Log F) : Except PyErr MNode := do
  let id ← mxmlId log.attrs
  let ident := id.getD py!"none"
  let name := id.getD py!"None"
  let r ← refAttr log.attrs
  let d ← dataXml log.attrs
  let is ← instancesXml log.traces
  .ok (.elem py!"WorkflowLog" [] [
    .elem py!"Source" [(py!"program", py!"XES MXML serialization"), (py!"openxes.version", py!"1.0RC7")] [],
    .elem py!"Process" ([(py!"id", ident), (py!"description", py!"process with id " ++ name)] ++ r) (d :: is)])

end

end Opy
