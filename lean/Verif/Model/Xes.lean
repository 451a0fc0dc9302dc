import Verif.Model.Heap
import Verif.Model.Tokens
/-
Reading and writing XES: src/opyenxes/data_in/XesXmlParser.py and
src/opyenxes/data_out/XesXmlSerializer.py.

XML text itself is modelled in Model/XmlText.lean.  Here the serializer produces an element tree, the parser consumes the
start and end events of a SAX reader.  What writing (minidom.toprettyxml) and reading (expat) do to
the text of attribute values is a parameter here, see `Xml.through`.
-/
namespace Opy

/-- An XML element: name, attributes, child elements.  (xml.etree.ElementTree.Element; white space
and comments between elements are ignored by the handlers of XES.) -/
inductive Xml where
  | elem (tag : Str) (attrs : List (Str × Str)) (kids : List Xml)

/-- The calls of the SAX reader (xml.sax.handler.ContentHandler) that the XES handler overrides. -/
inductive Sax where
  | start (tag : Str) (attrs : List (Str × Str))
  | stop (tag : Str)

mutual
/-- The order in which a SAX reader reports an element. -/
def Xml.sax : Xml → List Sax
  | .elem t as ks => .start t as :: (saxList ks ++ [.stop t])
/-- The same for a list of elements. -/
def saxList : List Xml → List Sax
  | [] => []
  | x :: xs => x.sax ++ saxList xs
end

mutual
/-- What is read back when an element tree is written to a file: the values of the attributes go
through `ws` (see data_out/XesXmlSerializer.py:83-100: ElementTree, minidom.toprettyxml, then expat). -/
def Xml.through (ws : Str → Str) : Xml → Xml
  | .elem t as ks => .elem t (as.map fun p => (p.1, ws p.2)) (throughList ws ks)
/-- The same for a list of elements. -/
def throughList (ws : Str → Str) : List Xml → List Xml
  | [] => []
  | x :: xs => x.through ws :: throughList ws xs
end

/-- The lookups of XExtensionManager used by the parser: get_by_prefix and
`get_by_uri(parse.urlparse(text))`, extension/XExtensionManager.py:48-60,76-90; modelled as such in
Model/Ext.lean.  `urlparse` may raise. -/
structure ExtMgr where
  byPrefix : Str → Option Ext
  byUri : Str → Except PyErr (Option Ext)

/-- The creating methods of a factory that the parser uses, factory/XFactory.py:20-64,93-197. -/
structure Factory (F : Type) where
  newLog : Heap F → Ref × Heap F
  newTrace : Heap F → Ref × Heap F
  newEvent : Heap F → Ref × Heap F
  newAttr : Heap F → Kind → Str → Option Ext → PyVal F → Ref × Heap F

/-- XFactory itself, factory/XFactory.py. -/
def stdFactory (F : Type) (rnd : Nat → Uuid) : Factory F where
  newLog h := createLog h none
  newTrace h := createTrace h none
  newEvent h := createEvent rnd h none none
  newAttr h k key e v := newAttr h k key e v

/-- The fields of XesXmlHandler, data_in/XesXmlParser.py:74-83 (stacks with the top first).  The list
of global attributes in use is the one of a log, for traces (`false`) or events (`true`).
`__extension` is never filled and `__last` never used. -/
structure XesSt (F : Type) where
  heap : Heap F
  log : Option Ref
  trace : Option Ref
  event : Option Ref
  attrs : List Ref
  objs : List Ref
  globals : Option (Ref × Bool)

/-- XesXmlHandler.__init__. -/
def XesSt.init {F : Type} (h : Heap F) : XesSt F := ⟨h, none, none, none, [], [], none⟩

/-- The attribute element names, data_in/XesXmlParser.py:103,210. -/
def attrTags : List Str := [py!"string", py!"date", py!"int", py!"float", py!"boolean", py!"id", py!"list", py!"container"]

section
variable {F : Type}

/-- `set.add` on extensions, which are equal when their URIs are (extension/XExtension.py). -/
def extAdd (e : Ext) (es : List Ext) : List Ext := if e.uri ∈ es.map Ext.uri then es else es ++ [e]

/-- Change the log object behind a reference. -/
def modLog (h : Heap F) (l : Option Ref) (f : LogObj → LogObj) : Except PyErr (Heap F) :=
  match l with
  | none => .error .attributeError
  | some l => match h.get l with
    | some (.log o) => .ok (h.put l (.log (f o)))
    | _ => .error .attributeError

/-- `attr_name.startswith('xes.') or attr_name.startswith('openxes.')`,
data_in/XesXmlParser.py:115-116. -/
def isFeature (n : Str) : Bool := py!"xes.".isPrefixOf n || py!"openxes.".isPrefixOf n

/-- The extension of an attribute by the prefix of its key, data_in/XesXmlParser.py:160-163. -/
def extOfKey (mgr : ExtMgr) (key : Str) : Option Ext :=
  match breakAt ':' key with
  | some (p, _) => mgr.byPrefix p
  | none => none

/-- Class and value of the attribute created for an element, data_in/XesXmlParser.py:167-192;
`ok none`: an unreadable date, for which the handler returns. -/
def readVal [PyFloat F] (tag value : Str) : Except PyErr (Option (Kind × PyVal F)) :=
  if tag = py!"string" then .ok (some (.literal, .str value))
  else if tag = py!"date" then
    match parseDateTime value with
    | .error e => .error e
    | .ok none => .ok none
    | .ok (some d) => .ok (some (.timestamp, .dt d))
  else if tag = py!"int" then
    match pyInt value with
    | some z => .ok (some (.discrete, .int z))
    | none => .error .valueError
  else if tag = py!"float" then
    match PyFloat.parse value with
    | some x => .ok (some (.continuous, .float x))
    | none => .error .valueError
  else if tag = py!"boolean" then .ok (some (.boolean, .bool (lower value = py!"true")))
  else if tag = py!"id" then
    match xidParse value with
    | some u => .ok (some (.id, .xid u))
    | none => .error .valueError
  else if tag = py!"list" then .ok (some (.list, .none))
  else .ok (some (.container, .none))

/-- XesXmlHandler.startElement, data_in/XesXmlParser.py:93-197.  Printing is dropped; it raises
TypeError when there is no uri. -/
def xesStart [PyFloat F] (fac : Factory F) (mgr : ExtMgr) (st : XesSt F) (element : Str) (as : List (Str × Str)) :
    Except PyErr (XesSt F) :=
  let tag := lower element
  if tag ∉ attrTags then
    if tag = py!"event" then
      let (e, h) := fac.newEvent st.heap
      .ok { st with
        heap := h
        event := some e
        objs := e :: st.objs }
    else if tag = py!"trace" then
      let (t, h) := fac.newTrace st.heap
      .ok { st with
        heap := h
        trace := some t
        objs := t :: st.objs }
    else if tag = py!"log" then do
      let (l, h) := fac.newLog st.heap
      let h ← modLog h (some l) fun o =>
        { o with features := (as.filter fun p => isFeature p.1).foldl (fun d p => dset p.1 p.2 d) o.features }
      .ok { st with
        heap := h
        log := some l
        objs := l :: st.objs }
    else if tag = py!"extension" then do
      let pfx := dget py!"prefix" as
      let keys := dget py!"uri" as
      let ext ← match pfx, keys with
        | some p, _ => Except.ok (mgr.byPrefix p)
        | none, some u => mgr.byUri u
        | none, none => .ok none
      match ext, keys with
      | some e, _ =>
        let h ← modLog st.heap st.log fun o => { o with extensions := extAdd e o.extensions }
        .ok { st with heap := h }
      | none, some _ => .ok st
      | none, none => .error .typeError
    else if tag = py!"global" then
      match dget py!"scope" as with
      | none => .error .attributeError
      | some name =>
        if lower name = py!"trace" then
          match st.log with
          | none => .error .attributeError
          | some l => .ok { st with globals := some (l, false) }
        else if lower name = py!"event" then
          match st.log with
          | none => .error .attributeError
          | some l => .ok { st with globals := some (l, true) }
        else .ok st
    else if tag = py!"classifier" then
      match dget py!"name" as, dget py!"keys" as with
      | some name, some keys =>
        if name.length > 0 ∧ keys.length > 0 then do
          let h ← modLog st.heap st.log fun o => { o with classifiers := o.classifiers ++ [⟨name, extractTokens keys⟩] }
          .ok { st with heap := h }
        else .ok st
      | _, _ => .ok st
    else .ok st
  else do
    let name := match dget py!"key" as with
      | some n => n
      | none => py!"UNKNOWN"
    let value := match dget py!"value" as with
      | some v => v
      | none => []
    match ← readVal tag value with
    | none => .ok st
    | some (k, v) =>
      let (a, h) := fac.newAttr st.heap k name (extOfKey mgr name) v
      .ok { st with
        heap := h
        attrs := a :: st.attrs
        objs := a :: st.objs }

/-- `attribute.get_key()` of a reference. -/
def keyOf (h : Heap F) (a : Ref) : Except PyErr Str :=
  match h.get a with
  | some (.attr _ key _ _ _ _) => .ok key
  | _ => .error .attributeError

/-- `add_to_collection` when the top of the attribute stack is a collection,
data_in/XesXmlParser.py:234-237, model/XAttributeCollection.py:18-25. -/
def addToColl (h : Heap F) (stack : List Ref) (i : Ref) : Heap F :=
  match stack with
  | [] => h
  | t :: _ => match h.get t with
    | some (.attr k key e v m c) => if k.isCollection then h.put t (.attr k key e v m (c ++ [i])) else h
    | _ => h

/-- XesXmlHandler.endElement, data_in/XesXmlParser.py:199-237.  The end of an event or trace in which another one has ended appends
`None`. -/
def xesStop (st : XesSt F) (element : Str) : Except PyErr (XesSt F) :=
  let tag := lower element
  if tag = py!"global" then .ok { st with globals := none }
  else if tag ∉ attrTags then
    if tag = py!"event" then
      match st.trace, st.event with
      | some t, some e => do
        let h ← traceAppend st.heap t e
        match st.objs with
        | [] => .error .indexError
        | _ :: objs => .ok { st with
            heap := h
            event := none
            objs := objs }
      | none, _ => .error .attributeError
      | some t, none => do
        let (e, h) := st.heap.alloc .pyNone
        let h ← traceAppend h t e
        match st.objs with
        | [] => .error .indexError
        | _ :: objs => .ok { st with
            heap := h
            objs := objs }
    else if tag = py!"trace" then
      match st.log, st.trace with
      | some l, some t => do
        let h ← logAppend st.heap l t
        match st.objs with
        | [] => .error .indexError
        | _ :: objs => .ok { st with
            heap := h
            trace := none
            objs := objs }
      | none, _ => .error .attributeError
      | some l, none => do
        let (t, h) := st.heap.alloc .pyNone
        let h ← logAppend h l t
        match st.objs with
        | [] => .error .indexError
        | _ :: objs => .ok { st with
            heap := h
            objs := objs }
    else if tag = py!"log" then
      match st.objs with
      | [] => .error .indexError
      | _ :: objs => .ok { st with objs := objs }
    else .ok st
  else
    match st.attrs with
    | [] => .error .indexError
    | i :: attrs =>
      match st.objs with
      | [] => .error .indexError
      | _ :: objs =>
        match st.globals with
        | some (l, ev) => do
          let h ← modLog st.heap (some l) fun o =>
            if ev then { o with globalEvent := o.globalEvent ++ [i] } else { o with globalTrace := o.globalTrace ++ [i] }
          .ok { st with
            heap := h
            attrs := attrs
            objs := objs }
        | none =>
          match objs with
          | [] => .error .indexError
          | p :: _ => do
            let m ← mapOf st.heap p
            let key ← keyOf st.heap i
            let h ← mapSet st.heap m key i
            .ok { st with
              heap := addToColl h attrs i
              attrs := attrs
              objs := objs }

/-- One SAX event. -/
def xesStep [PyFloat F] (fac : Factory F) (mgr : ExtMgr) (st : XesSt F) : Sax → Except PyErr (XesSt F)
  | .start t as => xesStart fac mgr st t as
  | .stop t => xesStop st t

/-- A sequence of SAX events. -/
def xesRun [PyFloat F] (fac : Factory F) (mgr : ExtMgr) (st : XesSt F) : List Sax → Except PyErr (XesSt F)
  | [] => .ok st
  | e :: es => do xesRun fac mgr (← xesStep fac mgr st e) es

/-- XesXmlParser(factory).parse(file), data_in/XesXmlParser.py:20-24,36-50: the list of logs (here: the
log of the handler, `none` for `[None]`) and the heap.  `given` is the factory of the constructor,
`reg` the current default of the registry; the handler asks the registry for every object
(lines 105-192, `XesXmlParser().factory`). -/
def xesParse [PyFloat F] (given : Option (Factory F)) (reg : Factory F) (mgr : ExtMgr) (h : Heap F) (file : List Sax) :
    Except PyErr (Option Ref × Heap F) :=
  let _factory := match given with
    | some f => f
    | none => reg
  do
    let st ← xesRun reg mgr (.init h) file
    .ok (st.log, st.heap)

/-! ### Serializer -/

/-- The element name for an attribute class, data_out/XesXmlSerializer.py:127-157. -/
def Kind.tag : Kind → Str
  | .discrete => py!"int"
  | .literal => py!"string"
  | .continuous => py!"float"
  | .boolean => py!"boolean"
  | .id => py!"id"
  | .list => py!"list"
  | .container => py!"container"
  | .timestamp => py!"date"

mutual
/-- One attribute of add_attributes, data_out/XesXmlSerializer.py:126-164. -/
def attrXml [PyFloat F] : Attr F → Except PyErr Xml
  | .mk kind key ext val m c =>
    if kind.isCollection then do
      let ks ← attrsXml c
      .ok (.elem kind.tag [(py!"key", key)] ks)
    else do
      let s ← attrStr (.mk kind key ext val m c)
      let ks ← mapXml m
      .ok (.elem kind.tag [(py!"key", key), (py!"value", s)] ks)
/-- add_attributes over a list. -/
def attrsXml [PyFloat F] : List (Attr F) → Except PyErr (List Xml)
  | [] => .ok []
  | a :: as => do
    let x ← attrXml a
    let xs ← attrsXml as
    .ok (x :: xs)
/-- add_attributes over `get_attributes().values()`. -/
def mapXml [PyFloat F] : List (Str × Attr F) → Except PyErr (List Xml)
  | [] => .ok []
  | (_, a) :: as => do
    let x ← attrXml a
    let xs ← mapXml as
    .ok (x :: xs)
end

/-- add_global_attributes, data_out/XesXmlSerializer.py:105-118. -/
def globalXml [PyFloat F] (scope : Str) (as : List (Attr F)) : Except PyErr (List Xml) :=
  if as.length > 0 then do
    let ks ← attrsXml as
    .ok [.elem py!"global" [(py!"scope", scope)] ks]
  else .ok []

/-- The event elements, data_out/XesXmlSerializer.py:79-81. -/
def eventsXml [PyFloat F] : List (Event F) → Except PyErr (List Xml)
  | [] => .ok []
  | e :: es => do
    let ks ← mapXml e.attrs
    let xs ← eventsXml es
    .ok (.elem py!"event" [] ks :: xs)

/-- The trace elements, data_out/XesXmlSerializer.py:75-81. -/
def tracesXml [PyFloat F] : List (Trace F) → Except PyErr (List Xml)
  | [] => .ok []
  | t :: ts => do
    let ks ← mapXml t.attrs
    let es ← eventsXml t.events
    let xs ← tracesXml ts
    .ok (.elem py!"trace" [] (ks ++ es) :: xs)

/-- The attributes of the log element, data_out/XesXmlSerializer.py:53-56. -/
def versionAttrs : List (Str × Str) :=
  [(py!"xes.version", py!"1.0"), (py!"xes.features", py!"nested-attributes"), (py!"openxes.version", py!"1.0RC7")]

/-- An extension element, data_out/XesXmlSerializer.py:58-62. -/
def extXml (e : Ext) : Xml :=
  .elem py!"extension" [(py!"name", e.name), (py!"prefix", e.pfx), (py!"uri", e.uri)] []

/-- A classifier element, data_out/XesXmlSerializer.py:67-71 (the log model only knows
XEventAttributeClassifier objects). -/
def classifierXml (c : Classifier) : Xml :=
  .elem py!"classifier" [(py!"name", c.name), (py!"keys", formatToken c.keys)] []

/-- XesXmlSerializer.serialize up to the writing of the text, data_out/XesXmlSerializer.py:40-81. -/
def serializeXes [PyFloat F] (log : Log F) : Except PyErr Xml := do
  let gt ← globalXml py!"trace" log.globalTrace
  let ge ← globalXml py!"event" log.globalEvent
  let as ← mapXml log.attrs
  let ts ← tracesXml log.traces
  .ok (.elem py!"log" versionAttrs
    (log.extensions.map extXml ++ gt ++ ge ++ log.classifiers.map classifierXml ++ as ++ ts))

end

end Opy
