import Verif.Model.HeapExt
import Verif.Model.XmlText
import Verif.Model.MxmlHeap
/-
Programs that use the library: calls of the constructors, the factory, the methods of src/opyenxes/model, the extensions and the
parsers, on one heap.

Simplifications: the factory of the registry is the standard one; the built-in methods of the lists (traces are lists of events, logs
are lists of traces) are one call that gives the list behind it; a document that is refused leaves no objects that anything refers to.
-/
set_option linter.unusedSectionVars false
namespace Opy

/-- What a program runs in: the random identifiers, the clock functions, and the attributes that the extensions keep. -/
structure ApiEnv where
  rnd : Nat → Uuid
  time : LocalTime
  protos : Protos

/-- A call. -/
inductive ApiCall (F : Type) where
  /-- `XFactory.create_attribute_map()`, factory/XFactory.py:66-73 -/
  | createMap
  /-- `XFactory.create_attribute_...(key, value, extension)`, factory/XFactory.py:75-197 -/
  | createAttr (k : Kind) (key : Str) (e : Option Ext) (v : PyVal F)
  /-- `XFactory.create_event(attributes, id)`, factory/XFactory.py:46-64 -/
  | createEvent (m : Option Ref) (i : Option Uuid)
  /-- `XFactory.create_trace(attributes)`, factory/XFactory.py:33-44 -/
  | createTrace (m : Option Ref)
  /-- `XFactory.create_log(attributes)`, factory/XFactory.py:20-31 -/
  | createLog (m : Option Ref)
  /-- `XEvent(attributes, identity)`, model/XEvent.py:18-25 -/
  | newEvent (m : Option Ref) (i : Option Uuid)
  /-- `XTrace(attributes)`, model/XTrace.py:13-14 -/
  | newTrace (m : Option Ref)
  /-- `XLog(attributes)`, model/XLog.py:13-21 -/
  | newLog (m : Option Ref)
  /-- `x.set_attributes(map)`, model/XAttributable.py:40-46 -/
  | setAttributes (x m : Ref)
  /-- `map[key] = attribute` -/
  | store (m : Ref) (key : Str) (a : Ref)
  /-- `del map[key]` -/
  | delete (m : Ref) (key : Str)
  /-- `attribute.set_value(value)`, model/XAttributeLiteral.py:28-34 etc. -/
  | setValue (a : Ref) (v : PyVal F)
  /-- `event.set_id(id)`, model/XEvent.py:46-52 -/
  | setId (e : Ref) (u : Uuid)
  /-- `collection.add_to_collection(attribute)`, model/XAttributeCollection.py:18-25 -/
  | addToCollection (c a : Ref)
  /-- `trace.append(event)`, model/XTrace.py:59-66 -/
  | appendEvent (t e : Ref)
  /-- `log.append(trace)`, model/XLog.py:127-134 -/
  | appendTrace (l t : Ref)
  /-- a method of the list of events (`insert`, `pop`, `sort`, `del trace[i]`, `insert_ordered`, ...), with the list behind it -/
  | events (t : Ref) (es : List Ref)
  /-- a method of the list of traces, with the list behind it -/
  | traces (l : Ref) (ts : List Ref)
  /-- the lists, sets and dicts of a log, model/XLog.py:43-102 -/
  | header (l : Ref) (exts : List Ext) (cls : List Classifier) (gt ge : List Ref) (feats : List (Str × Str))
  /-- `map.clone()`, model/XAttributeMap.py:13-23 -/
  | cloneMap (m : Ref)
  /-- `attribute.clone()`, model/XAttributeLiteral.py:36-44 etc. -/
  | cloneAttr (a : Ref)
  /-- `event.clone()`, model/XEvent.py:27-36 -/
  | cloneEvent (e : Ref)
  /-- `trace.clone()`, model/XTrace.py:16-26 -/
  | cloneTrace (t : Ref)
  /-- `log.clone()`, model/XLog.py:23-41 -/
  | cloneLog (l : Ref)
  /-- an `assign_*` or `remove_*` method of an extension, see Model/HeapExt -/
  | ext (c : ExtCall F) (x : Ref)
  /-- `assign_nested_values(element, {path: value, ...})`, extension/std/XAbstractNestedAttributeSupport.py:171-193 -/
  | nested (c : PyVal F → ExtCall F) (vals : List (List Str × PyVal F)) (x : Ref)
  /-- `XesXmlParser(factory).parse(file)`, data_in/XesXmlParser.py:36-50 -/
  | load (given : Option (Factory F)) (mgr : ExtMgr) (text : Str)
  /-- `XMxmlParser().parse(file)`, data_in/XMxmlParser.py:42-58 -/
  | loadMxml (text : Str)

section
variable {F : Type} [PyFloat F]

/-- `XMxmlParser().parse(file)` on the text of a file: the list of logs, data_in/XMxmlParser.py:42-58. -/
def loadMob (rnd : Nat → Uuid) (P : Protos) (h : Heap F) (text : Str) : Except PyErr (List Ref × Heap F) := do
  let es ← readXml text
  mobParse rnd P h es

/-- The outcome of a call that gives an object. -/
def gives (h : Heap F) : Except PyErr (Ref × Heap F) → Except PyErr (Option Ref) × Heap F
  | .ok (r, h') => (.ok (some r), h')
  | .error e => (.error e, h)

/-- The outcome of a call that changes something. -/
def does (h : Heap F) : Except PyErr (Heap F) → Except PyErr (Option Ref) × Heap F
  | .ok h' => (.ok none, h')
  | .error e => (.error e, h)

/-- The outcome of a method of an extension. -/
def doesExt : HRes F → Except PyErr (Option Ref) × Heap F
  | (.ok _, h') => (.ok none, h')
  | (.error e, h') => (.error e, h')

/-- `add_to_collection`, model/XAttributeCollection.py:18-25 (the collection is never None).  Other attributes do not have it. -/
def addMember (h : Heap F) (c a : Ref) : Except PyErr (Heap F) :=
  match h.get c with
  | some (.attr k key e v m as) => if k.isCollection then .ok (h.put c (.attr k key e v m (as ++ [a]))) else .error .attributeError
  | _ => .error .attributeError

/-- The list of events of a trace behind a method of `list`. -/
def setEvents (h : Heap F) (t : Ref) (es : List Ref) : Except PyErr (Heap F) :=
  match h.get t with
  | some (.trace m _) => .ok (h.put t (.trace m es))
  | _ => .error .attributeError

/-- Carry out a call: the result, and the objects behind it. -/
def ApiCall.run (env : ApiEnv) (h : Heap F) : ApiCall F → Except PyErr (Option Ref) × Heap F
  | .createMap => gives h (.ok (h.alloc (.map [])))
  | .createAttr k key e v => gives h (.ok (Opy.newAttr h k key e v))
  | .createEvent m i => gives h (.ok (Opy.createEvent env.rnd h m i))
  | .createTrace m => gives h (.ok (Opy.createTrace h m))
  | .createLog m => gives h (.ok (Opy.createLog h m))
  | .newEvent m i => gives h (.ok (Opy.newEvent env.rnd h m i))
  | .newTrace m => gives h (.ok (Opy.newTrace h m))
  | .newLog m => gives h (.ok (Opy.newLog h m))
  | .setAttributes x m => does h (setMap h x m)
  | .store m key a => does h (mapSet h m key a)
  | .delete m key => does h (mapDel h m key)
  | .setValue a v => does h (Opy.setValue h a v)
  | .setId e u => does h (Opy.setId h e u)
  | .addToCollection c a => does h (addMember h c a)
  | .appendEvent t e => does h (traceAppend h t e)
  | .appendTrace l t => does h (logAppend h l t)
  | .events t es => does h (setEvents h t es)
  | .traces l ts => does h (modLog h (some l) fun o => { o with traces := ts })
  | .header l exts cls gt ge feats => does h (modLog h (some l) fun o =>
      { o with extensions := exts, classifiers := cls, globalTrace := gt, globalEvent := ge, features := feats })
  | .cloneMap m => gives h (Opy.cloneMap h m)
  | .cloneAttr a => gives h (Opy.cloneAttr h a)
  | .cloneEvent e => gives h (Opy.cloneEvent env.rnd h e)
  | .cloneTrace t => gives h (Opy.cloneTrace env.rnd h t)
  | .cloneLog l => gives h (Opy.cloneLog env.rnd h l)
  | .ext c x => doesExt (c.at env.time env.protos h x)
  | .nested c vals x => doesExt (assignNestedValuesAt (fun v => (c v).at env.time env.protos) vals h x)
  | .load given mgr text => match loadXes given (stdFactory F env.rnd) mgr h text with
    | .ok (r, h') => (.ok r, h')
    | .error e => (.error e, h)
  | .loadMxml text => match loadMob env.rnd env.protos h text with
    | .ok (_, h') => (.ok none, h')
    | .error e => (.error e, h)

end

end Opy
