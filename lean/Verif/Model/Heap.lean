import Verif.Model.Log
/-
Object graph of src/opyenxes/model: elements, attributes and attribute maps with identity, for the
code in which sharing matters (constructors, clone, the SAX handlers).
-/
namespace Opy

/-- Identity of a Python object: its position in the heap. -/
notation "Ref" => Nat

/-- model/XLog.py:13-21.  The lists and dicts a log owns are private to it (its own methods hand
them out, XLog.clone copies them), so they are fields rather than objects.  The summary cache is
modelled in Model/Info.lean. -/
structure LogObj where
  map : Ref
  extensions : List Ext
  classifiers : List Classifier
  globalTrace : List Ref
  globalEvent : List Ref
  features : List (Str × Str)
  traces : List Ref
  deriving DecidableEq

/-- The objects with identity. -/
inductive Obj (F : Type) where
  /-- XAttributeMap, model/XAttributeMap.py -/
  | map (d : List (Str × Ref))
  /-- an attribute: class, key, extension, value, its attribute map, members of a collection
  (model/XAttribute.py:17-20, model/XAttributable.py:12-16, model/XAttributeCollection.py:14-16) -/
  | attr (kind : Kind) (key : Str) (ext : Option Ext) (val : PyVal F) (map : Ref) (coll : List Ref)
  /-- model/XEvent.py:18-26 -/
  | event (id : Uuid) (map : Ref)
  /-- model/XTrace.py:4-14 -/
  | trace (map : Ref) (events : List Ref)
  /-- model/XLog.py:13-21 -/
  | log (l : LogObj)
  /-- `None` where an element is expected (data_in/XesXmlParser.py:212,216).  There is one such object in Python; here it gets a reference
  every time it is stored, which makes no difference since it never changes. -/
  | pyNone
  deriving DecidableEq

/-- All objects, and how many random identifiers have been drawn so far.  Nothing is ever freed. -/
structure Heap (F : Type) where
  objs : List (Obj F)
  drawn : Nat

/-- Number of objects; the next free reference. -/
def Heap.size {F : Type} (h : Heap F) : Nat := h.objs.length

section
variable {F : Type}

/-- The object behind a reference. -/
def Heap.get (h : Heap F) (r : Ref) : Option (Obj F) := h.objs[r]?

/-- Overwrite the object behind a reference. -/
def Heap.put (h : Heap F) (r : Ref) (o : Obj F) : Heap F := { h with objs := h.objs.set r o }

/-- A new object. -/
def Heap.alloc (h : Heap F) (o : Obj F) : Ref × Heap F := (h.objs.length, { h with objs := h.objs ++ [o] })

/-- XIDFactory.create_id, id/XIDFactory.py:13-20: the next value of the random source `rnd`. -/
def Heap.draw (rnd : Nat → Uuid) (h : Heap F) : Uuid × Heap F := (rnd h.drawn, { h with drawn := h.drawn + 1 })

/-- The `__attributes` field of an element or attribute, model/XAttributable.py:32-38.  (A reference
to something else is an AttributeError.) -/
def mapOf (h : Heap F) (r : Ref) : Except PyErr Ref :=
  match h.get r with
  | some (.attr _ _ _ _ m _) => .ok m
  | some (.event _ m) => .ok m
  | some (.trace m _) => .ok m
  | some (.log l) => .ok l.map
  | _ => .error .attributeError

/-- The content of an attribute map. -/
def entries (h : Heap F) (m : Ref) : Except PyErr (List (Str × Ref)) :=
  match h.get m with
  | some (.map d) => .ok d
  | _ => .error .attributeError

/-- `map[k] = v` (dict built-in). -/
def mapSet (h : Heap F) (m : Ref) (k : Str) (v : Ref) : Except PyErr (Heap F) :=
  match h.get m with
  | some (.map d) => .ok (h.put m (.map (dset k v d)))
  | _ => .error .attributeError

/-- `del map[k]` when present (dict built-in; absent: KeyError). -/
def mapDel (h : Heap F) (m : Ref) (k : Str) : Except PyErr (Heap F) :=
  match h.get m with
  | some (.map d) => if k ∈ dkeys d then .ok (h.put m (.map (ddel k d))) else .error .keyError
  | _ => .error .attributeError

/-- XAttributable.set_attributes, model/XAttributable.py:40-46. -/
def setMap (h : Heap F) (r m : Ref) : Except PyErr (Heap F) :=
  match h.get r with
  | some (.attr k key e v _ c) => .ok (h.put r (.attr k key e v m c))
  | some (.event i _) => .ok (h.put r (.event i m))
  | some (.trace _ es) => .ok (h.put r (.trace m es))
  | some (.log l) => .ok (h.put r (.log { l with map := m }))
  | _ => .error .attributeError

/-- Truth value of an attribute map given as an argument (None and empty maps are false),
model/XAttributable.py:13. -/
def mapTruthy (h : Heap F) : Option Ref → Bool
  | none => false
  | some m => match entries h m with
    | .ok d => d ≠ []
    | .error _ => true

/-- XAttributable.__init__, model/XAttributable.py:12-16: the map that is used, and the heap. -/
def initMap (h : Heap F) (m : Option Ref) : Ref × Heap F :=
  match m with
  | some m => if mapTruthy h (some m) then (m, h) else h.alloc (.map [])
  | none => h.alloc (.map [])

/-- The constructors of the attribute classes, model/XAttribute.py:17-20,
model/XAttributeLiteral.py:16-18 etc., model/XAttributeCollection.py:14-16. -/
def newAttr (h : Heap F) (k : Kind) (key : Str) (e : Option Ext) (v : PyVal F) : Ref × Heap F :=
  let (m, h) := initMap h none
  h.alloc (.attr k key e v m [])

/-- XEvent.__init__, model/XEvent.py:18-25 (an XID is always true). -/
def newEvent (rnd : Nat → Uuid) (h : Heap F) (m : Option Ref) (i : Option Uuid) : Ref × Heap F :=
  let (m, h) := if mapTruthy h m then (m, h) else
    let (m, h) := h.alloc (.map [])
    (some m, h)
  let (u, h) := match i with
    | some u => (u, h)
    | none => h.draw rnd
  let (m, h) := initMap h m
  h.alloc (.event u m)

/-- XTrace.__init__, model/XTrace.py:13-14. -/
def newTrace (h : Heap F) (m : Option Ref) : Ref × Heap F :=
  let (m, h) := initMap h m
  h.alloc (.trace m [])

/-- XLog.__init__, model/XLog.py:13-21. -/
def newLog (h : Heap F) (m : Option Ref) : Ref × Heap F :=
  let (m, h) := initMap h m
  h.alloc (.log ⟨m, [], [], [], [], [], []⟩)

/-- XFactory.create_event, factory/XFactory.py:46-64. -/
def createEvent (rnd : Nat → Uuid) (h : Heap F) (m : Option Ref) (i : Option Uuid) : Ref × Heap F :=
  if mapTruthy h m && i.isSome then newEvent rnd h m i
  else if mapTruthy h m then newEvent rnd h m none
  else newEvent rnd h none none

/-- XFactory.create_trace, factory/XFactory.py:33-44. -/
def createTrace (h : Heap F) (m : Option Ref) : Ref × Heap F :=
  if mapTruthy h m then newTrace h m
  else
    let (m, h) := h.alloc (.map [])
    newTrace h (some m)

/-- XFactory.create_log, factory/XFactory.py:20-31. -/
def createLog (h : Heap F) (m : Option Ref) : Ref × Heap F :=
  if mapTruthy h m then newLog h m
  else
    let (m, h) := h.alloc (.map [])
    newLog h (some m)

/-- XTrace.append, model/XTrace.py:59-66. -/
def traceAppend (h : Heap F) (t e : Ref) : Except PyErr (Heap F) :=
  match h.get t with
  | some (.trace m es) => .ok (h.put t (.trace m (es ++ [e])))
  | _ => .error .attributeError

/-- XLog.append, model/XLog.py:127-134. -/
def logAppend (h : Heap F) (l t : Ref) : Except PyErr (Heap F) :=
  match h.get l with
  | some (.log o) => .ok (h.put l (.log { o with traces := o.traces ++ [t] }))
  | _ => .error .attributeError

/-- XAttributeMap.clone, model/XAttributeMap.py:13-23. -/
def cloneMap (h : Heap F) (m : Ref) : Except PyErr (Ref × Heap F) :=
  match entries h m with
  | .error e => .error e
  | .ok d => .ok (h.alloc (.map (d.foldl (fun acc p => dset p.1 p.2 acc) [])))

/-- XEvent.set_id, model/XEvent.py:46-52. -/
def setId (h : Heap F) (e : Ref) (u : Uuid) : Except PyErr (Heap F) :=
  match h.get e with
  | some (.event _ m) => .ok (h.put e (.event u m))
  | _ => .error .attributeError

/-- XEvent.clone, model/XEvent.py:27-36. -/
def cloneEvent (rnd : Nat → Uuid) (h : Heap F) (e : Ref) : Except PyErr (Ref × Heap F) := do
  let (c, h) := newEvent rnd h none none
  let m ← mapOf h e
  let (m, h) ← cloneMap h m
  let h ← setMap h c m
  let (u, h) := h.draw rnd
  let h ← setId h c u
  .ok (c, h)

/-- The loop of XTrace.clone, model/XTrace.py:23-24. -/
def cloneEvents (rnd : Nat → Uuid) (h : Heap F) (c : Ref) : List Ref → Except PyErr (Heap F)
  | [] => .ok h
  | e :: es => do
    let (e', h) ← cloneEvent rnd h e
    let h ← traceAppend h c e'
    cloneEvents rnd h c es

/-- XTrace.clone, model/XTrace.py:16-26. -/
def cloneTrace (rnd : Nat → Uuid) (h : Heap F) (t : Ref) : Except PyErr (Ref × Heap F) :=
  match h.get t with
  | some (.trace m es) => do
    let (m, h) ← cloneMap h m
    let (c, h) := newTrace h (some m)
    let h ← cloneEvents rnd h c es
    .ok (c, h)
  | _ => .error .attributeError

/-- The loop of XLog.clone over the traces, model/XLog.py:38-39. -/
def cloneTraces (rnd : Nat → Uuid) (h : Heap F) (c : Ref) : List Ref → Except PyErr (Heap F)
  | [] => .ok h
  | t :: ts => do
    let (t', h) ← cloneTrace rnd h t
    let h ← logAppend h c t'
    cloneTraces rnd h c ts

/-- XLog.clone, model/XLog.py:23-41 (the extension set is copied element by element;
the list here keeps the order, while the new set may enumerate its elements in another one: see
`reorder` in Props/CloneSave for results that depend on it). -/
def cloneLog (rnd : Nat → Uuid) (h : Heap F) (l : Ref) : Except PyErr (Ref × Heap F) :=
  match h.get l with
  | some (.log o) => do
    let (m, h) ← cloneMap h o.map
    let (c, h) := newLog h (some m)
    match h.get c with
    | some (.log n) =>
      let n := { n with
        extensions := o.extensions
        classifiers := o.classifiers
        globalTrace := o.globalTrace
        globalEvent := o.globalEvent
        features := o.features }
      let h := h.put c (.log n)
      let h ← cloneTraces rnd h c o.traces
      .ok (c, h)
    | _ => .error .attributeError
  | _ => .error .attributeError

/-- clone of the attribute classes: model/XAttributeLiteral.py:36-44, XAttributeBoolean.py:36-44,
XAttributeContinuous.py:36-44, XAttributeDiscrete.py:36-44, XAttributeID.py:35-43,
XAttributeTimestamp.py:49-57.  Collections have no `clone`.  Simplification: a timestamp whose value
is not a datetime (which its constructor would convert or drop) is an error here. -/
def cloneAttr (h : Heap F) (a : Ref) : Except PyErr (Ref × Heap F) :=
  match h.get a with
  | some (.attr .list _ _ _ _ _) => .error .attributeError
  | some (.attr .container _ _ _ _ _) => .error .attributeError
  | some (.attr .id key e v _ _) => match v with
    | .xid u => .ok (newAttr h .id key e (.xid u))
    | _ => .error .attributeError
  | some (.attr .timestamp key e v _ _) => match v with
    | .dt d => .ok (newAttr h .timestamp key e (.dt d))
    | _ => .error .attributeError
  | some (.attr k key e v _ _) => .ok (newAttr h k key e v)
  | _ => .error .attributeError

/-- set_value of the attribute classes, model/XAttributeLiteral.py:28-34 etc. -/
def setValue (h : Heap F) (a : Ref) (v : PyVal F) : Except PyErr (Heap F) :=
  match h.get a with
  | some (.attr k key e _ m c) =>
    if k.isCollection then .error .attributeError else .ok (h.put a (.attr k key e v m c))
  | _ => .error .attributeError

end

end Opy
