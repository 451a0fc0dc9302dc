import Verif.Model.Ext
import Verif.Model.Info
/-
The comparison operators of attributes, identifiers, event classes and classifiers; equality of events, traces
and logs, and of extended events; prototypes; the type names; timestamps in milliseconds; XLogging;
example/Create_random_log.py.
Sources: src/opyenxes/model/*.py, id/XID.py, classification/XEventClass.py, XEventAttributeClassifier.py,
extension/std/XExtendedEvent.py, utils/XAttributeUtils.py, log/XLogging.py.
-/
namespace Opy

/-! ## Comparison operators -/

/-- `__lt__`: `True if self.compare_to(other) < 0 else False`, model/XAttribute.py:53-54 and the corresponding
lines of the typed attribute classes, id/XID.py:72-73, classification/XEventClass.py:79-80,
classification/XEventAttributeClassifier.py:121-122. -/
def opLt (c : Int) : Bool := if c < 0 then true else false

/-- `__le__`: model/XAttribute.py:56-57 etc., id/XID.py:75-76, classification/XEventClass.py:82-83,
classification/XEventAttributeClassifier.py:124-125. -/
def opLe (c : Int) : Bool := if c ≤ 0 then true else false

/-- `__gt__`: model/XAttribute.py:67-68 etc., id/XID.py:86-87, classification/XEventClass.py:95-96,
classification/XEventAttributeClassifier.py:135-136. -/
def opGt (c : Int) : Bool := if c > 0 then true else false

/-- `__ge__`: model/XAttribute.py:70-71 etc., id/XID.py:89-90, classification/XEventClass.py:98-99,
classification/XEventAttributeClassifier.py:138-139. -/
def opGe (c : Int) : Bool := if c ≥ 0 then true else false

/-- The answers of the six operators `<`, `<=`, `==`, `!=`, `>`, `>=`. -/
structure Ops where
  lt : Bool
  le : Bool
  eq : Bool
  ne : Bool
  gt : Bool
  ge : Bool
  deriving DecidableEq

/-- The operators from the result of `compare_to` and of `__eq__`; `__ne__` is its negation
(model/XAttribute.py:64-65 etc.). -/
def opsOf (c : Int) (eq : Bool) : Ops := ⟨opLt c, opLe c, eq, !eq, opGt c, opGe c⟩

section
variable {F : Type} [PyFloat F]

/-- The operators on two attribute objects: model/XAttribute.py:53-71 and the corresponding lines of the typed
classes.  No attribute class is a subclass of another one, so the left operand decides. -/
def attrOps (a b : Attr F) : Except PyErr Ops := do
  let c ← compareTo a b
  .ok (opsOf c (attrEq false a b))

end

/-- The operators on identifiers: id/XID.py:72-90. -/
def xidOps (a b : Uuid) : Ops := opsOf (xidCompare a b) (decide (a = b))

/-- XEventClass.compare_to: classification/XEventClass.py:62-71. -/
def classCompare (a b : EventClass) : Int := compareStr a.id b.id

/-- The operators on two event class objects: classification/XEventClass.py:79-99. -/
def classOps (a b : EventClass) : Ops := opsOf (classCompare a b) (decide (a.id = b.id))

/-- The operators on two classifiers: classification/XEventAttributeClassifier.py:121-139.  If the class of the
right operand is a proper subclass of that of the left one (`sub`), Python asks the right operand for the
reflected answer. -/
def classifierOps (sub : Bool) (a b : Classifier) : Ops :=
  if sub then ⟨opGt (classifierCompare b a), opGe (classifierCompare b a), classifierEq b a, !classifierEq b a,
    opLt (classifierCompare b a), opLe (classifierCompare b a)⟩
  else opsOf (classifierCompare a b) (classifierEq a b)

/-! ## Equality of events, traces and logs -/

section
variable {F : Type} [PyFloat F]

/-- XEvent.__eq__: model/XEvent.py:54-57. -/
def eventEq (a b : Event F) : Bool := decide (a.id = b.id)

/-- XEvent.__hash__ over the built-in hash of a UUID: model/XEvent.py:62-63, id/XID.py:69-70. -/
def eventHash (hash : Uuid → Int) (e : Event F) : Int := hash e.id

/-- `list.__eq__` with the given equality of members. -/
def listEq {α : Type} (eq : α → α → Bool) : List α → List α → Bool
  | [], [] => true
  | a :: as, b :: bs => eq a b && listEq eq as bs
  | _, _ => false

/-- `==` on traces: XTrace inherits it from `list` (model/XTrace.py:4). -/
def traceEq (a b : Trace F) : Bool := listEq eventEq a.events b.events

/-- `==` on logs: XLog inherits it from `list` (model/XLog.py:4). -/
def logEq (a b : Log F) : Bool := listEq traceEq a.traces b.traces

/-- XEvent.clone: model/XEvent.py:27-36.  The constructor draws an identifier, too.  `rnd` is the stream of
identifiers, `n` the number of those drawn. -/
def eventClone (rnd : Nat → Uuid) (n : Nat) (e : Event F) : Event F × Nat := (⟨rnd (n + 1), e.attrs⟩, n + 2)

/-- The loop of XTrace.clone: model/XTrace.py:23-24. -/
def eventsClone (rnd : Nat → Uuid) (n : Nat) : List (Event F) → List (Event F) × Nat
  | [] => ([], n)
  | e :: es =>
    let (e', n) := eventClone rnd n e
    let (es', n) := eventsClone rnd n es
    (e' :: es', n)

/-- XTrace.clone: model/XTrace.py:16-26. -/
def traceClone (rnd : Nat → Uuid) (n : Nat) (t : Trace F) : Trace F × Nat :=
  let (es, n) := eventsClone rnd n t.events
  (⟨t.attrs, es⟩, n)

/-- The loop of XLog.clone: model/XLog.py:38-39. -/
def tracesClone (rnd : Nat → Uuid) (n : Nat) : List (Trace F) → List (Trace F) × Nat
  | [] => ([], n)
  | t :: ts =>
    let (t', n) := traceClone rnd n t
    let (ts', n) := tracesClone rnd n ts
    (t' :: ts', n)

/-- XLog.clone: model/XLog.py:23-41. -/
def logClone (rnd : Nat → Uuid) (n : Nat) (l : Log F) : Log F × Nat :=
  let (ts, n) := tracesClone rnd n l.traces
  ({ l with traces := ts }, n)

/-! ## Extended events -/

/-- An extended event: extension/std/XExtendedEvent.py:30-32. -/
structure ExtEvent (F : Type) where
  original : Event F
  id : Uuid

/-- XExtendedEvent.wrap and __init__: extension/std/XExtendedEvent.py:18-32. -/
def extEventWrap (rnd : Nat → Uuid) (n : Nat) (e : Event F) : ExtEvent F × Nat := (⟨e, rnd n⟩, n + 1)

/-- XExtendedEvent.clone: extension/std/XExtendedEvent.py:249-258. -/
def extEventClone (rnd : Nat → Uuid) (n : Nat) (x : ExtEvent F) : ExtEvent F × Nat :=
  let (e, n) := eventClone rnd n x.original
  let (y, n) := extEventWrap rnd n e
  ({ y with id := rnd n }, n + 1)

/-- XExtendedEvent.__eq__: extension/std/XExtendedEvent.py:268-271. -/
def extEventEq (a b : ExtEvent F) : Bool := decide (a.id = b.id)

/-! ## Prototypes and type names -/

/-- XAttributeUtils.derive_prototype: utils/XAttributeUtils.py:86-116 with `clone` of the attribute classes.
`zero` is the float 0.0 and `fresh` the identifier drawn.  See `deriveProto` for the errors. -/
def derivePrototype (zero : F) (fresh : Uuid) (a : Attr F) : Except PyErr (Attr F) :=
  match a.kind with
  | .list | .container => .error .attributeError
  | .timestamp => .error .attributeError
  | .literal => .ok (.mk .literal a.key a.ext (.str py!"UNKNOWN") [] [])
  | .boolean => .ok (.mk .boolean a.key a.ext (.bool true) [] [])
  | .continuous => .ok (.mk .continuous a.key a.ext (.float zero) [] [])
  | .discrete => .ok (.mk .discrete a.key a.ext (.int 0) [] [])
  | .id => match a.val with
    | .xid _ => .ok (.mk .id a.key a.ext (.xid fresh) [] [])
    | _ => .error .attributeError

/-- XAttributeUtils.get_type_string: utils/XAttributeUtils.py:57-84 (no attribute class is a subclass of another
one, so the order of the tests does not matter). -/
def typeString (a : Attr F) : Str :=
  match a.kind with
  | .discrete => py!"DISCRETE"
  | .literal => py!"LITERAL"
  | .continuous => py!"CONTINUOUS"
  | .boolean => py!"BOOLEAN"
  | .id => py!"ID"
  | .list => py!"LIST"
  | .container => py!"CONTAINER"
  | .timestamp => py!"TIMESTAMP"

/-! ## Timestamps in milliseconds -/

/-- XAttributeTimestamp.__init__ with an int: model/XAttributeTimestamp.py:24-25,123-132. -/
def timestampOfInt (lt : LocalTime) (windows : Bool) (key : Str) (ext : Option Ext) (value : Int) : Except PyErr (Attr F) := do
  let d ← lt.fromMillis (if windows = true ∧ value < 86400 * 1000 then 86400 * 1000 else value)
  .ok (.mk .timestamp key ext (.dt d) [] [])

/-- XAttributeTimestamp.set_value_millis: model/XAttributeTimestamp.py:46-47. -/
def setValueMillis (lt : LocalTime) (value : Int) : Attr F → Except PyErr (Attr F)
  | .mk k key ext _ m c => do
    let d ← lt.fromMillis value
    .ok (.mk k key ext (.dt d) m c)

/-- XAttributeTimestamp.get_value_millis: model/XAttributeTimestamp.py:35-36 (`timetuple` drops the microseconds
and the zone). -/
def getValueMillis (lt : LocalTime) (a : Attr F) : Except PyErr Int :=
  match a.val with
  | .dt d => do .ok ((← lt.mktime { d with micro := 0, tz := none }) * 1000)
  | _ => .error .attributeError

end

/-! ## XLogging -/

/-- A call on an XLogging object. -/
inductive LoggingOp (lam : Type) where
  | setListener (l : Option lam)
  | log (message : Str) (importance : Option Str)

/-- `set_listener` and `log`: log/XLogging.py:12-30.  The result is the listener afterwards and the messages
that the listener got.  `none` as importance is given on as DEBUG. -/
def loggingStep {lam : Type} (cur : Option lam) : LoggingOp lam → Option lam × List (lam × Str × Str)
  | .setListener l => (l, [])
  | .log m i =>
    let i := match i with | none => py!"DEBUG" | some i => i
    match cur with
    | some l => (cur, [(l, m, i)])
    | none => (cur, [])

/-- A sequence of calls. -/
def loggingRun {lam : Type} (cur : Option lam) : List (LoggingOp lam) → List (lam × Str × Str)
  | [] => []
  | op :: ops =>
    let r := loggingStep cur op
    r.2 ++ loggingRun r.1 ops

/-! ## Create_random_log.py -/

section
variable {F : Type} [PyFloat F]

/-- The attribute for an option: example/Create_random_log.py:23-40.  `now` is the timestamp for 0 and `zero` the
float 0.0. -/
def randomAttr (now : DateTime) (zero : F) (fresh : Uuid) (option : Str) : Attr F :=
  if option = py!"string" then .mk .literal option none (.str py!"UNKNOWN") [] []
  else if option = py!"date" then .mk .timestamp option none (.dt now) [] []
  else if option = py!"int" then .mk .discrete option none (.int 0) [] []
  else if option = py!"float" then .mk .continuous option none (.float zero) [] []
  else if option = py!"boolean" then .mk .boolean option none (.bool true) [] []
  else if option = py!"id" then .mk .id option none (.xid fresh) [] []
  else if option = py!"list" then .mk .list option none .none [] []
  else .mk .container option none .none [] []

/-- The loop over the attributes of an event: example/Create_random_log.py:20-41.  `draws` are the options drawn,
each with the identifier that is drawn for it. -/
def randomAttrs (now : DateTime) (zero : F) (m : AttrMap F) : List (Str × Uuid) → AttrMap F
  | [] => m
  | (o, u) :: r => randomAttrs now zero (dset o (randomAttr now zero u o) m) r

/-- The log: example/Create_random_log.py:15-43.  The draws are given as one list for each trace, with one list for
each event. -/
def randomLog (now : DateTime) (zero : F) (draws : List (List (Uuid × List (Str × Uuid)))) : Log F :=
  { attrs := [], extensions := [], classifiers := [], globalTrace := [], globalEvent := [], features := [],
    traces := draws.map fun t => ⟨[], t.map fun e => ⟨e.1, randomAttrs now zero [] e.2⟩⟩ }

end

end Opy
