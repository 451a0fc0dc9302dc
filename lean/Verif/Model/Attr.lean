import Verif.Py.Lower
import Verif.Py.Dict
import Verif.Model.DateTime
import Verif.Model.Xid
/-
The attribute classes of src/opyenxes/model and src/opyenxes/utils/CompareUtils.py.
-/
namespace Opy

/-- Python `float`, abstract.  `repr` is `str(x)`, `parse` is `float(text)` (`none` = ValueError),
`ofInt` is `float(n)` (`none` = OverflowError), `rank` is an order embedding of the non-NaN doubles
into the integers (`none` for NaN; the two zeros have the same rank), `cmpInt` compares a float with
an `int` exactly.  The only law is that reading a printed float gives it back.
(CPython built-in; used by model/XAttributeContinuous.py, data_in/XesXmlParser.py:180.) -/
class PyFloat (F : Type) where
  repr : F → Str
  parse : Str → Option F
  ofInt : Int → Option F
  rank : F → Option Int
  cmpInt : F → Int → Option Ordering
  parse_repr : ∀ x, parse (repr x) = some x

/-- The Python values that end up as attribute values.  `typ` is the built-in class object `type`
(see extension/std/XCostExtension.py, assign_type). -/
inductive PyVal (F : Type) where
  | none
  | str (s : Str)
  | int (z : Int)
  | float (x : F)
  | bool (b : Bool)
  | xid (u : Uuid)
  | dt (d : DateTime)
  | typ
  deriving DecidableEq

/-- The concrete attribute classes (model/XAttributeLiteral.py, XAttributeDiscrete.py,
XAttributeContinuous.py, XAttributeBoolean.py, XAttributeID.py, XAttributeTimestamp.py,
XAttributeList.py, XAttributeContainer.py).  The base classes XAttribute and XAttributeCollection
are never instantiated by the library and are not represented. -/
inductive Kind where
  | literal | discrete | continuous | boolean | id | timestamp | list | container
  deriving DecidableEq, Repr

/-- Is the class a subclass of XAttributeCollection (model/XAttributeCollection.py:4)? -/
def Kind.isCollection : Kind → Bool
  | .list | .container => true
  | _ => false

/-- An extension as far as attributes and parsers see it: extension/XExtension.py:8-37.
The `urlparse` result is represented by its text. -/
structure Ext where
  name : Str
  pfx : Str
  uri : Str
  deriving DecidableEq, Repr

/-- An attribute with everything reachable from it: class, key, extension
(model/XAttribute.py:17-20), value, nested attribute map (model/XAttributable.py:12-16) and, for
collections, the list of members (model/XAttributeCollection.py:14-16).  Value semantics: object
identity is dropped (see the heap model for sharing). -/
inductive Attr (F : Type) where
  | mk (kind : Kind) (key : Str) (ext : Option Ext) (val : PyVal F)
      (attrs : List (Str × Attr F)) (coll : List (Attr F)) : Attr F

namespace Attr
variable {F : Type}

/-- the attribute's class -/
def kind : Attr F → Kind | mk k _ _ _ _ _ => k
/-- XAttribute.get_key, model/XAttribute.py:22-28 -/
def key : Attr F → Str | mk _ k _ _ _ _ => k
/-- XAttribute.get_extension, model/XAttribute.py:30-37 -/
def ext : Attr F → Option Ext | mk _ _ e _ _ _ => e
/-- get_value of the typed classes (e.g. model/XAttributeLiteral.py:20-26); collections have none -/
def val : Attr F → PyVal F | mk _ _ _ v _ _ => v
/-- XAttributable.get_attributes, model/XAttributable.py:32-38 -/
def attrs : Attr F → List (Str × Attr F) | mk _ _ _ _ m _ => m
/-- XAttributeCollection.get_collection, model/XAttributeCollection.py:27-35 -/
def coll : Attr F → List (Attr F) | mk _ _ _ _ _ c => c

end Attr

/-- An attribute map (model/XAttributeMap.py). -/
abbrev AttrMap (F : Type) := List (Str × Attr F)

section
variable {F : Type} [PyFloat F]

/-- `a == b` on attribute values; numbers compare across `bool`, `int` and `float`. -/
def pyEq : PyVal F → PyVal F → Bool
  | .none, .none => true
  | .str a, .str b => a == b
  | .int a, .int b => a == b
  | .int a, .bool b => a == (if b then 1 else 0)
  | .bool a, .int b => (if a then 1 else 0) == b
  | .bool a, .bool b => a == b
  | .float a, .float b => match PyFloat.rank a, PyFloat.rank b with
    | some x, some y => x == y
    | _, _ => false
  | .float a, .int b => PyFloat.cmpInt a b == some .eq
  | .int a, .float b => PyFloat.cmpInt b a == some .eq
  | .float a, .bool b => PyFloat.cmpInt a (if b then 1 else 0) == some .eq
  | .bool a, .float b => PyFloat.cmpInt b (if a then 1 else 0) == some .eq
  | .xid a, .xid b => a == b
  | .dt a, .dt b => a.eq b
  | .typ, .typ => true
  | _, _ => false

/-- `a > b` on attribute values. -/
def pyGt : PyVal F → PyVal F → Except PyErr Bool
  | .str a, .str b => .ok (strLt b a)
  | .int a, .int b => .ok (b < a)
  | .int a, .bool b => .ok ((if b then 1 else 0) < a)
  | .bool a, .int b => .ok (b < (if a then 1 else 0))
  | .bool a, .bool b => .ok (a && !b)
  | .float a, .float b => match PyFloat.rank a, PyFloat.rank b with
    | some x, some y => .ok (y < x)
    | _, _ => .ok false
  | .float a, .int b => .ok (PyFloat.cmpInt a b == some .gt)
  | .int a, .float b => .ok (PyFloat.cmpInt b a == some .lt)
  | .float a, .bool b => .ok (PyFloat.cmpInt a (if b then 1 else 0) == some .gt)
  | .bool a, .float b => .ok (PyFloat.cmpInt b (if a then 1 else 0) == some .lt)
  | .xid a, .xid b => .ok (xidCompare a b > 0)
  | .xid _, _ => .error .attributeError
  | _, .xid _ => .error .attributeError
  | .dt a, .dt b => b.lt a
  | _, _ => .error .typeError

/-- Truth value of an attribute value. -/
def pyTruthy : PyVal F → Bool
  | .none => false
  | .str s => s ≠ []
  | .int z => z ≠ 0
  | .float x => PyFloat.cmpInt x 0 ≠ some .eq
  | .bool b => b
  | _ => true

/-- `float(v)`. -/
def pyFloatOf : PyVal F → Except PyErr F
  | .float x => .ok x
  | .int z => match PyFloat.ofInt z with | some x => .ok x | none => .error .overflowError
  | .bool b => match PyFloat.ofInt (if b then 1 else 0) with | some x => .ok x | none => .error .overflowError
  | .str s => match PyFloat.parse s with | some x => .ok x | none => .error .valueError
  | _ => .error .typeError

/-- compare_to_string and compare_to_number, utils/CompareUtils.py:1-13,32-44:
0 if equal, else 1 if greater, else -1. -/
def compareVals (a b : PyVal F) : Except PyErr Int :=
  if pyEq a b then .ok 0 else
  match pyGt a b with
  | .ok g => .ok (if g then 1 else -1)
  | .error e => .error e

/-- compare_to_boolean, utils/CompareUtils.py:16-29. -/
def compareBools (a b : PyVal F) : Int :=
  if pyEq a b then 0 else if pyTruthy a && !pyTruthy b then 1 else -1

/-- compare_to_string on keys, utils/CompareUtils.py:1-13. -/
def compareStr (a b : Str) : Int := if a = b then 0 else if strLt b a then 1 else -1

/-- `obj.get_value()`: AttributeError for collections, which have no such method. -/
def getValue (a : Attr F) : Except PyErr (PyVal F) :=
  if a.kind.isCollection then .error .attributeError else .ok a.val

/-- `x.compare_to(y)` where `x` is an XID (id/XID.py:53-64); other objects have no usable
`compare_to`/`get_uuid`. -/
def compareXids : PyVal F → PyVal F → Except PyErr Int
  | .xid a, .xid b => .ok (xidCompare a b)
  | _, _ => .error .attributeError

/-- `compare_to` of the attribute classes: model/XAttribute.py:39-48 (keys, also used by
collections), XAttributeLiteral.py:46-58, XAttributeDiscrete.py:46-58,
XAttributeContinuous.py:46-59, XAttributeBoolean.py:46-58, XAttributeID.py:45-57,
XAttributeTimestamp.py:59-73. -/
def compareTo (a b : Attr F) : Except PyErr Int :=
  let result := compareStr a.key b.key
  if result = 0 then
    match a.kind with
    | .list | .container => .ok result
    | .literal | .discrete | .timestamp => do compareVals a.val (← getValue b)
    | .continuous => do
        let x ← pyFloatOf a.val
        let y ← pyFloatOf (← getValue b)
        compareVals (.float x) (.float y)
    | .boolean => do .ok (compareBools a.val (← getValue b))
    | .id => do compareXids a.val (← getValue b)
  else .ok result

/-- `a == b` on attributes; `same` says whether both are the same object.
model/XAttribute.py:59-62 (inherited by collections: only keys are compared, with any attribute),
XAttributeLiteral.py:72-78 and the corresponding lines of the other typed classes. -/
def attrEq (same : Bool) (a b : Attr F) : Bool :=
  if a.kind.isCollection then a.key == b.key
  else if same then true
  else if a.kind = b.kind then a.key == b.key && pyEq a.val b.val
  else false

/-- What `__hash__` hashes: the key, or the key with the value, or the key with `float(value)`. -/
inductive HashIn (F : Type) where
  | key (k : Str)
  | keyVal (k : Str) (v : PyVal F)

/-- `__hash__` of the attribute classes up to the built-in `hash`: model/XAttribute.py:50-51
(collections and XAttributeTimestamp.py:75-76), XAttributeLiteral.py:63-64 etc.,
XAttributeContinuous.py:64-65. -/
def hashIn (a : Attr F) : Except PyErr (HashIn F) :=
  match a.kind with
  | .list | .container | .timestamp => .ok (.key a.key)
  | .continuous => do .ok (.keyVal a.key (.float (← pyFloatOf a.val)))
  | _ => .ok (.keyVal a.key a.val)

/-- `str(datetime)`: isoformat with a blank (`datetime` built-in; data_out/XMxmlSerializer.py:119). -/
def DateTime.pyStr (d : DateTime) : Str :=
  padNat 4 d.year ++ ['-'] ++ padNat 2 d.month ++ ['-'] ++ padNat 2 d.day ++ [' '] ++
  padNat 2 d.hour ++ [':'] ++ padNat 2 d.minute ++ [':'] ++ padNat 2 d.second ++
  (if d.micro = 0 then [] else '.' :: padNat 6 d.micro) ++
  (match d.tz with
   | .none => []
   | .some o =>
     (if o < 0 then ['-'] else ['+']) ++ padNat 2 (o.natAbs / 3600) ++ [':'] ++ padNat 2 (o.natAbs / 60 % 60)
      ++ (if o.natAbs % 60 = 0 then [] else ':' :: padNat 2 (o.natAbs % 60)))

/-- `str(value)` of attribute values (built-in, and XID.__str__). -/
def pyStr : PyVal F → Str
  | .none => py!"None"
  | .str s => s
  | .int z => intStr z
  | .float x => PyFloat.repr x
  | .bool b => if b then py!"True" else py!"False"
  | .xid u => xidStr u
  | .dt d => d.pyStr
  | .typ => py!"<class 'type'>"

mutual
/-- `str(attribute)`: model/XAttributeLiteral.py:60-61, XAttributeDiscrete.py:60-61,
XAttributeContinuous.py:61-62, XAttributeBoolean.py:60-61, XAttributeID.py:59-60,
XAttributeTimestamp.py:78-98, XAttributeCollection.py:37-51. -/
def attrStr : Attr F → Except PyErr Str
  | .mk kind _ _ val _ coll =>
    match kind with
    | .literal | .discrete | .continuous | .id => .ok (pyStr val)
    | .boolean => .ok (pyLower (pyStr val))
    | .timestamp => match val with
      | .dt d => .ok d.xesStr
      | _ => .error .attributeError
    | .list | .container => do
      let t ← collStr ['['] coll
      .ok ((if t = [] then ['['] else t) ++ [']'])
/-- The loop of XAttributeCollection.__str__, model/XAttributeCollection.py:40-45. -/
def collStr (sep : Str) : List (Attr F) → Except PyErr Str
  | [] => .ok []
  | .mk kind key ext val m c :: rest => do
    let s ← attrStr (.mk kind key ext val m c)
    let r ← collStr [','] rest
    .ok (sep ++ key ++ [':'] ++ s ++ r)
end

end

end Opy
