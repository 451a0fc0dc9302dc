import Verif.Model.Misc
/-
Objects of the class XAttributeTimestamp with values of any type: model/XAttributeTimestamp.py.
`Attr` (Model/Attr.lean) always has a value; here the value may be missing, because the constructor stores
only what is a datetime or an int.
-/
set_option linter.unusedSectionVars false
namespace Opy

section
variable {F : Type} [PyFloat F]

/-- A timestamp attribute: key and extension (model/XAttribute.py:17-20) and the field `__value`, if it was ever set.
Nested attributes play no part in the methods below. -/
structure Stamp (F : Type) where
  key : Str
  ext : Option Ext
  val : Option (PyVal F)

/-- The argument of `datetime.fromtimestamp` in the constructor, in milliseconds: model/XAttributeTimestamp.py:123-132. -/
def stampMillis (windows : Bool) (z : Int) : Int := if windows = true ∧ z < 86400 * 1000 then 86400 * 1000 else z

/-- XAttributeTimestamp.__init__: model/XAttributeTimestamp.py:18-25 (`bool` is a subclass of `int`). -/
def stampInit (lt : LocalTime) (windows : Bool) (key : Str) (ext : Option Ext) : PyVal F → Except PyErr (Stamp F)
  | .dt d => .ok ⟨key, ext, some (.dt d)⟩
  | .int z => do .ok ⟨key, ext, some (.dt (← lt.fromMillis (stampMillis windows z)))⟩
  | .bool b => do .ok ⟨key, ext, some (.dt (← lt.fromMillis (stampMillis windows (if b then 1 else 0))))⟩
  | _ => .ok ⟨key, ext, none⟩

/-- `self.__value`, also get_value: model/XAttributeTimestamp.py:27-33. -/
def stampValue (a : Stamp F) : Except PyErr (PyVal F) :=
  match a.val with
  | some v => .ok v
  | none => .error .attributeError

/-- get_value_millis: model/XAttributeTimestamp.py:35-36; only datetimes have `timetuple`. -/
def stampGetMillis (lt : LocalTime) (a : Stamp F) : Except PyErr Int := do
  match ← stampValue a with
  | .dt d => .ok ((← lt.mktime { d with micro := 0, tz := none }) * 1000)
  | _ => .error .attributeError

/-- set_value: model/XAttributeTimestamp.py:38-44. -/
def stampSet (v : PyVal F) (a : Stamp F) : Stamp F := { a with val := some v }

/-- set_value_millis: model/XAttributeTimestamp.py:46-47. -/
def stampSetMillis (lt : LocalTime) (z : Int) (a : Stamp F) : Except PyErr (Stamp F) := do
  .ok { a with val := some (.dt (← lt.fromMillis z)) }

/-- clone: model/XAttributeTimestamp.py:49-57. -/
def stampClone (lt : LocalTime) (windows : Bool) (a : Stamp F) : Except PyErr (Stamp F) := do
  stampInit lt windows a.key a.ext (← stampValue a)

/-- compare_to with another timestamp attribute: model/XAttributeTimestamp.py:59-73. -/
def stampCompare (a b : Stamp F) : Except PyErr Int :=
  let result := compareStr a.key b.key
  if result = 0 then do
    let v ← stampValue a
    let w ← stampValue b
    compareVals v w
  else .ok result

/-- `==` with another timestamp attribute; `same`: both are the same object.  model/XAttributeTimestamp.py:106-112. -/
def stampEq (same : Bool) (a b : Stamp F) : Except PyErr Bool :=
  if same then .ok true
  else if a.key = b.key then do
    let v ← stampValue a
    let w ← stampValue b
    .ok (pyEq v w)
  else .ok false

/-- `str(attribute)`: model/XAttributeTimestamp.py:78-98; only datetimes have `tzinfo`. -/
def stampStr (a : Stamp F) : Except PyErr Str := do
  match ← stampValue a with
  | .dt d => .ok d.xesStr
  | _ => .error .attributeError

/-- A call of a program that works with timestamp attributes; the objects are numbered in the order of their creation. -/
inductive StampCall (F : Type) where
  | new (key : Str) (ext : Option Ext) (v : PyVal F)
  | clone (i : Nat)
  | setValue (i : Nat) (v : PyVal F)
  | setMillis (i : Nat) (z : Int)
  | getValue (i : Nat)
  | getMillis (i : Nat)
  | str (i : Nat)
  | eq (i j : Nat)
  | compare (i j : Nat)

/-- What a call returns. -/
inductive StampRes (F : Type) where
  | nothing
  | value (v : PyVal F)
  | number (z : Int)
  | text (s : Str)
  | bool (b : Bool)

/-- One call: the objects afterwards and what is returned or raised.  A call on an object that does not exist is not possible in Python;
here it is a KeyError. -/
def stampStep (lt : LocalTime) (windows : Bool) (s : List (Stamp F)) : StampCall F → List (Stamp F) × Except PyErr (StampRes F)
  | .new key ext v => match stampInit lt windows key ext v with
    | .ok a => (s ++ [a], .ok .nothing)
    | .error e => (s, .error e)
  | .clone i => match s[i]? with
    | none => (s, .error .keyError)
    | some a => match stampClone lt windows a with
      | .ok b => (s ++ [b], .ok .nothing)
      | .error e => (s, .error e)
  | .setValue i v => match s[i]? with
    | none => (s, .error .keyError)
    | some a => (s.set i (stampSet v a), .ok .nothing)
  | .setMillis i z => match s[i]? with
    | none => (s, .error .keyError)
    | some a => match stampSetMillis lt z a with
      | .ok b => (s.set i b, .ok .nothing)
      | .error e => (s, .error e)
  | .getValue i => (s, match s[i]? with | none => .error .keyError | some a => (stampValue a).map .value)
  | .getMillis i => (s, match s[i]? with | none => .error .keyError | some a => (stampGetMillis lt a).map .number)
  | .str i => (s, match s[i]? with | none => .error .keyError | some a => (stampStr a).map .text)
  | .eq i j => (s, match s[i]?, s[j]? with | some a, some b => (stampEq (i = j) a b).map .bool | _, _ => .error .keyError)
  | .compare i j => (s, match s[i]?, s[j]? with | some a, some b => (stampCompare a b).map .number | _, _ => .error .keyError)

/-- The objects after a sequence of calls, exceptions being caught. -/
def stampRun (lt : LocalTime) (windows : Bool) (s : List (Stamp F)) : List (StampCall F) → List (Stamp F)
  | [] => s
  | c :: cs => stampRun lt windows (stampStep lt windows s c).1 cs

end

end Opy
