import Verif.Model.Attr
/-
Events, traces and logs of src/opyenxes/model as values, and XTrace.insert_ordered.
-/
namespace Opy

/-- model/XEvent.py:18-26: identity and attribute map. -/
structure Event (F : Type) where
  id : Uuid
  attrs : AttrMap F

/-- model/XTrace.py:4-14: attribute map and list of events. -/
structure Trace (F : Type) where
  attrs : AttrMap F
  events : List (Event F)

/-- classification/XEventAttributeClassifier.py:14-16. -/
structure Classifier where
  name : Str
  keys : List Str
  deriving DecidableEq, Repr

/-- model/XLog.py:13-21.  The extension `set` is an enumeration without two extensions of the same
uri (extension/XExtension.py equality); `features` is a dict.  The summary cache is modelled
separately (Model/Info.lean). -/
structure Log (F : Type) where
  attrs : AttrMap F
  extensions : List Ext
  classifiers : List Classifier
  globalTrace : List (Attr F)
  globalEvent : List (Attr F)
  features : List (Str × Str)
  traces : List (Trace F)

section
variable {F : Type} [PyFloat F]

/-- `a >= b` on attribute values (built-in operators; XID.__ge__). -/
def pyGe (a b : PyVal F) : Except PyErr Bool :=
  match pyGt a b with
  | .ok g => .ok (g || pyEq a b)
  | .error e => .error e

/-- The key of the timestamp attribute, model/XTrace.py:40. -/
def timeKey : Str := py!"time:timestamp"

/-- The loop of XTrace.insert_ordered over the reversed trace, model/XTrace.py:45-57:
`some i` = insert at `i`, `none` = append at the end. -/
def scanBack (ts : PyVal F) : List (Event F) → Except PyErr (Option Nat)
  | [] => .ok (some 0)
  | e :: rest =>
    match dget timeKey e.attrs with
    | none => .ok none
    | some a =>
      match getValue a with
      | .error x => .error x
      | .ok ref =>
        match pyGe ts ref with
        | .error x => .error x
        | .ok true => .ok (some (rest.length + 1))
        | .ok false => scanBack ts rest

/-- XTrace.insert_ordered, model/XTrace.py:28-57: the new list of events and the returned index. -/
def insertOrdered (evs : List (Event F)) (e : Event F) : Except PyErr (List (Event F) × Nat) :=
  if evs.length = 0 then .ok (evs ++ [e], 0)
  else
    match dget timeKey e.attrs with
    | none => .ok (evs ++ [e], evs.length)
    | some a =>
      match getValue a with
      | .error x => .error x
      | .ok ts =>
        match scanBack ts evs.reverse with
        | .error x => .error x
        | .ok none => .ok (evs ++ [e], evs.length)
        | .ok (some i) => .ok (evs.take i ++ [e] ++ evs.drop i, i)

/-- Inserting events one after the other with insert_ordered. -/
def insertAll (evs : List (Event F)) : List (Event F) → Except PyErr (List (Event F))
  | [] => .ok evs
  | e :: es =>
    match insertOrdered evs e with
    | .error x => .error x
    | .ok (evs', _) => insertAll evs' es

end

end Opy
