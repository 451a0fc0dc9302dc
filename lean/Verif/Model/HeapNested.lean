import Verif.Model.HeapMxml
import Verif.Model.Ext
/-
The extensions and the nested values of an element on the objects themselves: attributes may be shared, and an attribute may lie within
itself.  (Model/Ext has the same on trees.)
-/
namespace Opy

section
variable {F : Type} [PyFloat F]

/-- The loop of `get_extensions()`, model/XAttributable.py:26-29, over the call for each attribute. -/
def extensionsEach (f : Ref → Except PyErr (List Ext)) (acc : List Ext) : List (Str × Ref) → Except PyErr (List Ext)
  | [] => .ok acc
  | (_, r) :: rest => do
    let es ← f r
    let acc ← (if es.length ≠ 0 then addSet acc es else .ok acc : Except PyErr (List Ext))
    extensionsEach f acc rest

/-- `get_extensions()` of a trace, an event or an attribute, model/XAttributable.py:18-30, with at most `n` calls active at a time
(RecursionError when there would be more). -/
def extensionsAt (h : Heap F) : Nat → Ref → Except PyErr (List Ext)
  | 0, _ => .error .recursionError
  | n + 1, r => do
    let d ← ownEntries h r
    extensionsEach (extensionsAt h n) [] d

/-- `extract_value` of the cost classes, extension/std/XCostExtension.py:14-22,40-48,66-74 (the value under the key, or None), for an
attribute with these entries. -/
def costAt (h : Heap F) (key : Str) (d : List (Str × Ref)) : Except PyErr (PyVal F) := do
  let v ← valueUnder h d key
  .ok (v.getD .none)

/-- The loop over `element.get_attributes().values()`, extension/std/XAbstractNestedAttributeSupport.py:117-120, over the call for each
attribute. -/
def nestedEach (f : List Str → List (List Str × PyVal F) → Ref → Except PyErr (List (List Str × PyVal F))) (keys : List Str)
    (acc : List (List Str × PyVal F)) : List (Str × Ref) → Except PyErr (List (List Str × PyVal F))
  | [] => .ok acc
  | (_, r) :: rest => do
    let acc ← f keys acc r
    nestedEach f keys acc rest

/-- `__extract_nested_values_private__`, extension/std/XAbstractNestedAttributeSupport.py:109-120, with at most `n` calls active at a
time. -/
def nestedAt (h : Heap F) (key : Str) : Nat → List Str → List (List Str × PyVal F) → Ref → Except PyErr (List (List Str × PyVal F))
  | 0, _, _, _ => .error .recursionError
  | n + 1, keys, acc, r => do
    let d ← ownEntries h r
    let v ← costAt h key d
    let acc ← (if pyTruthy v then setListKey acc keys v else .ok acc : Except PyErr (List (List Str × PyVal F)))
    let a ← bareAttr h r
    nestedEach (nestedAt h key n) (keys ++ [a.key]) acc d

/-- The loop of `extract_nested_values`, extension/std/XAbstractNestedAttributeSupport.py:103-106. -/
def nestedTop (h : Heap F) (key : Str) (n : Nat) (acc : List (List Str × PyVal F)) :
    List (Str × Ref) → Except PyErr (List (List Str × PyVal F))
  | [] => .ok acc
  | (_, r) :: rest => do
    let a ← bareAttr h r
    let acc ← nestedAt h key n [a.key] acc r
    nestedTop h key n acc rest

/-- `extract_nested_values(element)`, extension/std/XAbstractNestedAttributeSupport.py:69-107. -/
def nestedValuesAt (h : Heap F) (key : Str) (n : Nat) (x : Ref) : Except PyErr (List (List Str × PyVal F)) := do
  let d ← ownEntries h x
  nestedTop h key n [] d

/-- `extract_values(element)`, extension/std/XAbstractNestedAttributeSupport.py:31-67. -/
def valuesAt (h : Heap F) (key : Str) (n : Nat) (x : Ref) : Except PyErr (List (Str × PyVal F)) := do
  let nested ← nestedValuesAt h key n x
  .ok (nested.filterMap (fun (ks, v) => match ks with | [k] => some (k, v) | _ => none))

end

end Opy
