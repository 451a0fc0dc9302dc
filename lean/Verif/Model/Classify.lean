import Verif.Model.Log
import Verif.Py.Sort
/-
src/opyenxes/classification: attribute classifiers, AND classifier, event classes.
-/
namespace Opy

section
variable {F : Type} [PyFloat F]

/-- `str(event.get_attributes().get(key))` where present; `none` when the attribute is missing.
(Attribute objects are always true, so `if attribute:` tests presence.)
classification/XEventAttributeClassifier.py:27-28,33-34,48-49. -/
def printAttr (e : Event F) (k : Str) : Except PyErr (Option Str) :=
  match dget k e.attrs with
  | none => .ok none
  | some a => match attrStr a with
    | .ok s => .ok (some s)
    | .error x => .error x

/-- The loop over three or more (or no) keys, XEventAttributeClassifier.py:46-50. -/
def identityParts (e : Event F) : List Str → Except PyErr (List Str)
  | [] => .ok []
  | k :: ks => do
    let a ← printAttr e k
    let r ← identityParts e ks
    .ok (match a with | some s => s :: r | none => r)

/-- XEventAttributeClassifier.get_class_identity, classification/XEventAttributeClassifier.py:18-52. -/
def classIdentity (c : Classifier) (e : Event F) : Except PyErr Str :=
  match c.keys with
  | [k] => do
    match ← printAttr e k with
    | some s => .ok s
    | none => .ok []
  | [k1, k2] => do
    let a1 ← printAttr e k1
    let a2 ← printAttr e k2
    match a1, a2 with
    | some s1, some s2 => .ok (s1 ++ py!"&&" ++ s2)
    | some s1, none => .ok (s1 ++ py!"&&")
    | none, some s2 => .ok (py!"&&" ++ s2)
    | none, none => .ok py!"&&"
  | ks => do
    let ps ← identityParts e ks
    .ok (join py!"&&" ps)

/-- XEventAttributeClassifier.same_event_class, classification/XEventAttributeClassifier.py:70-83. -/
def sameEventClass (c : Classifier) (a b : Event F) : Except PyErr Bool := do
  let x ← classIdentity c a
  let y ← classIdentity c b
  .ok (x == y)

/-- The loop of compare_to over zipped keys, classification/XEventAttributeClassifier.py:110-113. -/
def compareKeys : List Str → List Str → Int
  | k1 :: r1, k2 :: r2 => if k1 = k2 then compareKeys r1 r2 else compareStr k1 k2
  | _, _ => 0

/-- XEventAttributeClassifier.compare_to, classification/XEventAttributeClassifier.py:96-113. -/
def classifierCompare (a b : Classifier) : Int :=
  if a.name ≠ b.name then compareStr a.name b.name
  else if a.keys.length ≠ b.keys.length then (a.keys.length : Int) - b.keys.length
  else compareKeys a.keys b.keys

/-- XEventAttributeClassifier.__eq__, classification/XEventAttributeClassifier.py:127-130. -/
def classifierEq (a b : Classifier) : Bool := classifierCompare a b == 0

/-- XEventAttributeClassifier.__hash__, classification/XEventAttributeClassifier.py:118-119, over the
built-in hashes of a tuple of strings and of a string. -/
def classifierHash (hashTuple : List Str → Int) (hashStr : Str → Int) (c : Classifier) : Int :=
  (31 + hashTuple c.keys) * 31 + hashStr c.name

/-- `for key in ...: if key not in keys: keys.append(key)`,
classification/XEventAndClassifier.py:23-25,31-33. -/
def addKeys (keys : List Str) : List Str → List Str
  | [] => keys
  | k :: ks => addKeys (if k ∈ keys then keys else keys ++ [k]) ks

/-- XEventAndClassifier.__init__, classification/XEventAndClassifier.py:15-37. -/
def andClassifier : List Classifier → Except PyErr Classifier
  | [] => .error .valueError
  | c :: cs => .ok
    { name := py!"(" ++ c.name ++ (cs.map (fun d => py!" AND " ++ d.name)).flatten ++ py!")"
      keys := pySorted strLt (cs.foldl (fun ks d => addKeys ks d.keys) (addKeys [] c.keys)) }

/-- classification/XEventClass.py:15-18. -/
structure EventClass where
  id : Str
  index : Int
  size : Nat
  deriving DecidableEq, Repr

/-- The class map of XEventClasses, classification/XEventClasses.py:19-21. -/
abbrev ClassMap := List (Str × EventClass)

/-- XEventClasses.register of a class identity, classification/XEventClasses.py:110-117
(XEventClass objects are always true). -/
def registerId (m : ClassMap) (s : Str) : ClassMap :=
  match dget s m with
  | none => dset s { id := s, index := m.length, size := 0 + 1 } m
  | some c => dset s { c with size := c.size + 1 } m

/-- XEventClasses.register of an event, classification/XEventClasses.py:108-109. -/
def registerEvent (c : Classifier) (m : ClassMap) (e : Event F) : Except PyErr ClassMap := do
  let s ← classIdentity c e
  .ok (registerId m s)

/-- XEventClasses.register of a trace, classification/XEventClasses.py:105-107. -/
def registerEvents (c : Classifier) (m : ClassMap) : List (Event F) → Except PyErr ClassMap
  | [] => .ok m
  | e :: es => do
    let m ← registerEvent c m e
    registerEvents c m es

/-- XEventClasses.register of a log, classification/XEventClasses.py:105-107. -/
def registerTraces (c : Classifier) (m : ClassMap) : List (Trace F) → Except PyErr ClassMap
  | [] => .ok m
  | t :: ts => do
    let m ← registerEvents c m t.events
    registerTraces c m ts

/-- The loop of harmonize_indices from index `i` on, classification/XEventClasses.py:132-137. -/
def harmonizeFrom (i : Nat) (m : ClassMap) : List EventClass → ClassMap
  | [] => m
  | c :: cs => harmonizeFrom (i + 1) (dset c.id { id := c.id, index := i, size := c.size } m) cs

/-- XEventClasses.harmonize_indices, classification/XEventClasses.py:122-137; classes are ordered by
XEventClass.compare_to (classification/XEventClass.py:62-71,79-80). -/
def harmonize (m : ClassMap) : ClassMap :=
  harmonizeFrom 0 [] (pySorted (fun a b => decide (compareStr a.id b.id < 0)) (dvals m))

/-- XEventClasses.derive_event_classes, classification/XEventClasses.py:23-37. -/
def deriveClasses (c : Classifier) (log : Log F) : Except PyErr ClassMap := do
  let m ← registerTraces c [] log.traces
  .ok (harmonize m)

/-- XEventClasses.get_class_of, classification/XEventClasses.py:56-67. -/
def classOf (c : Classifier) (m : ClassMap) (e : Event F) : Except PyErr (Option EventClass) := do
  let s ← classIdentity c e
  .ok (dget s m)

/-- XEventClasses.get_by_index, classification/XEventClasses.py:81-93. -/
def getByIndex (m : ClassMap) (i : Int) : Option EventClass :=
  (dvals m).find? (fun c => c.index == i)

end

end Opy
