import Verif.Model.Ext
import Verif.Model.Misc
/-
The getters and setters of an extended event: extension/std/XExtendedEvent.py:34-247.
-/
set_option linter.unusedSectionVars false
namespace Opy

section
variable {F : Type} [PyFloat F] {U : Type}

/-- A call of a setter with its argument; `None` is `none`.  Arguments of other types are not modelled. -/
inductive EvSet (U : Type) where
  | name (s : Option Str)
  | inst (s : Option Str)
  | timestamp (d : DateArg)
  | resource (s : Option Str)
  | role (s : Option Str)
  | group (s : Option Str)
  | transition (s : Option Str)
  | standardTransition (s : Option Str)
  | modelReferences (l : List Str)
  | modelReferenceUris (l : List U)

/-- A call of a getter. -/
inductive EvGet where
  | name | inst | timestamp | resource | role | group | transition | standardTransition | modelReferences | modelReferenceUris
  deriving DecidableEq

/-- What a getter returns. -/
inductive EvRes (F U : Type) where
  | value (v : PyVal F)
  | standard (s : Option Str)
  | references (l : List Str)
  | uris (l : List U)

/-- `x.lower()`: None has no such method. -/
def lowerOf : Option Str → Except PyErr Str
  | none => .error .attributeError
  | some s => .ok (pyLower s)

/-- The effect of a setter on the attributes of the wrapped event: extension/std/XExtendedEvent.py:43-50 (name), 61-68 (instance), 79-86 (timestamp),
97-104 (resource), 115-122 (role), 133-140 (group), 151-158 (transition), 170-177 (standard transition), 188-195 (references), 206-214 (URIs).
`decode(None)` fails: extension/std/XLifecycleExtension.py:58. -/
def EvSet.apply (lt : LocalTime) (L : UriLib U) : EvSet U → AttrMap F → Except PyErr (AttrMap F)
  | .name s, m => .ok (assignName s m)
  | .inst s, m => .ok (assignInstance s m)
  | .timestamp d, m => assignTimestamp lt d m
  | .resource s, m => do .ok (assignOrg .resource (some (← lowerOf s)) m)
  | .role s, m => do .ok (assignOrg .role (some (← lowerOf s)) m)
  | .group s, m => do .ok (assignOrg .group (some (← lowerOf s)) m)
  | .transition s, m => .ok (assignTransition s m)
  | .standardTransition none, _ => .error .attributeError
  | .standardTransition (some s), m => .ok (assignStandardTransition s m)
  | .modelReferences l, m => .ok (assignModelReferences l m)
  | .modelReferenceUris l, m => .ok (assignModelReferenceUris L l m)

/-- What a getter returns for the attributes of the wrapped event: extension/std/XExtendedEvent.py:34-41 (name), 52-59 (instance), 70-77 (timestamp),
88-95 (resource), 106-113 (role), 124-131 (group), 142-149 (transition), 160-168 (standard transition), 179-186 (references), 197-204 (URIs). -/
def EvGet.run (L : UriLib U) : EvGet → AttrMap F → Except PyErr (EvRes F U)
  | .name, m => (extractName m).map .value
  | .inst, m => (extractInstance m).map .value
  | .timestamp, m => (extractTimestamp m).map .value
  | .resource, m => (extractOrg .resource m).map .value
  | .role, m => (extractOrg .role m).map .value
  | .group, m => (extractOrg .group m).map .value
  | .transition, m => (extractTransition m).map .value
  | .standardTransition, m => (extractStandardTransition m).map .standard
  | .modelReferences, m => (extractModelReferences m).map .references
  | .modelReferenceUris, m => (extractModelReferenceUris L m).map .uris

/-- A setter called on an extended event.  The wrapped event keeps its identity, and so does the extended one; a setter that raises
has not changed anything yet. -/
def ExtEvent.set (lt : LocalTime) (L : UriLib U) (s : EvSet U) (x : ExtEvent F) : ExtEvent F :=
  match s.apply lt L x.original.attrs with
  | .ok m => { x with original := { x.original with attrs := m } }
  | .error _ => x

/-- A getter called on an extended event. -/
def ExtEvent.get (L : UriLib U) (g : EvGet) (x : ExtEvent F) : Except PyErr (EvRes F U) := g.run L x.original.attrs

/-- Several setters called one after the other, exceptions being caught. -/
def ExtEvent.setAll (lt : LocalTime) (L : UriLib U) (ss : List (EvSet U)) (x : ExtEvent F) : ExtEvent F :=
  ss.foldl (fun x s => x.set lt L s) x

/-- get_attributes: extension/std/XExtendedEvent.py:216-222. -/
def ExtEvent.attributes (x : ExtEvent F) : AttrMap F := x.original.attrs

/-- set_attributes: extension/std/XExtendedEvent.py:233-239. -/
def ExtEvent.setAttributes (m : AttrMap F) (x : ExtEvent F) : ExtEvent F := { x with original := { x.original with attrs := m } }

/-- has_attributes: extension/std/XExtendedEvent.py:241-247, model/XAttributable.py:48-54, model/XAttributeMap.py:25-31. -/
def ExtEvent.hasAttributes (x : ExtEvent F) : Bool := !(x.original.attrs.length == 0)

end

end Opy
