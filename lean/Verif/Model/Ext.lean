import Verif.Model.Attr
import Verif.Model.Xes
import Verif.Model.Files
/-
Extensions: extension/XExtension.py, extension/XExtensionManager.py, extension/std/*.py,
model/XAttributable.py (get_extensions).

The `assign_*` methods are modelled as functions on the attribute map of the element, because
they replace one entry of `element.get_attributes()` by a fresh clone of a prototype attribute.
`if attribute:` is modelled as "is present": attributes define neither `__bool__` nor `__len__`.
-/
set_option linter.unusedSectionVars false
namespace Opy

/-! ## Extension manager -/

/-- The fields of XExtensionManager, extension/XExtensionManager.py:32-34.  The map is keyed by the
URI; `XExtension.__eq__` and `__hash__` (extension/XExtension.py:107-113) use the URI only, which is
represented by its text. -/
structure Mgr where
  map : List (Str × Ext)
  list : List Ext

/-- Equality of extensions, extension/XExtension.py:107-110. -/
def extEq (a b : Ext) : Bool := a.uri == b.uri

/-- `register(extension)`: extension/XExtensionManager.py:37-45. -/
def Mgr.register (m : Mgr) (e : Ext) : Mgr :=
  { map := dset e.uri e m.map,
    list := if m.list.any (extEq e) then m.list else m.list ++ [e] }

/-- `get_by_uri(uri)`: extension/XExtensionManager.py:47-58. -/
def Mgr.getByUri (m : Mgr) (uri : Str) : Option Ext := dget uri m.map

/-- `get_by_name(name)`: extension/XExtensionManager.py:60-72. -/
def Mgr.getByName (m : Mgr) (name : Str) : Option Ext := m.list.find? (fun e => e.name == name)

/-- `get_by_prefix(prefix)`: extension/XExtensionManager.py:74-86. -/
def Mgr.getByPrefix (m : Mgr) (p : Str) : Option Ext := m.list.find? (fun e => e.pfx == p)

/-- `get_by_index(index)`: extension/XExtensionManager.py:88-99. -/
def Mgr.getByIndex (m : Mgr) (i : Int) : Option Ext :=
  if 0 ≤ i ∧ i < m.list.length then m.list[i.toNat]? else none

/-- The loop of `get_index`, extension/XExtensionManager.py:111-114. -/
def indexFrom (e : Ext) (i : Nat) : List Ext → Int
  | [] => -1
  | x :: xs => if extEq x e then i else indexFrom e (i + 1) xs

/-- `get_index(extension)`: extension/XExtensionManager.py:101-114. -/
def Mgr.getIndex (m : Mgr) (e : Ext) : Int := indexFrom e 0 m.list

/-- `__init__` without the standard extensions: extension/XExtensionManager.py:33-34. -/
def Mgr.empty : Mgr := ⟨[], []⟩

/-- extension/std/XConceptExtension.py:17 -/
def conceptExt : Ext := ⟨py!"Concept", py!"concept", py!"http://www.xes-standard.org/concept.xesext"⟩
/-- extension/std/XCostExtension.py:104 -/
def costExt : Ext := ⟨py!"Cost", py!"cost", py!"http://www.xes-standard.org/cost.xesext"⟩
/-- extension/std/XIdentityExtension.py:16 -/
def identityExt : Ext := ⟨py!"Identity", py!"identity", py!"http://www.xes-standard.org/identity.xesext"⟩
/-- extension/std/XLifecycleExtension.py:65 -/
def lifecycleExt : Ext := ⟨py!"Lifecycle", py!"lifecycle", py!"http://www.xes-standard.org/lifecycle.xesext"⟩
/-- extension/std/XMicroExtension.py:16 -/
def microExt : Ext := ⟨py!"Micro", py!"micro", py!"http://www.xes-standard.org/micro.xesext"⟩
/-- extension/std/XOrganizationalExtension.py:19 -/
def orgExt : Ext := ⟨py!"Organizational", py!"org", py!"http://www.xes-standard.org/org.xesext"⟩
/-- extension/std/XSemanticExtension.py:16 -/
def semanticExt : Ext := ⟨py!"Semantic", py!"semantic", py!"http://www.xes-standard.org/semantic.xesext"⟩
/-- extension/std/XTimeExtension.py:18 -/
def timeExt : Ext := ⟨py!"Time", py!"time", py!"http://www.xes-standard.org/time.xesext"⟩

/-- The extensions registered by `register_standard_extensions`, in this order:
extension/XExtensionManager.py:116-128. -/
def standardExts : List Ext :=
  [conceptExt, costExt, identityExt, lifecycleExt, microExt, orgExt, semanticExt, timeExt]

/-- The manager after a history of registrations. -/
def Mgr.run (exts : List Ext) : Mgr := exts.foldl Mgr.register .empty

/-- The manager as the parsers see it (Model/Xes.lean).  `urlParse` is `urlparse` followed by
`geturl`: the text that represents the parsed URI, or an exception. -/
def Mgr.view (m : Mgr) (urlParse : Str → Except PyErr Str) : ExtMgr where
  byPrefix := m.getByPrefix
  byUri u := do .ok (m.getByUri (← urlParse u))

section
variable {F : Type} [PyFloat F]

/-! ## Extracting and assigning one attribute -/

/-- `attribute = element.get_attributes().get(key); if attribute: return attribute.get_value();
return default`: the shape of all extractors of extension/std (lines are given at the uses). -/
def extractOr (key : Str) (default : PyVal F) (m : AttrMap F) : Except PyErr (PyVal F) :=
  match dget key m with
  | some a => getValue a
  | none => .ok default

/-- `attr = PROTOTYPE.clone(); attr.set_value(v)`: a clone has the class, key and extension of the
prototype and no nested attributes (model/XAttributeLiteral.py:36-44 and siblings). -/
def cloned (k : Kind) (key : Str) (e : Ext) (v : PyVal F) : Attr F := .mk k key (some e) v [] []

/-- The guard `x is not None and len(x.strip()) > 0`. -/
def given : Option Str → Bool
  | none => false
  | some s => (strip s).length > 0

/-! ### Concept -/

/-- `extract_name`: extension/std/XConceptExtension.py:36-49. -/
def extractName (m : AttrMap F) : Except PyErr (PyVal F) := extractOr py!"concept:name" .none m

/-- `assign_name`: extension/std/XConceptExtension.py:51-63. -/
def assignName (name : Option Str) (m : AttrMap F) : AttrMap F :=
  match name with
  | none => m
  | some n => if given (some n) then dset py!"concept:name" (cloned .literal py!"concept:name" conceptExt (.str n)) m else m

/-- `extract_instance`: extension/std/XConceptExtension.py:65-78. -/
def extractInstance (m : AttrMap F) : Except PyErr (PyVal F) := extractOr py!"concept:instance" .none m

/-- `assign_instance`: extension/std/XConceptExtension.py:80-92 (stores under `concept:name`). -/
def assignInstance (inst : Option Str) (m : AttrMap F) : AttrMap F :=
  match inst with
  | none => m
  | some n => if given (some n) then dset py!"concept:name" (cloned .literal py!"concept:instance" conceptExt (.str n)) m else m

/-! ### Organizational -/

/-- The three fields of extension/std/XOrganizationalExtension.py. -/
inductive OrgField where
  | resource | role | group
  deriving DecidableEq, Repr

/-- `extract_resource/role/group`: extension/std/XOrganizationalExtension.py:45-57,72-84,99-111. -/
def extractOrg : OrgField → AttrMap F → Except PyErr (PyVal F)
  | .resource, m => extractOr py!"org:resource" .none m
  | .role, m => extractOr py!"org:role" .none m
  | .group, m => extractOr py!"org:group" .none m

/-- `assign_resource/role/group`: extension/std/XOrganizationalExtension.py:59-70,86-97,113-124. -/
def assignOrg (f : OrgField) (v : Option Str) (m : AttrMap F) : AttrMap F :=
  match v with
  | none => m
  | some s =>
    if given (some s) then
      match f with
      | .resource => dset py!"org:resource" (cloned .literal py!"org:resource" orgExt (.str s)) m
      | .role => dset py!"org:role" (cloned .literal py!"org:role" orgExt (.str s)) m
      | .group => dset py!"org:group" (cloned .literal py!"org:group" orgExt (.str s)) m
    else m

/-! ### Lifecycle -/

/-- `StandardModel.values()`: extension/std/XLifecycleExtension.py:21-47. -/
def standardTransitions : List Str :=
  [py!"schedule", py!"assign", py!"withdraw", py!"reassign", py!"start", py!"suspend", py!"resume",
   py!"pi_abort", py!"ate_abort", py!"complete", py!"autoskip", py!"manualskip", py!"unknown"]

/-- `StandardModel().decode(encoding)`: extension/std/XLifecycleExtension.py:49-62. -/
def decodeTransition (s : Str) : Str :=
  match standardTransitions.find? (fun elem => pyLower (strip s) == elem) with
  | some elem => elem
  | none => py!"unknown"

/-- `extract_model`: extension/std/XLifecycleExtension.py:82-94. -/
def extractModel (m : AttrMap F) : Except PyErr (PyVal F) := extractOr py!"lifecycle:model" .none m

/-- `assign_model`: extension/std/XLifecycleExtension.py:96-107. -/
def assignModel (model : Option Str) (m : AttrMap F) : AttrMap F :=
  match model with
  | none => m
  | some s => if given (some s) then
      dset py!"lifecycle:model" (cloned .literal py!"lifecycle:model" lifecycleExt (.str (strip s))) m else m

/-- `uses_standard_model`: extension/std/XLifecycleExtension.py:109-121.  A model that is not a
string has no `strip`. -/
def usesStandardModel (m : AttrMap F) : Except PyErr Bool := do
  match ← extractModel m with
  | .none => .ok false
  | .str s => .ok (strip s == py!"standard")
  | _ => .error .attributeError

/-- `extract_transition`: extension/std/XLifecycleExtension.py:123-136. -/
def extractTransition (m : AttrMap F) : Except PyErr (PyVal F) := extractOr py!"lifecycle:transition" .none m

/-- `extract_standard_transition`: extension/std/XLifecycleExtension.py:138-150. -/
def extractStandardTransition (m : AttrMap F) : Except PyErr (Option Str) := do
  match ← extractTransition m with
  | .none => .ok none
  | .str s => .ok (some (decodeTransition s))
  | _ => .error .attributeError

/-- `assign_transition`: extension/std/XLifecycleExtension.py:152-163. -/
def assignTransition (t : Option Str) (m : AttrMap F) : AttrMap F :=
  match t with
  | none => m
  | some s => if given (some s) then
      dset py!"lifecycle:transition" (cloned .literal py!"lifecycle:transition" lifecycleExt (.str (strip s))) m else m

/-- `assign_standard_transition`: extension/std/XLifecycleExtension.py:165-173. -/
def assignStandardTransition (t : Str) (m : AttrMap F) : AttrMap F := assignTransition (some (decodeTransition t)) m

/-! ### Cost -/

/-- `extract_total`: extension/std/XCostExtension.py:127-140. -/
def extractTotal (m : AttrMap F) : Except PyErr (PyVal F) := extractOr py!"cost:total" .none m

/-- `x is not None and x > 0`. -/
def positive (v : PyVal F) : Except PyErr Bool :=
  match v with
  | .none => .ok false
  | v => pyGt v (.int 0)

/-- `assign_total`: extension/std/XCostExtension.py:142-154. -/
def assignTotal (v : PyVal F) (m : AttrMap F) : Except PyErr (AttrMap F) := do
  if ← positive v then .ok (dset py!"cost:total" (cloned .continuous py!"cost:total" costExt v) m) else .ok m

/-- `extract_currency`: extension/std/XCostExtension.py:156-169. -/
def extractCurrency (m : AttrMap F) : Except PyErr (PyVal F) := extractOr py!"cost:currency" .none m

/-- `assign_currency`: extension/std/XCostExtension.py:171-183 (stores under `concept:name`). -/
def assignCurrency (v : Option Str) (m : AttrMap F) : AttrMap F :=
  match v with
  | none => m
  | some s => if given (some s) then dset py!"concept:name" (cloned .literal py!"cost:currency" costExt (.str s)) m else m

/-- `extract_amount`: extension/std/XCostExtension.py:185-198. -/
def extractAmount (m : AttrMap F) : Except PyErr (PyVal F) := extractOr py!"cost:amount" .none m

/-- `assign_amount`: extension/std/XCostExtension.py:268-280. -/
def assignAmount (v : PyVal F) (m : AttrMap F) : Except PyErr (AttrMap F) := do
  if ← positive v then .ok (dset py!"cost:amount" (cloned .continuous py!"cost:amount" costExt v) m) else .ok m

/-- `extract_driver`: extension/std/XCostExtension.py:349-362. -/
def extractDriver (m : AttrMap F) : Except PyErr (PyVal F) := extractOr py!"cost:driver" .none m

/-- `assign_driver`: extension/std/XCostExtension.py:388-400. -/
def assignDriver (v : Option Str) (m : AttrMap F) : AttrMap F :=
  match v with
  | none => m
  | some s => if given (some s) then dset py!"cost:driver" (cloned .literal py!"cost:driver" costExt (.str s)) m else m

/-- `extract_type`: extension/std/XCostExtension.py:430-443. -/
def extractType (m : AttrMap F) : Except PyErr (PyVal F) := extractOr py!"cost:type" .none m

/-- `assign_type`: extension/std/XCostExtension.py:469-481 (stores the built-in `type`). -/
def assignType (v : Option Str) (m : AttrMap F) : AttrMap F :=
  match v with
  | none => m
  | some s => if given (some s) then dset py!"cost:type" (cloned .literal py!"cost:type" costExt .typ) m else m

/-! ### Micro -/

/-- `extract_level`: extension/std/XMicroExtension.py:31-44. -/
def extractLevel (m : AttrMap F) : Except PyErr (PyVal F) := extractOr py!"micro:level" (.int (-1)) m

/-- `assign_level`: extension/std/XMicroExtension.py:46-58. -/
def assignLevel (v : PyVal F) (m : AttrMap F) : Except PyErr (AttrMap F) := do
  if ← pyGt v (.int 0) then .ok (dset py!"micro:level" (cloned .discrete py!"micro:level" microExt v) m) else .ok m

/-- `if key in event.get_attributes(): del event.get_attributes()[key]`: `remove_level`,
`remove_parent_id`, `remove_length`, extension/std/XMicroExtension.py:60-68,102-110,143-151. -/
def removeKey (key : Str) (m : AttrMap F) : AttrMap F := if key ∈ dkeys m then ddel key m else m

/-- `extract_parent_id`: extension/std/XMicroExtension.py:70-83. -/
def extractParentId (m : AttrMap F) : Except PyErr (PyVal F) :=
  match dget py!"micro:parentId" m with
  | some a => getValue a
  | none => .error .keyError

/-- `assign_parent_id`: extension/std/XMicroExtension.py:85-100.  Attributes have no method
`setValue`. -/
def assignParentId (v : PyVal F) (m : AttrMap F) : Except PyErr (AttrMap F) :=
  match v with
  | .none => .ok (removeKey py!"micro:parentId" m)
  | _ => .error .attributeError

/-- `extract_length`: extension/std/XMicroExtension.py:112-127. -/
def extractLength (m : AttrMap F) : Except PyErr (PyVal F) := extractOr py!"micro:length" .none m

/-- `assign_length`: extension/std/XMicroExtension.py:129-141. -/
def assignLength (v : PyVal F) (m : AttrMap F) : Except PyErr (AttrMap F) := do
  if ← pyGe v (.int 0) then .ok (dset py!"micro:length" (cloned .discrete py!"micro:length" microExt v) m) else .ok m

/-! ### Identity -/

/-- `extract_id`: extension/std/XIdentityExtension.py:44-57 (`extract_name` is the same). -/
def extractId (m : AttrMap F) : Except PyErr (PyVal F) := extractOr py!"identity:id" .none m

/-- `assign_id`: extension/std/XIdentityExtension.py:59-71. -/
def assignId (v : PyVal F) (m : AttrMap F) : AttrMap F :=
  match v with
  | .none => m
  | v => dset py!"identity:id" (cloned .id py!"identity:id" identityExt v) m

/-! ### Semantic -/

/-- `extract_model_references`: extension/std/XSemanticExtension.py:32-53.  A value that is not a
string has no `lower`. -/
def extractModelReferences (m : AttrMap F) : Except PyErr (List Str) :=
  match dget py!"semantic:modelReference" m with
  | none => .ok []
  | some a => do
    match ← getValue a with
    | .str s => .ok ((splitStr py!"\\s" (pyLower s)).map pyLower)
    | _ => .error .attributeError

/-- `assign_model_references`: extension/std/XSemanticExtension.py:73-93. -/
def assignModelReferences (refs : List Str) (m : AttrMap F) : AttrMap F :=
  let aux := refs.flatMap (fun r => r ++ [' '])
  if (pyLower aux).length > 0 then
    dset py!"semantic:modelReference" (cloned .literal py!"semantic:modelReference" semanticExt (.str aux)) m
  else m

/-- `urllib.parse.urlparse` and `ParseResult.geturl`: arbitrary functions. -/
structure UriLib (U : Type) where
  urlparse : Str → Except PyErr U
  geturl : U → Str

/-- `extract_model_reference_uris`: extension/std/XSemanticExtension.py:55-71. -/
def extractModelReferenceUris {U : Type} (L : UriLib U) (m : AttrMap F) : Except PyErr (List U) := do
  (← extractModelReferences m).mapM L.urlparse

/-- `assign_model_reference_uris`: extension/std/XSemanticExtension.py:95-115. -/
def assignModelReferenceUris {U : Type} (L : UriLib U) (refs : List U) (m : AttrMap F) : AttrMap F :=
  let aux := refs.flatMap (fun r => L.geturl r ++ [' '])
  if (pyLower aux).length > 0 then
    dset py!"semantic:modelReference" (cloned .literal py!"semantic:modelReference" semanticExt (.str aux)) m
  else m

/-! ### Time -/

/-- The system's local time: `time.mktime` of calendar and clock fields (whole seconds since the
epoch) and `datetime.fromtimestamp(ms / 1000.0)` of milliseconds.  Arbitrary functions; laws are
hypotheses where needed. -/
structure LocalTime where
  mktime : DateTime → Except PyErr Int
  fromMillis : Int → Except PyErr DateTime

/-- The date argument of `assign_timestamp`. -/
inductive DateArg where
  | datetime (d : DateTime)
  | millis (ms : Int)

/-- `extract_timestamp`: extension/std/XTimeExtension.py:31-44. -/
def extractTimestamp (m : AttrMap F) : Except PyErr (PyVal F) := extractOr timeKey (.int (-1)) m

/-- `assign_timestamp`: extension/std/XTimeExtension.py:46-62; `timetuple()` has neither
microseconds nor a zone; `set_value_millis` is model/XAttributeTimestamp.py:46-47. -/
def assignTimestamp (lt : LocalTime) (d : DateArg) (m : AttrMap F) : Except PyErr (AttrMap F) := do
  let aux ← match d with
    | .datetime d => do .ok ((← lt.mktime { d with micro := 0, tz := none }) * 1000)
    | .millis ms => .ok ms
  let v ← lt.fromMillis aux
  .ok (dset timeKey (cloned .timestamp timeKey timeExt (.dt v)) m)

/-! ### Extended event -/

/-- `set_resource/role/group` of an extended event: extension/std/XExtendedEvent.py:97-104,115-122,133-140. -/
def extendedSetOrg (f : OrgField) (v : Str) (m : AttrMap F) : AttrMap F := assignOrg f (some (pyLower v)) m

/-! ### Nested attribute support -/

/-- `nested_values[keys] = value` where `keys` is a Python `list`: lists are not hashable
(extension/std/XAbstractNestedAttributeSupport.py:115,152). -/
def setListKey (_d : List (List Str × PyVal F)) (_keys : List Str) (_v : PyVal F) :
    Except PyErr (List (List Str × PyVal F)) := .error .typeError

mutual
/-- `__extract_nested_values_private__`: extension/std/XAbstractNestedAttributeSupport.py:109-120.
`ev` is `extract_value`, applied to the attribute's own attribute map. -/
def extractNestedAttr (ev : AttrMap F → Except PyErr (PyVal F)) (keys : List Str) (d : List (List Str × PyVal F)) :
    Attr F → Except PyErr (List (List Str × PyVal F))
  | .mk _ key _ _ m _ => do
    let value ← ev m
    let d ← (if pyTruthy value then setListKey d keys value else .ok d : Except PyErr (List (List Str × PyVal F)))
    extractNestedLoop ev (keys ++ [key]) d m
/-- The loop over `element.get_attributes().values()`:
extension/std/XAbstractNestedAttributeSupport.py:117-120. -/
def extractNestedLoop (ev : AttrMap F → Except PyErr (PyVal F)) (keys : List Str) (d : List (List Str × PyVal F)) :
    List (Str × Attr F) → Except PyErr (List (List Str × PyVal F))
  | [] => .ok d
  | (_, a) :: rest => do
    let d ← extractNestedAttr ev keys d a
    extractNestedLoop ev keys d rest
end

/-- The loop of `extract_nested_values`: extension/std/XAbstractNestedAttributeSupport.py:103-106. -/
def extractNestedTop (ev : AttrMap F → Except PyErr (PyVal F)) (d : List (List Str × PyVal F)) :
    List (Str × Attr F) → Except PyErr (List (List Str × PyVal F))
  | [] => .ok d
  | (_, a) :: rest => do
    let d ← extractNestedAttr ev [a.key] d a
    extractNestedTop ev d rest

/-- `extract_nested_values(element)`: extension/std/XAbstractNestedAttributeSupport.py:69-107. -/
def extractNestedValues (ev : AttrMap F → Except PyErr (PyVal F)) (m : AttrMap F) :
    Except PyErr (List (List Str × PyVal F)) := extractNestedTop ev [] m

/-- `extract_values(element)`: extension/std/XAbstractNestedAttributeSupport.py:31-67. -/
def extractValues (ev : AttrMap F → Except PyErr (PyVal F)) (m : AttrMap F) : Except PyErr (List (Str × PyVal F)) := do
  let nested ← extractNestedValues ev m
  .ok (nested.filterMap (fun (ks, v) => match ks with | [k] => some (k, v) | _ => none))

/-- The attribute that `assign_nested_values` creates on the way:
`create_attribute_literal(key, "", None)`, extension/std/XAbstractNestedAttributeSupport.py:208. -/
def emptyLiteral (key : Str) : Attr F := .mk .literal key none (.str []) [] []

/-- The attribute for the next key, which is created if it is missing:
extension/std/XAbstractNestedAttributeSupport.py:205-209. -/
def reachAttr (key : Str) (m : AttrMap F) : Attr F :=
  match dget key m with
  | some a => a
  | none => emptyLiteral key

/-- The attribute with other nested attributes (the effect of changing `get_attributes()` in place). -/
def withAttrs (sub : AttrMap F) : Attr F → Attr F
  | .mk k key e v _ c => .mk k key e v sub c

/-- `__assign_nested_values_private__` on the attribute map of an element:
extension/std/XAbstractNestedAttributeSupport.py:195-210.  `av` is `assign_value` on the map of the
attribute that is reached.  An empty path leaves a log, trace or event alone (line 200). -/
def assignNested (av : AttrMap F → Except PyErr (AttrMap F)) : List Str → AttrMap F → Except PyErr (AttrMap F)
  | [], m => .ok m
  | key :: tail, m => do
    let sub' ← (if tail = [] then av (reachAttr key m).attrs else assignNested av tail (reachAttr key m).attrs :
      Except PyErr (AttrMap F))
    .ok (dset key (withAttrs sub' (reachAttr key m)) m)

/-- `assign_nested_values(element, amounts)` for a dict with tuple keys:
extension/std/XAbstractNestedAttributeSupport.py:156-193. -/
def assignNestedValues (av : PyVal F → AttrMap F → Except PyErr (AttrMap F)) :
    List (List Str × PyVal F) → AttrMap F → Except PyErr (AttrMap F)
  | [], m => .ok m
  | (ks, v) :: rest, m => do
    let m ← assignNested (av v) ks m
    assignNestedValues av rest m

/-- The loop of `assign_values` that builds the dict with `list` keys:
extension/std/XAbstractNestedAttributeSupport.py:148-152. -/
def listKeyed (d : List (List Str × PyVal F)) : List (Str × PyVal F) → Except PyErr (List (List Str × PyVal F))
  | [] => .ok d
  | (k, v) :: rest => do
    let d ← setListKey d [k] v
    listKeyed d rest

/-- `assign_values(element, values)`: extension/std/XAbstractNestedAttributeSupport.py:122-154. -/
def assignValues (av : PyVal F → AttrMap F → Except PyErr (AttrMap F)) (values : List (Str × PyVal F))
    (m : AttrMap F) : Except PyErr (AttrMap F) := do
  let nested ← listKeyed [] values
  assignNestedValues av nested m

/-- XCostDriver.assign_value on any value: extension/std/XCostExtension.py:50-58,388-400 (only strings
have `strip`). -/
def assignDriverVal (v : PyVal F) (m : AttrMap F) : Except PyErr (AttrMap F) :=
  match v with
  | .none => .ok m
  | .str s => .ok (assignDriver (some s) m)
  | _ => .error .attributeError

/-- XCostType.assign_value on any value: extension/std/XCostExtension.py:76-84,469-481. -/
def assignTypeVal (v : PyVal F) (m : AttrMap F) : Except PyErr (AttrMap F) :=
  match v with
  | .none => .ok m
  | .str s => .ok (assignType (some s) m)
  | _ => .error .attributeError

/-- `assign_amounts(element, amounts)`: extension/std/XCostExtension.py:283-309. -/
def assignAmounts (values : List (Str × PyVal F)) (m : AttrMap F) : Except PyErr (AttrMap F) := assignValues assignAmount values m

/-- `assign_drivers(element, drivers)`: extension/std/XCostExtension.py:403-413. -/
def assignDrivers (values : List (Str × PyVal F)) (m : AttrMap F) : Except PyErr (AttrMap F) := assignValues assignDriverVal values m

/-- `assign_types(element, types)`: extension/std/XCostExtension.py:484-494.  It calls `assign_nested_values`, where the text `keys` is taken
for a list of keys: `keys[0]` and `keys[1:]` are the first character and the rest. -/
def assignTypes (values : List (Str × PyVal F)) (m : AttrMap F) : Except PyErr (AttrMap F) :=
  assignNestedValues assignTypeVal (values.map fun (k, v) => (k.map fun c => [c], v)) m

/-! ### get_extensions -/

/-- `extensions.add(extension)` where `extension` is itself a `set`: sets are not hashable
(model/XAttributable.py:29). -/
def addSet (_extensions _s : List Ext) : Except PyErr (List Ext) := .error .typeError

mutual
/-- `get_extensions()` of an attribute, model/XAttributable.py:18-30; sets are lists. -/
def attrExtensions : Attr F → Except PyErr (List Ext)
  | .mk _ _ _ _ m _ => extensionsLoop [] m
/-- The loop of `get_extensions()`, model/XAttributable.py:26-29. -/
def extensionsLoop (acc : List Ext) : List (Str × Attr F) → Except PyErr (List Ext)
  | [] => .ok acc
  | (_, a) :: rest => do
    let es ← attrExtensions a
    let acc ← (if es.length ≠ 0 then addSet acc es else .ok acc : Except PyErr (List Ext))
    extensionsLoop acc rest
end

/-- `get_extensions()` of an element with this attribute map, model/XAttributable.py:18-30 (XTrace and
XEvent inherit it, XLog overrides it). -/
def getExtensions (m : AttrMap F) : Except PyErr (List Ext) := extensionsLoop [] m

end

end Opy
