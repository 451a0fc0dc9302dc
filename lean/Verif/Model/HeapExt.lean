import Verif.Model.Heap
import Verif.Model.Ext
/-
The `assign_*` and `remove_*` methods of extension/std on objects with identity: which objects they
change, and what stays when they raise.  Model/Ext has the same methods as functions on attribute maps.

Simplifications: the factory of the registry is the standard one; string arguments are `str` or None
where Model/Ext says so.
-/
set_option linter.unusedSectionVars false
namespace Opy

/-- The attributes that the extensions keep for cloning (`ATTR_...`). -/
inductive ExtAttr where
  | name | inst | resource | role | group | model | transition | total | currency | amount | driver | type | level | parentId
  | length | id | reference | timestamp
  deriving DecidableEq, Repr

/-- The classes of the kept attributes: the lines at `ExtAttr.key`. -/
def ExtAttr.kind : ExtAttr → Kind
  | .total | .amount => .continuous
  | .level | .length => .discrete
  | .parentId | .id => .id
  | .timestamp => .timestamp
  | _ => .literal

/-- Their keys: extension/std/XConceptExtension.py:19-20, XOrganizationalExtension.py:22-24,
XLifecycleExtension.py:67-68, XCostExtension.py:107-111, XMicroExtension.py:19-21,
XIdentityExtension.py:18, XSemanticExtension.py:19, XTimeExtension.py:21. -/
def ExtAttr.key : ExtAttr → Str
  | .name => py!"concept:name"
  | .inst => py!"concept:instance"
  | .resource => py!"org:resource"
  | .role => py!"org:role"
  | .group => py!"org:group"
  | .model => py!"lifecycle:model"
  | .transition => py!"lifecycle:transition"
  | .total => py!"cost:total"
  | .currency => py!"cost:currency"
  | .amount => py!"cost:amount"
  | .driver => py!"cost:driver"
  | .type => py!"cost:type"
  | .level => py!"micro:level"
  | .parentId => py!"micro:parentId"
  | .length => py!"micro:length"
  | .id => py!"identity:id"
  | .reference => py!"semantic:modelReference"
  | .timestamp => py!"time:timestamp"

/-- Their extensions (`self` in the lines at `ExtAttr.key`). -/
def ExtAttr.ext : ExtAttr → Ext
  | .name | .inst => conceptExt
  | .resource | .role | .group => orgExt
  | .model | .transition => lifecycleExt
  | .total | .currency | .amount | .driver | .type => costExt
  | .level | .parentId | .length => microExt
  | .id => identityExt
  | .reference => semanticExt
  | .timestamp => timeExt

/-- Where the kept attributes are. -/
abbrev Protos := ExtAttr → Ref

/-- The outcome of a method: whether it raised, and the objects behind it. -/
abbrev HRes (F : Type) := Except PyErr Unit × Heap F

section
variable {F : Type} [PyFloat F]

/-- `attr = PROTOTYPE.clone(); attr.set_value(v); element.get_attributes()[key] = attr`.  The value may be an
exception that is raised behind the cloning (`set_value_millis`, model/XAttributeTimestamp.py:46-47, and
the missing method `setValue`, extension/std/XMicroExtension.py:96). -/
def storeClone (p : Ref) (key : Str) (v : Except PyErr (PyVal F)) (h : Heap F) (el : Ref) : HRes F :=
  match cloneAttr h p with
  | .error e => (.error e, h)
  | .ok (a, h) => match v with
    | .error e => (.error e, h)
    | .ok v => match setValue h a v with
      | .error e => (.error e, h)
      | .ok h => match mapOf h el with
        | .error e => (.error e, h)
        | .ok m => match mapSet h m key a with
          | .error e => (.error e, h)
          | .ok h => (.ok (), h)

/-- `if key in element.get_attributes(): del element.get_attributes()[key]`:
extension/std/XMicroExtension.py:67-68,99-100,109-110,150-151. -/
def dropKey (key : Str) (h : Heap F) (el : Ref) : HRes F :=
  match mapOf h el with
  | .error e => (.error e, h)
  | .ok m => match entries h m with
    | .error e => (.error e, h)
    | .ok d => if key ∈ dkeys d then
        match mapDel h m key with
        | .error e => (.error e, h)
        | .ok h => (.ok (), h)
      else (.ok (), h)

/-- The guard `x is not None and len(x.strip()) > 0`, then the three lines of `storeClone`. -/
def storeGiven (p : Ref) (key : Str) (v : Option Str) (f : Str → PyVal F) (h : Heap F) (el : Ref) : HRes F :=
  match v with
  | none => (.ok (), h)
  | some s => if given (some s) then storeClone p key (.ok (f s)) h el else (.ok (), h)

/-- A guard that may raise, then the three lines of `storeClone`. -/
def storeIf (p : Ref) (key : Str) (c : Except PyErr Bool) (v : PyVal F) (h : Heap F) (el : Ref) : HRes F :=
  match c with
  | .error e => (.error e, h)
  | .ok true => storeClone p key (.ok v) h el
  | .ok false => (.ok (), h)

/-- A call of one of the methods on an element. -/
inductive ExtCall (F : Type) where
  | name (v : Option Str)
  | inst (v : Option Str)
  | org (f : OrgField) (v : Option Str)
  | model (v : Option Str)
  | transition (v : Option Str)
  | standardTransition (v : Str)
  | total (v : PyVal F)
  | currency (v : Option Str)
  | amount (v : PyVal F)
  | driver (v : PyVal F)
  | type (v : PyVal F)
  | level (v : PyVal F)
  | removeLevel
  | parentId (v : PyVal F)
  | removeParentId
  | length (v : PyVal F)
  | removeLength
  | id (v : PyVal F)
  | references (refs : List Str)
  | timestamp (d : DateArg)

/-- The call as a function on the attribute map, see Model/Ext. -/
def ExtCall.tree (lt : LocalTime) : ExtCall F → AttrMap F → Except PyErr (AttrMap F)
  | .name v, m => .ok (assignName v m)
  | .inst v, m => .ok (assignInstance v m)
  | .org f v, m => .ok (assignOrg f v m)
  | .model v, m => .ok (assignModel v m)
  | .transition v, m => .ok (assignTransition v m)
  | .standardTransition v, m => .ok (assignStandardTransition v m)
  | .total v, m => assignTotal v m
  | .currency v, m => .ok (assignCurrency v m)
  | .amount v, m => assignAmount v m
  | .driver v, m => assignDriverVal v m
  | .type v, m => assignTypeVal v m
  | .level v, m => assignLevel v m
  | .removeLevel, m => .ok (removeKey py!"micro:level" m)
  | .parentId v, m => assignParentId v m
  | .removeParentId, m => .ok (removeKey py!"micro:parentId" m)
  | .length v, m => assignLength v m
  | .removeLength, m => .ok (removeKey py!"micro:length" m)
  | .id v, m => .ok (assignId v m)
  | .references refs, m => .ok (assignModelReferences refs m)
  | .timestamp d, m => assignTimestamp lt d m

/-- `assign_name`: extension/std/XConceptExtension.py:60-63. -/
def assignNameAt (P : Protos) (v : Option Str) (h : Heap F) (el : Ref) : HRes F := storeGiven (P .name) py!"concept:name" v .str h el

/-- `assign_instance`: extension/std/XConceptExtension.py:89-92. -/
def assignInstanceAt (P : Protos) (v : Option Str) (h : Heap F) (el : Ref) : HRes F := storeGiven (P .inst) py!"concept:name" v .str h el

/-- `assign_resource/role/group`: extension/std/XOrganizationalExtension.py:67-70,94-97,121-124. -/
def assignOrgAt (P : Protos) (f : OrgField) (v : Option Str) (h : Heap F) (el : Ref) : HRes F :=
  match f with
  | .resource => storeGiven (P .resource) py!"org:resource" v .str h el
  | .role => storeGiven (P .role) py!"org:role" v .str h el
  | .group => storeGiven (P .group) py!"org:group" v .str h el

/-- `assign_model`: extension/std/XLifecycleExtension.py:104-107. -/
def assignModelAt (P : Protos) (v : Option Str) (h : Heap F) (el : Ref) : HRes F :=
  storeGiven (P .model) py!"lifecycle:model" v (fun s => .str (strip s)) h el

/-- `assign_transition`: extension/std/XLifecycleExtension.py:160-163. -/
def assignTransitionAt (P : Protos) (v : Option Str) (h : Heap F) (el : Ref) : HRes F :=
  storeGiven (P .transition) py!"lifecycle:transition" v (fun s => .str (strip s)) h el

/-- `assign_total`: extension/std/XCostExtension.py:151-154. -/
def assignTotalAt (P : Protos) (v : PyVal F) (h : Heap F) (el : Ref) : HRes F := storeIf (P .total) py!"cost:total" (positive v) v h el

/-- `assign_currency`: extension/std/XCostExtension.py:180-183. -/
def assignCurrencyAt (P : Protos) (v : Option Str) (h : Heap F) (el : Ref) : HRes F := storeGiven (P .currency) py!"concept:name" v .str h el

/-- `assign_amount`: extension/std/XCostExtension.py:277-280. -/
def assignAmountAt (P : Protos) (v : PyVal F) (h : Heap F) (el : Ref) : HRes F := storeIf (P .amount) py!"cost:amount" (positive v) v h el

/-- `assign_driver`: extension/std/XCostExtension.py:397-400; only strings have `strip`. -/
def assignDriverAt (P : Protos) (v : PyVal F) (h : Heap F) (el : Ref) : HRes F :=
  match v with
  | .none => (.ok (), h)
  | .str s => storeGiven (P .driver) py!"cost:driver" (some s) .str h el
  | _ => (.error .attributeError, h)

/-- `assign_type`: extension/std/XCostExtension.py:478-481 (the built-in `type` is stored). -/
def assignTypeAt (P : Protos) (v : PyVal F) (h : Heap F) (el : Ref) : HRes F :=
  match v with
  | .none => (.ok (), h)
  | .str s => storeGiven (P .type) py!"cost:type" (some s) (fun _ => .typ) h el
  | _ => (.error .attributeError, h)

/-- `assign_level`: extension/std/XMicroExtension.py:55-58. -/
def assignLevelAt (P : Protos) (v : PyVal F) (h : Heap F) (el : Ref) : HRes F := storeIf (P .level) py!"micro:level" (pyGt v (.int 0)) v h el

/-- `assign_parent_id`: extension/std/XMicroExtension.py:94-100. -/
def assignParentIdAt (P : Protos) (v : PyVal F) (h : Heap F) (el : Ref) : HRes F :=
  match v with
  | .none => dropKey py!"micro:parentId" h el
  | _ => storeClone (P .parentId) py!"micro:parentId" (.error .attributeError) h el

/-- `assign_length`: extension/std/XMicroExtension.py:138-141. -/
def assignLengthAt (P : Protos) (v : PyVal F) (h : Heap F) (el : Ref) : HRes F := storeIf (P .length) py!"micro:length" (pyGe v (.int 0)) v h el

/-- `assign_id`: extension/std/XIdentityExtension.py:68-71. -/
def assignIdAt (P : Protos) (v : PyVal F) (h : Heap F) (el : Ref) : HRes F :=
  match v with
  | .none => (.ok (), h)
  | v => storeClone (P .id) py!"identity:id" (.ok v) h el

/-- `assign_model_references`: extension/std/XSemanticExtension.py:86-93. -/
def assignReferencesAt (P : Protos) (refs : List Str) (h : Heap F) (el : Ref) : HRes F :=
  let aux := refs.flatMap (fun r => r ++ [' '])
  if (pyLower aux).length > 0 then storeClone (P .reference) py!"semantic:modelReference" (.ok (.str aux)) h el else (.ok (), h)

/-- `assign_timestamp`: extension/std/XTimeExtension.py:55-62. -/
def assignTimestampAt (lt : LocalTime) (P : Protos) (d : DateArg) (h : Heap F) (el : Ref) : HRes F :=
  let aux : Except PyErr Int := match d with
    | .datetime d => do .ok ((← lt.mktime { d with micro := 0, tz := none }) * 1000)
    | .millis ms => .ok ms
  match aux with
  | .error e => (.error e, h)
  | .ok aux => storeClone (P .timestamp) timeKey (match lt.fromMillis aux with | .ok d => .ok (.dt d) | .error e => .error e) h el

/-- The call on an object. -/
def ExtCall.at (lt : LocalTime) (P : Protos) : ExtCall F → Heap F → Ref → HRes F
  | .name v => assignNameAt P v
  | .inst v => assignInstanceAt P v
  | .org f v => assignOrgAt P f v
  | .model v => assignModelAt P v
  | .transition v => assignTransitionAt P v
  | .standardTransition v => assignTransitionAt P (some (decodeTransition v))
  | .total v => assignTotalAt P v
  | .currency v => assignCurrencyAt P v
  | .amount v => assignAmountAt P v
  | .driver v => assignDriverAt P v
  | .type v => assignTypeAt P v
  | .level v => assignLevelAt P v
  | .removeLevel => dropKey py!"micro:level"
  | .parentId v => assignParentIdAt P v
  | .removeParentId => dropKey py!"micro:parentId"
  | .length v => assignLengthAt P v
  | .removeLength => dropKey py!"micro:length"
  | .id v => assignIdAt P v
  | .references refs => assignReferencesAt P refs
  | .timestamp d => assignTimestampAt lt P d

/-! ## Nested values -/

/-- `__assign_nested_values_private__`: extension/std/XAbstractNestedAttributeSupport.py:195-210; `av` is `assign_value`. -/
def assignNestedAt (av : Heap F → Ref → HRes F) : List Str → Heap F → Ref → HRes F
  | [], h, el => match h.get el with
    | some (.attr ..) => av h el
    | _ => (.ok (), h)
  | key :: tail, h, el => match mapOf h el with
    | .error e => (.error e, h)
    | .ok m => match entries h m with
      | .error e => (.error e, h)
      | .ok d => match dget key d with
        | some a => assignNestedAt av tail h a
        | none =>
          let (a, h) := newAttr h .literal key none (.str [])
          match mapSet h m key a with
          | .error e => (.error e, h)
          | .ok h => assignNestedAt av tail h a

/-- `assign_nested_values(element, amounts)` for a dict with tuple keys, up to the first exception:
extension/std/XAbstractNestedAttributeSupport.py:192-193. -/
def assignNestedValuesAt (av : PyVal F → Heap F → Ref → HRes F) : List (List Str × PyVal F) → Heap F → Ref → HRes F
  | [], h, _ => (.ok (), h)
  | (ks, v) :: rest, h, el => match assignNestedAt (av v) ks h el with
    | (.error e, h) => (.error e, h)
    | (.ok _, h) => assignNestedValuesAt av rest h el

end

end Opy
