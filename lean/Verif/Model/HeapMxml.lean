import Verif.Model.Mxml
import Verif.Model.HeapInfo
/-
Saving a log as MXML, data_out/XMxmlSerializer.py, on the objects themselves: attributes may be shared, and an attribute may lie within
itself.  (Model/Mxml has the same on trees.)  As there, when several things are wrong only the fact that an exception is raised is claimed,
not which.
-/
namespace Opy

section
variable {F : Type} [PyFloat F]

/-- The value of the attribute under the key, if there is one: `x.get_attributes().get(key)`, then `get_value()`. -/
def valueUnder (h : Heap F) (d : List (Str × Ref)) (key : Str) : Except PyErr (Option (PyVal F)) :=
  match dget key d with
  | none => .ok none
  | some r => do
    let a ← bareAttr h r
    let v ← getValue a
    .ok (some v)

/-- `add_model_reference`: data_out/XMxmlSerializer.py:175-186, as the attributes it adds, for an element with these entries. -/
def refUnder (h : Heap F) (d : List (Str × Ref)) : Except PyErr (List (Str × Str)) := do
  match ← valueUnder h d py!"semantic:modelReference" with
  | none => .ok []
  | some v => do
    let s ← xmlStr v
    .ok [(py!"modelReference", s)]

/-- `add_model_reference` for an object. -/
def refAt (h : Heap F) (x : Ref) : Except PyErr (List (Str × Str)) := do
  let d ← ownEntries h x
  refUnder h d

/-- The loop of `add_attribute`: data_out/XMxmlSerializer.py:154-173, where `str(attribute)` may nest `n` calls.  With nested attributes
line 173 fails. -/
def dataKidsAt (h : Heap F) (n : Nat) : List (Str × Ref) → Except PyErr (List MNode)
  | [] => .ok []
  | (_, r) :: rest => do
    let a ← bareAttr h r
    if a.key = py!"semantic:modelReference" then do
      let ref ← refAt h r
      let t ← strAt h n r
      let d ← ownEntries h r
      if 0 < d.length then .error .attributeError
      else do
        let ks ← dataKidsAt h n rest
        .ok (.elem py!"attribute" ((py!"name", a.key) :: ref) (if t = [] then [] else [.text t]) :: ks)
    else dataKidsAt h n rest

/-- `add_attribute(tag, attributes)`: data_out/XMxmlSerializer.py:138-173. -/
def dataAt (h : Heap F) (n : Nat) (d : List (Str × Ref)) : Except PyErr MNode := do
  let ks ← dataKidsAt h n d
  .ok (.elem py!"Data" [] ks)

/-- `extract_name`: extension/std/XConceptExtension.py:36-49. -/
def nameUnder (h : Heap F) (d : List (Str × Ref)) : Except PyErr (PyVal F) := do
  match ← valueUnder h d py!"concept:name" with
  | none => .ok .none
  | some v => .ok v

/-- The name of the log or of a trace, `None` if there is none: data_out/XMxmlSerializer.py:56,70. -/
def idUnder (h : Heap F) (d : List (Str × Ref)) : Except PyErr (Option Str) := do
  match ← nameUnder h d with
  | .none => .ok none
  | .str s => .ok (some s)
  | _ => .error .typeError

/-- The `EventType` element: data_out/XMxmlSerializer.py:87-100. -/
def typeAt (h : Heap F) (d : List (Str × Ref)) : Except PyErr MNode :=
  match dget py!"lifecycle:transition" d with
  | none => .ok (.elem py!"EventType" [] [.text py!"complete"])
  | some r => do
    let ref ← refAt h r
    let a ← bareAttr h r
    match ← getValue a with
    | .str v =>
      if pyLower (strip v) ∈ mxmlKnownTypes then .ok (.elem py!"EventType" ref [.text (pyLower (strip v))])
      else .ok (.elem py!"EventType" (ref ++ [(py!"unknownType", v)]) [.text py!"unknown"])
    | _ => .error .attributeError

/-- The `originator` element: data_out/XMxmlSerializer.py:102-112. -/
def originatorAt (h : Heap F) (d : List (Str × Ref)) : Except PyErr (List MNode) :=
  match (dget py!"org:resource" d).or ((dget py!"org:role" d).or (dget py!"org:group" d)) with
  | none => .ok []
  | some r => do
    let ref ← refAt h r
    let a ← bareAttr h r
    let v ← getValue a
    let t ← xmlText v
    .ok [.elem py!"originator" ref t]

/-- The `timestamp` element: data_out/XMxmlSerializer.py:114-119. -/
def timestampAt (h : Heap F) (d : List (Str × Ref)) : Except PyErr (List MNode) :=
  match dget py!"time:timestamp" d with
  | none => .ok []
  | some r => do
    let ref ← refAt h r
    let a ← bareAttr h r
    let v ← getValue a
    .ok [.elem py!"timestamp" ref [.text (pyStr v)]]

/-- The `AuditTrailEntry` element: data_out/XMxmlSerializer.py:82-119. -/
def entryAt (h : Heap F) (n : Nat) (e : Ref) : Except PyErr MNode := do
  let d ← ownEntries h e
  let dt ← dataAt h n d
  let ref ← refUnder h d
  let nm ← nameUnder h d
  let nt ← xmlText nm
  let t ← typeAt h d
  let o ← originatorAt h d
  let ts ← timestampAt h d
  .ok (.elem py!"AuditTrailEntry" [] ([dt, .elem py!"WorkflowModelElement" ref nt, t] ++ o ++ ts))

/-- A `for` loop that collects the element of every object and stops at the first exception (Python built-in). -/
def eachNode (f : Ref → Except PyErr MNode) : List Ref → Except PyErr (List MNode)
  | [] => .ok []
  | r :: rs => do
    let x ← f r
    let xs ← eachNode f rs
    .ok (x :: xs)

/-- The `ProcessInstance` element: data_out/XMxmlSerializer.py:69-119. -/
def instanceAt (h : Heap F) (n : Nat) (t : Ref) : Except PyErr MNode := do
  let d ← ownEntries h t
  let id ← idUnder h d
  let name := id.getD py!"None"
  let ref ← refUnder h d
  let dt ← dataAt h n d
  let es ← traceEvents h t
  let xs ← eachNode (entryAt h n) es
  .ok (.elem py!"ProcessInstance" ([(py!"id", name), (py!"description", py!"instance with id " ++ name)] ++ ref) (dt :: xs))

/-- `serialize(log, out)` up to the XML layer: data_out/XMxmlSerializer.py:38-119, for the log object `l`, with at most `n` nested calls of
`__str__`. -/
def saveMxmlAt (h : Heap F) (n : Nat) (l : Ref) : Except PyErr MNode :=
  match h.get l with
  | some (.log lo) => do
    let d ← ownEntries h l
    let id ← idUnder h d
    let ident := id.getD py!"none"
    let name := id.getD py!"None"
    let ref ← refUnder h d
    let dt ← dataAt h n d
    let is ← eachNode (instanceAt h n) lo.traces
    .ok (.elem py!"WorkflowLog" [] [
      .elem py!"Source" [(py!"program", py!"XES MXML serialization"), (py!"openxes.version", py!"1.0RC7")] [],
      .elem py!"Process" ([(py!"id", ident), (py!"description", py!"process with id " ++ name)] ++ ref) (dt :: is)])
  | _ => .error .attributeError

end

end Opy
