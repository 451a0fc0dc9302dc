import Verif.Model.Xes
import Verif.Model.Heap
/-
Saving a log as XES, data_out/XesXmlSerializer.py, on the objects themselves: attributes may be shared, and an attribute may lie within
itself.  (Model/Xes has the same on trees.)
-/
namespace Opy

section
variable {F : Type}

/-- A `for` loop that collects the element of every object and stops at the first exception (Python built-in). -/
def eachXml (f : Ref → Except PyErr Xml) : List Ref → Except PyErr (List Xml)
  | [] => .ok []
  | r :: rs => do
    let x ← f r
    let xs ← eachXml f rs
    .ok (x :: xs)

/-- `add_attributes(tag, attributes)`, data_out/XesXmlSerializer.py:120-164, as the elements that it adds.  The number is how many calls
of add_attributes may be active at a time, including this one: the interpreter raises RecursionError when there would be more (the
interpreter counts all calls; the other calls that are active at the same time number a constant).  An object that is no attribute is
outside of the model (any exception). -/
def addAttributes [PyFloat F] (h : Heap F) : Nat → List Ref → Except PyErr (List Xml)
  | 0, _ => .error .recursionError
  | n + 1, rs => eachXml (fun r =>
      match h.get r with
      | some (.attr k key e v m c) =>
        if k.isCollection then do
          let ks ← addAttributes h n c
          .ok (.elem k.tag [(py!"key", key)] ks)
        else do
          let s ← attrStr (.mk k key e v [] [])
          let d ← entries h m
          let ks ← if d = [] then .ok [] else addAttributes h n (d.map (·.2))
          .ok (.elem k.tag [(py!"key", key), (py!"value", s)] ks)
      | _ => .error .attributeError) rs

/-- `add_attributes(tag, x.get_attributes().values())`, data_out/XesXmlSerializer.py:73,77,81.  (`None` has no `get_attributes`:
AttributeError.) -/
def addOwn [PyFloat F] (h : Heap F) (n : Nat) (x : Ref) : Except PyErr (List Xml) := do
  let m ← mapOf h x
  let d ← entries h m
  addAttributes h n (d.map (·.2))

/-- add_global_attributes, data_out/XesXmlSerializer.py:105-118. -/
def globalElems [PyFloat F] (h : Heap F) (n : Nat) (scope : Str) (rs : List Ref) : Except PyErr (List Xml) :=
  if rs.length > 0 then do
    let ks ← addAttributes h n rs
    .ok [.elem py!"global" [(py!"scope", scope)] ks]
  else .ok []

/-- The element of an event, data_out/XesXmlSerializer.py:79-81. -/
def eventElem [PyFloat F] (h : Heap F) (n : Nat) (e : Ref) : Except PyErr Xml := do
  let ks ← addOwn h n e
  .ok (.elem py!"event" [] ks)

/-- The element of a trace, data_out/XesXmlSerializer.py:75-81.  (Something that is no trace is outside of the model, but `None` raises
AttributeError at `get_attributes`.) -/
def traceElem [PyFloat F] (h : Heap F) (n : Nat) (t : Ref) : Except PyErr Xml := do
  let ks ← addOwn h n t
  match h.get t with
  | some (.trace _ es) => do
    let xs ← eachXml (eventElem h n) es
    .ok (.elem py!"trace" [] (ks ++ xs))
  | _ => .error .typeError

/-- XesXmlSerializer.serialize up to the writing of the text, data_out/XesXmlSerializer.py:40-81, with at most `n` calls of add_attributes
active at a time. -/
def saveObjects [PyFloat F] (h : Heap F) (n : Nat) (l : Ref) : Except PyErr Xml :=
  match h.get l with
  | some (.log lo) => do
    let gt ← globalElems h n py!"trace" lo.globalTrace
    let ge ← globalElems h n py!"event" lo.globalEvent
    let as ← addOwn h n l
    let ts ← eachXml (traceElem h n) lo.traces
    .ok (.elem py!"log" versionAttrs
      (lo.extensions.map extXml ++ gt ++ ge ++ lo.classifiers.map classifierXml ++ as ++ ts))
  | _ => .error .attributeError

end

end Opy
