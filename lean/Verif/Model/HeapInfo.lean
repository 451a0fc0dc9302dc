import Verif.Model.Info
import Verif.Model.Heap
/-
Summarising a log, info/XLogInfo.py, on the objects themselves: attributes may be shared, and an attribute may lie within itself.
(Model/Info has the same on trees.)
-/
namespace Opy

section
variable {F : Type} [PyFloat F]

/-- The attribute object without what is nested in it.  (`None` has no `get_key`: AttributeError.) -/
def bareAttr (h : Heap F) (r : Ref) : Except PyErr (Attr F) :=
  match h.get r with
  | some (.attr k key e v _ _) => .ok (.mk k key e v [] [])
  | _ => .error .attributeError

/-- The entries of the attribute map of an object: `x.get_attributes().items()`. -/
def ownEntries (h : Heap F) (x : Ref) : Except PyErr (List (Str × Ref)) := do
  let m ← mapOf h x
  entries h m

/-- The loop of XAttributeCollection.__str__, model/XAttributeCollection.py:40-45, over the function for the members. -/
def membersStr (h : Heap F) (f : Ref → Except PyErr Str) (sep : Str) : List Ref → Except PyErr Str
  | [] => .ok []
  | r :: rs => do
    let a ← bareAttr h r
    let s ← f r
    let t ← membersStr h f [','] rs
    .ok (sep ++ a.key ++ [':'] ++ s ++ t)

/-- `str(attribute)` for an attribute object, as `attrStr` (Model/Attr), with at most `n` calls of `__str__` active at a time
(RecursionError when there would be more). -/
def strAt (h : Heap F) : Nat → Ref → Except PyErr Str
  | 0, _ => .error .recursionError
  | n + 1, r =>
    match h.get r with
    | some (.attr k key e v _ c) =>
      if k.isCollection then do
        let t ← membersStr h (strAt h n) ['['] c
        .ok ((if t = [] then ['['] else t) ++ [']'])
      else attrStr (.mk k key e v [] [])
    | _ => .error .attributeError

/-- `str(event.get_attributes().get(key))` where present, classification/XEventAttributeClassifier.py:27-28,33-34,48-49. -/
def printAt (h : Heap F) (n : Nat) (d : List (Str × Ref)) (k : Str) : Except PyErr (Option Str) :=
  match dget k d with
  | none => .ok none
  | some r => match strAt h n r with
    | .ok s => .ok (some s)
    | .error x => .error x

/-- The loop over three or more (or no) keys, classification/XEventAttributeClassifier.py:46-50. -/
def partsAt (h : Heap F) (n : Nat) (d : List (Str × Ref)) : List Str → Except PyErr (List Str)
  | [] => .ok []
  | k :: ks => do
    let a ← printAt h n d k
    let r ← partsAt h n d ks
    .ok (match a with | some s => s :: r | none => r)

/-- XEventAttributeClassifier.get_class_identity, classification/XEventAttributeClassifier.py:18-52, for an event with these entries. -/
def identityAt (h : Heap F) (n : Nat) (c : Classifier) (d : List (Str × Ref)) : Except PyErr Str :=
  match c.keys with
  | [k] => do
    match ← printAt h n d k with
    | some s => .ok s
    | none => .ok []
  | [k1, k2] => do
    let a1 ← printAt h n d k1
    let a2 ← printAt h n d k2
    match a1, a2 with
    | some s1, some s2 => .ok (s1 ++ py!"&&" ++ s2)
    | some s1, none => .ok (s1 ++ py!"&&")
    | none, some s2 => .ok (py!"&&" ++ s2)
    | none, none => .ok py!"&&"
  | ks => do
    let ps ← partsAt h n d ks
    .ok (join py!"&&" ps)

/-- `for classes in self.__event_classes.values(): classes.register(event)`, info/XLogInfo.py:86-87 with
classification/XEventClasses.py:108-109. -/
def classesAt (h : Heap F) (n : Nat) (d : List (Str × Ref)) : List (Classifier × ClassMap) → Except PyErr (List (Classifier × ClassMap))
  | [] => .ok []
  | (c, m) :: rest => do
    let s ← identityAt h n c d
    let rest ← classesAt h n d rest
    .ok ((c, registerId m s) :: rest)

/-- XTimeBounds.register of an event with these entries, info/XTimeBounds.py:60-63. -/
def boundsAt (h : Heap F) (b : TimeBounds) (d : List (Str × Ref)) : Except PyErr TimeBounds :=
  match dget timeKey d with
  | none => .ok b
  | some r =>
    match h.get r with
    | some (.attr k key e v _ _) =>
      match getValue (.mk k key e v [] []) with
      | .error x => .error x
      | .ok (.dt t) => b.register t
      | .ok _ => .ok b
    | _ => .error .attributeError

/-- The loop of XLogInfo.register_attributes, info/XLogInfo.py:106-109, with the meta statistics as target, over the function for the
nested call. -/
def metaLoop (h : Heap F) (f : AttrInfo → Ref → Except PyErr AttrInfo) (mi : AttrInfo) : List (Str × Ref) → Except PyErr AttrInfo
  | [] => .ok mi
  | (_, r) :: rest => do
    let a ← bareAttr h r
    let mi ← mi.register a
    let mi ← f mi r
    metaLoop h f mi rest

/-- XLogInfo.register_attributes(meta_info, x), info/XLogInfo.py:97-109, with at most `n` calls active at a time, including this one
(RecursionError when there would be more). -/
def metaAt (h : Heap F) : Nat → AttrInfo → Ref → Except PyErr AttrInfo
  | 0, _, _ => .error .recursionError
  | n + 1, mi, x => do
    let d ← ownEntries h x
    metaLoop h (metaAt h n) mi d

/-- The loop of XLogInfo.register_attributes for a log, trace or event, info/XLogInfo.py:106-109. -/
def levelLoop (h : Heap F) (n : Nat) (info mi : AttrInfo) : List (Str × Ref) → Except PyErr (AttrInfo × AttrInfo)
  | [] => .ok (info, mi)
  | (_, r) :: rest => do
    let a ← bareAttr h r
    let info ← info.register a
    let mi ← metaAt h n mi r
    levelLoop h n info mi rest

/-- XLogInfo.register_attributes for a log, trace or event, info/XLogInfo.py:97-109, with at most `n` nested calls below it.  (`None` has
no `has_attributes`: AttributeError.) -/
def levelAt (h : Heap F) (n : Nat) (info mi : AttrInfo) (x : Ref) : Except PyErr (AttrInfo × AttrInfo) := do
  let d ← ownEntries h x
  levelLoop h n info mi d

/-- The loop over the events of a trace, info/XLogInfo.py:82-89. -/
def eventsAt (h : Heap F) (n : Nat) (i : LogInfo) (tb : TimeBounds) : List Ref → Except PyErr (LogInfo × TimeBounds)
  | [] => .ok (i, tb)
  | e :: es => do
    let (ea, ma) ← levelAt h n i.eventAttrs i.metaAttrs e
    let d ← ownEntries h e
    let cls ← classesAt h n d i.classes
    let tb ← boundsAt h tb d
    eventsAt h n { i with nEvents := i.nEvents + 1, eventAttrs := ea, metaAttrs := ma, classes := cls } tb es

/-- `for event in trace`: the events of a trace.  (`None` is not iterable: TypeError.) -/
def traceEvents (h : Heap F) (t : Ref) : Except PyErr (List Ref) :=
  match h.get t with
  | some (.trace _ es) => .ok es
  | _ => .error .typeError

/-- The loop over the traces, info/XLogInfo.py:77-92. -/
def tracesAt (h : Heap F) (n : Nat) (i : LogInfo) : List Ref → Except PyErr LogInfo
  | [] => .ok i
  | t :: ts => do
    let (ta, ma) ← levelAt h n i.traceAttrs i.metaAttrs t
    let es ← traceEvents h t
    let (i, tb) ← eventsAt h n { i with nTraces := i.nTraces + 1, traceAttrs := ta, metaAttrs := ma } TimeBounds.empty es
    let lb ← i.logBounds.merge tb
    tracesAt h n { i with traceBounds := i.traceBounds ++ [tb], logBounds := lb } ts

/-- XLogInfo.create / __init__ / setup, info/XLogInfo.py:28-95, for the log object `l`, with at most `n` nested calls of
register_attributes and of `__str__`.  (The prototypes that it makes are new objects outside of the log, as in Model/Info.) -/
def infoAt (h : Heap F) (n : Nat) (l : Ref) (default : Option Classifier) (cs : List Classifier) : Except PyErr LogInfo :=
  match h.get l with
  | some (.log lo) => do
    let c := match default with | none => standardClassifier | some c => c
    let (la, ma) ← levelAt h n AttrInfo.empty AttrInfo.empty l
    let i ← tracesAt h n
      { classes := initialClasses c cs, nEvents := 0, nTraces := 0, logBounds := TimeBounds.empty, traceBounds := [],
        logAttrs := la, traceAttrs := AttrInfo.empty, eventAttrs := AttrInfo.empty, metaAttrs := ma } lo.traces
    .ok { i with classes := i.classes.map (fun p => (p.1, harmonize p.2)) }
  | _ => .error .attributeError

end

end Opy
