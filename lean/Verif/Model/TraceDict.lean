import Verif.Model.Misc
/-
The dict of time boundaries of a log summary, which is keyed by traces.
Sources: src/opyenxes/info/XLogInfo.py, model/XTrace.py.
-/
namespace Opy

section
variable {F : Type} [PyFloat F]

/-- A dict keyed by traces: the entries in the order of insertion, each with the hash its key had when it was inserted.
XTrace.__hash__ (model/XTrace.py:68-69) is `hash(super(XTrace, self))`, the hash of a proxy object made for the call and dropped
after it, which is derived from the address of the proxy.  So the hash of a trace is whatever the memory allocator makes of it, at
every call anew; every operation is given it as an argument.  Where the table of the dict puts the entries is not modelled: it does
not matter for what is found. -/
abbrev TraceDict (F : Type) := List (Int × Trace F × TimeBounds)

/-- Does the dict take an entry for the key: `stored hash == hash and (stored key is key or stored key == key)`.  A trace is
equal to itself, so `is` may be left out. -/
def dictMatch (h : Int) (t : Trace F) (e : Int × Trace F × TimeBounds) : Bool := e.1 == h && traceEq e.2.1 t

/-- `d.get(t)`, info/XLogInfo.py:201. -/
def TraceDict.get (h : Int) (t : Trace F) : TraceDict F → Option TimeBounds
  | [] => none
  | e :: d => if dictMatch h t e then some e.2.2 else TraceDict.get h t d

/-- `d[t] = b`, info/XLogInfo.py:91: the key of an entry that is found is kept. -/
def TraceDict.set (h : Int) (t : Trace F) (b : TimeBounds) : TraceDict F → TraceDict F
  | [] => [(h, t, b)]
  | e :: d => if dictMatch h t e then (e.1, e.2.1, b) :: d else e :: TraceDict.set h t b d

/-- The dict after the loop over the traces (info/XLogInfo.py:77-92), whose boundaries are `bs`; `hs` are the hashes that the
traces have at that time. -/
def traceDict (hs : List Int) (log : Log F) (bs : List TimeBounds) : TraceDict F :=
  (hs.zip (log.traces.zip bs)).foldl (fun d x => d.set x.1 x.2.1 x.2.2) []

/-- XLogInfo.get_trace_time_boundaries, info/XLogInfo.py:194-201: `h` is the hash of the trace when it is asked for. -/
def traceBoundaries (hs : List Int) (log : Log F) (i : LogInfo) (h : Int) (t : Trace F) : Option TimeBounds :=
  (traceDict hs log i.traceBounds).get h t

/-- XLogInfo.get_event_classes, info/XLogInfo.py:135-151; `d` is the default classifier, info/XLogInfo.py:48. -/
def LogInfo.eventClasses (i : LogInfo) (d : Classifier) (c : Option Classifier) : Option ClassMap :=
  match c with
  | none => dget d i.classes
  | some c => dget c i.classes

/-- XLogInfo.get_resource_classes, info/XLogInfo.py:162-168. -/
def LogInfo.resourceClasses (i : LogInfo) : Option ClassMap := dget resourceClassifier i.classes

/-- XLogInfo.get_name_classes, info/XLogInfo.py:170-176. -/
def LogInfo.nameClasses (i : LogInfo) : Option ClassMap := dget nameClassifier i.classes

/-- XLogInfo.get_transition_classes, info/XLogInfo.py:178-184. -/
def LogInfo.transitionClasses (i : LogInfo) : Option ClassMap := dget lifeTransClassifier i.classes

end

end Opy
