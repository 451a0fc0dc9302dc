import Verif.Model.Classify
/-
classification/XEventClasses.py: an object of XEventClasses used step by step.  Unlike `registerEvents`
of Model/Classify, what was counted before an exception stays counted.
-/
namespace Opy

section
variable {F : Type} [PyFloat F]

/-- The calls on a set of event classes that change it, classification/XEventClasses.py:95-120,122-137. -/
inductive ClassOp (F : Type) where
  | log (l : Log F)
  | trace (t : Trace F)
  | event (e : Event F)
  | name (s : Str)
  | harmonize

/-- The loop of `register` over the events of a trace, with what is left when an event raises:
classification/XEventClasses.py:105-109. -/
def countEvents (c : Classifier) (m : ClassMap) : List (Event F) → ClassMap × Option PyErr
  | [] => (m, none)
  | e :: es => match classIdentity c e with
    | .ok s => countEvents c (registerId m s) es
    | .error x => (m, some x)

/-- The loop of `register` over the traces of a log: classification/XEventClasses.py:105-107. -/
def countTraces (c : Classifier) (m : ClassMap) : List (Trace F) → ClassMap × Option PyErr
  | [] => (m, none)
  | t :: ts => match countEvents c m t.events with
    | (m, none) => countTraces c m ts
    | (m, some x) => (m, some x)

/-- One call: classification/XEventClasses.py:95-120 and 122-137. -/
def ClassOp.run (c : Classifier) (m : ClassMap) : ClassOp F → ClassMap × Option PyErr
  | .log l => countTraces c m l.traces
  | .trace t => countEvents c m t.events
  | .event e => match classIdentity c e with
    | .ok s => (registerId m s, none)
    | .error x => (m, some x)
  | .name s => (registerId m s, none)
  | .harmonize => (Opy.harmonize m, none)

/-- A history of calls; the caller catches the exceptions.  A new object has no classes:
classification/XEventClasses.py:19-21. -/
def runClassOps (c : Classifier) : ClassMap → List (ClassOp F) → ClassMap
  | m, [] => m
  | m, o :: os => runClassOps c (o.run c m).1 os

/-- XEventClasses.__eq__, classification/XEventClasses.py:139-142, of two sets of event classes. -/
def eventClassesEq (a b : Classifier × ClassMap) : Bool := classifierEq a.1 b.1

/-- XEventClasses.get_by_identity, classification/XEventClasses.py:69-79. -/
def getByIdentity (m : ClassMap) (s : Str) : Option EventClass := dget s m

end

end Opy
