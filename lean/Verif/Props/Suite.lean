import Verif.Props.XmlText
import Verif.Props.Ext
/-
The tests of the library itself (tests/data_in/test_XesXmlParser.py and tests/extension/test_XExtensionManager.py),
run on the model.  These are tests of the model, not properties: they show that the model answers as the code is
expected to answer by its authors.
-/
namespace Opy

/-- The value of an attribute object. -/
def suiteVal (h : Heap ToyFloat) (r : Ref) : Option (Str × PyVal ToyFloat) :=
  match h.get r with
  | some (.attr _ key _ v _ _) => some (key, v)
  | _ => none

/-- `[(k, a.get_key(), a.get_value()) for k, a in x.get_attributes().items()]`. -/
def suiteMap (h : Heap ToyFloat) (m : Ref) : List (Str × Option (Str × PyVal ToyFloat)) :=
  match h.get m with
  | some (.map d) => d.map fun p => (p.1, suiteVal h p.2)
  | _ => []

/-- The attributes of an event. -/
def suiteEvent (h : Heap ToyFloat) (e : Ref) : List (Str × Option (Str × PyVal ToyFloat)) :=
  match h.get e with
  | some (.event _ m) => suiteMap h m
  | _ => []

/-- The attributes of a trace and of its events. -/
def suiteTrace (h : Heap ToyFloat) (t : Ref) :
    List (Str × Option (Str × PyVal ToyFloat)) × List (List (Str × Option (Str × PyVal ToyFloat))) :=
  match h.get t with
  | some (.trace m es) => (suiteMap h m, es.map (suiteEvent h))
  | _ => ([], [])

/-- The log of a result of `parse`. -/
def suiteSeen : Except PyErr (Option Ref × Heap ToyFloat) → Option (Heap ToyFloat × LogObj)
  | .ok (some l, h) => match h.get l with
    | some (.log o) => some (h, o)
    | _ => none
  | _ => none

/-- `XExtensionParser().parse("http://www.xes-standard.org/meta_concept.xesext")`, tests/data_in/test_XesXmlParser.py:44. -/
def metaConcept : Ext := ⟨py!"MetaData_Concept", py!"meta_concept", py!"http://www.xes-standard.org/meta_concept.xesext"⟩

/-- An attribute without nested attributes and without extension. -/
def suiteAttr (k : Kind) (key : Str) (v : PyVal ToyFloat) : Attr ToyFloat := .mk k key none v [] []

/-- The log of tests/data_in/test_XesXmlParser.py:28-61.  An event keeps its attribute under a key that is not its own. -/
def suiteLog : Log ToyFloat :=
  ⟨[(py!"l_attr", suiteAttr .literal py!"l_attr" (.str py!"UNKNOWN"))], [metaConcept], [nameClassifier],
    [suiteAttr .discrete py!"glb_t_attr" (.int 0)], [suiteAttr .discrete py!"glb_e_attr" (.int 0)], [],
    [⟨[(py!"t_attr", suiteAttr .boolean py!"t_attr" (.bool true))],
      [⟨0, [(py!"e_attr0", suiteAttr .discrete py!"e_attr" (.int 0))]⟩, ⟨1, [(py!"e_attr0", suiteAttr .discrete py!"e_attr" (.int 0))]⟩]⟩]⟩

/-- `export_log` and `read_log`, tests/data_in/test_XesXmlParser.py:64-79, with a manager. -/
def suiteRead (m : Mgr) : Option (Heap ToyFloat × LogObj) :=
  match saveXes false suiteLog with
  | .ok text => suiteSeen (loadXes none (stdFactory ToyFloat fun _ => 0) (m.view .ok) ⟨[], 0⟩ text)
  | .error _ => none

/-- The manager of a fresh process. -/
def suiteMgr : Mgr := Mgr.run standardExts

/-- test_can_parse_log -/
example : (suiteRead suiteMgr).isSome = true := by decide +kernel

/-- test_parsed_log_has_features -/
example : (suiteRead suiteMgr).map (fun r => r.2.features) =
    some [(py!"xes.version", py!"1.0"), (py!"xes.features", py!"nested-attributes"), (py!"openxes.version", py!"1.0RC7")] := by decide +kernel

/-- test_parsed_log_has_attributes -/
example : (suiteRead suiteMgr).map (fun r => suiteMap r.1 r.2.map) = some [(py!"l_attr", some (py!"l_attr", .str py!"UNKNOWN"))] := by
  decide +kernel

/-- test_parsed_log_has_global_trace_attributes -/
example : (suiteRead suiteMgr).map (fun r => r.2.globalTrace.map (suiteVal r.1)) = some [some (py!"glb_t_attr", .int 0)] := by decide +kernel

/-- test_parsed_log_has_global_event_attributes -/
example : (suiteRead suiteMgr).map (fun r => r.2.globalEvent.map (suiteVal r.1)) = some [some (py!"glb_e_attr", .int 0)] := by decide +kernel

/-- test_parsed_log_has_extensions: the extension is found only because it has been registered. -/
example : (suiteRead (suiteMgr.register metaConcept)).map (fun r => r.2.extensions.map Ext.name) = some [py!"MetaData_Concept"] ∧
    (suiteRead suiteMgr).map (fun r => r.2.extensions) = some [] := by decide +kernel

set_option synthInstance.maxHeartbeats 400000 in
set_option synthInstance.maxSize 2048 in
/-- test_parsed_log_has_proper_trace_and_events: the events have the attribute under its own key. -/
example : (suiteRead suiteMgr).map (fun r => r.2.traces.map (suiteTrace r.1)) =
    some [([(py!"t_attr", some (py!"t_attr", .bool true))],
      [[(py!"e_attr", some (py!"e_attr", .int 0))], [(py!"e_attr", some (py!"e_attr", .int 0))]])] := by decide +kernel

/-- The classifier comes back, too (no test of the library says so). -/
example : (suiteRead suiteMgr).map (fun r => r.2.classifiers) = some [nameClassifier] := by decide +kernel

/-- test_get_by_name -/
example : [py!"Concept", py!"Cost", py!"Identity", py!"Lifecycle", py!"Micro", py!"Organizational", py!"Semantic", py!"Time"].map suiteMgr.getByName =
    [some conceptExt, some costExt, some identityExt, some lifecycleExt, some microExt, some orgExt, some semanticExt, some timeExt] := by decide +kernel

/-- test_get_by_prefix -/
example : [py!"concept", py!"cost", py!"identity", py!"lifecycle", py!"micro", py!"org", py!"semantic", py!"time"].map suiteMgr.getByPrefix =
    [some conceptExt, some costExt, some identityExt, some lifecycleExt, some microExt, some orgExt, some semanticExt, some timeExt] := by decide +kernel

/-- test_get_by_uri -/
example : [py!"concept", py!"cost", py!"identity", py!"lifecycle", py!"micro", py!"org", py!"semantic", py!"time"].map
      (fun x => suiteMgr.getByUri (py!"http://www.xes-standard.org/" ++ x ++ py!".xesext")) =
    [some conceptExt, some costExt, some identityExt, some lifecycleExt, some microExt, some orgExt, some semanticExt, some timeExt] := by decide +kernel

end Opy
