import Verif.Model.Classify
import Verif.Model.Alpha
/-
The example scripts: example/filter_compress_log.py, example/Csv_to_xes_file.py,
example/Anonymize_a_log.py, example/Cluster_a_log.py, example/Number_of_activity_done_by_people.py.
Reading and writing the files is modelled elsewhere (Model/Xes.lean); `print` and plots are left out.
-/
set_option linter.unusedSectionVars false
namespace Opy

section
variable {F : Type} [PyFloat F]

/-! ## filter_compress_log.py -/

/-- The loop of `same_trace` over zipped events: example/filter_compress_log.py:17-21. -/
def sameEvents (c : Classifier) : List (Event F) → List (Event F) → Except PyErr Bool
  | a :: as, b :: bs => do
    if ← sameEventClass c a b then sameEvents c as bs else .ok false
  | _, _ => .ok true

/-- `same_trace`: example/filter_compress_log.py:13-21. -/
def sameTrace (c : Classifier) (a b : Trace F) : Except PyErr Bool :=
  if a.events.length ≠ b.events.length then .ok false else sameEvents c a.events b.events

/-- The `while` loop: is a trace of the same kind in the new log?  example/filter_compress_log.py:35-44. -/
def alreadyThere (c : Classifier) (t : Trace F) : List (Trace F) → Except PyErr Bool
  | [] => .ok false
  | b :: bs => do
    if ← sameTrace c t b then .ok true else alreadyThere c t bs

/-- The loop over the log with the traces of the new log: example/filter_compress_log.py:34-47. -/
def compressLoop (c : Classifier) (new : List (Trace F)) : List (Trace F) → Except PyErr (List (Trace F))
  | [] => .ok new
  | t :: ts => do
    if ← alreadyThere c t new then compressLoop c new ts else compressLoop c (new ++ [t]) ts

/-- The traces of the compressed log, which starts empty (`new_log.clear()`):
example/filter_compress_log.py:28-47. -/
def compress (c : Classifier) (log : List (Trace F)) : Except PyErr (List (Trace F)) := compressLoop c [] log

/-! ## Csv_to_xes_file.py -/

/-- The text of a row: cells, of which the last keeps the line end (`line.split(";")`):
example/Csv_to_xes_file.py:44,52. -/
abbrev Cells := List Str

/-- One attribute of a row: example/Csv_to_xes_file.py:22-27.  `strptime cell format` is `datetime.strptime`
(`strptimeFmt`, with the arguments in this order). -/
def csvAttr (strptime : Str → Str → Except PyErr DateTime) (type cell : Str) : Except PyErr (Attr F) :=
  if type = py!"Activity" ∨ type = py!"Resource" then .ok (.mk .literal type none (.str cell) [] [])
  else if isSub py!"%Y" type then do .ok (.mk .timestamp py!"time" none (.dt (← strptime cell type)) [] [])
  else match pyInt cell with
    | some n => .ok (.mk .discrete type none (.int n) [] [])
    | none => .error .valueError

/-- The loop of `convert_line_in_event` over the cells from the third on:
example/Csv_to_xes_file.py:19-28.  `types` are the types of the remaining columns; a missing one raises
`KeyError`. -/
def csvAttrs (strptime : Str → Str → Except PyErr DateTime) (m : AttrMap F) : List Str → Cells → Except PyErr (AttrMap F)
  | _, [] => .ok m
  | [], _ :: _ => .error .keyError
  | t :: ts, c :: cs => do
    let a ← csvAttr strptime t c
    csvAttrs strptime (dset a.key a m) ts cs

/-- `convert_line_in_event`: example/Csv_to_xes_file.py:11-29 (the attribute map of the event). -/
def convertLine (strptime : Str → Str → Except PyErr DateTime) (types : List Str) (cells : Cells) : Except PyErr (AttrMap F) :=
  csvAttrs strptime [] (types.drop 2) (cells.drop 2)

end

/-- The loop over the rows: example/Csv_to_xes_file.py:51-59.  `actual` is the case of the first row, `trace`
the trace under construction, which is not added at the end. -/
def csvLoop {ε : Type} (actual : Str) (trace : List ε) : List (Str × ε) → List (List ε)
  | [] => []
  | (case, e) :: rest =>
    if case = actual then csvLoop actual (trace ++ [e]) rest
    else trace :: csvLoop actual [e] rest

/-- The traces of the log for rows with case and event: example/Csv_to_xes_file.py:44-59 (without rows the
script does not get this far). -/
def csvTraces {ε : Type} : List (Str × ε) → List (List ε)
  | [] => []
  | (case, e) :: rest => csvLoop case [e] rest

/-- `file.readline()` (built-in): the first line with its line end, and the rest of the file. -/
def readLine : Str → Str × Str
  | [] => ([], [])
  | c :: s => if c = '\n' then ([c], s) else (c :: (readLine s).1, (readLine s).2)

/-- `file.readlines()` (built-in). -/
def readLines : Str → List Str
  | [] => []
  | c :: s =>
    if c = '\n' then [c] :: readLines s
    else match readLines s with
      | [] => [[c]]
      | l :: ls => (c :: l) :: ls

/-- `s.strip("\n")` (built-in). -/
def stripLineEnds (s : Str) : Str := ((s.dropWhile (· = '\n')).reverse.dropWhile (· = '\n')).reverse

/-- The type of a column: example/Csv_to_xes_file.py:36-42. -/
def columnType (cell : Str) : Str :=
  stripLineEnds (if isSub py!"yyyy" cell then
    replaceAll py!"mm" py!"%M" (replaceAll py!"HH" py!"%H" (replaceAll py!"yyyy" py!"%Y" (replaceAll py!"MM" py!"%m" (replaceAll py!"dd" py!"%d" cell))))
  else cell)

section
variable {F : Type} [PyFloat F]

/-- The rows after the first: example/Csv_to_xes_file.py:51-53. -/
def convertRows (strptime : Str → Str → Except PyErr DateTime) (types : List Str) : List Str → Except PyErr (List (Str × AttrMap F))
  | [] => .ok []
  | l :: ls => do
    let m ← convertLine strptime types (splitChar ';' l)
    let r ← convertRows strptime types ls
    .ok (((splitChar ';' l).headD [], m) :: r)

/-- The script up to the saving: the attributes of the events of the traces of the log, for the text of the file.
example/Csv_to_xes_file.py:32-59. -/
def csvScript (strptime : Str → Str → Except PyErr DateTime) (file : Str) : Except PyErr (List (List (AttrMap F))) := do
  let (header, rest) := readLine file
  let types := (splitChar ';' header).map columnType
  let (first, rest) := readLine rest
  let m ← convertLine strptime types (splitChar ';' first)
  let rows ← convertRows strptime types (readLines rest)
  .ok (csvTraces (((splitChar ';' first).headD [], m) :: rows))

/-! ## Anonymize_a_log.py -/

/-- The keys of people: example/Anonymize_a_log.py:16. -/
def personKeys : List Str := [py!"Resource", py!"org:resource"]

/-- `if attribute.get_key() in [...]: attribute.set_value("UNKNOWN")`: example/Anonymize_a_log.py:16-17.
Lists and containers have no `set_value`. -/
def anonAttr : Attr F → Except PyErr (Attr F)
  | .mk k key e v m c =>
    if key ∈ personKeys then
      if k.isCollection then .error .attributeError else .ok (.mk k key e (.str py!"UNKNOWN") m c)
    else .ok (.mk k key e v m c)

/-- The loop over global attributes: example/Anonymize_a_log.py:15-17,20-22. -/
def anonList : List (Attr F) → Except PyErr (List (Attr F))
  | [] => .ok []
  | a :: as => do
    let a ← anonAttr a
    let as ← anonList as
    .ok (a :: as)

/-- The loop over `get_attributes().values()`: example/Anonymize_a_log.py:27-29,33-35. -/
def anonMap : AttrMap F → Except PyErr (AttrMap F)
  | [] => .ok []
  | (k, a) :: r => do
    let a ← anonAttr a
    let r ← anonMap r
    .ok ((k, a) :: r)

/-- The loop over the events of a trace: example/Anonymize_a_log.py:31-35. -/
def anonEvents : List (Event F) → Except PyErr (List (Event F))
  | [] => .ok []
  | e :: es => do
    let m ← anonMap e.attrs
    let es ← anonEvents es
    .ok ({ e with attrs := m } :: es)

/-- The loop over the traces: example/Anonymize_a_log.py:25-35. -/
def anonTraces : List (Trace F) → Except PyErr (List (Trace F))
  | [] => .ok []
  | t :: ts => do
    let m ← anonMap t.attrs
    let es ← anonEvents t.events
    let ts ← anonTraces ts
    .ok (⟨m, es⟩ :: ts)

/-- The log that is saved: example/Anonymize_a_log.py:14-39.  No attribute object is shared between two
places of the log (as after parsing). -/
def anonymize (log : Log F) : Except PyErr (Log F) := do
  let gt ← anonList log.globalTrace
  let ge ← anonList log.globalEvent
  let ts ← anonTraces log.traces
  .ok { log with globalTrace := gt, globalEvent := ge, traces := ts }

/-! ## Number_of_activity_done_by_people.py -/

/-- `people_dict[people] += 1` on a `defaultdict(lambda: 0)`: example/Number_of_activity_done_by_people.py:17. -/
def tally (d : List (Str × Nat)) (p : Str) : List (Str × Nat) :=
  match dget p d with
  | some n => dset p (n + 1) d
  | none => dset p (0 + 1) d

/-- The loop over the events: example/Number_of_activity_done_by_people.py:15-17. -/
def tallyEvents (c : Classifier) (d : List (Str × Nat)) : List (Event F) → Except PyErr (List (Str × Nat))
  | [] => .ok d
  | e :: es => do
    let p ← classIdentity c e
    tallyEvents c (tally d p) es

/-- The loop over the traces: example/Number_of_activity_done_by_people.py:14-17. -/
def tallyTraces (c : Classifier) (d : List (Str × Nat)) : List (Trace F) → Except PyErr (List (Str × Nat))
  | [] => .ok d
  | t :: ts => do
    let d ← tallyEvents c d t.events
    tallyTraces c d ts

/-- The loop over the logs: example/Number_of_activity_done_by_people.py:12-17. -/
def tallyLogs (c : Classifier) (d : List (Str × Nat)) : List (Log F) → Except PyErr (List (Str × Nat))
  | [] => .ok d
  | l :: ls => do
    let d ← tallyTraces c d l.traces
    tallyLogs c d ls

/-! ## Cluster_a_log.py -/

/-- `list(map(classifier.get_class_identity, trace))`: example/Cluster_a_log.py:17. -/
def clusterIds (c : Classifier) : List (Event F) → Except PyErr (List Str)
  | [] => .ok []
  | e :: es => do
    let s ← classIdentity c e
    let r ← clusterIds c es
    .ok (s :: r)

/-- `log_list`: example/Cluster_a_log.py:17. -/
def logIds (c : Classifier) : List (Trace F) → Except PyErr (List (List Str))
  | [] => .ok []
  | t :: ts => do
    let s ← clusterIds c t.events
    let r ← logIds c ts
    .ok (s :: r)

/-- `log_vector`: how often each event occurs in each trace, example/Cluster_a_log.py:19-31; `order`
enumerates the set of events. -/
def logVectors (order : List Str → List Str) (ids : List (List Str)) : List (List Nat) :=
  let all := order (ids.foldl setAddAll [])
  ids.map fun t => all.map fun e => t.count e

/-- The new log of a cluster before the traces are added: example/Cluster_a_log.py:52-58.  The assignments to
`new_log.__classifiers` and the global attributes are outside of a class, so the names are not mangled and
the log's own fields stay empty. -/
def clusterBase (log : Log F) : Log F :=
  { attrs := log.attrs, extensions := log.extensions, classifiers := [], globalTrace := [], globalEvent := [],
    features := [], traces := [] }

/-- `new_logs[str(cluster)].append(trace)`: example/Cluster_a_log.py:65; an unknown cluster raises. -/
def addToCluster (i : Nat) (t : Trace F) (ls : List (Log F)) : Except PyErr (List (Log F)) :=
  match ls[i]? with
  | some l => .ok (ls.set i { l with traces := l.traces ++ [t] })
  | none => .error .keyError

/-- The loop that distributes the traces: example/Cluster_a_log.py:63-65. -/
def distribute (predict : List Nat → Nat) (ls : List (Log F)) : List (List Nat × Trace F) → Except PyErr (List (Log F))
  | [] => .ok ls
  | (v, t) :: r => do
    let ls ← addToCluster (predict v) t ls
    distribute predict ls r

/-- The new logs: example/Cluster_a_log.py:16-31,49-65.  `n` is the number of clusters and `predict` the
fitted model (`kmeans`), both arbitrary. -/
def clusterLogs (order : List Str → List Str) (c : Classifier) (n : Nat) (predict : List (List Nat) → List Nat → Nat)
    (log : Log F) : Except PyErr (List (Log F)) := do
  let ids ← logIds c log.traces
  let vs := logVectors order ids
  distribute (predict vs) (List.replicate n (clusterBase log)) (vs.zip log.traces)

end

end Opy
