import Verif.Model.Classify
/-
src/opyenxes/info: time bounds, attribute statistics, log summaries and their cache;
src/opyenxes/utils/XAttributeUtils.py (derive_prototype, get_type).
-/
namespace Opy

/-! ## Time bounds -/

/-- info/XTimeBounds.py:11-13. -/
structure TimeBounds where
  first : Option DateTime
  last : Option DateTime
  deriving DecidableEq, Repr

/-- XTimeBounds.__init__, info/XTimeBounds.py:11-13. -/
def TimeBounds.empty : TimeBounds := ⟨none, none⟩

/-- XTimeBounds.register of a datetime, info/XTimeBounds.py:64-72. -/
def TimeBounds.register (b : TimeBounds) (d : DateTime) : Except PyErr TimeBounds :=
  match b.first with
  | none => .ok ⟨some d, some d⟩
  | some f =>
    match d.lt f with
    | .error e => .error e
    | .ok true => .ok { b with first := some d }
    | .ok false =>
      match b.last with
      | none => .error .typeError
      | some l =>
        match l.lt d with
        | .error e => .error e
        | .ok true => .ok { b with last := some d }
        | .ok false => .ok b

/-- XTimeBounds.register of None or a datetime, info/XTimeBounds.py:64 (anything else is ignored). -/
def TimeBounds.registerOpt (b : TimeBounds) : Option DateTime → Except PyErr TimeBounds
  | none => .ok b
  | some d => b.register d

/-- XTimeBounds.register of other bounds, info/XTimeBounds.py:57-59. -/
def TimeBounds.merge (b o : TimeBounds) : Except PyErr TimeBounds := do
  let b ← b.registerOpt o.first
  b.registerOpt o.last

/-- XTimeBounds.is_within, info/XTimeBounds.py:31-47 (`a < b < c` stops at the first False). -/
def TimeBounds.isWithin (b : TimeBounds) (d : DateTime) : Except PyErr Bool :=
  match b.first with
  | none => .ok false
  | some f =>
    if d.eq f then .ok true
    else
      match b.last with
      | none => do
        if ← f.lt d then .error .typeError else .ok false
      | some l =>
        if d.eq l then .ok true
        else do
          if ← f.lt d then d.lt l else .ok false

section
variable {F : Type} [PyFloat F]

/-- XTimeBounds.register of an event, info/XTimeBounds.py:60-63 with
XTimeExtension.extract_timestamp, extension/std/XTimeExtension.py:31-44 (a missing timestamp gives
-1, which is ignored like every value that is not a datetime). -/
def TimeBounds.registerEvent (b : TimeBounds) (e : Event F) : Except PyErr TimeBounds :=
  match dget timeKey e.attrs with
  | none => .ok b
  | some a =>
    match getValue a with
    | .error x => .error x
    | .ok (.dt d) => b.register d
    | .ok _ => .ok b

/-- `str(bounds)`: info/XTimeBounds.py:74-75. -/
def TimeBounds.text (b : TimeBounds) : Str :=
  let str := fun (d : Option DateTime) => match d with | none => py!"None" | some d => d.pyStr
  str b.first ++ py!" -- " ++ str b.last

/-! ## Attribute statistics -/

/-- What is kept of a prototype: class, key and extension.  Its value (a default, or a random
identifier) is not represented. -/
structure Proto where
  kind : Kind
  key : Str
  ext : Option Ext
  deriving DecidableEq

/-- XAttributeUtils.derive_prototype, utils/XAttributeUtils.py:86-116: collections have no `clone`
(AttributeError), a timestamp has no `set_value_millies` (AttributeError), XAttributeID.clone needs
an XID (model/XAttributeID.py:41). -/
def deriveProto (a : Attr F) : Except PyErr Proto :=
  match a.kind with
  | .list | .container => .error .attributeError
  | .timestamp => .error .attributeError
  | .id => match a.val with
    | .xid _ => .ok ⟨a.kind, a.key, a.ext⟩
    | _ => .error .attributeError
  | _ => .ok ⟨a.kind, a.key, a.ext⟩

/-- info/XAttributeInfo.py:11-17. -/
structure AttrInfo where
  keyMap : List (Str × Proto)
  typeMap : List (Kind × List Proto)
  extMap : List (Ext × List Proto)
  noExt : List Proto
  freq : List (Str × Nat)
  total : Nat

/-- XAttributeInfo.__init__, info/XAttributeInfo.py:11-17. -/
def AttrInfo.empty : AttrInfo := ⟨[], [], [], [], [], 0⟩

/-- XAttributeInfo.register, info/XAttributeInfo.py:144-161. -/
def AttrInfo.register (i : AttrInfo) (a : Attr F) : Except PyErr AttrInfo :=
  match dget a.key i.keyMap with
  | none => do
    let p ← deriveProto a
    let typeSet := match dget p.kind i.typeMap with | none => [] | some s => s
    .ok { i with
      keyMap := dset a.key p i.keyMap
      freq := dset a.key 1 i.freq
      typeMap := dset p.kind typeSet i.typeMap
      total := i.total + 1 }
  | some _ =>
    match dget a.key i.freq with
    | none => .error .keyError
    | some n => .ok { i with freq := dset a.key (n + 1) i.freq, total := i.total + 1 }

/-- XAttributeInfo.get_attributes, info/XAttributeInfo.py:19-25. -/
def AttrInfo.attributes (i : AttrInfo) : List Proto := dvals i.keyMap

/-- XAttributeInfo.get_attribute_keys, info/XAttributeInfo.py:27-33. -/
def AttrInfo.attributeKeys (i : AttrInfo) : List Str := dkeys i.keyMap

/-- A history of `register` calls where the caller catches the exceptions: nothing has been stored when `derive_prototype`
raises, info/XAttributeInfo.py:150-152. -/
def AttrInfo.tryAll (i : AttrInfo) (as : List (Attr F)) : AttrInfo :=
  as.foldl (fun i a => match i.register a with | .ok j => j | .error _ => i) i

/-- XAttributeInfo.get_frequency, info/XAttributeInfo.py:35-47. -/
def AttrInfo.frequency (i : AttrInfo) (k : Str) : Option Nat := dget k i.freq

/-- XAttributeInfo.get_relative_frequency, info/XAttributeInfo.py:49-61, as numerator and
denominator (the division itself is not modelled; `None / n` is a TypeError). -/
def AttrInfo.relative (i : AttrInfo) (k : Str) : Except PyErr (Nat × Nat) :=
  match dget k i.freq with
  | none => .error .typeError
  | some n => .ok (n, i.total)

/-- XAttributeInfo.get_attributes_for_type, info/XAttributeInfo.py:63-76. -/
def AttrInfo.forType (i : AttrInfo) (k : Kind) : List Proto :=
  match dget k i.typeMap with | none => [] | some s => s

/-- XAttributeInfo.get_keys_for_type, info/XAttributeInfo.py:78-93 (the set as an enumeration). -/
def AttrInfo.keysForType (i : AttrInfo) (k : Kind) : List Str := (i.forType k).map Proto.key

/-- XAttributeInfo.get_attributes_without_extension, info/XAttributeInfo.py:128-134. -/
def AttrInfo.withoutExtension (i : AttrInfo) : List Proto := i.noExt

/-- XAttributeInfo.get_attributes_for_extension, info/XAttributeInfo.py:95-110. -/
def AttrInfo.forExtension (i : AttrInfo) : Option Ext → List Proto
  | none => i.withoutExtension
  | some e => match i.extMap.find? (fun p => p.1.uri == e.uri) with | none => [] | some p => p.2

/-- Registering a sequence of attributes. -/
def AttrInfo.registerAll (i : AttrInfo) : List (Attr F) → Except PyErr AttrInfo
  | [] => .ok i
  | a :: as => do
    let i ← i.register a
    i.registerAll as

/-! ## Log summary -/

mutual
/-- XLogInfo.register_attributes(meta_info, attribute), info/XLogInfo.py:97-109, for one attribute:
all attributes nested in it are registered in the meta statistics. -/
def registerNested (mi : AttrInfo) : Attr F → Except PyErr AttrInfo
  | .mk _ _ _ _ attrs _ => registerMap mi attrs
/-- The loop of XLogInfo.register_attributes with the meta statistics as target,
info/XLogInfo.py:106-109. -/
def registerMap (mi : AttrInfo) : List (Str × Attr F) → Except PyErr AttrInfo
  | [] => .ok mi
  | (_, .mk kind key ext val attrs coll) :: rest => do
    let mi ← mi.register (.mk kind key ext val attrs coll)
    let mi ← registerNested mi (.mk kind key ext val attrs coll)
    registerMap mi rest
end

/-- XLogInfo.register_attributes for a log, trace or event, info/XLogInfo.py:97-109: the statistics
of that level and the meta statistics. -/
def registerLevel (info mi : AttrInfo) : AttrMap F → Except PyErr (AttrInfo × AttrInfo)
  | [] => .ok (info, mi)
  | (_, a) :: rest => do
    let info ← info.register a
    let mi ← registerNested mi a
    registerLevel info mi rest

/-- info/XLogInfo.py:46-67.  The trace boundaries are kept as a list in trace order; the dict of
the code is keyed by traces, whose hash is not stable (model/XTrace.py:68-69); it is modelled in
Model/TraceDict. -/
structure LogInfo where
  classes : List (Classifier × ClassMap)
  nEvents : Nat
  nTraces : Nat
  logBounds : TimeBounds
  traceBounds : List TimeBounds
  logAttrs : AttrInfo
  traceAttrs : AttrInfo
  eventAttrs : AttrInfo
  metaAttrs : AttrInfo

/-- XLogInfo.STANDARD_CLASSIFIER, info/XLogInfo.py:23. -/
def standardClassifier : Classifier := ⟨py!"MXML Legacy Classifier", [py!"concept:name", py!"lifecycle:transition"]⟩
/-- classification/XEventNameClassifier.py:8-9. -/
def nameClassifier : Classifier := ⟨py!"Event Name", [py!"concept:name"]⟩
/-- classification/XEventResourceClassifier.py:9-10. -/
def resourceClassifier : Classifier := ⟨py!"Resource", [py!"org:resource"]⟩
/-- classification/XEventLifeTransClassifier.py:10-11. -/
def lifeTransClassifier : Classifier := ⟨py!"Lifecycle transition", [py!"lifecycle:transition"]⟩

/-- The initial (empty) class maps, info/XLogInfo.py:51-58.  Classifiers are dict keys by name and
keys (their `__eq__`/`__hash__`). -/
def initialClasses (default : Classifier) (cs : List Classifier) : List (Classifier × ClassMap) :=
  (cs ++ [default, nameClassifier, resourceClassifier, lifeTransClassifier]).foldl (fun d c => dset c [] d) []

/-- `for classes in self.__event_classes.values(): classes.register(event)`, info/XLogInfo.py:86-87. -/
def registerInClasses (e : Event F) : List (Classifier × ClassMap) → Except PyErr (List (Classifier × ClassMap))
  | [] => .ok []
  | (c, m) :: rest => do
    let m ← registerEvent c m e
    let rest ← registerInClasses e rest
    .ok ((c, m) :: rest)

/-- The loop over the events of a trace, info/XLogInfo.py:82-89. -/
def setupEvents (i : LogInfo) (tb : TimeBounds) : List (Event F) → Except PyErr (LogInfo × TimeBounds)
  | [] => .ok (i, tb)
  | e :: es => do
    let (ea, ma) ← registerLevel i.eventAttrs i.metaAttrs e.attrs
    let cls ← registerInClasses e i.classes
    let tb ← tb.registerEvent e
    setupEvents { i with nEvents := i.nEvents + 1, eventAttrs := ea, metaAttrs := ma, classes := cls } tb es

/-- The loop over the traces, info/XLogInfo.py:77-92. -/
def setupTraces (i : LogInfo) : List (Trace F) → Except PyErr LogInfo
  | [] => .ok i
  | t :: ts => do
    let (ta, ma) ← registerLevel i.traceAttrs i.metaAttrs t.attrs
    let (i, tb) ← setupEvents { i with nTraces := i.nTraces + 1, traceAttrs := ta, metaAttrs := ma } TimeBounds.empty t.events
    let lb ← i.logBounds.merge tb
    setupTraces { i with traceBounds := i.traceBounds ++ [tb], logBounds := lb } ts

/-- XLogInfo.create / __init__ / setup, info/XLogInfo.py:28-95. -/
def createInfo (log : Log F) (default : Option Classifier) (cs : List Classifier) : Except PyErr LogInfo := do
  let d := match default with | none => standardClassifier | some c => c
  let (la, ma) ← registerLevel AttrInfo.empty AttrInfo.empty log.attrs
  let i ← setupTraces
    { classes := initialClasses d cs, nEvents := 0, nTraces := 0, logBounds := TimeBounds.empty, traceBounds := [],
      logAttrs := la, traceAttrs := AttrInfo.empty, eventAttrs := AttrInfo.empty, metaAttrs := ma } log.traces
  .ok { i with classes := i.classes.map (fun p => (p.1, harmonize p.2)) }

end

/-! ## The cache of a log -/

/-- The cached classifier and summary of a log, model/XLog.py:18-19. -/
structure InfoCache (I : Type) where
  classifier : Option Classifier
  info : Option I

/-- The cache of a new log, model/XLog.py:18-19. -/
def InfoCache.empty {I : Type} : InfoCache I := ⟨none, none⟩

/-- XLog.set_info, model/XLog.py:104-113. -/
def InfoCache.set {I : Type} (_ : InfoCache I) (c : Classifier) (i : I) : InfoCache I := ⟨some c, some i⟩

/-- XLog.get_info, model/XLog.py:115-125. -/
def InfoCache.get {I : Type} (k : InfoCache I) (c : Classifier) : Option I :=
  match k.classifier with
  | none => none
  | some c' => if classifierEq c c' then k.info else none

/-- XLogInfoFactory.create_log_info, info/XLogInfoFactory.py:8-26, over the function `create` that
builds a summary of the current log content. -/
def createLogInfo {L I : Type} (create : L → Classifier → Except PyErr I) (log : L) (k : InfoCache I)
    (c : Option Classifier) : Except PyErr (I × InfoCache I) :=
  let c := match c with | none => standardClassifier | some c => c
  match k.get c with
  | some i => .ok (i, k)
  | none =>
    match create log c with
    | .error e => .error e
    | .ok i => .ok (i, k.set c i)

end Opy
