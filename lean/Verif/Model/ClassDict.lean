import Verif.Model.Info
/-
The dict of event classes of a log summary, which is keyed by classifiers, and classifiers as objects that can change.
Sources: src/opyenxes/info/XLogInfo.py, info/XLogInfoFactory.py, model/XLog.py, classification/XEventAttributeClassifier.py.
-/
namespace Opy

section
variable {F : Type} [PyFloat F]

/-- The classifier objects of a program, by number: the name of each, the list object that holds its keys, and the content of
the list objects.  classification/XEventAttributeClassifier.py:14-16: the list that the caller gives is kept, not copied. -/
structure CState where
  name : Nat → Str
  keyList : Nat → Nat
  list : Nat → List Str

/-- What a classifier object is at the moment. -/
def CState.val (s : CState) (r : Nat) : Classifier := ⟨s.name r, s.list (s.keyList r)⟩

/-- What a program can do to the classifier objects it has: `set_name`, classification/XEventAttributeClassifier.py:62-68, and any
change in place of the list of keys, which the caller has or gets with `get_defining_attribute_keys` (85-94). -/
inductive CStep where
  | setName (r : Nat) (n : Str)
  | setList (l : Nat) (ks : List Str)

/-- The effect of a step. -/
def CState.step (s : CState) : CStep → CState
  | .setName r n => { s with name := fun x => if x = r then n else s.name x }
  | .setList l ks => { s with list := fun x => if x = l then ks else s.list x }

/-- The effect of several steps. -/
def CState.steps (s : CState) (L : List CStep) : CState := L.foldl CState.step s

/-- A dict keyed by classifiers: the entries in the order of insertion, each with the hash its key had when it was inserted, the key
(an object), and the value. -/
abbrev ClassDict (V : Type) := List (Int × Nat × V)

/-- XEventAttributeClassifier.__hash__ of an object at the moment, classification/XEventAttributeClassifier.py:118-119. -/
def CState.hash (ht : List Str → Int) (hs : Str → Int) (s : CState) (r : Nat) : Int := classifierHash ht hs (s.val r)

/-- Does the dict take an entry for the key: `stored hash == hash and (stored key is key or stored key == key)`. -/
def classMatch {V : Type} (ht : List Str → Int) (hs : Str → Int) (s : CState) (r : Nat) (e : Int × Nat × V) : Bool :=
  e.1 == s.hash ht hs r && (e.2.1 == r || classifierEq (s.val e.2.1) (s.val r))

/-- The entry that `d.get(c)` finds, info/XLogInfo.py:149,151. -/
def ClassDict.find {V : Type} (ht : List Str → Int) (hs : Str → Int) (s : CState) (r : Nat) : ClassDict V → Option (Int × Nat × V)
  | [] => none
  | e :: d => if classMatch ht hs s r e then some e else ClassDict.find ht hs s r d

/-- `d[c] = v`, info/XLogInfo.py:52-58: the key of an entry that is found is kept. -/
def ClassDict.set {V : Type} (ht : List Str → Int) (hs : Str → Int) (s : CState) (r : Nat) (v : V) : ClassDict V → ClassDict V
  | [] => [(s.hash ht hs r, r, v)]
  | e :: d => if classMatch ht hs s r e then (e.1, e.2.1, v) :: d else e :: ClassDict.set ht hs s r v d

/-- The dict before the loop over the traces, info/XLogInfo.py:51-58: `rs` are the classifiers given, the default classifier and the
three of the class XLogInfo, in this order.  The value XEventClasses is given by its classifier. -/
def classKeys (ht : List Str → Int) (hs : Str → Int) (s : CState) (rs : List Nat) : ClassDict Nat :=
  rs.foldl (fun d r => ClassDict.set ht hs s r r d) []

/-- The dict with the classes of the log, after info/XLogInfo.py:77-95: registering all events and harmonising the indices is what
`deriveClasses` does, with the classifier of the XEventClasses object. -/
def fillClasses (s : CState) (log : Log F) : ClassDict Nat → Except PyErr (ClassDict ClassMap)
  | [] => .ok []
  | (h, k, c) :: d => do
    let m ← deriveClasses (s.val c) log
    let d ← fillClasses s log d
    .ok ((h, k, m) :: d)

/-- What is needed of a summary here, info/XLogInfo.py:46-58: the default classifier and the dict. -/
structure RefSummary where
  default : Nat
  classes : ClassDict ClassMap

/-- XLogInfo.__init__, info/XLogInfo.py:46-67, as far as the classes go; `std` are NAME_CLASSIFIER, RESOURCE_CLASSIFIER and
LIFECYCLE_TRANSITION_CLASSIFIER (info/XLogInfo.py:24-26). -/
def RefSummary.make (ht : List Str → Int) (hs : Str → Int) (s : CState) (std : List Nat) (log : Log F) (d : Nat) (cs : List Nat) :
    Except PyErr RefSummary := do
  let c ← fillClasses s log (classKeys ht hs s (cs ++ [d] ++ std))
  .ok ⟨d, c⟩

/-- XLogInfo.get_event_classes, info/XLogInfo.py:135-151. -/
def RefSummary.get (ht : List Str → Int) (hs : Str → Int) (s : CState) (i : RefSummary) (c : Option Nat) : Option ClassMap :=
  match c with
  | none => (i.classes.find ht hs s i.default).map (·.2.2)
  | some r => (i.classes.find ht hs s r).map (·.2.2)

/-- XLog.get_info with the classifier `r`, when `c` and `i` were given to XLog.set_info, model/XLog.py:104-125. -/
def cachedFor (s : CState) (c : Nat) (i : RefSummary) (r : Nat) : Option RefSummary :=
  if classifierEq (s.val r) (s.val c) then some i else none

end

end Opy
