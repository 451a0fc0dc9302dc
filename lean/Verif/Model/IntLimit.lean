import Verif.Model.XmlText
/-
The limit on the length of integers that `int(str)` and `str(int)` convert (Python 3.11 and later, and the later releases of 3.7 to
3.10): `sys.get_int_max_str_digits()`, 4300 unless it is changed; 0 means no limit.  The functions of Model/Xes and Model/DateTime that
convert integers, once more with this limit.
-/
namespace Opy

/-- Are `n` digits too many?  The limit is a setting of the interpreter (built-in). -/
def overLimit (lim n : Nat) : Bool := lim ≠ 0 && decide (lim < n)

/-- How many digits `int()` counts: all digits of the text, also zeros in front, but neither sign, white space, nor underscores (built-in;
texts that are no numbers raise ValueError anyway). -/
def intDigits (s : Str) : Nat := s.countP fun c => (digitVal? c).isSome

/-- `int(s)`; `none` = ValueError: data_in/XesXmlParser.py:177, utils/XsDateTimeConversion.py:32,42. -/
def pyIntLim (lim : Nat) (s : Str) : Option Int := if overLimit lim (intDigits s) then none else pyInt s

/-- `str(z)`; ValueError if there are too many digits, not counting the sign: model/XAttributeDiscrete.py:60-61. -/
def intStrLim (lim : Nat) (z : Int) : Except PyErr Str :=
  if overLimit lim (natStr z.natAbs).length then .error .valueError else .ok (intStr z)

/-- As `zoneOffset`, utils/XsDateTimeConversion.py:29-35,42. -/
def zoneOffsetLim (lim : Nat) (z : Str) : Option (Int × Int) :=
  if z ≠ ['Z'] ∧ z ≠ [] then
    match splitChar ':' z with
    | [h, m] => do
      let mi ← pyIntLim lim m
      let hi ← pyIntLim lim h
      some (hi, if '-' ∈ h then mi * -1 else mi)
    | _ => none
  else some (0, 0)

/-- As `parseDateTime`, utils/XsDateTimeConversion.py:4-47.  (`strptime` converts at most six digits at a time.) -/
def parseDateTimeLim (lim : Nat) (s : Str) : Except PyErr (Option DateTime) :=
  let (v, z) := splitZone s
  match zoneOffsetLim lim z, strptime ('.' ∈ v) v with
  | some (h, m), some t =>
    let total := (60 * h + m) * 60
    if total / 86400 < -999999999 ∨ 999999999 < total / 86400 then .error .overflowError
    else if -86400 < total ∧ total < 86400 then .ok (some { t with tz := some total })
    else .ok none
  | _, _ => .ok none

section
variable {F : Type} [PyFloat F]

/-- As `readVal`, data_in/XesXmlParser.py:167-192.  (`float(s)` has no limit, nor has `int(s, 16)`, with which identifiers are read.) -/
def readValLim (lim : Nat) (tag value : Str) : Except PyErr (Option (Kind × PyVal F)) :=
  if tag = py!"date" then
    match parseDateTimeLim lim value with
    | .error e => .error e
    | .ok none => .ok none
    | .ok (some d) => .ok (some (.timestamp, .dt d))
  else if tag = py!"int" then
    match pyIntLim lim value with
    | some z => .ok (some (.discrete, .int z))
    | none => .error .valueError
  else readVal tag value

/-- As `xesStart`, data_in/XesXmlParser.py:93-197; the elements other than attributes (lines 104-150) convert nothing. -/
def xesStartLim (lim : Nat) (fac : Factory F) (mgr : ExtMgr) (st : XesSt F) (element : Str) (as : List (Str × Str)) :
    Except PyErr (XesSt F) :=
  let tag := lower element
  if tag ∉ attrTags then xesStart fac mgr st element as
  else do
    let name := match dget py!"key" as with
      | some n => n
      | none => py!"UNKNOWN"
    let value := match dget py!"value" as with
      | some v => v
      | none => []
    match ← readValLim lim tag value with
    | none => .ok st
    | some (k, v) =>
      let (a, h) := fac.newAttr st.heap k name (extOfKey mgr name) v
      .ok { st with
        heap := h
        attrs := a :: st.attrs
        objs := a :: st.objs }

/-- As `xesRun`: data_in/XesXmlParser.py:93-236. -/
def xesRunLim (lim : Nat) (fac : Factory F) (mgr : ExtMgr) (st : XesSt F) : List Sax → Except PyErr (XesSt F)
  | [] => .ok st
  | .start t as :: es => do xesRunLim lim fac mgr (← xesStartLim lim fac mgr st t as) es
  | .stop t :: es => do xesRunLim lim fac mgr (← xesStop st t) es

/-- As `xesParse`, data_in/XesXmlParser.py:20-24,36-50. -/
def xesParseLim (lim : Nat) (given : Option (Factory F)) (reg : Factory F) (mgr : ExtMgr) (h : Heap F) (file : List Sax) :
    Except PyErr (Option Ref × Heap F) :=
  let _factory := match given with
    | some f => f
    | none => reg
  do
    let st ← xesRunLim lim reg mgr (.init h) file
    .ok (st.log, st.heap)

/-- As `loadXes`, data_in/XesXmlParser.py:36-50. -/
def loadXesLim (lim : Nat) (given : Option (Factory F)) (reg : Factory F) (mgr : ExtMgr) (h : Heap F) (text : Str) :
    Except PyErr (Option Ref × Heap F) := do
  let es ← readXml text
  xesParseLim lim given reg mgr h (xesEvents es)

/-- `str(attribute)` of attributes that are no collections, as `attrStr`: model/XAttributeDiscrete.py:60-61, XAttributeLiteral.py:60-61 etc. -/
def simpleStrLim (lim : Nat) (kind : Kind) (val : PyVal F) : Except PyErr Str :=
  match kind, val with
  | .timestamp, .dt d => .ok d.xesStr
  | .timestamp, _ => .error .attributeError
  | .boolean, .int z => do .ok (pyLower (← intStrLim lim z))
  | .boolean, v => .ok (pyLower (pyStr v))
  | _, .int z => intStrLim lim z
  | _, v => .ok (pyStr v)

mutual
/-- As `attrXml`, data_out/XesXmlSerializer.py:126-164. -/
def attrXmlLim (lim : Nat) : Attr F → Except PyErr Xml
  | .mk kind key _ val m c =>
    if kind.isCollection then do
      let ks ← attrsXmlLim lim c
      .ok (.elem kind.tag [(py!"key", key)] ks)
    else do
      let s ← simpleStrLim lim kind val
      let ks ← mapXmlLim lim m
      .ok (.elem kind.tag [(py!"key", key), (py!"value", s)] ks)
/-- add_attributes over a list. -/
def attrsXmlLim (lim : Nat) : List (Attr F) → Except PyErr (List Xml)
  | [] => .ok []
  | a :: as => do
    let x ← attrXmlLim lim a
    let xs ← attrsXmlLim lim as
    .ok (x :: xs)
/-- add_attributes over `get_attributes().values()`. -/
def mapXmlLim (lim : Nat) : List (Str × Attr F) → Except PyErr (List Xml)
  | [] => .ok []
  | (_, a) :: as => do
    let x ← attrXmlLim lim a
    let xs ← mapXmlLim lim as
    .ok (x :: xs)
end

/-- As `globalXml`, data_out/XesXmlSerializer.py:105-118. -/
def globalXmlLim (lim : Nat) (scope : Str) (as : List (Attr F)) : Except PyErr (List Xml) :=
  if as.length > 0 then do
    let ks ← attrsXmlLim lim as
    .ok [.elem py!"global" [(py!"scope", scope)] ks]
  else .ok []

/-- As `eventsXml`, data_out/XesXmlSerializer.py:79-81. -/
def eventsXmlLim (lim : Nat) : List (Event F) → Except PyErr (List Xml)
  | [] => .ok []
  | e :: es => do
    let ks ← mapXmlLim lim e.attrs
    let xs ← eventsXmlLim lim es
    .ok (.elem py!"event" [] ks :: xs)

/-- As `tracesXml`, data_out/XesXmlSerializer.py:75-81. -/
def tracesXmlLim (lim : Nat) : List (Trace F) → Except PyErr (List Xml)
  | [] => .ok []
  | t :: ts => do
    let ks ← mapXmlLim lim t.attrs
    let es ← eventsXmlLim lim t.events
    let xs ← tracesXmlLim lim ts
    .ok (.elem py!"trace" [] (ks ++ es) :: xs)

/-- As `serializeXes`, data_out/XesXmlSerializer.py:40-81. -/
def serializeXesLim (lim : Nat) (log : Log F) : Except PyErr Xml := do
  let gt ← globalXmlLim lim py!"trace" log.globalTrace
  let ge ← globalXmlLim lim py!"event" log.globalEvent
  let as ← mapXmlLim lim log.attrs
  let ts ← tracesXmlLim lim log.traces
  .ok (.elem py!"log" versionAttrs
    (log.extensions.map extXml ++ gt ++ ge ++ log.classifiers.map classifierXml ++ as ++ ts))

/-- As `saveXes`, data_out/XesXmlSerializer.py:40-100. -/
def saveXesLim (lim : Nat) (modern : Bool) (log : Log F) : Except PyErr Str := do
  let x ← serializeXesLim lim log
  saveTree modern xesComments x.node

end

end Opy
