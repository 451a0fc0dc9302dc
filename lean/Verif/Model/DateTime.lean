import Verif.Py.Strptime
/-
`datetime.datetime` as used by OpyenXes, XAttributeTimestamp.__str__ and
src/opyenxes/utils/XsDateTimeConversion.py.
-/
namespace Opy

/-- A `datetime.datetime` value; `tz` is the UTC offset in seconds of its `timezone`, `none` for a
naive value.  (`datetime` built-in; sub-second offsets and `fold` are not modelled.) -/
structure DateTime where
  year : Nat
  month : Nat
  day : Nat
  hour : Nat
  minute : Nat
  second : Nat
  micro : Nat
  tz : Option Int
  deriving DecidableEq, Repr

/-- Leap years (`calendar`/`datetime` built-in). -/
def isLeap (y : Nat) : Bool := y % 4 == 0 && (y % 100 != 0 || y % 400 == 0)

/-- Days of a month (`datetime` built-in). -/
def daysInMonth (y m : Nat) : Nat :=
  if m = 2 then (if isLeap y then 29 else 28)
  else if m = 4 ∨ m = 6 ∨ m = 9 ∨ m = 11 then 30 else 31

/-- The range checks of the `datetime` constructor and of `timezone`. -/
def DateTime.valid (d : DateTime) : Bool :=
  1 ≤ d.year && d.year ≤ 9999 && 1 ≤ d.month && d.month ≤ 12 && 1 ≤ d.day &&
  d.day ≤ daysInMonth d.year d.month && d.hour < 24 && d.minute < 60 && d.second < 60 &&
  d.micro < 1000000 &&
  (match d.tz with | none => true | some o => -86400 < o && o < 86400)

/-- Days in the years before `y` (`datetime._days_before_year`). -/
def daysBeforeYear (y : Nat) : Nat :=
  let y := y - 1
  y * 365 + y / 4 - y / 100 + y / 400

/-- Days in the months before `m` of year `y` (`datetime._days_before_month`). -/
def daysBeforeMonth (y m : Nat) : Nat :=
  (List.range (m - 1)).foldl (fun acc i => acc + daysInMonth y (i + 1)) 0

/-- Proleptic Gregorian ordinal (`datetime.toordinal`). -/
def DateTime.ordinal (d : DateTime) : Nat :=
  daysBeforeYear d.year + daysBeforeMonth d.year d.month + d.day

/-- Microseconds since the epoch of the calendar, in UTC for aware values and in wall clock time
for naive ones; this is what `==` and `<` of `datetime` compare. -/
def DateTime.instant (d : DateTime) : Int :=
  ((((d.ordinal : Int) * 24 + d.hour) * 60 + d.minute) * 60 + d.second - d.tz.getD 0) * 1000000 + d.micro

/-- `a == b` on `datetime`: False between naive and aware. -/
def DateTime.eq (a b : DateTime) : Bool :=
  if a.tz.isSome = b.tz.isSome then a.instant == b.instant else false

/-- `a < b` on `datetime`: TypeError between naive and aware. -/
def DateTime.lt (a b : DateTime) : Except PyErr Bool :=
  if a.tz.isSome = b.tz.isSome then .ok (a.instant < b.instant) else .error .typeError

/-- `timezone.tzname()`: "UTC", "UTC+hh:mm" or "UTC+hh:mm:ss" (Python 3.7+). -/
def tzname (o : Int) : Str :=
  if o = 0 then py!"UTC"
  else
    let a := o.natAbs
    py!"UTC" ++ (if o < 0 then ['-'] else ['+']) ++ padNat 2 (a / 3600) ++ [':'] ++ padNat 2 (a / 60 % 60)
      ++ (if a % 60 = 0 then [] else ':' :: padNat 2 (a % 60))

/-- The zone text of XAttributeTimestamp.__str__, model/XAttributeTimestamp.py:79,88,98. -/
def zoneText : Option Int → Str
  | none => ['Z']
  | some o => replaceAll py!"-00:00" ['Z'] (replaceAll py!"+00:00" ['Z'] (replaceAll py!"UTC" [] (tzname o)))

/-- XAttributeTimestamp.__str__, model/XAttributeTimestamp.py:78-98. -/
def DateTime.xesStr (d : DateTime) : Str :=
  padNat 4 d.year ++ ['-'] ++ padNat 2 d.month ++ ['-'] ++ padNat 2 d.day ++ ['T'] ++
  padNat 2 d.hour ++ [':'] ++ padNat 2 d.minute ++ [':'] ++ padNat 2 d.second ++ ['.'] ++
  padNat 3 (d.micro / 1000) ++ zoneText d.tz

/-! ### strptime -/

/-- The date of the fields of a match; fields that the format lacks are those of 1900-01-01 00:00:00.  `none` = ValueError: the
date does not exist. -/
def groupsDate (g : List (Char × Str)) : Option DateTime := do
  let y ← groupNum g 'Y' 1900
  let mo ← groupNum g 'm' 1
  let d ← groupNum g 'd' 1
  let h ← groupNum g 'H' 0
  let mi ← groupNum g 'M' 0
  let s ← groupNum g 'S' 0
  let us ← groupMicro g
  let t : DateTime := ⟨y, mo, d, h, mi, s, us, none⟩
  if t.valid then some t else none

/-- `datetime.strptime(v, fmt)` (built-in): example/Csv_to_xes_file.py:25.  A field that occurs twice is an error of `re`, which is not
a ValueError.  `ext` is the function for formats with directives that are not modelled. -/
def strptimeFmt (ext : Str → Str → Except PyErr DateTime) (fmt v : Str) : Except PyErr DateTime :=
  match compileFmt false fmt with
  | none => .error .valueError
  | some items =>
    if .foreign ∈ items then ext fmt v
    else if ¬ (fieldNames items).Nodup then .error .other
    else match matchItems items v with
      | some (g, []) => match groupsDate g with
        | some t => .ok t
        | none => .error .valueError
      | _ => .error .valueError

/-- `datetime.strptime(v, "%Y-%m-%dT%H:%M:%S.%f")` if `frac`, else
`datetime.strptime(v, "%Y-%m-%dT%H:%M:%S")`; `none` = ValueError, the only exception for these formats (`strptime_error`).
utils/XsDateTimeConversion.py:37-40. -/
def strptime (frac : Bool) (v : Str) : Option DateTime :=
  (strptimeFmt (fun _ _ => .error .other) (if frac then py!"%Y-%m-%dT%H:%M:%S.%f" else py!"%Y-%m-%dT%H:%M:%S") v).toOption

/-! ### parse_date_time -/

/-- Separate the zone from the rest: utils/XsDateTimeConversion.py:13-27. -/
def splitZone (s : Str) : Str × Str :=
  if 'Z' ∈ s then (replaceAll ['Z'] [] s, ['Z'])
  else match breakAt '+' s with
    | some (v, z) => (v, z)
    | none =>
      if '-' ∈ s.reverse.take 7 then
        match breakAt '-' s.reverse with
        | some (z, m :: v) => (v.reverse, (z ++ [m]).reverse)
        | _ => (s, [])
      else (s, [])

/-- Hours and minutes of the zone text; `none` = ValueError.
utils/XsDateTimeConversion.py:29-35 and the `int()` calls of line 42. -/
def zoneOffset (z : Str) : Option (Int × Int) :=
  if z ≠ ['Z'] ∧ z ≠ [] then
    match splitChar ':' z with
    | [h, m] => do
      let mi ← pyInt m
      let hi ← pyInt h
      some (hi, if '-' ∈ h then mi * -1 else mi)
    | _ => none
  else some (0, 0)

/-- parse_date_time, utils/XsDateTimeConversion.py:4-47.  `ok none` is the caught ValueError (the
function prints and returns None); OverflowError of `timedelta` is not caught.
Not modelled: the printing; the 4300 digit limit of `int()` in recent Pythons is in Model/IntLimit. -/
def parseDateTime (s : Str) : Except PyErr (Option DateTime) :=
  let (v, z) := splitZone s
  match zoneOffset z, strptime ('.' ∈ v) v with
  | some (h, m), some t =>
    let total := (60 * h + m) * 60
    if total / 86400 < -999999999 ∨ 999999999 < total / 86400 then .error .overflowError
    else if -86400 < total ∧ total < 86400 then .ok (some { t with tz := some total })
    else .ok none
  | _, _ => .ok none

end Opy
