import Verif.Py.Num
/-
`datetime.strptime` (built-in module `_strptime` of Python 3.11): the format, its regular expression, and matching.
The comments name the uses in /repo.
-/
namespace Opy

/-- One character of a regular expression: a range of code points, or `\d`. -/
inductive Cls where
  | range (lo hi : Nat)
  | digit
  deriving DecidableEq, Repr

/-- Does the character match? -/
def Cls.test : Cls → Char → Bool
  | .range lo hi, c => lo ≤ c.toNat && c.toNat ≤ hi
  | .digit, c => (digitVal? c).isSome

/-- A piece of a format: a literal character, white space, a field with its alternatives, or a directive that is not
modelled (names of days and months, zones, weeks). -/
inductive FmtItem where
  | lit (c : Char)
  | spaces
  | field (k : Char) (alts : List (List Cls))
  | foreign
  deriving DecidableEq, Repr

/-- The alternatives of the directives d, f, H, m, M, S and Y, in the order of the regular expressions of `TimeRE`:
utils/XsDateTimeConversion.py:38,40 and example/Csv_to_xes_file.py:25. -/
def fieldAlts : Char → Option (List (List Cls))
  | 'd' => some [[.range 51 51, .range 48 49], [.range 49 50, .digit], [.range 48 48, .range 49 57], [.range 49 57],
      [.range 32 32, .range 49 57]]
  | 'f' => some [List.replicate 6 (.range 48 57), List.replicate 5 (.range 48 57), List.replicate 4 (.range 48 57),
      List.replicate 3 (.range 48 57), List.replicate 2 (.range 48 57), [.range 48 57]]
  | 'H' => some [[.range 50 50, .range 48 51], [.range 48 49, .digit], [.digit]]
  | 'm' => some [[.range 49 49, .range 48 50], [.range 48 48, .range 49 57], [.range 49 57]]
  | 'M' => some [[.range 48 53, .digit], [.digit]]
  | 'S' => some [[.range 54 54, .range 48 49], [.range 48 53, .digit], [.digit]]
  | 'Y' => some [[.digit, .digit, .digit, .digit]]
  | _ => none

/-- The other directives that `TimeRE` knows. -/
def foreignDirectives : Str := py!"IGjUwuVyzAaBbpZWcxX"

/-- `TimeRE.pattern`: the pieces of a format; `none` = ValueError (a bad directive or a stray `%`).  The flag says that
the previous character was white space: a run of white space is one `\s+`. -/
def compileFmt : Bool → Str → Option (List FmtItem)
  | _, [] => some []
  | sp, c :: r =>
    if c = '%' then
      match r with
      | [] => none
      | k :: r =>
        if k = '%' then (compileFmt false r).map (.lit '%' :: ·)
        else match fieldAlts k with
          | some alts => (compileFmt false r).map (.field k alts :: ·)
          | none => if k ∈ foreignDirectives then (compileFmt false r).map (.foreign :: ·) else none
    else if isSpace c then
      if sp then compileFmt true r else (compileFmt true r).map (.spaces :: ·)
    else (compileFmt false r).map (.lit c :: ·)

/-- The names of the fields; a name that occurs twice is an error of `re`. -/
def fieldNames : List FmtItem → List Char
  | [] => []
  | .field k _ :: is => k :: fieldNames is
  | _ :: is => fieldNames is

/-- A literal with `IGNORECASE`.  Letters of ASCII match both cases, and i, s and k also the letters ı, İ, ſ and the
Kelvin sign.  Simplified: other letters match only themselves. -/
def litEq (c x : Char) : Bool :=
  lowerChar c == lowerChar x || (lowerChar c == 'i' && (x.toNat == 0x130 || x.toNat == 0x131)) ||
    (lowerChar c == 's' && x.toNat == 0x17F) || (lowerChar c == 'k' && x.toNat == 0x212A)

/-- Match one alternative: the text matched and the rest. -/
def matchCls : List Cls → Str → Option (Str × Str)
  | [], s => some ([], s)
  | _ :: _, [] => none
  | k :: ks, c :: s => if k.test c then (matchCls ks s).map fun p => (c :: p.1, p.2) else none

/-- `re.match`: the first match of backtracking search, as the texts of the fields and the rest of the text. -/
def matchItems : List FmtItem → Str → Option (List (Char × Str) × Str)
  | [], s => some ([], s)
  | .lit c :: is, s =>
    match s with
    | [] => none
    | x :: s => if litEq c x then matchItems is s else none
  | .spaces :: is, s =>
    (List.range (s.takeWhile isSpace).length).reverse.findSome? fun n => matchItems is (s.drop (n + 1))
  | .field k alts :: is, s =>
    alts.findSome? fun a =>
      match matchCls a s with
      | none => none
      | some (m, r) => (matchItems is r).map fun p => ((k, m) :: p.1, p.2)
  | .foreign :: _, _ => none

/-- `int(found_dict[k])` for a field that occurs, else the default. -/
def groupNum (g : List (Char × Str)) (k : Char) (default : Nat) : Option Nat :=
  match g.lookup k with
  | none => some default
  | some t => (pyInt t).map Int.toNat

/-- The fraction in microseconds: the digits followed by zeros up to six. -/
def groupMicro (g : List (Char × Str)) : Option Nat :=
  match g.lookup 'f' with
  | none => some 0
  | some t => (pyInt (t ++ List.replicate (6 - t.length) '0')).map Int.toNat

end Opy
