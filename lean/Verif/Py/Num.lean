import Verif.Py.Str
/-
Python integers: `str(int)`, `int(str)`, zero padded formatting, hex.
Built-ins; the comments name the uses in /repo (relative to src/opyenxes).
-/
namespace Opy

/-- The digit character of a value below 16 (lower-case hex), as used by `str(int)` and `'%x'`. -/
def digitChar (n : Nat) : Char :=
  if n < 10 then Char.ofNat (48 + n) else Char.ofNat (87 + n)

/-- The code points of the zeros of the decimal digits beyond ASCII; the other nine digits follow each of them
(`unicodedata` 14.0 of Python 3.11; later versions add scripts). -/
def digitZeros : List Nat :=
  [1632, 1776, 1984, 2406, 2534, 2662, 2790, 2918, 3046, 3174, 3302, 3430,
   3558, 3664, 3792, 3872, 4160, 4240, 6112, 6160, 6470, 6608, 6784, 6800,
   6992, 7088, 7232, 7248, 42528, 43216, 43264, 43472, 43504, 43600, 44016, 65296,
   66720, 68912, 69734, 69872, 69942, 70096, 70384, 70736, 70864, 71248, 71360, 71472,
   71904, 72016, 72784, 73040, 73120, 92768, 92864, 93008, 120782, 120792, 120802, 120812,
   120822, 123200, 123632, 125264, 130032]

/-- Value of a decimal digit character, as `\d` and `int()` know them: the ten of ASCII and those of the other
scripts. -/
def digitVal? (c : Char) : Option Nat :=
  if 48 ≤ c.toNat ∧ c.toNat ≤ 57 then some (c.toNat - 48)
  else if c.toNat < 1632 then none
  else (digitZeros.find? fun z => decide (z ≤ c.toNat ∧ c.toNat ≤ z + 9)).map fun z => c.toNat - z

/-- Value of an ASCII digit. -/
def asciiDigit? (c : Char) : Option Nat :=
  if 48 ≤ c.toNat ∧ c.toNat ≤ 57 then some (c.toNat - 48) else none

/-- Worker of `natStr` with fuel `f` (any `f > n` suffices). -/
def natStrF (base : Nat) : Nat → Nat → Str
  | 0, _ => []
  | f + 1, n => if n < base then [digitChar n] else natStrF base f (n / base) ++ [digitChar (n % base)]

/-- `str(n)` for a non-negative `int`: model/XAttributeDiscrete.py:__str__, utils/XTimer.py:53-84. -/
def natStr (n : Nat) : Str := natStrF 10 (n + 1) n

/-- `str(z)` for an `int`: model/XAttributeDiscrete.py:__str__. -/
def intStr : Int → Str
  | .ofNat n => natStr n
  | .negSucc n => '-' :: natStr (n + 1)

/-- `"{:0w}".format(n)`: model/XAttributeTimestamp.py:84-90. -/
def padNat (w n : Nat) : Str := List.replicate (w - (natStr n).length) '0' ++ natStr n

/-- Decimal digits with single underscores in between, after the first digit
(grammar of `int(str)`), accumulating the value; the flag says that the previous
character was an underscore. -/
def digitsVal : Nat → Bool → Str → Option Nat
  | acc, us, [] => if us then none else some acc
  | acc, us, c :: rest =>
    match digitVal? c with
    | some d => digitsVal (10 * acc + d) false rest
    | none => if c = '_' ∧ us = false then digitsVal acc true rest else none

/-- A non-empty unsigned decimal literal of `int(str)`. -/
def unsignedVal : Str → Option Nat
  | [] => none
  | c :: rest => match digitVal? c with
    | some d => digitsVal d false rest
    | none => none

/-- White space that `int()` skips: all of `str.isspace` but the separators U+001C to U+001F. -/
def intSpace (c : Char) : Bool := isSpace c && !(28 ≤ c.toNat && c.toNat ≤ 31)

/-- The text that `int()` reads: without white space at both ends. -/
def intStrip (s : Str) : Str := ((s.dropWhile intSpace).reverse.dropWhile intSpace).reverse

/-- `int(s)`; `none` = ValueError.  White space is stripped, one sign allowed, underscores
between digits allowed (Python 3.6+).
data_in/XesXmlParser.py:177, utils/XsDateTimeConversion.py:32,42. -/
def pyInt (s : Str) : Option Int :=
  match intStrip s with
  | '-' :: r => (unsignedVal r).map fun n => - (n : Int)
  | '+' :: r => (unsignedVal r).map fun n => (n : Int)
  | r => (unsignedVal r).map fun n => (n : Int)

/-- Value of a hexadecimal digit of `int(s, 16)`. -/
def hexVal? (c : Char) : Option Nat :=
  match digitVal? c with
  | some d => some d
  | none =>
    let n := c.toNat
    if 97 ≤ n ∧ n ≤ 102 then some (n - 87)
    else if 65 ≤ n ∧ n ≤ 70 then some (n - 55)
    else none

/-- As `digitsVal` for base 16. -/
def hexDigitsVal : Nat → Bool → Str → Option Nat
  | acc, us, [] => if us then none else some acc
  | acc, us, c :: rest =>
    match hexVal? c with
    | some d => hexDigitsVal (16 * acc + d) false rest
    | none => if c = '_' ∧ us = false then hexDigitsVal acc true rest else none

/-- As `unsignedVal` for base 16. -/
def unsignedHex : Str → Option Nat
  | [] => none
  | c :: rest => match hexVal? c with
    | some d => hexDigitsVal d false rest
    | none => none

/-- An unsigned literal of `int(s, 16)`: `0x` may stand in front, and an underscore behind it. -/
def prefixedHex : Str → Option Nat
  | '0' :: x :: r =>
    if x = 'x' ∨ x = 'X' then
      match r with
      | '_' :: r => unsignedHex r
      | r => unsignedHex r
    else unsignedHex ('0' :: x :: r)
  | r => unsignedHex r

/-- `int(s, 16)`; `none` = ValueError.  Used by `uuid.UUID`, id/XID.py:21. -/
def pyInt16 (s : Str) : Option Int :=
  match intStrip s with
  | '-' :: r => (prefixedHex r).map fun n => - (n : Int)
  | '+' :: r => (prefixedHex r).map fun n => (n : Int)
  | r => (prefixedHex r).map fun n => (n : Int)

end Opy
