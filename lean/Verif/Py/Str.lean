/-
Python strings and the string methods used by the modelled code.

A Python `str` is a list of code points; `Str` is `List Char`.  The methods below are
CPython built-ins, not code of /repo; each comment names the places in /repo
(relative to src/opyenxes) where the built-in is used.
-/
namespace Opy

/-- A Python `str` (sequence of code points).  Built-in type, used throughout. -/
abbrev Str := List Char

open Lean in
/-- `py!"abc"` is the list of characters of the literal, written out so that the kernel can
compute with it.  Notation only; no counterpart in /repo. -/
macro:max "py!" s:str : term => do
  let cs := s.getString.toList.map (fun c => Syntax.mkCharLit c)
  `(([$(cs.toArray),*] : List Char))

/-- Exceptions that the modelled code can raise (class only, the message is dropped).
Built-in exception classes; `other` stands for `raise Exception(...)`
(data_in/XUniversalParser.py:43). -/
inductive PyErr where
  | typeError | attributeError | valueError | keyError | indexError
  | overflowError | unboundLocalError | fileExistsError | recursionError | other
  deriving DecidableEq, Repr

/-- Decidable equality of outcomes (Lean plumbing, no counterpart in /repo). -/
instance instDecidableEqExcept {ε α : Type} [DecidableEq ε] [DecidableEq α] : DecidableEq (Except ε α)
  | .ok a, .ok b => if h : a = b then isTrue (by rw [h]) else isFalse (by simpa using h)
  | .error a, .error b => if h : a = b then isTrue (by rw [h]) else isFalse (by simpa using h)
  | .ok _, .error _ => isFalse (by simp)
  | .error _, .ok _ => isFalse (by simp)

/-- White space in the sense of `str.strip()` (CPython `Py_UNICODE_ISSPACE`): used by
utils/XTokenHelper.py:5, data_in/XMxmlParser.py:229, extension/std/*.py. -/
def isSpace (c : Char) : Bool :=
  let n := c.toNat
  (9 ≤ n && n ≤ 13) || (28 ≤ n && n ≤ 32) || n == 0x85 || n == 0xA0 || n == 0x1680 ||
  (0x2000 ≤ n && n ≤ 0x200A) || n == 0x2028 || n == 0x2029 || n == 0x202F || n == 0x205F ||
  n == 0x3000

/-- `str.lstrip()`; part of `strip`. -/
def lstrip (s : Str) : Str := s.dropWhile isSpace

/-- `str.rstrip()`; part of `strip`. -/
def rstrip (s : Str) : Str := (s.reverse.dropWhile isSpace).reverse

/-- `str.strip()`: utils/XTokenHelper.py:5, data_in/XMxmlParser.py:162,229,244,253,256,264,
extension/std/XLifecycleExtension.py, XOrganizationalExtension.py. -/
def strip (s : Str) : Str := rstrip (lstrip s)

/-- `str.split(c)` for a one-character separator: utils/XTokenHelper.py:5,10,
utils/XsDateTimeConversion.py:30. -/
def splitChar (c : Char) : Str → List Str
  | [] => [[]]
  | x :: xs =>
    if x = c then [] :: splitChar c xs
    else match splitChar c xs with
      | [] => [[x]]
      | h :: t => (x :: h) :: t

/-- `sep.join(parts)`: utils/XTokenHelper.py:11,
classification/XEventAttributeClassifier.py:72, data_in/XMxmlParser.py:229. -/
def join (sep : Str) : List Str → Str
  | [] => []
  | [a] => a
  | a :: b :: rest => a ++ sep ++ join sep (b :: rest)

/-- Worker of `replaceAll`: `skip` characters of the current match are still to be skipped. -/
def replaceGo (old new : Str) : Nat → Str → Str
  | _, [] => []
  | skip + 1, _ :: xs => replaceGo old new skip xs
  | 0, x :: xs =>
    if old.isPrefixOf (x :: xs) then new ++ replaceGo old new (old.length - 1) xs
    else x :: replaceGo old new 0 xs

/-- `s.replace(old, new)` for non-empty `old`: utils/XTokenHelper.py:11,
utils/XsDateTimeConversion.py:16, model/XAttributeTimestamp.py:96-97, uuid.UUID(hex). -/
def replaceAll (old new s : Str) : Str := replaceGo old new 0 s

/-- Worker of `splitStr`, same skipping scheme as `replaceGo`. -/
def splitGo (sep : Str) : Nat → Str → List Str
  | _, [] => [[]]
  | skip + 1, _ :: xs => splitGo sep skip xs
  | 0, x :: xs =>
    if sep.isPrefixOf (x :: xs) then [] :: splitGo sep (sep.length - 1) xs
    else match splitGo sep 0 xs with
      | [] => [[x]]
      | h :: t => (x :: h) :: t

/-- `s.split(sep)` for a non-empty separator of any length:
extension/std/XSemanticExtension.py (separator backslash-s). -/
def splitStr (sep s : Str) : List Str := splitGo sep 0 s

/-- `sub in s`: data_in/XesXmlParser.py:67 and the sibling parsers. -/
def isSub (sub : Str) : Str → Bool
  | [] => sub.isPrefixOf []
  | x :: xs => sub.isPrefixOf (x :: xs) || isSub sub xs

/-- `str.lower()` of one ASCII character (others are left alone). -/
def lowerChar (c : Char) : Char :=
  if 'A'.toNat ≤ c.toNat ∧ c.toNat ≤ 'Z'.toNat then Char.ofNat (c.toNat + 32) else c

/-- `str.upper()` of one ASCII character (others are left alone). -/
def upperChar (c : Char) : Char :=
  if 'a'.toNat ≤ c.toNat ∧ c.toNat ≤ 'z'.toNat then Char.ofNat (c.toNat - 32) else c

/-- `str.lower()` restricted to ASCII letters.  Used where the result is only compared with ASCII texts without `k`, so that this is
the same as `pyLower` (theorem `lower_compare` in Lemmas/Lower): data_in/XesXmlParser.py:102,139,183,207,
extension/XExtensionParser.py:58-128. -/
def lower (s : Str) : Str := s.map lowerChar

/-- `str.upper()` restricted to ASCII letters (simplification, exact on hex digits): id/XID.py. -/
def upper (s : Str) : Str := s.map upperChar

/-- `a < b` on `str`: lexicographic by code point.  utils/CompareUtils.py:8,
`sorted` in classification/XEventClasses.py and XEventAndClassifier.py. -/
def strLt : Str → Str → Bool
  | [], [] => false
  | [], _ :: _ => true
  | _ :: _, [] => false
  | a :: as, b :: bs => if a.toNat < b.toNat then true else if b.toNat < a.toNat then false else strLt as bs

/-- `s.index(c)` split: the text before the first `c` and the text from that `c` on
(`none` if there is no `c`): utils/XsDateTimeConversion.py:19-20,23-25,
data_in/XesXmlParser.py:162. -/
def breakAt (c : Char) : Str → Option (Str × Str)
  | [] => none
  | x :: xs => if x = c then some ([], x :: xs) else
    match breakAt c xs with
    | none => none
    | some (a, b) => some (x :: a, b)

end Opy
