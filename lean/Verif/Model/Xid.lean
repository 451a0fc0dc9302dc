import Verif.Py.Num
/-
`uuid.UUID` as used by src/opyenxes/id/XID.py, and XID itself.
-/
namespace Opy

/-- A `uuid.UUID` / `XID` (id/XID.py:4-27): a 128-bit number. -/
abbrev Uuid := Fin (2 ^ 128)

/-- Hex digits of `n`, exactly `w` of them (`'%0wx' % n` for `n < 16^w`), as in `str(uuid)`. -/
def hexPad : Nat → Nat → Str
  | 0, _ => []
  | w + 1, n => hexPad w (n / 16) ++ [digitChar (n % 16)]

/-- `str(uuid.UUID)`: 8-4-4-4-12 lower-case hex digits (built-in). -/
def uuidStr (u : Uuid) : Str :=
  let h := hexPad 32 u.val
  h.take 8 ++ ['-'] ++ (h.drop 8).take 4 ++ ['-'] ++ (h.drop 12).take 4 ++ ['-'] ++
    (h.drop 16).take 4 ++ ['-'] ++ h.drop 20

/-- `s.strip('{}')` (used by `uuid.UUID`). -/
def stripBraces (s : Str) : Str :=
  ((s.dropWhile fun c => c = '{' || c = '}').reverse.dropWhile fun c => c = '{' || c = '}').reverse

/-- `uuid.UUID(text)`, `none` = ValueError; with `XID.parse`, id/XID.py:12-21. -/
def xidParse (s : Str) : Option Uuid :=
  let h := replaceAll py!"uuid:" [] (replaceAll py!"urn:" [] s)
  let h := replaceAll ['-'] [] (stripBraces h)
  if h.length = 32 then
    match pyInt16 h with
    | some z => if hn : 0 ≤ z ∧ z.toNat < 2 ^ 128 then some ⟨z.toNat, hn.2⟩ else none
    | none => none
  else none

/-- XID.__str__, id/XID.py:66-67. -/
def xidStr (u : Uuid) : Str := upper (uuidStr u)

/-- XID.compare_to, id/XID.py:53-64 (UUIDs compare by their integer value). -/
def xidCompare (a b : Uuid) : Int :=
  if a = b then 0 else if b < a then 1 else -1

end Opy
