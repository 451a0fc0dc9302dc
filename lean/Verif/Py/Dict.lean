/-
Python `dict` (3.7+: insertion ordered) as an association list.  Built-in type; used for
attribute maps (model/XAttributeMap.py) and all bookkeeping maps.
-/
namespace Opy

variable {κ α : Type} [DecidableEq κ]

/-- `d.get(k)`. -/
def dget (k : κ) : List (κ × α) → Option α
  | [] => none
  | (k', v) :: r => if k' = k then some v else dget k r

/-- `d[k] = v`: replace in place, or append. -/
def dset (k : κ) (v : α) : List (κ × α) → List (κ × α)
  | [] => [(k, v)]
  | (k', v') :: r => if k' = k then (k', v) :: r else (k', v') :: dset k v r

/-- `del d[k]` / `d.pop(k, None)`. -/
def ddel (k : κ) : List (κ × α) → List (κ × α)
  | [] => []
  | (k', v') :: r => if k' = k then r else (k', v') :: ddel k r

/-- `d.keys()`. -/
def dkeys (d : List (κ × α)) : List κ := d.map Prod.fst

/-- `d.values()`. -/
def dvals (d : List (κ × α)) : List α := d.map Prod.snd

end Opy
