import Verif.Py.Str
/-
Model of src/opyenxes/utils/XTokenHelper.py.
-/
namespace Opy

/-- XTokenHelper.extract_tokens, utils/XTokenHelper.py:3-6: split at quotes, strip every piece,
drop the empty ones. -/
def extractTokens (s : Str) : List Str :=
  ((splitChar '\'' s).map strip).filter fun k => k ≠ []

/-- The lambda of XTokenHelper.format_token, utils/XTokenHelper.py:10: quote an element that
splits at blanks into more than one part. -/
def quoteToken (e : Str) : Str :=
  if (splitChar ' ' e).length > 1 then '\'' :: e ++ ['\''] else e

/-- XTokenHelper.format_token, utils/XTokenHelper.py:8-11: quote, drop elements that are blank,
join with blanks. -/
def formatToken (ts : List Str) : Str :=
  join [' '] ((ts.map quoteToken).filter fun e => replaceAll [' '] [] e ≠ [])

end Opy
