import Verif.Py.Str
/-
File names and parser selection: data_in/*Parser.py, data_in/XUniversalParser.py,
data_in/XParserRegistry.py, data_out/*Serializer.py (`get_suffices`), utils/XRegistry.py.
-/
namespace Opy

/-- `ends_with_ignore_case(name, suffix)`: data_in/XesXmlParser.py:53-68 and, textually the
same, data_in/XMxmlParser.py:61-74. -/
def endsWithIgnoreCase (name suffix : Str) : Bool :=
  let i : Int := (name.length : Int) - (suffix.length : Int)
  if i > 0 then isSub suffix (name.drop i.toNat) else false

/-- The four shipped parser classes: data_in/XMxmlParser.py, XMxmlGZIPParser.py,
XesXmlParser.py, XesXmlGZIPParser.py. -/
inductive Parser where
  | mxml | mxmlGz | xes | xesGz
  deriving DecidableEq, Repr

/-- `can_parse(file)`: data_in/XMxmlParser.py:32-40, XMxmlGZIPParser.py:14-22,
XesXmlParser.py:26-34, XesXmlGZIPParser.py:15-23. -/
def canParse : Parser → Str → Bool
  | .mxml, f => endsWithIgnoreCase f py!".mxml" || endsWithIgnoreCase f py!".xml"
  | .mxmlGz, f => endsWithIgnoreCase f py!".mxml.gz"
  | .xes, f => endsWithIgnoreCase f py!".xes"
  | .xesGz, f => endsWithIgnoreCase f py!".xes.gz"

/-- An `XRegistry`: utils/XRegistry.py:5-7.  `items` lists the members of the set in the order
of insertion; nothing may be concluded from that order, because `tuple(set)` has an
unspecified order (clients below range over all permutations). `current` is `None` or the
default instance.  Simplification: instances are values with decidable equality (`__eq__`
consistent with `__hash__`), and never `None`. -/
structure Registry (α : Type) where
  items : List α
  current : Option α

variable {α : Type} [DecidableEq α]

/-- `XRegistry.__init__`: utils/XRegistry.py:5-7. -/
def Registry.empty : Registry α := ⟨[], none⟩

/-- `__registry.add(instance)` (set insertion): utils/XRegistry.py:32,42. -/
def setAdd (x : α) (xs : List α) : List α := if x ∈ xs then xs else xs ++ [x]

/-- `register(instance)`: utils/XRegistry.py:25-34. -/
def Registry.register (r : Registry α) (x : α) : Registry α :=
  if x ∈ r.items then r
  else { items := setAdd x r.items, current := match r.current with | none => some x | some c => some c }

/-- `set_current_default(instance)`: utils/XRegistry.py:36-43. -/
def Registry.setCurrentDefault (r : Registry α) (x : α) : Registry α :=
  { items := setAdd x r.items, current := some x }

/-- A call that changes a registry: utils/XRegistry.py:25,36. -/
inductive RegCall (α : Type) where
  | register (x : α)
  | setDefault (x : α)

/-- Effect of one call. -/
def Registry.step (r : Registry α) : RegCall α → Registry α
  | .register x => r.register x
  | .setDefault x => r.setCurrentDefault x

/-- Effect of a history of calls on a new registry. -/
def Registry.run (calls : List (RegCall α)) : Registry α := calls.foldl Registry.step .empty

/-- `XParserRegistry.__init__`: data_in/XParserRegistry.py:18-24. -/
def parserRegistry : Registry Parser :=
  ((((Registry.empty.register .mxml).register .mxmlGz).register .xes).setCurrentDefault .xesGz)

/-- `XUniversalParser.can_parse(file)` when `get_available()` enumerates `order`:
data_in/XUniversalParser.py:11-22. -/
def universalCanParse (file : Str) : List Parser → Bool
  | [] => false
  | p :: ps => if canParse p file then true else universalCanParse file ps

/-- `XUniversalParser.parse(file)` when `get_available()` enumerates the given list:
data_in/XUniversalParser.py:25-43.  `run tried p` is the outcome of `p.parse(file)` after the
parsers `tried` (most recent first) have been tried on the same file object - they may have
moved its position or closed it. -/
def universalParse {β : Type} (file : Str) (run : List Parser → Parser → Except PyErr β) :
    List Parser → List Parser → Except PyErr β
  | _, [] => .error .other
  | tried, p :: ps =>
    if canParse p file then
      match run tried p with
      | .ok r => .ok r
      | .error _ => universalParse file run (p :: tried) ps
    else universalParse file run tried ps

/-- The four shipped serializer classes: data_out/*Serializer.py. -/
inductive Serializer where
  | mxml | mxmlGz | xes | xesGz
  deriving DecidableEq, Repr

/-- `get_suffices()`: data_out/XMxmlSerializer.py:29-36, XMxmlGZIPSerializer.py:26-33,
XesXmlSerializer.py:31-38, XesXmlGZIPSerializer.py:24-31. -/
def sufficesOf : Serializer → List Str
  | .mxml => [py!"mxml"]
  | .mxmlGz => [py!"mxml.gz"]
  | .xes => [py!"xes"]
  | .xesGz => [py!"xez", py!"xes.gz"]

end Opy
