import Verif.Py.Str
import Verif.Py.Num
import Verif.Model.Files
/-
The alpha algorithm: example/AlphaAlgorithm.py.

A log is a list of traces, a trace a list of activity names (line 218).  Sets are lists without
duplicates (`setAdd`, Model/Files.lean).  The order in which Python enumerates a set is unspecified: it is
a parameter where it matters, the same for the same set.
-/
namespace Opy

section
variable {α : Type} [DecidableEq α]

/-- `set.update(iterable)` / repeated `set.add`. -/
def setAddAll (s xs : List α) : List α := xs.foldl (fun s x => setAdd x s) s

/-- The pairs `(trace[index], trace[index + 1])` of a trace: example/AlphaAlgorithm.py:40-41. -/
def neighbours : List α → List (α × α)
  | [] => []
  | [_] => []
  | a :: b :: r => (a, b) :: neighbours (b :: r)

/-- Direct succession: example/AlphaAlgorithm.py:38-43. -/
def directSuccession : List (List α) → List (α × α) → List (α × α)
  | [], s => s
  | t :: ts, s => directSuccession ts (setAddAll s (neighbours t))

/-- `itertools.product(a, b)`. -/
def product {β : Type} (a : List α) (b : List β) : List (α × β) := a.flatMap fun x => b.map fun y => (x, y)

/-- The relations of the footprint: example/AlphaAlgorithm.py:28-31. -/
structure Footprint (α : Type) where
  direct : List (α × α)
  causal : List (α × α)
  choice : List (α × α)
  parallel : List (α × α)

/-- `_generate_footprint`: example/AlphaAlgorithm.py:37-63; `pair[::-1]` swaps a pair. -/
def footprint (allEvents : List α) (log : List (List α)) : Footprint α :=
  let direct := directSuccession log []
  let causal := setAddAll [] (direct.filter fun p => (p.2, p.1) ∉ direct)
  let choice := setAddAll [] ((product allEvents allEvents).filter fun p => p ∉ direct ∧ (p.2, p.1) ∉ direct)
  let parallel := setAddAll [] ((product allEvents allEvents).filter fun p => p ∈ direct ∧ (p.2, p.1) ∈ direct)
  ⟨direct, causal, choice, parallel⟩

/-- `_check_one_set`: example/AlphaAlgorithm.py:106-111. -/
def checkOneSet (s : List α) (notCausal : List (α × α)) : Bool := (product s s).all fun p => p ∈ notCausal

/-- `_check_two_set`: example/AlphaAlgorithm.py:113-118. -/
def checkTwoSet (a b : List α) (causal : List (α × α)) : Bool := (product a b).all fun p => p ∈ causal

/-- `itertools.combinations(xs, k)`. -/
def combinations : Nat → List α → List (List α)
  | 0, _ => [[]]
  | _ + 1, [] => []
  | k + 1, x :: xs => (combinations k xs).map (x :: ·) ++ combinations (k + 1) xs

/-- The loop `for i in range(1, len(self.all_event))`: example/AlphaAlgorithm.py:122-125. -/
def combinationSets (allEvents : List α) : List (List α) :=
  (List.range (allEvents.length - 1)).foldl (fun s i => setAddAll s (combinations (i + 1) allEvents)) []

/-- `_build_pairs`: example/AlphaAlgorithm.py:120-133. -/
def buildPairs (allEvents : List α) (fp : Footprint α) : List (List α × List α) :=
  (combinationSets allEvents).foldl (fun xl a =>
    if checkOneSet a fp.choice then
      (combinationSets allEvents).foldl (fun xl b =>
        if checkOneSet b fp.choice && checkTwoSet a b fp.causal then setAdd (a, b) xl else xl) xl
    else xl) []

/-- `set(a).issubset(b)`. -/
def isSubset (a b : List α) : Bool := a.all fun x => x ∈ b

/-- `yl.discard(first_transition)`. -/
def discard (x : α) (s : List α) : List α := s.filter (· ≠ x)

/-- `_generate_places`: example/AlphaAlgorithm.py:135-145. -/
def generatePlaces (pairs : List (List α × List α)) : List (List α × List α) :=
  pairs.foldl (fun yl p =>
    pairs.foldl (fun yl q =>
      if p ≠ q ∧ isSubset p.1 q.1 = true ∧ isSubset p.2 q.2 = true then discard p yl else yl) yl) pairs

/-- The events found by `_extract_events`: example/AlphaAlgorithm.py:90-92. -/
structure Extracted (α : Type) where
  starting : List α
  ending : List α
  all : List α

/-- `_extract_events`: example/AlphaAlgorithm.py:147-151; `trace[0]` of an empty trace raises. -/
def extractEvents : Extracted α → List (List α) → Except PyErr (Extracted α)
  | x, [] => .ok x
  | x, t :: ts =>
    match t.head?, t.getLast? with
    | some a, some b => extractEvents ⟨setAdd a x.starting, setAdd b x.ending, setAddAll x.all t⟩ ts
    | _, _ => .error .indexError

/-- `Place(start, end)`: example/AlphaAlgorithm.py:66-77, with its name. -/
structure Place (α : Type) where
  start : Option (List α)
  stop : Option (List α)
  name : Str

/-- The test `x and event in x` (a set or tuple is false when it is empty or `None`):
example/AlphaAlgorithm.py:177,179. -/
def inSet (e : α) : Option (List α) → Bool
  | none => false
  | some s => if s = [] then false else e ∈ s

/-- The loop over the places for one event: example/AlphaAlgorithm.py:174-180. -/
def arcs (e : α) : List (Place α) → List Str × List Str
  | [] => ([], [])
  | p :: ps =>
    let r := arcs e ps
    if inSet e p.stop then (p.name :: r.1, r.2)
    else if inSet e p.start then (r.1, p.name :: r.2)
    else r

/-- The names given to the places: example/AlphaAlgorithm.py:164-166. -/
def nameFrom (n : Nat) : List (Option (List α) × Option (List α)) → List (Place α)
  | [] => []
  | (s, e) :: r => ⟨s, e, py!"place_" ++ intStr n⟩ :: nameFrom (n + 1) r

/-- All places in order: example/AlphaAlgorithm.py:157-166. -/
def allPlaces (x : Extracted α) (places : List (List α × List α)) : List (Place α) :=
  nameFrom 0 ((none, some x.starting) :: (some x.ending, none) :: places.map fun p => (some p.1, some p.2))

end

/-- The line of a place: example/AlphaAlgorithm.py:167-170.  Only the first place has no start, so the
counter `aux` is 1 there; a name has no semicolon. -/
def placeLine (p : Place Str) : Str :=
  match p.start with
  | none => py!"Place \"" ++ p.name ++ py!"\" init 1;"
  | some _ => py!"Place \"" ++ p.name ++ py!"\";"

/-- `" ".join('"{}"'.format(ev) for ev in names)`: example/AlphaAlgorithm.py:182-188. -/
def quoted : List Str → Str
  | [] => []
  | [n] => py!"\"" ++ n ++ py!"\""
  | n :: m :: r => py!"\"" ++ n ++ py!"\"" ++ py!" " ++ quoted (m :: r)

/-- The line of a transition: example/AlphaAlgorithm.py:184-188. -/
def transLine (n : Nat) (e : Str) (a : List Str × List Str) : Str :=
  py!"trans \"t_" ++ intStr n ++ py!"\"~\"" ++ e ++ py!"+complete\" in " ++ quoted a.1 ++ py!" out " ++ quoted a.2 ++ py!" ;"

/-- The lines of the transitions: example/AlphaAlgorithm.py:173-189. -/
def transLines (places : List (Place Str)) (n : Nat) : List Str → List Str
  | [] => []
  | e :: es => transLine n e (arcs e places) :: transLines places (n + 1) es

/-- The result of `AlphaAlgorithm(log)`. -/
structure AlphaNet where
  events : Extracted Str
  footprint : Footprint Str
  pairs : List (List Str × List Str)
  places : List (List Str × List Str)
  text : List Str

/-- `AlphaAlgorithm(log)`: example/AlphaAlgorithm.py:86-104, with the lines of the text (joined with line
ends, line 191).  `order` and `orderP` enumerate the sets of events and of places. -/
def alpha (order : List Str → List Str) (orderP : List (List Str × List Str) → List (List Str × List Str))
    (log : List (List Str)) : Except PyErr AlphaNet := do
  let x ← extractEvents ⟨[], [], []⟩ log
  let all := order x.all
  let fp := footprint all log
  let pairs := buildPairs all fp
  let places := generatePlaces pairs
  let ps := allPlaces x (orderP places)
  .ok ⟨x, fp, pairs, places, ps.map placeLine ++ transLines ps (ps.length + 1) all⟩

end Opy
