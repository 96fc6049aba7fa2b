import Verif.Model.Clock
import Verif.Model.History
import Verif.Model.NWHistory

/-!
# Values passed from Python

In `Verif.Model.Api` the arguments of a call are natural numbers, `double`s and truth values.  A
Python program can pass anything.  pybind11 converts each argument to the type in the C++ signature
and raises `TypeError` before the function is entered if that is not possible.  The type casters
of pybind11 are not part of the repository; simplification: their documented behaviour.
-/

namespace CM

/-- A Python object, as far as the type casters look at it: `other` is one that is neither a number
nor `None`, and has no truth value of its own as a number has (a string, a list).
(What is passed for the arguments of core/wrap_pygraph.cpp:25-47, 81-108.) -/
inductive PyVal where
  | none
  | bool (b : Bool)
  | int (z : Int)
  | float (x : Dbl)
  | other
  deriving DecidableEq

namespace PyVal

/-- The type caster of `u64` (the arguments of core/pygraph.cpp:45 and the lambda of
core/wrap_pygraph.cpp:38): `True` and `False` are integers; a `float` is refused, and so is an
integer that does not fit. -/
def toU64 : PyVal → Option Nat
  | bool b => some b.toNat
  | int z => if 0 ≤ z ∧ z < 2 ^ 64 then some z.toNat else Option.none
  | _ => Option.none

/-- The type caster of `double` (core/pygraph.cpp:46, core/pynwgraph.cpp:44): integers are rounded,
and refused if they are too large. -/
def toDbl : PyVal → Option Dbl
  | bool b => some (.fin b.toNat)
  | int z => match Dbl.round z with
    | .fin q => some (.fin q)
    | _ => Option.none
  | float x => some x
  | _ => Option.none

/-- The type caster of `bool` (core/pygraph.cpp:46-47, core/pynwgraph.cpp:45): `None` is false, a
number is true if it is not zero. -/
def toBool : PyVal → Option Bool
  | none => some false
  | bool b => some b
  | int z => some (decide (z ≠ 0))
  | float x => some (decide (x ≠ .fin 0))
  | other => Option.none

end PyVal

/-- The values of a call of `Graph.get_max_clique`; the defaults are those of
core/wrap_pygraph.cpp:29-30. -/
structure SearchVals where
  lower : PyVal := .int 1
  upper : PyVal := .int 65535
  time : PyVal := .float (.fin 0)
  heuristic : PyVal := .bool true
  dfs : PyVal := .bool true
  continued : PyVal := .bool false

/-- The arguments that `pygraph::get_max_clique` is called with (core/pygraph.cpp:45-47);
`none` if pybind11 raises. -/
def SearchVals.args (v : SearchVals) : Option (PyGraph.Args × Dbl) := do
  let lo ← v.lower.toU64
  let up ← v.upper.toU64
  let t ← v.time.toDbl
  let h ← v.heuristic.toBool
  let d ← v.dfs.toBool
  let c ← v.continued.toBool
  let a : PyGraph.Args :=
    { lowerBound := lo, upperBound := up, useHeuristic := h, useDfs := d, continueSearch := c }
  some (a, t)

namespace PyGraph

/-- `G.get_max_clique(…)` in Python (core/wrap_pygraph.cpp:27-30, core/pygraph.cpp:45-68). -/
def callSearch (srt : List Graph.VData → List Graph.VData) (now : Nat → Nat) (pg : PyGraph)
    (v : SearchVals) : M (PyGraph × PyRes (List Nat)) :=
  match v.args with
  | none => .ok (pg, .raise)
  | some (a, t) => do
    let (pg, r, _) ← pg.getMaxCliqueC srt a t now
    .ok (pg, r)

/-- `list(G.all_cliques(size))` in Python (core/wrap_pygraph.cpp:36-40, core/pyiterator.cpp:8-18). -/
def callList (pg : PyGraph) (size : PyVal) : M (PyGraph × PyRes (List (List Nat))) :=
  match size.toU64 with
  | none => .ok (pg, .raise)
  | some k => do
    let (pg, cs) ← pg.listCliques k
    .ok (pg, .ret cs)

/-- `G._vertex_neighbors(v)` in Python (core/wrap_pygraph.cpp:25-26, core/pygraph.cpp:306-310);
`.error .throw` is an exception. -/
def callNeighbors (pg : PyGraph) (v : PyVal) : M (List Nat) :=
  match v.toU64 with
  | none => .error .throw
  | some i => pg.getVertexData i

end PyGraph

/-- The values of a call of `NWGraph.get_max_clique`; the defaults are those of
core/wrap_pygraph.cpp:83-84. -/
structure WSearchVals where
  lower : PyVal := .int 1
  upper : PyVal := .int 65535
  heuristic : PyVal := .bool true
  dfs : PyVal := .bool true

/-- The arguments that `pynwgraph::get_max_clique` is called with (core/pynwgraph.cpp:44-45);
`none` if pybind11 raises. -/
def WSearchVals.args (v : WSearchVals) : Option (PyNW.Args Dbl) := do
  let lo ← v.lower.toDbl
  let up ← v.upper.toDbl
  let h ← v.heuristic.toBool
  let d ← v.dfs.toBool
  some { lowerBound := lo, upperBound := up, useHeuristic := h, useDfs := d }

namespace PyNW

/-- `G.get_max_clique(…)` in Python (core/wrap_pygraph.cpp:81-84, core/pynwgraph.cpp:44-64). -/
def callSearch (srt : List (NWG.WData Dbl) → List (NWG.WData Dbl)) (junk : Nat → Dbl)
    (pg : PyNW Dbl) (v : WSearchVals) : M (PyNW Dbl × PyRes (List Nat)) :=
  match v.args with
  | none => .ok (pg, .raise)
  | some a => pg.getMaxClique srt junk a

/-- `list(G.all_cliques(size))` in Python (core/wrap_pygraph.cpp:96-100,
core/pyiterator.cpp:32-42). -/
def callList (junk : Nat → Dbl) (pg : PyNW Dbl) (size : PyVal) :
    M (PyNW Dbl × PyRes (List (List Nat))) :=
  match size.toDbl with
  | none => .ok (pg, .raise)
  | some W => do
    let (pg, cs) ← pg.listCliques junk W
    .ok (pg, .ret cs)

end PyNW

/-- A call on a `Graph` object with any values. (core/wrap_pygraph.cpp:27-40.) -/
inductive ValCall where
  | search (srt : List Graph.VData → List Graph.VData) (now : Nat → Nat) (v : SearchVals)
  | list (size : PyVal)
  | reset

/-- The object after the call. (core/wrap_pygraph.cpp:27-40.) -/
def ValCall.run (pg : PyGraph) : ValCall → M PyGraph
  | search srt now v => do
    let (pg, _) ← pg.callSearch srt now v
    .ok pg
  | list size => do
    let (pg, _) ← pg.callList size
    .ok pg
  | reset => pg.resetSearch

/-- A call on an `NWGraph` object with any values. (core/wrap_pygraph.cpp:81-100.) -/
inductive WValCall where
  | search (srt : List (NWG.WData Dbl) → List (NWG.WData Dbl)) (junk : Nat → Dbl) (v : WSearchVals)
  | list (junk : Nat → Dbl) (size : PyVal)
  | reset

/-- The object after the call. (core/wrap_pygraph.cpp:81-100.) -/
def WValCall.run (pg : PyNW Dbl) : WValCall → M (PyNW Dbl)
  | search srt junk v => do
    let (pg, _) ← pg.callSearch srt junk v
    .ok pg
  | list junk size => do
    let (pg, _) ← pg.callList junk size
    .ok pg
  | reset => pg.resetSearch

end CM
