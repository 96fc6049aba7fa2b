import Verif.Model.Calls

/-!
# Calls made while an iterator is held

Client-level vocabulary: a program holds one `all_cliques` iterator, asks it for cliques now and
then, and makes complete calls on the same graph object in between.
-/

namespace CM

/-- What the program does next. (A client of core/wrap_pygraph.cpp:27-40; models no line of /repo.)
-/
inductive Act where
  /-- `next(it)` -/
  | next
  /-- a complete call on the graph object -/
  | call (op : Op)

/-- What the program sees. (The answers of core/wrap_pygraph.cpp:27-40.) -/
inductive Seen where
  /-- an answer of the iterator; `none` is `StopIteration` (core/pyiterator.cpp:8-18) -/
  | next (c : Option (List Nat))
  /-- the result of `get_max_clique` called with `a` (core/pygraph.cpp:45-68) -/
  | found (a : PyGraph.Args) (r : PyRes (List Nat))
  /-- `reset_search` has no result (core/pygraph.cpp:38-43) -/
  | reset
  /-- `list(G.all_cliques(k))` (core/pyiterator.cpp:8-18) -/
  | list (k : Nat) (cs : List (List Nat))

namespace Act

/-- The action asks the iterator. (core/pyiterator.cpp:64.) -/
def isNext : Act → Bool
  | next => true
  | call _ => false

/-- Perform the action. (core/pygraph.cpp:38-68, core/pyiterator.cpp:8-18.) -/
def run (pg : PyGraph) (E : Enum) : Act → M (PyGraph × Enum × Seen)
  | next => do
    let (pg, E, c) ← pg.nextClique E
    .ok (pg, E, .next c)
  | call (.search srt a) => do
    let (pg, r) ← pg.getMaxClique srt a
    .ok (pg, E, .found a r)
  | call .reset => do
    let pg ← pg.resetSearch
    .ok (pg, E, .reset)
  | call (.list k) => do
    let (pg, cs) ← pg.listCliques k
    .ok (pg, E, .list k cs)

end Act

/-- Perform the actions, and collect what is seen. (A client of core/wrap_pygraph.cpp:27-40; models
no line of /repo.) -/
def acts : List Act → PyGraph → Enum → M (PyGraph × Enum × List Seen)
  | [], pg, E => .ok (pg, E, [])
  | x :: xs, pg, E => do
    let (pg, E, s) ← x.run pg E
    let (pg, E, ss) ← acts xs pg E
    .ok (pg, E, s :: ss)

/-- The answers of the iterator among what was seen. (The answers of core/pyiterator.cpp:64.) -/
def Seen.answers : List Seen → List (Option (List Nat))
  | [] => []
  | .next c :: ss => c :: answers ss
  | _ :: ss => answers ss

/-- The call is not a search with a time limit. (A condition on the arguments of
core/wrap_pygraph.cpp:27-30.) -/
def Op.Untimed : Op → Prop
  | search _ a => a.timeLimit = none
  | _ => True

end CM
