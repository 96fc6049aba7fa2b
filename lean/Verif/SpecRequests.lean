import Verif.Model.NWHeapEnum

/-!
# How often memory is requested

Vocabulary for C109.
-/

namespace CM

/-- The requests of a search of `Graph`: one for the heuristic, unless the search continues at a later
vertex, two for the exact search, none if it has a time limit, and two for the answer. -/
def PyGraph.requests (pg : PyGraph) (a : PyGraph.Args) : Nat :=
  (if a.useHeuristic ∧ ¬ (a.continueSearch ∧ pg.currentVertex ≠ 0) then 1 else 0) +
  (if a.useDfs ∧ a.timeLimit = none then 2 else 0) + 2

/-- The requests of a search of `NWGraph`: one for the heuristic, three for the exact search, two for
the answer. -/
def PyNW.Args.requests {R : Type} (a : PyNW.Args R) : Nat :=
  (if a.useHeuristic then 1 else 0) + (if a.useDfs then 3 else 0) + 2

end CM
