import Verif.Model.NWHistory

/-!
# Calls made on a weighted graph while an iterator is held

Client-level vocabulary: a program holds one `NWGraph.all_cliques` iterator, asks it for cliques
now and then, and makes complete calls on the same graph object in between.
-/

namespace CM

variable {R : Type} [Zero R] [Add R] [Sub R] [NatCast R] [LT R] [LE R] [DecidableLT R]
  [DecidableLE R]

/-- What the program does next. (A client of core/wrap_pygraph.cpp:81-100; models no line of /repo.)
-/
inductive WAct (R : Type) where
  /-- `next(it)` -/
  | next
  /-- a complete call on the graph object -/
  | call (op : WOp R)

/-- What the program sees. (The answers of core/wrap_pygraph.cpp:81-100.) -/
inductive WSeen (R : Type) where
  /-- an answer of the iterator; `none` is `StopIteration` (pyiterator.cpp:32-42) -/
  | next (c : Option (List Nat))
  /-- the result of `get_max_clique` called with `a` (pynwgraph.cpp:44-64) -/
  | found (a : PyNW.Args R) (r : PyRes (List Nat))
  /-- `reset_search` has no result (pynwgraph.cpp:37-42) -/
  | reset
  /-- `list(G.all_cliques(W))` (pyiterator.cpp:32-42) -/
  | list (W : R) (cs : List (List Nat))

namespace WAct

/-- The action asks the iterator. (core/pyiterator.cpp:70.) -/
def isNext : WAct R → Bool
  | next => true
  | call _ => false

/-- Perform the action. (core/pynwgraph.cpp:37-63, core/pyiterator.cpp:32-42.) -/
def run (pg : PyNW R) (E : WEnum R) : WAct R → M (PyNW R × WEnum R × WSeen R)
  | next => do
    let (pg, E, c) ← pg.nextClique E
    .ok (pg, E, .next c)
  | call (.search srt junk a) => do
    let (pg, r) ← pg.getMaxClique srt junk a
    .ok (pg, E, .found a r)
  | call .reset => do
    let pg ← pg.resetSearch
    .ok (pg, E, .reset)
  | call (.list junk W) => do
    let (pg, cs) ← pg.listCliques junk W
    .ok (pg, E, .list W cs)

end WAct

/-- Perform the actions, and collect what is seen. (A client of core/wrap_pygraph.cpp:81-100; models
no line of /repo.) -/
def wacts : List (WAct R) → PyNW R → WEnum R → M (PyNW R × WEnum R × List (WSeen R))
  | [], pg, E => .ok (pg, E, [])
  | x :: xs, pg, E => do
    let (pg, E, s) ← x.run pg E
    let (pg, E, ss) ← wacts xs pg E
    .ok (pg, E, s :: ss)

/-- The answers of the iterator among what was seen. (The answers of core/pyiterator.cpp:70.) -/
def WSeen.answers : List (WSeen R) → List (Option (List Nat))
  | [] => []
  | .next c :: ss => c :: answers ss
  | _ :: ss => answers ss

end CM
