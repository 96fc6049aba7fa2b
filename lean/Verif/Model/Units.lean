import Verif.Model.NWNested

/-!
# A whole program that uses one weighted graph, and the same program with other weights
-/

namespace CM

/-- How a weighted graph is made. (core/wrap_pygraph.cpp:101-119 lists the loaders.) -/
inductive WLoad (R : Type) where
  /-- `NWGraph.from_edgelist(rows, n, wts)` (core/pynwgraph.cpp:106-157) -/
  | edgelist (rows : List (Nat × Nat)) (n : Nat) (wts : List R)
  /-- `NWGraph.from_matrix(A, wts)`, `A` with `r` rows and `c` columns (core/pynwgraph.cpp:159-204) -/
  | matrix (r c : Nat) (A : Nat → Nat → Bool) (wts : List R)
  /-- `NWGraph.from_adjlist(n, m, sets, wts)` (core/pynwgraph.cpp:205-235) -/
  | adjlist (n m : Nat) (sets : List (List Nat)) (wts : List R)

/-- A value that a program reads from a weighted graph. (core/pynwgraph.cpp:290-308.) -/
inductive WRead where
  /-- `get_vertex_data(i)` -/
  | vertex (i : Nat)
  /-- `get_all_weights()` -/
  | weights
  /-- `get_clique_weight(c)` -/
  | clique (c : List Nat)

section

variable {R : Type} [Zero R] [Add R] [Sub R] [NatCast R] [LT R] [LE R] [DecidableLT R]
  [DecidableLE R]

/-- Make the graph. (core/pynwgraph.cpp:106-235.) -/
def WLoad.load (argLR : Bool) (cap : Nat) : WLoad R → M (PyNW R)
  | edgelist rows n wts => PyNW.fromEdgelist argLR cap rows n wts
  | matrix r c A wts => PyNW.fromMatrix argLR cap r c A wts
  | adjlist n m sets wts => PyNW.fromAdjList argLR cap n m sets wts

/-- Read a value: the weights it consists of, and the vertex numbers it consists of.
(core/pynwgraph.cpp:290-308.) -/
def WRead.read (pg : PyNW R) : WRead → M (List R × List Nat)
  | vertex i => do
    let (w, l) ← pg.getVertexData i
    .ok ([w], l)
  | weights => do
    let ws ← pg.getAllWeights
    .ok (ws, [])
  | clique c => do
    let w ← pg.getCliqueWeight c
    .ok ([w], [])

/-- A program: make a graph, make an iterator `all_cliques(W)`, do `xs`, and then read `r`. The
outcome is what the program sees. (A client of core/wrap_pygraph.cpp:81-119; models no line of
/repo.) -/
def wprogram (argLR : Bool) (cap : Nat) (ld : WLoad R) (junk : Nat → R) (W : R) (xs : List (WAct R))
    (r : WRead) : M (List (WSeen R) × List R × List Nat) := do
  let pg ← ld.load argLR cap
  let E ← pg.allCliques junk W
  let (pg, _, ss) ← wacts xs pg E
  let (ws, l) ← r.read pg
  .ok (ss, ws, l)

end

/-! ## The same program with every weight `w` replaced by `φ w` -/

section

variable {R R' : Type} (φ : R → R')

/-- The weights given to the loader. (core/pynwgraph.cpp:106-235.) -/
def WLoad.unit : WLoad R → WLoad R'
  | edgelist rows n wts => .edgelist rows n (wts.map φ)
  | matrix r c A wts => .matrix r c A (wts.map φ)
  | adjlist n m sets wts => .adjlist n m sets (wts.map φ)

/-- The two bounds of `get_max_clique`. (core/wrap_pygraph.cpp:81-84.) -/
def PyNW.Args.unit (a : PyNW.Args R) : PyNW.Args R' :=
  { lowerBound := φ a.lowerBound, upperBound := φ a.upperBound, useHeuristic := a.useHeuristic,
    useDfs := a.useDfs }

/-- The weights given to a call; `srt` is the `std::sort` of the heuristic for the new type of
weights. (core/wrap_pygraph.cpp:81-100.) -/
def WOp.unit (srt : List (NWG.WData R') → List (NWG.WData R')) : WOp R → WOp R'
  | search _ junk a => .search srt (fun i => φ (junk i)) (a.unit φ)
  | list junk W => .list (fun i => φ (junk i)) (φ W)
  | reset => .reset

/-- As `WOp.unit`. (core/wrap_pygraph.cpp:81-100.) -/
def WAct.unit (srt : List (NWG.WData R') → List (NWG.WData R')) : WAct R → WAct R'
  | next => .next
  | call op => .call (op.unit φ srt)

/-- What was seen: the answers are the same vertex numbers, only the arguments that are recorded
with them are in the other unit. (core/wrap_pygraph.cpp:81-100.) -/
def WSeen.unit : WSeen R → WSeen R'
  | next c => .next c
  | found a r => .found (a.unit φ) r
  | reset => .reset
  | list W cs => .list (φ W) cs

/-- No search of the program uses the heuristic. (The argument `use_heuristic` of
core/wrap_pygraph.cpp:81-84.) -/
def WAct.Plain : WAct R → Prop
  | call (.search _ _ a) => a.useHeuristic = false
  | _ => True

end

end CM
