import Verif.Model.Nested

/-!
# Programs with nested loops

Client-level vocabulary: a program makes complete calls on one graph object, runs through
`all_cliques` iterators in loops whose bodies are programs of the same kind, and takes some cliques
from iterators that it then drops.  What it does next may depend on what it has seen.
-/

namespace CM

/-- A complete call and what is seen of it (core/pygraph.cpp:38-68, core/pyiterator.cpp:8-18). -/
def Op.see (pg : PyGraph) : Op → M (PyGraph × Seen)
  | .search srt a => do
    let (pg, r) ← pg.getMaxClique srt a
    .ok (pg, .found a r)
  | .reset => do
    let pg ← pg.resetSearch
    .ok (pg, .reset)
  | .list k => do
    let (pg, cs) ← pg.listCliques k
    .ok (pg, .list k cs)

/-- A part of a program in which every loop runs to its end. (A client of
core/wrap_pygraph.cpp:27-40; models no line of /repo.) -/
inductive Block where
  | done
  /-- a complete call, and what follows -/
  | call (op : Op) (rest : Seen → Block)
  /-- `for c in G.all_cliques(k): body(c)`, and what follows -/
  | each (k : Nat) (body : List Nat → Block) (rest : List Seen → Block)

/-- `for c in it: body(c)`: the iterator is asked (core/pyiterator.cpp:8-18) until it raises
`StopIteration`.  The log contains its answers, each followed by the log of the body. -/
def eachClique (body : List Nat → PyGraph → M (PyGraph × List Seen)) :
    Nat → PyGraph → Enum → M (PyGraph × List Seen)
  | 0, _, _ => .error .fuel
  | fuel + 1, pg, E => do
    let (pg, E, c) ← pg.nextClique E
    match c with
    | none => .ok (pg, [.next none])
    | some c => do
      let (pg, s) ← body c pg
      let (pg, ss) ← eachClique body fuel pg E
      .ok (pg, .next (some c) :: (s ++ ss))

/-- Run the block; the fuel of a loop is that of `listCliques`. (core/wrap_pygraph.cpp:36-40 for the
iterators.) -/
def Block.run : Block → PyGraph → M (PyGraph × List Seen)
  | done, pg => .ok (pg, [])
  | call op rest, pg => do
    let (pg, s) ← op.see pg
    let (pg, ss) ← (rest s).run pg
    .ok (pg, s :: ss)
  | each k body rest, pg => do
    let E ← pg.allCliques k
    match pg.G with
    | none => .error .ub
    | some G => do
      let (pg, ls) ← eachClique (fun c pg => (body c).run pg) (G.nVert * 2 ^ G.maxDeg + 1) pg E
      let (pg, ss) ← (rest ls).run pg
      .ok (pg, ls ++ ss)

/-- A program. (A client of core/wrap_pygraph.cpp:27-40; models no line of /repo.) -/
inductive Prog where
  | stop
  /-- a block, and what follows -/
  | block (B : Block) (rest : List Seen → Prog)
  /-- `it = iter(G.all_cliques(k))`, then `j` times `next(it)`, and what follows, without `it` -/
  | take (k j : Nat) (rest : List (Option (List Nat)) → Prog)

/-- Run the program. (core/wrap_pygraph.cpp:36-40 for the iterators.) -/
def Prog.run : Prog → PyGraph → M (PyGraph × List Seen)
  | stop, pg => .ok (pg, [])
  | block B rest, pg => do
    let (pg, ls) ← B.run pg
    let (pg, ss) ← (rest ls).run pg
    .ok (pg, ls ++ ss)
  | take k j rest, pg => do
    let E ← pg.allCliques k
    let (pg, _, cs) ← pg.nexts j E
    let (pg, ss) ← (rest cs).run pg
    .ok (pg, cs.map .next ++ ss)

end CM
