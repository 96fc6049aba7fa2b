import Verif.Model.Blocks
import Verif.Model.Corr

/-!
# Programs with nested loops over correspondences

Client-level vocabulary, as in `Model/Blocks.lean`, for the objects that match two sets.  `len2` is
the size of the second set.
-/

namespace CM

/-- What a program sees of a step. (The answers of core/wrap_pygraph.cpp:33-35, 41-48.) -/
inductive CorrSeen where
  /-- an answer of `get_correspondence` -/
  | found (a : PyGraph.Args) (r : PyRes (List Nat × List Nat))
  /-- an answer of an iterator; `none` is `StopIteration` -/
  | next (c : Option (List Nat × List Nat))
  /-- an iterator raised another exception -/
  | broken

/-- A part of a program in which every loop runs to its end. (A client of
core/wrap_pygraph.cpp:33-35, 41-48; models no line of /repo.) -/
inductive CorrBlock where
  | done
  /-- `get_correspondence`, and what follows -/
  | find (srt : List Graph.VData → List Graph.VData) (a : PyGraph.Args)
      (rest : PyRes (List Nat × List Nat) → CorrBlock)
  /-- `for c in G.all_correspondences(k): body(c)`, and what follows -/
  | each (k : Nat) (body : List Nat × List Nat → CorrBlock) (rest : List CorrSeen → CorrBlock)

/-- `for c in it: body(c)`: the iterator is asked (core/pyiterator.cpp:20-30) until it raises
`StopIteration` or anything else.  The log contains its answers, each followed by the log of the
body. -/
def eachCorrespondence (len2 : Nat)
    (body : List Nat × List Nat → PyGraph → M (PyGraph × List CorrSeen)) :
    Nat → PyGraph → Enum → M (PyGraph × List CorrSeen)
  | 0, _, _ => .error .fuel
  | fuel + 1, pg, E => do
    let (pg, E, r) ← pg.nextCorrespondence len2 E
    match r with
    | .raise => .ok (pg, [.broken])
    | .ret none => .ok (pg, [.next none])
    | .ret (some c) => do
      let (pg, s) ← body c pg
      let (pg, ss) ← eachCorrespondence len2 body fuel pg E
      .ok (pg, .next (some c) :: (s ++ ss))

/-- Run the block (core/pygraph.cpp:91-99, core/pyiterator.h:38-47); the fuel of a loop is that of
`listCorrespondences`. -/
def CorrBlock.run (len2 : Nat) : CorrBlock → PyGraph → M (PyGraph × List CorrSeen)
  | done, pg => .ok (pg, [])
  | find srt a rest, pg => do
    let (pg, r) ← pg.getCorrespondence srt len2 a
    let (pg, ss) ← (rest r).run len2 pg
    .ok (pg, .found a r :: ss)
  | each k body rest, pg => do
    let E ← pg.allCliques k
    match pg.G with
    | none => .error .ub
    | some G => do
      let (pg, ls) ← eachCorrespondence len2 (fun c pg => (body c).run len2 pg)
        (G.nVert * 2 ^ G.maxDeg + 1) pg E
      let (pg, ss) ← (rest ls).run len2 pg
      .ok (pg, ls ++ ss)

end CM
