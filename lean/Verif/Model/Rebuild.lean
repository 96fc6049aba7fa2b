import Verif.Model.Nested

/-!
# Iterators that are kept while `build_edges()` is called again

`load_graph` replaces the graph of an object (core/pygraph.cpp:23-30), the old one is freed.  An
iterator refers to the object (core/pyiterator.h:15-27), so afterwards it reads the new graph; but
the search states it has made (detail/graph/searchstate.h) contain pointers into the memory of
the old one.
-/

namespace CM

/-- An iterator: its enumerator, and whether the graph has been replaced since the search states of
the enumerator were made. (core/pyiterator.h:15-18.) -/
structure HeldIter where
  E : Enum
  stale : Bool

/-- What the program does next. (A client of core/pyiterator.cpp:64 and
wrappers/_gen_graph.py:38-54; models no line of /repo.) -/
inductive RAct where
  /-- `next(it)` -/
  | next
  /-- `build_edges()` -/
  | build (f : PyGraph → M PyGraph)

namespace RAct

/-- Perform the action; the answer is that of `next(it)`.  The states are read if there are any,
unless `cur` is beyond the last vertex of the graph there is now (enumerate.cpp:106, 123-124);
this is undefined behaviour if that memory has been freed.  States are only made when there are
none (enumerate.cpp:108-121), so the others are still those of the old graph. -/
def run (pg : PyGraph) (it : HeldIter) : RAct → M (PyGraph × HeldIter × List (Option (List Nat)))
  | next =>
    match pg.G with
    | none => .error .ub
    | some G =>
      if it.stale ∧ it.E.required ≠ 0 ∧ it.E.states ≠ [] ∧ it.E.cur < G.nVert then .error .ub
      else do
        let (pg, E, c) ← pg.nextClique it.E
        .ok (pg, ⟨E, it.stale && !it.E.states.isEmpty⟩, [c])
  | build f => do
    let pg ← f pg
    .ok (pg, { it with stale := true }, [])

end RAct

/-- Perform the actions, and collect the answers of the iterator. (A client of
core/pyiterator.cpp:64 and wrappers/_gen_graph.py:38-54; models no line of /repo.) -/
def racts : List RAct → PyGraph → HeldIter → M (PyGraph × HeldIter × List (Option (List Nat)))
  | [], pg, it => .ok (pg, it, [])
  | x :: xs, pg, it => do
    let (pg, it, c) ← x.run pg it
    let (pg, it, cs) ← racts xs pg it
    .ok (pg, it, c ++ cs)

end CM
