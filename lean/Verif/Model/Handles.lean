import Verif.Model.Nested
import Verif.Model.NWNested
import Verif.Model.Corr

/-!
# Iterator objects and `iter()`

An iterator object has a reference to the graph object and a `std::shared_ptr` to an enumerator
(core/pyiterator.h:13-83).  `__iter__` returns the object by value (core/pyiterator.cpp:63, 66, 69,
72), which makes a new object with a copy of the pointer.  Python calls `__iter__` at the start of
every `for` loop, and calls `__next__` of what it returned.
-/

namespace CM

/-- One of the four classes of iterators, for a graph object of type `P`: the constructor, with the
size or weight asked for, `__next__`, and the other calls a program makes on the graph object.
(core/pyiterator.h:13-85.) -/
structure IterClass (P E K C A : Type) where
  new : P → K → M E
  next : P → E → M (P × E × A)
  call : P → C → M (P × A)

/-- core/pyiterator.h:13-28, pyiterator.cpp:8-18: `CliqueIterator`. -/
def cliqueIter : IterClass PyGraph Enum Nat Op Seen where
  new := PyGraph.allCliques
  next pg E := Act.run pg E .next
  call pg op := do
    -- the calls do not touch the enumerator
    let (pg, _, s) ← Act.run pg (Enum.new 0) (.call op)
    .ok (pg, s)

/-- core/pyiterator.h:30-47, pyiterator.cpp:20-30: `CorrespondenceIterator` for a second set of
`len2` elements; the other calls are left out. -/
def corrIter (len2 : Nat) :
    IterClass PyGraph Enum Nat Empty (PyRes (Option (List Nat × List Nat))) where
  new := PyGraph.allCliques
  next pg E := pg.nextCorrespondence len2 E
  call _ op := op.elim

/-- core/pyiterator.h:49-64, pyiterator.cpp:32-42: `NWCliqueIterator`; the other calls are left
out. -/
def wcliqueIter {R : Type} [Zero R] [Add R] [Sub R] [NatCast R] [LT R] [LE R] [DecidableLT R]
    [DecidableLE R] (junk : Nat → R) : IterClass (PyNW R) (WEnum R) R Empty (Option (List Nat)) where
  new := PyNW.allCliques junk
  next pg E := pg.nextClique E
  call _ op := op.elim

/-- core/pyiterator.h:66-83, pyiterator.cpp:44-55: `NWCorrespondenceIterator`; the other calls are
left out. -/
def wcorrIter {R : Type} [Zero R] [Add R] [Sub R] [NatCast R] [LT R] [LE R] [DecidableLT R]
    [DecidableLE R] (junk : Nat → R) (len2 : Nat) :
    IterClass (PyNW R) (WEnum R) R Empty (PyRes (Option (List Nat × List Nat))) where
  new := PyNW.allCliques junk
  next pg E := pg.nextCorrespondence len2 E
  call _ op := op.elim

/-- The enumerators on the heap, and the iterator objects in the order they were made; of each the
place its `en` points to (core/pyiterator.h:18, 35, 54, 71). -/
structure Iters (E : Type) where
  heap : List E
  objs : List Nat

/-- What a program does next. Iterator objects are named by their position in the order they were
made, by either of the first two. (A client of core/wrap_pygraph.cpp:36-48, 96-108; models no line
of /repo.) -/
inductive HAct (K C : Type) where
  /-- `G.all_cliques(k)` or `G.all_correspondences(k)` -/
  | all (k : K)
  /-- `iter(it)` -/
  | iter (it : Nat)
  /-- `next(it)` -/
  | next (it : Nat)
  /-- a complete call on the graph object -/
  | call (c : C)

variable {P E K C A : Type}

/-- Perform the action; a program cannot name an object that it has not made.
(core/pyiterator.cpp:58-74.) -/
def HAct.run (L : IterClass P E K C A) (pg : P) (w : Iters E) :
    HAct K C → M (P × Iters E × List A)
  | all k => do
    let e ← L.new pg k
    .ok (pg, ⟨w.heap ++ [e], w.objs ++ [w.heap.length]⟩, [])
  | iter it =>
    match w.objs[it]? with
    | none => .error .throw
    | some p => .ok (pg, { w with objs := w.objs ++ [p] }, [])
  | next it =>
    match w.objs[it]? with
    | none => .error .throw
    | some p =>
      match w.heap[p]? with
      | none => .error .ub
      | some e => do
        let (pg, e, a) ← L.next pg e
        .ok (pg, { w with heap := w.heap.set p e }, [a])
  | call c => do
    let (pg, a) ← L.call pg c
    .ok (pg, w, [a])

/-- Perform the actions, and collect the answers. (A client of core/pyiterator.cpp:58-74; models no
line of /repo.) -/
def hacts (L : IterClass P E K C A) : List (HAct K C) → P → Iters E → M (P × Iters E × List A)
  | [], pg, w => .ok (pg, w, [])
  | x :: xs, pg, w => do
    let (pg, w, a) ← x.run L pg w
    let (pg, w, as) ← hacts L xs pg w
    .ok (pg, w, a ++ as)

end CM
