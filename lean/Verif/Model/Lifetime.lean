import Verif.Model.Handles

/-!
# When graph objects and iterators are destroyed

Python objects count the references to them and are destroyed when the last one goes.  An iterator
object holds a C++ reference `pg` to the graph, which does not count, a Python reference `rf` to the
same graph object, which does, and a `std::shared_ptr` `en` to its enumerator, which counts the
iterator objects that share the enumerator (core/pyiterator.h:13-83).  Copies of an iterator object
(core/pyiterator.cpp:63, 66, 69, 72) copy all three.  Using or counting down an object that has been
destroyed is undefined behaviour.

The cyclic garbage collector plays no part: graph objects hold no references to Python objects.
-/

namespace CM

variable {α P E K C A : Type}

/-- An object on the heap: the number of references to it, and what it contains; `none` after its
destructor has run. (The Python objects of core/wrap_pygraph.cpp:17, 73 and
core/pyiterator.cpp:62-73, and the `std::shared_ptr` of core/pyiterator.h:18.) -/
structure Rc (α : Type) where
  refs : Nat
  val : Option α
  deriving DecidableEq

namespace Rc

/-- Use the object (the reference `pg` and the pointer `en` in core/pyiterator.cpp:8-55). -/
def look (l : List (Rc α)) (i : Nat) : M α :=
  match l[i]? with
  | none => .error .ub
  | some c =>
    match c.val with
    | none => .error .ub
    | some v => .ok v

/-- Change the object. (For example core/pygraph.cpp:40-42.) -/
def store (l : List (Rc α)) (i : Nat) (v : α) : M (List (Rc α)) :=
  match l[i]? with
  | none => .error .ub
  | some c => if c.val.isNone then .error .ub else .ok (l.set i { c with val := some v })

/-- One more reference: copying a `pybind11::object` or a `std::shared_ptr`
(core/pyiterator.h:20-22, 38-41, 57-59, 75-79). -/
def incr (l : List (Rc α)) (i : Nat) : M (List (Rc α)) :=
  match l[i]? with
  | none => .error .ub
  | some c => if c.val.isNone then .error .ub else .ok (l.set i { c with refs := c.refs + 1 })

/-- One reference less; with the last one the object is destroyed, and what it contained is
returned, for its own references to be given up. (The member `rf`, core/pyiterator.h:17, and the
`std::shared_ptr` `en`, core/pyiterator.h:18.) -/
def decr (l : List (Rc α)) (i : Nat) : M (List (Rc α) × Option α) :=
  match l[i]? with
  | none => .error .ub
  | some c =>
    match c.val with
    | none => .error .ub
    | some v =>
      if c.refs = 0 then .error .ub
      else if c.refs = 1 then .ok (l.set i ⟨0, none⟩, some v)
      else .ok (l.set i { c with refs := c.refs - 1 }, none)

end Rc

/-- core/pyiterator.h:16-18 (35-37, 53-55, 70-72): where the members of an iterator object point:
`graph` for `pg` and `rf`, `en` for `en`. -/
structure IterObj where
  graph : Nat
  en : Nat
  deriving DecidableEq

/-- What a Python variable refers to. (The classes of core/wrap_pygraph.cpp:17, 73 and
core/pyiterator.cpp:62-73.) -/
inductive Ref where
  | graph (i : Nat)
  | iter (i : Nat)
  deriving DecidableEq

/-- The memory of the program: the variables it has used, in the order of their first assignment
(`none`: deleted, or the assignment raised), and the objects, in the order they were made. (Models
no line of /repo: the objects of core/wrap_pygraph.cpp:17, 73 and core/pyiterator.cpp:62-73.) -/
structure World (P E : Type) where
  names : List (Option Ref)
  graphs : List (Rc P)
  ens : List (Rc E)
  its : List (Rc IterObj)

/-- What a program does next. Every new object is assigned to a new variable; variables are numbered
in the order of their first assignment. (A client of core/wrap_pygraph.cpp:36-48, 96-108; models no
line of /repo.) -/
inductive LAct (P K C : Type) where
  /-- `x = Graph.from_...(...)`, a loader that returned `p` -/
  | load (p : P)
  /-- `y = x.all_cliques(k)` or `y = x.all_correspondences(k)` -/
  | all (x : Nat) (k : K)
  /-- `y = iter(x)` -/
  | iter (x : Nat)
  /-- `y = x` -/
  | copy (x : Nat)
  /-- `next(x)` -/
  | next (x : Nat)
  /-- a complete call on the graph `x` -/
  | call (x : Nat) (c : C)
  /-- `del x` -/
  | del (x : Nat)

namespace World

/-- A program that has not started; models no line of /repo. -/
def empty : World P E := ⟨[], [], [], []⟩

/-- The object that variable `x` refers to; using a deleted variable raises `NameError`. (Models no
line of /repo: what Python does before the calls of core/wrap_pygraph.cpp.) -/
def ref (w : World P E) (x : Nat) : M Ref :=
  match w.names[x]? with
  | some (some r) => .ok r
  | _ => .error .throw

/-- Give up one reference to `r`.  The destructor of an iterator object gives up `en` and `rf`, in
this order (core/pyiterator.h:16-18: the members in reverse order). -/
def drop (w : World P E) : Ref → M (World P E)
  | .graph i => do
    let (graphs, _) ← Rc.decr w.graphs i
    .ok { w with graphs := graphs }
  | .iter j => do
    let (its, o) ← Rc.decr w.its j
    match o with
    | none => .ok { w with its := its }
    | some o => do
      let (ens, _) ← Rc.decr w.ens o.en
      let (graphs, _) ← Rc.decr w.graphs o.graph
      .ok { w with its := its, ens := ens, graphs := graphs }

end World

/-- Perform the action. Calling a method that the object does not have raises.
(core/wrap_pygraph.cpp:36-48, 96-108, core/pyiterator.cpp:58-74.) -/
def LAct.run (L : IterClass P E K C A) (w : World P E) : LAct P K C → M (World P E × List A)
  | load p =>
    -- pybind11 moves the result of a loader into a new Python object (core/wrap_pygraph.cpp:50-61)
    .ok ({ w with
      names := w.names ++ [some (.graph w.graphs.length)]
      graphs := w.graphs ++ [⟨1, some p⟩] }, [])
  | all x k => do
    match ← w.ref x with
    | .iter _ => .error .throw
    | .graph i => do
      let pg ← Rc.look w.graphs i
      match L.new pg k with
      | .ok e =>
        -- core/pyiterator.h:20-22: `rf(rf)`, `en(new CliqueEnumerator(clique_size))`
        let graphs ← Rc.incr w.graphs i
        .ok ({ names := w.names ++ [some (.iter w.its.length)]
               graphs := graphs
               ens := w.ens ++ [⟨1, some e⟩]
               its := w.its ++ [⟨1, some ⟨i, w.ens.length⟩⟩] }, [])
      | .error .throw =>
        -- core/pyiterator.h:24-25: the constructor raises, its members are destroyed again
        .ok ({ w with names := w.names ++ [none] }, [])
      | .error f => .error f
  | iter x => do
    match ← w.ref x with
    | .graph _ => .error .throw
    | .iter j => do
      let o ← Rc.look w.its j
      -- core/pyiterator.cpp:63: a copy of the object, so of `rf` and `en`
      let graphs ← Rc.incr w.graphs o.graph
      let ens ← Rc.incr w.ens o.en
      .ok ({ names := w.names ++ [some (.iter w.its.length)]
             graphs := graphs
             ens := ens
             its := w.its ++ [⟨1, some o⟩] }, [])
  | copy x => do
    match ← w.ref x with
    | .graph i => do
      let graphs ← Rc.incr w.graphs i
      .ok ({ w with names := w.names ++ [some (.graph i)], graphs := graphs }, [])
    | .iter j => do
      let its ← Rc.incr w.its j
      .ok ({ w with names := w.names ++ [some (.iter j)], its := its }, [])
  | next x => do
    match ← w.ref x with
    | .graph _ => .error .throw
    | .iter j => do
      let o ← Rc.look w.its j
      let e ← Rc.look w.ens o.en
      let pg ← Rc.look w.graphs o.graph
      let (pg, e, a) ← L.next pg e
      let ens ← Rc.store w.ens o.en e
      let graphs ← Rc.store w.graphs o.graph pg
      .ok ({ w with ens := ens, graphs := graphs }, [a])
  | call x c => do
    match ← w.ref x with
    | .iter _ => .error .throw
    | .graph i => do
      let pg ← Rc.look w.graphs i
      let (pg, a) ← L.call pg c
      let graphs ← Rc.store w.graphs i pg
      .ok ({ w with graphs := graphs }, [a])
  | del x => do
    let r ← w.ref x
    let w ← World.drop { w with names := w.names.set x none } r
    .ok (w, [])

/-- Perform the actions, and collect the answers. (A client of core/wrap_pygraph.cpp:36-48, 96-108;
models no line of /repo.) -/
def lacts (L : IterClass P E K C A) : List (LAct P K C) → World P E → M (World P E × List A)
  | [], w => .ok (w, [])
  | x :: xs, w => do
    let (w, a) ← x.run L w
    let (w, as) ← lacts L xs w
    .ok (w, a ++ as)

end CM
