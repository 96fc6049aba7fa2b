import Verif.Model.Corr

/-!
# Building correspondence graphs with functions that have effects

The distance and condition functions given to the builders are Python callables, which may keep
state between calls, raise, and use the very object whose `build_edges()` is running.  These are
the builders of `Model/Corr.lean` over an arbitrary world: the matcher object, which the builders
hold by reference, and everything else the functions can reach.
-/

namespace CM

/-- A computation that can change a world, also if it does not return normally. (The state of
objects of core/pygraph.h and core/pynwgraph.h; models no line of /repo.) -/
def Eff (σ α : Type) := σ → σ × M α

namespace Eff

variable {σ α β : Type}

/-- One statement after the other; an exception leaves the world as it is at that moment. (As
`Except.bind` for `M`; models no line of /repo.) -/
def bind (x : Eff σ α) (f : α → Eff σ β) : Eff σ β := fun s =>
  match x s with
  | (s', .ok a) => f a s'
  | (s', .error e) => (s', .error e)

/-- A computation that does not look at the world. (Models no line of /repo.) -/
def lift (x : M α) : Eff σ α := fun s => (s, x)

/-- Models no line of /repo. -/
instance : Monad (Eff σ) where
  pure a := lift (.ok a)
  bind := bind

/-- `n` iterations of a counting loop starting at `i`, as `forN`. (Models no single line of /repo.)
-/
def forN : Nat → Nat → (Nat → α → Eff σ α) → α → Eff σ α
  | 0, _, _, a => lift (.ok a)
  | n + 1, i, body, a => bind (body i a) (forN n (i + 1) body)

/-- `for (i = lo; i < hi; i++) body`, as `forRange`. (Models no single line of /repo.) -/
def forRange (lo hi : Nat) (body : Nat → α → Eff σ α) (a : α) : Eff σ α :=
  forN (hi - lo) lo body a

/-- A loop with arbitrary control flow, as `loop`. (Models no single line of /repo.) -/
def loop : Nat → (α → Eff σ (α ⊕ β)) → α → Eff σ β
  | 0, _, _ => lift (.error .fuel)
  | n + 1, body, a => bind (body a) fun
    | .inl a' => loop n body a'
    | .inr b => lift (.ok b)

end Eff

variable {D τ σ : Type}

/-- The functions a user gives to the builders: two distances and a condition
(templates/wrap_template.hpp:14-60). -/
structure Fns (σ D : Type) where
  d1 : Nat → Nat → Eff σ D
  d2 : Nat → Nat → Eff σ D
  c : Nat → Nat → Nat → Nat → Eff σ Bool

section
variable [Inhabited D]

/-- templates/relset.hpp:24-40 `fill_dists`. -/
def fillDistsE (srt : List (PairDist D) → List (PairDist D)) (N : Nat) (sym : Bool)
    (d : Nat → Nat → Eff σ D) : Eff σ (List (PairDist D)) := do
  let len := if sym then umul N (usub N 1) / 2 else umul N (usub N 1)
  let (buf, _) ← Eff.forRange 0 N (fun i s =>
    Eff.forRange (if sym then i + 1 else 0) N (fun j (s : List (PairDist D) × Nat) =>
      if j = i then Eff.lift (.ok s)
      else do
        let x ← d i j
        let b ← Eff.lift (wr s.1 s.2 { first := i, second := j, dist := x })
        Eff.lift (.ok (b, s.2 + 1))) s) (List.replicate len default, 0)
  Eff.lift (.ok (srt buf))

end

/-- The call of `load_graph` at the end of every builder (core/pygraph.cpp:25-43): the object is
looked at for the first time here. -/
def loadE (argLR : Bool) (cap n m : Nat) (es : Edges) : Eff (PyGraph × τ) Unit := fun s =>
  match PyGraph.loadGraph argLR cap s.1 n m es with
  | .ok pg => ((pg, s.2), .ok ())
  | .error e => (s, .error e)

variable [LinearOrder D]

/-- templates/ext_template.hpp:84-163 `efr_condition`. -/
def efrConditionE (M N : Nat) (sym1 sym2 : Bool) (d1 d2 : List (PairDist D))
    (w : Window D) (c : Nat → Nat → Nat → Nat → Eff σ Bool) : Eff σ (Nat × Nat × Edges) :=
  let n := umul M N
  if M = 0 ∨ N = 0 then Eff.lift (.error .throw)
  else do
    let len1 := if sym1 then umul M (usub M 1) / 2 else umul M (usub M 1)
    let len2 := if sym2 then umul N (usub N 1) / 2 else umul N (usub N 1)
    let (es, m) ← Eff.loop (len1 + 1) (fun (s : Nat × Edges × Nat) => do
      let (i, es, m) := s
      if i < len1 then do
        let x ← Eff.lift (rd d1 i)
        let (f1, lb) ← Eff.lift (binaryFind2 d2 len2 (w.lo x.dist))
        if f1 = -1 then Eff.lift (.ok (.inr (es, m)))
        else do
          let (f2, ub) ← Eff.lift (binaryFind2 d2 len2 (w.hi x.dist))
          let ub := if f2 = -1 then usub len2 1 else ub
          let s ← Eff.forRange lb (ub + 1) (fun j (s : Edges × Nat) => do
            let y ← Eff.lift (rd d2 j)
            let a ← c x.first x.second y.first y.second
            let s := if a then
                (link s.1 (pairVertex N x.first y.first) (pairVertex N x.second y.second), s.2 + 1)
              else s
            if !sym1 && !sym2 then Eff.lift (.ok s)
            else do
              let b ← c x.first x.second y.second y.first
              if b then
                Eff.lift (.ok (link s.1 (pairVertex N x.second y.first)
                  (pairVertex N x.first y.second), s.2 + 1))
              else Eff.lift (.ok s)) (es, m)
          Eff.lift (.ok (.inl (i + 1, s)))
      else Eff.lift (.ok (.inr (es, m)))) (0, PyGraph.selfLoops n, 0)
    Eff.lift (.ok (n, m, es))

variable [Inhabited D]

/-- templates/ext_template.hpp:165-185 `build_edges_metric_only`. -/
def buildMetricE (argLR : Bool) (cap : Nat) (srt1 srt2 : List (PairDist D) → List (PairDist D))
    (M N : Nat) (w : Window D) (F : Fns (PyGraph × τ) D) (sym1 sym2 : Bool) :
    Eff (PyGraph × τ) Unit := do
  let ps1 ← fillDistsE srt1 M sym1 F.d1
  let ps2 ← fillDistsE srt2 N sym2 F.d2
  let (n, m, edges) ← Eff.lift (edgesFromRelsets M N sym1 sym2 ps1 ps2 w)
  if edges.length = 0 then Eff.lift (.error .throw)
  else loadE argLR cap n m edges

omit [LinearOrder D] [Inhabited D] in
/-- templates/ext_template.hpp:187-243 `build_edges_condition_only`. -/
def buildConditionE (argLR : Bool) (cap : Nat) (M N : Nat) (F : Fns (PyGraph × τ) D) :
    Eff (PyGraph × τ) Unit := do
  let n := umul M N
  let (edges, m) ← Eff.forRange 0 M (fun i1 s =>
    Eff.forRange (i1 + 1) M (fun i2 s =>
      Eff.forRange 0 N (fun j1 s =>
        Eff.forRange (j1 + 1) N (fun j2 (s : Edges × Nat) => do
          let a ← F.c i1 i2 j1 j2
          if a then
            let es := link s.1 (pairVertex N i1 j1) (pairVertex N i2 j2)
            let es := link es (pairVertex N i2 j1) (pairVertex N i1 j2)
            Eff.lift (.ok (es, s.2 + 2))
          else Eff.lift (.ok s)) s) s) s) (PyGraph.selfLoops n, 0)
  if edges.length = 0 then Eff.lift (.error .throw)
  else loadE argLR cap n m edges

/-- templates/ext_template.hpp:245-271 `build_edges`. -/
def buildBothE (argLR : Bool) (cap : Nat) (srt1 srt2 : List (PairDist D) → List (PairDist D))
    (M N : Nat) (w : Window D) (F : Fns (PyGraph × τ) D) (sym1 sym2 : Bool) :
    Eff (PyGraph × τ) Unit := do
  let ps1 ← fillDistsE srt1 M sym1 F.d1
  let ps2 ← fillDistsE srt2 N sym2 F.d2
  let (n, m, edges) ← efrConditionE M N sym1 sym2 ps1 ps2 w F.c
  if edges.length = 0 then Eff.lift (.error .throw)
  else loadE argLR cap n m edges

end CM
