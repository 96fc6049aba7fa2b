import Verif.Model.Corr

/-!
# Building correspondence graphs with callbacks that may raise

The distance and condition functions given to the builders are Python callables wrapped in
`std::function` (templates/wrap_template.hpp); an exception they raise leaves the C++ code
through every frame up to the interpreter.  These are the builders of `Model/Corr.lean`
with a fallible call in the place of each call of a function.
-/

namespace CM

variable {D : Type}

section
variable [Inhabited D]

/-- templates/relset.hpp:13-40: `fillDists` with a distance function that may raise. -/
def fillDistsM (srt : List (PairDist D) → List (PairDist D)) (N : Nat) (sym : Bool)
    (d : Nat → Nat → M D) : M (List (PairDist D)) := do
  let len := if sym then umul N (usub N 1) / 2 else umul N (usub N 1)
  let (buf, _) ← forRange 0 N (fun i s =>
    forRange (if sym then i + 1 else 0) N (fun j (s : List (PairDist D) × Nat) =>
      if j = i then .ok s
      else do
        let x ← d i j
        let b ← wr s.1 s.2 { first := i, second := j, dist := x }
        .ok (b, s.2 + 1)) s) (List.replicate len default, 0)
  .ok (srt buf)

end

variable [LinearOrder D]

/-- templates/ext_template.hpp:84-163: `efrCondition` with a condition function that may
raise. -/
def efrConditionM (M N : Nat) (sym1 sym2 : Bool) (d1 d2 : List (PairDist D))
    (w : Window D) (c : Nat → Nat → Nat → Nat → CM.M Bool) : CM.M (Nat × Nat × Edges) :=
  let n := umul M N
  if M = 0 ∨ N = 0 then .error .throw
  else do
    let len1 := if sym1 then umul M (usub M 1) / 2 else umul M (usub M 1)
    let len2 := if sym2 then umul N (usub N 1) / 2 else umul N (usub N 1)
    let (es, m) ← loop (len1 + 1) (fun (s : Nat × Edges × Nat) => do
      let (i, es, m) := s
      if i < len1 then do
        let x ← rd d1 i
        let (f1, lb) ← binaryFind2 d2 len2 (w.lo x.dist)
        if f1 = -1 then .ok (.inr (es, m))
        else do
          let (f2, ub) ← binaryFind2 d2 len2 (w.hi x.dist)
          let ub := if f2 = -1 then usub len2 1 else ub
          let (es, m) ← forRange lb (ub + 1) (fun j (s : Edges × Nat) => do
            let y ← rd d2 j
            let a ← c x.first x.second y.first y.second
            let s := if a then
                (link s.1 (pairVertex N x.first y.first) (pairVertex N x.second y.second), s.2 + 1)
              else s
            if !sym1 && !sym2 then .ok s
            else do
              let b ← c x.first x.second y.second y.first
              if b then
                .ok (link s.1 (pairVertex N x.second y.first) (pairVertex N x.first y.second),
                  s.2 + 1)
              else .ok s) (es, m)
          .ok (.inl (i + 1, es, m))
      else .ok (.inr (es, m))) (0, PyGraph.selfLoops n, 0)
    .ok (n, m, es)

variable [Inhabited D]

/-- templates/ext_template.hpp:165-185 `build_edges_metric_only`. -/
def buildMetricM (argLR : Bool) (cap : Nat) (pg : PyGraph)
    (srt1 srt2 : List (PairDist D) → List (PairDist D)) (M N : Nat) (w : Window D)
    (d1 : Nat → Nat → CM.M D) (sym1 : Bool) (d2 : Nat → Nat → CM.M D) (sym2 : Bool) :
    CM.M PyGraph := do
  let ps1 ← fillDistsM srt1 M sym1 d1
  let ps2 ← fillDistsM srt2 N sym2 d2
  let (n, m, edges) ← edgesFromRelsets M N sym1 sym2 ps1 ps2 w
  if edges.length = 0 then .error .throw
  else PyGraph.loadGraph argLR cap pg n m edges

omit [LinearOrder D] [Inhabited D] in
/-- templates/ext_template.hpp:187-243 `build_edges_condition_only`. -/
def buildConditionM (argLR : Bool) (cap : Nat) (pg : PyGraph) (M N : Nat)
    (c : Nat → Nat → Nat → Nat → CM.M Bool) : CM.M PyGraph := do
  let n := umul M N
  let (edges, m) ← forRange 0 M (fun i1 s =>
    forRange (i1 + 1) M (fun i2 s =>
      forRange 0 N (fun j1 s =>
        forRange (j1 + 1) N (fun j2 (s : Edges × Nat) => do
          let a ← c i1 i2 j1 j2
          if a then
            let es := link s.1 (pairVertex N i1 j1) (pairVertex N i2 j2)
            let es := link es (pairVertex N i2 j1) (pairVertex N i1 j2)
            .ok (es, s.2 + 2)
          else .ok s) s) s) s) (PyGraph.selfLoops n, 0)
  if edges.length = 0 then .error .throw
  else PyGraph.loadGraph argLR cap pg n m edges

/-- templates/ext_template.hpp:245-271 `build_edges`. -/
def buildBothM (argLR : Bool) (cap : Nat) (pg : PyGraph)
    (srt1 srt2 : List (PairDist D) → List (PairDist D)) (M N : Nat) (w : Window D)
    (c : Nat → Nat → Nat → Nat → CM.M Bool)
    (d1 : Nat → Nat → CM.M D) (sym1 : Bool) (d2 : Nat → Nat → CM.M D) (sym2 : Bool) :
    CM.M PyGraph := do
  let ps1 ← fillDistsM srt1 M sym1 d1
  let ps2 ← fillDistsM srt2 N sym2 d2
  let (n, m, edges) ← efrConditionM M N sym1 sym2 ps1 ps2 w c
  if edges.length = 0 then .error .throw
  else PyGraph.loadGraph argLR cap pg n m edges

end CM
