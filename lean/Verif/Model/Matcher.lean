import Mathlib.Order.Monotone.Defs
import Verif.Model.Corr
import Verif.Model.History

/-!
# Uses of the correspondence builders

`Matcher` describes the client: which correspondence objects exist.
-/

namespace CM

open Spec

/-- A graph object between calls: freshly loaded, or after a sequence of calls on a usable object.
(What the loaders of core/pygraph.cpp:113-233 return, after calls of core/wrap_pygraph.cpp:27-40.)
-/
def Reached (pg : PyGraph) (n : Nat) (S : SimpleGraph Nat) : Prop :=
  Loaded pg n S ∨ ∃ pg0 ops, Usable pg0 n S ∧ (∀ op ∈ ops, op.Legal) ∧ runs ops pg0 = .ok pg

/-- `pg` is a new object after a successful call of one of the functions that build a correspondence
graph for sets with `M` and `N` elements. The bound on the sizes keeps 64-bit products and 32-bit
vertex ids from wrapping. (templates/ext_template.hpp:165-271, ext/Isograph.cpp:7-20.) -/
inductive Matcher : PyGraph → Nat → Nat → Prop
  /-- `IsoGraph.build_edges()` (ext/Isograph.cpp:7-20) -/
  | iso {argLR : Bool} {cap : Nat} {pg pg1 pg2 : PyGraph} {n1 n2 : Nat}
      {S1 S2 : SimpleGraph Nat} :
      n1 * n2 < 2 ^ 27 → Reached pg1 n1 S1 → Reached pg2 n2 S2 →
      buildIso argLR cap PyGraph.new pg1 pg2 = .ok pg → Matcher pg n1 n2
  /-- `build_edges` with metrics only -/
  | metric {D : Type} [LinearOrder D] [Inhabited D] {argLR : Bool} {cap : Nat} {pg : PyGraph}
      {srt1 srt2 : List (PairDist D) → List (PairDist D)} {M N : Nat} {w : Window D}
      {d1 d2 : Nat → Nat → D} {sym1 sym2 : Bool} :
      M * N < 2 ^ 27 → Sorts srt1 → Sorts srt2 → Monotone w.lo →
      buildMetric argLR cap PyGraph.new srt1 srt2 M N w d1 sym1 d2 sym2 = .ok pg →
      Matcher pg M N
  /-- `build_edges_condition_only` -/
  | condition {argLR : Bool} {cap : Nat} {pg : PyGraph} {M N : Nat}
      {c : Nat → Nat → Nat → Nat → Bool} :
      M * N < 2 ^ 27 → buildCondition argLR cap PyGraph.new M N c = .ok pg → Matcher pg M N
  /-- `build_edges_with_condition` -/
  | both {D : Type} [LinearOrder D] [Inhabited D] {argLR : Bool} {cap : Nat} {pg : PyGraph}
      {srt1 srt2 : List (PairDist D) → List (PairDist D)} {M N : Nat} {w : Window D}
      {c : Nat → Nat → Nat → Nat → Bool} {d1 d2 : Nat → Nat → D} {sym1 sym2 : Bool} :
      M * N < 2 ^ 27 → Sorts srt1 → Sorts srt2 → Monotone w.lo →
      buildBoth argLR cap PyGraph.new srt1 srt2 M N w c d1 sym1 d2 sym2 = .ok pg →
      Matcher pg M N

namespace PyGraph

/-- `list(G.all_correspondences(k))` (pyiterator.h:38-47, pyiterator.cpp:20-30); the fuel is
that of `listCliques`. -/
def listCorrespondences (pg : PyGraph) (len2 k : Nat) :
    CM.M (PyGraph × List (PyRes (List Nat × List Nat))) := do
  let E ← pg.allCliques k
  match pg.G with
  | none => .error .ub
  | some G => do
    let (pg, _, cs) ← pg.consumeCorr len2 (G.nVert * 2 ^ G.maxDeg + 1) E
    .ok (pg, cs)

end PyGraph

end CM
