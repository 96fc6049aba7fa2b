import Mathlib.Algebra.Order.Ring.Rat
import Mathlib.Tactic.Ring
import Mathlib.Tactic.NormNum
import Verif.Props.Weighted
import Verif.Lemmas.Scale

/-!
# Properties: the unit of the weights

Weights of vertices are quantities, and a program may give them in kilograms or in grams.  A change
of unit `φ` (`Spec.Rescales`) is applied to all weights that a program hands over: the weights of
the vertices, the bounds of `get_max_clique` and the weight given to `all_cliques`.  It should get
the same cliques in the same order.

All theorems are for arithmetic without rounding (any `R`, `R'` between which there is a `φ`).
-/

namespace CM

open Spec NWG

variable {R R' : Type} [Zero R] [Add R] [Sub R] [NatCast R] [LT R] [LE R] [DecidableLT R]
  [DecidableLE R] [Zero R'] [Add R'] [Sub R'] [NatCast R'] [LT R'] [LE R'] [DecidableLT R']
  [DecidableLE R'] {φ : R → R'}

/-- **C111** (partial: no search uses the heuristic; see `C111_refuted_heuristic`), in full: whatever
loader makes the graph and whatever it does then (searches, listings, resets, in any order, while it
holds an iterator), a program whose weights are in the other unit has the same outcome, up to the
weights in it.  That includes the errors. -/
theorem C111_program_partial (hφ : Rescales φ) (argLR : Bool) (cap : Nat) (ld : WLoad R)
    (junk : Nat → R) (W : R) (xs : List (WAct R)) (hx : ∀ x ∈ xs, x.Plain) (r : WRead)
    (srt : List (WData R') → List (WData R')) :
    wprogram argLR cap (ld.unit φ) (fun i => φ (junk i)) (φ W) (xs.map (WAct.unit φ srt)) r =
      (wprogram argLR cap ld junk W xs r).map fun s =>
        (s.1.map (WSeen.unit φ), s.2.1.map φ, s.2.2) :=
  wprogram_unit hφ argLR cap ld junk W xs hx r srt

/-- **C111** (partial: without the heuristic), for one search: the graph loads in the other unit if
it does in the first, and `get_max_clique` returns the same clique, with `get_clique_weight` the same
quantity in the other unit, or raises in both. -/
theorem C111_search_partial (hφ : Rescales φ) {argLR : Bool} {cap : Nat} {rows : List (Nat × Nat)}
    {n : Nat} {wts : List R} {pg : PyNW R} (hl : PyNW.fromEdgelist argLR cap rows n wts = .ok pg)
    (srt : List (WData R) → List (WData R)) (srt' : List (WData R') → List (WData R'))
    (junk : Nat → R) {lb ub : R} {dfs : Bool} {q : PyNW R} {o : PyRes (List Nat)}
    (hq : pg.getMaxClique srt junk ⟨lb, ub, false, dfs⟩ = .ok (q, o)) :
    ∃ pg' q', PyNW.fromEdgelist argLR cap rows n (wts.map φ) = .ok pg' ∧
      pg'.getMaxClique srt' (fun i => φ (junk i)) ⟨φ lb, φ ub, false, dfs⟩ = .ok (q', o) ∧
      ∀ c w, q.getCliqueWeight c = .ok w → q'.getCliqueWeight c = .ok (φ w) := by
  refine ⟨pg.unit φ, q.unit φ, ?_, ?_, ?_⟩
  · rw [PyNW.fromEdgelist_unit hφ, hl]; rfl
  · have e := PyNW.getMaxClique_unit hφ srt srt' junk pg ⟨lb, ub, false, dfs⟩ rfl
    rw [hq] at e
    exact e
  · intro c w hw
    rw [PyNW.getCliqueWeight_unit hφ, hw]; rfl

/-- **C111** for iterators: `list(G.all_cliques(W))` is the same list in the same order. -/
theorem C111_list (hφ : Rescales φ) {argLR : Bool} {cap : Nat} {rows : List (Nat × Nat)}
    {n : Nat} {wts : List R} {pg : PyNW R} (hl : PyNW.fromEdgelist argLR cap rows n wts = .ok pg)
    (junk : Nat → R) {W : R} {q : PyNW R} {cs : List (List Nat)}
    (hq : pg.listCliques junk W = .ok (q, cs)) :
    ∃ pg' q', PyNW.fromEdgelist argLR cap rows n (wts.map φ) = .ok pg' ∧
      pg'.listCliques (fun i => φ (junk i)) (φ W) = .ok (q', cs) := by
  refine ⟨pg.unit φ, q.unit φ, ?_, ?_⟩
  · rw [PyNW.fromEdgelist_unit hφ, hl]; rfl
  · rw [PyNW.listCliques_unit hφ, hq]; rfl

/-! ## Units -/

/-- Rational weights, `k` of the new unit make one of the old. -/
theorem C111_factor {k : Rat} (hk : 0 < k) : Rescales (fun w : Rat => w * k) where
  zero := by simp
  add a b := by ring
  sub a b := by ring
  lt a b := mul_lt_mul_iff_left₀ hk
  le a b := mul_le_mul_iff_left₀ hk

/-- Whole numbers as weights, or the same numbers as rationals. -/
theorem C111_whole : Rescales (fun w : Int => (w : Rat)) where
  zero := by simp
  add a b := by push_cast; rfl
  sub a b := by push_cast; rfl
  lt a b := Int.cast_lt
  le a b := Int.cast_le

/-! ## What is not independent of the unit -/

/-- **C111** is false of searches with the heuristic (the default): it compares how many candidates
there are with the weight that has been found (nw_heuristic.cpp:70). Here the program returns the
clique 1, 2, 3 or the single vertex 1, in kilograms or in grams; and with the depth-first search
after it, the clique 1, 2, 5 or the clique 2, 3, which weigh the same. -/
theorem C111_refuted_heuristic :
    (∃ (rows : List (Nat × Nat)) (n : Nat) (wts : List Rat) (lb ub : Rat),
      (PyNW.fromEdgelist true 64 rows n wts >>= fun pg =>
        pg.getMaxClique Sample.byW (fun _ => 0) ⟨lb, ub, true, false⟩ >>= fun x => .ok x.2) =
          .ok (.ret [1, 2, 3]) ∧
      (PyNW.fromEdgelist true 64 rows n (wts.map (· * 1000)) >>= fun pg =>
        pg.getMaxClique Sample.byW (fun _ => 0) ⟨lb * 1000, ub * 1000, true, false⟩ >>= fun x =>
          .ok x.2) = .ok (.ret [1])) ∧
    (∃ (rows : List (Nat × Nat)) (n : Nat) (wts : List Rat) (lb ub : Rat),
      (PyNW.fromEdgelist true 64 rows n wts >>= fun pg =>
        pg.getMaxClique Sample.byW (fun _ => 0) ⟨lb, ub, true, true⟩ >>= fun x => .ok x.2) =
          .ok (.ret [1, 2, 5]) ∧
      (PyNW.fromEdgelist true 64 rows n (wts.map (· * 1000)) >>= fun pg =>
        pg.getMaxClique Sample.byW (fun _ => 0) ⟨lb * 1000, ub * 1000, true, true⟩ >>= fun x =>
          .ok x.2) = .ok (.ret [2, 3])) := by
  refine ⟨⟨[(1, 2), (2, 3), (1, 3)], 3, [5, 6, 7], 1, 100, ?_, ?_⟩,
    ⟨[(1, 2), (1, 4), (1, 5), (2, 3), (2, 5)], 5, [1, 1, 2, 1, 1], 1, 100, ?_, ?_⟩⟩ <;>
    decide +kernel

/-- **C111** is false of calls that leave the bounds at their defaults: these are 1 and 65535 in any
unit. In tonnes there is no clique, in kilograms the right one, in units of 100 grams a wrong one. -/
theorem C111_refuted_default :
    ∃ (rows : List (Nat × Nat)) (n : Nat) (wts : List Rat),
      (PyNW.fromEdgelist true 64 rows n (wts.map (· * (1/1000))) >>= fun pg =>
        pg.getMaxClique id (fun _ => 0) { useHeuristic := false } >>= fun x => .ok x.2) =
          .ok .raise ∧
      (PyNW.fromEdgelist true 64 rows n wts >>= fun pg =>
        pg.getMaxClique id (fun _ => 0) { useHeuristic := false } >>= fun x => .ok x.2) =
          .ok (.ret [3, 4]) ∧
      (PyNW.fromEdgelist true 64 rows n (wts.map (· * 10000)) >>= fun pg =>
        pg.getMaxClique id (fun _ => 0) { useHeuristic := false } >>= fun x => .ok x.2) =
          .ok (.ret [1, 4]) := by
  refine ⟨[(1, 2), (2, 3), (3, 4), (1, 4)], 4, [4, 4, 5, 5], ?_, ?_, ?_⟩ <;> decide +kernel

/-! ## Examples -/

/-- A program that meets the hypotheses of `C111_program_partial`: it asks the iterator, searches,
asks again, resets and lists, and then reads the weight of a clique. -/
example : (wprogram true 64 (.edgelist Sample.rows 5 [2, 1/2, 3, 1, 10]) (fun _ => (0 : Rat)) 3
      [.next, .call (.search id (fun _ => 0) { useHeuristic := false }), .next, .call .reset,
        .call (.list (fun _ => 0) 4), .next, .next] (.clique [1, 2, 3])).map
        (fun s => (WSeen.answers s.1, s.2)) =
    .ok ([some [2, 3], some [3, 4], some [4, 5], none], [11/2], []) := by
  decide +kernel

/-- The same program in other units, by `C111_program_partial`: the same cliques, and the weight of
the clique 1, 2, 3 in the other unit. -/
example : (wprogram true 64 (.edgelist Sample.rows 5 (List.map (· * (1/3)) [2, 1/2, 3, 1, 10]))
      (fun _ => (0 : Rat)) (3 * (1/3))
      [.next, .call (.search id (fun _ => 0) ⟨1 * (1/3), 65535 * (1/3), false, true⟩), .next,
        .call .reset, .call (.list (fun _ => 0) (4 * (1/3))), .next, .next] (.clique [1, 2, 3])).map
        (fun s => (WSeen.answers s.1, s.2)) =
    .ok ([some [2, 3], some [3, 4], some [4, 5], none], [11/6], []) := by
  decide +kernel

/-- A search and a listing that meet the hypotheses of `C111_search_partial` and `C111_list`. -/
example : PyNW.fromEdgelist true 64 Sample.rows 5 [2, 1/2, 3, 1, 10] = .ok Sample.wkite ∧
    (Sample.wkite.getMaxClique id (fun _ => 0) ⟨1, 100, false, true⟩ >>= fun x => .ok x.2) =
      .ok (.ret [4, 5]) ∧
    (Sample.wkite.listCliques (fun _ => 0) 3 >>= fun x => .ok x.2) =
      .ok [[2, 3], [3, 4], [4, 5]] := by
  decide +kernel

end CM
