import Verif.Lemmas.CorrCount
import Verif.Props.Correspondence
import Verif.Props.ExportExact

/-!
# C87: `n_edges` of correspondence graphs
-/

namespace CM

open Spec

/-- What a user sees of the number of edges: `n_edges` is it, and `to_edgelist()` is the list of
the edges, each row assigned. -/
def Counts (pg : PyGraph) (n : Nat) (S : SimpleGraph Nat) : Prop :=
  pg.nedges = edgeCount S n ∧ ∃ es, ListsEdges S es ∧ pg.toEdgelist = .ok (es.map some)

theorem counts_of {pg : PyGraph} {n : Nat} {S : SimpleGraph Nat} (h : Loaded pg n S)
    (h0 : n ≠ 0) (hc : pg.nedges = edgeCount S n) : Counts pg n S := by
  obtain ⟨es, h1, _, h3⟩ := C06_export h h0
  refine ⟨hc, es, h1, ?_⟩
  rw [h3, hc, if_pos (Nat.le_refl _), Nat.sub_self]
  simp

variable {D : Type} [LinearOrder D] [Inhabited D]

/-- **C87**, as far as it is true for `build_edges`.  The full property: after every successful
build `n_edges` is the number of edges of the correspondence graph, and `to_edgelist()` lists
them.  Proved: this is so if both distance functions are declared symmetric (with or without a
condition function, whatever the functions return).  Otherwise `n_edges` is at least the number
of edges, and `to_edgelist()` lists the edges, followed by rows that are not initialised.
Missing, because false (`C87_refuted`): equality for functions declared asymmetric. -/
theorem C87_build_edges_partial {argLR : Bool} {cap : Nat}
    {srt1 srt2 : List (PairDist D) → List (PairDist D)} {M N : Nat} {w : Window D}
    {c : Nat → Nat → Nat → Nat → Bool} {d1 d2 : Nat → Nat → D} {sym1 sym2 : Bool}
    (hM : 1 ≤ M) (hN : 1 ≤ N) (hne : M = 1 ∨ 2 ≤ N) (hb : M * N < 2 ^ 27) (hs1 : Sorts srt1)
    (hs2 : Sorts srt2) (hlo : Monotone w.lo) :
    (∃ pg S, buildBoth argLR cap PyGraph.new srt1 srt2 M N w c d1 sym1 d2 sym2 = .ok pg ∧
      Loaded pg (M * N) S ∧ (sym1 = true → sym2 = true → Counts pg (M * N) S) ∧
      ∃ es, ListsEdges S es ∧ es.length = edgeCount S (M * N) ∧ es.length ≤ pg.nedges ∧
        pg.toEdgelist = .ok (es.map some ++ List.replicate (pg.nedges - es.length) none)) ∧
    (∃ pg S, buildMetric argLR cap PyGraph.new srt1 srt2 M N w d1 sym1 d2 sym2 = .ok pg ∧
      Loaded pg (M * N) S ∧ (sym1 = true → sym2 = true → Counts pg (M * N) S) ∧
      ∃ es, ListsEdges S es ∧ es.length = edgeCount S (M * N) ∧ es.length ≤ pg.nedges ∧
        pg.toEdgelist = .ok (es.map some ++ List.replicate (pg.nedges - es.length) none)) := by
  have h0 : M * N ≠ 0 := by
    have : 1 * 1 ≤ M * N := Nat.mul_le_mul hM hN
    omega
  have key : ∀ c, ∃ pg S,
      buildBoth argLR cap PyGraph.new srt1 srt2 M N w c d1 sym1 d2 sym2 = .ok pg ∧
      Loaded pg (M * N) S ∧ (sym1 = true → sym2 = true → Counts pg (M * N) S) ∧
      ∃ es, ListsEdges S es ∧ es.length = edgeCount S (M * N) ∧ es.length ≤ pg.nedges ∧
        pg.toEdgelist = .ok (es.map some ++ List.replicate (pg.nedges - es.length) none) := by
    intro c
    obtain ⟨pg, _, h1, _, _⟩ := buildBoth_spec (argLR := argLR) (cap := cap) (c := c) (d1 := d1)
      (d2 := d2) (sym1 := sym1) (sym2 := sym2) hM hN hne hb hs1 hs2 hlo
    obtain ⟨S, h2, h3, h4⟩ := buildBoth_count hb hs1 hs2 hlo h1 hM hN hne
    obtain ⟨es, e1, e2, e3⟩ := C06_export h2 h0
    refine ⟨pg, S, h1, h2, fun a b => counts_of h2 h0 (h4 a b), es, e1, e2, by omega, ?_⟩
    rw [e3, if_pos h3, e2]
  refine ⟨key c, ?_⟩
  rw [buildMetric_eq]
  exact key _

/-- **C87** for `build_edges_condition_only`: always. -/
theorem C87_condition_only {M N : Nat} (hM : 1 ≤ M) (hN : 1 ≤ N) (hb : M * N < 2 ^ 27)
    (c : Nat → Nat → Nat → Nat → Bool) (argLR : Bool) (cap : Nat) :
    ∃ pg S, buildCondition argLR cap PyGraph.new M N c = .ok pg ∧ Loaded pg (M * N) S ∧
      Counts pg (M * N) S := by
  obtain ⟨pg, S, h1, h2, h3⟩ := buildCondition_count hb c argLR cap
  have : 1 * 1 ≤ M * N := Nat.mul_le_mul hM hN
  exact ⟨pg, S, h1, h2, counts_of h2 (by omega) h3⟩

/-- **C87** for `IsoGraph.build_edges`: always, for any two graphs that were loaded and used. -/
theorem C87_iso {pg1 pg2 : PyGraph} {n1 n2 : Nat} {S1 S2 : SimpleGraph Nat}
    (h1 : Reached pg1 n1 S1) (h2 : Reached pg2 n2 S2) (z1 : n1 ≠ 0) (z2 : n2 ≠ 0)
    (hb : n1 * n2 < 2 ^ 27) (argLR : Bool) (cap : Nat) :
    ∃ pg S, buildIso argLR cap PyGraph.new pg1 pg2 = .ok pg ∧ Loaded pg (n1 * n2) S ∧
      Counts pg (n1 * n2) S := by
  obtain ⟨b1, G1, g1⟩ := h1.holds
  obtain ⟨b2, G2, g2⟩ := h2.holds
  obtain ⟨pg, S, e1, e2, e3⟩ := buildIso_count g1 g2 z1 z2 b1 b2 hb argLR cap
  exact ⟨pg, S, e1, e2, counts_of e2 (Nat.mul_ne_zero z1 z2) e3⟩

/-- **C87** fails for distance functions that are declared asymmetric, even if one of them is
symmetric: the correspondence graph of two sets of two elements at the same distance has two
edges, and `n_edges` is 4; two rows of `to_edgelist()` are not initialised. -/
theorem C87_refuted : ∀ sym : Bool,
    (buildMetric true 400 PyGraph.new Sample.byDist Sample.byDist 2 2 (intWindow 1)
      (fun _ _ => 1) sym (fun _ _ => 1) false >>= fun pg =>
        pg.toEdgelist >>= fun es => .ok (pg.nedges, es)) =
      .ok (4, [some (1, 4), some (2, 3), none, none]) := by
  decide +kernel

/-- Non-vacuity: three points on a line against four, with symmetric distances; a path in a
cycle; and a condition that accepts everything. -/
example : (∃ pg S, buildMetric true 400 PyGraph.new Sample.byDist Sample.byDist 3 4 (intWindow 1)
      (fun i j => (i : Int) + j) true (fun i j => (i : Int) + j) true = .ok pg ∧
      Loaded pg (3 * 4) S ∧ Counts pg (3 * 4) S) ∧
    (buildMetric true 400 PyGraph.new Sample.byDist Sample.byDist 3 4 (intWindow 1)
      (fun i j => (i : Int) + j) true (fun i j => (i : Int) + j) true >>= fun pg =>
        .ok pg.nedges) = .ok 18 ∧
    (∃ pg S, buildIso true 400 PyGraph.new Sample.cycle Sample.path = .ok pg ∧
      Loaded pg (4 * 3) S ∧ Counts pg (4 * 3) S) ∧
    (buildIso true 400 PyGraph.new Sample.cycle Sample.path >>= fun pg => .ok pg.nedges) =
      .ok 28 ∧
    (buildCondition true 400 PyGraph.new 3 2 (fun i _ _ _ => i == 0) >>= fun pg =>
      pg.toEdgelist >>= fun es => .ok (pg.nedges, es)) =
      .ok (4, [some (1, 4), some (1, 6), some (2, 3), some (2, 5)]) := by
  have hm : Monotone (intWindow 1).lo := fun a b h => by
    show a - 1 ≤ b - 1
    omega
  obtain ⟨pg, S, h1, h2, h3, _⟩ := (C87_build_edges_partial (argLR := true) (cap := 400)
    (w := intWindow 1) (c := fun _ _ _ _ => true) (d1 := fun i j => (i : Int) + j)
    (d2 := fun i j => (i : Int) + j) (sym1 := true) (sym2 := true) (M := 3) (N := 4) (by decide)
    (by decide) (by decide) (by decide) Sample.byDist_sorts Sample.byDist_sorts hm).2
  exact ⟨⟨pg, S, h1, h2, h3 rfl rfl⟩, by decide +kernel,
    C87_iso Sample.cycle_reached Sample.path_reached (by decide) (by decide) (by decide) true 400,
    by decide +kernel, by decide +kernel⟩

end CM
