import Verif.Lemmas.Stuck
import Verif.Props.MaxClique

/-!
# C85: the bounds given to one call of `Graph.get_max_clique` and the calls after it
-/

namespace CM

open Spec Graph

open Sample (byDegree byDegree_perm)

variable {pg : PyGraph} {n : Nat} {S : SimpleGraph Nat}

/-- **C85**, as far as it is true, and where it is not.  The full property: the bounds given to one
call have no effect on later calls; an exact `get_max_clique()` without bounds returns a maximum
clique.  Proved: it does, whatever searches came before it, if the first one was exact, had no
`lower_bound` or one that some clique exceeds, and no `upper_bound` below the size of a clique.
Otherwise, if its `lower_bound` was too large, it does not: that and every later call returns the
same single vertex, although the graph has an edge (`reset_search` helps, C16).  For upper bounds
see `C85_refuted_upper`. -/
theorem C85_lower_bound_partial (h : Usable pg n S) {srt : List VData → List VData}
    (hsrt : ∀ l, (srt l).Perm l) (a : PyGraph.Args) (hd : a.useDfs = true)
    (ht : a.timeLimit = none) (hlb : 1 ≤ a.lowerBound)
    (hu : ∀ l, IsCliqueList S n l → l.length ≤ a.upperBound)
    {ops : List Op} (hl : ∀ op ∈ ops, op.Legal) (hs : ∀ op ∈ ops, op.IsSearch)
    (hp : ∀ op ∈ ops, op.Positive) {srt' : List VData → List VData}
    (hsrt' : ∀ l, (srt' l).Perm l) (a' : PyGraph.Args) (hlb' : a'.lowerBound = 1) :
    ∃ pg1 r pg2 pg3 l, pg.getMaxClique srt a = .ok (pg1, r) ∧ runs ops pg1 = .ok pg2 ∧
      pg2.getMaxClique srt' a' = .ok (pg3, .ret l) ∧ IsCliqueList S n l ∧
      ((a.lowerBound = 1 ∨ ∃ l', IsCliqueList S n l' ∧ a.lowerBound < l'.length) →
        r = .ret l ∧ IsMaxCliqueList S n l) ∧
      (¬ (a.lowerBound = 1 ∨ ∃ l', IsCliqueList S n l' ∧ a.lowerBound < l'.length) →
        r = .raise ∧ l.length = 1 ∧ ¬ IsMaxCliqueList S n l) := by
  obtain ⟨G, hF⟩ := h.fresh
  obtain ⟨pg1, G1, a1, a2, a3, a4, _, _, a5⟩ := search_exact hF.pyok hsrt a hF.mcs hF.lim hF.loc
    hlb hd (Or.inl ht) (Or.inl ht)
  obtain ⟨pg1', G1', b1, b2, _, _, b3, b4⟩ := search_any hF.pyok hsrt a
  rw [a1] at b1
  injection b1 with b1
  injection b1 with e1 e2
  subst e1
  have hG : G1' = G1 := by
    have := a2.g
    rw [b2.g] at this
    injection this
  subst hG
  have hl0 := b3 hlb hF.loc
  have hst : (stored G).length = 1 := by rw [hF.stored]
  have hcm := hF.cm
  obtain ⟨u, v, huv⟩ := h.edge
  obtain ⟨l2, hl2, hlen⟩ := edge_clique (hF.pyok.of.rng u v huv).1 (hF.pyok.of.rng u v huv).2 huv
  have hstuck : ∀ l, IsCliqueList S n l → l.length ≤ G1'.curMax := by
    intro l hl
    have := hu l hl
    rcases a5 with ⟨c1, c2⟩ | ⟨c1, c2⟩
    · have := c2 l hl
      rcases b4 with ⟨d1, d2⟩ | ⟨d1, d2⟩
      · rw [d2] at c1; omega
      · omega
    · have := c2 l hl
      rcases b4 with ⟨d1, d2⟩ | ⟨d1, d2⟩ <;> omega
  obtain ⟨pg2, G2, f1, f2, f3, f4, f5⟩ := searches_stuck ops a2 hstuck hl0 hl hs hp
  obtain ⟨pg3, G3, g1, g2, _, _, g3, g4⟩ := search_any f2 hsrt' a'
  have g0 := g3 (by omega) f4
  have hS3 : stored G3 = stored G1' := by
    rcases g4 with ⟨c1, c2⟩ | ⟨c1, c2⟩
    · rw [c2, f5]
    · have := f3 _ (stored_clique g2 g0)
      omega
  have hpos := stored_pos g2
  rw [if_neg (by omega), hS3] at g1
  refine ⟨pg1, _, pg2, pg3, _, a1, f1, g1, a4, ?_, ?_⟩
  · intro hx
    have hgt : max a.lowerBound G.curMax < (stored G1').length ∧ ∀ l, IsCliqueList S n l →
          l.length ≤ (stored G1').length ∨ a.upperBound ≤ (stored G1').length := by
      rcases a5 with c | ⟨c1, c2⟩
      · exact c
      · exfalso
        rcases hx with hx | ⟨l', hx1, hx2⟩
        · have := c2 l2 hl2
          have := hu l2 hl2
          omega
        · have := c2 l' hx1
          have := hu l' hx1
          omega
    refine ⟨if_neg (by omega), a4, fun l hl => ?_⟩
    have := hgt.2 l hl
    have := hu l hl
    omega
  · intro hx
    have h2 : a.lowerBound ≠ 1 := fun h => hx (Or.inl h)
    have hno : ∀ l', IsCliqueList S n l' → l'.length ≤ a.lowerBound := fun l' hl' =>
      not_lt.1 fun hlt => hx (Or.inr ⟨l', hl', hlt⟩)
    have h1 : (stored G1').length = 1 := by
      rcases a5 with ⟨c1, _⟩ | ⟨c1, _⟩
      · have := hno _ a4
        omega
      · rw [c1, hst]
    refine ⟨if_pos (by omega), h1, fun hm => ?_⟩
    have := hm.2 l2 hl2
    omega

/-- `C85_lower_bound_partial` on a graph: a bound that works and one that does not. -/
example : (Sample.house.getMaxClique byDegree { lowerBound := 2 } >>= fun x =>
      x.1.getMaxClique byDegree {} >>= fun y => .ok (x.2, y.2)) =
      .ok (.ret [1, 2, 5], .ret [1, 2, 5]) ∧
    (Sample.house.getMaxClique byDegree { lowerBound := 3 } >>= fun x =>
      x.1.getMaxClique byDegree {} >>= fun y => .ok (x.2, y.2)) = .ok (.raise, .ret [3]) := by
  decide +kernel

/-- **C85** is false: a `lower_bound` that is too large makes the next search return one vertex. -/
theorem C85_refuted_lower : Usable Sample.house 5 (ofPairs Sample.houseRows) ∧
    (Sample.house.getMaxClique byDegree { lowerBound := 3 } >>= fun x =>
      x.1.getMaxClique byDegree {} >>= fun y => .ok (x.2, y.2)) = .ok (.raise, .ret [3]) ∧
    IsCliqueList (ofPairs Sample.houseRows) 5 [1, 2, 5] :=
  ⟨Sample.house_usable, by decide +kernel, Sample.house_triangle⟩

/-- **C85** is false: after a call with `upper_bound` the next search finds no more either. -/
theorem C85_refuted_upper : Usable Sample.house 5 (ofPairs Sample.houseRows) ∧
    (Sample.house.getMaxClique byDegree { upperBound := 2 } >>= fun x =>
      x.1.getMaxClique byDegree {} >>= fun y => .ok y.2) = .ok (.ret [2, 3]) ∧
    IsCliqueList (ofPairs Sample.houseRows) 5 [1, 2, 5] :=
  ⟨Sample.house_usable, by decide +kernel, Sample.house_triangle⟩

end CM
