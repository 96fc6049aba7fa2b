import Verif.Props.MaxClique
import Verif.Props.Iteration
import Verif.Props.WeightedIteration

/-!
# Properties: a larger graph

To add vertices or edges, or to raise weights, never makes a clique disappear.
-/

namespace CM

open Spec Graph NWG

section
variable {pg pg' : PyGraph} {n n' : Nat} {S S' : SimpleGraph Nat}

/-- A clique of a graph is one of every graph with more vertices and edges. -/
theorem Spec.IsCliqueList.more {l : List Nat} (h : IsCliqueList S n l) (hn : n ≤ n')
    (hS : ∀ u v, S.Adj u v → S'.Adj u v) : IsCliqueList S' n' l where
  increasing := h.increasing
  range v hv := ⟨(h.range v hv).1, (h.range v hv).2.trans hn⟩
  clique u hu v hv hne := hS u v (h.clique hu hv hne)

/-- **C115** for `get_max_clique()`: on a graph with more vertices or edges the answer is not
smaller. -/
theorem C115_max_clique (h : Usable pg n S) (h' : Usable pg' n' S') (hn : n ≤ n')
    (hS : ∀ u v, S.Adj u v → S'.Adj u v) (hu : ∀ l, IsCliqueList S' n' l → l.length ≤ 65535)
    {srt srt' : List VData → List VData} (hsrt : ∀ l, (srt l).Perm l)
    (hsrt' : ∀ l, (srt' l).Perm l) :
    ∃ q q' l l', pg.getMaxClique srt {} = .ok (q, .ret l) ∧
      pg'.getMaxClique srt' {} = .ok (q', .ret l') ∧ l.length ≤ l'.length := by
  obtain ⟨q, l, a1, a2⟩ := C10_untimed_exact h hsrt {} rfl rfl (fun l hl => hu l (hl.more hn hS))
    (Or.inl rfl)
  obtain ⟨q', l', b1, b2⟩ := C10_untimed_exact h' hsrt' {} rfl rfl hu (Or.inl rfl)
  exact ⟨q, q', l, l', a1, b1, b2.2 _ (a2.1.more hn hS)⟩

/-- **C115** for `list(G.all_cliques(k))` (partial: see `C115_refuted`): a clique without vertex 1 is
still there. -/
theorem C115_list_partial (h : Usable pg n S) (h' : Usable pg' n' S') (hn : n ≤ n')
    (hS : ∀ u v, S.Adj u v → S'.Adj u v) {k : Nat} (hk : 1 ≤ k) :
    ∃ q q' cs cs', pg.listCliques k = .ok (q, cs) ∧ pg'.listCliques k = .ok (q', cs') ∧
      ∀ l ∈ cs, 1 ∉ l ∨ k = 1 → l ∈ cs' := by
  obtain ⟨p, q, cs, a1, a2, a3⟩ := C20_complete_partial h (ops := []) (by simp) (by simp) hk
  obtain ⟨p', q', cs', b1, b2, b3⟩ := C20_without_one_partial h' (ops := []) (by simp) (by simp) hk
  cases a1
  cases b1
  refine ⟨q, q', cs, cs', a2, b2, fun l hl ho => ?_⟩
  obtain ⟨c1, c2, _⟩ := (a3 l).1 hl
  exact b3 l (c1.more hn hS) c2 ho.symm

/-- **C115** is false of `list(G.all_cliques(k))`: the triangle 1, 2, 3 is listed, and is not once
three edges are added. -/
theorem C115_refuted :
    (PyGraph.fromEdgelist true 400 [(1, 2), (1, 3), (2, 3), (1, 4)] 5 >>= fun pg =>
      pg.listCliques 3 >>= fun x => .ok x.2) = .ok [[1, 2, 3]] ∧
    (PyGraph.fromEdgelist true 400 [(1, 2), (1, 3), (2, 3), (1, 4), (2, 4), (2, 5), (3, 5)] 5 >>=
      fun pg => pg.listCliques 3 >>= fun x => .ok x.2) = .ok [[1, 2, 4], [2, 3, 5]] := by
  decide +kernel

end

section
variable {pg pg' : PyNW Rat} {n n' : Nat} {S S' : SimpleGraph Nat} {ω ω' : Nat → Rat}

theorem weight_mono {l : List Nat} (h : ∀ v ∈ l, ω v ≤ ω' v) : weight ω l ≤ weight ω' l := by
  unfold weight
  induction l with
  | nil => exact le_refl _
  | cons x xs ih =>
    simp only [List.map_cons, List.sum_cons]
    exact add_le_add (h x (by simp)) (ih fun v hv => h v (by simp [hv]))

/-- **C115** for the weighted `get_max_clique` (partial: nonnegative weights and, in the larger graph,
no vertex alone; see `C36_refuted` for these): with more vertices or edges, or larger weights, the
answer is not lighter. -/
theorem C115_weighted_partial (h : WUsable pg n S ω) (h' : WUsable pg' n' S' ω')
    (hnn : ∀ v, 1 ≤ v → v ≤ n → 0 ≤ ω v) (hnn' : ∀ v, 1 ≤ v → v ≤ n' → 0 ≤ ω' v) (hn : n ≤ n')
    (hS : ∀ u v, S.Adj u v → S'.Adj u v) (hω : ∀ v, 1 ≤ v → v ≤ n → ω v ≤ ω' v)
    (hiso : ∀ v, 1 ≤ v → v ≤ n → ∃ u, S'.Adj v u)
    (hu : ∀ l, IsCliqueList S' n' l → weight ω' l ≤ 65535)
    (hex : ∃ l, IsCliqueList S n l ∧ 2 ≤ l.length ∧ 1 < weight ω l)
    {srt srt' : List (WData Rat) → List (WData Rat)} (hsrt : ∀ l, (srt l).Perm l)
    (hsrt' : ∀ l, (srt' l).Perm l) (junk junk' : Nat → Rat) :
    ∃ q q' l l', pg.getMaxClique srt junk {} = .ok (q, .ret l) ∧
      pg'.getMaxClique srt' junk' {} = .ok (q', .ret l') ∧ weight ω l ≤ weight ω' l' := by
  have hw : ∀ l, IsCliqueList S n l → weight ω l ≤ weight ω' l := fun l hl =>
    weight_mono fun v hv => hω v (hl.range v hv).1 (hl.range v hv).2
  obtain ⟨q, l, a1, a2, _⟩ := C36_exact_partial h hnn hsrt junk (a := {}) rfl (by decide)
    (fun l hl => (hw l hl).trans (hu l (hl.more hn hS))) hex
  obtain ⟨q', l', b1, b2, _, b4⟩ := C36_exact_partial h' hnn' hsrt' junk' (a := {}) rfl (by decide) hu
    (by
      obtain ⟨l, h1, h2, h3⟩ := hex
      exact ⟨l, h1.more hn hS, h2, lt_of_lt_of_le h3 (hw l h1)⟩)
  refine ⟨q, q', l, l', a1, b1, (hw l a2).trans (b4 l (a2.more hn hS) ?_)⟩
  rintro v rfl
  have := a2.range v (by simp)
  exact hiso v this.1 this.2

end

/-! ## Examples -/

namespace Sample

theorem triangle_kite : ∀ u v, (ofPairs triangleRows).Adj u v → (ofPairs rows).Adj u v := by
  rintro u v ⟨h1, h2⟩
  have : ∀ p ∈ triangleRows, p ∈ rows := by decide
  exact ⟨h1, h2.imp (this _) (this _)⟩

theorem kite_small (l : List Nat) (hl : IsCliqueList (ofPairs rows) 5 l) : l.length ≤ 65535 := by
  have h : l ⊆ List.range 6 := fun v hv => by
    have := hl.range v hv
    rw [List.mem_range]
    omega
  have hnd : l.Nodup := hl.increasing.imp fun h => Nat.ne_of_lt h
  have := (hnd.subperm h).length_le
  rw [List.length_range] at this
  omega

/-- The weighted triangle. -/
def wtriangle : PyNW Rat := get (PyNW.new (R := Rat))
  (PyNW.fromEdgelist true 64 triangleRows 3 [2, 1/2, 1])

theorem wtriangle_eq : PyNW.fromEdgelist true 64 triangleRows 3 [2, 1/2, 1] = .ok wtriangle := by
  decide +kernel

theorem wtriangle_usable :
    WUsable wtriangle 3 (ofPairs triangleRows) (nth ([2, 1/2, 1] : List Rat)) :=
  ⟨.edgelist (by decide) (by decide) wtriangle_eq, wkept (by decide +kernel), 1, 2, by decide,
    Or.inl (by decide)⟩

end Sample

open Sample

/-- The hypotheses of `C115_max_clique` are met by the triangle and the kite. -/
example : ∃ q q' l l', triangle.getMaxClique byDegree {} = .ok (q, .ret l) ∧
    kite.getMaxClique byDegree {} = .ok (q', .ret l') ∧ l.length ≤ l'.length :=
  C115_max_clique triangle_usable kite_usable (by decide) triangle_kite kite_small byDegree_perm
    byDegree_perm

/-- The hypotheses of `C115_weighted_partial` are met by a triangle, and the kite with a larger
weight. -/
example : ∃ q q' l l', wtriangle.getMaxClique byW (fun i => i) {} = .ok (q, .ret l) ∧
    wkite.getMaxClique byW (fun i => i) {} = .ok (q', .ret l') ∧
    weight (nth ([2, 1/2, 1] : List Rat)) l ≤ weight (nth ([2, 1/2, 3, 1, 10] : List Rat)) l' := by
  refine C115_weighted_partial wtriangle_usable wkite_usable (by decide +kernel) wkite_nonneg
    (by decide) triangle_kite (by decide +kernel) ?_ ?_ ?_ byW_perm byW_perm _ _
  · intro v h1 h2
    have : v = 1 ∨ v = 2 ∨ v = 3 := by omega
    rcases this with rfl | rfl | rfl
    · exact ⟨2, by decide, Or.inl (by decide)⟩
    · exact ⟨3, by decide, Or.inl (by decide)⟩
    · exact ⟨4, by decide, Or.inl (by decide)⟩
  · intro l hl
    exact le_trans (weight_le wkite_nonneg hl) (by decide +kernel)
  · exact ⟨[1, 2], Sample.pair_clique (by decide) (by decide) (by decide) (by decide), by decide,
      by decide +kernel⟩

end CM
