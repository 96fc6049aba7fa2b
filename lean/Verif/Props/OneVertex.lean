import Verif.Props.Larger

/-!
# C119: changing the edges of one vertex changes the answer by at most one vertex

`w` is the vertex.  The graphs are compared in one direction; with the two exchanged, the theorems give
the other.
-/

namespace CM

open Spec Graph NWG

/-- Without `w`, what is a clique of one graph is one of the other. -/
theorem Spec.IsCliqueList.without {S S' : SimpleGraph Nat} {n n' : Nat} {l : List Nat}
    (h : IsCliqueList S n l) {w : Nat} (hn : ∀ v, v ≤ n → v ≠ w → v ≤ n')
    (hS : ∀ u v, u ≠ w → v ≠ w → S.Adj u v → S'.Adj u v) :
    IsCliqueList S' n' (l.filter (· ≠ w)) where
  increasing := h.increasing.filter _
  range v hv := by
    rw [List.mem_filter, decide_eq_true_eq] at hv
    exact ⟨(h.range v hv.1).1, hn v (h.range v hv.1).2 hv.2⟩
  clique u hu v hv hne := by
    have hu : u ∈ l.filter (· ≠ w) := hu
    have hv : v ∈ l.filter (· ≠ w) := hv
    rw [List.mem_filter, decide_eq_true_eq] at hu hv
    exact hS u v hu.2 hv.2 (h.clique hu.1 hv.1 hne)

theorem length_without {l : List Nat} (h : l.Nodup) (w : Nat) :
    l.length ≤ (l.filter (· ≠ w)).length + 1 := by
  induction l with
  | nil => simp
  | cons x xs ih =>
    have hx := List.nodup_cons.1 h
    by_cases he : x = w
    · subst he
      have : xs.filter (· ≠ x) = xs := List.filter_eq_self.2 fun v hv => by
        rw [decide_eq_true_eq]
        rintro rfl
        exact hx.1 hv
      rw [List.filter_cons_of_neg (by simp), this, List.length_cons]
    · rw [List.filter_cons_of_pos (by simpa using he), List.length_cons, List.length_cons]
      have := ih hx.2
      omega

section
variable {pg pg' : PyGraph} {n n' : Nat} {S S' : SimpleGraph Nat}

/-- **C119** for `get_max_clique()`: two graphs with the same edges between vertices other than `w`.
The answer of one is larger than that of the other by at most one vertex. -/
theorem C119_max_clique (h : Usable pg n S) (h' : Usable pg' n' S') {w : Nat}
    (hn : ∀ v, v ≤ n → v ≠ w → v ≤ n')
    (hS : ∀ u v, u ≠ w → v ≠ w → S.Adj u v → S'.Adj u v)
    (hu : ∀ l, IsCliqueList S n l → l.length ≤ 65535)
    (hu' : ∀ l, IsCliqueList S' n' l → l.length ≤ 65535)
    {srt srt' : List VData → List VData} (hsrt : ∀ l, (srt l).Perm l)
    (hsrt' : ∀ l, (srt' l).Perm l) :
    ∃ q q' l l', pg.getMaxClique srt {} = .ok (q, .ret l) ∧
      pg'.getMaxClique srt' {} = .ok (q', .ret l') ∧ l.length ≤ l'.length + 1 := by
  obtain ⟨q, l, a1, a2, _⟩ := C10_untimed_exact h hsrt {} rfl rfl hu (Or.inl rfl)
  obtain ⟨q', l', b1, _, b3⟩ := C10_untimed_exact h' hsrt' {} rfl rfl hu' (Or.inl rfl)
  refine ⟨q, q', l, l', a1, b1, ?_⟩
  have := b3 _ (a2.without hn hS)
  have := length_without (a2.increasing.imp fun h => Nat.ne_of_lt h) w
  omega

/-- **C119** for `get_max_clique()` with one edge removed: the answer loses at most one vertex, and
does not grow. -/
theorem C119_one_edge (h : Usable pg n S) (h' : Usable pg' n S') {a b : Nat}
    (hS : ∀ u v, S'.Adj u v ↔ S.Adj u v ∧ s(u, v) ≠ s(a, b))
    (hu : ∀ l, IsCliqueList S n l → l.length ≤ 65535)
    {srt srt' : List VData → List VData} (hsrt : ∀ l, (srt l).Perm l)
    (hsrt' : ∀ l, (srt' l).Perm l) :
    ∃ q q' l l', pg.getMaxClique srt {} = .ok (q, .ret l) ∧
      pg'.getMaxClique srt' {} = .ok (q', .ret l') ∧
      l'.length ≤ l.length ∧ l.length ≤ l'.length + 1 := by
  have hm : ∀ u v, S'.Adj u v → S.Adj u v := fun u v huv => ((hS u v).1 huv).1
  obtain ⟨q', q, l', l, b1, a1, h1⟩ := C115_max_clique h' h (le_refl _) hm hu hsrt' hsrt
  obtain ⟨_, _, m, m', c1, c2, h2⟩ := C119_max_clique h h' (w := a) (fun v hv _ => hv)
    (fun u v hua hva huv => (hS u v).2 ⟨huv, fun he => by
      rw [Sym2.eq_iff] at he
      rcases he with he | he
      · exact hua he.1
      · exact hva he.2⟩)
    hu (fun l hl => hu l (hl.more (le_refl _) hm)) hsrt hsrt'
  rw [a1] at c1
  rw [b1] at c2
  cases c1
  cases c2
  exact ⟨q, q', l, l', a1, b1, h1, h2⟩

end

section
variable {pg pg' : PyNW Rat} {n n' : Nat} {S S' : SimpleGraph Nat} {ω ω' : Nat → Rat}

theorem weight_without {l : List Nat} (h : l.Nodup) {w : Nat} (hw : 0 ≤ ω w) :
    weight ω l ≤ weight ω (l.filter (· ≠ w)) + ω w := by
  unfold weight
  induction l with
  | nil => simpa using hw
  | cons x xs ih =>
    have hx := List.nodup_cons.1 h
    by_cases he : x = w
    · subst he
      have : xs.filter (· ≠ x) = xs := List.filter_eq_self.2 fun v hv => by
        rw [decide_eq_true_eq]
        rintro rfl
        exact hx.1 hv
      rw [List.filter_cons_of_neg (by simp), this, List.map_cons, List.sum_cons, add_comm]
    · rw [List.filter_cons_of_pos (by simpa using he), List.map_cons, List.map_cons, List.sum_cons,
        List.sum_cons]
      have := ih hx.2
      linarith

/-- **C119** for the weighted `get_max_clique` (partial: nonnegative weights, and in the second graph
no vertex alone and a clique heavier than the default `lower_bound`; see `C36_refuted` for these): two
graphs with the same edges between vertices other than `w`, the second with the same or larger weights
on them.  The answer of the first is heavier than that of the second by at most the weight of `w`. -/
theorem C119_weighted_partial (h : WUsable pg n S ω) (h' : WUsable pg' n' S' ω') {w : Nat}
    (hnn : ∀ v, 1 ≤ v → v ≤ n → 0 ≤ ω v) (hnn' : ∀ v, 1 ≤ v → v ≤ n' → 0 ≤ ω' v)
    (hw : 1 ≤ w ∧ w ≤ n) (hn : ∀ v, v ≤ n → v ≠ w → v ≤ n')
    (hS : ∀ u v, u ≠ w → v ≠ w → S.Adj u v → S'.Adj u v)
    (hω : ∀ v, 1 ≤ v → v ≤ n → v ≠ w → ω v ≤ ω' v)
    (hiso : ∀ v, 1 ≤ v → v ≤ n' → ∃ u, S'.Adj v u)
    (hu : ∀ l, IsCliqueList S n l → weight ω l ≤ 65535)
    (hu' : ∀ l, IsCliqueList S' n' l → weight ω' l ≤ 65535)
    (hex : ∃ l, IsCliqueList S n l ∧ 2 ≤ l.length ∧ 1 < weight ω l)
    (hex' : ∃ l, IsCliqueList S' n' l ∧ 2 ≤ l.length ∧ 1 < weight ω' l)
    {srt srt' : List (WData Rat) → List (WData Rat)} (hsrt : ∀ l, (srt l).Perm l)
    (hsrt' : ∀ l, (srt' l).Perm l) (junk junk' : Nat → Rat) :
    ∃ q q' l l', pg.getMaxClique srt junk {} = .ok (q, .ret l) ∧
      pg'.getMaxClique srt' junk' {} = .ok (q', .ret l') ∧ weight ω l ≤ weight ω' l' + ω w := by
  obtain ⟨q, l, a1, a2, _⟩ := C36_exact_partial h hnn hsrt junk (a := {}) rfl (by decide) hu hex
  obtain ⟨q', l', b1, _, _, b4⟩ := C36_exact_partial h' hnn' hsrt' junk' (a := {}) rfl (by decide)
    hu' hex'
  refine ⟨q, q', l, l', a1, b1, ?_⟩
  have hc := a2.without hn hS
  have h1 := b4 _ hc (fun v hv => by
    have := hc.range v (by rw [hv]; simp)
    exact hiso v this.1 this.2)
  have h2 := weight_without (ω := ω) (w := w) (a2.increasing.imp fun h => Nat.ne_of_lt h)
    (hnn w hw.1 hw.2)
  have h3 : weight ω (l.filter (· ≠ w)) ≤ weight ω' (l.filter (· ≠ w)) := weight_mono fun v hv => by
    rw [List.mem_filter, decide_eq_true_eq] at hv
    have := a2.range v hv.1
    exact hω v this.1 this.2 hv.2
  linarith

end

/-! ## Examples -/

namespace Sample

/-- The kite without the edge 1-2. -/
def cutRows : List (Nat × Nat) := rows.filter (fun p => p ≠ (1, 2) ∧ p ≠ (2, 1))

/-- The object for `cutRows`. -/
def cutKite : PyGraph := get PyGraph.new (PyGraph.fromEdgelist true 400 cutRows 5)

theorem cutKite_usable : Usable cutKite 5 (ofPairs cutRows) := by
  refine ⟨.edgelist (argLR := true) (cap := 400) (by decide) (by decide) (by decide +kernel), ?_,
    1, 3, by decide, by decide⟩
  intro G hG
  have : (cutKite.G.map fun G => G.dangling) = some false := by decide +kernel
  rw [hG] at this
  simpa using this

theorem cut_adj (u v : Nat) : (ofPairs cutRows).Adj u v ↔
    (ofPairs rows).Adj u v ∧ s(u, v) ≠ s(1, 2) := by
  have hm : ∀ x y : Nat, (x, y) ∈ cutRows ↔ (x, y) ∈ rows ∧ s(x, y) ≠ s(1, 2) := by
    intro x y
    unfold cutRows
    rw [List.mem_filter, decide_eq_true_eq, ne_eq, ne_eq, ne_eq, Sym2.eq_iff, Prod.mk.injEq,
      Prod.mk.injEq, not_or]
  constructor
  · rintro ⟨h1, h2 | h2⟩
    · exact ⟨⟨h1, Or.inl ((hm _ _).1 h2).1⟩, ((hm _ _).1 h2).2⟩
    · exact ⟨⟨h1, Or.inr ((hm _ _).1 h2).1⟩, by rw [Sym2.eq_swap]; exact ((hm _ _).1 h2).2⟩
  · rintro ⟨⟨h1, h2 | h2⟩, h3⟩
    · exact ⟨h1, Or.inl ((hm _ _).2 ⟨h2, h3⟩)⟩
    · exact ⟨h1, Or.inr ((hm _ _).2 ⟨h2, by rw [Sym2.eq_swap]; exact h3⟩)⟩

/-- The weighted kite without that edge, and with another weight of vertex 1. -/
def wcutKite : PyNW Rat := get (PyNW.new (R := Rat))
  (PyNW.fromEdgelist true 400 cutRows 5 [1, 1/2, 3, 1, 10])

theorem wcutKite_usable : WUsable wcutKite 5 (ofPairs cutRows) (nth ([1, 1/2, 3, 1, 10] : List Rat)) :=
  ⟨.edgelist (argLR := true) (cap := 400) (by decide) (by decide) (by decide +kernel),
    wkept (by decide +kernel), 1, 3, by decide, by decide⟩

theorem wcut_nonneg : ∀ v, 1 ≤ v → v ≤ 5 → (0 : Rat) ≤ nth ([1, 1/2, 3, 1, 10] : List Rat) v := by
  decide +kernel

end Sample

open Sample

/-- The hypotheses of `C119_one_edge` and `C119_max_clique` are met by the kite and one edge of it. -/
example : ∃ q q' l l', kite.getMaxClique byDegree {} = .ok (q, .ret l) ∧
    cutKite.getMaxClique byDegree {} = .ok (q', .ret l') ∧
    l'.length ≤ l.length ∧ l.length ≤ l'.length + 1 :=
  C119_one_edge kite_usable cutKite_usable cut_adj kite_small byDegree_perm byDegree_perm

/-- On this graph, the answer does lose a vertex. -/
example : (kite.getMaxClique byDegree {} >>= fun x => .ok x.2) = .ok (.ret [1, 2, 3, 4]) ∧
    (cutKite.getMaxClique byDegree {} >>= fun x => .ok x.2) = .ok (.ret [1, 3, 4]) := by
  decide +kernel

/-- The hypotheses of `C119_weighted_partial` are met. -/
example : ∃ q q' l l', wkite.getMaxClique byW (fun i => i) {} = .ok (q, .ret l) ∧
    wcutKite.getMaxClique byW (fun i => i) {} = .ok (q', .ret l') ∧
    weight (nth ([2, 1/2, 3, 1, 10] : List Rat)) l ≤
      weight (nth ([1, 1/2, 3, 1, 10] : List Rat)) l' + nth ([2, 1/2, 3, 1, 10] : List Rat) 1 := by
  refine C119_weighted_partial wkite_usable wcutKite_usable (w := 1) wkite_nonneg wcut_nonneg
    (by decide) (fun v hv _ => hv) ?_ ?_ ?_ ?_ ?_ ?_ ?_ byW_perm byW_perm _ _
  · intro u v hu hv huv
    refine (cut_adj u v).2 ⟨huv, fun he => ?_⟩
    rw [Sym2.eq_iff] at he
    omega
  · decide +kernel
  · intro v h1 h2
    have : v = 1 ∨ v = 2 ∨ v = 3 ∨ v = 4 ∨ v = 5 := by omega
    rcases this with rfl | rfl | rfl | rfl | rfl
    · exact ⟨3, by decide, by decide⟩
    · exact ⟨3, by decide, by decide⟩
    · exact ⟨4, by decide, by decide⟩
    · exact ⟨3, by decide, by decide⟩
    · exact ⟨4, by decide, by decide⟩
  · intro l hl
    exact le_trans (weight_le wkite_nonneg hl) (by decide +kernel)
  · intro l hl
    exact le_trans (weight_le wcut_nonneg hl) (by decide +kernel)
  · exact ⟨[3, 4], Sample.pair_clique (by decide) (by decide) (by decide) (by decide), by decide,
      by decide +kernel⟩
  · exact ⟨[3, 4], Sample.pair_clique (by decide) (by decide) (by decide) (by decide), by decide,
      by decide +kernel⟩

end CM
