import Verif.Lemmas.Stuck
import Verif.Props.OneVertex

/-!
# C121: graphs made of two parts

`P` tells the vertices of the first part.  The graphs of the parts keep the numbering of the whole graph.
-/

namespace CM

open Spec Graph NWG Sample

variable {pg pg1 pg2 : PyGraph} {n : Nat} {S S1 S2 : SimpleGraph Nat} {P : Nat → Bool}

/-- Vertices of a clique that are in one part are a clique of that part. -/
theorem Spec.IsCliqueList.inPart {l : List Nat} (h : IsCliqueList S n l) {Q : Nat → Bool}
    {T : SimpleGraph Nat} (hT : ∀ u v, T.Adj u v ↔ S.Adj u v ∧ Q u = true ∧ Q v = true) :
    IsCliqueList T n (l.filter Q) where
  increasing := h.increasing.filter _
  range v hv := h.range v (List.mem_filter.1 hv).1
  clique u hu v hv hne := by
    have hu := List.mem_filter.1 (show u ∈ l.filter Q from hu)
    have hv := List.mem_filter.1 (show v ∈ l.filter Q from hv)
    exact (hT u v).2 ⟨h.clique hu.1 hv.1 hne, hu.2, hv.2⟩

/-- A clique of a part with two or more vertices is inside it. -/
theorem Spec.IsCliqueList.inside {l : List Nat} {Q : Nat → Bool} {T : SimpleGraph Nat}
    (h : IsCliqueList T n l) (hT : ∀ u v, T.Adj u v ↔ S.Adj u v ∧ Q u = true ∧ Q v = true)
    (h2 : 2 ≤ l.length) : ∀ v ∈ l, Q v = true := by
  have hnd : l.Nodup := h.increasing.imp fun h => Nat.ne_of_lt h
  intro v hv
  obtain ⟨u, hu, hne⟩ : ∃ u ∈ l, u ≠ v := by
    by_contra hno
    have hall : ∀ u ∈ l, u = v := fun u hu => by
      by_contra hn
      exact hno ⟨u, hu, hn⟩
    match l, h2, hnd, hall with
    | a :: b :: t, _, hnd, hall =>
      have ha := hall a (by simp)
      have hb := hall b (by simp)
      subst ha
      subst hb
      simp at hnd
  exact ((hT u v).1 (h.clique hu hv hne)).2.2

/-- A clique of a part is a clique of the whole graph. -/
theorem Spec.IsCliqueList.whole {l : List Nat} {Q : Nat → Bool} {T : SimpleGraph Nat}
    (h : IsCliqueList T n l) (hT : ∀ u v, T.Adj u v ↔ S.Adj u v ∧ Q u = true ∧ Q v = true) :
    IsCliqueList S n l where
  increasing := h.increasing
  range := h.range
  clique _ hu _ hv hne := ((hT _ _).1 (h.clique hu hv hne)).1

/-- A graph with an edge has a clique with two vertices. -/
theorem two_le {pg : PyGraph} (h : Usable pg n S) {l : List Nat}
    (hl : ∀ l', IsCliqueList S n l' → l'.length ≤ l.length) : 2 ≤ l.length := by
  obtain ⟨u, v, huv⟩ := h.edge
  obtain ⟨G, hF⟩ := h.fresh
  have hr := hF.pyok.of.rng u v huv
  obtain ⟨l', h1, h2⟩ := edge_clique hr.1 hr.2 huv
  rw [← h2]
  exact hl l' h1

/-- Two cliques with all edges between them and no common vertex make a clique. -/
theorem join_clique {l1 l2 : List Nat} (b : IsCliqueList S n l1) (c : IsCliqueList S n l2)
    (hj : ∀ u ∈ l1, ∀ v ∈ l2, S.Adj u v) :
    ∃ l, IsCliqueList S n l ∧ l.length = l1.length + l2.length := by
  have n1 : l1.Nodup := b.increasing.imp fun h => Nat.ne_of_lt h
  have n2 : l2.Nodup := c.increasing.imp fun h => Nat.ne_of_lt h
  have nd : (l1 ++ l2).Nodup := List.nodup_append.2 ⟨n1, n2, fun u hu v hv => (hj u hu v hv).ne⟩
  have hinc : ((List.range' 1 n).filter fun v => decide (v ∈ l1 ++ l2)).Pairwise (· < ·) :=
    (List.pairwise_lt_range' (s := 1) (n := n)).filter _
  have hrg : ∀ v ∈ l1 ++ l2, 1 ≤ v ∧ v ≤ n := fun v hv => by
    rcases List.mem_append.1 hv with h | h
    · exact b.range v h
    · exact c.range v h
  have hmem : ∀ v, v ∈ (List.range' 1 n).filter (fun v => decide (v ∈ l1 ++ l2)) ↔
      v ∈ l1 ++ l2 := fun v => by
    rw [List.mem_filter, decide_eq_true_eq, List.mem_range'_1]
    refine ⟨fun h => h.2, fun h => ⟨?_, h⟩⟩
    have := hrg v h
    omega
  have hp := (List.perm_ext_iff_of_nodup (hinc.imp fun h => Nat.ne_of_lt h) nd).2 hmem
  refine ⟨_, ⟨hinc, fun v hv => hrg v ((hmem v).1 hv), ?_⟩, by rw [hp.length_eq, List.length_append]⟩
  intro u hu v hv hne
  rcases List.mem_append.1 ((hmem u).1 hu) with hu | hu <;>
    rcases List.mem_append.1 ((hmem v).1 hv) with hv | hv
  · exact b.clique hu hv hne
  · exact hj u hu v hv
  · exact (hj v hv u hu).symm
  · exact c.clique hu hv hne

/-- **C121**, two parts with no edge between them: `get_max_clique()` returns as many vertices as for the
part with the larger clique. -/
theorem C121_apart (h : Usable pg n S) (h1 : Usable pg1 n S1) (h2 : Usable pg2 n S2)
    (e1 : ∀ u v, S1.Adj u v ↔ S.Adj u v ∧ P u = true ∧ P v = true)
    (e2 : ∀ u v, S2.Adj u v ↔ S.Adj u v ∧ (!P u) = true ∧ (!P v) = true)
    (hno : ∀ u v, P u = true → P v = false → ¬ S.Adj u v)
    (hu : ∀ l, IsCliqueList S n l → l.length ≤ 65535)
    {srt srt1 srt2 : List VData → List VData} (hsrt : ∀ l, (srt l).Perm l)
    (hsrt1 : ∀ l, (srt1 l).Perm l) (hsrt2 : ∀ l, (srt2 l).Perm l) :
    ∃ q q1 q2 l l1 l2, pg.getMaxClique srt {} = .ok (q, .ret l) ∧
      pg1.getMaxClique srt1 {} = .ok (q1, .ret l1) ∧ pg2.getMaxClique srt2 {} = .ok (q2, .ret l2) ∧
      l.length = max l1.length l2.length := by
  obtain ⟨q, l, a1, a2, a3⟩ := C10_untimed_exact h hsrt {} rfl rfl hu (Or.inl rfl)
  obtain ⟨q1, l1, b1, b2, b3⟩ := C10_untimed_exact h1 hsrt1 {} rfl rfl
    (fun l hl => hu l (hl.whole e1)) (Or.inl rfl)
  obtain ⟨q2, l2, c1, c2, c3⟩ := C10_untimed_exact h2 hsrt2 {} rfl rfl
    (fun l hl => hu l (hl.whole (Q := fun v => !P v) e2)) (Or.inl rfl)
  refine ⟨q, q1, q2, l, l1, l2, a1, b1, c1, le_antisymm ?_ (max_le (a3 _ (b2.whole e1))
    (a3 _ (c2.whole (Q := fun v => !P v) e2)))⟩
  by_cases hp : ∃ u ∈ l, P u = true
  · obtain ⟨u, hul, hup⟩ := hp
    have hall : l.filter P = l := List.filter_eq_self.2 fun v hv => by
      by_contra hn
      have hn : P v = false := Bool.eq_false_iff.2 hn
      refine hno u v hup hn (a2.clique hul hv ?_)
      rintro rfl
      rw [hup] at hn
      cases hn
    have := b3 _ (a2.inPart e1)
    rw [hall] at this
    exact le_max_of_le_left this
  · have hall : l.filter (fun v => !P v) = l := List.filter_eq_self.2 fun v hv => by
      rw [Bool.not_eq_true', Bool.eq_false_iff]
      exact fun hn => hp ⟨v, hv, hn⟩
    have := c3 _ (a2.inPart (Q := fun v => !P v) e2)
    rw [hall] at this
    exact le_max_of_le_right this

/-- **C121**, two parts with all edges between them: `get_max_clique()` returns as many vertices as for
both parts together. -/
theorem C121_joined (h : Usable pg n S) (h1 : Usable pg1 n S1) (h2 : Usable pg2 n S2)
    (e1 : ∀ u v, S1.Adj u v ↔ S.Adj u v ∧ P u = true ∧ P v = true)
    (e2 : ∀ u v, S2.Adj u v ↔ S.Adj u v ∧ (!P u) = true ∧ (!P v) = true)
    (hall : ∀ u v, 1 ≤ u → u ≤ n → 1 ≤ v → v ≤ n → P u = true → P v = false → S.Adj u v)
    (hu : ∀ l, IsCliqueList S n l → l.length ≤ 65535)
    {srt srt1 srt2 : List VData → List VData} (hsrt : ∀ l, (srt l).Perm l)
    (hsrt1 : ∀ l, (srt1 l).Perm l) (hsrt2 : ∀ l, (srt2 l).Perm l) :
    ∃ q q1 q2 l l1 l2, pg.getMaxClique srt {} = .ok (q, .ret l) ∧
      pg1.getMaxClique srt1 {} = .ok (q1, .ret l1) ∧ pg2.getMaxClique srt2 {} = .ok (q2, .ret l2) ∧
      l.length = l1.length + l2.length := by
  obtain ⟨q, l, a1, a2, a3⟩ := C10_untimed_exact h hsrt {} rfl rfl hu (Or.inl rfl)
  obtain ⟨q1, l1, b1, b2, b3⟩ := C10_untimed_exact h1 hsrt1 {} rfl rfl
    (fun l hl => hu l (hl.whole e1)) (Or.inl rfl)
  obtain ⟨q2, l2, c1, c2, c3⟩ := C10_untimed_exact h2 hsrt2 {} rfl rfl
    (fun l hl => hu l (hl.whole (Q := fun v => !P v) e2)) (Or.inl rfl)
  refine ⟨q, q1, q2, l, l1, l2, a1, b1, c1, le_antisymm ?_ ?_⟩
  · have k1 := b3 _ (a2.inPart e1)
    have k2 := c3 _ (a2.inPart (Q := fun v => !P v) e2)
    have := (List.filter_append_perm P l).length_eq
    rw [List.length_append] at this
    omega
  · have i1 := b2.inside e1 (two_le h1 b3)
    have i2 := c2.inside (Q := fun v => !P v) e2 (two_le h2 c3)
    obtain ⟨m, m1, m2⟩ := join_clique (b2.whole e1) (c2.whole (Q := fun v => !P v) e2)
      fun u hu v hv => hall u v (b2.range u hu).1 (b2.range u hu).2 (c2.range v hv).1
        (c2.range v hv).2 (i1 u hu) (by simpa using i2 v hv)
    rw [← m2]
    exact a3 m m1

/-- **C121**, a vertex `w` adjacent to all others: without its edges `get_max_clique()` returns exactly
one vertex less. -/
theorem C121_vertex (h : Usable pg n S) (h1 : Usable pg1 n S1) {w : Nat} (hw : 1 ≤ w ∧ w ≤ n)
    (e1 : ∀ u v, S1.Adj u v ↔ S.Adj u v ∧ u ≠ w ∧ v ≠ w)
    (hall : ∀ u, 1 ≤ u → u ≤ n → u ≠ w → S.Adj u w)
    (hu : ∀ l, IsCliqueList S n l → l.length ≤ 65535)
    {srt srt1 : List VData → List VData} (hsrt : ∀ l, (srt l).Perm l)
    (hsrt1 : ∀ l, (srt1 l).Perm l) :
    ∃ q q1 l l1, pg.getMaxClique srt {} = .ok (q, .ret l) ∧
      pg1.getMaxClique srt1 {} = .ok (q1, .ret l1) ∧ l.length = l1.length + 1 := by
  have e1' : ∀ u v, S1.Adj u v ↔ S.Adj u v ∧ decide (u ≠ w) = true ∧ decide (v ≠ w) = true := by
    simpa only [decide_eq_true_eq] using e1
  obtain ⟨q, q1, l, l1, a1, b1, a2⟩ := C119_max_clique h h1 (w := w) (fun v hv _ => hv)
    (fun u v hu hv huv => (e1 u v).2 ⟨huv, hu, hv⟩) hu
    (fun l hl => hu l (hl.whole (Q := fun v => decide (v ≠ w)) e1')) hsrt hsrt1
  refine ⟨q, q1, l, l1, a1, b1, le_antisymm a2 ?_⟩
  obtain ⟨_, l', c1, _, c3⟩ := C10_untimed_exact h hsrt {} rfl rfl hu (Or.inl rfl)
  obtain ⟨_, l1', d1, d2, d3⟩ := C10_untimed_exact h1 hsrt1 {} rfl rfl
    (fun l hl => hu l (hl.whole (Q := fun v => decide (v ≠ w)) e1')) (Or.inl rfl)
  rw [a1] at c1
  rw [b1] at d1
  cases c1
  cases d1
  have i1 := d2.inside (Q := fun v => decide (v ≠ w)) e1' (two_le h1 d3)
  obtain ⟨m, m1, m2⟩ := join_clique (d2.whole (Q := fun v => decide (v ≠ w)) e1')
    (l2 := [w]) ⟨by simp, by simpa using hw, by simp [SimpleGraph.IsClique]⟩ fun u hu v hv => by
      rw [List.mem_singleton] at hv
      subst hv
      exact hall u (d2.range u hu).1 (d2.range u hu).2 (by simpa using i1 u hu)
  have := c3 m m1
  rw [m2] at this
  exact this

/-- The heaviest clique of two parts with no edge between them is the heavier of those of the parts. -/
theorem parts_max {ω : Nat → Rat} {l l1 l2 : List Nat}
    (e1 : ∀ u v, S1.Adj u v ↔ S.Adj u v ∧ P u = true ∧ P v = true)
    (e2 : ∀ u v, S2.Adj u v ↔ S.Adj u v ∧ (!P u) = true ∧ (!P v) = true)
    (hno : ∀ u v, P u = true → P v = false → ¬ S.Adj u v)
    (hiso : ∀ v, 1 ≤ v → v ≤ n → ∃ u, S.Adj v u) (a2 : IsCliqueList S n l)
    (a3 : ∀ l', IsCliqueList S n l' → (∀ v, l' = [v] → ∃ u, S.Adj v u) → weight ω l' ≤ weight ω l)
    (b2 : IsCliqueList S1 n l1)
    (b3 : ∀ l', IsCliqueList S1 n l' → (∀ v, l' = [v] → ∃ u, S1.Adj v u) →
      weight ω l' ≤ weight ω l1)
    (c2 : IsCliqueList S2 n l2)
    (c3 : ∀ l', IsCliqueList S2 n l' → (∀ v, l' = [v] → ∃ u, S2.Adj v u) →
      weight ω l' ≤ weight ω l2) :
    weight ω l = max (weight ω l1) (weight ω l2) := by
  have alone : ∀ l', IsCliqueList S n l' → ∀ v, l' = [v] → ∃ u, S.Adj v u := fun l' hl v hv => by
    have := hl.range v (by rw [hv]; simp)
    exact hiso v this.1 this.2
  refine le_antisymm ?_ (max_le (a3 _ (b2.whole e1) (alone _ (b2.whole e1)))
    (a3 _ (c2.whole (Q := fun v => !P v) e2) (alone _ (c2.whole (Q := fun v => !P v) e2))))
  by_cases hp : ∃ u ∈ l, P u = true
  · obtain ⟨u, hul, hup⟩ := hp
    have hall : l.filter P = l := List.filter_eq_self.2 fun v hv => by
      by_contra hn
      have hn : P v = false := Bool.eq_false_iff.2 hn
      refine hno u v hup hn (a2.clique hul hv ?_)
      rintro rfl
      rw [hup] at hn
      cases hn
    have hc := a2.inPart e1
    rw [hall] at hc
    refine le_max_of_le_left (b3 _ hc fun v hv => ?_)
    obtain ⟨w, hw⟩ := alone l a2 v hv
    have hv : P v = true := by
      rw [hv, List.mem_singleton] at hul
      rw [← hul]
      exact hup
    refine ⟨w, (e1 v w).2 ⟨hw, hv, ?_⟩⟩
    by_contra hn
    exact hno v w hv (Bool.eq_false_iff.2 hn) hw
  · have hq : ∀ v ∈ l, P v = false := fun v hv => Bool.eq_false_iff.2 fun hn => hp ⟨v, hv, hn⟩
    have hall : l.filter (fun v => !P v) = l := List.filter_eq_self.2 fun v hv => by
      rw [hq v hv]
      rfl
    have hc := a2.inPart (Q := fun v => !P v) e2
    rw [hall] at hc
    refine le_max_of_le_right (c3 _ hc fun v hv => ?_)
    obtain ⟨w, hw⟩ := alone l a2 v hv
    have hv : P v = false := hq v (by rw [hv]; simp)
    refine ⟨w, (e2 v w).2 ⟨hw, by rw [hv]; rfl, ?_⟩⟩
    rw [Bool.not_eq_true', Bool.eq_false_iff]
    exact fun hn => hno w v hn hv hw.symm

section
variable {wg wg1 wg2 : PyNW Rat} {ω : Nat → Rat}

/-- **C121** for weighted graphs, two parts with no edge between them: `get_max_clique()` returns a clique
as heavy as that of the part with the heavier one.  Weights are nonnegative, no vertex is alone, no clique
is heavier than the default `upper_bound`, and each part has a clique heavier than the default
`lower_bound` (see `C36_refuted_isolated`, `C36_refuted_heavy` and `C36_refuted_light`). -/
theorem C121_weighted (h : WUsable wg n S ω) (h1 : WUsable wg1 n S1 ω) (h2 : WUsable wg2 n S2 ω)
    (e1 : ∀ u v, S1.Adj u v ↔ S.Adj u v ∧ P u = true ∧ P v = true)
    (e2 : ∀ u v, S2.Adj u v ↔ S.Adj u v ∧ (!P u) = true ∧ (!P v) = true)
    (hno : ∀ u v, P u = true → P v = false → ¬ S.Adj u v)
    (hnn : ∀ v, 1 ≤ v → v ≤ n → 0 ≤ ω v) (hiso : ∀ v, 1 ≤ v → v ≤ n → ∃ u, S.Adj v u)
    (hu : ∀ l, IsCliqueList S n l → weight ω l ≤ 65535)
    (hex1 : ∃ l, IsCliqueList S1 n l ∧ 2 ≤ l.length ∧ 1 < weight ω l)
    (hex2 : ∃ l, IsCliqueList S2 n l ∧ 2 ≤ l.length ∧ 1 < weight ω l)
    {srt srt1 srt2 : List (WData Rat) → List (WData Rat)} (hsrt : ∀ l, (srt l).Perm l)
    (hsrt1 : ∀ l, (srt1 l).Perm l) (hsrt2 : ∀ l, (srt2 l).Perm l) (junk junk1 junk2 : Nat → Rat) :
    ∃ q q1 q2 l l1 l2, wg.getMaxClique srt junk {} = .ok (q, .ret l) ∧
      wg1.getMaxClique srt1 junk1 {} = .ok (q1, .ret l1) ∧
      wg2.getMaxClique srt2 junk2 {} = .ok (q2, .ret l2) ∧
      weight ω l = max (weight ω l1) (weight ω l2) := by
  have hex : ∃ l, IsCliqueList S n l ∧ 2 ≤ l.length ∧ 1 < weight ω l := by
    obtain ⟨l, a, b⟩ := hex1
    exact ⟨l, a.whole e1, b⟩
  obtain ⟨q, l, a1, a2, _, a3⟩ := C36_exact_partial h hnn hsrt junk (a := {}) rfl (by decide) hu hex
  obtain ⟨q1, l1, b1, b2, _, b3⟩ := C36_exact_partial h1 hnn hsrt1 junk1 (a := {}) rfl (by decide)
    (fun l hl => hu l (hl.whole e1)) hex1
  obtain ⟨q2, l2, c1, c2, _, c3⟩ := C36_exact_partial h2 hnn hsrt2 junk2 (a := {}) rfl (by decide)
    (fun l hl => hu l (hl.whole (Q := fun v => !P v) e2)) hex2
  exact ⟨q, q1, q2, l, l1, l2, a1, b1, c1, parts_max e1 e2 hno hiso a2 a3 b2 b3 c2 c3⟩

end

/-! ## Examples -/

namespace Sample

/-- The graph with five vertices and the edges `rs`. -/
def onFive (rs : List (Nat × Nat)) : PyGraph := get PyGraph.new (PyGraph.fromEdgelist true 64 rs 5)

theorem part_small {T : SimpleGraph Nat} (l : List Nat) (hl : IsCliqueList T 5 l) :
    l.length ≤ 65535 := by
  have h : l ⊆ List.range 6 := fun v hv => by
    have := hl.range v hv
    rw [List.mem_range]
    omega
  have hnd : l.Nodup := hl.increasing.imp fun h => Nat.ne_of_lt h
  have := (hnd.subperm h).length_le
  rw [List.length_range] at this
  omega

theorem part_usable (rs : List (Nat × Nat)) (h1 : rs.length < 2 ^ 56)
    (h2 : PyGraph.fromEdgelist true 64 rs 5 = .ok (onFive rs))
    (h3 : ((onFive rs).G.map fun G => G.dangling) = some false)
    (h4 : ∃ p ∈ rs, p.1 ≠ p.2) : Usable (onFive rs) 5 (ofPairs rs) := by
  refine ⟨.edgelist (by decide) h1 h2, ?_, ?_⟩
  · intro G hG
    rw [hG] at h3
    simpa using h3
  · obtain ⟨p, hp, hne⟩ := h4
    exact ⟨p.1, p.2, hne, Or.inl hp⟩

theorem part_rows (A B : List (Nat × Nat)) (Q : Nat → Bool)
    (h : B = A.filter fun p => Q p.1 && Q p.2) (u v : Nat) :
    (ofPairs B).Adj u v ↔ (ofPairs A).Adj u v ∧ Q u = true ∧ Q v = true := by
  subst h
  constructor
  · rintro ⟨h1, h2 | h2⟩ <;> rw [List.mem_filter, Bool.and_eq_true] at h2
    · exact ⟨⟨h1, Or.inl h2.1⟩, h2.2⟩
    · exact ⟨⟨h1, Or.inr h2.1⟩, h2.2.symm⟩
  · rintro ⟨⟨h1, h2 | h2⟩, h3⟩
    · exact ⟨h1, Or.inl (List.mem_filter.2 ⟨h2, Bool.and_eq_true _ _ ▸ h3⟩)⟩
    · exact ⟨h1, Or.inr (List.mem_filter.2 ⟨h2, Bool.and_eq_true _ _ ▸ h3.symm⟩)⟩

theorem all_rows (A : List (Nat × Nat)) (Q : Nat → Bool)
    (h : ∀ u ∈ [1, 2, 3, 4, 5], ∀ v ∈ [1, 2, 3, 4, 5], Q u = false ∨ Q v = true ∨
      u ≠ v ∧ ((u, v) ∈ A ∨ (v, u) ∈ A)) (u v : Nat) (h1 : 1 ≤ u) (h2 : u ≤ 5) (h3 : 1 ≤ v)
    (h4 : v ≤ 5) (h5 : Q u = true) (h6 : Q v = false) : (ofPairs A).Adj u v := by
  have key : ∀ w, 1 ≤ w → w ≤ 5 → w ∈ [1, 2, 3, 4, 5] := fun w a b => by
    simp only [List.mem_cons, List.not_mem_nil, or_false]
    omega
  rcases h u (key u h1 h2) v (key v h3 h4) with h | h | h
  · rw [h5] at h
    cases h
  · rw [h6] at h
    cases h
  · exact h

/-- A triangle and an edge. -/
def apartRows : List (Nat × Nat) := [(1, 2), (1, 3), (2, 3), (4, 5)]

theorem apart_no (u v : Nat) (hu : decide (u ≤ 3) = true) (hv : decide (v ≤ 3) = false) :
    ¬ (ofPairs apartRows).Adj u v := fun h => by
  have key : ∀ p ∈ apartRows, decide (p.1 ≤ 3) = decide (p.2 ≤ 3) := by decide
  rcases h.2 with h | h
  · exact absurd ((key _ h).symm.trans hu) (by simp only [hv]; decide)
  · exact absurd ((key _ h).trans hu) (by simp only [hv]; decide)

/-- An edge and a triangle, with all edges between them. -/
def joinedRows : List (Nat × Nat) :=
  [(1, 2), (3, 4), (3, 5), (4, 5), (1, 3), (1, 4), (1, 5), (2, 3), (2, 4), (2, 5)]

/-- The path 1, 2, 3, 4, and vertex 5. -/
def fanRows : List (Nat × Nat) := [(1, 2), (2, 3), (3, 4), (1, 5), (2, 5), (3, 5), (4, 5)]

theorem apart_usable : Usable (onFive apartRows) 5 (ofPairs apartRows) :=
  part_usable _ (by decide) (by decide +kernel) (by decide +kernel) (by decide)

theorem apart1_usable : Usable (onFive [(1, 2), (1, 3), (2, 3)]) 5
    (ofPairs [(1, 2), (1, 3), (2, 3)]) :=
  part_usable _ (by decide) (by decide +kernel) (by decide +kernel) (by decide)

theorem apart2_usable : Usable (onFive [(4, 5)]) 5 (ofPairs [(4, 5)]) :=
  part_usable _ (by decide) (by decide +kernel) (by decide +kernel) (by decide)

theorem joined_usable : Usable (onFive joinedRows) 5 (ofPairs joinedRows) :=
  part_usable _ (by decide) (by decide +kernel) (by decide +kernel) (by decide)

theorem joined1_usable : Usable (onFive [(1, 2)]) 5 (ofPairs [(1, 2)]) :=
  part_usable _ (by decide) (by decide +kernel) (by decide +kernel) (by decide)

theorem joined2_usable : Usable (onFive [(3, 4), (3, 5), (4, 5)]) 5
    (ofPairs [(3, 4), (3, 5), (4, 5)]) :=
  part_usable _ (by decide) (by decide +kernel) (by decide +kernel) (by decide)

theorem fan_usable : Usable (onFive fanRows) 5 (ofPairs fanRows) :=
  part_usable _ (by decide) (by decide +kernel) (by decide +kernel) (by decide)

theorem fan1_usable : Usable (onFive [(1, 2), (2, 3), (3, 4)]) 5 (ofPairs [(1, 2), (2, 3), (3, 4)]) :=
  part_usable _ (by decide) (by decide +kernel) (by decide +kernel) (by decide)

end Sample

/-- The hypotheses of `C121_apart` are met by a triangle and an edge. -/
example : ∃ q q1 q2 l l1 l2,
    (onFive apartRows).getMaxClique byDegree {} = .ok (q, .ret l) ∧
    (onFive [(1, 2), (1, 3), (2, 3)]).getMaxClique byDegree {} = .ok (q1, .ret l1) ∧
    (onFive [(4, 5)]).getMaxClique byDegree {} = .ok (q2, .ret l2) ∧
    l.length = max l1.length l2.length :=
  C121_apart (P := fun v => decide (v ≤ 3)) apart_usable apart1_usable apart2_usable
    (part_rows _ _ _ (by decide)) (part_rows _ _ (fun v => !decide (v ≤ 3)) (by decide))
    apart_no part_small byDegree_perm byDegree_perm byDegree_perm

/-- The hypotheses of `C121_joined` are met by an edge and a triangle. -/
example : ∃ q q1 q2 l l1 l2,
    (onFive joinedRows).getMaxClique byDegree {} = .ok (q, .ret l) ∧
    (onFive [(1, 2)]).getMaxClique byDegree {} = .ok (q1, .ret l1) ∧
    (onFive [(3, 4), (3, 5), (4, 5)]).getMaxClique byDegree {} = .ok (q2, .ret l2) ∧
    l.length = l1.length + l2.length :=
  C121_joined (P := fun v => decide (v ≤ 2)) joined_usable joined1_usable joined2_usable
    (part_rows _ _ _ (by decide)) (part_rows _ _ (fun v => !decide (v ≤ 2)) (by decide))
    (all_rows _ _ (by decide)) part_small byDegree_perm byDegree_perm byDegree_perm

/-- The hypotheses of `C121_vertex` are met by vertex 5 and the path 1, 2, 3, 4. -/
example : ∃ q q1 l l1, (onFive fanRows).getMaxClique byDegree {} = .ok (q, .ret l) ∧
    (onFive [(1, 2), (2, 3), (3, 4)]).getMaxClique byDegree {} = .ok (q1, .ret l1) ∧
    l.length = l1.length + 1 :=
  C121_vertex (w := 5) fan_usable fan1_usable (by decide)
    (fun u v => by
      simpa only [decide_eq_true_eq] using part_rows fanRows [(1, 2), (2, 3), (3, 4)]
        (fun v => decide (v ≠ 5)) (by decide) u v)
    (fun u h1 h2 h3 => all_rows fanRows (fun v => decide (v ≠ 5)) (by decide) u 5 h1 h2
      (by decide) (by decide) (by simpa using h3) (by decide))
    part_small byDegree_perm byDegree_perm

namespace Sample

/-- The graph with the edges `rs` and five weights. -/
def wonFive (rs : List (Nat × Nat)) : PyNW Rat := get (PyNW.new (R := Rat))
  (PyNW.fromEdgelist true 64 rs 5 [1, 2, 3, 4, 5])

theorem wapart_usable : WUsable (wonFive apartRows) 5 (ofPairs apartRows)
    (nth ([1, 2, 3, 4, 5] : List Rat)) :=
  ⟨.edgelist (argLR := true) (cap := 64) (by decide) (by decide) (by decide +kernel),
    wkept (by decide +kernel), 1, 2, by decide, by decide⟩

theorem wapart1_usable : WUsable (wonFive [(1, 2), (1, 3), (2, 3)]) 5
    (ofPairs [(1, 2), (1, 3), (2, 3)]) (nth ([1, 2, 3, 4, 5] : List Rat)) :=
  ⟨.edgelist (argLR := true) (cap := 64) (by decide) (by decide) (by decide +kernel),
    wkept (by decide +kernel), 1, 2, by decide, by decide⟩

theorem wapart2_usable : WUsable (wonFive [(4, 5)]) 5 (ofPairs [(4, 5)])
    (nth ([1, 2, 3, 4, 5] : List Rat)) :=
  ⟨.edgelist (argLR := true) (cap := 64) (by decide) (by decide) (by decide +kernel),
    wkept (by decide +kernel), 4, 5, by decide, by decide⟩

theorem five_nonneg : ∀ v, 1 ≤ v → v ≤ 5 → (0 : Rat) ≤ nth ([1, 2, 3, 4, 5] : List Rat) v := by
  decide +kernel

end Sample

/-- The hypotheses of `C121_weighted` are met: here the edge is heavier than the triangle. -/
example : ∃ q q1 q2 l l1 l2,
    (wonFive apartRows).getMaxClique byW (fun i => i) {} = .ok (q, .ret l) ∧
    (wonFive [(1, 2), (1, 3), (2, 3)]).getMaxClique byW (fun i => i) {} = .ok (q1, .ret l1) ∧
    (wonFive [(4, 5)]).getMaxClique byW (fun i => i) {} = .ok (q2, .ret l2) ∧
    weight (nth ([1, 2, 3, 4, 5] : List Rat)) l = max (weight (nth ([1, 2, 3, 4, 5] : List Rat)) l1)
      (weight (nth ([1, 2, 3, 4, 5] : List Rat)) l2) := by
  refine C121_weighted (P := fun v => decide (v ≤ 3)) wapart_usable wapart1_usable wapart2_usable
    (part_rows _ _ _ (by decide)) (part_rows _ _ (fun v => !decide (v ≤ 3)) (by decide))
    apart_no five_nonneg ?_ ?_ ?_ ?_ byW_perm byW_perm byW_perm _ _ _
  · intro v h1 h2
    have : v = 1 ∨ v = 2 ∨ v = 3 ∨ v = 4 ∨ v = 5 := by omega
    rcases this with rfl | rfl | rfl | rfl | rfl
    · exact ⟨2, by decide, Or.inl (by decide)⟩
    · exact ⟨3, by decide, Or.inl (by decide)⟩
    · exact ⟨1, by decide, Or.inr (by decide)⟩
    · exact ⟨5, by decide, Or.inl (by decide)⟩
    · exact ⟨4, by decide, Or.inr (by decide)⟩
  · intro l hl
    exact le_trans (weight_le five_nonneg hl) (by decide +kernel)
  · exact ⟨[1, 2], Sample.pair_clique (by decide) (by decide) (by decide) (by decide), by decide,
      by decide +kernel⟩
  · exact ⟨[4, 5], Sample.pair_clique (by decide) (by decide) (by decide) (by decide), by decide,
      by decide +kernel⟩

end CM
