import Verif.Lemmas.Collect
import Verif.Lemmas.Export
import Verif.Lemmas.Loaders
import Verif.Model.Corr

/-! # Edges of correspondence graphs: numbering, `iso_edges`, `build_edges_condition_only` -/

namespace CM

open Spec Graph

theorem pair_lt {M N i j : Nat} (hi : i < M) (hj : j < N) : i * N + j < M * N := by
  have : (i + 1) * N ≤ M * N := Nat.mul_le_mul_right N hi
  rw [Nat.add_mul] at this
  omega

theorem pairId_range {M N i j : Nat} (hi : i < M) (hj : j < N) :
    1 ≤ pairId N i j ∧ pairId N i j ≤ M * N := by
  have := pair_lt hi hj
  unfold pairId; omega

theorem pairId_div {N i j : Nat} (hj : j < N) : (pairId N i j - 1) / N = i := by
  unfold pairId
  rw [Nat.add_sub_cancel, Nat.add_comm, Nat.add_mul_div_right _ _ (by omega),
    Nat.div_eq_of_lt hj]; omega

theorem pairId_mod {N i j : Nat} (hj : j < N) : (pairId N i j - 1) % N = j := by
  unfold pairId
  rw [Nat.add_sub_cancel, Nat.add_comm, Nat.add_mul_mod_self_right, Nat.mod_eq_of_lt hj]

theorem pairId_inj {N i j i' j' : Nat} (hj : j < N) (hj' : j' < N)
    (h : pairId N i j = pairId N i' j') : i = i' ∧ j = j' := by
  have h1 := pairId_div (i := i) hj
  have h2 := pairId_mod (i := i) hj
  rw [h, pairId_div hj'] at h1
  rw [h, pairId_mod hj'] at h2
  exact ⟨h1.symm, h2.symm⟩

/-- Every vertex of a correspondence graph stands for a pair. -/
theorem pairId_surj {M N v : Nat} (h1 : 1 ≤ v) (h2 : v ≤ M * N) :
    (v - 1) / N < M ∧ (v - 1) % N < N ∧ pairId N ((v - 1) / N) ((v - 1) % N) = v := by
  have hN : 0 < N := by
    rcases Nat.eq_zero_or_pos N with h | h
    · subst h; omega
    · exact h
  refine ⟨?_, Nat.mod_lt _ hN, ?_⟩
  · rw [Nat.div_lt_iff_lt_mul hN]; omega
  · unfold pairId
    rw [Nat.mul_comm, Nat.div_add_mod]; omega

theorem pairVertex_eq {M N i j : Nat} (hi : i < M) (hj : j < N) (h : M * N < 2 ^ 63) :
    pairVertex N i j = pairId N i j := by
  have := pair_lt hi hj
  unfold pairVertex pairId
  rw [umul_eq (by omega), uadd_eq (a := i * N) (b := j) (by omega), uadd_eq (by omega)]

/-- The edge array made of the self loops and a symmetric list of pairs that describes `S`. -/
theorem describes_of {n : Nat} {S : SimpleGraph Nat} {es : Edges}
    (h : ∀ u v, (u, v) ∈ es ↔ S.Adj u v)
    (hr : ∀ u v, S.Adj u v → (1 ≤ u ∧ u ≤ n) ∧ (1 ≤ v ∧ v ≤ n)) :
    Describes (PyGraph.selfLoops n ++ es) n S := by
  refine ⟨?_, ?_, hr⟩
  · intro u v hu hv
    rw [List.mem_append, mem_selfLoops, h]
    constructor
    · rintro (h1 | h1)
      · exact Or.inl h1.1
      · exact Or.inr h1
    · rintro (h1 | h1)
      · exact Or.inl ⟨h1, hu⟩
      · exact Or.inr h1
  · intro e he
    rw [List.mem_append, mem_selfLoops] at he
    rcases he with h1 | h1
    · omega
    · have := hr _ _ ((h e.1 e.2).1 h1); omega

theorem corrGraph_range {M N : Nat} {R : Nat → Nat → Nat → Nat → Prop} {u v : Nat}
    (h : (corrGraph M N R).Adj u v) :
    (1 ≤ u ∧ u ≤ M * N) ∧ (1 ≤ v ∧ v ≤ M * N) := by
  obtain ⟨i1, i2, j1, j2, a, b, c, d, _, _, rfl, rfl, _⟩ := h
  exact ⟨pairId_range a c, pairId_range b d⟩

theorem corrGraph_adj {M N : Nat} {R : Nat → Nat → Nat → Nat → Prop} {i1 i2 j1 j2 : Nat}
    (a : i1 < M) (b : i2 < M) (c : j1 < N) (d : j2 < N) :
    (corrGraph M N R).Adj (pairId N i1 j1) (pairId N i2 j2) ↔
      i1 ≠ i2 ∧ j1 ≠ j2 ∧ (R i1 i2 j1 j2 ∨ R i2 i1 j2 j1) := by
  constructor
  · rintro ⟨i1', i2', j1', j2', _, _, c', d', e, f, g, h, r⟩
    obtain ⟨rfl, rfl⟩ := pairId_inj c c' g
    obtain ⟨rfl, rfl⟩ := pairId_inj d d' h
    exact ⟨e, f, r⟩
  · rintro ⟨e, f, r⟩
    exact ⟨i1, i2, j1, j2, a, b, c, d, e, f, rfl, rfl, r⟩

/-- The pairs that the two nested symmetric loops over `M` and `N` elements add, for a
test `t i1 i2 j1 j2` on `i1 < i2`, `j1 < j2`: the innermost loop. -/
def crossPairs4 (N : Nat) (t : Nat → Nat → Nat → Nat → Bool) (i1 i2 j1 j2 : Nat) : Edges :=
  if t i1 i2 j1 j2 then
    [(pairId N i1 j1, pairId N i2 j2), (pairId N i2 j2, pairId N i1 j1),
     (pairId N i2 j1, pairId N i1 j2), (pairId N i1 j2, pairId N i2 j1)]
  else []

def crossPairs3 (N : Nat) (t : Nat → Nat → Nat → Nat → Bool) (i1 i2 j1 : Nat) : Edges :=
  (List.range' (j1 + 1) (N - (j1 + 1))).flatMap (crossPairs4 N t i1 i2 j1)

def crossPairs2 (N : Nat) (t : Nat → Nat → Nat → Nat → Bool) (i1 i2 : Nat) : Edges :=
  (List.range' 0 (N - 0)).flatMap (crossPairs3 N t i1 i2)

def crossPairs1 (M N : Nat) (t : Nat → Nat → Nat → Nat → Bool) (i1 : Nat) : Edges :=
  (List.range' (i1 + 1) (M - (i1 + 1))).flatMap (crossPairs2 N t i1)

def crossPairs (M N : Nat) (t : Nat → Nat → Nat → Nat → Bool) : Edges :=
  (List.range' 0 (M - 0)).flatMap (crossPairs1 M N t)

theorem mem_crossPairs {M N : Nat} {t : Nat → Nat → Nat → Nat → Bool} {e : Nat × Nat} :
    e ∈ crossPairs M N t ↔ ∃ i1 i2 j1 j2, i1 < i2 ∧ i2 < M ∧ j1 < j2 ∧ j2 < N ∧
      t i1 i2 j1 j2 = true ∧
      (e = (pairId N i1 j1, pairId N i2 j2) ∨ e = (pairId N i2 j2, pairId N i1 j1) ∨
        e = (pairId N i2 j1, pairId N i1 j2) ∨ e = (pairId N i1 j2, pairId N i2 j1)) := by
  unfold crossPairs crossPairs1 crossPairs2 crossPairs3 crossPairs4
  simp only [List.mem_flatMap, List.mem_range'_1]
  constructor
  · rintro ⟨i1, h1, i2, h2, j1, h3, j2, h4, h5⟩
    split at h5
    · rename_i ht
      refine ⟨i1, i2, j1, j2, by omega, by omega, by omega, by omega, ht, ?_⟩
      simpa using h5
    · simp at h5
  · rintro ⟨i1, i2, j1, j2, h1, h2, h3, h4, ht, h5⟩
    refine ⟨i1, by omega, i2, by omega, j1, by omega, j2, by omega, ?_⟩
    rw [if_pos ht]
    simpa using h5

/-- The relation the symmetric loops implement. -/
theorem crossPairs_adj {M N : Nat} {t : Nat → Nat → Nat → Nat → Bool} (u v : Nat) :
    (u, v) ∈ crossPairs M N t ↔ (corrGraph M N fun i1 i2 j1 j2 =>
      t (min i1 i2) (max i1 i2) (min j1 j2) (max j1 j2) = true).Adj u v := by
  rw [mem_crossPairs]
  constructor
  · rintro ⟨i1, i2, j1, j2, h1, h2, h3, h4, ht, h5⟩
    have e1 : min i1 i2 = i1 := by omega
    have e2 : max i1 i2 = i2 := by omega
    have e3 : min j1 j2 = j1 := by omega
    have e4 : max j1 j2 = j2 := by omega
    rcases h5 with h5 | h5 | h5 | h5 <;> (injection h5 with hu hv; subst hu hv)
    · rw [corrGraph_adj (by omega) h2 (by omega) h4]
      exact ⟨by omega, by omega, Or.inl (by rw [e1, e2, e3, e4]; exact ht)⟩
    · rw [corrGraph_adj h2 (by omega) h4 (by omega)]
      exact ⟨by omega, by omega, Or.inr (by rw [e1, e2, e3, e4]; exact ht)⟩
    · rw [corrGraph_adj h2 (by omega) (by omega) h4]
      exact ⟨by omega, by omega, Or.inl (by
        rw [Nat.min_comm, Nat.max_comm, e1, e2, e3, e4]; exact ht)⟩
    · rw [corrGraph_adj (by omega) h2 h4 (by omega)]
      exact ⟨by omega, by omega, Or.inl (by
        rw [e1, e2, Nat.min_comm j2, Nat.max_comm j2, e3, e4]; exact ht)⟩
  · rintro ⟨i1, i2, j1, j2, a, b, c, d, e, f, rfl, rfl, r⟩
    have r' : t (min i1 i2) (max i1 i2) (min j1 j2) (max j1 j2) = true := by
      rcases r with r | r
      · exact r
      · rw [Nat.min_comm, Nat.max_comm, Nat.min_comm j1, Nat.max_comm j1]; exact r
    refine ⟨min i1 i2, max i1 i2, min j1 j2, max j1 j2, by omega, by omega, by omega, by omega,
      r', ?_⟩
    rcases Nat.lt_or_gt_of_ne e with hi | hi <;> rcases Nat.lt_or_gt_of_ne f with hj | hj
    · left; simp only [Nat.min_eq_left hi.le, Nat.max_eq_right hi.le, Nat.min_eq_left hj.le,
        Nat.max_eq_right hj.le]
    · right; right; right
      simp only [Nat.min_eq_left hi.le, Nat.max_eq_right hi.le, Nat.min_eq_right hj.le,
        Nat.max_eq_left hj.le]
    · right; right; left
      simp only [Nat.min_eq_right hi.le, Nat.max_eq_left hi.le, Nat.min_eq_left hj.le,
        Nat.max_eq_right hj.le]
    · right; left
      simp only [Nat.min_eq_right hi.le, Nat.max_eq_left hi.le, Nat.min_eq_right hj.le,
        Nat.max_eq_left hj.le]

/-- Their number, as the loops count it. -/
def crossCount4 (t : Nat → Nat → Nat → Nat → Bool) (i1 i2 j1 j2 : Nat) : Nat :=
  if t i1 i2 j1 j2 then 2 else 0

def crossCount3 (N : Nat) (t : Nat → Nat → Nat → Nat → Bool) (i1 i2 j1 : Nat) : Nat :=
  ((List.range' (j1 + 1) (N - (j1 + 1))).map (crossCount4 t i1 i2 j1)).sum

def crossCount2 (N : Nat) (t : Nat → Nat → Nat → Nat → Bool) (i1 i2 : Nat) : Nat :=
  ((List.range' 0 (N - 0)).map (crossCount3 N t i1 i2)).sum

def crossCount1 (M N : Nat) (t : Nat → Nat → Nat → Nat → Bool) (i1 : Nat) : Nat :=
  ((List.range' (i1 + 1) (M - (i1 + 1))).map (crossCount2 N t i1)).sum

def crossCount (M N : Nat) (t : Nat → Nat → Nat → Nat → Bool) : Nat :=
  ((List.range' 0 (M - 0)).map (crossCount1 M N t)).sum

theorem length_flatMap_le {β : Type} {l : List Nat} {f : Nat → List β} {k : Nat}
    (h : ∀ x ∈ l, (f x).length ≤ k) : (l.flatMap f).length ≤ l.length * k := by
  induction l with
  | nil => simp
  | cons a l ih =>
    rw [List.flatMap_cons, List.length_append, List.length_cons, Nat.add_mul, Nat.one_mul]
    have h1 := h a (by simp)
    have h2 := ih (fun x hx => h x (by simp [hx]))
    omega

theorem crossPairs_length {M N : Nat} {t : Nat → Nat → Nat → Nat → Bool} :
    (crossPairs M N t).length ≤ 4 * (M * N) * (M * N) := by
  have h4 : ∀ i1 i2 j1, (crossPairs3 N t i1 i2 j1).length ≤ N * 4 := by
    intro i1 i2 j1
    refine (length_flatMap_le (k := 4) ?_).trans ?_
    · intro j2 _; unfold crossPairs4; split <;> simp
    · rw [List.length_range']; exact Nat.mul_le_mul_right _ (by omega)
  refine (length_flatMap_le (k := M * (N * (N * 4))) ?_).trans ?_
  · intro i1 _
    refine (length_flatMap_le (k := N * (N * 4)) ?_).trans ?_
    · intro i2 _
      refine (length_flatMap_le (k := N * 4) (fun j1 _ => h4 i1 i2 j1)).trans ?_
      rw [List.length_range']; exact Nat.le_refl _
    · rw [List.length_range']; exact Nat.mul_le_mul_right _ (by omega)
  · rw [List.length_range']
    apply Nat.le_of_eq
    simp only [Nat.sub_zero, Nat.mul_comm, Nat.mul_left_comm, Nat.mul_assoc]

theorem forN_congr {σ : Type} {b1 b2 : Nat → σ → M σ} :
    ∀ n i (s : σ), (∀ k s, i ≤ k → k < i + n → b1 k s = b2 k s) →
      forN n i b1 s = forN n i b2 s := by
  intro n
  induction n with
  | zero => intro i s _; rfl
  | succ n ih =>
    intro i s h
    unfold forN
    rw [h i s (Nat.le_refl _) (by omega)]
    cases b2 i s with
    | error e => rfl
    | ok s' => exact ih (i + 1) s' (fun k s h1 h2 => h k s (by omega) (by omega))

theorem forRange_congr {σ : Type} {lo hi : Nat} {b1 b2 : Nat → σ → M σ} (s : σ)
    (h : ∀ k s, lo ≤ k → k < hi → b1 k s = b2 k s) :
    forRange lo hi b1 s = forRange lo hi b2 s :=
  forN_congr _ _ _ (fun k s h1 h2 => h k s h1 (by omega))

/-- Shifting a counting loop. -/
theorem forRange_shift {σ : Type} {lo hi : Nat} {body : Nat → σ → M σ} (s : σ) :
    forRange (lo + 1) (hi + 1) body s = forRange lo hi (fun i => body (i + 1)) s := by
  unfold forRange
  have : hi + 1 - (lo + 1) = hi - lo := by omega
  rw [this]
  generalize hi - lo = n
  clear this
  induction n generalizing lo s with
  | zero => rfl
  | succ n ih =>
    unfold forN
    simp only
    cases body (lo + 1) s with
    | error e => rfl
    | ok s' => exact ih s'

/-- The body shared by the symmetric loops. -/
def crossBody (N : Nat) (t : Nat → Nat → Nat → Nat → Bool) (i1 i2 j1 j2 : Nat)
    (s : Edges × Nat) : M (Edges × Nat) :=
  if t i1 i2 j1 j2 then
    .ok (link (link s.1 (pairVertex N i1 j1) (pairVertex N i2 j2))
      (pairVertex N i2 j1) (pairVertex N i1 j2), s.2 + 2)
  else .ok s

theorem cross_loops {M N : Nat} (hb : M * N < 2 ^ 63)
    (t : Nat → Nat → Nat → Nat → Bool) (s : Edges × Nat) :
    forRange 0 M (fun i1 s => forRange (i1 + 1) M (fun i2 s =>
      forRange 0 N (fun j1 s => forRange (j1 + 1) N (crossBody N t i1 i2 j1) s) s) s) s =
      .ok (s.1 ++ crossPairs M N t, s.2 + crossCount M N t) := by
  refine forRange_collect _ _ (fun i1 s _ h1 => ?_) s
  refine forRange_collect _ _ (fun i2 s _ h2 => ?_) s
  refine forRange_collect _ _ (fun j1 s _ h3 => ?_) s
  refine forRange_collect _ _ (fun j2 s _ h4 => ?_) s
  unfold crossBody crossPairs4 crossCount4
  split
  · simp only [link, List.append_assoc, List.cons_append, List.nil_append]
    rw [pairVertex_eq h1 h3 hb, pairVertex_eq h2 h4 hb, pairVertex_eq h2 h3 hb,
      pairVertex_eq h1 h4 hb]
  · simp

/-! ## `iso_edges` -/

theorem findIfNeighbors_spec {G : Graph} {n : Nat} {S : SimpleGraph Nat} (w : Str G)
    (hO : Of G n S) {u v : Nat} (hu : u ≤ n) :
    ∃ f loc, G.findIfNeighbors u v = .ok (f, loc) ∧ (f = true ↔ v = u ∨ S.Adj u v) := by
  have hnv := hO.nv
  have huv : u < G.nVert := by omega
  have hsp := w.spos u huv
  have hel := w.inEl u huv
  have hll := w.ellen
  obtain ⟨f, loc, hb, _, hf, _⟩ := binaryFind_spec (el := G.el)
      (base := (G.V u).elo) (N := (G.V u).N) (val := v) (by omega) (by omega) (by omega)
      (by
        intro i j hij hj
        have := w.sorted u huv i j hij hj
        unfold Graph.e at this
        exact this)
  refine ⟨f, loc, ?_, ?_⟩
  · unfold findIfNeighbors
    rw [w.vtx_ok huv, ok_bind]; exact hb
  · rw [hf, ← hO.adj u v hu]
    rfl

open Classical in
/-- The test of `iso_edges` on vertices counted from 0. -/
noncomputable def isoTest (S1 S2 : SimpleGraph Nat) (i1 i2 j1 j2 : Nat) : Bool :=
  decide (isoRel S1 S2 i1 i2 j1 j2)

theorem isoTest_iff {S1 S2 : SimpleGraph Nat} {i1 i2 j1 j2 : Nat} :
    isoTest S1 S2 i1 i2 j1 j2 = true ↔ isoRel S1 S2 i1 i2 j1 j2 := by
  classical
  unfold isoTest; exact decide_eq_true_iff

theorem isoEdges_spec {G1 G2 : Graph} {n1 n2 : Nat} {S1 S2 : SimpleGraph Nat} (w1 : Str G1)
    (w2 : Str G2) (h1 : Of G1 n1 S1) (h2 : Of G2 n2 S2) (hb1 : n1 < 2 ^ 63) (hb2 : n2 < 2 ^ 63)
    (hb : n1 * n2 < 2 ^ 63) :
    isoEdges G1 G2 = .ok (n1 * n2, crossCount n1 n2 (isoTest S1 S2),
      PyGraph.selfLoops (n1 * n2) ++ crossPairs n1 n2 (isoTest S1 S2)) := by
  unfold isoEdges
  have e1 : usub G1.nVert 1 = n1 := by rw [h1.nv, usub_eq (by omega) (by omega)]; omega
  have e2 : usub G2.nVert 1 = n2 := by rw [h2.nv, usub_eq (by omega) (by omega)]; omega
  simp only [e1, e2]
  rw [umul_eq (by omega), h1.nv, h2.nv, forRange_shift]
  have hsub : ∀ i, i < 2 ^ 63 → usub (i + 1) 1 = i := by
    intro i hi; rw [usub_eq (by omega) (by omega)]; omega
  have hsame : ∀ s : Edges × Nat, _ = _ := fun s => forRange_congr (lo := 0) (hi := n1)
    (b1 := fun i1 s => forRange (i1 + 1 + 1) (n1 + 1) (fun i2 s => do
      let (f1, _) ← G1.findIfNeighbors (i1 + 1) i2
      forRange 1 (n2 + 1) (fun j1 s =>
        forRange (j1 + 1) (n2 + 1) (fun j2 (s : Edges × Nat) => do
          let (f2, _) ← G2.findIfNeighbors j1 j2
          if f1 = false ∧ f2 = true then .ok s
          else
            let es := link s.1 (pairVertex n2 (usub (i1 + 1) 1) (usub j1 1))
              (pairVertex n2 (usub i2 1) (usub j2 1))
            let es := link es (pairVertex n2 (usub i2 1) (usub j1 1))
              (pairVertex n2 (usub (i1 + 1) 1) (usub j2 1))
            .ok (es, s.2 + 2)) s) s) s)
    (b2 := fun i1 s => forRange (i1 + 1) n1 (fun i2 s =>
      forRange 0 n2 (fun j1 s => forRange (j1 + 1) n2
        (crossBody n2 (isoTest S1 S2) i1 i2 j1) s) s) s) s (fun i1 s _ hi1 => by
    rw [forRange_shift]
    refine forRange_congr s (fun i2 s hi2 hi2' => ?_)
    obtain ⟨f1, l1, b1, b2⟩ := findIfNeighbors_spec w1 h1 (u := i1 + 1) (v := i2 + 1) (by omega)
    rw [b1, ok_bind]
    simp only
    rw [forRange_shift]
    refine forRange_congr s (fun j1 s _ hj1 => ?_)
    rw [forRange_shift]
    refine forRange_congr s (fun j2 s hj2 hj2' => ?_)
    obtain ⟨f2, l2, c1, c2⟩ := findIfNeighbors_spec w2 h2 (u := j1 + 1) (v := j2 + 1) (by omega)
    rw [c1, ok_bind]
    simp only
    have hf1 : f1 = true ↔ S1.Adj (i1 + 1) (i2 + 1) := by
      rw [b2]; constructor
      · rintro (h | h)
        · omega
        · exact h
      · exact Or.inr
    have hf2 : f2 = true ↔ S2.Adj (j1 + 1) (j2 + 1) := by
      rw [c2]; constructor
      · rintro (h | h)
        · omega
        · exact h
      · exact Or.inr
    have ht : isoTest S1 S2 i1 i2 j1 j2 = true ↔ ¬ (f1 = false ∧ f2 = true) := by
      rw [isoTest_iff]
      unfold isoRel
      rw [← hf1, ← hf2]
      cases f1 <;> cases f2 <;> simp
    unfold crossBody
    by_cases hc : f1 = false ∧ f2 = true
    · rw [if_pos hc, if_neg (fun h => (ht.1 h) hc)]
    · rw [if_neg hc, if_pos (ht.2 hc), hsub i1 (by omega), hsub i2 (by omega),
        hsub j1 (by omega), hsub j2 (by omega)])
  rw [hsame, cross_loops hb, ok_bind]
  simp only [Nat.zero_add]

theorem isoTest_graph (S1 S2 : SimpleGraph Nat) (M N : Nat) :
    (corrGraph M N fun i1 i2 j1 j2 =>
      isoTest S1 S2 (min i1 i2) (max i1 i2) (min j1 j2) (max j1 j2) = true) =
    corrGraph M N (isoRel S1 S2) := by
  have key : ∀ i1 i2 j1 j2, isoTest S1 S2 (min i1 i2) (max i1 i2) (min j1 j2) (max j1 j2) = true ↔
      isoRel S1 S2 i1 i2 j1 j2 := by
    intro i1 i2 j1 j2
    rw [isoTest_iff]
    unfold isoRel
    have a1 : S1.Adj (min i1 i2 + 1) (max i1 i2 + 1) ↔ S1.Adj (i1 + 1) (i2 + 1) := by
      rcases Nat.le_total i1 i2 with h | h
      · rw [Nat.min_eq_left h, Nat.max_eq_right h]
      · rw [Nat.min_eq_right h, Nat.max_eq_left h, S1.adj_comm]
    have a2 : S2.Adj (min j1 j2 + 1) (max j1 j2 + 1) ↔ S2.Adj (j1 + 1) (j2 + 1) := by
      rcases Nat.le_total j1 j2 with h | h
      · rw [Nat.min_eq_left h, Nat.max_eq_right h]
      · rw [Nat.min_eq_right h, Nat.max_eq_left h, S2.adj_comm]
    rw [a1, a2]
  have : (fun i1 i2 j1 j2 =>
      isoTest S1 S2 (min i1 i2) (max i1 i2) (min j1 j2) (max j1 j2) = true) = isoRel S1 S2 := by
    funext i1 i2 j1 j2; exact propext (key i1 i2 j1 j2)
  rw [this]

end CM
