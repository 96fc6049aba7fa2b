import Verif.Lemmas.Relset
import Verif.Lemmas.History
import Verif.Model.Matcher

/-! # Correspondence objects and the correspondences read off cliques -/

namespace CM

open Spec Graph

/-! ## What the builders return -/

theorem Loaded.holds {pg : PyGraph} {n : Nat} {S : SimpleGraph Nat} (h : Loaded pg n S) :
    n < 2 ^ 31 ∧ ∃ G, Holds pg n S G := by
  obtain ⟨hn, cap, m, G, hL⟩ := h.as
  exact ⟨hn, G, hL.holds⟩

theorem Reached.holds {pg : PyGraph} {n : Nat} {S : SimpleGraph Nat} (h : Reached pg n S) :
    n < 2 ^ 31 ∧ ∃ G, Holds pg n S G := by
  rcases h with h | ⟨pg0, ops, hU, hl, hr⟩
  · exact h.holds
  · obtain ⟨G, hF⟩ := hU.fresh
    obtain ⟨pg', G', a1, a2, _⟩ := runs_spec ops hF.pyok hl
    rw [hr] at a1
    cases a1
    exact ⟨hF.small, G', a2.holds⟩

/-- An object holds one graph. -/
theorem Holds.unique {pg : PyGraph} {n n' : Nat} {S S' : SimpleGraph Nat} {G G' : Graph}
    (h : Holds pg n S G) (h' : Holds pg n' S' G') : n = n' ∧ S = S' := by
  have hg : G = G' := by have := h.g.symm.trans h'.g; simpa using this
  subst hg
  have hn : n = n' := h.nv.symm.trans h'.nv
  subst hn
  refine ⟨rfl, ?_⟩
  have key : ∀ {T T' : SimpleGraph Nat}, Of G n T → Of G n T' → ∀ u v, T.Adj u v → T'.Adj u v := by
    intro T T' o o' u v huv
    have hr := o.rng u v huv
    have := ((o.adj u v hr.1.2).2 (Or.inr huv))
    rcases (o'.adj u v hr.1.2).1 this with h | h
    · subst h; exact absurd huv (T.loopless.irrefl v)
    · exact h
  ext u v
  exact ⟨key h.of h'.of u v, key h'.of h.of u v⟩

theorem Loaded.unique {pg : PyGraph} {n n' : Nat} {S S' : SimpleGraph Nat} (h : Loaded pg n S)
    (h' : Loaded pg n' S') : n = n' ∧ S = S' := by
  obtain ⟨_, G, hG⟩ := h.holds
  obtain ⟨_, G', hG'⟩ := h'.holds
  exact hG.unique hG'

theorem load_built {edges : Edges} {n : Nat} {S : SimpleGraph Nat} (hD : Describes edges n S)
    (hn : n < 2 ^ 31) (hlen : edges.length < 2 ^ 58) (argLR : Bool) (cap m : Nat) :
    ∃ pg, PyGraph.loadGraph argLR cap PyGraph.new n m edges = .ok pg ∧ Loaded pg n S ∧
      pg.nedges = m := by
  obtain ⟨pg, G, h1, h2⟩ := loadGraph_spec hD hn hlen argLR cap m
  exact ⟨pg, h1, .built hn hlen hD h1, by rw [h2.eq]⟩

theorem selfLoops_ne (n : Nat) (E : Edges) : ¬ (PyGraph.selfLoops n ++ E).length = 0 := by
  rw [List.length_append, selfLoops_length]; omega

theorem sq_bound {K : Nat} (h : K < 2 ^ 27) : 4 * K * K < 2 ^ 57 := by
  have : K * K ≤ 2 ^ 27 * 2 ^ 27 := Nat.mul_le_mul h.le h.le
  rw [Nat.mul_assoc]; omega

theorem buildIso_spec {pg1 pg2 : PyGraph} {n1 n2 : Nat} {S1 S2 : SimpleGraph Nat} {G1 G2 : Graph}
    (h1 : Holds pg1 n1 S1 G1) (h2 : Holds pg2 n2 S2 G2) (z1 : n1 ≠ 0) (z2 : n2 ≠ 0)
    (hb1 : n1 < 2 ^ 31) (hb2 : n2 < 2 ^ 31) (hb : n1 * n2 < 2 ^ 27) (argLR : Bool) (cap : Nat) :
    ∃ pg, buildIso argLR cap PyGraph.new pg1 pg2 = .ok pg ∧
      Loaded pg (n1 * n2) (corrGraph n1 n2 (isoRel S1 S2)) := by
  have hD : Describes (PyGraph.selfLoops (n1 * n2) ++ crossPairs n1 n2 (isoTest S1 S2)) (n1 * n2)
      (corrGraph n1 n2 (isoRel S1 S2)) := by
    rw [← isoTest_graph]
    exact describes_of crossPairs_adj (fun u v h => corrGraph_range h)
  obtain ⟨pg, e1, e2, _⟩ := load_built hD (by omega) (by
    rw [List.length_append, selfLoops_length]
    have := crossPairs_length (M := n1) (N := n2) (t := isoTest S1 S2)
    have := sq_bound hb
    omega) argLR cap (crossCount n1 n2 (isoTest S1 S2))
  refine ⟨pg, ?_, e2⟩
  unfold buildIso
  rw [h1.nv, h2.nv, if_neg (by omega), h1.g, h2.g]
  simp only
  rw [isoEdges_spec h1.str h2.str h1.of h2.of (by omega) (by omega) (by omega), ok_bind]
  simp only
  rw [if_neg (selfLoops_ne _ _), e1]

theorem buildCondition_spec {M N : Nat} (hb : M * N < 2 ^ 27) (c : Nat → Nat → Nat → Nat → Bool)
    (argLR : Bool) (cap : Nat) :
    ∃ pg, buildCondition argLR cap PyGraph.new M N c = .ok pg ∧
      Loaded pg (M * N) (corrGraph M N fun i1 i2 j1 j2 =>
        c (min i1 i2) (max i1 i2) (min j1 j2) (max j1 j2) = true) := by
  obtain ⟨pg, e1, e2, _⟩ := load_built
    (describes_of (n := M * N) (crossPairs_adj (M := M) (N := N) (t := c))
      (fun u v h => corrGraph_range h)) (by omega) (by
    rw [List.length_append, selfLoops_length]
    have := crossPairs_length (M := M) (N := N) (t := c)
    have := sq_bound hb
    omega) argLR cap (crossCount M N c)
  refine ⟨pg, ?_, e2⟩
  unfold buildCondition
  simp only
  rw [umul_eq (by omega)]
  have h := cross_loops (M := M) (N := N) (by omega) c (PyGraph.selfLoops (M * N), 0)
  have hsame : forRange 0 M (fun i1 s =>
      forRange (i1 + 1) M (fun i2 s =>
        forRange 0 N (fun j1 s =>
          forRange (j1 + 1) N (fun j2 (s : Edges × Nat) =>
            if c i1 i2 j1 j2 then
              .ok (link (link s.1 (pairVertex N i1 j1) (pairVertex N i2 j2))
                (pairVertex N i2 j1) (pairVertex N i1 j2), s.2 + 2)
            else .ok s) s) s) s) (PyGraph.selfLoops (M * N), 0) = _ := h
  rw [hsame, ok_bind]
  simp only [Nat.zero_add]
  rw [if_neg (selfLoops_ne _ _), e1]

section
variable {D : Type} [LinearOrder D] [Inhabited D]

/-- `d` is in the window of `x`, or is the distance of two of the `N` elements nearest to it
from below or above. -/
def NearDist (w : Window D) (N : Nat) (d2 : Nat → Nat → D) (x y : D) : Prop :=
  (w.lo x ≤ y ∧ y ≤ w.hi x) ∨
  (y < w.lo x ∧ ∀ k l, k < N → l < N → k ≠ l → y < d2 k l → w.lo x < d2 k l) ∨
  (w.hi x < y ∧ ∀ k l, k < N → l < N → k ≠ l → d2 k l < y → d2 k l < w.hi x)

omit [Inhabited D] in
theorem Sorts.mem {srt : List (PairDist D) → List (PairDist D)} (h : Sorts srt)
    {l : List (PairDist D)} {p : PairDist D} : p ∈ srt l ↔ p ∈ l := (h l).1.mem_iff

theorem sorted_pairs {srt : List (PairDist D) → List (PairDist D)} (h : Sorts srt) (N : Nat)
    (sym : Bool) (d : Nat → Nat → D) : Pairs N (srt (pairList N sym d)) := by
  intro p hp
  have := mem_pairList.1 (h.mem.1 hp)
  exact ⟨this.1, this.2.1, this.2.2.1⟩

theorem sorted_length {srt : List (PairDist D) → List (PairDist D)} (h : Sorts srt) (N : Nat)
    (sym : Bool) (d : Nat → Nat → D) : (srt (pairList N sym d)).length = relLen N sym := by
  rw [(h _).1.length_eq, pairList_length]

/-- Either order of two elements has an entry, with the distance of that order. -/
theorem pair_entry {srt : List (PairDist D) → List (PairDist D)} (h : Sorts srt) {N : Nat}
    {sym : Bool} {d : Nat → Nat → D} (hsym : sym = true → ∀ i j, d i j = d j i) {i j : Nat}
    (hi : i < N) (hj : j < N) (hne : i ≠ j) :
    ∃ p ∈ srt (pairList N sym d), p.dist = d i j ∧
      ((p.first = i ∧ p.second = j) ∨ (sym = true ∧ p.first = j ∧ p.second = i)) := by
  by_cases hc : sym = true ∧ j < i
  · refine ⟨⟨j, i, d j i⟩, h.mem.2 (mem_pairList.2 ⟨hj, hi, hne.symm, fun _ => hc.2, rfl⟩),
      hsym hc.1 j i, Or.inr ⟨hc.1, rfl, rfl⟩⟩
  · refine ⟨⟨i, j, d i j⟩, h.mem.2 (mem_pairList.2 ⟨hi, hj, hne, fun hs => ?_, rfl⟩), rfl,
      Or.inl ⟨rfl, rfl⟩⟩
    by_contra hn
    exact hc ⟨hs, by simp only at hn; omega⟩

/-- What is known of the graph that `build_edges` makes. -/
structure RelGraph (M N : Nat) (w : Window D) (c : Nat → Nat → Nat → Nat → Bool)
    (d1 d2 : Nat → Nat → D) (sym1 sym2 : Bool) (S : SimpleGraph Nat) : Prop where
  apart : ∀ u v, S.Adj u v → ∃ i1 i2 j1 j2, i1 < M ∧ i2 < M ∧ j1 < N ∧ j2 < N ∧ i1 ≠ i2 ∧
    j1 ≠ j2 ∧ u = pairId N i1 j1 ∧ v = pairId N i2 j2 ∧
    (c i1 i2 j1 j2 = true ∨ c i2 i1 j2 j1 = true)
  near : (sym1 = true → ∀ i j, d1 i j = d1 j i) → (sym2 = true → ∀ i j, d2 i j = d2 j i) →
    ∀ i1 i2 j1 j2, i1 < M → i2 < M → j1 < N → j2 < N →
    S.Adj (pairId N i1 j1) (pairId N i2 j2) →
      NearDist w N d2 (d1 i1 i2) (d2 j1 j2) ∨ NearDist w N d2 (d1 i2 i1) (d2 j2 j1)
  complete : (sym1 = true → ∀ i j, d1 i j = d1 j i) → (sym2 = true → ∀ i j, d2 i j = d2 j i) →
    ∀ i1 i2 j1 j2, i1 < M → i2 < M → j1 < N → j2 < N → i1 ≠ i2 → j1 ≠ j2 →
    w.lo (d1 i1 i2) < d2 j1 j2 → d2 j1 j2 < w.hi (d1 i1 i2) →
    c i1 i2 j1 j2 = true → c i2 i1 j2 j1 = true →
    S.Adj (pairId N i1 j1) (pairId N i2 j2)

theorem collected_graph {M N : Nat} {w : Window D} {c : Nat → Nat → Nat → Nat → Bool}
    {d1 d2 : Nat → Nat → D} {sym1 sym2 : Bool}
    {srt1 srt2 : List (PairDist D) → List (PairDist D)} (hs1 : Sorts srt1) (hs2 : Sorts srt2)
    {E : Edges}
    (hC : Collected N sym1 sym2 c (srt1 (pairList M sym1 d1)) (srt2 (pairList N sym2 d2)) w
      (srt1 (pairList M sym1 d1)).length E) :
    RelGraph M N w c d1 d2 sym1 sym2 (ofPairs E) := by
  have hp1 := sorted_pairs hs1 M sym1 d1
  have hp2 := sorted_pairs hs2 N sym2 d2
  have hadj := hC.adj hp1 hp2
  have hnear : (sym2 = true → ∀ i j, d2 i j = d2 j i) → ∀ x y,
      Near w (srt2 (pairList N sym2 d2)) x y → NearDist w N d2 x.dist y.dist := by
    intro hsym2 x y h
    rcases h with h | ⟨h, h'⟩ | ⟨h, h'⟩
    · exact Or.inl h
    · refine Or.inr (Or.inl ⟨h, fun k l hk hl hkl hlt => ?_⟩)
      obtain ⟨p, hp, hd, _⟩ := pair_entry hs2 (d := d2) hsym2 hk hl hkl
      rw [← hd] at hlt ⊢
      exact h' p hp hlt
    · refine Or.inr (Or.inr ⟨h, fun k l hk hl hkl hlt => ?_⟩)
      obtain ⟨p, hp, hd, _⟩ := pair_entry hs2 (d := d2) hsym2 hk hl hkl
      rw [← hd] at hlt ⊢
      exact h' p hp hlt
  refine ⟨?_, ?_, ?_⟩
  · intro u v ha
    obtain ⟨x, hx, y, hy, _, hl⟩ := hC.sound _ ((hadj u v).2 ha)
    have h1 := hp1 x hx
    have h2 := hp2 y hy
    rw [mem_linksOf] at hl
    rcases hl with ⟨hc, hl | hl⟩ | ⟨_, hc, hl | hl⟩ <;> injection hl with a b <;> subst a b
    · exact ⟨x.first, x.second, y.first, y.second, h1.1, h1.2.1, h2.1, h2.2.1, h1.2.2, h2.2.2,
        rfl, rfl, Or.inl hc⟩
    · exact ⟨x.second, x.first, y.second, y.first, h1.2.1, h1.1, h2.2.1, h2.1, h1.2.2.symm,
        h2.2.2.symm, rfl, rfl, Or.inr hc⟩
    · exact ⟨x.second, x.first, y.first, y.second, h1.2.1, h1.1, h2.1, h2.2.1, h1.2.2.symm,
        h2.2.2, rfl, rfl, Or.inr hc⟩
    · exact ⟨x.first, x.second, y.second, y.first, h1.1, h1.2.1, h2.2.1, h2.1, h1.2.2,
        h2.2.2.symm, rfl, rfl, Or.inl hc⟩
  · intro hsym1 hsym2 i1 i2 j1 j2 hi1 hi2 hj1 hj2 ha
    obtain ⟨x, hx, y, hy, hn, hl⟩ := hC.sound _ ((hadj _ _).2 ha)
    have h1 := mem_pairList.1 (hs1.mem.1 hx)
    have h2 := mem_pairList.1 (hs2.mem.1 hy)
    have hn' := hnear hsym2 x y hn
    rw [h1.2.2.2.2, h2.2.2.2.2] at hn'
    rw [mem_linksOf] at hl
    rcases hl with ⟨hc, hl | hl⟩ | ⟨hs, hc, hl | hl⟩ <;> injection hl with a b
    · obtain ⟨rfl, rfl⟩ := pairId_inj hj1 h2.1 a
      obtain ⟨rfl, rfl⟩ := pairId_inj hj2 h2.2.1 b
      exact Or.inl hn'
    · obtain ⟨rfl, rfl⟩ := pairId_inj hj1 h2.2.1 a
      obtain ⟨rfl, rfl⟩ := pairId_inj hj2 h2.1 b
      exact Or.inr hn'
    · obtain ⟨rfl, rfl⟩ := pairId_inj hj1 h2.1 a
      obtain ⟨rfl, rfl⟩ := pairId_inj hj2 h2.2.1 b
      rcases hs with hs | hs
      · left; rw [hsym1 hs x.second x.first]; exact hn'
      · right; rw [hsym2 hs y.second y.first]; exact hn'
    · obtain ⟨rfl, rfl⟩ := pairId_inj hj1 h2.2.1 a
      obtain ⟨rfl, rfl⟩ := pairId_inj hj2 h2.1 b
      rcases hs with hs | hs
      · right; rw [hsym1 hs x.second x.first]; exact hn'
      · left; rw [hsym2 hs y.second y.first]; exact hn'
  · intro hsym1 hsym2 i1 i2 j1 j2 hi1 hi2 hj1 hj2 hi hj hlo hhi hc1 hc2
    rw [← hadj]
    obtain ⟨x, hx, hdx, hx'⟩ := pair_entry hs1 (d := d1) hsym1 hi1 hi2 hi
    obtain ⟨y, hy, hdy, hy'⟩ := pair_entry hs2 (d := d2) hsym2 hj1 hj2 hj
    obtain ⟨k, hk, rfl⟩ := mem_iff_getD.1 hx
    refine hC.complete k hk hk y hy ?_ ?_ _ ?_
    · unfold dist; rw [hdx, hdy]; exact hlo
    · unfold dist; rw [hdx, hdy]; exact hhi
    · rw [mem_linksOf]
      rcases hx' with ⟨e1, e2⟩ | ⟨hs, e1, e2⟩ <;> rcases hy' with ⟨f1, f2⟩ | ⟨ht, f1, f2⟩ <;>
        rw [e1, e2, f1, f2]
      · exact Or.inl ⟨hc1, Or.inl rfl⟩
      · exact Or.inr ⟨Or.inr ht, hc1, Or.inr rfl⟩
      · exact Or.inr ⟨Or.inl hs, hc2, Or.inl rfl⟩
      · exact Or.inl ⟨hc2, Or.inr rfl⟩

theorem buildBoth_eq {argLR : Bool} {cap : Nat}
    {srt1 srt2 : List (PairDist D) → List (PairDist D)} {M N : Nat} (hM : M < 2 ^ 31)
    (hN : N < 2 ^ 31) {w : Window D} {c : Nat → Nat → Nat → Nat → Bool}
    {d1 d2 : Nat → Nat → D} {sym1 sym2 : Bool} :
    buildBoth argLR cap PyGraph.new srt1 srt2 M N w c d1 sym1 d2 sym2 =
      (efrCondition M N sym1 sym2 (srt1 (pairList M sym1 d1)) (srt2 (pairList N sym2 d2)) w c >>=
        fun r => if r.2.2.length = 0 then .error .throw
          else PyGraph.loadGraph argLR cap PyGraph.new r.1 r.2.1 r.2.2) := by
  unfold buildBoth
  rw [fillDists_spec hM, ok_bind, fillDists_spec hN, ok_bind]

theorem buildMetric_eq {argLR : Bool} {cap : Nat}
    {srt1 srt2 : List (PairDist D) → List (PairDist D)} {M N : Nat} {w : Window D}
    {d1 d2 : Nat → Nat → D} {sym1 sym2 : Bool} :
    buildMetric argLR cap PyGraph.new srt1 srt2 M N w d1 sym1 d2 sym2 =
      buildBoth argLR cap PyGraph.new srt1 srt2 M N w (fun _ _ _ _ => true) d1 sym1 d2 sym2 := by
  unfold buildMetric buildBoth
  simp only [edgesFromRelsets_eq]

/-- `build_edges` on sets of at least one and (unless the first has one element only) two
elements. -/
theorem buildBoth_spec {argLR : Bool} {cap : Nat}
    {srt1 srt2 : List (PairDist D) → List (PairDist D)} {M N : Nat} {w : Window D}
    {c : Nat → Nat → Nat → Nat → Bool} {d1 d2 : Nat → Nat → D} {sym1 sym2 : Bool}
    (hM : 1 ≤ M) (hN : 1 ≤ N) (hne : M = 1 ∨ 2 ≤ N) (hb : M * N < 2 ^ 27) (hs1 : Sorts srt1)
    (hs2 : Sorts srt2) (hlo : Monotone w.lo) :
    ∃ pg S, buildBoth argLR cap PyGraph.new srt1 srt2 M N w c d1 sym1 d2 sym2 = .ok pg ∧
      Loaded pg (M * N) S ∧ RelGraph M N w c d1 d2 sym1 sym2 S := by
  have hMb : M ≤ M * N := Nat.le_mul_of_pos_right _ hN
  have hNb : N ≤ M * N := Nat.le_mul_of_pos_left _ hM
  have hp1 := sorted_pairs hs1 M sym1 d1
  have hp2 := sorted_pairs hs2 N sym2 d2
  obtain ⟨m, E, h1, h2, h3⟩ := efrCondition_collect (c := c) (w := w) hM hN (by omega)
    (sorted_length hs1 M sym1 d1) (sorted_length hs2 N sym2 d2) hne (hs1 _).2 (hs2 _).2 hp1 hp2 hlo
  have hrl : ∀ K sym, relLen K sym ≤ K * K := by
    intro K sym
    have : K * (K - 1) ≤ K * K := Nat.mul_le_mul_left _ (by omega)
    unfold relLen; split <;> omega
  obtain ⟨pg, e1, e2, _⟩ := load_built (h2.describes hp1 hp2) (by omega) (by
    rw [List.length_append, selfLoops_length]
    rw [sorted_length hs1, sorted_length hs2] at h3
    have h4 : 4 * relLen M sym1 * relLen N sym2 ≤ 4 * (M * M) * (N * N) :=
      Nat.mul_le_mul (Nat.mul_le_mul_left _ (hrl _ _)) (hrl _ _)
    have h5 : 4 * (M * M) * (N * N) = 4 * (M * N) * (M * N) := by
      simp only [Nat.mul_comm, Nat.mul_left_comm, Nat.mul_assoc]
    have := sq_bound hb
    omega) argLR cap m
  refine ⟨pg, _, ?_, e2, collected_graph hs1 hs2 h2⟩
  rw [buildBoth_eq (by omega) (by omega), h1, ok_bind]
  simp only
  rw [if_neg (selfLoops_ne _ _), e1]

/-- A second set of one element, with at least two elements in the first: `binary_find2`
reads out of bounds. -/
theorem buildBoth_single {argLR : Bool} {cap : Nat}
    {srt1 srt2 : List (PairDist D) → List (PairDist D)} {M : Nat} {w : Window D}
    {c : Nat → Nat → Nat → Nat → Bool} {d1 d2 : Nat → Nat → D} {sym1 sym2 : Bool}
    (hM : 2 ≤ M) (hb : M < 2 ^ 27) (hs1 : Sorts srt1) (hs2 : Sorts srt2) :
    buildBoth argLR cap PyGraph.new srt1 srt2 M 1 w c d1 sym1 d2 sym2 = .error .ub := by
  have hl1 := sorted_length hs1 M sym1 d1
  have hl2 : (srt2 (pairList 1 sym2 d2)) = [] := by
    rw [← List.length_eq_zero_iff, sorted_length hs2]
    unfold relLen; split <;> rfl
  have hpos : 0 < relLen M sym1 := by
    have : 2 * 1 ≤ M * (M - 1) := Nat.mul_le_mul hM (by omega)
    unfold relLen; split <;> omega
  rw [buildBoth_eq (by omega) (by omega), hl2]
  unfold efrCondition
  rw [if_neg (by omega), relLen_eq (by omega) (by omega), relLen_eq (by omega) (by omega)]
  simp only
  have : loop (relLen M sym1 + 1) (fun (s : Nat × Edges × Nat) => do
      let (i, es, m) := s
      if i < relLen M sym1 then do
        let x ← rd (srt1 (pairList M sym1 d1)) i
        let (f1, lb) ← binaryFind2 [] (relLen 1 sym2) (w.lo x.dist)
        if f1 = -1 then .ok (.inr (es, m))
        else do
          let (f2, ub) ← binaryFind2 [] (relLen 1 sym2) (w.hi x.dist)
          let ub := if f2 = -1 then usub (relLen 1 sym2) 1 else ub
          let (es, m) ← forRange lb (ub + 1) (fun j (s : Edges × Nat) => do
            let y ← rd ([] : List (PairDist D)) j
            let s := if c x.first x.second y.first y.second then
                (link s.1 (pairVertex 1 x.first y.first) (pairVertex 1 x.second y.second), s.2 + 1)
              else s
            if !sym1 && !sym2 then .ok s
            else if c x.first x.second y.second y.first then
              .ok (link s.1 (pairVertex 1 x.second y.first) (pairVertex 1 x.first y.second), s.2 + 1)
            else .ok s) (es, m)
          .ok (.inl (i + 1, es, m))
      else .ok (.inr (es, m))) (0, PyGraph.selfLoops (umul M 1), 0) =
      (.error .ub : CM.M (Edges × Nat)) := by
    unfold loop
    simp only [hpos, if_true]
    rw [rd_getD default (by omega), ok_bind]
    rfl
  rw [this]
  rfl

theorem buildBoth_empty {argLR : Bool} {cap : Nat}
    {srt1 srt2 : List (PairDist D) → List (PairDist D)} {M N : Nat} (h : M = 0 ∨ N = 0)
    {w : Window D} {c : Nat → Nat → Nat → Nat → Bool} {d1 d2 : Nat → Nat → D}
    {sym1 sym2 : Bool} {pg : PyGraph} :
    buildBoth argLR cap PyGraph.new srt1 srt2 M N w c d1 sym1 d2 sym2 ≠ .ok pg := by
  intro he
  unfold buildBoth at he
  obtain ⟨ps1, _, he⟩ := bind_eq_ok.1 he
  obtain ⟨ps2, _, he⟩ := bind_eq_ok.1 he
  unfold efrCondition at he
  simp only [if_pos h] at he
  cases he

end

/-- The vertices `u`, `v` stand for correspondences of different elements. -/
def Apart (M N : Nat) (S : SimpleGraph Nat) : Prop :=
  ∀ u v, S.Adj u v → ∃ i1 i2 j1 j2, i1 < M ∧ i2 < M ∧ j1 < N ∧ j2 < N ∧ i1 ≠ i2 ∧ j1 ≠ j2 ∧
    u = pairId N i1 j1 ∧ v = pairId N i2 j2

theorem corrGraph_apart {M N : Nat} {R : Nat → Nat → Nat → Nat → Prop} :
    Apart M N (corrGraph M N R) := by
  rintro u v ⟨i1, i2, j1, j2, a, b, c, d, e, f, g, h, _⟩
  exact ⟨i1, i2, j1, j2, a, b, c, d, e, f, g, h⟩

section
variable {D : Type} [LinearOrder D] [Inhabited D]

theorem buildBoth_ok {argLR : Bool} {cap : Nat}
    {srt1 srt2 : List (PairDist D) → List (PairDist D)} {M N : Nat} {w : Window D}
    {c : Nat → Nat → Nat → Nat → Bool} {d1 d2 : Nat → Nat → D} {sym1 sym2 : Bool}
    (hb : M * N < 2 ^ 27) (hs1 : Sorts srt1) (hs2 : Sorts srt2) (hlo : Monotone w.lo)
    {pg : PyGraph}
    (he : buildBoth argLR cap PyGraph.new srt1 srt2 M N w c d1 sym1 d2 sym2 = .ok pg) :
    (1 ≤ M ∧ 1 ≤ N ∧ (M = 1 ∨ 2 ≤ N)) ∧
    ∃ S, Loaded pg (M * N) S ∧ RelGraph M N w c d1 d2 sym1 sym2 S := by
  by_cases h0 : M = 0 ∨ N = 0
  · exact absurd he (buildBoth_empty h0)
  by_cases h1 : 2 ≤ M ∧ N = 1
  · obtain ⟨h1, rfl⟩ := h1
    rw [buildBoth_single h1 (by omega) hs1 hs2] at he
    cases he
  obtain ⟨pg', S, e1, e2, e3⟩ := buildBoth_spec (argLR := argLR) (cap := cap) (w := w) (c := c)
    (d1 := d1) (d2 := d2) (sym1 := sym1) (sym2 := sym2) (M := M) (N := N) (by omega) (by omega)
    (by omega) hb hs1 hs2 hlo
  rw [he] at e1
  cases e1
  exact ⟨by omega, S, e2, e3⟩

end

theorem Matcher.loaded {pg : PyGraph} {M N : Nat} (h : Matcher pg M N) :
    ∃ S, Loaded pg (M * N) S ∧ Apart M N S := by
  cases h with
  | @iso argLR cap pg pg1 pg2 n1 n2 S1 S2 hb h1 h2 he =>
    obtain ⟨b1, G1, H1⟩ := h1.holds
    obtain ⟨b2, G2, H2⟩ := h2.holds
    by_cases h0 : M = 0 ∨ N = 0
    · unfold buildIso at he
      rw [H1.nv, H2.nv, if_pos h0] at he
      cases he
    · obtain ⟨pg', e1, e2⟩ := buildIso_spec H1 H2 (by omega) (by omega) b1 b2 hb argLR cap
      rw [he] at e1
      cases e1
      exact ⟨_, e2, corrGraph_apart⟩
  | @metric D _ _ argLR cap pg srt1 srt2 M N w d1 d2 sym1 sym2 hb hs1 hs2 hlo he =>
    rw [buildMetric_eq] at he
    obtain ⟨_, S, e1, e2⟩ := buildBoth_ok hb hs1 hs2 hlo he
    refine ⟨S, e1, fun u v ha => ?_⟩
    obtain ⟨i1, i2, j1, j2, a, b, c, d, e, f, g, h, _⟩ := e2.apart u v ha
    exact ⟨i1, i2, j1, j2, a, b, c, d, e, f, g, h⟩
  | @condition argLR cap pg M N c hb he =>
    obtain ⟨pg', e1, e2⟩ := buildCondition_spec hb c argLR cap
    rw [he] at e1
    cases e1
    exact ⟨_, e2, corrGraph_apart⟩
  | @both D _ _ argLR cap pg srt1 srt2 M N w c d1 d2 sym1 sym2 hb hs1 hs2 hlo he =>
    obtain ⟨_, S, e1, e2⟩ := buildBoth_ok hb hs1 hs2 hlo he
    refine ⟨S, e1, fun u v ha => ?_⟩
    obtain ⟨i1, i2, j1, j2, a, b, c, d, e, f, g, h, _⟩ := e2.apart u v ha
    exact ⟨i1, i2, j1, j2, a, b, c, d, e, f, g, h⟩

/-! ## Correspondences read off cliques -/

/-- The first and second elements of the correspondences that the vertices of `l` stand
for. -/
def firsts (N : Nat) (l : List Nat) : List Nat := l.map fun v => (v - 1) / N

def seconds (N : Nat) (l : List Nat) : List Nat := l.map fun v => (v - 1) % N

theorem getCorrespondence2_spec {M N : Nat} : ∀ {l : List Nat},
    (∀ v ∈ l, 1 ≤ v ∧ v ≤ M * N) →
    PyGraph.getCorrespondence2 N l = .ok (.ret (firsts N l, seconds N l)) := by
  intro l
  induction l with
  | nil => intro _; rfl
  | cons v l ih =>
    intro h
    have hv := h v (by simp)
    have hN : N ≠ 0 := by rintro rfl; omega
    unfold PyGraph.getCorrespondence2
    rw [if_neg (by omega), if_neg hN, ih (fun w hw => h w (by simp [hw])), ok_bind]
    rfl

/-- Reading a clique as a matching. -/
theorem clique_matching {M N : Nat} {S : SimpleGraph Nat} {l : List Nat} (hA : Apart M N S)
    (h : IsCliqueList S (M * N) l) :
    IsMatching M N ((firsts N l).zip (seconds N l)) ∧
      ((firsts N l).zip (seconds N l)).map (fun p => pairId N p.1 p.2) = l := by
  have hz : (firsts N l).zip (seconds N l) = l.map fun v => ((v - 1) / N, (v - 1) % N) := by
    unfold firsts seconds
    rw [List.zip_map']
  rw [hz]
  have hnd : l.Nodup := h.increasing.imp (fun h => Nat.ne_of_lt h)
  have hdiff : ∀ u ∈ l, ∀ v ∈ l, u ≠ v →
      (u - 1) / N ≠ (v - 1) / N ∧ (u - 1) % N ≠ (v - 1) % N := by
    intro u hu v hv hne
    obtain ⟨i1, i2, j1, j2, _, _, c, d, e, f, rfl, rfl⟩ := hA _ _ (h.clique hu hv hne)
    rw [pairId_div c, pairId_div d, pairId_mod c, pairId_mod d]
    exact ⟨e, f⟩
  refine ⟨⟨?_, ?_, ?_⟩, ?_⟩
  · intro p hp
    obtain ⟨v, hv, rfl⟩ := List.mem_map.1 hp
    have := h.range v hv
    obtain ⟨a, b, _⟩ := pairId_surj this.1 this.2
    exact ⟨a, b⟩
  · rw [List.map_map]
    refine List.Nodup.map_on ?_ hnd
    intro u hu v hv huv
    by_contra hne
    exact (hdiff u hu v hv hne).1 huv
  · rw [List.map_map]
    refine List.Nodup.map_on ?_ hnd
    intro u hu v hv huv
    by_contra hne
    exact (hdiff u hu v hv hne).2 huv
  · rw [List.map_map]
    conv_rhs => rw [← List.map_id l]
    apply List.map_congr_left
    intro v hv
    have := h.range v hv
    exact (pairId_surj this.1 this.2).2.2

/-- A matching whose members are pairwise adjacent, as a clique. -/
theorem matching_clique {M N : Nat} {S : SimpleGraph Nat} {ps : List (Nat × Nat)}
    (hm : IsMatching M N ps)
    (h : ∀ p ∈ ps, ∀ q ∈ ps, p ≠ q → S.Adj (pairId N p.1 p.2) (pairId N q.1 q.2)) :
    ∃ l, IsCliqueList S (M * N) l ∧ l.length = ps.length ∧
      ∀ v, v ∈ l ↔ ∃ p ∈ ps, v = pairId N p.1 p.2 := by
  have hnd : ps.Nodup := List.Nodup.of_map _ hm.first
  have hinj : ∀ p ∈ ps, ∀ q ∈ ps, pairId N p.1 p.2 = pairId N q.1 q.2 → p = q := by
    intro p hp q hq he
    obtain ⟨a, b⟩ := pairId_inj (hm.range p hp).2 (hm.range q hq).2 he
    exact Prod.ext a b
  have hnd' : (ps.map fun p => pairId N p.1 p.2).Nodup := List.Nodup.map_on hinj hnd
  have hperm := List.mergeSort_perm (ps.map fun p => pairId N p.1 p.2) (fun a b => decide (a ≤ b))
  have hmem : ∀ v, v ∈ (ps.map fun p => pairId N p.1 p.2).mergeSort (fun a b => decide (a ≤ b)) ↔
      ∃ p ∈ ps, v = pairId N p.1 p.2 := by
    intro v
    rw [hperm.mem_iff, List.mem_map]
    constructor
    · rintro ⟨p, hp, rfl⟩; exact ⟨p, hp, rfl⟩
    · rintro ⟨p, hp, rfl⟩; exact ⟨p, hp, rfl⟩
  refine ⟨_, ⟨?_, ?_, ?_⟩, by rw [hperm.length_eq, List.length_map], hmem⟩
  · have hs := List.pairwise_mergeSort (le := fun a b : Nat => decide (a ≤ b))
      (by intro a b c; simp; omega) (by intro a b; simp; omega)
      (ps.map fun p => pairId N p.1 p.2)
    have hn := hperm.nodup_iff.2 hnd'
    refine (hs.and hn).imp ?_
    intro a b hab
    have := hab.1
    simp only [decide_eq_true_eq] at this
    exact Nat.lt_of_le_of_ne this hab.2
  · intro v hv
    obtain ⟨p, hp, rfl⟩ := (hmem v).1 hv
    exact pairId_range (hm.range p hp).1 (hm.range p hp).2
  · intro u hu v hv hne
    obtain ⟨p, hp, rfl⟩ := (hmem u).1 hu
    obtain ⟨q, hq, rfl⟩ := (hmem v).1 hv
    exact h p hp q hq (by rintro rfl; exact hne rfl)

/-! ## Iterators over correspondences -/

theorem consumeCorr_eq {M N : Nat} : ∀ {fuel : Nat} {pg pg' : PyGraph} {E E' : Enum}
    {cs : List (List Nat)}, pg.consume fuel E = .ok (pg', E', cs) →
    (∀ c ∈ cs, ∀ v ∈ c, 1 ≤ v ∧ v ≤ M * N) →
    pg.consumeCorr N fuel E =
      .ok (pg', E', cs.map fun c => .ret (firsts N c, seconds N c)) := by
  intro fuel
  induction fuel with
  | zero => intro pg pg' E E' cs h _; cases h
  | succ fuel ih =>
    intro pg pg' E E' cs h hc
    unfold PyGraph.consume at h
    obtain ⟨⟨pg1, E1, r⟩, h1, h2⟩ := bind_eq_ok.1 h
    unfold PyGraph.nextClique at h1
    unfold PyGraph.consumeCorr PyGraph.nextCorrespondence
    cases hg : pg.G with
    | none => rw [hg] at h1; cases h1
    | some G =>
      rw [hg] at h1
      simp only at h1 ⊢
      obtain ⟨⟨G1, E2, v⟩, h3, h4⟩ := bind_eq_ok.1 h1
      rw [h3, ok_bind]
      simp only at h4 ⊢
      by_cases hv : v > pg.nvert
      · rw [if_pos hv] at h4
        rw [if_pos hv]
        injection h4 with h4
        injection h4 with h5 h6
        injection h6 with h6 h7
        subst h5 h6 h7
        simp only at h2
        injection h2 with h2
        injection h2 with h2 h8
        injection h8 with h8 h9
        subst h2 h8 h9
        rfl
      · rw [if_neg hv] at h4
        rw [if_neg hv]
        obtain ⟨⟨G2, ans⟩, h5, h6⟩ := bind_eq_ok.1 h4
        rw [h5, ok_bind]
        injection h6 with h6
        injection h6 with h7 h8
        injection h8 with h8 h9
        subst h7 h8 h9
        simp only at h2 ⊢
        obtain ⟨⟨pg2, E3, cs'⟩, h10, h11⟩ := bind_eq_ok.1 h2
        injection h11 with h11
        injection h11 with h12 h13
        injection h13 with h13 h14
        subst h12 h13 h14
        rw [getCorrespondence2_spec (fun w hw => hc ans (by simp) w hw), ok_bind]
        simp only [ok_bind]
        rw [ih h10 (fun c hc' => hc c (by simp [hc'])), ok_bind]
        rfl

theorem listCorrespondences_eq {M N k : Nat} {pg pg' : PyGraph} {cs : List (List Nat)}
    (h : pg.listCliques k = .ok (pg', cs)) (hc : ∀ c ∈ cs, ∀ v ∈ c, 1 ≤ v ∧ v ≤ M * N) :
    pg.listCorrespondences N k =
      .ok (pg', cs.map fun c => .ret (firsts N c, seconds N c)) := by
  unfold PyGraph.listCliques at h
  unfold PyGraph.listCorrespondences
  obtain ⟨E, h1, h2⟩ := bind_eq_ok.1 h
  rw [h1, ok_bind]
  cases hg : pg.G with
  | none => rw [hg] at h2; cases h2
  | some G =>
    rw [hg] at h2
    simp only at h2 ⊢
    obtain ⟨⟨pg2, E3, cs'⟩, h3, h4⟩ := bind_eq_ok.1 h2
    injection h4 with h4
    injection h4 with h5 h6
    subst h5 h6
    rw [consumeCorr_eq h3 hc, ok_bind]

/-- The correspondence read off the result of a search. -/
def readOff (N : Nat) : PyRes (List Nat) → PyRes (List Nat × List Nat)
  | .raise => .raise
  | .ret l => .ret (firsts N l, seconds N l)

/-- The correspondence returned by `get_correspondence`. -/
theorem getCorrespondence_eq {M N : Nat} {pg pg' : PyGraph} {srt : List VData → List VData}
    {a : PyGraph.Args} {r : PyRes (List Nat)} (h : pg.getMaxClique srt a = .ok (pg', r))
    (hr : ∀ l, r = .ret l → ∀ v ∈ l, 1 ≤ v ∧ v ≤ M * N) :
    pg.getCorrespondence srt N a = .ok (pg', readOff N r) := by
  unfold PyGraph.getCorrespondence
  rw [h, ok_bind]
  cases r with
  | raise => rfl
  | ret l =>
    simp only
    rw [getCorrespondence2_spec (hr l rfl), ok_bind]
    rfl

end CM
