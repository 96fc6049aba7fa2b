import Verif.Lemmas.Matching
import Verif.Lemmas.EdgeCount

/-!
How many edges the builders of correspondence graphs count, for C87.
-/

namespace CM

open Spec

/-- Both directions of every edge are in the list: each edge is counted at least once, and once
if nothing is repeated. -/
theorem edgeCount_both {n : Nat} {S : SimpleGraph Nat}
    (hr : ∀ u v, S.Adj u v → (1 ≤ u ∧ u ≤ n) ∧ (1 ≤ v ∧ v ≤ n)) {E : Edges}
    (hE : ∀ u v, (u, v) ∈ E ↔ S.Adj u v) :
    2 * edgeCount S n ≤ E.length ∧ (E.length = 2 * edgeCount S n ↔ E.Nodup) := by
  classical
  have h : E.toFinset = (Finset.Icc 1 n ×ˢ Finset.Icc 1 n).filter fun e => S.Adj e.1 e.2 := by
    ext ⟨u, v⟩
    simp only [List.mem_toFinset, Finset.mem_filter, Finset.mem_product, Finset.mem_Icc]
    rw [hE]
    exact ⟨fun h => ⟨hr u v h, h⟩, fun h => h.2⟩
  rw [← card_adj, ← h]
  refine ⟨E.toFinset_card_le, ?_⟩
  constructor
  · intro he
    exact (Multiset.toFinset_card_eq_card_iff_nodup (m := (E : Multiset (Nat × Nat)))).1 he.symm
  · intro hnd
    exact (List.toFinset_card_of_nodup hnd).symm

/-- The two elements of the first set and the two of the second that an edge is about, each in
increasing order. -/
def linkKey (N : Nat) (e : Nat × Nat) : (Nat × Nat) × Nat × Nat :=
  ((min ((e.1 - 1) / N) ((e.2 - 1) / N), max ((e.1 - 1) / N) ((e.2 - 1) / N)),
   min ((e.1 - 1) % N) ((e.2 - 1) % N), max ((e.1 - 1) % N) ((e.2 - 1) % N))

theorem linkKey_eq {N a b c d : Nat} (hc : c < N) (hd : d < N) :
    linkKey N (pairId N a c, pairId N b d) = ((min a b, max a b), min c d, max c d) := by
  unfold linkKey
  simp only
  rw [pairId_div hc, pairId_div hd, pairId_mod hc, pairId_mod hd]

theorem pairId_ne {N a b c d : Nat} (hc : c < N) (hd : d < N) (h : a ≠ b ∨ c ≠ d) :
    pairId N a c ≠ pairId N b d := by
  intro he
  obtain ⟨h1, h2⟩ := pairId_inj hc hd he
  rcases h with h | h
  · exact h h1
  · exact h h2

/-! ## The symmetric loops -/

theorem sum_twice {l : List Nat} {f g : Nat → Nat} (h : ∀ x ∈ l, f x = 2 * g x) :
    (l.map f).sum = 2 * (l.map g).sum := by
  induction l with
  | nil => rfl
  | cons a l ih =>
    rw [List.map_cons, List.map_cons, List.sum_cons, List.sum_cons, h a (by simp),
      ih fun x hx => h x (by simp [hx])]
    omega

theorem crossPairs_twice {M N : Nat} {t : Nat → Nat → Nat → Nat → Bool} :
    (crossPairs M N t).length = 2 * crossCount M N t := by
  unfold crossPairs crossCount
  rw [List.length_flatMap]
  refine sum_twice fun i1 _ => ?_
  unfold crossPairs1 crossCount1
  rw [List.length_flatMap]
  refine sum_twice fun i2 _ => ?_
  unfold crossPairs2 crossCount2
  rw [List.length_flatMap]
  refine sum_twice fun j1 _ => ?_
  unfold crossPairs3 crossCount3
  rw [List.length_flatMap]
  refine sum_twice fun j2 _ => ?_
  unfold crossPairs4 crossCount4
  split <;> rfl

theorem links_nodup {N a b c d : Nat} (hab : a ≠ b) (hcd : c ≠ d) (hc : c < N) (hd : d < N) :
    [(pairId N a c, pairId N b d), (pairId N b d, pairId N a c),
     (pairId N b c, pairId N a d), (pairId N a d, pairId N b c)].Nodup := by
  have h1 := pairId_ne (N := N) (a := a) (b := b) hc hd (Or.inl hab)
  have h2 := pairId_ne (N := N) (a := a) (b := b) hc hc (Or.inl hab)
  have h3 := pairId_ne (N := N) (a := a) (b := a) hc hd (Or.inr hcd)
  have h4 := pairId_ne (N := N) (a := b) (b := b) hd hc (Or.inr hcd.symm)
  have h5 := pairId_ne (N := N) (a := b) (b := a) hc hd (Or.inl hab.symm)
  simp only [List.nodup_cons, List.mem_cons, Prod.mk.injEq, List.not_mem_nil, or_false,
    not_or, not_and, not_false_eq_true, List.nodup_nil, and_true]
  refine ⟨⟨fun h => absurd h h1, fun h => absurd h h2, fun h => absurd h h3⟩,
    ⟨fun h => absurd h h4, fun h => absurd h.symm (pairId_ne hd hd (Or.inl hab))⟩,
    fun h => absurd h h5⟩

theorem nodup_keyed {β γ : Type} {l : List γ} {f : γ → List β} (k : β → γ) (hl : l.Nodup)
    (h1 : ∀ x ∈ l, (f x).Nodup) (h2 : ∀ x ∈ l, ∀ e ∈ f x, k e = x) : (l.flatMap f).Nodup := by
  rw [List.nodup_flatMap]
  refine ⟨h1, List.Pairwise.imp_of_mem ?_ hl⟩
  intro x y hx hy hne e hex hey
  exact hne ((h2 x hx e hex).symm.trans (h2 y hy e hey))

theorem crossPairs_nodup {M N : Nat} {t : Nat → Nat → Nat → Nat → Bool} :
    (crossPairs M N t).Nodup := by
  have key : ∀ i1 i2 j1 j2, i1 < i2 → j1 < j2 → j2 < N → ∀ e ∈ crossPairs4 N t i1 i2 j1 j2,
      linkKey N e = ((i1, i2), j1, j2) := by
    intro i1 i2 j1 j2 hi hj hN e he
    have e1 : min i1 i2 = i1 := by omega
    have e2 : max i1 i2 = i2 := by omega
    have e3 : min j1 j2 = j1 := by omega
    have e4 : max j1 j2 = j2 := by omega
    have e5 : min i2 i1 = i1 := by omega
    have e6 : max i2 i1 = i2 := by omega
    have e7 : min j2 j1 = j1 := by omega
    have e8 : max j2 j1 = j2 := by omega
    unfold crossPairs4 at he
    split at he
    · simp only [List.mem_cons, List.not_mem_nil, or_false] at he
      rcases he with rfl | rfl | rfl | rfl
      · rw [linkKey_eq (by omega) hN, e1, e2, e3, e4]
      · rw [linkKey_eq hN (by omega), e5, e6, e7, e8]
      · rw [linkKey_eq (by omega) hN, e5, e6, e3, e4]
      · rw [linkKey_eq hN (by omega), e1, e2, e7, e8]
    · simp at he
  refine nodup_keyed (fun e => (linkKey N e).1.1) List.nodup_range' (fun i1 _ => ?_) ?_
  · refine nodup_keyed (fun e => (linkKey N e).1.2) List.nodup_range' (fun i2 h2 => ?_) ?_
    · rw [List.mem_range'_1] at h2
      refine nodup_keyed (fun e => (linkKey N e).2.1) List.nodup_range' (fun j1 _ => ?_) ?_
      · refine nodup_keyed (fun e => (linkKey N e).2.2) List.nodup_range' (fun j2 h4 => ?_) ?_
        · rw [List.mem_range'_1] at h4
          unfold crossPairs4
          split
          · exact links_nodup (by omega) (by omega) (by omega) (by omega)
          · exact List.nodup_nil
        · intro j2 h4 e he
          rw [List.mem_range'_1] at h4
          simp only [key i1 i2 j1 j2 (by omega) (by omega) (by omega) e he]
      · intro j1 _ e he
        obtain ⟨j2, h4, he⟩ := List.mem_flatMap.1 he
        rw [List.mem_range'_1] at h4
        simp only [key i1 i2 j1 j2 (by omega) (by omega) (by omega) e he]
    · intro i2 h2 e he
      rw [List.mem_range'_1] at h2
      obtain ⟨j1, h3, he⟩ := List.mem_flatMap.1 he
      obtain ⟨j2, h4, he⟩ := List.mem_flatMap.1 he
      rw [List.mem_range'_1] at h4
      simp only [key i1 i2 j1 j2 (by omega) (by omega) (by omega) e he]
  · intro i1 _ e he
    obtain ⟨i2, h2, he⟩ := List.mem_flatMap.1 he
    obtain ⟨j1, h3, he⟩ := List.mem_flatMap.1 he
    obtain ⟨j2, h4, he⟩ := List.mem_flatMap.1 he
    rw [List.mem_range'_1] at h2 h4
    simp only [key i1 i2 j1 j2 (by omega) (by omega) (by omega) e he]

/-! ## The loops over two lists of distances -/

variable {D : Type} [LinearOrder D] [Inhabited D]

omit [LinearOrder D] [Inhabited D] in
/-- Every pair of elements occurs once, the smaller index first. -/
def Once (d : List (PairDist D)) : Prop :=
  (∀ p ∈ d, p.first < p.second) ∧ (d.map fun p => (p.first, p.second)).Nodup

omit [LinearOrder D] [Inhabited D] in
theorem linksOf_key {N : Nat} {sym1 sym2 : Bool} {c : Nat → Nat → Nat → Nat → Bool}
    {x y : PairDist D} (hx : x.first < x.second) (hy : y.first < y.second) (hN : y.second < N)
    {e : Nat × Nat} (he : e ∈ linksOf N sym1 sym2 c x y) :
    linkKey N e = ((x.first, x.second), y.first, y.second) := by
  have e1 : min x.first x.second = x.first := by omega
  have e2 : max x.first x.second = x.second := by omega
  have e3 : min y.first y.second = y.first := by omega
  have e4 : max y.first y.second = y.second := by omega
  have e5 : min x.second x.first = x.first := by omega
  have e6 : max x.second x.first = x.second := by omega
  have e7 : min y.second y.first = y.first := by omega
  have e8 : max y.second y.first = y.second := by omega
  rw [mem_linksOf] at he
  rcases he with ⟨_, rfl | rfl⟩ | ⟨_, _, rfl | rfl⟩
  · rw [linkKey_eq (by omega) hN, e1, e2, e3, e4]
  · rw [linkKey_eq hN (by omega), e5, e6, e7, e8]
  · rw [linkKey_eq (by omega) hN, e5, e6, e3, e4]
  · rw [linkKey_eq hN (by omega), e1, e2, e7, e8]

omit [LinearOrder D] [Inhabited D] in
theorem linksOf_nodup {N : Nat} {sym1 sym2 : Bool} {c : Nat → Nat → Nat → Nat → Bool}
    {x y : PairDist D} (hx : x.first ≠ x.second) (hy : y.first ≠ y.second) (h1 : y.first < N)
    (h2 : y.second < N) : (linksOf N sym1 sym2 c x y).Nodup := by
  refine List.Nodup.sublist ?_ (links_nodup hx hy h1 h2)
  unfold linksOf
  refine List.Sublist.append (l₁ := _) (l₂ := [_, _]) (r₂ := [_, _]) ?_ ?_
  · split
    · exact List.Sublist.refl _
    · exact List.nil_sublist _
  · split
    · exact List.nil_sublist _
    · split
      · exact List.Sublist.refl _
      · exact List.nil_sublist _

/-- What has been collected before entry `i` of the first list and `j` of the second. -/
structure Counted (N : Nat) (sym1 sym2 : Bool) (c : Nat → Nat → Nat → Nat → Bool)
    (d1 d2 : List (PairDist D)) (i j : Nat) (E : Edges) (m : Nat) : Prop where
  len : E.length = 2 * m
  nd : Once d1 → Once d2 → E.Nodup ∧ ∀ e ∈ E, ∃ k l, k < d1.length ∧ l < d2.length ∧
    (k < i ∨ (k = i ∧ l < j)) ∧
    e ∈ linksOf N sym1 sym2 c (d1.getD k default) (d2.getD l default)

omit [LinearOrder D] in
theorem Once.inj {d : List (PairDist D)} (h : Once d) {k l : Nat} (hk : k < d.length)
    (hl : l < d.length) (h1 : (d.getD k default).first = (d.getD l default).first)
    (h2 : (d.getD k default).second = (d.getD l default).second) : k = l := by
  have := h.2
  rw [getD_of_lt hk, getD_of_lt hl] at h1 h2
  refine (List.Nodup.getElem_inj_iff this (hi := by simpa using hk) (hj := by simpa using hl)).1 ?_
  simp [h1, h2]

omit [LinearOrder D] in
theorem Counted.weaken {N : Nat} {sym1 sym2 : Bool} {c : Nat → Nat → Nat → Nat → Bool}
    {d1 d2 : List (PairDist D)} {i j i' j' : Nat} {E : Edges} {m : Nat}
    (h : Counted N sym1 sym2 c d1 d2 i j E m) (hle : i < i' ∨ (i = i' ∧ j ≤ j')) :
    Counted N sym1 sym2 c d1 d2 i' j' E m := by
  refine ⟨h.len, fun a b => ⟨(h.nd a b).1, fun e he => ?_⟩⟩
  obtain ⟨k, l, h1, h2, h3, h4⟩ := (h.nd a b).2 e he
  exact ⟨k, l, h1, h2, by omega, h4⟩

omit [LinearOrder D] in
theorem Counted.add {N : Nat} {sym1 sym2 : Bool} {c : Nat → Nat → Nat → Nat → Bool}
    {d1 d2 : List (PairDist D)} {i j : Nat} {E : Edges} {m k : Nat} (hp2 : Pairs N d2)
    (hi : i < d1.length) (hj : j < d2.length)
    (h : Counted N sym1 sym2 c d1 d2 i j E m)
    (hk : (linksOf N sym1 sym2 c (d1.getD i default) (d2.getD j default)).length = 2 * k) :
    Counted N sym1 sym2 c d1 d2 i (j + 1)
      (E ++ linksOf N sym1 sym2 c (d1.getD i default) (d2.getD j default)) (m + k) := by
  have m1 : ∀ k, k < d1.length → d1.getD k default ∈ d1 := fun k hk => mem_iff_getD.2 ⟨k, hk, rfl⟩
  have m2 : ∀ k, k < d2.length → d2.getD k default ∈ d2 := fun k hk => mem_iff_getD.2 ⟨k, hk, rfl⟩
  refine ⟨by rw [List.length_append, h.len, hk]; omega, fun a b => ?_⟩
  obtain ⟨h1, h2⟩ := h.nd a b
  have q1 := a.1 _ (m1 i hi)
  have q2 := b.1 _ (m2 j hj)
  have q3 := hp2 _ (m2 j hj)
  constructor
  · rw [List.nodup_append]
    refine ⟨h1, linksOf_nodup (by omega) (by omega) q3.1 q3.2.1, ?_⟩
    intro e he e' he' hee
    subst hee
    obtain ⟨k', l', r1, r2, r3, r4⟩ := h2 e he
    have k1 := linksOf_key q1 q2 q3.2.1 he'
    have k2 := linksOf_key (a.1 _ (m1 k' r1)) (b.1 _ (m2 l' r2)) (hp2 _ (m2 l' r2)).2.1 r4
    rw [k1] at k2
    simp only [Prod.mk.injEq] at k2
    have t1 := a.inj hi r1 k2.1.1 k2.1.2
    have t2 := b.inj hj r2 k2.2.1 k2.2.2
    omega
  · intro e he
    rcases List.mem_append.1 he with he | he
    · obtain ⟨k, l, r1, r2, r3, r4⟩ := h2 e he
      exact ⟨k, l, r1, r2, by omega, r4⟩
    · exact ⟨i, j, hi, hj, by omega, he⟩

omit [LinearOrder D] in
theorem rd_getD_iff {a : List (PairDist D)} {i : Nat} {x : PairDist D} (h : rd a i = .ok x) :
    i < a.length ∧ x = a.getD i default := by
  rw [rd_eq_ok] at h
  obtain ⟨h1, h2⟩ := List.getElem?_eq_some_iff.1 h
  exact ⟨h1, by rw [getD_of_lt h1, h2]⟩

theorem efr_counted {M N : Nat} {sym1 sym2 : Bool} {d1 d2 : List (PairDist D)}
    {w : Window D} {c : Nat → Nat → Nat → Nat → Bool} (hb : M * N < 2 ^ 63) (hp1 : Pairs M d1)
    (hp2 : Pairs N d2) {n m : Nat} {es : Edges}
    (h : efrCondition M N sym1 sym2 d1 d2 w c = .ok (n, m, es)) :
    ∃ E, es = PyGraph.selfLoops n ++ E ∧ E.length = 2 * m ∧ (Once d1 → Once d2 → E.Nodup) := by
  unfold efrCondition at h
  simp only at h
  split at h
  · cases h
  generalize (if sym1 then umul M (usub M 1) / 2 else umul M (usub M 1)) = len1 at h
  generalize (if sym2 then umul N (usub N 1) / 2 else umul N (usub N 1)) = len2 at h
  rw [bind_eq_ok] at h
  obtain ⟨⟨es', m'⟩, h1, h2⟩ := h
  simp only [Except.ok.injEq, Prod.mk.injEq] at h2
  obtain ⟨rfl, rfl, rfl⟩ := h2
  refine loop_inv (σ := Nat × Edges × Nat) (ρ := Edges × Nat)
    (fun s => ∃ E, s.2.1 = PyGraph.selfLoops (umul M N) ++ E ∧
      Counted N sym1 sym2 c d1 d2 s.1 0 E s.2.2)
    (fun r => ∃ E, r.1 = PyGraph.selfLoops (umul M N) ++ E ∧ E.length = 2 * r.2 ∧
      (Once d1 → Once d2 → E.Nodup)) ?_ ?_ ?_ h1
  · rintro ⟨i, es, m⟩ ⟨i', es2, m2⟩ ⟨E, rfl, hC⟩ hs
    simp only at hs hC ⊢
    split at hs
    · rw [bind_eq_ok] at hs
      obtain ⟨x, hx, hs⟩ := hs
      obtain ⟨hi, hx⟩ := rd_getD_iff hx
      rw [bind_eq_ok] at hs
      obtain ⟨⟨f1, lb⟩, _, hs⟩ := hs
      simp only at hs
      split at hs
      · cases hs
      rw [bind_eq_ok] at hs
      obtain ⟨⟨f2, ub⟩, _, hs⟩ := hs
      simp only at hs
      rw [bind_eq_ok] at hs
      obtain ⟨⟨es3, m3⟩, hl, hs⟩ := hs
      simp only [Except.ok.injEq, Sum.inl.injEq, Prod.mk.injEq] at hs
      obtain ⟨rfl, rfl, rfl⟩ := hs
      generalize (if f2 = -1 then usub len2 1 else ub) + 1 = top at hl
      rcases Nat.lt_or_ge top lb with hlt | hge
      · rw [forRange_empty (by omega)] at hl
        cases hl
        exact ⟨E, rfl, hC.weaken (by omega)⟩
      · obtain ⟨E', h1, h2⟩ := forRange_inv (fun k (s : Edges × Nat) => ∃ E,
          s.1 = PyGraph.selfLoops (umul M N) ++ E ∧ Counted N sym1 sym2 c d1 d2 i k E s.2) hge
          ⟨E, rfl, hC.weaken (by omega)⟩ (by
            rintro j ⟨es4, m4⟩ ⟨es5, m5⟩ _ _ ⟨E4, rfl, hC4⟩ hb5
            rw [bind_eq_ok] at hb5
            obtain ⟨y, hy, hb5⟩ := hb5
            obtain ⟨hj, hy⟩ := rd_getD_iff hy
            have p1 := hp1 x (hx ▸ mem_iff_getD.2 ⟨i, hi, rfl⟩)
            have p2 := hp2 y (hy ▸ mem_iff_getD.2 ⟨j, hj, rfl⟩)
            have v1 := pairVertex_eq p1.1 p2.1 hb
            have v2 := pairVertex_eq p1.2.1 p2.2.1 hb
            have v3 := pairVertex_eq p1.2.1 p2.1 hb
            have v4 := pairVertex_eq p1.1 p2.2.1 hb
            rw [v1, v2, v3, v4] at hb5
            have key : ∃ k, (linksOf N sym1 sym2 c x y).length = 2 * k ∧
                (es5, m5) = (PyGraph.selfLoops (umul M N) ++ (E4 ++ linksOf N sym1 sym2 c x y),
                  m4 + k) := by
              unfold linksOf
              simp only [link] at hb5
              by_cases c1 : c x.first x.second y.first y.second = true <;>
              by_cases c2 : (!sym1 && !sym2) = true <;>
              by_cases c3 : c x.first x.second y.second y.first = true <;>
              simp only [c1, c2, c3, if_true, if_false, Bool.false_eq_true, Except.ok.injEq,
                Prod.mk.injEq] at hb5 ⊢ <;> obtain ⟨rfl, rfl⟩ := hb5 <;>
              first
              | exact ⟨0, by simp, by simp, rfl⟩
              | exact ⟨1, by simp, by simp, rfl⟩
              | exact ⟨2, by simp, by simp, rfl⟩
            obtain ⟨k, hk, he⟩ := key
            simp only [Prod.mk.injEq] at he
            obtain ⟨rfl, rfl⟩ := he
            rw [hx, hy] at hk ⊢
            exact ⟨_, rfl, hC4.add hp2 hi hj hk⟩) hl
        exact ⟨E', h1, h2.weaken (by omega)⟩
    · cases hs
  · rintro ⟨i, es, m⟩ ⟨es2, m2⟩ ⟨E, rfl, hC⟩ hs
    simp only at hs hC ⊢
    have done : (es2, m2) = (PyGraph.selfLoops (umul M N) ++ E, m) := by
      split at hs
      · rw [bind_eq_ok] at hs
        obtain ⟨x, hx, hs⟩ := hs
        rw [bind_eq_ok] at hs
        obtain ⟨⟨f1, lb⟩, _, hs⟩ := hs
        simp only at hs
        split at hs
        · cases hs; rfl
        · rw [bind_eq_ok] at hs
          obtain ⟨⟨f2, ub⟩, _, hs⟩ := hs
          simp only at hs
          rw [bind_eq_ok] at hs
          obtain ⟨⟨es3, m3⟩, hl, hs⟩ := hs
          cases hs
      · cases hs; rfl
    obtain ⟨rfl, rfl⟩ := Prod.mk.inj done
    exact ⟨E, rfl, hC.len, fun a b => (hC.nd a b).1⟩
  · exact ⟨[], by simp, rfl, fun _ _ => ⟨List.nodup_nil, by simp⟩⟩

omit [LinearOrder D] [Inhabited D] in
theorem pairList_once {N : Nat} {d : Nat → Nat → D} : Once (pairList N true d) := by
  refine ⟨fun p hp => (mem_pairList.1 hp).2.2.2.1 rfl, ?_⟩
  unfold pairList
  rw [List.map_flatMap]
  refine nodup_keyed (fun e => e.1) List.nodup_range' (fun i _ => ?_) ?_
  · unfold pairRow
    rw [List.map_flatMap]
    refine nodup_keyed (fun e => e.2) List.nodup_range' (fun j _ => ?_) ?_
    · split <;> simp
    · intro j _ e he
      split at he
      · simp at he
      · simp only [List.map_cons, List.map_nil, List.mem_singleton] at he
        rw [he]
  · intro i _ e he
    obtain ⟨p, hp, rfl⟩ := List.mem_map.1 he
    unfold pairRow at hp
    obtain ⟨j, _, hp⟩ := List.mem_flatMap.1 hp
    split at hp
    · simp at hp
    · rw [List.mem_singleton] at hp
      rw [hp]

omit [Inhabited D] in
theorem sorted_once {srt : List (PairDist D) → List (PairDist D)} (h : Sorts srt) {N : Nat}
    {d : Nat → Nat → D} : Once (srt (pairList N true d)) := by
  refine ⟨fun p hp => pairList_once.1 p (h.mem.1 hp), ?_⟩
  exact (((h (pairList N true d)).1.map fun p => (p.first, p.second)).nodup_iff).2 pairList_once.2

theorem loadGraph_nedges {argLR : Bool} {cap n m : Nat} {pg pg' : PyGraph} {es : Edges}
    (h : PyGraph.loadGraph argLR cap pg n m es = .ok pg') : pg'.nedges = m := by
  unfold PyGraph.loadGraph at h
  rw [bind_eq_ok] at h
  obtain ⟨G, _, h⟩ := h
  cases h
  rfl

/-- The counter of `build_edges` and the edges it built. -/
theorem buildBoth_count {argLR : Bool} {cap : Nat}
    {srt1 srt2 : List (PairDist D) → List (PairDist D)} {M N : Nat} {w : Window D}
    {c : Nat → Nat → Nat → Nat → Bool} {d1 d2 : Nat → Nat → D} {sym1 sym2 : Bool}
    (hb : M * N < 2 ^ 27) (hs1 : Sorts srt1) (hs2 : Sorts srt2) (hlo : Monotone w.lo)
    {pg : PyGraph} (h : buildBoth argLR cap PyGraph.new srt1 srt2 M N w c d1 sym1 d2 sym2 = .ok pg)
    (hM : 1 ≤ M) (hN : 1 ≤ N) (hne : M = 1 ∨ 2 ≤ N) :
    ∃ S, Loaded pg (M * N) S ∧ edgeCount S (M * N) ≤ pg.nedges ∧
      (sym1 = true → sym2 = true → pg.nedges = edgeCount S (M * N)) := by
  have hMb : M ≤ M * N := Nat.le_mul_of_pos_right _ hN
  have hNb : N ≤ M * N := Nat.le_mul_of_pos_left _ hM
  have hp1 := sorted_pairs hs1 M sym1 d1
  have hp2 := sorted_pairs hs2 N sym2 d2
  obtain ⟨m, E, h1, h2, h3⟩ := efrCondition_collect (c := c) (w := w) hM hN (by omega)
    (sorted_length hs1 M sym1 d1) (sorted_length hs2 N sym2 d2) hne (hs1 _).2 (hs2 _).2 hp1 hp2 hlo
  have hrl : ∀ K sym, relLen K sym ≤ K * K := by
    intro K sym
    have : K * (K - 1) ≤ K * K := Nat.mul_le_mul_left _ (by omega)
    unfold relLen; split <;> omega
  obtain ⟨pg', e1, e2, e3⟩ := load_built (h2.describes hp1 hp2) (by omega) (by
    rw [List.length_append, selfLoops_length]
    rw [sorted_length hs1, sorted_length hs2] at h3
    have h4 : 4 * relLen M sym1 * relLen N sym2 ≤ 4 * (M * M) * (N * N) :=
      Nat.mul_le_mul (Nat.mul_le_mul_left _ (hrl _ _)) (hrl _ _)
    have h5 : 4 * (M * M) * (N * N) = 4 * (M * N) * (M * N) := by
      simp only [Nat.mul_comm, Nat.mul_left_comm, Nat.mul_assoc]
    have := sq_bound hb
    omega) argLR cap m
  rw [buildBoth_eq (by omega) (by omega), h1, ok_bind] at h
  simp only at h
  rw [if_neg (selfLoops_ne _ _), e1] at h
  cases h
  obtain ⟨E', q1, q2, q3⟩ := efr_counted (by omega) hp1 hp2 h1
  rw [List.append_cancel_left_eq] at q1
  subst q1
  have hadj := h2.adj hp1 hp2
  obtain ⟨c1, c2⟩ := edgeCount_both (n := M * N) (S := ofPairs E)
    (fun u v ha => (h2.ends hp1 hp2 ((hadj u v).2 ha)).2) hadj
  refine ⟨_, e2, by omega, fun s1 s2 => ?_⟩
  subst s1 s2
  have := c2.2 (q3 (sorted_once hs1) (sorted_once hs2))
  omega

theorem buildCondition_count {M N : Nat} (hb : M * N < 2 ^ 27) (c : Nat → Nat → Nat → Nat → Bool)
    (argLR : Bool) (cap : Nat) :
    ∃ pg S, buildCondition argLR cap PyGraph.new M N c = .ok pg ∧ Loaded pg (M * N) S ∧
      pg.nedges = edgeCount S (M * N) := by
  obtain ⟨pg, h, hL⟩ := buildCondition_spec hb c argLR cap
  refine ⟨pg, _, h, hL, ?_⟩
  unfold buildCondition at h
  simp only at h
  rw [umul_eq (by omega)] at h
  have hc := cross_loops (M := M) (N := N) (by omega) c (PyGraph.selfLoops (M * N), 0)
  have hsame : forRange 0 M (fun i1 s =>
      forRange (i1 + 1) M (fun i2 s =>
        forRange 0 N (fun j1 s =>
          forRange (j1 + 1) N (fun j2 (s : Edges × Nat) =>
            if c i1 i2 j1 j2 then
              .ok (link (link s.1 (pairVertex N i1 j1) (pairVertex N i2 j2))
                (pairVertex N i2 j1) (pairVertex N i1 j2), s.2 + 2)
            else .ok s) s) s) s) (PyGraph.selfLoops (M * N), 0) = _ := hc
  rw [hsame, ok_bind] at h
  simp only [Nat.zero_add] at h
  rw [if_neg (selfLoops_ne _ _)] at h
  rw [loadGraph_nedges h]
  have h1 := (edgeCount_both (n := M * N) (fun u v h => corrGraph_range h)
    (crossPairs_adj (M := M) (N := N) (t := c))).2.2 crossPairs_nodup
  rw [crossPairs_twice] at h1
  omega

theorem buildIso_count {pg1 pg2 : PyGraph} {n1 n2 : Nat} {S1 S2 : SimpleGraph Nat} {G1 G2 : Graph}
    (h1 : Holds pg1 n1 S1 G1) (h2 : Holds pg2 n2 S2 G2) (z1 : n1 ≠ 0) (z2 : n2 ≠ 0)
    (hb1 : n1 < 2 ^ 31) (hb2 : n2 < 2 ^ 31) (hb : n1 * n2 < 2 ^ 27) (argLR : Bool) (cap : Nat) :
    ∃ pg S, buildIso argLR cap PyGraph.new pg1 pg2 = .ok pg ∧ Loaded pg (n1 * n2) S ∧
      pg.nedges = edgeCount S (n1 * n2) := by
  obtain ⟨pg, h, hL⟩ := buildIso_spec h1 h2 z1 z2 hb1 hb2 hb argLR cap
  refine ⟨pg, _, h, hL, ?_⟩
  unfold buildIso at h
  rw [h1.nv, h2.nv, if_neg (by omega), h1.g, h2.g] at h
  simp only at h
  rw [isoEdges_spec h1.str h2.str h1.of h2.of (by omega) (by omega) (by omega), ok_bind] at h
  simp only at h
  rw [if_neg (selfLoops_ne _ _)] at h
  rw [loadGraph_nedges h, ← isoTest_graph]
  have h1 := (edgeCount_both (n := n1 * n2) (fun u v h => corrGraph_range h)
    (crossPairs_adj (M := n1) (N := n2) (t := isoTest S1 S2))).2.2 crossPairs_nodup
  rw [crossPairs_twice] at h1
  omega

end CM
