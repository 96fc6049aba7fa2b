import Verif.Props.Subset

/-!
# Properties: the elements of the sets in another order
-/

namespace CM

open Spec Graph Sample

variable {M N : Nat} {S S' : SimpleGraph Nat} {pg pg' : PyGraph}

/-- `φ` lists `K` elements in another order. -/
structure Reorders (K : Nat) (φ : Nat → Nat) : Prop where
  range : ∀ i, i < K → φ i < K
  inj : ∀ i j, i < K → j < K → φ i = φ j → i = j

theorem Reorders.refl (K : Nat) : Reorders K (fun i => i) := ⟨fun _ h => h, fun _ _ _ _ h => h⟩

/-- The old order, from the new. -/
theorem Reorders.inverse {K : Nat} {φ : Nat → Nat} (h : Reorders K φ) :
    ∃ ψ, Reorders K ψ ∧ ∀ i, i < K → φ (ψ i) = i := by
  classical
  have hsub : (List.range K).map φ ⊆ List.range K := by
    intro x hx
    obtain ⟨i, hi, rfl⟩ := List.mem_map.1 hx
    rw [List.mem_range] at hi ⊢
    exact h.range i hi
  have hnd : ((List.range K).map φ).Nodup := by
    rw [List.Nodup, List.pairwise_map]
    refine List.Pairwise.imp_of_mem ?_ List.nodup_range
    intro a b ha hb hne he
    rw [List.mem_range] at ha hb
    exact hne (h.inj a b ha hb he)
  have hperm : ((List.range K).map φ).Perm (List.range K) :=
    (hnd.subperm hsub).perm_of_length_le (by simp)
  have hex : ∀ i, ∃ j, i < K → j < K ∧ φ j = i := by
    intro i
    by_cases hi : i < K
    · have : i ∈ (List.range K).map φ := hperm.symm.subset (List.mem_range.2 hi)
      obtain ⟨j, hj, e⟩ := List.mem_map.1 this
      exact ⟨j, fun _ => ⟨List.mem_range.1 hj, e⟩⟩
    · exact ⟨0, fun h => absurd h hi⟩
  choose ψ hψ using hex
  refine ⟨ψ, ⟨fun i hi => (hψ i hi).1, fun i j hi hj e => ?_⟩, fun i hi => (hψ i hi).2⟩
  rw [← (hψ i hi).2, ← (hψ j hj).2, e]

/-- A matching of reordered sets. -/
theorem IsMatching.reorder {φ ψ : Nat → Nat} (hφ : Reorders M φ) (hψ : Reorders N ψ)
    {ps : List (Nat × Nat)} (h : IsMatching M N ps) :
    IsMatching M N (ps.map fun p => (φ p.1, ψ p.2)) where
  range p hp := by
    obtain ⟨q, hq, rfl⟩ := List.mem_map.1 hp
    exact ⟨hφ.range _ (h.range q hq).1, hψ.range _ (h.range q hq).2⟩
  first := by
    have := h.first
    rw [List.map_map]
    show (ps.map fun p => φ p.1).Nodup
    rw [List.Nodup, List.pairwise_map] at this ⊢
    refine List.Pairwise.imp_of_mem ?_ this
    intro a b ha hb hne he
    exact hne (hφ.inj _ _ (h.range a ha).1 (h.range b hb).1 he)
  second := by
    have := h.second
    rw [List.map_map]
    show (ps.map fun p => ψ p.2).Nodup
    rw [List.Nodup, List.pairwise_map] at this ⊢
    refine List.Pairwise.imp_of_mem ?_ this
    intro a b ha hb hne he
    exact hne (hψ.inj _ _ (h.range a ha).2 (h.range b hb).2 he)

theorem reorder_le {φ ψ : Nat → Nat} (hφ : Reorders M φ) (hψ : Reorders N ψ) (hA : Apart M N S)
    (hA' : Apart M N S') (h : Usable pg (M * N) S) (h' : Usable pg' (M * N) S')
    (hu : M ≤ 65535 ∨ N ≤ 65535)
    (hm : ∀ i1 i2 j1 j2, i1 < M → i2 < M → j1 < N → j2 < N →
      S'.Adj (pairId N i1 j1) (pairId N i2 j2) →
      S.Adj (pairId N (φ i1) (ψ j1)) (pairId N (φ i2) (ψ j2)))
    {srt srt' : List VData → List VData} (hsrt : ∀ l, (srt l).Perm l)
    (hsrt' : ∀ l, (srt' l).Perm l) :
    ∃ q q' f s f' s', pg.getCorrespondence srt N {} = .ok (q, .ret (f, s)) ∧
      pg'.getCorrespondence srt' N {} = .ok (q', .ret (f', s')) ∧ f'.length ≤ f.length := by
  obtain ⟨q', f', s', h1, h2, h3, ⟨l, h4, h5⟩, _⟩ := largest_of (R := fun _ _ _ _ => False) hA' h' hu
    (fun _ _ _ _ _ _ _ _ _ _ h => h.elim) hsrt'
  obtain ⟨q, f, s, g1, _, _, _, g6⟩ := largest_of (R := fun i1 i2 j1 j2 =>
    S.Adj (pairId N i1 j1) (pairId N i2 j2)) hA h hu
    (fun _ _ _ _ _ _ _ _ _ _ h => h) hsrt
  refine ⟨q, q', f, s, f', s', g1, h1, ?_⟩
  have := g6 _ (IsMatching.reorder hφ hψ h3) (by
    intro p hp q hq hne
    obtain ⟨p, kp, rfl⟩ := List.mem_map.1 hp
    obtain ⟨q, kq, rfl⟩ := List.mem_map.1 hq
    have hpr := h3.range p kp
    have hqr := h3.range q kq
    refine hm _ _ _ _ hpr.1 hqr.1 hpr.2 hqr.2 ?_
    have mp : pairId N p.1 p.2 ∈ l := by rw [← h5]; exact List.mem_map.2 ⟨p, kp, rfl⟩
    have mq : pairId N q.1 q.2 ∈ l := by rw [← h5]; exact List.mem_map.2 ⟨q, kq, rfl⟩
    refine h4.clique mp mq ?_
    intro he
    obtain ⟨a, b⟩ := pairId_inj hpr.2 hqr.2 he
    exact hne (by rw [Prod.ext a b]))
  rw [List.length_map, List.length_zip, ← h2, Nat.min_self] at this
  exact this

/-- Two answers of the same call. -/
theorem lengths_eq {srt srt' : List VData → List VData}
    (h1 : ∃ q q' f s f' s', pg.getCorrespondence srt N {} = .ok (q, .ret (f, s)) ∧
      pg'.getCorrespondence srt' N {} = .ok (q', .ret (f', s')) ∧ f'.length ≤ f.length)
    (h2 : ∃ q' q f' s' f s, pg'.getCorrespondence srt' N {} = .ok (q', .ret (f', s')) ∧
      pg.getCorrespondence srt N {} = .ok (q, .ret (f, s)) ∧ f.length ≤ f'.length) :
    ∃ q q' f s f' s', pg.getCorrespondence srt N {} = .ok (q, .ret (f, s)) ∧
      pg'.getCorrespondence srt' N {} = .ok (q', .ret (f', s')) ∧ f.length = f'.length := by
  obtain ⟨q, q', f, s, f', s', a1, a2, a3⟩ := h1
  obtain ⟨p', p, g', t', g, t, b1, b2, b3⟩ := h2
  rw [a1] at b2
  cases b2
  rw [a2] at b1
  cases b1
  exact ⟨q, q', f, s, f', s', a1, a2, Nat.le_antisymm b3 a3⟩

/-- **C117** for `build_edges` and the first set (partial: not the second, see `C117_refuted`): with
its elements in another order, `get_correspondence()` matches as many of them. -/
theorem C117_first_partial {D : Type} [LinearOrder D] [Inhabited D] {argLR argLR' : Bool}
    {cap cap' : Nat} {srt1 srt1' srt2 : List (PairDist D) → List (PairDist D)} {w : Window D}
    {d1 d2 : Nat → Nat → D} {sym1 sym2 : Bool} {φ : Nat → Nat}
    (hφ : Reorders M φ) (hb : M * N < 2 ^ 27) (hs1 : Sorts srt1)
    (hs1' : Sorts srt1') (hs2 : Sorts srt2) (hm : Monotone w.lo)
    (hsym1 : sym1 = true → ∀ i j, d1 i j = d1 j i)
    (he : buildMetric argLR cap PyGraph.new srt1 srt2 M N w d1 sym1 d2 sym2 = .ok pg)
    (he' : buildMetric argLR' cap' PyGraph.new srt1' srt2 M N w (fun i j => d1 (φ i) (φ j)) sym1 d2
      sym2 = .ok pg')
    (h : Usable pg (M * N) S) (h' : Usable pg' (M * N) S') (hu : M ≤ 65535 ∨ N ≤ 65535)
    {srt srt' : List VData → List VData} (hsrt : ∀ l, (srt l).Perm l)
    (hsrt' : ∀ l, (srt' l).Perm l) :
    ∃ q q' f s f' s', pg.getCorrespondence srt N {} = .ok (q, .ret (f, s)) ∧
      pg'.getCorrespondence srt' N {} = .ok (q', .ret (f', s')) ∧ f.length = f'.length := by
  have key : ∀ {al al' : Bool} {cp cp' : Nat} {s1 s1' : List (PairDist D) → List (PairDist D)}
      {e1 e1' : Nat → Nat → D} {θ : Nat → Nat} {p p' : PyGraph} {T T' : SimpleGraph Nat}
      {σ σ' : List VData → List VData}, Reorders M θ → Sorts s1 → Sorts s1' →
      (sym1 = true → ∀ i j, e1 i j = e1 j i) →
      (∀ i j, i < M → j < M → e1' i j = e1 (θ i) (θ j)) →
      buildMetric al cp PyGraph.new s1 srt2 M N w e1 sym1 d2 sym2 = .ok p →
      buildMetric al' cp' PyGraph.new s1' srt2 M N w e1' sym1 d2 sym2 = .ok p' →
      Usable p (M * N) T → Usable p' (M * N) T' → (∀ l, (σ l).Perm l) → (∀ l, (σ' l).Perm l) →
      ∃ q q' f s f' s', p.getCorrespondence σ N {} = .ok (q, .ret (f, s)) ∧
        p'.getCorrespondence σ' N {} = .ok (q', .ret (f', s')) ∧ f'.length ≤ f.length := by
    intro al al' cp cp' s1 s1' e1 e1' θ p p' T T' σ σ' hθ hs hs' hsym hd hp hp' hT hT' hσ hσ'
    have hd' : buildMetric al' cp' PyGraph.new s1' srt2 M N w (fun i j => e1 (θ i) (θ j)) sym1 d2
        sym2 = .ok p' := by
      rw [← hp', buildMetric_eq, buildMetric_eq]
      have hpl : pairList M sym1 (fun i j => e1 (θ i) (θ j)) = pairList M sym1 e1' := by
        unfold pairList
        rw [Nat.sub_zero]
        refine List.flatMap_congr fun i hi => ?_
        rw [List.mem_range'_1] at hi
        unfold pairRow
        refine List.flatMap_congr fun j hj => ?_
        rw [List.mem_range'_1] at hj
        split
        · rfl
        · rw [hd i j (by omega) (by split at hj <;> omega)]
      by_cases h0 : M = 0 ∨ N = 0
      · rw [buildMetric_eq] at hp'
        exact absurd hp' (buildBoth_empty h0)
      · have hMb : M ≤ M * N := Nat.le_mul_of_pos_right _ (by omega)
        have hNb : N ≤ M * N := Nat.le_mul_of_pos_left _ (by omega)
        rw [buildBoth_eq (by omega) (by omega), buildBoth_eq (by omega) (by omega), hpl]
    have ap : ∀ {al : Bool} {cp : Nat} {s1 : List (PairDist D) → List (PairDist D)}
        {e1 : Nat → Nat → D} {p : PyGraph} {T : SimpleGraph Nat}, Sorts s1 →
        buildMetric al cp PyGraph.new s1 srt2 M N w e1 sym1 d2 sym2 = .ok p →
        Usable p (M * N) T → (1 ≤ M ∧ 1 ≤ N ∧ (M = 1 ∨ 2 ≤ N)) ∧ Apart M N T := by
      intro al cp s1 e1 p T hs hp hT
      rw [buildMetric_eq] at hp
      obtain ⟨k, U, t1, t2⟩ := buildBoth_ok hb hs hs2 hm hp
      obtain ⟨_, rfl⟩ := hT.loaded.unique t1
      refine ⟨k, fun u v ha => ?_⟩
      obtain ⟨i1, i2, j1, j2, a, b, c, d, e, f, g, h, _⟩ := t2.apart u v ha
      exact ⟨i1, i2, j1, j2, a, b, c, d, e, f, g, h⟩
    obtain ⟨⟨k1, k2, k3⟩, A⟩ := ap hs hp hT
    obtain ⟨_, A'⟩ := ap hs' hp' hT'
    obtain ⟨_, _, U, U', a1, b1, a2, b2, hU⟩ := buildMetric_embed (argLR := al) (argLR' := al')
      (cap := cp) (cap' := cp') (d1 := e1) (d2 := d2) (sym1 := sym1) (sym2 := sym2) k1 k1 k2 k3 k3 hb hb
      hs hs' hs2 hm hθ.range hθ.inj hsym
    rw [hp] at a1
    cases a1
    rw [hd'] at b1
    cases b1
    obtain ⟨_, rfl⟩ := hT.loaded.unique a2
    obtain ⟨_, rfl⟩ := hT'.loaded.unique b2
    exact reorder_le hθ (Reorders.refl N) A A' hT hT' hu hU hσ hσ'
  obtain ⟨ψ, hψ, hinv⟩ := hφ.inverse
  refine lengths_eq (key hφ hs1 hs1' hsym1 (fun i j _ _ => rfl) he he' h h' hsrt hsrt')
    (key hψ hs1' hs1 (fun hs i j => hsym1 hs _ _) (fun i j hi hj => ?_) he' he h' h hsrt' hsrt)
  rw [hinv i hi, hinv j hj]

/-- **C117** for `build_edges` and both sets (partial: for right answers; see `C117_refuted`): an
answer in which all distances agree within the tolerance is not longer than the one for another
order. -/
theorem C117_right_partial {argLR argLR' : Bool} {cap cap' : Nat}
    {srt1 srt2 srt3 srt4 : List (PairDist Int) → List (PairDist Int)} {ε : Int}
    {d1 d2 : Nat → Nat → Int} {sym1 sym2 : Bool} {φ ψ : Nat → Nat} (hφ : Reorders M φ)
    (hψ : Reorders N ψ) (hb : M * N < 2 ^ 27) (hs1 : Sorts srt1)
    (hs2 : Sorts srt2) (hs3 : Sorts srt3) (hs4 : Sorts srt4)
    (hsym1 : sym1 = true → ∀ i j, d1 i j = d1 j i) (hsym2 : sym2 = true → ∀ i j, d2 i j = d2 j i)
    (he : buildMetric argLR cap PyGraph.new srt1 srt2 M N (intWindow ε) d1 sym1 d2 sym2 = .ok pg)
    (he' : buildMetric argLR' cap' PyGraph.new srt3 srt4 M N (intWindow ε)
      (fun i j => d1 (φ i) (φ j)) sym1 (fun i j => d2 (ψ i) (ψ j)) sym2 = .ok pg')
    (h : Usable pg (M * N) S) (h' : Usable pg' (M * N) S') (hu : M ≤ 65535 ∨ N ≤ 65535)
    {srt srt' : List VData → List VData} (hsrt : ∀ l, (srt l).Perm l)
    (hsrt' : ∀ l, (srt' l).Perm l) :
    ∃ q q' f s f' s', pg.getCorrespondence srt N {} = .ok (q, .ret (f, s)) ∧
      pg'.getCorrespondence srt' N {} = .ok (q', .ret (f', s')) ∧
      (Consistent (fun i1 i2 j1 j2 => |d1 (φ i1) (φ i2) - d2 (ψ j1) (ψ j2)| < ε) (f'.zip s') →
        f'.length ≤ f.length) ∧
      (Consistent (fun i1 i2 j1 j2 => |d1 i1 i2 - d2 j1 j2| < ε) (f.zip s) →
        f.length ≤ f'.length) := by
  obtain ⟨φ', hφ', iφ⟩ := hφ.inverse
  obtain ⟨ψ', hψ', iψ⟩ := hψ.inverse
  obtain ⟨q, f, s, a1, a2, a3, a4⟩ := C52_largest_exact hb hs1 hs2 hsym1 hsym2 he h hu hsrt
  obtain ⟨q', f', s', b1, b2, b3, b4⟩ := C52_largest_exact hb hs3 hs4
    (fun hs i j => hsym1 hs _ _) (fun hs i j => hsym2 hs _ _) he' h' hu hsrt'
  refine ⟨q, q', f, s, f', s', a1, b1, fun hc => ?_, fun hc => ?_⟩
  · have := a4 _ (IsMatching.reorder hφ hψ b3) (by
      intro p hp q hq hne
      obtain ⟨p, kp, rfl⟩ := List.mem_map.1 hp
      obtain ⟨q, kq, rfl⟩ := List.mem_map.1 hq
      exact hc p kp q kq (fun e => hne (by rw [e])))
    rwa [List.length_map, List.length_zip, ← b2, Nat.min_self] at this
  · have := b4 _ (IsMatching.reorder hφ' hψ' a3) (by
      intro p hp q hq hne
      obtain ⟨p, kp, rfl⟩ := List.mem_map.1 hp
      obtain ⟨q, kq, rfl⟩ := List.mem_map.1 hq
      have hp := a3.range p kp
      have hq := a3.range q kq
      simp only
      rw [iφ _ hp.1, iφ _ hq.1, iψ _ hp.2, iψ _ hq.2]
      exact hc p kp q kq (fun e => hne (by rw [e])))
    rwa [List.length_map, List.length_zip, ← a2, Nat.min_self] at this

/-- **C117** is false of the second set: the points 0, 1, 2 of a line all match points of 0, 1, 3, 6
with tolerance 1, and only two of them if the four are given as 6, 1, 3, 0. -/
theorem C117_refuted :
    (buildMetric true 400 PyGraph.new byDist byDist 3 4 (intWindow 1) (onLine [0, 1, 2]) true
        (onLine [0, 1, 3, 6]) true >>= fun pg =>
      pg.getCorrespondence byDegree 4 {} >>= fun x => .ok x.2) = .ok (.ret ([0, 1, 2], [0, 1, 2])) ∧
    (buildMetric true 400 PyGraph.new byDist byDist 3 4 (intWindow 1) (onLine [0, 1, 2]) true
        (onLine [6, 1, 3, 0]) true >>= fun pg =>
      pg.getCorrespondence byDegree 4 {} >>= fun x => .ok x.2) = .ok (.ret ([0, 1], [2, 1])) := by
  decide +kernel

/-! ## Condition functions alone -/

theorem sym_cond {c : Nat → Nat → Nat → Nat → Bool}
    (h1 : ∀ i1 i2 j1 j2, c i1 i2 j1 j2 = c i2 i1 j1 j2)
    (h2 : ∀ i1 i2 j1 j2, c i1 i2 j1 j2 = c i1 i2 j2 j1) (i1 i2 j1 j2 : Nat) :
    c (min i1 i2) (max i1 i2) (min j1 j2) (max j1 j2) = c i1 i2 j1 j2 := by
  rcases Nat.le_total i1 i2 with a | a <;> rcases Nat.le_total j1 j2 with b | b <;>
    simp only [Nat.min_eq_left, Nat.min_eq_right, Nat.max_eq_left, Nat.max_eq_right, a, b]
  · exact (h2 _ _ _ _)
  · exact (h1 _ _ _ _)
  · rw [h1, h2]

/-- **C117** for `build_edges_condition_only` and both sets, if the condition function does not
depend on the order of two elements of a set. -/
theorem C117_condition {argLR argLR' : Bool} {cap cap' : Nat} {c : Nat → Nat → Nat → Nat → Bool}
    {φ ψ : Nat → Nat} (hφ : Reorders M φ) (hψ : Reorders N ψ) (hb : M * N < 2 ^ 27)
    (hc1 : ∀ i1 i2 j1 j2, c i1 i2 j1 j2 = c i2 i1 j1 j2)
    (hc2 : ∀ i1 i2 j1 j2, c i1 i2 j1 j2 = c i1 i2 j2 j1)
    (he : buildCondition argLR cap PyGraph.new M N c = .ok pg)
    (he' : buildCondition argLR' cap' PyGraph.new M N
      (fun i1 i2 j1 j2 => c (φ i1) (φ i2) (ψ j1) (ψ j2)) = .ok pg')
    (h : Usable pg (M * N) S) (h' : Usable pg' (M * N) S') (hu : M ≤ 65535 ∨ N ≤ 65535)
    {srt srt' : List VData → List VData} (hsrt : ∀ l, (srt l).Perm l)
    (hsrt' : ∀ l, (srt' l).Perm l) :
    ∃ q q' f s f' s', pg.getCorrespondence srt N {} = .ok (q, .ret (f, s)) ∧
      pg'.getCorrespondence srt' N {} = .ok (q', .ret (f', s')) ∧ f.length = f'.length := by
  obtain ⟨_, e1, e2⟩ := buildCondition_spec hb c argLR cap
  rw [he] at e1
  cases e1
  obtain ⟨_, e1', e2'⟩ := buildCondition_spec hb (fun i1 i2 j1 j2 => c (φ i1) (φ i2) (ψ j1) (ψ j2))
    argLR' cap'
  rw [he'] at e1'
  cases e1'
  obtain ⟨_, rfl⟩ := h.loaded.unique e2
  obtain ⟨_, rfl⟩ := h'.loaded.unique e2'
  obtain ⟨φ', hφ', iφ⟩ := hφ.inverse
  obtain ⟨ψ', hψ', iψ⟩ := hψ.inverse
  have m := sym_cond hc1 hc2
  have m' := sym_cond (c := fun i1 i2 j1 j2 => c (φ i1) (φ i2) (ψ j1) (ψ j2))
    (fun _ _ _ _ => hc1 _ _ _ _) (fun _ _ _ _ => hc2 _ _ _ _)
  refine lengths_eq
    (reorder_le hφ hψ corrGraph_apart corrGraph_apart h h' hu (fun i1 i2 j1 j2 h1 h2 h3 h4 ha => ?_)
      hsrt hsrt')
    (reorder_le hφ' hψ' corrGraph_apart corrGraph_apart h' h hu
      (fun i1 i2 j1 j2 h1 h2 h3 h4 ha => ?_) hsrt' hsrt)
  · rw [corrGraph_adj h1 h2 h3 h4] at ha
    rw [corrGraph_adj (hφ.range _ h1) (hφ.range _ h2) (hψ.range _ h3) (hψ.range _ h4)]
    obtain ⟨a1, a2, a3⟩ := ha
    refine ⟨fun e => a1 (hφ.inj _ _ h1 h2 e), fun e => a2 (hψ.inj _ _ h3 h4 e), ?_⟩
    rw [m', m'] at a3
    rw [m, m]
    exact a3
  · rw [corrGraph_adj h1 h2 h3 h4] at ha
    rw [corrGraph_adj (hφ'.range _ h1) (hφ'.range _ h2) (hψ'.range _ h3) (hψ'.range _ h4)]
    obtain ⟨a1, a2, a3⟩ := ha
    refine ⟨fun e => a1 (hφ'.inj _ _ h1 h2 e), fun e => a2 (hψ'.inj _ _ h3 h4 e), ?_⟩
    rw [m, m] at a3
    rw [m', m', iφ _ h1, iφ _ h2, iψ _ h3, iψ _ h4]
    exact a3

/-! ## Examples -/

namespace Sample

/-- The third, the first, the fourth and the second. -/
def shuffle (i : Nat) : Nat := if i = 0 then 2 else if i = 1 then 0 else if i = 2 then 3 else 1

theorem shuffle_reorders : Reorders 4 shuffle :=
  ⟨fun i h => by unfold shuffle; repeat' split
                 all_goals omega,
    fun i j h1 h2 => by unfold shuffle; repeat' split
                        all_goals omega⟩

/-- The points of `tol 1`, those of the first set in another order. -/
def tolShuffled : PyGraph :=
  get PyGraph.new (buildMetric true 400 PyGraph.new byDist byDist 4 4 (intWindow 1)
    (fun i j => onLine [0, 2, 5, 9] (shuffle i) (shuffle j)) true (onLine [0, 2, 6, 20]) true)

theorem tolShuffled_eq : buildMetric true 400 PyGraph.new byDist byDist 4 4 (intWindow 1)
    (fun i j => onLine [0, 2, 5, 9] (shuffle i) (shuffle j)) true (onLine [0, 2, 6, 20]) true =
      .ok tolShuffled := by decide +kernel

theorem tolShuffled_usable : ∃ S, Usable tolShuffled (4 * 4) S := by
  obtain ⟨pg, S, e1, e2, e3⟩ := C29_exact (argLR := true) (cap := 400) (ε := 1) (M := 4) (N := 4)
    (d1 := fun i j => onLine [0, 2, 5, 9] (shuffle i) (shuffle j))
    (by decide) (by decide) (by decide) (by decide) byDist_sorts byDist_sorts
    (sym1 := true) (sym2 := true)
    (fun _ _ _ => onLine_symm [0, 2, 5, 9] _ _) (fun _ => onLine_symm [0, 2, 6, 20])
  rw [tolShuffled_eq] at e1
  cases e1
  refine ⟨S, e2, ?_, _, _, e3 1 3 0 1 (by decide) (by decide) (by decide) (by decide) (by decide)
    (by decide) (by decide)⟩
  intro G hG
  have : (tolShuffled.G.map fun G => G.dangling) = some false := by decide +kernel
  rw [hG] at this
  simpa using this

/-- "As far apart in both sets." -/
def alike (i1 i2 j1 j2 : Nat) : Bool := decide (max i1 i2 - min i1 i2 = max j1 j2 - min j1 j2)

end Sample

/-- The hypotheses of `C117_first_partial` and `C117_right_partial` are met. -/
example : Reorders 4 shuffle ∧
    (∃ S S', Usable (tol 1) (4 * 4) S ∧ Usable tolShuffled (4 * 4) S') ∧
    ((tol 1).getCorrespondence byDegree 4 {} >>= fun x => .ok x.2) =
      .ok (.ret ([0, 1, 2], [0, 1, 2])) ∧
    (tolShuffled.getCorrespondence byDegree 4 {} >>= fun x => .ok x.2) =
      .ok (.ret ([0, 1, 3], [0, 2, 1])) := by
  obtain ⟨S, h⟩ := tol_usable (ε := 1) (by decide) (by decide +kernel) (by decide +kernel)
  obtain ⟨S', h'⟩ := tolShuffled_usable
  refine ⟨shuffle_reorders, ⟨S, S', h, h'⟩, ?_, ?_⟩
  · decide +kernel
  · decide +kernel

/-- The hypotheses of `C117_condition` are met. -/
example : Reorders 3 (fun i => 2 - i) ∧ (∀ i1 i2 j1 j2, alike i1 i2 j1 j2 = alike i2 i1 j1 j2) ∧
    (∀ i1 i2 j1 j2, alike i1 i2 j1 j2 = alike i1 i2 j2 j1) ∧
    ∃ S S', Usable (growing 3 3 alike) (3 * 3) S ∧ Usable (growing 3 3 fun i1 i2 j1 j2 =>
      alike (2 - i1) (2 - i2) j1 j2) (3 * 3) S' := by
  have h := growing_usable (M := 3) (N := 3) (c := alike) (by decide) (by decide +kernel)
    (by decide +kernel) (by decide) (by decide) (by decide)
  have h' := growing_usable (M := 3) (N := 3)
    (c := fun i1 i2 j1 j2 => alike (2 - i1) (2 - i2) j1 j2) (by decide)
    (by decide +kernel) (by decide +kernel) (by decide) (by decide) (by decide)
  refine ⟨⟨fun i h => by omega, fun i j h1 h2 => by omega⟩, fun i1 i2 j1 j2 => ?_,
    fun i1 i2 j1 j2 => ?_, h.elim fun S h => h'.elim fun S' h' => ⟨S, S', h, h'⟩⟩
  · unfold alike; rw [Nat.max_comm i1, Nat.min_comm i1]
  · unfold alike; rw [Nat.max_comm j1, Nat.min_comm j1]

end CM
