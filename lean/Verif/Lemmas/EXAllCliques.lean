import Verif.Lemmas.EXConsume

/-! # `NWGraph.all_cliques` in terms of the specified graph -/

namespace CM

namespace EX

open Spec Graph NWG

open ExactNum

set_option linter.unusedSectionVars false

variable {R : Type} [Zero R] [Add R] [Sub R] [NatCast R] [LT R] [LE R] [DecidableLT R]
  [DecidableLE R] [ExactNum R] {Al : Nat → Finset Nat → Prop} {b : Nat}
  {pg : PyNW R} {n : Nat} {S : SimpleGraph Nat} {ω : Nat → R} {H : NWG R}

/-- The weighted degree the code computes is the weight of the vertex and its neighbours. -/
theorem spec_wdegree_at (h : WPyAt b pg n S ω H) {u : Nat} (h1 : 1 ≤ u) (hu : u ≤ n)
    (hd : H.d u = fin (∑ j ∈ Finset.range (H.g.V u).N, H.qe u j)) :
    H.dq u = wdegree S n (fun v => val (ω v)) u := by
  classical
  have hO := h.of
  have w := h.ok.ok.wf.str
  have hnv := hO.nv
  have huv : u < H.g.nVert := by omega
  have himg : (Finset.range (H.g.V u).N).image (H.g.e u) =
      insert u ((Finset.Icc 1 n).filter fun v => S.Adj u v) := by
    ext x
    simp only [Finset.mem_image, Finset.mem_range, Finset.mem_insert, Finset.mem_filter,
      Finset.mem_Icc]
    constructor
    · rintro ⟨i, hi, rfl⟩
      rcases (hO.adj u _ hu).1 ⟨i, hi, rfl⟩ with h | h
      · exact Or.inl h
      · exact Or.inr ⟨(hO.rng _ _ h).2, h⟩
    · intro h
      have : H.g.nadj u x := by
        rw [hO.adj u x hu]
        rcases h with h | h
        · exact Or.inl h
        · exact Or.inr h.2
      exact this
  unfold dq
  rw [hd, val_fin]
  have : ∑ j ∈ Finset.range (H.g.V u).N, H.qe u j =
      ∑ v ∈ (Finset.range (H.g.V u).N).image (H.g.e u), val (H.w v) := by
    rw [Finset.sum_image]
    · rfl
    · intro i hi j hj he
      simp only [Finset.coe_range, Set.mem_Iio] at hi hj
      rcases Nat.lt_trichotomy i j with h1 | h1 | h1
      · have := w.sorted u huv i j h1 hj; omega
      · exact h1
      · have := w.sorted u huv j i h1 hi; omega
  rw [this, himg, Finset.sum_insert (by simp), h.w u h1 hu]
  unfold wdegree
  congr 1
  have hs : ((Finset.Icc 1 n).filter fun v => S.Adj u v) =
      @Finset.filter _ (fun v => S.Adj u v) (fun a => Classical.propDecidable _)
        (Finset.Icc 1 n) := by congr!
  rw [← hs]
  apply Finset.sum_congr rfl
  intro v hv
  rw [Finset.mem_filter, Finset.mem_Icc] at hv
  rw [h.w v hv.1.1 hv.1.2]

theorem spec_wdegree (h : WPyOk pg n S ω H) {u : Nat} (h1 : 1 ≤ u) (hu : u ≤ n)
    (hd : H.d u = fin (∑ j ∈ Finset.range (H.g.V u).N, H.qe u j)) :
    H.dq u = wdegree S n (fun v => val (ω v)) u := spec_wdegree_at h.at h1 hu hd

/-- The root of a rooted set is the first of its vertices in the order (weighted degree, id). -/
theorem wrooted_first (X : XN H) (wf : WF H.g) (w : Str H.g) {r : Nat} (hr : r < H.g.nVert) {C : Finset Nat}
    (h : WRooted H r C) : ∀ u ∈ H.g.listAt r C, u ≠ r →
      H.dq r < H.dq u ∨ (H.dq r = H.dq u ∧ r < u) := by
  intro u hu hne
  obtain ⟨i, hi, hN, rfl⟩ := mem_listAt.1 hu
  have hsp := w.spos r hr
  have hs := w.self r hr
  have hi2 : i ≠ (H.g.V r).spos := by rintro rfl; exact hne hs
  have := ((mem_wCand X wf hr).1 (h.2 i hi hi2)).2
  rcases this with ⟨h1, h2⟩ | ⟨h1, h2⟩
  · exact Or.inl h2
  · have := w.sorted r hr _ i h1 hN
    rw [hs] at this
    rcases lt_or_eq_of_le h2 with h3 | h3
    · exact Or.inl h3
    · exact Or.inr ⟨h3, this⟩

theorem wlistAt_inj (X : XN H) (wf : WF H.g) (w : Str H.g) {r r' : Nat} (hr : r < H.g.nVert) (hr' : r' < H.g.nVert)
    {C C' : Finset Nat} (h : WRooted H r C) (h' : WRooted H r' C')
    (he : H.g.listAt r C = H.g.listAt r' C') : r = r' ∧ C = C' := by
  have hrr : r = r' := by
    by_contra hne
    have h1 := wrooted_first X wf w hr h r' (by rw [he]; exact root_mem w hr' h'.1) (fun e => hne e.symm)
    have h2 := wrooted_first X wf w hr' h' r (by rw [← he]; exact root_mem w hr h.1) hne
    rcases h1 with h1 | h1 <;> rcases h2 with h2 | h2
    · exact lt_asymm h1 h2
    · exact absurd h2.1.symm (ne_of_lt h1)
    · exact absurd h1.1.symm (ne_of_lt h2)
    · omega
  subst hrr
  refine ⟨rfl, ?_⟩
  have key : ∀ {C C' : Finset Nat}, IsCl H.g r C → IsCl H.g r C' →
      H.g.listAt r C = H.g.listAt r C' → C ⊆ C' := by
    intro C C' h h' he i hi
    have hN := h.2.1 i hi
    have : H.g.e r i ∈ H.g.listAt r C := mem_listAt.2 ⟨i, hi, hN, rfl⟩
    rw [he] at this
    obtain ⟨j, hj, hjN, hje⟩ := mem_listAt.1 this
    have : i = j := by
      rcases Nat.lt_trichotomy i j with h1 | h1 | h1
      · have := w.sorted r hr i j h1 hjN; omega
      · exact h1
      · have := w.sorted r hr j i h1 hN; omega
    rw [this]; exact hj
  exact Finset.Subset.antisymm (key h.1 h'.1 he) (key h'.1 h.1 he.symm)

theorem wlistAt_eq (w : Str H.g) {l : List Nat}
    (hl : IsCliqueList S n l) {r : Nat} {T : Finset Nat} (hr : r < H.g.nVert)
    (hT : WRooted H r T) (hi : T.image (H.g.e r) = l.toFinset) : H.g.listAt r T = l := by
  apply sorted_ext (listAt_sorted w hr T) hl.increasing
  intro x
  rw [← List.mem_toFinset (l := l), ← hi, Finset.mem_image, mem_listAt]
  constructor
  · rintro ⟨i, h1, _, h2⟩; exact ⟨i, h1, h2⟩
  · rintro ⟨i, h1, h2⟩; exact ⟨i, h1, hT.1.2.1 i h1, h2⟩

/-- The result of iterating `all_cliques(W)` to the end. -/
theorem wlistCliques_at (Xe : XE H) (h : WPyAt b pg n S ω H) (junk : Nat → R) (W : Rat)
    (hAl : ∀ v C, W ≤ H.wsum v C → Al v C) :
    ∃ (H' : NWG R) (cs : List (List Nat)),
      pg.listCliques junk (fin W) = .ok ({ pg with G := some H' }, cs) ∧
      OkAt b H'.g ∧ WCoreS Al b H H' ∧ cs.Nodup ∧
      (∀ l ∈ cs, IsCliqueList S n l ∧ 2 ≤ l.length) ∧
      ((∀ u, u ≤ n → H.d u = fin (∑ j ∈ Finset.range (H.g.V u).N, H.qe u j)) →
        (∀ l ∈ cs, ∃ u, u ≠ 1 ∧ WFirst S n (fun v => val (ω v)) u l ∧ ReachedLast (fun v => val (ω v)) W u l) ∧
        ((∀ v, 0 ≤ val (H.w v)) → McsOk H → (∀ l, IsCliqueList S n l → weight (fun v => val (ω v)) l ≤ H.lm) →
          ∀ l u, IsCliqueList S n l → 2 ≤ l.length → WFirst S n (fun v => val (ω v)) u l → u ≠ 1 →
            ReachedLast (fun v => val (ω v)) W u l → l ∈ cs)) := by
  have X := Xe.toXN
  have wf := h.ok.ok.wf
  have w := h.ok.ok.wf.str
  have hO := h.of
  have hnv := hO.nv
  have hpos := h.pos
  obtain ⟨P, h3, h4⟩ := wpend_finite h.ok.ok.wf ((List.range H.g.maxDeg).map junk) W
  obtain ⟨H', E', ps, a1, a2, a3, a4, a5, a6, a7⟩ := wconsume_spec Xe hAl (pg := pg)
    (H.g.nVert * 2 ^ H.g.maxDeg + 1) P h.g (by rw [hnv, h.nv])
    (einv_new h.ok (by omega) ((List.range H.g.maxDeg).map junk) (by simp) W) h3 (by omega)
  have hq : ∀ q ∈ ps, 1 < q.1 ∧ q.1 < H.g.nVert ∧ WRooted H q.1 q.2 ∧
      RootW H W q.1 q.2 := by
    intro q hq
    obtain ⟨b1, b2, _, b4⟩ := (new_wpend _ W q.1 q.2).1 (a5 q hq)
    exact ⟨b1, b2, b4.1, b4⟩
  have hfirst : (∀ u, u ≤ n → H.d u = fin (∑ j ∈ Finset.range (H.g.V u).N, H.qe u j)) →
      ∀ {r : Nat} {C : Finset Nat}, 1 ≤ r → r < H.g.nVert → WRooted H r C →
        WFirst S n (fun v => val (ω v)) r (H.g.listAt r C) := by
    intro hd r C h0 hr hC
    refine ⟨root_mem w hr hC.1, ?_⟩
    intro u hu hne
    have hcl := listAt_clique hO w hr (by omega) hC.1
    have hur := hcl.range u hu
    have := wrooted_first X wf w hr hC u hu hne
    rwa [spec_wdegree_at h h0 (by omega) (hd r (by omega)),
      spec_wdegree_at h hur.1 hur.2 (hd u hur.2)] at this
  have hw : ∀ {l : List Nat}, IsCliqueList S n l → ∀ v ∈ l, val (H.w v) = val (ω v) :=
    fun hl v hv => by rw [h.w v (hl.range v hv).1 (hl.range v hv).2]
  refine ⟨H', ps.map fun q => H.g.listAt q.1 q.2, ?_, a2, a3, ?_, ?_, ?_⟩
  rotate_left
  · rw [List.nodup_map_iff_inj_on a4]
    rintro ⟨r, C⟩ hq1 ⟨r', C'⟩ hq2 he
    obtain ⟨b1, b2, b3, _⟩ := hq _ hq1
    obtain ⟨c1, c2, c3, _⟩ := hq _ hq2
    obtain ⟨d1, d2⟩ := wlistAt_inj X wf w b2 c2 b3 c3 he
    simp only at d1 d2
    rw [d1, d2]
  · intro l hl
    obtain ⟨⟨r, C⟩, hm, rfl⟩ := List.mem_map.1 hl
    obtain ⟨b1, b2, b3, b4⟩ := hq _ hm
    refine ⟨listAt_clique hO w b2 (by simp only at b1; omega) b3.1, ?_⟩
    exact ((rootW_list w b2 b3).1 b4).1
  · intro hd
    constructor
    · intro l hl
      obtain ⟨⟨r, C⟩, hm, rfl⟩ := List.mem_map.1 hl
      obtain ⟨b1, b2, b3, b4⟩ := hq _ hm
      simp only at b1 b2 b3 b4
      have hcl := listAt_clique hO w b2 (by omega) b3.1
      have hf := hfirst hd (by omega) b2 b3
      exact ⟨r, by omega, hf, (reachedLast_congr (hw hcl) hf.1).1 ((rootW_list w b2 b3).1 b4).2⟩
    · intro hnn hm hlim l u hl h2 hu hu1 hre
      obtain ⟨r, T, b1, b2, b3, b4, b5, b6, _⟩ := spec_wrooted X wf hO w hl (by rintro rfl; simp at h2)
      have he := wlistAt_eq w hl b2 b3 b5
      have hrr := hl.range r b1
      have hf := hfirst hd hrr.1 b2 b3
      rw [he] at hf
      have hur : u = r := WFirst.unique hu hf
      subst hur
      have hR : RootW H W u T := by
        rw [rootW_list w b2 b3, he]
        exact ⟨h2, (reachedLast_congr (hw hl) b1).2 hre⟩
      rw [List.mem_map]
      refine ⟨(u, T), a6 hnn u T ((new_wpend _ W u T).2 ⟨by omega, b2, ?_, hR⟩), he⟩
      have hle : W ≤ weight (fun v => val (ω v)) l := hre.1
      have hwl : H.wsum u T = weight (fun v => val (ω v)) l := by rw [b6, CM.weight_congr (hw hl)]
      rcases hm u b2 T b3 (by omega) with h5 | h5
      · exact le_trans hle (by rw [← hwl]; exact h5)
      · exact le_trans hle (le_trans (hlim l hl) h5)
  · unfold PyNW.listCliques PyNW.allCliques
    rw [h.loaded]
    simp only
    rw [ok_bind, h.g]
    simp only
    rw [a1, ok_bind]

theorem wlistCliques_spec (Xe : XE H) (h : WPyOk pg n S ω H) (junk : Nat → R) (W : Rat) :
    ∃ (H' : NWG R) (cs : List (List Nat)),
      pg.listCliques junk (fin W) = .ok ({ pg with G := some H' }, cs) ∧
      WOk H' ∧ WCoreS anyCl H.g.searchStart H H' ∧ cs.Nodup ∧
      (∀ l ∈ cs, IsCliqueList S n l ∧ 2 ≤ l.length) ∧
      ((∀ u, u ≤ n → H.d u = fin (∑ j ∈ Finset.range (H.g.V u).N, H.qe u j)) →
        (∀ l ∈ cs, ∃ u, u ≠ 1 ∧ WFirst S n (fun v => val (ω v)) u l ∧ ReachedLast (fun v => val (ω v)) W u l) ∧
        ((∀ v, 0 ≤ val (H.w v)) → McsOk H → (∀ l, IsCliqueList S n l → weight (fun v => val (ω v)) l ≤ H.lm) →
          ∀ l u, IsCliqueList S n l → 2 ≤ l.length → WFirst S n (fun v => val (ω v)) u l → u ≠ 1 →
            ReachedLast (fun v => val (ω v)) W u l → l ∈ cs)) := by
  obtain ⟨H', cs, h1, h2, h3, h4⟩ := wlistCliques_at (Al := anyCl) Xe h.at junk W
    (fun _ _ _ => trivial)
  exact ⟨H', cs, h1, (h3.okAt h.ok.at h2).wok h.ok h3.frame.frame h3.core.low, h3, h4⟩

/-- Iterating to the end leaves the iterator past the last vertex. -/
theorem wlistCliques_end (Xe : XE H) (h : WPyOk pg n S ω H) (junk : Nat → R) (W : Rat) :
    ∃ fuel E H' E' cs, pg.allCliques junk (fin W) = .ok E ∧
      pg.consume fuel E = .ok ({ pg with G := some H' }, E', cs) ∧
      pg.listCliques junk (fin W) = .ok ({ pg with G := some H' }, cs) ∧
      E'.cur = H'.g.nVert ∧ H'.g.nVert = pg.nvert + 1 := by
  have hnv := h.of.nv
  have hpos := h.pos
  obtain ⟨P, h3, h4⟩ := wpend_finite h.ok.ok.wf ((List.range H.g.maxDeg).map junk) W
  obtain ⟨H', E', ps, a1, a2, a3, a4, a5, a6, a7⟩ := wconsume_spec (Al := anyCl) Xe (fun _ _ _ => trivial) (pg := pg)
    (H.g.nVert * 2 ^ H.g.maxDeg + 1) P h.g (by rw [hnv, h.nv])
    (einv_new h.ok.at (by omega) ((List.range H.g.maxDeg).map junk) (by simp) W) h3 (by omega)
  have hf : H'.g.nVert = H.g.nVert := a3.frame.frame.nVert
  refine ⟨_, _, H', E', _, ?_, a1, ?_, by rw [a7, hf], by rw [hf, hnv, h.nv]⟩
  · unfold PyNW.allCliques
    rw [h.loaded]
  · unfold PyNW.listCliques PyNW.allCliques
    rw [h.loaded]
    simp only
    rw [ok_bind, h.g]
    simp only
    rw [a1, ok_bind]

end EX

end CM
