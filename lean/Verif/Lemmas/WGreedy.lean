import Verif.Lemmas.Idle
import Verif.Lemmas.NWRat
import Verif.Lemmas.EXAllCliques

/-! # What the weighted heuristic returns -/

namespace CM

namespace EX

open Spec Graph NWG ExactNum

variable {R : Type} [Zero R] [Add R] [Sub R] [NatCast R] [LT R] [LE R] [DecidableLT R]
  [DecidableLE R] [ExactNum R]
  {pg : PyNW R} {n : Nat} {S : SimpleGraph Nat} {ω : Nat → R} {q : Nat → Rat} {H : NWG R}

/-- The greedy clique rooted at `r` in terms of the specified graph. -/
theorem wgreedy_spec (X : XN H) (wf : WF H.g) (hO : Of H.g n S) (w : Str H.g)
    (hdeg : ∀ u, 1 ≤ u → u ≤ n → H.dq u = wdegree S n q u) {r : Nat} (hr : r ≤ n)
    (hF : WFull H r (bset H.g.eb (H.g.vb r))) {v : Nat}
    (hv : ∀ u ∈ H.g.cliqueAt r, S.Adj u v) : WFirst S n q v (v :: H.g.cliqueAt r) := by
  have hnv := hO.nv
  have hrv : r < H.g.nVert := by omega
  have hs := w.spos r hrv
  have hself := w.self r hrv
  have hinj : ∀ i j, i < (H.g.V r).N → j < (H.g.V r).N → (H.g.e r i < H.g.e r j ↔ i < j) := by
    intro i j hi hj
    constructor
    · intro h
      rcases Nat.lt_trichotomy i j with h1 | h1 | h1
      · exact h1
      · subst h1; omega
      · have := w.sorted r hrv j i h1 hi; omega
    · intro h; exact w.sorted r hrv i j h hj
  have hrl : r ∈ H.g.cliqueAt r := mem_cliqueAt.2 ⟨_, hF.1, hself⟩
  have hrv' := hv r hrl
  have hrn := (hO.rng _ _ hrv').1
  have hvn := (hO.rng _ _ hrv').2
  obtain ⟨i, hi, he⟩ := (hO.adj r v hr).2 (Or.inr hrv')
  have hni : i ∉ H.wCand r := by
    intro hc
    rcases hF.2.2 i hc with h | ⟨t, ht, hA⟩
    · exact (hv v (mem_cliqueAt.2 ⟨i, h, he⟩)).ne rfl
    · have htl : H.g.e r t ∈ H.g.cliqueAt r := mem_cliqueAt.2 ⟨t, ht, rfl⟩
      have ha := hv _ htl
      refine hA ?_
      unfold A
      rw [he]
      exact (hO.adj _ _ (hO.rng _ _ ha).1.2).2 (Or.inr ha)
  have h1 := hinj i _ hi hs
  have h2 := hinj _ i hs hi
  rw [hself, he] at h1 h2
  have hne : v ≠ r := hrv'.ne.symm
  have hbefore : wdegree S n q v < wdegree S n q r ∨
      wdegree S n q v = wdegree S n q r ∧ v < r := by
    rw [mem_wCand X wf hrv, he, hdeg v hvn.1 hvn.2, hdeg r hrn.1 hrn.2] at hni
    rcases Nat.lt_or_ge v r with h | h
    · by_cases hle : wdegree S n q r < wdegree S n q v
      · exact absurd ⟨hi, Or.inl ⟨h1.1 h, hle⟩⟩ hni
      · rcases lt_or_eq_of_le (not_lt.1 hle) with h3 | h3
        · exact Or.inl h3
        · exact Or.inr ⟨h3, h⟩
    · by_cases hlt : wdegree S n q r ≤ wdegree S n q v
      · exact absurd ⟨hi, Or.inr ⟨h2.1 (by omega), hlt⟩⟩ hni
      · exact Or.inl (not_le.1 hlt)
  refine ⟨List.mem_cons_self, fun u hu hne' => ?_⟩
  rcases List.mem_cons.1 hu with rfl | hu
  · exact absurd rfl hne'
  obtain ⟨j, hj, rfl⟩ := mem_cliqueAt.1 hu
  by_cases hjs : j = (H.g.V r).spos
  · rw [hjs, hself]
    exact hbefore
  · obtain ⟨hjN, hc⟩ := (mem_wCand X wf hrv).1 (hF.2.1 j hj hjs)
    have hjn := (hO.rng _ _ (hv _ hu)).1
    rw [hdeg _ hjn.1 hjn.2, hdeg r hrn.1 hrn.2] at hc
    rcases hc with ⟨_, hc⟩ | ⟨h3, hc⟩
    · rcases hbefore with h | ⟨h, _⟩
      · exact Or.inl (lt_trans h hc)
      · exact Or.inl (h ▸ hc)
    · have h4 := (hinj _ j hs hjN).2 h3
      rw [hself] at h4
      rcases hbefore with h | ⟨h, h5⟩
      · exact Or.inl (lt_of_lt_of_le h hc)
      · rcases lt_or_eq_of_le hc with h6 | h6
        · exact Or.inl (h ▸ h6)
        · exact Or.inr ⟨h.trans h6, by omega⟩

/-- A search that only uses the heuristic. -/
theorem wheur_search (X : XN H) (h : WPyOk pg n S ω H)
    (hd : ∀ v, v ≤ n → H.d v = fin (∑ j ∈ Finset.range (H.g.V v).N, H.qe v j))
    {srt : List (WData R) → List (WData R)} (hsrt : ∀ l, (srt l).Perm l) (junk : Nat → R)
    {a : PyNW.Args R} (hlb : LowOk a.lowerBound) (hub : UpOk a.upperBound) (hdfs : a.useDfs = false) :
    ∃ pg' l W, pg.getMaxClique srt junk a = .ok (pg', if a.lowerBound > W then .raise else .ret l) ∧
      (l = wstored H ∨ ∀ v, (∀ u ∈ l, S.Adj u v) → WFirst S n (fun u => val (ω u)) v (v :: l)) := by
  by_cases hh : a.useHeuristic = true
  swap
  · exact ⟨_, _, _, AW.idle_spec h srt junk (Bool.eq_false_iff.2 hh) hdfs, Or.inl rfl⟩
  · obtain ⟨H', h1, h2, h3, X2, _, h5⟩ := NWG.heurGraph_full hsrt (wbounded_xn X hlb hub)
      (wbounded_at h.at.ok a)
    have F := (wbounded_frame H a).trans h3.frame
    have hO := h.of.frame F.frame
    refine ⟨{
      G := some H'
      finishedAll := decide (0 ≥ pg.nvert)
      nvert := pg.nvert
      nedges := pg.nedges
      currentVertex := 0 }, wstored H', summed H'.w (wstored H'), ?_, ?_⟩
    · have hl : PyNW.checkLoaded { pg with currentVertex := 0 } = some H := h.loaded
      unfold PyNW.getMaxClique
      simp only
      rw [hl]
      simp only
      rw [hh, hdfs]
      unfold NWG.findMaxCliques
      simp only
      unfold wbounded at h1
      rw [if_pos trivial, h1, ok_bind, if_neg (by decide), ok_bind]
      simp only
      rw [NWG.getClique_at h2 h2.loc, ok_bind]
      simp only
      rw [AW.cliqueWeight_spec h2.l (cliqueAt_lt_at h2 h2.loc), ok_bind]
      unfold wstored
      split <;> rfl
    · rcases h5 with ⟨h5, h6⟩ | h5
      · left
        unfold wstored
        have h7 : H'.curLoc = H.curLoc := h6
        rw [h7, cliqueAt_listAt F.frame, cliqueAt_listAt (Frame.refl H.g)]
        rw [h7] at h5
        congr 1
      · right
        intro v hv
        have hloc := h2.loc
        rw [hO.nv] at hloc
        refine wgreedy_spec X2 h2.ok.wf hO h2.ok.wf.str (fun u e1 e2 => ?_) (r := H'.curLoc) (by omega) ?_ hv
        · have hdq : H'.dq u = H.dq u := by
            unfold dq
            rw [F.d]
          rw [hdq]
          exact spec_wdegree h e1 e2 (hd u e2)
        · rw [h3.frame.full, h3.frame.frame.vb]
          exact h5

end EX

open Spec NWG

/-- A search that only uses the heuristic, with rational weights. -/
theorem wheur_search {pg : PyNW Rat} {n : Nat} {S : SimpleGraph Nat} {ω : Nat → Rat} {H : NWG Rat}
    (h : WPyOk pg n S ω H)
    (hd : ∀ v, v ≤ n → H.d v = ∑ j ∈ Finset.range (H.g.V v).N, H.we v j)
    {srt : List (WData Rat) → List (WData Rat)} (hsrt : ∀ l, (srt l).Perm l) (junk : Nat → Rat)
    {a : PyNW.Args Rat} (hdfs : a.useDfs = false) :
    ∃ pg' l W, pg.getMaxClique srt junk a = .ok (pg', if a.lowerBound > W then .raise else .ret l) ∧
      (l = wstored H ∨ ∀ v, (∀ u ∈ l, S.Adj u v) → WFirst S n ω v (v :: l)) :=
  EX.wheur_search (xn_rat H) h hd hsrt junk (low_rat _) (up_rat _) hdfs

end CM
