import Verif.Lemmas.EXMain

/-! # Exact weighted searches one after the other, with different bounds -/

namespace CM

namespace EX

open Graph Spec NWG

open ExactNum

set_option linter.unusedSectionVars false

variable {R : Type} [Zero R] [Add R] [Sub R] [NatCast R] [LT R] [LE R] [DecidableLT R]
  [DecidableLE R] [ExactNum R]
  {pg : PyNW R} {n : Nat} {S : SimpleGraph Nat} {q : Nat → Rat}

theorem bounds_first (h : Given pg n S q) (hnn : ∀ v, 1 ≤ v → v ≤ n → 0 ≤ q v)
    {srt1 : List (WData R) → List (WData R)} (hsrt1 : ∀ l, (srt1 l).Perm l) (junk1 : Nat → R)
    {a1 : PyNW.Args R} (hd1 : a1.useDfs = true) {lb1 : Rat} (hlb1 : a1.lowerBound = fin lb1)
    (h0 : 0 ≤ lb1) (hub1 : UpOk a1.upperBound)
    (hu1 : ∀ l, IsCliqueList S n l → (fin (weight q l) : R) ≤ a1.upperBound)
    (hex : ∃ l, IsCliqueList S n l ∧ 2 ≤ l.length ∧ lb1 < weight q l)
    {ops : List (WOp R)} (hl : ∀ op ∈ ops, SearchQ S n q op)
    {srt2 : List (WData R) → List (WData R)} (hsrt2 : ∀ l, (srt2 l).Perm l) (junk2 : Nat → R)
    {a2 : PyNW.Args R} (hd2 : a2.useDfs = true) (hub2 : UpOk a2.upperBound)
    (hu2 : ∀ l, IsCliqueList S n l → (fin (weight q l) : R) ≤ a2.upperBound) {lb2 : Rat}
    (hlb2 : a2.lowerBound = fin lb2)
    (hlow : ∃ l, IsCliqueList S n l ∧ 2 ≤ l.length ∧ lb2 ≤ weight q l) :
    ∃ pg1 l1 pg2 pg3 l2, pg.getMaxClique srt1 junk1 a1 = .ok (pg1, .ret l1) ∧
      wruns ops pg1 = .ok pg2 ∧ pg2.getMaxClique srt2 junk2 a2 = .ok (pg3, .ret l2) ∧
      IsCliqueList S n l2 ∧
      ∀ l', IsCliqueList S n l' → 2 ≤ l'.length → weight q l' ≤ weight q l2 := by
  obtain ⟨H, hF⟩ := h.fresh
  obtain ⟨pg1, l1, e1, e2, e3, _, e4⟩ := exact_fresh h hnn hsrt1 junk1 hd1 hlb1 h0 hub1 hu1 hex
  obtain ⟨pg1', H1, c1, c2, _, cX, c4, _, _, _, _, c6⟩ :=
    wsearch_spec hF.x hF.pyok hsrt1 junk1 a1 (Or.inl (num_of hlb1)) hub1
  rw [e1] at c1
  injection c1 with c1
  injection c1 with c1 c1'
  subst c1
  obtain ⟨c7, _⟩ := c6 (nonneg_q hF.pyok hnn) (fresh_mcs hF hnn)
  have hlim1 : LimQ S n q H1 := by
    intro l hl
    have := wbounded_lm_ge hF.x hub1 (fresh_lim hF hnn l hl) (hu1 l hl)
    unfold lm at this ⊢
    rw [c4]; exact this
  have hst : l1 = wstored H1 := by
    split at c1'
    · cases c1'
    · injection c1'
  have hw1 : weight (fun u => val (H1.w u)) (wstored H1) = weight q l1 := by
    rw [← hst, weight_q c2 e2]
  have key : ∀ l', IsCliqueList S n l' → 2 ≤ l'.length →
      ∃ pg2 pg3 H3, wruns ops pg1 = .ok pg2 ∧ pg2.getMaxClique srt2 junk2 a2 = .ok (pg3,
        if a2.lowerBound > fin (weight (fun u => val (H3.w u)) (wstored H3))
        then .raise else .ret (wstored H3)) ∧ WPyOk pg3 n S (fq q) H3 ∧
        weight q l' ≤ weight (fun u => val (H3.w u)) (wstored H3) := by
    intro l' hl' h2
    obtain ⟨pg2, H2, f1, fX, f2, f3, f4, f5⟩ := searches_mono hnn hl' h2 ops hl cX c2 c7 hlim1
      (by rw [hw1]; exact e4 l' hl' h2)
    obtain ⟨pg3, H3, g1, g2, _, _, _, g5⟩ := search_mono fX f2 hnn f3 f4 hsrt2 junk2 hd2
      (Or.inl (num_of hlb2)) hub2 hu2 hl' h2 f5
    exact ⟨pg2, pg3, H3, f1, g1, g2, g5⟩
  obtain ⟨lx, x1, x2, x3⟩ := hlow
  obtain ⟨pg2, pg3, H3, f1, f2, f3, f4⟩ := key lx x1 x2
  have hall : ∀ l', IsCliqueList S n l' → 2 ≤ l'.length →
      weight q l' ≤ weight (fun u => val (H3.w u)) (wstored H3) := by
    intro l' hl' h2
    obtain ⟨pg2', pg3', H3', k1, k2, k3, k4⟩ := key l' hl' h2
    rw [f1] at k1
    cases k1
    rw [f2] at k2
    injection k2 with k2
    injection k2 with k2 _
    subst k2
    have : H3' = H3 := by
      have := k3.g
      rw [f3.g] at this
      injection this with this
      exact this.symm
    rwa [this] at k4
  rw [if_neg (by
    rw [hlb2, gt_iff_lt, ExactNum.lt]; exact not_lt.2 (le_trans x3 f4))] at f2
  have hcl : IsCliqueList S n (wstored H3) := by
    apply wstored_clique f3
    intro hz
    obtain ⟨ly, y1, y2, y3⟩ := hex
    have := hall ly y1 y2
    rw [wstored_zero f3 hz] at this
    have hw0 : weight (fun u => val (H3.w u)) [0] = 0 := by simp [weight, f3.w0, val_zero]
    rw [hw0] at this
    exact absurd (lt_of_le_of_lt h0 y3) (not_lt.2 this)
  exact ⟨pg1, l1, pg2, pg3, _, e1, f1, f2, hcl, fun l' hl' h2 => by
    rw [← weight_q f3 hcl]; exact hall l' hl' h2⟩

end EX

end CM
