import Verif.Lemmas.NWMemTest
import Verif.Lemmas.WSpecLemmas

/-! # What the command-line program for weighted graphs computes -/

namespace CM

open Spec

namespace EX

set_option linter.unusedSectionVars false

open Graph NWG ExactNum

/-! ## Weights that are all one -/

/-- Every vertex has the weight one. -/
def one : Nat → Rat := fun _ => 1

theorem weight_one (l : List Nat) : weight one l = l.length := by
  unfold weight one
  induction l with
  | nil => rfl
  | cons a l ih => rw [List.map_cons, List.sum_cons, ih, List.length_cons]; push_cast; rw [add_comm]

variable {S : SimpleGraph Nat} {n : Nat}

theorem wdegree_one (u : Nat) : wdegree S n one u = degree S n u + 1 := by
  unfold wdegree degree one
  rw [Finset.sum_const, nsmul_eq_mul, mul_one, add_comm]

theorem wfirst_one {u : Nat} {l : List Nat} : WFirst S n one u l ↔ First S n u l := by
  unfold WFirst First
  simp only [wdegree_one, add_lt_add_iff_right, add_left_inj, Nat.cast_lt, Nat.cast_inj]

theorem reachedLast_one {k u : Nat} {l : List Nat} (hu : u ∈ l) (h2 : 2 ≤ l.length) :
    ReachedLast one k u l ↔ l.length = max k 2 := by
  have hlen : (u :: l.erase u).length = l.length := by
    rw [List.length_cons, List.length_erase_of_mem hu]; omega
  have key : ∀ m, m < l.length → weight one ((u :: l.erase u).take m) = m := by
    intro m hm
    rw [weight_one, List.length_take, hlen, Nat.min_eq_left (by omega)]
  unfold ReachedLast
  rw [weight_one, Nat.cast_le]
  constructor
  · rintro ⟨h1, h3⟩
    rcases Nat.lt_or_ge 2 l.length with h4 | h4
    · have := h3 (l.length - 1) (by omega) (by omega)
      rw [key _ (by omega), Nat.cast_lt] at this
      omega
    · omega
  · intro h
    refine ⟨by omega, fun m h3 h4 => ?_⟩
    rw [key m h4, Nat.cast_lt]
    omega

/-! ## The program -/

variable {R : Type} [Zero R] [Add R] [Sub R] [NatCast R] [LT R] [LE R] [DecidableLT R]
  [DecidableLE R] [ExactNum R] {pg : PyNW R} {ω : Nat → R} {H : NWG R}

theorem zero_nbr (h : WPyOk pg n S ω H) {i : Nat} (hi : i < (H.g.V 0).N) : H.g.e 0 i = 0 :=
  h.of.zero ⟨i, hi, rfl⟩

theorem bare (h : WPyOk pg n S ω H) : Bare H := by
  have s := h.ok.ok.wf.str
  have h0 := s.npos
  have hs := s.spos 0 h0
  have hN : (H.g.V 0).N = 1 := by
    by_contra hN
    have := str_inj s h0 (i := 0) (j := 1) (by omega) (by omega)
      ((zero_nbr h (by omega)).trans (zero_nbr h (by omega)).symm)
    omega
  exact ⟨_, s.vtx_ok h0, by omega, hN⟩

theorem zero_wsum (h : WPyOk pg n S ω H) {T : Finset Nat} (hT : ∀ i ∈ T, i < (H.g.V 0).N) :
    H.wsum 0 T = 0 := by
  unfold wsum
  apply Finset.sum_eq_zero
  intro i hi
  unfold qe we
  rw [zero_nbr h (hT i hi), h.w0, val_zero]

/-- The graph with unit weights: what is printed. -/
theorem memRun_spec (hF : WFresh pg n S (fq one) H) (x : XW2 n (fq (R := R) one))
    (h1 : ((1 : Nat) : R) = fin 1) {srt : List (WData R) → List (WData R)}
    (hsrt : ∀ l, (srt l).Perm l) (junk junk' : Nat → R) :
    ∃ (heur stack : List Nat) (cs : List (List Nat)), H.memRun srt junk junk' = .ok
        { heur, heurWeight := fin heur.length, stack, stackWeight := fin stack.length,
          weight := fin ((stack.length - 1 : Nat) : Rat), count := cs.length } ∧
      IsCliqueList S n heur ∧ heur ≠ [] ∧ IsMaxCliqueList S n stack ∧ 2 ≤ stack.length ∧
      cs.Nodup ∧ ∀ l, l ∈ cs ↔ IsCliqueList S n l ∧ l.length = max (stack.length - 1) 2 ∧
        ¬ First S n 1 l := by
  have hP := hF.pyok
  have hnn : ∀ v, 1 ≤ v → v ≤ n → (0 : Rat) ≤ one v := fun _ _ _ => zero_le_one
  have hnn' := nonneg_q hP hnn
  obtain ⟨e1, e2, he⟩ := hF.edge
  obtain ⟨lp, hlp, hlp2⟩ := pair_clique he (hP.of.rng _ _ he)
  have hlim := fresh_lim hF hnn
  have hloc : H.curLoc ≠ 0 := by
    intro h0
    have h2 := hlim lp hlp
    rw [weight_one, hlp2] at h2
    rcases hF.bounds.eq with ⟨b1, _⟩ | ⟨b1, b2⟩
    · rw [b1] at h2; norm_num at h2
    · rw [h0, hP.w0, val_zero, zero_wsum hP (fun i hi => (mem_wCand'.1 hi).1), add_zero] at b2
      rw [b2] at b1
      exact absurd b1 (lt_irrefl _)
  have py : ∀ {H' : NWG R}, WOk H' → WFrame H H' →
      WPyOk { pg with G := some H' } n S (fq one) H' := fun {H'} ok F =>
    ⟨rfl, hP.nv, hP.pos, ok, hP.of.frame F.frame, fun v h4 h5 => by rw [F.w]; exact hP.w v h4 h5,
      by rw [F.w]; exact hP.w0⟩
  have cw : ∀ {H' : NWG R}, WOk H' → WFrame H H' → XN H' → ∀ l, IsCliqueList S n l →
      H'.cliqueWeight l = .ok (fin (l.length : Rat)) := by
    intro H' ok F X l hl
    rw [cliqueWeight_spec X ok.l (hl.increasing.imp fun h => Nat.ne_of_lt h) (by
      intro v hv
      have := hl.range v hv
      have := (hP.of.frame F.frame).nv
      omega), weight_q (py ok F) hl, weight_one]
  -- the heuristic
  obtain ⟨H1, i1, a1, a2, a3, aX, _, a4⟩ := NWG.findMax_at hsrt junk hF.x hP.ok.at 0 true false
  have ok1 : WOk H1 := a2.wok hP.ok a3.frame.frame a3.low
  have hloc1 : H1.curLoc ≠ 0 := (findMax_off (bare hP) a1).2 hloc
  have hc1 := wstored_clique (py ok1 a3.frame) hloc1
  have hne1 : wstored H1 ≠ [] := by
    intro h0
    have h2 := (ok1.ok.cliq _ ok1.loc).1
    have h3 : H1.g.e H1.curLoc (H1.g.V H1.curLoc).spos ∈ wstored H1 := mem_cliqueAt.2 ⟨_, h2, rfl⟩
    rw [h0] at h3
    simp at h3
  obtain ⟨m1, _⟩ := a4 hnn' (fresh_mcs hF hnn)
  have hnn1 : ∀ v, 0 ≤ val (H1.w v) := fun v => by rw [a3.frame.w]; exact hnn' v
  -- the search
  obtain ⟨H2, i2, b1, b2, b3, bX, _, b4⟩ := NWG.findMax_at hsrt junk aX ok1.at 0 false true
  have ok2 : WOk H2 := b2.wok ok1 b3.frame.frame b3.low
  have F2 := a3.frame.trans b3.frame
  have P2 := py ok2 F2
  obtain ⟨m2, hb⟩ := b4 hnn1 m1
  have hlm2 : H2.lm = H.lm := by unfold lm; rw [b3.lim, a3.lim]
  have hbest : ∀ l, IsCliqueList S n l → 2 ≤ l.length → (l.length : Rat) ≤ H2.cm := by
    intro l hl h2
    rw [← weight_one]
    rcases wbest_spec bX ok2.ok.wf P2.of ok2.ok.wf.str (hb rfl) hl h2 with h3 | h3
    · rwa [weight_q P2 hl] at h3
    · rw [hlm2] at h3
      exact le_trans (hlim l hl) h3
  have hp := hbest lp hlp (by omega)
  rw [hlp2] at hp
  have hcm2 : H2.cm ≠ 0 := by
    intro h0; rw [h0] at hp; norm_num at hp
  have hrec : weight (fun u => val (H2.w u)) (wstored H2) = H2.cm := by
    rcases (a3.toWImp.trans b3.toWImp).best with ⟨d1, _, _⟩ | ⟨d1, d2⟩
    · exfalso
      apply hcm2
      unfold cm
      rw [d1, hF.cm, val_zero]
    · rw [weight_wstored]
      unfold cm
      rw [← d2, val_fin, F2.wsum, F2.frame.vb]
  have hloc2 : H2.curLoc ≠ 0 := by
    intro h0
    apply hcm2
    rw [← hrec, weight_wstored, h0]
    exact zero_wsum P2 fun i hi => (ok2.ok.cliq 0 ok2.ok.wf.npos).2.1 i hi
  have hc2 := wstored_clique P2 hloc2
  rw [weight_q P2 hc2, weight_one] at hrec
  rw [← hrec] at hp hbest
  have h2 : 2 ≤ (wstored H2).length := by exact_mod_cast hp
  have hmax : IsMaxCliqueList S n (wstored H2) := by
    refine ⟨hc2, fun l hl => ?_⟩
    rcases Nat.lt_or_ge l.length 2 with h3 | h3
    · omega
    · exact_mod_cast hbest l hl h3
  have hsub : (fin ((wstored H2).length : Rat) : R) - fin 1 =
      fin (((wstored H2).length - 1 : Nat) : Rat) := by
    have hcast : ((wstored H2).length : Rat) - 1 = (((wstored H2).length - 1 : Nat) : Rat) := by
      rw [Nat.cast_sub (by omega), Nat.cast_one]
    rw [ExactNum.sub, hcast]
    rw [hcast]
    have hsub : ((wstored H2).drop 1).toFinset ⊆ Finset.Icc 1 n := by
      intro v hv
      rw [List.mem_toFinset] at hv
      rw [Finset.mem_Icc]
      exact hc2.range v (List.mem_of_mem_drop hv)
    have := x.sums _ hsub
    rw [Finset.sum_congr rfl (g := fun _ => (1 : Rat)) (fun v _ => by unfold fq one; rw [val_fin]),
      Finset.sum_const, nsmul_eq_mul, mul_one, List.toFinset_card_of_nodup, List.length_drop] at this
    · exact this
    · exact (hc2.increasing.imp fun h => Nat.ne_of_lt h).sublist (List.drop_sublist _ _)
  -- the count
  obtain ⟨H3, cs, l1, l2, l3, l4, l5, l6⟩ := wlistCliques_spec (xe_of bX P2 x) P2 junk'
    (((wstored H2).length - 1 : Nat) : Rat)
  obtain ⟨l7, l8⟩ := l6 (DegOk.frame hF.d F2)
  rw [val_fq] at l7 l8
  have hall : ∀ l, l ∈ cs ↔ IsCliqueList S n l ∧ l.length = max ((wstored H2).length - 1) 2 ∧
      ¬ First S n 1 l := by
    intro l
    constructor
    · intro hl
      obtain ⟨c1, c2⟩ := l5 l hl
      obtain ⟨u, u1, u2, u3⟩ := l7 l hl
      refine ⟨c1, (reachedLast_one u2.1 c2).1 u3, fun hf => ?_⟩
      exact u1 (WFirst.unique u2 (wfirst_one.2 hf))
    · rintro ⟨c1, c2, c3⟩
      have hl2 : 2 ≤ l.length := by omega
      obtain ⟨u, hu⟩ := exists_wfirst S n one (l := l) (by rintro rfl; simp at hl2)
      refine l8 (fun v => by rw [F2.w]; exact hnn' v) m2 (fun l hl => by
        rw [hlm2]; exact hlim l hl) l u c1 hl2 hu ?_ ((reachedLast_one hu.1 hl2).2 c2)
      rintro rfl
      exact c3 (wfirst_one.1 hu)
  have hcount : memCount (fin (((wstored H2).length - 1 : Nat) : Rat))
      (H2.g.nVert * 2 ^ H2.g.maxDeg + 1) H2 (WEnum.new ((List.range H2.g.maxDeg).map junk')
        (fin (((wstored H2).length - 1 : Nat) : Rat))) = .ok cs.length := by
    unfold PyNW.listCliques PyNW.allCliques at l1
    rw [P2.loaded] at l1
    simp only at l1
    rw [ok_bind] at l1
    obtain ⟨⟨pg4, E4, cs4⟩, l10, l1⟩ := bind_eq_ok.1 l1
    cases l1
    refine memCount_consume (H0 := H2) _ rfl (by simp only; rw [P2.of.nv, hP.nv]) ⟨rfl, rfl⟩ l10 ?_
    intro l hl
    refine ⟨_, cw ok2 F2 bX l (l5 l hl).1, ?_⟩
    rw [ExactNum.le, Nat.cast_le]
    have := ((hall l).1 hl).2.1
    omega
  refine ⟨wstored H1, wstored H2, cs, ?_, hc1, hne1, hmax, h2, l4, hall⟩
  unfold NWG.memRun
  rw [a1, ok_bind]
  simp only
  rw [NWG.getClique_at ok1.at ok1.loc, ok_bind]
  simp only
  have g1 : H1.g.cliqueAt H1.curLoc = wstored H1 := rfl
  have g2 : H2.g.cliqueAt H2.curLoc = wstored H2 := rfl
  rw [g1, cw ok1 a3.frame aX _ hc1, ok_bind, b1, ok_bind]
  simp only
  rw [NWG.getClique_at ok2.at ok2.loc, ok_bind]
  simp only
  rw [g2, cw ok2 F2 bX _ hc2, ok_bind, h1, hsub, hcount, ok_bind]

end EX

end CM
