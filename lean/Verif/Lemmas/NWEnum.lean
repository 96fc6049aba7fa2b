import Verif.Lemmas.NWEnumFor
import Verif.Lemmas.NWSearch
import Verif.Lemmas.EnumBody

/-! # `NWCliqueEnumerator::process_graph` (nw_enumerate.cpp:7-210) -/

namespace CM

open Graph

namespace NWG

/-- Everything but the memory contents is the same; every stored clique is the old one or one
of those `Al` allows; and the memory between the stored cliques and `b` is the same. -/
structure WCoreS {R : Type} (Al : Nat → Finset Nat → Prop) (b : Nat) (H H' : NWG R) : Prop where
  same : H' = { H with g := H'.g }
  core : CoreS Al b H.g H'.g

section

variable {R : Type} {Al : Nat → Finset Nat → Prop} {b : Nat}

theorem WCoreS.refl (Al : Nat → Finset Nat → Prop) (b : Nat) (H : NWG R) : WCoreS Al b H H :=
  ⟨rfl, CoreS.refl _ _ _⟩

theorem WCoreS.trans {H1 H2 H3 : NWG R} (h : WCoreS Al b H1 H2) (h' : WCoreS Al b H2 H3) :
    WCoreS Al b H1 H3 :=
  ⟨by rw [h'.same, h.same], h.core.trans (Nat.le_refl _) h'.core⟩

theorem WCoreS.frame {H H' : NWG R} (h : WCoreS Al b H H') : WFrame H H' := by
  rw [h.same]
  exact ⟨h.core.frame, h.core.vs, h.core.loc, rfl, rfl, rfl, h.core.lim⟩

theorem WCoreS.mc [Zero R] {H H' : NWG R} (h : WCoreS Al b H H') (v : Nat) :
    H'.mc v = H.mc v := by
  rw [h.same]; rfl

theorem WCoreS.okAt {H H' : NWG R} (h : WCoreS Al b H H') (k : WOkAt b H) (o : OkAt b H'.g) :
    WOkAt b H' :=
  ⟨o, h.frame.lens k.l, by rw [h.frame.frame.nVert, h.same]; exact k.loc⟩

end

open ExactNum

set_option linter.unusedSectionVars false

variable {R : Type} [Zero R] [Add R] [Sub R] [NatCast R] [LT R] [LE R] [DecidableLT R]
  [DecidableLE R] [ExactNum R] 

variable {Al : Nat → Finset Nat → Prop} {b : Nat}

theorem EI.core {H0 H : NWG R} {p : SPar} {st : List (WState R)} (I : EI H0 p Al H st)
    (hp : p.B = b) (ok : OkAt b H0.g) (hr : p.r < H0.g.nVert) : WCoreS Al b H0 H :=
  ⟨I.same, (hp ▸ I.upd).core ok.wf hr ok.bot⟩

theorem Heavy_iff {H H' : NWG R} (F : WFrame H H') {p p' : SPar} (hp : p.r = p'.r) (b W : Rat)
    (X : Finset Nat) : Heavy H' p' b W X ↔ Heavy H p b W X := by
  unfold Heavy
  simp only [F.wsum, hp]

theorem lw_eq {H H' : NWG R} (F : WFrame H H') {p p' : SPar} (hp : p.r = p'.r) (st : List (WState R)) :
    lw H' p' st = lw H p st := by
  unfold lw; simp only [F.qe, hp]

/-- `PendW` depends only on the graph and the root. -/
theorem PendW_iff {H H' : NWG R} (F : WFrame H H') {p p' : SPar} (hp : p.r = p'.r) (m : Mem)
    (W : Rat) (C : Finset Nat) : ∀ states, PendW H' p' m W C states ↔ PendW H p m W C states := by
  intro states
  induction states with
  | nil => exact Iff.rfl
  | cons s rest ih =>
    unfold PendW
    rw [ih, ← hp]
    simp only [A, F.frame.nadj, F.frame.e, Heavy_iff F hp, lw_eq F hp]

/-- The cliques rooted at `r` an enumeration has to report: they reach the weight `W`, and
only when the last vertex is added. -/
def RootW (H : NWG R) (W : Rat) (r : Nat) (C : Finset Nat) : Prop :=
  WRooted H r C ∧ (C.erase (H.g.V r).spos).Nonempty ∧
    Heavy H (par r) (val (H.w r)) W (C.erase (H.g.V r).spos)

theorem WFrame.rootW {H H' : NWG R} (F : WFrame H H') (W : Rat) (r : Nat) (C : Finset Nat) :
    RootW H' W r C ↔ RootW H W r C := by
  unfold RootW
  rw [F.rooted, F.V, F.w, Heavy_iff F (p := par r) (p' := par r) rfl]

/-- The rooted cliques an enumerator still has to report. -/
def WPnd (Hs : NWG R) (W : Rat) (H : NWG R) (E : WEnum R) (r : Nat) (C : Finset Nat) : Prop :=
  (r = E.cur ∧ PendW Hs (par E.cur) H.g.eb W C E.states) ∨
  (E.cur < r ∧ r < Hs.g.nVert ∧ W ≤ Hs.mq r ∧ RootW Hs W r C)

/-- `P'` is part of `P`, and equal to it if no weight is negative. -/
def Shr (Hs : NWG R) (P' P : Nat → Finset Nat → Prop) : Prop :=
  (∀ r C, P' r C → P r C) ∧ ((∀ v, 0 ≤ val (Hs.w v)) → ∀ r C, P r C → P' r C)

theorem Shr.refl {Hs : NWG R} (P : Nat → Finset Nat → Prop) : Shr Hs P P :=
  ⟨fun _ _ h => h, fun _ _ _ h => h⟩

theorem Shr.trans {Hs : NWG R} {P1 P2 P3 : Nat → Finset Nat → Prop} (h : Shr Hs P1 P2)
    (h' : Shr Hs P2 P3) : Shr Hs P1 P3 :=
  ⟨fun r C k => h'.1 r C (h.1 r C k), fun hn r C k => h.2 hn r C (h'.2 hn r C k)⟩

/-- The state of an enumerator between iterations of its loop.  It uses the scratch space
from `b`. -/
def WEInv (Al : Nat → Finset Nat → Prop) (b : Nat) (Hs : NWG R) (W : Rat) (H : NWG R) (E : WEnum R) : Prop :=
  E.required = fin W ∧ WCoreS Al b Hs H ∧ Lens Hs ∧ Hs.g.maxDeg ≤ E.ws.length ∧
  ((E.states = [] ∧ E.cur < Hs.g.nVert ∧
      ∃ g', H.g.clearMemory E.req = .ok g' ∧ OkAt b g' ∧ CoreS Al b Hs.g g') ∨
   (E.states = [] ∧ E.cur = Hs.g.nVert ∧ OkAt b H.g) ∨
   (E.states ≠ [] ∧ nodes H.g.eb E.states < 2 ^ (Hs.g.maxDeg + 1) ∧
    ∃ H0 p, OkAt b H0.g ∧ WCoreS Al b Hs H0 ∧ p.r = E.cur ∧ p.B = b ∧ WGood H0 p ∧
      EI H0 p Al H E.states ∧ E.req = p.req H0.g ∧ Wts H0 p E.ws ∧
      E.cliqueWeight = fin (lw H0 p E.states)))

/-- Bound on the remaining iterations. -/
def wemu (Hs : NWG R) (s : NWG R × WEnum R) : Nat :=
  (Hs.g.nVert - s.2.cur) * 2 ^ (Hs.g.maxDeg + 2) + nodes s.1.g.eb s.2.states

theorem WCoreS.xe {H H' : NWG R} (h : WCoreS Al b H H') (X : XE H) : XE H' := by
  refine X.of_frame h.frame (fun v hv => ?_) ?_ ?_
  · rw [h.mc]; exact X.mc v hv
  · rw [h.same]; exact X.cm
  · rw [h.same]; exact X.lim

/-- The start of a rooted enumeration: pending are the rooted cliques. -/
theorem root_pendW {H : NWG R} (w : WF H.g) {r : Nat} {W : Rat} (hr : r < H.g.nVert) {m : Mem}
    {x : WState R} (hx : x.id = (H.g.V r).spos) (hc : bset m x.cand = H.wCand r) (C : Finset Nat) :
    PendW H (par r) m W C [x] ↔ RootW H W r C := by
  have hns : (H.g.V r).spos ∉ H.wCand r := by rw [mem_wCand']; omega
  have hsp := w.spos r hr
  have hlw : lw H (par r) [x] = val (H.w r) := by
    simp only [lw, List.map_cons, List.map_nil, List.sum_cons, List.sum_nil, add_zero, par, qe, we]
    rw [hx, w.self r hr]
  unfold RootW
  simp only [PendW, or_false, hc, List.map_cons, List.map_nil, hx, hlw]
  constructor
  · rintro ⟨X, x1, x0, x2, x3, x4⟩
    have hCe : C = insert (H.g.V r).spos X := by rw [x3]; ext y; simp
    have hnX : (H.g.V r).spos ∉ X := fun h => hns (x1 h)
    have hX : C.erase (H.g.V r).spos = X := by rw [hCe, Finset.erase_insert hnX]
    rw [hX]
    refine ⟨⟨⟨by rw [hCe]; simp, ?_, ?_⟩, ?_⟩, x0, x4⟩
    · intro i hi
      rw [hCe, Finset.mem_insert] at hi
      rcases hi with rfl | hi
      · exact hsp
      · exact (mem_wCand'.1 (x1 hi)).1
    · intro i hi j hj
      rw [hCe, Finset.mem_insert] at hi hj
      rcases hi with rfl | hi <;> rcases hj with rfl | hj
      · exact A_refl w hr hsp
      · exact A_spos w hr (mem_wCand'.1 (x1 hj)).1
      · exact A_symm w hr hsp (A_spos w hr (mem_wCand'.1 (x1 hi)).1)
      · exact x2 i hi j hj
    · intro i hi hne
      rw [hCe, Finset.mem_insert] at hi
      rcases hi with h | hi
      · exact absurd h hne
      · exact x1 hi
  · rintro ⟨⟨h1, h2⟩, h3, h4⟩
    refine ⟨C.erase (H.g.V r).spos, ?_, h3, ?_, ?_, h4⟩
    · intro i hi
      rw [Finset.mem_erase] at hi
      exact h2 i hi.2 hi.1
    · intro a ha b hb
      exact h1.2.2 a (Finset.mem_of_mem_erase ha) b (Finset.mem_of_mem_erase hb)
    · ext y
      simp only [List.toFinset_cons, List.toFinset_nil, Finset.mem_union, Finset.mem_insert,
        Finset.mem_erase, Finset.notMem_empty, or_false]
      constructor
      · intro hy
        by_cases hys : y = (H.g.V r).spos
        · exact Or.inl hys
        · exact Or.inr ⟨hys, hy⟩
      · rintro (h | h)
        · rw [h]; exact h1.1
        · exact h.2

/-- A root whose candidates together are too light has nothing to report. -/
theorem rootW_le {H : NWG R} (hnn : ∀ v, 0 ≤ val (H.w v)) {W : Rat} {r : Nat} {C : Finset Nat}
    (h : RootW H W r C) : W ≤ H.wsum r (H.wCand r) + val (H.w r) := by
  have h1 := h.2.2.1
  have h2 : H.wsum r (C.erase (H.g.V r).spos) ≤ H.wsum r (H.wCand r) := by
    apply wsum_mono hnn
    intro i hi
    rw [Finset.mem_erase] at hi
    exact h.1.2 i hi.2 hi.1
  simp only [par] at h1
  linarith

theorem rootState_core {G G1 : Graph} {V : Vtx} {q : Nat} {x : SState}
    (h : G.rootState V q = .ok (G1, x)) :
    G1 = { G with eb := G1.eb, searchCur := G1.searchCur } := by
  unfold rootState loadMemory at h
  simp only at h
  rw [bind_eq_ok] at h
  obtain ⟨eb, _, h2⟩ := h
  injection h2 with h2
  have := congrArg Prod.fst h2
  simp only at this
  rw [← this]

/-- nw_enumerate.cpp:22-71 -/
theorem enumLoad_spec {Hs H : NWG R} {E : WEnum R} {W : Rat}
    (Xe : XE Hs) (ok : OkAt b H.g) (hc : WCoreS Al b Hs H)
    (hl : Lens Hs) (hws : Hs.g.maxDeg ≤ E.ws.length)
    (hcur : E.cur < Hs.g.nVert) (hst : E.states = []) (hk : E.required = fin W) :
    (∃ H' E', H.enumLoad E = .ok (H', E', false) ∧ OkAt b H'.g ∧ WCoreS Al b Hs H' ∧
      E'.cur = E.cur ∧ E'.states = [] ∧ E'.required = fin W ∧ Hs.g.maxDeg ≤ E'.ws.length ∧
      ((∀ v, 0 ≤ val (Hs.w v)) → ∀ C, ¬ RootW Hs W E.cur C)) ∨
    (∃ H' E', H.enumLoad E = .ok (H', E', true) ∧ E'.cur = E.cur ∧ WEInv Al b Hs W H' E' ∧
      E'.states ≠ [] ∧
      ∀ C, PendW Hs (par E.cur) H'.g.eb W C E'.states ↔ RootW Hs W E.cur C) := by
  have w := ok.wf
  have F := hc.frame
  have lH := F.lens hl
  have XH := hc.xe Xe
  have hr : E.cur < H.g.nVert := by rw [F.frame.nVert]; exact hcur
  have Rd := ok.ready
  obtain ⟨L, hL, hroom⟩ := Rd.room
  have hmaxd := w.maxd E.cur hr
  have hmaxs := F.frame.maxDeg
  have hmax := dlen_mono hmaxd
  have hL0 := hL E.cur hr
  have hrm : (L + 2) * dlen (H.g.V E.cur).N ≤ (L + 2) * dlen H.g.maxDeg :=
    Nat.mul_le_mul_left _ hmax
  obtain ⟨p, G1, x, eb, ws', p1, p2, p3, Wg, hw', hw'l, r1, r2, I, r4, r6, r5, hlo⟩ :=
    root_spec XH.toXN w lH hr Rd.bot (fun S hS => isCl_card_le w hL hr hS) (by omega) (by omega) Rd.zero
      (Rd.pad E.cur hr) (ws := E.ws) (by omega) (fin (H.wsum E.cur (H.wCand E.cur)))
  have g := Wg.g
  have hreqd : p.req H.g = dlen (H.g.V E.cur).N := by unfold SPar.req; rw [p1]
  have hG1 := rootState_core r1
  have hU : EUpdS Al E.cur b H.g { G1 with eb := eb } := by
    have U := I.upd
    rw [p1, p2, ok.cur] at U
    have hE := w.eboEnd E.cur hr
    have hs := ok.bot
    have hset : bset eb (H.g.vb E.cur) = bset H.g.eb (H.g.vb E.cur) := by
      apply bset_congr rfl
      intro i hi
      have := @dlen_le (H.g.V E.cur).N
      simp only [vb] at hi ⊢
      exact hlo _ (by rw [ok.cur]; omega)
    refine ⟨⟨U.frame.frame, by rw [hG1], by rw [hG1], by rw [hG1], by rw [hG1], U.out, U.pad, ?_⟩,
      Or.inl hset⟩
    show IsCl H.g E.cur (bset eb _)
    rw [hset]; exact ok.cliq _ hr
  unfold enumLoad
  rw [vtx_ok w hr, ok_bind]
  simp only
  rw [r1, ok_bind]
  simp only
  rw [r2, ok_bind]
  simp only
  rw [rd_wt lH hr, ok_bind, hk]
  have hsame : ({ H with g := { G1 with eb := eb } } : NWG R) =
      { Hs with g := { G1 with eb := eb } } := by conv_lhs => rw [hc.same]
  have hns : (H.g.V E.cur).spos ∉ H.wCand E.cur := by rw [mem_wCand']; omega
  have hwr : H.we E.cur (H.g.V E.cur).spos = H.w E.cur := by unfold we; rw [w.self E.cur hr]
  have hpv : fin (H.wsum E.cur (H.wCand E.cur)) + H.w E.cur =
      fin (H.wsum E.cur (H.wCand E.cur) + val (H.w E.cur)) := by
    have h := XH.add w hr (S := H.wCand E.cur) (fun i hi => (mem_wCand'.1 hi).1)
      (w.spos E.cur hr) hns
    rw [hwr] at h
    rw [h]
    congr 1
    unfold wsum
    rw [Finset.sum_insert hns, add_comm]
    unfold qe
    rw [hwr]
  rw [hpv]
  by_cases hpot : fin (H.wsum E.cur (H.wCand E.cur) + val (H.w E.cur)) < (fin W : R)
  · left
    rw [if_pos hpot]
    have h2L : 2 * dlen (H.g.V E.cur).N ≤ (L + 2) * dlen (H.g.V E.cur).N :=
      Nat.mul_le_mul_right _ (by omega)
    obtain ⟨g', q1, q2, q3⟩ := hU.pop ok hr (n := 2 * dlen (H.g.V E.cur).N)
      (by simp only; rw [r5, ok.cur]) (by simp only; rw [r5]; omega) I.zero
    rw [q1, ok_bind]
    refine ⟨_, _, rfl, q2, ⟨?_, hc.core.trans (Nat.le_refl _) q3⟩, rfl, hst, rfl, by simp only; omega, ?_⟩
    · conv_lhs => rw [hc.same]
    · intro hnn C hC
      have := rootW_le hnn hC
      rw [F.wCand, F.wsum, F.w, ExactNum.lt] at hpot
      linarith
  · right
    rw [if_neg hpot]
    refine ⟨_, _, rfl, rfl, ⟨rfl, ⟨hsame, hc.core.trans (Nat.le_refl _) (hU.core w hr ok.bot)⟩, hl, by simp only; omega,
      Or.inr (Or.inr ?_)⟩, by simp, ?_⟩
    · simp only [hst]
      refine ⟨by simp, ?_,
        H, p, ok, hc, p1, by rw [p2, ok.cur], Wg, ?_, hreqd.symm, hw', ?_⟩
      · simp only [nodes]
        rw [r4]
        have h1 := wCand_card_lt w hr
        have h3 := w.maxd E.cur hr
        rw [hc.core.frame.maxDeg] at h3
        have h4 : 2 ^ ((H.wCand E.cur).card + 1) ≤ 2 ^ (Hs.g.maxDeg + 1) :=
          Nat.pow_le_pow_right (by decide) (by omega)
        have h5 : 0 < 2 ^ ((H.wCand E.cur).card + 1) := Nat.pos_of_ne_zero (by simp)
        clear * - h4 h5
        omega
      · refine ⟨rfl, ?_, I.sc, I.lv, trivial, ?_, I.res, I.zero⟩
        · rw [p1, p2, ok.cur]; exact hU
        · intro s hs
          rw [List.mem_singleton] at hs
          rw [hs]
          simp only
          rw [r4, p1]
          exact ⟨_, fun i hi => (mem_wCand'.1 hi).1, Finset.Subset.refl _, rfl⟩
      · simp only [lw, List.map_cons, List.map_nil, List.sum_cons, List.sum_nil, add_zero, qe, we]
        rw [p1, r6, w.self E.cur hr]
        exact XH.w _ hr
    · intro C
      simp only [hst]
      rw [← PendW_iff F (p := par E.cur) (p' := par E.cur) rfl]
      rw [root_pendW w hr r6 r4, F.rootW]

/-- nw_enumerate.cpp:7-18 -/
theorem enumVertex_spec {Hs H : NWG R} {E : WEnum R} {W : Rat}
    (Xe : XE Hs) (ok : OkAt b H.g) (hc : WCoreS Al b Hs H)
    (hl : Lens Hs) (hws : Hs.g.maxDeg ≤ E.ws.length)
    (hcur : E.cur < Hs.g.nVert) (hst : E.states = []) (hk : E.required = fin W) :
    ∃ H' E', H.enumVertex E = .ok (H', E') ∧ WEInv Al b Hs W H' E' ∧ E.cur < E'.cur ∧
      E'.cur ≤ Hs.g.nVert ∧ Shr Hs (WPnd Hs W H' E') (WPnd Hs W H E) := by
  have w := ok.wf
  have hvl : H.g.vs.length = Hs.g.nVert := by rw [w.vlen, hc.frame.frame.nVert]
  unfold enumVertex
  obtain ⟨⟨H', E'⟩, h1, h3⟩ := loop_rule (fuel := H.g.vs.length + 1)
    (s := (H, { E with cur := E.cur + 1 }))
    (body := fun (s : NWG R × WEnum R) => do
      let (H, E) := s
      if E.cur < H.g.vs.length then do
        let m ← rd H.mcs E.cur
        if m < E.required then .ok (.inl (H, { E with cur := E.cur + 1 }))
        else do
          let (H, E, b) ← H.enumLoad E
          if b then .ok (.inr (H, E))
          else .ok (.inl (H, { E with cur := E.cur + 1 }))
      else .ok (.inr (H, E)))
    (fun s => OkAt b s.1.g ∧ WCoreS Al b Hs s.1 ∧ s.2.states = [] ∧ s.2.required = fin W ∧ E.cur < s.2.cur ∧
      s.2.cur ≤ Hs.g.nVert ∧ Hs.g.maxDeg ≤ s.2.ws.length ∧
      Shr Hs (fun r C => s.2.cur ≤ r ∧ r < Hs.g.nVert ∧ W ≤ Hs.mq r ∧ RootW Hs W r C)
        (fun r C => E.cur < r ∧ r < Hs.g.nVert ∧ W ≤ Hs.mq r ∧ RootW Hs W r C))
    (fun s => WEInv Al b Hs W s.1 s.2 ∧ E.cur < s.2.cur ∧ s.2.cur ≤ Hs.g.nVert ∧
      Shr Hs (WPnd Hs W s.1 s.2)
        (fun r C => E.cur < r ∧ r < Hs.g.nVert ∧ W ≤ Hs.mq r ∧ RootW Hs W r C))
    (fun s => Hs.g.nVert - s.2.cur)
    (by
      rintro ⟨X, F⟩ ⟨a1, a2, a3, a4, a5, a6, a8, a7⟩
      simp only at a1 a2 a3 a4 a5 a6 a7 a8 ⊢
      have hvl' : X.g.vs.length = Hs.g.nVert := by rw [a1.wf.vlen, a2.frame.frame.nVert]
      rw [hvl']
      by_cases hlt : F.cur < Hs.g.nVert
      · rw [if_pos hlt, rd_mcs (a2.frame.lens hl) (by rw [a2.frame.frame.nVert]; exact hlt),
          ok_bind, a2.mc, a4]
        have hmv : Hs.mc F.cur < (fin W : R) ↔ Hs.mq F.cur < W := by
          rw [(Xe.mc _ hlt).lt (num_fin _), val_fin]; rfl
        by_cases hm : Hs.mc F.cur < (fin W : R)
        · left
          rw [if_pos hm]
          rw [hmv] at hm
          refine ⟨_, rfl, ⟨a1, a2, a3, rfl, by simp only; omega, by simp only; omega, a8,
            Shr.trans ⟨?_, ?_⟩ a7⟩, by simp only; omega⟩
          · rintro r C ⟨b1, b2⟩
            exact ⟨by simp only at b1; omega, b2⟩
          · rintro _ r C ⟨b1, b2, b3, b4⟩
            have : r ≠ F.cur := by rintro rfl; linarith
            exact ⟨by simp only; omega, b2, b3, b4⟩
        · rw [if_neg hm]
          rw [hmv] at hm
          rcases enumLoad_spec Xe a1 a2 hl a8 hlt a3 a4 with
            ⟨G', E', b1, b2, b3, b5, b6, b7, b8, b4⟩ | ⟨G', E', b1, b2, b3, b4, b5⟩
          · left
            rw [b1, ok_bind]
            refine ⟨_, rfl, ⟨b2, b3, b6, b7, by simp only; omega, by simp only; omega, b8,
              Shr.trans ⟨?_, ?_⟩ a7⟩, by simp only; omega⟩
            · rintro r C ⟨d1, d2⟩
              exact ⟨by simp only at d1; omega, d2⟩
            · rintro hnn r C ⟨d1, d2, d3, d4⟩
              have : r ≠ F.cur := by rintro rfl; exact b4 hnn C d4
              exact ⟨by simp only; omega, d2, d3, d4⟩
          · right
            rw [b1, ok_bind]
            refine ⟨_, rfl, b3, by simp only; omega, by simp only; omega, Shr.trans ⟨?_, ?_⟩ a7⟩
            · intro r C
              unfold WPnd
              simp only
              rw [b2, b5]
              rintro (⟨d1, d2⟩ | ⟨d1, d2⟩)
              · subst d1; exact ⟨Nat.le_refl _, hlt, not_lt.1 hm, d2⟩
              · exact ⟨by omega, d2⟩
            · intro _ r C
              unfold WPnd
              simp only
              rw [b2, b5]
              rintro ⟨d1, d2, d3, d4⟩
              by_cases hrc : r = F.cur
              · left; exact ⟨hrc, by rw [← hrc]; exact d4⟩
              · right; exact ⟨by omega, d2, d3, d4⟩
      · right
        rw [if_neg hlt]
        have hce : F.cur = Hs.g.nVert := by omega
        refine ⟨_, rfl, ⟨a4, a2, hl, a8, Or.inr (Or.inl ⟨a3, hce, a1⟩)⟩, a5, a6,
          Shr.trans ⟨?_, ?_⟩ a7⟩
        · intro r C
          unfold WPnd
          simp only [a3, PendW, and_false, false_or]
          rintro ⟨d1, d2, _⟩; omega
        · rintro _ r C ⟨d1, d2, _⟩; omega)
    (by
      refine ⟨ok, hc, hst, hk, by simp only; omega, by simp only; omega, hws, ?_⟩
      exact ⟨fun r C h => h, fun _ r C h => h⟩)
    (by simp only; omega)
  refine ⟨H', E', h1, h3.1, h3.2.1, h3.2.2.1, h3.2.2.2.trans ⟨?_, ?_⟩⟩
  · intro r C h; exact Or.inr h
  · intro _ r C
    unfold WPnd
    rw [hst]
    simp [PendW]

end NWG

end CM
