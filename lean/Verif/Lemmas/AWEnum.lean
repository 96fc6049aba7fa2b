import Verif.Lemmas.AWEnumFor
import Verif.Lemmas.AWHeur
import Verif.Lemmas.NWEnum

/-! # Arbitrary arithmetic: `NWCliqueEnumerator::process_graph` (nw_enumerate.cpp:7-210) -/

namespace CM

open Graph

namespace NWG

namespace AW

set_option linter.unusedSectionVars false

variable {R : Type} [Zero R] [Add R] [Sub R] [NatCast R] [LT R] [LE R] [DecidableLT R]
  [DecidableLE R]

variable {b : Nat}

theorem EI.updS {H0 H : NWG R} {p : SPar} {st : List (WState R)} (I : EI H0 p H st)
    (hp : p.B = b) : EUpdS anyCl p.r b H0.g H.g :=
  ⟨hp ▸ I.upd, Or.inr trivial⟩

theorem EI.core {H0 H : NWG R} {p : SPar} {st : List (WState R)} (I : EI H0 p H st)
    (hp : p.B = b) (ok : OkAt b H0.g) (hr : p.r < H0.g.nVert) : WCoreS anyCl b H0 H :=
  ⟨I.same, (I.updS hp).core ok.wf hr ok.bot⟩

/-- `PendS` depends only on the graph and the root. -/
theorem PendS_iff {H H' : NWG R} (F : WFrame H H') {p p' : SPar} (hp : p.r = p'.r) (m : Mem)
    (C : Finset Nat) : ∀ states, PendS H' p' m C states ↔ PendS H p m C states := by
  intro states
  induction states with
  | nil => exact Iff.rfl
  | cons s rest ih =>
    unfold PendS
    rw [ih, ← hp]
    simp only [A, F.frame.nadj, F.frame.e]

/-- The cliques rooted at `r` an enumeration could report. -/
def RootS (H : NWG R) (r : Nat) (C : Finset Nat) : Prop :=
  WRooted H r C ∧ (C.erase (H.g.V r).spos).Nonempty

theorem rootS_iff {H H' : NWG R} (F : WFrame H H') (r : Nat) (C : Finset Nat) :
    RootS H' r C ↔ RootS H r C := by
  unfold RootS
  rw [F.rooted, F.V]

/-- The rooted cliques an enumerator could still report. -/
def WPnd (Hs : NWG R) (H : NWG R) (E : WEnum R) (r : Nat) (C : Finset Nat) : Prop :=
  (r = E.cur ∧ PendS Hs (par E.cur) H.g.eb C E.states) ∨
  (E.cur < r ∧ r < Hs.g.nVert ∧ RootS Hs r C)

/-- `P'` is part of `P`. -/
def Shr (P' P : Nat → Finset Nat → Prop) : Prop := ∀ r C, P' r C → P r C

theorem Shr.refl (P : Nat → Finset Nat → Prop) : Shr P P := fun _ _ h => h

theorem Shr.trans {P1 P2 P3 : Nat → Finset Nat → Prop} (h : Shr P1 P2)
    (h' : Shr P2 P3) : Shr P1 P3 := fun r C k => h' r C (h r C k)

/-- The state of an enumerator between iterations of its loop.  It uses the scratch space
from `b`. -/
def WEInv (b : Nat) (Hs : NWG R) (H : NWG R) (E : WEnum R) : Prop :=
  WCoreS anyCl b Hs H ∧ Lens Hs ∧ Hs.g.maxDeg ≤ E.ws.length ∧
  ((E.states = [] ∧ E.cur < Hs.g.nVert ∧
      ∃ g', H.g.clearMemory E.req = .ok g' ∧ OkAt b g' ∧ CoreS anyCl b Hs.g g') ∨
   (E.states = [] ∧ E.cur = Hs.g.nVert ∧ OkAt b H.g) ∨
   (E.states ≠ [] ∧ nodes H.g.eb E.states < 2 ^ (Hs.g.maxDeg + 1) ∧
    ∃ H0 p, OkAt b H0.g ∧ WCoreS anyCl b Hs H0 ∧ p.r = E.cur ∧ p.B = b ∧ WGood H0 p ∧
      EI H0 p H E.states ∧ E.req = p.req H0.g ∧ (H0.g.V p.r).N ≤ E.ws.length))

/-- Bound on the remaining iterations. -/
def wemu (Hs : NWG R) (s : NWG R × WEnum R) : Nat :=
  (Hs.g.nVert - s.2.cur) * 2 ^ (Hs.g.maxDeg + 2) + nodes s.1.g.eb s.2.states

/-- The start of a rooted enumeration: pending are the rooted cliques. -/
theorem root_pendS {H : NWG R} (w : WF H.g) {r : Nat} (hr : r < H.g.nVert) {m : Mem}
    {x : WState R} (hx : x.id = (H.g.V r).spos) (hc : bset m x.cand = H.wCand r) (C : Finset Nat) :
    PendS H (par r) m C [x] ↔ RootS H r C := by
  have hns : (H.g.V r).spos ∉ H.wCand r := by rw [mem_wCand']; omega
  have hsp := w.spos r hr
  unfold RootS
  simp only [PendS, or_false, hc, List.map_cons, List.map_nil, hx]
  constructor
  · rintro ⟨X, x1, x0, x2, x3⟩
    have hCe : C = insert (H.g.V r).spos X := by rw [x3]; ext y; simp
    have hnX : (H.g.V r).spos ∉ X := fun h => hns (x1 h)
    have hX : C.erase (H.g.V r).spos = X := by rw [hCe, Finset.erase_insert hnX]
    rw [hX]
    refine ⟨⟨⟨by rw [hCe]; simp, ?_, ?_⟩, ?_⟩, x0⟩
    · intro i hi
      rw [hCe, Finset.mem_insert] at hi
      rcases hi with rfl | hi
      · exact hsp
      · exact (mem_wCand'.1 (x1 hi)).1
    · intro i hi j hj
      rw [hCe, Finset.mem_insert] at hi hj
      rcases hi with rfl | hi <;> rcases hj with rfl | hj
      · exact A_refl w hr hsp
      · exact A_spos w hr (mem_wCand'.1 (x1 hj)).1
      · exact A_symm w hr hsp (A_spos w hr (mem_wCand'.1 (x1 hi)).1)
      · exact x2 i hi j hj
    · intro i hi hne
      rw [hCe, Finset.mem_insert] at hi
      rcases hi with h | hi
      · exact absurd h hne
      · exact x1 hi
  · rintro ⟨⟨h1, h2⟩, h3⟩
    refine ⟨C.erase (H.g.V r).spos, ?_, h3, ?_, ?_⟩
    · intro i hi
      rw [Finset.mem_erase] at hi
      exact h2 i hi.2 hi.1
    · intro a ha b hb
      exact h1.2.2 a (Finset.mem_of_mem_erase ha) b (Finset.mem_of_mem_erase hb)
    · ext y
      simp only [List.toFinset_cons, List.toFinset_nil, Finset.mem_union, Finset.mem_insert,
        Finset.mem_erase, Finset.notMem_empty, or_false]
      constructor
      · intro hy
        by_cases hys : y = (H.g.V r).spos
        · exact Or.inl hys
        · exact Or.inr ⟨hys, hy⟩
      · rintro (h | h)
        · rw [h]; exact h1.1
        · exact h.2

/-- nw_enumerate.cpp:22-71 -/
theorem enumLoad_spec {Hs H : NWG R} {E : WEnum R} (ok : OkAt b H.g) (hc : WCoreS anyCl b Hs H)
    (hl : Lens Hs) (hws : Hs.g.maxDeg ≤ E.ws.length)
    (hcur : E.cur < Hs.g.nVert) (hst : E.states = []) :
    (∃ H' E', H.enumLoad E = .ok (H', E', false) ∧ OkAt b H'.g ∧ WCoreS anyCl b Hs H' ∧
      E'.cur = E.cur ∧ E'.states = [] ∧ Hs.g.maxDeg ≤ E'.ws.length) ∨
    (∃ H' E', H.enumLoad E = .ok (H', E', true) ∧ E'.cur = E.cur ∧ WEInv b Hs H' E' ∧
      E'.states ≠ [] ∧
      ∀ C, PendS Hs (par E.cur) H'.g.eb C E'.states ↔ RootS Hs E.cur C) := by
  have w := ok.wf
  have F := hc.frame
  have lH := F.lens hl
  have hr : E.cur < H.g.nVert := by rw [F.frame.nVert]; exact hcur
  have rdy := ok.ready
  obtain ⟨L, hL, hroom⟩ := rdy.room
  have hmaxd := w.maxd E.cur hr
  have hmaxs := F.frame.maxDeg
  have hmax := dlen_mono hmaxd
  have hL0 := hL E.cur hr
  have hrm : (L + 2) * dlen (H.g.V E.cur).N ≤ (L + 2) * dlen H.g.maxDeg :=
    Nat.mul_le_mul_left _ hmax
  obtain ⟨p, G1, x, eb, ws', c, p1, p2, p3, Wg, hw', r1, r2, I', r4, r6, r5⟩ :=
    root_spec w lH hr rdy.bot (fun S hS => isCl_card_le w hL hr hS) (by omega) (by omega) rdy.zero
      (rdy.pad E.cur hr) (ws := E.ws) (by omega)
  have I := I' c
  have g := Wg.g
  have hreqd : p.req H.g = dlen (H.g.V E.cur).N := by unfold SPar.req; rw [p1]
  have hG1 := rootState_core r1
  have hU : EUpdS anyCl E.cur b H.g { G1 with eb := eb } := by
    have U := I.upd
    rw [p1, p2, ok.cur] at U
    refine ⟨⟨U.frame.frame, by rw [hG1], by rw [hG1], by rw [hG1], by rw [hG1], U.out, U.pad, ?_⟩,
      Or.inr trivial⟩
    rcases U.res with ⟨h1, _⟩ | ⟨h1, _⟩
    · have hE := w.eboEnd E.cur hr
      have hs := ok.bot
      have : bset eb (H.g.vb E.cur) = bset H.g.eb (H.g.vb E.cur) := by
        apply bset_congr rfl
        intro i hi
        have := @dlen_le (H.g.V E.cur).N
        simp only [vb] at hi ⊢
        exact h1 _ (by omega)
      rw [this]; exact ok.cliq _ hr
    · exact h1
  unfold enumLoad
  rw [vtx_ok w hr, ok_bind]
  simp only
  rw [r1, ok_bind]
  simp only
  rw [r2, ok_bind]
  simp only
  rw [rd_wt lH hr, ok_bind]
  have hsame : ({ H with g := { G1 with eb := eb } } : NWG R) =
      { Hs with g := { G1 with eb := eb } } := by conv_lhs => rw [hc.same]
  by_cases hpot : c + H.w E.cur < E.required
  · left
    rw [if_pos hpot]
    have h2L : 2 * dlen (H.g.V E.cur).N ≤ (L + 2) * dlen (H.g.V E.cur).N :=
      Nat.mul_le_mul_right _ (by omega)
    obtain ⟨g', q1, q2, q3⟩ := hU.pop ok hr (n := 2 * dlen (H.g.V E.cur).N)
      (by simp only; rw [r5, ok.cur]) (by simp only; rw [r5]; omega) I.zero
    rw [q1, ok_bind]
    refine ⟨_, _, rfl, q2, ⟨?_, hc.core.trans (Nat.le_refl _) q3⟩, rfl, hst, by simp only; omega⟩
    conv_lhs => rw [hc.same]
  · right
    rw [if_neg hpot]
    refine ⟨_, _, rfl, rfl, ⟨⟨hsame, hc.core.trans (Nat.le_refl _) (hU.core w hr ok.bot)⟩, hl, by simp only; omega,
      Or.inr (Or.inr ?_)⟩, by simp, ?_⟩
    · simp only [hst]
      refine ⟨by simp, ?_,
        H, p, ok, hc, p1, by rw [p2, ok.cur], Wg, ?_, hreqd.symm, by rw [p1]; omega⟩
      · simp only [nodes]
        rw [r4]
        have h1 := wCand_card_lt w hr
        have h3 := w.maxd E.cur hr
        rw [hc.core.frame.maxDeg] at h3
        have h4 : 2 ^ ((H.wCand E.cur).card + 1) ≤ 2 ^ (Hs.g.maxDeg + 1) :=
          Nat.pow_le_pow_right (by decide) (by omega)
        have h5 : 0 < 2 ^ ((H.wCand E.cur).card + 1) := Nat.pos_of_ne_zero (by simp)
        clear * - h4 h5
        omega
      · refine ⟨rfl, ?_, I.sc, I.lv, trivial, I.res, I.zero⟩
        rw [p1, p2, ok.cur]; exact hU.toEUpd
    · intro C
      simp only [hst]
      rw [← PendS_iff F (p := par E.cur) (p' := par E.cur) rfl]
      rw [root_pendS w hr r6 r4, rootS_iff F]

/-- nw_enumerate.cpp:7-18 -/
theorem enumVertex_spec {Hs H : NWG R} {E : WEnum R} (ok : OkAt b H.g) (hc : WCoreS anyCl b Hs H)
    (hl : Lens Hs) (hws : Hs.g.maxDeg ≤ E.ws.length)
    (hcur : E.cur < Hs.g.nVert) (hst : E.states = []) :
    ∃ H' E', H.enumVertex E = .ok (H', E') ∧ WEInv b Hs H' E' ∧ E.cur < E'.cur ∧
      E'.cur ≤ Hs.g.nVert ∧ Shr (WPnd Hs H' E') (WPnd Hs H E) := by
  have w := ok.wf
  have hvl : H.g.vs.length = Hs.g.nVert := by rw [w.vlen, hc.frame.frame.nVert]
  unfold enumVertex
  obtain ⟨⟨H', E'⟩, h1, h3⟩ := loop_rule (fuel := H.g.vs.length + 1)
    (s := (H, { E with cur := E.cur + 1 }))
    (body := fun (s : NWG R × WEnum R) => do
      let (H, E) := s
      if E.cur < H.g.vs.length then do
        let m ← rd H.mcs E.cur
        if m < E.required then .ok (.inl (H, { E with cur := E.cur + 1 }))
        else do
          let (H, E, b) ← H.enumLoad E
          if b then .ok (.inr (H, E))
          else .ok (.inl (H, { E with cur := E.cur + 1 }))
      else .ok (.inr (H, E)))
    (fun s => OkAt b s.1.g ∧ WCoreS anyCl b Hs s.1 ∧ s.2.states = [] ∧ E.cur < s.2.cur ∧
      s.2.cur ≤ Hs.g.nVert ∧ Hs.g.maxDeg ≤ s.2.ws.length ∧
      Shr (fun r C => s.2.cur ≤ r ∧ r < Hs.g.nVert ∧ RootS Hs r C)
        (fun r C => E.cur < r ∧ r < Hs.g.nVert ∧ RootS Hs r C))
    (fun s => WEInv b Hs s.1 s.2 ∧ E.cur < s.2.cur ∧ s.2.cur ≤ Hs.g.nVert ∧
      Shr (WPnd Hs s.1 s.2)
        (fun r C => E.cur < r ∧ r < Hs.g.nVert ∧ RootS Hs r C))
    (fun s => Hs.g.nVert - s.2.cur)
    (by
      rintro ⟨X, F⟩ ⟨a1, a2, a3, a5, a6, a8, a7⟩
      simp only at a1 a2 a3 a5 a6 a7 a8 ⊢
      have hvl' : X.g.vs.length = Hs.g.nVert := by rw [a1.wf.vlen, a2.frame.frame.nVert]
      rw [hvl']
      by_cases hlt : F.cur < Hs.g.nVert
      · rw [if_pos hlt, rd_mcs (a2.frame.lens hl) (by rw [a2.frame.frame.nVert]; exact hlt),
          ok_bind, a2.mc]
        by_cases hm : Hs.mc F.cur < F.required
        · left
          rw [if_pos hm]
          refine ⟨_, rfl, ⟨a1, a2, a3, by simp only; omega, by simp only; omega, a8,
            Shr.trans ?_ a7⟩, by simp only; omega⟩
          rintro r C ⟨b1, b2⟩
          exact ⟨by simp only at b1; omega, b2⟩
        · rw [if_neg hm]
          rcases enumLoad_spec a1 a2 hl a8 hlt a3 with
            ⟨G', E', b1, b2, b3, b5, b6, b8⟩ | ⟨G', E', b1, b2, b3, b4, b5⟩
          · left
            rw [b1, ok_bind]
            refine ⟨_, rfl, ⟨b2, b3, b6, by simp only; omega, by simp only; omega, b8,
              Shr.trans ?_ a7⟩, by simp only; omega⟩
            rintro r C ⟨d1, d2⟩
            exact ⟨by simp only at d1; omega, d2⟩
          · right
            rw [b1, ok_bind]
            refine ⟨_, rfl, b3, by simp only; omega, by simp only; omega, Shr.trans ?_ a7⟩
            intro r C
            unfold WPnd
            simp only
            rw [b2, b5]
            rintro (⟨d1, d2⟩ | ⟨d1, d2⟩)
            · subst d1; exact ⟨Nat.le_refl _, hlt, d2⟩
            · exact ⟨by omega, d2⟩
      · right
        rw [if_neg hlt]
        have hce : F.cur = Hs.g.nVert := by omega
        refine ⟨_, rfl, ⟨a2, hl, a8, Or.inr (Or.inl ⟨a3, hce, a1⟩)⟩, a5, a6, Shr.trans ?_ a7⟩
        intro r C
        unfold WPnd
        simp only [a3, PendS, and_false, false_or]
        rintro ⟨d1, d2, _⟩; omega)
    ⟨ok, hc, hst, by simp only; omega, by simp only; omega, hws, fun r C h => h⟩
    (by simp only; omega)
  exact ⟨H', E', h1, h3.1, h3.2.1, h3.2.2.1, h3.2.2.2.trans fun r C h => Or.inr h⟩

end AW

end NWG

end CM
