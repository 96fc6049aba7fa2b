import Verif.Model.NWHeapEnum
import Verif.Lemmas.NWHeapUse

/-!
# The weighted iterators with and without refusals of memory
-/

namespace CM

open Spec Graph

namespace NWG

set_option linter.unusedSectionVars false

variable {R : Type} [Zero R] [Add R] [Sub R] [NatCast R] [LT R] [LE R] [DecidableLT R]
  [DecidableLE R]

variable {H H0 : NWG R} {p : SPar} {grow : Nat → Nat} {q : Vecs}

/-- The scan needs as much room in `to_remove` as it fills. -/
theorem enumScanA_eq {V U : Vtx} {cand : GBits} {eb : Mem} {ws : List R} {cw wj T cp0 : R}
    {k0 : Nat} {rm : List Nat} {cp : R}
    (h : H.enumScan V U cand eb ws cw wj T k0 cp0 = .ok (rm, cp)) (hrm : rm.length ≤ q.toRemove) :
    H.enumScanA grow V U cand eb ws cw wj T k0 cp0 q = .ok (some (rm, cp, q)) := by
  unfold enumScan at h
  unfold enumScanA
  refine (loop_carry_back (q := q) (out := fun r => some (r.1, r.2, q))
    (fun s => s.2.1.length ≤ q.toRemove) (fun r => r.1.length ≤ q.toRemove) ?_ ?_ _ _ _
    (by exact hrm) h).1
  · rintro ⟨k, rm, cp⟩ ⟨k', rm', cp'⟩ hI hf
    dsimp only at hI hf ⊢
    split at hf
    · rename_i hc
      rw [if_pos hc]
      obtain ⟨t, e0, hf⟩ := bind_eq_ok.1 hf
      rw [e0, ok_bind]
      cases t with
      | false => cases hf; exact ⟨rfl, hI⟩
      | true =>
        simp only [if_true] at hf ⊢
        obtain ⟨val, e1, hf⟩ := bind_eq_ok.1 hf
        rw [e1, ok_bind]
        obtain ⟨⟨f, ans⟩, e2, hf⟩ := bind_eq_ok.1 hf
        rw [e2, ok_bind]
        dsimp only at hf ⊢
        cases f with
        | true =>
          simp only [if_true] at hf ⊢
          cases hf
          exact ⟨rfl, hI⟩
        | false =>
          simp only [Bool.false_eq_true, if_false] at hf ⊢
          obtain ⟨w, e3, hf⟩ := bind_eq_ok.1 hf
          cases hf
          simp only [List.length_append, List.length_singleton] at hI
          unfold Vecs.pushRemove
          rw [if_pos (by omega)]
          dsimp only
          rw [e3]
          exact ⟨rfl, by omega⟩
    · cases hf
  · rintro ⟨k, rm, cp⟩ r hP hf
    dsimp only at hf ⊢
    split at hf
    · obtain ⟨t, e0, hf⟩ := bind_eq_ok.1 hf
      cases t with
      | false => cases hf
      | true =>
        simp only [if_true] at hf
        obtain ⟨val, e1, hf⟩ := bind_eq_ok.1 hf
        obtain ⟨⟨f, ans⟩, e2, hf⟩ := bind_eq_ok.1 hf
        dsimp only at hf
        cases f with
        | true => simp only [if_true] at hf; cases hf
        | false =>
          simp only [Bool.false_eq_true, if_false] at hf
          obtain ⟨w, e3, hf⟩ := bind_eq_ok.1 hf
          cases hf
    · rename_i hc
      rw [if_neg hc]
      cases hf
      exact ⟨rfl, hP⟩

/-- The scan removes candidates only. -/
theorem enumScan_length {V U : Vtx} {cand : GBits} {eb : Mem} {ws : List R} {cw wj T cp0 : R}
    {k0 : Nat} {rm : List Nat} {cp : R} (hlen : cand.len = V.N)
    (hin : cand.off + dlen cand.len ≤ eb.length)
    (h : H.enumScan V U cand eb ws cw wj T k0 cp0 = .ok (rm, cp)) :
    rm.length ≤ (bset eb cand).card := by
  have key : rm.Nodup ∧ ∀ x ∈ rm, x ∈ bset eb cand := by
    unfold enumScan at h
    refine loop_inv (fun (s : Nat × List Nat × R) => s.2.1.Nodup ∧
      ∀ x ∈ s.2.1, x < s.1 ∧ x ∈ bset eb cand)
      (fun (r : List Nat × R) => r.1.Nodup ∧ ∀ x ∈ r.1, x ∈ bset eb cand) ?_ ?_ (by simp) h
    · rintro ⟨k, rm, cp⟩ ⟨k', rm', cp'⟩ ⟨hI1, hI2⟩ hf
      dsimp only at hI1 hI2 hf ⊢
      have up : ∀ x ∈ rm, x < k + 1 ∧ x ∈ bset eb cand := fun x hx =>
        ⟨by have := (hI2 x hx).1; omega, (hI2 x hx).2⟩
      split at hf
      · rename_i hc
        rw [cand.test_spec eb k (by rw [hlen] at hin; have := div_lt_dlen hc.1; omega), ok_bind] at hf
        split at hf
        · rename_i hb
          obtain ⟨val, e1, hf⟩ := bind_eq_ok.1 hf
          obtain ⟨⟨f, ans⟩, e2, hf⟩ := bind_eq_ok.1 hf
          dsimp only at hf
          cases f with
          | true =>
            simp only [if_true] at hf
            cases hf
            exact ⟨hI1, up⟩
          | false =>
            simp only [Bool.false_eq_true, if_false] at hf
            obtain ⟨w, e3, hf⟩ := bind_eq_ok.1 hf
            cases hf
            refine ⟨?_, ?_⟩
            · rw [List.nodup_append]
              refine ⟨hI1, by simp, ?_⟩
              intro a ha c hc'
              rw [List.mem_singleton] at hc'
              have := (hI2 a ha).1
              omega
            · intro x hx
              rw [List.mem_append, List.mem_singleton] at hx
              rcases hx with hx | rfl
              · exact up x hx
              · exact ⟨by omega, mem_bset.2 ⟨by rw [hlen]; exact hc.1, hb⟩⟩
        · cases hf
          exact ⟨hI1, up⟩
      · cases hf
    · rintro ⟨k, rm, cp⟩ r ⟨hI1, hI2⟩ hf
      dsimp only at hI1 hI2 hf ⊢
      split at hf
      · obtain ⟨t, e0, hf⟩ := bind_eq_ok.1 hf
        cases t with
        | false => cases hf
        | true =>
          simp only [if_true] at hf
          obtain ⟨val, e1, hf⟩ := bind_eq_ok.1 hf
          obtain ⟨⟨f, ans⟩, e2, hf⟩ := bind_eq_ok.1 hf
          dsimp only at hf
          cases f with
          | true => simp only [if_true] at hf; cases hf
          | false =>
            simp only [Bool.false_eq_true, if_false] at hf
            obtain ⟨w, e3, hf⟩ := bind_eq_ok.1 hf
            cases hf
      · cases hf
        exact ⟨hI1, fun x hx => (hI2 x hx).2⟩
  rw [← List.toFinset_card_of_nodup key.1]
  exact Finset.card_le_card fun x hx => key.2 x (List.mem_toFinset.1 hx)

/-- `enumFor` without a refusal. -/
def EnumExit.lift (q : Vecs) : EnumExit R → EnumExitA R
  | .found H top => .found H top q
  | .pushed H top new cw => .pushed H top new cw q
  | .done H top => .done H top q

namespace AW

/-- With room for the clique in `states` and for the candidates in `to_remove`, one round of the inner
loop asks for nothing. -/
theorem enumForA_eq (W : WGood H0 p) {H : NWG R} {top : WState R} {rest : List (WState R)}
    {ws : List R} {cw T : R} {j : Nat} (hwl : (H0.g.V p.r).N ≤ ws.length)
    (I : EI H0 p H (top :: rest)) (hj0 : j ≤ (H0.g.V p.r).N)
    (hst : ∀ c ∈ bset H.g.eb top.cand, j ≤ c)
    (hq1 : ∀ v, v < H0.g.nVert → (H0.g.rootCand v).card + 1 ≤ q.states)
    (hq2 : (H0.wCand p.r).card ≤ q.toRemove + 1)
    {y : (NWG R × WState R × Nat) ⊕ EnumExit R}
    (h : enumFor (H0.g.V p.r) (p.req H0.g) ws cw T (H, top, j) = .ok y) :
    enumForA grow (H0.g.V p.r) (p.req H0.g) ws cw T (rest.length + 1) ((H, top, j), q) =
      .ok (y.map (fun s => (s, q)) (EnumExit.lift q)) := by
  have hpush : ∀ H' top' new cw', y = .inr (.pushed H' top' new cw') →
      rest.length + 1 < q.states := by
    rintro H' top' new cw' rfl
    rcases enumFor_spec W (cw := cw) (T := T) hwl I hj0 hst with
      ⟨H1, top1, b1, _⟩ | ⟨H1, top1, b1, _⟩ | ⟨H1, top1, new1, cw1, b1, b2, _⟩ | ⟨b1, _⟩
    · rw [h] at b1; cases b1
    · rw [h] at b1; cases b1
    · have hcl := Lv_isCl W.g b2.lv (by simp)
      have h1 := isCl_card_le W.g.wf hq1 W.g.hr hcl
      rw [List.toFinset_card_of_nodup (Lv_facts W.g _ _ b2.lv).1, List.length_map] at h1
      simp only [List.length_cons] at h1
      omega
    · rw [h] at b1; cases b1
  have g := W.g
  have w := g.wf
  have hlv := I.lv
  have hlenL := Lv_len W I.lv
  simp only [List.length_cons] at hlenL
  unfold Lv at hlv
  obtain ⟨l1, l2, l3, l4, l5, l6, l7, l8, l9, l10, l11⟩ := hlv
  have hreqd : p.req H0.g = dlen (H0.g.V p.r).N := rfl
  have hebl := I.upd.frame.ebl
  have hroom := g.room
  have hce := candOff_end g rest.length
  have hlen1 : (rest.length + 2) * p.req H0.g ≤ (p.L + 2) * p.req H0.g :=
    Nat.mul_le_mul_right _ (by omega)
  have hNlt := N_lt w g.hr
  have hNpos := N_pos w g.hr
  have hoff : top.cand.off = candOff H0.g p rest.length := by rw [l2]
  have hclen : top.cand.len = (H0.g.V p.r).N := by rw [l2]
  unfold enumFor at h
  unfold enumForA
  dsimp only at h ⊢
  by_cases hj : j < (H0.g.V p.r).N
  swap
  · rw [if_neg hj] at h ⊢
    cases h
    rfl
  rw [if_pos hj] at h ⊢
  rw [top.cand.test_spec H.g.eb j (by rw [hoff]; have := div_lt_dlen hj; omega), ok_bind] at h ⊢
  by_cases hb : bitAt H.g.eb (64 * top.cand.off + j) = true
  swap
  · rw [if_neg hb] at h ⊢
    cases h
    rfl
  rw [if_pos hb] at h ⊢
  have hjC : j ∈ bset H.g.eb top.cand := mem_bset.2 ⟨by rw [hclen]; exact hj, hb⟩
  obtain ⟨m1, r1, r2, r3⟩ := top.cand.reset_spec H.g.eb j
    (by rw [hoff]; have := div_lt_dlen hj; omega)
  rw [r1, ok_bind] at h ⊢
  have hpad1 : PadZero m1 top.cand := by
    intro i h1 h2; rw [r3, l8 i h1 h2]; simp
  have hC1 : bset m1 top.cand = (bset H.g.eb top.cand).erase j := by
    ext x
    simp only [Finset.mem_erase, mem_bset, r3]
    simp only [Bool.and_eq_true, Bool.not_eq_true', decide_eq_false_iff_not]
    constructor
    · rintro ⟨h1, h2, h3⟩; exact ⟨by omega, h1, h3⟩
    · rintro ⟨h1, h2, h3⟩; exact ⟨h2, by omega, h3⟩
  have hin1 : top.cand.off + dlen top.cand.len ≤ m1.length := by
    rw [hoff, hclen, r2]; omega
  rw [top.cand.count_pad m1 (by omega) hin1 hpad1, ok_bind] at h ⊢
  dsimp only at h ⊢
  obtain ⟨wj, a3, h⟩ := bind_eq_ok.1 h
  rw [a3, ok_bind]
  obtain ⟨vert, a5, h⟩ := bind_eq_ok.1 h
  rw [a5, ok_bind]
  obtain ⟨U, a6, h⟩ := bind_eq_ok.1 h
  rw [a6, ok_bind]
  obtain ⟨⟨rm, cp⟩, a7, h⟩ := bind_eq_ok.1 h
  have hrm : rm.length ≤ q.toRemove := by
    have h1 := enumScan_length hclen hin1 a7
    rw [hC1, Finset.card_erase_of_mem hjC] at h1
    have hsub : bset H.g.eb top.cand ⊆ H0.wCand p.r := fun c hc => (l9 c hc).2.1
    have := Finset.card_le_card hsub
    omega
  rw [enumScanA_eq a7 hrm, ok_bind]
  dsimp only at h ⊢
  split at h
  · rename_i hp
    rw [if_pos hp]
    split at h
    · rename_i hz
      rw [if_pos hz]
      obtain ⟨b1, c1, h⟩ := bind_eq_ok.1 h
      rw [c1, ok_bind]
      obtain ⟨b2, c2, h⟩ := bind_eq_ok.1 h
      rw [c2, ok_bind]
      obtain ⟨b3, c3, h⟩ := bind_eq_ok.1 h
      rw [c3, ok_bind]
      obtain ⟨b4, c4, h⟩ := bind_eq_ok.1 h
      rw [c4, ok_bind]
      cases h
      rfl
    · rename_i hz
      rw [if_neg hz]
      obtain ⟨b1, c1, h⟩ := bind_eq_ok.1 h
      rw [c1, ok_bind]
      obtain ⟨b2, c2, h⟩ := bind_eq_ok.1 h
      rw [c2, ok_bind]
      obtain ⟨b3, c3, h⟩ := bind_eq_ok.1 h
      rw [c3, ok_bind]
      cases h
      unfold Vecs.pushState
      rw [if_pos (hpush _ _ _ _ rfl)]
      rfl
  · rename_i hp
    rw [if_neg hp]
    cases h
    rfl

end AW

theorem enumLoadA_eq {H H' : NWG R} {E E' : WEnum R} {b : Bool} (hst : E.states = [])
    (hq : 0 < q.states) (h : H.enumLoad E = .ok (H', E', b)) :
    H.enumLoadA grow E q = .ok (H', E', q, some b) ∧ (b = false → E'.states = []) := by
  unfold enumLoad at h
  unfold enumLoadA
  obtain ⟨V, c1, h⟩ := bind_eq_ok.1 h
  rw [c1, ok_bind]
  dsimp only at h ⊢
  obtain ⟨⟨r1, x⟩, c2, h⟩ := bind_eq_ok.1 h
  rw [c2, ok_bind]
  dsimp only at h ⊢
  obtain ⟨⟨r2, ws, pot⟩, c3, h⟩ := bind_eq_ok.1 h
  rw [c3, ok_bind]
  dsimp only at h ⊢
  obtain ⟨wc, c5, h⟩ := bind_eq_ok.1 h
  rw [c5, ok_bind]
  split at h
  · rename_i hp
    rw [if_pos hp]
    obtain ⟨r3, c4, h⟩ := bind_eq_ok.1 h
    rw [c4, ok_bind]
    cases h
    exact ⟨rfl, fun _ => hst⟩
  · rename_i hp
    rw [if_neg hp]
    unfold Vecs.pushState
    rw [hst, List.length_nil, if_pos hq]
    cases h
    refine ⟨?_, by simp⟩
    rw [hst]

theorem enumVertexA_eq {H H' : NWG R} {E E' : WEnum R} (hst : E.states = [])
    (hq : 0 < q.states) (h : H.enumVertex E = .ok (H', E')) :
    H.enumVertexA grow E q = .ok (H', E', q, true) := by
  unfold enumVertex at h
  unfold enumVertexA
  refine loop_carry (q := q) (out := fun (r : NWG R × WEnum R) => (r.1, r.2, q, true))
    (fun s => s.2.states = []) ?_ ?_ _ _ _ hst h
  · rintro ⟨X, F⟩ ⟨X', F'⟩ hI hf
    dsimp only at hI hf ⊢
    split at hf
    · rename_i hc
      rw [if_pos hc]
      obtain ⟨V, c1, hf⟩ := bind_eq_ok.1 hf
      rw [c1, ok_bind]
      split at hf
      · rename_i hm
        rw [if_pos hm]
        cases hf
        exact ⟨rfl, hI⟩
      · rename_i hm
        rw [if_neg hm]
        obtain ⟨⟨Y, D, b⟩, c2, hf⟩ := bind_eq_ok.1 hf
        obtain ⟨d1, d2⟩ := enumLoadA_eq (grow := grow) hI hq c2
        rw [d1, ok_bind]
        cases b with
        | true => cases hf
        | false =>
          cases hf
          exact ⟨rfl, d2 rfl⟩
    · cases hf
  · rintro ⟨X, F⟩ r hI hf
    dsimp only at hI hf ⊢
    split at hf
    · rename_i hc
      rw [if_pos hc]
      obtain ⟨V, c1, hf⟩ := bind_eq_ok.1 hf
      rw [c1, ok_bind]
      split at hf
      · cases hf
      · rename_i hm
        rw [if_neg hm]
        obtain ⟨⟨Y, D, b⟩, c2, hf⟩ := bind_eq_ok.1 hf
        obtain ⟨d1, d2⟩ := enumLoadA_eq (grow := grow) hI hq c2
        rw [d1, ok_bind]
        cases b with
        | true => cases hf; rfl
        | false => cases hf
    · rename_i hc
      rw [if_neg hc]
      cases hf
      rfl

namespace AW

theorem enumBodyA_eq {Hs H : NWG R} {E : WEnum R} {b : Nat} (hI : WEInv b Hs H E)
    (hL : Lim Hs.g) (hC : Calm Hs) (hq1 : Hs.g.limit ≤ q.states) (hq2 : Hs.g.limit ≤ q.toRemove)
    {y : (NWG R × WEnum R) ⊕ (NWG R × WEnum R × Nat)} (h : enumBody (H, E) = .ok y) :
    enumBodyA grow ((H, E), q) =
      .ok (y.map (fun s => (s, q)) (fun r => (r.1, r.2.1, q, some r.2.2))) := by
  obtain ⟨hc, hl, hwl, hI⟩ := hI
  unfold enumBody at h
  unfold enumBodyA
  dsimp only at h ⊢
  split at h
  swap
  · rename_i hn
    rw [if_neg hn]
    cases h
    rfl
  rename_i hn
  rw [if_pos hn]
  have hns : E.cur < Hs.g.nVert := by rw [← hc.core.frame.nVert]; exact hn
  have hL0 := hL E.cur hns
  rcases hI with ⟨a1, a2, g', a3, a4, a5⟩ | ⟨a1, a2, a3⟩ |
    ⟨a1, a4, H0, p, ok, hc0, p1, p2, Wg, I, p3, hws⟩
  · rw [a1] at h ⊢
    dsimp only at h ⊢
    obtain ⟨X, c1, h⟩ := bind_eq_ok.1 h
    rw [c1, ok_bind]
    obtain ⟨⟨Y, D⟩, c2, h⟩ := bind_eq_ok.1 h
    rw [enumVertexA_eq a1 (by omega) c2, ok_bind]
    cases h
    rfl
  · omega
  · cases hst : E.states with
    | nil => exact absurd hst a1
    | cons top rest =>
    rw [hst] at h a4 I
    dsimp only at h ⊢
    have g := Wg.g
    have w := g.wf
    have F0 := hc0.frame
    have hL1 := lim_wframe hL F0
    have hC1 := hC.frame F0
    have hlim : H0.g.limit = Hs.g.limit := F0.depth
    have hNpos := N_pos w g.hr
    have hlv := I.lv
    have hlenL := Lv_len Wg I.lv
    simp only [List.length_cons] at hlenL
    unfold Lv at hlv
    obtain ⟨l1, l2, l3, l4, l5, l6, l7, l8, l9, l10, l11⟩ := hlv
    have hreqd : p.req H0.g = dlen (H0.g.V p.r).N := rfl
    have hoff : top.cand.off = candOff H0.g p rest.length := by rw [l2]
    have hclen : top.cand.len = (H0.g.V p.r).N := by rw [l2]
    have hce := candOff_end g rest.length
    have hlen1 : (rest.length + 2) * p.req H0.g ≤ (p.L + 2) * p.req H0.g :=
      Nat.mul_le_mul_right _ (by omega)
    have hroom := g.room
    have hebl := I.upd.frame.ebl
    have hin : top.cand.off + dlen top.cand.len ≤ H.g.eb.length := by
      rw [hoff, hclen]; omega
    have wG := I.upd.frame.wf w
    rw [vtx_ok wG hn, ok_bind] at h ⊢
    rw [top.cand.count_pad H.g.eb (by omega) hin l8, ok_bind] at h ⊢
    dsimp only at h ⊢
    have hVG : H.g.V E.cur = H0.g.V p.r := by rw [I.upd.core.V, p1]
    rw [hVG, p3] at h ⊢
    have hr1 : ∀ v, v < H0.g.nVert → (H0.g.rootCand v).card + 1 ≤ q.states := by
      intro v hv
      have := hL1 v hv
      omega
    have hr2 : (H0.wCand p.r).card ≤ q.toRemove + 1 := by
      have := hC1 p.r g.hr
      omega
    obtain ⟨e, h1, h⟩ := bind_eq_ok.1 h
    rw [loop_carry (q := q) (out := EnumExit.lift q)
      (f := enumFor (H0.g.V p.r) (p.req H0.g) E.ws E.cliqueWeight E.required)
      (fun (s : NWG R × WState R × Nat) => EI H0 p s.1 (s.2.1 :: rest) ∧
        s.2.2 ≤ (H0.g.V p.r).N ∧ (∀ c ∈ bset s.1.g.eb s.2.1.cand, s.2.2 ≤ c))
      (by
        rintro ⟨G1, top1, j1⟩ s' ⟨b1, b3, b4⟩ hf
        refine ⟨enumForA_eq Wg hws b1 b3 b4 hr1 hr2 hf, ?_⟩
        rcases enumFor_spec Wg (cw := E.cliqueWeight) (T := E.required) hws b1 b3 b4 with
          ⟨G', top', c1, c2, c3, c4, c5, c6⟩ |
          ⟨G', top', c1, c2⟩ | ⟨G', top', new, cw', c1, c2⟩ | ⟨c1, c2⟩
        · rw [c1] at hf; cases hf; exact ⟨c3, c2, c4⟩
        · rw [c1] at hf; cases hf
        · rw [c1] at hf; cases hf
        · rw [c1] at hf; cases hf)
      (by
        rintro ⟨G1, top1, j1⟩ r ⟨b1, b3, b4⟩ hf
        exact enumForA_eq Wg hws b1 b3 b4 hr1 hr2 hf)
      ((H0.g.V p.r).N + 2) (H, top, top.startAt) e
      ⟨I, l7, fun c hc => (l9 c hc).1⟩ h1, ok_bind]
    cases e with
    | found H' top' => cases h; rfl
    | pushed H' top' new cw' => cases h; rfl
    | done H' top' =>
      dsimp only [EnumExit.lift] at h ⊢
      obtain ⟨X, c1, h⟩ := bind_eq_ok.1 h
      rw [c1, ok_bind]
      obtain ⟨Y, c2, h⟩ := bind_eq_ok.1 h
      rw [c2, ok_bind]
      obtain ⟨Z, c3, h⟩ := bind_eq_ok.1 h
      rw [c3, ok_bind]
      cases h
      rfl

theorem enumReserve_true {H : NWG R} {q q' : Vecs} {wcap wcap' : Nat}
    (h : H.enumReserve q wcap = (q', wcap', true)) :
    H.g.limit ≤ q'.states ∧ H.g.limit ≤ q'.toRemove := by
  unfold enumReserve at h
  cases hc : q.reserve H.g.limit with
  | mk q1 ok =>
    rw [hc] at h
    cases ok with
    | false => cases h
    | true =>
      obtain ⟨k1, k2⟩ := Vecs.reserve_spec hc
      dsimp only at h
      split at h
      · cases h; exact ⟨k1, k2⟩
      · split at h
        · cases h
        · cases h; exact ⟨k1, k2⟩

theorem enumReserve_none (H : NWG R) {q : Vecs} (h : q.heap = none) (wcap : Nat) :
    ∃ q' wcap', H.enumReserve q wcap = (q', wcap', true) ∧ q'.heap = none := by
  obtain ⟨q1, e1, e2⟩ := Vecs.reserve_none h H.g.limit
  unfold enumReserve
  rw [e1]
  dsimp only
  split
  · exact ⟨_, _, rfl, e2⟩
  · rw [e2]
    exact ⟨_, _, rfl, rfl⟩

/-- Once the vectors are reserved there are no more requests. -/
theorem enumGraphA_run {Hs H H' : NWG R} {E E' : WEnum R} {b v : Nat} (hI : WEInv b Hs H E)
    (hL : Lim Hs.g) (hC : Calm Hs) {q q1 : Vecs} {wcap wcap1 : Nat}
    (hc : H.enumReserve q wcap = (q1, wcap1, true)) (h : H.enumGraph E = .ok (H', E', v)) :
    H.enumGraphA grow E q wcap = .ok ((H', E', q1, some v), wcap1) := by
  unfold enumGraph at h
  unfold enumGraphA
  have hlim : H.g.limit = Hs.g.limit := hI.1.frame.depth
  rw [hc]
  obtain ⟨k1, k2⟩ := enumReserve_true hc
  rw [hlim] at k1 k2
  dsimp only
  rw [loop_carry (q := q1)
    (out := fun (r : NWG R × WEnum R × Nat) => (r.1, r.2.1, q1, some r.2.2))
    (f := enumBody)
    (fun s => WEInv b Hs s.1 s.2)
    (by
      rintro ⟨X, F⟩ ⟨X', F'⟩ a1 hf
      refine ⟨enumBodyA_eq a1 hL hC k1 k2 hf, ?_⟩
      obtain ⟨z, b1, b2⟩ := enumBody_spec a1
      rw [hf] at b1
      cases b1
      exact b2.1)
    (by
      rintro ⟨X, F⟩ r a1 hf
      exact enumBodyA_eq a1 hL hC k1 k2 hf)
    _ _ _ hI h]
  rfl

/-- nw_enumerate.cpp:75-210: refused at once, or as ever. -/
theorem enumGraphA_eq {Hs H H' : NWG R} {E E' : WEnum R} {b v : Nat} (hI : WEInv b Hs H E)
    (hL : Lim Hs.g) (hC : Calm Hs) (q : Vecs) (wcap : Nat)
    (h : H.enumGraph E = .ok (H', E', v)) :
    (q.heap ≠ none ∧ ∃ q' wcap', H.enumGraphA grow E q wcap = .ok ((H, E, q', none), wcap')) ∨
    ∃ q' wcap', (q.heap = none → q'.heap = none) ∧
      H.enumGraphA grow E q wcap = .ok ((H', E', q', some v), wcap') := by
  unfold enumGraph at h
  unfold enumGraphA
  cases hc : H.enumReserve q wcap with
  | mk q1 rest =>
    obtain ⟨wcap1, ok⟩ := rest
    have hnone : q.heap = none → ok = true ∧ q1.heap = none := by
      intro h0
      obtain ⟨q', wcap', e1, e2⟩ := enumReserve_none H h0 wcap
      rw [hc] at e1
      cases e1
      exact ⟨rfl, e2⟩
    cases ok with
    | false => exact Or.inl ⟨fun h0 => by simpa using (hnone h0).1, q1, wcap1, rfl⟩
    | true =>
      right
      refine ⟨q1, wcap1, fun h0 => (hnone h0).2, ?_⟩
      have := enumGraphA_run (grow := grow) hI hL hC hc (by unfold enumGraph; exact h)
      unfold enumGraphA at this
      rw [hc] at this
      exact this

variable {pg : PyNW R}

/-- One `__next__`. -/
theorem nextCliqueA_spec {Hs H : NWG R} {E : WEnum R} {b : Nat} (hg : pg.G = some H)
    (hnv : Hs.g.nVert = pg.nvert + 1) (h : WEInv b Hs H E) (hL : Lim Hs.g) (hC : Calm Hs) (q : Vecs)
    (wcap : Nat) :
    (q.heap ≠ none ∧ ∃ q', pg.nextCliqueA grow E q wcap = .ok (pg, E, q', .noMemory)) ∨
    (∃ pg' E' H' c q', pg.nextClique E = .ok (pg', E', c) ∧ pg'.G = some H' ∧
      pg'.nvert = pg.nvert ∧ WEInv b Hs H' E' ∧
      (pg.nextCliqueA grow E q wcap = .ok (pg', E', q', .ret c) ∨
        (q.heap ≠ none ∧ c ≠ none ∧
          pg.nextCliqueA grow E q wcap = .ok (pg', E', q', .noMemory)))) := by
  obtain ⟨H', E', v, a1, a2, _⟩ := enumGraph_spec h
  rcases enumGraphA_eq (grow := grow) h hL hC q wcap a1 with ⟨e0, q', wcap', e1⟩ | ⟨q', wcap', e0, e1⟩
  · left
    refine ⟨e0, (q', wcap'), ?_⟩
    unfold PyNW.nextCliqueA
    rw [hg]
    dsimp only
    rw [e1, ok_bind]
    dsimp only
    rw [← hg]
  · right
    obtain ⟨G2, E2, c2, cc⟩ := wnextClique_spec hg hnv h
    have key : ∃ c, pg.nextClique E = .ok ({ pg with G := some G2 }, E2, c) := by
      rcases cc with ⟨v, C, c, _⟩ | ⟨c, _⟩
      · exact ⟨_, c⟩
      · exact ⟨_, c⟩
    clear cc
    obtain ⟨c, hc⟩ := key
    refine ⟨{ pg with G := some G2 }, E2, G2, c, ?_⟩
    have hc' := hc
    unfold PyNW.nextClique at hc'
    rw [hg] at hc'
    dsimp only at hc'
    rw [a1, ok_bind] at hc'
    dsimp only at hc'
    unfold PyNW.nextCliqueA
    rw [hg]
    dsimp only
    rw [e1, ok_bind]
    dsimp only
    split at hc'
    · rename_i hv
      rw [if_pos hv]
      cases hc'
      exact ⟨_, hc, rfl, rfl, c2, Or.inl rfl⟩
    · rename_i hv
      rw [if_neg hv]
      obtain ⟨⟨G3, ans⟩, d1, d2⟩ := bind_eq_ok.1 hc'
      rw [d1, ok_bind]
      dsimp only
      cases d2
      cases hr : q'.heap.request with
      | none =>
        refine ⟨_, hc, rfl, rfl, c2, Or.inr ⟨fun h0 => ?_, by simp, rfl⟩⟩
        rw [e0 h0] at hr
        cases hr
      | some h1 =>
        dsimp only
        cases hr2 : h1.request with
        | none =>
          refine ⟨_, hc, rfl, rfl, c2, Or.inr ⟨fun h0 => ?_, by simp, rfl⟩⟩
          rw [e0 h0] at hr
          cases hr
          cases hr2
        | some h3 => exact ⟨_, hc, rfl, rfl, c2, Or.inl rfl⟩

theorem nextsA_spec {Hs : NWG R} {b : Nat} (hL : Lim Hs.g) (hC : Calm Hs) :
    ∀ (hs : List Heap) {pg : PyNW R} {H : NWG R} {E : WEnum R} (q : Vecs × Nat),
    pg.G = some H → Hs.g.nVert = pg.nvert + 1 → WEInv b Hs H E →
    ∃ pg' E' q' as m cs, pg.nextsA grow hs E q = .ok (pg', E', q', as) ∧
      pg.nexts m E = .ok (pg', E', cs) ∧ Merge as cs ∧
      List.Forall₂ (fun h a => h = none → a ≠ .noMemory) hs as := by
  intro hs
  induction hs with
  | nil => intro pg H E q _ _ _; exact ⟨pg, E, q, [], 0, [], rfl, rfl, .nil, .nil⟩
  | cons hp hs ih =>
    intro pg H E q hg hnv h
    rcases nextCliqueA_spec (grow := grow) hg hnv h hL hC { q.1 with heap := hp } q.2 with
      ⟨e0, q', e1⟩ | ⟨pg1, E1, G1, c, q1, f1, f2, f3, f4, f5⟩
    · obtain ⟨pg', E', q'', as, m, cs, g1, g2, g3, g4⟩ := ih q' hg hnv h
      refine ⟨pg', E', q'', _, m, cs, ?_, g2, .idle g3, .cons (fun h0 => absurd h0 e0) g4⟩
      unfold PyNW.nextsA
      rw [e1, ok_bind]
      dsimp only
      rw [g1, ok_bind]
    · obtain ⟨pg', E', q'', as, m, cs, g1, g2, g3, g4⟩ := ih q1 f2 (by rw [f3]; exact hnv) f4
      have hn : pg.nexts (m + 1) E = .ok (pg', E', c :: cs) := by
        unfold PyNW.nexts
        rw [f1, ok_bind]
        dsimp only
        rw [g2, ok_bind]
      rcases f5 with e1 | ⟨e0, hc, e1⟩
      · refine ⟨pg', E', q'', _, m + 1, _, ?_, hn, .same c g3, .cons (fun _ => by simp) g4⟩
        unfold PyNW.nextsA
        rw [e1, ok_bind]
        dsimp only
        rw [g1, ok_bind]
      · cases c with
        | none => exact absurd rfl hc
        | some l =>
          refine ⟨pg', E', q'', _, m + 1, _, ?_, hn, .lost l g3, .cons (fun h0 => absurd h0 e0) g4⟩
          unfold PyNW.nextsA
          rw [e1, ok_bind]
          dsimp only
          rw [g1, ok_bind]

end AW

end NWG

end CM
