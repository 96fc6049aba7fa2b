import Verif.Model.NWHeap
import Verif.Lemmas.Heap
import Verif.Lemmas.AWApi

/-!
# The weighted searches with and without refusals of memory
-/

namespace CM

open Spec Graph

namespace NWG

set_option linter.unusedSectionVars false

variable {R : Type} [Zero R] [Add R] [Sub R] [NatCast R] [LT R] [LE R] [DecidableLT R]
  [DecidableLE R]

variable {H H0 : NWG R} {p : SPar} {grow : Nat → Nat} {q : Vecs}

/-- The scan needs as much room in `to_remove` as it fills. -/
theorem stackScanA_eq {V U : Vtx} {cand : GBits} {eb : Mem} {ws : List R} {left k0 : Nat}
    {rm : List Nat} {left' : Nat} {pot : R}
    (h : H.stackScan V U cand eb ws left k0 = .ok (rm, left', pot))
    (hrm : rm.length ≤ q.toRemove) :
    H.stackScanA grow V U cand eb ws left k0 q = .ok (some (rm, left', pot, q)) := by
  unfold stackScan at h
  unfold stackScanA
  refine (loop_carry_back (q := q) (out := fun r => some (r.1, r.2.1, r.2.2, q))
    (fun s => s.2.1.length ≤ q.toRemove) (fun r => r.1.length ≤ q.toRemove) ?_ ?_ _ _ _
    (by exact hrm) h).1
  · rintro ⟨k, rm, left, pot⟩ ⟨k', rm', left', pot'⟩ hI hf
    dsimp only at hI hf ⊢
    by_cases hc : k < V.N ∧ left ≠ 0
    · rw [if_pos hc] at hf ⊢
      obtain ⟨val, e1, hf⟩ := bind_eq_ok.1 hf
      rw [e1, ok_bind]
      obtain ⟨⟨f, ans⟩, e2, hf⟩ := bind_eq_ok.1 hf
      rw [e2, ok_bind]
      dsimp only at hf ⊢
      cases f with
      | true =>
        simp only [if_true] at hf ⊢
        obtain ⟨w, e3, hf⟩ := bind_eq_ok.1 hf
        rw [e3, ok_bind]
        obtain ⟨k1, e4, hf⟩ := bind_eq_ok.1 hf
        rw [e4, ok_bind]
        cases hf
        exact ⟨rfl, hI⟩
      | false =>
        simp only [Bool.false_eq_true, if_false] at hf ⊢
        obtain ⟨k1, e4, hf⟩ := bind_eq_ok.1 hf
        simp only [Except.ok.injEq, Sum.inl.injEq, Prod.mk.injEq] at hf
        obtain ⟨rfl, rfl, rfl, rfl⟩ := hf
        simp only [List.length_append, List.length_singleton] at hI
        unfold Vecs.pushRemove
        rw [if_pos (by omega)]
        dsimp only
        rw [e4, ok_bind]
        exact ⟨rfl, by omega⟩
    · rw [if_neg hc] at hf
      cases hf
  · rintro ⟨k, rm, left, pot⟩ r hP hf
    dsimp only at hf ⊢
    by_cases hc : k < V.N ∧ left ≠ 0
    · rw [if_pos hc] at hf
      obtain ⟨val, e1, hf⟩ := bind_eq_ok.1 hf
      obtain ⟨⟨f, ans⟩, e2, hf⟩ := bind_eq_ok.1 hf
      dsimp only at hf
      cases f with
      | true =>
        simp only [if_true] at hf
        obtain ⟨w, e3, hf⟩ := bind_eq_ok.1 hf
        obtain ⟨k1, e4, hf⟩ := bind_eq_ok.1 hf
        cases hf
      | false =>
        simp only [Bool.false_eq_true, if_false] at hf
        obtain ⟨k1, e4, hf⟩ := bind_eq_ok.1 hf
        cases hf
    · rw [if_neg hc] at hf ⊢
      cases hf
      exact ⟨rfl, hP⟩

/-- What is removed is no longer left. -/
theorem stackScan_count {V U : Vtx} {cand : GBits} {eb : Mem} {ws : List R} {left k0 : Nat}
    {rm : List Nat} {left' : Nat} {pot : R}
    (h : H.stackScan V U cand eb ws left k0 = .ok (rm, left', pot)) (hl : left < 2 ^ 64) :
    rm.length + left' = left := by
  unfold stackScan at h
  have key := loop_inv (fun (s : Nat × List Nat × Nat × R) => s.2.1.length + s.2.2.1 = left)
    (fun (r : List Nat × Nat × R) => r.1.length + r.2.1 = left)
    (body := fun (s : Nat × List Nat × Nat × R) =>
      let (k, rm, left, pot) := s
      if k < V.N ∧ left ≠ 0 then do
        let val ← H.g.nbr V k
        let (f, _) ← binaryFind H.g.el (uadd U.elo U.spos) (usub U.N U.spos) val
        if f then do
          let w ← rd ws k
          let k' ← cand.next eb (k + 1)
          .ok (.inl (k', rm, left, pot + w))
        else do
          let k' ← cand.next eb (k + 1)
          .ok (.inl (k', rm ++ [k], usub left 1, pot))
      else .ok (.inr (rm, left, pot))) ?_ ?_ (by simp) h
  · exact key
  · rintro ⟨k, rm, left1, pot⟩ ⟨k', rm', left', pot'⟩ hI hf
    dsimp only at hI hf ⊢
    by_cases hc : k < V.N ∧ left1 ≠ 0
    · rw [if_pos hc] at hf
      obtain ⟨val, e1, hf⟩ := bind_eq_ok.1 hf
      obtain ⟨⟨f, ans⟩, e2, hf⟩ := bind_eq_ok.1 hf
      dsimp only at hf
      cases f with
      | true =>
        simp only [if_true] at hf
        obtain ⟨w, e3, hf⟩ := bind_eq_ok.1 hf
        obtain ⟨k1, e4, hf⟩ := bind_eq_ok.1 hf
        cases hf
        exact hI
      | false =>
        simp only [Bool.false_eq_true, if_false] at hf
        obtain ⟨k1, e4, hf⟩ := bind_eq_ok.1 hf
        simp only [Except.ok.injEq, Sum.inl.injEq, Prod.mk.injEq] at hf
        obtain ⟨rfl, rfl, rfl, rfl⟩ := hf
        rw [usub_eq (by omega) (by omega)]
        simp only [List.length_append, List.length_singleton]
        omega
    · rw [if_neg hc] at hf
      cases hf
  · rintro ⟨k, rm, left1, pot⟩ r hI hf
    dsimp only at hI hf
    by_cases hc : k < V.N ∧ left1 ≠ 0
    · rw [if_pos hc] at hf
      obtain ⟨val, e1, hf⟩ := bind_eq_ok.1 hf
      obtain ⟨⟨f, ans⟩, e2, hf⟩ := bind_eq_ok.1 hf
      dsimp only at hf
      cases f with
      | true =>
        simp only [if_true] at hf
        obtain ⟨w, e3, hf⟩ := bind_eq_ok.1 hf
        obtain ⟨k1, e4, hf⟩ := bind_eq_ok.1 hf
        cases hf
      | false =>
        simp only [Bool.false_eq_true, if_false] at hf
        obtain ⟨k1, e4, hf⟩ := bind_eq_ok.1 hf
        cases hf
    · rw [if_neg hc] at hf
      cases hf
      exact hI

/-- `stackFor` without a refusal. -/
def ForExit.lift (q : Vecs) : ForExit R → ForExitA R
  | .pushed H top new cw => .pushed H top new cw q
  | .done H top j => .done H top j q

namespace AW

/-- Taking one candidate away leaves at most `wCand - 1`. -/
theorem stackFor_left (W : WGood H0 p) {H : NWG R} {top : WState R} {rest : List (WState R)}
    (I : SInv H0 p H (top :: rest))
    (hst : top.startAt < (H0.g.V p.r).N → top.startAt ∈ bset H.g.eb top.cand)
    (hj : top.startAt < (H0.g.V p.r).N) {m1 eb : Mem} {left : Nat}
    (h1 : top.cand.reset H.g.eb top.startAt = .ok m1)
    (h2 : top.cand.count m1 = .ok (eb, left)) :
    left + 1 ≤ (H0.wCand p.r).card ∧ left < 2 ^ 64 := by
  have g := W.g
  have w := g.wf
  have hlv := I.lv
  have hlenL := Lv_len W I.lv
  simp only [List.length_cons] at hlenL
  unfold Lv at hlv
  obtain ⟨l1, l2, l3, l4, l5, l6, l7, l8, l9, l10, l11⟩ := hlv
  have hreqd : p.req H0.g = dlen (H0.g.V p.r).N := rfl
  have hebl := I.upd.frame.frame.ebl
  have hroom := g.room
  have hce := candOff_end g rest.length
  have hlen1 : (rest.length + 2) * p.req H0.g ≤ (p.L + 2) * p.req H0.g :=
    Nat.mul_le_mul_right _ (by omega)
  have hNlt := N_lt w g.hr
  have hNpos := N_pos w g.hr
  have hjC := hst hj
  generalize hjdef : top.startAt = j at hj hjC h1
  have hoff : top.cand.off = candOff H0.g p rest.length := by rw [l2]
  have hclen : top.cand.len = (H0.g.V p.r).N := by rw [l2]
  obtain ⟨m1', r1, r2, r3⟩ := top.cand.reset_spec H.g.eb j
    (by rw [hoff]; have := div_lt_dlen hj; omega)
  rw [h1] at r1
  cases r1
  have hpad1 : PadZero m1 top.cand := by
    intro i h1 h2; rw [r3, l8 i h1 h2]; simp
  have hC1 : bset m1 top.cand = (bset H.g.eb top.cand).erase j := by
    ext x
    simp only [Finset.mem_erase, mem_bset, r3]
    simp only [Bool.and_eq_true, Bool.not_eq_true', decide_eq_false_iff_not]
    constructor
    · rintro ⟨h1, h2, h3⟩; exact ⟨by omega, h1, h3⟩
    · rintro ⟨h1, h2, h3⟩; exact ⟨h2, by omega, h3⟩
  have hin1 : top.cand.off + dlen top.cand.len ≤ m1.length := by
    rw [hoff, hclen, r2]; omega
  rw [top.cand.count_pad m1 (by omega) hin1 hpad1] at h2
  simp only [Except.ok.injEq, Prod.mk.injEq] at h2
  have hsub : bset H.g.eb top.cand ⊆ H0.wCand p.r := fun c hc => (l9 c hc).2.1
  have hc := Finset.card_le_card hsub
  have hpos : 0 < (bset H.g.eb top.cand).card := Finset.card_pos.2 ⟨j, hjC⟩
  have hcl := wCand_card_lt w g.hr (H := H0)
  have he : left = (bset H.g.eb top.cand).card - 1 := by
    rw [← h2.2, hC1, Finset.card_erase_of_mem hjC]
  omega

/-- With room for the clique in `states` and for the candidates in `to_remove`, one round of the inner
loop asks for nothing. -/
theorem stackForA_eq (W : WGood H0 p) {H : NWG R} {top : WState R} {rest : List (WState R)}
    {ws : List R} {cw : R} (hwl : (H0.g.V p.r).N ≤ ws.length) (I : SInv H0 p H (top :: rest))
    (hst : top.startAt < (H0.g.V p.r).N → top.startAt ∈ bset H.g.eb top.cand)
    (hq1 : p.L ≤ q.states) (hq2 : (H0.wCand p.r).card ≤ q.toRemove + 1)
    {y : (NWG R × WState R) ⊕ ForExit R}
    (h : stackFor p.r (H0.g.V p.r) (p.req H0.g) ws cw (H, top) = .ok y) :
    stackForA grow p.r (H0.g.V p.r) (p.req H0.g) ws cw (rest.length + 1) ((H, top), q) =
      .ok (y.map (fun s => (s, q)) (ForExit.lift q)) := by
  have hpush : ∀ H' top' new cw', y = .inr (.pushed H' top' new cw') →
      rest.length + 1 < q.states := by
    rintro H' top' new cw' rfl
    rcases stackFor_spec W (cw := cw) hwl I hst with
      ⟨H1, top1, b1, _⟩ | ⟨H1, top1, new1, cw1, b1, b2, _⟩ | ⟨b1, _⟩
    · rw [h] at b1; cases b1
    · have := Lv_len W b2.lv
      simp only [List.length_cons] at this
      omega
    · rw [h] at b1; cases b1
  unfold stackFor at h
  unfold stackForA
  dsimp only at h ⊢
  by_cases hj : top.startAt < (H0.g.V p.r).N
  swap
  · rw [if_neg hj] at h ⊢
    cases h
    rfl
  rw [if_pos hj] at h ⊢
  obtain ⟨m1, a1, h⟩ := bind_eq_ok.1 h
  rw [a1, ok_bind]
  obtain ⟨sa, a2, h⟩ := bind_eq_ok.1 h
  rw [a2, ok_bind]
  obtain ⟨wj, a3, h⟩ := bind_eq_ok.1 h
  rw [a3, ok_bind]
  obtain ⟨⟨eb, left⟩, a4, h⟩ := bind_eq_ok.1 h
  rw [a4, ok_bind]
  obtain ⟨k1, k2⟩ := stackFor_left W I hst hj a1 a4
  dsimp only at h ⊢
  obtain ⟨vert, a5, h⟩ := bind_eq_ok.1 h
  rw [a5, ok_bind]
  obtain ⟨U, a6, h⟩ := bind_eq_ok.1 h
  rw [a6, ok_bind]
  obtain ⟨⟨rm, left', cp⟩, a7, h⟩ := bind_eq_ok.1 h
  have k3 := stackScan_count a7 k2
  rw [stackScanA_eq a7 (by omega), ok_bind]
  dsimp only at h ⊢
  split at h
  · rename_i hp
    rw [if_pos hp]
    split at h
    · rename_i hz
      rw [if_pos hz]
      obtain ⟨b1, c1, h⟩ := bind_eq_ok.1 h
      rw [c1, ok_bind]
      obtain ⟨b2, c2, h⟩ := bind_eq_ok.1 h
      rw [c2, ok_bind]
      obtain ⟨b3, c3, h⟩ := bind_eq_ok.1 h
      rw [c3, ok_bind]
      cases h
      rfl
    · rename_i hz
      rw [if_neg hz]
      obtain ⟨b1, c1, h⟩ := bind_eq_ok.1 h
      rw [c1, ok_bind]
      obtain ⟨b2, c2, h⟩ := bind_eq_ok.1 h
      rw [c2, ok_bind]
      obtain ⟨b3, c3, h⟩ := bind_eq_ok.1 h
      rw [c3, ok_bind]
      cases h
      unfold Vecs.pushState
      rw [if_pos (hpush _ _ _ _ rfl)]
      rfl
  · rename_i hp
    rw [if_neg hp]
    cases h
    rfl

/-- The same for the `while` loop. -/
theorem stackBodyA_eq (W : WGood H0 p) {ws : List R} (hwl : (H0.g.V p.r).N ≤ ws.length)
    {s : NWG R × List (WState R) × R} (I : SInv H0 p s.1 s.2.1) (hq1 : p.L ≤ q.states)
    (hq2 : (H0.wCand p.r).card ≤ q.toRemove + 1)
    {y : (NWG R × List (WState R) × R) ⊕ (NWG R × List (WState R))}
    (h : stackBody p.r (H0.g.V p.r) (p.req H0.g) ws s = .ok y) :
    stackBodyA grow p.r (H0.g.V p.r) (p.req H0.g) ws (s, q) =
      .ok (y.map (fun s => (s, q)) (fun r => (r.1, some (r.2, q)))) := by
  obtain ⟨H, states, cw⟩ := s
  simp only at I
  unfold stackBody at h
  unfold stackBodyA
  dsimp only at h ⊢
  cases states with
  | nil => cases h; rfl
  | cons top rest =>
    dsimp only at h ⊢
    by_cases hlim : H.curMax ≥ H.limit
    · rw [if_pos hlim] at h ⊢
      cases h; rfl
    rw [if_neg hlim] at h ⊢
    have g := W.g
    have w := g.wf
    have hNpos := N_pos w g.hr
    have hlv := I.lv
    have hlenL := Lv_len W I.lv
    simp only [List.length_cons] at hlenL
    unfold Lv at hlv
    obtain ⟨l1, l2, l3, l4, l5, l6, l7, l8, l9, l10, l11⟩ := hlv
    have hreqd : p.req H0.g = dlen (H0.g.V p.r).N := rfl
    have hoff : top.cand.off = candOff H0.g p rest.length := by rw [l2]
    have hclen : top.cand.len = (H0.g.V p.r).N := by rw [l2]
    have hce := candOff_end g rest.length
    have hlen1 : (rest.length + 2) * p.req H0.g ≤ (p.L + 2) * p.req H0.g :=
      Nat.mul_le_mul_right _ (by omega)
    have hroom := g.room
    have hebl := I.upd.frame.frame.ebl
    have hin : top.cand.off + dlen top.cand.len ≤ H.g.eb.length := by
      rw [hoff, hclen]; omega
    rw [top.cand.count_pad H.g.eb (by omega) hin l8, ok_bind] at h ⊢
    dsimp only at h ⊢
    obtain ⟨sa, n1, n2, n3, n4, n5⟩ := top.cand.next_spec H.g.eb top.startAt hin l8
      (by rw [hclen]; exact l7)
    rw [n1, ok_bind] at h ⊢
    rw [hclen] at n3 n4
    have I1 : SInv H0 p H ({ top with startAt := sa } :: rest) := by
      refine ⟨I.upd, I.sc, ?_, I.res, I.zero⟩
      unfold Lv
      refine ⟨l1, l2, l3, l4, l5, l6, n3, l8, ?_, l10, l11⟩
      intro c hc
      have h := l9 c hc
      refine ⟨n5 c hc h.1, h.2.1, h.2.2.1, ?_⟩
      intro t ht
      rcases List.mem_cons.1 ht with ht | ht
      · rw [ht]; exact h.2.2.2 top (by simp)
      · exact h.2.2.2 t (by simp [ht])
    obtain ⟨e, h1, h2⟩ := bind_eq_ok.1 h
    rw [loop_carry (q := q) (out := ForExit.lift q)
      (f := stackFor p.r (H0.g.V p.r) (p.req H0.g) ws cw)
      (fun (s : NWG R × WState R) => SInv H0 p s.1 (s.2 :: rest) ∧
        (s.2.startAt < (H0.g.V p.r).N → s.2.startAt ∈ bset s.1.g.eb s.2.cand))
      (by
        rintro ⟨H1, top1⟩ s' ⟨a1, a3⟩ hf
        refine ⟨stackForA_eq W hwl a1 a3 hq1 hq2 hf, ?_⟩
        rcases stackFor_spec W (cw := cw) hwl a1 a3 with
          ⟨H', top', b1, b2, b3, b4, b5, b6⟩ |
          ⟨H', top', new, cw', b1, b2, b4⟩ | ⟨b1, b2⟩
        · rw [b1] at hf; cases hf; exact ⟨b2, b4⟩
        · rw [b1] at hf; cases hf
        · rw [b1] at hf; cases hf)
      (by
        rintro ⟨H1, top1⟩ r ⟨a1, a3⟩ hf
        exact stackForA_eq W hwl a1 a3 hq1 hq2 hf)
      _ _ _ ⟨I1, n4⟩ h1, ok_bind]
    cases e with
    | pushed H' top' new cw' => cases h2; rfl
    | done H' top' j =>
      dsimp only [ForExit.lift] at h2 ⊢
      split at h2
      · rename_i hj
        rw [if_pos hj]
        obtain ⟨b1, c1, h2⟩ := bind_eq_ok.1 h2
        rw [c1, ok_bind]
        obtain ⟨b2, c2, h2⟩ := bind_eq_ok.1 h2
        rw [c2, ok_bind]
        obtain ⟨b3, c3, h2⟩ := bind_eq_ok.1 h2
        rw [c3, ok_bind]
        cases h2
        rfl
      · rename_i hj
        rw [if_neg hj]
        cases h2
        rfl

/-- The same for a rooted search. -/
theorem stackVertexA_eq {H : NWG R} (rdy : ReadyS H.g) (l : Lens H) {r : Nat} (hr : r < H.g.nVert)
    {ws : List R} (hws : ws.length = H.g.maxDeg)
    (hq1 : ∀ v, v < H.g.nVert → (H.g.rootCand v).card + 1 ≤ q.states)
    (hq2 : (H.wCand r).card ≤ q.toRemove + 1)
    {H' : NWG R} {ws' : List R} (h : stackVertex (H, ws) r = .ok (H', ws')) :
    stackVertexA grow (H, ws) r q = .ok (H', some (ws', q)) := by
  have w := rdy.wf
  obtain ⟨L0, hL', hroom⟩ := rdy.room
  have hL : ∀ v, v < H.g.nVert → (H.g.rootCand v).card + 1 ≤ min L0 q.states := by
    intro v hv
    have h1 := hL' v hv
    have h2 := hq1 v hv
    omega
  have hmin1 : min L0 q.states ≤ L0 := by omega
  have hmin2 : min L0 q.states ≤ q.states := by omega
  generalize min L0 q.states = L at hL hmin1 hmin2
  have hmax := dlen_mono (w.maxd r hr)
  have hmaxd := w.maxd r hr
  have hL0 := hL r hr
  have hrm : (L + 2) * dlen (H.g.V r).N ≤ (L0 + 2) * dlen H.g.maxDeg :=
    Nat.mul_le_mul (by omega) hmax
  obtain ⟨p, G1, x, eb, ws', c, rfl, p2, p3, W, hw'l, r1, r2, I, r4, r6, r5⟩ :=
    root_spec w l hr rdy.bot (fun S hS => isCl_card_le w hL hr hS) (by omega) (by omega) rdy.zero
      (rdy.pad r hr) (ws := ws) (by omega)
  unfold stackVertex at h
  unfold stackVertexA
  dsimp only at h ⊢
  rw [vtx_ok w hr, ok_bind] at h ⊢
  rw [r1, ok_bind] at h ⊢
  dsimp only at h ⊢
  rw [r2, ok_bind] at h ⊢
  dsimp only at h ⊢
  rw [rd_wt l hr, ok_bind] at h ⊢
  have hwl : (H.g.V p.r).N ≤ ws'.length := by rw [hw'l, hws]; exact hmaxd
  split at h
  · rename_i hp
    rw [if_pos hp]
    obtain ⟨b1, c1, h⟩ := bind_eq_ok.1 h
    rw [c1, ok_bind]
    cases h
    rfl
  · rename_i hp
    rw [if_neg hp]
    unfold Vecs.pushState
    rw [if_pos (by omega)]
    dsimp only
    obtain ⟨⟨H3, states⟩, h1, h2⟩ := bind_eq_ok.1 h
    rw [loop_carry (q := q) (out := fun r => (r.1, some (r.2, q)))
      (f := stackBody p.r (H.g.V p.r) (dlen (H.g.V p.r).N) ws') (fun s => SInv H p s.1 s.2.1)
      (by
        intro s s' hI hf
        refine ⟨stackBodyA_eq W hwl hI (by omega) hq2 hf, ?_⟩
        rcases stackBody_spec W hwl hI with ⟨s1, b1, b2, _⟩ | ⟨r1, b1, _⟩
        · have hf' := hf
          rw [show dlen (H.g.V p.r).N = p.req H.g from rfl, b1] at hf'; cases hf'; exact b2
        · have hf' := hf
          rw [show dlen (H.g.V p.r).N = p.req H.g from rfl, b1] at hf'; cases hf')
      (by
        intro s r hI hf
        exact stackBodyA_eq W hwl hI (by omega) hq2 hf)
      _ _ _ (I c) h1, ok_bind]
    dsimp only at h2 ⊢
    split at h2
    · rename_i he
      rw [if_pos he]
      rw [ok_bind] at h2 ⊢
      obtain ⟨b1, c1, h2⟩ := bind_eq_ok.1 h2
      rw [c1, ok_bind]
      cases h2
      rfl
    · rename_i he
      rw [if_neg he]
      obtain ⟨G4, h3, h4⟩ := bind_eq_ok.1 h2
      rw [h3, ok_bind]
      obtain ⟨b1, c1, h4⟩ := bind_eq_ok.1 h4
      rw [c1, ok_bind]
      cases h4
      rfl

/-- The candidates of each root fit into `to_remove` as it was reserved. -/
def Calm (H : NWG R) : Prop := ∀ v, v < H.g.nVert → (H.wCand v).card ≤ H.g.limit + 1

theorem Calm.frame {H H' : NWG R} (h : Calm H) (F : WFrame H H') : Calm H' := by
  intro v hv
  rw [F.wCand, F.depth]
  exact h v (by rw [← F.frame.nVert]; exact hv)

theorem lim_wframe {H H' : NWG R} (h : Lim H.g) (F : WFrame H H') : Lim H'.g :=
  h.frame F.frame (Nat.le_of_eq F.depth.symm)

theorem stackReserve_some {H : NWG R} {hp : Heap} {q : Vecs} (h : H.stackReserve hp = some q) :
    H.g.limit ≤ q.states ∧ H.g.limit ≤ q.toRemove := by
  unfold stackReserve at h
  split at h
  · cases h
  · rename_i q' hc
    obtain ⟨k1, k2⟩ := Vecs.reserve_spec hc
    cases hx : (if H.g.maxDeg = 0 then some q'.heap else q'.heap.request) with
    | none => rw [hx] at h; cases h
    | some hp' =>
      rw [hx] at h
      cases h
      exact ⟨k1, k2⟩

theorem stackReserve_none (H : NWG R) :
    ∃ q, H.stackReserve none = some q ∧ q.heap = none := by
  obtain ⟨q, e1, e2⟩ := Vecs.reserve_none (q := ⟨0, 0, none⟩) rfl H.g.limit
  unfold stackReserve
  rw [e1]
  dsimp only
  rw [e2]
  by_cases hm : H.g.maxDeg = 0
  · rw [if_pos hm]; exact ⟨_, rfl, rfl⟩
  · rw [if_neg hm]; exact ⟨_, rfl, rfl⟩

/-- The exact search once its vectors are reserved: no more requests. -/
theorem stackGraphA_run {b : Nat} {H H' : NWG R} {i : Nat} (h : WOkAt b H) (hL : Lim H.g)
    (hC : Calm H) (junk : Nat → R) {hp : Heap} {q : Vecs} (hc : H.stackReserve hp = some q)
    (hr : H.stackGraph junk = .ok (H', i)) :
    H.stackGraphA grow junk hp = .ok (H', some (i, q.heap)) := by
  unfold stackGraphA
  rw [hc]
  obtain ⟨k1, k2⟩ := stackReserve_some hc
  dsimp only
  unfold stackGraph at hr
  obtain ⟨⟨H1, ws1⟩, e1, hr⟩ := bind_eq_ok.1 hr
  obtain ⟨⟨H2, ws2⟩, e2, hr⟩ := bind_eq_ok.1 hr
  cases hr
  have q1 : ∀ {X : NWG R}, WFrame H X →
      ∀ v, v < X.g.nVert → (X.g.rootCand v).card + 1 ≤ q.states := by
    intro X F v hv
    have := lim_wframe hL F v hv
    rw [F.depth] at this
    omega
  have q2 : ∀ {X : NWG R}, WFrame H X →
      ∀ v, v < X.g.nVert → (X.wCand v).card ≤ q.toRemove + 1 := by
    intro X F v hv
    have := hC.frame F v hv
    rw [F.depth] at this
    omega
  have F0 := WFrame.refl H
  rw [stackVertexA_eq h.ok.ready h.l h.loc (by simp) (q1 F0) (q2 F0 _ h.loc) e1, ok_bind]
  obtain ⟨X, w', f1, fw, f2⟩ := stackVertex_spec h.ok.ready h.l h.loc
    (ws := (List.range H.g.maxDeg).map junk) (by simp)
  rw [e1] at f1
  cases f1
  obtain ⟨o1, i1⟩ := f2.okAt h h.loc
  unfold forRange at e2 ⊢
  dsimp only at e2 ⊢
  rw [forN_carry (l := fun (s : NWG R × List R) => (s.1, some (s.2, q))) (g := stackStepA grow)
    (f := fun i (s : NWG R × List R) => do
      let m ← rd s.1.mcs i
      if m ≤ s.1.curMax ∨ s.1.curMax ≥ s.1.limit then .ok s
      else stackVertex s i)
    (fun s => WOkAt b s.1 ∧ WFrame H s.1 ∧ s.2.length = H.g.maxDeg) _ _ (H1, ws1) (H2, ws2)
    (by
      rintro k ⟨X, ws⟩ ⟨X', ws'⟩ _ hk ⟨c1, c2, c3⟩ hf
      dsimp only at c1 c2 c3 hf ⊢
      have hkX : k < X.g.nVert := by
        rw [c2.frame.nVert, ← i1.frame.frame.nVert]; omega
      have cw : ws.length = X.g.maxDeg := by rw [c3]; exact c2.frame.maxDeg.symm
      obtain ⟨m, g1, hf⟩ := bind_eq_ok.1 hf
      unfold stackStepA
      dsimp only
      rw [g1, ok_bind]
      split at hf
      · rename_i hm
        rw [if_pos hm]
        cases hf
        exact ⟨rfl, c1, c2, c3⟩
      · rename_i hm
        rw [if_neg hm]
        refine ⟨stackVertexA_eq c1.ok.ready c1.l hkX cw (q1 c2) (q2 c2 _ hkX) hf, ?_⟩
        obtain ⟨Y, ws', d1, dw, d2⟩ := stackVertex_spec c1.ok.ready c1.l hkX (ws := ws) cw
        rw [hf] at d1
        cases d1
        obtain ⟨o2, i2⟩ := d2.okAt c1 hkX
        exact ⟨o2, c2.trans i2.frame, by rw [dw]; exact c2.frame.maxDeg⟩)
    ⟨o1, i1.frame, fw⟩ e2, ok_bind]

/-- The exact search. -/
theorem stackGraphA_eq {b : Nat} {H H' : NWG R} {i : Nat} (h : WOkAt b H) (hL : Lim H.g)
    (hC : Calm H) (junk : Nat → R) (hp : Heap) (hr : H.stackGraph junk = .ok (H', i)) :
    (hp ≠ none ∧ H.stackGraphA grow junk hp = .ok (H, none)) ∨
    ∃ hp', (hp = none → hp' = none) ∧ H.stackGraphA grow junk hp = .ok (H', some (i, hp')) := by
  unfold stackGraphA
  cases hc : H.stackReserve hp with
  | none =>
    refine Or.inl ⟨?_, rfl⟩
    rintro rfl
    obtain ⟨q, e1, _⟩ := stackReserve_none H
    rw [hc] at e1
    cases e1
  | some q =>
    right
    have hnone : hp = none → q.heap = none := by
      rintro rfl
      obtain ⟨q', e1, e2⟩ := stackReserve_none H
      rw [hc] at e1
      cases e1
      exact e2
    exact ⟨q.heap, hnone, by
      rw [← stackGraphA_run (grow := grow) h hL hC junk hc hr]; unfold stackGraphA; rw [hc]⟩

theorem findMaxA_eq {srt : List (WData R) → List (WData R)} (hsrt : ∀ l, (srt l).Perm l)
    (junk : Nat → R) {b : Nat} {H : NWG R} (h : WOkAt b H) (hL : Lim H.g) (hC : Calm H) (sv : Nat)
    (heur dfs : Bool) (hp : Heap) :
    (hp ≠ none ∧ H.findMaxCliquesA grow srt junk sv heur dfs hp = .ok (H, none)) ∨
    (hp ≠ none ∧ ∃ H', H.findMaxCliquesA grow srt junk sv heur dfs hp = .ok (H', none) ∧
      H.findMaxCliques srt junk sv heur false = .ok (H', sv)) ∨
    ∃ H' i hp', (hp = none → hp' = none) ∧
      H.findMaxCliquesA grow srt junk sv heur dfs hp = .ok (H', some (i, hp')) ∧
      H.findMaxCliques srt junk sv heur dfs = .ok (H', i) := by
  have key : (hp ≠ none ∧
        (if heur = true then H.heurGraphA srt hp else .ok (H, some hp)) = .ok (H, none)) ∨
      ∃ H1 hp1, (hp = none → hp1 = none) ∧
        (if heur = true then H.heurGraphA srt hp else .ok (H, some hp)) = .ok (H1, some hp1) ∧
        (if heur = true then H.heurGraph srt else .ok H) = .ok H1 ∧ WOkAt b H1 ∧ WFrame H H1 := by
    cases heur with
    | false => exact Or.inr ⟨H, hp, id, rfl, rfl, h, WFrame.refl H⟩
    | true =>
      simp only [if_true]
      unfold heurGraphA
      have hnone : hp = none → (if H.g.maxDeg = 0 then some hp else hp.request) = some none := by
        rintro rfl
        simp [Heap.request]
      cases hx : (if H.g.maxDeg = 0 then some hp else hp.request) with
      | none => exact Or.inl ⟨fun h0 => by rw [hnone h0] at hx; (cases hx), rfl⟩
      | some hp1 =>
        right
        obtain ⟨H1, h1, h2, h3, h4⟩ := heurGraph_at hsrt h
        dsimp only
        rw [h1]
        exact ⟨H1, hp1, fun h0 => by rw [hnone h0] at hx; cases hx; rfl, rfl, rfl, h2, h3.frame⟩
  unfold findMaxCliquesA findMaxCliques
  dsimp only
  rw [← ite_bind, ← ite_bind]
  rcases key with ⟨k0, k⟩ | ⟨H1, hp1, k0, k1, k2, k3, k4⟩
  · left; rw [k]; exact ⟨k0, rfl⟩
  · right
    rw [k1, k2, ok_bind, ok_bind]
    cases dfs with
    | false => exact Or.inr ⟨H1, sv, hp1, k0, rfl, rfl⟩
    | true =>
      simp only [if_true]
      obtain ⟨H2, b1, _⟩ := stackGraph_at k3 junk
      rcases stackGraphA_eq (grow := grow) k3 (lim_wframe hL k4) (hC.frame k4) junk hp1 b1 with
        ⟨e0, e⟩ | ⟨hp2, e0, e⟩
      · exact Or.inl ⟨fun h0 => e0 (k0 h0), H1, e, rfl⟩
      · exact Or.inr ⟨H2, _, hp2, fun h0 => e0 (k0 h0), e, b1⟩

end AW

end NWG

end CM
