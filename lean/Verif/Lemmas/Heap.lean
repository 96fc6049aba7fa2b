import Verif.Model.Heap
import Verif.Lemmas.History
import Verif.Lemmas.Consume

/-!
# The searches with and without refusals of memory
-/

namespace CM

open Spec

variable {σ ρ ρ' : Type}

/-- A loop that carries `q` along unchanged, as long as an invariant holds. -/
theorem loop_carry {f : σ → M (σ ⊕ ρ)} {g : σ × Vecs → M ((σ × Vecs) ⊕ ρ')} {q : Vecs}
    {out : ρ → ρ'} (I : σ → Prop)
    (h1 : ∀ s s', I s → f s = .ok (.inl s') → g (s, q) = .ok (.inl (s', q)) ∧ I s')
    (h2 : ∀ s r, I s → f s = .ok (.inr r) → g (s, q) = .ok (.inr (out r))) :
    ∀ (n : Nat) (s : σ) (r : ρ), I s → loop n f s = .ok r → loop n g (s, q) = .ok (out r) := by
  intro n
  induction n with
  | zero => intro s r _ h; cases h
  | succ n ih =>
    intro s r hI h
    unfold loop at h ⊢
    cases hf : f s with
    | error e => rw [hf] at h; cases h
    | ok x =>
      rw [hf] at h
      cases x with
      | inl s' =>
        obtain ⟨a, b⟩ := h1 s s' hI hf
        rw [a]
        exact ih s' r b h
      | inr r' =>
        cases h
        rw [h2 s _ hI hf]

/-- The same with a condition that is inherited from the end. -/
theorem loop_carry_back {f : σ → M (σ ⊕ ρ)} {g : σ × Vecs → M ((σ × Vecs) ⊕ ρ')} {q : Vecs}
    {out : ρ → ρ'} (I : σ → Prop) (P : ρ → Prop)
    (h1 : ∀ s s', I s' → f s = .ok (.inl s') → g (s, q) = .ok (.inl (s', q)) ∧ I s)
    (h2 : ∀ s r, P r → f s = .ok (.inr r) → g (s, q) = .ok (.inr (out r)) ∧ I s) :
    ∀ (n : Nat) (s : σ) (r : ρ), P r → loop n f s = .ok r →
      loop n g (s, q) = .ok (out r) ∧ I s := by
  intro n
  induction n with
  | zero => intro s r _ h; cases h
  | succ n ih =>
    intro s r hP h
    unfold loop at h ⊢
    cases hf : f s with
    | error e => rw [hf] at h; cases h
    | ok x =>
      rw [hf] at h
      cases x with
      | inl s' =>
        obtain ⟨a, b⟩ := ih s' r hP h
        obtain ⟨c, d⟩ := h1 s s' b hf
        rw [c]
        exact ⟨a, d⟩
      | inr r' =>
        cases h
        obtain ⟨c, d⟩ := h2 s _ hP hf
        rw [c]
        exact ⟨rfl, d⟩

namespace Graph

variable {G G0 : Graph} {p : SPar} {grow : Nat → Nat} {q : Vecs}

/-- The scan needs as much room in `to_remove` as it fills. -/
theorem stackScanA_eq {V U : Vtx} {cand : GBits} {eb : Mem} {left cs k0 pot0 : Nat} {rm : List Nat}
    {pot : Nat} (h : G.stackScan V U cand eb left cs k0 pot0 = .ok (rm, pot))
    (hrm : rm.length ≤ q.toRemove) :
    G.stackScanA grow V U cand eb left cs k0 pot0 q = .ok (some (rm, pot, q)) := by
  unfold stackScan at h
  unfold stackScanA
  refine (loop_carry_back (q := q) (out := fun r => some (r.1, r.2, q))
    (fun s => s.2.2.1.length ≤ q.toRemove) (fun r => r.1.length ≤ q.toRemove) ?_ ?_ _ _ _
    (by exact hrm) h).1
  · rintro ⟨k, start, rm, pot⟩ ⟨k', start', rm', pot'⟩ hI hf
    dsimp only at hI hf ⊢
    by_cases hc : k < V.N ∧ pot > G.curMax
    · rw [if_pos hc] at hf ⊢
      obtain ⟨val, e1, hf⟩ := bind_eq_ok.1 hf
      rw [e1, ok_bind]
      obtain ⟨⟨f, ans⟩, e2, hf⟩ := bind_eq_ok.1 hf
      rw [e2, ok_bind]
      dsimp only at hf ⊢
      obtain ⟨k1, e3, hf⟩ := bind_eq_ok.1 hf
      cases hf
      cases f with
      | true =>
        simp only [if_true] at e3 hI ⊢
        rw [e3, ok_bind]
        exact ⟨rfl, hI⟩
      | false =>
        simp only [Bool.false_eq_true, if_false, List.length_append, List.length_singleton] at e3 hI ⊢
        unfold Vecs.pushRemove
        rw [if_pos (by omega)]
        dsimp only
        rw [e3, ok_bind]
        exact ⟨rfl, by omega⟩
    · rw [if_neg hc] at hf
      cases hf
  · rintro ⟨k, start, rm, pot⟩ r hP hf
    dsimp only at hf ⊢
    by_cases hc : k < V.N ∧ pot > G.curMax
    · rw [if_pos hc] at hf
      obtain ⟨val, e1, hf⟩ := bind_eq_ok.1 hf
      obtain ⟨⟨f, ans⟩, e2, hf⟩ := bind_eq_ok.1 hf
      dsimp only at hf
      obtain ⟨k1, e3, hf⟩ := bind_eq_ok.1 hf
      cases hf
    · rw [if_neg hc] at hf ⊢
      cases hf
      exact ⟨rfl, hP⟩

/-- `stackFor` without a refusal. -/
def ForExit.lift (q : Vecs) : ForExit → ForExitA
  | .pushed G top new => .pushed G top new q
  | .done G top j => .done G top j q

/-- The scan inside `stackFor` and how much it removes. -/
theorem stackFor_scan (g : p.Good G0) {G : Graph} {top : SState} {rest : List SState}
    {left : Nat} (I : SInv G0 p G (top :: rest))
    (hleft : left = (bset G.eb top.cand).card)
    (hst : top.startAt < (G0.V p.r).N → top.startAt ∈ bset G.eb top.cand)
    (hj : top.startAt < (G0.V p.r).N) :
    ∃ m1 sa rm pot, top.cand.reset G.eb top.startAt = .ok m1 ∧
      top.cand.next m1 (top.startAt + 1) = .ok sa ∧
      ({ G with eb := m1 } : Graph).nbr (G0.V p.r) top.startAt = .ok (G0.e p.r top.startAt) ∧
      ({ G with eb := m1 } : Graph).vtx (G0.e p.r top.startAt) =
        .ok (({ G with eb := m1 } : Graph).V (G0.e p.r top.startAt)) ∧
      ({ G with eb := m1 } : Graph).stackScan (G0.V p.r)
        (({ G with eb := m1 } : Graph).V (G0.e p.r top.startAt)) top.cand m1 (usub left 1)
        (rest.length + 1) sa (usub left 1 + 1 + (rest.length + 1)) = .ok (rm, pot) ∧
      rm.length ≤ left - 1 ∧ 0 < left ∧ usub left 1 = left - 1 ∧ rest.length + 1 + left ≤ p.L := by
  have w := g.wf
  have hlv := I.lv
  unfold Lv at hlv
  obtain ⟨l1, l2, l3, l4, l5, l6, l7, l8, l9, l10, l11⟩ := hlv
  have hreqd : p.req G0 = dlen (G0.V p.r).N := rfl
  have hebl := I.upd.frame.ebl
  have hroom := g.room
  have hce := candOff_end g rest.length
  have hlen1 : (rest.length + 2) * p.req G0 ≤ (p.L + 2) * p.req G0 :=
    Nat.mul_le_mul_right _ (by omega)
  have hNlt := N_lt w g.hr
  have hjC := hst hj
  generalize hjdef : top.startAt = j at hj hjC ⊢
  have hoff : top.cand.off = candOff G0 p rest.length := by rw [l2]
  have hclen : top.cand.len = (G0.V p.r).N := by rw [l2]
  obtain ⟨m1, r1, r2, r3⟩ := top.cand.reset_spec G.eb j
    (by rw [hoff]; have := div_lt_dlen hj; omega)
  have hpad1 : PadZero m1 top.cand := by
    intro i h1 h2; rw [r3, l8 i h1 h2]; simp
  have hC1 : bset m1 top.cand = (bset G.eb top.cand).erase j := by
    ext x
    simp only [Finset.mem_erase, mem_bset, r3]
    simp only [Bool.and_eq_true, Bool.not_eq_true', decide_eq_false_iff_not]
    constructor
    · rintro ⟨h1, h2, h3⟩; exact ⟨by omega, h1, h3⟩
    · rintro ⟨h1, h2, h3⟩; exact ⟨h2, by omega, h3⟩
  have hin1 : top.cand.off + dlen top.cand.len ≤ m1.length := by
    rw [hoff, hclen, r2]; omega
  obtain ⟨sa, n1, n2, n3, n4, n5⟩ := top.cand.next_spec m1 (j + 1) hin1 hpad1
    (by rw [hclen]; omega)
  rw [hclen] at n3 n4
  have hnbr : ({ G with eb := m1 } : Graph).nbr (G0.V p.r) j = .ok (G0.e p.r j) := by
    unfold nbr e
    rw [show ({ G with eb := m1 } : Graph).el = G0.el from I.upd.frame.el]
    exact rd_getD _ (by have := w.inEl p.r g.hr; omega)
  have F1 : Frame G0 ({ G with eb := m1 } : Graph) :=
    I.upd.frame.trans (Frame.mk' G m1 G.searchCur G.curMax G.curLoc r2)
  have w1 := F1.wf w
  have hvert := e_lt w g.hr hj
  have hvtx := vtx_ok w1 (v := G0.e p.r j) (by rw [F1.nVert]; exact hvert)
  have hcard : (bset m1 top.cand).card = left - 1 := by
    rw [hC1, Finset.card_erase_of_mem hjC, hleft]
  have hlpos : 0 < left := by rw [hleft]; exact Finset.card_pos.2 ⟨j, hjC⟩
  have hleftN : left ≤ (G0.V p.r).N := by
    rw [hleft]
    have : bset G.eb top.cand ⊆ Finset.range (G0.V p.r).N := by
      intro x hx; rw [Finset.mem_range, ← hclen]; exact (mem_bset.1 hx).1
    simpa using Finset.card_le_card this
  have hus : usub left 1 = left - 1 := usub_eq hlpos (by omega)
  have hgt1 : ∀ k ∈ bset m1 top.cand, j < k := by
    intro k hk
    rw [hC1, Finset.mem_erase] at hk
    have := (l9 k hk.2).1
    omega
  obtain ⟨rm, pot, s1, s2, s3, s4, s5, s6⟩ := stackScan_spec (G := { G with eb := m1 }) w1
    (r := p.r) (j := j) (by rw [F1.nVert]; exact g.hr) (by rw [F1.N]; exact hj)
    (cand := top.cand) (eb := m1) (left := left - 1) (cs := rest.length + 1) (k0 := sa)
    (by rw [F1.N]; exact hclen) hin1 hpad1 hgt1 hcard.symm (by rw [F1.N]; exact n3)
    (by rw [F1.N]; exact n4) (fun k hk => n5 k hk (hgt1 k hk))
  rw [F1.e] at s1
  rw [stackScan_congr (V := ({ G with eb := m1 } : Graph).V p.r) (V' := G0.V p.r)
    (F1.N _) (F1.elo _)] at s1
  exact ⟨m1, sa, rm, pot, r1, n1, hnbr, hvtx, by rw [hus]; exact s1, s5, hlpos, hus,
    by rw [hleft]; exact l10⟩

/-- With room for `p.L` entries one round of the inner loop asks for nothing. -/
theorem stackForA_eq (g : p.Good G0) {G : Graph} {top : SState} {rest : List SState}
    {left : Nat} (I : SInv G0 p G (top :: rest))
    (hleft : left = (bset G.eb top.cand).card)
    (hst : top.startAt < (G0.V p.r).N → top.startAt ∈ bset G.eb top.cand)
    (hq1 : p.L ≤ q.states) (hq2 : p.L ≤ q.toRemove) {y : (Graph × SState × Nat) ⊕ ForExit}
    (h : stackFor p.r (G0.V p.r) (p.req G0) (rest.length + 1) (G, top, left) = .ok y) :
    stackForA grow p.r (G0.V p.r) (p.req G0) (rest.length + 1) (rest.length + 1)
      ((G, top, left), q) = .ok (y.map (fun s => (s, q)) (ForExit.lift q)) := by
  unfold stackFor at h
  unfold stackForA
  dsimp only at h ⊢
  by_cases hj : top.startAt < (G0.V p.r).N
  swap
  · rw [if_neg hj] at h ⊢
    cases h
    rfl
  rw [if_pos hj] at h ⊢
  obtain ⟨m1, sa, rm, pot, a1, a2, a3, a4, a5, a6, a7, a8, a9⟩ := stackFor_scan g I hleft hst hj
  rw [a1, ok_bind] at h ⊢
  rw [a2, ok_bind] at h ⊢
  rw [a3, ok_bind] at h ⊢
  rw [a4, ok_bind] at h ⊢
  rw [a5, ok_bind] at h
  rw [stackScanA_eq a5 (by omega), ok_bind]
  dsimp only at h ⊢
  split at h
  · rename_i hp
    rw [if_pos hp]
    split at h
    · rename_i hz
      rw [if_pos hz]
      obtain ⟨b1, c1, h⟩ := bind_eq_ok.1 h
      rw [c1, ok_bind]
      obtain ⟨b2, c2, h⟩ := bind_eq_ok.1 h
      rw [c2, ok_bind]
      obtain ⟨b3, c3, h⟩ := bind_eq_ok.1 h
      rw [c3, ok_bind]
      cases h
      rfl
    · rename_i hz
      rw [if_neg hz]
      obtain ⟨b1, c1, h⟩ := bind_eq_ok.1 h
      rw [c1, ok_bind]
      obtain ⟨b2, c2, h⟩ := bind_eq_ok.1 h
      rw [c2, ok_bind]
      obtain ⟨b3, c3, h⟩ := bind_eq_ok.1 h
      rw [c3, ok_bind]
      unfold Vecs.pushState
      rw [if_pos (by omega)]
      cases h
      rfl
  · rename_i hp
    rw [if_neg hp]
    cases h
    rfl

/-- With room for `p.L` entries the `while` loop asks for nothing. -/
theorem stackBodyA_eq (g : p.Good G0) {Q : Nat → Prop} {s : Graph × List SState × Nat}
    (I : WInv G0 p Q s) (hq1 : p.L ≤ q.states) (hq2 : p.L ≤ q.toRemove)
    {y : (Graph × List SState × Nat) ⊕ (Graph × List SState)}
    (h : stackBody p.r (G0.V p.r) (p.req G0) s = .ok y) :
    stackBodyA grow p.r (G0.V p.r) (p.req G0) (s, q) =
      .ok (y.map (fun s => (s, q)) (fun r => (r.1, some (r.2, q)))) := by
  obtain ⟨G, states, cs⟩ := s
  obtain ⟨I, hcs, hQ⟩ := I
  simp only at I hcs hQ
  unfold stackBody at h
  unfold stackBodyA
  dsimp only at h ⊢
  cases states with
  | nil => cases h; rfl
  | cons top rest =>
    dsimp only at h ⊢
    by_cases hlim : G.curMax ≥ G.limit
    · rw [if_pos hlim] at h ⊢
      cases h; rfl
    rw [if_neg hlim] at h ⊢
    have w := g.wf
    have hNpos := N_pos w g.hr
    have hlv := I.lv
    unfold Lv at hlv
    obtain ⟨l1, l2, l3, l4, l5, l6, l7, l8, l9, l10, l11⟩ := hlv
    have hreqd : p.req G0 = dlen (G0.V p.r).N := rfl
    have hoff : top.cand.off = candOff G0 p rest.length := by rw [l2]
    have hclen : top.cand.len = (G0.V p.r).N := by rw [l2]
    have hce := candOff_end g rest.length
    have hlen1 : (rest.length + 2) * p.req G0 ≤ (p.L + 2) * p.req G0 :=
      Nat.mul_le_mul_right _ (by omega)
    have hroom := g.room
    have hebl := I.upd.frame.ebl
    have hin : top.cand.off + dlen top.cand.len ≤ G.eb.length := by
      rw [hoff, hclen]; omega
    rw [top.cand.count_pad G.eb (by omega) hin l8, ok_bind] at h ⊢
    dsimp only at h ⊢
    obtain ⟨sa, n1, n2, n3, n4, n5⟩ := top.cand.next_spec G.eb top.startAt hin l8
      (by rw [hclen]; exact l7)
    rw [n1, ok_bind] at h ⊢
    rw [hclen] at n3 n4
    have I1 : SInv G0 p G ({ top with startAt := sa } :: rest) := by
      refine ⟨I.upd, I.sc, ?_, I.res, I.zero, I.rt⟩
      unfold Lv
      refine ⟨l1, l2, l3, l4, l5, l6, n3, l8, ?_, l10, l11⟩
      intro c hc
      have h := l9 c hc
      refine ⟨n5 c hc h.1, h.2.1, ?_⟩
      intro t ht
      rcases List.mem_cons.1 ht with ht | ht
      · rw [ht]; exact h.2.2 top (by simp)
      · exact h.2.2 t (by simp [ht])
    have hcs' : cs = rest.length + 1 := by simpa using hcs
    subst hcs'
    obtain ⟨e, h1, h2⟩ := bind_eq_ok.1 h
    rw [loop_carry (q := q) (out := ForExit.lift q)
      (f := stackFor p.r (G0.V p.r) (p.req G0) (rest.length + 1))
      (fun (s : Graph × SState × Nat) => SInv G0 p s.1 (s.2.1 :: rest) ∧
        s.2.2 = (bset s.1.eb s.2.1.cand).card ∧
        (s.2.1.startAt < (G0.V p.r).N → s.2.1.startAt ∈ bset s.1.eb s.2.1.cand))
      (by
        rintro ⟨G1, top1, left1⟩ s' ⟨a1, a2, a3⟩ hf
        refine ⟨stackForA_eq g a1 a2 a3 hq1 hq2 hf, ?_⟩
        rcases stackFor_spec g a1 a2 a3 with
          ⟨G', top', left', b1, b2, b3, b4, b5, b6, b7, b8⟩ |
          ⟨G', top', new, b1, b2, b3, b4, b5⟩ | ⟨b1, b2⟩
        · rw [b1] at hf; cases hf; exact ⟨b2, b3, b4⟩
        · rw [b1] at hf; cases hf
        · rw [b1] at hf; cases hf)
      (by
        rintro ⟨G1, top1, left1⟩ r ⟨a1, a2, a3⟩ hf
        exact stackForA_eq g a1 a2 a3 hq1 hq2 hf)
      _ _ _ ⟨I1, rfl, n4⟩ h1, ok_bind]
    cases e with
    | pushed G' top' new => cases h2; rfl
    | done G' top' j =>
      dsimp only [ForExit.lift] at h2 ⊢
      split at h2
      · rename_i hj
        rw [if_pos hj]
        obtain ⟨b1, c1, h2⟩ := bind_eq_ok.1 h2
        rw [c1, ok_bind]
        obtain ⟨b2, c2, h2⟩ := bind_eq_ok.1 h2
        rw [c2, ok_bind]
        cases h2
        rfl
      · rename_i hj
        rw [if_neg hj]
        cases h2
        rfl

/-- With room for the potential of the root, a rooted search asks for nothing. -/
theorem stackVertexA_eq {G : Graph} (R : ReadyS G) {r : Nat} (hr : r < G.nVert)
    (hq1 : ∀ v, v < G.nVert → (G.rootCand v).card + 1 ≤ q.states)
    (hq2 : ∀ v, v < G.nVert → (G.rootCand v).card + 1 ≤ q.toRemove)
    {G' : Graph} (h : G.stackVertex r = .ok G') :
    G.stackVertexA grow r q = .ok (G', some q) := by
  have w := R.wf
  obtain ⟨L, hL, hroom⟩ := R.room
  have hmax := dlen_mono (w.maxd r hr)
  have hL0 := hL r hr
  have hrm : ((G.rootCand r).card + 1 + 2) * dlen (G.V r).N ≤ (L + 2) * dlen G.maxDeg :=
    Nat.mul_le_mul (by omega) hmax
  obtain ⟨p, G1, G2, x, eb, rfl, p2, p3, g, r1, r2, r3, I, r4, r5, r6, _, _⟩ :=
    root_spec w hr R.bot (Nat.le_refl _) (by omega) R.zero (R.pad r hr)
  unfold stackVertex at h
  unfold stackVertexA
  rw [vtx_ok w hr, ok_bind] at h ⊢
  dsimp only at h ⊢
  rw [r1, ok_bind] at h ⊢
  dsimp only at h ⊢
  rw [r2, ok_bind] at h ⊢
  dsimp only at h ⊢
  subst r3
  have hq1' := hq1 p.r hr
  have hq2' := hq2 p.r hr
  split at h
  · rename_i hp
    rw [if_pos hp, h]
    rfl
  · rename_i hp
    rw [if_neg hp]
    unfold Vecs.pushState
    rw [if_pos (by omega)]
    dsimp only
    obtain ⟨⟨G3, states⟩, h1, h2⟩ := bind_eq_ok.1 h
    rw [loop_carry (q := q) (out := fun r => (r.1, some (r.2, q)))
      (f := stackBody p.r (G.V p.r) (dlen (G.V p.r).N)) (WInv G p fun _ => False)
      (by
        intro s s' hI hf
        refine ⟨stackBodyA_eq g hI (by omega) (by omega) hf, ?_⟩
        rcases stackBody_spec g hI with ⟨s1, b1, b2, _⟩ | ⟨r1, b1, _⟩
        · rw [b1] at hf; cases hf; exact b2
        · rw [b1] at hf; cases hf)
      (by
        intro s r hI hf
        exact stackBodyA_eq g hI (by omega) (by omega) hf)
      _ _ _ ⟨I, rfl, fun T hT => hT.elim⟩ h1, ok_bind]
    dsimp only at h2 ⊢
    split at h2
    · rename_i he
      rw [if_pos he]
      rw [ok_bind] at h2 ⊢
      rw [h2]
      rfl
    · rename_i he
      rw [if_neg he]
      obtain ⟨G4, h3, h4⟩ := bind_eq_ok.1 h2
      rw [h3, ok_bind, h4]
      rfl

/-- Room for every rooted search: the limit is not below the potential of any root. -/
def Lim (G : Graph) : Prop := ∀ v, v < G.nVert → (G.rootCand v).card + 1 ≤ G.limit

theorem Lim.frame {G G' : Graph} (h : Lim G) (F : Frame G G') (hl : G.limit ≤ G'.limit) :
    Lim G' := by
  intro v hv
  rw [F.nVert] at hv
  rw [F.rootCand]
  exact Nat.le_trans (h v hv) hl

theorem _root_.CM.Vecs.reserve_spec {q q' : Vecs} {n : Nat} (h : q.reserve n = (q', true)) :
    n ≤ q'.states ∧ n ≤ q'.toRemove := by
  unfold Vecs.reserve at h
  split at h
  · cases h
  · rename_i q1 h1
    split at h
    · cases h
    · rename_i q2 h2
      cases h
      have k1 : n ≤ q1.states := by
        split at h1
        · cases h1; assumption
        · cases hr : q.heap.request with
          | none => rw [hr] at h1; cases h1
          | some x => rw [hr] at h1; cases h1; exact Nat.le_refl _
      split at h2
      · cases h2; exact ⟨k1, by assumption⟩
      · cases hr : q1.heap.request with
        | none => rw [hr] at h2; cases h2
        | some x => rw [hr] at h2; cases h2; exact ⟨k1, Nat.le_refl _⟩

theorem _root_.CM.Vecs.reserve_none {q : Vecs} (h : q.heap = none) (n : Nat) :
    ∃ q', q.reserve n = (q', true) ∧ q'.heap = none := by
  obtain ⟨a, b, c⟩ := q
  dsimp only at h
  subst h
  unfold Vecs.reserve
  dsimp only [Heap.request]
  by_cases h1 : n ≤ a <;> by_cases h2 : n ≤ b <;> simp [h1, h2]

theorem forN_carry {σ τ : Type} {f : Nat → σ → M σ} {g : Nat → τ → M τ} (l : σ → τ)
    (I : σ → Prop) :
    ∀ (n lo : Nat) (s r : σ),
      (∀ i s s', lo ≤ i → i < lo + n → I s → f i s = .ok s' → g i (l s) = .ok (l s') ∧ I s') →
      I s → forN n lo f s = .ok r → forN n lo g (l s) = .ok (l r) := by
  intro n
  induction n with
  | zero => intro lo s r _ _ h; cases h; rfl
  | succ n ih =>
    intro lo s r hs hI h
    unfold forN at h ⊢
    cases hf : f lo s with
    | error e => rw [hf] at h; cases h
    | ok s' =>
      rw [hf] at h
      obtain ⟨a, b⟩ := hs lo s s' (Nat.le_refl _) (by omega) hI hf
      rw [a]
      exact ih (lo + 1) s' r (fun i s s' h1 h2 => hs i s s' (by omega) (by omega)) b h

/-- dfs_stack.cpp:25-40 once the vectors are reserved: no more requests. -/
theorem stackGraphA_run {b : Nat} {G G' : Graph} {i : Nat} (h : OkAt b G) (hL : Lim G) {hp : Heap}
    {q : Vecs} (hc : Vecs.reserve ⟨0, 0, hp⟩ G.limit = (q, true))
    (hr : G.stackGraph = .ok (G', i)) :
    G.stackGraphA grow hp = .ok (G', some (i, q.heap)) := by
  unfold stackGraphA
  rw [hc]
  obtain ⟨k1, k2⟩ := Vecs.reserve_spec hc
  dsimp only
  unfold stackGraph at hr
  obtain ⟨G1, e1, hr⟩ := bind_eq_ok.1 hr
  obtain ⟨G2, e2, hr⟩ := bind_eq_ok.1 hr
  cases hr
  have q1 : ∀ {X : Graph}, Lim X → X.limit = G.limit →
      ∀ v, v < X.nVert → (X.rootCand v).card + 1 ≤ q.states := by
    intro X hX hx v hv
    have := hX v hv
    omega
  have q2 : ∀ {X : Graph}, Lim X → X.limit = G.limit →
      ∀ v, v < X.nVert → (X.rootCand v).card + 1 ≤ q.toRemove := by
    intro X hX hx v hv
    have := hX v hv
    omega
  rw [stackVertexA_eq h.ready h.loc (q1 hL rfl) (q2 hL rfl) e1, ok_bind]
  obtain ⟨X, f1, f2, f3⟩ := stackVertex_at h.ready h.loc
  rw [e1] at f1
  cases f1
  obtain ⟨o1, i1⟩ := f2.okAt h h.loc
  unfold forRange at e2 ⊢
  dsimp only
  rw [forN_carry (l := fun X => (X, some q)) (f := fun i G => do
      let V ← G.vtx i
      if V.mcs ≤ G.curMax ∨ G.curMax ≥ G.limit then .ok G
      else G.stackVertex i)
    (fun X => OkAt b X ∧ Frame G1 X ∧ Lim X ∧ X.limit = G.limit) _ _ _ _
    (by
      rintro k X X' _ hk ⟨c1, c2, c3, c4⟩ hf
      have hkX : k < X.nVert := by rw [c2.nVert]; omega
      unfold stackStepA
      dsimp only at hf ⊢
      rw [vtx_ok c1.wf hkX, ok_bind] at hf ⊢
      split at hf
      · rename_i hx
        rw [if_pos hx]
        cases hf
        exact ⟨rfl, c1, c2, c3, c4⟩
      · rename_i hx
        rw [if_neg hx]
        refine ⟨stackVertexA_eq c1.ready hkX (q1 c3 c4) (q2 c3 c4) hf, ?_⟩
        obtain ⟨Y, d1, d2, d3⟩ := stackVertex_at c1.ready hkX
        rw [hf] at d1
        cases d1
        obtain ⟨o2, i2⟩ := d2.okAt c1 hkX
        exact ⟨o2, c2.trans i2.frame, c3.frame i2.frame (Nat.le_of_eq i2.lim.symm),
          i2.lim.trans c4⟩)
    ⟨o1, Frame.refl _, hL.frame i1.frame (Nat.le_of_eq i1.lim.symm), i1.lim⟩ e2, ok_bind]

/-- dfs_stack.cpp:25-40: refused at once, or as ever. -/
theorem stackGraphA_eq {b : Nat} {G G' : Graph} {i : Nat} (h : OkAt b G) (hL : Lim G) (hp : Heap)
    (hr : G.stackGraph = .ok (G', i)) :
    (hp ≠ none ∧ G.stackGraphA grow hp = .ok (G, none)) ∨
    ∃ hp', (hp = none → hp' = none) ∧ G.stackGraphA grow hp = .ok (G', some (i, hp')) := by
  unfold stackGraphA
  cases hc : Vecs.reserve ⟨0, 0, hp⟩ G.limit with
  | mk q ok =>
    have hnone : hp = none → ok = true ∧ q.heap = none := by
      intro h0
      obtain ⟨q', e1, e2⟩ := Vecs.reserve_none (q := ⟨0, 0, hp⟩) h0 G.limit
      rw [hc] at e1
      cases e1
      exact ⟨rfl, e2⟩
    cases ok with
    | false => exact Or.inl ⟨fun h0 => by simpa using (hnone h0).1, rfl⟩
    | true =>
      right
      exact ⟨_, fun h0 => (hnone h0).2, by
        rw [← stackGraphA_run (grow := grow) h hL hc hr]; unfold stackGraphA; rw [hc]⟩

/-- clique.cpp:15-34: refused before the heuristic, refused before the search, or as ever. -/
theorem findMaxA_eq {srt : List VData → List VData} (hsrt : ∀ l, (srt l).Perm l) {G : Graph}
    (h : Ok G) (hL : Lim G) (sv : Nat) (heur dfs : Bool) (tl : TimeLimit) (hp : Heap) :
    (hp ≠ none ∧ G.findMaxCliquesA grow srt sv heur dfs tl hp = .ok (G, none)) ∨
    (hp ≠ none ∧ ∃ G', G.findMaxCliquesA grow srt sv heur dfs tl hp = .ok (G', none) ∧
      G.findMaxCliques srt sv heur false tl = .ok (G', sv)) ∨
    ∃ G' i hp', (hp = none → hp' = none) ∧
      G.findMaxCliquesA grow srt sv heur dfs tl hp = .ok (G', some (i, hp')) ∧
      G.findMaxCliques srt sv heur dfs tl = .ok (G', i) := by
  have key : (hp ≠ none ∧
        (if heur = true then G.heurGraphA srt hp else .ok (G, some hp)) = .ok (G, none)) ∨
      ∃ G1 hp1, (hp = none → hp1 = none) ∧ (if heur = true then G.heurGraphA srt hp else .ok (G, some hp)) =
          .ok (G1, some hp1) ∧
        (if heur = true then G.heurGraph srt else .ok G) = .ok G1 ∧ Ok G1 ∧ Lim G1 := by
    cases heur with
    | false => exact Or.inr ⟨G, hp, id, rfl, rfl, h, hL⟩
    | true =>
      simp only [if_true]
      unfold heurGraphA
      have hnone : hp = none → (if G.maxDeg = 0 then some hp else hp.request) = some none := by
        rintro rfl
        simp [Heap.request]
      cases hx : (if G.maxDeg = 0 then some hp else hp.request) with
      | none => exact Or.inl ⟨fun h0 => by rw [hnone h0] at hx; (cases hx), rfl⟩
      | some hp1 =>
        right
        obtain ⟨G1, h1, h2, h3, h4⟩ := heurGraph_spec hsrt h
        dsimp only
        rw [h1]
        exact ⟨G1, hp1, fun h0 => by rw [hnone h0] at hx; cases hx; rfl, rfl, rfl, h2, hL.frame h3.frame (Nat.le_of_eq h3.lim.symm)⟩
  unfold findMaxCliquesA findMaxCliques
  dsimp only
  rw [← ite_bind, ← ite_bind]
  rcases key with ⟨k0, k⟩ | ⟨G1, hp1, k0, k1, k2, k3, k4⟩
  · left; rw [k]; exact ⟨k0, rfl⟩
  · right
    rw [k1, k2, ok_bind, ok_bind]
    cases dfs with
    | false => exact Or.inr ⟨G1, sv, hp1, k0, rfl, rfl⟩
    | true =>
      cases tl with
      | none =>
        simp only [if_true]
        obtain ⟨G2, b1, _⟩ := stackGraph_spec k3
        rcases stackGraphA_eq (grow := grow) k3.at k4 hp1 b1 with ⟨e0, e⟩ | ⟨hp2, e0, e⟩
        · exact Or.inl ⟨fun h0 => e0 (k0 h0), G1, e, rfl⟩
        · exact Or.inr ⟨G2, _, hp2, fun h0 => e0 (k0 h0), e, b1⟩
      | some t =>
        right
        obtain ⟨G2, i, b1, _⟩ := recGraph_spec k3 t sv
        simp only [if_true]
        refine ⟨G2, i, hp1, k0, ?_, b1⟩
        rw [b1]
        rfl

/-! ### The iterator -/

/-- The scan of the iterator needs as much room in `to_remove` as it fills. -/
theorem enumScanA_eq {V U : Vtx} {cand : GBits} {eb : Mem} {left cs k k0 pot0 : Nat}
    {rm : List Nat} {pot : Nat} (h : G.enumScan V U cand eb left cs k k0 pot0 = .ok (rm, pot))
    (hrm : rm.length ≤ q.toRemove) :
    G.enumScanA grow V U cand eb left cs k k0 pot0 q = .ok (some (rm, pot, q)) := by
  unfold enumScan at h
  unfold enumScanA
  refine (loop_carry_back (q := q) (out := fun r => some (r.1, r.2, q))
    (fun s => s.2.2.1.length ≤ q.toRemove) (fun r => r.1.length ≤ q.toRemove) ?_ ?_ _ _ _
    (by exact hrm) h).1
  · rintro ⟨k, start, rm, pot⟩ ⟨k', start', rm', pot'⟩ hI hf
    dsimp only at hI hf ⊢
    split at hf
    · rename_i hc
      rw [if_pos hc]
      obtain ⟨t, e0, hf⟩ := bind_eq_ok.1 hf
      rw [e0, ok_bind]
      cases t with
      | false => cases hf; exact ⟨rfl, hI⟩
      | true =>
        simp only [if_true] at hf ⊢
        obtain ⟨val, e1, hf⟩ := bind_eq_ok.1 hf
        rw [e1, ok_bind]
        obtain ⟨⟨f, ans⟩, e2, hf⟩ := bind_eq_ok.1 hf
        rw [e2, ok_bind]
        dsimp only at hf ⊢
        cases hf
        cases f with
        | true =>
          simp only [if_true] at hI ⊢
          exact ⟨trivial, hI⟩
        | false =>
          simp only [Bool.false_eq_true, if_false, List.length_append, List.length_singleton] at hI ⊢
          unfold Vecs.pushRemove
          rw [if_pos (by omega)]
          exact ⟨rfl, by omega⟩
    · cases hf
  · rintro ⟨k, start, rm, pot⟩ r hP hf
    dsimp only at hf ⊢
    split at hf
    · obtain ⟨t, e0, hf⟩ := bind_eq_ok.1 hf
      cases t with
      | false => cases hf
      | true =>
        simp only [if_true] at hf
        obtain ⟨val, e1, hf⟩ := bind_eq_ok.1 hf
        obtain ⟨⟨f, ans⟩, e2, hf⟩ := bind_eq_ok.1 hf
        cases hf
    · rename_i hc
      rw [if_neg hc]
      cases hf
      exact ⟨rfl, hP⟩

/-- `enumFor` without a refusal. -/
def EnumExit.lift (q : Vecs) : EnumExit → EnumExitA
  | .found G top => .found G top q
  | .pushed G top new => .pushed G top new q
  | .done G top => .done G top q

/-- The scan inside `enumFor` and how much it removes. -/
theorem enumFor_scan (g : p.Good G0) {Q : Nat → Prop} {G : Graph} {top : SState}
    {rest : List SState} {left j k : Nat} (I : EI G0 p Q G (top :: rest))
    (hleft : left = (bset G.eb top.cand).card) (hj : j < (G0.V p.r).N)
    (hst : ∀ c ∈ bset G.eb top.cand, j ≤ c) (hjC : j ∈ bset G.eb top.cand) :
    ∃ m1 rm pot, top.cand.reset G.eb j = .ok m1 ∧
      ({ G with eb := m1 } : Graph).nbr (G0.V p.r) j = .ok (G0.e p.r j) ∧
      ({ G with eb := m1 } : Graph).vtx (G0.e p.r j) =
        .ok (({ G with eb := m1 } : Graph).V (G0.e p.r j)) ∧
      ({ G with eb := m1 } : Graph).enumScan (G0.V p.r)
        (({ G with eb := m1 } : Graph).V (G0.e p.r j)) top.cand m1 (usub left 1)
        (rest.length + 1) k (j + 1) (usub left 1 + 1 + (rest.length + 1)) = .ok (rm, pot) ∧
      rm.length ≤ left - 1 ∧ rest.length + 1 + left ≤ p.L := by
  have w := g.wf
  have hlv := I.lv
  unfold Lv at hlv
  obtain ⟨l1, l2, l3, l4, l5, l6, l7, l8, l9, l10, l11⟩ := hlv
  have hreqd : p.req G0 = dlen (G0.V p.r).N := rfl
  have hebl := I.upd.frame.ebl
  have hroom := g.room
  have hce := candOff_end g rest.length
  have hlen1 : (rest.length + 2) * p.req G0 ≤ (p.L + 2) * p.req G0 :=
    Nat.mul_le_mul_right _ (by omega)
  have hNlt := N_lt w g.hr
  have hoff : top.cand.off = candOff G0 p rest.length := by rw [l2]
  have hclen : top.cand.len = (G0.V p.r).N := by rw [l2]
  obtain ⟨m1, r1, r2, r3⟩ := top.cand.reset_spec G.eb j
    (by rw [hoff]; have := div_lt_dlen hj; omega)
  have hC1 : bset m1 top.cand = (bset G.eb top.cand).erase j := by
    ext x
    simp only [Finset.mem_erase, mem_bset, r3]
    simp only [Bool.and_eq_true, Bool.not_eq_true', decide_eq_false_iff_not]
    constructor
    · rintro ⟨h1, h2, h3⟩; exact ⟨by omega, h1, h3⟩
    · rintro ⟨h1, h2, h3⟩; exact ⟨h2, by omega, h3⟩
  have hin1 : top.cand.off + dlen top.cand.len ≤ m1.length := by
    rw [hoff, hclen, r2]; omega
  have hnbr : ({ G with eb := m1 } : Graph).nbr (G0.V p.r) j = .ok (G0.e p.r j) := by
    unfold nbr e
    rw [show ({ G with eb := m1 } : Graph).el = G0.el from I.upd.frame.el]
    exact rd_getD _ (by have := w.inEl p.r g.hr; omega)
  have F1 : Frame G0 ({ G with eb := m1 } : Graph) :=
    I.upd.frame.trans (Frame.mk' G m1 G.searchCur G.curMax G.curLoc r2)
  have w1 := F1.wf w
  have hvert := e_lt w g.hr hj
  have hvtx := vtx_ok w1 (v := G0.e p.r j) (by rw [F1.nVert]; exact hvert)
  have hcard : (bset m1 top.cand).card = left - 1 := by
    rw [hC1, Finset.card_erase_of_mem hjC, hleft]
  have hlpos : 0 < left := by rw [hleft]; exact Finset.card_pos.2 ⟨j, hjC⟩
  have hleftN : left ≤ (G0.V p.r).N := by
    rw [hleft]
    have : bset G.eb top.cand ⊆ Finset.range (G0.V p.r).N := by
      intro x hx; rw [Finset.mem_range, ← hclen]; exact (mem_bset.1 hx).1
    simpa using Finset.card_le_card this
  have hus : usub left 1 = left - 1 := usub_eq hlpos (by omega)
  have hgt1 : ∀ k ∈ bset m1 top.cand, j < k := by
    intro k hk
    rw [hC1, Finset.mem_erase] at hk
    have := hst k hk.2
    omega
  obtain ⟨rm, pot, s1, s2, s3, s4, s5, s6⟩ := enumScan_spec (G := { G with eb := m1 }) w1
    (r := p.r) (j := j) (by rw [F1.nVert]; exact g.hr) (by rw [F1.N]; exact hj)
    (cand := top.cand) (eb := m1) (left := left - 1) (cs := rest.length + 1) (required := k)
    (by rw [F1.N]; exact hclen) hin1 hgt1 hcard.symm
  rw [F1.e] at s1
  rw [enumScan_congr (V := ({ G with eb := m1 } : Graph).V p.r) (V' := G0.V p.r)
    (F1.N _) (F1.elo _)] at s1
  exact ⟨m1, rm, pot, r1, hnbr, hvtx, by rw [hus]; exact s1, s5, by rw [hleft]; exact l10⟩

/-- With room for `p.L` entries one round of the inner loop asks for nothing. -/
theorem enumForA_eq (g : p.Good G0) {Q : Nat → Prop} {G : Graph} {top : SState}
    {rest : List SState} {left j k : Nat} (I : EI G0 p Q G (top :: rest))
    (hleft : left = (bset G.eb top.cand).card) (hst : ∀ c ∈ bset G.eb top.cand, j ≤ c)
    (hq1 : k ≤ q.states) (hq2 : p.L ≤ q.toRemove)
    {y : (Graph × SState × Nat × Nat) ⊕ EnumExit}
    (h : enumFor (G0.V p.r) (p.req G0) (rest.length + 1) k (G, top, left, j) = .ok y) :
    enumForA grow (G0.V p.r) (p.req G0) (rest.length + 1) k (rest.length + 1)
      ((G, top, left, j), q) = .ok (y.map (fun s => (s, q)) (EnumExit.lift q)) := by
  unfold enumFor at h
  unfold enumForA
  dsimp only at h ⊢
  split at h
  swap
  · rename_i hj
    rw [if_neg hj]
    cases h
    rfl
  rename_i hj
  rw [if_pos hj]
  have w := g.wf
  have hlv := I.lv
  unfold Lv at hlv
  obtain ⟨l1, l2, l3, l4, l5, l6, l7, l8, l9, l10, l11⟩ := hlv
  have hreqd : p.req G0 = dlen (G0.V p.r).N := rfl
  have hebl := I.upd.frame.ebl
  have hroom := g.room
  have hce := candOff_end g rest.length
  have hlen1 : (rest.length + 2) * p.req G0 ≤ (p.L + 2) * p.req G0 :=
    Nat.mul_le_mul_right _ (by omega)
  have hoff : top.cand.off = candOff G0 p rest.length := by rw [l2]
  have hclen : top.cand.len = (G0.V p.r).N := by rw [l2]
  have ht := top.cand.test_spec G.eb j (by rw [hoff]; have := div_lt_dlen hj; omega)
  rw [ht, ok_bind] at h ⊢
  by_cases hb : bitAt G.eb (64 * top.cand.off + j) = true
  swap
  · rw [if_neg hb] at h ⊢
    cases h
    rfl
  rw [if_pos hb] at h ⊢
  have hjC : j ∈ bset G.eb top.cand := mem_bset.2 ⟨by rw [hclen]; exact hj, hb⟩
  obtain ⟨m1, rm, pot, a1, a3, a4, a5, a6, a9⟩ := enumFor_scan (k := k) g I hleft hj hst hjC
  rw [a1, ok_bind] at h ⊢
  rw [a3, ok_bind] at h ⊢
  rw [a4, ok_bind] at h ⊢
  rw [a5, ok_bind] at h
  rw [enumScanA_eq a5 (by omega), ok_bind]
  dsimp only at h ⊢
  split at h
  · rename_i hp
    rw [if_pos hp]
    split at h
    · rename_i hz
      rw [if_pos hz]
      obtain ⟨b1, c1, h⟩ := bind_eq_ok.1 h
      rw [c1, ok_bind]
      obtain ⟨b2, c2, h⟩ := bind_eq_ok.1 h
      rw [c2, ok_bind]
      obtain ⟨b3, c3, h⟩ := bind_eq_ok.1 h
      rw [c3, ok_bind]
      obtain ⟨b4, c4, h⟩ := bind_eq_ok.1 h
      rw [c4, ok_bind]
      cases h
      rfl
    · rename_i hz
      rw [if_neg hz]
      obtain ⟨b1, c1, h⟩ := bind_eq_ok.1 h
      rw [c1, ok_bind]
      obtain ⟨b2, c2, h⟩ := bind_eq_ok.1 h
      rw [c2, ok_bind]
      obtain ⟨b3, c3, h⟩ := bind_eq_ok.1 h
      rw [c3, ok_bind]
      unfold Vecs.pushState
      rw [if_pos (by omega)]
      cases h
      rfl
  · rename_i hp
    rw [if_neg hp]
    cases h
    rfl

theorem enumLoadA_eq {G G' : Graph} {E E' : Enum} {b : Bool} (hst : E.states = [])
    (hq : 0 < q.states) (h : G.enumLoad E = .ok (G', E', b)) :
    G.enumLoadA grow E q = .ok (G', E', q, some b) ∧ (b = false → E'.states = []) := by
  unfold enumLoad at h
  unfold enumLoadA
  obtain ⟨V, c1, h⟩ := bind_eq_ok.1 h
  rw [c1, ok_bind]
  dsimp only at h ⊢
  obtain ⟨r1, c2, h⟩ := bind_eq_ok.1 h
  rw [c2, ok_bind]
  obtain ⟨r2, c3, h⟩ := bind_eq_ok.1 h
  rw [c3, ok_bind]
  split at h
  · rename_i hp
    rw [if_pos hp]
    obtain ⟨r3, c4, h⟩ := bind_eq_ok.1 h
    rw [c4, ok_bind]
    cases h
    exact ⟨rfl, fun _ => hst⟩
  · rename_i hp
    rw [if_neg hp]
    unfold Vecs.pushState
    rw [hst, List.length_nil, if_pos hq]
    cases h
    refine ⟨?_, by simp⟩
    rw [hst]

theorem enumVertexA_eq {G G' : Graph} {E E' : Enum} (hst : E.states = [])
    (hq : 0 < q.states) (h : G.enumVertex E = .ok (G', E')) :
    G.enumVertexA grow E q = .ok (G', E', q, true) := by
  unfold enumVertex at h
  unfold enumVertexA
  refine loop_carry (q := q) (out := fun (r : Graph × Enum) => (r.1, r.2, q, true))
    (fun s => s.2.states = []) ?_ ?_ _ _ _ hst h
  · rintro ⟨X, F⟩ ⟨X', F'⟩ hI hf
    dsimp only at hI hf ⊢
    split at hf
    · rename_i hc
      rw [if_pos hc]
      obtain ⟨V, c1, hf⟩ := bind_eq_ok.1 hf
      rw [c1, ok_bind]
      split at hf
      · rename_i hm
        rw [if_pos hm]
        cases hf
        exact ⟨rfl, hI⟩
      · rename_i hm
        rw [if_neg hm]
        obtain ⟨⟨Y, D, b⟩, c2, hf⟩ := bind_eq_ok.1 hf
        obtain ⟨d1, d2⟩ := enumLoadA_eq (grow := grow) hI hq c2
        rw [d1, ok_bind]
        cases b with
        | true => cases hf
        | false =>
          cases hf
          exact ⟨rfl, d2 rfl⟩
    · cases hf
  · rintro ⟨X, F⟩ r hI hf
    dsimp only at hI hf ⊢
    split at hf
    · rename_i hc
      rw [if_pos hc]
      obtain ⟨V, c1, hf⟩ := bind_eq_ok.1 hf
      rw [c1, ok_bind]
      split at hf
      · cases hf
      · rename_i hm
        rw [if_neg hm]
        obtain ⟨⟨Y, D, b⟩, c2, hf⟩ := bind_eq_ok.1 hf
        obtain ⟨d1, d2⟩ := enumLoadA_eq (grow := grow) hI hq c2
        rw [d1, ok_bind]
        cases b with
        | true => cases hf; rfl
        | false => cases hf
    · rename_i hc
      rw [if_neg hc]
      cases hf
      rfl

theorem enumBodyA_eq {Gs G : Graph} {E : Enum} {Q : Nat → Prop} {b k : Nat} (hQ : Q k)
    (h2 : 2 ≤ k) (hI : EInv Q b Gs k G E) (hL : Lim Gs) (hq1 : Gs.limit ≤ q.states)
    (hq2 : Gs.limit ≤ q.toRemove) {y : (Graph × Enum) ⊕ (Graph × Enum × Nat)}
    (h : enumBody (G, E) = .ok y) :
    enumBodyA grow ((G, E), q) =
      .ok (y.map (fun s => (s, q)) (fun r => (r.1, r.2.1, q, some r.2.2))) := by
  obtain ⟨hk, hc, hI⟩ := hI
  unfold enumBody at h
  unfold enumBodyA
  dsimp only at h ⊢
  split at h
  swap
  · rename_i hn
    rw [if_neg hn]
    cases h
    rfl
  rename_i hn
  rw [if_pos hn]
  have hns : E.cur < Gs.nVert := by rw [← hc.frame.nVert]; exact hn
  have hL0 := hL E.cur hns
  rcases hI with ⟨a1, a2, G', a3, a4, a5⟩ | ⟨a1, a2, a3⟩ |
    ⟨a1, a2, a3, a4, a6, G0, p, ok, hc0, p1, p2, g, I, p3, p4⟩
  · rw [a1] at h ⊢
    dsimp only at h ⊢
    obtain ⟨X, c1, h⟩ := bind_eq_ok.1 h
    rw [c1, ok_bind]
    obtain ⟨⟨Y, D⟩, c2, h⟩ := bind_eq_ok.1 h
    rw [enumVertexA_eq a1 (by omega) c2, ok_bind]
    cases h
    rfl
  · omega
  · cases hst : E.states with
    | nil => exact absurd hst a1
    | cons top rest =>
    rw [hst] at h a2 a3 a4 I
    dsimp only at h ⊢
    have w := g.wf
    have hNpos := N_pos w g.hr
    have hlv := I.lv
    unfold Lv at hlv
    obtain ⟨l1, l2, l3, l4, l5, l6, l7, l8, l9, l10, l11⟩ := hlv
    have hreqd : p.req G0 = dlen (G0.V p.r).N := rfl
    have hoff : top.cand.off = candOff G0 p rest.length := by rw [l2]
    have hclen : top.cand.len = (G0.V p.r).N := by rw [l2]
    have hce := candOff_end g rest.length
    have hlen1 : (rest.length + 2) * p.req G0 ≤ (p.L + 2) * p.req G0 :=
      Nat.mul_le_mul_right _ (by omega)
    have hroom := g.room
    have hebl := I.upd.frame.ebl
    have hin : top.cand.off + dlen top.cand.len ≤ G.eb.length := by
      rw [hoff, hclen]; omega
    have wG := I.upd.frame.wf w
    rw [vtx_ok wG hn, ok_bind] at h ⊢
    rw [top.cand.count_pad G.eb (by omega) hin l8, ok_bind] at h ⊢
    dsimp only at h ⊢
    have hVG : G.V E.cur = G0.V p.r := by rw [I.upd.toEUpd.core.V, p1]
    rw [hVG, p3, hk, a2] at h ⊢
    simp only [List.length_cons] at h a3 ⊢
    have hk2 : rest.length + 2 ≤ k := by omega
    obtain ⟨e, h1, h⟩ := bind_eq_ok.1 h
    rw [loop_carry (q := q) (out := EnumExit.lift q)
      (f := enumFor (G0.V p.r) (p.req G0) (rest.length + 1) k)
      (fun (s : Graph × SState × Nat × Nat) => EI G0 p Q s.1 (s.2.1 :: rest) ∧
        s.2.2.1 = (bset s.1.eb s.2.1.cand).card ∧ s.2.2.2 ≤ (G0.V p.r).N ∧
        (∀ c ∈ bset s.1.eb s.2.1.cand, s.2.2.2 ≤ c))
      (by
        rintro ⟨G1, top1, left1, j1⟩ s' ⟨b1, b2, b3, b4⟩ hf
        refine ⟨enumForA_eq g b1 b2 b4 (by omega) (by omega) hf, ?_⟩
        rcases enumFor_spec g hQ b1 b2 hk2 b3 b4 with
          ⟨G', top', left', c1, c2, c3, c4, c5, c6, c7, c8⟩ |
          ⟨G', top', c1, c2, c3, c4, c5⟩ | ⟨G', top', new, c1, c2, c3, c4, c5⟩ | ⟨c1, c2⟩
        · rw [c1] at hf; cases hf; exact ⟨c3, c4, c2, c5⟩
        · rw [c1] at hf; cases hf
        · rw [c1] at hf; cases hf
        · rw [c1] at hf; cases hf)
      (by
        rintro ⟨G1, top1, left1, j1⟩ r ⟨b1, b2, b3, b4⟩ hf
        exact enumForA_eq g b1 b2 b4 (by omega) (by omega) hf)
      ((G0.V p.r).N + 2) ({ G with eb := G.eb }, top, (bset G.eb top.cand).card, top.startAt) e
      ⟨I, rfl, l7, fun c hc => (l9 c hc).1⟩ h1, ok_bind]
    cases e with
    | found G' top' => cases h; rfl
    | pushed G' top' new => cases h; rfl
    | done G' top' =>
      dsimp only [EnumExit.lift] at h ⊢
      obtain ⟨X, c1, h⟩ := bind_eq_ok.1 h
      rw [c1, ok_bind]
      obtain ⟨Y, c2, h⟩ := bind_eq_ok.1 h
      rw [c2, ok_bind]
      cases h
      rfl

/-- enumerate.cpp:88-229 for sizes above one, once the vectors are reserved: no more requests. -/
theorem enumGraphA_run {Gs G G' : Graph} {E E' : Enum} {Q : Nat → Prop} {b k v : Nat} (hQ : Q k)
    (h2 : 2 ≤ k) (hI : EInv Q b Gs k G E) (hL : Lim Gs) {q q1 : Vecs}
    (hc : q.reserve G.limit = (q1, true)) (h : G.enumGraph E = .ok (G', E', v)) :
    G.enumGraphA grow E q = .ok (G', E', q1, some v) := by
  unfold enumGraph at h
  unfold enumGraphA
  rw [if_neg (by rw [hI.1]; omega), if_neg (by rw [hI.1]; omega)] at h ⊢
  rw [hc]
  obtain ⟨k1, k2⟩ := Vecs.reserve_spec hc
  rw [hI.2.1.lim] at k1 k2
  dsimp only
  exact loop_carry (q := q1) (out := fun (r : Graph × Enum × Nat) => (r.1, r.2.1, q1, some r.2.2))
    (fun s => EInv Q b Gs k s.1 s.2)
    (by
      rintro ⟨X, F⟩ ⟨X', F'⟩ a1 hf
      refine ⟨enumBodyA_eq hQ h2 a1 hL k1 k2 hf, ?_⟩
      obtain ⟨z, b1, b2⟩ := enumBody_spec hQ h2 a1
      rw [hf] at b1
      cases b1
      exact b2.1)
    (by
      rintro ⟨X, F⟩ r a1 hf
      exact enumBodyA_eq hQ h2 a1 hL k1 k2 hf)
    _ _ _ hI h

/-- enumerate.cpp:88-229 for sizes above one: refused at once, or as ever. -/
theorem enumGraphA_eq {Gs G G' : Graph} {E E' : Enum} {Q : Nat → Prop} {b k v : Nat} (hQ : Q k)
    (h2 : 2 ≤ k) (hI : EInv Q b Gs k G E) (hL : Lim Gs) (q : Vecs)
    (h : G.enumGraph E = .ok (G', E', v)) :
    (q.heap ≠ none ∧ ∃ q', G.enumGraphA grow E q = .ok (G, E, q', none)) ∨
    ∃ q', (q.heap = none → q'.heap = none) ∧
      G.enumGraphA grow E q = .ok (G', E', q', some v) := by
  unfold enumGraph at h
  unfold enumGraphA
  rw [if_neg (by rw [hI.1]; omega), if_neg (by rw [hI.1]; omega)] at h ⊢
  cases hc : q.reserve G.limit with
  | mk q1 ok =>
    have hnone : q.heap = none → ok = true ∧ q1.heap = none := by
      intro h0
      obtain ⟨q', e1, e2⟩ := Vecs.reserve_none h0 G.limit
      rw [hc] at e1
      cases e1
      exact ⟨rfl, e2⟩
    cases ok with
    | false => exact Or.inl ⟨fun h0 => by simpa using (hnone h0).1, q1, rfl⟩
    | true =>
      right
      refine ⟨q1, fun h0 => (hnone h0).2, ?_⟩
      have := enumGraphA_run (grow := grow) hQ h2 hI hL hc (by
        unfold enumGraph
        rw [if_neg (by rw [hI.1]; omega), if_neg (by rw [hI.1]; omega)]
        exact h)
      unfold enumGraphA at this
      rw [if_neg (by rw [hI.1]; omega), if_neg (by rw [hI.1]; omega), hc] at this
      exact this

end Graph

open Graph

/-- A limit of `ub` leaves room for every rooted search. -/
theorem lim_of_degree {n : Nat} {S : SimpleGraph Nat} {G : Graph} (hO : Of G n S) (w : WF G)
    {ub : Nat} (hu : ∀ v (X : Finset Nat), (∀ u ∈ X, S.Adj v u) → X.card < ub)
    {v : Nat} (hv : v < G.nVert) : (G.rootCand v).card + 1 ≤ ub := by
  have hi : ∀ i ∈ G.rootCand v, i < (G.V v).N ∧ i ≠ (G.V v).spos := by
    intro i hi
    have := mem_rootCand.1 hi
    exact ⟨this.1, by omega⟩
  have hinj : Set.InjOn (G.e v) (G.rootCand v : Set Nat) := by
    intro a ha b hb hab
    exact e_inj w hv (hi a ha).1 (hi b hb).1 hab
  have := hu v ((G.rootCand v).image (G.e v)) (by
    intro u hu
    obtain ⟨i, h1, rfl⟩ := Finset.mem_image.1 hu
    have hvn : v ≤ n := by have := hO.nv; omega
    rcases (hO.adj v (G.e v i) hvn).1 (e_nadj (hi i h1).1) with h | h
    · exact absurd (e_inj w hv (hi i h1).1 (w.spos v hv) (h.trans (w.self v hv).symm)) (hi i h1).2
    · exact h)
  rw [Finset.card_image_of_injOn hinj] at this
  exact this

end CM
