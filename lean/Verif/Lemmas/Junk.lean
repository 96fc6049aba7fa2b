import Verif.Lemmas.AWVertex
import Verif.Lemmas.Moved

/-!
# What the memory reserved for `weights` contained does not matter: the stack search

Two runs over the same graph with arrays `ws` and `ws'` that agree on the root's candidates.
-/

namespace CM

open Graph

theorem loop_ok_congr {σ ρ : Type} (P : σ → Prop) {f g : σ → M (σ ⊕ ρ)}
    (he : ∀ s, P s → g s = f s) (hp : ∀ s s', P s → f s = .ok (.inl s') → P s') :
    ∀ (n : Nat) {s : σ}, P s → loop n g s = loop n f s := by
  intro n
  induction n with
  | zero => intro s _; rfl
  | succ n ih =>
    intro s hs
    unfold loop
    rw [he s hs]
    cases h : f s with
    | error e => rfl
    | ok x =>
      cases x with
      | inl s' => exact ih (hp s s' hs h)
      | inr r => rfl

theorem bind_ok_congr {α β : Type} {x : M α} {k l : α → M β} (h : ∀ a, x = .ok a → l a = k a) :
    (x >>= l) = (x >>= k) := by
  cases hx : x with
  | error e => rfl
  | ok a => exact h a hx

namespace NWG

namespace AW

set_option linter.unusedSectionVars false

variable {R : Type} [Zero R] [Add R] [Sub R] [NatCast R] [LT R] [LE R] [DecidableLT R]
  [DecidableLE R]

/-- The two arrays have the same length and agree on the positions `C`. -/
def Agr (C : Finset Nat) (ws ws' : List R) : Prop :=
  ws'.length = ws.length ∧ ∀ i ∈ C, ws'[i]? = ws[i]?

theorem Agr.rd {C : Finset Nat} {ws ws' : List R} (h : Agr C ws ws') {i : Nat} (hi : i ∈ C) :
    rd ws' i = rd ws i := by
  unfold CM.rd
  rw [h.2 i hi]

/-- Filling the candidate set writes the same values, whatever was there. -/
theorem fillCand_junk {H : NWG R} (r : Nat) (V : Vtx) (cand : GBits) (eb : Mem) {ws ws' : List R}
    (hl : ws'.length = ws.length) :
    Both (fun x y => y.1 = x.1 ∧ y.2.2 = x.2.2 ∧ y.2.1.length = x.2.1.length)
      (H.fillCand r V cand eb ws) (H.fillCand r V cand eb ws') := by
  unfold fillCand
  refine Both.bind (Q := fun x y => y.1 = x.1 ∧ y.2.2 = x.2.2 ∧ y.2.1.length = x.2.1.length) ?_ ?_
  · refine Both.forRange ⟨rfl, rfl, hl⟩ ?_
    rintro k ⟨a, u, c⟩ ⟨_, u', _⟩ ⟨rfl, rfl, h⟩
    refine Both.same fun v => Both.same fun dv => Both.same fun d => ?_
    refine Both.ite (Both.pure ⟨rfl, rfl, h⟩) ?_
    refine Both.same fun eb => Both.same fun w => ?_
    refine Both.bind (Q := fun x y => y.length = x.length) ?_ ?_
    · intro x y hx hy
      obtain ⟨_, rfl⟩ := wr_eq_ok.1 hx
      obtain ⟨_, rfl⟩ := wr_eq_ok.1 hy
      simpa using h
    · intro x y hxy
      exact Both.pure ⟨rfl, rfl, hxy⟩
  · rintro ⟨a, u, c⟩ ⟨_, u', _⟩ ⟨rfl, rfl, h⟩
    refine Both.forRange ⟨rfl, rfl, h⟩ ?_
    rintro k ⟨a, u, c⟩ ⟨_, u', _⟩ ⟨rfl, rfl, h⟩
    refine Both.same fun v => Both.same fun dv => Both.same fun d => ?_
    refine Both.ite (Both.pure ⟨rfl, rfl, h⟩) ?_
    refine Both.same fun eb => Both.same fun w => ?_
    refine Both.bind (Q := fun x y => y.length = x.length) ?_ ?_
    · intro x y hx hy
      obtain ⟨_, rfl⟩ := wr_eq_ok.1 hx
      obtain ⟨_, rfl⟩ := wr_eq_ok.1 hy
      simpa using h
    · intro x y hxy
      exact Both.pure ⟨rfl, rfl, hxy⟩

/-- Every candidate's weight is written. -/
theorem fillCand_val {H : NWG R} (wf : WF H.g) (l : Lens H) {r : Nat} (hr : r < H.g.nVert)
    {cand : GBits} {eb : Mem} {ws : List R} {q : Mem × List R × R}
    (h : H.fillCand r (H.g.V r) cand eb ws = .ok q) :
    ∀ i ∈ H.wCand r, q.2.1[i]? = some (H.we r i) := by
  have hsp := wf.spos r hr
  let P : Nat → Mem × List R × R → Prop :=
    fun j s => ∀ i ∈ H.wCand r, i < j → s.2.1[i]? = some (H.we r i)
  have step : ∀ k (s s' : Mem × List R × R), k < (H.g.V r).N → P k s →
      (do
        let eb ← cand.set s.1 k
        let w ← rd H.wt (H.g.e r k)
        let ws ← wr s.2.1 k w
        .ok (eb, ws, s.2.2 + w) : M (Mem × List R × R)) = .ok s' → P (k + 1) s' := by
    rintro k ⟨m, u, c⟩ s' hk hP hs
    obtain ⟨m', b1, hs⟩ := bind_eq_ok.1 hs
    rw [rd_wt l (e_lt wf hr hk), ok_bind] at hs
    obtain ⟨u', b2, hs⟩ := bind_eq_ok.1 hs
    cases hs
    obtain ⟨b3, rfl⟩ := wr_eq_ok.1 b2
    intro i hi hik
    dsimp only at b3 ⊢
    by_cases h : k = i
    · subst h
      rw [List.getElem?_set_self b3]
      rfl
    · rw [List.getElem?_set_ne h]
      exact hP i hi (by omega)
  unfold fillCand at h
  obtain ⟨s1, h1, h2⟩ := bind_eq_ok.1 h
  have p1 := forRange_inv P (Nat.zero_le _) (fun i _ hi => absurd hi (Nat.not_lt_zero _)) (by
    intro k s s' _ hk hP hs
    have hkN : k < (H.g.V r).N := by omega
    rw [nbr_ok wf hr hkN, ok_bind, rd_deg l (e_lt wf hr hkN), ok_bind, rd_deg l hr, ok_bind] at hs
    split at hs
    · rename_i hc
      cases hs
      intro i hi hik
      by_cases h : i = k
      · subst h
        rw [mem_wCand'] at hi
        rcases hi with ⟨_, h | h⟩
        · exact absurd hc h.2
        · omega
      · exact hP i hi (by omega)
    · exact step k s s' hkN hP hs) h1
  have p2 := forRange_inv P (by omega) (s := s1) (by
      intro i hi hik
      have := mem_wCand'.1 hi
      exact p1 i hi (by omega)) (by
    intro k s s' hlo hkN hP hs
    rw [nbr_ok wf hr hkN, ok_bind, rd_deg l (e_lt wf hr hkN), ok_bind, rd_deg l hr, ok_bind] at hs
    split at hs
    · rename_i hc
      cases hs
      intro i hi hik
      by_cases h : i = k
      · subst h
        rw [mem_wCand'] at hi
        rcases hi with ⟨_, h | h⟩
        · omega
        · exact absurd hc h.2
      · exact hP i hi (by omega)
    · exact step k s s' hkN hP hs) h2
  intro i hi
  exact p2 i hi (mem_wCand'.1 hi).1

theorem stackScan_junk {H : NWG R} {V U : Vtx} {cand : GBits} {eb : Mem} {ws ws' : List R}
    {left k0 : Nat} (hlen : cand.len = V.N) (hin : cand.off + dlen cand.len ≤ eb.length)
    (hpad : PadZero eb cand) (hk0 : k0 < V.N → k0 ∈ bset eb cand)
    (ha : ∀ k ∈ bset eb cand, rd ws' k = rd ws k) :
    H.stackScan V U cand eb ws' left k0 = H.stackScan V U cand eb ws left k0 := by
  unfold stackScan
  refine loop_ok_congr (fun s => s.1 < V.N → s.1 ∈ bset eb cand) ?_ ?_ _ hk0
  · rintro ⟨k, rm, left, pot⟩ hk
    dsimp only at hk ⊢
    split
    · rename_i hc
      rw [ha k (hk hc.1)]
    · rfl
  · rintro ⟨k, rm, left, pot⟩ s' hk hs
    dsimp only at hk hs
    have hn : ∀ k', cand.next eb (k + 1) = .ok k' → k < V.N → k' < V.N → k' ∈ bset eb cand := by
      intro k' h1 h2 h3
      obtain ⟨r, n1, _, _, n4, _⟩ := cand.next_spec eb (k + 1) hin hpad (by omega)
      rw [n1] at h1
      cases h1
      exact n4 (by omega)
    split at hs
    · rename_i hc
      obtain ⟨val, _, hs⟩ := bind_eq_ok.1 hs
      obtain ⟨fa, _, hs⟩ := bind_eq_ok.1 hs
      split at hs
      · obtain ⟨w, _, hs⟩ := bind_eq_ok.1 hs
        obtain ⟨k', h1, hs⟩ := bind_eq_ok.1 hs
        cases hs
        exact hn k' h1 hc.1
      · obtain ⟨k', h1, hs⟩ := bind_eq_ok.1 hs
        cases hs
        exact hn k' h1 hc.1
    · cases hs

variable {H0 : NWG R} {p : SPar}

theorem stackFor_junk (W : WGood H0 p) {H : NWG R} {top : WState R} {rest : List (WState R)}
    {ws ws' : List R} {cw : R} (ha : Agr (H0.wCand p.r) ws ws') (I : SInv H0 p H (top :: rest))
    (hst : top.startAt < (H0.g.V p.r).N → top.startAt ∈ bset H.g.eb top.cand) :
    stackFor p.r (H0.g.V p.r) (p.req H0.g) ws' cw (H, top) =
      stackFor p.r (H0.g.V p.r) (p.req H0.g) ws cw (H, top) := by
  have g := W.g
  have hlv := I.lv
  have hlenL := Lv_len W I.lv
  simp only [List.length_cons] at hlenL
  unfold Lv at hlv
  obtain ⟨l1, l2, l3, l4, l5, l6, l7, l8, l9, l10, l11⟩ := hlv
  have hreqd : p.req H0.g = dlen (H0.g.V p.r).N := rfl
  have hebl := I.upd.frame.frame.ebl
  have hroom := g.room
  have hce := candOff_end g rest.length
  have hlen1 : (rest.length + 2) * p.req H0.g ≤ (p.L + 2) * p.req H0.g :=
    Nat.mul_le_mul_right _ (by omega)
  unfold stackFor
  dsimp only
  by_cases hj : top.startAt < (H0.g.V p.r).N
  swap
  · rw [if_neg hj, if_neg hj]
  rw [if_pos hj, if_pos hj]
  have hjC := hst hj
  generalize hjdef : top.startAt = j at hj hjC
  have hoff : top.cand.off = candOff H0.g p rest.length := by rw [l2]
  have hclen : top.cand.len = (H0.g.V p.r).N := by rw [l2]
  obtain ⟨m1, r1, r2, r3⟩ := top.cand.reset_spec H.g.eb j
    (by rw [hoff]; have := div_lt_dlen hj; omega)
  rw [r1, ok_bind, ok_bind]
  have hpad1 : PadZero m1 top.cand := by
    intro i h1 h2; rw [r3, l8 i h1 h2]; simp
  have hC1 : bset m1 top.cand ⊆ bset H.g.eb top.cand := by
    intro x
    simp only [mem_bset, r3]
    simp only [Bool.and_eq_true]
    rintro ⟨h2, h1, h3⟩; exact ⟨h2, h3⟩
  have hin1 : top.cand.off + dlen top.cand.len ≤ m1.length := by
    rw [hoff, hclen, r2]; omega
  obtain ⟨sa, n1, n2, n3, n4, n5⟩ := top.cand.next_spec m1 (j + 1) hin1 hpad1
    (by rw [hclen]; omega)
  rw [n1, ok_bind, ok_bind, ha.rd (l9 j hjC).2.1,
    top.cand.count_pad m1 (by have := N_pos g.wf g.hr; omega) hin1 hpad1]
  refine bind_ok_congr fun wj _ => ?_
  rw [ok_bind, ok_bind]
  dsimp only
  refine bind_ok_congr fun vert _ => bind_ok_congr fun U _ => ?_
  rw [stackScan_junk hclen hin1 hpad1 (by rw [← hclen]; exact n4)
    (fun k hk => ha.rd (l9 k (hC1 hk)).2.1)]

/-- One iteration of the outer loop. -/
theorem stackBody_junk (W : WGood H0 p) {ws ws' : List R} (hwl : (H0.g.V p.r).N ≤ ws.length)
    (ha : Agr (H0.wCand p.r) ws ws')
    {H : NWG R} {st : List (WState R)} {cw cw' : R} (I : SInv H0 p H st) (hc : st ≠ [] → cw' = cw) :
    Both (fun x y => (∃ a b, x = .inl a ∧ y = .inl b ∧
        (SInv H0 p a.1 a.2.1 ∧ b.1 = a.1 ∧ b.2.1 = a.2.1 ∧ (a.2.1 ≠ [] → b.2.2 = a.2.2))) ∨
      ∃ c d, x = .inr c ∧ y = .inr d ∧ d = c)
      (stackBody p.r (H0.g.V p.r) (p.req H0.g) ws (H, st, cw))
      (stackBody p.r (H0.g.V p.r) (p.req H0.g) ws' (H, st, cw')) := by
  have spec := stackBody_spec W hwl (s := (H, st, cw)) I
  have main : Both (fun x y => (∃ a b, x = .inl a ∧ y = .inl b ∧
        (b.1 = a.1 ∧ b.2.1 = a.2.1 ∧ (a.2.1 ≠ [] → b.2.2 = a.2.2))) ∨
      ∃ c d, x = .inr c ∧ y = .inr d ∧ d = c)
      (stackBody p.r (H0.g.V p.r) (p.req H0.g) ws (H, st, cw))
      (stackBody p.r (H0.g.V p.r) (p.req H0.g) ws' (H, st, cw')) := by
    clear spec
    cases st with
    | nil => exact Both.pure (Or.inr ⟨_, _, rfl, rfl, rfl⟩)
    | cons top rest =>
      have hcw : cw' = cw := hc (by simp)
      subst hcw
      unfold stackBody
      dsimp only
      refine Both.ite (Both.pure (Or.inr ⟨_, _, rfl, rfl, rfl⟩)) ?_
      have g := W.g
      have hlv := I.lv
      have hlenL := Lv_len W I.lv
      simp only [List.length_cons] at hlenL
      unfold Lv at hlv
      obtain ⟨l1, l2, l3, l4, l5, l6, l7, l8, l9, l10, l11⟩ := hlv
      have hreqd : p.req H0.g = dlen (H0.g.V p.r).N := rfl
      have hoff : top.cand.off = candOff H0.g p rest.length := by rw [l2]
      have hclen : top.cand.len = (H0.g.V p.r).N := by rw [l2]
      have hce := candOff_end g rest.length
      have hlen1 : (rest.length + 2) * p.req H0.g ≤ (p.L + 2) * p.req H0.g :=
        Nat.mul_le_mul_right _ (by omega)
      have hroom := g.room
      have hebl := I.upd.frame.frame.ebl
      have hNpos := N_pos g.wf g.hr
      have hin : top.cand.off + dlen top.cand.len ≤ H.g.eb.length := by
        rw [hoff, hclen]; omega
      rw [top.cand.count_pad H.g.eb (by omega) hin l8, ok_bind, ok_bind]
      dsimp only
      obtain ⟨sa, n1, n2, n3, n4, n5⟩ := top.cand.next_spec H.g.eb top.startAt hin l8
        (by rw [hclen]; exact l7)
      rw [n1, ok_bind, ok_bind]
      rw [hclen] at n3 n4
      have I1 : SInv H0 p H ({ top with startAt := sa } :: rest) := by
        refine ⟨I.upd, I.sc, ?_, I.res, I.zero⟩
        unfold Lv
        refine ⟨l1, l2, l3, l4, l5, l6, n3, l8, ?_, l10, l11⟩
        intro c hc
        have h := l9 c hc
        refine ⟨n5 c hc h.1, h.2.1, h.2.2.1, ?_⟩
        intro t ht
        rcases List.mem_cons.1 ht with ht | ht
        · rw [ht]; exact h.2.2.2 top (by simp)
        · exact h.2.2.2 t (by simp [ht])
      let P : NWG R × WState R → Prop := fun s => SInv H0 p s.1 (s.2 :: rest) ∧
        (s.2.startAt < (H0.g.V p.r).N → s.2.startAt ∈ bset s.1.g.eb s.2.cand)
      have hP : ∀ s s', P s → stackFor p.r (H0.g.V p.r) (p.req H0.g) ws cw' s = .ok (.inl s') →
          P s' := by
        rintro ⟨H1, t1⟩ s' ⟨a1, a2⟩ hs
        rcases stackFor_spec W (cw := cw') hwl a1 a2 with
          ⟨H', top', b1, b2, b3, b4, b5, b6⟩ |
          ⟨H', top', new, cw', b1, b2, b4⟩ | ⟨b1, b2⟩
        · rw [b1] at hs; cases hs; exact ⟨b2, b4⟩
        · rw [b1] at hs; cases hs
        · rw [b1] at hs; cases hs
      have heq := loop_ok_congr P (g := stackFor p.r (H0.g.V p.r) (p.req H0.g) ws' cw')
        (fun s hs => stackFor_junk (H := s.1) (top := s.2) W ha hs.1 hs.2) hP
        ((H0.g.V p.r).N + 2) (s := ({ H with g := { H.g with eb := H.g.eb } }, { top with startAt := sa }))
        ⟨I1, n4⟩
      rw [heq]
      refine Both.bind (Q := fun x y => y = x ∧ ∀ H' t j, x = .done H' t j →
        SInv H0 p H' (t :: rest)) ?_ ?_
      · intro x y hx hy
        rw [hx] at hy
        cases hy
        refine ⟨rfl, loop_inv P (fun x => ∀ H' t j, x = .done H' t j →
          SInv H0 p H' (t :: rest)) hP ?_ ⟨I1, n4⟩ hx⟩
        rintro ⟨H1, t1⟩ r ⟨a1, a2⟩ hs
        rcases stackFor_spec W (cw := cw') hwl a1 a2 with
          ⟨H', top', b1, b2, b3, b4, b5, b6⟩ |
          ⟨H', top', new, cw', b1, b2, b4⟩ | ⟨b1, b2⟩
        · rw [b1] at hs; cases hs
        · rw [b1] at hs; cases hs; intro _ _ _ h; cases h
        · rw [b1] at hs; cases hs; intro _ _ _ h; cases h; exact a1
      · rintro _ x ⟨rfl, hd⟩
        cases x with
        | pushed H' t n c =>
          exact Both.pure (Or.inl ⟨_, _, rfl, rfl, rfl, rfl, fun _ => rfl⟩)
        | done H' t j =>
          dsimp only
          refine Both.ite ?_ (Both.pure (Or.inl ⟨_, _, rfl, rfl, rfl, rfl, fun _ => rfl⟩))
          refine Both.same fun g' => Both.same fun eb => ?_
          refine Both.bind (Q := fun x y => rest ≠ [] → y = x) ?_ ?_
          · intro x y hx hy hr
            have hl := (hd _ _ _ rfl).lv
            unfold Lv at hl
            rw [ha.rd (hl.2.2.2.2.2.2.2.2.2.1 hr), hx] at hy
            cases hy
            rfl
          · intro x y hxy
            refine Both.pure (Or.inl ⟨_, _, rfl, rfl, rfl, rfl, fun h => ?_⟩)
            dsimp only at h ⊢
            rw [hxy h]
  refine Both.mono main ?_
  rintro x y hx hy (⟨a, b, rfl, rfl, h⟩ | h)
  · refine Or.inl ⟨a, b, rfl, rfl, ?_, h⟩
    rcases spec with ⟨s', e1, e2, _⟩ | ⟨q, e1, _⟩
    · rw [e1] at hx
      cases hx
      exact e2
    · rw [e1] at hx
      cases hx
  · exact Or.inr h

/-- The search rooted at one vertex. -/
theorem stackVertex_junk {H : NWG R} (rdy : ReadyS H.g) (l : Lens H) {r : Nat} (hr : r < H.g.nVert)
    {ws ws' : List R} (hws : ws.length = H.g.maxDeg) (hws' : ws'.length = H.g.maxDeg) :
    Both (fun x y => y.1 = x.1 ∧ y.2.length = x.2.length) (stackVertex (H, ws) r)
      (stackVertex (H, ws') r) := by
  have w := rdy.wf
  obtain ⟨L, hL, hroom⟩ := rdy.room
  have hmax := dlen_mono (w.maxd r hr)
  have hmaxd := w.maxd r hr
  have hL0 := hL r hr
  have hrm : (L + 2) * dlen (H.g.V r).N ≤ (L + 2) * dlen H.g.maxDeg :=
    Nat.mul_le_mul_left _ hmax
  obtain ⟨p, G1, x, eb, u, c, rfl, p2, p3, W, hw'l, r1, r2, I, r4, r6, r5⟩ :=
    root_spec w l hr rdy.bot (fun S hS => isCl_card_le w hL hr hS) (by omega) (by omega) rdy.zero
      (rdy.pad r hr) (ws := ws) (by omega)
  obtain ⟨p', G1', x', eb', u', c', hp', _, _, _, hw'l', r1', r2', _⟩ :=
    root_spec w l hr rdy.bot (fun S hS => isCl_card_le w hL hr hS) (by omega) (by omega) rdy.zero
      (rdy.pad p.r hr) (ws := ws') (by omega)
  rw [r1] at r1'
  cases r1'
  obtain ⟨e1, e2, e3⟩ := fillCand_junk p.r (H.g.V p.r) x.cand G1.eb (hws'.trans hws.symm) _ _ r2 r2'
  dsimp only at e1 e2 e3
  rw [e1, e2] at r2'
  have F := (I c).upd.frame
  have hV : ({ H with g := { G1 with eb := eb } } : NWG R).g.V p.r = H.g.V p.r := F.V p.r
  have hval : ∀ {v : List R} {z : List R}, ({ H with g := G1 } : NWG R).fillCand p.r (H.g.V p.r)
      x.cand G1.eb z = .ok (eb, v, c) → ∀ i ∈ H.wCand p.r, v[i]? = some (H.we p.r i) := by
    intro v z hz i hi
    have := fillCand_val (H := { H with g := { G1 with eb := eb } }) (F.frame.wf w) (F.lens l)
      (r := p.r) (by rw [F.frame.nVert]; exact hr) (cand := x.cand) (eb := G1.eb) (ws := z)
      (q := (eb, v, c)) (by rw [hV]; exact hz) i (by rw [F.wCand]; exact hi)
    rw [F.we] at this
    exact this
  have hag : Agr (H.wCand p.r) u u' :=
    ⟨e3, fun i hi => (hval r2' i hi).trans (hval r2 i hi).symm⟩
  have hlu : (H.g.V p.r).N ≤ u.length := by omega
  unfold stackVertex
  dsimp only
  rw [vtx_ok w hr, ok_bind, ok_bind, r1, ok_bind, ok_bind]
  dsimp only
  rw [r2, r2', ok_bind, ok_bind]
  dsimp only
  refine Both.same fun wc => ?_
  refine Both.ite (Both.same fun g' => Both.pure ⟨rfl, e3⟩) ?_
  refine Both.bind (Q := fun x y => y = x) (Both.loop (P := fun a b => SInv H p a.1 a.2.1 ∧
    b.1 = a.1 ∧ b.2.1 = a.2.1 ∧ (a.2.1 ≠ [] → b.2.2 = a.2.2)) ?_ _
    ⟨I c, rfl, rfl, fun _ => rfl⟩) ?_
  · rintro ⟨A, st, cw⟩ ⟨_, _, cw'⟩ ⟨h1, rfl, rfl, h2⟩
    exact stackBody_junk W hlu hag h1 h2
  · rintro _ ⟨A, st⟩ rfl
    dsimp only
    cases st with
    | nil => exact Both.same (x := A.g.clearMemory _) fun g1 => Both.pure ⟨rfl, e3⟩
    | cons s st => exact Both.same fun g1 => Both.same fun g2 => Both.pure ⟨rfl, e3⟩

end AW

end NWG

end CM
