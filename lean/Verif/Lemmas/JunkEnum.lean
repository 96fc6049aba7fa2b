import Verif.Lemmas.Junk
import Verif.Lemmas.AWHeld

/-!
# What the memory reserved for `weights` contained does not matter: searches and iterators
-/

namespace CM

open Graph

namespace NWG

namespace AW

set_option linter.unusedSectionVars false

variable {R : Type} [Zero R] [Add R] [Sub R] [NatCast R] [LT R] [LE R] [DecidableLT R]
  [DecidableLE R]

variable {b : Nat} {H : NWG R}

/-! ## Searches -/

theorem stackGraph_junk (h : WOkAt b H) (junk junk' : Nat → R) :
    Both (fun x y => y = x) (H.stackGraph junk) (H.stackGraph junk') := by
  unfold stackGraph
  obtain ⟨H1, ws1, a1, aw, a2⟩ := stackVertex_spec h.ok.ready h.l h.loc
    (ws := (List.range H.g.maxDeg).map junk) (by simp)
  obtain ⟨o1, i1⟩ := a2.okAt h h.loc
  have hmd : H1.g.maxDeg = H.g.maxDeg := i1.frame.frame.maxDeg
  refine Both.bind (Q := fun A B => (B.1 = A.1 ∧ B.2.length = A.2.length) ∧ A = (H1, ws1))
    (Both.mono (stackVertex_junk h.ok.ready h.l h.loc (by simp) (by simp))
      fun A B hA _ hq => ⟨hq, ?_⟩) ?_
  · rw [a1] at hA; cases hA; rfl
  rintro _ ⟨_, ws2⟩ ⟨⟨rfl, hl⟩, rfl⟩
  dsimp only at hl ⊢
  refine Both.bind (Q := fun A B => B.1 = A.1)
    (Both.mono (Both.forRangeIn (P := fun X Y => (Y.1 = X.1 ∧ Y.2.length = X.2.length) ∧ WOkAt b X.1 ∧
        X.1.g.nVert = H1.g.nVert ∧ X.2.length = X.1.g.maxDeg)
      ⟨⟨rfl, hl⟩, o1, rfl, by rw [aw]; exact hmd.symm⟩ ?_) fun _ _ _ _ h => h.1.1) ?_
  · rintro i ⟨_, ws⟩ ⟨X, ws'⟩ _ hi ⟨⟨rfl, hl⟩, oX, hn, hw⟩
    dsimp only at oX hn hw hl ⊢
    refine Both.same fun m => ?_
    refine Both.ite (Both.pure ⟨⟨rfl, hl⟩, oX, hn, hw⟩) ?_
    have hiX : i < X.g.nVert := by rw [hn]; exact hi
    obtain ⟨Y, ws2, d1, d2, d3⟩ := stackVertex_spec oX.ok.ready oX.l hiX hw
    obtain ⟨o2, i2⟩ := d3.okAt oX hiX
    refine Both.mono (stackVertex_junk oX.ok.ready oX.l hiX hw (hl.trans hw))
      fun C D hC _ hq => ⟨hq, ?_⟩
    rw [d1] at hC
    cases hC
    exact ⟨o2, by rw [i2.frame.frame.nVert]; exact hn, by rw [d2]; exact i2.frame.frame.maxDeg.symm⟩
  · rintro ⟨X, ws⟩ ⟨_, ws'⟩ rfl
    exact Both.pure rfl

theorem findMax_junk {srt : List (WData R) → List (WData R)}
    (hsrt : ∀ l, (srt l).Perm l) (h : WOkAt b H) (junk junk' : Nat → R) (sv : Nat)
    (heur dfs : Bool) :
    Both (fun x y => y = x) (H.findMaxCliques srt junk sv heur dfs)
      (H.findMaxCliques srt junk' sv heur dfs) := by
  have key : ∀ X : NWG R, WOkAt b X → Both (fun x y => y = x)
      (if dfs then X.stackGraph junk else .ok (X, sv))
      (if dfs then X.stackGraph junk' else .ok (X, sv)) := by
    intro X oX
    exact Both.ite (stackGraph_junk oX junk junk') (Both.pure rfl)
  unfold findMaxCliques
  cases heur with
  | false =>
    simp only [Bool.false_eq_true, if_false]
    exact key H h
  | true =>
    simp only [if_true]
    obtain ⟨H1, h1, h2, _⟩ := heurGraph_at hsrt h
    rw [h1, ok_bind, ok_bind]
    exact key H1 h2

/-! ## The enumerator -/

theorem rootFill_junk (wf : WF H.g) (l : Lens H) {r q : Nat} (hr : r < H.g.nVert) {G1 : Graph}
    {x : SState} (hroot : H.g.rootState (H.g.V r) q = .ok (G1, x)) {ws ws' : List R}
    (hl : ws'.length = ws.length) :
    Both (fun a b => b.1 = a.1 ∧ b.2.2 = a.2.2 ∧ Agr (H.wCand r) a.2.1 b.2.1)
      (({ H with g := G1 } : NWG R).fillCand r (H.g.V r) x.cand G1.eb ws)
      (({ H with g := G1 } : NWG R).fillCand r (H.g.V r) x.cand G1.eb ws') := by
  have hG := rootState_core hroot
  have e : ∀ z, ({ H with g := G1 } : NWG R).fillCand r (H.g.V r) x.cand G1.eb z =
      H.fillCand r (H.g.V r) x.cand G1.eb z := by
    intro z
    generalize x.cand = c
    generalize hm : G1.eb = m
    rw [hG]
    rfl
  rw [e, e]
  refine Both.mono (fillCand_junk r _ _ _ hl) ?_
  rintro a c ha hc ⟨h1, h2, h3⟩
  exact ⟨h1, h2, h3, fun i hi => (fillCand_val wf l hr hc i hi).trans (fillCand_val wf l hr ha i hi).symm⟩

/-- Two enumerators that differ only in the unused part of `weights` (and, between two roots, in
`clique_weight`). -/
def JR (Hs : NWG R) (E E' : WEnum R) : Prop :=
  E' = { E with ws := E'.ws, cliqueWeight := E'.cliqueWeight } ∧ E'.ws.length = E.ws.length ∧
  (E.states ≠ [] → E'.cliqueWeight = E.cliqueWeight ∧ Agr (Hs.wCand E.cur) E.ws E'.ws)

theorem JR.mk' {Hs : NWG R} (E : WEnum R) {ws : List R} {cw : R} (hl : ws.length = E.ws.length)
    (h : E.states ≠ [] → cw = E.cliqueWeight ∧ Agr (Hs.wCand E.cur) E.ws ws) :
    JR Hs E { E with ws := ws, cliqueWeight := cw } := ⟨rfl, hl, h⟩

theorem enumScan_junk {V U : Vtx} {cand : GBits} {eb : Mem} {ws ws' : List R} {cw wj T : R}
    {k0 : Nat} {cp0 : R} (hlen : cand.len = V.N) (hin : cand.off + dlen cand.len ≤ eb.length)
    (ha : ∀ k ∈ bset eb cand, rd ws' k = rd ws k) :
    H.enumScan V U cand eb ws' cw wj T k0 cp0 = H.enumScan V U cand eb ws cw wj T k0 cp0 := by
  unfold enumScan
  refine loop_ok_congr (fun _ => True) ?_ (fun _ _ _ _ => trivial) _ trivial
  rintro ⟨k, rm, cp⟩ _
  dsimp only
  split
  · rename_i hc
    have hk : k < cand.len := by rw [hlen]; exact hc.1
    rw [cand.test_spec eb k (by have := div_lt_dlen hk; omega), ok_bind, ok_bind]
    split
    · rename_i ht
      rw [ha k (mem_bset.2 ⟨hk, ht⟩)]
    · rfl
  · rfl

variable {H0 : NWG R} {p : SPar}

theorem enumFor_junk (W : WGood H0 p) {top : WState R} {rest : List (WState R)}
    {ws ws' : List R} {cw T : R} {j : Nat} (ha : Agr (H0.wCand p.r) ws ws')
    (I : EI H0 p H (top :: rest)) :
    enumFor (H0.g.V p.r) (p.req H0.g) ws' cw T (H, top, j) =
      enumFor (H0.g.V p.r) (p.req H0.g) ws cw T (H, top, j) := by
  have g := W.g
  have hlv := I.lv
  have hlenL := Lv_len W I.lv
  simp only [List.length_cons] at hlenL
  unfold Lv at hlv
  obtain ⟨l1, l2, l3, l4, l5, l6, l7, l8, l9, l10, l11⟩ := hlv
  have hreqd : p.req H0.g = dlen (H0.g.V p.r).N := rfl
  have hebl := I.upd.frame.ebl
  have hroom := g.room
  have hce := candOff_end g rest.length
  have hlen1 : (rest.length + 2) * p.req H0.g ≤ (p.L + 2) * p.req H0.g :=
    Nat.mul_le_mul_right _ (by omega)
  have hoff : top.cand.off = candOff H0.g p rest.length := by rw [l2]
  have hclen : top.cand.len = (H0.g.V p.r).N := by rw [l2]
  unfold enumFor
  dsimp only
  by_cases hj : j < (H0.g.V p.r).N
  swap
  · rw [if_neg hj, if_neg hj]
  rw [if_pos hj, if_pos hj]
  rw [top.cand.test_spec H.g.eb j (by rw [hoff]; have := div_lt_dlen hj; omega), ok_bind, ok_bind]
  split
  swap
  · rfl
  rename_i ht
  have hjC : j ∈ bset H.g.eb top.cand := mem_bset.2 ⟨by rw [hclen]; exact hj, ht⟩
  obtain ⟨m1, r1, r2, r3⟩ := top.cand.reset_spec H.g.eb j
    (by rw [hoff]; have := div_lt_dlen hj; omega)
  rw [r1, ok_bind, ok_bind]
  have hpad1 : PadZero m1 top.cand := by
    intro i h1 h2; rw [r3, l8 i h1 h2]; simp
  have hC1 : bset m1 top.cand ⊆ bset H.g.eb top.cand := by
    intro x
    simp only [mem_bset, r3]
    simp only [Bool.and_eq_true]
    rintro ⟨h2, h1, h3⟩; exact ⟨h2, h3⟩
  have hin1 : top.cand.off + dlen top.cand.len ≤ m1.length := by
    rw [hoff, hclen, r2]; omega
  rw [top.cand.count_pad m1 (by have := N_pos g.wf g.hr; omega) hin1 hpad1, ok_bind, ok_bind]
  dsimp only
  rw [ha.rd (l9 j hjC).2.1]
  refine bind_ok_congr fun wj _ => bind_ok_congr fun vert _ => bind_ok_congr fun U _ => ?_
  rw [enumScan_junk hclen hin1 (fun k hk => ha.rd (l9 k (hC1 hk)).2.1)]

theorem enumLoad_junk {Hs : NWG R} {E : WEnum R} (ok : OkAt b H.g) (hc : WCoreS anyCl b Hs H)
    (hl : Lens Hs) (hcur : E.cur < Hs.g.nVert) (hst : E.states = [])
    {ws : List R} {cw : R} (hws : ws.length = E.ws.length) :
    Both (fun x y => y.1 = x.1 ∧ y.2.2 = x.2.2 ∧ JR Hs x.2.1 y.2.1)
      (H.enumLoad E) (H.enumLoad { E with ws := ws, cliqueWeight := cw }) := by
  have w := ok.wf
  have F := hc.frame
  have hr : E.cur < H.g.nVert := by rw [F.frame.nVert]; exact hcur
  unfold enumLoad
  dsimp only
  rw [vtx_ok w hr, ok_bind, ok_bind]
  refine Both.bind (Q := fun x y => y = x ∧ H.g.rootState (H.g.V E.cur) (dlen (H.g.V E.cur).N) = .ok x)
    (fun x y hx hy => ⟨by rw [hx] at hy; cases hy; rfl, hx⟩) ?_
  rintro ⟨G1, x⟩ _ ⟨rfl, hroot⟩
  refine Both.bind (rootFill_junk w (F.lens hl) hr hroot hws) ?_
  rintro ⟨eb, u, c⟩ ⟨_, u', _⟩ ⟨rfl, rfl, ha⟩
  dsimp only at ha ⊢
  refine Both.same fun wc => ?_
  refine Both.ite (Both.same fun g' => Both.pure ⟨rfl, rfl, ?_⟩) (Both.pure ⟨rfl, rfl, ?_⟩)
  · exact ⟨rfl, ha.1, fun h => absurd hst h⟩
  · refine ⟨rfl, ha.1, fun _ => ⟨rfl, ?_⟩⟩
    dsimp only
    rw [← F.wCand]
    exact ha

theorem enumVertex_junk {Hs : NWG R} {E : WEnum R} (ok : OkAt b H.g) (hc : WCoreS anyCl b Hs H)
    (hl : Lens Hs) (hws : Hs.g.maxDeg ≤ E.ws.length)
    (hcur : E.cur < Hs.g.nVert) (hst : E.states = [])
    {ws : List R} {cw : R} (hws' : ws.length = E.ws.length) :
    Both (fun x y => y.1 = x.1 ∧ JR Hs x.2 y.2)
      (H.enumVertex E) (H.enumVertex { E with ws := ws, cliqueWeight := cw }) := by
  unfold enumVertex
  refine Both.loop (P := fun x y => (y.1 = x.1 ∧ JR Hs x.2 y.2) ∧ OkAt b x.1.g ∧
    WCoreS anyCl b Hs x.1 ∧ x.2.states = [] ∧ Hs.g.maxDeg ≤ x.2.ws.length ∧ x.2.cur ≤ Hs.g.nVert) ?_ _
    ⟨⟨rfl, rfl, hws', fun h => absurd hst h⟩, ok, hc, hst, hws, hcur⟩
  rintro ⟨_, F⟩ ⟨A, F'⟩ ⟨⟨rfl, hJ⟩, ok, hc, hst, hws, hcur⟩
  dsimp only at hJ ok hc hst hws hcur ⊢
  have hJ0 := hJ
  obtain ⟨e1, e2, _⟩ := hJ
  generalize F'.ws = ws at e1 e2
  generalize F'.cliqueWeight = cw at e1
  subst e1
  dsimp only at hJ0 ⊢
  have hvl : A.g.vs.length = Hs.g.nVert := by rw [ok.wf.vlen, hc.frame.frame.nVert]
  have hnv : A.g.nVert = Hs.g.nVert := hc.frame.frame.nVert
  refine Both.iteP (fun hlt => ?_) fun hge =>
    Both.pure (Or.inr ⟨_, _, rfl, rfl, rfl, hJ0⟩)
  have hlt' : F.cur < Hs.g.nVert := by rw [← hvl]; exact hlt
  refine Both.same fun V => ?_
  refine Both.ite (Both.pure (Or.inl ⟨_, _, rfl, rfl, ⟨rfl, rfl, e2, fun h => absurd hst h⟩,
    ok, hc, hst, hws, hlt'⟩)) ?_
  refine Both.bind (Q := fun x y => (y.1 = x.1 ∧ y.2.2 = x.2.2 ∧ JR Hs x.2.1 y.2.1) ∧
      (x.2.2 = false → OkAt b x.1.g ∧ WCoreS anyCl b Hs x.1 ∧ x.2.1.states = [] ∧
        Hs.g.maxDeg ≤ x.2.1.ws.length ∧ x.2.1.cur = F.cur))
    (Both.mono (enumLoad_junk ok hc hl hlt' hst e2) ?_) ?_
  · rintro ⟨x1, x2, x3⟩ y hx _ hq
    refine ⟨hq, fun h3 => ?_⟩
    rcases enumLoad_spec ok hc hl hws hlt' hst with ⟨G1, E1, e1, e2, e3, e4, e5, e6⟩ | ⟨G1, E1, e1, _⟩
    · rw [e1] at hx
      cases hx
      exact ⟨e2, e3, e5, e6, e4⟩
    · rw [e1] at hx
      cases hx
      cases h3
  · rintro ⟨_, x2, _⟩ ⟨x1, y2, x3⟩ ⟨⟨rfl, rfl, q1⟩, q2⟩
    dsimp only at q1 q2 ⊢
    cases x3 with
    | true =>
      simp only [if_true]
      exact Both.pure (Or.inr ⟨_, _, rfl, rfl, rfl, q1⟩)
    | false =>
      simp only [Bool.false_eq_true, if_false]
      obtain ⟨a1, a2, a3, a4, a5⟩ := q2 rfl
      refine Both.pure (Or.inl ⟨_, _, rfl, rfl, ⟨rfl, ?_⟩, a1, a2, a3, a4, ?_⟩)
      · obtain ⟨e1, e2, _⟩ := q1
        refine ⟨?_, e2, fun h => absurd a3 h⟩
        dsimp only
        rw [e1]
      · dsimp only; omega

theorem enumBody_junk {Hs : NWG R} {E E' : WEnum R} (h : WEInv b Hs H E) (hJ : JR Hs E E') :
    Both (fun x y => (∃ a c, x = .inl a ∧ y = .inl c ∧ (WEInv b Hs a.1 a.2 ∧ c.1 = a.1 ∧ JR Hs a.2 c.2)) ∨
      ∃ a c, x = .inr a ∧ y = .inr c ∧ (c.1 = a.1 ∧ c.2.2 = a.2.2 ∧ JR Hs a.2.1 c.2.1))
      (enumBody (H, E)) (enumBody (H, E')) := by
  obtain ⟨q, hq1, hq2⟩ := enumBody_spec h
  have main : Both (fun x y => (∃ a c, x = .inl a ∧ y = .inl c ∧ (c.1 = a.1 ∧ JR Hs a.2 c.2)) ∨
      ∃ a c, x = .inr a ∧ y = .inr c ∧ (c.1 = a.1 ∧ c.2.2 = a.2.2 ∧ JR Hs a.2.1 c.2.1))
      (enumBody (H, E)) (enumBody (H, E')) := by
    clear hq1 hq2
    have hJ0 := hJ
    obtain ⟨e1, e2, e3⟩ := hJ
    generalize E'.ws = ws at e1 e2 e3
    generalize E'.cliqueWeight = cw at e1 e3
    subst e1
    obtain ⟨hc, hl, hwl, h⟩ := h
    unfold enumBody
    dsimp only
    rcases h with ⟨a1, a2, g', a3, a4, a5⟩ | ⟨a1, a2, a3⟩ |
      ⟨a1, a4, H0, p, ok, hc0, p1, p2, Wg, I, p3, hws⟩
    · have hlt : E.cur < H.g.nVert := by rw [hc.core.frame.nVert]; exact a2
      rw [if_pos hlt, if_pos hlt, a1]
      dsimp only
      rw [a3, ok_bind, ok_bind]
      have hcn : WCoreS anyCl b Hs { H with g := g' } := by
        refine ⟨?_, a5⟩
        conv_lhs => rw [hc.same]
      have := enumVertex_junk (cw := cw) a4 hcn hl hwl a2 a1 e2
      rw [a1] at this
      refine Both.bind this ?_
      rintro ⟨A, F⟩ ⟨_, F'⟩ ⟨rfl, hF⟩
      exact Both.pure (Or.inl ⟨_, _, rfl, rfl, rfl, hF⟩)
    · have hge : ¬ E.cur < H.g.nVert := by rw [hc.core.frame.nVert]; omega
      rw [if_neg hge, if_neg hge]
      exact Both.pure (Or.inr ⟨_, _, rfl, rfl, rfl, rfl, hJ0⟩)
    · obtain ⟨rfl, hag⟩ := e3 a1
      have g := Wg.g
      have w := g.wf
      have hr : E.cur < H0.g.nVert := p1 ▸ g.hr
      have hrs : E.cur < Hs.g.nVert := by rw [← hc0.core.frame.nVert]; exact hr
      have hrG : E.cur < H.g.nVert := by rw [hc.core.frame.nVert]; exact hrs
      have F0 := hc0.frame
      have hag0 : Agr (H0.wCand p.r) E.ws ws := by rw [F0.wCand, p1]; exact hag
      rw [if_pos hrG, if_pos hrG]
      cases hst : E.states with
      | nil => exact absurd hst a1
      | cons top rest =>
      rw [hst] at I
      dsimp only
      have hNpos := N_pos w g.hr
      have hlv := I.lv
      have hlenL := Lv_len Wg I.lv
      simp only [List.length_cons] at hlenL
      unfold Lv at hlv
      obtain ⟨l1, l2, l3, l4, l5, l6, l7, l8, l9, l10, l11⟩ := hlv
      have hreqd : p.req H0.g = dlen (H0.g.V p.r).N := rfl
      have hoff : top.cand.off = candOff H0.g p rest.length := by rw [l2]
      have hclen : top.cand.len = (H0.g.V p.r).N := by rw [l2]
      have hce := candOff_end g rest.length
      have hlen1 : (rest.length + 2) * p.req H0.g ≤ (p.L + 2) * p.req H0.g :=
        Nat.mul_le_mul_right _ (by omega)
      have hroom := g.room
      have hebl := I.upd.frame.ebl
      have hin : top.cand.off + dlen top.cand.len ≤ H.g.eb.length := by
        rw [hoff, hclen]; omega
      have wG := I.upd.frame.wf w
      rw [vtx_ok wG hrG, ok_bind, ok_bind, top.cand.count_pad H.g.eb (by omega) hin l8, ok_bind,
        ok_bind]
      dsimp only
      have hVG : H.g.V E.cur = H0.g.V p.r := by rw [I.upd.core.V, p1]
      rw [hVG, p3]
      let P : NWG R × WState R × Nat → Prop := fun s => EI H0 p s.1 (s.2.1 :: rest) ∧
        s.2.2 ≤ (H0.g.V p.r).N ∧ ∀ c ∈ bset s.1.g.eb s.2.1.cand, s.2.2 ≤ c
      have hP : ∀ s s', P s → enumFor (H0.g.V p.r) (p.req H0.g) E.ws E.cliqueWeight E.required s
          = .ok (.inl s') → P s' := by
        rintro ⟨H1, t1, j1⟩ s' ⟨a1, a2, a3⟩ hs
        rcases enumFor_spec Wg (cw := E.cliqueWeight) (T := E.required) hws a1 a2 a3 with
          ⟨H', top', b1, b2, b3, b4, _⟩ | ⟨H', top', b1, _⟩ | ⟨H', top', new, cw', b1, _⟩ | ⟨b1, _⟩
        · rw [b1] at hs; cases hs; exact ⟨b3, b2, b4⟩
        · rw [b1] at hs; cases hs
        · rw [b1] at hs; cases hs
        · rw [b1] at hs; cases hs
      have h0 : P ({ H with g := { H.g with eb := H.g.eb } }, top, top.startAt) :=
        ⟨I, l7, fun c hc => (l9 c hc).1⟩
      have heq := loop_ok_congr P
        (g := enumFor (H0.g.V p.r) (p.req H0.g) ws E.cliqueWeight E.required)
        (fun s hs => enumFor_junk (H := s.1) (top := s.2.1) (j := s.2.2) Wg hag0 hs.1) hP
        ((H0.g.V p.r).N + 2) h0
      rw [heq]
      refine Both.bind (Q := fun x y => y = x ∧ ∀ H' t, x = .done H' t → EI H0 p H' (t :: rest)) ?_ ?_
      · intro x y hx hy
        rw [hx] at hy
        cases hy
        refine ⟨rfl, loop_inv P (fun x => ∀ H' t, x = .done H' t →
          EI H0 p H' (t :: rest)) hP ?_ h0 hx⟩
        rintro ⟨H1, t1, j1⟩ r ⟨a1, a2, a3⟩ hs
        rcases enumFor_spec Wg (cw := E.cliqueWeight) (T := E.required) hws a1 a2 a3 with
          ⟨H', top', b1, b2, b3, b4, _⟩ | ⟨H', top', b1, _⟩ | ⟨H', top', new, cw', b1, _⟩ | ⟨b1, _⟩
        · rw [b1] at hs; cases hs
        · rw [b1] at hs; cases hs; intro _ _ h; cases h
        · rw [b1] at hs; cases hs; intro _ _ h; cases h
        · rw [b1] at hs; cases hs; intro _ _ h; cases h; exact a1
      · rintro _ x ⟨rfl, hd⟩
        cases x with
        | found H' t =>
          exact Both.pure (Or.inr ⟨_, _, rfl, rfl, rfl, rfl, rfl, e2, fun _ => ⟨rfl, hag⟩⟩)
        | pushed H' t n c =>
          exact Both.pure (Or.inl ⟨_, _, rfl, rfl, rfl, rfl, e2, fun _ => ⟨rfl, hag⟩⟩)
        | done H' t =>
          dsimp only
          refine Both.same fun g' => Both.same fun eb => ?_
          refine Both.bind (Q := fun x y => rest ≠ [] → y = x) ?_ ?_
          · intro x y hx hy hr
            have hl := (hd _ _ rfl).lv
            unfold Lv at hl
            rw [hag0.rd (hl.2.2.2.2.2.2.2.2.2.1 hr), hx] at hy
            cases hy
            rfl
          · intro x y hxy
            refine Both.pure (Or.inl ⟨_, _, rfl, rfl, rfl, rfl, e2, fun h => ⟨?_, hag⟩⟩)
            dsimp only at h ⊢
            rw [hxy h]
  refine Both.mono main ?_
  rintro x y hx hy (⟨a, c, rfl, rfl, h⟩ | h)
  · refine Or.inl ⟨a, c, rfl, rfl, ?_, h⟩
    rw [hq1] at hx
    cases hx
    exact hq2.1
  · exact Or.inr h

theorem enumGraph_junk {Hs : NWG R} {E E' : WEnum R} (h : WEInv b Hs H E) (hJ : JR Hs E E') :
    Both (fun x y => y.1 = x.1 ∧ y.2.2 = x.2.2 ∧ JR Hs x.2.1 y.2.1)
      (H.enumGraph E) (H.enumGraph E') := by
  unfold enumGraph
  refine Both.loop (P := fun x y => WEInv b Hs x.1 x.2 ∧ y.1 = x.1 ∧ JR Hs x.2 y.2) ?_ _ ⟨h, rfl, hJ⟩
  rintro ⟨A, F⟩ ⟨_, F'⟩ ⟨h1, rfl, h2⟩
  exact enumBody_junk h1 h2

end AW

end NWG

end CM
