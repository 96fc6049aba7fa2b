import Verif.SpecNWHeap
import Verif.SpecHeap
import Verif.Lemmas.NWHeap
import Verif.Lemmas.RoomExact

/-!
# Calls on a weighted object while memory may run out
-/

namespace CM

open Spec Graph

namespace NWG

set_option linter.unusedSectionVars false

variable {R : Type} [Zero R] [Add R] [Sub R] [NatCast R] [LT R] [LE R] [DecidableLT R]
  [DecidableLE R]

variable {grow : Nat → Nat} {pg : PyNW R} {n : Nat} {S : SimpleGraph Nat} {ω : Nat → R} {H : NWG R}

namespace AW

/-! ## The condition on the graph -/

/-- The candidates at a root are neighbours after it in the order of the weights. -/
theorem wCand_wlater (h : WPyOk pg n S ω H) (hd : ∀ v, v ≤ n → H.d v = degSum H v) {r : Nat}
    (hr1 : 1 ≤ r) (hr : r ≤ n) : (H.wCand r).card ≤ wlater S n ω r := by
  classical
  have hO := h.of
  have w := h.ok.ok.wf
  have hnv := hO.nv
  have hrv : r < H.g.nVert := by omega
  have hs := w.spos r hrv
  have hself := w.self r hrv
  have hdeg : ∀ v, 1 ≤ v → v ≤ n → H.d v = summedDegree S n ω v := fun v h1 h2 =>
    spec_summedDegree h h1 h2 (hd v h2)
  have hinj : Set.InjOn (H.g.e r) (H.wCand r : Set Nat) := by
    intro a ha b hb hab
    exact e_inj w hrv (mem_wCand'.1 (Finset.mem_coe.1 ha)).1 (mem_wCand'.1 (Finset.mem_coe.1 hb)).1 hab
  rw [← Finset.card_image_of_injOn hinj]
  unfold wlater
  apply Finset.card_le_card
  intro x hx
  obtain ⟨i, hi, rfl⟩ := Finset.mem_image.1 hx
  obtain ⟨hiN, hc⟩ := mem_wCand'.1 hi
  have hne : H.g.e r i ≠ r := by
    intro he
    have := e_inj w hrv hiN hs (he.trans hself.symm)
    omega
  rcases (hO.adj r _ hr).1 (e_nadj hiN) with h1 | h1
  · exact absurd h1 hne
  · have hx := (hO.rng _ _ h1).2
    rw [hdeg r hr1 hr, hdeg _ hx.1 hx.2] at hc
    simp only [Finset.mem_filter]
    refine ⟨Finset.mem_Icc.2 hx, h1, ?_⟩
    rcases hc with ⟨c1, c2⟩ | ⟨c1, c2⟩
    · left
      have := w.sorted r hrv i _ c1 hs
      rw [hself] at this
      exact ⟨this, c2⟩
    · right
      have := w.sorted r hrv _ i c1 hiN
      rw [hself] at this
      exact ⟨this, c2⟩

theorem calm_of_roomy (h : WPyOk pg n S ω H) (hd : ∀ v, v ≤ n → H.d v = degSum H v)
    (hL : Lim H.g) (hR : Roomy S n ω) : Calm H := by
  intro v hv
  have hnv := h.of.nv
  rcases Nat.eq_zero_or_pos v with rfl | h1
  · have h2 : H.wCand 0 = ∅ := by
      apply Finset.eq_empty_of_forall_notMem
      intro i hi
      obtain ⟨hiN, hc⟩ := mem_wCand'.1 hi
      have w := h.ok.ok.wf
      have he := h.of.zero (e_nadj hiN)
      have := e_inj w hv hiN (w.spos 0 hv) (he.trans (w.self 0 hv).symm)
      omega
    rw [h2]
    simp
  · obtain ⟨u, u1, u2, h3⟩ := hR v h1 (by omega)
    have h4 := wCand_wlater h hd h1 (by omega)
    have h5 := hL u (by omega)
    rw [rootCand_later h.of h.ok.ok.wf.str u2] at h5
    omega

/-- The bound on cliques of a loaded object. -/
theorem usable_lim (h : WUsable pg n S ω) : ∃ H, WPyOk pg n S ω H ∧ Lim H.g := by
  obtain ⟨H, hF⟩ := wusable_fresh h
  obtain ⟨_, cap, m, H2, hL⟩ := wloaded_as h.loaded
  have hg : pg.G = some H2 := by rw [hL.eq]
  have := hF.pyok.g
  rw [hg] at this
  cases this
  exact ⟨H, hF.pyok, hL.bounds.le⟩

/-- A loaded object of a roomy graph. -/
theorem usable_calm (h : WUsable pg n S ω) (hR : Roomy S n ω) :
    ∃ H, WPyOk pg n S ω H ∧ Lim H.g ∧ Calm H := by
  obtain ⟨H, hF⟩ := wusable_fresh h
  obtain ⟨_, cap, m, H2, hL⟩ := wloaded_as h.loaded
  have hg : pg.G = some H2 := by rw [hL.eq]
  have := hF.pyok.g
  rw [hg] at this
  cases this
  exact ⟨H, hF.pyok, hL.bounds.le, calm_of_roomy hF.pyok hF.d hL.bounds.le hR⟩

/-! ## Searches -/

theorem wgetMaxClique_of (h : WPyOk pg n S ω H) {srt : List (WData R) → List (WData R)}
    (hsrt : ∀ l, (srt l).Perm l) (junk : Nat → R) (a : PyNW.Args R) {H' : NWG R} {i : Nat}
    (h1 : (wbounded H a).findMaxCliques srt junk 0 a.useHeuristic a.useDfs = .ok (H', i)) :
    ∃ ans w, H'.getClique H'.curLoc = .ok (H', ans) ∧ H'.cliqueWeight ans = .ok w ∧
      pg.getMaxClique srt junk a =
        .ok ({ pg with G := some H', currentVertex := i, finishedAll := decide (i ≥ n) },
          if a.lowerBound > w then .raise else .ret ans) := by
  obtain ⟨H2, i2, b1, b2, _, _⟩ := findMax_at hsrt junk (wbounded_at h.ok.at a) 0
    a.useHeuristic a.useDfs
  rw [h1] at b1
  cases b1
  refine ⟨_, _, NWG.getClique_at b2 b2.loc,
    cliqueWeight_spec b2.l (cliqueAt_lt_at b2 b2.loc), ?_⟩
  unfold PyNW.getMaxClique
  simp only
  have hl : PyNW.checkLoaded { pg with currentVertex := 0 } = some H := h.loaded
  rw [hl]
  simp only
  unfold wbounded at h1
  rw [h1, ok_bind]
  simp only
  rw [NWG.getClique_at b2 b2.loc, ok_bind]
  simp only
  rw [cliqueWeight_spec b2.l (cliqueAt_lt_at b2 b2.loc), ok_bind, h.nv]
  split <;> rfl

/-- One search. -/
theorem wgetMaxCliqueA_spec (h : WPyOk pg n S ω H) (hL : Lim H.g) (hC : Calm H)
    {srt : List (WData R) → List (WData R)} (hsrt : ∀ l, (srt l).Perm l) (junk : Nat → R)
    (a : PyNW.Args R) (hp : Heap) :
    (∃ pg' r, pg.getMaxClique srt junk a = .ok (pg', r) ∧
      pg.getMaxCliqueA grow srt junk hp a = .ok (pg', .of r)) ∨
    (hp ≠ none ∧ ∃ a' pg' pg'' r, a'.Less a ∧
      pg.getMaxCliqueA grow srt junk hp a = .ok (pg', .noMemory) ∧
      pg.getMaxClique srt junk a' = .ok (pg'', r) ∧ WSameBut pg' pg'') := by
  have hl : PyNW.checkLoaded { pg with currentVertex := 0 } = some H := h.loaded
  unfold PyNW.getMaxCliqueA
  dsimp only
  rw [hl]
  dsimp only
  have F := wbounded_frame H a
  rcases findMaxA_eq (grow := grow) hsrt junk (wbounded_at h.ok.at a) (lim_wframe hL F)
    (hC.frame F) 0 a.useHeuristic a.useDfs hp with ⟨e0, e1⟩ | ⟨e0, H', e1, e2⟩ |
      ⟨H', i, hp', e0, e1, e2⟩
  · right
    unfold wbounded at e1
    rw [e1]
    obtain ⟨ans, w, _, _, f⟩ := wgetMaxClique_of (H' := wbounded H a) (i := 0) h hsrt junk
      { a with useHeuristic := false, useDfs := false } rfl
    exact ⟨e0, { a with useHeuristic := false, useDfs := false }, _, _, _, Or.inr (Or.inr rfl), rfl,
      f, rfl⟩
  · right
    unfold wbounded at e1
    rw [e1]
    obtain ⟨ans, w, _, _, f⟩ := wgetMaxClique_of h hsrt junk { a with useDfs := false } e2
    exact ⟨e0, { a with useDfs := false }, _, _, _, Or.inr (Or.inl rfl), rfl, f, rfl⟩
  · obtain ⟨ans, w, f2, f3, f1⟩ := wgetMaxClique_of h hsrt junk a e2
    unfold wbounded at e1
    rw [e1]
    dsimp only [bind, Except.bind]
    rw [f2]
    dsimp only
    rw [← h.nv] at f1
    cases hr : Heap.request hp' with
    | none =>
      right
      refine ⟨fun h0 => ?_, a, _, _, _, Or.inl rfl, rfl, f1, rfl⟩
      rw [e0 h0] at hr
      cases hr
    | some h2 =>
      dsimp only
      rw [f3]
      dsimp only
      cases hr2 : h2.request with
      | none =>
        right
        refine ⟨fun h0 => ?_, a, _, _, _, Or.inl rfl, rfl, f1, rfl⟩
        rw [e0 h0] at hr
        cases hr
        cases hr2
      | some h3 =>
        left
        refine ⟨_, _, f1, ?_⟩
        dsimp only
        split <;> rfl

/-! ## `search_done` is only reported -/

theorem _root_.CM.WSameBut.refl (pg : PyNW R) : WSameBut pg pg := rfl

theorem _root_.CM.WSameBut.symm {pg pg' : PyNW R} (s : WSameBut pg pg') : WSameBut pg' pg := by
  unfold WSameBut at s ⊢
  rw [s]

theorem _root_.CM.WSameBut.trans {pg pg' pg'' : PyNW R} (s : WSameBut pg pg')
    (t : WSameBut pg' pg'') : WSameBut pg pg'' := by
  unfold WSameBut at s t ⊢
  rw [t] at s
  exact s

theorem _root_.CM.WSameBut.pyok {pg pg' : PyNW R} (s : WSameBut pg pg') (h : WPyOk pg' n S ω H) :
    WPyOk pg n S ω H := by
  unfold WSameBut at s
  rw [s]
  exact ⟨h.g, h.nv, h.pos, h.ok, h.of, h.w, h.w0⟩

theorem wgetMaxClique_done (h : WPyOk pg n S ω H) (srt : List (WData R) → List (WData R))
    (junk : Nat → R) (a : PyNW.Args R) (b : Bool) :
    { pg with finishedAll := b }.getMaxClique srt junk a = pg.getMaxClique srt junk a := by
  have hl : PyNW.checkLoaded { pg with currentVertex := 0 } = some H := h.loaded
  have hl' : PyNW.checkLoaded { pg with finishedAll := b, currentVertex := 0 } = some H := h.loaded
  unfold PyNW.getMaxClique
  dsimp only
  rw [hl, hl']

theorem wnextClique_done (pg : PyNW R) (E : WEnum R) (b : Bool) :
    { pg with finishedAll := b }.nextClique E =
      (pg.nextClique E).map fun x => ({ x.1 with finishedAll := b }, x.2) := by
  unfold PyNW.nextClique
  dsimp only
  cases pg.G with
  | none => rfl
  | some H =>
    dsimp only
    cases H.enumGraph E with
    | error e => rfl
    | ok x =>
      dsimp only [bind, Except.bind]
      split
      · rfl
      · cases x.1.getClique x.2.2 with
        | error e => rfl
        | ok y => rfl

theorem wconsume_done (b : Bool) : ∀ (fuel : Nat) (pg : PyNW R) (E : WEnum R),
    { pg with finishedAll := b }.consume fuel E =
      (pg.consume fuel E).map fun x => ({ x.1 with finishedAll := b }, x.2) := by
  intro fuel
  induction fuel with
  | zero => intro pg E; rfl
  | succ fuel ih =>
    intro pg E
    unfold PyNW.consume
    rw [wnextClique_done]
    cases pg.nextClique E with
    | error e => rfl
    | ok x =>
      obtain ⟨p, E', c⟩ := x
      cases c with
      | none => rfl
      | some c =>
        dsimp only [bind, Except.bind, Except.map]
        rw [ih]
        cases p.consume fuel E' with
        | error e => rfl
        | ok y => rfl

theorem wlistCliques_done (pg : PyNW R) (junk : Nat → R) (k : R) (b : Bool) :
    { pg with finishedAll := b }.listCliques junk k =
      (pg.listCliques junk k).map fun x => ({ x.1 with finishedAll := b }, x.2) := by
  unfold PyNW.listCliques
  have hc : { pg with finishedAll := b }.allCliques junk k = pg.allCliques junk k := rfl
  rw [hc]
  cases pg.allCliques junk k with
  | error e => rfl
  | ok E =>
    dsimp only [bind, Except.bind]
    obtain ⟨Go, f, nv, ne, cv⟩ := pg
    cases Go with
    | none => rfl
    | some H =>
      have hd := wconsume_done b (H.g.nVert * 2 ^ H.g.maxDeg + 1) ⟨some H, f, nv, ne, cv⟩ E
      dsimp only at hd ⊢
      rw [hd]
      cases PyNW.consume (H.g.nVert * 2 ^ H.g.maxDeg + 1) ⟨some H, f, nv, ne, cv⟩ E with
      | error e => rfl
      | ok y => rfl

/-- One call on the same object. -/
theorem _root_.CM.WSameBut.op {pg pg' pg1 : PyNW R} (s : WSameBut pg pg') (hP : WPyOk pg' n S ω H)
    {op : WOp R} (h : op.run pg' = .ok pg1) :
    ∃ pg1', op.run pg = .ok pg1' ∧ WSameBut pg1' pg1 := by
  unfold WSameBut at s
  rw [s]
  cases op with
  | search srt junk a =>
    refine ⟨pg1, ?_, rfl⟩
    rw [← h]
    unfold WOp.run
    dsimp only
    rw [wgetMaxClique_done hP]
  | reset =>
    refine ⟨pg1, ?_, rfl⟩
    rw [← h]
    rfl
  | list junk k =>
    unfold WOp.run at h ⊢
    dsimp only at h ⊢
    rw [wlistCliques_done]
    obtain ⟨⟨p, cs⟩, h1, h2⟩ := bind_eq_ok.1 h
    rw [h1]
    cases h2
    exact ⟨_, rfl, rfl⟩

/-! ## Histories -/

theorem wrunsA_cons (s : WOp R × Heap) (ss : List (WOp R × Heap)) (pg : PyNW R) :
    wrunsA grow (s :: ss) pg = (s.1.runA grow s.2 pg >>= wrunsA grow ss) := by
  unfold wrunsA
  rw [List.foldlM_cons]

theorem wless_legal {op' op : WOp R} (h : op'.Less op) : op.Legal → op'.Legal := by
  cases h with
  | same => exact id
  | search h => exact id

theorem wless_exact {op' op : WOp R} (h : op'.Less op) : op.Exact S n ω → op'.Exact S n ω := by
  cases h with
  | same => exact id
  | search h => rcases h with rfl | rfl | rfl <;> exact id

/-- One call that may run out of memory. -/
theorem wopA_spec (h : WPyOk pg n S ω H) (hL : Lim H.g) (hC : Calm H) {op : WOp R} (hl : op.Legal)
    (hp : Heap) : ∃ (op' : WOp R) (pg' pg'' : PyNW R), op'.Less op ∧ op.runA grow hp pg = .ok pg' ∧
      op'.run pg = .ok pg'' ∧ WSameBut pg' pg'' := by
  cases op with
  | search srt junk a =>
    rcases wgetMaxCliqueA_spec (grow := grow) h hL hC hl junk a hp with
      ⟨pg', r, e1, e2⟩ | ⟨e0, a', pg', pg'', r, e1, e2, e3, e4⟩
    · refine ⟨.search srt junk a, pg', pg', .same _, ?_, ?_, rfl⟩
      · show (pg.getMaxCliqueA grow srt junk hp a >>= _) = _
        rw [e2, ok_bind]
      · show (pg.getMaxClique srt junk a >>= _) = _
        rw [e1, ok_bind]
    · refine ⟨.search srt junk a', pg', pg'', .search e1, ?_, ?_, e4⟩
      · show (pg.getMaxCliqueA grow srt junk hp a >>= _) = _
        rw [e2, ok_bind]
      · show (pg.getMaxClique srt junk a' >>= _) = _
        rw [e3, ok_bind]
  | reset =>
    obtain ⟨pg', _, e1, _⟩ := wop_spec h hl
    exact ⟨.reset, pg', pg', .same _, e1, e1, rfl⟩
  | list junk k =>
    obtain ⟨pg', _, e1, _⟩ := wop_spec h hl
    exact ⟨.list junk k, pg', pg', .same _, e1, e1, rfl⟩

theorem wrunsA_spec : ∀ (steps : List (WOp R × Heap)) {pgA pg : PyNW R} {H : NWG R},
    WSameBut pgA pg → WPyOk pg n S ω H → Lim H.g → Calm H → (∀ s ∈ steps, s.1.Legal) →
    ∃ pgA' ops pg' H', wrunsA grow steps pgA = .ok pgA' ∧
      List.Forall₂ WOp.Less ops (steps.map Prod.fst) ∧ wruns ops pg = .ok pg' ∧
      WSameBut pgA' pg' ∧ WPyOk pg' n S ω H' ∧ Lim H'.g ∧ Calm H' := by
  intro steps
  induction steps with
  | nil => intro pgA pg H s h hL hC _; exact ⟨pgA, [], pg, H, rfl, .nil, rfl, s, h, hL, hC⟩
  | cons st steps ih =>
    intro pgA pg H s h hL hC ho
    have l1 := ho st (by simp)
    obtain ⟨op', pg1, pg2, a1, a2, a3, a4⟩ := wopA_spec (grow := grow) (s.pyok h) hL hC l1 st.2
    obtain ⟨pg3, b1, b2⟩ := s.symm.op (s.pyok h) a3
    obtain ⟨pg3', H3, c1, c2, c3, _⟩ := wop_spec h (wless_legal a1 l1)
    rw [b1] at c1
    cases c1
    obtain ⟨pgA', ops, pg', H', d1, d2, d3, d4, d5, d6⟩ := ih (a4.trans b2.symm) c2
      (lim_wframe hL c3) (hC.frame c3) (fun o ho' => ho o (by simp [ho']))
    refine ⟨pgA', op' :: ops, pg', H', ?_, .cons a1 d2, ?_, d4, d5, d6⟩
    · rw [wrunsA_cons, a2, ok_bind, d1]
    · rw [wruns_cons, b1, ok_bind, d3]

end AW

end NWG

end CM
