import Verif.Lemmas.NWNested
import Verif.Lemmas.AWApi
import Verif.Model.NWNested

/-! # Arbitrary arithmetic: complete calls while one weighted iterator is held -/

namespace CM

open Spec Graph

namespace NWG

theorem WFrame.symm {R : Type} {H H' : NWG R} (F : WFrame H H') : WFrame H' H :=
  ⟨⟨F.frame.el.symm, F.frame.vlen.symm, fun v => by
      obtain ⟨h1, h2, h3, h4⟩ := F.frame.stat v
      exact ⟨h1.symm, h2.symm, h3.symm, h4.symm⟩, F.frame.ebl.symm, F.frame.ebSize.symm,
      F.frame.searchStart.symm, F.frame.nVert.symm, F.frame.maxDeg.symm, F.frame.dangling.symm,
      F.frame.argLR.symm⟩, F.vs.symm, F.cl.symm, F.wt.symm, F.deg.symm, F.mlen.symm,
      F.depth.symm⟩

namespace AW

set_option linter.unusedSectionVars false

variable {R : Type} [Zero R] [Add R] [Sub R] [NatCast R] [LT R] [LE R] [DecidableLT R]
  [DecidableLE R]

variable {pg : PyNW R} {n : Nat} {S : SimpleGraph Nat} {ω : Nat → R} {b : Nat} {Hs H : NWG R}
  {E : WEnum R}

/-- The state between two actions of a program that holds one weighted iterator.  The iterator
uses the scratch space from `b`; `Hs` is the object when the last call of another kind ended. -/
structure WHeld (b : Nat) (pg : PyNW R) (n : Nat) (S : SimpleGraph Nat) (ω : Nat → R)
    (Hs H : NWG R) (E : WEnum R) : Prop where
  py : WPyAt H.g.searchCur pg n S ω H
  le : b ≤ H.g.searchCur
  bot : H.g.ebSize < b
  room : ∃ L, (∀ v, v < H.g.nVert → (H.g.rootCand v).card + 1 ≤ L) ∧
    b + 2 * (L + 1) * dlen H.g.maxDeg ≤ H.g.eb.length
  inv : WEInv b Hs H E
  st : E.states ≠ [] ∨ (H.g.searchCur = b ∧
    ((∃ ws W, H.g.maxDeg ≤ ws.length ∧ E = WEnum.new ws W) ∨
      (E.states = [] ∧ E.cur = H.g.nVert)))
  pend : ∀ r C, WPnd Hs H E r C → 1 < r ∧ r < Hs.g.nVert ∧ RootS Hs r C

theorem WHeld.frame (h : WHeld b pg n S ω Hs H E) : WFrame Hs H := h.inv.1.frame

/-- A call of another kind. -/
theorem WHeld.resume (h : WHeld b pg n S ω Hs H E) {pg' : PyNW R} {H' : NWG R}
    (py' : WPyAt H.g.searchCur pg' n S ω H') (F : WFrame H H')
    (hlow : ∀ a, 64 * H.g.ebSize ≤ a → a < 64 * H.g.searchCur →
      bitAt H'.g.eb a = bitAt H.g.eb a) :
    ∃ Hs', WHeld b pg' n S ω Hs' H' E ∧ WFrame Hs Hs' ∧
      ∀ r C, WPnd Hs' H' E r C ↔ WPnd Hs H E r C := by
  have hcur := py'.ok.ok.cur
  have hroom : ∃ L, (∀ v, v < H'.g.nVert → (H'.g.rootCand v).card + 1 ≤ L) ∧
      b + 2 * (L + 1) * dlen H'.g.maxDeg ≤ H'.g.eb.length := by
    obtain ⟨L, h1, h2⟩ := h.room
    refine ⟨L, fun v hv => ?_, by rw [F.frame.maxDeg, F.frame.ebl]; exact h2⟩
    rw [F.frame.rootCand]; exact h1 v (by rw [← F.frame.nVert]; exact hv)
  have key : ∃ Hs', WFrame Hs Hs' ∧ WEInv b Hs' H' E ∧
      ∀ C, PendS Hs' (par E.cur) H'.g.eb C E.states ↔ PendS Hs (par E.cur) H.g.eb C E.states := by
    by_cases hs : E.states = []
    · refine ⟨H', h.frame.trans F, ?_, ?_⟩
      · rcases h.st with hst | ⟨hst, hst'⟩
        · exact absurd hs hst
        · have hok : WOkAt b H' := by rw [← hst]; exact py'.ok
          rcases hst' with ⟨ws, W, hw, rfl⟩ | ⟨_, he⟩
          · exact WEInv.new hok (by rw [py'.of.nv]; have := py'.pos; omega) ws
              (by rw [F.frame.maxDeg]; exact hw) W
          · refine ⟨WCoreS.refl _ _ _, hok.l, ?_, Or.inr (Or.inl ⟨hs, ?_, hok.ok⟩)⟩
            · rw [F.frame.maxDeg, h.frame.frame.maxDeg]; exact h.inv.2.2.1
            · rw [F.frame.nVert]; exact he
      · intro C
        rw [hs]
        simp [PendS]
    · obtain ⟨Hs', h1, h2, h3⟩ := h.inv.resume hs py'.ok.ok F hlow
      exact ⟨Hs', h1, h2, h3⟩
  obtain ⟨Hs', FS, c1, c2⟩ := key
  have hP : ∀ r C, WPnd Hs' H' E r C ↔ WPnd Hs H E r C := by
    intro r C
    unfold WPnd
    rw [c2 C, FS.frame.nVert, rootS_iff FS]
  refine ⟨Hs', ⟨by rw [hcur]; exact py', by rw [hcur]; exact h.le,
    by rw [F.frame.ebSize]; exact h.bot, hroom, c1, ?_, fun r C hp => ?_⟩, FS, hP⟩
  · rw [hcur, F.frame.nVert, F.frame.maxDeg]; exact h.st
  · rw [FS.frame.nVert, rootS_iff FS]
    exact h.pend r C ((hP r C).1 hp)

/-- `next(it)` -/
theorem WHeld.next (h : WHeld b pg n S ω Hs H E) :
    ∃ pg' H' E' c, pg.nextClique E = .ok (pg', E', c) ∧ WHeld b pg' n S ω Hs H' E' ∧
      ((∃ v C, c = some (Hs.g.listAt v C) ∧ WPnd Hs H E v C ∧
          Shr (WPnd Hs H' E') (fun r D => WPnd Hs H E r D ∧ ¬ (r = v ∧ D = C))) ∨
       (c = none ∧ ∀ r C, ¬ WPnd Hs H' E' r C)) := by
  have hnv : Hs.g.nVert = pg.nvert + 1 := by
    rw [← h.frame.frame.nVert, h.py.of.nv, h.py.nv]
  obtain ⟨H', E', a1, a2⟩ := wnextClique_spec h.py.g hnv h.inv
  have F : WFrame H H' := h.frame.symm.trans a1.1.frame
  have hcl : H'.curLoc = H.curLoc := by rw [a1.1.same, h.inv.1.same]
  have step : OkAt H'.g.searchCur H'.g → b ≤ H'.g.searchCur →
      (E'.states ≠ [] ∨ (H'.g.searchCur = b ∧
        ((∃ ws W, H'.g.maxDeg ≤ ws.length ∧ E' = WEnum.new ws W) ∨
          (E'.states = [] ∧ E'.cur = H'.g.nVert)))) →
      (∀ r C, WPnd Hs H' E' r C → 1 < r ∧ r < Hs.g.nVert ∧ RootS Hs r C) →
      WHeld b { pg with G := some H' } n S ω Hs H' E' := by
    intro ok' le' st' pe'
    refine ⟨⟨rfl, h.py.nv, h.py.pos, ⟨ok', F.lens h.py.ok.l, ?_⟩, h.py.of.frame F.frame,
      fun v h1 h2 => by rw [F.w]; exact h.py.w v h1 h2, by rw [F.w]; exact h.py.w0⟩, le',
      by rw [F.frame.ebSize]; exact h.bot, ?_, a1, st', pe'⟩
    · rw [hcl, F.frame.nVert]; exact h.py.ok.loc
    · obtain ⟨L, h1, h2⟩ := h.room
      refine ⟨L, fun v hv => ?_, by rw [F.frame.maxDeg, F.frame.ebl]; exact h2⟩
      rw [F.frame.rootCand]; exact h1 v (by rw [← F.frame.nVert]; exact hv)
  rcases a2 with ⟨v, C, b1, b2, b3, b4, b5⟩ | ⟨b1, b2, b3, b4⟩
  · have hroom : ∃ L, (∀ v, v < Hs.g.nVert → (Hs.g.rootCand v).card + 1 ≤ L) ∧
        b + 2 * (L + 1) * dlen Hs.g.maxDeg ≤ Hs.g.eb.length := by
      obtain ⟨L, h1, h2⟩ := h.room
      have F := h.frame.frame
      refine ⟨L, fun v hv => ?_, by rw [← F.maxDeg, ← F.ebl]; exact h2⟩
      rw [← F.rootCand]; exact h1 v (by rw [F.nVert]; exact hv)
    obtain ⟨p1, p2⟩ := a1.paused b4 b5 hroom
    exact ⟨_, H', E', _, b1, step p1 p2 (Or.inl b4) (fun r D hp => h.pend r D (b3 r D hp).1),
      Or.inl ⟨v, C, rfl, b2, b3⟩⟩
  · have hno : ∀ r C, ¬ WPnd Hs H' E' r C := by
      intro r C hp
      unfold WPnd at hp
      rw [b4] at hp
      simp only [PendS, and_false, false_or] at hp
      omega
    exact ⟨_, H', E', _, b1, step (by rw [b2.cur]; exact b2) (Nat.le_of_eq b2.cur.symm)
      (Or.inr ⟨b2.cur, Or.inr ⟨b4, by rw [b3, a1.1.frame.frame.nVert]⟩⟩)
      (fun r C hp => absurd hp (hno r C)), Or.inr ⟨rfl, hno⟩⟩

/-- `iter(G.all_cliques(W))` -/
theorem WHeld.new (h : WPyOk pg n S ω H) (junk : Nat → R) (W : R) :
    ∃ E, pg.allCliques junk W = .ok E ∧ WHeld H.g.searchStart pg n S ω H H E := by
  have w := h.ok.ok.wf
  have hsc := h.ok.ok.cur
  refine ⟨WEnum.new ((List.range H.g.maxDeg).map junk) W, ?_, by rw [hsc]; exact h.at,
    Nat.le_of_eq hsc.symm, w.start, w.arena,
    WEInv.new h.ok.at (by rw [h.of.nv]; have := h.pos; omega) _ (by simp) W,
    Or.inr ⟨hsc, Or.inl ⟨_, W, by simp, rfl⟩⟩, fun r C hp => ?_⟩
  · unfold PyNW.allCliques
    rw [h.loaded]
  · exact (new_wpend _ W r C).1 hp

/-- The lists that belong to roots and positions the iterator reports. -/
theorem root_lists (h : WPyOk pg n S ω H) {ps : List (Nat × Finset Nat)} (hd : ps.Nodup)
    (hq : ∀ q ∈ ps, 1 < q.1 ∧ q.1 < H.g.nVert ∧ RootS H q.1 q.2) :
    (∀ l ∈ ps.map (fun q => H.g.listAt q.1 q.2), IsCliqueList S n l ∧ 2 ≤ l.length) ∧
    ((∀ u v, 1 ≤ u → u ≤ n → 1 ≤ v → v ≤ n → H.d u ≤ H.d v ∨ H.d v < H.d u) →
      (ps.map fun q => H.g.listAt q.1 q.2).Nodup) := by
  have w := h.ok.ok.wf.str
  have hnv := h.of.nv
  constructor
  · intro l hl
    obtain ⟨⟨r, C⟩, hm, rfl⟩ := List.mem_map.1 hl
    obtain ⟨b1, b2, b3, b4⟩ := hq _ hm
    simp only at b1 b2 b3 b4 ⊢
    refine ⟨listAt_clique h.of w b2 (by omega) b3.1, ?_⟩
    rw [listAt_length b3.1.2.1]
    have := Finset.card_pos.2 b4
    rw [Finset.card_erase_of_mem b3.1.1] at this
    omega
  · intro hcmp
    rw [List.nodup_map_iff_inj_on hd]
    rintro ⟨r, C⟩ hq1 ⟨r', C'⟩ hq2 he
    obtain ⟨b1, b2, b3, _⟩ := hq _ hq1
    obtain ⟨c1, c2, c3, _⟩ := hq _ hq2
    simp only at b1 b2 b3 c1 c2 c3
    obtain ⟨d1, d2⟩ := wlistAt_inj w b2 c2 (hcmp r r' (by omega) (by omega) (by omega) (by omega))
      (hcmp r' r (by omega) (by omega) (by omega) (by omega)) b3 c3 he
    rw [d1, d2]

/-- What a call of another kind reports. -/
def WSeenOk (S : SimpleGraph Nat) (n : Nat) (ω : Nat → R) : WSeen R → Prop
  | .next _ => True
  | .reset => True
  | .list _ cs => ∀ l ∈ cs, IsCliqueList S n l ∧ 2 ≤ l.length
  | .found a r => ∀ l, r = .ret l → (l = [0] ∧ ¬ (0 : R) + 0 < a.lowerBound) ∨
      (IsCliqueList S n l ∧ ¬ summed ω l < a.lowerBound)

/-- A call of another kind while the iterator is held. -/
theorem WHeld.call (h : WHeld b pg n S ω Hs H E) {op : WOp R} (hl : op.Legal) :
    ∃ pg' Hs' H' s, (WAct.call op).run pg E = .ok (pg', E, s) ∧
      WHeld b pg' n S ω Hs' H' E ∧ WFrame Hs Hs' ∧
      (∀ r C, WPnd Hs' H' E r C ↔ WPnd Hs H E r C) ∧ WSeenOk S n ω s ∧ ∀ c, s ≠ .next c := by
  cases op with
  | search srt junk a =>
    obtain ⟨pg', H', a1, a2, a3, a4, _⟩ := wsearch_at h.py hl junk a
    obtain ⟨Hs', c1, c2, c3⟩ := h.resume a2 a3 a4
    refine ⟨pg', Hs', H', .found a (if a.lowerBound > summed H'.w (wstored H') then .raise
      else .ret (wstored H')), ?_, c1, c2, c3, ?_, by simp⟩
    · show (pg.getMaxClique srt junk a >>= _) = _
      rw [a1, ok_bind]
    · intro l hr
      split at hr
      · cases hr
      · rename_i hlt
        injection hr with hr
        subst hr
        by_cases h0 : H'.curLoc = 0
        · refine Or.inl ⟨wstored_zero_at a2 h0, ?_⟩
          rw [wstored_zero_at a2 h0] at hlt
          simp only [summed, List.foldl_cons, List.foldl_nil, a2.w0] at hlt
          exact hlt
        · have hc := wstored_clique_at a2 h0
          have hs : summed H'.w (wstored H') = summed ω (wstored H') :=
            summed_congr (fun v hv => a2.w v (hc.range v hv).1 (hc.range v hv).2)
          rw [hs] at hlt
          exact Or.inr ⟨hc, hlt⟩
  | reset =>
    obtain ⟨Hs', c1, c2, c3⟩ := h.resume (pg' := { pg with
        G := some { H with curMax := 0 }, finishedAll := false, currentVertex := 0 })
      (H' := { H with curMax := 0 })
      ⟨rfl, h.py.nv, h.py.pos, ⟨h.py.ok.ok, ⟨h.py.ok.l.wt, h.py.ok.l.deg, h.py.ok.l.mcs⟩,
        h.py.ok.loc⟩, h.py.of, h.py.w, h.py.w0⟩ ⟨Frame.refl _, rfl, rfl, rfl, rfl, rfl, rfl⟩
      (fun _ _ _ => rfl)
    refine ⟨_, Hs', _, .reset, ?_, c1, c2, c3, trivial, by simp⟩
    show (pg.resetSearch >>= _) = _
    unfold PyNW.resetSearch
    rw [h.py.g, ok_bind]
  | list junk W =>
    obtain ⟨_, _, H', _, cs, _, _, _, _, a1, a2, a3, a4, _⟩ := wlistCliques_at h.py junk W
    have F := a3.frame
    obtain ⟨Hs', c1, c2, c3⟩ := h.resume (pg' := { pg with G := some H' }) (H' := H')
      ⟨rfl, h.py.nv, h.py.pos, a3.okAt h.py.ok a2, h.py.of.frame F.frame,
        fun v h1 h2 => by rw [F.w]; exact h.py.w v h1 h2, by rw [F.w]; exact h.py.w0⟩ F
      a3.core.low
    refine ⟨_, Hs', _, .list W cs, ?_, c1, c2, c3, a4, by simp⟩
    show (pg.listCliques junk W >>= _) = _
    rw [a1, ok_bind]

/-- A program that holds one iterator. -/
theorem wacts_spec : ∀ (xs : List (WAct R)) {pg : PyNW R} {Hs H : NWG R} {E : WEnum R},
    WHeld b pg n S ω Hs H E → (∀ op, WAct.call op ∈ xs → op.Legal) →
    ∃ (pg' : PyNW R) (E' : WEnum R) (ss : List (WSeen R)) (ps : List (Nat × Finset Nat)) (j : Nat),
      wacts xs pg E = .ok (pg', E', ss) ∧ ps.Nodup ∧ (∀ q ∈ ps, WPnd Hs H E q.1 q.2) ∧
      WSeen.answers ss = (ps.map fun q => some (Hs.g.listAt q.1 q.2)) ++ List.replicate j none ∧
      ∀ s ∈ ss, WSeenOk S n ω s := by
  intro xs
  induction xs with
  | nil =>
    intro pg Hs H E h _
    exact ⟨pg, E, [], [], 0, rfl, List.nodup_nil, by simp, rfl, by simp⟩
  | cons x xs ih =>
    intro pg Hs H E h hc
    have hc' : ∀ op, WAct.call op ∈ xs → op.Legal := fun op ho => hc op (List.mem_cons_of_mem _ ho)
    cases x with
    | next =>
      obtain ⟨pg1, H1, E1, c, a1, a2, a3⟩ := h.next
      obtain ⟨pg2, E2, ss, ps, j, b1, b2, b3, b4, b5⟩ := ih a2 hc'
      have hrun : wacts (WAct.next :: xs) pg E = .ok (pg2, E2, .next c :: ss) := by
        show ((pg.nextClique E >>= _) >>= _) = _
        rw [a1, ok_bind, ok_bind]
        show (wacts xs pg1 E1 >>= _) = _
        rw [b1, ok_bind]
      have hseen : ∀ s ∈ WSeen.next c :: ss, WSeenOk S n ω s := by
        intro s hs
        rcases List.mem_cons.1 hs with rfl | hs
        · trivial
        · exact b5 s hs
      rcases a3 with ⟨v, C, rfl, hp, hS⟩ | ⟨rfl, hno⟩
      · refine ⟨pg2, E2, _, (v, C) :: ps, j, hrun, ?_, ?_, ?_, hseen⟩
        · rw [List.nodup_cons]
          exact ⟨fun hm => (hS _ _ (b3 _ hm)).2 ⟨rfl, rfl⟩, b2⟩
        · intro q hq
          rcases List.mem_cons.1 hq with rfl | hq
          · exact hp
          · exact (hS _ _ (b3 q hq)).1
        · show some (Hs.g.listAt v C) :: WSeen.answers ss = _
          rw [b4]; rfl
      · have hps : ps = [] := by
          rw [List.eq_nil_iff_forall_not_mem]
          intro q hq
          exact hno _ _ (b3 q hq)
        subst hps
        refine ⟨pg2, E2, _, [], j + 1, hrun, b2, by simp, ?_, hseen⟩
        show none :: WSeen.answers ss = _
        rw [b4]; rfl
    | call op =>
      obtain ⟨pg1, Hs1, H1, s, a1, a2, a3, a4, a5, a6⟩ := h.call (hc op (List.mem_cons_self ..))
      obtain ⟨pg2, E2, ss, ps, j, b1, b2, b3, b4, b5⟩ := ih a2 hc'
      refine ⟨pg2, E2, s :: ss, ps, j, ?_, b2, fun q hq => (a4 _ _).1 (b3 q hq), ?_, ?_⟩
      · show ((WAct.call op).run pg E >>= _) = _
        rw [a1, ok_bind]
        show (wacts xs pg1 E >>= _) = _
        rw [b1, ok_bind]
      · have hL : ∀ q : Nat × Finset Nat, Hs1.g.listAt q.1 q.2 = Hs.g.listAt q.1 q.2 := by
          intro q
          unfold listAt
          rw [a3.V]
          congr 1
          funext i
          exact a3.frame.e q.1 i
        simp only [hL] at b4
        rw [← b4]
        cases s with
        | next c => exact absurd rfl (a6 c)
        | found a r => rfl
        | reset => rfl
        | list W cs => rfl
      · intro s' hs
        rcases List.mem_cons.1 hs with rfl | hs
        · exact a5
        · exact b5 s' hs

end AW

end NWG

end CM
