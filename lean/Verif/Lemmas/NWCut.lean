import Verif.Lemmas.Cut
import Verif.Model.NWApi

/-! # Weighted runs with and without the moved buffer -/

namespace CM

variable {R : Type}

namespace NWG

/-- The graph after its buffer was moved. -/
def mv (H : NWG R) : NWG R := { H with g := H.g.mv }

/-- The graph in the first component of a pair. -/
abbrev mvp {α : Type} (s : NWG R × α) : NWG R × α := (s.1.mv, s.2)

variable [Zero R] [Add R] [Sub R] [NatCast R] [LT R] [LE R] [DecidableLT R] [DecidableLE R]

theorem saveClique_cut (H : NWG R) (cur : Nat) (V : Vtx) (res : GBits) (size : R) :
    Cut mv (H.mv.saveClique cur V res size) (H.saveClique cur V res size) := by
  unfold saveClique
  exact Graph.vbits_cut H.g V

/-- How the inner loop ends, with the buffer moved. -/
def ForExit.mv : ForExit R → ForExit R
  | .pushed H t n cw => .pushed H.mv t n cw
  | .done H t j => .done H.mv t j

theorem stackFor_cut (cur : Nat) (V : Vtx) (req : Nat) (ws : List R) (cw : R)
    (s : NWG R × WState R) :
    Cut (Sum.map mvp ForExit.mv) (stackFor cur V req ws cw (mvp s)) (stackFor cur V req ws cw s) := by
  obtain ⟨H, top⟩ := s
  unfold stackFor
  refine Cut.ite ?_ (Cut.pure (f := Sum.map mvp ForExit.mv) (.inr (.done H top top.startAt)))
  refine Cut.same fun eb => Cut.same fun sa => Cut.same fun wj => Cut.same fun c => ?_
  refine Cut.same fun vert => Cut.same fun U => Cut.same fun r => ?_
  refine Cut.ite (Cut.ite ?_ ?_) ?_
  · refine Cut.same fun eb' => ?_
    refine Cut.bind (saveClique_cut { H with g := { H.g with eb := eb' } } cur V top.res _)
      fun H => ?_
    exact Cut.same fun eb => Cut.pure (f := Sum.map mvp ForExit.mv) (.inl _)
  · refine Cut.same fun a => Cut.same fun b => Cut.same fun d => ?_
    exact Cut.pure (f := Sum.map mvp ForExit.mv)
      (.inr (.pushed { H with g := { { H.g with eb := c.1 } with
        searchCur := uadd H.g.searchCur req, eb := d } } _ _ _))
  · exact Cut.pure (f := Sum.map mvp ForExit.mv) (.inl ({ H with g := { H.g with eb := c.1 } }, _))

theorem stackBody_cut (cur : Nat) (V : Vtx) (req : Nat) (ws : List R)
    (s : NWG R × List (WState R) × R) :
    Cut (Sum.map mvp mvp) (stackBody cur V req ws (mvp s)) (stackBody cur V req ws s) := by
  obtain ⟨H, states, cw⟩ := s
  unfold stackBody
  cases states with
  | nil => exact Cut.pure (f := Sum.map mvp mvp) (.inr _)
  | cons top rest =>
    refine Cut.ite (Cut.pure (f := Sum.map mvp mvp) (.inr _)) ?_
    refine Cut.same fun c => Cut.same fun sa => ?_
    refine Cut.bind (Cut.loop (stackFor_cut cur V req ws cw) _
      ({ H with g := { H.g with eb := c.1 } }, { top with startAt := sa })) fun r => ?_
    cases r with
    | pushed H top new cw => exact Cut.pure (f := Sum.map mvp mvp) (.inl _)
    | done H top j =>
      refine Cut.ite ?_ (Cut.pure (f := Sum.map mvp mvp) (.inl _))
      refine Cut.bind (Graph.clearMemory_cut H.g req) fun g => ?_
      refine Cut.same fun eb => Cut.same fun w => ?_
      exact Cut.pure (f := Sum.map mvp mvp) (.inl ({ H with g := { g with eb := eb } }, _, _))

theorem stackVertex_cut (s : NWG R × List R) (cur : Nat) :
    Cut mvp (stackVertex (mvp s) cur) (stackVertex s cur) := by
  obtain ⟨H, ws⟩ := s
  unfold stackVertex
  refine Cut.same fun V => ?_
  refine Cut.bind (Graph.rootState_cut H.g V _) fun r => ?_
  refine Cut.same fun c => Cut.same fun wc => ?_
  refine Cut.ite ?_ ?_
  · refine Cut.bind (Graph.clearMemory_cut { r.1 with eb := c.1 } _) fun g => ?_
    exact Cut.pure (f := mvp) ({ H with g := g }, c.2.1)
  · refine Cut.bind (Cut.loop (stackBody_cut cur V _ _) _
      ({ H with g := { r.1 with eb := c.1 } }, [⟨r.2.id, r.2.startAt, c.2.2, r.2.res, r.2.cand⟩], wc))
      fun q => ?_
    have hend : ∀ g : Graph, Cut mvp
        (g.mv.clearMemory (dlen V.N) >>= fun g => .ok ({ q.1.mv with g := g }, c.2.1))
        (g.clearMemory (dlen V.N) >>= fun g => .ok ({ q.1 with g := g }, c.2.1)) := fun g =>
      Cut.bind (Graph.clearMemory_cut g _) fun g =>
        Cut.pure (f := mvp) ({ q.1 with g := g }, c.2.1)
    refine Cut.ite ?_ ?_
    · exact Cut.bind (Cut.pure (f := Graph.mv) q.1.g) hend
    · exact Cut.bind (Graph.clearMemory_cut q.1.g _) hend

theorem stackGraph_cut (junk : Nat → R) (H : NWG R) :
    Cut mvp (H.mv.stackGraph junk) (H.stackGraph junk) := by
  unfold stackGraph
  refine Cut.bind (stackVertex_cut (H, _) H.curLoc) fun s => ?_
  refine Cut.bind (Cut.forRange (f := mvp) ?_ 0 s.1.g.nVert s) fun s =>
    Cut.pure (f := mvp) (s.1, s.1.g.nVert)
  intro i s
  refine Cut.same fun m => ?_
  exact Cut.ite (Cut.pure (f := mvp) s) (stackVertex_cut s i)

theorem heurGrow_cut (cur : Nat) (V : Vtx) (nb : List (WData R)) (k : Nat) (res cand : GBits)
    (s : NWG R × Nat × R × Nat × R) :
    Cut (Sum.map mvp mv) (heurGrow cur V nb k res cand (mvp s))
      (heurGrow cur V nb k res cand s) := by
  obtain ⟨H, i, cw, left, cp⟩ := s
  unfold heurGrow
  refine Cut.ite ?_ (Cut.pure (f := Sum.map mvp mv) (.inr H))
  refine Cut.same fun x => Cut.same fun b => ?_
  refine Cut.ite ?_ (Cut.pure (f := Sum.map mvp mv) (.inl (H, i + 1, cw, left, cp)))
  refine Cut.same fun eb => Cut.same fun w => Cut.same fun eb => Cut.same fun c => ?_
  refine Cut.ite (Cut.pure (f := Sum.map mvp mv) (.inr { H with g := { H.g with eb := c.1 } })) ?_
  refine Cut.ite ?_ (Cut.pure (f := Sum.map mvp mv)
    (.inl ({ H with g := { H.g with eb := c.1 } }, _, _, _, _)))
  exact Graph.vbits_cut { H.g with eb := c.1 } V

theorem heurVertex_cut (srt : List (WData R) → List (WData R)) (s : NWG R × List (WData R))
    (cur : Nat) (res cand : GBits) :
    Cut mvp (heurVertex srt (mvp s) cur res cand) (heurVertex srt s cur res cand) := by
  obtain ⟨H, nb⟩ := s
  unfold heurVertex
  refine Cut.same fun V => Cut.same fun eb => Cut.same fun eb => Cut.same fun eb => ?_
  refine Cut.same fun cw => Cut.same fun c => ?_
  refine Cut.ite (Cut.pure (f := mvp) ({ H with g := { H.g with eb := c.1 } }, c.2.1)) ?_
  refine Cut.bind (Cut.loop (heurGrow_cut cur V _ _ res cand) _
    ({ H with g := { H.g with eb := c.1 } }, 0, _, _, _)) fun H => ?_
  exact Cut.pure (f := mvp) (H, _)

theorem heurGraph_cut (srt : List (WData R) → List (WData R)) (H : NWG R) :
    Cut mv (H.mv.heurGraph srt) (H.heurGraph srt) := by
  unfold heurGraph
  refine Cut.bind (heurVertex_cut srt
    ({ H with g := { H.g with
      searchCur := uadd (uadd H.g.searchCur (dlen H.g.maxDeg)) (dlen H.g.maxDeg) } }, _)
    H.curLoc _ _) fun s => ?_
  refine Cut.bind (Cut.loop (f := fun s : (NWG R × List (WData R)) × Nat => (mvp s.1, s.2))
    (g := mv) ?_ _ (s, 0)) fun H => ?_
  · rintro ⟨⟨H, nb⟩, i⟩
    refine Cut.ite ?_ (Cut.pure (f := Sum.map
      (fun s : (NWG R × List (WData R)) × Nat => (mvp s.1, s.2)) mv) (.inr H))
    refine Cut.same fun m => ?_
    refine Cut.ite (Cut.pure (f := Sum.map
      (fun s : (NWG R × List (WData R)) × Nat => (mvp s.1, s.2)) mv) (.inl ((H, nb), i + 1))) ?_
    refine Cut.bind (heurVertex_cut srt (H, nb) i _ _) fun s => ?_
    exact Cut.pure (f := Sum.map
      (fun s : (NWG R × List (WData R)) × Nat => (mvp s.1, s.2)) mv) (.inl (s, i + 1))
  · refine Cut.bind (Graph.clearMemory_cut H.g _) fun g => ?_
    exact Cut.pure (f := mv) { H with g := g }

theorem findMaxCliques_cut (srt : List (WData R) → List (WData R)) (junk : Nat → R) (H : NWG R)
    (k : Nat) (useHeur useDfs : Bool) :
    Cut mvp (H.mv.findMaxCliques srt junk k useHeur useDfs)
      (H.findMaxCliques srt junk k useHeur useDfs) := by
  unfold findMaxCliques
  have hend : ∀ H : NWG R, Cut mvp
      (if useDfs then H.mv.stackGraph junk else .ok (H.mv, k))
      (if useDfs then H.stackGraph junk else .ok (H, k)) := fun H =>
    Cut.ite (stackGraph_cut junk H) (Cut.pure (f := mvp) (H, k))
  refine Cut.ite ?_ ?_
  · exact Cut.bind (heurGraph_cut srt H) hend
  · exact Cut.bind (Cut.pure (f := mv) H) hend

end NWG

variable [Zero R] [Add R] [Sub R] [NatCast R] [LT R] [LE R] [DecidableLT R] [DecidableLE R]

/-- Every search on a weighted graph whose buffer was moved runs into undefined behaviour, if
the same search would return with the buffer in place. -/
theorem wgetMaxClique_moved {pg : PyNW R} {H : NWG R} (hG : pg.G = some H) (hn : pg.nvert ≠ 0)
    {srt : List (NWG.WData R) → List (NWG.WData R)} {junk : Nat → R} {a : PyNW.Args R}
    {r : PyNW R × PyRes (List Nat)} (h : pg.getMaxClique srt junk a = .ok r) :
    { pg with G := some H.mv }.getMaxClique srt junk a = .error .ub := by
  unfold PyNW.getMaxClique PyNW.checkLoaded at h ⊢
  simp only [hn, if_false, hG] at h ⊢
  obtain ⟨q, h1, h2⟩ := bind_eq_ok.1 h
  rcases NWG.findMaxCliques_cut srt junk _ _ _ _ q h1 with h' | h'
  · erw [h']; rfl
  · erw [h', ok_bind]
    obtain ⟨c, h3, h4⟩ := bind_eq_ok.1 h2
    unfold NWG.getClique Graph.getClique at h3 ⊢
    obtain ⟨d, h3, h5⟩ := bind_eq_ok.1 h3
    obtain ⟨V, h5, h6⟩ := bind_eq_ok.1 h3
    have e : q.1.mv.g.vtx q.1.mv.curLoc = q.1.g.vtx q.1.curLoc := rfl
    simp only [NWG.mvp] at *
    rw [e, h5, ok_bind]
    rfl

end CM
