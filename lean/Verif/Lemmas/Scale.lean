import Verif.SpecScale
import Verif.Model.Units
import Verif.Lemmas.Basic

/-! # Weighted graphs in two units -/

namespace CM

open Spec

/-! ## Loops and a change of representation -/

section

variable {α β γ δ σ τ ρ θ : Type}

theorem map_bindM (x : M α) (k : α → M β) (g : β → γ) :
    (x >>= k).map g = x >>= fun a => (k a).map g := by
  cases x <;> rfl

theorem bind_mapM (x : M α) (f : α → β) (k : β → M γ) : x.map f >>= k = x >>= fun a => k (f a) := by
  cases x <;> rfl

theorem map_okM (f : α → β) (a : α) : (Except.ok a : M α).map f = .ok (f a) := rfl

theorem map_errM (f : α → β) (e : Fault) : (Except.error e : M α).map f = .error e := rfl

theorem bind_congrM {x : M α} {k k' : α → M β} (h : ∀ a, k a = k' a) : x >>= k = x >>= k' := by
  cases x with
  | error e => rfl
  | ok a => exact h a

theorem map_id' (x : M α) {f : α → α} (h : ∀ a, f a = a) : x.map f = x := by
  cases x with
  | error e => rfl
  | ok a => exact congrArg Except.ok (h a)

theorem forN_mapM {f : σ → τ} {b : Nat → σ → M σ} {b' : Nat → τ → M τ}
    (h : ∀ i s, b' i (f s) = (b i s).map f) :
    ∀ n lo s, forN n lo b' (f s) = (forN n lo b s).map f := by
  intro n
  induction n with
  | zero => intro lo s; rfl
  | succ n ih =>
    intro lo s
    unfold forN
    rw [h]
    cases b lo s with
    | error e => rfl
    | ok s' => exact ih _ _

theorem forRange_mapM {f : σ → τ} {b : Nat → σ → M σ} {b' : Nat → τ → M τ}
    (h : ∀ i s, b' i (f s) = (b i s).map f) (lo hi : Nat) (s : σ) :
    forRange lo hi b' (f s) = (forRange lo hi b s).map f :=
  forN_mapM h _ _ _

theorem loop_mapM {f : σ → τ} {g : ρ → θ} {b : σ → M (σ ⊕ ρ)} {b' : τ → M (τ ⊕ θ)}
    (h : ∀ s, b' (f s) = (b s).map (Sum.map f g)) :
    ∀ n s, loop n b' (f s) = (loop n b s).map g := by
  intro n
  induction n with
  | zero => intro s; rfl
  | succ n ih =>
    intro s
    unfold loop
    rw [h]
    cases b s with
    | error e => rfl
    | ok x =>
      cases x with
      | inl s' => exact ih s'
      | inr r => rfl

theorem foldlM_mapM {f : σ → τ} {b : σ → α → M σ} {b' : τ → α → M τ}
    (h : ∀ s a, b' (f s) a = (b s a).map f) :
    ∀ (l : List α) s, l.foldlM b' (f s) = (l.foldlM b s).map f := by
  intro l
  induction l with
  | nil => intro s; rfl
  | cons a l ih =>
    intro s
    rw [List.foldlM_cons, List.foldlM_cons, h]
    cases b s a with
    | error e => rfl
    | ok s' => exact ih s'

theorem rd_mapM (f : α → β) (l : List α) (i : Nat) : rd (l.map f) i = (rd l i).map f := by
  unfold rd
  rw [List.getElem?_map]
  cases l[i]? <;> rfl

theorem wr_mapM (f : α → β) (l : List α) (i : Nat) (a : α) :
    wr (l.map f) i (f a) = (wr l i a).map (List.map f) := by
  unfold wr
  rw [List.length_map]
  split
  · rw [map_okM, List.map_set]
  · rfl

end

/-! ## The objects in the other unit -/

variable {R R' : Type} [Zero R] [Add R] [Sub R] [NatCast R] [LT R] [LE R] [DecidableLT R]
  [DecidableLE R] [Zero R'] [Add R'] [Sub R'] [NatCast R'] [LT R'] [LE R'] [DecidableLT R']
  [DecidableLE R'] {φ : R → R'}

/-- The graph with its weights in the other unit. -/
def NWG.unit (φ : R → R') (H : NWG R) : NWG R' :=
  { g := H.g, wt := H.wt.map φ, deg := H.deg.map φ, mcs := H.mcs.map φ, limit := φ H.limit,
    curMax := φ H.curMax, curLoc := H.curLoc }

def WState.unit (φ : R → R') (x : WState R) : WState R' :=
  { id := x.id, startAt := x.startAt, pot := φ x.pot, res := x.res, cand := x.cand }

def WEnum.unit (φ : R → R') (E : WEnum R) : WEnum R' :=
  { states := E.states.map (WState.unit φ), ws := E.ws.map φ, cliqueWeight := φ E.cliqueWeight,
    cur := E.cur, req := E.req, required := φ E.required }

def NWG.ForExit.unit (φ : R → R') : NWG.ForExit R → NWG.ForExit R'
  | .pushed H top new cw => .pushed (H.unit φ) (top.unit φ) (new.unit φ) (φ cw)
  | .done H top j => .done (H.unit φ) (top.unit φ) j

def NWG.EnumExit.unit (φ : R → R') : NWG.EnumExit R → NWG.EnumExit R'
  | .found H top => .found (H.unit φ) (top.unit φ)
  | .pushed H top new cw => .pushed (H.unit φ) (top.unit φ) (new.unit φ) (φ cw)
  | .done H top => .done (H.unit φ) (top.unit φ)

def PyNW.unit (φ : R → R') (pg : PyNW R) : PyNW R' :=
  { G := pg.G.map (NWG.unit φ), finishedAll := pg.finishedAll, nvert := pg.nvert,
    nedges := pg.nedges, currentVertex := pg.currentVertex }

namespace NWG

variable (hφ : Rescales φ)
include hφ

/-! ## The constructor -/

theorem degOf_unit (g : Graph) (wts : List R) (i : Nat) :
    degOf g (wts.map φ) i = (degOf g wts i).map φ := by
  unfold degOf
  rw [map_bindM]
  refine bind_congrM fun V => ?_
  rw [← hφ.zero]
  refine forRange_mapM (fun j d => ?_) _ _ _
  rw [map_bindM]
  refine bind_congrM fun x => ?_
  rw [rd_mapM, bind_mapM, map_bindM]
  refine bind_congrM fun w => ?_
  rw [map_okM, hφ.add]

theorem mcsOf_unit (H : NWG R) (cur : Nat) : (H.unit φ).mcsOf cur = (H.mcsOf cur).map φ := by
  unfold mcsOf
  have hg : (H.unit φ).g = H.g := rfl
  have hd : (H.unit φ).deg = H.deg.map φ := rfl
  have hw : (H.unit φ).wt = H.wt.map φ := rfl
  simp only [hg, hd, hw]
  rw [map_bindM]
  refine bind_congrM fun V => ?_
  rw [map_bindM, ← hφ.zero]
  rw [forRange_mapM (f := φ) (b := fun j m => do
    let vert ← H.g.nbr V j
    let dv ← rd H.deg vert
    let d ← rd H.deg cur
    let w ← rd H.wt vert
    .ok (if dv > d then m + w else m)), bind_mapM]
  · refine bind_congrM fun m => ?_
    refine forRange_mapM (fun j d => ?_) _ _ _
    simp only [rd_mapM, bind_mapM, map_bindM, map_okM]
    refine bind_congrM fun x => bind_congrM fun x => bind_congrM fun x => bind_congrM fun x => ?_
    simp only [ge_iff_le, hφ.le]
    split
    · rw [hφ.add]
    · rfl
  · intro j d
    simp only [rd_mapM, bind_mapM, map_bindM, map_okM]
    refine bind_congrM fun x => bind_congrM fun x => bind_congrM fun x => bind_congrM fun x => ?_
    simp only [gt_iff_lt, hφ.lt]
    split
    · rw [hφ.add]
    · rfl

theorem boundsLoop_unit (H : NWG R) : (H.unit φ).boundsLoop = H.boundsLoop.map (unit φ) := by
  unfold boundsLoop
  have e : ({ H.unit φ with limit := 0 } : NWG R') = unit φ { H with limit := 0 } := by
    unfold unit
    rw [hφ.zero]
  rw [e]
  refine forRange_mapM (fun cur A => ?_) _ _ _
  rw [mcsOf_unit hφ, bind_mapM, map_bindM]
  refine bind_congrM fun m => ?_
  rw [show (A.unit φ).mcs = A.mcs.map φ from rfl, wr_mapM, bind_mapM, map_bindM]
  refine bind_congrM fun l => ?_
  have hc : (φ m > (A.unit φ).limit) ↔ m > A.limit := hφ.lt _ _
  by_cases h : m > A.limit
  · rw [if_pos (show φ m > _ from hc.2 h), if_pos (show m > _ from h)]
    rfl
  · rw [if_neg (show ¬ φ m > _ from fun x => h (hc.1 x)), if_neg (show ¬ m > _ from h)]
    rfl

theorem ctor_unit (l : Bool) (c n : Nat) (edges : Edges) (wts : List R) :
    ctor l c n edges (wts.map φ) = (ctor l c n edges wts).map (unit φ) := by
  unfold ctor
  rw [map_bindM]
  refine bind_congrM fun g => ?_
  rw [map_bindM]
  rw [show (([], []) : List R' × List R') =
    (fun s : List R × List R => (s.1.map φ, s.2.map φ)) ([], []) from rfl,
    forRange_mapM (f := fun s : List R × List R => (s.1.map φ, s.2.map φ)) (b := fun i s => do
      let d ← degOf g wts i
      let w ← rd wts i
      .ok (s.1 ++ [w], s.2 ++ [d])), bind_mapM]
  · refine bind_congrM fun s => ?_
    rw [← boundsLoop_unit hφ]
    unfold unit
    rw [hφ.zero]
  · intro i s
    rw [degOf_unit hφ, bind_mapM, map_bindM]
    refine bind_congrM fun d => ?_
    rw [rd_mapM, bind_mapM, map_bindM]
    refine bind_congrM fun w => ?_
    simp [map_okM]

omit hφ [Zero R] [Add R] [Sub R] [NatCast R] [LT R] [LE R] [DecidableLT R] [DecidableLE R]
  [Zero R'] [Add R'] [Sub R'] [NatCast R'] [LT R'] [LE R'] [DecidableLT R'] [DecidableLE R'] in
theorem getClique_unit (H : NWG R) (i : Nat) :
    (H.unit φ).getClique i = (H.getClique i).map fun x => (x.1.unit φ, x.2) := by
  unfold getClique
  rw [map_bindM]
  exact bind_congrM fun x => rfl

theorem cliqueWeight_unit (H : NWG R) (l : List Nat) :
    (H.unit φ).cliqueWeight l = (H.cliqueWeight l).map φ := by
  unfold cliqueWeight
  rw [← hφ.zero]
  refine foldlM_mapM (fun s v => ?_) _ _
  rw [show (H.unit φ).g = H.g from rfl, show (H.unit φ).wt = H.wt.map φ from rfl]
  split
  · rw [rd_mapM, bind_mapM, map_bindM]
    refine bind_congrM fun w => ?_
    rw [map_okM, hφ.add]
  · rfl

/-! ## The exact search -/

theorem fillCand_unit (H : NWG R) (cur : Nat) (V : Vtx) (cand : GBits) (eb : Mem) (ws : List R) :
    (H.unit φ).fillCand cur V cand eb (ws.map φ) =
      (H.fillCand cur V cand eb ws).map fun s => (s.1, s.2.1.map φ, φ s.2.2) := by
  unfold fillCand
  have hg : (H.unit φ).g = H.g := rfl
  have hd : (H.unit φ).deg = H.deg.map φ := rfl
  have hw : (H.unit φ).wt = H.wt.map φ := rfl
  simp only [hg, hd, hw]
  rw [map_bindM]
  rw [show ((eb, ws.map φ, 0) : Mem × List R' × R') =
    (fun s : Mem × List R × R => (s.1, s.2.1.map φ, φ s.2.2)) (eb, ws, 0) by simp only [hφ.zero],
    forRange_mapM (f := fun s : Mem × List R × R => (s.1, s.2.1.map φ, φ s.2.2))
      (b := fun j s => do
        let vert ← H.g.nbr V j
        let dv ← rd H.deg vert
        let d ← rd H.deg cur
        if dv ≤ d then .ok s
        else do
          let eb ← cand.set s.1 j
          let w ← rd H.wt vert
          let ws ← wr s.2.1 j w
          .ok (eb, ws, s.2.2 + w)), bind_mapM]
  · refine bind_congrM fun m => ?_
    refine forRange_mapM (f := fun s : Mem × List R × R => (s.1, s.2.1.map φ, φ s.2.2))
      (fun j d => ?_) _ _ _
    simp only [rd_mapM, bind_mapM, map_bindM]
    refine bind_congrM fun x => bind_congrM fun x => bind_congrM fun x => ?_
    simp only [hφ.lt]
    split
    · rfl
    · simp only [wr_mapM, bind_mapM, map_bindM, map_okM, hφ.add]
  · intro j d
    simp only [rd_mapM, bind_mapM, map_bindM]
    refine bind_congrM fun x => bind_congrM fun x => bind_congrM fun x => ?_
    simp only [hφ.le]
    split
    · rfl
    · simp only [wr_mapM, bind_mapM, map_bindM, map_okM, hφ.add]

omit hφ [Zero R] [Add R] [Sub R] [NatCast R] [LT R] [LE R] [DecidableLT R] [DecidableLE R]
  [Zero R'] [Add R'] [Sub R'] [NatCast R'] [LT R'] [LE R'] [DecidableLT R'] [DecidableLE R'] in
theorem saveClique_unit (H : NWG R) (cur : Nat) (V : Vtx) (res : GBits) (size : R) :
    (H.unit φ).saveClique cur V res (φ size) = (H.saveClique cur V res size).map (unit φ) := by
  unfold saveClique
  simp only [show (H.unit φ).g = H.g from rfl, show (H.unit φ).mcs = H.mcs.map φ from rfl,
    wr_mapM, bind_mapM, map_bindM, map_okM]
  rfl

theorem stackScan_unit (H : NWG R) (V U : Vtx) (cand : GBits) (eb : Mem) (ws : List R)
    (left k0 : Nat) : (H.unit φ).stackScan V U cand eb (ws.map φ) left k0 =
      (H.stackScan V U cand eb ws left k0).map fun s => (s.1, s.2.1, φ s.2.2) := by
  unfold stackScan
  rw [show ((k0, [], left, 0) : Nat × List Nat × Nat × R') =
    (fun s : Nat × List Nat × Nat × R => (s.1, s.2.1, s.2.2.1, φ s.2.2.2)) (k0, [], left, 0) by
      simp only [hφ.zero]]
  refine loop_mapM (f := fun s : Nat × List Nat × Nat × R => (s.1, s.2.1, s.2.2.1, φ s.2.2.2))
    (g := fun s : List Nat × Nat × R => (s.1, s.2.1, φ s.2.2)) (fun s => ?_) _ _
  obtain ⟨k, rm, left, pot⟩ := s
  simp only [show (H.unit φ).g = H.g from rfl]
  split
  · simp only [bind_mapM, map_bindM]
    refine bind_congrM fun val => bind_congrM fun x => ?_
    obtain ⟨f, _⟩ := x
    cases f
    · simp only [Bool.false_eq_true, if_false, map_bindM]
      rfl
    · simp only [if_true, map_bindM, rd_mapM, bind_mapM, ← hφ.add]
      rfl
  · rfl

theorem stackFor_unit (cur : Nat) (V : Vtx) (req : Nat) (ws : List R) (cw : R)
    (s : NWG R × WState R) :
    stackFor cur V req (ws.map φ) (φ cw) (s.1.unit φ, s.2.unit φ) =
      (stackFor cur V req ws cw s).map
        (Sum.map (fun s => (s.1.unit φ, s.2.unit φ)) (ForExit.unit φ)) := by
  obtain ⟨H, top⟩ := s
  unfold stackFor
  simp only [show (H.unit φ).g = H.g from rfl, show (top.unit φ).startAt = top.startAt from rfl,
    show (top.unit φ).cand = top.cand from rfl, show (top.unit φ).res = top.res from rfl]
  split
  · simp only [rd_mapM, bind_mapM, map_bindM]
    refine bind_congrM fun eb => bind_congrM fun sa => bind_congrM fun wj => bind_congrM fun x => ?_
    obtain ⟨eb', left⟩ := x
    simp only [map_bindM]
    refine bind_congrM fun vert => bind_congrM fun U => ?_
    have e := stackScan_unit hφ ({ H with g := { H.g with eb := eb' } } : NWG R) V U top.cand eb' ws left sa
    rw [show ({ H.unit φ with g := { H.g with eb := eb' } } : NWG R') =
      unit φ { H with g := { H.g with eb := eb' } } from rfl, e, bind_mapM]
    refine bind_congrM fun y => ?_
    obtain ⟨rm, left, cp⟩ := y
    simp only [← hφ.add, gt_iff_lt]
    have hc : (H.unit φ).curMax < φ (cp + cw + wj) ↔ H.curMax < cp + cw + wj := hφ.lt _ _
    by_cases hp : H.curMax < cp + cw + wj
    · rw [if_pos (show (unit φ H).curMax < φ (cp + cw + wj) from hc.2 hp), if_pos hp]
      by_cases hz : left = 0
      · rw [if_pos hz, if_pos hz, map_bindM]
        refine bind_congrM fun eb2 => ?_
        rw [map_bindM]
        have e := saveClique_unit (φ := φ) ({ H with g := { { H.g with eb := eb' } with eb := eb2 } } : NWG R)
          cur V top.res (cp + cw + wj)
        refine Eq.trans (congrArg (· >>= _) e) ?_
        rw [bind_mapM]
        refine bind_congrM fun H2 => ?_
        rw [map_bindM]
        refine bind_congrM fun eb3 => ?_
        show Except.ok _ = Except.ok _
        simp only [Sum.map_inl, WState.unit, unit, hφ.sub]
      · rw [if_neg hz, if_neg hz, map_bindM]
        refine bind_congrM fun z => ?_
        rw [map_bindM]
        refine bind_congrM fun eb2 => ?_
        rw [map_bindM]
        refine bind_congrM fun eb3 => ?_
        show Except.ok _ = Except.ok _
        simp only [Sum.map_inr, ForExit.unit, WState.unit, unit, hφ.sub]
    · rw [if_neg (show ¬ (unit φ H).curMax < φ (cp + cw + wj) from fun x => hp (hc.1 x)), if_neg hp]
      show Except.ok _ = Except.ok _
      simp only [Sum.map_inl, WState.unit, unit, hφ.sub]
  · rfl

theorem stackBody_unit (cur : Nat) (V : Vtx) (req : Nat) (ws : List R)
    (s : NWG R × List (WState R) × R) :
    stackBody cur V req (ws.map φ) (s.1.unit φ, s.2.1.map (WState.unit φ), φ s.2.2) =
      (stackBody cur V req ws s).map
        (Sum.map (fun s => (s.1.unit φ, s.2.1.map (WState.unit φ), φ s.2.2))
          (fun s => (s.1.unit φ, s.2.map (WState.unit φ)))) := by
  obtain ⟨H, states, cw⟩ := s
  unfold stackBody
  cases states with
  | nil => rfl
  | cons top rest =>
    simp only [List.map_cons, ge_iff_le]
    have hc : (H.unit φ).limit ≤ (H.unit φ).curMax ↔ H.limit ≤ H.curMax := hφ.le _ _
    by_cases hp : H.limit ≤ H.curMax
    · rw [if_pos (hc.2 hp), if_pos hp]
      rfl
    · rw [if_neg (fun x => hp (hc.1 x)), if_neg hp, map_bindM]
      refine bind_congrM fun x => ?_
      rw [map_bindM]
      refine bind_congrM fun sa => ?_
      rw [map_bindM]
      have e := loop_mapM (f := fun s : NWG R × WState R => (s.1.unit φ, s.2.unit φ))
        (g := ForExit.unit φ) (b := stackFor cur V req ws cw) (stackFor_unit hφ cur V req ws cw)
        (V.N + 2) ({ H with g := { H.g with eb := x.1 } }, { top with startAt := sa })
      refine Eq.trans (congrArg (· >>= _) e) ?_
      rw [bind_mapM]
      refine bind_congrM fun r => ?_
      cases r with
      | pushed H1 top1 new1 cw1 => rfl
      | done H1 top1 j =>
        show (if j = V.N then _ else _) = (if j = V.N then _ else _ : M _).map _
        by_cases hj : j = V.N
        · rw [if_pos hj, if_pos hj, map_bindM]
          refine bind_congrM fun g => ?_
          rw [map_bindM]
          refine bind_congrM fun eb => ?_
          rw [map_bindM]
          show (rd (ws.map φ) top1.id >>= _) = _
          rw [rd_mapM, bind_mapM]
          refine bind_congrM fun w => ?_
          show Except.ok _ = Except.ok _
          simp only [Sum.map_inl, hφ.sub, unit]
        · rw [if_neg hj, if_neg hj]
          rfl

theorem stackVertex_unit (s : NWG R × List R) (cur : Nat) :
    stackVertex (s.1.unit φ, s.2.map φ) cur =
      (stackVertex s cur).map fun s => (s.1.unit φ, s.2.map φ) := by
  obtain ⟨H, ws⟩ := s
  unfold stackVertex
  simp only [show (H.unit φ).g = H.g from rfl]
  rw [map_bindM]
  refine bind_congrM fun V => ?_
  rw [map_bindM]
  refine bind_congrM fun x => ?_
  rw [map_bindM]
  have e := fillCand_unit hφ ({ H with g := x.1 } : NWG R) cur V x.2.cand x.1.eb ws
  refine Eq.trans (congrArg (· >>= _) e) ?_
  rw [bind_mapM]
  refine bind_congrM fun y => ?_
  rw [map_bindM]
  show (rd (H.wt.map φ) cur >>= _) = _
  rw [rd_mapM, bind_mapM]
  refine bind_congrM fun wc => ?_
  have hc : φ y.2.2 + φ wc ≤ φ H.curMax ↔ y.2.2 + wc ≤ H.curMax := by rw [← hφ.add]; exact hφ.le _ _
  show (if φ y.2.2 + φ wc ≤ φ H.curMax then _ else _) =
    (if y.2.2 + wc ≤ H.curMax then _ else _ : M _).map _
  by_cases hp : y.2.2 + wc ≤ H.curMax
  · rw [if_pos (hc.2 hp), if_pos hp, map_bindM]
    exact bind_congrM fun g => rfl
  · rw [if_neg (fun x => hp (hc.1 x)), if_neg hp, map_bindM]
    have e := loop_mapM
      (f := fun s : NWG R × List (WState R) × R => (s.1.unit φ, s.2.1.map (WState.unit φ), φ s.2.2))
      (g := fun s : NWG R × List (WState R) => (s.1.unit φ, s.2.map (WState.unit φ)))
      (b := stackBody cur V (dlen V.N) y.2.1) (stackBody_unit hφ cur V (dlen V.N) y.2.1)
      (2 ^ (V.N + 1)) ({ H with g := { x.1 with eb := y.1 } },
        [{ id := x.2.id, startAt := x.2.startAt, pot := y.2.2, res := x.2.res, cand := x.2.cand }],
        wc)
    refine Eq.trans (congrArg (· >>= _) e) ?_
    rw [bind_mapM]
    refine bind_congrM fun z => ?_
    simp only [List.isEmpty_map, List.length_map]
    cases z.2.isEmpty
    · simp only [Bool.false_eq_true, if_false, map_bindM]
      rfl
    · simp only [if_true, map_bindM]
      rfl

theorem stackGraph_unit (junk : Nat → R) (H : NWG R) :
    (H.unit φ).stackGraph (fun i => φ (junk i)) =
      (H.stackGraph junk).map fun s => (s.1.unit φ, s.2) := by
  unfold stackGraph
  rw [map_bindM]
  have e := stackVertex_unit hφ (H, (List.range H.g.maxDeg).map junk) H.curLoc
  rw [List.map_map] at e
  refine Eq.trans (congrArg (· >>= _) e) ?_
  rw [bind_mapM]
  refine bind_congrM fun s => ?_
  rw [map_bindM]
  have e := forRange_mapM (f := fun s : NWG R × List R => (s.1.unit φ, s.2.map φ))
    (b := fun i (s : NWG R × List R) => do
      let m ← rd s.1.mcs i
      if m ≤ s.1.curMax ∨ s.1.curMax ≥ s.1.limit then .ok s
      else stackVertex s i)
    (b' := fun i (s : NWG R' × List R') => do
      let m ← rd s.1.mcs i
      if m ≤ s.1.curMax ∨ s.1.curMax ≥ s.1.limit then .ok s
      else stackVertex s i) (fun i s => by
        rw [map_bindM]
        show (rd (s.1.mcs.map φ) i >>= _) = _
        rw [rd_mapM, bind_mapM]
        refine bind_congrM fun m => ?_
        have hc : (φ m ≤ (s.1.unit φ).curMax ∨ (s.1.unit φ).curMax ≥ (s.1.unit φ).limit) ↔
            (m ≤ s.1.curMax ∨ s.1.curMax ≥ s.1.limit) := or_congr (hφ.le _ _) (hφ.le _ _)
        by_cases hp : m ≤ s.1.curMax ∨ s.1.curMax ≥ s.1.limit
        · rw [if_pos (hc.2 hp), if_pos hp]
          rfl
        · rw [if_neg (fun x => hp (hc.1 x)), if_neg hp]
          exact stackVertex_unit hφ s i) 0 s.1.g.nVert s
  refine Eq.trans (congrArg (· >>= _) e) ?_
  rw [bind_mapM]
  rfl

theorem findMaxCliques_unit (srt : List (WData R) → List (WData R))
    (srt' : List (WData R') → List (WData R')) (junk : Nat → R) (H : NWG R) (sv : Nat) (dfs : Bool) :
    (H.unit φ).findMaxCliques srt' (fun i => φ (junk i)) sv false dfs =
      (H.findMaxCliques srt junk sv false dfs).map fun s => (s.1.unit φ, s.2) := by
  unfold findMaxCliques
  cases dfs
  · rfl
  · exact stackGraph_unit hφ junk H

/-! ## The enumerator -/

theorem enumLoad_unit (H : NWG R) (E : WEnum R) :
    (H.unit φ).enumLoad (E.unit φ) =
      (H.enumLoad E).map fun s => (s.1.unit φ, s.2.1.unit φ, s.2.2) := by
  unfold enumLoad
  simp only [show (H.unit φ).g = H.g from rfl, show (E.unit φ).cur = E.cur from rfl]
  rw [map_bindM]
  refine bind_congrM fun V => ?_
  rw [map_bindM]
  refine bind_congrM fun x => ?_
  rw [map_bindM]
  have e := fillCand_unit hφ ({ H with g := x.1 } : NWG R) E.cur V x.2.cand x.1.eb E.ws
  refine Eq.trans (congrArg (· >>= _) e) ?_
  rw [bind_mapM]
  refine bind_congrM fun y => ?_
  rw [map_bindM]
  show (rd (H.wt.map φ) E.cur >>= _) = _
  rw [rd_mapM, bind_mapM]
  refine bind_congrM fun wc => ?_
  have hc : φ y.2.2 + φ wc < φ E.required ↔ y.2.2 + wc < E.required := by
    rw [← hφ.add]; exact hφ.lt _ _
  show (if φ y.2.2 + φ wc < φ E.required then _ else _) =
    (if y.2.2 + wc < E.required then _ else _ : M _).map _
  by_cases hp : y.2.2 + wc < E.required
  · rw [if_pos (hc.2 hp), if_pos hp, map_bindM]
    exact bind_congrM fun g => rfl
  · rw [if_neg (fun x => hp (hc.1 x)), if_neg hp]
    rfl

theorem enumVertex_unit (H : NWG R) (E : WEnum R) :
    (H.unit φ).enumVertex (E.unit φ) = (H.enumVertex E).map fun s => (s.1.unit φ, s.2.unit φ) := by
  unfold enumVertex
  refine loop_mapM (f := fun s : NWG R × WEnum R => (s.1.unit φ, s.2.unit φ))
    (g := fun s : NWG R × WEnum R => (s.1.unit φ, s.2.unit φ)) (fun s => ?_) _
    (H, { E with cur := E.cur + 1 })
  obtain ⟨H, E⟩ := s
  show (if E.cur < H.g.vs.length then _ else _) = (if E.cur < H.g.vs.length then _ else _ : M _).map _
  by_cases hp : E.cur < H.g.vs.length
  · rw [if_pos hp, if_pos hp, map_bindM]
    show (rd (H.mcs.map φ) E.cur >>= _) = _
    rw [rd_mapM, bind_mapM]
    refine bind_congrM fun m => ?_
    have hc : φ m < (E.unit φ).required ↔ m < E.required := hφ.lt _ _
    by_cases hm : m < E.required
    · rw [if_pos (hc.2 hm), if_pos hm]
      rfl
    · rw [if_neg (fun x => hm (hc.1 x)), if_neg hm, map_bindM, enumLoad_unit hφ, bind_mapM]
      refine bind_congrM fun x => ?_
      obtain ⟨H1, E1, b⟩ := x
      cases b <;> rfl
  · rw [if_neg hp, if_neg hp]
    rfl

theorem enumScan_unit (H : NWG R) (V U : Vtx) (cand : GBits) (eb : Mem) (ws : List R)
    (cw wj required : R) (k0 : Nat) (cp0 : R) :
    (H.unit φ).enumScan V U cand eb (ws.map φ) (φ cw) (φ wj) (φ required) k0 (φ cp0) =
      (H.enumScan V U cand eb ws cw wj required k0 cp0).map fun s => (s.1, φ s.2) := by
  unfold enumScan
  refine loop_mapM (f := fun s : Nat × List Nat × R => (s.1, s.2.1, φ s.2.2))
    (g := fun s : List Nat × R => (s.1, φ s.2)) (fun s => ?_) _ (k0, [], cp0)
  obtain ⟨k, rm, cp⟩ := s
  have hc : (k < V.N ∧ φ cp + φ cw + φ wj ≥ φ required) ↔ (k < V.N ∧ cp + cw + wj ≥ required) := by
    rw [← hφ.add, ← hφ.add]
    exact and_congr_right fun _ => hφ.le _ _
  dsimp only
  by_cases hp : k < V.N ∧ cp + cw + wj ≥ required
  · rw [if_pos (hc.2 hp), if_pos hp, map_bindM]
    refine bind_congrM fun b => ?_
    cases b
    · rfl
    · simp only [if_true, map_bindM]
      refine bind_congrM fun val => ?_
      refine bind_congrM fun x => ?_
      obtain ⟨f, _⟩ := x
      cases f
      · simp only [Bool.false_eq_true, if_false, map_bindM, rd_mapM, bind_mapM, ← hφ.sub]
        rfl
      · rfl
  · rw [if_neg (fun x => hp (hc.1 x)), if_neg hp]
    rfl

theorem enumFor_unit (V : Vtx) (req : Nat) (ws : List R) (cw required : R)
    (s : NWG R × WState R × Nat) :
    enumFor V req (ws.map φ) (φ cw) (φ required) (s.1.unit φ, s.2.1.unit φ, s.2.2) =
      (enumFor V req ws cw required s).map
        (Sum.map (fun s => (s.1.unit φ, s.2.1.unit φ, s.2.2)) (EnumExit.unit φ)) := by
  obtain ⟨H, top, j⟩ := s
  unfold enumFor
  show (if j < V.N then _ else _) = (if j < V.N then _ else _ : M _).map _
  by_cases hj : j < V.N
  · rw [if_pos hj, if_pos hj, map_bindM]
    refine bind_congrM fun b => ?_
    cases b
    · rfl
    simp only [if_true]
    rw [map_bindM]
    refine bind_congrM fun eb => ?_
    rw [map_bindM]
    refine bind_congrM fun x => ?_
    rw [map_bindM]
    show (rd (ws.map φ) j >>= _) = _
    rw [rd_mapM, bind_mapM]
    refine bind_congrM fun wj => ?_
    rw [map_bindM]
    refine bind_congrM fun vert => ?_
    rw [map_bindM]
    refine bind_congrM fun U => ?_
    rw [map_bindM]
    have e := enumScan_unit hφ ({ H with g := { H.g with eb := x.1 } } : NWG R) V U top.cand x.1 ws cw wj
      required (j + 1) top.pot
    refine Eq.trans (congrArg (· >>= _) e) ?_
    rw [bind_mapM]
    refine bind_congrM fun y => ?_
    have hc : φ y.2 + φ cw + φ wj ≥ φ required ↔ y.2 + cw + wj ≥ required := by
      rw [← hφ.add, ← hφ.add]
      exact hφ.le _ _
    have hc2 : φ cw + φ wj ≥ φ required ↔ cw + wj ≥ required := by
      rw [← hφ.add]
      exact hφ.le _ _
    dsimp only
    by_cases hp : y.2 + cw + wj ≥ required
    · rw [if_pos (hc.2 hp), if_pos hp]
      by_cases hq : cw + wj ≥ required
      · rw [if_pos (hc2.2 hq), if_pos hq, map_bindM]
        refine bind_congrM fun eb2 => ?_
        rw [map_bindM]
        refine bind_congrM fun vb => ?_
        rw [map_bindM]
        refine bind_congrM fun eb3 => ?_
        rw [map_bindM]
        exact bind_congrM fun eb4 => rfl
      · rw [if_neg (fun x => hq (hc2.1 x)), if_neg hq, map_bindM]
        refine bind_congrM fun z => ?_
        rw [map_bindM]
        refine bind_congrM fun eb2 => ?_
        rw [map_bindM]
        refine bind_congrM fun eb3 => ?_
        show Except.ok _ = Except.ok _
        simp only [Sum.map_inr, EnumExit.unit, WState.unit, unit, hφ.add]
    · rw [if_neg (fun x => hp (hc.1 x)), if_neg hp]
      rfl
  · rw [if_neg hj, if_neg hj]
    rfl

theorem enumBody_unit (s : NWG R × WEnum R) :
    enumBody (s.1.unit φ, s.2.unit φ) = (enumBody s).map
      (Sum.map (fun s => (s.1.unit φ, s.2.unit φ)) (fun s => (s.1.unit φ, s.2.1.unit φ, s.2.2))) := by
  obtain ⟨H, E⟩ := s
  obtain ⟨states, ws, cw, cur, req, required⟩ := E
  unfold enumBody
  show (if cur < H.g.nVert then _ else _) = (if cur < H.g.nVert then _ else _ : M _).map _
  by_cases hj : cur < H.g.nVert
  · rw [if_pos hj, if_pos hj]
    cases states with
    | nil =>
      dsimp only
      show (H.g.clearMemory req >>= _) = _
      rw [map_bindM]
      refine bind_congrM fun g => ?_
      rw [map_bindM]
      have e := enumVertex_unit hφ ({ H with g := g } : NWG R) ⟨[], ws, cw, cur, req, required⟩
      refine Eq.trans (congrArg (· >>= _) e) ?_
      rw [bind_mapM]
      rfl
    | cons top rest =>
      show (H.g.vtx cur >>= _) = _
      rw [map_bindM]
      refine bind_congrM fun V => ?_
      rw [map_bindM]
      refine bind_congrM fun x => ?_
      rw [map_bindM]
      have e := loop_mapM
        (f := fun s : NWG R × WState R × Nat => (s.1.unit φ, s.2.1.unit φ, s.2.2))
        (g := EnumExit.unit φ) (b := enumFor V req ws cw required)
        (enumFor_unit hφ V req ws cw required) (V.N + 2)
        ({ H with g := { H.g with eb := x.1 } }, top, top.startAt)
      refine Eq.trans (congrArg (· >>= _) e) ?_
      rw [bind_mapM]
      refine bind_congrM fun r => ?_
      cases r with
      | found H1 top1 => rfl
      | pushed H1 top1 new1 cw1 => rfl
      | done H1 top1 =>
        show (H1.g.clearMemory req >>= _) = (H1.g.clearMemory req >>= _).map _
        rw [map_bindM]
        refine bind_congrM fun g => ?_
        rw [map_bindM]
        refine bind_congrM fun eb => ?_
        rw [map_bindM]
        show (rd (ws.map φ) top1.id >>= _) = _
        rw [rd_mapM, bind_mapM]
        refine bind_congrM fun w => ?_
        show Except.ok _ = Except.ok _
        simp only [Sum.map_inl, WEnum.unit, unit, hφ.sub]
  · rw [if_neg hj, if_neg hj]
    rfl

theorem enumGraph_unit (H : NWG R) (E : WEnum R) :
    (H.unit φ).enumGraph (E.unit φ) =
      (H.enumGraph E).map fun s => (s.1.unit φ, s.2.1.unit φ, s.2.2) :=
  loop_mapM (f := fun s : NWG R × WEnum R => (s.1.unit φ, s.2.unit φ))
    (g := fun s : NWG R × WEnum R × Nat => (s.1.unit φ, s.2.1.unit φ, s.2.2))
    (enumBody_unit hφ) _ (H, E)

end NWG

namespace NWG

theorem vertexData_unit (H : NWG R) (i : Nat) :
    (H.unit φ).vertexData i = (H.vertexData i).map fun s => (φ s.1, s.2) := by
  unfold vertexData
  rw [map_bindM]
  refine bind_congrM fun l => ?_
  rw [map_bindM]
  show (rd (H.wt.map φ) i >>= _) = _
  rw [rd_mapM, bind_mapM]
  rfl

theorem allWeights_unit (H : NWG R) :
    (H.unit φ).allWeights = (H.allWeights).map (List.map φ) := by
  unfold allWeights
  refine forRange_mapM (f := List.map φ) (fun i s => ?_) _ _ []
  rw [map_bindM]
  show (rd (H.wt.map φ) i >>= _) = _
  rw [rd_mapM, bind_mapM]
  refine bind_congrM fun w => ?_
  show Except.ok _ = Except.ok _
  rw [List.map_append]
  rfl

end NWG

namespace PyNW

variable (hφ : Rescales φ)

theorem checkLoaded_unit (pg : PyNW R) :
    (pg.unit φ).checkLoaded = pg.checkLoaded.map (NWG.unit φ) := by
  unfold checkLoaded
  show (if pg.nvert = 0 then _ else _) = _
  by_cases h : pg.nvert = 0
  · rw [if_pos h, if_pos h]; rfl
  · rw [if_neg h, if_neg h]; rfl

include hφ

theorem loadGraph_unit (argLR : Bool) (cap : Nat) (pg : PyNW R) (n m : Nat) (edges : Edges)
    (wts : List R) :
    loadGraph argLR cap (pg.unit φ) n m edges (wts.map φ) =
      (loadGraph argLR cap pg n m edges wts).map (PyNW.unit φ) := by
  unfold loadGraph
  rw [map_bindM, NWG.ctor_unit hφ, bind_mapM]
  rfl

theorem cons_unit (wts : List R) : (0 : R') :: wts.map φ = ((0 : R) :: wts).map φ := by
  rw [List.map_cons, hφ.zero]

theorem fromEdgelist_unit (argLR : Bool) (cap : Nat) (rows : List (Nat × Nat)) (n : Nat)
    (wts : List R) :
    fromEdgelist argLR cap rows n (wts.map φ) =
      (fromEdgelist argLR cap rows n wts).map (PyNW.unit φ) := by
  unfold fromEdgelist
  rw [List.length_map]
  by_cases h : wts.length ≠ n
  · rw [if_pos h, if_pos h]; rfl
  · rw [if_neg h, if_neg h, map_bindM]
    refine bind_congrM fun s => ?_
    dsimp only
    by_cases h2 : s.1.length = 0
    · rw [if_pos h2, if_pos h2]; rfl
    · rw [if_neg h2, if_neg h2, cons_unit hφ]
      exact loadGraph_unit hφ _ _ new _ _ _ _

theorem fromMatrix_unit (argLR : Bool) (cap : Nat) (r c : Nat) (A : Nat → Nat → Bool)
    (wts : List R) :
    fromMatrix argLR cap r c A (wts.map φ) =
      (fromMatrix argLR cap r c A wts).map (PyNW.unit φ) := by
  unfold fromMatrix
  rw [List.length_map]
  by_cases h0 : r ≠ c
  · rw [if_pos h0, if_pos h0]; rfl
  rw [if_neg h0, if_neg h0]
  by_cases h : wts.length ≠ r
  · rw [if_pos h, if_pos h]; rfl
  · rw [if_neg h, if_neg h, map_bindM]
    refine bind_congrM fun s => ?_
    dsimp only
    by_cases h2 : s.1.length = 0
    · rw [if_pos h2, if_pos h2]; rfl
    · rw [if_neg h2, if_neg h2, cons_unit hφ]
      exact loadGraph_unit hφ _ _ new _ _ _ _

theorem fromAdjList_unit (argLR : Bool) (cap : Nat) (n m : Nat) (sets : List (List Nat))
    (wts : List R) :
    fromAdjList argLR cap n m sets (wts.map φ) =
      (fromAdjList argLR cap n m sets wts).map (PyNW.unit φ) := by
  unfold fromAdjList
  rw [List.length_map]
  by_cases h0 : sets.length > 0 ∧ sets.headD [] ≠ []
  · rw [if_pos h0, if_pos h0]; rfl
  rw [if_neg h0, if_neg h0]
  by_cases h : uadd n 1 ≠ sets.length ∨ n ≠ wts.length
  · rw [if_pos h, if_pos h]; rfl
  · rw [if_neg h, if_neg h, map_bindM]
    refine bind_congrM fun s => ?_
    dsimp only
    by_cases h2 : s.2 / 2 ≠ m
    · rw [if_pos h2, if_pos h2]; rfl
    · rw [if_neg h2, if_neg h2]
      exact loadGraph_unit hφ _ _ new _ _ _ _

theorem resetSearch_unit (pg : PyNW R) :
    (pg.unit φ).resetSearch = pg.resetSearch.map (PyNW.unit φ) := by
  obtain ⟨G, f, nv, ne, cv⟩ := pg
  cases G with
  | none => rfl
  | some H =>
    show Except.ok _ = Except.ok _
    simp only [PyNW.unit, NWG.unit, Option.map_some, hφ.zero]

theorem getMaxClique_unit (srt : List (NWG.WData R) → List (NWG.WData R))
    (srt' : List (NWG.WData R') → List (NWG.WData R')) (junk : Nat → R) (pg : PyNW R) (a : Args R)
    (ha : a.useHeuristic = false) :
    (pg.unit φ).getMaxClique srt' (fun i => φ (junk i)) (a.unit φ) =
      (pg.getMaxClique srt junk a).map fun s => (s.1.unit φ, s.2) := by
  obtain ⟨lb, ub, uh, ud⟩ := a
  subst ha
  unfold getMaxClique
  dsimp only
  have e : ({ pg.unit φ with currentVertex := 0 } : PyNW R').checkLoaded = _ :=
    checkLoaded_unit (φ := φ) ({ pg with currentVertex := 0 } : PyNW R)
  rw [e]
  cases ({ pg with currentVertex := 0 } : PyNW R).checkLoaded with
  | none => rfl
  | some H =>
    dsimp only [Option.map_some]
    have e1 : (if (Args.unit φ ⟨lb, ub, false, ud⟩).lowerBound > (H.unit φ).curMax
        then (Args.unit φ ⟨lb, ub, false, ud⟩).lowerBound else (H.unit φ).curMax) =
        φ (if lb > H.curMax then lb else H.curMax) := by
      show (if φ H.curMax < φ lb then φ lb else φ H.curMax) = φ (if H.curMax < lb then _ else _)
      by_cases hp : H.curMax < lb
      · rw [if_pos ((hφ.lt _ _).2 hp), if_pos hp]
      · rw [if_neg (fun x => hp ((hφ.lt _ _).1 x)), if_neg hp]
    have e2 : (if (Args.unit φ ⟨lb, ub, false, ud⟩).upperBound < (H.unit φ).limit
        then (Args.unit φ ⟨lb, ub, false, ud⟩).upperBound else (H.unit φ).limit) =
        φ (if ub < H.limit then ub else H.limit) := by
      show (if φ ub < φ H.limit then φ ub else φ H.limit) = φ (if ub < H.limit then _ else _)
      by_cases hp : ub < H.limit
      · rw [if_pos ((hφ.lt _ _).2 hp), if_pos hp]
      · rw [if_neg (fun x => hp ((hφ.lt _ _).1 x)), if_neg hp]
    rw [e1, e2, map_bindM]
    have e3 := NWG.findMaxCliques_unit hφ srt srt' junk
      ({ H with curMax := if lb > H.curMax then lb else H.curMax
                limit := if ub < H.limit then ub else H.limit } : NWG R) 0 ud
    refine Eq.trans (congrArg (· >>= _) e3) ?_
    rw [bind_mapM]
    refine bind_congrM fun x => ?_
    rw [map_bindM]
    dsimp only
    refine Eq.trans (congrArg (· >>= _) (NWG.getClique_unit x.1 x.1.curLoc)) ?_
    rw [bind_mapM]
    refine bind_congrM fun y => ?_
    rw [map_bindM, NWG.cliqueWeight_unit hφ, bind_mapM]
    refine bind_congrM fun w => ?_
    show (if φ w < φ lb then _ else _) = (if w < lb then _ else _ : M _).map _
    by_cases hp : w < lb
    · rw [if_pos ((hφ.lt _ _).2 hp), if_pos hp]; rfl
    · rw [if_neg (fun x => hp ((hφ.lt _ _).1 x)), if_neg hp]; rfl

theorem allCliques_unit (junk : Nat → R) (pg : PyNW R) (W : R) :
    (pg.unit φ).allCliques (fun i => φ (junk i)) (φ W) =
      (pg.allCliques junk W).map (WEnum.unit φ) := by
  unfold allCliques
  rw [checkLoaded_unit]
  cases pg.checkLoaded with
  | none => rfl
  | some H =>
    show Except.ok _ = Except.ok _
    simp only [WEnum.new, WEnum.unit, NWG.unit, List.map_map, List.map_nil, hφ.zero]
    rfl

theorem nextClique_unit (pg : PyNW R) (E : WEnum R) :
    (pg.unit φ).nextClique (E.unit φ) =
      (pg.nextClique E).map fun s => (s.1.unit φ, s.2.1.unit φ, s.2.2) := by
  obtain ⟨G, f, nv, ne, cv⟩ := pg
  cases G with
  | none => rfl
  | some H =>
    unfold nextClique
    dsimp only [PyNW.unit, Option.map_some]
    rw [map_bindM, NWG.enumGraph_unit hφ, bind_mapM]
    refine bind_congrM fun x => ?_
    show (if x.2.2 > nv then _ else _) = (if x.2.2 > nv then _ else _ : M _).map _
    by_cases hv : x.2.2 > nv
    · rw [if_pos hv, if_pos hv]; rfl
    · rw [if_neg hv, if_neg hv, map_bindM, NWG.getClique_unit, bind_mapM]
      rfl

theorem consume_unit (fuel : Nat) : ∀ (pg : PyNW R) (E : WEnum R),
    (pg.unit φ).consume fuel (E.unit φ) =
      (pg.consume fuel E).map fun s => (s.1.unit φ, s.2.1.unit φ, s.2.2) := by
  induction fuel with
  | zero => intro pg E; rfl
  | succ n ih =>
    intro pg E
    unfold consume
    rw [map_bindM, nextClique_unit hφ, bind_mapM]
    refine bind_congrM fun x => ?_
    obtain ⟨p, E1, c⟩ := x
    cases c with
    | none => rfl
    | some c =>
      dsimp only
      rw [map_bindM, ih, bind_mapM]
      rfl

theorem listCliques_unit (junk : Nat → R) (pg : PyNW R) (W : R) :
    (pg.unit φ).listCliques (fun i => φ (junk i)) (φ W) =
      (pg.listCliques junk W).map fun s => (s.1.unit φ, s.2) := by
  unfold listCliques
  rw [map_bindM, allCliques_unit hφ, bind_mapM]
  refine bind_congrM fun E => ?_
  obtain ⟨G, f, nv, ne, cv⟩ := pg
  cases G with
  | none => rfl
  | some H =>
    show (consume _ (PyNW.unit φ ⟨some H, f, nv, ne, cv⟩) _ >>= _) = _
    dsimp only
    rw [map_bindM, consume_unit hφ, bind_mapM]
    rfl

theorem getVertexData_unit (pg : PyNW R) (i : Nat) :
    (pg.unit φ).getVertexData i = (pg.getVertexData i).map fun s => (φ s.1, s.2) := by
  obtain ⟨G, f, nv, ne, cv⟩ := pg
  unfold getVertexData
  show (if i > nv then _ else _) = (if i > nv then _ else _ : M _).map _
  by_cases hv : i > nv
  · rw [if_pos hv, if_pos hv]; rfl
  · rw [if_neg hv, if_neg hv]
    cases G with
    | none => rfl
    | some H => exact NWG.vertexData_unit H i

theorem getAllWeights_unit (pg : PyNW R) :
    (pg.unit φ).getAllWeights = pg.getAllWeights.map (List.map φ) := by
  unfold getAllWeights
  rw [checkLoaded_unit]
  cases pg.checkLoaded with
  | none => rfl
  | some H =>
    dsimp only [Option.map_some]
    rw [map_bindM, NWG.allWeights_unit, bind_mapM]
    refine bind_congrM fun ws => ?_
    show Except.ok _ = Except.ok _
    rw [List.map_drop]

theorem getCliqueWeight_unit (pg : PyNW R) (c : List Nat) :
    (pg.unit φ).getCliqueWeight c = (pg.getCliqueWeight c).map φ := by
  unfold getCliqueWeight
  rw [checkLoaded_unit]
  cases pg.checkLoaded with
  | none => rfl
  | some H => exact NWG.cliqueWeight_unit hφ H c

end PyNW

section

variable (hφ : Rescales φ)
include hφ

theorem WAct.run_unit (srt : List (NWG.WData R') → List (NWG.WData R')) (pg : PyNW R) (E : WEnum R)
    (x : WAct R) (hx : x.Plain) :
    (x.unit φ srt).run (pg.unit φ) (E.unit φ) =
      (x.run pg E).map fun s => (s.1.unit φ, s.2.1.unit φ, s.2.2.unit φ) := by
  cases x with
  | next =>
    show ((pg.unit φ).nextClique (E.unit φ) >>= _) = (pg.nextClique E >>= _).map _
    rw [map_bindM, PyNW.nextClique_unit hφ, bind_mapM]
    rfl
  | call op =>
    cases op with
    | search s junk a =>
      show ((pg.unit φ).getMaxClique srt (fun i => φ (junk i)) (a.unit φ) >>= _) =
        (pg.getMaxClique s junk a >>= _).map _
      rw [map_bindM, PyNW.getMaxClique_unit hφ s srt junk pg a hx, bind_mapM]
      rfl
    | list junk W =>
      show ((pg.unit φ).listCliques (fun i => φ (junk i)) (φ W) >>= _) =
        (pg.listCliques junk W >>= _).map _
      rw [map_bindM, PyNW.listCliques_unit hφ, bind_mapM]
      rfl
    | reset =>
      show ((pg.unit φ).resetSearch >>= _) = (pg.resetSearch >>= _).map _
      rw [map_bindM, PyNW.resetSearch_unit hφ, bind_mapM]
      rfl

theorem wacts_unit (srt : List (NWG.WData R') → List (NWG.WData R')) : ∀ (xs : List (WAct R))
    (_ : ∀ x ∈ xs, x.Plain) (pg : PyNW R) (E : WEnum R),
    wacts (xs.map (WAct.unit φ srt)) (pg.unit φ) (E.unit φ) =
      (wacts xs pg E).map fun s => (s.1.unit φ, s.2.1.unit φ, s.2.2.map (WSeen.unit φ)) := by
  intro xs
  induction xs with
  | nil => intro _ pg E; rfl
  | cons x xs ih =>
    intro h pg E
    rw [List.map_cons]
    unfold wacts
    rw [map_bindM, WAct.run_unit hφ srt pg E x (h x (List.mem_cons_self ..)), bind_mapM]
    refine bind_congrM fun y => ?_
    dsimp only
    rw [map_bindM, ih (fun z hz => h z (List.mem_cons_of_mem _ hz)), bind_mapM]
    rfl

theorem WLoad.load_unit (argLR : Bool) (cap : Nat) (ld : WLoad R) :
    (ld.unit φ).load argLR cap = (ld.load argLR cap).map (PyNW.unit φ) := by
  cases ld with
  | edgelist rows n wts => exact PyNW.fromEdgelist_unit hφ ..
  | matrix r c A wts => exact PyNW.fromMatrix_unit hφ ..
  | adjlist n m sets wts => exact PyNW.fromAdjList_unit hφ ..

theorem WRead.read_unit (pg : PyNW R) (r : WRead) :
    r.read (pg.unit φ) = (r.read pg).map fun s => (s.1.map φ, s.2) := by
  cases r with
  | vertex i =>
    show ((pg.unit φ).getVertexData i >>= _) = (pg.getVertexData i >>= _).map _
    rw [map_bindM, PyNW.getVertexData_unit hφ, bind_mapM]
    rfl
  | weights =>
    show ((pg.unit φ).getAllWeights >>= _) = (pg.getAllWeights >>= _).map _
    rw [map_bindM, PyNW.getAllWeights_unit hφ, bind_mapM]
    rfl
  | clique c =>
    show ((pg.unit φ).getCliqueWeight c >>= _) = (pg.getCliqueWeight c >>= _).map _
    rw [map_bindM, PyNW.getCliqueWeight_unit hφ, bind_mapM]
    rfl

theorem wprogram_unit (argLR : Bool) (cap : Nat) (ld : WLoad R) (junk : Nat → R) (W : R)
    (xs : List (WAct R)) (hx : ∀ x ∈ xs, x.Plain) (r : WRead)
    (srt : List (NWG.WData R') → List (NWG.WData R')) :
    wprogram argLR cap (ld.unit φ) (fun i => φ (junk i)) (φ W) (xs.map (WAct.unit φ srt)) r =
      (wprogram argLR cap ld junk W xs r).map fun s =>
        (s.1.map (WSeen.unit φ), s.2.1.map φ, s.2.2) := by
  unfold wprogram
  rw [map_bindM, WLoad.load_unit hφ, bind_mapM]
  refine bind_congrM fun pg => ?_
  rw [map_bindM, PyNW.allCliques_unit hφ, bind_mapM]
  refine bind_congrM fun E => ?_
  rw [map_bindM, wacts_unit hφ srt xs hx, bind_mapM]
  refine bind_congrM fun y => ?_
  dsimp only
  rw [map_bindM, WRead.read_unit hφ, bind_mapM]
  rfl

end

end CM
