import Verif.Lemmas.EXAllCliques

/-! # Sequences of calls on a weighted graph whose weights add up exactly -/

namespace CM

namespace EX

open Graph Spec NWG

open ExactNum

set_option linter.unusedSectionVars false

variable {R : Type} [Zero R] [Add R] [Sub R] [NatCast R] [LT R] [LE R] [DecidableLT R]
  [DecidableLE R] [ExactNum R] {Al : Nat → Finset Nat → Prop} {b : Nat}
  {pg : PyNW R} {n : Nat} {S : SimpleGraph Nat} {ω : Nat → R} {H : NWG R}

theorem wreset_mcs {c : R} (h : McsOk H) : McsOk { H with curMax := c } :=
  fun v hv T hT h2 => h v hv T hT h2

/-- The bounds of the call are usable. -/
def OpOk : WOp R → Prop
  | .search _ _ a => LowOk a.lowerBound ∧ UpOk a.upperBound
  | _ => True

/-- No clique is heavier than the call's `upper_bound`. -/
def OpExact (S : SimpleGraph Nat) (n : Nat) (ω : Nat → R) : WOp R → Prop
  | .search _ _ a => ∀ l, IsCliqueList S n l → (fin (weight (fun v => val (ω v)) l) : R) ≤ a.upperBound
  | _ => True

/-- No clique is heavier than the limit. -/
def LimOk (S : SimpleGraph Nat) (n : Nat) (ω : Nat → R) (H : NWG R) : Prop :=
  ∀ l, IsCliqueList S n l → weight (fun v => val (ω v)) l ≤ H.lm

theorem core_xn {H' : NWG R} (X : XN H) (h : WCoreS Al b H H') : XN H' := by
  refine X.of_frame h.frame (fun v hv => ?_) ?_ ?_
  · rw [h.mc]; exact X.mc v hv
  · rw [h.same]; exact X.cm
  · rw [h.same]; exact X.lim

theorem core_mcs {H' : NWG R} (h : WCoreS Al b H H') (hm : McsOk H) : McsOk H' := by
  have hl' : H'.lm = H.lm := by unfold lm; rw [h.same]
  have F := h.frame
  intro v hv T hT h5
  rw [F.frame.nVert] at hv
  have := hm v hv T ((F.rooted v T).1 hT) h5
  unfold mq at this ⊢
  rw [F.wsum, h.mc, hl']
  exact this

/-- One call keeps the object's invariant and the graph it stores. -/
theorem wop_spec (X : XN H) (h : WPyOk pg n S ω H) {op : WOp R} (hl : op.Legal) (ho : OpOk op) :
    ∃ pg' H', op.run pg = .ok pg' ∧ WPyOk pg' n S ω H' ∧ WFrame H H' ∧ XN H' ∧
      pg'.nedges = pg.nedges ∧
      ((∀ v, 0 ≤ val (H.w v)) → OpExact S n ω op → McsOk H → LimOk S n ω H →
        McsOk H' ∧ LimOk S n ω H') := by
  cases op with
  | search srt junk a =>
    obtain ⟨pg', H', h1, h2, h3, hX, h4, h5, _, _, _, h6⟩ := wsearch_spec X h hl junk a ho.1 ho.2
    refine ⟨pg', H', ?_, h2, h3, hX, h5, ?_⟩
    · show (pg.getMaxClique srt junk a >>= _) = _
      rw [h1, ok_bind]
    · intro hnn he hm hlim
      refine ⟨(h6 hnn hm).1, fun l hl => ?_⟩
      have := wbounded_lm_ge X ho.2 (hlim l hl) (he l hl)
      unfold lm at this ⊢
      rw [h4]
      exact this
  | list junk weight =>
    obtain ⟨_, _, H', _, cs, _, _, _, _, h1, h2, h3, _⟩ := AW.wlistCliques_spec h junk weight
    have hW := h2
    have F := h3.frame
    refine ⟨{ pg with G := some H' }, H', ?_, ⟨rfl, h.nv, h.pos, hW, h.of.frame F.frame, ?_, ?_⟩,
      F, core_xn X h3, rfl, ?_⟩
    · show (pg.listCliques junk weight >>= _) = _
      rw [h1, ok_bind]
    · intro v h4 h5; rw [F.w]; exact h.w v h4 h5
    · rw [F.w]; exact h.w0
    · intro _ _ hm hlim
      have hl' : H'.lm = H.lm := by unfold lm; rw [h3.same]
      exact ⟨core_mcs h3 hm, fun l hl => by rw [hl']; exact hlim l hl⟩
  | reset =>
    refine ⟨{ pg with G := some { H with curMax := 0 }, finishedAll := false, currentVertex := 0 },
      { H with curMax := 0 }, ?_, ⟨rfl, h.nv, h.pos, ⟨h.ok.ok, ⟨h.ok.l.wt, h.ok.l.deg, h.ok.l.mcs⟩,
      h.ok.loc⟩, h.of, h.w, h.w0⟩, ⟨Frame.refl _, rfl, rfl, rfl, rfl, rfl, rfl⟩,
      ⟨X.w, X.sums, X.d, X.mc, num_zero, X.lim⟩, rfl, ?_⟩
    · simp only [WOp.run, PyNW.resetSearch, h.g]
    · intro _ _ hm hlim
      exact ⟨wreset_mcs hm, hlim⟩

theorem wruns_cons (op : WOp R) (ops : List (WOp R)) (pg : PyNW R) :
    wruns (op :: ops) pg = (op.run pg >>= wruns ops) := by
  unfold wruns
  rw [List.foldlM_cons]

theorem wruns_spec : ∀ (ops : List (WOp R)) {pg : PyNW R} {n : Nat} {S : SimpleGraph Nat}
    {ω : Nat → R} {H : NWG R}, XN H → WPyOk pg n S ω H → (∀ op ∈ ops, op.Legal) →
    (∀ op ∈ ops, OpOk op) →
    ∃ pg' H', wruns ops pg = .ok pg' ∧ WPyOk pg' n S ω H' ∧ WFrame H H' ∧ XN H' ∧
      pg'.nedges = pg.nedges ∧
      ((∀ v, 0 ≤ val (H.w v)) → (∀ op ∈ ops, OpExact S n ω op) → McsOk H → LimOk S n ω H →
        McsOk H' ∧ LimOk S n ω H') := by
  intro ops
  induction ops with
  | nil =>
    intro pg n S ω H X h _ _
    exact ⟨pg, H, rfl, h, WFrame.refl _, X, rfl, fun _ _ hm hl => ⟨hm, hl⟩⟩
  | cons op ops ih =>
    intro pg n S ω H X h hleg hops
    obtain ⟨pg1, H1, a1, a2, a3, aX, a4, a5⟩ := wop_spec X h (hleg op (by simp)) (hops op (by simp))
    obtain ⟨pg2, H2, b1, b2, b3, bX, b4, b5⟩ := ih aX a2 (fun o ho => hleg o (by simp [ho]))
      (fun o ho => hops o (by simp [ho]))
    refine ⟨pg2, H2, ?_, b2, a3.trans b3, bX, b4.trans a4, ?_⟩
    · rw [wruns_cons, a1, ok_bind, b1]
    · intro hnn he hm hl
      obtain ⟨c1, c2⟩ := a5 hnn (he op (by simp)) hm hl
      exact b5 (fun v => by rw [a3.w]; exact hnn v) (fun o ho => he o (by simp [ho])) c1 c2

end EX

end CM
