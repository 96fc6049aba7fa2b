import Verif.Lemmas.EXCalls
import Verif.Lemmas.NWNext

/-! # Weighted graphs with rational weights

Rational arithmetic is exact, so that what is known of exact weights holds of all rational
weights. -/

namespace CM

open Graph Spec NWG

/-- All rational weights add up exactly. -/
theorem EX.xw_rat (n : Nat) (ω : Nat → Rat) : EX.XW2 n ω :=
  ⟨⟨fun _ _ _ => rfl, fun _ _ => trivial⟩, fun _ _ _ _ => trivial⟩

namespace NWG

variable {H : NWG Rat} {n : Nat} {S : SimpleGraph Nat}

theorem xn_rat (H : NWG Rat) : XN H :=
  ⟨fun _ _ => rfl, fun _ _ => trivial, fun _ _ => rfl, fun _ _ => rfl, rfl, rfl⟩

theorem xe_rat (H : NWG Rat) : XE H := ⟨xn_rat H, fun _ _ _ _ => trivial⟩

theorem sum_eq {l : List Nat} (hnd : l.Nodup) (f : Nat → Rat) :
    (l.map f).sum = ∑ v ∈ l.toFinset, f v := EX.sum_eq hnd f

theorem WBounds.mcsOk (w : Str H.g) (B : WBounds H) (hnn : ∀ v, 0 ≤ H.w v) : McsOk H :=
  EX.mcsOk_of_bounds w B hnn

/-- The largest bound is at least the weight of every clique. -/
theorem wbounds_spec (hO : Of H.g n S) (wf : WF H.g) (B : WBounds H) (hnn : ∀ v, 0 ≤ H.w v)
    {l : List Nat} (hl : IsCliqueList S n l) : weight H.w l ≤ H.limit :=
  EX.wbounds_spec (xn_rat H) wf hO wf.str B hnn hl

/-- Cliques are no heavier than the record, once the record is best. -/
theorem wbest_spec (hO : Of H.g n S) (wf : WF H.g) (hb : Best H) {l : List Nat}
    (hl : IsCliqueList S n l) (h2 : 2 ≤ l.length) :
    weight H.w l ≤ H.curMax ∨ H.limit ≤ H.curMax :=
  EX.wbest_spec (xn_rat H) wf hO wf.str hb hl h2

/-- Adding rational weights one after the other gives their sum. -/
theorem summed_rat (ω : Nat → Rat) (l : List Nat) : summed ω l = weight ω l := by
  have key : ∀ (l : List Nat) (a : Rat), l.foldl (fun a v => a + ω v) a = a + weight ω l := by
    intro l
    induction l with
    | nil => intro a; simp [weight]
    | cons v l ih =>
      intro a
      rw [List.foldl_cons, ih]
      simp [weight, add_assoc]
  unfold summed
  rw [key, zero_add]

theorem cliqueWeight_spec (l : Lens H) {c : List Nat} (hc : ∀ v ∈ c, v < H.g.nVert) :
    H.cliqueWeight c = .ok (weight H.w c) := by
  rw [AW.cliqueWeight_spec l hc, summed_rat]

end NWG

variable {pg : PyNW Rat} {n : Nat} {S : SimpleGraph Nat} {ω : Nat → Rat} {H : NWG Rat}

theorem WPyOk.weight (h : WPyOk pg n S ω H) {l : List Nat} (hl : IsCliqueList S n l) :
    weight H.w l = Spec.weight ω l := EX.pyok_weight h hl

theorem WPyOk.nonneg (h : WPyOk pg n S ω H) (hnn : ∀ v, 1 ≤ v → v ≤ n → 0 ≤ ω v) :
    ∀ v, 0 ≤ H.w v := EX.pyok_nonneg h hnn

theorem low_rat (x : Rat) : EX.LowOk x := Or.inl rfl

theorem up_rat (x : Rat) : EX.UpOk x := Or.inl rfl

theorem wbounded_curMax (H : NWG Rat) (a : PyNW.Args Rat) :
    (wbounded H a).curMax = max a.lowerBound H.curMax := by
  simp only [wbounded]
  split
  · rename_i h; rw [max_eq_left (le_of_lt h)]
  · rename_i h; rw [max_eq_right (not_lt.1 h)]

theorem wbounded_limit (H : NWG Rat) (a : PyNW.Args Rat) :
    (wbounded H a).limit = min a.upperBound H.limit := by
  simp only [wbounded]
  split
  · rename_i h; rw [min_eq_left (le_of_lt h)]
  · rename_i h; rw [min_eq_right (not_lt.1 h)]

/-- What one call does. -/
theorem wsearch_spec (h : WPyOk pg n S ω H) {srt : List (WData Rat) → List (WData Rat)}
    (hsrt : ∀ l, (srt l).Perm l) (junk : Nat → Rat) (a : PyNW.Args Rat) :
    ∃ pg' H', pg.getMaxClique srt junk a =
        .ok (pg', if a.lowerBound > Spec.weight H'.w (wstored H') then .raise
          else .ret (wstored H')) ∧
      WPyOk pg' n S ω H' ∧ WFrame H H' ∧ H'.limit = min a.upperBound H.limit ∧
      pg'.nedges = pg.nedges ∧
      pg'.currentVertex = (if a.useDfs then n + 1 else 0) ∧
      pg'.finishedAll = a.useDfs ∧
      ((H'.curMax = max a.lowerBound H.curMax ∧ H'.curLoc = H.curLoc ∧
          wstored H' = wstored H) ∨
        Spec.weight H'.w (wstored H') = H'.curMax) ∧
      ((∀ v, 0 ≤ H.w v) → McsOk H → McsOk H' ∧ (a.useDfs = true → Best H')) := by
  obtain ⟨pg', H', h1, h2, h3, _, h4, h5, h6, h7, h8, h9⟩ :=
    EX.wsearch_spec (xn_rat H) h hsrt junk a (low_rat _) (up_rat _)
  rw [wbounded_limit] at h4
  rw [wbounded_curMax] at h8
  exact ⟨pg', H', h1, h2, h3, h4, h5, h6, h7, h8, h9⟩

/-- A usable object: a fresh load together with its invariant. -/
structure WFresh (pg : PyNW Rat) (n : Nat) (S : SimpleGraph Nat) (ω : Nat → Rat) (H : NWG Rat) :
    Prop where
  pyok : WPyOk pg n S ω H
  bounds : WBounds H
  d : ∀ v, v ≤ n → H.d v = ∑ j ∈ Finset.range (H.g.V v).N, H.we v j
  cm : H.curMax = 0
  edge : ∃ u v, S.Adj u v
  fin : pg.finishedAll = false

theorem WUsable.fresh (h : WUsable pg n S ω) : ∃ H, WFresh pg n S ω H := by
  obtain ⟨H, hF⟩ := EX.wusable_fresh h (EX.xw_rat n ω).toXW
  exact ⟨H, hF.pyok, hF.bounds, hF.d, hF.cm, hF.edge, hF.fin⟩

/-- The result of iterating `all_cliques(W)` to the end. -/
theorem wlistCliques_spec (h : WPyOk pg n S ω H) (junk : Nat → Rat) (W : Rat) :
    ∃ (H' : NWG Rat) (cs : List (List Nat)),
      pg.listCliques junk W = .ok ({ pg with G := some H' }, cs) ∧
      WOk H' ∧ WCoreS anyCl H.g.searchStart H H' ∧ cs.Nodup ∧
      (∀ l ∈ cs, IsCliqueList S n l ∧ 2 ≤ l.length) ∧
      ((∀ u, u ≤ n → H.d u = ∑ j ∈ Finset.range (H.g.V u).N, H.we u j) →
        (∀ l ∈ cs, ∃ u, u ≠ 1 ∧ WFirst S n ω u l ∧ ReachedLast ω W u l) ∧
        ((∀ v, 0 ≤ H.w v) → McsOk H → (∀ l, IsCliqueList S n l → Spec.weight ω l ≤ H.limit) →
          ∀ l u, IsCliqueList S n l → 2 ≤ l.length → WFirst S n ω u l → u ≠ 1 →
            ReachedLast ω W u l → l ∈ cs)) :=
  EX.wlistCliques_spec (xe_rat H) h junk W

theorem wreset_mcs {c : Rat} (h : McsOk H) : McsOk { H with curMax := c } := EX.wreset_mcs h

theorem wruns_cons {R : Type} [Zero R] [Add R] [Sub R] [NatCast R] [LT R] [LE R] [DecidableLT R]
    [DecidableLE R] (op : WOp R) (ops : List (WOp R)) (pg : PyNW R) :
    wruns (op :: ops) pg = (op.run pg >>= wruns ops) := by
  unfold wruns
  rw [List.foldlM_cons]

theorem op_rat (op : WOp Rat) : EX.OpOk op := by
  cases op with
  | search _ _ a => exact ⟨low_rat _, up_rat _⟩
  | list _ _ => trivial
  | reset => trivial

theorem opExact_rat {op : WOp Rat} (h : op.Exact S n ω) : EX.OpExact S n ω op := by
  cases op with
  | search _ _ a => exact h
  | list _ _ => trivial
  | reset => trivial

theorem wruns_spec (ops : List (WOp Rat)) {pg : PyNW Rat} {n : Nat} {S : SimpleGraph Nat}
    {ω : Nat → Rat} {H : NWG Rat} (h : WPyOk pg n S ω H) (hl : ∀ op ∈ ops, op.Legal) :
    ∃ pg' H', wruns ops pg = .ok pg' ∧ WPyOk pg' n S ω H' ∧ WFrame H H' ∧
      pg'.nedges = pg.nedges ∧
      ((∀ v, 0 ≤ H.w v) → (∀ op ∈ ops, op.Exact S n ω) → McsOk H →
        (∀ l, IsCliqueList S n l → Spec.weight ω l ≤ H.limit) →
        McsOk H' ∧ ∀ l, IsCliqueList S n l → Spec.weight ω l ≤ H'.limit) := by
  obtain ⟨pg', H', h1, h2, h3, _, h4, h5⟩ := EX.wruns_spec ops (xn_rat H) h hl
    (fun op _ => op_rat op)
  exact ⟨pg', H', h1, h2, h3, h4, fun a b c d => h5 a (fun op ho => opExact_rat (b op ho)) c d⟩

end CM
