import Verif.Lemmas.Values
import Verif.Props.Clock
import Verif.Props.WeightedArith
import Verif.Props.WeightedDouble

/-!
# C102: values that make no sense are refused

`callSearch`, `callList` and `callNeighbors` (`Model/Values`) are the methods as Python calls them,
with any object for each argument.
-/

namespace CM

open Spec

section

open Graph

variable {pg : PyGraph} {n : Nat} {S : SimpleGraph Nat}

/-- **C102**, refusals: in every state of the object, `get_max_clique` raises and has no effect if
a bound is not an integer from 0 on that fits in 64 bits, the time limit is not a number or a flag
has no truth value; `all_cliques` and `_vertex_neighbors` likewise.  Missing: that a time limit
that is NaN and a flag that is `None` are refused (`C102_refuted`). -/
theorem C102_refused_partial (pg : PyGraph) :
    (∀ (srt : List VData → List VData) (now : Nat → Nat) (v : SearchVals),
      ((∀ k, ¬ v.lower.IsCount k) ∨ (∀ k, ¬ v.upper.IsCount k) ∨ (∀ x, ¬ v.time.IsReal x) ∨
        (∀ b, ¬ v.heuristic.IsFlag b) ∨ (∀ b, ¬ v.dfs.IsFlag b) ∨ ∀ b, ¬ v.continued.IsFlag b) →
      pg.callSearch srt now v = .ok (pg, .raise)) ∧
    (∀ size : PyVal, (∀ k, ¬ size.IsCount k) → pg.callList size = .ok (pg, .raise)) ∧
    ∀ v : PyVal, (∀ k, ¬ v.IsCount k) → pg.callNeighbors v = .error .throw := by
  refine ⟨fun srt now v h => ?_, fun size h => ?_, fun v h => ?_⟩
  · have ha : v.args = none := by
      simp only [← PyVal.toU64_none, ← PyVal.toDbl_none, ← PyVal.toBool_none] at h
      unfold SearchVals.args
      cases h1 : v.lower.toU64 <;> cases h2 : v.upper.toU64 <;> cases h3 : v.time.toDbl <;>
        cases h4 : v.heuristic.toBool <;> cases h5 : v.dfs.toBool <;>
        cases h6 : v.continued.toBool <;> first | rfl | simp_all
    unfold PyGraph.callSearch
    rw [ha]
  · unfold PyGraph.callList
    rw [(PyVal.toU64_none _).2 h]
  · unfold PyGraph.callNeighbors
    rw [(PyVal.toU64_none _).2 h]

/-- **C102**, values that are not refused are used as they are. -/
theorem C102_used (pg : PyGraph) :
    (∀ (srt : List VData → List VData) (now : Nat → Nat) (v : SearchVals) (lo up : Nat) (t : Dbl)
      (h d c : Bool), v.lower.IsCount lo → v.upper.IsCount up → v.time.IsReal t →
      v.heuristic.IsFlag h → v.dfs.IsFlag d → v.continued.IsFlag c →
      pg.callSearch srt now v = (pg.getMaxCliqueC srt
        { lowerBound := lo, upperBound := up, useHeuristic := h, useDfs := d, continueSearch := c }
        t now).map fun r => (r.1, r.2.1)) ∧
    (∀ (size : PyVal) (k : Nat), size.IsCount k →
      pg.callList size = (pg.listCliques k).map fun r => (r.1, .ret r.2)) ∧
    ∀ (v : PyVal) (k : Nat), v.IsCount k → pg.callNeighbors v = pg.getVertexData k := by
  refine ⟨fun srt now v lo up t h d c h1 h2 h3 h4 h5 h6 => ?_, fun size k h => ?_, fun v k h => ?_⟩
  · rw [← PyVal.toU64_iff] at h1 h2
    rw [← PyVal.toDbl_iff] at h3
    rw [← PyVal.toBool_iff] at h4 h5 h6
    have ha : v.args = some ({ lowerBound := lo, upperBound := up, useHeuristic := h, useDfs := d,
                               continueSearch := c }, t) := by
      unfold SearchVals.args
      rw [h1, h2, h3, h4, h5, h6]
      rfl
    unfold PyGraph.callSearch
    rw [ha]
    dsimp only
    generalize pg.getMaxCliqueC srt _ t now = y
    cases y <;> rfl
  · unfold PyGraph.callList
    rw [(PyVal.toU64_iff _ _).2 h]
    dsimp only
    generalize pg.listCliques k = y
    cases y <;> rfl
  · unfold PyGraph.callNeighbors
    rw [(PyVal.toU64_iff _ _).2 h]

/-- The sorting function sorts and the clock does not go back. -/
def ValCall.Legal : ValCall → Prop
  | .search srt now _ => (∀ l, (srt l).Perm l) ∧ Steady now
  | _ => True

/-- The call does not pass 0 as the lower bound. -/
def ValCall.Positive : ValCall → Prop
  | .search _ _ v => ¬ v.lower.IsInt 0
  | _ => True

theorem args_lower {v : SearchVals} {a : PyGraph.Args} {t : Dbl} (h : v.args = some (a, t)) :
    v.lower.IsCount a.lowerBound := by
  rw [← PyVal.toU64_iff]
  unfold SearchVals.args at h
  cases h1 : v.lower.toU64 <;> cases h2 : v.upper.toU64 <;> cases h3 : v.time.toDbl <;>
    cases h4 : v.heuristic.toBool <;> cases h5 : v.dfs.toBool <;>
    cases h6 : v.continued.toBool <;> rw [h1, h2, h3, h4, h5, h6] at h <;>
    first | (cases h; done) | (cases h; rfl)

theorem args_positive {v : SearchVals} {a : PyGraph.Args} {t : Dbl} (h : v.args = some (a, t))
    (h0 : ¬ v.lower.IsInt 0) : 1 ≤ a.lowerBound := by
  rcases Nat.eq_zero_or_pos a.lowerBound with e | e
  · have := (args_lower h).1
    rw [e] at this
    exact absurd this h0
  · exact e

/-- What a call with any values does to the object, a call that the other properties are about
does, unless nothing happens. -/
theorem valCall_op (c : ValCall) (hc : c.Legal) (pg : PyGraph) :
    ∃ ops : List Op, (∀ op ∈ ops, op.Legal) ∧ (c.Positive → ∀ op ∈ ops, op.Positive) ∧
      ops.length ≤ 1 ∧ c.run pg = runs ops pg := by
  cases c with
  | search srt now v =>
    cases ha : v.args with
    | none =>
      refine ⟨[], by simp, by simp, by simp, ?_⟩
      unfold ValCall.run PyGraph.callSearch
      dsimp only
      rw [ha]
      rfl
    | some x =>
      obtain ⟨a, t⟩ := x
      obtain ⟨cl, hcl⟩ := late_answers t hc.2
      have hsim := getMaxClique_sim srt pg a hcl
      refine ⟨[.search srt { a with timeLimit := if t ≤ 0 then none else some cl }],
        by simpa [Op.Legal] using hc.1, fun h0 => by simpa [Op.Positive] using args_positive ha h0,
        by simp, ?_⟩
      rw [runs_cons]
      unfold ValCall.run PyGraph.callSearch Op.run
      dsimp only
      rw [ha, hsim]
      dsimp only
      generalize pg.getMaxCliqueC srt a t now = y
      cases y <;> rfl
  | list size =>
    cases hk : size.toU64 with
    | none =>
      refine ⟨[], by simp, by simp, by simp, ?_⟩
      unfold ValCall.run PyGraph.callList
      dsimp only
      rw [hk]
      rfl
    | some k =>
      refine ⟨[.list k], by simp [Op.Legal], by simp [Op.Positive], by simp, ?_⟩
      rw [runs_cons]
      unfold ValCall.run PyGraph.callList Op.run
      dsimp only
      rw [hk]
      dsimp only
      generalize pg.listCliques k = y
      cases y <;> rfl
  | reset =>
    refine ⟨[.reset], by simp [Op.Legal], by simp [Op.Positive], by simp, ?_⟩
    rw [runs_cons]
    unfold ValCall.run Op.run
    dsimp only
    cases pg.resetSearch <;> rfl

/-- **C102**, histories: whatever values are passed, a sequence of calls on a loaded graph never
touches memory that it should not, and leaves the object in a state that calls with sensible values
lead to, so that the other properties hold of it. -/
theorem C102_histories (h : Usable pg n S) {cs : List ValCall} (hl : ∀ c ∈ cs, c.Legal) :
    ∃ pg1 ops, cs.foldlM ValCall.run pg = .ok pg1 ∧ (∀ op ∈ ops, op.Legal) ∧
      ((∀ c ∈ cs, c.Positive) → ∀ op ∈ ops, op.Positive) ∧ ops.length ≤ cs.length ∧
      runs ops pg = .ok pg1 := by
  have key : ∀ (cs : List ValCall) (pg : PyGraph), (∀ c ∈ cs, c.Legal) →
      ∃ ops : List Op, (∀ op ∈ ops, op.Legal) ∧
        ((∀ c ∈ cs, c.Positive) → ∀ op ∈ ops, op.Positive) ∧ ops.length ≤ cs.length ∧
        cs.foldlM ValCall.run pg = runs ops pg := by
    intro cs
    induction cs with
    | nil => exact fun pg _ => ⟨[], by simp, by simp, by simp, rfl⟩
    | cons c cs ih =>
      intro pg hl
      obtain ⟨ops1, a1, a4, a2, a3⟩ := valCall_op c (hl c (by simp)) pg
      rw [List.foldlM_cons, a3]
      cases hr : runs ops1 pg with
      | error e =>
        refine ⟨ops1, a1, fun h0 => a4 (h0 c (by simp)),
          by simp only [List.length_cons]; omega, ?_⟩
        rw [hr]
        rfl
      | ok pg' =>
        obtain ⟨ops2, b1, b4, b2, b3⟩ := ih pg' fun c hc => hl c (by simp [hc])
        refine ⟨ops1 ++ ops2, ?_, ?_, ?_, ?_⟩
        · intro op hop
          rcases List.mem_append.1 hop with hop | hop
          · exact a1 op hop
          · exact b1 op hop
        · intro h0 op hop
          rcases List.mem_append.1 hop with hop | hop
          · exact a4 (h0 c (by simp)) op hop
          · exact b4 (fun c hc => h0 c (by simp [hc])) op hop
        · rw [List.length_append, List.length_cons]
          omega
        · rw [runs_append, hr]
          exact b3
  obtain ⟨ops, a1, a4, a2, a3⟩ := key cs pg hl
  obtain ⟨G, hF⟩ := h.fresh
  obtain ⟨pg1, _, b1, _⟩ := runs_spec ops hF.pyok a1
  exact ⟨pg1, ops, a3.trans b1, a1, a4, a2, b1⟩

/-- **C102**, results: whatever values are passed after whatever calls, as long as 0 is never passed
as a lower bound, `get_max_clique` raises or returns a clique that has at least `lower_bound`
vertices, where `lower_bound` is then a positive integer. -/
theorem C102_search (h : Usable pg n S) {cs : List ValCall} (hl : ∀ c ∈ cs, c.Legal)
    (hp : ∀ c ∈ cs, c.Positive) {srt : List VData → List VData} (hsrt : ∀ l, (srt l).Perm l)
    {now : Nat → Nat} (hs : Steady now) {v : SearchVals} (hv : ¬ v.lower.IsInt 0) :
    ∃ pg1 pg2 r, cs.foldlM ValCall.run pg = .ok pg1 ∧ pg1.callSearch srt now v = .ok (pg2, r) ∧
      ∀ l, r = .ret l → IsCliqueList S n l ∧ ∃ lo : Nat, v.lower.IsInt lo ∧ lo ≤ l.length := by
  obtain ⟨pg1, ops, a1, a2, a4, _, a3⟩ := C102_histories h hl
  cases ha : v.args with
  | none =>
    refine ⟨pg1, pg1, .raise, a1, ?_, fun l hr => by cases hr⟩
    unfold PyGraph.callSearch
    rw [ha]
  | some x =>
    obtain ⟨a, t⟩ := x
    obtain ⟨cl, hcl⟩ := late_answers t hs
    have hsim := getMaxClique_sim srt pg1 a hcl
    have hpos := args_positive ha hv
    obtain ⟨pg1', pg2, r, b1, b2, b3⟩ := C09_returned_is_clique h a2 (a4 hp) hsrt
      (a := { a with timeLimit := if t ≤ 0 then none else some cl }) hpos
    rw [a3] at b1
    cases b1
    refine ⟨pg1, pg2, r, a1, ?_, fun l hr =>
      ⟨(b3 l hr).1, a.lowerBound, (args_lower ha).1, (b3 l hr).2⟩⟩
    unfold PyGraph.callSearch
    rw [ha]
    dsimp only
    rw [b2] at hsim
    cases hy : pg1.getMaxCliqueC srt a t now with
    | error e => rw [hy] at hsim; cases hsim
    | ok y =>
      rw [hy] at hsim
      have := Except.ok.inj hsim
      rw [ok_bind]
      exact congrArg Except.ok this.symm

end

section

open NWG

variable {pg : PyNW Dbl} {n : Nat} {S : SimpleGraph Nat} {ω : Nat → Dbl}

/-- **C102** for weighted graphs, refusals: `get_max_clique` raises and has no effect if a bound is
not a number or a flag has no truth value, `all_cliques` if the weight is not a number.  Missing:
that bounds and weights that are NaN and flags that are `None` are refused (`C102_refuted`). -/
theorem C102_weighted_refused_partial (pg : PyNW Dbl) (junk : Nat → Dbl) :
    (∀ (srt : List (WData Dbl) → List (WData Dbl)) (v : WSearchVals),
      ((∀ x, ¬ v.lower.IsReal x) ∨ (∀ x, ¬ v.upper.IsReal x) ∨ (∀ b, ¬ v.heuristic.IsFlag b) ∨
        ∀ b, ¬ v.dfs.IsFlag b) →
      pg.callSearch srt junk v = .ok (pg, .raise)) ∧
    ∀ size : PyVal, (∀ x, ¬ size.IsReal x) → pg.callList junk size = .ok (pg, .raise) := by
  refine ⟨fun srt v h => ?_, fun size h => ?_⟩
  · have ha : v.args = none := by
      simp only [← PyVal.toDbl_none, ← PyVal.toBool_none] at h
      unfold WSearchVals.args
      cases h1 : v.lower.toDbl <;> cases h2 : v.upper.toDbl <;>
        cases h4 : v.heuristic.toBool <;> cases h5 : v.dfs.toBool <;> first | rfl | simp_all
    unfold PyNW.callSearch
    rw [ha]
  · unfold PyNW.callList
    rw [(PyVal.toDbl_none _).2 h]

/-- **C102** for weighted graphs, values that are not refused: numbers are used as the nearest
`double`. -/
theorem C102_weighted_used (pg : PyNW Dbl) (junk : Nat → Dbl) :
    (∀ (srt : List (WData Dbl) → List (WData Dbl)) (v : WSearchVals) (lo up : Dbl) (h d : Bool),
      v.lower.IsReal lo → v.upper.IsReal up → v.heuristic.IsFlag h → v.dfs.IsFlag d →
      pg.callSearch srt junk v = pg.getMaxClique srt junk
        { lowerBound := lo, upperBound := up, useHeuristic := h, useDfs := d }) ∧
    ∀ (size : PyVal) (W : Dbl), size.IsReal W →
      pg.callList junk size = (pg.listCliques junk W).map fun r => (r.1, .ret r.2) := by
  refine ⟨fun srt v lo up h d h1 h2 h3 h4 => ?_, fun size k h => ?_⟩
  · rw [← PyVal.toDbl_iff] at h1 h2
    rw [← PyVal.toBool_iff] at h3 h4
    have ha : v.args = some { lowerBound := lo, upperBound := up, useHeuristic := h,
                              useDfs := d } := by
      unfold WSearchVals.args
      rw [h1, h2, h3, h4]
      rfl
    unfold PyNW.callSearch
    rw [ha]
  · unfold PyNW.callList
    rw [(PyVal.toDbl_iff _ _).2 h]
    dsimp only
    generalize pg.listCliques junk k = y
    cases y <;> rfl

/-- The sorting function sorts. -/
def WValCall.Legal : WValCall → Prop
  | .search srt _ _ => ∀ l, (srt l).Perm l
  | _ => True

theorem wvalCall_op (c : WValCall) (hc : c.Legal) (pg : PyNW Dbl) :
    ∃ ops : List (WOp Dbl), (∀ op ∈ ops, op.Legal) ∧ ops.length ≤ 1 ∧ c.run pg = wruns ops pg := by
  cases c with
  | search srt junk v =>
    cases ha : v.args with
    | none =>
      refine ⟨[], by simp, by simp, ?_⟩
      unfold WValCall.run PyNW.callSearch
      dsimp only
      rw [ha]
      rfl
    | some a =>
      refine ⟨[.search srt junk a], by simpa [WOp.Legal, WValCall.Legal] using hc, by simp, ?_⟩
      rw [AW.wruns_cons]
      unfold WValCall.run PyNW.callSearch WOp.run
      dsimp only
      rw [ha]
      dsimp only
      generalize pg.getMaxClique srt junk a = y
      cases y <;> rfl
  | list junk size =>
    cases hk : size.toDbl with
    | none =>
      refine ⟨[], by simp, by simp, ?_⟩
      unfold WValCall.run PyNW.callList
      dsimp only
      rw [hk]
      rfl
    | some k =>
      refine ⟨[.list junk k], by simp [WOp.Legal], by simp, ?_⟩
      rw [AW.wruns_cons]
      unfold WValCall.run PyNW.callList WOp.run
      dsimp only
      rw [hk]
      dsimp only
      generalize pg.listCliques junk k = y
      cases y <;> rfl
  | reset =>
    refine ⟨[.reset], by simp [WOp.Legal], by simp, ?_⟩
    rw [AW.wruns_cons]
    unfold WValCall.run WOp.run
    dsimp only
    cases pg.resetSearch <;> rfl

/-- **C102** for weighted graphs, histories: whatever values are passed, NaN and infinite ones among
them, a sequence of calls on a loaded graph never touches memory that it should not, and leaves the
object in a state that calls with sensible types of values lead to. -/
theorem C102_weighted_histories (h : WUsable pg n S ω) {cs : List WValCall}
    (hl : ∀ c ∈ cs, c.Legal) :
    ∃ pg1 ops, cs.foldlM WValCall.run pg = .ok pg1 ∧ (∀ op ∈ ops, op.Legal) ∧
      ops.length ≤ cs.length ∧ wruns ops pg = .ok pg1 := by
  have key : ∀ (cs : List WValCall) (pg : PyNW Dbl), (∀ c ∈ cs, c.Legal) →
      ∃ ops : List (WOp Dbl), (∀ op ∈ ops, op.Legal) ∧ ops.length ≤ cs.length ∧
        cs.foldlM WValCall.run pg = wruns ops pg := by
    intro cs
    induction cs with
    | nil => exact fun pg _ => ⟨[], by simp, by simp, rfl⟩
    | cons c cs ih =>
      intro pg hl
      obtain ⟨ops1, a1, a2, a3⟩ := wvalCall_op c (hl c (by simp)) pg
      rw [List.foldlM_cons, a3]
      cases hr : wruns ops1 pg with
      | error e =>
        refine ⟨ops1, a1, by simp only [List.length_cons]; omega, ?_⟩
        rw [hr]
        rfl
      | ok pg' =>
        obtain ⟨ops2, b1, b2, b3⟩ := ih pg' fun c hc => hl c (by simp [hc])
        refine ⟨ops1 ++ ops2, ?_, ?_, ?_⟩
        · intro op hop
          rcases List.mem_append.1 hop with hop | hop
          · exact a1 op hop
          · exact b1 op hop
        · rw [List.length_append, List.length_cons]
          omega
        · rw [ok_bind, b3]
          unfold wruns at hr ⊢
          rw [List.foldlM_append, hr, ok_bind]
  obtain ⟨ops, a1, a2, a3⟩ := key cs pg hl
  obtain ⟨H, hF⟩ := AW.wusable_fresh h
  obtain ⟨pg1, _, b1, _⟩ := AW.wruns_spec ops hF.pyok a1
  exact ⟨pg1, ops, a3.trans b1, a1, a2, b1⟩

/-- **C102** for weighted graphs, results: whatever values are passed after whatever calls, nothing
that should not be touched is touched, and `get_max_clique` raises or returns the placeholder
`[0]` or a clique whose computed weight is not less than the lower bound, which is then a
number. -/
theorem C102_weighted_search (h : WUsable pg n S ω) {cs : List WValCall}
    (hc : ∀ c ∈ cs, c.Legal) {srt : List (WData Dbl) → List (WData Dbl)}
    (hsrt : ∀ l, (srt l).Perm l) (junk : Nat → Dbl) (v : WSearchVals) :
    ∃ pg1 pg2 r, cs.foldlM WValCall.run pg = .ok pg1 ∧ pg1.callSearch srt junk v = .ok (pg2, r) ∧
      ∀ l, r = .ret l → ∃ lo, v.lower.IsReal lo ∧
        (l = [0] ∨ IsCliqueList S n l ∧ ¬ summed ω l < lo) := by
  obtain ⟨pg1, ops, a0, hl, _, a1⟩ := C102_weighted_histories h hc
  cases ha : v.args with
  | none =>
    refine ⟨pg1, pg1, .raise, a0, ?_, fun l hr => by cases hr⟩
    unfold PyNW.callSearch
    rw [ha]
  | some a =>
    have hlo : v.lower.IsReal a.lowerBound := by
      rw [← PyVal.toDbl_iff]
      unfold WSearchVals.args at ha
      cases h1 : v.lower.toDbl <;> cases h2 : v.upper.toDbl <;>
        cases h4 : v.heuristic.toBool <;> cases h5 : v.dfs.toBool <;>
        rw [h1, h2, h4, h5] at ha <;> first | (cases ha; done) | (cases ha; rfl)
    obtain ⟨pg1', pg2, r, b1, a2, a3⟩ := C35_any_arithmetic h hl hsrt junk a
    rw [a1] at b1
    cases b1
    refine ⟨pg1, pg2, r, a0, ?_, fun l hr => ⟨_, hlo, ?_⟩⟩
    · unfold PyNW.callSearch
      rw [ha]
      exact a2
    · rcases a3 l hr with a3 | a3
      · exact Or.inl a3.1
      · exact Or.inr ⟨a3.1, a3.2.1⟩

/-- **C102** fails for bounds that are NaN: in every state of the object they are the bounds
`-inf` and `inf`, that is, no bounds. -/
theorem C102_nan_bounds (srt : List (WData Dbl) → List (WData Dbl)) (junk : Nat → Dbl)
    (pg : PyNW Dbl) (v : WSearchVals) :
    pg.callSearch srt junk { v with lower := .float .nan } =
      pg.callSearch srt junk { v with lower := .float (.inf true) } ∧
    pg.callSearch srt junk { v with upper := .float .nan } =
      pg.callSearch srt junk { v with upper := .float (.inf false) } := by
  have n1 : ∀ x : Dbl, ¬ x < Dbl.nan := by rintro (_ | _ | _) h <;> cases h
  have n2 : ∀ x : Dbl, ¬ Dbl.nan < x := by rintro (_ | _ | _) h <;> cases h
  have i1 : ∀ x : Dbl, ¬ x < Dbl.inf true := by
    rintro (_ | s | _) h
    · cases h
    · cases s <;> cases h
    · cases h
  have i2 : ∀ x : Dbl, ¬ Dbl.inf false < x := by rintro (_ | _ | _) h <;> cases h
  have e : ∀ x, (PyVal.float x).toDbl = some x := fun _ => rfl
  constructor
  · have key : ∀ (up : Dbl) (h d : Bool),
        pg.getMaxClique srt junk ⟨.nan, up, h, d⟩ = pg.getMaxClique srt junk ⟨.inf true, up, h, d⟩ := by
      intro up h d
      unfold PyNW.getMaxClique
      simp only [gt_iff_lt, n1, i1, if_false]
    unfold PyNW.callSearch WSearchVals.args
    dsimp only
    rw [e, e]
    generalize v.upper.toDbl = o1
    generalize v.heuristic.toBool = o2
    generalize v.dfs.toBool = o3
    rcases o1 with _ | o1
    · rfl
    rcases o2 with _ | o2
    · rfl
    rcases o3 with _ | o3
    · rfl
    exact key o1 o2 o3
  · have key : ∀ (lo : Dbl) (h d : Bool),
        pg.getMaxClique srt junk ⟨lo, .nan, h, d⟩ = pg.getMaxClique srt junk ⟨lo, .inf false, h, d⟩ := by
      intro up h d
      unfold PyNW.getMaxClique
      simp only [n2, i2, if_false]
    unfold PyNW.callSearch WSearchVals.args
    dsimp only
    rw [e, e]
    generalize v.lower.toDbl = o1
    generalize v.heuristic.toBool = o2
    generalize v.dfs.toBool = o3
    rcases o1 with _ | o1
    · rfl
    rcases o2 with _ | o2
    · rfl
    rcases o3 with _ | o3
    · rfl
    exact key o1 o2 o3

/-- **C102** fails for weights that are NaN: `all_cliques(nan)` does not raise but yields nothing. -/
theorem C102_nan_weight (h : WUsable pg n S ω) {ops : List (WOp Dbl)} (hl : ∀ op ∈ ops, op.Legal)
    (junk : Nat → Dbl) :
    ∃ pg1 pg2, wruns ops pg = .ok pg1 ∧
      pg1.callList junk (.float .nan) = .ok (pg2, .ret []) := by
  obtain ⟨H, hF⟩ := AW.wusable_fresh h
  obtain ⟨pg1, H1, a1, a2, _⟩ := AW.wruns_spec ops hF.pyok hl
  obtain ⟨_, _, H2, _, cs, _, _, _, _, b1, _⟩ := AW.wlistCliques_spec a2 junk (Dbl.nan)
  have hcs := listCliques_unreached (by rintro (_ | _ | _) h <;> cases h)
    ⟨H1, a2.g, by rw [a2.nv]; exact a2.of.nv⟩ b1
  refine ⟨pg1, { pg1 with G := some H2 }, a1, ?_⟩
  unfold PyNW.callList
  dsimp only [PyVal.toDbl]
  rw [b1, hcs]
  rfl

end

/-- **C102** fails: `None` and numbers are accepted as flags, NaN is accepted as a time limit, as a
bound and as a weight. -/
theorem C102_refuted : Usable Sample.kite 5 (ofPairs Sample.rows) ∧
    (Sample.kite.callSearch Sample.byDegree id { dfs := .none, time := .float .nan } >>=
      fun x => .ok x.2) = .ok (.ret [1, 2, 3, 4]) ∧
    WUsable Sample.dkite 5 (ofPairs Sample.rows) Sample.dω ∧
    (Sample.dkite.callSearch List.reverse (fun _ => 0)
      { lower := .float .nan, upper := .float .nan, heuristic := .float .nan } >>=
      fun x => .ok x.2) = .ok (.ret [4, 5]) ∧
    (Sample.dkite.callList (fun _ => 0) (.float .nan) >>= fun x => .ok x.2) = .ok (.ret []) := by
  refine ⟨Sample.kite_usable, ?_, Sample.dkite_usable, ?_, ?_⟩ <;> decide +kernel

/-- Values that are refused (`C102_refused_partial`, `C102_weighted_refused_partial`): negative,
fractional and too large bounds, a time limit that is `None`, a flag that is a string; a weight
that is too large an integer. -/
example : (∀ k, ¬ (PyVal.int (-1)).IsCount k) ∧ (∀ k, ¬ (PyVal.float (.fin 2)).IsCount k) ∧
    (∀ k, ¬ (PyVal.int (2 ^ 64)).IsCount k) ∧ (∀ x, ¬ PyVal.none.IsReal x) ∧
    (∀ b, ¬ PyVal.other.IsFlag b) ∧ (∀ x, ¬ (PyVal.int (10 ^ 400)).IsReal x) := by
  simp only [← PyVal.toU64_none, ← PyVal.toDbl_none, ← PyVal.toBool_none]
  refine ⟨?_, ?_, ?_, ?_, ?_, ?_⟩ <;> decide +kernel

/-- Values that are used (`C102_used`, `C102_weighted_used`); integers above `2 ^ 53` are rounded. -/
example : (PyVal.int 3).IsCount 3 ∧ (PyVal.bool true).IsCount 1 ∧ (PyVal.int 5).IsReal (.fin 5) ∧
    (PyVal.int (2 ^ 53 + 1)).IsReal (.fin (2 ^ 53)) ∧ PyVal.none.IsFlag false ∧
    (PyVal.int 2).IsFlag true := by
  simp only [← PyVal.toU64_iff, ← PyVal.toDbl_iff, ← PyVal.toBool_iff]
  refine ⟨?_, ?_, ?_, ?_, ?_, ?_⟩ <;> decide +kernel

/-- A history as in `C102_histories` and `C102_search`, in which two calls are refused: the object
is the one that the other two calls lead to. -/
example : (∀ c ∈ [ValCall.search Sample.byDegree id { lower := .int (-3) }, .list (.int 2),
        .list (.float (.fin 3)), .search Sample.byDegree id { upper := .int 3 }],
        c.Legal ∧ c.Positive) ∧
    [ValCall.search Sample.byDegree id { lower := .int (-3) }, .list (.int 2),
        .list (.float (.fin 3)), .search Sample.byDegree id { upper := .int 3 }].foldlM
        ValCall.run Sample.kite =
      runs [.list 2, .search Sample.byDegree { upperBound := 3 }] Sample.kite := by
  have hs : Steady id := fun _ _ h => h
  refine ⟨?_, by decide +kernel⟩
  simp only [List.mem_cons, List.not_mem_nil, or_false]
  rintro c (rfl | rfl | rfl | rfl)
  · exact ⟨⟨fun l => Sample.byDegree_perm l, hs⟩, by simp [ValCall.Positive, PyVal.IsInt]⟩
  · exact ⟨trivial, trivial⟩
  · exact ⟨trivial, trivial⟩
  · exact ⟨⟨fun l => Sample.byDegree_perm l, hs⟩, by simp [ValCall.Positive, PyVal.IsInt]⟩

/-- A history as in `C102_weighted_histories`, in which two calls are refused and NaN is used. -/
example : WUsable Sample.dkite 5 (ofPairs Sample.rows) Sample.dω ∧
    (∀ c ∈ [WValCall.search List.reverse (fun _ => 0) { lower := .other }, .list (fun _ => 0) .none,
        .search List.reverse (fun _ => 0) { lower := .float .nan }, .reset], c.Legal) ∧
    [WValCall.search List.reverse (fun _ => 0) { lower := .other }, .list (fun _ => 0) .none,
        .search List.reverse (fun _ => 0) { lower := .float .nan }, .reset].foldlM
        WValCall.run Sample.dkite =
      wruns [.search List.reverse (fun _ => 0) { lowerBound := .nan, upperBound := .fin 65535 },
        .reset] Sample.dkite := by
  refine ⟨Sample.dkite_usable, ?_, by decide +kernel⟩
  simp only [List.mem_cons, List.not_mem_nil, or_false]
  rintro c (rfl | rfl | rfl | rfl)
  · exact fun l => List.reverse_perm l
  · trivial
  · exact fun l => List.reverse_perm l
  · trivial

/-- Calls with unusual values and what they return. -/
example : (Sample.kite.callSearch Sample.byDegree id { lower := .bool true, dfs := .int 7 } >>=
      fun x => .ok x.2) = .ok (.ret [1, 2, 3, 4]) ∧
    (Sample.kite.callSearch Sample.byDegree id { lower := .int (-1) } >>= fun x => .ok x.2) =
      .ok .raise ∧
    (Sample.dkite.callSearch List.reverse (fun _ => 0) { lower := .float (.fin 12) } >>=
      fun x => .ok x.2) = .ok .raise ∧
    (Sample.dkite.callList (fun _ => 0) (.int 11) >>= fun x => .ok x.2) = .ok (.ret [[4, 5]]) := by
  decide +kernel

end CM
