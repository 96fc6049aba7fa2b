import Verif.Lemmas.EXDouble
import Verif.Props.WeightedArith
import Verif.Props.WeightedInfo

/-!
# Weights that are `double`s and add up exactly

The theorems about heaviest cliques in `Props/Weighted*.lean` are about rational weights; with
`double`s, rounding can break them (`C36_refuted_rounding` and others).  Here they are proved for
`double`s whenever the sums of the weights happen to be `double`s themselves.  That is so for
all integer weights whose absolute values add up to at most `2 ^ 53`, and more generally for such
multiples of a power of two (`exact_of_unit`).

`ω` are the weights the object was given, `q` their values; `ExactWeights n ω q` and `Binary64`
are defined in `SpecDouble.lean`.
-/

namespace CM

open Spec Graph NWG

variable {pg : PyNW Dbl} {n : Nat} {S : SimpleGraph Nat} {ω : Nat → Dbl} {q : Nat → Rat}

/-! ## Rounding -/

/-- The model of rounding is IEEE 754's: the result of rounding, unless it overflows, is a
binary64 number, and there is none nearer to the exact number. -/
theorem round_is_nearest {x r : Rat} (h : Dbl.round x = .fin r) :
    Binary64 r ∧ ∀ y, Binary64 y → |r - x| ≤ |y - x| := Dbl.round_spec h

/-- The numbers that rounding does not change are the binary64 numbers. -/
theorem round_fixes {x : Rat} : Dbl.round x = .fin x ↔ Binary64 x := Dbl.round_eq_fin

example : Dbl.round (1 / 10) = .fin (3602879701896397 / 2 ^ 55) ∧ ¬ Binary64 (1 / 10) := by
  refine ⟨by decide +kernel, fun h => ?_⟩
  rw [← round_fixes] at h
  exact absurd h (by decide +kernel)

/-- Integer multiples of one power of two add up exactly if the multiples add up, in absolute
value, to at most `2 ^ 53`. -/
theorem exact_of_unit {z : Nat → Int} {k : Int} (hk : -1074 ≤ k) (hk' : k ≤ 970)
    (hω : ∀ v, 1 ≤ v → v ≤ n → ω v = .fin (z v * 2 ^ k))
    (hsum : ∑ v ∈ Finset.Icc 1 n, |z v| ≤ 2 ^ 53) :
    ExactWeights n ω (fun v => z v * 2 ^ k) := by
  refine ⟨hω, fun T hT => ?_⟩
  rw [EX.sum_unit (z := z) (k := k) (fun _ _ => rfl)]
  exact Dbl.fin64_mul (le_trans (EX.abs_sum_le hT) hsum) hk hk'

/-- Half as much is enough for two sets. -/
theorem exact2_of_unit {z : Nat → Int} {k : Int} (hk : -1074 ≤ k) (hk' : k ≤ 970)
    (hω : ∀ v, 1 ≤ v → v ≤ n → ω v = .fin (z v * 2 ^ k))
    (hsum : ∑ v ∈ Finset.Icc 1 n, |z v| ≤ 2 ^ 52) :
    ExactWeights2 n ω (fun v => z v * 2 ^ k) := by
  refine ⟨hω, fun T hT T' hT' => ?_⟩
  rw [EX.sum_unit (z := z) (k := k) (fun _ _ => rfl), EX.sum_unit (z := z) (k := k) (fun _ _ => rfl),
    ← add_mul, ← Int.cast_add]
  refine Dbl.fin64_mul (le_trans (abs_add_le _ _) ?_) hk hk'
  have h1 := EX.abs_sum_le (z := z) hT
  have h2 := EX.abs_sum_le (z := z) hT'
  omega

/-- A condition for two sets covers the condition for one. -/
theorem exact_of_exact2 (x : ExactWeights2 n ω q) : ExactWeights n ω q := EX.weights2_one x

/-! ## A sample -/

namespace Sample

/-- The kite with weights 2, 0.5, 3, 1, 10, as `double`s. -/
def dkite : PyNW Dbl := get PyNW.new
  (PyNW.fromEdgelist true 64 rows 5 [.fin 2, .fin (1 / 2), .fin 3, .fin 1, .fin 10])

/-- The weights as a function. -/
def dω : Nat → Dbl := nth [.fin 2, .fin (1 / 2), .fin 3, .fin 1, .fin 10]

/-- Their values as multiples of 1/2. -/
def dz : Nat → Int := fun v => [4, 1, 6, 2, 20].getD (v - 1) 0

/-- Their values. -/
def dq : Nat → Rat := fun v => dz v * 2 ^ (-1 : Int)

theorem dkite_usable : WUsable dkite 5 (ofPairs rows) dω :=
  ⟨.edgelist (argLR := true) (cap := 64) (by decide) (by decide) (by decide +kernel),
    wkept (by decide +kernel), 1, 2, by decide, Or.inl (by decide)⟩

theorem dkite_exact2 : ExactWeights2 5 dω dq :=
  exact2_of_unit (by decide) (by decide) (by decide +kernel) (by decide +kernel)

theorem dkite_exact : ExactWeights 5 dω dq := exact_of_exact2 dkite_exact2

theorem dkite_pos : ∀ v, 1 ≤ v → v ≤ 5 → 0 < dq v := by decide +kernel

theorem dkite_nonneg : ∀ v, 1 ≤ v → v ≤ 5 → 0 ≤ dq v := fun v h1 h2 => le_of_lt (dkite_pos v h1 h2)

theorem dkite_upper {ub : Dbl} (h : Dbl.fin 17 ≤ ub) :
    ∀ l, IsCliqueList (ofPairs rows) 5 l → Dbl.fin (weight dq l) ≤ ub := by
  intro l hl
  have h1 := weight_le dkite_nonneg hl
  have h2 : weight dq ((List.range 5).map (· + 1)) ≤ 17 := by decide +kernel
  have h3 := le_trans h1 h2
  cases ub with
  | fin r =>
    show Dbl.le _ _ = true
    have h : Dbl.le (.fin 17) (.fin r) = true := h
    simp only [Dbl.le, decide_eq_true_eq] at h ⊢
    exact le_trans h3 h
  | inf s => exact h
  | nan => exact h

end Sample

/-! ## Histories -/

/-- The lower bound of a search is not `inf`, and no clique is heavier than its upper bound, which
may be `inf`. -/
def WOp.Within (S : SimpleGraph Nat) (n : Nat) (q : Nat → Rat) : WOp Dbl → Prop
  | .search _ _ a => a.lowerBound ≠ .inf false ∧
      ∀ l, IsCliqueList S n l → Dbl.fin (weight q l) ≤ a.upperBound
  | _ => True

theorem nil_clique (S : SimpleGraph Nat) (n : Nat) : IsCliqueList S n [] :=
  ⟨List.Pairwise.nil, fun _ h => absurd h (by simp), fun _ h => absurd h (by simp)⟩

theorem upper_ok {ub : Dbl} (h : ∀ l, IsCliqueList S n l → Dbl.fin (weight q l) ≤ ub) :
    EX.UpOk ub := EX.upOk_of (h [] (nil_clique S n))

theorem within_opQ {op : WOp Dbl} (h : op.Within S n q) : EX.OpQ S n q op := by
  cases op with
  | search _ _ a => exact ⟨EX.lowOk_of h.1, upper_ok h.2, h.2⟩
  | list _ _ => trivial
  | reset => trivial

/-- Bounds that are numbers, or at least not on the wrong side of all numbers. -/
def WOp.Sane : WOp Dbl → Prop
  | .search _ _ a => a.lowerBound ≠ .inf false ∧ a.upperBound ≠ .inf true
  | _ => True

theorem sane_ok {op : WOp Dbl} (h : op.Sane) : EX.OpOk op := by
  cases op with
  | search _ _ a =>
    refine ⟨EX.lowOk_of h.1, ?_⟩
    cases hb : a.upperBound with
    | fin r => exact Or.inl rfl
    | inf s =>
      refine Or.inr (fun r hr => ?_)
      cases s with
      | true => exact h.2 hb
      | false => exact absurd hr (by show ¬ (Dbl.lt (.inf false) (.fin r) = true); simp [Dbl.lt])
    | nan =>
      exact Or.inr (fun r hr =>
        absurd hr (by show ¬ (Dbl.lt .nan (.fin r) = true); simp [Dbl.lt]))
  | list _ _ => trivial
  | reset => trivial

/-! ## C36 -/

/-- **C36** for `double`s that add up exactly: with nonnegative weights an exact search on a
fresh graph returns a clique at least as heavy as every clique but isolated vertices, if one is
heavier than the lower bound and none heavier than the upper bound. -/
theorem C36_double_partial (h : WUsable pg n S ω) (x : ExactWeights n ω q)
    (hnn : ∀ v, 1 ≤ v → v ≤ n → 0 ≤ q v)
    {srt : List (WData Dbl) → List (WData Dbl)} (hsrt : ∀ l, (srt l).Perm l) (junk : Nat → Dbl)
    {a : PyNW.Args Dbl} (hd : a.useDfs = true) {lb : Rat} (hlb : a.lowerBound = .fin lb)
    (ha : 0 ≤ lb) (hu : ∀ l, IsCliqueList S n l → Dbl.fin (weight q l) ≤ a.upperBound)
    (hex : ∃ l, IsCliqueList S n l ∧ 2 ≤ l.length ∧ lb < weight q l) :
    ∃ pg' l, pg.getMaxClique srt junk a = .ok (pg', .ret l) ∧ IsCliqueList S n l ∧
      lb < weight q l ∧
      ∀ l', IsCliqueList S n l' → (∀ v, l' = [v] → ∃ u, S.Adj v u) →
        weight q l' ≤ weight q l := by
  obtain ⟨H, hF⟩ := (EX.given h x).fresh
  obtain ⟨pg', l, h1, h2, h3, _, h4⟩ := EX.exact_fresh (EX.given h x) hnn hsrt junk hd hlb ha
    (upper_ok hu) hu hex
  refine ⟨pg', l, h1, h2, h3, ?_⟩
  intro l' hl' hiso
  obtain ⟨l2, e1, e2, e3⟩ := isolated_only h.edge hF.pyok.of.rng hnn hl' hiso
  exact le_trans e3 (h4 l2 e1 e2)

/-- **C36** for `double`s that add up exactly, on graphs without isolated vertices: the result is
a heaviest clique. -/
theorem C36_double_no_isolated (h : WUsable pg n S ω) (x : ExactWeights n ω q)
    (hnn : ∀ v, 1 ≤ v → v ≤ n → 0 ≤ q v) (hiso : ∀ v, 1 ≤ v → v ≤ n → ∃ u, S.Adj v u)
    {srt : List (WData Dbl) → List (WData Dbl)} (hsrt : ∀ l, (srt l).Perm l) (junk : Nat → Dbl)
    {a : PyNW.Args Dbl} (hd : a.useDfs = true) {lb : Rat} (hlb : a.lowerBound = .fin lb)
    (ha : 0 ≤ lb) (hu : ∀ l, IsCliqueList S n l → Dbl.fin (weight q l) ≤ a.upperBound)
    (hex : ∃ l, IsCliqueList S n l ∧ lb < weight q l) :
    ∃ pg' l, pg.getMaxClique srt junk a = .ok (pg', .ret l) ∧ IsCliqueList S n l ∧
      ∀ l', IsCliqueList S n l' → weight q l' ≤ weight q l := by
  obtain ⟨H, hF⟩ := (EX.given h x).fresh
  have key : ∀ l', IsCliqueList S n l' → ∀ v, l' = [v] → ∃ u, S.Adj v u := by
    intro l' hl' v hv
    have := hl'.range v (by rw [hv]; simp)
    exact hiso v this.1 this.2
  obtain ⟨l0, h1, h2⟩ := hex
  obtain ⟨l2, e1, e2, e3⟩ := isolated_only h.edge hF.pyok.of.rng hnn h1 (key l0 h1)
  obtain ⟨pg', l, c1, c2, _, c4⟩ := C36_double_partial h x hnn hsrt junk hd hlb ha hu
    ⟨l2, e1, e2, lt_of_lt_of_le h2 e3⟩
  exact ⟨pg', l, c1, c2, fun l' hl' => c4 l' hl' (key l' hl')⟩

/-- **C36** for `double`s that add up exactly: if the search raises, no clique with two or more
vertices is heavier than the lower bound. -/
theorem C36_double_raise_partial (h : WUsable pg n S ω) (x : ExactWeights n ω q)
    (hnn : ∀ v, 1 ≤ v → v ≤ n → 0 ≤ q v)
    {srt : List (WData Dbl) → List (WData Dbl)} (hsrt : ∀ l, (srt l).Perm l) (junk : Nat → Dbl)
    {a : PyNW.Args Dbl} (hd : a.useDfs = true) {lb : Rat} (hlb : a.lowerBound = .fin lb)
    (ha : 0 ≤ lb) (hu : ∀ l, IsCliqueList S n l → Dbl.fin (weight q l) ≤ a.upperBound)
    {pg' : PyNW Dbl} (hr : pg.getMaxClique srt junk a = .ok (pg', .raise)) :
    ∀ l, IsCliqueList S n l → 2 ≤ l.length → weight q l ≤ lb := by
  intro l hl h2
  by_contra hlt
  obtain ⟨pg2, l2, h3, _⟩ := C36_double_partial h x hnn hsrt junk hd hlb ha hu
    ⟨l, hl, h2, not_le.1 hlt⟩
  rw [hr] at h3
  injection h3 with h3
  injection h3 with _ h3
  cases h3

/-- **C36**, **C50** for `double`s that add up exactly: after any history with sufficient upper
bounds, `reset_search` and an exact search give a clique at least as heavy as every clique but
isolated vertices. -/
theorem C50_double_partial (h : WUsable pg n S ω) (x : ExactWeights n ω q)
    (hnn : ∀ v, 1 ≤ v → v ≤ n → 0 ≤ q v) {ops : List (WOp Dbl)} (hl : ∀ op ∈ ops, op.Legal)
    (hx : ∀ op ∈ ops, op.Within S n q)
    {srt : List (WData Dbl) → List (WData Dbl)} (hsrt : ∀ l, (srt l).Perm l) (junk : Nat → Dbl)
    {a : PyNW.Args Dbl} (hd : a.useDfs = true) {lb : Rat} (hlb : a.lowerBound = .fin lb)
    (ha : 0 ≤ lb) (hu : ∀ l, IsCliqueList S n l → Dbl.fin (weight q l) ≤ a.upperBound)
    (hex : ∃ l, IsCliqueList S n l ∧ 2 ≤ l.length ∧ lb < weight q l) :
    ∃ pg1 pg2 pg3 l, wruns ops pg = .ok pg1 ∧ pg1.resetSearch = .ok pg2 ∧
      pg2.getMaxClique srt junk a = .ok (pg3, .ret l) ∧ IsCliqueList S n l ∧ lb < weight q l ∧
      ∀ l', IsCliqueList S n l' → (∀ v, l' = [v] → ∃ u, S.Adj v u) →
        weight q l' ≤ weight q l := by
  obtain ⟨H, hF⟩ := (EX.given h x).fresh
  obtain ⟨pg1, pg2, pg3, l, h0, h1, h2, h3, h4, h5⟩ := EX.exact_reset (EX.given h x) hnn hl
    (fun op ho => within_opQ (hx op ho)) hsrt junk hd hlb ha (upper_ok hu) hu hex
  refine ⟨pg1, pg2, pg3, l, h0, h1, h2, h3, h4, ?_⟩
  intro l' hl' hiso
  obtain ⟨l2, e1, e2, e3⟩ := isolated_only h.edge hF.pyok.of.rng hnn hl' hiso
  exact le_trans e3 (h5 l2 e1 e2)

/-- **C59** for `double`s that add up exactly: the result is at least as heavy as the smaller of
the upper bound and any clique with two or more vertices. -/
theorem C59_double_partial (h : WUsable pg n S ω) (x : ExactWeights n ω q)
    (hnn : ∀ v, 1 ≤ v → v ≤ n → 0 ≤ q v)
    {srt : List (WData Dbl) → List (WData Dbl)} (hsrt : ∀ l, (srt l).Perm l) (junk : Nat → Dbl)
    {a : PyNW.Args Dbl} (hd : a.useDfs = true) {lb ub : Rat} (hlb : a.lowerBound = .fin lb)
    (ha : 0 ≤ lb) (hub : a.upperBound = .fin ub) (hb : lb < ub)
    (hex : ∃ l, IsCliqueList S n l ∧ 2 ≤ l.length ∧ lb < weight q l) :
    ∃ pg' l, pg.getMaxClique srt junk a = .ok (pg', .ret l) ∧ IsCliqueList S n l ∧
      lb < weight q l ∧
      ∀ l', IsCliqueList S n l' → 2 ≤ l'.length → min ub (weight q l') ≤ weight q l :=
  EX.exact_upper (EX.given h x) hnn hsrt junk hd hlb ha hub hb hex

/-- The hypotheses of these theorems for a call on the sample, whose upper bound is `inf`, and
what the call returns. -/
example : (∃ pg' l, Sample.dkite.getMaxClique List.reverse (fun _ => .nan)
        { lowerBound := .fin (1 / 2), upperBound := .inf false } = .ok (pg', .ret l) ∧
      IsCliqueList (ofPairs Sample.rows) 5 l ∧
      ∀ l', IsCliqueList (ofPairs Sample.rows) 5 l' → weight Sample.dq l' ≤ weight Sample.dq l) ∧
    (Sample.dkite.getMaxClique List.reverse (fun _ => .nan)
        { lowerBound := .fin (1 / 2), upperBound := .inf false } >>= fun x => .ok x.2) =
      .ok (.ret [4, 5]) := by
  refine ⟨C36_double_no_isolated Sample.dkite_usable Sample.dkite_exact Sample.dkite_nonneg ?_
    (fun l => List.reverse_perm l) _ rfl rfl (by decide +kernel)
    (Sample.dkite_upper (by decide))
    ⟨[4, 5], Sample.pair_clique (by decide) (by decide) (by decide) (by decide),
      by decide +kernel⟩, by decide +kernel⟩
  intro v h1 h2
  have : v = 1 ∨ v = 2 ∨ v = 3 ∨ v = 4 ∨ v = 5 := by omega
  rcases this with rfl | rfl | rfl | rfl | rfl
  · exact ⟨2, by decide, by decide⟩
  · exact ⟨1, by decide, by decide⟩
  · exact ⟨1, by decide, by decide⟩
  · exact ⟨1, by decide, by decide⟩
  · exact ⟨4, by decide, by decide⟩

/-- A call that raises, as in `C36_double_raise_partial`; one with a small upper bound, as in
`C59_double_partial`. -/
example : (Sample.dkite.getMaxClique List.reverse (fun _ => .nan)
        { lowerBound := .fin 12, upperBound := .inf false } >>= fun x => .ok x.2) = .ok .raise ∧
    (∀ l, IsCliqueList (ofPairs Sample.rows) 5 l → Dbl.fin (weight Sample.dq l) ≤ .inf false) ∧
    (Sample.dkite.getMaxClique List.reverse (fun _ => .nan)
        { lowerBound := .fin 1, upperBound := .fin 2 } >>= fun x => .ok x.2) =
      .ok (.ret [1, 2, 3, 4]) :=
  ⟨by decide +kernel, Sample.dkite_upper (by decide), by decide +kernel⟩

/-! ## C48 -/

/-- An exact search with a sufficient upper bound and any lower bound but `inf`. -/
def WOp.WithinSearch (S : SimpleGraph Nat) (n : Nat) (q : Nat → Rat) : WOp Dbl → Prop
  | .search srt _ a => (∀ l, (srt l).Perm l) ∧ a.useDfs = true ∧ a.lowerBound ≠ .inf false ∧
      ∀ l, IsCliqueList S n l → Dbl.fin (weight q l) ≤ a.upperBound
  | _ => False

/-- **C48** for `double`s that add up exactly: if after some history a search returned a clique
with two or more vertices and positive weight, then exact searches later on return one at least as
heavy. -/
theorem C48_double_partial (h : WUsable pg n S ω) (x : ExactWeights n ω q)
    (hnn : ∀ v, 1 ≤ v → v ≤ n → 0 ≤ q v) {ops : List (WOp Dbl)} (hl : ∀ op ∈ ops, op.Legal)
    (hx : ∀ op ∈ ops, op.Within S n q)
    {srt1 : List (WData Dbl) → List (WData Dbl)} (hsrt1 : ∀ l, (srt1 l).Perm l)
    (junk1 : Nat → Dbl) {a1 : PyNW.Args Dbl} (hlb1 : a1.lowerBound ≠ .inf false)
    (hu1 : ∀ l, IsCliqueList S n l → Dbl.fin (weight q l) ≤ a1.upperBound)
    {pg1 pg2 : PyNW Dbl} {l1 : List Nat} (h1 : wruns ops pg = .ok pg1)
    (h2 : pg1.getMaxClique srt1 junk1 a1 = .ok (pg2, .ret l1)) (hlen : 2 ≤ l1.length)
    (hpos : 0 < weight q l1) {ops' : List (WOp Dbl)} (hl' : ∀ op ∈ ops', op.WithinSearch S n q)
    {srt2 : List (WData Dbl) → List (WData Dbl)} (hsrt2 : ∀ l, (srt2 l).Perm l)
    (junk2 : Nat → Dbl) {a2 : PyNW.Args Dbl} (hd2 : a2.useDfs = true)
    (hu2 : ∀ l, IsCliqueList S n l → Dbl.fin (weight q l) ≤ a2.upperBound) {lb : Rat}
    (hlb2 : a2.lowerBound = .fin lb) (hlow : lb ≤ weight q l1) :
    ∃ pg3 pg4 l2, wruns ops' pg2 = .ok pg3 ∧
      pg3.getMaxClique srt2 junk2 a2 = .ok (pg4, .ret l2) ∧ IsCliqueList S n l2 ∧
      weight q l1 ≤ weight q l2 := by
  refine EX.repeat_mono (EX.given h x) hnn hl (fun op ho => within_opQ (hx op ho)) hsrt1 junk1
    (EX.lowOk_of hlb1) (upper_ok hu1) hu1 h1 h2 hlen hpos ?_ hsrt2 junk2 hd2 (upper_ok hu2) hu2
    hlb2 hlow
  intro op ho
  have := hl' op ho
  cases op with
  | search _ _ a => exact ⟨this.1, this.2.1, EX.lowOk_of this.2.2.1, upper_ok this.2.2.2, this.2.2.2⟩
  | list _ _ => exact this
  | reset => exact this

/-- On the sample: a history, a search that returns a clique of weight 11, a search that raises,
and again a search. -/
example : (wruns ([.list (fun _ => .nan) (.fin 3), .reset] : List (WOp Dbl)) Sample.dkite >>= fun pg =>
      pg.getMaxClique List.reverse (fun _ => .nan)
        { lowerBound := .nan, upperBound := .inf false } >>= fun x =>
      wruns ([.search List.reverse (fun _ => .fin 5)
        { lowerBound := .fin 100, upperBound := .inf false }] : List (WOp Dbl)) x.1 >>= fun pg =>
      pg.getMaxClique List.reverse (fun _ => .nan)
        { lowerBound := .fin 1, upperBound := .fin 100 } >>= fun y => .ok (x.2, y.2)) =
      .ok (.ret [4, 5], .ret [4, 5]) ∧
    (∀ op ∈ ([.search List.reverse (fun _ => .fin 5)
        { lowerBound := .fin 100, upperBound := .inf false }] : List (WOp Dbl)),
      op.WithinSearch (ofPairs Sample.rows) 5 Sample.dq) := by
  refine ⟨by decide +kernel, ?_⟩
  intro op ho
  rw [List.mem_singleton] at ho
  subst ho
  exact ⟨fun l => List.reverse_perm l, rfl, by simp, Sample.dkite_upper (by decide)⟩

/-! ## C35, C64 -/

/-- **C64** for `double`s that add up exactly: after any history, `get_clique_weight` of different
vertices is their total weight. -/
theorem C64_double_exact (h : WUsable pg n S ω) (x : ExactWeights n ω q) {ops : List (WOp Dbl)}
    (hl : ∀ op ∈ ops, op.Legal) (hx : ∀ op ∈ ops, op.Sane) {l : List Nat} (hnd : l.Nodup)
    (hr : ∀ v ∈ l, 1 ≤ v ∧ v ≤ n) :
    ∃ pg1, wruns ops pg = .ok pg1 ∧ pg1.getCliqueWeight l = .ok (.fin (weight q l)) :=
  EX.clique_weight (EX.given h x) hl (fun op ho => sane_ok (hx op ho)) hnd hr

example : (wruns ([.list (fun _ => .nan) (.fin 3), .search List.reverse (fun _ => .fin 5)
      { lowerBound := .fin 100, upperBound := .inf false }] : List (WOp Dbl)) Sample.dkite >>=
    fun pg => pg.getCliqueWeight [5, 2, 1]) = .ok (.fin (25 / 2)) := by decide +kernel

/-! ## C45, C46, C62 -/

/-- **C45** for `double`s that add up exactly: after any history, with any weights, the iterator
over cliques of weight `W` or more yields cliques of at least two vertices that weigh at least
`W`, and none of them twice. -/
theorem C45_double_exact (h : WUsable pg n S ω) (x : ExactWeights2 n ω q) {ops : List (WOp Dbl)}
    (hl : ∀ op ∈ ops, op.Legal) (hx : ∀ op ∈ ops, op.Sane) (junk : Nat → Dbl) (W : Rat) :
    ∃ pg1 pg2 cs, wruns ops pg = .ok pg1 ∧ pg1.listCliques junk (.fin W) = .ok (pg2, cs) ∧
      cs.Nodup ∧ ∀ l ∈ cs, IsCliqueList S n l ∧ 2 ≤ l.length ∧ W ≤ weight q l :=
  EX.list_sound (EX.given2 h x) hl (fun op ho => sane_ok (hx op ho)) junk W

/-- **C46** for `double`s that add up exactly, what holds of it: with nonnegative weights the
iterator yields exactly the cliques with at least two vertices, whose first vertex (by weight of
the neighbourhood, then by number) is not vertex 1, and whose weight reaches `W` when the last
vertex is added to the others in increasing order after the first. -/
theorem C46_double_exactly_partial (h : WUsable pg n S ω) (x : ExactWeights2 n ω q)
    (hnn : ∀ v, 1 ≤ v → v ≤ n → 0 ≤ q v) {ops : List (WOp Dbl)} (hl : ∀ op ∈ ops, op.Legal)
    (hx : ∀ op ∈ ops, op.Within S n q) (junk : Nat → Dbl) (W : Rat) :
    ∃ pg1 pg2 cs, wruns ops pg = .ok pg1 ∧ pg1.listCliques junk (.fin W) = .ok (pg2, cs) ∧
      cs.Nodup ∧ ∀ l, l ∈ cs ↔ IsCliqueList S n l ∧ 2 ≤ l.length ∧
        ∃ u, u ≠ 1 ∧ WFirst S n q u l ∧ ReachedLast q W u l :=
  EX.list_exactly (EX.given2 h x) hnn hl (fun op ho => within_opQ (hx op ho)) junk W

/-- **C46** for `double`s that add up exactly: every clique with at least two vertices that weighs
at least `W` and whose first vertex is not vertex 1 contains a reported clique. -/
theorem C46_double_covers_partial (h : WUsable pg n S ω) (x : ExactWeights2 n ω q)
    (hnn : ∀ v, 1 ≤ v → v ≤ n → 0 ≤ q v) {ops : List (WOp Dbl)} (hl : ∀ op ∈ ops, op.Legal)
    (hx : ∀ op ∈ ops, op.Within S n q) (junk : Nat → Dbl) (W : Rat) :
    ∃ pg1 pg2 cs, wruns ops pg = .ok pg1 ∧ pg1.listCliques junk (.fin W) = .ok (pg2, cs) ∧
      ∀ l, IsCliqueList S n l → 2 ≤ l.length → ¬ WFirst S n q 1 l → W ≤ weight q l →
        ∃ l' ∈ cs, l' ⊆ l := by
  obtain ⟨pg1, pg2, cs, a1, a2, _, a3⟩ := C46_double_exactly_partial h x hnn hl hx junk W
  refine ⟨pg1, pg2, cs, a1, a2, ?_⟩
  intro l hcl h2 hf hW
  obtain ⟨u, hu⟩ := exists_wfirst S n q (l := l) (by rintro rfl; simp at h2)
  obtain ⟨l', b1, b2, b3, b4, b5⟩ := exists_reached hcl h2 hu hW
  exact ⟨l', (a3 l').2 ⟨b1, b2, u, by rintro rfl; exact hf hu, b4, b5⟩, b3⟩

/-- **C62** for `double`s that add up exactly, for iterators consumed one after the other. -/
theorem C62_double_partial (h : WUsable pg n S ω) (x : ExactWeights2 n ω q)
    (hnn : ∀ v, 1 ≤ v → v ≤ n → 0 ≤ q v) {ops ops' : List (WOp Dbl)} (hl : ∀ op ∈ ops, op.Legal)
    (hx : ∀ op ∈ ops, op.Within S n q) (hl' : ∀ op ∈ ops', op.Legal)
    (hx' : ∀ op ∈ ops', op.Within S n q) (junk junk' : Nat → Dbl) (W : Rat) :
    ∃ pg1 pg2 pg3 pg4 cs cs', wruns ops pg = .ok pg1 ∧
      pg1.listCliques junk (.fin W) = .ok (pg2, cs) ∧ wruns ops' pg2 = .ok pg3 ∧
      pg3.listCliques junk' (.fin W) = .ok (pg4, cs') ∧ cs.Perm cs' := by
  obtain ⟨pg1, pg2, cs, a1, a2, a3, a4⟩ := C46_double_exactly_partial h x hnn hl hx junk W
  obtain ⟨pg3, pg4, cs', b1, b2, b3, b4⟩ := C46_double_exactly_partial
    (ops := ops ++ .list junk (.fin W) :: ops') h x hnn
    (by
      intro op hop
      rcases List.mem_append.1 hop with hop | hop
      · exact hl op hop
      · rcases List.mem_cons.1 hop with rfl | hop
        · trivial
        · exact hl' op hop)
    (by
      intro op hop
      rcases List.mem_append.1 hop with hop | hop
      · exact hx op hop
      · rcases List.mem_cons.1 hop with rfl | hop
        · trivial
        · exact hx' op hop) junk' W
  have hs : wruns (ops ++ .list junk (.fin W) :: ops') pg = (wruns ops pg >>= fun pg =>
      (pg.listCliques junk (.fin W) >>= fun y => .ok y.1) >>= fun pg => wruns ops' pg) := by
    unfold wruns
    rw [List.foldlM_append]
    rfl
  rw [hs, a1, ok_bind, a2, ok_bind, ok_bind] at b1
  refine ⟨pg1, pg2, pg3, pg4, cs, cs', a1, a2, b1, b2, ?_⟩
  rw [List.perm_ext_iff_of_nodup a3 b3]
  intro l
  rw [a4, b4]

/-- The iterator on the sample, after a history that meets the hypotheses; a clique the
specification asks for. -/
example : (∀ op ∈ ([.list (fun _ => .nan) (.fin 1), .reset, .search List.reverse (fun _ => .nan)
        { lowerBound := .fin 1, upperBound := .inf false }] : List (WOp Dbl)), op.Legal ∧ op.Sane ∧
      op.Within (ofPairs Sample.rows) 5 Sample.dq) ∧
    (wruns ([.list (fun _ => .nan) (.fin 1), .reset, .search List.reverse (fun _ => .nan)
        { lowerBound := .fin 1, upperBound := .inf false }] : List (WOp Dbl)) Sample.dkite >>=
      fun pg => pg.listCliques (fun _ => .nan) (.fin 3) >>= fun x => .ok x.2) =
      .ok [[2, 3], [3, 4], [4, 5]] ∧
    ∃ l, IsCliqueList (ofPairs Sample.rows) 5 l ∧ 2 ≤ l.length ∧
      ¬ WFirst (ofPairs Sample.rows) 5 Sample.dq 1 l ∧ 3 ≤ weight Sample.dq l := by
  refine ⟨?_, by decide +kernel, [2, 3],
    Sample.pair_clique (by decide) (by decide) (by decide) (by decide), by decide,
    fun h => absurd h.1 (by decide), by decide +kernel⟩
  intro op hop
  simp only [List.mem_cons, List.not_mem_nil, or_false] at hop
  rcases hop with rfl | rfl | rfl
  · exact ⟨trivial, trivial, trivial⟩
  · exact ⟨trivial, trivial, trivial⟩
  · exact ⟨fun l => List.reverse_perm l, ⟨by simp, by simp⟩, by simp,
      Sample.dkite_upper (by decide)⟩

/-! ## C66 -/

/-- **C66** for `double`s: on the same graph, with all weights one and at most 65535 vertices, the
default calls of `NWGraph.get_max_clique` and `Graph.get_max_clique` return cliques of the same
size. -/
theorem C66_double {pw : PyNW Dbl} {pg : PyGraph} (hw : WUsable pw n S ω)
    (hone : ∀ v, 1 ≤ v → v ≤ n → ω v = 1) (h : Usable pg n S) (hn : n ≤ 65535)
    {srt : List (WData Dbl) → List (WData Dbl)} (hsrt : ∀ l, (srt l).Perm l) (junk : Nat → Dbl)
    {srt' : List VData → List VData} (hsrt' : ∀ l, (srt' l).Perm l) :
    ∃ pw' pg' l l', pw.getMaxClique srt junk {} = .ok (pw', .ret l) ∧
      pg.getMaxClique srt' {} = .ok (pg', .ret l') ∧ IsCliqueList S n l ∧ IsCliqueList S n l' ∧
      l.length = l'.length := by
  have x : ExactWeights n ω (fun _ => ((1 : Int) : Rat) * 2 ^ (0 : Int)) := by
    refine exact_of_unit (z := fun _ => 1) (by decide) (by decide) ?_ ?_
    · intro v h1 h2
      rw [hone v h1 h2]
      decide +kernel
    · simp
      omega
  have hq : (fun _ : Nat => ((1 : Int) : Rat) * 2 ^ (0 : Int)) = fun _ => 1 := by
    funext _; norm_num
  rw [hq] at x
  have hwt : ∀ l : List Nat, weight (fun _ => (1 : Rat)) l = l.length := by
    intro l; unfold weight; simp
  obtain ⟨u, v, huv⟩ := hw.edge
  obtain ⟨H, hF⟩ := (EX.given hw x).fresh
  obtain ⟨l0, hl0, h02, _⟩ := isolated_only (ω := fun _ => (1 : Rat)) (n := n) ⟨u, v, huv⟩
    hF.pyok.of.rng (fun _ _ _ => zero_le_one) (nil_clique S n) (fun v h => by simp at h)
  obtain ⟨pw', l, a1, a2, a3, a4⟩ := C36_double_partial hw x (fun _ _ _ => zero_le_one) hsrt junk
    (a := {}) rfl (lb := 1) (by decide +kernel) zero_le_one
    (fun l hl => by
      rw [hwt l]
      have := Nat.le_trans hl.length_le hn
      have h2 : (l.length : Rat) ≤ 65535 := by exact_mod_cast this
      have e : (({} : PyNW.Args Dbl).upperBound) = .fin 65535 := by decide +kernel
      rw [e]
      show Dbl.le _ _ = true
      simpa [Dbl.le] using h2)
    ⟨l0, hl0, h02, by
      rw [hwt l0]
      exact_mod_cast h02⟩
  obtain ⟨pg', l', b1, b2, b3⟩ := C10_default_call h hn hsrt'
  refine ⟨pw', pg', l, l', a1, b1, a2, b2, Nat.le_antisymm (b3 l a2) ?_⟩
  have h2' : 2 ≤ l'.length := Nat.le_trans h02 (b3 l0 hl0)
  have := a4 l' b2 (by rintro v rfl; simp at h2')
  rw [hwt l', hwt l] at this
  exact_mod_cast this

/-- The diamond with unit weights. -/
example : WUsable (Sample.get PyNW.new
      (PyNW.fromEdgelist true 64 Sample.diamondRows 4 ([1, 1, 1, 1] : List Dbl))) 4
      (ofPairs Sample.diamondRows) (nth ([1, 1, 1, 1] : List Dbl)) ∧
    (∀ v, 1 ≤ v → v ≤ 4 → nth ([1, 1, 1, 1] : List Dbl) v = 1) ∧
    ((Sample.get PyNW.new
      (PyNW.fromEdgelist true 64 Sample.diamondRows 4 ([1, 1, 1, 1] : List Dbl))).getMaxClique
        List.reverse (fun _ => .nan) {} >>= fun x => .ok x.2) = .ok (.ret [1, 2, 3]) :=
  ⟨⟨.edgelist (argLR := true) (cap := 64) (by decide) (by decide) (by decide +kernel),
    Sample.wkept (by decide +kernel), 1, 2, by decide, Or.inl (by decide)⟩, by decide +kernel,
    by decide +kernel⟩

/-! ## C69 -/

/-- **C69** for `double`s that add up exactly: if the object says after a call that the search
is finished, the call returned a clique as heavy as every clique but isolated vertices. -/
theorem C69_double_complete (h : WUsable pg n S ω) (x : ExactWeights n ω q)
    (hnn : ∀ v, 1 ≤ v → v ≤ n → 0 ≤ q v)
    {srt : List (WData Dbl) → List (WData Dbl)} (hsrt : ∀ l, (srt l).Perm l) (junk : Nat → Dbl)
    {a : PyNW.Args Dbl} {lb : Rat} (hlb : a.lowerBound = .fin lb)
    (ha : 0 ≤ lb) (hu : ∀ l, IsCliqueList S n l → Dbl.fin (weight q l) ≤ a.upperBound)
    (hex : ∃ l, IsCliqueList S n l ∧ 2 ≤ l.length ∧ lb < weight q l)
    {pg' : PyNW Dbl} {r : PyRes (List Nat)} (hr : pg.getMaxClique srt junk a = .ok (pg', r))
    (hdone : pg'.finishedAll = true) :
    ∃ l, r = .ret l ∧ IsCliqueList S n l ∧
      ∀ l', IsCliqueList S n l' → (∀ v, l' = [v] → ∃ u, S.Adj v u) →
        weight q l' ≤ weight q l := by
  obtain ⟨H, hF⟩ := (EX.given h x).fresh
  obtain ⟨_, _, c1, _, _, _, _, _, _, c2, _⟩ := EX.wsearch_spec hF.x hF.pyok hsrt junk a
    (Or.inl (ExactNum.num_of hlb)) (upper_ok hu)
  rw [hr] at c1
  injection c1 with c1
  injection c1 with c1 _
  subst c1
  obtain ⟨_, l, b1, b2, _, b3⟩ := C36_double_partial h x hnn hsrt junk (c2.symm.trans hdone) hlb ha
    hu hex
  rw [hr] at b1
  injection b1 with b1
  injection b1 with _ b1
  exact ⟨l, b1, b2, b3⟩

example : (Sample.dkite.getMaxClique List.reverse (fun _ => .nan)
      { lowerBound := .fin 1, upperBound := .inf false } >>= fun x => .ok x.1.finishedAll) =
      .ok true ∧
    (Sample.dkite.getMaxClique List.reverse (fun _ => .nan)
      { lowerBound := .fin 1, upperBound := .inf false, useDfs := false } >>= fun x =>
      .ok (x.2, x.1.finishedAll)) = .ok (.ret [1, 2, 3, 4], false) := by decide +kernel

/-! ## C71 -/

/-- Integers up to `2 ^ 53` are `double`s. -/
theorem natCast_exact {k : Nat} (h : k ≤ 2 ^ 53) : ((k : Nat) : Dbl) = .fin k := by
  have : Binary64 (((k : Int) : Rat) * 2 ^ (0 : Int)) :=
    Dbl.fin64_mul (by rw [abs_of_nonneg (by omega)]; exact_mod_cast h) (by decide) (by decide)
  rw [zpow_zero, mul_one, Int.cast_natCast] at this
  exact Dbl.round_fin64 this

theorem integers_exact {z : Nat → Nat} (hω : ∀ v, 1 ≤ v → v ≤ n → ω v = ((z v : Nat) : Dbl))
    {B : Nat} (hsum : ∑ v ∈ Finset.Icc 1 n, z v ≤ B) (hB : B ≤ 2 ^ 53) :
    (∀ v, 1 ≤ v → v ≤ n → ω v = .fin (((z v : Int) : Rat) * 2 ^ (0 : Int))) ∧
    ∑ v ∈ Finset.Icc 1 n, |(z v : Int)| ≤ B := by
  constructor
  · intro v h1 h2
    have h3 : z v ≤ ∑ v ∈ Finset.Icc 1 n, z v :=
      Finset.single_le_sum (fun _ _ => Nat.zero_le _) (Finset.mem_Icc.2 ⟨h1, h2⟩)
    rw [hω v h1 h2, natCast_exact (by omega), zpow_zero, mul_one, Int.cast_natCast]
  · rw [Finset.sum_congr rfl (g := fun v => ((z v : Nat) : Int)) (fun v _ => abs_of_nonneg (by omega))]
    exact_mod_cast hsum

/-- The weight of a list of vertices whose weights are natural numbers. -/
def total (z : Nat → Nat) (l : List Nat) : Nat := (l.map z).sum

theorem weight_total (z : Nat → Nat) (l : List Nat) :
    weight (fun v => ((z v : Int) : Rat) * 2 ^ (0 : Int)) l = (total z l : Rat) := by
  unfold weight total
  induction l with
  | nil => rfl
  | cons v l ih => simp only [List.map_cons, List.sum_cons, ih]; push_cast; ring

/-- **C71** for searches: if the weights are natural numbers that add up to at most `2 ^ 53`, an
exact search on a fresh graph returns, in `double` arithmetic, a clique at least as heavy as
every clique but isolated vertices, if one is heavier than the lower bound and none heavier than
the upper bound; and `get_clique_weight` answers its exact weight. -/
theorem C71_integer_search {z : Nat → Nat} (h : WUsable pg n S ω)
    (hω : ∀ v, 1 ≤ v → v ≤ n → ω v = ((z v : Nat) : Dbl))
    (hsum : ∑ v ∈ Finset.Icc 1 n, z v ≤ 2 ^ 53)
    {srt : List (WData Dbl) → List (WData Dbl)} (hsrt : ∀ l, (srt l).Perm l) (junk : Nat → Dbl)
    {a : PyNW.Args Dbl} (hd : a.useDfs = true) {lb : Nat} (hlb : a.lowerBound = .fin lb)
    (hu : ∀ l, IsCliqueList S n l → Dbl.fin (total z l) ≤ a.upperBound)
    (hex : ∃ l, IsCliqueList S n l ∧ 2 ≤ l.length ∧ lb < total z l) :
    ∃ pg' l, pg.getMaxClique srt junk a = .ok (pg', .ret l) ∧ IsCliqueList S n l ∧
      pg'.getCliqueWeight l = .ok (.fin (total z l)) ∧
      ∀ l', IsCliqueList S n l' → (∀ v, l' = [v] → ∃ u, S.Adj v u) → total z l' ≤ total z l := by
  obtain ⟨h1, h2⟩ := integers_exact hω hsum (Nat.le_refl _)
  have x := exact_of_unit (by decide) (by decide) h1 (by exact_mod_cast h2)
  have hnn : ∀ v, 1 ≤ v → v ≤ n → 0 ≤ ((z v : Int) : Rat) * 2 ^ (0 : Int) := by
    intro v _ _; positivity
  obtain ⟨pg', l, a1, a2, _, a4⟩ := C36_double_partial h x hnn hsrt junk hd hlb (by positivity)
    (fun l hl => by rw [weight_total]; exact hu l hl) (by
      obtain ⟨l, e1, e2, e3⟩ := hex
      exact ⟨l, e1, e2, by rw [weight_total]; exact_mod_cast e3⟩)
  refine ⟨pg', l, a1, a2, ?_, ?_⟩
  · obtain ⟨pg1, b1, b2⟩ := C64_double_exact (ops := [.search srt junk a]) h x
      (by intro op ho; rw [List.mem_singleton] at ho; subst ho; exact hsrt)
      (by
        intro op ho
        rw [List.mem_singleton] at ho
        subst ho
        refine ⟨by rw [hlb]; simp, ?_⟩
        intro hi
        have := hu [] (nil_clique S n)
        rw [hi] at this
        exact absurd this (by show ¬ (Dbl.le _ _ = true); simp [Dbl.le]))
      (a2.increasing.imp (fun h => Nat.ne_of_lt h)) a2.range
    have : wruns [.search srt junk a] pg = .ok pg' := by
      show ((pg.getMaxClique srt junk a >>= _) >>= _) = _
      rw [a1]
      rfl
    rw [this] at b1
    cases b1
    rw [b2, weight_total]
  · intro l' hl' hiso
    have := a4 l' hl' hiso
    rw [weight_total, weight_total] at this
    exact_mod_cast this

/-- **C71** for iterators: if the weights are natural numbers that add up to at most `2 ^ 52`,
then after any history with sufficient upper bounds the iterator over cliques of weight `W` yields
only cliques of at least two vertices that weigh at least `W`, none twice, and every heavy
clique of at least two vertices, whose first vertex is not 1, contains one of them. -/
theorem C71_integer_iterator {z : Nat → Nat} (h : WUsable pg n S ω)
    (hω : ∀ v, 1 ≤ v → v ≤ n → ω v = ((z v : Nat) : Dbl))
    (hsum : ∑ v ∈ Finset.Icc 1 n, z v ≤ 2 ^ 52) {ops : List (WOp Dbl)}
    (hl : ∀ op ∈ ops, op.Legal) (hx : ∀ op ∈ ops, op.Within S n (fun v => (z v : Rat)))
    (junk : Nat → Dbl) (W : Nat) :
    ∃ pg1 pg2 cs, wruns ops pg = .ok pg1 ∧ pg1.listCliques junk (.fin W) = .ok (pg2, cs) ∧
      cs.Nodup ∧ (∀ l ∈ cs, IsCliqueList S n l ∧ 2 ≤ l.length ∧ W ≤ total z l) ∧
      ∀ l, IsCliqueList S n l → 2 ≤ l.length → ¬ WFirst S n (fun v => (z v : Rat)) 1 l →
        W ≤ total z l → ∃ l' ∈ cs, l' ⊆ l := by
  obtain ⟨h1, h2⟩ := integers_exact hω hsum (by norm_num)
  have x := exact2_of_unit (by decide) (by decide) h1 (by exact_mod_cast h2)
  have hq : (fun v => ((z v : Int) : Rat) * 2 ^ (0 : Int)) = fun v => (z v : Rat) := by
    funext v; rw [zpow_zero, mul_one, Int.cast_natCast]
  have hnn : ∀ v, 1 ≤ v → v ≤ n → 0 ≤ (z v : Rat) := by intro v _ _; positivity
  have hw := weight_total z
  rw [hq] at x hw
  obtain ⟨pg1, pg2, cs, a1, a2, a3, a4⟩ := C46_double_exactly_partial h x hnn hl hx junk W
  obtain ⟨pg1', pg2', cs', b1, b2, b3⟩ := C46_double_covers_partial h x hnn hl hx junk W
  rw [a1] at b1
  cases b1
  rw [a2] at b2
  cases b2
  refine ⟨pg1, pg2, cs, a1, a2, a3, ?_, ?_⟩
  · intro l hm
    obtain ⟨c1, c2, u, _, _, c3⟩ := (a4 l).1 hm
    have := c3.1
    rw [hw] at this
    exact ⟨c1, c2, by exact_mod_cast this⟩
  · intro l c1 c2 c3 c4
    exact b3 l c1 c2 c3 (by rw [hw]; exact_mod_cast c4)

/-- The kite with weights 4, 1, 6, 2, 20. -/
example : WUsable (Sample.get PyNW.new
      (PyNW.fromEdgelist true 64 Sample.rows 5 ([4, 1, 6, 2, 20] : List Dbl))) 5
      (ofPairs Sample.rows) (nth ([4, 1, 6, 2, 20] : List Dbl)) ∧
    (∀ v, 1 ≤ v → v ≤ 5 → nth ([4, 1, 6, 2, 20] : List Dbl) v =
      (([4, 1, 6, 2, 20].getD (v - 1) 0 : Nat) : Dbl)) ∧
    ∑ v ∈ Finset.Icc 1 5, [4, 1, 6, 2, 20].getD (v - 1) 0 ≤ 2 ^ 52 ∧
    ((Sample.get PyNW.new (PyNW.fromEdgelist true 64 Sample.rows 5
        ([4, 1, 6, 2, 20] : List Dbl))).getMaxClique List.reverse (fun _ => .nan) {} >>= fun x =>
      .ok x.2) = .ok (.ret [4, 5]) ∧
    ((Sample.get PyNW.new (PyNW.fromEdgelist true 64 Sample.rows 5
        ([4, 1, 6, 2, 20] : List Dbl))).listCliques (fun _ => .nan) (.fin 7) >>= fun x =>
      .ok x.2) = .ok [[2, 3], [3, 4], [4, 5]] :=
  ⟨⟨.edgelist (argLR := true) (cap := 64) (by decide) (by decide) (by decide +kernel),
    Sample.wkept (by decide +kernel), 1, 2, by decide, Or.inl (by decide)⟩, by decide +kernel,
    by decide, by decide +kernel, by decide +kernel⟩

end CM
