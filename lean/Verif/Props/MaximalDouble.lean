import Verif.Props.Maximal
import Verif.Props.WeightedDouble

/-!
# C118 for weights that are `double`s and add up exactly

`ω` are the weights the object was given, `q` their values (`ExactWeights`, in `SpecDouble.lean`).
-/

namespace CM

open Spec Graph NWG Sample

variable {pg : PyNW Dbl} {n : Nat} {S : SimpleGraph Nat} {ω : Nat → Dbl} {q : Nat → Rat}

/-- **C118** for positive `double`s that add up exactly: under the hypotheses of C36, what is returned
cannot be extended. -/
theorem C118_double (h : WUsable pg n S ω) (x : ExactWeights n ω q)
    (hpos : ∀ v, 1 ≤ v → v ≤ n → 0 < q v)
    {srt : List (WData Dbl) → List (WData Dbl)} (hsrt : ∀ l, (srt l).Perm l) (junk : Nat → Dbl)
    {a : PyNW.Args Dbl} (hd : a.useDfs = true) {lb : Rat} (hlb : a.lowerBound = .fin lb)
    (ha : 0 ≤ lb) (hu : ∀ l, IsCliqueList S n l → Dbl.fin (weight q l) ≤ a.upperBound)
    (hex : ∃ l, IsCliqueList S n l ∧ 2 ≤ l.length ∧ lb < weight q l) :
    ∃ pg' l, pg.getMaxClique srt junk a = .ok (pg', .ret l) ∧ IsCliqueList S n l ∧
      ∀ v, 1 ≤ v → v ≤ n → ∃ u ∈ l, ¬ S.Adj u v := by
  obtain ⟨pg', l, h1, h2, h3, h4⟩ :=
    C36_double_partial h x (fun v a b => le_of_lt (hpos v a b)) hsrt junk hd hlb ha hu hex
  refine ⟨pg', l, h1, h2, fun v h5 h6 => ?_⟩
  by_contra hno
  obtain ⟨l', h7, h8⟩ := extended h2 ⟨h5, h6⟩ fun u hu => by
    by_contra hna
    exact hno ⟨u, hu, hna⟩
  have hne : l ≠ [] := by
    rintro rfl
    have : weight q [] = 0 := rfl
    rw [this] at h3
    exact absurd (lt_of_le_of_lt ha h3) (lt_irrefl _)
  have h9 := h4 l' h7 (by
    rintro w rfl
    have := h8.length_eq
    rw [List.length_cons, List.length_cons] at this
    exact absurd (List.length_eq_zero_iff.1 (Nat.succ.inj this).symm) hne)
  have e : weight q l' = q v + weight q l := by
    unfold weight
    rw [(h8.map q).sum_eq]
    rfl
  have := hpos v h5 h6
  rw [e] at h9
  linarith

example : ∃ pg' l, dkite.getMaxClique List.reverse (fun _ => .nan)
      { lowerBound := .fin (1 / 2), upperBound := .inf false } = .ok (pg', .ret l) ∧
    IsCliqueList (ofPairs rows) 5 l ∧ ∀ v, 1 ≤ v → v ≤ 5 → ∃ u ∈ l, ¬ (ofPairs rows).Adj u v :=
  C118_double dkite_usable dkite_exact dkite_pos (fun l => List.reverse_perm l) _ rfl rfl
    (by decide +kernel) (dkite_upper (by decide))
    ⟨[4, 5], Sample.pair_clique (by decide) (by decide) (by decide) (by decide), by decide,
      by decide +kernel⟩

/-- **C118** for `double`s that add up exactly and searches with the heuristic alone, on a graph that
was just loaded, with any bounds but `lower_bound = inf` and `upper_bound = -inf`.  The full property:
what is returned cannot be extended.  Proved: what is returned has a single entry, or a vertex that
could be added comes before all its members in the order by the weight of the neighbourhood and then by
number.  Missing, because false (`C118_refuted_double`): that there is no such vertex. -/
theorem C118_double_heuristic_partial (h : WUsable pg n S ω) (x : ExactWeights n ω q)
    {srt : List (WData Dbl) → List (WData Dbl)} (hsrt : ∀ l, (srt l).Perm l) (junk : Nat → Dbl)
    {a : PyNW.Args Dbl} (hd : a.useDfs = false) (hlb : a.lowerBound ≠ .inf false)
    (hub : a.upperBound ≠ .inf true) {pg' : PyNW Dbl} {l : List Nat}
    (hr : pg.getMaxClique srt junk a = .ok (pg', .ret l)) :
    l.length = 1 ∨ ∀ v, (∀ u ∈ l, S.Adj u v) → WFirst S n q v (v :: l) := by
  obtain ⟨H, hF⟩ := (EX.given h x).fresh
  have hs := sane_ok (op := .search srt junk a) ⟨hlb, hub⟩
  obtain ⟨pg2, l2, W, a1, a2⟩ := EX.wheur_search hF.x hF.pyok hF.d hsrt junk hs.1 hs.2 hd
  rw [hr] at a1
  injection a1 with a1
  injection a1 with _ a1
  have hl : l = l2 := by
    by_cases hlt : a.lowerBound > W
    · rw [if_pos hlt] at a1; cases a1
    · rw [if_neg hlt] at a1
      injection a1 with a1
  rw [hl]
  rw [EX.val_fq] at a2
  rcases a2 with a2 | a2
  · left
    rw [a2, hF.stored]
    rfl
  · exact Or.inr a2

/-- The same after any history that returned `l`: the search returns `l` again, or a list as in
`C118_double_heuristic_partial`. -/
theorem C118_double_after_partial (h : WUsable pg n S ω) (x : ExactWeights n ω q)
    {ops : List (WOp Dbl)} (hl : ∀ op ∈ ops, op.Legal) (hx : ∀ op ∈ ops, op.Sane)
    {srt : List (WData Dbl) → List (WData Dbl)} (hsrt : ∀ l, (srt l).Perm l) (junk : Nat → Dbl)
    {a b : PyNW.Args Dbl} (hd : a.useDfs = false) (hlb : a.lowerBound ≠ .inf false)
    (hub : a.upperBound ≠ .inf true) (hlb' : b.lowerBound ≠ .inf false)
    (hub' : b.upperBound ≠ .inf true) {pg1 pg2 pg3 : PyNW Dbl} {l l' : List Nat}
    (h1 : wruns ops pg = .ok pg1) (h2 : pg1.getMaxClique srt junk b = .ok (pg2, .ret l))
    (h3 : pg2.getMaxClique srt junk a = .ok (pg3, .ret l')) :
    l' = l ∨ ∀ v, (∀ u ∈ l', S.Adj u v) → WFirst S n q v (v :: l') := by
  have ret : ∀ {k W : Dbl} {s t : List Nat} {x y : PyNW Dbl},
      (Except.ok (x, PyRes.ret t) : M _) = .ok (y, if k > W then .raise else .ret s) →
      x = y ∧ t = s := by
    intro k W s t x y he
    injection he with he
    injection he with h0 he
    refine ⟨h0, ?_⟩
    by_cases hlt : k > W
    · rw [if_pos hlt] at he; cases he
    · rw [if_neg hlt] at he
      injection he with he
  obtain ⟨H, hF⟩ := (EX.given h x).fresh
  have hs := sane_ok (op := .search srt junk a) ⟨hlb, hub⟩
  have hs' := sane_ok (op := .search srt junk b) ⟨hlb', hub'⟩
  obtain ⟨pg1', H1, a1, a2, a3, a4, _⟩ := EX.wruns_spec ops hF.x hF.pyok hl
    fun op ho => sane_ok (hx op ho)
  rw [h1] at a1
  cases a1
  obtain ⟨pg2', H2, b1, b2, b3, b4, _⟩ := EX.wsearch_spec a4 a2 hsrt junk b hs'.1 hs'.2
  rw [h2] at b1
  obtain ⟨rfl, rfl⟩ := ret b1
  have F := a3.trans b3
  obtain ⟨pg3', l3, W, c1, c2⟩ := EX.wheur_search b4 b2 (fun v hv => by
    rw [F.d, F.V, hF.d v hv]
    exact congrArg _ (Finset.sum_congr rfl fun j _ => congrArg _ (F.we v j).symm))
    hsrt junk hs.1 hs.2 hd
  rw [h3] at c1
  obtain ⟨rfl, rfl⟩ := ret c1
  rw [EX.val_fq] at c2
  exact c2

/-- The object for `wlooseRows`, with the `double`s 2, 4, 1, 3, 1. -/
def dloose : PyNW Dbl := get (PyNW.new (R := Dbl))
  (PyNW.fromEdgelist true 400 wlooseRows 5 [.fin 2, .fin 4, .fin 1, .fin 3, .fin 1])

theorem dloose_usable : WUsable dloose 5 (ofPairs wlooseRows)
    (nth [.fin 2, .fin 4, .fin 1, .fin 3, .fin 1]) :=
  ⟨.edgelist (argLR := true) (cap := 400) (by decide) (by decide) (by decide +kernel),
    wkept (by decide +kernel), 1, 2, by decide, Or.inl (by decide)⟩

/-- The values of its weights. -/
def looseQ : Nat → Rat := fun v => (([2, 4, 1, 3, 1] : List Int).getD (v - 1) 0) * 2 ^ (0 : Int)

theorem dloose_exact : ExactWeights 5 (nth [.fin 2, .fin 4, .fin 1, .fin 3, .fin 1]) looseQ :=
  exact_of_exact2 (exact2_of_unit (by decide) (by decide) (by decide +kernel) (by decide +kernel))

/-- Insertion by decreasing degree. -/
def insertD (x : WData Dbl) : List (WData Dbl) → List (WData Dbl)
  | [] => [x]
  | y :: l => if x.degree < y.degree then y :: insertD x l else x :: y :: l

/-- Sorting by decreasing degree. -/
def byD (l : List (WData Dbl)) : List (WData Dbl) := l.foldr insertD []

theorem insertD_perm (x : WData Dbl) (l : List (WData Dbl)) : (insertD x l).Perm (x :: l) := by
  induction l with
  | nil => exact List.Perm.refl _
  | cons y l ih =>
    unfold insertD
    split
    · exact (List.Perm.cons _ ih).trans (List.Perm.swap _ _ _)
    · exact List.Perm.refl _

theorem byD_perm (l : List (WData Dbl)) : (byD l).Perm l := by
  induction l with
  | nil => exact List.Perm.refl _
  | cons x l ih =>
    show (insertD x (byD l)).Perm (x :: l)
    exact (insertD_perm _ _).trans (List.Perm.cons _ ih)

/-- **C118** is false of the weighted heuristic alone, with `double`s that are small positive integers:
it returns vertices 1 and 2, and vertex 3 is adjacent to both. -/
theorem C118_refuted_double :
    WUsable dloose 5 (ofPairs wlooseRows) (nth [.fin 2, .fin 4, .fin 1, .fin 3, .fin 1]) ∧
    ExactWeights 5 (nth [.fin 2, .fin 4, .fin 1, .fin 3, .fin 1]) looseQ ∧
    ((dloose.getMaxClique byD (fun _ => .nan)
        { useDfs := false, lowerBound := .fin 0, upperBound := .inf false }).map fun x => x.2) =
      .ok (.ret [1, 2]) ∧
    ∀ u ∈ [1, 2], (ofPairs wlooseRows).Adj u 3 := by
  refine ⟨dloose_usable, dloose_exact, ?_, wloose_adj⟩
  decide +kernel

example : WFirst (ofPairs wlooseRows) 5 looseQ 3 [3, 1, 2] := by
  have hx := C118_refuted_double.2.2.1
  cases hc : dloose.getMaxClique byD (fun _ => .nan)
      { useDfs := false, lowerBound := .fin 0, upperBound := .inf false } with
  | error e => rw [hc] at hx; cases hx
  | ok x =>
    obtain ⟨pg', r⟩ := x
    rw [hc] at hx
    injection hx with hx
    dsimp only at hx
    subst hx
    rcases C118_double_heuristic_partial dloose_usable dloose_exact
      byD_perm _ rfl (by decide) (by decide) hc with h | h
    · cases h
    · exact h 3 wloose_adj

/-- On the sample: a history, a search that returns a clique, and the heuristic alone. -/
example : (wruns ([.list (fun _ => .nan) (.fin 3), .reset] : List (WOp Dbl)) dkite >>= fun x =>
      x.getMaxClique List.reverse (fun _ => .nan)
        { lowerBound := .fin 0, upperBound := .inf false } >>= fun y =>
        (y.1.getMaxClique List.reverse (fun _ => .nan)
          { useDfs := false, lowerBound := .fin 0, upperBound := .inf false }).map fun z =>
            (y.2, z.2)) =
    .ok (.ret [4, 5], .ret [4, 5]) := by
  decide +kernel

end CM
