import Verif.Props.OneVertex
import Verif.Props.MaximalDouble

/-!
# C115 and C119 for weights that are `double`s and add up exactly

`ω` and `ω'` are the weights the objects were given, `q` and `q'` their values (`ExactWeights`, in
`SpecDouble.lean`).
-/

namespace CM

open Spec Graph NWG Sample

variable {pg pg' : PyNW Dbl} {n n' : Nat} {S S' : SimpleGraph Nat} {ω ω' : Nat → Dbl}
  {q q' : Nat → Rat}

/-- **C115** for `double`s that add up exactly (partial: nonnegative weights and, in the larger graph,
no vertex alone; see `C36_refuted` for these): with more vertices or edges, or larger weights, the
answer is not lighter. -/
theorem C115_double_partial (h : WUsable pg n S ω) (x : ExactWeights n ω q) (h' : WUsable pg' n' S' ω')
    (x' : ExactWeights n' ω' q')
    (hnn : ∀ v, 1 ≤ v → v ≤ n → 0 ≤ q v) (hnn' : ∀ v, 1 ≤ v → v ≤ n' → 0 ≤ q' v) (hn : n ≤ n')
    (hS : ∀ u v, S.Adj u v → S'.Adj u v) (hω : ∀ v, 1 ≤ v → v ≤ n → q v ≤ q' v)
    (hiso : ∀ v, 1 ≤ v → v ≤ n → ∃ u, S'.Adj v u)
    {a : PyNW.Args Dbl} (hd : a.useDfs = true) {lb : Rat} (hlb : a.lowerBound = .fin lb)
    (ha : 0 ≤ lb) (hu : ∀ l, IsCliqueList S n l → Dbl.fin (weight q l) ≤ a.upperBound)
    (hu' : ∀ l, IsCliqueList S' n' l → Dbl.fin (weight q' l) ≤ a.upperBound)
    (hex : ∃ l, IsCliqueList S n l ∧ 2 ≤ l.length ∧ lb < weight q l)
    {srt srt' : List (WData Dbl) → List (WData Dbl)} (hsrt : ∀ l, (srt l).Perm l)
    (hsrt' : ∀ l, (srt' l).Perm l) (junk junk' : Nat → Dbl) :
    ∃ r r' l l', pg.getMaxClique srt junk a = .ok (r, .ret l) ∧
      pg'.getMaxClique srt' junk' a = .ok (r', .ret l') ∧ weight q l ≤ weight q' l' := by
  have hw : ∀ l, IsCliqueList S n l → weight q l ≤ weight q' l := fun l hl =>
    weight_mono fun v hv => hω v (hl.range v hv).1 (hl.range v hv).2
  obtain ⟨r, l, a1, a2, _⟩ := C36_double_partial h x hnn hsrt junk hd hlb ha hu hex
  obtain ⟨r', l', b1, b2, _, b4⟩ := C36_double_partial h' x' hnn' hsrt' junk' hd hlb ha hu' (by
    obtain ⟨l, h1, h2, h3⟩ := hex
    exact ⟨l, h1.more hn hS, h2, lt_of_lt_of_le h3 (hw l h1)⟩)
  refine ⟨r, r', l, l', a1, b1, (hw l a2).trans (b4 l (a2.more hn hS) ?_)⟩
  rintro v rfl
  have := a2.range v (by simp)
  exact hiso v this.1 this.2

/-- **C119** for `double`s that add up exactly (partial: nonnegative weights, and in the second graph no
vertex alone and a clique heavier than `lower_bound`; see `C36_refuted` for these): two graphs with the
same edges between vertices other than `w`, the second with the same or larger weights on them.  The
answer of the first is heavier than that of the second by at most the weight of `w`. -/
theorem C119_double_partial (h : WUsable pg n S ω) (x : ExactWeights n ω q) (h' : WUsable pg' n' S' ω')
    (x' : ExactWeights n' ω' q') {w : Nat}
    (hnn : ∀ v, 1 ≤ v → v ≤ n → 0 ≤ q v) (hnn' : ∀ v, 1 ≤ v → v ≤ n' → 0 ≤ q' v)
    (hw : 1 ≤ w ∧ w ≤ n) (hn : ∀ v, v ≤ n → v ≠ w → v ≤ n')
    (hS : ∀ u v, u ≠ w → v ≠ w → S.Adj u v → S'.Adj u v)
    (hω : ∀ v, 1 ≤ v → v ≤ n → v ≠ w → q v ≤ q' v)
    (hiso : ∀ v, 1 ≤ v → v ≤ n' → ∃ u, S'.Adj v u)
    {a : PyNW.Args Dbl} (hd : a.useDfs = true) {lb : Rat} (hlb : a.lowerBound = .fin lb)
    (ha : 0 ≤ lb) (hu : ∀ l, IsCliqueList S n l → Dbl.fin (weight q l) ≤ a.upperBound)
    (hu' : ∀ l, IsCliqueList S' n' l → Dbl.fin (weight q' l) ≤ a.upperBound)
    (hex : ∃ l, IsCliqueList S n l ∧ 2 ≤ l.length ∧ lb < weight q l)
    (hex' : ∃ l, IsCliqueList S' n' l ∧ 2 ≤ l.length ∧ lb < weight q' l)
    {srt srt' : List (WData Dbl) → List (WData Dbl)} (hsrt : ∀ l, (srt l).Perm l)
    (hsrt' : ∀ l, (srt' l).Perm l) (junk junk' : Nat → Dbl) :
    ∃ r r' l l', pg.getMaxClique srt junk a = .ok (r, .ret l) ∧
      pg'.getMaxClique srt' junk' a = .ok (r', .ret l') ∧ weight q l ≤ weight q' l' + q w := by
  obtain ⟨r, l, a1, a2, _⟩ := C36_double_partial h x hnn hsrt junk hd hlb ha hu hex
  obtain ⟨r', l', b1, _, _, b4⟩ := C36_double_partial h' x' hnn' hsrt' junk' hd hlb ha hu' hex'
  refine ⟨r, r', l, l', a1, b1, ?_⟩
  have hc := a2.without hn hS
  have h1 := b4 _ hc (fun v hv => by
    have := hc.range v (by rw [hv]; simp)
    exact hiso v this.1 this.2)
  have h2 := weight_without (ω := q) (w := w) (a2.increasing.imp fun h => Nat.ne_of_lt h)
    (hnn w hw.1 hw.2)
  have h3 : weight q (l.filter (· ≠ w)) ≤ weight q' (l.filter (· ≠ w)) := weight_mono fun v hv => by
    rw [List.mem_filter, decide_eq_true_eq] at hv
    have := a2.range v hv.1
    exact hω v this.1 this.2 hv.2
  linarith

/-! ## Examples -/

namespace Sample

/-- The kite of `double`s without the edge 1-2. -/
def dcut : PyNW Dbl := get PyNW.new
  (PyNW.fromEdgelist true 400 cutRows 5 [.fin 2, .fin (1 / 2), .fin 3, .fin 1, .fin 10])

theorem dcut_usable : WUsable dcut 5 (ofPairs cutRows) dω :=
  ⟨.edgelist (argLR := true) (cap := 400) (by decide) (by decide) (by decide +kernel),
    wkept (by decide +kernel), 1, 3, by decide, by decide⟩

theorem cut_kite : ∀ u v, (ofPairs cutRows).Adj u v → (ofPairs rows).Adj u v :=
  fun u v h => ((cut_adj u v).1 h).1

theorem dcut_upper : ∀ l, IsCliqueList (ofPairs cutRows) 5 l → Dbl.fin (weight dq l) ≤ .inf false :=
  fun l hl => dkite_upper (by decide) l (hl.more (le_refl _) cut_kite)

theorem cut_all : ∀ v, 1 ≤ v → v ≤ 5 → ∃ u, (ofPairs cutRows).Adj v u := by
  intro v h1 h2
  have : v = 1 ∨ v = 2 ∨ v = 3 ∨ v = 4 ∨ v = 5 := by omega
  rcases this with rfl | rfl | rfl | rfl | rfl
  · exact ⟨3, by decide, by decide⟩
  · exact ⟨3, by decide, by decide⟩
  · exact ⟨4, by decide, by decide⟩
  · exact ⟨3, by decide, by decide⟩
  · exact ⟨4, by decide, by decide⟩

end Sample

/-- The hypotheses of `C115_double_partial` are met. -/
example : ∃ r r' l l', dcut.getMaxClique List.reverse (fun _ => .nan)
      { lowerBound := .fin 1, upperBound := .inf false } = .ok (r, .ret l) ∧
    dkite.getMaxClique List.reverse (fun _ => .nan)
      { lowerBound := .fin 1, upperBound := .inf false } = .ok (r', .ret l') ∧
    weight dq l ≤ weight dq l' :=
  C115_double_partial dcut_usable dkite_exact dkite_usable dkite_exact dkite_nonneg dkite_nonneg
    (le_refl _) cut_kite (fun _ _ _ => le_refl _)
    (fun v h1 h2 => (cut_all v h1 h2).imp fun u hu => cut_kite _ _ hu) rfl rfl (by decide +kernel)
    dcut_upper (dkite_upper (by decide))
    ⟨[3, 4], Sample.pair_clique (by decide) (by decide) (by decide) (by decide), by decide,
      by decide +kernel⟩
    (fun l => List.reverse_perm l) (fun l => List.reverse_perm l) _ _

/-- The hypotheses of `C119_double_partial` are met. -/
example : ∃ r r' l l', dkite.getMaxClique List.reverse (fun _ => .nan)
      { lowerBound := .fin 1, upperBound := .inf false } = .ok (r, .ret l) ∧
    dcut.getMaxClique List.reverse (fun _ => .nan)
      { lowerBound := .fin 1, upperBound := .inf false } = .ok (r', .ret l') ∧
    weight dq l ≤ weight dq l' + dq 1 := by
  refine C119_double_partial dkite_usable dkite_exact dcut_usable dkite_exact dkite_nonneg dkite_nonneg
    (by decide) (fun v hv _ => hv) ?_ (fun _ _ _ _ => le_refl _) cut_all rfl rfl (by decide +kernel)
    (dkite_upper (by decide)) dcut_upper
    ⟨[3, 4], Sample.pair_clique (by decide) (by decide) (by decide) (by decide), by decide,
      by decide +kernel⟩
    ⟨[3, 4], Sample.pair_clique (by decide) (by decide) (by decide) (by decide), by decide,
      by decide +kernel⟩
    (fun l => List.reverse_perm l) (fun l => List.reverse_perm l) _ _
  intro u v hu hv huv
  refine (cut_adj u v).2 ⟨huv, fun he => ?_⟩
  rw [Sym2.eq_iff] at he
  omega

end CM
