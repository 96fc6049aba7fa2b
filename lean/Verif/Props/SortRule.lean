import Verif.Lemmas.SortRule
import Verif.Model.Double
import Verif.Props.Weighted

/-!
# Searching weighted graphs with the C++ rule for `std::sort`

`PyNW.getMaxCliqueStrict` is `get_max_clique` where calling `std::sort` with a comparison that is
not a strict weak order of the elements (`StrictWeak`) is the outcome `ub`; the comparison is by
weighted degree, a `double`.
-/

namespace CM

open Spec Graph NWG

variable {pg : PyNW Dbl} {n : Nat} {S : SimpleGraph Nat} {ω : Nat → Dbl}

namespace Dbl

theorem lt_iff (x y : Dbl) : x < y ↔ lt x y = true := Iff.rfl

theorem lt_nan (x : Dbl) : ¬ x < nan := by
  rw [lt_iff]; cases x <;> simp [lt]

theorem nan_lt (x : Dbl) : ¬ nan < x := by
  rw [lt_iff]; cases x <;> simp [lt]

theorem lt_irrefl (x : Dbl) : ¬ x < x := by
  rw [lt_iff]
  rcases x with q | s | _
  · simp [lt]
  · cases s <;> simp [lt]
  · simp [lt]

theorem lt_trans {x y z : Dbl} (h : x < y) (h' : y < z) : x < z := by
  rw [lt_iff] at *
  rcases x with q | s | _ <;> rcases y with r | t | _ <;> rcases z with p | u | _ <;>
    simp_all [lt]
  exact h.trans h'

theorem lt_weak {x y z : Dbl} (hx : x ≠ nan) (hy : y ≠ nan) (hz : z ≠ nan) (h : ¬ x < y)
    (h' : ¬ y < z) : ¬ x < z := by
  rw [lt_iff] at *
  rcases x with q | s | _ <;> rcases y with r | t | _ <;> rcases z with p | u | _ <;>
    simp_all [lt]
  exact h'.trans h

theorem add_fin_ne_nan {x : Dbl} (hx : x ≠ nan) (q : Rat) : x + fin q ≠ nan := by
  rcases x with r | s | _
  · show round (r + q) ≠ nan
    unfold round
    split
    · simp
    · simp only
      split <;> simp
  · show inf s ≠ nan
    simp
  · exact absurd rfl hx

/-- Zero or more. -/
@[simp] def nonneg : Dbl → Prop
  | fin q => 0 ≤ q
  | inf s => s = false
  | nan => False

theorem zero_le_iff (x : Dbl) : 0 ≤ x ↔ nonneg x := by
  show le (round 0) x = true ↔ _
  have : round 0 = fin 0 := by simp [round]
  rw [this]
  rcases x with q | s | _ <;> simp [le]

theorem nonneg_round {q : Rat} (h : 0 ≤ q) : nonneg (round q) := by
  have hr : 0 ≤ roundNat q.num.natAbs q.den := by
    unfold roundNat
    simp only
    split
    · exact mul_nonneg (Nat.cast_nonneg _) (by positivity)
    · exact div_nonneg (Nat.cast_nonneg _) (by positivity)
  unfold round
  split
  · simp
  · simp only
    rw [if_neg (not_lt.2 h)]
    split
    · exact hr
    · simpa using h

end Dbl

/-- When sorting records by decreasing degree is defined: no degree is NaN, or no two can be told
apart. -/
theorem strictWeak_iff (l : List (WData Dbl)) : StrictWeak WData.gt l ↔
    (∀ x ∈ l, x.degree ≠ .nan) ∨ ∀ x ∈ l, ∀ y ∈ l, ¬ x.degree < y.degree := by
  constructor
  · intro h
    by_cases hn : ∀ x ∈ l, x.degree ≠ .nan
    · exact Or.inl hn
    · right
      push Not at hn
      obtain ⟨z, hz, hz'⟩ := hn
      intro x hx y hy
      have a : ∀ w : WData Dbl, ¬ w.gt z ∧ ¬ z.gt w := fun w => by
        constructor
        · unfold WData.gt; rw [hz']; exact Dbl.nan_lt _
        · unfold WData.gt; rw [hz']; exact Dbl.lt_nan _
      exact (h.2.2 y hy z hz x hx (a y) ⟨(a x).2, (a x).1⟩).1
  · intro h
    refine ⟨fun x _ => Dbl.lt_irrefl _, fun x _ y _ z _ h1 h2 => Dbl.lt_trans h2 h1, ?_⟩
    intro x hx y hy z hz h1 h2
    rcases h with h | h
    · exact ⟨Dbl.lt_weak (h z hz) (h y hy) (h x hx) h2.1 h1.1,
        Dbl.lt_weak (h x hx) (h y hy) (h z hz) h1.2 h2.2⟩
    · exact ⟨h z hz x hx, h x hx z hz⟩

theorem sortable_of {D : List Dbl} (h : ∀ d ∈ D, d ≠ .nan) : Sortable D :=
  fun l hl => (strictWeak_iff l).2 (Or.inl fun x hx => h _ (hl x hx))

/-- The degrees of a usable object with a property of numbers that adding weights preserves. -/
theorem degrees_of (h : WUsable pg n S ω) (P : Dbl → Prop) (h0 : P 0)
    (hP : ∀ x v, P x → 1 ≤ v → v ≤ n → P (x + ω v)) (hP0 : ∀ x, P x → P (x + 0)) :
    ∃ H, WPyOk pg n S ω H ∧ ∀ d ∈ H.deg, P d := by
  obtain ⟨H, hF⟩ := AW.wusable_fresh h
  refine ⟨H, hF.pyok, fun d hd => ?_⟩
  obtain ⟨v, hv, rfl⟩ := List.mem_iff_getElem.1 hd
  have hnv := hF.pyok.of.nv
  have hlen : H.deg.length = H.g.nVert := hF.pyok.ok.l.deg
  have hd' : H.deg[v] = AW.degSum H v := by
    rw [← hF.d v (by omega)]
    unfold NWG.d
    simp [List.getD_eq_getElem?_getD, hv]
  rw [hd']
  unfold AW.degSum
  have key : ∀ (l : List Nat) (x : Dbl), P x → (∀ j ∈ l, j < (H.g.V v).N) →
      P (l.foldl (fun a j => a + H.we v j) x) := by
    intro l
    induction l with
    | nil => intro x hx _; exact hx
    | cons j l ih =>
      intro x hx hl
      refine ih _ ?_ (fun k hk => hl k (by simp [hk]))
      have he : H.g.e v j < H.g.nVert := Graph.e_lt hF.pyok.ok.ok.wf (by omega) (hl j (by simp))
      show P (x + H.w (H.g.e v j))
      rcases Nat.eq_zero_or_pos (H.g.e v j) with h1 | h1
      · rw [h1, hF.pyok.w0]; exact hP0 x hx
      · rw [hF.pyok.w _ h1 (by omega)]
        exact hP x _ hx h1 (by omega)
  exact key _ _ h0 (fun j hj => List.mem_range.1 hj)

theorem no_nan_defined {H : NWG Dbl} (hok : WPyOk pg n S ω H)
    (hd : ∀ d ∈ H.deg, d ≠ .nan) (ops : List (WOp Dbl)) (hl : ∀ op ∈ ops, op.Legal) :
    ∃ pg', wrunsStrict ops pg = .ok pg' ∧ wruns ops pg = .ok pg' ∧
      ∀ srt, (∀ l, (srt l).Perm l) → ∀ junk a, ∃ r,
        pg'.getMaxCliqueStrict srt junk a = .ok r ∧ pg'.getMaxClique srt junk a = .ok r := by
  obtain ⟨pg', H', r1, r2, r3, r4⟩ := AW.wruns_spec ops hok hl
  refine ⟨pg', (wrunsStrict_eq ops hok hl (sortable_of hd)).trans r1, r1, fun srt hs junk a => ?_⟩
  rw [getMaxCliqueStrict_eq]
  · obtain ⟨pg2, H2, a1, a2, a3, a4⟩ := AW.wop_spec (op := .search srt junk a) r2 hs
    unfold WOp.run at a1
    rw [bind_eq_ok] at a1
    obtain ⟨r, hr, _⟩ := a1
    exact ⟨r, hr, hr⟩
  · intro H1 h1
    rw [r2.g] at h1
    cases h1
    rw [r3.deg]
    exact sortable_of hd

/-- **C83**, as far as it is true.  The full property: a search of an `NWGraph` never sorts with a
comparison that is not a strict weak order.  Proved: for all finite weights, after every history
of calls; the searches have the results they have in the model that does not look at the rule.
Missing, because false: weights that are NaN (`C83_refuted`), and infinite weights of both signs
(`C83_refuted_infinite`). -/
theorem C83_finite_partial (h : WUsable pg n S ω)
    (hf : ∀ v, 1 ≤ v → v ≤ n → ∃ q, ω v = .fin q) (ops : List (WOp Dbl))
    (hl : ∀ op ∈ ops, op.Legal) :
    ∃ pg', wrunsStrict ops pg = .ok pg' ∧ wruns ops pg = .ok pg' ∧
      ∀ srt, (∀ l, (srt l).Perm l) → ∀ junk a, ∃ r,
        pg'.getMaxCliqueStrict srt junk a = .ok r ∧ pg'.getMaxClique srt junk a = .ok r := by
  obtain ⟨H, hok, hd⟩ := degrees_of h (fun x => x ≠ .nan) (by decide)
    (fun x v hx h1 h2 => by
      obtain ⟨q, hq⟩ := hf v h1 h2
      rw [hq]; exact Dbl.add_fin_ne_nan hx q)
    (fun x hx => Dbl.add_fin_ne_nan hx 0)
  exact no_nan_defined hok hd ops hl

/-- **C83** for infinite weights: they do no harm if no weight is negative. -/
theorem C83_nonneg_partial (h : WUsable pg n S ω) (hf : ∀ v, 1 ≤ v → v ≤ n → 0 ≤ ω v)
    (ops : List (WOp Dbl)) (hl : ∀ op ∈ ops, op.Legal) :
    ∃ pg', wrunsStrict ops pg = .ok pg' ∧ wruns ops pg = .ok pg' ∧
      ∀ srt, (∀ l, (srt l).Perm l) → ∀ junk a, ∃ r,
        pg'.getMaxCliqueStrict srt junk a = .ok r ∧ pg'.getMaxClique srt junk a = .ok r := by
  have key : ∀ x y : Dbl, 0 ≤ x → 0 ≤ y → 0 ≤ x + y := by
    intro x y hx hy
    rw [Dbl.zero_le_iff] at *
    rcases x with q | s | _
    · rcases y with r | t | _
      · exact Dbl.nonneg_round (add_nonneg hx hy)
      · exact hy
      · exact hy.elim
    · rcases y with r | t | _
      · exact hx
      · simp only [Dbl.nonneg] at hx hy
        subst hx hy
        rfl
      · exact hy.elim
    · exact hx.elim
  obtain ⟨H, hok, hd⟩ := degrees_of h (fun x => 0 ≤ x) (by decide)
    (fun x v hx h1 h2 => key _ _ hx (hf v h1 h2)) (fun x hx => key _ _ hx (by decide))
  refine no_nan_defined hok (fun d hd' => ?_) ops hl
  intro he
  have := hd d hd'
  rw [he] at this
  exact absurd this (by decide)

example : ∃ (pg : PyNW Dbl) (n : Nat) (S : SimpleGraph Nat) (ω : Nat → Dbl), WUsable pg n S ω ∧
    (∀ v, 1 ≤ v → v ≤ n → ∃ q, ω v = .fin q) ∧
    (pg.getMaxCliqueStrict id (fun _ => 0) {} >>= fun x => .ok x.2) = .ok (.ret [1, 3]) :=
  ⟨Sample.get PyNW.new (PyNW.fromEdgelist true 64 [(1, 2), (1, 3), (2, 3), (1, 4)] 4
      [.fin 1, .fin (-2), .fin 7, .fin 2]), 4,
    ofPairs [(1, 2), (1, 3), (2, 3), (1, 4)], nth [.fin 1, .fin (-2), .fin 7, .fin 2],
    ⟨.edgelist (argLR := true) (cap := 64) (by decide) (by decide) (by decide +kernel),
      Sample.wkept (by decide +kernel), 1, 2, by decide, Or.inl (by decide)⟩,
    by
      intro v h1 h2
      have : v = 1 ∨ v = 2 ∨ v = 3 ∨ v = 4 := by omega
      rcases this with rfl | rfl | rfl | rfl <;> exact ⟨_, rfl⟩,
    by decide +kernel⟩

example : ∃ (pg : PyNW Dbl) (n : Nat) (S : SimpleGraph Nat) (ω : Nat → Dbl), WUsable pg n S ω ∧
    (∀ v, 1 ≤ v → v ≤ n → 0 ≤ ω v) ∧ ω 2 = .inf false ∧
    (pg.getMaxCliqueStrict id (fun _ => 0) {} >>= fun x => .ok x.2) = .ok (.ret [1, 2, 3]) :=
  ⟨Sample.get PyNW.new (PyNW.fromEdgelist true 64 [(1, 2), (1, 3), (2, 3), (1, 4)] 4
      [.fin 1, .inf false, .fin 7, .fin 2]), 4,
    ofPairs [(1, 2), (1, 3), (2, 3), (1, 4)], nth [.fin 1, .inf false, .fin 7, .fin 2],
    ⟨.edgelist (argLR := true) (cap := 64) (by decide) (by decide) (by decide +kernel),
      Sample.wkept (by decide +kernel), 1, 2, by decide, Or.inl (by decide)⟩,
    by
      intro v h1 h2
      have : v = 1 ∨ v = 2 ∨ v = 3 ∨ v = 4 := by omega
      rcases this with rfl | rfl | rfl | rfl <;> decide +kernel,
    rfl, by decide +kernel⟩

/-- **C83** is false of the code: with a weight that is NaN the candidates of the first vertex are
sorted by degrees of which one is NaN and two others differ. -/
theorem C83_refuted : ∃ (pg : PyNW Dbl) (n : Nat) (S : SimpleGraph Nat) (ω : Nat → Dbl),
    WUsable pg n S ω ∧ ω 5 = .nan ∧
    (∀ srt junk, pg.getMaxCliqueStrict srt junk {} = .error .ub) :=
  ⟨Sample.get PyNW.new (PyNW.fromEdgelist true 64
      [(1, 2), (1, 3), (1, 4), (3, 4), (2, 5), (3, 6), (4, 7)] 7
      [.fin 10, .fin 1, .fin 1, .fin 1, .nan, .fin 5, .fin 6]), 7,
    ofPairs [(1, 2), (1, 3), (1, 4), (3, 4), (2, 5), (3, 6), (4, 7)],
    nth [.fin 10, .fin 1, .fin 1, .fin 1, .nan, .fin 5, .fin 6],
    ⟨.edgelist (argLR := true) (cap := 64) (by decide) (by decide) (by decide +kernel),
      Sample.wkept (by decide +kernel), 1, 2, by decide, Or.inl (by decide)⟩,
    rfl, getMaxCliqueStrict_ub (f := id) rfl (by decide +kernel) (by decide +kernel)⟩

/-- **C83** is false of the code also if no weight is NaN: the degree of the second vertex is a
sum with infinite weights of both signs. -/
theorem C83_refuted_infinite : ∃ (pg : PyNW Dbl) (n : Nat) (S : SimpleGraph Nat) (ω : Nat → Dbl),
    WUsable pg n S ω ∧ (∀ v, 1 ≤ v → v ≤ n → ω v ≠ .nan) ∧
    (∀ srt junk, pg.getMaxCliqueStrict srt junk {} = .error .ub) :=
  ⟨Sample.get PyNW.new (PyNW.fromEdgelist true 64
      [(1, 2), (1, 3), (1, 4), (3, 4), (2, 5), (2, 6), (5, 6), (3, 7), (4, 8)] 8
      [.fin 10, .fin 1, .fin 1, .fin 1, .inf false, .inf true, .fin 5, .fin 6]), 8,
    ofPairs [(1, 2), (1, 3), (1, 4), (3, 4), (2, 5), (2, 6), (5, 6), (3, 7), (4, 8)],
    nth [.fin 10, .fin 1, .fin 1, .fin 1, .inf false, .inf true, .fin 5, .fin 6],
    ⟨.edgelist (argLR := true) (cap := 64) (by decide) (by decide) (by decide +kernel),
      Sample.wkept (by decide +kernel), 1, 2, by decide, Or.inl (by decide)⟩,
    by
      intro v h1 h2
      have : v = 1 ∨ v = 2 ∨ v = 3 ∨ v = 4 ∨ v = 5 ∨ v = 6 ∨ v = 7 ∨ v = 8 := by omega
      rcases this with rfl | rfl | rfl | rfl | rfl | rfl | rfl | rfl <;> decide +kernel,
    getMaxCliqueStrict_ub (f := id) rfl (by decide +kernel) (by decide +kernel)⟩

end CM
