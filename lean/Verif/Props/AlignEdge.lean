import Verif.Props.Align

/-!
# C58: control points that land beside the mask

What `C58_filter_partial` leaves out: control points that land at negative coordinates.
-/

namespace CM

open Spec Graph Sample

namespace Align

/-- The point `q` counts as if it were in a cell of the mask that is set: it lies in such a cell, or
left of the first column or above the first row by less than one. -/
def Counted (mask : Mask) (q : Rat × Rat) : Prop :=
  ∃ row col : Nat, row < mask.rows ∧ col < mask.cols ∧ mask.val row col = true ∧
    ((col : Rat) ≤ q.1 ∨ col = 0) ∧ q.1 < col + 1 ∧ ((row : Rat) ≤ q.2 ∨ row = 0) ∧ q.2 < row + 1

open Classical in
/-- How many control points are counted. -/
noncomputable def counts (mask : Mask) (T : Sim) (control : List (Rat × Rat)) : Nat :=
  control.countP fun p => decide (Counted mask (T.apply p))

/-- As `Aligned`, for the points that are counted. -/
def Passes (control : List (Rat × Rat)) (mask : Mask) (percentage : Rat)
    (p1 p2 q1 q2 : Rat × Rat) : Prop :=
  p1 ≠ p2 ∧ ∃ T : Sim, T.apply p1 = q1 ∧ T.apply p2 = q2 ∧
    percentage * control.length ≤ counts mask T control

/-- The coordinates that can be converted to `u64`. -/
def Convertible (q : Rat × Rat) : Prop := -1 < q.1 ∧ q.1 < 2 ^ 64 ∧ -1 < q.2 ∧ q.2 < 2 ^ 64

/-- All control points land at coordinates that can be converted. -/
def InReach (control : List (Rat × Rat)) (p1 p2 q1 q2 : Rat × Rat) : Prop :=
  p1 ≠ p2 → ∀ T : Sim, T.apply p1 = q1 → T.apply p2 = q2 → ∀ p ∈ control, Convertible (T.apply p)

theorem castU64_wide {x : Rat} (h0 : -1 < x) (h1 : x < 2 ^ 64) : castU64 x = .ok ⌊x⌋.toNat := by
  by_cases h : 0 ≤ x
  · exact castU64_eq h h1
  · unfold castU64
    rw [if_neg (by linarith), if_pos (by linarith)]
    have : ⌊x⌋ < 0 := by rw [Int.floor_lt]; push_cast; linarith
    congr 1
    omega

theorem cell_wide {x : Rat} (h : -1 < x) {k : Nat} :
    ⌊x⌋.toNat = k ↔ ((k : Rat) ≤ x ∨ k = 0) ∧ x < k + 1 := by
  by_cases h0 : 0 ≤ x
  · rw [cell_iff h0]
    constructor
    · rintro ⟨a, b⟩; exact ⟨Or.inl a, b⟩
    · rintro ⟨a | rfl, b⟩
      · exact ⟨a, b⟩
      · exact ⟨by simpa using h0, b⟩
  · have hf : ⌊x⌋ < 0 := by rw [Int.floor_lt]; push_cast; linarith
    constructor
    · intro hk
      have : k = 0 := by omega
      subst this
      refine ⟨Or.inr rfl, ?_⟩
      push_cast
      linarith
    · rintro ⟨a | rfl, _⟩
      · have : (0 : Rat) ≤ (k : Rat) := by exact_mod_cast Nat.zero_le k
        linarith
      · omega

theorem score_counts {mask : Mask} {T : Sim} {control : List (Rat × Rat)}
    (h : ∀ p ∈ control, Convertible (T.apply p)) :
    score mask T control = .ok (counts mask T control) := by
  unfold score
  rw [mapM_ok (g := fun p => (⌊(T.apply p).1⌋.toNat, ⌊(T.apply p).2⌋.toNat)), ok_bind,
    List.countP_map]
  · congr 1
    refine List.countP_congr fun p hp => ?_
    obtain ⟨a, _, c, _⟩ := h p hp
    classical
    rw [show (decide (Counted mask (T.apply p)) = true) = Counted mask (T.apply p) from by simp]
    simp only [Function.comp, Bool.and_eq_true, decide_eq_true_eq, Counted]
    constructor
    · rintro ⟨⟨h1, h2⟩, h3⟩
      have e1 := (cell_wide a).1 rfl
      have e2 := (cell_wide c).1 rfl
      exact ⟨_, _, h1, h2, h3, e1.1, e1.2, e2.1, e2.2⟩
    · rintro ⟨row, col, h1, h2, h3, h4, h5, h6, h7⟩
      rw [(cell_wide a).2 ⟨h4, h5⟩, (cell_wide c).2 ⟨h6, h7⟩]
      exact ⟨⟨h1, h2⟩, h3⟩
  · intro p hp
    obtain ⟨a, b, c, d⟩ := h p hp
    rw [castU64_wide a b, castU64_wide c d]
    rfl

open Classical in
theorem rule_wide {control : List (Rat × Rat)} {mask : Mask} {percentage : Rat}
    {M1 M2 : Nat → Rat × Rat} {i1 i2 j1 j2 : Nat} (hp : 0 < percentage) (hc : control ≠ [])
    (hr : InReach control (M2 j1) (M2 j2) (M1 i1) (M1 i2)) :
    rule control mask percentage M1 M2 i1 i2 j1 j2 =
      .ok (decide (Passes control mask percentage (M2 j1) (M2 j2) (M1 i1) (M1 i2))) := by
  unfold rule
  by_cases he : M2 j1 = M2 j2
  · rw [if_pos he]
    congr 1
    rw [decide_eq_decide]
    constructor
    · intro h; linarith
    · intro h; exact absurd he h.1
  · rw [if_neg he]
    obtain ⟨e1, e2⟩ := (solve_iff he (solve (M2 j1) (M2 j2) (M1 i1) (M1 i2))).2 rfl
    rw [score_counts (hr he _ e1 e2), ok_bind]
    congr 1
    rw [decide_eq_decide]
    have hl : 0 < control.length := List.length_pos_of_ne_nil hc
    have hl' : (0 : Rat) < control.length := by exact_mod_cast hl
    rw [ge_iff_le, le_div_iff₀ hl']
    constructor
    · rintro ⟨_, h⟩; exact ⟨he, _, e1, e2, h⟩
    · rintro ⟨_, T, t1, t2, h⟩
      rw [(solve_iff he T).1 ⟨t1, t2⟩] at h
      exact ⟨by omega, h⟩

theorem Passes.swap {control : List (Rat × Rat)} {mask : Mask} {percentage : Rat}
    {p1 p2 q1 q2 : Rat × Rat} (h : Passes control mask percentage p1 p2 q1 q2) :
    Passes control mask percentage p2 p1 q2 q1 := by
  obtain ⟨h1, T, h2, h3, h4⟩ := h
  exact ⟨h1.symm, T, h3, h2, h4⟩

theorem castU64_cases (x : Rat) : castU64 x = .error .ub ∨ ∃ k, castU64 x = .ok k := by
  unfold castU64
  split
  · exact Or.inl rfl
  split
  · exact Or.inr ⟨_, rfl⟩
  split
  · exact Or.inr ⟨_, rfl⟩
  · exact Or.inl rfl

theorem castU64_outside {x : Rat} (h : ¬ (-1 < x ∧ x < 2 ^ 64)) : castU64 x = .error .ub := by
  unfold castU64
  split
  · rfl
  next h1 =>
  rw [if_neg, if_neg]
  · intro h2
    rw [Int.floor_lt] at h2
    exact h ⟨by linarith, by exact_mod_cast h2⟩
  · intro h2
    refine h ⟨by linarith, lt_trans h2 (by norm_num)⟩

/-- The conversion of a point. -/
def cell (q : Rat × Rat) : M (Nat × Nat) := do
  let x ← castU64 q.1
  let y ← castU64 q.2
  Except.ok (x, y)

theorem cell_cases (q : Rat × Rat) : cell q = .error .ub ∨ ∃ k, cell q = .ok k := by
  unfold cell
  rcases castU64_cases q.1 with h | ⟨a, h⟩
  · rw [h]; exact Or.inl rfl
  rcases castU64_cases q.2 with h' | ⟨b, h'⟩
  · rw [h, h']; exact Or.inl rfl
  · rw [h, h']; exact Or.inr ⟨_, rfl⟩

theorem cell_outside {q : Rat × Rat} (h : ¬ Convertible q) : cell q = .error .ub := by
  unfold cell
  by_cases h1 : -1 < q.1 ∧ q.1 < 2 ^ 64
  · have h2 : ¬ (-1 < q.2 ∧ q.2 < 2 ^ 64) := fun h2 => h ⟨h1.1, h1.2, h2.1, h2.2⟩
    rw [castU64_outside h2]
    rcases castU64_cases q.1 with h' | ⟨a, h'⟩
    · rw [h']; rfl
    · rw [h']; rfl
  · rw [castU64_outside h1]; rfl

theorem mapM_cases {T : Sim} : ∀ (l : List (Rat × Rat)),
    (l.mapM fun p => cell (T.apply p)) = .error .ub ∨
      ∃ r, (l.mapM fun p => cell (T.apply p)) = .ok r ∧
        ∀ p ∈ l, cell (T.apply p) ≠ .error .ub := by
  intro l
  induction l with
  | nil => exact Or.inr ⟨_, rfl, by simp⟩
  | cons p l ih =>
    rw [List.mapM_cons]
    rcases cell_cases (T.apply p) with h | ⟨k, h⟩
    · rw [h]; exact Or.inl rfl
    rw [h, ok_bind]
    rcases ih with h' | ⟨r, h', h2⟩
    · rw [h']; exact Or.inl rfl
    · rw [h', ok_bind]
      refine Or.inr ⟨_, rfl, ?_⟩
      intro q hq
      rcases List.mem_cons.1 hq with rfl | hq
      · rw [h]; intro e; cases e
      · exact h2 q hq

theorem score_cases (mask : Mask) (T : Sim) (control : List (Rat × Rat)) :
    score mask T control = .error .ub ∨ ∃ k, score mask T control = .ok k ∧
      ∀ p ∈ control, cell (T.apply p) ≠ .error .ub := by
  unfold score
  rcases mapM_cases (T := T) control with h | ⟨r, h, h2⟩
  · exact Or.inl (by unfold cell at h; rw [h]; rfl)
  · refine Or.inr ⟨_, by unfold cell at h; rw [h, ok_bind], h2⟩

theorem rule_cases (control : List (Rat × Rat)) (mask : Mask) (percentage : Rat)
    (M1 M2 : Nat → Rat × Rat) (i1 i2 j1 j2 : Nat) :
    rule control mask percentage M1 M2 i1 i2 j1 j2 = .error .ub ∨
      ∃ b, rule control mask percentage M1 M2 i1 i2 j1 j2 = .ok b := by
  unfold rule
  split
  · exact Or.inr ⟨_, rfl⟩
  · rcases score_cases mask (solve (M2 j1) (M2 j2) (M1 i1) (M1 i2)) control with h | ⟨k, h, _⟩
    · rw [h]; exact Or.inl rfl
    · rw [h]; exact Or.inr ⟨_, rfl⟩

theorem rule_outside {control : List (Rat × Rat)} {mask : Mask} {percentage : Rat}
    {M1 M2 : Nat → Rat × Rat} {i1 i2 j1 j2 : Nat} {T : Sim} {p : Rat × Rat}
    (hne : M2 j1 ≠ M2 j2) (h1 : T.apply (M2 j1) = M1 i1) (h2 : T.apply (M2 j2) = M1 i2)
    (hp : p ∈ control) (ho : ¬ Convertible (T.apply p)) :
    rule control mask percentage M1 M2 i1 i2 j1 j2 = .error .ub := by
  unfold rule
  rw [if_neg hne, ← (solve_iff hne T).1 ⟨h1, h2⟩]
  rcases score_cases mask T control with h | ⟨k, h, h'⟩
  · rw [h]; rfl
  · exact absurd (cell_outside ho) (h' p hp)

end Align

variable {pg : PyGraph} {M N : Nat} {D : Type} [LinearOrder D] [Inhabited D]

/-- **C58** with the control points that land less than one left of the mask or above it, which
`C58_filter_partial` leaves out: they are counted as if they were in the first column or row.
Otherwise the same. -/
theorem C58_beside_partial {argLR : Bool} {cap : Nat}
    {srt1 srt2 : List (PairDist D) → List (PairDist D)} {w : Window D}
    {pts1 pts2 : Nat → Rat × Rat} {d1 d2 : Nat → Nat → D} {control : List (Rat × Rat)}
    {mask : Align.Mask} {percentage : Rat}
    (hM : 1 ≤ M) (hN : 1 ≤ N) (hne : M = 1 ∨ 2 ≤ N) (hb : M * N < 2 ^ 27)
    (hs1 : Sorts srt1) (hs2 : Sorts srt2) (hlo : Monotone w.lo)
    (hsym1 : ∀ i j, d1 i j = d1 j i) (hsym2 : ∀ i j, d2 i j = d2 j i)
    (hp : 0 < percentage) (hc : control ≠ [])
    (hr : ∀ i1 i2 j1 j2, i1 < M → i2 < M → j1 < N → j2 < N → i1 ≠ i2 → j1 ≠ j2 →
      Align.InReach control (pts2 j1) (pts2 j2) (pts1 i1) (pts1 i2)) :
    ∃ pg S, buildFilter argLR cap PyGraph.new srt1 srt2 M N w pts1 pts2 d1 d2 control mask
        percentage = .ok pg ∧ Loaded pg (M * N) S ∧
      (∀ i1 i2 j1 j2, i1 < M → i2 < M → j1 < N → j2 < N →
        S.Adj (pairId N i1 j1) (pairId N i2 j2) → i1 ≠ i2 ∧ j1 ≠ j2 ∧
          Align.Passes control mask percentage (pts2 j1) (pts2 j2) (pts1 i1) (pts1 i2)) ∧
      ∀ i1 i2 j1 j2, i1 < M → i2 < M → j1 < N → j2 < N → i1 ≠ i2 → j1 ≠ j2 →
        w.lo (d1 i1 i2) < d2 j1 j2 → d2 j1 j2 < w.hi (d1 i1 i2) →
        Align.Passes control mask percentage (pts2 j1) (pts2 j2) (pts1 i1) (pts1 i2) →
        S.Adj (pairId N i1 j1) (pairId N i2 j2) := by
  classical
  have hMb : M ≤ M * N := Nat.le_mul_of_pos_right _ hN
  have hNb : N ≤ M * N := Nat.le_mul_of_pos_left _ hM
  unfold buildFilter
  rw [buildBothM_on (c' := fun i1 i2 j1 j2 =>
      decide (Align.Passes control mask percentage (pts2 j1) (pts2 j2) (pts1 i1) (pts1 i2)))
    (fun i1 i2 j1 j2 a b c d e f => Align.rule_wide hp hc (hr i1 i2 j1 j2 a b c d e f))
    (by omega) (by omega) hs1 hs2]
  obtain ⟨pg, S, e1, e2, e3⟩ := buildBoth_spec (argLR := argLR) (cap := cap) (w := w)
    (c := fun i1 i2 j1 j2 =>
      decide (Align.Passes control mask percentage (pts2 j1) (pts2 j2) (pts1 i1) (pts1 i2)))
    (d1 := d1) (d2 := d2) (sym1 := true) (sym2 := true) hM hN hne hb hs1 hs2 hlo
  refine ⟨pg, S, e1, e2, ?_, ?_⟩
  · intro i1 i2 j1 j2 a b c d ha
    obtain ⟨k1, k2, l1, l2, _, _, hc, hd, h1, h2, h3, h4, h5⟩ := e3.apart _ _ ha
    obtain ⟨rfl, rfl⟩ := pairId_inj c hc h3
    obtain ⟨rfl, rfl⟩ := pairId_inj d hd h4
    refine ⟨h1, h2, ?_⟩
    simp only [decide_eq_true_eq] at h5
    exact h5.elim id Align.Passes.swap
  · intro i1 i2 j1 j2 a b c d e f g h ha
    exact e3.complete (fun _ => hsym1) (fun _ => hsym2) i1 i2 j1 j2 a b c d e f g h
      (by simpa using ha) (by simpa using ha.swap)

/-- **C58** fails for every input with a control point farther out: if the distances of two
correspondences agree and their similarity moves a control point to where a coordinate is at most
`-1`, or at least `2^64`, then `build_edges_with_filter` is undefined, whatever the mask. -/
theorem C58_outside_undefined {argLR : Bool} {cap : Nat}
    {srt1 srt2 : List (PairDist D) → List (PairDist D)} {w : Window D}
    {pts1 pts2 : Nat → Rat × Rat} {d1 d2 : Nat → Nat → D} {control : List (Rat × Rat)}
    {mask : Align.Mask} {percentage : Rat}
    (hb : M * N < 2 ^ 27) (hs1 : Sorts srt1) (hs2 : Sorts srt2) (hlo : Monotone w.lo)
    (hsym1 : ∀ i j, d1 i j = d1 j i) (hsym2 : ∀ i j, d2 i j = d2 j i)
    {i1 i2 j1 j2 : Nat} (hi1 : i1 < M) (hi2 : i2 < M) (hj1 : j1 < N) (hj2 : j2 < N)
    (hi : i1 ≠ i2) (hj : j1 ≠ j2) (h1 : w.lo (d1 i1 i2) < d2 j1 j2)
    (h2 : d2 j1 j2 < w.hi (d1 i1 i2)) (hne : pts2 j1 ≠ pts2 j2) {T : Align.Sim}
    (t1 : T.apply (pts2 j1) = pts1 i1) (t2 : T.apply (pts2 j2) = pts1 i2) {p : Rat × Rat}
    (hp : p ∈ control) (ho : ¬ Align.Convertible (T.apply p)) :
    buildFilter argLR cap PyGraph.new srt1 srt2 M N w pts1 pts2 d1 d2 control mask percentage =
      .error .ub := by
  let c' : Bool → Nat → Nat → Nat → Nat → Bool := fun x a b c d =>
    match Align.rule control mask percentage pts1 pts2 a b c d with
    | .ok y => y
    | .error _ => x
  have key : ∀ x, buildFilter argLR cap PyGraph.new srt1 srt2 M N w pts1 pts2 d1 d2 control mask
      percentage = .error .ub ∨
      buildFilter argLR cap PyGraph.new srt1 srt2 M N w pts1 pts2 d1 d2 control mask
        percentage = buildBoth argLR cap PyGraph.new srt1 srt2 M N w (c' x) d1 true d2 true := by
    intro x
    have hc : ∀ a b c d, OrStops (· = .ub)
        (Align.rule control mask percentage pts1 pts2 a b c d) (.ok (c' x a b c d)) := by
      intro a b c d
      rcases Align.rule_cases control mask percentage pts1 pts2 a b c d with h | ⟨y, h⟩
      · exact Or.inl ⟨_, rfl, h⟩
      · refine Or.inr ?_
        simp only [c', h]
    rcases buildBothM_or hc (d1 := fun i j => .ok (d1 i j)) (d2 := fun i j => .ok (d2 i j))
      (d1' := d1) (d2' := d2) (fun _ _ => OrStops.rfl) (fun _ _ => OrStops.rfl) argLR cap
      PyGraph.new srt1 srt2 M N w true true with ⟨e, rfl, h⟩ | h
    · exact Or.inl h
    · exact Or.inr h
  rcases key true with h | e
  · exact h
  rcases key false with h | e'
  · exact h
  exfalso
  have hM : 1 ≤ M := by omega
  have hN : 1 ≤ N := by omega
  have hn : M = 1 ∨ 2 ≤ N := Or.inr (by omega)
  obtain ⟨pg, S, a1, a2, a3⟩ := buildBoth_spec (argLR := argLR) (cap := cap) (w := w) (c := c' true)
    (d1 := d1) (d2 := d2) (sym1 := true) (sym2 := true) hM hN hn hb hs1 hs2 hlo
  obtain ⟨pg', S', b1, b2, b3⟩ := buildBoth_spec (argLR := argLR) (cap := cap) (w := w)
    (c := c' false) (d1 := d1) (d2 := d2) (sym1 := true) (sym2 := true) hM hN hn hb hs1 hs2 hlo
  rw [← e, e', b1] at a1
  injection a1 with a1
  subst a1
  obtain ⟨_, rfl⟩ := a2.unique b2
  have r1 : ∀ x, c' x i1 i2 j1 j2 = x := fun x => by
    simp only [c', Align.rule_outside hne t1 t2 hp ho]
  have r2 : ∀ x, c' x i2 i1 j2 j1 = x := fun x => by
    simp only [c', Align.rule_outside hne.symm t2 t1 hp ho]
  have hadj := a3.complete (fun _ => hsym1) (fun _ => hsym2) i1 i2 j1 j2 hi1 hi2 hj1 hj2 hi hj h1 h2
    (r1 true) (r2 true)
  obtain ⟨k1, k2, l1, l2, _, _, hc, hd, _, _, h3, h4, h5⟩ := b3.apart _ _ hadj
  obtain ⟨rfl, rfl⟩ := pairId_inj hj1 hc h3
  obtain ⟨rfl, rfl⟩ := pairId_inj hj2 hd h4
  rw [r1, r2] at h5
  simp at h5

/-- The hypotheses of `C58_outside_undefined` are met by the control point of `C58_refuted`. -/
example : buildFilter true 100 PyGraph.new byDist byDist 2 2 (intWindow 1) here there
    (fun _ _ => (2 : Int)) (fun _ _ => 2) [(6, 5)] mask (1/2) = .error .ub :=
  C58_outside_undefined (i1 := 0) (i2 := 1) (j1 := 0) (j2 := 1)
    (T := Align.solve (there 0) (there 1) (here 0) (here 1)) (p := (6, 5))
    (by decide) byDist_sorts byDist_sorts (fun a b h => by simpa [intWindow] using h)
    (fun _ _ => rfl) (fun _ _ => rfl) (by decide) (by decide) (by decide) (by decide) (by decide)
    (by decide) (by decide) (by decide) (by decide +kernel) (by decide +kernel) (by decide +kernel)
    (by simp) (by
      have : (Align.solve (there 0) (there 1) (here 0) (here 1)).apply (6, 5) = (0, -1) := by
        decide +kernel
      rw [this]
      rintro ⟨_, _, h, _⟩
      exact absurd h (by norm_num))

/-- The hypotheses of `C58_beside_partial` are met by a control point that lands left of the mask,
in both assignments that are possible: at `(-1/2, 1/2)` and at `(5/2, -1/2)`; the first one is counted
as if it were in the cell of row 0, column 0, the second one is not counted. -/
example : (∀ i1 i2 j1 j2, i1 < 2 → i2 < 2 → j1 < 2 → j2 < 2 → i1 ≠ i2 → j1 ≠ j2 →
      Align.InReach [(9/2, 9/2)] (there j1) (there j2) (here i1) (here i2)) ∧
    (buildFilter true 100 PyGraph.new byDist byDist 2 2 (intWindow 1) here there
      (fun _ _ => (2 : Int)) (fun _ _ => 2) [(9/2, 9/2)] mask (1/2) >>= fun pg => pg.toEdgelist) =
      .ok [some (1, 4)] := by
  refine ⟨?_, by decide +kernel⟩
  intro i1 i2 j1 j2 a b c d e f hne T t1 t2 p hp
  rw [(Align.solve_iff hne T).1 ⟨t1, t2⟩]
  simp only [List.mem_singleton] at hp
  subst hp
  clear t1 t2 T hne
  unfold Align.Convertible
  interval_cases i1 <;> interval_cases i2 <;> interval_cases j1 <;> interval_cases j2 <;>
    first | exact absurd rfl e | exact absurd rfl f | decide +kernel

end CM
