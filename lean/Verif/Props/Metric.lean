import Verif.Lemmas.Metric
import Verif.Props.Largest
import Verif.Props.Wrappers
import Mathlib.Data.List.Sort

/-!
# C29, C30, C52 for distances that are `double`s; C72, C73

Distances are `double`s (without NaN) and `dblWindow ε` is the window the compiled module
computes for them, with the rounding of IEEE 754.  `Binary64` is defined in `SpecDouble.lean`,
`Within`, `SumOf` and `Embeds` in `SpecMetric.lean`.
-/

namespace CM

open Spec Graph Sample

variable {pg : PyGraph} {M N : Nat} {S : SimpleGraph Nat}

/-! ## C29 -/

/-- **C29** for `double`s, as far as it is true.  The full property: `|x - y| < ε` suffices for
distances `x` and `y`.  Proved: it suffices that `|x - y|` is below `ε` by a small margin,
`2 ^ -50` times the size of the numbers; and it suffices as it is if `x - ε` and `x + ε` are
`double`s.  Missing, because false (`C29_refuted_rounding`): differences that are lost in
rounding. -/
theorem C29_double_partial {argLR : Bool} {cap : Nat}
    {srt1 srt2 : List (PairDist Dist) → List (PairDist Dist)} {ε : Rat}
    {d1 d2 : Nat → Nat → Dist} {sym1 sym2 : Bool} (hM : 1 ≤ M) (hN : 1 ≤ N)
    (hne : M = 1 ∨ 2 ≤ N) (hb : M * N < 2 ^ 27) (hs1 : Sorts srt1) (hs2 : Sorts srt2)
    (hsym1 : sym1 = true → ∀ i j, d1 i j = d1 j i)
    (hsym2 : sym2 = true → ∀ i j, d2 i j = d2 j i) (hε : Binary64 ε) :
    ∃ pg S, buildMetric argLR cap PyGraph.new srt1 srt2 M N (dblWindow ε) d1 sym1 d2 sym2 =
        .ok pg ∧ Loaded pg (M * N) S ∧
      ∀ i1 i2 j1 j2, i1 < M → i2 < M → j1 < N → j2 < N → i1 ≠ i2 → j1 ≠ j2 →
        ∀ x y, (d1 i1 i2).val = .fin x → (d2 j1 j2).val = .fin y → Binary64 x → Within ε x y →
          S.Adj (pairId N i1 j1) (pairId N i2 j2) := by
  obtain ⟨pg, S, e1, e2, e3⟩ := C29_compatible_linked (argLR := argLR) (cap := cap)
    (w := dblWindow ε) (d1 := d1) (d2 := d2) (sym1 := sym1) (sym2 := sym2) hM hN hne hb hs1 hs2
    (dblWindow_lo_mono ε) hsym1 hsym2
  refine ⟨pg, S, e1, e2, fun i1 i2 j1 j2 a b c d e f x y hx hy h64 h => ?_⟩
  have hw := dblWindow_in h64 hε h
  rw [← hx, ← hy] at hw
  exact e3 i1 i2 j1 j2 a b c d e f hw.1 hw.2

namespace Sample

/-- A sort by distance. -/
def byDbl (l : List (PairDist Dist)) : List (PairDist Dist) :=
  l.insertionSort fun p q => p.dist ≤ q.dist

theorem byDbl_sorts : Sorts byDbl := by
  intro l
  have : Std.Total fun p q : PairDist Dist => p.dist ≤ q.dist := ⟨fun p q => le_total _ _⟩
  have : IsTrans (PairDist Dist) fun p q => p.dist ≤ q.dist := ⟨fun _ _ _ => le_trans⟩
  exact ⟨List.perm_insertionSort _ l, List.pairwise_insertionSort _ l⟩

/-- A finite number as a distance. -/
def dd (q : Rat) : Dist := ⟨.fin q, by simp⟩

end Sample

/-- **C29** is false for `double`s: if the tolerance is below the resolution of the distances, the
window is a single number, and of several pairs of elements at just that distance only one is
found.  Two points at distance `2 ^ 60` against three points at this distance of each other,
tolerance 1: of the six compatible assignments only two, those to the elements 0 and 2, are
joined; `0 ↦ 0`, `1 ↦ 1` is not. -/
theorem C29_refuted_rounding :
    (buildMetric true 100 PyGraph.new byDbl byDbl 2 3 (dblWindow 1)
      (fun _ _ => dd (2 ^ 60)) true (fun _ _ => dd (2 ^ 60)) true >>= fun pg => pg.toEdgelist) =
      .ok [some (1, 6), some (3, 4)] ∧
    |(2 : Rat) ^ 60 - 2 ^ 60| < 1 ∧ Binary64 (2 ^ 60) ∧ Binary64 1 ∧
    pairId 3 0 0 = 1 ∧ pairId 3 1 1 = 5 := by
  refine ⟨by decide +kernel, by norm_num, ?_, ?_, by decide, by decide⟩
  · exact ⟨1, 60, by norm_num, by norm_num, by norm_num, by
      rw [abs_of_pos (by positivity)]; exact pow_lt_pow_right₀ (by norm_num) (by decide)⟩
  · exact ⟨1, 0, by norm_num, by norm_num, by norm_num, by
      rw [abs_of_pos (by norm_num)]; exact one_lt_pow₀ (by norm_num) (by decide)⟩

/-- The hypotheses of `C29_double_partial` are met: two points at distance `1 / 3`, as near as a
`double` can be, with tolerance `1 / 100`, likewise; the correspondence is joined. -/
example : ∃ x ε : Rat, Dbl.round (1 / 3) = .fin x ∧ Dbl.round (1 / 100) = .fin ε ∧ Binary64 x ∧
    Binary64 ε ∧ Within ε x x ∧
    (buildMetric true 100 PyGraph.new byDbl byDbl 2 3 (dblWindow ε)
      (fun _ _ => dd x) true (fun _ _ => dd x) true >>= fun pg => pg.toEdgelist) =
      .ok ([(1, 5), (1, 6), (2, 4), (2, 6), (3, 4), (3, 5)].map some) := by
  have h1 : Dbl.round (1 / 3) = .fin (6004799503160661 / 2 ^ 54) := by decide +kernel
  have h2 : Dbl.round (1 / 100) = .fin (5764607523034235 / 2 ^ 59) := by decide +kernel
  refine ⟨_, _, h1, h2, (Dbl.round_spec h1).1, (Dbl.round_spec h2).1, Or.inl ⟨?_, ?_⟩, ?_⟩
  · norm_num
  · refine le_trans (b := (2 : Rat) ^ 1) (by norm_num) (pow_le_pow_right₀ (by norm_num) (by decide))
  · decide +kernel

/-! ## C30 -/

/-- **C30** for `double`s, as far as it is true: if two correspondences `(i1, j1)` and `(i2, j2)`
are joined, then the two distances differ by at most the tolerance and a small margin, or no
distance in the second set is between that of `j1`, `j2` and the interval around that of `i1`,
`i2`, up to the margin.  Missing, because false (`C30_refuted`): that they always differ by at
most that. -/
theorem C30_double_partial {argLR : Bool} {cap : Nat}
    {srt1 srt2 : List (PairDist Dist) → List (PairDist Dist)} {ε : Rat}
    {d1 d2 : Nat → Nat → Dist} (hb : M * N < 2 ^ 27) (hs1 : Sorts srt1) (hs2 : Sorts srt2)
    (hsym1 : ∀ i j, d1 i j = d1 j i) (hsym2 : ∀ i j, d2 i j = d2 j i) (hε : Binary64 ε)
    {sym1 sym2 : Bool}
    (he : buildMetric argLR cap PyGraph.new srt1 srt2 M N (dblWindow ε) d1 sym1 d2 sym2 =
      .ok pg) :
    ∃ S, Loaded pg (M * N) S ∧
      ∀ i1 i2 j1 j2, i1 < M → i2 < M → j1 < N → j2 < N →
        S.Adj (pairId N i1 j1) (pairId N i2 j2) →
        ∀ x y, (d1 i1 i2).val = .fin x → (d2 j1 j2).val = .fin y → Binary64 x →
          |x| + |ε| ≤ 2 ^ 1021 →
          |x - y| ≤ ε + (|x| + |ε|) / 2 ^ 50 ∨
          (∀ k l z, k < N → l < N → k ≠ l → (d2 k l).val = .fin z → y < z →
            x - ε - (|x| + |ε|) / 2 ^ 50 < z) ∨
          (∀ k l z, k < N → l < N → k ≠ l → (d2 k l).val = .fin z → z < y →
            z < x + ε + (|x| + |ε|) / 2 ^ 50) := by
  obtain ⟨S, h1, h2⟩ := C30_linked_partial hb hs1 hs2 (dblWindow_lo_mono ε) (fun _ => hsym1)
    (fun _ => hsym2) he
  refine ⟨S, h1, fun i1 i2 j1 j2 a b c d e x y hx hy h64 hB => ?_⟩
  obtain ⟨_, _, h3⟩ := h2 i1 i2 j1 j2 a b c d e
  rw [hsym1 i2 i1, hsym2 j2 j1, or_self] at h3
  obtain ⟨r, r', e1, e2, e3, e4⟩ := dblWindow_near h64 hε hB
  have e3 := abs_le.1 e3
  have e4 := abs_le.1 e4
  have hlo : ((dblWindow ε).lo (d1 i1 i2)).val = .fin r := by
    change (d1 i1 i2).val - _ = _; rw [hx]; exact e1
  have hhi : ((dblWindow ε).hi (d1 i1 i2)).val = .fin r' := by
    change (d1 i1 i2).val - _ + _ = _; rw [hx]; exact e2
  have le : ∀ {p q : Dist} {s t : Rat}, p.val = .fin s → q.val = .fin t → (p ≤ q ↔ s ≤ t) := by
    intro p q s t hp hq
    change p.val ≤ q.val ↔ _
    rw [hp, hq, Dbl.fin_le_fin]
  have lt : ∀ {p q : Dist} {s t : Rat}, p.val = .fin s → q.val = .fin t → (p < q ↔ s < t) := by
    intro p q s t hp hq
    change p.val < q.val ↔ _
    rw [hp, hq, Dbl.fin_lt_fin]
  rcases h3 with ⟨h3, h4⟩ | ⟨_, h4⟩ | ⟨_, h4⟩
  · rw [le hlo hy] at h3
    rw [le hy hhi] at h4
    refine Or.inl (abs_le.2 ⟨?_, ?_⟩) <;> linarith [e3.1, e3.2, e4.1, e4.2]
  · refine Or.inr (Or.inl fun k l z hk hl hkl hz hlt => ?_)
    have := h4 k l hk hl hkl ((lt hy hz).2 hlt)
    rw [lt hlo hz] at this
    linarith [e3.1, e3.2]
  · refine Or.inr (Or.inr fun k l z hk hl hkl hz hlt => ?_)
    have := h4 k l hk hl hkl ((lt hz hy).2 hlt)
    rw [lt hz hhi] at this
    linarith [e4.1, e4.2]

/-! ## C52 -/

/-- **C52** for `double`s, as far as it is true.  The full property: the correspondence returned
has at least as many pairs as every one-to-one correspondence all of whose distances differ by
less than the tolerance.  Proved: at least as many as every one whose distances agree within the
tolerance so that rounding does not matter.  Missing, because false (`C52_refuted_rounding`):
differences that are lost in rounding. -/
theorem C52_double_partial {argLR : Bool} {cap : Nat}
    {srt1 srt2 : List (PairDist Dist) → List (PairDist Dist)} {ε : Rat}
    {d1 d2 : Nat → Nat → Dist} {sym1 sym2 : Bool} (hb : M * N < 2 ^ 27) (hs1 : Sorts srt1)
    (hs2 : Sorts srt2) (hsym1 : sym1 = true → ∀ i j, d1 i j = d1 j i)
    (hsym2 : sym2 = true → ∀ i j, d2 i j = d2 j i) (hε : Binary64 ε)
    (he : buildMetric argLR cap PyGraph.new srt1 srt2 M N (dblWindow ε) d1 sym1 d2 sym2 = .ok pg)
    (h : Usable pg (M * N) S) (hu : M ≤ 65535 ∨ N ≤ 65535)
    {srt : List VData → List VData} (hsrt : ∀ l, (srt l).Perm l) :
    ∃ pg' f s, pg.getCorrespondence srt N {} = .ok (pg', .ret (f, s)) ∧
      f.length = s.length ∧ IsMatching M N (f.zip s) ∧
      ∀ ps, IsMatching M N ps →
        Consistent (fun i1 i2 j1 j2 => ∃ x y, (d1 i1 i2).val = .fin x ∧ (d2 j1 j2).val = .fin y ∧
          Binary64 x ∧ Within ε x y) ps →
        ps.length ≤ f.length := by
  rw [buildMetric_eq] at he
  obtain ⟨pg', f, s, r1, r2, r3, r4⟩ := C52_largest hb hs1 hs2 (dblWindow_lo_mono ε) hsym1 hsym2
    he h hu hsrt
  refine ⟨pg', f, s, r1, r2, r3, fun ps hps hc => r4 ps hps fun p hp q hq hne => ?_⟩
  obtain ⟨x, y, hx, hy, h64, hw⟩ := hc p hp q hq hne
  have hw := dblWindow_in h64 hε hw
  rw [← hx, ← hy] at hw
  exact ⟨hw.1, hw.2, rfl⟩

/-- **C52** is false for `double`s if the tolerance is lost in rounding: three points at distance
`2 ^ 60` of each other, matched with themselves with tolerance 1.  The distances agree exactly,
so all three could be matched, but only two are. -/
theorem C52_refuted_rounding :
    (buildMetric true 100 PyGraph.new byDbl byDbl 3 3 (dblWindow 1)
      (fun _ _ => dd (2 ^ 60)) true (fun _ _ => dd (2 ^ 60)) true >>= fun pg =>
        pg.getCorrespondence byDegree 3 {} >>= fun r => .ok r.2) =
      .ok (.ret ([0, 1], [0, 2])) ∧
    IsMatching 3 3 [(0, 0), (1, 1), (2, 2)] ∧
    Consistent (fun _ _ _ _ => |(2 : Rat) ^ 60 - 2 ^ 60| < 1) [(0, 0), (1, 1), (2, 2)] := by
  refine ⟨by decide +kernel, ⟨by decide, by decide, by decide⟩, fun _ _ _ _ _ => by norm_num⟩

namespace Sample

/-- The distances 3, 4, 5 of a triangle, as `double`s. -/
def sides (i j : Nat) : Dist := dd (if i = j then 0 else i + j + 2 : Nat)

/-- The triangle matched with itself, with tolerance `1 / 4`. -/
def twice : PyGraph :=
  get PyGraph.new (buildMetric true 100 PyGraph.new byDbl byDbl 3 3 (dblWindow (1 / 4)) sides true
    sides true)

theorem twice_eq : buildMetric true 100 PyGraph.new byDbl byDbl 3 3 (dblWindow (1 / 4)) sides true
    sides true = .ok twice := by decide +kernel

theorem quarter : Binary64 (1 / 4) :=
  (Dbl.round_spec (by decide +kernel : Dbl.round (1 / 4) = .fin (1 / 4))).1

theorem sides_comm (i j : Nat) : sides i j = sides j i := by
  unfold sides
  simp only [eq_comm (a := i), Nat.add_comm i j]

theorem twice_kept : BufferKept twice := by
  intro G hG
  have : (twice.G.map fun G => G.dangling) = some false := by decide +kernel
  rw [hG] at this
  simpa using this

theorem sides_fin : Binary64 3 ∧ (sides 0 1).val = .fin 3 ∧ Within (1 / 4) 3 3 := by
  refine ⟨(Dbl.round_spec (by decide +kernel : Dbl.round 3 = .fin 3)).1, by decide +kernel,
    Or.inl ⟨by norm_num, ?_⟩⟩
  refine le_trans (b := (2 : Rat) ^ 3) (by norm_num) (pow_le_pow_right₀ (by norm_num) (by decide))

theorem twice_usable : ∃ S, Usable twice (3 * 3) S := by
  obtain ⟨pg, S, e1, e2, e3⟩ := C29_double_partial (argLR := true) (cap := 100) (M := 3) (N := 3)
    (by decide) (by decide) (by decide) (by decide) byDbl_sorts byDbl_sorts
    (fun _ => sides_comm) (fun _ => sides_comm) quarter
  rw [twice_eq] at e1
  cases e1
  exact ⟨S, e2, twice_kept, _, _, e3 0 1 0 1 (by decide) (by decide) (by decide) (by decide)
    (by decide) (by decide) 3 3 sides_fin.2.1 sides_fin.2.1 sides_fin.1 sides_fin.2.2⟩

end Sample

/-- The hypotheses of `C30_double_partial` and `C52_double_partial` are met by a triangle matched
with itself; all three corners are matched. -/
example : (∀ i j, sides i j = sides j i) ∧ Binary64 (1 / 4) ∧ Sorts byDbl ∧
    buildMetric true 100 PyGraph.new byDbl byDbl 3 3 (dblWindow (1 / 4)) sides true sides true =
      .ok twice ∧ (∃ S, Usable twice (3 * 3) S) ∧
    (twice.getCorrespondence byDegree 3 {} >>= fun r => .ok r.2) =
      .ok (.ret ([0, 1, 2], [0, 1, 2])) :=
  ⟨sides_comm, quarter, byDbl_sorts, twice_eq, twice_usable, by decide +kernel⟩

/-! ## C72 -/

/-- **C72**: on arrays with finite coordinates the default distance is a number (or infinite, if a
square overflows), not negative, does not depend on the order of the two rows, and is zero for
equal rows.  This holds in whichever order the squares are added up, and for every implementation
of the square root that gives no negative results and `0` for `0`. -/
theorem C72_default_distance {sum : List Dbl → Dbl} (hsum : ∀ l, SumOf l (sum l)) {sqrt : Dbl → Dbl}
    (hsqrt : ∀ x : Dbl, .fin 0 ≤ x → .fin 0 ≤ sqrt x) (h0 : sqrt (.fin 0) = .fin 0)
    (rows : Nat → List Rat) :
    ∃ d : Nat → Nat → Dist,
      (∀ i j, defaultDist sum sqrt (fun i => (rows i).map .fin) i j = .ok (d i j)) ∧
      (∀ i j, .fin 0 ≤ (d i j).val) ∧ (∀ i j, d i j = d j i) ∧
      ∀ i j, rows i = rows j → (d i j).val = .fin 0 := by
  have hpos : ∀ i j, Dbl.fin 0 ≤ eucDist sum sqrt ((rows i).map .fin) ((rows j).map .fin) := by
    intro i j
    exact hsqrt _ (Dbl.SumOf.nonneg (hsum _) (Dbl.squares_nonneg _ _))
  refine ⟨fun i j => ⟨_, Dbl.ne_nan_of_nonneg (hpos i j)⟩, fun i j => ?_, hpos, fun i j => ?_,
    fun i j hij => ?_⟩
  · unfold defaultDist
    rw [dif_pos (Dbl.ne_nan_of_nonneg (hpos i j))]
  · simp only [Dist.mk.injEq]
    exact Dbl.eucDist_comm _ _ _ _
  · simp only [hij]
    unfold eucDist
    rw [Dbl.SumOf.zeros (hsum _) (Dbl.squares_self _), h0]

/-- **C72**: `build_edges()` of an object made from two arrays with finite coordinates and no
distance functions succeeds, whatever the order of summation and the square root, and joins all
correspondences whose default distances agree within the tolerance.  (A second array with a
single row is excluded unless the first has one row, too, see C42.) -/
theorem C72_default_build {argLR : Bool} {cap : Nat}
    {srt1 srt2 : List (PairDist Dist) → List (PairDist Dist)} {ε : Rat}
    {sum : List Dbl → Dbl} (hsum : ∀ l, SumOf l (sum l)) {sqrt : Dbl → Dbl}
    (hsqrt : ∀ x : Dbl, .fin 0 ≤ x → .fin 0 ≤ sqrt x) (h0 : sqrt (.fin 0) = .fin 0)
    (rows1 rows2 : Nat → List Rat) {sym1 sym2 : Bool} (hM : 1 ≤ M) (hN : 1 ≤ N)
    (hne : M = 1 ∨ 2 ≤ N) (hb : M * N < 2 ^ 27) (hs1 : Sorts srt1) (hs2 : Sorts srt2)
    (hε : Binary64 ε) :
    ∃ o S, (GenObj.init M N none none sym1 sym2 (dblWindow ε)).buildEdges argLR cap srt1 srt2
        (defaultDist sum sqrt fun i => (rows1 i).map .fin)
        (defaultDist sum sqrt fun i => (rows2 i).map .fin) = .ok o ∧
      Loaded o.pg (M * N) S ∧
      ∀ i1 i2 j1 j2, i1 < M → i2 < M → j1 < N → j2 < N → i1 ≠ i2 → j1 ≠ j2 →
        ∀ x y, eucDist sum sqrt ((rows1 i1).map .fin) ((rows1 i2).map .fin) = .fin x →
          eucDist sum sqrt ((rows2 j1).map .fin) ((rows2 j2).map .fin) = .fin y →
          Binary64 x → Within ε x y → S.Adj (pairId N i1 j1) (pairId N i2 j2) := by
  obtain ⟨d1, a1, _, a3, _⟩ := C72_default_distance hsum hsqrt h0 rows1
  obtain ⟨d2, b1, _, b3, _⟩ := C72_default_distance hsum hsqrt h0 rows2
  have val : ∀ {rows : Nat → List Rat} {d : Nat → Nat → Dist} {i j : Nat},
      defaultDist sum sqrt (fun i => (rows i).map .fin) i j = .ok (d i j) →
      eucDist sum sqrt ((rows i).map .fin) ((rows j).map .fin) = (d i j).val := by
    intro rows d i j h
    unfold defaultDist at h
    split at h
    · rw [← Except.ok.inj h]
    · cases h
  obtain ⟨o, S, c1, c2, c3⟩ := C55_given_partial (argLR := argLR) (cap := cap) (w := dblWindow ε)
    (f := none) (g := none) (e1 := d1) (e2 := d2) (sym1 := sym1) (sym2 := sym2) (Or.inr rfl) hM hN
    hne hb hs1 hs2 (dblWindow_lo_mono ε) a3 b3 (by simp) (by simp)
  have e1 : (defaultDist sum sqrt fun i => (rows1 i).map .fin) = fun i j => .ok (d1 i j) := by
    funext i j; exact a1 i j
  have e2 : (defaultDist sum sqrt fun i => (rows2 i).map .fin) = fun i j => .ok (d2 i j) := by
    funext i j; exact b1 i j
  refine ⟨o, S, by rw [e1, e2]; exact c1, c2, fun i1 i2 j1 j2 a b c d e f x y hx hy h64 h => ?_⟩
  have hw := dblWindow_in h64 hε h
  rw [← hx, ← hy, val (a1 i1 i2), val (b1 j1 j2)] at hw
  exact c3 i1 i2 j1 j2 a b c d e f hw.1 hw.2

/-! ## C73 -/

section
variable {D : Type} [LinearOrder D] [Inhabited D]

/-- **C73**: if the second set contains a copy of the first one, in any order and together with
any other elements, `build_edges()` and `get_correspondence()` match every element of the first
set.  `σ i` is the copy of element `i`; the copies have the distances of the originals.  The
only assumption about the window is that it has room around these distances. -/
theorem C73_copy_is_found {argLR : Bool} {cap : Nat}
    {srt1 srt2 : List (PairDist D) → List (PairDist D)} {w : Window D}
    {d1 d2 : Nat → Nat → D} {sym1 sym2 : Bool} (hM : 2 ≤ M) (hu : M ≤ 65535)
    (hb : M * N < 2 ^ 27) (hs1 : Sorts srt1)
    (hs2 : Sorts srt2) (hlo : Monotone w.lo) (hsym1 : sym1 = true → ∀ i j, d1 i j = d1 j i)
    (hsym2 : sym2 = true → ∀ i j, d2 i j = d2 j i) {σ : Nat → Nat} (hσ : Embeds M N σ)
    (hd : ∀ i j, i < M → j < M → i ≠ j → d2 (σ i) (σ j) = d1 i j)
    (hw : ∀ i j, i < M → j < M → i ≠ j → w.lo (d1 i j) < d1 i j ∧ d1 i j < w.hi (d1 i j)) :
    ∃ pg, buildMetric argLR cap PyGraph.new srt1 srt2 M N w d1 sym1 d2 sym2 = .ok pg ∧
      (BufferKept pg → ∀ srt : List VData → List VData, (∀ l, (srt l).Perm l) →
        ∃ pg' f s, pg.getCorrespondence srt N {} = .ok (pg', .ret (f, s)) ∧
          f.Perm (List.range M) ∧ s.length = M ∧ s.Nodup ∧ ∀ j ∈ s, j < N) := by
  have h01 : σ 0 ≠ σ 1 := fun h => absurd (hσ.inj 0 1 (by omega) (by omega) h) (by decide)
  have r0 := hσ.range 0 (by omega)
  have r1 := hσ.range 1 (by omega)
  obtain ⟨pg, S, e1, e2, e3⟩ := C29_compatible_linked (argLR := argLR) (cap := cap)
    (w := w) (d1 := d1) (d2 := d2) (sym1 := sym1) (sym2 := sym2) (M := M) (N := N) (by omega)
    (by omega) (Or.inr (by omega)) hb hs1 hs2 hlo hsym1 hsym2
  refine ⟨pg, e1, fun hk srt hsrt => ?_⟩
  have hw01 := hw 0 1 (by omega) (by omega) (by decide)
  have hU : Usable pg (M * N) S := by
    refine ⟨e2, hk, _, _, e3 0 1 (σ 0) (σ 1) (by omega) (by omega) r0 r1 (by decide) h01 ?_ ?_⟩
    · rw [hd 0 1 (by omega) (by omega) (by decide)]; exact hw01.1
    · rw [hd 0 1 (by omega) (by omega) (by decide)]; exact hw01.2
  rw [buildMetric_eq] at e1
  obtain ⟨pg', f, s, q1, q2, q3, q4⟩ := C52_largest hb hs1 hs2 hlo hsym1 hsym2 e1 hU (Or.inl hu) hsrt
  -- the copy itself is a matching
  have hlen := q4 ((List.range M).map fun i => (i, σ i)) ⟨?_, ?_, ?_⟩ ?_
  · rw [List.length_map, List.length_range] at hlen
    have hf : (f.zip s).map Prod.fst = f := List.map_fst_zip (by omega)
    have hs : (f.zip s).map Prod.snd = s := List.map_snd_zip (by omega)
    have n1 := q3.first
    have n2 := q3.second
    rw [hf] at n1
    rw [hs] at n2
    have m1 : ∀ i ∈ f, i < M := by
      intro i hi
      rw [← hf] at hi
      obtain ⟨p, hp, rfl⟩ := List.mem_map.1 hi
      exact (q3.range p hp).1
    have m2 : ∀ j ∈ s, j < N := by
      intro j hj
      rw [← hs] at hj
      obtain ⟨p, hp, rfl⟩ := List.mem_map.1 hj
      exact (q3.range p hp).2
    have sub : f.Subperm (List.range M) :=
      n1.subperm fun i hi => List.mem_range.2 (m1 i hi)
    have hperm : f.Perm (List.range M) := sub.perm_of_length_le (by rw [List.length_range]; exact hlen)
    have hfl := hperm.length_eq
    rw [List.length_range] at hfl
    exact ⟨pg', f, s, q1, hperm, by omega, n2, m2⟩
  · intro p hp
    obtain ⟨i, hi, rfl⟩ := List.mem_map.1 hp
    exact ⟨List.mem_range.1 hi, hσ.range i (List.mem_range.1 hi)⟩
  · rw [List.map_map]
    have : (Prod.fst ∘ fun i => (i, σ i)) = id := rfl
    rw [this, List.map_id]
    exact List.nodup_range
  · rw [List.map_map]
    refine List.Nodup.map_on ?_ List.nodup_range
    intro i hi j hj h
    exact hσ.inj i j (List.mem_range.1 hi) (List.mem_range.1 hj) h
  · intro p hp q hq hne
    obtain ⟨i, hi, rfl⟩ := List.mem_map.1 hp
    obtain ⟨j, hj, rfl⟩ := List.mem_map.1 hq
    have hij : i ≠ j := by rintro rfl; exact hne rfl
    have hi := List.mem_range.1 hi
    have hj := List.mem_range.1 hj
    have hw' := hw i j hi hj hij
    simp only [hd i j hi hj hij]
    exact ⟨hw'.1, hw'.2, trivial⟩

end

/-- **C73** for arrays and the default distance, in `double` arithmetic: if rows of the second
array have the computed distances of the rows of the first one, and the tolerance is not too small
for rounding, then every row of the first array is matched. -/
theorem C73_same_distances {argLR : Bool} {cap : Nat}
    {srt1 srt2 : List (PairDist Dist) → List (PairDist Dist)} {ε : Rat}
    {sum : List Dbl → Dbl} (hsum : ∀ l, SumOf l (sum l)) {sqrt : Dbl → Dbl}
    (hsqrt : ∀ x : Dbl, .fin 0 ≤ x → .fin 0 ≤ sqrt x) (h0 : sqrt (.fin 0) = .fin 0)
    (rows1 rows2 : Nat → List Rat) {sym1 sym2 : Bool} (hM : 2 ≤ M) (hu : M ≤ 65535)
    (hb : M * N < 2 ^ 27) (hs1 : Sorts srt1) (hs2 : Sorts srt2) (hε : Binary64 ε)
    {σ : Nat → Nat} (hσ : Embeds M N σ) (hcopy : ∀ i j, i < M → j < M → i ≠ j →
      eucDist sum sqrt ((rows2 (σ i)).map .fin) ((rows2 (σ j)).map .fin) =
        eucDist sum sqrt ((rows1 i).map .fin) ((rows1 j).map .fin))
    (hw : ∀ i j, i < M → j < M → i ≠ j → ∃ x, Binary64 x ∧ Within ε x x ∧
      eucDist sum sqrt ((rows1 i).map .fin) ((rows1 j).map .fin) = .fin x) :
    ∃ o, (GenObj.init M N none none sym1 sym2 (dblWindow ε)).buildEdges argLR cap srt1 srt2
        (defaultDist sum sqrt fun i => (rows1 i).map .fin)
        (defaultDist sum sqrt fun i => (rows2 i).map .fin) = .ok o ∧
      (BufferKept o.pg → ∀ srt : List VData → List VData, (∀ l, (srt l).Perm l) →
        ∃ pg' f s, o.pg.getCorrespondence srt N {} = .ok (pg', .ret (f, s)) ∧
          f.Perm (List.range M) ∧ s.length = M ∧ s.Nodup ∧ ∀ j ∈ s, j < N) := by
  obtain ⟨d1, a1, _, a3, _⟩ := C72_default_distance hsum hsqrt h0 rows1
  obtain ⟨d2, b1, _, b3, _⟩ := C72_default_distance hsum hsqrt h0 rows2
  have e1 : (defaultDist sum sqrt fun i => (rows1 i).map .fin) = fun i j => .ok (d1 i j) := by
    funext i j; exact a1 i j
  have e2 : (defaultDist sum sqrt fun i => (rows2 i).map .fin) = fun i j => .ok (d2 i j) := by
    funext i j; exact b1 i j
  have hd : ∀ i j, i < M → j < M → i ≠ j → d2 (σ i) (σ j) = d1 i j := by
    intro i j hi hj hij
    have h1 := a1 i j
    have h2 := b1 (σ i) (σ j)
    unfold defaultDist at h1 h2
    simp only [hcopy i j hi hj hij] at h2
    exact Except.ok.inj (h2.symm.trans h1)
  obtain ⟨pg, c1, c2⟩ := C73_copy_is_found (argLR := argLR) (cap := cap) (w := dblWindow ε)
    (sym1 := true) (sym2 := true) hM hu hb hs1 hs2 (dblWindow_lo_mono ε) (fun _ => a3)
    (fun _ => b3) hσ hd (by
      intro i j hi hj hij
      obtain ⟨x, h64, hin, hx⟩ := hw i j hi hj hij
      have h1 := a1 i j
      unfold defaultDist at h1
      split at h1
      · have h1 := Except.ok.inj h1
        have hv : (d1 i j).val = .fin x := by rw [← h1]; exact hx
        have hw := dblWindow_in h64 hε hin
        rw [← hv] at hw
        exact hw
      · cases h1)
  have pureM : buildMetricM argLR cap PyGraph.new srt1 srt2 M N (dblWindow ε)
      (fun i j => .ok (d1 i j)) true (fun i j => .ok (d2 i j)) true =
      buildMetric argLR cap PyGraph.new srt1 srt2 M N (dblWindow ε) d1 true d2 true := by
    rcases buildMetricM_or (E := fun _ => False) (d1 := fun i j => .ok (d1 i j))
      (d2 := fun i j => .ok (d2 i j)) (d1' := d1) (d2' := d2) (fun i j => OrStops.rfl)
      (fun i j => OrStops.rfl) argLR cap PyGraph.new srt1 srt2 M N (dblWindow ε) true true with
      ⟨_, h, _⟩ | h
    · exact h.elim
    · exact h
  refine ⟨{ GenObj.init M N none none sym1 sym2 (dblWindow ε) with pg := pg }, ?_, c2⟩
  rw [e1, e2]
  unfold GenObj.init GenObj.buildEdges
  simp only
  rw [pureM, c1]
  rfl

/-- **C73** for arrays and the default distance, in `double` arithmetic: if the rows of the first
array, with finite coordinates, all appear in the second one, in any order, and the tolerance is
not too small for rounding (`Within ε x x` for the distances `x` of the first array, for example
`ε` at least `2 ^ -49` times every distance), then `A2AGraph(S1, S2, epsilon).build_edges()` and
`get_correspondence()` match every row of the first array. -/
theorem C73_default_copy {argLR : Bool} {cap : Nat}
    {srt1 srt2 : List (PairDist Dist) → List (PairDist Dist)} {ε : Rat}
    {sum : List Dbl → Dbl} (hsum : ∀ l, SumOf l (sum l)) {sqrt : Dbl → Dbl}
    (hsqrt : ∀ x : Dbl, .fin 0 ≤ x → .fin 0 ≤ sqrt x) (h0 : sqrt (.fin 0) = .fin 0)
    (rows1 rows2 : Nat → List Rat) {sym1 sym2 : Bool} (hM : 2 ≤ M) (hu : M ≤ 65535)
    (hb : M * N < 2 ^ 27) (hs1 : Sorts srt1) (hs2 : Sorts srt2) (hε : Binary64 ε)
    {σ : Nat → Nat} (hσ : Embeds M N σ) (hcopy : ∀ i, i < M → rows2 (σ i) = rows1 i)
    (hw : ∀ i j, i < M → j < M → i ≠ j → ∃ x, Binary64 x ∧ Within ε x x ∧
      eucDist sum sqrt ((rows1 i).map .fin) ((rows1 j).map .fin) = .fin x) :
    ∃ o, (GenObj.init M N none none sym1 sym2 (dblWindow ε)).buildEdges argLR cap srt1 srt2
        (defaultDist sum sqrt fun i => (rows1 i).map .fin)
        (defaultDist sum sqrt fun i => (rows2 i).map .fin) = .ok o ∧
      (BufferKept o.pg → ∀ srt : List VData → List VData, (∀ l, (srt l).Perm l) →
        ∃ pg' f s, o.pg.getCorrespondence srt N {} = .ok (pg', .ret (f, s)) ∧
          f.Perm (List.range M) ∧ s.length = M ∧ s.Nodup ∧ ∀ j ∈ s, j < N) :=
  C73_same_distances hsum hsqrt h0 rows1 rows2 hM hu hb hs1 hs2 hε hσ
    (fun i j hi hj _ => by rw [hcopy i hi, hcopy j hj]) hw

namespace Sample

/-- The numbers are added up from the right. -/
def addUp : List Dbl → Dbl
  | [] => .fin 0
  | [x] => x
  | x :: y :: l => x + addUp (y :: l)

theorem addUp_sum : ∀ l, SumOf l (addUp l)
  | [] => .zero
  | [x] => .one x
  | x :: y :: l => .add (.one x) (addUp_sum (y :: l)) (List.Perm.refl _)

/-- The root rounded down, for numbers below 10000. -/
def rootNat (q : Rat) : Nat :=
  ((List.range 100).find? fun k : Nat => decide (q < ((k + 1) * (k + 1) : Nat))).getD 100

/-- A square root that is exact for the squares of the integers up to 99. -/
def rootOf : Dbl → Dbl
  | .fin q => .fin (rootNat q : Nat)
  | .inf neg => if neg then .nan else .inf false
  | .nan => .nan

theorem rootOf_nonneg : ∀ x : Dbl, .fin 0 ≤ x → .fin 0 ≤ rootOf x := by
  intro x hx
  cases x with
  | fin q => rw [rootOf, Dbl.fin_le_fin]; positivity
  | inf neg =>
    cases neg with
    | true => exact absurd hx (by decide)
    | false => exact hx
  | nan => exact absurd hx (by decide)

theorem rootOf_zero : rootOf (.fin 0) = .fin 0 := by decide +kernel

/-- The corners of a right triangle with sides 3, 4 and 5. -/
def corners (i : Nat) : List Rat := ([[0, 0], [3, 0], [0, 4]] : List (List Rat))[i]?.getD [0, 0]

/-- The corners in another order, and another point. -/
def shuffled (i : Nat) : List Rat :=
  ([[0, 4], [7, 7], [0, 0], [3, 0]] : List (List Rat))[i]?.getD [0, 0]

/-- Where the corners are in `shuffled`. -/
def place (i : Nat) : Nat := [2, 3, 0][i]?.getD 0

theorem place_embeds : Embeds 3 4 place := by
  refine ⟨by decide, fun i j hi hj => ?_⟩
  have hi' : i = 0 ∨ i = 1 ∨ i = 2 := by omega
  have hj' : j = 0 ∨ j = 1 ∨ j = 2 := by omega
  rcases hi' with rfl | rfl | rfl <;> rcases hj' with rfl | rfl | rfl <;> decide

end Sample

/-- `C72_default_distance` on the triangle: the distances are 3, 4 and 5; and a distance that
overflows is infinite. -/
example : (∀ l, SumOf l (addUp l)) ∧ (∀ x : Dbl, .fin 0 ≤ x → .fin 0 ≤ rootOf x) ∧
    rootOf (.fin 0) = .fin 0 ∧
    eucDist addUp rootOf ((corners 0).map .fin) ((corners 1).map .fin) = .fin 3 ∧
    eucDist addUp rootOf ((corners 2).map .fin) ((corners 0).map .fin) = .fin 4 ∧
    eucDist addUp rootOf ((corners 1).map .fin) ((corners 2).map .fin) = .fin 5 ∧
    eucDist addUp rootOf [.fin (2 ^ 1000)] [.fin 0] = .inf false :=
  ⟨addUp_sum, rootOf_nonneg, rootOf_zero, by decide +kernel, by decide +kernel, by decide +kernel,
    by decide +kernel⟩

/-- `C73_default_copy` on the triangle, with tolerance `1 / 4`: the hypotheses are met. -/
example : Binary64 (1 / 4) ∧ Embeds 3 4 place ∧
    (∀ i, i < 3 → shuffled (place i) = corners i) ∧
    ∀ i j, i < 3 → j < 3 → i ≠ j → ∃ x, Binary64 x ∧ Within (1 / 4) x x ∧
      eucDist addUp rootOf ((corners i).map .fin) ((corners j).map .fin) = .fin x := by
  have b : ∀ x : Rat, Dbl.round x = .fin x → Binary64 x := fun x h => (Dbl.round_spec h).1
  have w : ∀ x : Rat, 0 ≤ x → x ≤ 5 → Within (1 / 4) x x := by
    intro x h1 h2
    refine Or.inl ⟨?_, ?_⟩
    · rw [sub_self, abs_zero, abs_of_nonneg h1]; norm_num; linarith
    · rw [abs_of_nonneg h1]
      refine le_trans (b := (2 : Rat) ^ 3) (by norm_num; linarith)
        (pow_le_pow_right₀ (by norm_num) (by decide))
  have key : ∀ {p q : List Rat} (x : Rat), 0 ≤ x → x ≤ 5 → Dbl.round x = .fin x →
      eucDist addUp rootOf (p.map .fin) (q.map .fin) = .fin x →
      ∃ x, Binary64 x ∧ Within (1 / 4) x x ∧
        eucDist addUp rootOf (p.map .fin) (q.map .fin) = .fin x :=
    fun x h1 h2 h3 h4 => ⟨x, b x h3, w x h1 h2, h4⟩
  refine ⟨b _ (by decide +kernel), place_embeds, by decide +kernel, ?_⟩
  intro i j hi hj hij
  have hi' : i = 0 ∨ i = 1 ∨ i = 2 := by omega
  have hj' : j = 0 ∨ j = 1 ∨ j = 2 := by omega
  rcases hi' with rfl | rfl | rfl <;> rcases hj' with rfl | rfl | rfl
  · exact absurd rfl hij
  · exact key 3 (by norm_num) (by norm_num) (by decide +kernel) (by decide +kernel)
  · exact key 4 (by norm_num) (by norm_num) (by decide +kernel) (by decide +kernel)
  · exact key 3 (by norm_num) (by norm_num) (by decide +kernel) (by decide +kernel)
  · exact absurd rfl hij
  · exact key 5 (by norm_num) (by norm_num) (by decide +kernel) (by decide +kernel)
  · exact key 4 (by norm_num) (by norm_num) (by decide +kernel) (by decide +kernel)
  · exact key 5 (by norm_num) (by norm_num) (by decide +kernel) (by decide +kernel)
  · exact absurd rfl hij

/-- The call itself: the three corners are found, at the places 2, 3 and 0. -/
example : ((GenObj.init 3 4 none none true true (dblWindow (1 / 4))).buildEdges true 100 byDbl byDbl
      (defaultDist addUp rootOf fun i => (corners i).map .fin)
      (defaultDist addUp rootOf fun i => (shuffled i).map .fin) >>= fun o =>
      o.pg.getCorrespondence byDegree 4 {} >>= fun r => .ok r.2) =
    .ok (.ret ([0, 1, 2], [2, 3, 0])) := by
  decide +kernel

/-- **C73** for graphs: if the first graph contains the second one as a (not necessarily induced)
subgraph, then `IsoGraph(G1, G2)` matches every vertex of the second one.  `σ v` is the vertex of
the first graph at the place of `v`, both counted from 0. -/
theorem C73_subgraph_is_found {argLR : Bool} {cap : Nat} {pg1 pg2 : PyGraph} {n1 n2 : Nat}
    {S1 S2 : SimpleGraph Nat} (h1 : Reached pg1 n1 S1) (h2 : Reached pg2 n2 S2) (hn : 2 ≤ n2)
    (hu : n2 ≤ 65535) (hb : n1 * n2 < 2 ^ 27) {σ : Nat → Nat} (hσ : Embeds n2 n1 σ)
    (hadj : ∀ i j, i < n2 → j < n2 → S2.Adj (i + 1) (j + 1) → S1.Adj (σ i + 1) (σ j + 1)) :
    ∃ pg, buildIso argLR cap PyGraph.new pg1 pg2 = .ok pg ∧
      (BufferKept pg → ∀ srt : List VData → List VData, (∀ l, (srt l).Perm l) →
        ∃ pg' f s, pg.getCorrespondence srt n2 {} = .ok (pg', .ret (f, s)) ∧
          s.Perm (List.range n2) ∧ IsoMatching n1 n2 S1 S2 (f.zip s)) := by
  have r0 := hσ.range 0 (by omega)
  obtain ⟨pg, S, e1, e2, _, e4⟩ := C32_cliques_are_matchings (argLR := argLR) (cap := cap) h1 h2
    (by omega) (by omega) hb
  -- the place of the second graph in the first
  have hm : IsoMatching n1 n2 S1 S2 ((List.range n2).map fun j => (σ j, j)) := by
    refine ⟨⟨?_, ?_, ?_⟩, ?_⟩
    · intro p hp
      obtain ⟨j, hj, rfl⟩ := List.mem_map.1 hp
      exact ⟨hσ.range j (List.mem_range.1 hj), List.mem_range.1 hj⟩
    · rw [List.map_map]
      refine List.Nodup.map_on ?_ List.nodup_range
      intro i hi j hj h
      exact hσ.inj i j (List.mem_range.1 hi) (List.mem_range.1 hj) h
    · rw [List.map_map]
      have : (Prod.snd ∘ fun j => (σ j, j)) = id := rfl
      rw [this, List.map_id]
      exact List.nodup_range
    · intro p hp q hq
      obtain ⟨i, hi, rfl⟩ := List.mem_map.1 hp
      obtain ⟨j, hj, rfl⟩ := List.mem_map.1 hq
      exact hadj i j (List.mem_range.1 hi) (List.mem_range.1 hj)
  refine ⟨pg, e1, fun hk srt hsrt => ?_⟩
  have hU : Usable pg (n1 * n2) S := by
    obtain ⟨l, f1, _, f3⟩ := e4 _ hm
    refine ⟨e2, hk, pairId n2 (σ 0) 0, pairId n2 (σ 1) 1, f1.clique ?_ ?_ ?_⟩
    · exact (f3 _).2 ⟨(σ 0, 0), List.mem_map.2 ⟨0, List.mem_range.2 (by omega), rfl⟩, rfl⟩
    · exact (f3 _).2 ⟨(σ 1, 1), List.mem_map.2 ⟨1, List.mem_range.2 (by omega), rfl⟩, rfl⟩
    · intro h
      exact absurd (pairId_inj (by omega) (by omega) h).2 (by decide)
  obtain ⟨pg', f, s, q1, q2, q3, q4⟩ := C33_largest h1 h2 hb e1 hU (Or.inr hu) hsrt
  have hlen := q4 _ hm
  rw [List.length_map, List.length_range] at hlen
  have hs : (f.zip s).map Prod.snd = s := List.map_snd_zip (by omega)
  have n2' := q3.second
  rw [hs] at n2'
  have hsl : (f.zip s).length = s.length := by rw [List.length_zip]; omega
  refine ⟨pg', f, s, q1, ?_, q3⟩
  refine (n2'.subperm fun j hj => ?_).perm_of_length_le (by rw [List.length_range]; omega)
  rw [← hs] at hj
  obtain ⟨p, hp, rfl⟩ := List.mem_map.1 hj
  exact List.mem_range.2 (q3.range p hp).2

/-- `C73_subgraph_is_found` on the four-cycle and the path with three vertices. -/
example : Reached cycle 4 (ofPairs cycleRows) ∧ Reached path 3 (ofPairs pathRows) ∧
    Embeds 3 4 id ∧ (∀ i j, i < 3 → j < 3 → (ofPairs pathRows).Adj (i + 1) (j + 1) →
      (ofPairs cycleRows).Adj (id i + 1) (id j + 1)) ∧
    BufferKept iso := by
  refine ⟨cycle_reached, path_reached, ⟨fun i h => by simp only [id]; omega, fun _ _ _ _ h => h⟩,
    ?_, ?_⟩
  · intro i j _ _ h
    obtain ⟨h1, h2⟩ := h
    refine ⟨h1, ?_⟩
    simp only [pathRows, List.mem_cons, List.not_mem_nil, or_false] at h2
    rcases h2 with (h2 | h2) | (h2 | h2) <;>
      · obtain ⟨h3, h4⟩ := Prod.mk.inj h2
        simp only [id, h3, h4]
        decide
  · obtain ⟨S, h⟩ := iso_usable
    exact h.kept

end CM
