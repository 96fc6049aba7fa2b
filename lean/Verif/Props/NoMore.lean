import Verif.Props.Metric
import Verif.Props.Mirror
import Verif.Props.Subset

/-!
# C120: a correspondence that is returned cannot be extended

`f` and `s` are the two lists returned; `p` in `f.zip s` is one of the matches.
-/

namespace CM

open Spec Graph Sample

variable {pg : PyGraph} {M N : Nat} {S : SimpleGraph Nat}

/-- What a default search returns cannot be extended by a match that is joined to all matches. -/
theorem no_more {R : Nat → Nat → Nat → Nat → Prop} (hA : Apart M N S)
    (h : Usable pg (M * N) S) (hu : M ≤ 65535 ∨ N ≤ 65535)
    (hR : ∀ i1 i2 j1 j2, i1 < M → i2 < M → j1 < N → j2 < N → i1 ≠ i2 → j1 ≠ j2 →
      R i1 i2 j1 j2 → S.Adj (pairId N i1 j1) (pairId N i2 j2))
    {srt : List VData → List VData} (hsrt : ∀ l, (srt l).Perm l) :
    ∃ pg' f s, pg.getCorrespondence srt N {} = .ok (pg', .ret (f, s)) ∧ f.length = s.length ∧
      ∀ i j, i < M → j < N → i ∉ f → j ∉ s → ∃ p ∈ f.zip s, ¬ R p.1 i p.2 j := by
  obtain ⟨q, f, s, h1, h2, h3, ⟨l, h4, h5⟩, h6⟩ := largest_of (R := fun i1 i2 j1 j2 =>
    S.Adj (pairId N i1 j1) (pairId N i2 j2)) hA h hu (fun _ _ _ _ _ _ _ _ _ _ h => h) hsrt
  refine ⟨q, f, s, h1, h2, fun i j hi hj hif hjs => ?_⟩
  by_contra hno
  have hno : ∀ p ∈ f.zip s, R p.1 i p.2 j := fun p hp => by
    by_contra hn
    exact hno ⟨p, hp, hn⟩
  have hf : (f.zip s).map Prod.fst = f := List.map_fst_zip (le_of_eq h2)
  have hs : (f.zip s).map Prod.snd = s := List.map_snd_zip (le_of_eq h2.symm)
  have join : ∀ p ∈ f.zip s, S.Adj (pairId N p.1 p.2) (pairId N i j) := fun p hp => by
    have hr := h3.range p hp
    refine hR _ _ _ _ hr.1 hi hr.2 hj ?_ ?_ (hno p hp)
    · rintro rfl
      exact hif (by rw [← hf]; exact List.mem_map.2 ⟨p, hp, rfl⟩)
    · rintro rfl
      exact hjs (by rw [← hs]; exact List.mem_map.2 ⟨p, hp, rfl⟩)
  have := h6 ((i, j) :: f.zip s) ⟨?_, ?_, ?_⟩ ?_
  · rw [List.length_cons, List.length_zip, ← h2, Nat.min_self] at this
    omega
  · intro p hp
    rcases List.mem_cons.1 hp with rfl | hp
    · exact ⟨hi, hj⟩
    · exact h3.range p hp
  · rw [List.map_cons, hf]
    exact List.nodup_cons.2 ⟨hif, by rw [← hf]; exact h3.first⟩
  · rw [List.map_cons, hs]
    exact List.nodup_cons.2 ⟨hjs, by rw [← hs]; exact h3.second⟩
  · intro p hp p' hp' hne
    rcases List.mem_cons.1 hp with rfl | hp
    · rcases List.mem_cons.1 hp' with rfl | hp'
      · exact absurd rfl hne
      · exact (join p' hp').symm
    · rcases List.mem_cons.1 hp' with rfl | hp'
      · exact join p hp
      · have r := h3.range p hp
        have r' := h3.range p' hp'
        refine h4.clique (by rw [← h5]; exact List.mem_map.2 ⟨p, hp, rfl⟩)
          (by rw [← h5]; exact List.mem_map.2 ⟨p', hp', rfl⟩) ?_
        intro he
        obtain ⟨a, b⟩ := pairId_inj r.2 r'.2 he
        exact hne (Prod.ext a b)

/-- **C120** for `build_edges` and `build_edges_with_condition`, distances of any kind that can be
ordered: whichever unmatched elements `i` and `j` are taken, there is a match from which their distances
do not agree, or with which the condition function refuses them. -/
theorem C120_window {D : Type} [LinearOrder D] [Inhabited D] {argLR : Bool} {cap : Nat}
    {srt1 srt2 : List (PairDist D) → List (PairDist D)} {w : Window D}
    {c : Nat → Nat → Nat → Nat → Bool}
    {d1 d2 : Nat → Nat → D} {sym1 sym2 : Bool} (hb : M * N < 2 ^ 27) (hs1 : Sorts srt1)
    (hs2 : Sorts srt2) (hlo : Monotone w.lo) (hsym1 : sym1 = true → ∀ i j, d1 i j = d1 j i)
    (hsym2 : sym2 = true → ∀ i j, d2 i j = d2 j i)
    (he : buildBoth argLR cap PyGraph.new srt1 srt2 M N w c d1 sym1 d2 sym2 = .ok pg)
    (h : Usable pg (M * N) S) (hu : M ≤ 65535 ∨ N ≤ 65535)
    {srt : List VData → List VData} (hsrt : ∀ l, (srt l).Perm l) :
    ∃ pg' f s, pg.getCorrespondence srt N {} = .ok (pg', .ret (f, s)) ∧ f.length = s.length ∧
      ∀ i j, i < M → j < N → i ∉ f → j ∉ s → ∃ p ∈ f.zip s,
        ¬ (w.lo (d1 p.1 i) < d2 p.2 j ∧ d2 p.2 j < w.hi (d1 p.1 i) ∧
          c p.1 i p.2 j = true ∧ c i p.1 j p.2 = true) := by
  obtain ⟨_, S', e1, e2⟩ := buildBoth_ok hb hs1 hs2 hlo he
  obtain ⟨_, rfl⟩ := h.loaded.unique e1
  refine no_more (R := fun i1 i2 j1 j2 => w.lo (d1 i1 i2) < d2 j1 j2 ∧ d2 j1 j2 < w.hi (d1 i1 i2) ∧
    c i1 i2 j1 j2 = true ∧ c i2 i1 j2 j1 = true) (fun u v ha => ?_) h hu
    (fun i1 i2 j1 j2 a b c' d e f hr =>
      e2.complete hsym1 hsym2 i1 i2 j1 j2 a b c' d e f hr.1 hr.2.1 hr.2.2.1 hr.2.2.2) hsrt
  obtain ⟨i1, i2, j1, j2, a, b, c, d, e, f, g, h, _⟩ := e2.apart u v ha
  exact ⟨i1, i2, j1, j2, a, b, c, d, e, f, g, h⟩

/-- **C120** for `build_edges` with distances that are integers and a tolerance `ε`: whichever unmatched
elements `i` and `j` are taken, there is a match from which their distances differ by `ε` or more. -/
theorem C120_distance {argLR : Bool} {cap : Nat}
    {srt1 srt2 : List (PairDist Int) → List (PairDist Int)} {ε : Int}
    {d1 d2 : Nat → Nat → Int} {sym1 sym2 : Bool} (hb : M * N < 2 ^ 27) (hs1 : Sorts srt1)
    (hs2 : Sorts srt2) (hsym1 : sym1 = true → ∀ i j, d1 i j = d1 j i)
    (hsym2 : sym2 = true → ∀ i j, d2 i j = d2 j i)
    (he : buildMetric argLR cap PyGraph.new srt1 srt2 M N (intWindow ε) d1 sym1 d2 sym2 = .ok pg)
    (h : Usable pg (M * N) S) (hu : M ≤ 65535 ∨ N ≤ 65535)
    {srt : List VData → List VData} (hsrt : ∀ l, (srt l).Perm l) :
    ∃ pg' f s, pg.getCorrespondence srt N {} = .ok (pg', .ret (f, s)) ∧ f.length = s.length ∧
      ∀ i j, i < M → j < N → i ∉ f → j ∉ s → ∃ p ∈ f.zip s, ε ≤ |d1 p.1 i - d2 p.2 j| := by
  rw [buildMetric_eq] at he
  obtain ⟨pg', f, s, r1, r2, r3⟩ := C120_window hb hs1 hs2
    (by intro a b h; simp only [intWindow]; omega) hsym1 hsym2 he h hu hsrt
  refine ⟨pg', f, s, r1, r2, fun i j hi hj hf hs => ?_⟩
  obtain ⟨p, hp, hn⟩ := r3 i j hi hj hf hs
  refine ⟨p, hp, ?_⟩
  by_contra hlt
  have := abs_lt.1 (not_le.1 hlt)
  refine hn ?_
  simp only [intWindow]
  exact ⟨by omega, by omega, trivial, trivial⟩

/-- **C120** for `double`s, as far as it is true.  The full property: whichever unmatched elements `i`
and `j` are taken, there is a match from which their distances differ by the tolerance or more.  Proved:
there is a match from which their distances do not agree within the tolerance so that rounding does not
matter.  Missing, because false (`C120_refuted_rounding`): differences that are lost in rounding. -/
theorem C120_double_partial {argLR : Bool} {cap : Nat}
    {srt1 srt2 : List (PairDist Dist) → List (PairDist Dist)} {ε : Rat}
    {d1 d2 : Nat → Nat → Dist} {sym1 sym2 : Bool} (hb : M * N < 2 ^ 27) (hs1 : Sorts srt1)
    (hs2 : Sorts srt2) (hsym1 : sym1 = true → ∀ i j, d1 i j = d1 j i)
    (hsym2 : sym2 = true → ∀ i j, d2 i j = d2 j i) (hε : Binary64 ε)
    (he : buildMetric argLR cap PyGraph.new srt1 srt2 M N (dblWindow ε) d1 sym1 d2 sym2 = .ok pg)
    (h : Usable pg (M * N) S) (hu : M ≤ 65535 ∨ N ≤ 65535)
    {srt : List VData → List VData} (hsrt : ∀ l, (srt l).Perm l) :
    ∃ pg' f s, pg.getCorrespondence srt N {} = .ok (pg', .ret (f, s)) ∧ f.length = s.length ∧
      ∀ i j, i < M → j < N → i ∉ f → j ∉ s → ∃ p ∈ f.zip s, ∀ x y, (d1 p.1 i).val = .fin x →
        (d2 p.2 j).val = .fin y → Binary64 x → ¬ Within ε x y := by
  rw [buildMetric_eq] at he
  obtain ⟨pg', f, s, r1, r2, r3⟩ := C120_window hb hs1 hs2 (dblWindow_lo_mono ε) hsym1 hsym2
    he h hu hsrt
  refine ⟨pg', f, s, r1, r2, fun i j hi hj hf hs => ?_⟩
  obtain ⟨p, hp, hn⟩ := r3 i j hi hj hf hs
  refine ⟨p, hp, fun x y hx hy h64 hw => hn ?_⟩
  have hw := dblWindow_in h64 hε hw
  rw [← hx, ← hy] at hw
  exact ⟨hw.1, hw.2, rfl, rfl⟩

/-- **C120** for `build_edges_condition_only`: whichever unmatched elements `i` and `j` are taken, there
is a match with which the condition function refuses them.  It is asked about the elements of each set
in increasing order. -/
theorem C120_condition {argLR : Bool} {cap : Nat} {c : Nat → Nat → Nat → Nat → Bool}
    (hb : M * N < 2 ^ 27) (he : buildCondition argLR cap PyGraph.new M N c = .ok pg)
    (h : Usable pg (M * N) S) (hu : M ≤ 65535 ∨ N ≤ 65535)
    {srt : List VData → List VData} (hsrt : ∀ l, (srt l).Perm l) :
    ∃ pg' f s, pg.getCorrespondence srt N {} = .ok (pg', .ret (f, s)) ∧ f.length = s.length ∧
      ∀ i j, i < M → j < N → i ∉ f → j ∉ s → ∃ p ∈ f.zip s,
        c (min p.1 i) (max p.1 i) (min p.2 j) (max p.2 j) = false := by
  obtain ⟨_, e1, e2⟩ := buildCondition_spec hb c argLR cap
  rw [he] at e1
  cases e1
  obtain ⟨_, rfl⟩ := h.loaded.unique e2
  obtain ⟨pg', f, s, r1, r2, r3⟩ := no_more (R := fun i1 i2 j1 j2 =>
    c (min i1 i2) (max i1 i2) (min j1 j2) (max j1 j2) = true) corrGraph_apart h hu
    (fun i1 i2 j1 j2 a b c' d e f hr => by
      rw [corrGraph_adj a b c' d]
      exact ⟨e, f, Or.inl hr⟩) hsrt
  refine ⟨pg', f, s, r1, r2, fun i j hi hj hf hs => ?_⟩
  obtain ⟨p, hp, hn⟩ := r3 i j hi hj hf hs
  exact ⟨p, hp, Bool.eq_false_iff.2 hn⟩

/-- **C120** for `IsoGraph`: no vertex of the first graph and vertex of the second can be added to the
subgraph isomorphism that is returned. -/
theorem C120_iso {argLR : Bool} {cap : Nat} {pg1 pg2 : PyGraph} {n1 n2 : Nat}
    {S1 S2 S : SimpleGraph Nat} (h1 : Reached pg1 n1 S1) (h2 : Reached pg2 n2 S2)
    (hb : n1 * n2 < 2 ^ 27) (he : buildIso argLR cap PyGraph.new pg1 pg2 = .ok pg)
    (h : Usable pg (n1 * n2) S) (hu : n1 ≤ 65535 ∨ n2 ≤ 65535)
    {srt : List VData → List VData} (hsrt : ∀ l, (srt l).Perm l) :
    ∃ pg' f s, pg.getCorrespondence srt n2 {} = .ok (pg', .ret (f, s)) ∧
      IsoMatching n1 n2 S1 S2 (f.zip s) ∧
      ∀ i j, ¬ IsoMatching n1 n2 S1 S2 ((i, j) :: f.zip s) := by
  obtain ⟨pg', f, s, r1, _, r2, r3⟩ := C33_largest h1 h2 hb he h hu hsrt
  refine ⟨pg', f, s, r1, r2, fun i j hm => ?_⟩
  have := r3 _ hm
  rw [List.length_cons] at this
  omega

/-- **C120** is false for `double`s if the tolerance is lost in rounding: three points at distance
`2 ^ 60` of each other, matched with themselves with tolerance 1.  Elements 2 and 1 could be added. -/
theorem C120_refuted_rounding :
    (buildMetric true 100 PyGraph.new byDbl byDbl 3 3 (dblWindow 1)
      (fun _ _ => dd (2 ^ 60)) true (fun _ _ => dd (2 ^ 60)) true >>= fun pg =>
        pg.getCorrespondence byDegree 3 {} >>= fun r => .ok r.2) =
      .ok (.ret ([0, 1], [0, 2])) ∧
    2 ∉ [0, 1] ∧ 1 ∉ [0, 2] ∧ |(2 : Rat) ^ 60 - 2 ^ 60| < 1 := by
  refine ⟨by decide +kernel, by decide, by decide, by norm_num⟩

/-! ## Examples -/

/-- The hypotheses of `C120_distance` are met: three of four points are matched. -/
example : ∃ pg' f s, (tol 1).getCorrespondence byDegree 4 {} = .ok (pg', .ret (f, s)) ∧
    f.length = s.length ∧ ∀ i j, i < 4 → j < 4 → i ∉ f → j ∉ s →
      ∃ p ∈ f.zip s, 1 ≤ |onLine [0, 2, 5, 9] p.1 i - onLine [0, 2, 6, 20] p.2 j| := by
  obtain ⟨S, h⟩ := tol_usable (ε := 1) (by decide) (by decide +kernel) (by decide +kernel)
  exact C120_distance (argLR := true) (cap := 400) (srt1 := byDist) (srt2 := byDist) (sym1 := true)
    (sym2 := true) (by decide) byDist_sorts byDist_sorts (fun _ => onLine_symm [0, 2, 5, 9])
    (fun _ => onLine_symm [0, 2, 6, 20]) (by decide +kernel) h (by decide) byDegree_perm

/-- The hypotheses of `C120_window` are met. -/
example : ∃ pg' f s, (tol 1).getCorrespondence byDegree 4 {} = .ok (pg', .ret (f, s)) ∧
    f.length = s.length ∧ ∀ i j, i < 4 → j < 4 → i ∉ f → j ∉ s → ∃ p ∈ f.zip s,
      ¬ ((intWindow 1).lo (onLine [0, 2, 5, 9] p.1 i) < onLine [0, 2, 6, 20] p.2 j ∧
        onLine [0, 2, 6, 20] p.2 j < (intWindow 1).hi (onLine [0, 2, 5, 9] p.1 i) ∧
        true = true ∧ true = true) := by
  obtain ⟨S, h⟩ := tol_usable (ε := 1) (by decide) (by decide +kernel) (by decide +kernel)
  exact C120_window (argLR := true) (cap := 400) (srt1 := byDist) (srt2 := byDist) (sym1 := true)
    (sym2 := true) (c := fun _ _ _ _ => true) (by decide) byDist_sorts byDist_sorts
    (by intro a b h; simp only [intWindow]; omega) (fun _ => onLine_symm [0, 2, 5, 9])
    (fun _ => onLine_symm [0, 2, 6, 20]) (by rw [← buildMetric_eq]; decide +kernel) h (by decide)
    byDegree_perm

/-- The hypotheses of `C120_iso` are met, on the four-cycle and the path with three vertices. -/
example : ∃ pg' f s, iso.getCorrespondence byDegree 3 {} = .ok (pg', .ret (f, s)) ∧
    IsoMatching 4 3 (ofPairs cycleRows) (ofPairs pathRows) (f.zip s) ∧
    ∀ i j, ¬ IsoMatching 4 3 (ofPairs cycleRows) (ofPairs pathRows) ((i, j) :: f.zip s) := by
  obtain ⟨S, h⟩ := iso_usable
  exact C120_iso cycle_reached path_reached (by decide) iso_eq h (by decide) byDegree_perm

/-- The hypotheses of `C120_double_partial` are met. -/
example : (∃ S, Usable twice (3 * 3) S) ∧ (∀ i j, sides i j = sides j i) ∧ Binary64 (1 / 4) ∧
    Sorts byDbl := ⟨twice_usable, sides_comm, quarter, byDbl_sorts⟩

namespace Sample

/-- Only the first two elements of each set may be matched. -/
def early (_ i2 _ j2 : Nat) : Bool := decide (i2 < 2) && decide (j2 < 2)

end Sample

/-- The hypotheses of `C120_condition` are met: element 2 of each set is left over. -/
example : ((growing 3 3 early).getCorrespondence byDegree 3 {} >>= fun r => .ok r.2) =
      .ok (.ret ([0, 1], [0, 1])) ∧
    ∃ pg' f s, (growing 3 3 early).getCorrespondence byDegree 3 {} = .ok (pg', .ret (f, s)) ∧
    f.length = s.length ∧ ∀ i j, i < 3 → j < 3 → i ∉ f → j ∉ s → ∃ p ∈ f.zip s,
      early (min p.1 i) (max p.1 i) (min p.2 j) (max p.2 j) = false := by
  obtain ⟨S, h⟩ := growing_usable (M := 3) (N := 3) (c := early) (by decide) (by decide +kernel)
    (by decide +kernel) (by decide) (by decide) (by decide)
  exact ⟨by decide +kernel, C120_condition (argLR := true) (cap := 400) (by decide)
    (by decide +kernel) h (by decide) byDegree_perm⟩

end CM
