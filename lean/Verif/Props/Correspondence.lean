import Mathlib.Algebra.Order.Ring.Int
import Mathlib.Algebra.Order.Group.Unbundled.Abs
import Verif.Lemmas.Matching
import Verif.Props.MaxClique
import Verif.Props.Iteration

/-!
# C27 – C33: correspondences

`pg.getCorrespondence srt N a` is the library's `get_correspondence` for a second set of
`N` elements; its result `(f, s)` lists the indices into the first and second set.
-/

namespace CM

open Spec Graph Sample

variable {pg : PyGraph} {M N : Nat} {S : SimpleGraph Nat}

/-! ## C27 -/

/-- **C27**: after any history a call of `get_correspondence` terminates without a fault, and
what it returns is read off a clique: as many indices into either set as the clique has
vertices, all in range, and each clique vertex can be recovered from its pair of indices
(so different vertices give different pairs). -/
theorem C27_indices (h : Usable pg (M * N) S) {ops : List Op} (hl : ∀ op ∈ ops, op.Legal)
    (hp : ∀ op ∈ ops, op.Positive) {srt : List VData → List VData}
    (hsrt : ∀ l, (srt l).Perm l) {a : PyGraph.Args} (ha : 1 ≤ a.lowerBound) :
    ∃ pg1 pg2 r, runs ops pg = .ok pg1 ∧ pg1.getCorrespondence srt N a = .ok (pg2, r) ∧
      ∀ f s, r = .ret (f, s) → ∃ l, IsCliqueList S (M * N) l ∧
        pg1.getMaxClique srt a = .ok (pg2, .ret l) ∧
        f.length = l.length ∧ s.length = l.length ∧
        ∀ k, k < l.length → f.getD k 0 < M ∧ s.getD k 0 < N ∧
          l.getD k 0 = pairId N (f.getD k 0) (s.getD k 0) := by
  obtain ⟨pg1, pg2, r, h1, h2, h3⟩ := C09_returned_is_clique h hl hp hsrt ha
  refine ⟨pg1, pg2, _, h1, getCorrespondence_eq h2 (fun l hr => (h3 l hr).1.range), ?_⟩
  intro f s hr
  cases r with
  | raise => cases hr
  | ret l =>
    injection hr with hr
    injection hr with hf hs
    subst hf hs
    have hc := (h3 l rfl).1
    refine ⟨l, hc, h2, by simp [firsts], by simp [seconds], ?_⟩
    intro k hk
    have hr := hc.range l[k] (List.getElem_mem hk)
    have e1 : (firsts N l).getD k 0 = (l[k] - 1) / N := by
      simp [firsts, List.getD_eq_getElem?_getD, hk]
    have e2 : (seconds N l).getD k 0 = (l[k] - 1) % N := by
      simp [seconds, List.getD_eq_getElem?_getD, hk]
    have e3 : l.getD k 0 = l[k] := by simp [List.getD_eq_getElem?_getD, hk]
    rw [e1, e2, e3]
    obtain ⟨a, b, c⟩ := pairId_surj hr.1 hr.2
    exact ⟨a, b, c.symm⟩

/-! ## C28 -/

/-- **C28**: in every correspondence returned by an object built by any of the functions that
build correspondence graphs, after any history and for any arguments, no element of either
set appears twice. -/
theorem C28_one_to_one (hm : Matcher pg M N) (h : Usable pg (M * N) S) {ops : List Op}
    (hl : ∀ op ∈ ops, op.Legal) (hp : ∀ op ∈ ops, op.Positive)
    {srt : List VData → List VData} (hsrt : ∀ l, (srt l).Perm l) {a : PyGraph.Args}
    (ha : 1 ≤ a.lowerBound) :
    ∃ pg1 pg2 r, runs ops pg = .ok pg1 ∧ pg1.getCorrespondence srt N a = .ok (pg2, r) ∧
      ∀ f s, r = .ret (f, s) → f.Nodup ∧ s.Nodup ∧ f.length = s.length ∧
        (∀ i ∈ f, i < M) ∧ ∀ j ∈ s, j < N := by
  obtain ⟨S', h1, h2⟩ := hm.loaded
  obtain ⟨_, rfl⟩ := h.loaded.unique h1
  obtain ⟨pg1, pg2, r, h3, h4, h5⟩ := C09_returned_is_clique h hl hp hsrt ha
  refine ⟨pg1, pg2, _, h3, getCorrespondence_eq h4 (fun l hr => (h5 l hr).1.range), ?_⟩
  intro f s hr
  cases r with
  | raise => cases hr
  | ret l =>
    injection hr with hr
    injection hr with hf hs
    subst hf hs
    obtain ⟨c1, _⟩ := clique_matching h2 (h5 l rfl).1
    have hlen : (firsts N l).length = (seconds N l).length := by simp [firsts, seconds]
    have e1 : ((firsts N l).zip (seconds N l)).map Prod.fst = firsts N l :=
      List.map_fst_zip (by omega)
    have e2 : ((firsts N l).zip (seconds N l)).map Prod.snd = seconds N l :=
      List.map_snd_zip (by omega)
    have k1 := c1.first
    have k2 := c1.second
    rw [e1] at k1
    rw [e2] at k2
    refine ⟨k1, k2, hlen, ?_, ?_⟩
    · intro i hi
      rw [← e1] at hi
      obtain ⟨p, hp, rfl⟩ := List.mem_map.1 hi
      exact (c1.range p hp).1
    · intro j hj
      rw [← e2] at hj
      obtain ⟨p, hp, rfl⟩ := List.mem_map.1 hj
      exact (c1.range p hp).2

/-- **C28** for the iterator: `list(all_correspondences(k))`, after any history, yields
one-to-one correspondences of `k` pairs, each of them once. -/
theorem C28_iterator (hm : Matcher pg M N) (h : Usable pg (M * N) S) {ops : List Op}
    (hl : ∀ op ∈ ops, op.Legal) (k : Nat) :
    ∃ (pg1 pg2 : PyGraph) (cs : List (List Nat × List Nat)), runs ops pg = .ok pg1 ∧
      pg1.listCorrespondences N k = .ok (pg2, cs.map .ret) ∧ cs.Nodup ∧
      ∀ c ∈ cs, c.1.length = k ∧ c.2.length = k ∧ IsMatching M N (c.1.zip c.2) := by
  obtain ⟨S', h1, h2⟩ := hm.loaded
  obtain ⟨_, rfl⟩ := h.loaded.unique h1
  obtain ⟨pg1, pg2, cs, h3, h4, h5, h6⟩ := C19_sound h hl k
  have hR := listCorrespondences_eq (M := M) (N := N) h4 (fun c hc => (h6 c hc).1.range)
  refine ⟨pg1, pg2, cs.map fun c => (firsts N c, seconds N c), h3, ?_, ?_, ?_⟩
  · rw [hR, List.map_map]
    rfl
  · refine List.Nodup.map_on ?_ h5
    intro c hc c' hc' he
    injection he with e1 e2
    obtain ⟨_, d1⟩ := clique_matching h2 (h6 c hc).1
    obtain ⟨_, d2⟩ := clique_matching h2 (h6 c' hc').1
    rw [← d1, ← d2, e1, e2]
  · intro c hc
    obtain ⟨l, hl', rfl⟩ := List.mem_map.1 hc
    refine ⟨by simp [firsts, (h6 l hl').2], by simp [seconds, (h6 l hl').2],
      (clique_matching h2 (h6 l hl').1).1⟩

/-! ## C29 -/

section
variable {D : Type} [LinearOrder D] [Inhabited D]

/-- **C29**: `build_edges` with metrics succeeds, and in the graph it makes two
correspondences `(i1, j1)`, `(i2, j2)` are joined if the distance of `j1`, `j2` is strictly
inside the window around the distance of `i1`, `i2`.  `w.lo` and `w.hi` compute the ends of
the window; the only assumption about the arithmetic is that `w.lo` is monotone.  A metric
flagged as symmetric has to be symmetric.  The second set must not be a single
element unless the first one is, see `C42_refuted`. -/
theorem C29_compatible_linked {argLR : Bool} {cap : Nat}
    {srt1 srt2 : List (PairDist D) → List (PairDist D)} {w : Window D}
    {d1 d2 : Nat → Nat → D} {sym1 sym2 : Bool} (hM : 1 ≤ M) (hN : 1 ≤ N)
    (hne : M = 1 ∨ 2 ≤ N) (hb : M * N < 2 ^ 27) (hs1 : Sorts srt1) (hs2 : Sorts srt2)
    (hlo : Monotone w.lo) (hsym1 : sym1 = true → ∀ i j, d1 i j = d1 j i)
    (hsym2 : sym2 = true → ∀ i j, d2 i j = d2 j i) :
    ∃ pg S, buildMetric argLR cap PyGraph.new srt1 srt2 M N w d1 sym1 d2 sym2 = .ok pg ∧
      Loaded pg (M * N) S ∧
      ∀ i1 i2 j1 j2, i1 < M → i2 < M → j1 < N → j2 < N → i1 ≠ i2 → j1 ≠ j2 →
        w.lo (d1 i1 i2) < d2 j1 j2 → d2 j1 j2 < w.hi (d1 i1 i2) →
        S.Adj (pairId N i1 j1) (pairId N i2 j2) := by
  rw [buildMetric_eq]
  obtain ⟨pg, S, e1, e2, e3⟩ := buildBoth_spec (argLR := argLR) (cap := cap) (w := w)
    (c := fun _ _ _ _ => true) (d1 := d1) (d2 := d2) (sym1 := sym1) (sym2 := sym2) hM hN hne hb
    hs1 hs2 hlo
  exact ⟨pg, S, e1, e2, fun i1 i2 j1 j2 a b c d e f g h =>
    e3.complete hsym1 hsym2 i1 i2 j1 j2 a b c d e f g h rfl rfl⟩

/-- **C29** with a condition function: compatible correspondences that the function accepts
in both readings are joined. -/
theorem C29_with_condition {argLR : Bool} {cap : Nat}
    {srt1 srt2 : List (PairDist D) → List (PairDist D)} {w : Window D}
    {c : Nat → Nat → Nat → Nat → Bool}
    {d1 d2 : Nat → Nat → D} {sym1 sym2 : Bool} (hM : 1 ≤ M) (hN : 1 ≤ N)
    (hne : M = 1 ∨ 2 ≤ N) (hb : M * N < 2 ^ 27) (hs1 : Sorts srt1) (hs2 : Sorts srt2)
    (hlo : Monotone w.lo) (hsym1 : sym1 = true → ∀ i j, d1 i j = d1 j i)
    (hsym2 : sym2 = true → ∀ i j, d2 i j = d2 j i) :
    ∃ pg S, buildBoth argLR cap PyGraph.new srt1 srt2 M N w c d1 sym1 d2 sym2 = .ok pg ∧
      Loaded pg (M * N) S ∧
      ∀ i1 i2 j1 j2, i1 < M → i2 < M → j1 < N → j2 < N → i1 ≠ i2 → j1 ≠ j2 →
        w.lo (d1 i1 i2) < d2 j1 j2 → d2 j1 j2 < w.hi (d1 i1 i2) →
        c i1 i2 j1 j2 = true → c i2 i1 j2 j1 = true →
        S.Adj (pairId N i1 j1) (pairId N i2 j2) := by
  obtain ⟨pg, S, e1, e2, e3⟩ := buildBoth_spec (argLR := argLR) (cap := cap) (w := w)
    (c := c) (d1 := d1) (d2 := d2) (sym1 := sym1) (sym2 := sym2) hM hN hne hb hs1 hs2 hlo
  exact ⟨pg, S, e1, e2, fun i1 i2 j1 j2 a b c d e f g h =>
    e3.complete hsym1 hsym2 i1 i2 j1 j2 a b c d e f g h⟩

end

/-- The window of the library for a tolerance `ε`, in exact integer arithmetic
(ext_template.hpp:48-49, 120-121). -/
def intWindow (ε : Int) : Window Int := ⟨fun d => d - ε, fun d => (d - ε) + 2 * ε⟩

/-- **C29** with the library's window, for distances that are integers: `|d1 - d2| < ε`
suffices. -/
theorem C29_exact {argLR : Bool} {cap : Nat}
    {srt1 srt2 : List (PairDist Int) → List (PairDist Int)} {ε : Int}
    {d1 d2 : Nat → Nat → Int} {sym1 sym2 : Bool} (hM : 1 ≤ M) (hN : 1 ≤ N)
    (hne : M = 1 ∨ 2 ≤ N) (hb : M * N < 2 ^ 27) (hs1 : Sorts srt1) (hs2 : Sorts srt2)
    (hsym1 : sym1 = true → ∀ i j, d1 i j = d1 j i)
    (hsym2 : sym2 = true → ∀ i j, d2 i j = d2 j i) :
    ∃ pg S, buildMetric argLR cap PyGraph.new srt1 srt2 M N (intWindow ε) d1 sym1 d2 sym2 =
        .ok pg ∧ Loaded pg (M * N) S ∧
      ∀ i1 i2 j1 j2, i1 < M → i2 < M → j1 < N → j2 < N → i1 ≠ i2 → j1 ≠ j2 →
        |d1 i1 i2 - d2 j1 j2| < ε →
        S.Adj (pairId N i1 j1) (pairId N i2 j2) := by
  obtain ⟨pg, S, e1, e2, e3⟩ := C29_compatible_linked (argLR := argLR) (cap := cap)
    (w := intWindow ε) hM hN hne hb hs1 hs2
    (by intro a b h; simp only [intWindow]; omega) hsym1 hsym2
  refine ⟨pg, S, e1, e2, fun i1 i2 j1 j2 a b c d e f g => ?_⟩
  rw [abs_lt] at g
  refine e3 i1 i2 j1 j2 a b c d e f ?_ ?_
  · simp only [intWindow]; omega
  · simp only [intWindow]; omega


namespace Sample

/-- Insertion into a list sorted by distance. -/
def insertByDist (x : PairDist Int) : List (PairDist Int) → List (PairDist Int)
  | [] => [x]
  | y :: ys => if x.dist ≤ y.dist then x :: y :: ys else y :: insertByDist x ys

/-- A sort by distance. -/
def byDist (l : List (PairDist Int)) : List (PairDist Int) := l.foldr insertByDist []

theorem insertByDist_perm (x : PairDist Int) (l : List (PairDist Int)) :
    (insertByDist x l).Perm (x :: l) := by
  induction l with
  | nil => exact List.Perm.refl _
  | cons y ys ih =>
    unfold insertByDist
    split
    · exact List.Perm.refl _
    · exact (ih.cons y).trans (List.Perm.swap x y ys)

theorem byDist_sorts : Sorts byDist := by
  intro l
  induction l with
  | nil => exact ⟨List.Perm.refl _, List.Pairwise.nil⟩
  | cons x xs ih =>
    refine ⟨(insertByDist_perm x _).trans (ih.1.cons x), ?_⟩
    show Ascending (insertByDist x (byDist xs))
    have ih := ih.2
    generalize byDist xs = ys at ih
    unfold Ascending at ih ⊢
    induction ys with
    | nil => simp [insertByDist]
    | cons y ys ih' =>
      rw [List.pairwise_cons] at ih
      unfold insertByDist
      split
      · rename_i h
        rw [List.pairwise_cons]
        refine ⟨?_, List.pairwise_cons.2 ih⟩
        intro z hz
        rcases List.mem_cons.1 hz with rfl | hz
        · exact h
        · exact h.trans (ih.1 z hz)
      · rename_i h
        rw [List.pairwise_cons]
        refine ⟨?_, ih' ih.2⟩
        intro z hz
        rcases List.mem_cons.1 ((insertByDist_perm x ys).mem_iff.1 hz) with rfl | hz'
        · exact (le_of_lt (lt_of_not_ge h))
        · exact ih.1 z hz'

/-- Points on a line and their distances. -/
def onLine (ps : List Int) (i j : Nat) : Int := |ps.getD i 0 - ps.getD j 0|

theorem onLine_symm (ps : List Int) (i j : Nat) : onLine ps i j = onLine ps j i := abs_sub_comm _ _

/-- Points `0, 2, 5` against points `10, 12, 15`, tolerance 1. -/
def line : PyGraph := get PyGraph.new (buildMetric true 400 PyGraph.new byDist byDist 3 3
  (intWindow 1) (onLine [0, 2, 5]) true (onLine [10, 12, 15]) true)

theorem line_eq : buildMetric true 400 PyGraph.new byDist byDist 3 3
    (intWindow 1) (onLine [0, 2, 5]) true (onLine [10, 12, 15]) true = .ok line := by
  decide +kernel

end Sample

theorem Sample.line_matcher : Matcher line 3 3 :=
  .metric (by decide) byDist_sorts byDist_sorts
    (by intro a b h; simp only [intWindow]; omega) line_eq

theorem Sample.line_usable : ∃ S, Usable line 9 S := by
  obtain ⟨pg, S, e1, e2, e3⟩ := C29_exact (argLR := true) (cap := 400) (ε := 1) (M := 3) (N := 3)
    (by decide) (by decide) (by decide) (by decide) byDist_sorts byDist_sorts
    (sym1 := true) (sym2 := true)
    (fun _ => onLine_symm [0, 2, 5]) (fun _ => onLine_symm [10, 12, 15])
  rw [line_eq] at e1
  cases e1
  refine ⟨S, e2, ?_, _, _, e3 0 1 0 1 (by decide) (by decide) (by decide) (by decide) (by decide)
    (by decide) (by decide)⟩
  intro G hG
  have : (line.G.map fun G => G.dangling) = some false := by decide +kernel
  rw [hG] at this
  simpa using this

/-- The hypotheses of C27 – C29 are met, and the result is a full match. -/
example : (∃ S, Matcher line 3 3 ∧ Usable line (3 * 3) S) ∧
    (line.getCorrespondence byDegree 3 {} >>= fun x => .ok x.2) =
      .ok (.ret ([0, 1, 2], [0, 1, 2])) ∧
    (line.listCorrespondences 3 3 >>= fun x => .ok x.2) = .ok [.ret ([0, 1, 2], [2, 1, 0])] := by
  obtain ⟨S, h⟩ := line_usable
  exact ⟨⟨S, line_matcher, h⟩, by decide +kernel, by decide +kernel⟩

/-! ## C30 -/

section
variable {D : Type} [LinearOrder D] [Inhabited D]

/-- **C30**, as far as it is true.  The full property: two correspondences of a result differ
in distance by at most the tolerance.  Proved: if the graph built by `build_edges` joins
`(i1, j1)` and `(i2, j2)`, then in one of the two readings (they agree for symmetric
metrics) the distance of `j1`, `j2` is inside the window around the distance of `i1`, `i2`,
ends included, or it is below the window and no other distance in the second set is closer
to it from below, or above the window and none is closer from above.  Missing, because
false (`C30_refuted`): that it is always inside. -/
theorem C30_linked_partial {argLR : Bool} {cap : Nat}
    {srt1 srt2 : List (PairDist D) → List (PairDist D)} {w : Window D}
    {d1 d2 : Nat → Nat → D} {sym1 sym2 : Bool} (hb : M * N < 2 ^ 27) (hs1 : Sorts srt1)
    (hs2 : Sorts srt2)
    (hlo : Monotone w.lo) (hsym1 : sym1 = true → ∀ i j, d1 i j = d1 j i)
    (hsym2 : sym2 = true → ∀ i j, d2 i j = d2 j i)
    (he : buildMetric argLR cap PyGraph.new srt1 srt2 M N w d1 sym1 d2 sym2 = .ok pg) :
    ∃ S, Loaded pg (M * N) S ∧
      ∀ i1 i2 j1 j2, i1 < M → i2 < M → j1 < N → j2 < N →
        S.Adj (pairId N i1 j1) (pairId N i2 j2) →
        i1 ≠ i2 ∧ j1 ≠ j2 ∧
        (NearDist w N d2 (d1 i1 i2) (d2 j1 j2) ∨ NearDist w N d2 (d1 i2 i1) (d2 j2 j1)) := by
  rw [buildMetric_eq] at he
  obtain ⟨_, S, e1, e2⟩ := buildBoth_ok hb hs1 hs2 hlo he
  refine ⟨S, e1, fun i1 i2 j1 j2 a b c d ha => ?_⟩
  obtain ⟨k1, k2, l1, l2, _, _, hc, hd, h1, h2, h3, h4, _⟩ := e2.apart _ _ ha
  obtain ⟨rfl, rfl⟩ := pairId_inj c hc h3
  obtain ⟨rfl, rfl⟩ := pairId_inj d hd h4
  exact ⟨h1, h2, e2.near hsym1 hsym2 i1 i2 j1 j2 a b c d ha⟩

end

/-- What is left of the distance condition in the sample: `(1, 0)` and `(2, 2)` are joined
although `|3 - 5| > 1`. -/
example : line.toEdgelist = .ok ([(1, 5), (1, 9), (2, 4), (2, 6), (3, 5), (3, 7), (4, 8), (4, 9),
    (5, 7), (5, 9), (6, 7), (6, 8)].map some) ∧ pairId 3 1 0 = 4 ∧ pairId 3 2 2 = 9 ∧
    onLine [0, 2, 5] 1 2 = 3 ∧ onLine [10, 12, 15] 0 2 = 5 := by
  decide +kernel

/-- **C30** is false, by any margin: points `0, 1` against points `0, x`, tolerance 1.  For
every `x > 2` a search reports that `0 ↦ 0`, `1 ↦ x` is a correspondence. -/
theorem C30_refuted : (buildMetric true 100 PyGraph.new byDist byDist 2 2 (intWindow 1)
      (onLine [0, 1]) true (onLine [0, 1000]) true >>= fun pg =>
    pg.getCorrespondence byDegree 2 {} >>= fun x => .ok x.2) = .ok (.ret ([0, 1], [0, 1])) ∧
    |onLine [0, 1] 0 1 - onLine [0, 1000] 0 1| = 999 := by
  decide +kernel

/-! ## C31 -/

section
variable {D : Type} [LinearOrder D] [Inhabited D]

/-- **C31** for metrics and a condition function: two correspondences are joined only if the
function accepted the assignment `i1 ↦ j1`, `i2 ↦ j2` (read in one of the two orders). -/
theorem C31_condition_filters {argLR : Bool} {cap : Nat}
    {srt1 srt2 : List (PairDist D) → List (PairDist D)} {w : Window D}
    {c : Nat → Nat → Nat → Nat → Bool}
    {d1 d2 : Nat → Nat → D} {sym1 sym2 : Bool} (hb : M * N < 2 ^ 27) (hs1 : Sorts srt1)
    (hs2 : Sorts srt2) (hlo : Monotone w.lo)
    (he : buildBoth argLR cap PyGraph.new srt1 srt2 M N w c d1 sym1 d2 sym2 = .ok pg) :
    ∃ S, Loaded pg (M * N) S ∧
      ∀ i1 i2 j1 j2, i1 < M → i2 < M → j1 < N → j2 < N →
        S.Adj (pairId N i1 j1) (pairId N i2 j2) →
        c i1 i2 j1 j2 = true ∨ c i2 i1 j2 j1 = true := by
  obtain ⟨_, S, e1, e2⟩ := buildBoth_ok hb hs1 hs2 hlo he
  refine ⟨S, e1, fun i1 i2 j1 j2 _ _ c d ha => ?_⟩
  obtain ⟨k1, k2, l1, l2, _, _, hc, hd, _, _, h3, h4, h5⟩ := e2.apart _ _ ha
  obtain ⟨rfl, rfl⟩ := pairId_inj c hc h3
  obtain ⟨rfl, rfl⟩ := pairId_inj d hd h4
  exact h5

end

/-- **C31** for a condition function alone, as far as it is true.  The full property: as for
`C31_condition_filters`.  Proved: exactly which correspondences are joined, namely those for
which the function accepts the two elements of either set *in increasing order*; so the
property holds for a function that does not distinguish the two ways of assigning two
elements to two elements.  Missing, because false (`C31_refuted`): the other functions. -/
theorem C31_condition_only_partial {argLR : Bool} {cap : Nat}
    {c : Nat → Nat → Nat → Nat → Bool} (hb : M * N < 2 ^ 27) :
    ∃ pg S, buildCondition argLR cap PyGraph.new M N c = .ok pg ∧ Loaded pg (M * N) S ∧
      (∀ i1 i2 j1 j2, i1 < M → i2 < M → j1 < N → j2 < N →
        (S.Adj (pairId N i1 j1) (pairId N i2 j2) ↔ i1 ≠ i2 ∧ j1 ≠ j2 ∧
          c (min i1 i2) (max i1 i2) (min j1 j2) (max j1 j2) = true)) ∧
      ((∀ i1 i2 j1 j2, c i1 i2 j1 j2 = c i1 i2 j2 j1) →
        ∀ i1 i2 j1 j2, i1 < M → i2 < M → j1 < N → j2 < N →
          S.Adj (pairId N i1 j1) (pairId N i2 j2) →
          c i1 i2 j1 j2 = true ∨ c i2 i1 j2 j1 = true) := by
  obtain ⟨pg, e1, e2⟩ := buildCondition_spec hb c argLR cap
  have key : ∀ i1 i2 j1 j2, i1 < M → i2 < M → j1 < N → j2 < N →
      ((corrGraph M N fun i1 i2 j1 j2 =>
        c (min i1 i2) (max i1 i2) (min j1 j2) (max j1 j2) = true).Adj (pairId N i1 j1)
          (pairId N i2 j2) ↔ i1 ≠ i2 ∧ j1 ≠ j2 ∧
          c (min i1 i2) (max i1 i2) (min j1 j2) (max j1 j2) = true) := by
    intro i1 i2 j1 j2 a b c' d
    rw [corrGraph_adj a b c' d]
    constructor
    · rintro ⟨h1, h2, h3 | h3⟩
      · exact ⟨h1, h2, h3⟩
      · rw [Nat.min_comm, Nat.max_comm, Nat.min_comm j2, Nat.max_comm j2] at h3
        exact ⟨h1, h2, h3⟩
    · rintro ⟨h1, h2, h3⟩; exact ⟨h1, h2, Or.inl h3⟩
  refine ⟨pg, _, e1, e2, key, ?_⟩
  intro hc i1 i2 j1 j2 a b c' d ha
  obtain ⟨h1, h2, h3⟩ := (key i1 i2 j1 j2 a b c' d).1 ha
  have h3' : c (min i1 i2) (max i1 i2) j1 j2 = true := by
    rcases Nat.le_total j1 j2 with h | h
    · rwa [Nat.min_eq_left h, Nat.max_eq_right h] at h3
    · rwa [Nat.min_eq_right h, Nat.max_eq_left h, hc] at h3
  rcases Nat.le_total i1 i2 with h | h
  · rw [Nat.min_eq_left h, Nat.max_eq_right h] at h3'; exact Or.inl h3'
  · rw [Nat.min_eq_right h, Nat.max_eq_left h] at h3'
    rw [hc] at h3'; exact Or.inr h3'

/-- The condition "keep the order": `i1 ↦ j1`, `i2 ↦ j2` with `j1 < j2` if `i1 < i2`. -/
def Sample.keepOrder (i1 i2 j1 j2 : Nat) : Bool := decide (i1 < i2 ↔ j1 < j2)

/-- **C31** is false for `build_edges_condition_only`: it joins `(0, 1)` and `(1, 0)` for the
condition "keep the order", which rejects that assignment in either reading, and iteration
reports the correspondence; with `efr_condition` (and metrics that do not matter) the same
condition is respected. -/
theorem C31_refuted : (buildCondition true 100 PyGraph.new 2 2 keepOrder >>= fun pg =>
      pg.listCorrespondences 2 2 >>= fun x => .ok x.2) = .ok [.ret ([0, 1], [1, 0])] ∧
    keepOrder 0 1 1 0 = false ∧ keepOrder 1 0 0 1 = false ∧
    (buildBoth true 100 PyGraph.new byDist byDist 2 2 (intWindow 1) keepOrder (fun _ _ => 0) true
        (fun _ _ => 0) true >>= fun pg => pg.toEdgelist) = .ok [some (1, 4)] := by
  decide +kernel

/-! ## C32 -/

/-- The matchings of an `IsoGraph` are the cliques of its graph. -/
theorem isoMatching_clique {n1 n2 : Nat} {S1 S2 : SimpleGraph Nat} {l : List Nat}
    (h : IsCliqueList (corrGraph n1 n2 (isoRel S1 S2)) (n1 * n2) l) :
    IsoMatching n1 n2 S1 S2 ((firsts n2 l).zip (seconds n2 l)) := by
  obtain ⟨h1, h2⟩ := clique_matching corrGraph_apart h
  refine ⟨h1, ?_⟩
  intro p hp q hq hadj
  have hne : p ≠ q := by rintro rfl; exact absurd hadj (S2.loopless.irrefl _)
  have mp : pairId n2 p.1 p.2 ∈ l := by rw [← h2]; exact List.mem_map.2 ⟨p, hp, rfl⟩
  have mq : pairId n2 q.1 q.2 ∈ l := by rw [← h2]; exact List.mem_map.2 ⟨q, hq, rfl⟩
  have rp := h1.range p hp
  have rq := h1.range q hq
  have hne' : pairId n2 p.1 p.2 ≠ pairId n2 q.1 q.2 := by
    intro he
    obtain ⟨a, b⟩ := pairId_inj rp.2 rq.2 he
    exact hne (Prod.ext a b)
  have ha := (corrGraph_adj rp.1 rq.1 rp.2 rq.2).1 (h.clique mp mq hne')
  rcases ha.2.2 with h3 | h3
  · exact h3 hadj
  · exact (h3 hadj.symm).symm

theorem isoMatching_list {n1 n2 : Nat} {S1 S2 : SimpleGraph Nat} {ps : List (Nat × Nat)}
    (h : IsoMatching n1 n2 S1 S2 ps) :
    ∃ l, IsCliqueList (corrGraph n1 n2 (isoRel S1 S2)) (n1 * n2) l ∧ l.length = ps.length ∧
      ∀ v, v ∈ l ↔ ∃ p ∈ ps, v = pairId n2 p.1 p.2 := by
  refine matching_clique h.toIsMatching ?_
  intro p hp q hq hne
  have rp := h.range p hp
  have rq := h.range q hq
  rw [corrGraph_adj rp.1 rq.1 rp.2 rq.2]
  refine ⟨?_, ?_, Or.inl (h.edges p hp q hq)⟩
  · intro he; exact hne (List.inj_on_of_nodup_map h.first hp hq he)
  · intro he; exact hne (List.inj_on_of_nodup_map h.second hp hq he)

/-- **C32**: `IsoGraph.build_edges` on any two graph objects with at least one vertex
succeeds, whatever was done to those objects before, and gives the correspondence graph
whose cliques are exactly the subgraph isomorphisms from parts of the second graph into
the first. -/
theorem C32_cliques_are_matchings {argLR : Bool} {cap : Nat} {pg1 pg2 : PyGraph} {n1 n2 : Nat}
    {S1 S2 : SimpleGraph Nat} (h1 : Reached pg1 n1 S1) (h2 : Reached pg2 n2 S2) (z1 : n1 ≠ 0)
    (z2 : n2 ≠ 0) (hb : n1 * n2 < 2 ^ 27) :
    ∃ pg S, buildIso argLR cap PyGraph.new pg1 pg2 = .ok pg ∧ Loaded pg (n1 * n2) S ∧
      (∀ l, IsCliqueList S (n1 * n2) l →
        ∃ ps, IsoMatching n1 n2 S1 S2 ps ∧ ps.map (fun p => pairId n2 p.1 p.2) = l) ∧
      (∀ ps, IsoMatching n1 n2 S1 S2 ps →
        ∃ l, IsCliqueList S (n1 * n2) l ∧ l.length = ps.length ∧
          ∀ v, v ∈ l ↔ ∃ p ∈ ps, v = pairId n2 p.1 p.2) := by
  obtain ⟨b1, G1, H1⟩ := h1.holds
  obtain ⟨b2, G2, H2⟩ := h2.holds
  obtain ⟨pg, e1, e2⟩ := buildIso_spec H1 H2 z1 z2 b1 b2 hb argLR cap
  exact ⟨pg, _, e1, e2, fun l hl => ⟨_, isoMatching_clique hl,
    (clique_matching corrGraph_apart hl).2⟩, fun ps hps => isoMatching_list hps⟩

/-- **C32**: every correspondence returned by `get_correspondence` of an `IsoGraph`, after any
history, is a subgraph isomorphism from a part of the second graph into the first. -/
theorem C32_sound {argLR : Bool} {cap : Nat} {pg1 pg2 : PyGraph} {n1 n2 : Nat}
    {S1 S2 S : SimpleGraph Nat} (h1 : Reached pg1 n1 S1) (h2 : Reached pg2 n2 S2)
    (hb : n1 * n2 < 2 ^ 27) (he : buildIso argLR cap PyGraph.new pg1 pg2 = .ok pg)
    (h : Usable pg (n1 * n2) S) {ops : List Op} (hl : ∀ op ∈ ops, op.Legal)
    (hp : ∀ op ∈ ops, op.Positive) {srt : List VData → List VData}
    (hsrt : ∀ l, (srt l).Perm l) {a : PyGraph.Args} (ha : 1 ≤ a.lowerBound) :
    ∃ pg' pg'' r, runs ops pg = .ok pg' ∧ pg'.getCorrespondence srt n2 a = .ok (pg'', r) ∧
      ∀ f s, r = .ret (f, s) → f.length = s.length ∧ IsoMatching n1 n2 S1 S2 (f.zip s) := by
  have hS : S = corrGraph n1 n2 (isoRel S1 S2) := by
    obtain ⟨b1, G1, H1⟩ := h1.holds
    obtain ⟨b2, G2, H2⟩ := h2.holds
    have hz : n1 * n2 ≠ 0 := by obtain ⟨G, hF⟩ := h.fresh; exact hF.pyok.pos
    have z1 : n1 ≠ 0 := by rintro rfl; simp at hz
    have z2 : n2 ≠ 0 := by rintro rfl; simp at hz
    obtain ⟨pg', e1, e2⟩ := buildIso_spec H1 H2 z1 z2 b1 b2 hb argLR cap
    rw [he] at e1
    cases e1
    exact (h.loaded.unique e2).2
  subst hS
  obtain ⟨pg', pg'', r, c1, c2, c3⟩ := C09_returned_is_clique h hl hp hsrt ha
  refine ⟨pg', pg'', _, c1, getCorrespondence_eq c2 (fun l hr => (c3 l hr).1.range), ?_⟩
  intro f s hr
  cases r with
  | raise => cases hr
  | ret l =>
    injection hr with hr
    injection hr with hf hs
    subst hf hs
    exact ⟨by simp [firsts, seconds], isoMatching_clique (c3 l rfl).1⟩

/-! ## C33 -/

/-- **C33**: `get_correspondence()` with default arguments on a freshly built `IsoGraph`
returns a largest matching, provided no matching has more than 65535 pairs (the default
`upper_bound`). -/
theorem C33_largest {argLR : Bool} {cap : Nat} {pg1 pg2 : PyGraph} {n1 n2 : Nat}
    {S1 S2 S : SimpleGraph Nat} (h1 : Reached pg1 n1 S1) (h2 : Reached pg2 n2 S2)
    (hb : n1 * n2 < 2 ^ 27) (he : buildIso argLR cap PyGraph.new pg1 pg2 = .ok pg)
    (h : Usable pg (n1 * n2) S) (hu : n1 ≤ 65535 ∨ n2 ≤ 65535)
    {srt : List VData → List VData} (hsrt : ∀ l, (srt l).Perm l) :
    ∃ pg' f s, pg.getCorrespondence srt n2 {} = .ok (pg', .ret (f, s)) ∧
      f.length = s.length ∧ IsoMatching n1 n2 S1 S2 (f.zip s) ∧
      ∀ ps, IsoMatching n1 n2 S1 S2 ps → ps.length ≤ (f.zip s).length := by
  have hS : S = corrGraph n1 n2 (isoRel S1 S2) := by
    obtain ⟨b1, G1, H1⟩ := h1.holds
    obtain ⟨b2, G2, H2⟩ := h2.holds
    have hz : n1 * n2 ≠ 0 := by obtain ⟨G, hF⟩ := h.fresh; exact hF.pyok.pos
    have z1 : n1 ≠ 0 := by rintro rfl; simp at hz
    have z2 : n2 ≠ 0 := by rintro rfl; simp at hz
    obtain ⟨pg', e1, e2⟩ := buildIso_spec H1 H2 z1 z2 b1 b2 hb argLR cap
    rw [he] at e1
    cases e1
    exact (h.loaded.unique e2).2
  subst hS
  have hcl : ∀ l, IsCliqueList (corrGraph n1 n2 (isoRel S1 S2)) (n1 * n2) l →
      l.length ≤ 65535 := by
    intro l hl
    have hm := (clique_matching corrGraph_apart hl)
    have hlen : ((firsts n2 l).zip (seconds n2 l)).length = l.length := by
      simp [firsts, seconds]
    have k1 : ((firsts n2 l).zip (seconds n2 l)).length ≤ n1 := by
      have := (hm.1.first.subperm (l₂ := List.range n1) (by
        intro i hi
        obtain ⟨p, hp, rfl⟩ := List.mem_map.1 hi
        exact List.mem_range.2 (hm.1.range p hp).1)).length_le
      simpa using this
    have k2 : ((firsts n2 l).zip (seconds n2 l)).length ≤ n2 := by
      have := (hm.1.second.subperm (l₂ := List.range n2) (by
        intro i hi
        obtain ⟨p, hp, rfl⟩ := List.mem_map.1 hi
        exact List.mem_range.2 (hm.1.range p hp).2)).length_le
      simpa using this
    omega
  obtain ⟨pg', l, c1, c2⟩ := C10_untimed_exact h hsrt {} rfl rfl hcl (Or.inl rfl)
  have hR := getCorrespondence_eq (M := n1) (N := n2) c1
    (fun l' hr => by cases hr; exact c2.1.range)
  refine ⟨pg', _, _, hR, by simp [firsts, seconds], isoMatching_clique c2.1, ?_⟩
  intro ps hps
  obtain ⟨l', d1, d2, _⟩ := isoMatching_list hps
  have := c2.2 l' d1
  simp only [firsts, seconds, List.length_zip, List.length_map, min_self]
  omega

namespace Sample

/-- The four-cycle. -/
def cycleRows : List (Nat × Nat) := [(1, 2), (2, 3), (3, 4), (4, 1)]

def cycle : PyGraph := get PyGraph.new (PyGraph.fromEdgelist true 64 cycleRows 4)

theorem cycle_eq : PyGraph.fromEdgelist true 64 cycleRows 4 = .ok cycle := by decide +kernel

/-- The path on three vertices. -/
def pathRows : List (Nat × Nat) := [(1, 2), (2, 3)]

def path : PyGraph := get PyGraph.new (PyGraph.fromEdgelist true 64 pathRows 3)

theorem path_eq : PyGraph.fromEdgelist true 64 pathRows 3 = .ok path := by decide +kernel

theorem cycle_reached : Reached cycle 4 (ofPairs cycleRows) :=
  Or.inl (.edgelist (by decide) (by decide) cycle_eq)

theorem path_reached : Reached path 3 (ofPairs pathRows) :=
  Or.inl (.edgelist (by decide) (by decide) path_eq)

/-- `IsoGraph(cycle, path)` after `build_edges()`. -/
def iso : PyGraph := get PyGraph.new (buildIso true 1000 PyGraph.new cycle path)

theorem iso_eq : buildIso true 1000 PyGraph.new cycle path = .ok iso := by decide +kernel

theorem iso_usable : ∃ S, Usable iso (4 * 3) S := by
  obtain ⟨pg, S, e1, e2, _, e3⟩ := C32_cliques_are_matchings (argLR := true) (cap := 1000)
    cycle_reached path_reached (by decide) (by decide) (by decide)
  rw [iso_eq] at e1
  cases e1
  obtain ⟨l, d1, d2, d3⟩ := e3 [(0, 0), (1, 1)] ⟨⟨by decide, by decide, by decide⟩, by
    intro p hp q hq h
    simp only [List.mem_cons, List.not_mem_nil, or_false] at hp hq
    rcases hp with rfl | rfl <;> rcases hq with rfl | rfl
    · exact absurd h ((ofPairs pathRows).loopless.irrefl _)
    · exact ⟨by decide, by decide⟩
    · exact ⟨by decide, by decide⟩
    · exact absurd h ((ofPairs pathRows).loopless.irrefl _)⟩
  refine ⟨S, e2, ?_, pairId 3 0 0, pairId 3 1 1, d1.clique ((d3 _).2 ⟨(0, 0), by decide, rfl⟩)
    ((d3 _).2 ⟨(1, 1), by decide, rfl⟩) (by decide)⟩
  intro G hG
  have : (iso.G.map fun G => G.dangling) = some false := by decide +kernel
  rw [hG] at this
  simpa using this

end Sample

/-- The hypotheses of C32 and C33 are met, and the whole path is found in the cycle. -/
example : (∃ S, Usable iso (4 * 3) S) ∧ Matcher iso 4 3 ∧
    (iso.getCorrespondence byDegree 3 {} >>= fun x => .ok x.2) =
      .ok (.ret ([0, 1, 3], [1, 0, 2])) :=
  ⟨iso_usable, .iso (by decide) cycle_reached path_reached iso_eq, by decide +kernel⟩

/-! ## C42 -/

section
variable {D : Type} [LinearOrder D] [Inhabited D]

/-- **C42** (the property is that building a correspondence graph either succeeds or raises)
is false: with two or more elements in the first set and one in the second, `build_edges`
with metrics, with or without a condition function, always has undefined behaviour.  It reads
the last element of an empty list of distances. -/
theorem C42_refuted {argLR : Bool} {cap : Nat}
    {srt1 srt2 : List (PairDist D) → List (PairDist D)} {w : Window D}
    {c : Nat → Nat → Nat → Nat → Bool}
    {d1 d2 : Nat → Nat → D} {sym1 sym2 : Bool} (hM : 2 ≤ M) (hb : M < 2 ^ 27)
    (hs1 : Sorts srt1) (hs2 : Sorts srt2) :
    buildBoth argLR cap PyGraph.new srt1 srt2 M 1 w c d1 sym1 d2 sym2 = .error .ub ∧
    buildMetric argLR cap PyGraph.new srt1 srt2 M 1 w d1 sym1 d2 sym2 = .error .ub := by
  rw [buildMetric_eq]
  exact ⟨buildBoth_single hM hb hs1 hs2, buildBoth_single hM hb hs1 hs2⟩

/-- **C42**, as far as it is true: in every other case with non-empty sets, the functions
succeed.  (Both sets must be non-empty; the wrappers check it.)  Missing: the case of
`C42_refuted`. -/
theorem C42_builds_partial {argLR : Bool} {cap : Nat}
    {srt1 srt2 : List (PairDist D) → List (PairDist D)} {w : Window D}
    {c : Nat → Nat → Nat → Nat → Bool}
    {d1 d2 : Nat → Nat → D} {sym1 sym2 : Bool} (hM : M ≠ 0) (hN : N ≠ 0)
    (h1 : M = 1 ∨ N ≠ 1) (hb : M * N < 2 ^ 27)
    (hs1 : Sorts srt1) (hs2 : Sorts srt2) (hlo : Monotone w.lo) :
    (∃ pg, buildBoth argLR cap PyGraph.new srt1 srt2 M N w c d1 sym1 d2 sym2 = .ok pg) ∧
    (∃ pg, buildMetric argLR cap PyGraph.new srt1 srt2 M N w d1 sym1 d2 sym2 = .ok pg) ∧
    (∃ pg, buildCondition argLR cap PyGraph.new M N c = .ok pg) := by
  rw [buildMetric_eq]
  refine ⟨?_, ?_, ?_⟩
  · obtain ⟨pg, _, h, _⟩ := buildBoth_spec (argLR := argLR) (cap := cap) (w := w) (c := c)
      (d1 := d1) (d2 := d2) (sym1 := sym1) (sym2 := sym2) (by omega) (by omega) (by omega) hb hs1 hs2 hlo
    exact ⟨pg, h⟩
  · obtain ⟨pg, _, h, _⟩ := buildBoth_spec (argLR := argLR) (cap := cap) (w := w)
      (c := fun _ _ _ _ => true)
      (d1 := d1) (d2 := d2) (sym1 := sym1) (sym2 := sym2) (by omega) (by omega) (by omega) hb hs1 hs2 hlo
    exact ⟨pg, h⟩
  · obtain ⟨pg, h, _⟩ := buildCondition_spec hb c argLR cap
    exact ⟨pg, h⟩

end

example : (∃ pg, buildMetric true 400 PyGraph.new byDist byDist 3 3 (intWindow 1)
      (onLine [0, 2, 5]) true (onLine [10, 12, 15]) true = .ok pg) ∧
    buildMetric true 400 PyGraph.new byDist byDist 2 1 (intWindow 1)
      (onLine [0, 2]) true (onLine [10]) true = .error .ub ∧
    (∃ pg, buildMetric true 400 PyGraph.new byDist byDist 1 2 (intWindow 1)
      (onLine [0]) true (onLine [10, 12]) true = .ok pg) := by
  refine ⟨⟨line, line_eq⟩, by decide +kernel, get PyGraph.new (buildMetric true 400 PyGraph.new
    byDist byDist 1 2 (intWindow 1) (onLine [0]) true (onLine [10, 12]) true), by decide +kernel⟩

/-! ## C43 -/

/-- A function that builds edges into an existing object. -/
def Builder := PyGraph → CM.M PyGraph

/-- The builders: the ones of `Matcher`, with any inputs. -/
inductive IsBuilder : Builder → Prop
  | iso (argLR : Bool) (cap : Nat) (pg1 pg2 : PyGraph) :
      IsBuilder fun pg => buildIso argLR cap pg pg1 pg2
  | metric {D : Type} [LinearOrder D] [Inhabited D] (argLR : Bool) (cap : Nat)
      (srt1 srt2 : List (PairDist D) → List (PairDist D)) (M N : Nat) (w : Window D)
      (d1 d2 : Nat → Nat → D) (sym1 sym2 : Bool) :
      IsBuilder fun pg => buildMetric argLR cap pg srt1 srt2 M N w d1 sym1 d2 sym2
  | condition (argLR : Bool) (cap : Nat) (M N : Nat) (c : Nat → Nat → Nat → Nat → Bool) :
      IsBuilder fun pg => buildCondition argLR cap pg M N c
  | both {D : Type} [LinearOrder D] [Inhabited D] (argLR : Bool) (cap : Nat)
      (srt1 srt2 : List (PairDist D) → List (PairDist D)) (M N : Nat) (w : Window D)
      (c : Nat → Nat → Nat → Nat → Bool) (d1 d2 : Nat → Nat → D) (sym1 sym2 : Bool) :
      IsBuilder fun pg => buildBoth argLR cap pg srt1 srt2 M N w c d1 sym1 d2 sym2

/-- What a second `build_edges` keeps from the object it is called on. -/
theorem IsBuilder.rebuild {f : Builder} (h : IsBuilder f) (pg : PyGraph) :
    f pg = f PyGraph.new >>= fun pg' =>
      .ok { pg' with currentVertex := pg.currentVertex, finishedAll := pg.finishedAll } := by
  cases h with
  | iso argLR cap pg1 pg2 =>
    show buildIso _ _ _ _ _ = buildIso _ _ _ _ _ >>= _
    unfold buildIso
    split
    · rfl
    · split
      · simp only [bind_assoc]
        congr 1
        funext x
        split
        · rfl
        · simp only [PyGraph.loadGraph, bind_assoc, ok_bind]
      · rfl
  | metric argLR cap srt1 srt2 M N w d1 d2 sym1 sym2 =>
    show buildMetric _ _ _ _ _ _ _ _ _ _ _ _ = buildMetric _ _ _ _ _ _ _ _ _ _ _ _ >>= _
    unfold buildMetric
    simp only [bind_assoc]
    congr 1; funext x; congr 1; funext y; congr 1; funext z
    split
    · rfl
    · simp only [PyGraph.loadGraph, bind_assoc, ok_bind]
  | condition argLR cap M N c =>
    show buildCondition _ _ _ _ _ _ = buildCondition _ _ _ _ _ _ >>= _
    unfold buildCondition
    simp only [bind_assoc]
    congr 1; funext x
    split
    · rfl
    · simp only [PyGraph.loadGraph, bind_assoc, ok_bind]
  | both argLR cap srt1 srt2 M N w c d1 d2 sym1 sym2 =>
    show buildBoth _ _ _ _ _ _ _ _ _ _ _ _ _ = buildBoth _ _ _ _ _ _ _ _ _ _ _ _ _ >>= _
    unfold buildBoth
    simp only [bind_assoc]
    congr 1; funext x; congr 1; funext y; congr 1; funext z
    split
    · rfl
    · simp only [PyGraph.loadGraph, bind_assoc, ok_bind]

theorem loadGraph_graph {argLR : Bool} {cap n m : Nat} {edges : Edges} {pg pg' : PyGraph}
    (h : PyGraph.loadGraph argLR cap pg n m edges = .ok pg') : ∃ G, pg'.G = some G := by
  unfold PyGraph.loadGraph at h
  obtain ⟨G, _, h⟩ := bind_eq_ok.1 h
  cases h
  exact ⟨G, rfl⟩

theorem IsBuilder.graph {f : Builder} (h : IsBuilder f) {pg pg' : PyGraph} (he : f pg = .ok pg') :
    ∃ G, pg'.G = some G := by
  cases h with
  | iso argLR cap pg1 pg2 =>
    change buildIso _ _ _ _ _ = _ at he
    unfold buildIso at he
    split at he
    · cases he
    · split at he
      · obtain ⟨_, _, he⟩ := bind_eq_ok.1 he
        simp only at he
        split at he
        · cases he
        · exact loadGraph_graph he
      · cases he
  | metric argLR cap srt1 srt2 M N w d1 d2 sym1 sym2 =>
    change buildMetric _ _ _ _ _ _ _ _ _ _ _ _ = _ at he
    unfold buildMetric at he
    obtain ⟨_, _, he⟩ := bind_eq_ok.1 he
    obtain ⟨_, _, he⟩ := bind_eq_ok.1 he
    obtain ⟨_, _, he⟩ := bind_eq_ok.1 he
    simp only at he
    split at he
    · cases he
    · exact loadGraph_graph he
  | condition argLR cap M N c =>
    change buildCondition _ _ _ _ _ _ = _ at he
    unfold buildCondition at he
    obtain ⟨_, _, he⟩ := bind_eq_ok.1 he
    simp only at he
    split at he
    · cases he
    · exact loadGraph_graph he
  | both argLR cap srt1 srt2 M N w c d1 d2 sym1 sym2 =>
    change buildBoth _ _ _ _ _ _ _ _ _ _ _ _ _ = _ at he
    unfold buildBoth at he
    obtain ⟨_, _, he⟩ := bind_eq_ok.1 he
    obtain ⟨_, _, he⟩ := bind_eq_ok.1 he
    obtain ⟨_, _, he⟩ := bind_eq_ok.1 he
    simp only at he
    split at he
    · cases he
    · exact loadGraph_graph he

/-- **C43**, as far as it is true.  The full property: calling `build_edges` again on an
object gives what the same call gives on a new object.  Proved: it fails in the same cases
with the same error, and if it succeeds and the graph has a vertex, a search without `continue_search` (and
every sequence of calls that starts with one) has the same outcome and leaves the same
state.  Missing, because false (`C43_refuted`): `search_done`, and searches with
`continue_search`, right after the rebuild. -/
theorem C43_rebuild_partial {f : Builder} (hf : IsBuilder f) (pg : PyGraph) :
    (∀ e, f pg = .error e ↔ f PyGraph.new = .error e) ∧
    ∀ pg1, f pg = .ok pg1 → ∃ pg2, f PyGraph.new = .ok pg2 ∧
      pg1.toEdgelist = pg2.toEdgelist ∧ pg1.toMatrix = pg2.toMatrix ∧
      ∀ srt a, pg1.nvert ≠ 0 → a.continueSearch = false →
        pg1.getMaxClique srt a = pg2.getMaxClique srt a := by
  rw [hf.rebuild pg]
  cases hn : f PyGraph.new with
  | error e =>
    refine ⟨fun e' => ⟨fun h => ?_, fun h => ?_⟩, fun pg1 h => ?_⟩
    · rwa [error_bind] at h
    · rwa [error_bind]
    · rw [error_bind] at h; cases h
  | ok pg2 =>
    rw [ok_bind]
    refine ⟨fun e' => ⟨fun h => ?_, fun h => ?_⟩, fun pg1 h => ?_⟩
    · cases h
    · cases h
    · cases h
      refine ⟨pg2, rfl, rfl, rfl, fun srt a hz ha => ?_⟩
      obtain ⟨G, hG⟩ := hf.graph hn
      unfold PyGraph.getMaxClique
      simp only [ha, PyGraph.checkLoaded, Bool.false_eq_true, if_false, false_and, hG]
      rw [if_neg hz]

/-- **C43** is false: a search finishes on three points against three points, and
`build_edges` is called again with a smaller tolerance.  The rebuilt object says that its
search is done.  A timed search with `continue_search` that is given all the time it wants
then finds two pairs; on a new object it finds three. -/
theorem C43_refuted :
    let build := fun (ε : Int) pg => buildMetric true 400 pg byDist byDist 3 3 (intWindow ε)
      (onLine [0, 1, 4]) true (onLine [0, 3, 4]) true
    ∃ pg0 pg1 pg2 pg3,
    build 5 PyGraph.new = .ok pg0 ∧
    (pg0.getMaxClique byDegree {} >>= fun x => .ok x.1) = .ok pg1 ∧
    build 1 pg1 = .ok pg2 ∧ build 1 PyGraph.new = .ok pg3 ∧
    pg2.finishedAll = true ∧ pg3.finishedAll = false ∧
    (pg2.getCorrespondence byDegree 3 { continueSearch := true, timeLimit := some none } >>=
      fun x => .ok x.2) = .ok (.ret ([0, 2], [0, 1])) ∧
    (pg3.getCorrespondence byDegree 3 { continueSearch := true, timeLimit := some none } >>=
      fun x => .ok x.2) = .ok (.ret ([0, 1, 2], [1, 2, 0])) := by
  intro build
  let x := get PyGraph.new (build 5 PyGraph.new)
  let y := get PyGraph.new (x.getMaxClique byDegree {} >>= fun x => .ok x.1)
  refine ⟨x, y, get PyGraph.new (build 1 y), get PyGraph.new (build 1 PyGraph.new), ?_⟩
  decide +kernel

/-- The builders of the witness are builders. -/
example : IsBuilder fun pg => buildMetric true 400 pg byDist byDist 3 3 (intWindow 1)
    (onLine [0, 1, 4]) true (onLine [0, 3, 4]) true := .metric ..

end CM
