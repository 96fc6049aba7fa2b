import Verif.Lemmas.Wrappers
import Verif.Props.Largest

/-!
# C54 – C57: distance functions of the user, elements instead of indices, `IsoGraph`

An exception raised by a function of the user is the outcome `.error .throw`, as for the
exceptions of the library.
-/

namespace CM

open Spec Graph Sample

variable {pg : PyGraph} {M N : Nat} {S : SimpleGraph Nat}

/-! ## C54 -/

section
variable {D : Type} [LinearOrder D] [Inhabited D]

/-- **C54**: distance and condition functions that may raise.  Whatever they do, a build raises
or gives the object that functions with the same values, but total, would give (about
those see C28 – C31, C52, C53). -/
theorem C54_raise_or_same {c : Nat → Nat → Nat → Nat → CM.M Bool}
    {c' : Nat → Nat → Nat → Nat → Bool} {d1 d2 : Nat → Nat → CM.M D} {d1' d2' : Nat → Nat → D}
    (hc : ∀ i1 i2 j1 j2, c i1 i2 j1 j2 = .error .throw ∨ c i1 i2 j1 j2 = .ok (c' i1 i2 j1 j2))
    (h1 : ∀ i j, d1 i j = .error .throw ∨ d1 i j = .ok (d1' i j))
    (h2 : ∀ i j, d2 i j = .error .throw ∨ d2 i j = .ok (d2' i j))
    (argLR : Bool) (cap : Nat) (srt1 srt2 : List (PairDist D) → List (PairDist D))
    (M N : Nat) (w : Window D) (sym1 sym2 : Bool) :
    (∀ r, r = buildMetricM argLR cap PyGraph.new srt1 srt2 M N w d1 sym1 d2 sym2 →
      r = .error .throw ∨
      r = buildMetric argLR cap PyGraph.new srt1 srt2 M N w d1' sym1 d2' sym2) ∧
    (∀ r, r = buildBothM argLR cap PyGraph.new srt1 srt2 M N w c d1 sym1 d2 sym2 →
      r = .error .throw ∨
      r = buildBoth argLR cap PyGraph.new srt1 srt2 M N w c' d1' sym1 d2' sym2) ∧
    (∀ r, r = buildConditionM argLR cap PyGraph.new M N c →
      r = .error .throw ∨ r = buildCondition argLR cap PyGraph.new M N c') := by
  have conv : ∀ {α : Type} {x y : CM.M α}, OrStops (· = .throw) x y ↔ (x = .error .throw ∨ x = y) := by
    intro α x y
    unfold OrStops
    constructor
    · rintro (⟨e, rfl, h⟩ | h)
      · exact Or.inl h
      · exact Or.inr h
    · rintro (h | h)
      · exact Or.inl ⟨_, rfl, h⟩
      · exact Or.inr h
  refine ⟨?_, ?_, ?_⟩ <;> rintro _ rfl
  · exact conv.1 (buildMetricM_or (fun i j => conv.2 (h1 i j)) (fun i j => conv.2 (h2 i j))
      _ _ _ _ _ _ _ _ _ _)
  · exact conv.1 (buildBothM_or (fun i1 i2 j1 j2 => conv.2 (hc i1 i2 j1 j2))
      (fun i j => conv.2 (h1 i j)) (fun i j => conv.2 (h2 i j)) _ _ _ _ _ _ _ _ _ _)
  · exact conv.1 (buildConditionM_or (fun i1 i2 j1 j2 => conv.2 (hc i1 i2 j1 j2)) _ _ _ _ _)

omit [LinearOrder D] in
theorem fillDistsM_throw {d : Nat → Nat → CM.M D}
    (h : ∀ i j, d i j = .error .throw ∨ ∃ x, d i j = .ok x)
    (srt : List (PairDist D) → List (PairDist D)) {N : Nat} (hN : N < 2 ^ 31) (sym : Bool) :
    fillDistsM srt N sym d = .error .throw ∨ ∃ r, fillDistsM srt N sym d = .ok r := by
  have hor : OrStops (· = .throw) (fillDistsM srt N sym d)
      (fillDists srt N sym fun i j => match d i j with | .ok x => x | .error _ => default) := by
    refine fillDistsM_or (fun i j => ?_) _ _ _
    rcases h i j with e | ⟨x, e⟩
    · exact Or.inl ⟨_, rfl, e⟩
    · rw [e]; exact Or.inr rfl
  rw [fillDists_spec hN] at hor
  rcases hor with ⟨e, rfl, hx⟩ | hx
  · exact Or.inl hx
  · exact Or.inr ⟨_, hx⟩

/-- **C54**: an exception of a distance function is never lost: if one of the functions raises
for two different elements (in increasing order, if it is flagged as symmetric), then
`build_edges` raises. -/
theorem C54_metric_raises {d1 d2 : Nat → Nat → CM.M D}
    (h1 : ∀ i j, d1 i j = .error .throw ∨ ∃ x, d1 i j = .ok x)
    (h2 : ∀ i j, d2 i j = .error .throw ∨ ∃ x, d2 i j = .ok x)
    {sym1 sym2 : Bool} (hM : M < 2 ^ 31) (hN : N < 2 ^ 31)
    (hr : (∃ i j, i < M ∧ j < M ∧ j ≠ i ∧ (sym1 = true → i < j) ∧ d1 i j = .error .throw) ∨
      (∃ i j, i < N ∧ j < N ∧ j ≠ i ∧ (sym2 = true → i < j) ∧ d2 i j = .error .throw))
    (argLR : Bool) (cap : Nat) (srt1 srt2 : List (PairDist D) → List (PairDist D)) (w : Window D)
    (c : Nat → Nat → Nat → Nat → CM.M Bool) :
    buildMetricM argLR cap pg srt1 srt2 M N w d1 sym1 d2 sym2 = .error .throw ∧
    buildBothM argLR cap pg srt1 srt2 M N w c d1 sym1 d2 sym2 = .error .throw := by
  have key : fillDistsM srt1 M sym1 d1 = .error .throw ∨
      ∃ r, fillDistsM srt1 M sym1 d1 = .ok r ∧ fillDistsM srt2 N sym2 d2 = .error .throw := by
    rcases fillDistsM_throw h1 srt1 hM sym1 with e | ⟨r, e⟩
    · exact Or.inl e
    · refine Or.inr ⟨r, e, ?_⟩
      rcases hr with ⟨i, j, a1, a2, a3, a4, a5⟩ | ⟨i, j, a1, a2, a3, a4, a5⟩
      · obtain ⟨x, hx⟩ := fillDistsM_raises e a1 a2 a3 a4
        rw [a5] at hx; cases hx
      · rcases fillDistsM_throw h2 srt2 hN sym2 with e' | ⟨r', e'⟩
        · exact e'
        · obtain ⟨x, hx⟩ := fillDistsM_raises e' a1 a2 a3 a4
          rw [a5] at hx; cases hx
  unfold buildMetricM buildBothM
  rcases key with e | ⟨r, e, e'⟩
  · rw [e]; exact ⟨rfl, rfl⟩
  · rw [e, ok_bind, e']; exact ⟨rfl, rfl⟩

end

namespace Sample

/-- A distance function that raises for the last two of three points. -/
def shaky (i j : Nat) : CM.M Int :=
  if i = 1 ∧ j = 2 then .error .throw else .ok (onLine [0, 2, 5] i j)

/-- A condition that raises for one quadruple. -/
def fussy (i1 i2 j1 j2 : Nat) : CM.M Bool :=
  if i1 = 0 ∧ i2 = 1 ∧ j1 = 2 ∧ j2 = 1 then .error .throw else .ok (keepOrder i1 i2 j1 j2)

end Sample

/-- The functions of the samples raise or not as C54 requires; one build raises, and one in
which the raising call is not reached succeeds. -/
example : (∀ i j, shaky i j = .error .throw ∨ shaky i j = .ok (onLine [0, 2, 5] i j)) ∧
    (∀ i1 i2 j1 j2, fussy i1 i2 j1 j2 = .error .throw ∨
      fussy i1 i2 j1 j2 = .ok (keepOrder i1 i2 j1 j2)) ∧
    shaky 1 2 = .error .throw ∧
    (buildMetricM true 400 PyGraph.new byDist byDist 3 3 (intWindow 1) shaky true
      (fun i j => .ok (onLine [10, 12, 15] i j)) true >>= fun pg => pg.toEdgelist) =
      .error .throw ∧
    (buildConditionM true 400 PyGraph.new 3 3 fussy >>= fun pg => .ok pg.nedges) = .ok 18 := by
  refine ⟨?_, ?_, rfl, by decide +kernel, by decide +kernel⟩
  · intro i j; unfold shaky; split
    · exact Or.inl rfl
    · exact Or.inr rfl
  · intro i1 i2 j1 j2; unfold fussy; split
    · exact Or.inl rfl
    · exact Or.inr rfl

/-! ## C55 -/

section
variable {D : Type} [LinearOrder D] [Inhabited D]

/-- The distances a user expects `build_edges` of a new object to use: the given function,
else the default of the kind of set. -/
def wanted (given : Option (Nat → Nat → D)) (default : Nat → Nat → D) : Nat → Nat → D :=
  given.getD default

/-- **C55**, as far as it is true.  The full property: the distance functions passed to the
constructor of `A2AGraph`, `A2LGraph`, `L2AGraph` or `L2LGraph`, and the defaults for those
not passed, are the ones `build_edges` compares.  Proved: this is so if the first function
is passed or the second is not.  Then `build_edges` succeeds and joins correspondences
whose distances, by the wanted functions, agree.  Missing, because false (`C55_refuted`):
a second function without a first. -/
theorem C55_given_partial {argLR : Bool} {cap : Nat}
    {srt1 srt2 : List (PairDist D) → List (PairDist D)} {w : Window D}
    {f g : Option (Nat → Nat → D)} {e1 e2 : Nat → Nat → D} {sym1 sym2 : Bool}
    (hgiven : f ≠ none ∨ g = none) (hM : 1 ≤ M) (hN : 1 ≤ N)
    (hne : M = 1 ∨ 2 ≤ N) (hb : M * N < 2 ^ 27) (hs1 : Sorts srt1) (hs2 : Sorts srt2)
    (hlo : Monotone w.lo) (he1 : ∀ i j, e1 i j = e1 j i) (he2 : ∀ i j, e2 i j = e2 j i)
    (hsym1 : sym1 = true → ∀ d, f = some d → ∀ i j, d i j = d j i)
    (hsym2 : sym2 = true → ∀ d, g = some d → ∀ i j, d i j = d j i) :
    ∃ o S, (GenObj.init M N (f.map fun d i j => .ok (d i j)) (g.map fun d i j => .ok (d i j))
        sym1 sym2 w).buildEdges argLR cap srt1 srt2 (fun i j => .ok (e1 i j))
        (fun i j => .ok (e2 i j)) = .ok o ∧
      Loaded o.pg (M * N) S ∧
      ∀ i1 i2 j1 j2, i1 < M → i2 < M → j1 < N → j2 < N → i1 ≠ i2 → j1 ≠ j2 →
        w.lo (wanted f e1 i1 i2) < wanted g e2 j1 j2 →
        wanted g e2 j1 j2 < w.hi (wanted f e1 i1 i2) →
        S.Adj (pairId N i1 j1) (pairId N i2 j2) := by
  have pureM : ∀ (d d' : Nat → Nat → D) (s s' : Bool),
      buildMetricM argLR cap PyGraph.new srt1 srt2 M N w (fun i j => .ok (d i j)) s
        (fun i j => .ok (d' i j)) s' =
      buildMetric argLR cap PyGraph.new srt1 srt2 M N w d s d' s' := by
    intro d d' s s'
    rcases buildMetricM_or (E := fun _ => False) (d1 := fun i j => .ok (d i j))
      (d2 := fun i j => .ok (d' i j)) (d1' := d) (d2' := d') (fun i j => OrStops.rfl)
      (fun i j => OrStops.rfl) argLR cap PyGraph.new srt1 srt2 M N w s s' with ⟨_, h, _⟩ | h
    · exact h.elim
    · exact h
  have go : ∀ (d d' : Nat → Nat → D) (s s' : Bool), (s = true → ∀ i j, d i j = d j i) →
      (s' = true → ∀ i j, d' i j = d' j i) → ∃ pg S,
      buildMetricM argLR cap PyGraph.new srt1 srt2 M N w (fun i j => .ok (d i j)) s
        (fun i j => .ok (d' i j)) s' = .ok pg ∧ Loaded pg (M * N) S ∧
      ∀ i1 i2 j1 j2, i1 < M → i2 < M → j1 < N → j2 < N → i1 ≠ i2 → j1 ≠ j2 →
        w.lo (d i1 i2) < d' j1 j2 → d' j1 j2 < w.hi (d i1 i2) →
        S.Adj (pairId N i1 j1) (pairId N i2 j2) := by
    intro d d' s s' h h'
    obtain ⟨pg, S, a1, a2, a3⟩ := C29_compatible_linked (argLR := argLR) (cap := cap) hM hN hne hb
      hs1 hs2 hlo h h'
    exact ⟨pg, S, by rw [pureM]; exact a1, a2, a3⟩
  unfold GenObj.init GenObj.buildEdges
  cases f with
  | none =>
    have hg : g = none := hgiven.resolve_left (fun h => h rfl)
    subst hg
    obtain ⟨pg, S, a1, a2, a3⟩ := go e1 e2 true true (fun _ => he1) (fun _ => he2)
    exact ⟨_, S, by simp only [Option.map_none]; rw [a1]; rfl, a2, a3⟩
  | some d =>
    cases g with
    | none =>
      obtain ⟨pg, S, a1, a2, a3⟩ := go d e2 sym1 true (fun h => hsym1 h d rfl) (fun _ => he2)
      exact ⟨_, S, by simp only [Option.map_none, Option.map_some]; rw [a1]; rfl, a2, a3⟩
    | some d' =>
      obtain ⟨pg, S, a1, a2, a3⟩ := go d d' sym1 sym2 (fun h => hsym1 h d rfl)
        (fun h => hsym2 h d' rfl)
      exact ⟨_, S, by simp only [Option.map_some]; rw [a1]; rfl, a2, a3⟩

/-- **C55** for `build_edges_with_condition`, as far as it is true.  Proved: if the first function
is passed or the second is not, then `build_edges_with_condition(c)` succeeds and compares the
wanted functions: it joins correspondences whose distances agree by them and which `c` accepts
in both readings, and it joins only correspondences of different elements which `c` accepts in one
reading and whose distances are near each other by the wanted functions (in the sense of C30).
Missing, because false (`C55_refuted_ignored_condition`): a second function without a first. -/
theorem C55_with_condition_partial {argLR : Bool} {cap : Nat}
    {srt1 srt2 : List (PairDist D) → List (PairDist D)} {w : Window D}
    {f g : Option (Nat → Nat → D)} {e1 e2 : Nat → Nat → D} {sym1 sym2 : Bool}
    {c : Nat → Nat → Nat → Nat → Bool}
    (hgiven : f ≠ none ∨ g = none) (hM : 1 ≤ M) (hN : 1 ≤ N)
    (hne : M = 1 ∨ 2 ≤ N) (hb : M * N < 2 ^ 27) (hs1 : Sorts srt1) (hs2 : Sorts srt2)
    (hlo : Monotone w.lo) (he1 : ∀ i j, e1 i j = e1 j i) (he2 : ∀ i j, e2 i j = e2 j i)
    (hsym1 : sym1 = true → ∀ d, f = some d → ∀ i j, d i j = d j i)
    (hsym2 : sym2 = true → ∀ d, g = some d → ∀ i j, d i j = d j i) :
    ∃ o S, (GenObj.init M N (f.map fun d i j => .ok (d i j)) (g.map fun d i j => .ok (d i j))
        sym1 sym2 w).buildEdgesWithCondition argLR cap srt1 srt2 (fun i j => .ok (e1 i j))
        (fun i j => .ok (e2 i j)) (fun i1 i2 j1 j2 => .ok (c i1 i2 j1 j2)) false = .ok o ∧
      Loaded o.pg (M * N) S ∧
      (∀ i1 i2 j1 j2, i1 < M → i2 < M → j1 < N → j2 < N → i1 ≠ i2 → j1 ≠ j2 →
        w.lo (wanted f e1 i1 i2) < wanted g e2 j1 j2 →
        wanted g e2 j1 j2 < w.hi (wanted f e1 i1 i2) →
        c i1 i2 j1 j2 = true → c i2 i1 j2 j1 = true →
        S.Adj (pairId N i1 j1) (pairId N i2 j2)) ∧
      ∀ i1 i2 j1 j2, i1 < M → i2 < M → j1 < N → j2 < N →
        S.Adj (pairId N i1 j1) (pairId N i2 j2) → i1 ≠ i2 ∧ j1 ≠ j2 ∧
        (c i1 i2 j1 j2 = true ∨ c i2 i1 j2 j1 = true) ∧
        (NearDist w N (wanted g e2) (wanted f e1 i1 i2) (wanted g e2 j1 j2) ∨
          NearDist w N (wanted g e2) (wanted f e1 i2 i1) (wanted g e2 j2 j1)) := by
  have pureM : ∀ (d d' : Nat → Nat → D) (s s' : Bool),
      buildBothM argLR cap PyGraph.new srt1 srt2 M N w (fun i1 i2 j1 j2 => .ok (c i1 i2 j1 j2))
        (fun i j => .ok (d i j)) s (fun i j => .ok (d' i j)) s' =
      buildBoth argLR cap PyGraph.new srt1 srt2 M N w c d s d' s' := by
    intro d d' s s'
    rcases buildBothM_or (E := fun _ => False) (c := fun i1 i2 j1 j2 => .ok (c i1 i2 j1 j2))
      (c' := c) (d1 := fun i j => .ok (d i j))
      (d2 := fun i j => .ok (d' i j)) (d1' := d) (d2' := d') (fun _ _ _ _ => OrStops.rfl)
      (fun i j => OrStops.rfl)
      (fun i j => OrStops.rfl) argLR cap PyGraph.new srt1 srt2 M N w s s' with ⟨_, h, _⟩ | h
    · exact h.elim
    · exact h
  have go : ∀ (d d' : Nat → Nat → D) (s s' : Bool), (s = true → ∀ i j, d i j = d j i) →
      (s' = true → ∀ i j, d' i j = d' j i) → ∃ pg S,
      buildBothM argLR cap PyGraph.new srt1 srt2 M N w (fun i1 i2 j1 j2 => .ok (c i1 i2 j1 j2))
        (fun i j => .ok (d i j)) s (fun i j => .ok (d' i j)) s' = .ok pg ∧ Loaded pg (M * N) S ∧
      (∀ i1 i2 j1 j2, i1 < M → i2 < M → j1 < N → j2 < N → i1 ≠ i2 → j1 ≠ j2 →
        w.lo (d i1 i2) < d' j1 j2 → d' j1 j2 < w.hi (d i1 i2) →
        c i1 i2 j1 j2 = true → c i2 i1 j2 j1 = true →
        S.Adj (pairId N i1 j1) (pairId N i2 j2)) ∧
      ∀ i1 i2 j1 j2, i1 < M → i2 < M → j1 < N → j2 < N →
        S.Adj (pairId N i1 j1) (pairId N i2 j2) → i1 ≠ i2 ∧ j1 ≠ j2 ∧
        (c i1 i2 j1 j2 = true ∨ c i2 i1 j2 j1 = true) ∧
        (NearDist w N d' (d i1 i2) (d' j1 j2) ∨ NearDist w N d' (d i2 i1) (d' j2 j1)) := by
    intro d d' s s' h h'
    obtain ⟨pg, S, a1, a2, a3⟩ := buildBoth_spec (argLR := argLR) (cap := cap) (w := w) (c := c)
      (d1 := d) (d2 := d') (sym1 := s) (sym2 := s') hM hN hne hb hs1 hs2 hlo
    refine ⟨pg, S, by rw [pureM]; exact a1, a2, a3.complete h h', ?_⟩
    intro i1 i2 j1 j2 ha hb' hc hd hadj
    obtain ⟨k1, k2, l1, l2, _, _, hc', hd', h1, h2, h3, h4, h5⟩ := a3.apart _ _ hadj
    obtain ⟨rfl, rfl⟩ := pairId_inj hc hc' h3
    obtain ⟨rfl, rfl⟩ := pairId_inj hd hd' h4
    exact ⟨h1, h2, h5, a3.near h h' _ _ _ _ ha hb' hc hd hadj⟩
  unfold GenObj.init GenObj.buildEdgesWithCondition
  cases f with
  | none =>
    have hg : g = none := hgiven.resolve_left (fun h => h rfl)
    subst hg
    obtain ⟨pg, S, a1, a2, a3⟩ := go e1 e2 true true (fun _ => he1) (fun _ => he2)
    exact ⟨_, S, by simp only [Option.map_none, Bool.false_eq_true, if_false]; rw [a1]; rfl, a2, a3⟩
  | some d =>
    cases g with
    | none =>
      obtain ⟨pg, S, a1, a2, a3⟩ := go d e2 sym1 true (fun h => hsym1 h d rfl) (fun _ => he2)
      exact ⟨_, S, by
        simp only [Option.map_none, Option.map_some, Bool.false_eq_true, if_false]; rw [a1]; rfl,
        a2, a3⟩
    | some d' =>
      obtain ⟨pg, S, a1, a2, a3⟩ := go d d' sym1 sym2 (fun h => hsym1 h d rfl)
        (fun h => hsym2 h d' rfl)
      exact ⟨_, S, by
        simp only [Option.map_some, Bool.false_eq_true, if_false]; rw [a1]; rfl, a2, a3⟩

/-- **C55** for `build_edges_with_condition(c, use_cond_only=True)`: neither the given nor the
default distance functions matter or are called (they may raise), only the condition does; which
correspondences it joins is in C31. -/
theorem C55_condition_only {argLR : Bool} {cap : Nat}
    {srt1 srt2 : List (PairDist D) → List (PairDist D)} {w : Window D}
    {f g : Option (Nat → Nat → CM.M D)} {e1 e2 : Nat → Nat → CM.M D} {sym1 sym2 : Bool}
    {c : Nat → Nat → Nat → Nat → Bool} (hb : M * N < 2 ^ 27) :
    ∃ o S, (GenObj.init M N f g sym1 sym2 w).buildEdgesWithCondition argLR cap srt1 srt2 e1 e2
        (fun i1 i2 j1 j2 => .ok (c i1 i2 j1 j2)) true = .ok o ∧ Loaded o.pg (M * N) S ∧
      ∀ i1 i2 j1 j2, i1 < M → i2 < M → j1 < N → j2 < N →
        (S.Adj (pairId N i1 j1) (pairId N i2 j2) ↔ i1 ≠ i2 ∧ j1 ≠ j2 ∧
          c (min i1 i2) (max i1 i2) (min j1 j2) (max j1 j2) = true) := by
  obtain ⟨pg, S, a1, a2, a3, _⟩ := C31_condition_only_partial (M := M) (N := N) (argLR := argLR)
    (cap := cap) (c := c) hb
  have hM : buildConditionM argLR cap PyGraph.new M N (fun i1 i2 j1 j2 => .ok (c i1 i2 j1 j2)) =
      buildCondition argLR cap PyGraph.new M N c := by
    rcases buildConditionM_or (E := fun _ => False) (c := fun i1 i2 j1 j2 => .ok (c i1 i2 j1 j2))
      (c' := c) (fun _ _ _ _ => OrStops.rfl) argLR cap PyGraph.new M N with ⟨_, h, _⟩ | h
    · exact h.elim
    · exact h
  have key : ∀ o : GenObj D, o.pg = PyGraph.new → o.n1 = M → o.n2 = N →
      o.buildEdgesWithCondition argLR cap srt1 srt2 e1 e2
        (fun i1 i2 j1 j2 => .ok (c i1 i2 j1 j2)) true = .ok { o with pg := pg } := by
    intro o h1 h2 h3
    unfold GenObj.buildEdgesWithCondition
    rw [h1, h2, h3]
    simp only [if_true]
    rw [hM, a1]
    rfl
  refine ⟨_, S, key _ ?_ ?_ ?_, a2, a3⟩ <;> (unfold GenObj.init; cases f <;> rfl)

/-- **C55** is false for a second function without a first, with a condition, too. -/
theorem C55_refuted_ignored_condition {argLR : Bool} {cap : Nat}
    {srt1 srt2 : List (PairDist D) → List (PairDist D)} {w : Window D}
    {c : Nat → Nat → Nat → Nat → CM.M Bool} (only : Bool)
    (g g' : Option (Nat → Nat → CM.M D)) {e1 e2 : Nat → Nat → CM.M D} {sym1 sym2 : Bool} :
    (GenObj.init M N none g sym1 sym2 w).buildEdgesWithCondition argLR cap srt1 srt2 e1 e2 c only =
    (GenObj.init M N none g' sym1 sym2 w).buildEdgesWithCondition argLR cap srt1 srt2 e1 e2 c
      only := rfl

/-- **C55**: a missing function for a set without a default (a list) makes `build_edges`
raise, unless the set has a single element. -/
theorem C55_missing_raises {argLR : Bool} {cap : Nat}
    {srt1 srt2 : List (PairDist D) → List (PairDist D)} {w : Window D}
    {f : Nat → Nat → D} {e1 : Nat → Nat → D} {sym1 sym2 : Bool}
    (hM : 2 ≤ M) (hN : 2 ≤ N) (hM' : M < 2 ^ 31) (hN' : N < 2 ^ 31) :
    (GenObj.init M N none none sym1 sym2 w).buildEdges argLR cap srt1 srt2
      (fun _ _ => .error .throw) (fun i j => .ok (e1 i j)) = .error .throw ∧
    (GenObj.init M N none none sym1 sym2 w).buildEdges argLR cap srt1 srt2
      (fun i j => .ok (e1 i j)) (fun _ _ => .error .throw) = .error .throw ∧
    (GenObj.init M N (some fun i j => .ok (f i j)) none sym1 sym2 w).buildEdges argLR cap srt1 srt2
      (fun i j => .ok (e1 i j)) (fun _ _ => .error .throw) = .error .throw := by
  have hok : ∀ (d : Nat → Nat → D) (i j : Nat),
      (Except.ok (d i j) : CM.M D) = .error .throw ∨ ∃ x, (Except.ok (d i j) : CM.M D) = .ok x :=
    fun d i j => Or.inr ⟨_, rfl⟩
  have hth : ∀ (i j : Nat), (fun (_ _ : Nat) => (Except.error Fault.throw : CM.M D)) i j =
      .error .throw ∨ ∃ x, (fun (_ _ : Nat) => (Except.error Fault.throw : CM.M D)) i j = .ok x :=
    fun i j => Or.inl rfl
  unfold GenObj.init GenObj.buildEdges
  refine ⟨?_, ?_, ?_⟩ <;> simp only
  · rw [(C54_metric_raises hth (hok e1) hM' hN'
      (Or.inl ⟨0, 1, by omega, by omega, by omega, fun _ => by omega, rfl⟩) argLR cap srt1 srt2 w
      (fun _ _ _ _ => .ok true)).1]; rfl
  · rw [(C54_metric_raises (hok e1) hth hM' hN'
      (Or.inr ⟨0, 1, by omega, by omega, by omega, fun _ => by omega, rfl⟩) argLR cap srt1 srt2 w
      (fun _ _ _ _ => .ok true)).1]; rfl
  · rw [(C54_metric_raises (hok f) hth hM' hN'
      (Or.inr ⟨0, 1, by omega, by omega, by omega, fun _ => by omega, rfl⟩) argLR cap srt1 srt2 w
      (fun _ _ _ _ => .ok true)).1]; rfl

/-- **C55** is false for a second function without a first: it has no influence. -/
theorem C55_refuted_ignored {argLR : Bool} {cap : Nat}
    {srt1 srt2 : List (PairDist D) → List (PairDist D)} {w : Window D}
    (g g' : Option (Nat → Nat → CM.M D)) {e1 e2 : Nat → Nat → CM.M D} {sym1 sym2 : Bool} :
    (GenObj.init M N none g sym1 sym2 w).buildEdges argLR cap srt1 srt2 e1 e2 =
    (GenObj.init M N none g' sym1 sym2 w).buildEdges argLR cap srt1 srt2 e1 e2 := rfl

end

/-- **C55** is false: `A2AGraph(S1, S2, d2=g)` for points `0, 10` and `0, 3000, 1000` on a line
and a function `g` by which the first two points of the second set are at distance 10.  The
correspondence `0 ↦ 0`, `1 ↦ 1` keeps the wanted distance, and is not joined. -/
theorem C55_refuted :
    ((GenObj.init 2 3 none (some fun i j => .ok (if i + j = 1 then 10 else 500)) true true
        (intWindow 1)).buildEdges true 400 byDist byDist (fun i j => .ok (onLine [0, 10] i j))
        (fun i j => .ok (onLine [0, 3000, 1000] i j)) >>= fun o => o.pg.toEdgelist) =
      .ok [some (1, 6), some (3, 4)] ∧
    wanted (some fun i j => if i + j = 1 then 10 else 500) (onLine [0, 3000, 1000]) 0 1 =
      wanted none (onLine [0, 10]) 0 1 ∧
    pairId 3 0 0 = 1 ∧ pairId 3 1 1 = 5 := by
  decide +kernel

/-- `C55_given_partial` on a concrete object: the same function passed together with the
Euclidean distance as the first one has the wanted effect. -/
example : ((GenObj.init 2 3 (some fun i j => .ok (onLine [0, 10] i j))
        (some fun i j => .ok (if i + j = 1 then 10 else 500)) true true
        (intWindow 1)).buildEdges true 400 byDist byDist (fun i j => .ok (onLine [0, 10] i j))
        (fun i j => .ok (onLine [0, 3000, 1000] i j)) >>= fun o => o.pg.toEdgelist) =
      .ok [some (1, 5), some (2, 4)] := by
  decide +kernel

/-- With the condition "keep the order", and with that condition alone (the distance functions
raise). -/
example : ((GenObj.init 2 3 (some fun i j => .ok (onLine [0, 10] i j))
        (some fun i j => .ok (if i + j = 1 then 10 else 500)) true true
        (intWindow 1)).buildEdgesWithCondition true 400 byDist byDist
        (fun i j => .ok (onLine [0, 10] i j)) (fun i j => .ok (onLine [0, 3000, 1000] i j))
        (fun i1 i2 j1 j2 => .ok (keepOrder i1 i2 j1 j2)) false >>= fun o => o.pg.toEdgelist) =
      .ok [some (1, 5)] ∧
    ((GenObj.init 2 2 (some fun _ _ => .error .throw) none true true
        (intWindow 1)).buildEdgesWithCondition true 400 byDist byDist
        (fun _ _ => .error .throw) (fun _ _ => .error .throw)
        (fun i1 i2 j1 j2 => .ok (keepOrder i1 i2 j1 j2)) true >>= fun o => o.pg.toEdgelist) =
      .ok [some (1, 4), some (2, 3)] := by
  decide +kernel

/-! ## C56 -/

/-- **C56**: `get_correspondence(return_indices=False)` on two lists or arrays, after any
history, answers with the elements at the indices that `return_indices=True` answers with,
in the same order, and raises exactly when that raises: there is no `IndexError`. -/
theorem C56_elements {α β : Type} {xs : List α} {ys : List β}
    (h : Usable pg (xs.length * ys.length) S) {ops : List Op}
    (hl : ∀ op ∈ ops, op.Legal) (hp : ∀ op ∈ ops, op.Positive)
    {srt : List VData → List VData} (hsrt : ∀ l, (srt l).Perm l) {a : PyGraph.Args}
    (ha : 1 ≤ a.lowerBound) :
    ∃ pg1 pg2 r r', runs ops pg = .ok pg1 ∧
      pg1.getCorrespondence srt ys.length a = .ok (pg2, r) ∧
      getElements srt pg1 xs ys a = .ok (pg2, r') ∧
      (r = .raise ↔ r' = .raise) ∧
      ∀ f s, r = .ret (f, s) → ∃ us vs, r' = .ret (us, vs) ∧ us.length = f.length ∧
        vs.length = s.length ∧ f.length = s.length ∧
        (∀ k, k < f.length → ∃ i, f[k]? = some i ∧ i < xs.length ∧ us[k]? = xs[i]?) ∧
        ∀ k, k < s.length → ∃ j, s[k]? = some j ∧ j < ys.length ∧ vs[k]? = ys[j]? := by
  obtain ⟨pg1, pg2, r, h1, h2, h3⟩ := C27_indices h hl hp hsrt ha
  have hpos : 0 < xs.length * ys.length := by
    obtain ⟨G, hF⟩ := h.fresh; exact Nat.pos_of_ne_zero hF.pyok.pos
  have hx : 0 < xs.length := Nat.pos_of_mul_pos_right hpos
  have hy : 0 < ys.length := Nat.pos_of_mul_pos_left hpos
  have : Inhabited α := ⟨xs[0]⟩
  have : Inhabited β := ⟨ys[0]⟩
  cases r with
  | raise =>
    refine ⟨pg1, pg2, .raise, .raise, h1, h2, ?_, by simp, fun f s hr => by cases hr⟩
    unfold getElements
    rw [h2]; rfl
  | ret fs =>
    obtain ⟨f, s⟩ := fs
    obtain ⟨l, _, _, e1, e2, e3⟩ := h3 f s rfl
    have hf : ∀ i ∈ f, i < xs.length := by
      intro i hi
      obtain ⟨k, hk, rfl⟩ := List.getElem_of_mem hi
      have := (e3 k (by omega)).1
      rwa [List.getD_eq_getElem?_getD, List.getElem?_eq_getElem hk] at this
    have hs : ∀ i ∈ s, i < ys.length := by
      intro i hi
      obtain ⟨k, hk, rfl⟩ := List.getElem_of_mem hi
      have := (e3 k (by omega)).2.1
      rwa [List.getD_eq_getElem?_getD, List.getElem?_eq_getElem hk] at this
    refine ⟨pg1, pg2, .ret (f, s), .ret (f.map fun i => xs[i]?.getD default,
      s.map fun i => ys[i]?.getD default), h1, h2, ?_, by simp, ?_⟩
    · unfold getElements
      rw [h2, ok_bind]
      simp only [pickAll_spec hf, pickAll_spec hs]
    · intro f' s' hr
      injection hr with hr
      injection hr with hf' hs'
      subst hf' hs'
      refine ⟨_, _, rfl, by simp, by simp, by omega, ?_, ?_⟩
      · intro k hk
        have hi := hf f[k] (List.getElem_mem hk)
        refine ⟨f[k], by simp [hk], hi, ?_⟩
        simp [hk, hi]
      · intro k hk
        have hi := hs s[k] (List.getElem_mem hk)
        refine ⟨s[k], by simp [hk], hi, ?_⟩
        simp [hk, hi]

/-- The hypotheses are met; the points on a line themselves. -/
example : (∃ S, Usable line ([0, 2, 5].length * [10, 12, 15].length) S) ∧
    (getElements byDegree line [(0 : Int), 2, 5] [(10 : Int), 12, 15] {} >>= fun x => .ok x.2) =
      .ok (.ret ([0, 2, 5], [10, 12, 15])) :=
  ⟨line_usable, by decide +kernel⟩

/-- Where every index is in range, the two loops go hand in hand. -/
theorem consumeElements_eq {α β : Type} {xs : List α} {ys : List β} [Inhabited α] [Inhabited β] :
    ∀ (fuel : Nat) (pg pg' : PyGraph) (E E' : Enum) (cs : List (List Nat × List Nat)),
      pg.consumeCorr ys.length fuel E = .ok (pg', E', cs.map .ret) →
      (∀ c ∈ cs, (∀ i ∈ c.1, i < xs.length) ∧ ∀ j ∈ c.2, j < ys.length) →
      consumeElements xs ys fuel pg E = .ok (pg', E', cs.map fun c =>
        .ret (c.1.map fun i => xs[i]?.getD default, c.2.map fun j => ys[j]?.getD default)) := by
  intro fuel
  induction fuel with
  | zero => intro pg pg' E E' cs h; cases h
  | succ fuel ih =>
    intro pg pg' E E' cs h hr
    unfold PyGraph.consumeCorr at h
    unfold consumeElements
    obtain ⟨⟨pg1, E1, r⟩, h1, h2⟩ := bind_eq_ok.1 h
    rw [h1, ok_bind]
    rcases r with (_ | ⟨f, s⟩) | _
    · simp only at h2 ⊢
      injection h2 with h2
      injection h2 with e1 h2
      injection h2 with e2 h2
      subst e1 e2
      cases cs with
      | nil => rfl
      | cons c cs => cases h2
    · simp only at h2
      obtain ⟨⟨pg2, E2, rs⟩, h3, h4⟩ := bind_eq_ok.1 h2
      injection h4 with h4
      injection h4 with e1 h4
      injection h4 with e2 h4
      subst e1 e2
      cases cs with
      | nil => cases h4
      | cons c cs =>
        rw [List.map_cons] at h4
        injection h4 with h5 h6
        injection h5 with h5
        subst h5
        have hc := hr _ List.mem_cons_self
        simp only [pickAll_spec hc.1, pickAll_spec hc.2]
        rw [ih pg1 pg2 E1 E2 cs (by rw [← h6]; exact h3)
          (fun c h => hr c (List.mem_cons_of_mem _ h)), ok_bind]
        rfl
    · simp only at h2
      injection h2 with h2
      injection h2 with _ h2
      injection h2 with _ h2
      cases cs with
      | nil => cases h2
      | cons c cs => simp at h2

/-- **C56** for iterations: `list(all_correspondences(k, return_indices=False))`, after any
history, has the same length as `list(all_correspondences(k))` and consists of the elements at the
indices in that list; nothing raises. -/
theorem C56_iterator {α β : Type} {xs : List α} {ys : List β}
    (h : Usable pg (xs.length * ys.length) S) {ops : List Op} (hl : ∀ op ∈ ops, op.Legal)
    (k : Nat) :
    ∃ (pg1 pg2 : PyGraph) (cs : List (List Nat × List Nat)) (es : List (List α × List β)),
      runs ops pg = .ok pg1 ∧ pg1.listCorrespondences ys.length k = .ok (pg2, cs.map .ret) ∧
      listElements pg1 xs ys k = .ok (pg2, es.map .ret) ∧
      es.map (fun e => (e.1.map some, e.2.map some)) =
        cs.map (fun c => (c.1.map fun i => xs[i]?, c.2.map fun j => ys[j]?)) := by
  have hpos : 0 < xs.length * ys.length := by
    obtain ⟨G, hF⟩ := h.fresh; exact Nat.pos_of_ne_zero hF.pyok.pos
  have hx : 0 < xs.length := Nat.pos_of_mul_pos_right hpos
  have hy : 0 < ys.length := Nat.pos_of_mul_pos_left hpos
  have : Inhabited α := ⟨xs[0]⟩
  have : Inhabited β := ⟨ys[0]⟩
  obtain ⟨pg1, pg2, ls, h1, h2, _, h4⟩ := C19_sound h hl k
  have hC := listCorrespondences_eq (M := xs.length) (N := ys.length) h2
    (fun c hc => (h4 c hc).1.range)
  have hin : ∀ c ∈ ls.map (fun c => (firsts ys.length c, seconds ys.length c)),
      (∀ i ∈ c.1, i < xs.length) ∧ ∀ j ∈ c.2, j < ys.length := by
    intro c hc
    obtain ⟨l, hl, rfl⟩ := List.mem_map.1 hc
    refine ⟨fun i hi => ?_, fun j hj => ?_⟩
    · obtain ⟨v, hv, rfl⟩ := List.mem_map.1 hi
      have := (h4 l hl).1.range v hv
      exact Nat.div_lt_of_lt_mul (by rw [Nat.mul_comm]; omega)
    · obtain ⟨v, hv, rfl⟩ := List.mem_map.1 hj
      exact Nat.mod_lt _ hy
  refine ⟨pg1, pg2, ls.map (fun c => (firsts ys.length c, seconds ys.length c)),
    (ls.map (fun c => (firsts ys.length c, seconds ys.length c))).map fun c =>
      (c.1.map fun i => xs[i]?.getD default, c.2.map fun j => ys[j]?.getD default), h1,
    by rw [hC, List.map_map]; rfl, ?_, ?_⟩
  · unfold PyGraph.listCorrespondences at hC
    unfold listElements
    obtain ⟨E, e1, e2⟩ := bind_eq_ok.1 hC
    rw [e1, ok_bind]
    cases hg : pg1.G with
    | none => rw [hg] at e2; cases e2
    | some G =>
      rw [hg] at e2
      simp only at e2 ⊢
      obtain ⟨⟨pg3, E3, rs⟩, e3, e4⟩ := bind_eq_ok.1 e2
      injection e4 with e4
      injection e4 with e5 e6
      subst e5 e6
      rw [consumeElements_eq _ _ _ _ _ (ls.map (fun c => (firsts ys.length c, seconds ys.length c)))
        (by rw [e3, List.map_map]; rfl) hin, ok_bind]
      simp only [List.map_map]
      rfl
  · rw [List.map_map]
    refine List.map_congr_left fun c hc => ?_
    obtain ⟨hf, hs⟩ := hin c hc
    refine Prod.ext ?_ ?_
    · simp only [Function.comp, List.map_map]
      refine List.map_congr_left fun i hi => ?_
      simp [List.getElem?_eq_getElem (hf i hi)]
    · simp only [Function.comp, List.map_map]
      refine List.map_congr_left fun i hi => ?_
      simp [List.getElem?_eq_getElem (hs i hi)]

/-- The hypotheses are met; a matching of three points on a line, as points. -/
example : (∃ S, Usable line ([0, 2, 5].length * [10, 12, 15].length) S) ∧
    (listElements line [(0 : Int), 2, 5] [(10 : Int), 12, 15] 3 >>= fun x => .ok x.2) =
      .ok [.ret ([0, 2, 5], [15, 12, 10])] :=
  ⟨line_usable, by decide +kernel⟩

/-! ## C57 -/

/-- The vertices `ps` of two graphs are matched one to one, and edges of `S2` between matched
vertices are edges of `S1`. -/
structure VertexMatching (n1 n2 : Nat) (S1 S2 : SimpleGraph Nat) (ps : List (Nat × Nat)) :
    Prop where
  range : ∀ p ∈ ps, (1 ≤ p.1 ∧ p.1 ≤ n1) ∧ (1 ≤ p.2 ∧ p.2 ≤ n2)
  first : (ps.map Prod.fst).Nodup
  second : (ps.map Prod.snd).Nodup
  edges : ∀ p ∈ ps, ∀ q ∈ ps, S2.Adj p.2 q.2 → S1.Adj p.1 q.1

theorem vertexMatching_of {n1 n2 : Nat} {S1 S2 : SimpleGraph Nat} {f s : List Nat}
    (h : IsoMatching n1 n2 S1 S2 (f.zip s)) :
    VertexMatching n1 n2 S1 S2 ((f.map (· + 1)).zip (s.map (· + 1))) := by
  have hz : (f.map (· + 1)).zip (s.map (· + 1)) = (f.zip s).map fun p => (p.1 + 1, p.2 + 1) := by
    rw [List.zip_map]; rfl
  rw [hz]
  refine ⟨?_, ?_, ?_, ?_⟩
  · intro p hp
    obtain ⟨q, hq, rfl⟩ := List.mem_map.1 hp
    have := h.range q hq
    simp only
    omega
  · rw [List.map_map]
    have := h.first.map (f := (· + 1)) (fun a b hab => by simpa using hab)
    rw [List.map_map] at this
    exact this
  · rw [List.map_map]
    have := h.second.map (f := (· + 1)) (fun a b hab => by simpa using hab)
    rw [List.map_map] at this
    exact this
  · intro p hp q hq
    obtain ⟨p', hp', rfl⟩ := List.mem_map.1 hp
    obtain ⟨q', hq', rfl⟩ := List.mem_map.1 hq
    exact h.edges p' hp' q' hq'

theorem isoCorrespondence_sound {argLR : Bool} {cap : Nat} {pg1 pg2 : PyGraph} {n1 n2 : Nat}
    {S1 S2 S : SimpleGraph Nat} (h1 : Reached pg1 n1 S1) (h2 : Reached pg2 n2 S2)
    (hb : n1 * n2 < 2 ^ 27) (he : buildIso argLR cap PyGraph.new pg1 pg2 = .ok pg)
    (h : Usable pg (n1 * n2) S) {ops : List Op} (hl : ∀ op ∈ ops, op.Legal)
    (hp : ∀ op ∈ ops, op.Positive) {srt : List VData → List VData}
    (hsrt : ∀ l, (srt l).Perm l) {a : PyGraph.Args} (ha : 1 ≤ a.lowerBound) :
    ∃ pg' pg'' r, runs ops pg = .ok pg' ∧ isoCorrespondence srt pg' pg2 a = .ok (pg'', r) ∧
      ∀ f s, r = .ret (f, s) → f.length = s.length ∧ VertexMatching n1 n2 S1 S2 (f.zip s) := by
  obtain ⟨pg', pg'', r, e1, e2, e3⟩ := C32_sound h1 h2 hb he h hl hp hsrt ha
  obtain ⟨_, G, H⟩ := h2.holds
  unfold isoCorrespondence
  rw [H.nv]
  cases r with
  | raise => exact ⟨pg', pg'', .raise, e1, by rw [e2]; rfl, fun f s hr => by cases hr⟩
  | ret fs =>
    obtain ⟨f, s⟩ := fs
    obtain ⟨d1, d2⟩ := e3 f s rfl
    refine ⟨pg', pg'', .ret (f.map (· + 1), s.map (· + 1)), e1, by rw [e2]; rfl, ?_⟩
    intro f' s' hr
    injection hr with hr
    injection hr with a1 a2
    subst a1 a2
    exact ⟨by simpa using d1, vertexMatching_of d2⟩

/-- **C57**: `get_correspondence(return_indices=True)` of an `IsoGraph`, after any history,
answers with vertices of the two graphs, numbered from 1, that form a subgraph
isomorphism. -/
theorem C57_vertices {argLR : Bool} {cap : Nat} {pg1 pg2 : PyGraph} {n1 n2 : Nat}
    {S1 S2 S : SimpleGraph Nat} (h1 : Reached pg1 n1 S1) (h2 : Reached pg2 n2 S2)
    (hb : n1 * n2 < 2 ^ 27) (he : buildIso argLR cap PyGraph.new pg1 pg2 = .ok pg)
    (h : Usable pg (n1 * n2) S) {ops : List Op} (hl : ∀ op ∈ ops, op.Legal)
    (hp : ∀ op ∈ ops, op.Positive) {srt : List VData → List VData}
    (hsrt : ∀ l, (srt l).Perm l) {a : PyGraph.Args} (ha : 1 ≤ a.lowerBound) :
    ∃ pg' pg'' r, runs ops pg = .ok pg' ∧ isoCorrespondence srt pg' pg2 a = .ok (pg'', r) ∧
      ∀ f s, r = .ret (f, s) → f.length = s.length ∧ VertexMatching n1 n2 S1 S2 (f.zip s) :=
  isoCorrespondence_sound h1 h2 hb he h hl hp hsrt ha

/-- **C57** for `return_indices=False`: exactly what is returned.  If a matched vertex of the second
graph has a neighbour that is not matched, but has the number of a matched vertex of the first
graph, the call raises `KeyError`.  If there is none, it returns three dictionaries: the second one
maps every matched vertex of the second graph to those matched neighbours whose numbers are also
among those of the matched vertices of the first graph, the first one maps its partner to the
partners of those, and the third one is the correspondence. -/
theorem C57_dicts_exactly {argLR : Bool} {cap : Nat} {pg1 pg2 : PyGraph} {n1 n2 : Nat}
    {S1 S2 S : SimpleGraph Nat} (h1 : Reached pg1 n1 S1) (h2 : Reached pg2 n2 S2)
    (hb : n1 * n2 < 2 ^ 27) (he : buildIso argLR cap PyGraph.new pg1 pg2 = .ok pg)
    (h : Usable pg (n1 * n2) S) {ops : List Op} (hl : ∀ op ∈ ops, op.Legal)
    (hp : ∀ op ∈ ops, op.Positive) {srt : List VData → List VData}
    (hsrt : ∀ l, (srt l).Perm l) {a : PyGraph.Args} (ha : 1 ≤ a.lowerBound) :
    ∃ pg' pg'' r, runs ops pg = .ok pg' ∧ isoCorrespondence srt pg' pg2 a = .ok (pg'', r) ∧
      (r = .raise → isoDicts srt pg' pg2 a = .ok (pg'', .raise)) ∧
      ∀ f s, r = .ret (f, s) →
        ((∃ w ∈ s, ∃ v ∈ f, S2.Adj w v ∧ v ∉ s) →
          isoDicts srt pg' pg2 a = .ok (pg'', .raise)) ∧
        ((∀ w ∈ s, ∀ v ∈ f, S2.Adj w v → v ∈ s) →
          ∃ g1 g2, isoDicts srt pg' pg2 a = .ok (pg'', .ret (g1, g2, f.zip s)) ∧
            g1.map Prod.fst = f ∧ g2.map Prod.fst = s ∧
            ∀ p ∈ f.zip s, ∃ l1 l2, g1.get p.1 = some l1 ∧ g2.get p.2 = some l2 ∧
              (∀ v, v ∈ l2 ↔ v ∈ s ∧ v ∈ f ∧ S2.Adj p.2 v) ∧
              ∀ u, u ∈ l1 ↔ ∃ v, (u, v) ∈ f.zip s ∧ v ∈ f ∧ S2.Adj p.2 v) := by
  obtain ⟨pg', pg'', r, e1, e2, e3⟩ := isoCorrespondence_sound h1 h2 hb he h hl hp hsrt ha
  obtain ⟨_, G, H⟩ := h2.holds
  refine ⟨pg', pg'', r, e1, e2, ?_, ?_⟩
  · rintro rfl
    unfold isoDicts
    rw [e2]; rfl
  · rintro f s rfl
    obtain ⟨hlen, hm⟩ := e3 f s rfl
    have m1 : (f.zip s).map Prod.fst = f := List.map_fst_zip (by omega)
    have m2 : (f.zip s).map Prod.snd = s := List.map_snd_zip (by omega)
    have hv : ∀ v ∈ s, v ≤ n2 := by
      intro v hv
      rw [← m2] at hv
      obtain ⟨p, hp', rfl⟩ := List.mem_map.1 hv
      exact (hm.range p hp').2.2
    have hex : ∀ v, ∃ l, v ∈ s → pg2.getVertexData v = .ok l ∧ ∀ u, u ∈ l ↔ S2.Adj v u := by
      intro v
      by_cases hvs : v ∈ s
      · obtain ⟨l, a1, _, a3⟩ := neighbours_spec H (hv v hvs)
        exact ⟨l, fun _ => ⟨a1, a3⟩⟩
      · exact ⟨[], fun h => absurd h hvs⟩
    choose nbr hnbr using hex
    have ff : f.Nodup := by rw [← m1]; exact hm.first
    have ss : s.Nodup := by rw [← m2]; exact hm.second
    constructor
    · rintro ⟨w, hw, v, hvf, hadj, hvs⟩
      obtain ⟨p, hp', rfl⟩ := List.mem_map.1 (m2 ▸ hw)
      unfold isoDicts
      rw [e2, ok_bind]
      simp only
      rw [isoFormat_raise hlen ss (fun v hv => (hnbr v hv).1)
        ⟨p, hp', v, ((hnbr _ hw).2 v).2 hadj, hvf, hvs⟩, ok_bind]
    intro hfs
    have hfs' : ∀ w ∈ s, ∀ v ∈ nbr w, v ∈ f → v ∈ s :=
      fun w hw v hv hvf => hfs w hw v hvf (((hnbr w hw).2 v).1 hv)
    obtain ⟨back, b1, b2⟩ := isoFormat_spec hlen ff ss (fun v hv => (hnbr v hv).1) hfs'
    refine ⟨(f.zip s).map fun p => (p.1, ((nbr p.2).filter (· ∈ f)).map back),
      (f.zip s).map fun p => (p.2, (nbr p.2).filter (· ∈ f)), ?_, ?_, ?_, ?_⟩
    · unfold isoDicts
      rw [e2, ok_bind]
      simp only
      rw [b2, ok_bind]
    · rw [List.map_map]; exact m1
    · rw [List.map_map]; exact m2
    · intro p hp'
      have ps : p.2 ∈ s := by rw [← m2]; exact List.mem_map.2 ⟨p, hp', rfl⟩
      refine ⟨((nbr p.2).filter (· ∈ f)).map back, (nbr p.2).filter (· ∈ f), ?_, ?_, ?_, ?_⟩
      · refine Dict.get_of_mem ?_ (List.mem_map.2 ⟨p, hp', rfl⟩)
        rw [List.map_map]
        exact hm.first
      · refine Dict.get_of_mem ?_ (List.mem_map.2 ⟨p, hp', rfl⟩)
        rw [List.map_map]
        exact hm.second
      · intro v
        rw [List.mem_filter, (hnbr p.2 ps).2 v]
        simp only [decide_eq_true_eq]
        constructor
        · rintro ⟨c1, c2⟩; exact ⟨hfs _ ps v c2 c1, c2, c1⟩
        · rintro ⟨_, c2, c1⟩; exact ⟨c1, c2⟩
      · intro u
        rw [List.mem_map]
        constructor
        · rintro ⟨v, hv', rfl⟩
          obtain ⟨c1, c2⟩ := List.mem_filter.1 hv'
          have c2 : v ∈ f := by simpa using c2
          have hvs : v ∈ s := hfs' _ ps v c1 c2
          rw [← m2] at hvs
          obtain ⟨q, hq, rfl⟩ := List.mem_map.1 hvs
          exact ⟨q.2, by rw [b1 q hq]; exact hq, c2, ((hnbr p.2 ps).2 _).1 c1⟩
        · rintro ⟨v, hv', hvf, hadj⟩
          exact ⟨v, List.mem_filter.2 ⟨((hnbr p.2 ps).2 v).2 hadj, by simpa using hvf⟩,
            b1 _ hv'⟩

/-- **C57** for `return_indices=False`, as far as it is true.  The full property: the answer
consists of the two matched subgraphs, each a dictionary from vertices to neighbours, and the
dictionary of the isomorphism, and there is an answer whenever `return_indices=True` gives
one.  Proved: this is so if the numbers of matched neighbours in the second graph and of neighbours
that are matched in the first are the same; for instance if both lists of matched vertices have the
same elements.  Then the second dictionary maps every matched vertex of the second graph to its
matched neighbours, the first one maps its partner to the partners of those, and the third one is
the correspondence.  Missing, because false (`C57_dicts_refuted`; what happens then is
`C57_dicts_exactly`): the other cases. -/
theorem C57_dicts_partial {argLR : Bool} {cap : Nat} {pg1 pg2 : PyGraph} {n1 n2 : Nat}
    {S1 S2 S : SimpleGraph Nat} (h1 : Reached pg1 n1 S1) (h2 : Reached pg2 n2 S2)
    (hb : n1 * n2 < 2 ^ 27) (he : buildIso argLR cap PyGraph.new pg1 pg2 = .ok pg)
    (h : Usable pg (n1 * n2) S) {ops : List Op} (hl : ∀ op ∈ ops, op.Legal)
    (hp : ∀ op ∈ ops, op.Positive) {srt : List VData → List VData}
    (hsrt : ∀ l, (srt l).Perm l) {a : PyGraph.Args} (ha : 1 ≤ a.lowerBound) :
    ∃ pg' pg'' r, runs ops pg = .ok pg' ∧ isoCorrespondence srt pg' pg2 a = .ok (pg'', r) ∧
      (r = .raise → isoDicts srt pg' pg2 a = .ok (pg'', .raise)) ∧
      ∀ f s, r = .ret (f, s) → (∀ w ∈ s, ∀ v, S2.Adj w v → (v ∈ f ↔ v ∈ s)) →
        ∃ g1 g2, isoDicts srt pg' pg2 a = .ok (pg'', .ret (g1, g2, f.zip s)) ∧
          g1.map Prod.fst = f ∧ g2.map Prod.fst = s ∧
          ∀ p ∈ f.zip s, ∃ l1 l2, g1.get p.1 = some l1 ∧ g2.get p.2 = some l2 ∧
            (∀ v, v ∈ l2 ↔ v ∈ s ∧ S2.Adj p.2 v) ∧
            ∀ u, u ∈ l1 ↔ ∃ v, (u, v) ∈ f.zip s ∧ S2.Adj p.2 v := by
  obtain ⟨pg', pg'', r, e1, e2, e3, e4⟩ := C57_dicts_exactly h1 h2 hb he h hl hp hsrt ha
  refine ⟨pg', pg'', r, e1, e2, e3, fun f s hr hfs => ?_⟩
  obtain ⟨g1, g2, a1, a2, a3, a4⟩ := (e4 f s hr).2 fun w hw v hv hadj => (hfs w hw v hadj).1 hv
  refine ⟨g1, g2, a1, a2, a3, fun p hp' => ?_⟩
  obtain ⟨l1, l2, b1, b2, b3, b4⟩ := a4 p hp'
  have ps : p.2 ∈ s := (List.of_mem_zip hp').2
  refine ⟨l1, l2, b1, b2, fun v => ?_, fun u => ?_⟩
  · rw [b3 v]
    constructor
    · rintro ⟨c1, _, c2⟩; exact ⟨c1, c2⟩
    · rintro ⟨c1, c2⟩; exact ⟨c1, (hfs _ ps v c2).2 c1, c2⟩
  · rw [b4 u]
    constructor
    · rintro ⟨v, c1, _, c2⟩; exact ⟨v, c1, c2⟩
    · rintro ⟨v, c1, c2⟩
      exact ⟨v, c1, (hfs _ ps v c2).2 (List.of_mem_zip c1).2, c2⟩

namespace Sample

instance : DecidableEq IsoDicts :=
  inferInstanceAs (DecidableEq (List (Nat × List Nat) × List (Nat × List Nat) × List (Nat × Nat)))

/-- One edge and an isolated vertex. -/
def edgeRows : List (Nat × Nat) := [(2, 3)]

def oneEdge : PyGraph := Sample.get PyGraph.new (PyGraph.fromEdgelist true 64 edgeRows 3)

/-- `IsoGraph(oneEdge, path)` after `build_edges()`. -/
def iso2 : PyGraph := Sample.get PyGraph.new (buildIso true 1000 PyGraph.new oneEdge path)

/-- `IsoGraph(path, path)` after `build_edges()`. -/
def iso3 : PyGraph := Sample.get PyGraph.new (buildIso true 1000 PyGraph.new path path)

theorem iso3_eq : buildIso true 1000 PyGraph.new path path = .ok iso3 := by decide +kernel

theorem iso3_usable : ∃ S, Usable iso3 (3 * 3) S := by
  obtain ⟨pg, S, e1, e2, _, e3⟩ := C32_cliques_are_matchings (argLR := true) (cap := 1000)
    path_reached path_reached (by decide) (by decide) (by decide)
  rw [iso3_eq] at e1
  cases e1
  obtain ⟨l, d1, d2, d3⟩ := e3 [(0, 0), (1, 1)] ⟨⟨by decide, by decide, by decide⟩, by
    intro p hp q hq h
    simp only [List.mem_cons, List.not_mem_nil, or_false] at hp hq
    rcases hp with rfl | rfl <;> rcases hq with rfl | rfl <;> exact h⟩
  refine ⟨S, e2, ?_, pairId 3 0 0, pairId 3 1 1, d1.clique ((d3 _).2 ⟨(0, 0), by decide, rfl⟩)
    ((d3 _).2 ⟨(1, 1), by decide, rfl⟩) (by decide)⟩
  intro G hG
  have : (iso3.G.map fun G => G.dangling) = some false := by decide +kernel
  rw [hG] at this
  simpa using this

end Sample

/-- **C57** for `return_indices=False` is false.  For the path in the cycle, vertex 2 of the
path is matched together with both of its neighbours 1 and 3, and the dictionary of the
second subgraph lacks 3.  For the path and a graph with one edge `KeyError` is raised though
there is a correspondence. -/
theorem C57_dicts_refuted :
    (isoCorrespondence byDegree iso path {} >>= fun x => .ok x.2) =
      .ok (.ret ([1, 2, 4], [2, 1, 3])) ∧
    (isoDicts byDegree iso path {} >>= fun x => .ok x.2) =
      .ok (.ret ([(1, [2]), (2, [1]), (4, [1])], [(2, [1]), (1, [2]), (3, [2])],
        [(1, 2), (2, 1), (4, 3)])) ∧
    (ofPairs pathRows).Adj 2 3 ∧
    (isoCorrespondence byDegree iso2 path {} >>= fun x => .ok x.2) =
      .ok (.ret ([1, 2], [1, 3])) ∧
    (isoDicts byDegree iso2 path {} >>= fun x => .ok x.2) = .ok .raise := by
  refine ⟨by decide +kernel, by decide +kernel, ⟨by decide, by decide⟩, by decide +kernel,
    by decide +kernel⟩

/-- The hypotheses of C57 are met; for the path in itself both lists of vertices have the same
elements, and the dictionaries are right. -/
example : (∃ S, Usable iso (4 * 3) S) ∧ (∃ S, Usable iso3 (3 * 3) S) ∧
    (isoCorrespondence byDegree iso3 path {} >>= fun x => .ok x.2) =
      .ok (.ret ([1, 2, 3], [1, 2, 3])) ∧
    (isoDicts byDegree iso3 path {} >>= fun x => .ok x.2) =
      .ok (.ret ([(1, [2]), (2, [1, 3]), (3, [2])], [(1, [2]), (2, [1, 3]), (3, [2])],
        [(1, 1), (2, 2), (3, 3)])) :=
  ⟨iso_usable, iso3_usable, by decide +kernel, by decide +kernel⟩

/-- The dictionaries of C57 behave as Python's: after `d[k] = v`, `d[k]` is `v` and all other keys keep
their values. -/
theorem C57_dict {κ ν : Type} [DecidableEq κ] (d : Dict κ ν) (k x : κ) (v : ν) :
    (d.set k v).get x = if x = k then some v else d.get x := by
  induction d with
  | nil =>
    by_cases h : x = k
    · simp [Dict.set, Dict.get, h]
    · simp [Dict.set, Dict.get, h, Ne.symm h]
  | cons p d ih =>
    obtain ⟨k', v'⟩ := p
    unfold Dict.get at ih ⊢
    unfold Dict.set
    by_cases hk : k' = k
    · rw [if_pos hk]
      by_cases h : x = k
      · simp [hk, h]
      · simp [hk, h, Ne.symm h]
    · rw [if_neg hk]
      by_cases hx : k' = x
      · have : x ≠ k := fun h => hk (hx.trans h)
        simp [hx, this]
      · simp only [List.find?_cons, hx, decide_false]
        exact ih

/-- A key that is set again. -/
example : Dict.get (Dict.set (Dict.set (Dict.set [] 1 2) 3 4) 1 5) 1 = some 5 := by decide

/-- **C42** for `IsoGraph`: `build_edges()` raises if either graph was never loaded, whatever the other
one is, and succeeds if both were, unless there are too many pairs. -/
theorem C42_iso {argLR : Bool} {cap : Nat} (pg g : PyGraph) :
    buildIso argLR cap pg PyGraph.new g = .error .throw ∧
    buildIso argLR cap pg g PyGraph.new = .error .throw ∧
    ∀ {pg1 pg2 : PyGraph} {n1 n2 : Nat} {S1 S2 : SimpleGraph Nat}, Reached pg1 n1 S1 →
      Reached pg2 n2 S2 → n1 ≠ 0 → n2 ≠ 0 → n1 * n2 < 2 ^ 27 →
      ∃ pg', buildIso argLR cap PyGraph.new pg1 pg2 = .ok pg' := by
  refine ⟨if_pos (Or.inl rfl), if_pos (Or.inr rfl), fun h1 h2 z1 z2 hb => ?_⟩
  obtain ⟨pg', _, e, _⟩ := C32_cliques_are_matchings (argLR := argLR) (cap := cap) h1 h2 z1 z2 hb
  exact ⟨pg', e⟩

/-- The hypotheses of `C42_iso` are met by the four-cycle and the path. -/
example : buildIso true 1000 PyGraph.new cycle PyGraph.new = .error .throw ∧
    ∃ pg', buildIso true 1000 PyGraph.new cycle path = .ok pg' :=
  ⟨(C42_iso _ _).2.1, (C42_iso PyGraph.new PyGraph.new).2.2 cycle_reached path_reached (by decide)
    (by decide) (by decide)⟩

end CM
