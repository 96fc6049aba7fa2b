import Verif.Lemmas.Budget
import Verif.Lemmas.Mono
import Verif.Props.Sample

/-!
# C09-C17, C25: `get_max_clique`

In all statements `Usable pg n S` says that `pg` was returned by a loader for the graph `S`
on `1 .. n`, that `S` has an edge and that loading left the buffer in place; `srt` is the
implementation's sort, assumed only to permute its input.
-/

namespace CM

open Spec Graph

open Sample (byDegree byDegree_perm)

variable {pg : PyGraph} {n : Nat} {S : SimpleGraph Nat}

/-! ## C09 -/

/-- **C09**: after any history of searches, resets and complete iterations, with any bounds,
flags and clock behaviour, a call returns without touching memory it should not, and
if it returns a list, that list is a clique: increasing, within `1 .. n`, pairwise adjacent,
and at least as long as the lower bound. -/
theorem C09_returned_is_clique (h : Usable pg n S) {ops : List Op}
    (hl : ∀ op ∈ ops, op.Legal) (hp : ∀ op ∈ ops, op.Positive)
    {srt : List VData → List VData} (hsrt : ∀ l, (srt l).Perm l) {a : PyGraph.Args}
    (ha : 1 ≤ a.lowerBound) :
    ∃ pg1 pg2 r, runs ops pg = .ok pg1 ∧ pg1.getMaxClique srt a = .ok (pg2, r) ∧
      ∀ l, r = .ret l → IsCliqueList S n l ∧ a.lowerBound ≤ l.length := by
  obtain ⟨G, hF⟩ := h.fresh
  obtain ⟨pg1, G1, a1, a2, _, _, a3, _⟩ := runs_spec ops hF.pyok hl
  obtain ⟨pg2, G2, b1, b2, _, _, b4, _⟩ := search_any a2 hsrt a
  refine ⟨pg1, pg2, _, a1, b1, ?_⟩
  intro l hr
  split at hr
  · cases hr
  · injection hr with hr
    subst hr
    exact ⟨stored_clique b2 (b4 ha (a3 hp hF.loc)), by omega⟩

/-- **C09** with `lower_bound = 0` allowed anywhere: the result is still increasing and
pairwise adjacent (it may be the single placeholder vertex `0`). -/
theorem C09_any_lower_bound (h : Usable pg n S) {ops : List Op}
    (hl : ∀ op ∈ ops, op.Legal)
    {srt : List VData → List VData} (hsrt : ∀ l, (srt l).Perm l) (a : PyGraph.Args) :
    ∃ pg1 pg2 r, runs ops pg = .ok pg1 ∧ pg1.getMaxClique srt a = .ok (pg2, r) ∧
      ∀ l, r = .ret l → l = [0] ∨ (IsCliqueList S n l ∧ a.lowerBound ≤ l.length) := by
  obtain ⟨G, hF⟩ := h.fresh
  obtain ⟨pg1, G1, a1, a2, _⟩ := runs_spec ops hF.pyok hl
  obtain ⟨pg2, G2, b1, b2, _⟩ := search_any a2 hsrt a
  refine ⟨pg1, pg2, _, a1, b1, ?_⟩
  intro l hr
  split at hr
  · cases hr
  · injection hr with hr
    subst hr
    by_cases h0 : G2.curLoc = 0
    · left
      have hcl := b2.ok.cliq 0 b2.ok.wf.npos
      apply sorted_ext
      · exact cliqueAt_sorted b2.ok.wf.str b2.ok.loc
      · simp
      · intro x
        unfold stored
        rw [h0, mem_cliqueAt, List.mem_singleton]
        constructor
        · rintro ⟨i, hi, rfl⟩
          exact b2.of.zero ⟨i, hcl.2.1 i hi, rfl⟩
        · rintro rfl
          exact ⟨_, hcl.1, b2.ok.wf.self 0 b2.ok.wf.npos⟩
    · right
      exact ⟨stored_clique b2 h0, by omega⟩

/-- A history with searches of every kind, a reset and iterations. -/
def Sample.history : List Op :=
  [.search byDegree { upperBound := 2, timeLimit := some (some 5) }, .list 2, .reset,
    .search List.reverse { lowerBound := 9, useDfs := false }, .list 1]

example : (∀ op ∈ Sample.history, op.Legal) ∧ (∀ op ∈ Sample.history, op.Positive) := by
  constructor
  · intro op hop
    simp only [Sample.history, List.mem_cons, List.not_mem_nil, or_false] at hop
    rcases hop with rfl | rfl | rfl | rfl | rfl
    · exact fun _ => byDegree_perm _
    · trivial
    · trivial
    · exact fun l => List.reverse_perm l
    · trivial
  · intro op hop
    simp only [Sample.history, List.mem_cons, List.not_mem_nil, or_false] at hop
    rcases hop with rfl | rfl | rfl | rfl | rfl <;> simp [Op.Positive]

/-! ## C10 -/

/-- **C10**: on a freshly loaded graph an untimed search returns a maximum clique, with or
without the heuristic and whatever its tie-breaking, for every lower bound below the clique
number and every upper bound not below it. -/
theorem C10_untimed_exact (h : Usable pg n S) {srt : List VData → List VData}
    (hsrt : ∀ l, (srt l).Perm l) (a : PyGraph.Args) (hd : a.useDfs = true)
    (ht : a.timeLimit = none)
    (hu : ∀ l, IsCliqueList S n l → l.length ≤ a.upperBound)
    (hlb : a.lowerBound = 1 ∨
      (1 ≤ a.lowerBound ∧ ∃ l, IsCliqueList S n l ∧ a.lowerBound < l.length)) :
    ∃ pg' l, pg.getMaxClique srt a = .ok (pg', .ret l) ∧ IsMaxCliqueList S n l := by
  obtain ⟨G, hF⟩ := h.fresh
  obtain ⟨pg', l, h1, h2, _⟩ := search_honest hF.pyok
    (by unfold Honest; rw [hF.cm]; exact Nat.zero_le _) hsrt a hF.mcs hF.lim hF.loc
    (by omega) hd (Or.inl ht) (Or.inl ht) hu
    (hlb.imp_right fun h => h.2)
  exact ⟨pg', l, h1, h2⟩

/-- **C10**: `get_max_clique()` with default arguments, on every graph with up to 65535
vertices. -/
theorem C10_default_call (h : Usable pg n S) (hn : n ≤ 65535) {srt : List VData → List VData}
    (hsrt : ∀ l, (srt l).Perm l) :
    ∃ pg' l, pg.getMaxClique srt {} = .ok (pg', .ret l) ∧ IsMaxCliqueList S n l :=
  C10_untimed_exact h hsrt {} rfl rfl
    (fun _ hl => Nat.le_trans hl.length_le hn) (Or.inl rfl)

example : ∃ pg' l, Sample.kite.getMaxClique byDegree {} = .ok (pg', .ret l) ∧
    IsMaxCliqueList (ofPairs Sample.rows) 5 l :=
  C10_default_call Sample.kite_usable (by decide) (fun _ => byDegree_perm _)

/-! ## C11 -/

/-- **C11**: on a fresh graph a call with `lower_bound = L ≥ 2` raises exactly if no clique
has more than `L` vertices, and otherwise returns a maximum clique. -/
theorem C11_lower_bound (h : Usable pg n S) {srt : List VData → List VData}
    (hsrt : ∀ l, (srt l).Perm l) (a : PyGraph.Args) (hd : a.useDfs = true)
    (ht : a.timeLimit = none)
    (hu : ∀ l, IsCliqueList S n l → l.length ≤ a.upperBound) (hlb : 2 ≤ a.lowerBound) :
    ∃ pg' r, pg.getMaxClique srt a = .ok (pg', r) ∧
      (r = .raise ↔ ∀ l, IsCliqueList S n l → l.length ≤ a.lowerBound) ∧
      ∀ l, r = .ret l → IsMaxCliqueList S n l ∧ a.lowerBound < l.length := by
  obtain ⟨G, hF⟩ := h.fresh
  obtain ⟨pg', r, h1, _, _, h2, h3⟩ := fresh_search hF hsrt a (by omega) hd (Or.inl ht)
  refine ⟨pg', r, h1, ⟨?_, ?_⟩, ?_⟩
  · intro hr l hl
    have e1 := (h3 hr).2 l hl
    have e2 := hu l hl
    omega
  · intro hall
    cases r with
    | raise => rfl
    | ret l =>
      obtain ⟨c1, c2, _⟩ := h2 l rfl
      have e1 := c2 hlb
      have e2 := hall l c1
      omega
  · intro l hr
    obtain ⟨c1, c2, c3⟩ := h2 l hr
    refine ⟨⟨c1, fun l' hl' => ?_⟩, c2 hlb⟩
    have e1 := c3 l' hl'
    have e2 := hu l' hl'
    omega

example : (Sample.kite.getMaxClique byDegree { lowerBound := 4 } >>= fun x => .ok x.2) =
      .ok .raise ∧
    (Sample.kite.getMaxClique byDegree { lowerBound := 3 } >>= fun x => .ok x.2) =
      .ok (.ret [1, 2, 3, 4]) := by
  decide +kernel

/-! ## C12 -/

/-- **C12**, as far as it is true.  The full property: the result is a largest clique among
those with at most `upper_bound` vertices.  Proved: the result is a clique at least as long as
the smaller of `upper_bound` and the clique number, so it is maximum if no clique exceeds
`upper_bound`.  Missing, because false (`C12_refuted`): that it is no longer than
`upper_bound`. -/
theorem C12_upper_bound_partial (h : Usable pg n S) {srt : List VData → List VData}
    (hsrt : ∀ l, (srt l).Perm l) (a : PyGraph.Args) (hd : a.useDfs = true)
    (ht : a.timeLimit = none) (hlb : a.lowerBound = 1) :
    ∃ pg' l, pg.getMaxClique srt a = .ok (pg', .ret l) ∧ IsCliqueList S n l ∧
      (∀ l', IsCliqueList S n l' → min a.upperBound l'.length ≤ l.length) ∧
      ((∀ l', IsCliqueList S n l' → l'.length ≤ a.upperBound) → IsMaxCliqueList S n l) := by
  obtain ⟨G, hF⟩ := h.fresh
  obtain ⟨pg', r, h1, _, _, h2, h3⟩ := fresh_search hF hsrt a (by omega) hd (Or.inl ht)
  cases r with
  | raise => have := (h3 rfl).1; omega
  | ret l =>
    obtain ⟨c1, _, c3⟩ := h2 l rfl
    refine ⟨pg', l, h1, c1, ?_, ?_⟩
    · intro l' hl'
      have := c3 l' hl'
      omega
    · intro hu
      refine ⟨c1, fun l' hl' => ?_⟩
      have e1 := c3 l' hl'
      have e2 := hu l' hl'
      omega

/-- **C12** fails: on the complete graph with four vertices (and a tail) a search with
`upper_bound = 2` returns a clique with four vertices. -/
theorem C12_refuted : Usable Sample.kite 5 (ofPairs Sample.rows) ∧
    (Sample.kite.getMaxClique byDegree { upperBound := 2 } >>= fun x => .ok x.2) =
      .ok (.ret [1, 2, 3, 4]) :=
  ⟨Sample.kite_usable, by decide +kernel⟩

/-! ## C13 -/

/-- The size of a result; `none` if the call raised. -/
def resultSize : PyRes (List Nat) → Option Nat
  | .ret l => some l.length
  | .raise => none

/-- **C13**: the heuristic (with any tie-breaking) never changes whether an untimed search
on a fresh graph succeeds, nor the size it reports. -/
theorem C13_heuristic_harmless (h : Usable pg n S) {srt srt' : List VData → List VData}
    (hsrt : ∀ l, (srt l).Perm l) (hsrt' : ∀ l, (srt' l).Perm l) (a : PyGraph.Args)
    (hd : a.useDfs = true) (ht : a.timeLimit = none)
    (hu : ∀ l, IsCliqueList S n l → l.length ≤ a.upperBound) (hlb : 1 ≤ a.lowerBound) :
    ∃ pg1 r1 pg2 r2,
      pg.getMaxClique srt { a with useHeuristic := true } = .ok (pg1, r1) ∧
      pg.getMaxClique srt' { a with useHeuristic := false } = .ok (pg2, r2) ∧
      resultSize r1 = resultSize r2 := by
  obtain ⟨G, hF⟩ := h.fresh
  obtain ⟨pg1, r1, h1, _, _, h2, h3⟩ := fresh_search hF hsrt { a with useHeuristic := true }
    hlb hd (Or.inl ht)
  obtain ⟨pg2, r2, k1, _, _, k2, k3⟩ := fresh_search hF hsrt' { a with useHeuristic := false }
    hlb hd (Or.inl ht)
  refine ⟨pg1, r1, pg2, r2, h1, k1, ?_⟩
  simp only at h2 h3 k2 k3
  cases r1 with
  | raise =>
    cases r2 with
    | raise => rfl
    | ret l' =>
      obtain ⟨c1, c2⟩ := h3 rfl
      obtain ⟨d1, d2, _⟩ := k2 l' rfl
      have := c2 l' d1
      have := hu l' d1
      have := d2 c1
      omega
  | ret l =>
    obtain ⟨c1, c2, c3⟩ := h2 l rfl
    cases r2 with
    | raise =>
      obtain ⟨d1, d2⟩ := k3 rfl
      have := d2 l c1
      have := hu l c1
      have := c2 d1
      omega
    | ret l' =>
      obtain ⟨d1, d2, d3⟩ := k2 l' rfl
      have e1 := c3 l' d1
      have e2 := d3 l c1
      have e3 := hu l c1
      have e4 := hu l' d1
      simp only [resultSize, Option.some.injEq]
      omega

/-- **C13**: after a heuristic-only search on a fresh graph, the exact search still returns
a maximum clique. -/
theorem C13_heuristic_then_exact (h : Usable pg n S) (hn : n ≤ 65535)
    {srt srt' : List VData → List VData} (hsrt : ∀ l, (srt l).Perm l)
    (hsrt' : ∀ l, (srt' l).Perm l) :
    ∃ pg1 l1 pg2 l2, pg.getMaxClique srt { useDfs := false } = .ok (pg1, .ret l1) ∧
      IsCliqueList S n l1 ∧
      pg1.getMaxClique srt' {} = .ok (pg2, .ret l2) ∧ IsMaxCliqueList S n l2 := by
  obtain ⟨G, hF⟩ := h.fresh
  obtain ⟨pg1, G1, a1, a2, _, _, a5, a6⟩ := search_any hF.pyok hsrt { useDfs := false }
  have hrun : Op.run pg (.search srt { useDfs := false }) = .ok pg1 := by
    show (pg.getMaxClique srt { useDfs := false } >>= _) = _
    rw [a1, ok_bind]
  obtain ⟨pg1', G1', b1, b2, _, _, b3, b4⟩ :=
    op_spec hF.pyok (op := .search srt { useDfs := false }) hsrt
  rw [hrun] at b1
  cases b1
  have hG : G1 = G1' := by have := a2.g; rw [b2.g] at this; injection this with this; exact this.symm
  subst hG
  have hpos := stored_pos a2
  obtain ⟨c1, c2⟩ := b4 ⟨Or.inl rfl, fun l hl => Nat.le_trans hl.length_le hn⟩ hF.mcs hF.lim
  have hh : Honest G1 := by
    unfold Honest
    have hcm := hF.cm
    simp only at a6
    omega
  have h0 := a5 (Nat.le_refl _) hF.loc
  obtain ⟨pg2, l2, d1, d2, _⟩ := search_honest a2 hh hsrt' {} c1 c2 h0 (Nat.le_refl _) rfl
    (Or.inl rfl) (Or.inl rfl) (fun l hl => Nat.le_trans hl.length_le hn) (Or.inl rfl)
  refine ⟨pg1, stored G1, pg2, l2, ?_, stored_clique a2 h0, d1, d2⟩
  rw [a1, if_neg]
  simp only; omega

/-! ## C14 -/

/-- **C13, C14**: in any sequence of searches (heuristic, timed, exact, any bounds, any clock)
on a loaded graph, a later result is either the same clique as an earlier one or a
strictly larger clique. -/
theorem C14_never_worse (h : Usable pg n S) {ops1 ops2 : List Op}
    (hl1 : ∀ op ∈ ops1, op.Legal) (hs1 : ∀ op ∈ ops1, op.IsSearch)
    (hp1 : ∀ op ∈ ops1, op.Positive)
    (hl2 : ∀ op ∈ ops2, op.Legal) (hs2 : ∀ op ∈ ops2, op.IsSearch)
    (hp2 : ∀ op ∈ ops2, op.Positive)
    {srt srt' : List VData → List VData} (hsrt : ∀ l, (srt l).Perm l)
    (hsrt' : ∀ l, (srt' l).Perm l) {a a' : PyGraph.Args}
    (ha : 1 ≤ a.lowerBound) (ha' : 1 ≤ a'.lowerBound) :
    ∃ pg1 pg2 r pg3 pg4 r', runs ops1 pg = .ok pg1 ∧
      pg1.getMaxClique srt a = .ok (pg2, r) ∧ runs ops2 pg2 = .ok pg3 ∧
      pg3.getMaxClique srt' a' = .ok (pg4, r') ∧
      ∀ l l', r = .ret l → r' = .ret l' →
        IsCliqueList S n l' ∧ (l' = l ∨ l.length < l'.length) := by
  obtain ⟨G, hF⟩ := h.fresh
  obtain ⟨pg1, G1, a1, a2, a3, a4, _⟩ := searches_mono ops1 hF.pyok hF.kept hl1 hs1 hp1 hF.loc
  obtain ⟨pg2, G2, b1, b2, _, _, b5, b6⟩ := search_any a2 hsrt a
  have hk2 : Kept G2 := by
    unfold Kept at a3 ⊢
    rcases b6 with ⟨c1, c2⟩ | ⟨c1, c2⟩
    · rw [c1, c2]; omega
    · omega
  obtain ⟨pg3, G3, d1, d2, d3, d4, d5⟩ := searches_mono ops2 b2 hk2 hl2 hs2 hp2 (b5 ha a4)
  obtain ⟨pg4, G4, e1, e2, _, _, e5, e6⟩ := search_any d2 hsrt' a'
  refine ⟨pg1, pg2, _, pg3, pg4, _, a1, b1, d1, e1, ?_⟩
  intro l l' hr hr'
  split at hr
  · cases hr
  split at hr'
  · cases hr'
  injection hr with hr
  injection hr' with hr'
  subst hr hr'
  refine ⟨stored_clique e2 (e5 ha' d4), ?_⟩
  have h34 : stored G4 = stored G3 ∨ (stored G3).length < (stored G4).length := by
    unfold Kept at d3
    rcases e6 with ⟨c1, c2⟩ | ⟨c1, c2⟩
    · exact Or.inl c2
    · right; omega
  rcases h34 with f | f <;> rcases d5 with g | g
  · left; rw [f, g]
  · right; rw [f]; exact g
  · right; rw [← g]; exact f
  · right; omega

/-- **C14**: a timed search whose clock never expires returns a maximum clique. -/
theorem C14_no_expiry (h : Usable pg n S) {srt : List VData → List VData}
    (hsrt : ∀ l, (srt l).Perm l) (a : PyGraph.Args) (hd : a.useDfs = true)
    (ht : a.timeLimit = some none)
    (hu : ∀ l, IsCliqueList S n l → l.length ≤ a.upperBound)
    (hlb : a.lowerBound = 1) :
    ∃ pg' l, pg.getMaxClique srt a = .ok (pg', .ret l) ∧ IsMaxCliqueList S n l := by
  obtain ⟨G, hF⟩ := h.fresh
  obtain ⟨pg', l, h1, h2, _⟩ := search_honest hF.pyok
    (by unfold Honest; rw [hF.cm]; exact Nat.zero_le _) hsrt a hF.mcs hF.lim hF.loc
    (by omega) hd (Or.inr ht) (Or.inr (Or.inr hF.cv)) hu (Or.inl hlb)
  exact ⟨pg', l, h1, h2⟩

example : (Sample.kite.getMaxClique byDegree { timeLimit := some (some 3), useHeuristic := false } >>=
      fun x => .ok (x.2, x.1.finishedAll)) = .ok (.ret [1], false) ∧
    (Sample.kite.getMaxClique byDegree { timeLimit := some none, useHeuristic := false } >>=
      fun x => .ok (x.2, x.1.finishedAll)) = .ok (.ret [1, 2, 3, 4], true) := by
  decide +kernel

/-- **C14, C15**: every time limit that is long enough gives a maximum clique and sets
`search_done`: there is a number of clock queries such that no search whose clock
answers that many times before it expires is cut short. -/
theorem C14_long_enough (h : Usable pg n S) {srt : List VData → List VData}
    (hsrt : ∀ l, (srt l).Perm l) (a : PyGraph.Args) (hd : a.useDfs = true)
    (hu : ∀ l, IsCliqueList S n l → l.length ≤ a.upperBound)
    (hlb : a.lowerBound = 1) :
    ∃ T pg' l, IsMaxCliqueList S n l ∧ pg'.finishedAll = true ∧ ∀ b, T ≤ b →
      pg.getMaxClique srt { a with timeLimit := some (some b) } = .ok (pg', .ret l) := by
  obtain ⟨G, hF⟩ := h.fresh
  obtain ⟨pg', l, h1, h2, h3⟩ := search_honest hF.pyok
    (by unfold Honest; rw [hF.cm]; exact Nat.zero_le _) hsrt { a with timeLimit := some none }
    hF.mcs hF.lim hF.loc (by simp only; omega) hd (Or.inr rfl) (Or.inr (Or.inr hF.cv)) hu
    (Or.inl hlb)
  obtain ⟨T, hT⟩ := getMaxClique_budget pg srt a h1
  exact ⟨T, pg', l, h2, h3, hT⟩

example : (Sample.kite.getMaxClique byDegree { timeLimit := some (some 9), useHeuristic := false } >>=
      fun x => .ok (x.2, x.1.finishedAll)) = .ok (.ret [1, 2, 3, 4], true) := by
  decide +kernel

/-! ## C15 -/

/-- **C15**, as far as it is true.  The full property: after any sequence of timed calls with
`continue_search=True` on a fresh graph, `search_done` implies that the last result is a
maximum clique.  Proved: this holds when the clock does not expire.  Missing,
because false (`C15_refuted`): clocks that expire. -/
theorem C15_search_done_partial (h : Usable pg n S) {srt : List VData → List VData}
    (hsrt : ∀ l, (srt l).Perm l) (a : PyGraph.Args) (hd : a.useDfs = true)
    (ht : a.timeLimit = some none)
    (hu : ∀ l, IsCliqueList S n l → l.length ≤ a.upperBound)
    (hlb : a.lowerBound = 1) :
    ∃ pg' l, pg.getMaxClique srt a = .ok (pg', .ret l) ∧ pg'.finishedAll = true ∧
      IsMaxCliqueList S n l := by
  obtain ⟨G, hF⟩ := h.fresh
  obtain ⟨pg', l, h1, h2, h3⟩ := search_honest hF.pyok
    (by unfold Honest; rw [hF.cm]; exact Nat.zero_le _) hsrt a hF.mcs hF.lim hF.loc
    (by omega) hd (Or.inr ht) (Or.inr (Or.inr hF.cv)) hu (Or.inl hlb)
  exact ⟨pg', l, h1, h3, h2⟩

namespace Sample

/-- A five-cycle's worth of edges with a triangle `1, 2, 5` on top. -/
def houseRows : List (Nat × Nat) := [(1, 2), (2, 3), (1, 4), (3, 4), (1, 5), (2, 5)]

def house : PyGraph := get PyGraph.new (PyGraph.fromEdgelist true 64 houseRows 5)

theorem house_eq : PyGraph.fromEdgelist true 64 houseRows 5 = .ok house := by decide +kernel

theorem house_usable : Usable house 5 (ofPairs houseRows) := by
  refine ⟨.edgelist (by decide) (by decide) house_eq, ?_, 1, 2, by decide, Or.inl (by decide)⟩
  intro G hG
  have : (house.G.map fun G => G.dangling) = some false := by decide +kernel
  rw [hG] at this
  simpa using this

/-- The triangle of the house. -/
theorem house_triangle : IsCliqueList (ofPairs houseRows) 5 [1, 2, 5] := by
  refine ⟨by decide, by decide, ?_⟩
  intro u hu v hv hne
  simp only [List.mem_cons, List.not_mem_nil, or_false, Set.mem_ofPred_eq] at hu hv
  refine ⟨hne, ?_⟩
  rcases hu with rfl | rfl | rfl <;> rcases hv with rfl | rfl | rfl <;>
    first | exact absurd rfl hne | decide

end Sample

/-- **C15** fails: on the house, a call whose clock expires at once followed by one whose
clock expires at its fifth query leaves `search_done` true with a result of size two,
although the graph has a triangle. -/
theorem C15_refuted : Usable Sample.house 5 (ofPairs Sample.houseRows) ∧
    (∃ pg1 pg2 r1,
      Sample.house.getMaxClique byDegree { timeLimit := some (some 0), continueSearch := true } =
        .ok (pg1, r1) ∧
      pg1.getMaxClique byDegree { timeLimit := some (some 4), continueSearch := true } =
        .ok (pg2, .ret [2, 3]) ∧
      pg2.finishedAll = true) ∧
    IsCliqueList (ofPairs Sample.houseRows) 5 [1, 2, 5] := by
  refine ⟨Sample.house_usable, ?_, Sample.house_triangle⟩
  let x := Sample.get (PyGraph.new, .raise) (Sample.house.getMaxClique byDegree
    { timeLimit := some (some 0), continueSearch := true })
  let y := Sample.get (PyGraph.new, .raise) (x.1.getMaxClique byDegree
    { timeLimit := some (some 4), continueSearch := true })
  refine ⟨x.1, y.1, x.2, ?_⟩
  decide +kernel

/-! ## C16 -/

/-- **C16**, as far as it is true.  The full property: after any history, `reset_search`
and an untimed search with default bounds return a maximum clique.  Proved: this holds if every
search of the history was exact, that is, had no time limit (or one that did not expire) and
an `upper_bound` no smaller than the clique number; resets and complete iterations may
occur anywhere.  Missing, because false (`C16_refuted`, `C16_refuted_timed`): searches
cut short. -/
theorem C16_reset_partial (h : Usable pg n S) {ops : List Op} (hl : ∀ op ∈ ops, op.Legal)
    (hp : ∀ op ∈ ops, op.Positive) (he : ∀ op ∈ ops, op.Exact S n)
    {srt : List VData → List VData} (hsrt : ∀ l, (srt l).Perm l) (a : PyGraph.Args)
    (hd : a.useDfs = true) (ht : a.timeLimit = none)
    (hu : ∀ l, IsCliqueList S n l → l.length ≤ a.upperBound)
    (hlb : a.lowerBound = 1 ∨
      (1 ≤ a.lowerBound ∧ ∃ l, IsCliqueList S n l ∧ a.lowerBound < l.length)) :
    ∃ pg1 pg2 pg3 l, runs ops pg = .ok pg1 ∧ pg1.resetSearch = .ok pg2 ∧
      pg2.getMaxClique srt a = .ok (pg3, .ret l) ∧ IsMaxCliqueList S n l := by
  obtain ⟨G, hF⟩ := h.fresh
  obtain ⟨pg1, G1, a1, a2, _, _, a3, a4⟩ := runs_spec ops hF.pyok hl
  obtain ⟨c1, c2⟩ := a4 he hF.mcs hF.lim
  have h0 := a3 hp hF.loc
  have hP2 : PyOk { pg1 with
      G := some { G1 with curMax := 1 }
      finishedAll := false
      currentVertex := 0 } n S { G1 with curMax := 1 } :=
    ⟨rfl, a2.nv, a2.pos, reset_ok a2.ok 1, a2.of.frame (reset_frame G1 1)⟩
  obtain ⟨pg3, l, d1, d2, _⟩ := search_honest hP2
    (by unfold Honest; exact stored_pos hP2) hsrt a
    (McsOk.congr (reset_frame G1 1) (Nat.le_refl _) (fun _ => rfl) c1) c2 h0
    (by omega) hd (Or.inl ht) (Or.inl ht) hu (hlb.imp_right fun h => h.2)
  exact ⟨pg1, _, pg3, l, a1, by unfold PyGraph.resetSearch; rw [a2.g], d1, d2⟩

/-- **C16** fails after a search with a small `upper_bound`: `reset_search` does not
restore the limit, and the following default search returns two vertices of a graph with a
triangle. -/
theorem C16_refuted : Usable Sample.house 5 (ofPairs Sample.houseRows) ∧
    (∃ pg1 pg2 pg3, runs [.search byDegree { upperBound := 2 }] Sample.house = .ok pg1 ∧
      pg1.resetSearch = .ok pg2 ∧
      pg2.getMaxClique byDegree {} = .ok (pg3, .ret [2, 3])) ∧
    IsCliqueList (ofPairs Sample.houseRows) 5 [1, 2, 5] := by
  refine ⟨Sample.house_usable, ?_, Sample.house_triangle⟩
  let x := Sample.get PyGraph.new (runs [.search byDegree { upperBound := 2 }] Sample.house)
  let y := Sample.get PyGraph.new x.resetSearch
  let z := Sample.get (PyGraph.new, .raise) (y.getMaxClique byDegree {})
  refine ⟨x, y, z.1, ?_⟩
  decide +kernel

namespace Sample

/-- A complete graph on `2 .. 5`, a decoy `1` next to `2`, and triangles elsewhere. -/
def decoyRows : List (Nat × Nat) :=
  [(1, 2), (2, 3), (2, 4), (2, 5), (3, 4), (3, 5), (4, 5), (6, 7), (6, 8), (7, 8), (1, 6), (3, 6),
    (4, 7), (5, 7), (1, 8), (3, 8), (4, 8), (1, 9), (1, 10)]

def decoy : PyGraph := get PyGraph.new (PyGraph.fromEdgelist true 128 decoyRows 10)

theorem decoy_eq : PyGraph.fromEdgelist true 128 decoyRows 10 = .ok decoy := by decide +kernel

theorem decoy_usable : Usable decoy 10 (ofPairs decoyRows) := by
  refine ⟨.edgelist (by decide) (by decide) decoy_eq, ?_, 1, 2, by decide, Or.inl (by decide)⟩
  intro G hG
  have : (decoy.G.map fun G => G.dangling) = some false := by decide +kernel
  rw [hG] at this
  simpa using this

theorem decoy_four : IsCliqueList (ofPairs decoyRows) 10 [2, 3, 4, 5] := by
  refine ⟨by decide, by decide, ?_⟩
  intro u hu v hv hne
  simp only [List.mem_cons, List.not_mem_nil, or_false, Set.mem_ofPred_eq] at hu hv
  refine ⟨hne, ?_⟩
  rcases hu with rfl | rfl | rfl | rfl <;> rcases hv with rfl | rfl | rfl | rfl <;>
    first | exact absurd rfl hne | decide

end Sample

/-- **C16** also fails without any `upper_bound`: a timed search that expires after
recording two vertices leaves its mark at vertex `2`, and after `reset_search` a default
search returns three vertices of a graph with a clique of four. -/
theorem C16_refuted_timed : Usable Sample.decoy 10 (ofPairs Sample.decoyRows) ∧
    (∃ pg1 pg2 pg3,
      runs [.search byDegree { timeLimit := some (some 2), useHeuristic := false }] Sample.decoy =
        .ok pg1 ∧
      pg1.resetSearch = .ok pg2 ∧
      pg2.getMaxClique byDegree {} = .ok (pg3, .ret [3, 4, 5])) ∧
    IsCliqueList (ofPairs Sample.decoyRows) 10 [2, 3, 4, 5] := by
  refine ⟨Sample.decoy_usable, ?_, Sample.decoy_four⟩
  let x := Sample.get PyGraph.new (runs
    [.search byDegree { timeLimit := some (some 2), useHeuristic := false }] Sample.decoy)
  let y := Sample.get PyGraph.new x.resetSearch
  let z := Sample.get (PyGraph.new, .raise) (y.getMaxClique byDegree {})
  refine ⟨x, y, z.1, ?_⟩
  decide +kernel

/-! ## C17 -/

/-- **C17**: once a default search on a fresh graph has returned `l`, every later
successful search, after any number of further searches of any kind, returns `l` itself, and
it fails exactly if its lower bound exceeds the length of `l`. -/
theorem C17_idempotent (h : Usable pg n S) (hn : n ≤ 65535) {srt : List VData → List VData}
    (hsrt : ∀ l, (srt l).Perm l) {ops : List Op} (hl : ∀ op ∈ ops, op.Legal)
    (hs : ∀ op ∈ ops, op.IsSearch) (hp : ∀ op ∈ ops, op.Positive)
    {srt' : List VData → List VData} (hsrt' : ∀ l, (srt' l).Perm l) {a : PyGraph.Args}
    (ha : 1 ≤ a.lowerBound) :
    ∃ pg1 l pg2 pg3, pg.getMaxClique srt {} = .ok (pg1, .ret l) ∧ runs ops pg1 = .ok pg2 ∧
      pg2.getMaxClique srt' a =
        .ok (pg3, if a.lowerBound > l.length then .raise else .ret l) := by
  obtain ⟨G, hF⟩ := h.fresh
  obtain ⟨pg1, G1, a1, a2, _, a3, _, _, a4⟩ := search_exact hF.pyok hsrt {} hF.mcs hF.lim hF.loc
    (Nat.le_refl _) rfl (Or.inl rfl) (Or.inl rfl)
  have hpos := stored_pos a2
  have hcm := hF.cm
  have hmax : ∀ l, IsCliqueList S n l → l.length ≤ (stored G1).length := by
    intro l hl
    have e1 := hl.length_le
    rcases a4 with ⟨c1, c2⟩ | ⟨c1, c2⟩
    · have e2 := c2 l hl
      have e3 := a3.length_le
      simp only at e2; omega
    · have e2 := c2 l hl
      simp only at e2; omega
  obtain ⟨pg1', G1', b1, b2, _, _, b5, b6⟩ := search_any hF.pyok hsrt {}
  rw [a1] at b1
  injection b1 with b1
  have hpg : pg1 = pg1' := congrArg Prod.fst b1
  subst hpg
  have hG : G1 = G1' := by have := a2.g; rw [b2.g] at this; injection this with this; exact this.symm
  subst hG
  have hk : Kept G1 := by
    unfold Kept
    have := hF.kept
    unfold Kept at this
    rcases b6 with ⟨c1, c2⟩ | ⟨c1, c2⟩
    · rw [c1, c2]; simp only; omega
    · omega
  have h0 := b5 (Nat.le_refl _) hF.loc
  obtain ⟨pg2, G2, d1, d2, d3, d4, d5⟩ := searches_mono ops a2 hk hl hs hp h0
  obtain ⟨pg3, G3, e1, e2, e3, e4, e5⟩ := searches_mono [.search srt' a] d2 d3
    (by simpa [Op.Legal] using hsrt') (by simp [Op.IsSearch]) (by simpa [Op.Positive] using ha) d4
  obtain ⟨pg3', G3', f1, f2, _⟩ := search_any d2 hsrt' a
  have hrun : runs [.search srt' a] pg2 = .ok pg3' := by
    rw [runs_cons]
    show ((pg2.getMaxClique srt' a >>= _) >>= _) = _
    rw [f1, ok_bind, ok_bind, runs_nil]
  rw [e1] at hrun
  injection hrun with hrun
  subst hrun
  have hG3 : G3 = G3' := by have := e2.g; rw [f2.g] at this; injection this with this; exact this.symm
  subst hG3
  have k2 : stored G2 = stored G1 := by
    rcases d5 with g | g
    · exact g
    · have := hmax _ (stored_clique d2 d4); omega
  have k3 : stored G3 = stored G1 := by
    rcases e5 with g | g
    · rw [g, k2]
    · have := hmax _ (stored_clique e2 e4)
      rw [k2] at g; omega
  refine ⟨pg1, stored G1, pg2, pg3, ?_, d1, ?_⟩
  · rw [a1, if_neg]; simp only; omega
  · rw [f1, k3]

/-! ## C25 -/

/-- **C25**: on a fresh graph, the untimed search and a timed search whose clock never
expires succeed for the same bounds and report the same size. -/
theorem C25_searches_agree (h : Usable pg n S) {srt srt' : List VData → List VData}
    (hsrt : ∀ l, (srt l).Perm l) (hsrt' : ∀ l, (srt' l).Perm l) (a : PyGraph.Args)
    (hd : a.useDfs = true)
    (hu : ∀ l, IsCliqueList S n l → l.length ≤ a.upperBound) (hlb : 1 ≤ a.lowerBound) :
    ∃ pg1 r1 pg2 r2,
      pg.getMaxClique srt { a with timeLimit := none } = .ok (pg1, r1) ∧
      pg.getMaxClique srt' { a with timeLimit := some none } = .ok (pg2, r2) ∧
      resultSize r1 = resultSize r2 := by
  obtain ⟨G, hF⟩ := h.fresh
  obtain ⟨pg1, r1, h1, _, _, h2, h3⟩ := fresh_search hF hsrt { a with timeLimit := none }
    hlb hd (Or.inl rfl)
  obtain ⟨pg2, r2, k1, _, _, k2, k3⟩ := fresh_search hF hsrt' { a with timeLimit := some none }
    hlb hd (Or.inr rfl)
  refine ⟨pg1, r1, pg2, r2, h1, k1, ?_⟩
  simp only at h2 h3 k2 k3
  cases r1 with
  | raise =>
    cases r2 with
    | raise => rfl
    | ret l' =>
      obtain ⟨c1, c2⟩ := h3 rfl
      obtain ⟨d1, d2, _⟩ := k2 l' rfl
      have := c2 l' d1
      have := hu l' d1
      have := d2 c1
      omega
  | ret l =>
    obtain ⟨c1, c2, c3⟩ := h2 l rfl
    cases r2 with
    | raise =>
      obtain ⟨d1, d2⟩ := k3 rfl
      have := d2 l c1
      have := hu l c1
      have := c2 d1
      omega
    | ret l' =>
      obtain ⟨d1, d2, d3⟩ := k2 l' rfl
      have e1 := c3 l' d1
      have e2 := d3 l c1
      have e3 := hu l c1
      have e4 := hu l' d1
      simp only [resultSize, Option.some.injEq]
      omega

end CM
