import Verif.Lemmas.CorrBlocks
import Verif.Props.Loops
import Verif.Props.Largest

/-!
# C91: programs with loops over correspondences

What the programs of `Model/CorrBlocks.lean` may do (`Fits`) and what they should see (`Reports`) is
in `SpecCorrLoops.lean`.
-/

namespace CM

open Spec Graph Sample

variable {pg : PyGraph} {M N : Nat} {S : SimpleGraph Nat}

/-- **C91**, as far as it is true.  The full property: a loop over `all_correspondences(k)`, with
searches and further such loops in its body, to any depth, goes through the correspondences of `k`
pairs, each once, and ends; and every search inside it works as it does outside.  Proved: for every
graph of pairs, after any history, if the sizes of the loops around every search and every
other loop add up to at most `m`, where `m` is at most one more than the number of later neighbours
of some vertex (the size of any clique will do, `clique_later`).  Nothing faults; each loop yields
the pairs of each clique of its size, each once, but for the defect of C20, and ends; each search
with the default `lower_bound` returns the pairs of a clique, for a depth-first search those of a
maximum clique or of a clique of one of the sizes iterated over.  Missing: the cliques that C20 is
about (false, `C53_refuted`), loops with a larger sum (false, `C91_refuted_nested`), searches with a
time limit (false, `C22_refuted_timed`), and that a depth-first search in a loop finds a maximum
clique even if a clique of a size iterated over is larger than what it needs to find (false,
`C24_refuted`). -/
theorem C91_programs_partial (h : Usable pg (M * N) S) (hN : 0 < N) {ops : List Op}
    (hl : ∀ op ∈ ops, op.Legal) (he : ∀ op ∈ ops, op.Exact S (M * N)) {sizes : Nat → Prop}
    {plain : Prop} (hs : ∀ j, Op.list j ∈ ops → sizes j) (hp : plain → ∀ op ∈ ops, op.Unbounded)
    {m v : Nat} (hv : v ≤ M * N) (hm : m ≤ later S (M * N) v + 1) {B : CorrBlock}
    (hB : B.Fits S M N sizes plain m) :
    ∃ pg1 pg2 seen, runs ops pg = .ok pg1 ∧ B.run N pg1 = .ok (pg2, seen) ∧
      B.Reports S M N sizes plain seen := by
  obtain ⟨pg1, G, a1, a2, _⟩ := ready_after h hl he hs hp hv hm
  obtain ⟨pg2, _, ss, b1, _, _, _, b2⟩ := corrBlock_spec hN B hB a2
  exact ⟨pg1, pg2, ss, a1, b1, b2⟩

/-- What `Reports` says of the pairs of a clique, in terms of the sets: for an object built by any of
the functions that build correspondence graphs they use no element of either set twice, and any two
of them are joined in the graph. -/
theorem C91_one_to_one (hm : Matcher pg M N) (h : Usable pg (M * N) S) {c : List Nat × List Nat}
    {l : List Nat} (hn : Names M N c l) (hc : IsCliqueList S (M * N) l) :
    IsMatching M N (c.1.zip c.2) ∧ (c.1.zip c.2).length = l.length ∧
      ∀ p ∈ c.1.zip c.2, ∀ q ∈ c.1.zip c.2, p ≠ q →
        S.Adj (pairId N p.1 p.2) (pairId N q.1 q.2) := by
  obtain ⟨S', h1, h2⟩ := hm.loaded
  obtain ⟨_, rfl⟩ := h.loaded.unique h1
  have hl : (c.1.zip c.2).length = l.length := by
    rw [List.length_zip, hn.first, hn.second, Nat.min_self]
  refine ⟨?_, hl, ?_⟩
  · have := (clique_matching h2 hc).1
    rwa [hn.eq]
  · intro p hp q hq hne
    refine hc.clique ?_ ?_ ?_
    · show pairId N p.1 p.2 ∈ l
      rw [← hn.pairs]; exact List.mem_map.2 ⟨p, hp, rfl⟩
    · show pairId N q.1 q.2 ∈ l
      rw [← hn.pairs]; exact List.mem_map.2 ⟨q, hq, rfl⟩
    · intro e
      obtain ⟨a, b⟩ := pairId_inj (hn.range2 _ (List.of_mem_zip hp).2)
        (hn.range2 _ (List.of_mem_zip hq).2) e
      exact hne (Prod.ext a b)

/-- Loops over the correspondences of `k` pairs inside each other, `d` deep. -/
def Sample.corrNest (k : Nat) : Nat → CorrBlock
  | 0 => .done
  | d + 1 => .each k (fun _ => corrNest k d) (fun _ => .done)

/-- The number of answers that a log records of the iterators. -/
def Sample.answers : List CorrSeen → Nat
  | [] => 0
  | .next _ :: ss => answers ss + 1
  | _ :: ss => answers ss

/-- **C91** fails for loops nested more deeply: with three points matched to three points, seven loops
over correspondences of three pairs inside each other work; eight run out of scratch memory. -/
theorem C91_refuted_nested : (∃ S, Usable line (3 * 3) S) ∧
    ((corrNest 3 7).run 3 line >>= fun x => .ok (answers x.2)) = .ok 14 ∧
    ((corrNest 3 8).run 3 line >>= fun x => .ok (answers x.2)) = .error .ub :=
  ⟨line_usable, by decide +kernel, by decide +kernel⟩

/-- A program: for each correspondence of two pairs that uses the first point, search for a larger
one. -/
def Sample.extend : CorrBlock :=
  .each 2 (fun c => if 0 ∈ c.1 then .find byDegree {} fun _ => .done else .done) fun _ => .done

theorem Sample.extend_fits {S : SimpleGraph Nat} :
    Sample.extend.Fits S 3 3 (fun j => j = 2) True 3 := by
  refine ⟨rfl, fun _ => trivial, fun c l _ _ _ => ⟨by decide, ?_⟩⟩
  beta_reduce
  split
  · exact ⟨⟨byDegree_perm, ⟨Or.inl rfl, fun l hl => Nat.le_trans hl.length_le (by decide)⟩, rfl,
      fun _ => rfl, fun j hj => by cases hj⟩, fun _ => trivial⟩
  · trivial

/-- The first points match the second points in order. -/
theorem Sample.line_clique : ∃ S, Usable line (3 * 3) S ∧ IsCliqueList S (3 * 3) [1, 5, 9] := by
  obtain ⟨S, h⟩ := line_usable
  obtain ⟨pg1, pg2, r, h1, h2, h3⟩ := C09_returned_is_clique (ops := []) h (by simp) (by simp)
    (fun l => byDegree_perm l) (a := {}) (by decide)
  cases h1
  have hr : (line.getMaxClique byDegree {} >>= fun x => .ok x.2) = .ok (.ret [1, 5, 9]) := by
    decide +kernel
  rw [h2, ok_bind] at hr
  injection hr with hr
  exact ⟨S, h, (h3 _ hr).1⟩

/-- The hypotheses of `C91_programs_partial` are met. -/
example : ∃ S, Usable line (3 * 3) S ∧ ∃ pg1 pg2 seen, runs [.search byDegree {}] line = .ok pg1 ∧
    Sample.extend.run 3 pg1 = .ok (pg2, seen) ∧
    Sample.extend.Reports S 3 3 (fun j => j = 2) True seen := by
  obtain ⟨S, h, hc⟩ := line_clique
  obtain ⟨v, _, hv, hm⟩ := clique_later hc (by simp)
  have key := C91_programs_partial (ops := [.search byDegree {}]) (plain := True)
    (sizes := fun j => j = 2) h (by decide) ?_ ?_ ?_ ?_ hv hm Sample.extend_fits
  · exact ⟨S, h, key⟩
  · simp only [List.mem_singleton, forall_eq]; exact byDegree_perm
  · simp only [List.mem_singleton, forall_eq]
    exact ⟨Or.inl rfl, fun l hl => Nat.le_trans hl.length_le (by decide)⟩
  · intro j hj; simp at hj
  · simp only [List.mem_singleton, forall_eq]; exact fun _ => rfl

/-- The hypotheses of `C91_one_to_one` are met. -/
example : Matcher line 3 3 ∧ ∃ S l, Usable line (3 * 3) S ∧
    Names 3 3 ([0, 1, 2], [0, 1, 2]) l ∧ IsCliqueList S (3 * 3) l := by
  obtain ⟨S, h, hc⟩ := line_clique
  exact ⟨line_matcher, S, [1, 5, 9], h, ⟨rfl, rfl, by decide, by decide, rfl⟩, hc⟩

/-- What the searches of the program find. -/
def Sample.finds : List CorrSeen → List (PyRes (List Nat × List Nat))
  | [] => []
  | .found _ r :: ss => r :: finds ss
  | _ :: ss => finds ss

example : (Sample.extend.run 3 line >>= fun x => .ok (answers x.2, finds x.2)) =
    .ok (11, List.replicate 4 (.ret ([0, 1, 2], [0, 1, 2]))) := by
  decide +kernel

end CM
