import Verif.Lemmas.Blocks
import Verif.Lemmas.RoomExact
import Verif.Props.Iteration

/-!
# C22 – C24 for programs with nested loops

The programs of `Model/Blocks.lean` make complete calls, run loops over cliques inside loops over
cliques, to any depth, and drop iterators before their end.  What they may do (`Fits`) and what they
should see (`Reports`) is in `SpecLoops.lean`.
-/

namespace CM

open Spec Graph Sample

variable {pg : PyGraph} {n : Nat} {S : SimpleGraph Nat}

/-- The object after a history of calls. -/
theorem ready_after (h : Usable pg n S) {ops : List Op} (hl : ∀ op ∈ ops, op.Legal)
    (he : ∀ op ∈ ops, op.Exact S n) {sizes : Nat → Prop} {plain : Prop}
    (hs : ∀ j, Op.list j ∈ ops → sizes j) (hp : plain → ∀ op ∈ ops, op.Unbounded)
    {m v : Nat} (hv : v ≤ n) (hm : m ≤ later S n v + 1) :
    ∃ pg1 G, runs ops pg = .ok pg1 ∧ Ready plain sizes m pg1 n S G ∧
      G.searchCur = G.searchStart := by
  obtain ⟨G, hF⟩ := h.fresh
  obtain ⟨pg1, G1, a1, a2, _, _, _, a6⟩ := runs_spec ops hF.pyok hl
  obtain ⟨a7, a8⟩ := a6 he hF.mcs hF.lim
  have hsc := a2.ok.cur
  refine ⟨pg1, G1, a1, ⟨by rw [hsc]; exact a2.at, ?_, a7, a8, fun s => ?_⟩, hsc⟩
  · obtain ⟨L, r1, r2⟩ := a2.ok.wf.arena
    have := r1 v (by rw [a2.of.nv]; omega)
    rw [rootCand_later a2.of a2.ok.wf.str hv] at this
    refine ⟨L, r1, ?_⟩
    rw [hsc]
    exact Nat.le_trans (Nat.add_le_add_left (Nat.mul_le_mul_right _ (by omega)) _) r2
  · obtain ⟨pg', G', b1, b2, b3, b4⟩ := runs_honestBut (Q := sizes) ops hF.pyok
      (Or.inl (by rw [hF.cm]; exact Nat.zero_le _)) hF.loc hl (hp s) hs
    rw [a1] at b1
    injection b1 with b1
    subst b1
    have : G1 = G' := by
      have := a2.g
      rw [b2.g] at this
      injection this with this
      exact this.symm
    subst this
    exact ⟨b4, b3⟩

/-- The size of a clique is a possible value of `m` in the theorems below: its first vertex in the
order by degree, then number, has the others as later neighbours. -/
theorem clique_later {l : List Nat} (hl : IsCliqueList S n l) (h0 : l ≠ []) :
    ∃ v, 1 ≤ v ∧ v ≤ n ∧ l.length ≤ later S n v + 1 := by
  classical
  let key : Nat → Nat := fun v => degree S n v * (n + 1) + v
  have hne : l.toFinset.Nonempty := by
    obtain ⟨x, hx⟩ := List.exists_mem_of_ne_nil l h0
    exact ⟨x, List.mem_toFinset.2 hx⟩
  obtain ⟨v, hv, hmin⟩ := Finset.exists_min_image l.toFinset key hne
  rw [List.mem_toFinset] at hv
  have hr := hl.range v hv
  refine ⟨v, hr.1, hr.2, ?_⟩
  have hnd : l.Nodup := hl.increasing.imp (fun h => Nat.ne_of_lt h)
  rw [← List.toFinset_card_of_nodup hnd]
  have : l.toFinset.erase v ⊆ (Finset.Icc 1 n).filter fun w => S.Adj v w ∧
      (degree S n v < degree S n w ∨ degree S n v = degree S n w ∧ v < w) := by
    intro w hw
    rw [Finset.mem_erase, List.mem_toFinset] at hw
    have hwr := hl.range w hw.2
    have hk := hmin w (List.mem_toFinset.2 hw.2)
    rw [Finset.mem_filter, Finset.mem_Icc]
    refine ⟨hwr, hl.clique hv hw.2 (fun e => hw.1 e.symm), ?_⟩
    simp only [key] at hk
    rcases Nat.lt_trichotomy (degree S n v) (degree S n w) with h1 | h1 | h1
    · exact Or.inl h1
    · rw [h1] at hk
      exact Or.inr ⟨h1, by omega⟩
    · have := Nat.mul_le_mul_right (n + 1) (Nat.succ_le_of_lt h1)
      rw [Nat.succ_mul] at this
      omega
  have h2 := Finset.card_le_card this
  rw [Finset.card_erase_of_mem (List.mem_toFinset.2 hv)] at h2
  unfold later
  omega

/-- **C24** for programs with loops inside loops, to any depth, and with iterators that are dropped
before their end.  Let `m` be at most one more than the number of later neighbours of some vertex
(the size of any clique will do, `clique_later`).  The program may do whatever it likes as long
as the loops around every call and around every other loop, and the iterators dropped so far, are
over cliques of sizes that add up to at most `m`, and what `Op.Fits` says of its calls.  What it
does may depend on what it has seen.  Proved: nothing faults; every loop, at whatever depth, goes
through the cliques of its size, each once (but for the defect of C20), and ends; every
iterator that is dropped had yielded such cliques, each at most once; every complete iteration
yields its cliques; and, if all searches have the default `lower_bound`, each of them returns a
clique, which for a depth-first search is a maximum clique or has one of the sizes iterated over.
Missing: programs that leave a loop inside another loop before its end, or ask two iterators in turn
(false, `C24_refuted`), searches with a time limit (false, `C22_refuted_timed`), and sizes with a
larger sum (false in general, `C22_refuted_nested`). -/
theorem C24_programs_partial (h : Usable pg n S) {ops : List Op} (hl : ∀ op ∈ ops, op.Legal)
    (he : ∀ op ∈ ops, op.Exact S n) {sizes : Nat → Prop} {plain : Prop}
    (hs : ∀ j, Op.list j ∈ ops → sizes j) (hp : plain → ∀ op ∈ ops, op.Unbounded)
    {m v : Nat} (hv : v ≤ n) (hm : m ≤ later S n v + 1) {P : Prog}
    (hP : P.Fits S n sizes plain m) :
    ∃ pg1 pg2 seen, runs ops pg = .ok pg1 ∧ P.run pg1 = .ok (pg2, seen) ∧
      P.Reports S n sizes plain seen := by
  obtain ⟨pg1, G, a1, a2, _⟩ := ready_after h hl he hs hp hv hm
  obtain ⟨pg2, ss, b1, b2⟩ := prog_spec P hP a2
  exact ⟨pg1, pg2, ss, a1, b1, b2⟩

/-- **C22** for the same programs: nothing faults, whatever the `lower_bound`s. -/
theorem C22_programs_partial (h : Usable pg n S) {ops : List Op} (hl : ∀ op ∈ ops, op.Legal)
    (he : ∀ op ∈ ops, op.Exact S n) {m v : Nat} (hv : v ≤ n) (hm : m ≤ later S n v + 1) {P : Prog}
    (hP : P.Fits S n (fun _ => True) False m) :
    ∃ pg1 r, runs ops pg = .ok pg1 ∧ P.run pg1 = .ok r := by
  obtain ⟨pg1, pg2, ss, a1, a2, _⟩ := C24_programs_partial h hl he (fun _ _ => trivial)
    (fun f => f.elim) hv hm hP
  exact ⟨pg1, _, a1, a2⟩

/-- **C23** for programs whose loops all run to their end: afterwards the scratch part of the buffer
is entirely free and every word of it is zero, as before. -/
theorem C23_blocks_returned (h : Usable pg n S) {ops : List Op} (hl : ∀ op ∈ ops, op.Legal)
    (he : ∀ op ∈ ops, op.Exact S n) {m v : Nat} (hv : v ≤ n) (hm : m ≤ later S n v + 1)
    {B : Block} (hB : B.Fits S n (fun _ => True) False m) :
    ∃ pg1 pg2 seen G, runs ops pg = .ok pg1 ∧ B.run pg1 = .ok (pg2, seen) ∧ pg2.G = some G ∧
      G.searchCur = G.searchStart ∧ ∀ i, G.searchStart ≤ i → G.eb.getD i 0#64 = 0#64 := by
  obtain ⟨pg1, G, a1, a2, a3⟩ := ready_after h hl he (sizes := fun _ => True) (plain := False)
    (fun _ _ => trivial) (fun f => f.elim) hv hm
  obtain ⟨pg2, G2, ss, b1, b2, b3, b4, _⟩ := block_spec B hB a2
  have hst : G2.searchStart = G.searchStart := b4.frame.searchStart
  refine ⟨pg1, pg2, ss, G2, a1, b1, b2.py.g, by omega, ?_⟩
  intro i hi
  apply BitVec.eq_of_getMsbD_eq
  intro j hj
  have := b2.py.ok.zero (64 * i + j) (by omega)
  unfold bitAt at this
  have e1 : (64 * i + j) / 64 = i := by omega
  have e2 : (64 * i + j) % 64 = j := by omega
  rw [e1, e2] at this
  rw [this]
  simp

/-- Loops over the cliques of size `k` inside each other, `d` deep. -/
def Sample.nest (k : Nat) : Nat → Block
  | 0 => .done
  | d + 1 => .each k (fun _ => nest k d) (fun _ => .done)

/-- **C22** fails for loops nested more deeply: on the kite, four loops over its triangles inside
each other work; five run out of scratch memory. -/
theorem C22_refuted_nested : Usable Sample.kite 5 (ofPairs Sample.rows) ∧
    ((Sample.nest 3 4).run Sample.kite >>= fun x => .ok (Seen.answers x.2)) =
      .ok [some [2, 3, 4], some [2, 3, 4], some [2, 3, 4], some [2, 3, 4], none, none, none, none] ∧
    ((Sample.nest 3 5).run Sample.kite >>= fun x => .ok (Seen.answers x.2)) = .error .ub :=
  ⟨Sample.kite_usable, by decide +kernel, by decide +kernel⟩

/-- A program: it takes a pair from an iterator and drops it; then, for each pair of neighbours, it
lists the triangles and, if 4 is one of the two, searches for a clique. -/
def Sample.browse : Prog :=
  .take 2 1 fun _ => .block (.each 2
    (fun c => .call (.list 3) fun _ => if 4 ∈ c then .call (.search byDegree {}) fun _ => .done
      else .done) fun _ => .done) fun _ => .stop

theorem Sample.browse_fits :
    Sample.browse.Fits (ofPairs Sample.rows) 5 (fun j => j = 2 ∨ j = 3) True 4 := by
  have ho : (Op.list 3).Fits (ofPairs Sample.rows) 5 (fun j => j = 2 ∨ j = 3) True :=
    ⟨trivial, trivial, trivial, fun _ => trivial, fun j hj => by injection hj with hj; omega⟩
  have hs : (Op.search byDegree {}).Fits (ofPairs Sample.rows) 5 (fun j => j = 2 ∨ j = 3) True :=
    ⟨byDegree_perm, ⟨Or.inl rfl, fun l hl => Nat.le_trans hl.length_le (by decide)⟩, rfl,
      fun _ => rfl, fun j hj => by cases hj⟩
  refine ⟨Or.inl rfl, fun c _ _ => by decide, fun cs => ?_⟩
  have hB : ∀ m, 2 ≤ m → (Prog.block (.each 2
      (fun c => .call (.list 3) fun _ => if 4 ∈ c then .call (.search byDegree {}) fun _ => .done
        else .done) fun _ => .done) fun _ => .stop).Fits (ofPairs Sample.rows) 5
        (fun j => j = 2 ∨ j = 3) True m := by
    intro m hm
    refine ⟨⟨Or.inl rfl, fun _ => trivial, fun c _ _ => ⟨hm, ho, fun _ => ?_⟩⟩, fun _ => trivial⟩
    split
    · exact ⟨hs, fun _ => trivial⟩
    · trivial
  split
  · exact hB _ (by decide)
  · exact hB _ (by decide)

theorem Sample.kite_clique : IsCliqueList (ofPairs Sample.rows) 5 [1, 2, 3, 4] := by
  refine ⟨by decide, by decide, ?_⟩
  intro x hx y hy hne
  simp only [Set.mem_setOf_eq, List.mem_cons, List.not_mem_nil, or_false] at hx hy
  rcases hx with rfl | rfl | rfl | rfl <;> rcases hy with rfl | rfl | rfl | rfl <;>
    first
      | exact absurd rfl hne
      | exact ⟨hne, Or.inl (by decide)⟩
      | exact ⟨hne, Or.inr (by decide)⟩

/-- The hypotheses of `C24_programs_partial` are met by a program with a loop and a dropped
iterator: 4 is the size of a clique. -/
example : ∃ pg1 pg2 seen, runs [.search byDegree {}] Sample.kite = .ok pg1 ∧
    Sample.browse.run pg1 = .ok (pg2, seen) ∧
    Sample.browse.Reports (ofPairs Sample.rows) 5 (fun j => j = 2 ∨ j = 3) True seen := by
  obtain ⟨v, _, hv, hm⟩ := clique_later Sample.kite_clique (by simp)
  refine C24_programs_partial Sample.kite_usable ?_ ?_ ?_ ?_ hv hm Sample.browse_fits
  all_goals simp only [List.mem_singleton, forall_eq]
  · exact byDegree_perm
  · exact ⟨Or.inl rfl, fun l hl => Nat.le_trans hl.length_le (by decide)⟩
  · intro j hj; cases hj
  · exact fun _ => rfl

/-- The hypotheses of `C23_blocks_returned` and of `C22_programs_partial` are met: two loops over pairs
inside each other, on the kite. -/
example : (∃ pg1 pg2 seen G, runs [] Sample.kite = .ok pg1 ∧
      (Sample.nest 2 2).run pg1 = .ok (pg2, seen) ∧ pg2.G = some G ∧
      G.searchCur = G.searchStart ∧ ∀ i, G.searchStart ≤ i → G.eb.getD i 0#64 = 0#64) ∧
    ∃ pg1 r, runs [] Sample.kite = .ok pg1 ∧
      (Prog.block (Sample.nest 2 2) fun _ => .stop).run pg1 = .ok r := by
  obtain ⟨v, _, hv, hm⟩ := clique_later Sample.kite_clique (by simp)
  have hB : (Sample.nest 2 2).Fits (ofPairs Sample.rows) 5 (fun _ => True) False 4 :=
    ⟨trivial, fun _ => trivial, fun c _ _ => ⟨by decide, trivial, fun _ => trivial,
      fun c _ _ => ⟨by decide, trivial⟩⟩⟩
  exact ⟨C23_blocks_returned Sample.kite_usable (by simp) (by simp) hv hm hB,
    C22_programs_partial Sample.kite_usable (by simp) (by simp) hv hm ⟨hB, fun _ => trivial⟩⟩

/-- What the program sees in the loop. -/
example : (Sample.browse.run Sample.kite >>= fun x => .ok (Seen.answers x.2)) =
    .ok [some [2, 3], some [2, 3], some [2, 4], some [3, 4], some [4, 5], none] := by
  decide +kernel

end CM
