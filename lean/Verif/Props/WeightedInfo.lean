import Verif.Props.WeightedMore
import Verif.Props.Loading

/-!
# C69, C70: `search_done`, `n_vertices` and `n_edges` of weighted graph objects
-/

namespace CM

open Spec Graph NWG

set_option linter.unusedSectionVars false

variable {pg : PyNW Rat} {n : Nat} {S : SimpleGraph Nat} {ω : Nat → Rat}

/-! ## C69 -/

section

variable {R : Type} [Zero R] [Add R] [Sub R] [NatCast R] [LT R] [LE R] [DecidableLT R]
  [DecidableLE R] {pg : PyNW R} {n : Nat} {S : SimpleGraph Nat} {ω : Nat → R}

/-- Has the last search since the last reset been an exact one?  (`done` is the answer before the
calls.) -/
def exactSearchDone : List (WOp R) → Bool → Bool
  | [], done => done
  | .search _ _ a :: ops, _ => exactSearchDone ops a.useDfs
  | .reset :: ops, _ => exactSearchDone ops false
  | .list _ _ :: ops, done => exactSearchDone ops done

theorem wruns_finished : ∀ (ops : List (WOp R)) {pg : PyNW R} {n : Nat} {S : SimpleGraph Nat}
    {ω : Nat → R} {H : NWG R}, WPyOk pg n S ω H → (∀ op ∈ ops, op.Legal) →
    ∃ pg1, wruns ops pg = .ok pg1 ∧ pg1.finishedAll = exactSearchDone ops pg.finishedAll := by
  intro ops
  induction ops with
  | nil => intro pg n S ω H _ _; exact ⟨pg, rfl, rfl⟩
  | cons op ops ih =>
    intro pg n S ω H h hl
    obtain ⟨pg1, H1, a1, a2, _⟩ := AW.wop_spec h (hl op (by simp))
    obtain ⟨pg2, b1, b2⟩ := ih a2 (fun o ho => hl o (by simp [ho]))
    refine ⟨pg2, by rw [AW.wruns_cons, a1, ok_bind]; exact b1, ?_⟩
    rw [b2]
    cases op with
    | search srt junk a =>
      obtain ⟨pg', H', c1, _, _, _, _, c2⟩ :=
        AW.wsearch_spec h (hl (.search srt junk a) (by simp)) junk a
      have : (pg.getMaxClique srt junk a >>= fun x => .ok x.1) = .ok pg1 := a1
      rw [c1, ok_bind] at this
      cases this
      rw [c2]
      rfl
    | list junk W =>
      obtain ⟨fuel, E, H2, E', cs, _, _, _, _, c3, _⟩ := AW.wlistCliques_spec h junk W
      have : (pg.listCliques junk W >>= fun x => .ok x.1) = .ok pg1 := a1
      rw [c3, ok_bind] at this
      cases this
      rfl
    | reset =>
      have : pg.resetSearch = .ok pg1 := a1
      unfold PyNW.resetSearch at this
      rw [h.g] at this
      cases this
      rfl

/-- **C69**: after any history `search_done` is true exactly if there was a search since the
last reset and the last one was exact. -/
theorem C69_search_done (h : WUsable pg n S ω) {ops : List (WOp R)} (hl : ∀ op ∈ ops, op.Legal) :
    ∃ pg1, wruns ops pg = .ok pg1 ∧ pg1.finishedAll = exactSearchDone ops false := by
  obtain ⟨H, hF⟩ := AW.wusable_fresh h
  obtain ⟨pg1, a1, a2⟩ := wruns_finished ops hF.pyok hl
  exact ⟨pg1, a1, by rw [a2, hF.fin]⟩

end

/-- **C69**, what it means, with nonnegative weights: if a call on a fresh graph leaves
`search_done` true, with bounds that do not exclude the heaviest clique, it has returned a
clique that is at least as heavy as every clique other than an isolated vertex. -/
theorem C69_complete (h : WUsable pg n S ω) (hnn : ∀ v, 1 ≤ v → v ≤ n → 0 ≤ ω v)
    {srt : List (WData Rat) → List (WData Rat)} (hsrt : ∀ l, (srt l).Perm l) (junk : Nat → Rat)
    {a : PyNW.Args Rat} (ha : 0 ≤ a.lowerBound)
    (hu : ∀ l, IsCliqueList S n l → weight ω l ≤ a.upperBound)
    (hex : ∃ l, IsCliqueList S n l ∧ 2 ≤ l.length ∧ a.lowerBound < weight ω l)
    {pg' : PyNW Rat} {r : PyRes (List Nat)} (hr : pg.getMaxClique srt junk a = .ok (pg', r))
    (hdone : pg'.finishedAll = true) :
    ∃ l, r = .ret l ∧ IsCliqueList S n l ∧
      ∀ l', IsCliqueList S n l' → (∀ v, l' = [v] → ∃ u, S.Adj v u) →
        weight ω l' ≤ weight ω l := by
  obtain ⟨H, hF⟩ := h.fresh
  obtain ⟨_, _, c1, _, _, _, _, _, c2, _⟩ := wsearch_spec hF.pyok hsrt junk a
  rw [hr] at c1
  injection c1 with c1
  injection c1 with c1 _
  subst c1
  obtain ⟨_, l, b1, b2, _, b3⟩ := C36_exact_partial h hnn hsrt junk (c2.symm.trans hdone) ha hu hex
  rw [hr] at b1
  injection b1 with b1
  injection b1 with _ b1
  exact ⟨l, b1, b2, b3⟩

example : Sample.wkite.finishedAll = false ∧
    (wruns [.search Sample.byW (fun _ => 0) {}] Sample.wkite >>= fun x => .ok x.finishedAll) =
      .ok true ∧
    (wruns [.search Sample.byW (fun _ => 0) { useDfs := false }] Sample.wkite >>= fun x =>
      .ok x.finishedAll) = .ok false ∧
    (wruns [.search Sample.byW (fun _ => 0) {}, .list (fun _ => 0) 3] Sample.wkite >>= fun x =>
      .ok x.finishedAll) = .ok true ∧
    (wruns [.search Sample.byW (fun _ => 0) {}, .reset] Sample.wkite >>= fun x =>
      .ok x.finishedAll) = .ok false := by
  decide +kernel

/-! ## C70 -/

section

variable {R : Type} [Zero R] [Add R] [Sub R] [NatCast R] [LT R] [LE R] [DecidableLT R]
  [DecidableLE R] {pg : PyNW R} {n : Nat} {S : SimpleGraph Nat} {ω : Nat → R}

/-- **C70**, as far as it is true: after any history `n_vertices` is the number of vertices
given, and `n_edges` is the number of edges if the edge list had no loops and no repetitions (in
either orientation).  Missing, because false (`C70_refuted`): other edge lists. -/
theorem C70_edgelist_partial {argLR : Bool} {cap : Nat} {rows : List (Nat × Nat)} {wts : List R}
    (hn : n < 2 ^ 31) (hlen : rows.length < 2 ^ 56) (hloop : ∀ r ∈ rows, r.1 ≠ r.2)
    (hnd : (rows.map fun r => (min r.1 r.2, max r.1 r.2)).Nodup)
    (h : PyNW.fromEdgelist argLR cap rows n wts = .ok pg) :
    pg.nvert = n ∧ pg.nedges = edgeCount (ofPairs rows) n ∧
      (WUsable pg n (ofPairs rows) (nth wts) → ∀ ops : List (WOp R), (∀ op ∈ ops, op.Legal) →
        ∃ pg1, wruns ops pg = .ok pg1 ∧ pg1.nvert = n ∧
          pg1.nedges = edgeCount (ofPairs rows) n) := by
  obtain ⟨h1, h2⟩ := AW.wfromEdgelist_spec argLR cap (rows := rows) (wts := wts) hn hlen
  by_cases hv : ValidRows rows n ∧ wts.length = n
  · obtain ⟨pg', H, h3, h4⟩ := h1 hv
    rw [h] at h3; cases h3
    have e1 : pg.nvert = n := by rw [h4.eq]
    have e2 : pg.nedges = edgeCount (ofPairs rows) n := by
      rw [← rows_count hv.1 hloop hnd, h4.eq]
    refine ⟨e1, e2, fun hU ops hl => ?_⟩
    obtain ⟨pg1, a1, a2, a3, _⟩ := C47_exports_kept hU hl
    exact ⟨pg1, a1, a2, a3.trans e2⟩
  · rw [h2 hv] at h; cases h

/-- **C70**, as far as it is true, for symmetric matrices. -/
theorem C70_matrix_partial {argLR : Bool} {cap : Nat} {A : Nat → Nat → Bool} {wts : List R}
    (hn : n < 2 ^ 28) (hs : ∀ i j, i < n → j < n → A i j = A j i)
    (h : PyNW.fromMatrix argLR cap n n A wts = .ok pg) :
    pg.nvert = n ∧ pg.nedges = edgeCount (ofMatrix n A) n ∧
      (WUsable pg n (ofMatrix n A) (nth wts) → ∀ ops : List (WOp R), (∀ op ∈ ops, op.Legal) →
        ∃ pg1, wruns ops pg = .ok pg1 ∧ pg1.nvert = n ∧
          pg1.nedges = edgeCount (ofMatrix n A) n) := by
  obtain ⟨h1, h2⟩ := AW.wfromMatrix_spec argLR cap (A := A) (wts := wts) hn
  by_cases hw : wts.length = n
  · obtain ⟨pg', H, h3, h4⟩ := h1 hw
    rw [h] at h3; cases h3
    have e1 : pg.nvert = n := by rw [h4.eq]
    have e2 : pg.nedges = edgeCount (ofMatrix n A) n := by rw [← offDiag_count hs, h4.eq]
    refine ⟨e1, e2, fun hU ops hl => ?_⟩
    obtain ⟨pg1, a1, a2, a3, _⟩ := C47_exports_kept hU hl
    exact ⟨pg1, a1, a2, a3.trans e2⟩
  · rw [h2 hw] at h; cases h

end

/-- **C70** fails for edge lists that repeat an edge and for asymmetric matrices: three rows for
one edge give `n_edges = 3` and an export with two uninitialised rows; a single marked cell gives
`n_edges = 0` and an export that writes outside its array. -/
theorem C70_refuted :
    (∃ pg : PyNW Rat, PyNW.fromEdgelist true 64 [(1, 2), (2, 1), (1, 2)] 3 [1, 1, 1] = .ok pg ∧
      pg.nedges = 3 ∧ pg.toEdgelist = .ok [some (1, 2), none, none]) ∧
    ∃ pg : PyNW Rat, PyNW.fromMatrix true 64 2 2 (fun i j => i == 0 && j == 1) [1, 1] = .ok pg ∧
      pg.nedges = 0 ∧ pg.getVertexData 1 = .ok (1, [2]) ∧ pg.toEdgelist = .error .ub := by
  refine ⟨⟨Sample.get (PyNW.new (R := Rat)) (PyNW.fromEdgelist true 64 [(1, 2), (2, 1), (1, 2)] 3 [1, 1, 1]),
    by decide +kernel⟩, ⟨Sample.get (PyNW.new (R := Rat))
    (PyNW.fromMatrix true 64 2 2 (fun i j => i == 0 && j == 1) [1, 1]), by decide +kernel⟩⟩

example : Sample.wkite.nvert = 5 ∧ Sample.wkite.nedges = 7 ∧
    (∀ r ∈ Sample.rows, r.1 ≠ r.2) ∧
    (Sample.rows.map fun r => (min r.1 r.2, max r.1 r.2)).Nodup := by decide +kernel

end CM
