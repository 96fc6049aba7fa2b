import Verif.Props.WeightedIteration

/-!
# C47-C51: weighted graph objects
-/

namespace CM

open Spec Graph NWG

set_option linter.unusedSectionVars false

variable {pg : PyNW Rat} {n : Nat} {S : SimpleGraph Nat} {ω : Nat → Rat}

/-! ## C47 -/

section

variable {R : Type} [Zero R] [Add R] [Sub R] [NatCast R] [LT R] [LE R] [DecidableLT R]
  [DecidableLE R] {pg : PyNW R} {n : Nat} {S : SimpleGraph Nat} {ω : Nat → R}

/-- The exports of a weighted object are those of the graph inside it. -/
theorem wexports_spec {H : NWG R} (hg : pg.G = some H) (hn : pg.nvert = n) (hs : Str H.g)
    (hO : Of H.g n S) (h0 : n ≠ 0) (hsm : n < 2 ^ 31) :
    (∃ m, pg.toMatrix = .ok m ∧ m.length = n ∧ (∀ i, i < n → (m.getD i []).length = n) ∧
      ∀ u v, (1 ≤ u ∧ u ≤ n) → (1 ≤ v ∧ v ≤ n) →
        ((m.getD (u - 1) []).getD (v - 1) false = true ↔ S.Adj u v)) ∧
    (∃ l, pg.toAdjList = .ok l ∧ l.length = n + 1 ∧
      ∀ v, v ≤ n → (l.getD v []).Pairwise (· < ·) ∧ ∀ u, u ∈ l.getD v [] ↔ S.Adj v u) ∧
    (pg.nedges = edgeCount S n →
      ∃ es : List (Nat × Nat), pg.toEdgelist = .ok (es.map some) ∧ es.Pairwise lexLess ∧
        ∀ e, e ∈ es ↔ e.1 < e.2 ∧ S.Adj e.1 e.2) := by
  let pg' : PyGraph := {
    G := some H.g
    finishedAll := false
    nvert := pg.nvert
    nedges := pg.nedges
    currentVertex := 0 }
  have hH : Holds pg' n S H.g := ⟨rfl, hn, hs, hO⟩
  have hw : pg.checkLoaded = some H := by
    unfold PyNW.checkLoaded
    rw [hn, if_neg h0, hg]
  have hl := hH.loaded h0
  have e1 : pg.toMatrix = pg'.toMatrix := by
    unfold PyNW.toMatrix PyGraph.toMatrix
    rw [hw, hl]
  have e2 : pg.toAdjList = pg'.toAdjList := by
    unfold PyNW.toAdjList PyGraph.toAdjList
    rw [hw, hl]
  have e3 : pg.toEdgelist = pg'.toEdgelist := by
    unfold PyNW.toEdgelist PyGraph.toEdgelist
    rw [hw, hl]
  refine ⟨?_, ?_, ?_⟩
  · rw [e1]
    exact toMatrix_spec hH h0 (by
      have : (2 : Nat) ^ 31 < 2 ^ 64 := by decide
      omega)
  · rw [e2]
    exact toAdjList_spec hH h0
  · intro hm
    obtain ⟨es, h1, h2, h3⟩ := toEdgelist_spec hH h0
    have hc := edgeCount_list hO.rng (lexLt_nodup h1) h2
    refine ⟨es, ?_, h1, h2⟩
    have hm' : pg'.nedges = es.length := by rw [show pg'.nedges = pg.nedges from rfl, hm, hc]
    rw [e3, h3, hm']
    simp

/-- **C47**: in a freshly loaded weighted graph, the exports describe the graph that was given:
`to_matrix()` is its symmetric matrix, `to_adjlist()` its neighbour lists, and `to_edgelist()`,
if `n_edges` is the number of edges, lists every edge once in dictionary order. -/
theorem C47_exports (h : WLoaded pg n S ω) (h0 : n ≠ 0) :
    (∃ m, pg.toMatrix = .ok m ∧ m.length = n ∧ (∀ i, i < n → (m.getD i []).length = n) ∧
      ∀ u v, (1 ≤ u ∧ u ≤ n) → (1 ≤ v ∧ v ≤ n) →
        ((m.getD (u - 1) []).getD (v - 1) false = true ↔ S.Adj u v)) ∧
    (∃ l, pg.toAdjList = .ok l ∧ l.length = n + 1 ∧
      ∀ v, v ≤ n → (l.getD v []).Pairwise (· < ·) ∧ ∀ u, u ∈ l.getD v [] ↔ S.Adj v u) ∧
    (pg.nedges = edgeCount S n →
      ∃ es : List (Nat × Nat), pg.toEdgelist = .ok (es.map some) ∧ es.Pairwise lexLess ∧
        ∀ e, e ∈ es ↔ e.1 < e.2 ∧ S.Adj e.1 e.2) := by
  obtain ⟨hn, cap, m, H, hL⟩ := AW.wloaded_as h
  exact wexports_spec (by rw [hL.eq]) (by rw [hL.eq]) hL.str hL.of h0 hn

/-- **C47**: the same after any sequence of searches, resets and complete iterations, and the
number of edges is what it was. -/
theorem C47_exports_kept (h : WUsable pg n S ω) {ops : List (WOp R)} (hl : ∀ op ∈ ops, op.Legal) :
    ∃ pg1, wruns ops pg = .ok pg1 ∧ pg1.nvert = n ∧ pg1.nedges = pg.nedges ∧
      (∃ m, pg1.toMatrix = .ok m ∧ m.length = n ∧ (∀ i, i < n → (m.getD i []).length = n) ∧
        ∀ u v, (1 ≤ u ∧ u ≤ n) → (1 ≤ v ∧ v ≤ n) →
          ((m.getD (u - 1) []).getD (v - 1) false = true ↔ S.Adj u v)) ∧
      (∃ l, pg1.toAdjList = .ok l ∧ l.length = n + 1 ∧
        ∀ v, v ≤ n → (l.getD v []).Pairwise (· < ·) ∧ ∀ u, u ∈ l.getD v [] ↔ S.Adj v u) ∧
      (pg1.nedges = edgeCount S n →
        ∃ es : List (Nat × Nat), pg1.toEdgelist = .ok (es.map some) ∧ es.Pairwise lexLess ∧
          ∀ e, e ∈ es ↔ e.1 < e.2 ∧ S.Adj e.1 e.2) := by
  obtain ⟨H, hF⟩ := AW.wusable_fresh h
  obtain ⟨pg1, H1, a1, a2, _, a3⟩ := AW.wruns_spec ops hF.pyok hl
  exact ⟨pg1, a1, a2.nv, a3, wexports_spec a2.g a2.nv a2.ok.ok.wf.str a2.of a2.pos hF.small⟩

end

example : Sample.wkite.nedges = 7 ∧ Sample.wkite.toEdgelist = .ok (Sample.rows.map some) ∧
    Sample.wkite.toAdjList = .ok [[], [2, 3, 4], [1, 3, 4], [1, 2, 4], [1, 2, 3, 5], [4]] ∧
    (wruns Sample.whistory Sample.wkite >>= PyNW.toEdgelist) = .ok (Sample.rows.map some) := by
  decide +kernel

/-! ## C48 -/

/-- One exact search keeps what is stored at least as heavy. -/
theorem wsearch_mono {H : NWG Rat} (h : WPyOk pg n S ω H) (hnn : ∀ v, 1 ≤ v → v ≤ n → 0 ≤ ω v)
    (hm : McsOk H) (hlim : ∀ l, IsCliqueList S n l → weight ω l ≤ H.limit)
    {srt : List (WData Rat) → List (WData Rat)} (hsrt : ∀ l, (srt l).Perm l) (junk : Nat → Rat)
    {a : PyNW.Args Rat} (hd : a.useDfs = true)
    (hu : ∀ l, IsCliqueList S n l → weight ω l ≤ a.upperBound)
    {l0 : List Nat} (hl0 : IsCliqueList S n l0) (h2 : 2 ≤ l0.length)
    (hs : weight ω l0 ≤ weight H.w (wstored H)) :
    ∃ pg' H', pg.getMaxClique srt junk a = .ok (pg', if a.lowerBound > weight H'.w (wstored H')
        then .raise else .ret (wstored H')) ∧ WPyOk pg' n S ω H' ∧ McsOk H' ∧
      (∀ l, IsCliqueList S n l → weight ω l ≤ H'.limit) ∧
      weight ω l0 ≤ weight H'.w (wstored H') := by
  obtain ⟨pg', H', b1, b2, b3, b4, _, _, _, b5, b6⟩ := wsearch_spec h hsrt junk a
  obtain ⟨b7, hb⟩ := b6 (h.nonneg hnn) hm
  have hlim' : ∀ l, IsCliqueList S n l → weight ω l ≤ H'.limit := by
    intro l hl; rw [b4]; exact le_min (hu l hl) (hlim l hl)
  refine ⟨pg', H', b1, b2, b7, hlim', ?_⟩
  rcases b5 with ⟨_, _, b8⟩ | b8
  · rw [b8, weight_congr (fun v _ => b3.w v)]; exact hs
  · rw [b8]
    rcases wbest_spec b2.of b2.ok.ok.wf (hb hd) hl0 h2 with h3 | h3
    · rwa [b2.weight hl0] at h3
    · exact le_trans (hlim' l0 hl0) h3

/-- The calls of C48: exact searches that no bound cuts short. -/
def WOp.ExactSearch (S : SimpleGraph Nat) (n : Nat) (ω : Nat → Rat) : WOp Rat → Prop
  | .search srt _ a => (∀ l, (srt l).Perm l) ∧ a.useDfs = true ∧
      ∀ l, IsCliqueList S n l → weight ω l ≤ a.upperBound
  | _ => False

/-- **C48**, what holds of it: with nonnegative weights, if after some history (with sufficient
upper bounds) a search, exact or not, returned a clique with two or more vertices and positive weight, then exact
searches later on, with any lower bound not above that clique's weight and with or without the
heuristic, return a clique at least as heavy.  Missing from the claim: searches by the
heuristic alone, `C48_refuted`. -/
theorem C48_repeat_partial (h : WUsable pg n S ω) (hnn : ∀ v, 1 ≤ v → v ≤ n → 0 ≤ ω v)
    {ops : List (WOp Rat)} (hl : ∀ op ∈ ops, op.Legal) (hx : ∀ op ∈ ops, op.Exact S n ω)
    {srt1 : List (WData Rat) → List (WData Rat)} (hsrt1 : ∀ l, (srt1 l).Perm l) (junk1 : Nat → Rat)
    {a1 : PyNW.Args Rat} (hu1 : ∀ l, IsCliqueList S n l → weight ω l ≤ a1.upperBound)
    {pg1 pg2 : PyNW Rat} {l1 : List Nat} (h1 : wruns ops pg = .ok pg1)
    (h2 : pg1.getMaxClique srt1 junk1 a1 = .ok (pg2, .ret l1)) (hlen : 2 ≤ l1.length)
    (hpos : 0 < weight ω l1) {ops' : List (WOp Rat)} (hl' : ∀ op ∈ ops', op.ExactSearch S n ω)
    {srt2 : List (WData Rat) → List (WData Rat)} (hsrt2 : ∀ l, (srt2 l).Perm l) (junk2 : Nat → Rat)
    {a2 : PyNW.Args Rat} (hd2 : a2.useDfs = true)
    (hu2 : ∀ l, IsCliqueList S n l → weight ω l ≤ a2.upperBound)
    (hlow : a2.lowerBound ≤ weight ω l1) :
    ∃ pg3 pg4 l2, wruns ops' pg2 = .ok pg3 ∧
      pg3.getMaxClique srt2 junk2 a2 = .ok (pg4, .ret l2) ∧ IsCliqueList S n l2 ∧
      weight ω l1 ≤ weight ω l2 := by
  obtain ⟨H, hF⟩ := h.fresh
  have hnn' := hF.pyok.nonneg hnn
  obtain ⟨pg1', H1, a1', b2, b3, _, b4⟩ := wruns_spec ops hF.pyok hl
  rw [h1] at a1'
  cases a1'
  obtain ⟨b5, b6⟩ := b4 hnn' hx (hF.bounds.mcsOk hF.pyok.ok.ok.wf.str hnn')
    (fun l hl => by
      rw [← hF.pyok.weight hl]
      exact wbounds_spec hF.pyok.of hF.pyok.ok.ok.wf hF.bounds hnn' hl)
  obtain ⟨pg2', H2, c1, c2, c3, c4, _, _, _, _, c6⟩ := wsearch_spec b2 hsrt1 junk1 a1
  rw [h2] at c1
  injection c1 with c1
  injection c1 with c1 c1'
  subst c1
  obtain ⟨c7, _⟩ := c6 (b2.nonneg hnn) b5
  have hlim2 : ∀ l, IsCliqueList S n l → weight ω l ≤ H2.limit := by
    intro l hl; rw [c4]; exact le_min (hu1 l hl) (b6 l hl)
  have hst : l1 = wstored H2 := by
    split at c1'
    · cases c1'
    · injection c1'
  have hclq : ∀ {pg' : PyNW Rat} {H' : NWG Rat}, WPyOk pg' n S ω H' → wstored H' ≠ [0] →
      IsCliqueList S n (wstored H') := by
    intro pg' H' hp hne
    apply wstored_clique hp
    intro h0
    exact hne (wstored_zero hp h0)
  have hcl1 : IsCliqueList S n l1 := by
    rw [hst]
    apply hclq c2
    intro h0
    rw [hst, h0] at hlen
    simp at hlen
  -- searches in between
  have key : ∀ (ops' : List (WOp Rat)), (∀ op ∈ ops', op.ExactSearch S n ω) → ∀ {pg' : PyNW Rat} {H' : NWG Rat},
      WPyOk pg' n S ω H' → McsOk H' → (∀ l, IsCliqueList S n l → weight ω l ≤ H'.limit) →
      weight ω l1 ≤ weight H'.w (wstored H') →
      ∃ pg3 H3, wruns ops' pg' = .ok pg3 ∧ WPyOk pg3 n S ω H3 ∧ McsOk H3 ∧
        (∀ l, IsCliqueList S n l → weight ω l ≤ H3.limit) ∧
        weight ω l1 ≤ weight H3.w (wstored H3) := by
    intro ops'
    induction ops' with
    | nil =>
      intro _ pg' H' k1 k2 k3 k4
      exact ⟨pg', H', rfl, k1, k2, k3, k4⟩
    | cons op ops' ih =>
      intro hE pg' H' k1 k2 k3 k4
      have hop := hE op (by simp)
      cases op with
      | search srt junk a =>
        obtain ⟨e1, e2, e3⟩ := hop
        obtain ⟨pgX, HX, d1, d2, d3, d4, d5⟩ := wsearch_mono k1 hnn k2 k3 e1 junk e2 e3 hcl1 hlen k4
        obtain ⟨pg3, H3, f1, f2⟩ := ih (fun o ho => hE o (by simp [ho])) d2 d3 d4 d5
        refine ⟨pg3, H3, ?_, f2⟩
        rw [wruns_cons]
        show ((pg'.getMaxClique srt junk a >>= _) >>= _) = _
        rw [d1, ok_bind, ok_bind, f1]
      | list _ _ => exact hop.elim
      | reset => exact hop.elim
  obtain ⟨pg3, H3, f1, f2, f3, f4, f5⟩ := key ops' hl' c2 c7 hlim2 (by
    rw [← hst, c2.weight hcl1])
  obtain ⟨pg4, H4, g1, g2, _, _, g5⟩ := wsearch_mono f2 hnn f3 f4 hsrt2 junk2 hd2 hu2 hcl1 hlen f5
  rw [if_neg (not_lt.2 (le_trans hlow g5))] at g1
  by_cases hz : wstored H4 = [0]
  · rw [hz] at g5
    have hw0 : weight H4.w [0] = 0 := by simp [weight, g2.w0]
    rw [hw0] at g5
    exact absurd hpos (not_lt.2 g5)
  · have hcl := hclq g2 hz
    exact ⟨pg3, pg4, _, f1, g1, hcl, by rw [← g2.weight hcl]; exact g5⟩

/-- On the sample: an exact search, two more of other kinds, and again one. -/
example : (wruns ([.list (fun _ => 0) 3, .reset] : List (WOp Rat)) Sample.wkite >>= fun pg =>
      pg.getMaxClique Sample.byW (fun i => i) {} >>= fun x =>
      wruns ([.search List.reverse (fun _ => 5) { lowerBound := 100 },
        .search Sample.byW (fun _ => 0) { useHeuristic := false }] : List (WOp Rat)) x.1 >>= fun pg =>
      pg.getMaxClique List.reverse (fun _ => 1) { lowerBound := 11 } >>= fun y =>
      .ok (x.2, y.2)) = .ok (.ret [4, 5], .ret [4, 5]) := by decide +kernel

theorem Sample.byW_sorted (l : List (WData Rat)) : (Sample.byW l).Pairwise fun x y => x.degree ≥ y.degree := by
  have key : ∀ (x : WData Rat) (l : List (WData Rat)), (l.Pairwise fun x y => x.degree ≥ y.degree) →
      (Sample.insertW x l).Pairwise fun x y => x.degree ≥ y.degree := by
    intro x l
    induction l with
    | nil => intro _; simp [Sample.insertW]
    | cons y ys ih =>
      intro h
      rw [List.pairwise_cons] at h
      unfold Sample.insertW
      split
      · rename_i hxy
        rw [List.pairwise_cons, List.pairwise_cons]
        refine ⟨?_, h⟩
        intro z hz
        rcases List.mem_cons.1 hz with rfl | hz
        · exact hxy
        · exact le_trans (h.1 z hz) hxy
      · rename_i hxy
        rw [List.pairwise_cons]
        refine ⟨?_, ih h.2⟩
        intro z hz
        rcases List.mem_cons.1 ((Sample.insertW_perm x ys).subset hz) with rfl | hz
        · exact le_of_lt (not_le.1 hxy)
        · exact h.1 z hz
  induction l with
  | nil => exact List.Pairwise.nil
  | cons x xs ih => exact key x _ ih

/-- **C48** is false for searches by the heuristic alone: of two such calls in a row the second
returns a lighter clique. -/
theorem C48_refuted :
    ∃ (pg : PyNW Rat) (n : Nat) (S : SimpleGraph Nat) (ω : Nat → Rat),
    WUsable pg n S ω ∧ (∀ v, 1 ≤ v → v ≤ n → 0 < ω v) ∧
    ∃ srt : List (WData Rat) → List (WData Rat), (∀ l, (srt l).Perm l) ∧
      (∀ l, (srt l).Pairwise fun x y => x.degree ≥ y.degree) ∧
    ∃ l1 l2, (pg.getMaxClique srt (fun _ => 0) { lowerBound := 0, useDfs := false } >>= fun x =>
        x.1.getMaxClique srt (fun _ => 0) { lowerBound := 0, useDfs := false } >>= fun y =>
        .ok (x.2, y.2)) = .ok (.ret l1, .ret l2) ∧ weight ω l2 < weight ω l1 := by
  refine ⟨Sample.get (PyNW.new (R := Rat)) (PyNW.fromEdgelist true 64 [(1, 3), (1, 7), (1, 8), (2, 4), (2, 5),
      (2, 7), (2, 8), (3, 6), (3, 8), (4, 5), (4, 8), (5, 7), (5, 8), (6, 7), (7, 8)] 8
      [3/1000, 1/25, 3/50, 1/25, 1/1000, 3/50, 3/50, 1/500]), 8,
    ofPairs [(1, 3), (1, 7), (1, 8), (2, 4), (2, 5), (2, 7), (2, 8), (3, 6), (3, 8), (4, 5),
      (4, 8), (5, 7), (5, 8), (6, 7), (7, 8)],
    nth ([3/1000, 1/25, 3/50, 1/25, 1/1000, 3/50, 3/50, 1/500] : List Rat),
    ⟨.edgelist (argLR := true) (cap := 64) (by decide) (by decide) (by decide +kernel),
      Sample.wkept (by decide +kernel), 1, 3, by decide, Or.inl (by decide)⟩,
    by decide +kernel, Sample.byW, fun _ => Sample.byW_perm _, Sample.byW_sorted, ?_⟩
  exact ⟨[2, 5, 7, 8], [2, 4, 5, 8], by decide +kernel, by decide +kernel⟩

/-! ## C49 -/

/-- A history of iterations leaves the record alone. -/
theorem wlists_spec : ∀ (ops : List (WOp Rat)) {pg : PyNW Rat} {n : Nat} {S : SimpleGraph Nat}
    {ω : Nat → Rat} {H : NWG Rat}, WPyOk pg n S ω H → (∀ op ∈ ops, ∃ junk W, op = .list junk W) →
    ∃ pg' H', wruns ops pg = .ok pg' ∧ WPyOk pg' n S ω H' ∧
      WCoreS anyCl H.g.searchStart H H' := by
  intro ops
  induction ops with
  | nil => intro pg n S ω H h _; exact ⟨pg, H, rfl, h, WCoreS.refl _ _ _⟩
  | cons op ops ih =>
    intro pg n S ω H h hop
    obtain ⟨junk, W, rfl⟩ := hop op (by simp)
    obtain ⟨H1, cs, h1, h2, h3, _⟩ := wlistCliques_spec h junk W
    have F := h3.frame
    have hP : WPyOk { pg with G := some H1 } n S ω H1 :=
      ⟨rfl, h.nv, h.pos, h2, h.of.frame F.frame,
        fun v h4 h5 => by rw [F.w]; exact h.w v h4 h5, by rw [F.w]; exact h.w0⟩
    obtain ⟨pg2, H2, b1, b2, b3⟩ := ih hP (fun o ho => hop o (by simp [ho]))
    rw [F.frame.searchStart] at b3
    refine ⟨pg2, H2, ?_, b2, h3.trans b3⟩
    rw [wruns_cons]
    show ((pg.listCliques junk W >>= _) >>= _) = _
    rw [h1, ok_bind, ok_bind, b1]

/-- **C49**, what holds of it: iterating over cliques before the first search changes nothing
in what an exact search returns: with nonnegative weights it is still a heaviest clique.
Missing from the claim: iterations that follow a search, `C49_refuted`. -/
theorem C49_iterate_first_partial (h : WUsable pg n S ω) (hnn : ∀ v, 1 ≤ v → v ≤ n → 0 ≤ ω v)
    {ops : List (WOp Rat)} (hops : ∀ op ∈ ops, ∃ junk W, op = .list junk W)
    {srt : List (WData Rat) → List (WData Rat)} (hsrt : ∀ l, (srt l).Perm l) (junk : Nat → Rat)
    {a : PyNW.Args Rat} (hd : a.useDfs = true) (ha : 0 ≤ a.lowerBound)
    (hu : ∀ l, IsCliqueList S n l → weight ω l ≤ a.upperBound)
    (hex : ∃ l, IsCliqueList S n l ∧ 2 ≤ l.length ∧ a.lowerBound < weight ω l) :
    ∃ pg1 pg2 l, wruns ops pg = .ok pg1 ∧
      pg1.getMaxClique srt junk a = .ok (pg2, .ret l) ∧
      IsCliqueList S n l ∧ ∀ l', IsCliqueList S n l' → (∀ v, l' = [v] → ∃ u, S.Adj v u) →
        weight ω l' ≤ weight ω l := by
  obtain ⟨H, hF⟩ := h.fresh
  have hnn' := hF.pyok.nonneg hnn
  obtain ⟨pg1, H1, a1, a2, a3⟩ := wlists_spec ops hF.pyok hops
  have hmc := hF.bounds.mcsOk hF.pyok.ok.ok.wf.str hnn'
  have hlim : ∀ l, IsCliqueList S n l → weight ω l ≤ H.limit := fun l hl => by
    rw [← hF.pyok.weight hl]
    exact wbounds_spec hF.pyok.of hF.pyok.ok.ok.wf hF.bounds hnn' hl
  have hl1 : H1.limit = H.limit := by rw [a3.same]
  have hc1 : H1.curMax = H.curMax := by rw [a3.same]
  obtain ⟨pg2, l, b1, b2, b3, b4⟩ := wexact a2 hnn
    (EX.core_mcs a3 hmc)
    (by rw [hl1]; exact hlim) (by rw [hc1, hF.cm]) hsrt junk hd hu
    (by rw [hc1, hF.cm, max_eq_left ha]; exact hex)
  refine ⟨pg1, pg2, l, a1, b1, b2, ?_⟩
  intro l' hl' hiso
  obtain ⟨l2, e1, e2, e3⟩ := isolated_only h.edge hF.pyok.of.rng hnn hl' hiso
  exact le_trans e3 (b4 l2 e1 e2)

example : (wruns [.list (fun _ => 7) 1, .list (fun _ => 0) 11] Sample.wkite >>= fun pg =>
    pg.getMaxClique Sample.byW (fun _ => 0) {} >>= fun x => .ok x.2) = .ok (.ret [4, 5]) := by
  decide +kernel

/-- **C49** is false: an iteration after a search overwrites the clique the search stored, and
the next search returns what the iteration left there. -/
theorem C49_refuted :
    ∃ (pg : PyNW Rat) (n : Nat) (S : SimpleGraph Nat) (ω : Nat → Rat),
    WUsable pg n S ω ∧ (∀ v, 1 ≤ v → v ≤ n → 0 < ω v) ∧
    ∃ l1 l2, (∀ srt, (pg.getMaxClique srt (fun _ => 0) { useHeuristic := false } >>= fun x =>
        wruns [.list (fun _ => 0) 2] x.1 >>= fun pg =>
        pg.getMaxClique (fun l => l) (fun _ => 0) { useHeuristic := false } >>= fun y =>
        .ok (x.2, y.2)) = .ok (.ret l1, .ret l2)) ∧ weight ω l2 < weight ω l1 := by
  refine ⟨Sample.get (PyNW.new (R := Rat)) (PyNW.fromEdgelist true 64 [(1, 3), (2, 3), (2, 4), (3, 4)] 4
      [2, 3, 40, 1]), 4, ofPairs [(1, 3), (2, 3), (2, 4), (3, 4)], nth ([2, 3, 40, 1] : List Rat),
    ⟨.edgelist (argLR := true) (cap := 64) (by decide) (by decide) (by decide +kernel),
      Sample.wkept (by decide +kernel), 1, 3, by decide, Or.inl (by decide)⟩,
    by decide +kernel, [2, 3, 4], [2, 4], ?_, by decide +kernel⟩
  intro srt
  rw [noHeuristic srt _ rfl]
  decide +kernel

/-! ## C50 -/

/-- **C50** is false: `reset_search` does not undo what an earlier `upper_bound` did to the
object.  (What holds of the claim is `C36_after_reset_partial`.) -/
theorem C50_refuted :
    ∃ (pg : PyNW Rat) (n : Nat) (S : SimpleGraph Nat) (ω : Nat → Rat),
    WUsable pg n S ω ∧ (∀ v, 1 ≤ v → v ≤ n → 0 < ω v) ∧
    ∃ l l', (∀ srt, (pg.getMaxClique srt (fun _ => 0) { useHeuristic := false, upperBound := 2 } >>=
        fun x => x.1.resetSearch >>= fun pg =>
        pg.getMaxClique (fun l => l) (fun _ => 0) { useHeuristic := false } >>= fun y =>
        .ok y.2) = .ok (.ret l)) ∧ IsCliqueList S n l' ∧ 2 ≤ l'.length ∧
      weight ω l < weight ω l' := by
  refine ⟨Sample.get (PyNW.new (R := Rat)) (PyNW.fromEdgelist true 64 [(1, 2), (1, 4)] 4 [1, 1, 40, 3]), 4,
    ofPairs [(1, 2), (1, 4)], nth ([1, 1, 40, 3] : List Rat),
    ⟨.edgelist (argLR := true) (cap := 64) (by decide) (by decide) (by decide +kernel),
      Sample.wkept (by decide +kernel), 1, 2, by decide, Or.inl (by decide)⟩,
    by decide +kernel, [1, 2], [1, 4], ?_,
    Sample.pair_clique (by decide) (by decide) (by decide) (by decide), by decide,
    by decide +kernel⟩
  intro srt
  rw [noHeuristic srt _ rfl]
  decide +kernel

/-- **C50**, what holds of it: after any history with sufficient upper bounds, `reset_search` and
an exact search give a clique at least as heavy as every clique but isolated vertices.  Missing
from the claim: histories in which an upper bound was below the weight of a clique,
`C50_refuted`. -/
theorem C50_reset_partial (h : WUsable pg n S ω) (hnn : ∀ v, 1 ≤ v → v ≤ n → 0 ≤ ω v)
    {ops : List (WOp Rat)} (hl : ∀ op ∈ ops, op.Legal) (hx : ∀ op ∈ ops, op.Exact S n ω)
    {srt : List (WData Rat) → List (WData Rat)} (hsrt : ∀ l, (srt l).Perm l) (junk : Nat → Rat)
    {a : PyNW.Args Rat} (hd : a.useDfs = true) (ha : 0 ≤ a.lowerBound)
    (hu : ∀ l, IsCliqueList S n l → weight ω l ≤ a.upperBound)
    (hex : ∃ l, IsCliqueList S n l ∧ 2 ≤ l.length ∧ a.lowerBound < weight ω l) :
    ∃ pg1 pg2 pg3 l, wruns ops pg = .ok pg1 ∧ pg1.resetSearch = .ok pg2 ∧
      pg2.getMaxClique srt junk a = .ok (pg3, .ret l) ∧ IsCliqueList S n l ∧
      ∀ l', IsCliqueList S n l' → (∀ v, l' = [v] → ∃ u, S.Adj v u) →
        weight ω l' ≤ weight ω l := by
  obtain ⟨pg2, pg3, l, a1, a2, a3, a4⟩ :=
    C36_after_reset_partial h hnn hl hx hsrt junk hd ha hu hex
  unfold wruns at a1
  rw [List.foldlM_append] at a1
  obtain ⟨pg1, b1, b2⟩ := bind_eq_ok.1 a1
  refine ⟨pg1, pg2, pg3, l, b1, ?_, a2, a3, a4⟩
  rw [List.foldlM_cons] at b2
  obtain ⟨pgX, c1, c2⟩ := bind_eq_ok.1 b2
  have : pgX = pg2 := by
    injection c2
  rw [← this]; exact c1

example : (wruns [.list (fun _ => 7) 1, .search Sample.byW (fun i => i) { lowerBound := 500 }]
      Sample.wkite >>= fun pg => pg.resetSearch >>= fun pg =>
    pg.getMaxClique Sample.byW (fun _ => 0) {} >>= fun x => .ok x.2) = .ok (.ret [4, 5]) := by
  decide +kernel

/-! ## C51 -/

section

variable {R : Type} [Zero R] [Add R] [Sub R] [NatCast R] [LT R] [LE R] [DecidableLT R]
  [DecidableLE R] {pg : PyNW R} {n : Nat} {S : SimpleGraph Nat} {ω : Nat → R}

/-- **C51**, as far as it is true: no sequence of searches, resets and complete iterations on a
weighted graph with an edge, whose buffer the constructor did not move, accesses memory it
should not (`error ub` in the model) or fails to end (`error fuel`).  Missing, because false:
graphs without edges (`C51_refuted_edgeless`), moved buffers (`C51_refuted_moved`) and abandoned
iterators (`C51_refuted_abandoned`).  Weights are of any number type; no law of arithmetic is
assumed. -/
theorem C51_no_fault_partial (h : WUsable pg n S ω) {ops : List (WOp R)}
    (hl : ∀ op ∈ ops, op.Legal) : ∃ pg1, wruns ops pg = .ok pg1 := by
  obtain ⟨H, hF⟩ := AW.wusable_fresh h
  obtain ⟨pg1, _, a1, _⟩ := AW.wruns_spec ops hF.pyok hl
  exact ⟨pg1, a1⟩

end

example : (wruns (Sample.whistory ++ [.list (fun _ => 3) (-7)]) Sample.wkite >>= fun pg =>
    .ok pg.nvert) = .ok 5 := by decide +kernel

/-- **C51** fails on a graph without edges. -/
theorem C51_refuted_edgeless : ∃ pg, WLoaded pg 3 (ofPairs []) (nth ([1, 2, 3] : List Rat)) ∧
    (∀ H, pg.G = some H → H.g.dangling = false) ∧
    ∀ srt, (pg.getMaxClique srt (fun _ => 0) { useHeuristic := false } >>= fun x => .ok x.2) =
      .error .ub := by
  refine ⟨Sample.get (PyNW.new (R := Rat)) (PyNW.fromEdgelist true 64 [] 3 [1, 2, 3]),
    .edgelist (argLR := true) (cap := 64) (by decide) (by decide) (by decide +kernel),
    Sample.wkept (by decide +kernel), ?_⟩
  intro srt
  rw [noHeuristic srt _ rfl]
  decide +kernel

/-- **C51** fails if the constructor's `resize` moves the buffer. -/
theorem C51_refuted_moved : ∃ pg, WLoaded pg 2 (ofPairs [(1, 2)]) (nth ([1, 2] : List Rat)) ∧
    (ofPairs [(1, 2)]).Adj 1 2 ∧
    ∀ srt, (pg.getMaxClique srt (fun _ => 0) { useHeuristic := false } >>= fun x => .ok x.2) =
      .error .ub := by
  refine ⟨Sample.get (PyNW.new (R := Rat)) (PyNW.fromEdgelist true 6 [(1, 2)] 2 [1, 2]),
    .edgelist (argLR := true) (cap := 6) (by decide) (by decide) (by decide +kernel),
    ⟨by decide, Or.inl (by decide)⟩, ?_⟩
  intro srt
  rw [noHeuristic srt _ rfl]
  decide +kernel

/-- Create `m` iterators over cliques of weight `W` one after the other, ask each for one clique
and drop it. -/
def wabandon (W : Rat) : Nat → PyNW Rat → M (PyNW Rat × List (Option (List Nat)))
  | 0, pg => .ok (pg, [])
  | m + 1, pg => do
    let E ← pg.allCliques (fun _ => 0) W
    let (pg, _, c) ← pg.nextClique E
    let (pg, cs) ← wabandon W m pg
    .ok (pg, c :: cs)

/-- **C51** fails when iterators are abandoned: `next(G.all_cliques(4))` works four times on the
sample; the fifth runs out of the scratch memory the first four did not give back. -/
theorem C51_refuted_abandoned : WUsable Sample.wkite 5 (ofPairs Sample.rows)
      (nth ([2, 1/2, 3, 1, 10] : List Rat)) ∧
    (wabandon 4 4 Sample.wkite >>= fun x => .ok x.2) =
      .ok [some [2, 3, 4], some [2, 3, 4], some [2, 3, 4], some [2, 3, 4]] ∧
    (wabandon 4 5 Sample.wkite >>= fun x => .ok x.2) = .error .ub :=
  ⟨Sample.wkite_usable, by decide +kernel, by decide +kernel⟩

end CM
