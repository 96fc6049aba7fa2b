import Verif.Lemmas.Mono
import Verif.Model.Calls

/-!
# Searches that are cut short by the clock

A call whose clock expires gives up at most one root vertex.  The invariants of the exact
search therefore hold with an exceptional set that grows by at most one vertex per call.
-/

namespace CM

namespace Graph

variable {G G' : Graph} {X Y : Finset Nat}

/-- `McsOk` for the roots outside `X`. -/
def McsX (G : Graph) (X : Finset Nat) : Prop := ∀ v, v < G.nVert → v ∉ X → ∀ S, Rooted G v S →
  2 ≤ S.card → S.card ≤ (G.V v).mcs ∨ G.limit ≤ (G.V v).mcs

/-- The roots below `i` outside `X` have no clique that beats the record. -/
def DoneX (G : Graph) (X : Finset Nat) (i : Nat) : Prop := ∀ v, v < i → v < G.nVert → v ∉ X →
  ∀ S, Rooted G v S → 2 ≤ S.card → S.card ≤ G.curMax ∨ G.limit ≤ G.curMax

theorem McsX.of (h : McsOk G) : McsX G ∅ := fun v hv _ => h v hv

theorem McsX.mono (h : McsX G X) (hXY : X ⊆ Y) : McsX G Y :=
  fun v hv hvY => h v hv fun hX => hvY (hXY hX)

theorem DoneX.zero : DoneX G X 0 := fun v hv => by omega

theorem DoneX.mono {i : Nat} (h : DoneX G X i) (hXY : X ⊆ Y) : DoneX G Y i :=
  fun v hv hn hvY => h v hv hn fun hX => hvY (hXY hX)

theorem DoneX.le {i j : Nat} (h : DoneX G X i) (hj : j ≤ i) : DoneX G X j :=
  fun v hv => h v (by omega)

theorem McsX.congr (F : Frame G G') (hl : G'.limit ≤ G.limit)
    (hV : ∀ v, (G'.V v).mcs = (G.V v).mcs) (hm : McsX G X) : McsX G' X := by
  intro v hv hX S hS h2
  rw [F.nVert] at hv
  rw [F.rooted] at hS
  rw [hV]
  rcases hm v hv hX S hS h2 with h | h
  · exact Or.inl h
  · exact Or.inr (by omega)

theorem DoneX.congr {i : Nat} (F : Frame G G') (hl : G'.limit ≤ G.limit)
    (hc : G.curMax ≤ G'.curMax) (hd : DoneX G X i) : DoneX G' X i := by
  intro v hv hn hX S hS h2
  rw [F.nVert] at hn
  rw [F.rooted] at hS
  have := hd v hv hn hX S hS h2
  omega

theorem Imp.doneX {i : Nat} (h : Imp G G') (hd : DoneX G X i) : DoneX G' X i :=
  hd.congr h.frame (Nat.le_of_eq h.lim) h.mono

theorem VDone.mcsX {r : Nat} (hr : r < G.nVert) (d : VDone r G G') (hm : McsX G X)
    (hc : r ∉ X → ∀ S, Rooted G r S → 2 ≤ S.card → S.card ≤ G'.curMax ∨ G'.limit ≤ G'.curMax) :
    McsX G' X := by
  have F := d.upd.frame
  intro v hv hX S hS h2
  rw [F.nVert] at hv
  rw [F.rooted] at hS
  rw [d.upd.lim]
  by_cases hvr : v = r
  · subst hvr
    rcases d.upd.res with ⟨_, _, _, h1⟩ | ⟨_, _, _, _, h1⟩
    · rw [h1]; exact hm v hv hX S hS h2
    · rcases h1 with h1 | h1
      · rw [h1]; exact hm v hv hX S hS h2
      · rw [h1, ← d.upd.lim]; exact hc hX S hS h2
  · rw [d.upd.other v hvr]; exact hm v hv hX S hS h2

theorem stackGraph_X (h : Ok G) (hm : McsX G X) :
    ∃ G', G.stackGraph = .ok (G', G.nVert) ∧ Ok G' ∧ Imp G G' ∧ McsX G' X ∧
      DoneX G' X G.nVert := by
  obtain ⟨G1, a1, a2, a3⟩ := stackVertex_spec h.ready h.loc
  obtain ⟨o1, i1⟩ := a2.ok h h.loc
  unfold stackGraph
  rw [a1, ok_bind]
  obtain ⟨G2, b1, b2, b3, b4, b5⟩ := forRange_rule (lo := 0) (hi := G1.nVert) (s := G1)
    (body := fun i G => do
      let V ← G.vtx i
      if V.mcs ≤ G.curMax ∨ G.curMax ≥ G.limit then .ok G
      else G.stackVertex i)
    (fun i Y => Ok Y ∧ Imp G Y ∧ McsX Y X ∧ DoneX Y X i)
    (Nat.zero_le _) ⟨o1, i1, a2.mcsX h.loc hm (fun _ => a3), DoneX.zero⟩
    (by
      rintro k Y _ hk ⟨c1, c2, c3, c4⟩
      have hkY : k < Y.nVert := by rw [c2.frame.nVert, ← i1.frame.nVert]; exact hk
      rw [vtx_ok c1.wf hkY, ok_bind]
      by_cases hc : (Y.V k).mcs ≤ Y.curMax ∨ Y.curMax ≥ Y.limit
      · rw [if_pos hc]
        refine ⟨_, rfl, c1, c2, c3, ?_⟩
        intro v hv hvn hX S hS h2
        by_cases hvk : v = k
        · subst hvk
          have := c3 v hkY hX S hS h2
          omega
        · exact c4 v (by omega) hvn hX S hS h2
      · rw [if_neg hc]
        obtain ⟨Z, d1, d2, d3⟩ := stackVertex_spec c1.ready hkY
        obtain ⟨o2, i2⟩ := d2.ok c1 hkY
        refine ⟨Z, d1, o2, c2.trans i2, d2.mcsX hkY c3 (fun _ => d3), ?_⟩
        intro v hv hvn hX S hS h2
        by_cases hvk : v = k
        · subst hvk
          exact d3 S (by rwa [i2.frame.rooted] at hS) h2
        · exact i2.doneX c4 v (by omega) hvn hX S hS h2)
  rw [b1, ok_bind]
  refine ⟨G2, ?_, b2, b3, b4, ?_⟩
  · rw [b3.frame.nVert]
  · rwa [i1.frame.nVert] at b5

/-- A timed search gives up at most one root. -/
theorem recGraph_X (h : Ok G) (t : Clock) (sv : Nat) (hm : McsX G X) (hd : DoneX G X sv) :
    ∃ G' i Y, G.recGraph t sv = .ok (G', i) ∧ Ok G' ∧ Imp G G' ∧ X ⊆ Y ∧
      Y.card ≤ X.card + (if t = none then 0 else 1) ∧ McsX G' Y ∧ DoneX G' Y i := by
  obtain ⟨G1, t1, a1, a2, a3, a4⟩ := recVertex_spec h.ready h.loc t
  obtain ⟨o1, i1⟩ := a2.ok h h.loc
  unfold recGraph
  rw [a1, ok_bind]
  simp only
  -- either no root was given up so far, or one was and the clock has expired
  obtain ⟨⟨G2, i⟩, b1, b2, b3, Y, b4, b5, b6, b7⟩ := loop_rule
    (body := fun (s : Graph × Clock × Nat) => do
      let (G, t, i) := s
      if i < G.nVert then do
        let V ← G.vtx i
        if V.mcs ≤ G.curMax ∨ G.curMax ≥ G.limit then .ok (.inl (G, t, i + 1))
        else
          let (expired, t) := tick t
          if expired then .ok (.inr (G, i))
          else do
            let (G, t) ← recVertex (G, t) i
            .ok (.inl (G, t, i + 1))
      else .ok (.inr (G, i)))
    (fun s => Ok s.1 ∧ Imp G s.1 ∧ sv ≤ s.2.2 ∧ s.2.2 ≤ max sv G.nVert ∧ ClkLe t s.2.1 ∧
      ∃ Y, X ⊆ Y ∧ (Y = X ∨ (s.2.1 = some 0 ∧ Y.card ≤ X.card + 1)) ∧ McsX s.1 Y ∧
        DoneX s.1 Y s.2.2)
    (fun q => Ok q.1 ∧ Imp G q.1 ∧
      ∃ Y, X ⊆ Y ∧ Y.card ≤ X.card + (if t = none then 0 else 1) ∧ McsX q.1 Y ∧ DoneX q.1 Y q.2)
    (fun s => max sv G.nVert - s.2.2)
    (by
      rintro ⟨Z, tZ, i⟩ ⟨c1, c2, c0, c3, c4, Y, c5, c6, c7, c8⟩
      have hZn : Z.nVert = G.nVert := c2.frame.nVert
      simp only at c1 c2 c0 c3 c4 c6 c7 c8 ⊢
      have hcard : Y.card ≤ X.card + (if t = none then 0 else 1) := by
        rcases c6 with rfl | ⟨e1, e2⟩
        · exact Nat.le_add_right _ _
        · rw [if_neg]
          · exact e2
          · intro ht
            have := c4.1 ht
            rw [e1] at this
            cases this
      by_cases hi : i < Z.nVert
      · rw [if_pos hi, vtx_ok c1.wf hi, ok_bind]
        by_cases hc : (Z.V i).mcs ≤ Z.curMax ∨ Z.curMax ≥ Z.limit
        · rw [if_pos hc]
          refine Or.inl ⟨_, rfl, ⟨c1, c2, by simp only; omega, by simp only; omega, c4, Y, c5, c6,
            c7, ?_⟩, by simp only; omega⟩
          intro v hv hvn hX S hS h2
          simp only at hv hvn hS ⊢
          by_cases hvi : v = i
          · subst hvi
            have := c7 v hi hX S hS h2
            omega
          · exact c8 v (by omega) hvn hX S hS h2
        · rw [if_neg hc]
          by_cases hex : (tick tZ).1 = true
          · rw [if_pos hex]
            exact Or.inr ⟨_, rfl, c1, c2, Y, c5, hcard, c7, c8⟩
          · rw [if_neg hex]
            have hY : Y = X := by
              rcases c6 with h | ⟨h, _⟩
              · exact h
              · rw [h] at hex; exact absurd rfl hex
            subst hY
            obtain ⟨W, tW, d1, d2, d3, d4⟩ := recVertex_spec c1.ready hi (tick tZ).2
            obtain ⟨o2, i2⟩ := d2.ok c1 hi
            rw [d1, ok_bind]
            refine Or.inl ⟨_, rfl, ⟨o2, c2.trans i2, by simp only; omega, by simp only; omega,
              c4.trans ((tick_le tZ).trans d3), ?_⟩, by simp only; omega⟩
            simp only
            rcases d4 with d4 | d4
            · refine ⟨insert i Y, Finset.subset_insert _ _, Or.inr ⟨d4, Finset.card_insert_le _ _⟩,
                d2.mcsX hi (c7.mono (Finset.subset_insert _ _)) ?_, ?_⟩
              · intro h; exact absurd (Finset.mem_insert_self _ _) h
              · intro v hv hvn hX S hS h2
                have hvi : v ≠ i := by
                  rintro rfl; exact hX (Finset.mem_insert_self _ _)
                exact i2.doneX c8 v (by omega) hvn
                  (fun h => hX (Finset.mem_insert_of_mem h)) S hS h2
            · refine ⟨Y, Finset.Subset.refl _, Or.inl rfl,
                d2.mcsX hi c7 (fun _ S hS _ => d4 S hS), ?_⟩
              intro v hv hvn hX S hS h2
              by_cases hvi : v = i
              · subst hvi
                exact d4 S (by rwa [i2.frame.rooted] at hS)
              · exact i2.doneX c8 v (by omega) hvn hX S hS h2
      · rw [if_neg hi]
        exact Or.inr ⟨_, rfl, c1, c2, Y, c5, hcard, c7, c8⟩)
    (s := (G1, t1, sv)) (fuel := G1.nVert - sv + 1)
    ⟨o1, i1, Nat.le_refl _, by simp only; omega, a3, by
      simp only
      rcases a4 with a4 | a4
      · refine ⟨insert G.curLoc X, Finset.subset_insert _ _,
          Or.inr ⟨a4, Finset.card_insert_le _ _⟩,
          a2.mcsX h.loc (hm.mono (Finset.subset_insert _ _)) ?_,
          (i1.doneX hd).mono (Finset.subset_insert _ _)⟩
        intro h; exact absurd (Finset.mem_insert_self _ _) h
      · exact ⟨X, Finset.Subset.refl _, Or.inl rfl,
          a2.mcsX h.loc hm (fun _ S hS _ => a4 S hS), i1.doneX hd⟩⟩
    (by have := i1.frame.nVert; simp only; omega)
  exact ⟨G2, i, Y, b1, b2, b3, b4, b5, b6, b7⟩

/-- How many roots a call with this time limit may give up. -/
def cost : TimeLimit → Nat
  | some (some _) => 1
  | _ => 0

theorem findMax_X {srt : List VData → List VData} (hsrt : ∀ l, (srt l).Perm l) (h : Ok G)
    (sv : Nat) (heur dfs : Bool) (tl : TimeLimit) (hm : McsX G X) (hd : DoneX G X sv) :
    ∃ G' i Y, G.findMaxCliques srt sv heur dfs tl = .ok (G', i) ∧ Ok G' ∧ Imp G G' ∧ X ⊆ Y ∧
      Y.card ≤ X.card + cost tl ∧ McsX G' Y ∧ DoneX G' Y i ∧
      (dfs = true → tl = none → i = G.nVert) := by
  have key : ∃ G1, (if heur = true then G.heurGraph srt else .ok G) = .ok G1 ∧ Ok G1 ∧ Imp G G1 ∧
      McsX G1 X ∧ DoneX G1 X sv := by
    cases heur with
    | true =>
      obtain ⟨G1, h1, h2, h3, h4⟩ := heurGraph_spec hsrt h
      exact ⟨G1, by simpa using h1, h2, h3,
        hm.congr h3.frame (Nat.le_of_eq h3.lim) (fun v => by rw [h4]), h3.doneX hd⟩
    | false => exact ⟨G, by simp, h, Imp.refl G, hm, hd⟩
  obtain ⟨G1, a1, a2, a3, a4, a5⟩ := key
  unfold findMaxCliques
  dsimp only
  rw [← ite_bind, a1, ok_bind]
  cases dfs with
  | false =>
    exact ⟨G1, sv, X, by simp, a2, a3, Finset.Subset.refl _, Nat.le_add_right _ _, a4, a5,
      by simp⟩
  | true =>
    simp only [if_true]
    cases tl with
    | none =>
      obtain ⟨G2, b1, b2, b3, b4, b5⟩ := stackGraph_X a2 a4
      exact ⟨G2, G1.nVert, X, b1, b2, a3.trans b3, Finset.Subset.refl _, Nat.le_add_right _ _, b4,
        b5, fun _ _ => a3.frame.nVert⟩
    | some t =>
      obtain ⟨G2, i, Y, b1, b2, b3, b4, b5, b6, b7⟩ := recGraph_X a2 t sv a4 a5
      refine ⟨G2, i, Y, b1, b2, a3.trans b3, b4, ?_, b6, b7, by simp⟩
      cases t with
      | none => simpa [cost] using b5
      | some _ => simpa [cost] using b5

end Graph

open Spec Graph

variable {pg : PyGraph} {n : Nat} {S : SimpleGraph Nat} {G : Graph} {X : Finset Nat} {u : Nat}

/-- One call of `get_max_clique`, whatever its time limit. -/
theorem getMaxClique_X (h : PyOk pg n S G) {srt : List VData → List VData}
    (hsrt : ∀ l, (srt l).Perm l) (a : PyGraph.Args) (hm : McsX G X)
    (hd : DoneX G X pg.currentVertex) :
    ∃ G' i Y, pg.getMaxClique srt a =
        .ok ({ pg with G := some G', currentVertex := i, finishedAll := decide (i ≥ n) },
          if a.lowerBound > (stored G').length then .raise else .ret (stored G')) ∧
      Ok G' ∧ Imp (bounded G a) G' ∧ X ⊆ Y ∧ Y.card ≤ X.card + cost a.timeLimit ∧ McsX G' Y ∧
      DoneX G' Y i ∧ (a.useDfs = true → a.timeLimit = none → i = n + 1) := by
  have hF := bounded_frame G a
  have hl : (bounded G a).limit ≤ G.limit := by rw [bounded_limit]; omega
  have hc : G.curMax ≤ (bounded G a).curMax := by rw [bounded_curMax]; omega
  have hd' : DoneX (bounded G a) X (if a.continueSearch = true then pg.currentVertex else 0) := by
    split
    · exact hd.congr hF hl hc
    · exact DoneX.zero
  obtain ⟨G', i, Y, h1, h2, h3, h4, h5, h6, h7, h8⟩ := findMax_X hsrt (bounded_ok h.ok a)
    (if a.continueSearch = true then pg.currentVertex else 0)
    (if a.continueSearch = true ∧ pg.currentVertex ≠ 0 then false else a.useHeuristic)
    a.useDfs a.timeLimit (hm.congr hF hl (fun _ => rfl)) hd'
  refine ⟨G', i, Y, ?_, h2, h3, h4, h5, h6, h7, ?_⟩
  · unfold PyGraph.getMaxClique
    simp only
    have hl : PyGraph.checkLoaded { pg with
        currentVertex := if a.continueSearch = true then pg.currentVertex else 0 } = some G :=
      h.loaded
    rw [hl]
    simp only
    unfold bounded at h1
    rw [h1, ok_bind]
    simp only
    rw [getClique_ok h2.wf h2.pad h2.loc, ok_bind, h.nv]
    unfold stored
    by_cases hgt : a.lowerBound > (G'.cliqueAt G'.curLoc).length
    · rw [if_pos hgt, if_pos hgt]
    · rw [if_neg hgt, if_neg hgt]
  · intro e1 e2
    rw [h8 e1 e2]
    exact h.of.nv

/-- What is known between calls: the roots in `X` may have been given up. -/
structure GivenUp (pg : PyGraph) (n : Nat) (S : SimpleGraph Nat) (G : Graph) (X : Finset Nat)
    (u : Nat) : Prop where
  ok : PyOk pg n S G
  mcs : McsX G X
  done : DoneX G X pg.currentVertex
  lim : ∀ l, IsCliqueList S n l → min u l.length ≤ G.limit

theorem Fresh.givenUp (h : Fresh pg n S G) : GivenUp pg n S G ∅ u :=
  ⟨h.pyok, McsX.of h.mcs, by rw [h.cv]; exact DoneX.zero,
    fun l hl => Nat.le_trans (Nat.min_le_right _ _) (h.lim l hl)⟩

theorem GivenUp.reset (h : GivenUp pg n S G X u) :
    GivenUp { pg with G := some { G with curMax := 1 }, finishedAll := false, currentVertex := 0 }
      n S { G with curMax := 1 } X u :=
  ⟨⟨rfl, h.ok.nv, h.ok.pos, reset_ok h.ok.ok 1, h.ok.of.frame (reset_frame G 1)⟩,
    h.mcs.congr (reset_frame G 1) (Nat.le_refl _) (fun _ => rfl), DoneX.zero, h.lim⟩

theorem GivenUp.search (h : GivenUp pg n S G X u) {srt : List VData → List VData}
    (hsrt : ∀ l, (srt l).Perm l) (a : PyGraph.Args)
    (hu : u ≤ a.upperBound) :
    ∃ pg' G' Y, pg.getMaxClique srt a =
        .ok (pg', if a.lowerBound > (stored G').length then .raise else .ret (stored G')) ∧
      GivenUp pg' n S G' Y u ∧ X ⊆ Y ∧ Y.card ≤ X.card + cost a.timeLimit ∧
      (1 ≤ a.lowerBound → G.curLoc ≠ 0 → G'.curLoc ≠ 0) ∧
      (a.lowerBound ≤ 1 → Honest G → Honest G') ∧ a.lowerBound ≤ G'.curMax ∧
      (pg'.finishedAll = true → n ≤ pg'.currentVertex) ∧
      (a.useDfs = true → a.timeLimit = none → pg'.currentVertex = n + 1) := by
  obtain ⟨G', i, Y, h1, h2, h3, h4, h5, h6, h7, h8⟩ := getMaxClique_X h.ok hsrt a h.mcs h.done
  have hP := getMaxClique_pyok (i := i) h.ok h2 h3 (decide (i ≥ n))
  refine ⟨_, G', Y, h1, ⟨hP, h6, h7, fun l hl => ?_⟩, h4, h5, ?_, ?_, ?_, ?_, h8⟩
  · have e2 := h.lim l hl
    rw [h3.lim, bounded_limit]; omega
  · intro hp h0
    exact imp_loc (h.ok.of.frame (bounded_frame G a)) (bounded_ok h.ok.ok a).wf.str h3 h2
      (by rw [bounded_curMax]; omega) h0
  · intro hlb hh
    unfold Honest at hh ⊢
    have := imp_cases h3
    rw [bounded_curMax] at this
    have hp := stored_pos hP
    rcases this with ⟨c1, c2⟩ | ⟨c1, c2⟩
    · have c2' : stored G' = stored G := c2
      rw [c1]
      rw [c2'] at hp ⊢
      omega
    · have c2' : (stored G').length = G'.curMax := c2
      omega
  · have := h3.mono
    rw [bounded_curMax] at this
    omega
  · intro hf
    simpa using hf

theorem GivenUp.list (h : GivenUp pg n S G X u) (k : Nat) :
    ∃ G' cs, pg.listCliques k = .ok ({ pg with G := some G' }, cs) ∧
      GivenUp { pg with G := some G' } n S G' X u ∧ (G.curLoc ≠ 0 → G'.curLoc ≠ 0) := by
  obtain ⟨G', cs, h1, h2, h3, _⟩ := listCliques_spec h.ok k
  refine ⟨G', cs, h1, ⟨⟨rfl, h.ok.nv, h.ok.pos, h2, h.ok.of.frame h3.frame⟩, ?_, ?_, ?_⟩, ?_⟩
  · exact h.mcs.congr h3.frame (by rw [h3.lim]) (fun v => by simp only [V, h3.vs])
  · exact h.done.congr h3.frame (by rw [h3.lim]) (by rw [h3.cm])
  · rw [h3.lim]; exact h.lim
  · intro h0; rw [h3.loc]; exact h0

theorem cost_eq (srt : List VData → List VData) (a : PyGraph.Args) :
    cost a.timeLimit = if (Op.search srt a).timed then 1 else 0 := by
  obtain ⟨lb, ub, tl, uh, ud, cs⟩ := a
  rcases tl with _ | _ | _ <;> rfl

/-- The number of calls that the clock may have cut short bounds the exceptional set. -/
theorem runs_X : ∀ (ops : List Op) {pg : PyGraph} {G : Graph} {X : Finset Nat},
    GivenUp pg n S G X u → (∀ op ∈ ops, op.Legal) → (∀ op ∈ ops, op.Positive) →
    (∀ op ∈ ops, op.Ample u) → G.curLoc ≠ 0 →
    ∃ pg' G' Y, runs ops pg = .ok pg' ∧ GivenUp pg' n S G' Y u ∧ X ⊆ Y ∧
      Y.card ≤ X.card + ops.countP Op.timed ∧ G'.curLoc ≠ 0 ∧
      ((∀ op ∈ ops, op.NoList) → (∀ op ∈ ops, op.Unbounded) → Honest G → Honest G') := by
  intro ops
  induction ops with
  | nil =>
    intro pg G X h _ _ _ h0
    exact ⟨pg, G, X, rfl, h, Finset.Subset.refl _, by simp, h0, fun _ _ hh => hh⟩
  | cons op ops ih =>
    intro pg G X h hl hp ha h0
    obtain ⟨pg1, G1, Y1, a1, a2, a3, a4, a5, a6⟩ : ∃ pg1 G1 Y1, op.run pg = .ok pg1 ∧
        GivenUp pg1 n S G1 Y1 u ∧ X ⊆ Y1 ∧ Y1.card ≤ X.card + (if op.timed then 1 else 0) ∧
        G1.curLoc ≠ 0 ∧ (op.NoList → op.Unbounded → Honest G → Honest G1) := by
      cases op with
      | search srt a =>
        obtain ⟨pg1, G1, Y1, b1, b2, b3, b4, b5, b6, _⟩ := h.search
          (hl _ (List.mem_cons_self ..)) a (ha _ (List.mem_cons_self ..))
        have hpos : 1 ≤ a.lowerBound := hp _ (List.mem_cons_self ..)
        refine ⟨pg1, G1, Y1, ?_, b2, b3, ?_, b5 hpos h0, fun _ hu => b6 (Nat.le_of_eq hu)⟩
        · show (pg.getMaxClique srt a >>= _) = _
          rw [b1, ok_bind]
        · refine Nat.le_trans b4 ?_
          have := cost_eq srt a
          omega
      | reset =>
        refine ⟨_, _, X, ?_, h.reset, Finset.Subset.refl _, Nat.le_add_right _ _, h0, ?_⟩
        · simp only [Op.run, PyGraph.resetSearch, h.ok.g]
        · intro _ _ _
          unfold Honest
          exact stored_pos h.reset.ok
      | list k =>
        obtain ⟨G1, cs, b1, b2, b3⟩ := h.list k
        refine ⟨_, G1, X, ?_, b2, Finset.Subset.refl _, Nat.le_add_right _ _, b3 h0,
          fun hn => hn.elim⟩
        show (pg.listCliques k >>= _) = _
        rw [b1, ok_bind]
    obtain ⟨pg2, G2, Y2, b1, b2, b3, b4, b5, b6⟩ := ih a2 (fun o ho => hl o (by simp [ho]))
      (fun o ho => hp o (by simp [ho])) (fun o ho => ha o (by simp [ho])) a5
    refine ⟨pg2, G2, Y2, ?_, b2, a3.trans b3, ?_, b5, ?_⟩
    · rw [runs_cons, a1, ok_bind, b1]
    · rw [List.countP_cons]; omega
    · intro c1 c2 hh
      exact b6 (fun o ho => c1 o (by simp [ho])) (fun o ho => c2 o (by simp [ho]))
        (a6 (c1 op (by simp)) (c2 op (by simp)) hh)

/-- Cliques without the given-up vertices do not beat the record. -/
theorem GivenUp.best (h : GivenUp pg n S G X u) (h1 : 1 ≤ G.curMax) {l : List Nat}
    (hl : IsCliqueList S n l) (hX : ∀ v ∈ l, v ∉ X) (hv : ∀ v ∈ l, v < pg.currentVertex) :
    min u l.length ≤ G.curMax := by
  rcases Nat.lt_or_ge l.length 2 with h2 | h2
  · omega
  · have w := h.ok.ok.wf.str
    obtain ⟨r, T, e1, e2, e3, e4, _⟩ := spec_rooted h.ok.of w hl (by rintro rfl; simp at h2)
    have := h.lim l hl
    have := h.done r (hv r e1) e2 (hX r e1) T e3 (by omega)
    omega

end CM
