import Verif.Lemmas.Late
import Verif.Props.File
import Verif.Props.MaxClique
import Verif.Props.Iteration

/-!
# The command-line program (C92)

`memMain` is mem_test/main.cpp.  It prints what the heuristic finds, what the search finds within
ten seconds, what the search finds without a time limit, and the number of cliques with one vertex
less.  `text` is a file that `Graph.from_file` reads into an object for the graph `S`.
-/

namespace CM

open Spec Graph

variable {argLR look : Bool} {cap n : Nat} {text : List Char} {pg : PyGraph} {S : SimpleGraph Nat}
  {srt : List VData → List VData}

/-- A line of the output: a clique, or the single number `0`, which is no vertex. -/
def CliqueOrZero (S : SimpleGraph Nat) (n : Nat) (l : List Nat) : Prop :=
  IsCliqueList S n l ∨ l = [0]

theorem memMain_eq {G : Graph} (hf : PyGraph.fromFile argLR cap look text = .ok pg)
    (hg : pg.G = some G) (clock : Clock) :
    memMain argLR cap look srt clock text = G.memRun srt clock := by
  unfold PyGraph.fromFile at hf
  obtain ⟨⟨n, m, edges⟩, h1, hf⟩ := bind_eq_ok.1 hf
  simp only at hf
  split at hf
  · cases hf
  · unfold PyGraph.loadGraph at hf
    obtain ⟨G', h2, hf⟩ := bind_eq_ok.1 hf
    cases hf
    cases hg
    unfold memMain
    rw [h1, ok_bind]
    simp only
    rw [h2, ok_bind]

/-- What is printed, for any behaviour of the clock. -/
theorem memRun_spec {G : Graph} (hF : Fresh pg n S G) (hsrt : ∀ l, (srt l).Perm l) (clock : Clock) :
    ∃ r, G.memRun srt clock = .ok r ∧ IsCliqueList S n r.heur ∧ r.heur ≠ [] ∧
      CliqueOrZero S n r.recursion ∧ (clock = none → IsMaxCliqueList S n r.recursion) ∧
      IsMaxCliqueList S n r.stack ∧ r.size + 1 = r.stack.length ∧
      ∃ cs : List (List Nat), cs.Nodup ∧ r.count = cs.length ∧
        ∀ l, l ∈ cs ↔ IsCliqueList S n l ∧ l.length = r.size ∧
          (2 ≤ r.size → ¬ First S n 1 l) := by
  have hP := hF.pyok
  obtain ⟨e1, e2, he⟩ := hF.edge
  obtain ⟨lp, hlp, hlp2⟩ := pair_clique he (hP.of.rng _ _ he)
  -- the heuristic
  obtain ⟨G1, i1, X1, a1, a2, a3, a4, a5, a6, a7, _⟩ := findMax_X hsrt hP.ok 0 true false none
    (McsX.of hF.mcs) DoneX.zero
  have x1 : X1 = ∅ := by simpa [cost] using a5
  subst x1
  have hrec := findMax_heur_rec a1
  have hO1 := hP.of.frame a3.frame
  have hloc1 : G1.curLoc ≠ 0 := by
    rcases hrec with h | h
    · rw [h]; exact hF.loc
    · simp only at h
      rcases a3.best with ⟨b1, _, _⟩ | ⟨_, _, b3⟩
      · rw [b1, hF.cm] at h; omega
      · intro h0
        have := cliqueAt_zero hO1 a2
        have h3 : (G1.cliqueAt G1.curLoc).length = G1.curMax := by
          rw [cliqueAt_length, ← b3, a3.frame.vb]
        rw [h0, this] at h3
        simp at h3
        omega
  have hc1 := cliqueAt_clique hO1 a2.wf.str a2.loc (a2.cliq _ a2.loc) hloc1
  have hne1 : G1.cliqueAt G1.curLoc ≠ [] := by
    intro h0
    have h1 : (G1.cliqueAt G1.curLoc).length = 0 := by rw [h0]; rfl
    rw [cliqueAt_length, Finset.card_eq_zero] at h1
    have := (a2.cliq _ a2.loc).1
    rw [h1] at this
    simp at this
  -- the search with a time limit
  have hr1 := again_ok a2
  obtain ⟨G2, i2, X2, b1, b2, b3, b4, b5, b6, b7, _⟩ := findMax_X hsrt hr1 0 false true
    (some clock) (a6.congr (again_frame G1) (Nat.le_refl _) fun _ => rfl) DoneX.zero
  have hO2 := (hO1.frame (again_frame G1)).frame b3.frame
  obtain ⟨s2a, s2b⟩ := again_stored hO1 b2 b3
  have hlim2 : G2.limit = G.limit := by rw [b3.lim]; exact a3.lim
  -- the search without a time limit
  have hr2 := again_ok b2
  obtain ⟨G3, i3, _, c1, c2, c3, _, _, _, _, c8⟩ := findMax_X hsrt hr2 0 false true none
    (b6.congr (again_frame G2) (Nat.le_refl _) fun _ => rfl) DoneX.zero
  obtain ⟨c6, c7⟩ : McsX G3 ∅ ∧ DoneX G3 ∅ i3 := by
    obtain ⟨q2, d1, d2⟩ := recGraph_late (hO1.frame (again_frame G1)) hr1 clock (Nat.le_refl 1) rfl
      (a6.congr (again_frame G1) (Nat.le_refl _) fun _ => rfl)
    unfold findMaxCliques at b1 c1
    simp only [Bool.false_eq_true, if_false, if_true, ok_bind] at b1 c1
    rw [b1] at d1
    cases d1
    rcases d2 with d2 | ⟨j, c, _, d2, d3⟩
    · obtain ⟨G3', e1, _, _, e2, e3⟩ := stackGraph_X hr2
        (d2.congr (again_frame G2) (Nat.le_refl _) fun _ => rfl)
      rw [c1] at e1
      cases e1
      exact ⟨e2, e3⟩
    · obtain ⟨q3, e1, e2, e3⟩ := stackGraph_late (hO2.frame (again_frame G2)) hr2 rfl rfl
        (d2.congr (again_frame G2) (Nat.le_refl _) fun _ => rfl)
        (d3.congr (again_frame G2) rfl rfl)
      rw [c1] at e1
      cases e1
      exact ⟨e2, e3⟩
  have hO3 := (hO2.frame (again_frame G2)).frame c3.frame
  obtain ⟨s3a, s3b⟩ := again_stored hO2 c2 c3
  have hlim3 : G3.limit = G.limit := by rw [c3.lim]; exact hlim2
  have hi3 := c8 rfl rfl
  have hcm3 : 1 ≤ G3.curMax := by
    rcases s3b with h | h <;> omega
  have hbest : ∀ l, IsCliqueList S n l → l.length ≤ G3.curMax := by
    intro l hl
    rcases Nat.lt_or_ge l.length 2 with h2 | h2
    · omega
    obtain ⟨r, T, d1, d2, d3, d4, _⟩ := spec_rooted hO3 c2.wf.str hl (by rintro rfl; simp at h2)
    have := c7 r (by rw [hi3]; exact (by rw [← c3.frame.nVert]; exact d2)) d2 (by simp) T d3
      (by omega)
    have h4 := hF.lim l hl
    omega
  -- the count
  have hn3 := hO3.nv
  have hP3 : PyOk { pg with G := some G3 } n S G3 := ⟨rfl, hP.nv, hP.pos, c2, hO3⟩
  obtain ⟨G4, cs, l1, l2, l3, l4, l5, l6, l7, l8, l9⟩ := listCliques_spec hP3 (usub G3.curMax 1)
  have hus : usub G3.curMax 1 = G3.curMax - 1 := by
    unfold usub
    have h5 : G3.curMax < 2 ^ 64 := by
      rcases s3b with ⟨h, _⟩ | ⟨_, h⟩
      · have h6 : (G3.cliqueAt G3.curLoc).length ≤ n := by
          have hnd : (G3.cliqueAt G3.curLoc).Nodup := h.increasing.imp fun h => Nat.ne_of_lt h
          rw [← List.toFinset_card_of_nodup hnd]
          have : (G3.cliqueAt G3.curLoc).toFinset ⊆ Finset.Icc 1 n := by
            intro v hv
            rw [List.mem_toFinset] at hv
            rw [Finset.mem_Icc]
            exact h.range v hv
          have := Finset.card_le_card this
          simpa using this
        have := hF.small
        omega
      · omega
    omega
  have hcount : memCount (usub G3.curMax 1) (G3.nVert * 2 ^ G3.maxDeg + 1) G3
      (Enum.new (usub G3.curMax 1)) = .ok cs.length := by
    unfold PyGraph.listCliques PyGraph.allCliques at l1
    rw [hP3.loaded] at l1
    simp only at l1
    rw [ok_bind] at l1
    obtain ⟨⟨pg4, E4, cs4⟩, l10, l1⟩ := bind_eq_ok.1 l1
    cases l1
    rw [memCount_consume _ _ rfl (by simp only; rw [hn3, hP.nv]) l10]
    have hall : ∀ l ∈ cs4, decide (l.length = usub G3.curMax 1) = true := fun l hl =>
      decide_eq_true (l5 l hl).2
    rw [List.countP_eq_length.2 hall]
  rw [hus] at hcount l5 l6 l7 l8 l9
  have top : ∀ {G' : Graph}, (G'.cliqueAt G'.curLoc).length = G'.curMax →
      ((IsCliqueList S n (G'.cliqueAt G'.curLoc) ∧ 2 ≤ G'.curMax) ∨
        (G'.cliqueAt G'.curLoc = [0] ∧ G'.curMax = 1)) →
      (∀ l, IsCliqueList S n l → l.length ≤ G'.curMax) →
      IsMaxCliqueList S n (G'.cliqueAt G'.curLoc) := by
    intro G' h1 h2 h3
    rcases h2 with ⟨h2, _⟩ | ⟨_, h2⟩
    · exact ⟨h2, fun l hl => by rw [h1]; exact h3 l hl⟩
    · have := h3 lp hlp
      omega
  refine ⟨⟨G1.cliqueAt G1.curLoc, G2.cliqueAt G2.curLoc, G3.cliqueAt G3.curLoc, G3.curMax - 1,
    cs.length⟩, ?_, hc1, hne1, ?_, ?_, top s3a s3b hbest, ?_, cs, l4, rfl, ?_⟩
  · unfold memRun
    rw [a1, ok_bind]
    simp only
    rw [getClique_ok a2.wf a2.pad a2.loc, ok_bind]
    simp only
    rw [b1, ok_bind]
    simp only
    rw [getClique_ok b2.wf b2.pad b2.loc, ok_bind]
    simp only
    rw [c1, ok_bind]
    simp only
    rw [getClique_ok c2.wf c2.pad c2.loc, ok_bind]
    simp only
    rw [hus, hcount, ok_bind]
  · rcases s2b with h | h
    · exact Or.inl h.1
    · exact Or.inr h.1
  · intro hc
    subst hc
    have hm1 : McsOk { G1 with curMax := 1, curLoc := 0 } := by
      have := a6.congr (again_frame G1) (Nat.le_refl _) fun _ => rfl
      exact fun v hv => this v hv (by simp)
    obtain ⟨G2', i2', d1, _, _, d2⟩ := findMax_spec hsrt hr1 0 false true (some none)
    rw [b1] at d1
    cases d1
    have hB := ((d2 (Or.inr rfl) hm1).2 rfl (Or.inr rfl)).1
    refine top s2a s2b fun l hl => ?_
    rcases Nat.lt_or_ge l.length 2 with h2 | h2
    · rcases s2b with h | h <;> omega
    · have h4 := best_spec hO2 b2.wf.str hB hl h2
      have h5 := hF.lim l hl
      omega
  · simp only
    omega
  · intro l
    simp only
    refine ⟨fun hl => ⟨(l5 l hl).1, (l5 l hl).2, fun h2 => l6 h2 l hl⟩, ?_⟩
    rintro ⟨hl, hlen, hnf⟩
    have := hbest lp hlp
    rcases Nat.lt_or_ge (G3.curMax - 1) 2 with h2 | h2
    · rw [l7 (by omega), List.mem_map]
      obtain ⟨v, rfl⟩ := List.length_eq_one_iff.1 (show l.length = 1 by omega)
      have := hl.range v (by simp)
      exact ⟨v, List.mem_range'_1.2 (by omega), rfl⟩
    · refine l9 (fun v hv => c6 v hv (by simp)) ?_ h2 l hl hlen (hnf h2)
      have := hF.lim l hl
      omega

/-- If the clock allows enough steps the output is that of a clock that never expires. -/
theorem memRun_budget {G : Graph} {r : MemReport} (h : G.memRun srt none = .ok r) :
    ∃ T, ∀ b, T ≤ b → G.memRun srt (some b) = .ok r := by
  unfold memRun at h ⊢
  obtain ⟨⟨G1, i1⟩, h1, h⟩ := bind_eq_ok.1 h
  simp only at h
  obtain ⟨⟨G2, l2⟩, h2, h⟩ := bind_eq_ok.1 h
  simp only at h
  obtain ⟨⟨G3, i3⟩, h3, h⟩ := bind_eq_ok.1 h
  simp only at h
  unfold findMaxCliques at h3
  simp only [Bool.false_eq_true, if_false, if_true, ok_bind] at h3
  obtain ⟨T, hT⟩ := recGraph_budget _ _ h3
  refine ⟨T, fun b hb => ?_⟩
  rw [h1, ok_bind]
  simp only
  rw [h2, ok_bind]
  simp only
  have : ({ G2 with curMax := 1, curLoc := 0 } : Graph).findMaxCliques srt 0 false true
      (some (some b)) = .ok (G3, i3) := by
    unfold findMaxCliques
    simp only [Bool.false_eq_true, if_false, if_true, ok_bind]
    exact hT b hb
  rw [this, ok_bind]
  exact h

/-- Part of **C92** (the program prints a clique, two maximum cliques, and the number of cliques
with one vertex less than those).  Proved, however long the search with the time limit is allowed
to take: the first line is a clique; the last one is a maximum clique; the second one is a clique,
or the number `0`; the number printed is that of the cliques with one vertex less, but for
those of two or more vertices whose first vertex, in the order by degree and then by number, is
vertex 1.  The second line is a maximum clique if there is enough time (`C92_enough_time`).
Missing, because false (`C92_refuted_count`, `C92_refuted_clock`): the count without the
exception, and the second line for every clock. -/
theorem C92_program_partial (hf : PyGraph.fromFile argLR cap look text = .ok pg) (h : Usable pg n S)
    (hsrt : ∀ l, (srt l).Perm l) (clock : Clock) :
    ∃ r, memMain argLR cap look srt clock text = .ok r ∧
      IsCliqueList S n r.heur ∧ r.heur ≠ [] ∧ CliqueOrZero S n r.recursion ∧
      IsMaxCliqueList S n r.stack ∧ r.size + 1 = r.stack.length ∧
      ∃ cs : List (List Nat), cs.Nodup ∧ r.count = cs.length ∧
        ∀ l, l ∈ cs ↔ IsCliqueList S n l ∧ l.length = r.size ∧ (2 ≤ r.size → ¬ First S n 1 l) := by
  obtain ⟨G, hF⟩ := h.fresh
  obtain ⟨r, a1, a2, a3, a4, _, a5, a6, a7⟩ := memRun_spec hF hsrt clock
  exact ⟨r, by rw [memMain_eq hf hF.pyok.g]; exact a1, a2, a3, a4, a5, a6, a7⟩

/-- **C92**, the second line: from some number of looks at the clock on, the output no longer
depends on it, and the second line is a maximum clique. -/
theorem C92_enough_time (hf : PyGraph.fromFile argLR cap look text = .ok pg) (h : Usable pg n S)
    (hsrt : ∀ l, (srt l).Perm l) :
    ∃ r T, (∀ clock, (∀ b, clock = some b → T ≤ b) →
        memMain argLR cap look srt clock text = .ok r) ∧
      IsMaxCliqueList S n r.recursion ∧ IsMaxCliqueList S n r.stack := by
  obtain ⟨G, hF⟩ := h.fresh
  obtain ⟨r, a1, _, _, _, a2, a3, _⟩ := memRun_spec hF hsrt none
  obtain ⟨T, hT⟩ := memRun_budget a1
  refine ⟨r, T, ?_, a2 rfl, a3⟩
  intro clock hc
  rw [memMain_eq hf hF.pyok.g]
  cases clock with
  | none => exact a1
  | some b => exact hT b (hc b rfl)

namespace Sample

/-- A file with the three edges of a triangle. -/
def triangleText : List Char := "3 3 3\n1 2\n1 3\n2 3\n".toList

theorem triangleText_is : IsFile 3 3 triangleRows [] triangleText := by
  refine ⟨[], ["1 2\n".toList, "1 3\n".toList, "2 3\n".toList], "3 3 3\n".toList, 3, by decide, ?_,
    ?_, by decide, ?_⟩
  · simp
  · exact ⟨[], ['3'], [' '], ['3'], [' '], ['3'], [], by decide, by simp [IsBlank],
      ⟨by decide, by decide, by decide⟩, by simp [IsBlank], by decide,
      ⟨by decide, by decide, by decide⟩, by simp [IsBlank], by decide,
      ⟨by decide, by decide, by decide⟩, by simp [IsBlank]⟩
  · refine .cons ⟨[], ['1'], [' '], ['2'], [], ?_⟩ (.cons ⟨[], ['1'], [' '], ['3'], [], ?_⟩
      (.cons ⟨[], ['2'], [' '], ['3'], [], ?_⟩ .nil))
    all_goals
      exact ⟨by decide, by simp [IsBlank], ⟨by decide, by decide, by decide⟩, by simp [IsBlank],
        by decide, ⟨by decide, by decide, by decide⟩, by decide, by decide, by
          intro c hc
          simp at hc⟩

def triangleFile : PyGraph := get PyGraph.new (PyGraph.fromFile true 64 true triangleText)

theorem triangleFile_eq : PyGraph.fromFile true 64 true triangleText = .ok triangleFile := by
  decide +kernel

theorem triangleFile_usable : Usable triangleFile 3 (ofPairs triangleRows) := by
  have hL : Loaded triangleFile 3 (ofPairs triangleRows) := by
    obtain ⟨pg, h1, _, h2⟩ := C08_well_formed triangleText_is (by decide) (by decide) (by decide)
      (by decide) true 64 true
    rw [triangleFile_eq] at h1
    cases h1
    exact h2
  refine ⟨hL, ?_, 1, 2, by decide, Or.inl (by decide)⟩
  intro G hG
  have : (triangleFile.G.map fun G => G.dangling) = some false := by decide +kernel
  rw [hG] at this
  simpa using this

end Sample

/-- **C92** fails: a triangle has three cliques of two vertices and the program prints that there is
one. -/
theorem C92_refuted_count : Usable Sample.triangleFile 3 (ofPairs Sample.triangleRows) ∧
    memMain true 64 true Sample.byDegree none Sample.triangleText = .ok
      { heur := [1, 2, 3], recursion := [1, 2, 3], stack := [1, 2, 3], size := 2, count := 1 } ∧
    ∀ l ∈ [[1, 2], [1, 3], [2, 3]], IsCliqueList (ofPairs Sample.triangleRows) 3 l := by
  refine ⟨Sample.triangleFile_usable, by decide +kernel, ?_⟩
  intro l hl
  simp only [List.mem_cons, List.not_mem_nil, or_false] at hl
  have key : ∀ u v, (u, v) ∈ Sample.triangleRows → u < v → v ≤ 3 → 1 ≤ u →
      IsCliqueList (ofPairs Sample.triangleRows) 3 [u, v] := by
    intro u v h1 h2 h3 h4
    have ha : (ofPairs Sample.triangleRows).Adj u v := ⟨Nat.ne_of_lt h2, Or.inl h1⟩
    refine ⟨by simp [h2], ?_, ?_⟩
    · intro x hx; simp at hx; rcases hx with rfl | rfl <;> omega
    · intro x hx y hy hxy
      simp at hx hy
      rcases hx with rfl | rfl <;> rcases hy with rfl | rfl
      · exact absurd rfl hxy
      · exact ha
      · exact ha.symm
      · exact absurd rfl hxy
  rcases hl with rfl | rfl | rfl <;> exact key _ _ (by decide) (by decide) (by decide) (by decide)

/-- **C92** fails: if ten seconds are too short the program prints that `0` is a clique. -/
theorem C92_refuted_clock : Usable Sample.triangleFile 3 (ofPairs Sample.triangleRows) ∧
    (memMain true 64 true Sample.byDegree (some 0) Sample.triangleText >>= fun r =>
      .ok r.recursion) = .ok [0] :=
  ⟨Sample.triangleFile_usable, by decide +kernel⟩

/-- `C92_program_partial` and `C92_enough_time` on that file, with a clock that has expired and with
one that does not. -/
example : PyGraph.fromFile true 64 true Sample.triangleText = .ok Sample.triangleFile ∧
    Usable Sample.triangleFile 3 (ofPairs Sample.triangleRows) ∧
    (∀ l, (Sample.byDegree l).Perm l) ∧
    memMain true 64 true Sample.byDegree (some 0) Sample.triangleText = .ok
      { heur := [1, 2, 3], recursion := [0], stack := [1, 2, 3], size := 2, count := 1 } ∧
    ¬ First (ofPairs Sample.triangleRows) 3 1 [2, 3] :=
  ⟨Sample.triangleFile_eq, Sample.triangleFile_usable, Sample.byDegree_perm, by decide +kernel,
    fun h => by simp [First] at h⟩

end CM
