import Verif.Lemmas.Bare
import Verif.Lemmas.NWRoomExact
import Verif.Props.Memory

/-!
# C22, C51: exactly which graphs can be searched

`Spec.wordsNeeded` and `Spec.wordsStored` are computed from the graph alone; `cap` is the
number of words for which the allocator left room behind the edge array.  A search on a loaded
graph returns if the graph has an edge and `cap` is at least `wordsNeeded`, or the edge array is
longer than `wordsNeeded` to begin with; in all other cases it accesses memory it must not
access, whatever its parameters.
-/

namespace CM

open Spec Graph NWG Sample

variable {n : Nat} {S : SimpleGraph Nat}

/-- The searches have room. -/
def HasRoom (S : SimpleGraph Nat) (n cap : Nat) : Prop :=
  wordsNeeded S n ≤ cap ∨ wordsNeeded S n < wordsStored S n

/-! ## Graphs -/

/-- **C22**: a search on a graph whose buffer was moved accesses the freed buffer, whatever the
graph and the parameters. -/
theorem C22_moved_faults {pg : PyGraph} (h : Loaded pg n S) (he : ∃ u v, S.Adj u v)
    (hk : ¬ BufferKept pg) {srt : List VData → List VData} (hsrt : ∀ l, (srt l).Perm l)
    (a : PyGraph.Args) : pg.getMaxClique srt a = .error .ub := by
  obtain ⟨pg0, G, h1, h2, h3, rfl⟩ := h.moved he hk
  obtain ⟨G0, hF⟩ := Usable.fresh ⟨h1, h2, he⟩
  obtain ⟨G', i, h4, _⟩ := getMaxClique_spec hF.pyok hsrt a
  refine getMaxClique_moved h3 ?_ h4
  have := hF.pyok.nv
  have := hF.pyok.pos
  omega

/-- **C22**: a search on a graph without edges accesses memory out of bounds, whatever the
parameters (as long as anything is searched at all). -/
theorem C22_edgeless_faults {pg : PyGraph} (h : Loaded pg n S) (hno : ¬ ∃ u v, S.Adj u v)
    (hpos : 1 ≤ n) (srt : List VData → List VData) (a : PyGraph.Args)
    (ha : a.useHeuristic = true ∨ a.useDfs = true) : pg.getMaxClique srt a = .error .ub :=
  getMaxClique_bare h hno hpos srt a ha

/-- **C22**: the searches that return are those on usable graphs; the others fault. -/
theorem C22_searchable {pg : PyGraph} (h : Loaded pg n S) (hpos : 1 ≤ n)
    {srt : List VData → List VData} (hsrt : ∀ l, (srt l).Perm l) (a : PyGraph.Args)
    (ha : a.useHeuristic = true ∨ a.useDfs = true) :
    ((∃ r, pg.getMaxClique srt a = .ok r) ↔ Usable pg n S) ∧
      (¬ Usable pg n S → pg.getMaxClique srt a = .error .ub) := by
  have key : ¬ Usable pg n S → pg.getMaxClique srt a = .error .ub := by
    intro hu
    by_cases he : ∃ u v, S.Adj u v
    · exact C22_moved_faults h he (fun hk => hu ⟨h, hk, he⟩) hsrt a
    · exact C22_edgeless_faults h he hpos srt a ha
  refine ⟨⟨?_, ?_⟩, key⟩
  · rintro ⟨r, hr⟩
    by_contra hu
    rw [key hu] at hr
    cases hr
  · intro hu
    obtain ⟨G, hF⟩ := hu.fresh
    obtain ⟨G', i, h4, _⟩ := getMaxClique_spec hF.pyok hsrt a
    exact ⟨_, h4⟩

theorem usable_iff {cap m : Nat} {pg : PyGraph} {G : Graph} (h : Loaded pg n S)
    (hL : LoadedAs cap n m S pg G) :
    Usable pg n S ↔ (∃ u v, S.Adj u v) ∧ HasRoom S n cap := by
  constructor
  · intro hu; exact ⟨hu.edge, (hL.kept_iff hu.edge).1 hu.kept⟩
  · rintro ⟨he, hr⟩; exact ⟨h, (hL.kept_iff he).2 hr, he⟩

/-- **C22** for `from_edgelist`: the result is usable exactly if the graph has an edge and there
is room. -/
theorem C22_usable_edgelist {argLR : Bool} {cap : Nat} {rows : List (Nat × Nat)} {pg : PyGraph}
    (hn : n < 2 ^ 31) (hl : rows.length < 2 ^ 56)
    (h : PyGraph.fromEdgelist argLR cap rows n = .ok pg) :
    Usable pg n (ofPairs rows) ↔
      (∃ u v, (ofPairs rows).Adj u v) ∧ HasRoom (ofPairs rows) n cap := by
  obtain ⟨h1, h2⟩ := fromEdgelist_spec argLR cap (rows := rows) hn hl
  by_cases hv : ValidRows rows n
  · obtain ⟨pg1, G, h3, h4⟩ := h1 hv
    rw [h] at h3
    cases h3
    exact usable_iff (.edgelist hn hl h) h4
  · rw [h2 hv] at h; cases h

/-- **C22** for `from_matrix`. -/
theorem C22_usable_matrix {argLR : Bool} {cap : Nat} {A : Nat → Nat → Bool} {pg : PyGraph}
    (hn : n < 2 ^ 28) (h : PyGraph.fromMatrix argLR cap n n A = .ok pg) :
    Usable pg n (ofMatrix n A) ↔
      (∃ u v, (ofMatrix n A).Adj u v) ∧ HasRoom (ofMatrix n A) n cap := by
  obtain ⟨pg1, G, h3, h4⟩ := fromMatrix_spec argLR cap (A := A) hn
  rw [h] at h3
  cases h3
  exact usable_iff (.matrix hn h) h4

/-- **C22** for `from_adjlist`. -/
theorem C22_usable_adjlist {argLR : Bool} {cap m : Nat} {sets : List (List Nat)} {pg : PyGraph}
    (hn : n < 2 ^ 31) (h64 : sets.length < 2 ^ 64) (hl : (sets.map List.length).sum < 2 ^ 57)
    (h : PyGraph.fromAdjList argLR cap n m sets = .ok pg) :
    Usable pg n (ofSets sets) ↔
      (∃ u v, (ofSets sets).Adj u v) ∧ HasRoom (ofSets sets) n cap := by
  obtain ⟨h1, h2⟩ := fromAdjList_spec argLR cap (m := m) (sets := sets) hn h64 hl
  by_cases hv : ValidSets sets n ∧ entries sets / 2 = m
  · obtain ⟨pg1, G, h3, h4⟩ := h1 hv
    rw [h] at h3
    cases h3
    exact usable_iff (.adjlist hn h64 hl h) h4
  · rw [h2 hv] at h; cases h

/-- **C22** for the other loaders (files and correspondence graphs), which pass an edge array to
`load_graph`. -/
theorem C22_usable_built {argLR : Bool} {cap m : Nat} {edges : Edges} {pg : PyGraph}
    (hn : n < 2 ^ 31) (hl : edges.length < 2 ^ 58) (hD : Describes edges n S)
    (h : PyGraph.loadGraph argLR cap PyGraph.new n m edges = .ok pg) :
    Usable pg n S ↔ (∃ u v, S.Adj u v) ∧ HasRoom S n cap := by
  obtain ⟨pg1, G, h3, h4⟩ := loadGraph_spec hD hn hl argLR cap m
  rw [h] at h3
  cases h3
  exact usable_iff (.built hn hl hD h) h4

/-! ## Weighted graphs -/

section
variable {R : Type} [Zero R] [Add R] [Sub R] [NatCast R] [LT R] [LE R]
  [DecidableLT R] [DecidableLE R] {ω : Nat → R}

/-- **C51**: a search on a weighted graph whose buffer was moved accesses the freed buffer. -/
theorem C51_moved_faults {pg : PyNW R} (h : WLoaded pg n S ω) (he : ∃ u v, S.Adj u v)
    (hk : ¬ ∀ H, pg.G = some H → H.g.dangling = false) {srt : List (WData R) → List (WData R)}
    (hsrt : ∀ l, (srt l).Perm l) (junk : Nat → R) (a : PyNW.Args R) :
    pg.getMaxClique srt junk a = .error .ub := by
  obtain ⟨pg0, H, h1, h2, h3, rfl⟩ := h.moved he hk
  obtain ⟨H0, hF⟩ := AW.wusable_fresh ⟨h1, h2, he⟩
  obtain ⟨pg', H', h4, _⟩ := AW.wsearch_spec hF.pyok hsrt junk a
  refine wgetMaxClique_moved h3 ?_ h4
  have := hF.pyok.nv
  have := hF.pyok.pos
  omega

/-- **C51**: a search on a weighted graph without edges accesses memory out of bounds. -/
theorem C51_edgeless_faults {pg : PyNW R} (h : WLoaded pg n S ω) (hno : ¬ ∃ u v, S.Adj u v)
    (hpos : 1 ≤ n) (srt : List (WData R) → List (WData R)) (junk : Nat → R) (a : PyNW.Args R)
    (ha : a.useHeuristic = true ∨ a.useDfs = true) :
    pg.getMaxClique srt junk a = .error .ub :=
  wgetMaxClique_bare h hno hpos srt junk a ha

/-- **C51**: the searches that return are those on usable weighted graphs; the others fault. -/
theorem C51_searchable {pg : PyNW R} (h : WLoaded pg n S ω) (hpos : 1 ≤ n)
    {srt : List (WData R) → List (WData R)} (hsrt : ∀ l, (srt l).Perm l) (junk : Nat → R)
    (a : PyNW.Args R) (ha : a.useHeuristic = true ∨ a.useDfs = true) :
    ((∃ r, pg.getMaxClique srt junk a = .ok r) ↔ WUsable pg n S ω) ∧
      (¬ WUsable pg n S ω → pg.getMaxClique srt junk a = .error .ub) := by
  have key : ¬ WUsable pg n S ω → pg.getMaxClique srt junk a = .error .ub := by
    intro hu
    by_cases he : ∃ u v, S.Adj u v
    · exact C51_moved_faults h he (fun hk => hu ⟨h, hk, he⟩) hsrt junk a
    · exact C51_edgeless_faults h he hpos srt junk a ha
  refine ⟨⟨?_, ?_⟩, key⟩
  · rintro ⟨r, hr⟩
    by_contra hu
    rw [key hu] at hr
    cases hr
  · intro hu
    obtain ⟨H, hF⟩ := AW.wusable_fresh hu
    obtain ⟨pg', H', h4, _⟩ := AW.wsearch_spec hF.pyok hsrt junk a
    exact ⟨_, h4⟩

omit [Sub R] [NatCast R] in
theorem wusable_iff {cap m : Nat} {pg : PyNW R} {H : NWG R} (h : WLoaded pg n S ω)
    (hL : AW.WLoadedAs cap n m S ω pg H) :
    WUsable pg n S ω ↔ (∃ u v, S.Adj u v) ∧ HasRoom S n cap := by
  constructor
  · intro hu; exact ⟨hu.edge, (wkept_iff hL hu.edge).1 hu.kept⟩
  · rintro ⟨he, hr⟩; exact ⟨h, (wkept_iff hL he).2 hr, he⟩

/-- **C51** for `from_edgelist`: the weights do not matter. -/
theorem C51_usable_edgelist {argLR : Bool} {cap : Nat} {rows : List (Nat × Nat)} {wts : List R}
    {pg : PyNW R} (hn : n < 2 ^ 31) (hl : rows.length < 2 ^ 56)
    (h : PyNW.fromEdgelist argLR cap rows n wts = .ok pg) :
    WUsable pg n (ofPairs rows) (nth wts) ↔
      (∃ u v, (ofPairs rows).Adj u v) ∧ HasRoom (ofPairs rows) n cap := by
  obtain ⟨h1, h2⟩ := AW.wfromEdgelist_spec argLR cap (rows := rows) (wts := wts) hn hl
  by_cases hv : ValidRows rows n ∧ wts.length = n
  · obtain ⟨pg1, H, h3, h4⟩ := h1 hv
    rw [h] at h3
    cases h3
    exact wusable_iff (.edgelist hn hl h) h4
  · rw [h2 hv] at h; cases h

/-- **C51** for `from_matrix`. -/
theorem C51_usable_matrix {argLR : Bool} {cap : Nat} {A : Nat → Nat → Bool} {wts : List R}
    {pg : PyNW R} (hn : n < 2 ^ 28) (h : PyNW.fromMatrix argLR cap n n A wts = .ok pg) :
    WUsable pg n (ofMatrix n A) (nth wts) ↔
      (∃ u v, (ofMatrix n A).Adj u v) ∧ HasRoom (ofMatrix n A) n cap := by
  obtain ⟨h1, h2⟩ := AW.wfromMatrix_spec argLR cap (A := A) (wts := wts) hn
  by_cases hv : wts.length = n
  · obtain ⟨pg1, H, h3, h4⟩ := h1 hv
    rw [h] at h3
    cases h3
    exact wusable_iff (.matrix hn h) h4
  · rw [h2 hv] at h; cases h

end

/-! ## Complete graphs -/

/-- A complete graph with 2 to 64 vertices has room without the allocator's help from four
vertices on; smaller ones need `3 * n + 4` words. -/
theorem room_complete {cap : Nat} (h2 : 2 ≤ n) (h64 : n ≤ 64)
    (hS : ∀ u v, S.Adj u v ↔ u ≠ v ∧ (1 ≤ u ∧ u ≤ n) ∧ (1 ≤ v ∧ v ≤ n)) :
    HasRoom S n cap ↔ 4 ≤ n ∨ 3 * n + 4 ≤ cap := by
  classical
  have hdeg : ∀ v, 1 ≤ v → v ≤ n → degree S n v = n - 1 := by
    intro v h1 h2
    unfold degree
    have : (Finset.Icc 1 n).filter (fun w => S.Adj v w) = (Finset.Icc 1 n).erase v := by
      ext w
      simp only [Finset.mem_filter, Finset.mem_Icc, Finset.mem_erase, hS]
      constructor
      · rintro ⟨a, b, _⟩; exact ⟨fun h => b h.symm, a⟩
      · rintro ⟨a, b⟩; exact ⟨b, fun h => a h.symm, ⟨h1, h2⟩, b⟩
    rw [this, Finset.card_erase_of_mem (Finset.mem_Icc.2 ⟨h1, h2⟩), Nat.card_Icc]
    omega
  have hlater : ∀ v, 1 ≤ v → v ≤ n → later S n v = n - v := by
    intro v h1 h3
    unfold later
    have : (Finset.Icc 1 n).filter (fun w => S.Adj v w ∧ (degree S n v < degree S n w ∨
        degree S n v = degree S n w ∧ v < w)) = Finset.Icc (v + 1) n := by
      ext w
      simp only [Finset.mem_filter, Finset.mem_Icc, hS]
      constructor
      · rintro ⟨a, b, c⟩
        rw [hdeg v h1 h3, hdeg w a.1 a.2] at c
        omega
      · rintro ⟨a, b⟩
        rw [hdeg v h1 h3, hdeg w (by omega) b]
        omega
    rw [this, Nat.card_Icc]
    omega
  have hsum : ∑ v ∈ Finset.Icc 1 n, degree S n v / 64 = 0 := by
    apply Finset.sum_eq_zero
    intro v hv
    rw [hdeg v (Finset.mem_Icc.1 hv).1 (Finset.mem_Icc.1 hv).2]
    omega
  have hsl : (Finset.Icc 1 n).sup (later S n) = n - 1 := by
    apply Nat.le_antisymm
    · apply Finset.sup_le
      intro v hv
      rw [hlater v (Finset.mem_Icc.1 hv).1 (Finset.mem_Icc.1 hv).2]
      have := (Finset.mem_Icc.1 hv).1
      omega
    · rw [← hlater 1 (by omega) (by omega)]
      exact Finset.le_sup (f := later S n) (show 1 ∈ Finset.Icc 1 n from
        Finset.mem_Icc.2 ⟨by omega, by omega⟩)
  have hsd : (Finset.Icc 1 n).sup (degree S n) / 64 = 0 := by
    have : (Finset.Icc 1 n).sup (degree S n) ≤ n - 1 := by
      apply Finset.sup_le
      intro v hv
      rw [hdeg v (Finset.mem_Icc.1 hv).1 (Finset.mem_Icc.1 hv).2]
    omega
  have hec : 2 * edgeCount S n = n * (n - 1) := by
    rw [← sum_degree S n, Finset.sum_congr rfl (g := fun _ => n - 1)
      (fun v hv => hdeg v (Finset.mem_Icc.1 hv).1 (Finset.mem_Icc.1 hv).2), Finset.sum_const,
      Nat.card_Icc, smul_eq_mul]
    simp
  unfold HasRoom wordsNeeded wordsStored
  rw [hsum, hsl, hsd, hec]
  by_cases h4 : 4 ≤ n
  · have : 4 * (n - 1) ≤ n * (n - 1) := Nat.mul_le_mul_right _ h4
    constructor
    · intro _; exact Or.inl h4
    · intro _; right; omega
  · have : n = 2 ∨ n = 3 := by omega
    rcases this with rfl | rfl <;> omega

/-- `from_matrix` of the full `n × n` matrix: for `4 ≤ n ≤ 64` every search returns, whatever the
allocator does; for 2 and 3 vertices a search returns if the allocator left room for 10 and 13
words, and accesses freed memory otherwise. -/
theorem C22_complete_matrix {argLR : Bool} {cap : Nat} {pg : PyGraph} (h2 : 2 ≤ n) (h64 : n ≤ 64)
    (h : PyGraph.fromMatrix argLR cap n n (fun _ _ => true) = .ok pg)
    {srt : List VData → List VData} (hsrt : ∀ l, (srt l).Perm l) (a : PyGraph.Args) :
    if 4 ≤ n ∨ 3 * n + 4 ≤ cap then ∃ r, pg.getMaxClique srt a = .ok r
    else pg.getMaxClique srt a = .error .ub := by
  have hS : ∀ u v, (ofMatrix n fun _ _ => true).Adj u v ↔
      u ≠ v ∧ (1 ≤ u ∧ u ≤ n) ∧ (1 ≤ v ∧ v ≤ n) := by
    intro u v; simp [ofMatrix]
  have he : ∃ u v, (ofMatrix n fun _ _ => true).Adj u v :=
    ⟨1, 2, (hS 1 2).2 ⟨by decide, by omega, by omega⟩⟩
  have hn : n < 2 ^ 28 := by
    have : 64 < 2 ^ 28 := by decide
    omega
  have hu := C22_usable_matrix hn h
  rw [room_complete h2 h64 hS] at hu
  split
  · rename_i hc
    obtain ⟨G, hF⟩ := (hu.2 ⟨he, hc⟩).fresh
    obtain ⟨G', i, h4, _⟩ := getMaxClique_spec hF.pyok hsrt a
    exact ⟨_, h4⟩
  · rename_i hc
    exact C22_moved_faults (.matrix hn h) he (fun hk => hc (hu.1 ⟨.matrix hn h, hk, he⟩).2)
      hsrt a

/-- **C51**: the same for weighted graphs. -/
theorem C51_complete_matrix {R : Type} [Zero R] [Add R] [Sub R] [NatCast R] [LT R] [LE R]
    [DecidableLT R] [DecidableLE R] {argLR : Bool} {cap : Nat} {wts : List R} {pg : PyNW R}
    (h2 : 2 ≤ n) (h64 : n ≤ 64)
    (h : PyNW.fromMatrix argLR cap n n (fun _ _ => true) wts = .ok pg)
    {srt : List (WData R) → List (WData R)} (hsrt : ∀ l, (srt l).Perm l) (junk : Nat → R)
    (a : PyNW.Args R) :
    if 4 ≤ n ∨ 3 * n + 4 ≤ cap then ∃ r, pg.getMaxClique srt junk a = .ok r
    else pg.getMaxClique srt junk a = .error .ub := by
  have hS : ∀ u v, (ofMatrix n fun _ _ => true).Adj u v ↔
      u ≠ v ∧ (1 ≤ u ∧ u ≤ n) ∧ (1 ≤ v ∧ v ≤ n) := by
    intro u v; simp [ofMatrix]
  have he : ∃ u v, (ofMatrix n fun _ _ => true).Adj u v :=
    ⟨1, 2, (hS 1 2).2 ⟨by decide, by omega, by omega⟩⟩
  have hn : n < 2 ^ 28 := by
    have : 64 < 2 ^ 28 := by decide
    omega
  have hu := C51_usable_matrix hn h
  rw [room_complete h2 h64 hS] at hu
  split
  · rename_i hc
    obtain ⟨H, hF⟩ := AW.wusable_fresh (hu.2 ⟨he, hc⟩)
    obtain ⟨pg', H', h4, _⟩ := AW.wsearch_spec hF.pyok hsrt junk a
    exact ⟨_, h4⟩
  · rename_i hc
    exact C51_moved_faults (.matrix hn h) he (fun hk => hc (hu.1 ⟨.matrix hn h, hk, he⟩).2)
      hsrt junk a

/-- Three connected vertices with room for 13 words, and for 12. -/
example : (∃ pg r, PyGraph.fromMatrix true 13 3 3 (fun _ _ => true) = .ok pg ∧
      pg.getMaxClique byDegree {} = .ok r) ∧
    (∃ pg, PyGraph.fromMatrix true 12 3 3 (fun _ _ => true) = .ok pg ∧
      pg.getMaxClique byDegree {} = .error .ub) := by
  obtain ⟨pg, G, h, _⟩ := fromMatrix_spec true 13 (r := 3) (A := fun _ _ => true) (by decide)
  obtain ⟨pg', G', h', _⟩ := fromMatrix_spec true 12 (r := 3) (A := fun _ _ => true) (by decide)
  obtain ⟨r, hr⟩ := C22_complete_matrix (by decide) (by decide) h byDegree_perm {}
  exact ⟨⟨pg, r, h, hr⟩, pg', h', C22_complete_matrix (by decide) (by decide) h' byDegree_perm {}⟩

/-- The same with weights. -/
example (junk : Nat → Rat) (a : PyNW.Args Rat) : ∃ pg : PyNW Rat,
    PyNW.fromMatrix true 12 3 3 (fun _ _ => true) [1, 2, 3] = .ok pg ∧
      pg.getMaxClique id junk a = .error .ub := by
  obtain ⟨h1, _⟩ := AW.wfromMatrix_spec true 12 (A := fun _ _ => true)
    (wts := ([1, 2, 3] : List Rat)) (n := 3) (by decide)
  obtain ⟨pg, H, h, _⟩ := h1 rfl
  refine ⟨pg, h, ?_⟩
  have := C51_complete_matrix (by decide) (by decide) h (srt := id)
    (fun _ => List.Perm.refl _) junk a
  rwa [if_neg (by decide)] at this

end CM
