import Verif.Props.Iteration
import Verif.Props.MaxClique
import Verif.Lemmas.Renumber

/-!
# C68: the order and the numbering of the input do not matter
-/

namespace CM

open Spec Graph

open Sample (byDegree byDegree_perm)

variable {pg pg' : PyGraph} {n : Nat} {S T : SimpleGraph Nat}

/-- **C68** for the search: if two objects were loaded, in whatever way, with graphs on up to
65535 vertices that differ only in the numbering of the vertices, `get_max_clique()` returns
cliques of the same size on both. -/
theorem C68_search (h : Usable pg n S) (h' : Usable pg' n T) (hn : n ≤ 65535) {f g : Nat → Nat}
    (hf : ∀ v, 1 ≤ v → v ≤ n → 1 ≤ f v ∧ f v ≤ n) (hg : ∀ v, 1 ≤ v → v ≤ n → 1 ≤ g v ∧ g v ≤ n)
    (hST : ∀ u v, S.Adj u v → T.Adj (f u) (f v)) (hTS : ∀ u v, T.Adj u v → S.Adj (g u) (g v))
    {srt srt' : List VData → List VData} (hsrt : ∀ l, (srt l).Perm l)
    (hsrt' : ∀ l, (srt' l).Perm l) :
    ∃ pg1 pg1' l l', pg.getMaxClique srt {} = .ok (pg1, .ret l) ∧
      pg'.getMaxClique srt' {} = .ok (pg1', .ret l') ∧ l.length = l'.length := by
  obtain ⟨pg1, l, a1, a2, a3⟩ := C10_default_call h hn hsrt
  obtain ⟨pg1', l', b1, b2, b3⟩ := C10_default_call h' hn hsrt'
  obtain ⟨x, x1, x2, _⟩ := a2.image hf hST
  obtain ⟨y, y1, y2, _⟩ := b2.image hg hTS
  have := b3 x x1
  have := a3 y y1
  exact ⟨pg1, pg1', l, l', a1, b1, by omega⟩

/-- **C68**, as far as it is true for the iterators.  The full property: two objects loaded
with graphs that differ only in the numbering of the vertices yield equally many cliques of each
size.  Proved: objects loaded with the same graph, in whatever format and order, and used in
whatever way, yield the same cliques.  Renumbered vertices: `C68_keep_one_partial`, if vertex 1
keeps its number.  Missing, because false (`C68_refuted`): another vertex gets the number 1. -/
theorem C68_same_graph_partial (h : Usable pg n S) (h' : Usable pg' n S) {ops ops' : List Op}
    (hl : ∀ op ∈ ops, op.Legal) (he : ∀ op ∈ ops, op.Exact S n) (hl' : ∀ op ∈ ops', op.Legal)
    (he' : ∀ op ∈ ops', op.Exact S n) {k : Nat} (hk : 1 ≤ k) :
    ∃ pg1 pg2 pg1' pg2' cs cs', runs ops pg = .ok pg1 ∧ pg1.listCliques k = .ok (pg2, cs) ∧
      runs ops' pg' = .ok pg1' ∧ pg1'.listCliques k = .ok (pg2', cs') ∧ cs.Perm cs' := by
  obtain ⟨pg1, pg2, cs, a1, a2, a3⟩ := C20_complete_partial h hl he hk
  obtain ⟨_, _, _, c1, c2, c3, _⟩ := C19_sound h hl k
  rw [a1] at c1; cases c1
  rw [a2] at c2; cases c2
  obtain ⟨pg1', pg2', cs', b1, b2, b3⟩ := C20_complete_partial h' hl' he' hk
  obtain ⟨_, _, _, d1, d2, d3, _⟩ := C19_sound h' hl' k
  rw [b1] at d1; cases d1
  rw [b2] at d2; cases d2
  refine ⟨pg1, pg2, pg1', pg2', cs, cs', a1, a2, b1, b2, ?_⟩
  rw [List.perm_ext_iff_of_nodup c3 d3]
  intro l
  rw [a3, b3]

namespace Sample

/-- The diamond with the numbers 1 and 3 exchanged, loaded from a matrix. -/
def diamond' : PyGraph := get PyGraph.new (PyGraph.fromMatrix true 64 4 4
  fun i j => decide ((i + 1, j + 1) ∈ [(3, 2), (3, 1), (2, 1), (3, 4), (2, 4)]))

def diamond'Rows : List (Nat × Nat) := [(3, 2), (3, 1), (2, 1), (3, 4), (2, 4)]

theorem diamond'_loaded : Loaded diamond' 4 (ofMatrix 4
    fun i j => decide ((i + 1, j + 1) ∈ diamond'Rows)) :=
  .matrix (argLR := true) (cap := 64) (by decide) (by decide +kernel)

/-- Exchanging 1 and 3. -/
def swap13 (v : Nat) : Nat := if v = 1 then 3 else if v = 3 then 1 else v

end Sample

theorem diamond'_graph : ofMatrix 4 (fun i j => decide ((i + 1, j + 1) ∈ Sample.diamond'Rows)) =
    ofPairs Sample.diamond'Rows := by
  ext u v
  show (_ ∧ _ ∧ _ ∧ _) ↔ (_ ∧ _)
  have hr : ∀ e ∈ Sample.diamond'Rows, (1 ≤ e.1 ∧ e.1 ≤ 4) ∧ (1 ≤ e.2 ∧ e.2 ≤ 4) := by decide
  constructor
  · rintro ⟨h1, h2, h3, h4⟩
    refine ⟨h1, ?_⟩
    simp only [decide_eq_true_eq] at h4
    rw [Nat.sub_add_cancel h2.1, Nat.sub_add_cancel h3.1] at h4
    exact h4
  · rintro ⟨h1, h2⟩
    have h3 : (1 ≤ u ∧ u ≤ 4) ∧ (1 ≤ v ∧ v ≤ 4) := by
      rcases h2 with h2 | h2
      · exact hr _ h2
      · exact (hr _ h2).symm
    refine ⟨h1, h3.1, h3.2, ?_⟩
    simp only [decide_eq_true_eq]
    rw [Nat.sub_add_cancel h3.1.1, Nat.sub_add_cancel h3.2.1]
    exact h2

theorem diamond'_usable : Usable Sample.diamond' 4 (ofPairs Sample.diamond'Rows) := by
  refine ⟨diamond'_graph ▸ Sample.diamond'_loaded, ?_, 3, 2, by decide, Or.inl (by decide)⟩
  intro G hG
  have : (Sample.diamond'.G.map fun G => G.dangling) = some false := by decide +kernel
  rw [hG] at this
  simpa using this

/-- **C68** fails for the iterators: the diamond has five edges; `all_cliques(2)` yields four of
them or three, depending on the numbering. -/
theorem C68_refuted : Usable Sample.diamond 4 (ofPairs Sample.diamondRows) ∧
    Usable Sample.diamond' 4 (ofPairs Sample.diamond'Rows) ∧
    (∀ e ∈ Sample.diamondRows, (Sample.swap13 e.1, Sample.swap13 e.2) ∈ Sample.diamond'Rows) ∧
    (∀ e ∈ Sample.diamond'Rows, (Sample.swap13 e.1, Sample.swap13 e.2) ∈ Sample.diamondRows) ∧
    (Sample.diamond.listCliques 2 >>= fun x => .ok x.2.length) = .ok 4 ∧
    (Sample.diamond'.listCliques 2 >>= fun x => .ok x.2.length) = .ok 3 :=
  ⟨Sample.diamond_usable, diamond'_usable, by decide, by decide, by decide +kernel,
    by decide +kernel⟩

/-- The hypotheses of `C68_search` for the two diamonds. -/
example : ∃ pg1 pg1' l l', Sample.diamond.getMaxClique byDegree {} = .ok (pg1, .ret l) ∧
    Sample.diamond'.getMaxClique byDegree {} = .ok (pg1', .ret l') ∧ l.length = l'.length := by
  have hr : ∀ v, 1 ≤ v → v ≤ 4 → 1 ≤ Sample.swap13 v ∧ Sample.swap13 v ≤ 4 := by
    intro v h1 h2
    unfold Sample.swap13
    split
    · omega
    · split <;> omega
  have hne : ∀ u v, u ≠ v → Sample.swap13 u ≠ Sample.swap13 v := by
    intro u v h
    unfold Sample.swap13
    split <;> split <;> (try split) <;> (try split) <;> omega
  refine C68_search Sample.diamond_usable diamond'_usable (by decide) hr hr ?_ ?_
    byDegree_perm byDegree_perm
  · rintro u v ⟨h1, h2 | h2⟩
    · exact ⟨hne _ _ h1, Or.inl (C68_refuted.2.2.1 _ h2)⟩
    · exact ⟨hne _ _ h1, Or.inr (C68_refuted.2.2.1 _ h2)⟩
  · rintro u v ⟨h1, h2 | h2⟩
    · exact ⟨hne _ _ h1, Or.inl (C68_refuted.2.2.2.1 _ h2)⟩
    · exact ⟨hne _ _ h1, Or.inr (C68_refuted.2.2.2.1 _ h2)⟩

/-- **C68** for the iterators and a renumbering that keeps the number 1: `all_cliques(k)` yields
equally many cliques, after whatever use of the two objects.  By `C68_refuted` this is not so if
another vertex gets the number 1. -/
theorem C68_keep_one_partial (h : Usable pg n S) (h' : Usable pg' n T) {f g : Nat → Nat}
    (hf : ∀ v, 1 ≤ v → v ≤ n → 1 ≤ f v ∧ f v ≤ n) (hg : ∀ v, 1 ≤ v → v ≤ n → 1 ≤ g v ∧ g v ≤ n)
    (hgf : ∀ v, 1 ≤ v → v ≤ n → g (f v) = v) (hfg : ∀ v, 1 ≤ v → v ≤ n → f (g v) = v)
    (hST : ∀ u v, S.Adj u v → T.Adj (f u) (f v)) (hTS : ∀ u v, T.Adj u v → S.Adj (g u) (g v))
    (h1 : f 1 = 1) {ops ops' : List Op}
    (hl : ∀ op ∈ ops, op.Legal) (he : ∀ op ∈ ops, op.Exact S n) (hl' : ∀ op ∈ ops', op.Legal)
    (he' : ∀ op ∈ ops', op.Exact T n) {k : Nat} (hk : 1 ≤ k) :
    ∃ pg1 pg2 pg1' pg2' cs cs', runs ops pg = .ok pg1 ∧ pg1.listCliques k = .ok (pg2, cs) ∧
      runs ops' pg' = .ok pg1' ∧ pg1'.listCliques k = .ok (pg2', cs') ∧
      cs.length = cs'.length := by
  obtain ⟨pg1, pg2, cs, a1, a2, a3⟩ := C20_complete_partial h hl he hk
  obtain ⟨_, _, _, c1, c2, c3, _⟩ := C19_sound h hl k
  rw [a1] at c1; cases c1
  rw [a2] at c2; cases c2
  obtain ⟨pg1', pg2', cs', b1, b2, b3⟩ := C20_complete_partial h' hl' he' hk
  obtain ⟨_, _, _, d1, d2, d3, _⟩ := C19_sound h' hl' k
  rw [b1] at d1; cases d1
  rw [b2] at d2; cases d2
  have hn1 : 1 ≤ n := by
    obtain ⟨u, v, huv⟩ := h.edge
    obtain ⟨G, hF⟩ := h.fresh
    have := (hF.pyok.of.rng u v huv).1
    omega
  have g1 : g 1 = 1 := by
    have := hgf 1 (le_refl _) hn1
    rwa [h1] at this
  refine ⟨pg1, pg2, pg1', pg2', cs, cs', a1, a2, b1, b2, le_antisymm ?_ ?_⟩
  · exact renumbered_le hf hg hgf hfg hST hTS h1 c3 (fun l hl => (a3 l).1 hl)
      (fun l x y z => (b3 l).2 ⟨x, y, z⟩)
  · exact renumbered_le hg hf hfg hgf hTS hST g1 d3 (fun l hl => (b3 l).1 hl)
      (fun l x y z => (a3 l).2 ⟨x, y, z⟩)

namespace Sample

/-- The diamond with the numbers 2 and 3 exchanged. -/
def diamond23Rows : List (Nat × Nat) := [(1, 3), (1, 2), (3, 2), (1, 4), (3, 4)]

def diamond23 : PyGraph := get PyGraph.new (PyGraph.fromEdgelist true 64 diamond23Rows 4)

theorem diamond23_usable : Usable diamond23 4 (ofPairs diamond23Rows) := by
  refine ⟨.edgelist (argLR := true) (cap := 64) (by decide) (by decide) (by decide +kernel), ?_, 1,
    2, by decide, Or.inl (by decide)⟩
  intro G hG
  have : (diamond23.G.map fun G => G.dangling) = some false := by decide +kernel
  rw [hG] at this
  simpa using this

def swap23 (v : Nat) : Nat := if v = 2 then 3 else if v = 3 then 2 else v

end Sample

/-- The hypotheses of `C68_keep_one_partial` for two diamonds, and what it says about them. -/
example : (∃ pg1 pg2 pg1' pg2' cs cs', runs [] Sample.diamond = .ok pg1 ∧
      pg1.listCliques 2 = .ok (pg2, cs) ∧ runs [.reset] Sample.diamond23 = .ok pg1' ∧
      pg1'.listCliques 2 = .ok (pg2', cs') ∧ cs.length = cs'.length) ∧
    (Sample.diamond.listCliques 2 >>= fun x => .ok x.2.length) = .ok 4 ∧
    (Sample.diamond23.listCliques 2 >>= fun x => .ok x.2.length) = .ok 4 := by
  have hr : ∀ v, 1 ≤ v → v ≤ 4 → 1 ≤ Sample.swap23 v ∧ Sample.swap23 v ≤ 4 := by
    intro v h1 h2
    unfold Sample.swap23
    split
    · omega
    · split <;> omega
  have hne : ∀ u v, u ≠ v → Sample.swap23 u ≠ Sample.swap23 v := by
    intro u v h
    unfold Sample.swap23
    split <;> split <;> (try split) <;> (try split) <;> omega
  have hinv : ∀ v, 1 ≤ v → v ≤ 4 → Sample.swap23 (Sample.swap23 v) = v := by
    intro v h1 h2
    unfold Sample.swap23
    split <;> split <;> (try split) <;> (try split) <;> omega
  have e1 : ∀ e ∈ Sample.diamondRows, (Sample.swap23 e.1, Sample.swap23 e.2) ∈
      Sample.diamond23Rows := by decide
  have e2 : ∀ e ∈ Sample.diamond23Rows, (Sample.swap23 e.1, Sample.swap23 e.2) ∈
      Sample.diamondRows := by decide
  refine ⟨C68_keep_one_partial Sample.diamond_usable Sample.diamond23_usable hr hr hinv hinv ?_ ?_
    rfl (by simp) (by simp) (by simp [Op.Legal]) (by simp [Op.Exact]) (by decide),
    by decide +kernel, by decide +kernel⟩
  · rintro u v ⟨h1, h2 | h2⟩
    · exact ⟨hne _ _ h1, Or.inl (e1 _ h2)⟩
    · exact ⟨hne _ _ h1, Or.inr (e1 _ h2)⟩
  · rintro u v ⟨h1, h2 | h2⟩
    · exact ⟨hne _ _ h1, Or.inl (e2 _ h2)⟩
    · exact ⟨hne _ _ h1, Or.inr (e2 _ h2)⟩

end CM
