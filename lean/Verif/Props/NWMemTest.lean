import Verif.Lemmas.NWMemSpec
import Verif.Props.MemTest
import Verif.Props.WeightedDouble

/-!
# The command-line program for weighted graphs (C93)

`nwMemMain` is mem_test/nwmain.cpp, with `double`s.  Every vertex weighs one.  The program prints
what the heuristic finds, what the search finds, and the number of cliques that weigh at least one
less.  `text` is a file that `Graph.from_file` reads into an object for the graph `S`.
-/

namespace CM

open Spec Graph NWG

variable {argLR look : Bool} {cap cap' n : Nat} {text : List Char} {pg : PyGraph}
  {S : SimpleGraph Nat} {srt : List (WData Dbl) → List (WData Dbl)}

/-- The edges in a file, in terms of the graph that `Graph.from_file` makes of it. -/
theorem file_describes (hf : PyGraph.fromFile argLR cap' look text = .ok pg) (h : Loaded pg n S)
    (hm : pg.nedges < 2 ^ 56) : ∃ m edges, Mmio.reader look text = .ok (n, m, edges) ∧
      edges.length ≤ n + 1 + 2 * 2 ^ 56 ∧ Describes edges n S := by
  have h60 : (2 : Nat) ^ 31 + 2 * 2 ^ 56 + 1 < 2 ^ 58 := by decide
  have h58 : (2 : Nat) ^ 58 < 2 ^ 60 := by decide
  obtain ⟨hn, cap1, m1, G1, hL⟩ := h.as
  unfold PyGraph.fromFile at hf
  obtain ⟨⟨n', m, edges⟩, h1, hf⟩ := bind_eq_ok.1 hf
  simp only at hf
  split at hf
  · cases hf
  unfold PyGraph.loadGraph at hf
  obtain ⟨G, hG, hf⟩ := bind_eq_ok.1 hf
  cases hf
  have heq := hL.eq
  simp only [PyGraph.new, PyGraph.mk.injEq, Option.some.injEq, true_and, and_true] at heq
  obtain ⟨rfl, rfl, rfl⟩ := heq
  simp only at hm
  obtain ⟨E, rfl, hl, hE⟩ := Mmio.reader_any h1 (by omega)
  have hlen : (PyGraph.selfLoops n' ++ E).length < 2 ^ 58 := by
    rw [List.length_append, selfLoops_length, hl]; omega
  have hrange : ∀ e ∈ PyGraph.selfLoops n' ++ E, e.1 ≤ n' ∧ e.2 ≤ n' := by
    intro e he
    rcases List.mem_append.1 he with he | he
    · have := mem_selfLoops.1 he; omega
    · exact ⟨(hE e he).1, (hE e he).2.1⟩
  have hself : ∀ v, v ≤ n' → (v, v) ∈ PyGraph.selfLoops n' ++ E :=
    fun v hv => List.mem_append.2 (Or.inl (mem_selfLoops.2 ⟨rfl, hv⟩))
  have hsym : ∀ u v, (u, v) ∈ PyGraph.selfLoops n' ++ E → (v, u) ∈ PyGraph.selfLoops n' ++ E := by
    intro u v he
    rcases List.mem_append.1 he with he | he
    · have := mem_selfLoops.1 he
      simp only at this
      obtain ⟨rfl, h2⟩ := this
      exact List.mem_append.2 (Or.inl (mem_selfLoops.2 ⟨rfl, h2⟩))
    · exact List.mem_append.2 (Or.inr (hE _ he).2.2)
  obtain ⟨G', hG', B⟩ := ctor_spec argLR cap' hn hlen hrange hself hsym
  rw [hG] at hG'
  cases hG'
  refine ⟨_, _, h1, by rw [List.length_append, selfLoops_length, hl]; omega, ?_, hrange, hL.of.rng⟩
  intro u v hu _
  rw [← B.adj u v hu, hL.of.adj u v hu]
  constructor
  · rintro (h | h)
    · exact Or.inl h.symm
    · exact Or.inr h
  · rintro (h | h)
    · exact Or.inl h.symm
    · exact Or.inr h

theorem ones_exact (hn : n < 2 ^ 31) : EX.XW2 n (EX.fq (R := Dbl) EX.one) := by
  have h31 : (2 : Nat) ^ 31 < 2 ^ 52 := by decide
  have x := exact2_of_unit (n := n) (ω := EX.fq (R := Dbl) EX.one) (z := fun _ => 1) (k := 0)
    (by decide) (by decide) (fun v _ _ => by simp [EX.fq, EX.one, ExactNum.fin]) (by
      simp only [abs_one, Finset.sum_const, Nat.card_Icc, Nat.add_sub_cancel, nsmul_eq_mul, mul_one]
      exact_mod_cast (by omega : n ≤ 2 ^ 52))
  have hv : ∀ T : Finset Nat, ∑ v ∈ T, ExactNum.val (EX.fq (R := Dbl) EX.one v) =
      ∑ v ∈ T, (((1 : Int) : Rat) * 2 ^ (0 : Int)) := by
    intro T
    apply Finset.sum_congr rfl
    intro v _
    unfold EX.fq EX.one
    rw [ExactNum.val_fin]
    norm_num
  refine ⟨⟨fun v _ _ => ExactNum.num_fin _, fun T hT => ?_⟩, fun T hT T' hT' => ?_⟩
  · rw [hv]
    exact (EX.weights2_one x).sums T hT
  · rw [hv, hv]
    exact x.sums T hT T' hT'

/-- What is printed if the vector of edges need not move when the working storage is added. -/
theorem C93_output (hf : PyGraph.fromFile argLR cap' look text = .ok pg) (h : Loaded pg n S)
    (he : ∃ u v, S.Adj u v) (hm : pg.nedges < 2 ^ 56)
    (hk : ∀ H : NWG Dbl, nwMemLoad argLR cap look text = .ok H → H.g.dangling = false)
    (hsrt : ∀ l, (srt l).Perm l) (junk junk' : Nat → Dbl) :
    ∃ r, nwMemMain argLR cap look srt junk junk' text = .ok r ∧
      IsCliqueList S n r.heur ∧ r.heur ≠ [] ∧ r.heurWeight = ((r.heur.length : Nat) : Dbl) ∧
      IsMaxCliqueList S n r.stack ∧ 2 ≤ r.stack.length ∧
      r.stackWeight = ((r.stack.length : Nat) : Dbl) ∧
      r.weight = ((r.stack.length - 1 : Nat) : Dbl) ∧
      ∃ cs : List (List Nat), cs.Nodup ∧ r.count = cs.length ∧
        ∀ l, l ∈ cs ↔ IsCliqueList S n l ∧ l.length = max (r.stack.length - 1) 2 ∧
          ¬ First S n 1 l := by
  have h31 : (2 : Nat) ^ 31 < 2 ^ 53 := by decide
  have h58 : 2 * 2 ^ 31 + 1 + 2 * (2 : Nat) ^ 56 < 2 ^ 58 := by decide
  obtain ⟨m, edges, a1, a2, a3⟩ := file_describes hf h hm
  obtain ⟨hn, _, _, _, _⟩ := h.as
  have x := ones_exact hn
  have h1 : ((1 : Nat) : Dbl) = ExactNum.fin 1 := by
    have := natCast_exact (k := 1) (by decide)
    rw [this]
    rfl
  have hw : ∀ v, 1 ≤ v → v ≤ n → nth (List.replicate n ((1 : Nat) : Dbl)) v = EX.fq EX.one v := by
    intro v hv1 hv2
    unfold nth EX.fq EX.one
    rw [h1, List.getD_eq_getElem?_getD, List.getElem?_replicate_of_lt (by omega)]
    rfl
  have hD : Describes (edges ++ (List.range' 1 n).map fun i => (i, i)) n S := by
    have hmem : ∀ e : Nat × Nat, e ∈ (List.range' 1 n).map (fun i => (i, i)) →
        e.1 = e.2 ∧ e.1 ≤ n := by
      intro e hx
      obtain ⟨i, hi, rfl⟩ := List.mem_map.1 hx
      rw [List.mem_range'_1] at hi
      exact ⟨rfl, by simp only; omega⟩
    refine ⟨?_, ?_, a3.rng⟩
    · intro u v hu hv
      rw [List.mem_append, a3.mem u v hu hv]
      constructor
      · rintro (hx | hx)
        · exact hx
        · exact Or.inl (hmem _ hx).1
      · exact Or.inl
    · intro e hx
      rcases List.mem_append.1 hx with hx | hx
      · exact a3.range e hx
      · have := hmem e hx
        omega
  obtain ⟨pgw, H, b1, hL⟩ := EX.wloadGraph_spec hD hn (by
    simp only [List.length_append, List.length_map, List.length_range']
    omega) (wts := List.replicate n ((1 : Nat) : Dbl)) (by simp) (by
      refine ⟨fun v hv1 hv2 => by rw [hw v hv1 hv2]; exact ExactNum.num_fin _, fun T hT => ?_⟩
      rw [Finset.sum_congr rfl (g := fun v => ExactNum.val (EX.fq (R := Dbl) EX.one v))]
      · exact x.sums T hT
      · intro v hv
        have := Finset.mem_Icc.1 (hT hv)
        rw [hw v this.1 this.2]) argLR cap m
  unfold PyNW.loadGraph at b1
  obtain ⟨H', b2, b1⟩ := bind_eq_ok.1 b1
  have hH : H' = H := by
    cases b1
    have := hL.eq
    simp only [PyNW.new, PyNW.mk.injEq, Option.some.injEq] at this
    exact this.1
  subst hH
  have hload : nwMemLoad argLR cap look text = .ok H' := by
    unfold nwMemLoad
    rw [a1, ok_bind]
    exact b2
  have hg : pgw.G = some H' := by rw [hL.eq]
  have hF : EX.WFresh pgw n S (EX.fq EX.one) H' := by
    refine ⟨⟨hg, by rw [hL.eq], ?_, hL.ok he (hk H' hload), hL.of,
      fun v h1 h2 => by rw [hL.w v h1 h2, hw v h1 h2], hL.w0⟩, hL.xn,
      hL.bounds, hL.d, hL.cm, hL.sing he, he, by rw [hL.eq], by rw [hL.eq], hn⟩
    obtain ⟨u, v, huv⟩ := he
    have := (hL.of.rng _ _ huv).1
    omega
  obtain ⟨heur, stack, cs, c1, c2, c3, c4, c5, c6, c7⟩ := EX.memRun_spec hF x h1 hsrt junk junk'
  have small : ∀ l, IsCliqueList S n l → l.length ≤ 2 ^ 53 := by
    intro l hl
    have hnd : l.Nodup := hl.increasing.imp fun h => Nat.ne_of_lt h
    rw [← List.toFinset_card_of_nodup hnd]
    have h2 : l.toFinset ⊆ Finset.Icc 1 n := by
      intro v hv
      rw [List.mem_toFinset] at hv
      rw [Finset.mem_Icc]
      exact hl.range v hv
    have := Finset.card_le_card h2
    simp only [Nat.card_Icc, Nat.add_sub_cancel] at this
    omega
  have s1 := small _ c2
  have s2 := small _ c4.1
  have s3 : stack.length - 1 ≤ 2 ^ 53 := by omega
  refine ⟨_, by unfold nwMemMain; rw [hload, ok_bind]; exact c1, c2, c3,
    (natCast_exact s1).symm, c4, c5, (natCast_exact s2).symm,
    (natCast_exact s3).symm, cs, c6, rfl, c7⟩

/-- Part of **C93** (the program prints a clique, a maximum clique, their sizes as their weights,
and the number of cliques that weigh one less than the maximum).  Proved: all but the count; if
the maximum cliques have three or more vertices the count is that of the cliques with one vertex
less, but for those whose first vertex, in the order by degree and then by number, is vertex 1; if
they have two vertices it is that of those cliques themselves, with the same exception.  The
hypothesis `hk` says that adding the working storage does not move the vector of edges.
Missing, because false (`C93_refuted`, `C93_refuted_pair`): the count without the exception, and
the count for a graph whose maximum cliques are pairs. -/
theorem C93_program_partial (hf : PyGraph.fromFile argLR cap' look text = .ok pg)
    (h : Loaded pg n S) (he : ∃ u v, S.Adj u v) (hm : pg.nedges < 2 ^ 56)
    (hk : ∀ H : NWG Dbl, nwMemLoad argLR cap look text = .ok H → H.g.dangling = false)
    (hsrt : ∀ l, (srt l).Perm l) (junk junk' : Nat → Dbl) :
    ∃ r, nwMemMain argLR cap look srt junk junk' text = .ok r ∧
      IsCliqueList S n r.heur ∧ r.heur ≠ [] ∧ r.heurWeight = ((r.heur.length : Nat) : Dbl) ∧
      IsMaxCliqueList S n r.stack ∧ r.stackWeight = ((r.stack.length : Nat) : Dbl) ∧
      r.weight = ((r.stack.length - 1 : Nat) : Dbl) ∧
      ∃ cs : List (List Nat), cs.Nodup ∧ r.count = cs.length ∧
        (3 ≤ r.stack.length → ∀ l, l ∈ cs ↔
          IsCliqueList S n l ∧ l.length + 1 = r.stack.length ∧ ¬ First S n 1 l) ∧
        (r.stack.length ≤ 2 → ∀ l, l ∈ cs ↔
          IsCliqueList S n l ∧ l.length = 2 ∧ ¬ First S n 1 l) := by
  obtain ⟨r, a1, a2, a3, a4, a5, a6, a7, a8, cs, b1, b2, b3⟩ :=
    C93_output hf h he hm hk hsrt junk junk'
  refine ⟨r, a1, a2, a3, a4, a5, a7, a8, cs, b1, b2, fun h3 l => ?_, fun h3 l => ?_⟩
  · rw [b3, show max (r.stack.length - 1) 2 = r.stack.length - 1 by omega]
    constructor
    · rintro ⟨c1, c2, c3⟩; exact ⟨c1, by omega, c3⟩
    · rintro ⟨c1, c2, c3⟩; exact ⟨c1, by omega, c3⟩
  · rw [b3, show max (r.stack.length - 1) 2 = 2 by omega]

namespace Sample

/-- A file with one edge. -/
def pairText : List Char := "2 2 1\n1 2\n".toList

def pairFile : PyGraph := get PyGraph.new (PyGraph.fromFile true 64 true pairText)

theorem pairFile_eq : PyGraph.fromFile true 64 true pairText = .ok pairFile := by
  decide +kernel

theorem pairText_is : IsFile 2 1 [(1, 2)] [] pairText := by
  refine ⟨[], ["1 2\n".toList], "2 2 1\n".toList, 2, by decide, ?_, ?_, by decide, ?_⟩
  · simp
  · exact ⟨[], ['2'], [' '], ['2'], [' '], ['1'], [], by decide, by simp [IsBlank],
      ⟨by decide, by decide, by decide⟩, by simp [IsBlank], by decide,
      ⟨by decide, by decide, by decide⟩, by simp [IsBlank], by decide,
      ⟨by decide, by decide, by decide⟩, by simp [IsBlank]⟩
  · refine .cons ⟨[], ['1'], [' '], ['2'], [], ?_⟩ .nil
    exact ⟨by decide, by simp [IsBlank], ⟨by decide, by decide, by decide⟩, by simp [IsBlank],
      by decide, ⟨by decide, by decide, by decide⟩, by decide, by decide, by
        intro c hc
        simp at hc⟩

theorem pairFile_loaded : Loaded pairFile 2 (ofPairs [(1, 2)]) := by
  obtain ⟨pg, h1, _, h2⟩ := C08_well_formed pairText_is (by decide) (by decide) (by decide)
    (by decide) true 64 true
  rw [pairFile_eq] at h1
  cases h1
  exact h2

end Sample

/-- **C93** fails: a triangle has three cliques of weight two and the program prints that there is
one. -/
theorem C93_refuted : Usable Sample.triangleFile 3 (ofPairs Sample.triangleRows) ∧
    nwMemMain (R := Dbl) true 64 true List.reverse (fun _ => 0) (fun _ => 0) Sample.triangleText = .ok
      { heur := [1, 2, 3], heurWeight := .fin 3, stack := [1, 2, 3], stackWeight := .fin 3,
        weight := .fin 2, count := 1 } ∧
    ∀ l ∈ [[1, 2], [1, 3], [2, 3]], IsCliqueList (ofPairs Sample.triangleRows) 3 l :=
  ⟨Sample.triangleFile_usable, by decide +kernel, C92_refuted_count.2.2⟩

/-- **C93** fails: a graph of two vertices and an edge has two cliques of weight one and the program
prints that there is none. -/
theorem C93_refuted_pair : Loaded Sample.pairFile 2 (ofPairs [(1, 2)]) ∧
    nwMemMain (R := Dbl) true 64 true List.reverse (fun _ => 0) (fun _ => 0) Sample.pairText = .ok
      { heur := [1, 2], heurWeight := .fin 2, stack := [1, 2], stackWeight := .fin 2,
        weight := .fin 1, count := 0 } ∧
    ∀ l ∈ [[1], [2]], IsCliqueList (ofPairs [(1, 2)]) 2 l := by
  refine ⟨Sample.pairFile_loaded, by decide +kernel, ?_⟩
  intro l hl
  simp only [List.mem_cons, List.not_mem_nil, or_false] at hl
  rcases hl with rfl | rfl
  all_goals
    refine ⟨by simp, by simp, ?_⟩
    intro x hx y hy hxy
    simp at hx hy
    omega

/-- `C93_program_partial` on the file with a triangle. -/
example : PyGraph.fromFile true 64 true Sample.triangleText = .ok Sample.triangleFile ∧
    Loaded Sample.triangleFile 3 (ofPairs Sample.triangleRows) ∧
    (∃ u v, (ofPairs Sample.triangleRows).Adj u v) ∧ Sample.triangleFile.nedges < 2 ^ 56 ∧
    (∀ H : NWG Dbl, nwMemLoad true 64 true Sample.triangleText = .ok H → H.g.dangling = false) ∧
    (∀ l : List (WData Dbl), l.reverse.Perm l) ∧
    ¬ First (ofPairs Sample.triangleRows) 3 1 [2, 3] := by
  refine ⟨Sample.triangleFile_eq, Sample.triangleFile_usable.loaded,
    Sample.triangleFile_usable.edge, by decide +kernel, ?_, fun l => List.reverse_perm l,
    fun h => by simp [First] at h⟩
  intro H hH
  have : (nwMemLoad (R := Dbl) true 64 true Sample.triangleText >>= fun H => .ok H.g.dangling) =
      .ok false := by decide +kernel
  rw [hH, ok_bind] at this
  exact Except.ok.inj this

end CM
