import Verif.Props.WeightedDouble
import Verif.Props.WeightedHeld
import Verif.Props.WeightedObject
import Verif.Lemmas.EXHeld

/-!
# C49, C62 for searches and iterations in any order

What searches, iterations and one held iterator report when they are used together on one
weighted graph.  The weights are rational, or `double`s that add up exactly.
-/

namespace CM

open Spec Graph NWG

section Rational

variable {pg : PyNW Rat} {n : Nat} {S : SimpleGraph Nat} {ω : Nat → Rat}

/-- Rational weights add up exactly. -/
theorem given2_rat (h : WUsable pg n S ω) : EX.Given2 pg n S ω :=
  ⟨⟨⟨ω, h, fun _ _ _ => rfl⟩, fun _ _ => trivial⟩, fun _ _ _ _ => trivial⟩

theorem exact_opQ {op : WOp Rat} (h : op.Exact S n ω) : EX.OpQ S n ω op := by
  cases op with
  | search _ _ a => exact ⟨low_rat _, up_rat _, h⟩
  | list _ _ => trivial
  | reset => trivial

theorem opFin_rat (op : WOp Rat) : EX.OpFin op := by
  cases op with
  | list _ W => exact ⟨W, rfl⟩
  | search _ _ _ => trivial
  | reset => trivial

/-- The lower bound of a search is at most `L`. -/
def WOp.LowAtMost (L : Rat) : WOp Rat → Prop
  | .search _ _ a => a.lowerBound ≤ L
  | _ => True

theorem low_opLow {L : Rat} {op : WOp Rat} (h : op.LowAtMost L) : EX.OpLow L op := by
  cases op with
  | search _ _ a => exact not_lt.2 h
  | list _ _ => trivial
  | reset => trivial

/-- **C62** for programs that make other calls while they hold an iterator.  After any history, a
program creates an iterator over the cliques of weight `W` or more, and then does any actions
`xs`: it asks the iterator for a clique, or makes a complete call (a search, a reset, a whole
iteration with any threshold).  The weights are nonnegative and no upper bound is below the weight
of a clique.  Proved: nothing faults; the iterator's answers are those it gives without the other
calls, namely each of its cliques (C46) once and then `StopIteration` for ever; each complete
iteration yields exactly its cliques; each search returns the placeholder or a clique, not lighter
than its lower bound; and a depth-first search returns a clique at least as heavy as every clique
heavier than all lower bounds used so far, unless an iteration with some threshold `W'` came
before it, and then what it returns may weigh as little as `W'` (C49).  Missing, because false:
two iterators asked in turn (`C62_refuted`). -/
theorem C62_nested_partial (h : WUsable pg n S ω) (hnn : ∀ v, 1 ≤ v → v ≤ n → 0 ≤ ω v)
    {ops : List (WOp Rat)} (hl : ∀ op ∈ ops, op.Legal ∧ op.Exact S n ω) (junk : Nat → Rat)
    (W : Rat) {xs : List (WAct Rat)}
    (hx : ∀ op, WAct.call op ∈ xs → op.Legal ∧ op.Exact S n ω) :
    ∃ (pg1 : PyNW Rat) (E : WEnum Rat) (pg2 : PyNW Rat) (E2 : WEnum Rat) (seen : List (WSeen Rat))
      (cs : List (List Nat)), wruns ops pg = .ok pg1 ∧ pg1.allCliques junk W = .ok E ∧
      wacts xs pg1 E = .ok (pg2, E2, seen) ∧
      -- the held iterator
      WSeen.answers seen = (cs.map some ++ List.replicate (xs.countP WAct.isNext) none).take
        (xs.countP WAct.isNext) ∧
      cs.Nodup ∧
      (∀ l, l ∈ cs ↔ IsCliqueList S n l ∧ 2 ≤ l.length ∧
        ∃ u, u ≠ 1 ∧ WFirst S n ω u l ∧ ReachedLast ω W u l) ∧
      -- the complete iterations
      (∀ W' ds, WSeen.list W' ds ∈ seen → ds.Nodup ∧ ∀ l, l ∈ ds ↔ IsCliqueList S n l ∧
        2 ≤ l.length ∧ ∃ u, u ≠ 1 ∧ WFirst S n ω u l ∧ ReachedLast ω W' u l) ∧
      -- the searches
      (∀ a l, WSeen.found a (.ret l) ∈ seen → (l = [0] ∧ a.lowerBound ≤ 0) ∨
        (IsCliqueList S n l ∧ a.lowerBound ≤ weight ω l)) ∧
      ∀ L, 0 ≤ L → (∀ op, op ∈ ops ∨ WAct.call op ∈ xs → op.LowAtMost L) →
        ∀ a r, WSeen.found a r ∈ seen → a.useDfs = true →
          ∀ l', IsCliqueList S n l' → 2 ≤ l'.length → L < weight ω l' →
            (∃ l, r = .ret l ∧ IsCliqueList S n l ∧ weight ω l' ≤ weight ω l) ∨
            ∃ W', (W' = W ∨ ∃ junk', WOp.list junk' W' ∈ ops ∨ WAct.call (.list junk' W') ∈ xs) ∧
              ((r = .raise ∧ W' < a.lowerBound) ∨ (r = .ret [0] ∧ W' ≤ 0) ∨
                ∃ l, r = .ret l ∧ IsCliqueList S n l ∧ W' ≤ weight ω l) := by
  obtain ⟨pg1, E, pg2, E2, ss, cs, a1, a2, a3, a4, a5, a6, a7⟩ := EX.nested (given2_rat h) hnn
    (ops := ops) (fun op ho => ⟨(hl op ho).1, exact_opQ (hl op ho).2, opFin_rat op⟩) junk W
    (xs := xs) (fun op ho => ⟨(hx op ho).1, exact_opQ (hx op ho).2, opFin_rat op⟩)
  let Q : Rat → Prop := fun W' => W' = W ∨ ∃ junk', WOp.list junk' W' ∈ ops ∨
    WAct.call (.list junk' W') ∈ xs
  have hQ : ∀ W' junk', WOp.list junk' W' ∈ ops ∨ WAct.call (.list junk' W') ∈ xs → Q W' :=
    fun W' junk' hW => Or.inr ⟨junk', hW⟩
  obtain ⟨L, l1, l2⟩ := EX.exists_low (ops ++ EX.calls xs) (S := S) (n := n) (q := ω) (by
    intro op ho
    rcases List.mem_append.1 ho with ho | ho
    · exact exact_opQ (hl op ho).2
    · exact exact_opQ (hx op (EX.mem_calls.1 ho)).2)
  have a8 := a7 L Q l1 (Or.inl rfl) hQ (by
    intro op ho
    refine l2 op (List.mem_append.2 ?_)
    rwa [EX.mem_calls])
  refine ⟨pg1, E, pg2, E2, ss, cs, a1, a2, a3, a4, a5, a6, fun W' ds hs => a8 _ hs W' rfl,
    fun a l hs => ?_, fun L h0 hL a r hs hd => (a7 L Q h0 (Or.inl rfl) hQ
      (fun op ho => low_opLow (hL op ho)) _ hs).2 hd⟩
  rcases (a8 _ hs).1 l rfl with h1 | h1
  · exact Or.inl ⟨h1.1, not_lt.1 h1.2⟩
  · exact Or.inr ⟨h1.1, not_lt.1 h1.2⟩

/-- **C49**, as far as it is true, for iterations between searches.  Proved: after any history of
searches with lower bounds of at most `L`, resets and complete iterations with any positive
thresholds, an exact search returns a clique which is at least as heavy as every clique (but
isolated vertices), or at least reaches the threshold of one of the iterations.  Missing, because
false (`C49_refuted`): that the second case alone never occurs. -/
theorem C49_weights_partial (h : WUsable pg n S ω) (hnn : ∀ v, 1 ≤ v → v ≤ n → 0 ≤ ω v)
    {ops : List (WOp Rat)} {L : Rat} (h0 : 0 ≤ L)
    (hl : ∀ op ∈ ops, op.Legal ∧ op.Exact S n ω ∧ op.LowAtMost L)
    {srt : List (WData Rat) → List (WData Rat)} (hsrt : ∀ l, (srt l).Perm l) (junk : Nat → Rat)
    {a : PyNW.Args Rat} (hd : a.useDfs = true) (ha : a.lowerBound ≤ L)
    (hu : ∀ l, IsCliqueList S n l → weight ω l ≤ a.upperBound)
    (hW : ∀ W junk, WOp.list junk W ∈ ops → 0 < W ∧ a.lowerBound ≤ W)
    (hex : ∃ l, IsCliqueList S n l ∧ 2 ≤ l.length ∧ L < weight ω l) :
    ∃ pg1 pg2 l, wruns ops pg = .ok pg1 ∧ pg1.getMaxClique srt junk a = .ok (pg2, .ret l) ∧
      IsCliqueList S n l ∧
      ((∀ l', IsCliqueList S n l' → (∀ v, l' = [v] → ∃ u, S.Adj v u) →
          weight ω l' ≤ weight ω l) ∨
        ∃ W junk, WOp.list junk W ∈ ops ∧ W ≤ weight ω l) := by
  obtain ⟨H, hF⟩ := h.fresh
  obtain ⟨pg1, pg2, l, a1, a2, a3, a4⟩ := EX.search_after (given2_rat h) hnn
    (fun op ho => ⟨(hl op ho).1, exact_opQ (hl op ho).2.1, opFin_rat op⟩) h0
    (fun op ho => low_opLow (hl op ho).2.2) hsrt junk (a := a) ⟨low_rat _, up_rat _, hu⟩
    (not_lt.2 ha) hd (fun W junk ho => ⟨(hW W junk ho).1, not_lt.2 (hW W junk ho).2⟩) hex
  refine ⟨pg1, pg2, l, a1, a2, a3, a4.imp (fun a4 l' hl' hiso => ?_) id⟩
  obtain ⟨l2, e1, e2, e3⟩ := isolated_only h.edge hF.pyok.of.rng hnn hl' hiso
  exact le_trans e3 (a4 l2 e1 e2)

/-- **C49** for iterations with thresholds no lighter than any clique, such as
`all_cliques(G.get_clique_weight(G.get_max_clique()))`: they may come anywhere, also between
searches. -/
theorem C49_heaviest_partial (h : WUsable pg n S ω) (hnn : ∀ v, 1 ≤ v → v ≤ n → 0 ≤ ω v)
    {ops : List (WOp Rat)} {L : Rat} (h0 : 0 ≤ L)
    (hl : ∀ op ∈ ops, op.Legal ∧ op.Exact S n ω ∧ op.LowAtMost L)
    (hW : ∀ W junk, WOp.list junk W ∈ ops → ∀ l, IsCliqueList S n l → weight ω l ≤ W)
    {srt : List (WData Rat) → List (WData Rat)} (hsrt : ∀ l, (srt l).Perm l) (junk : Nat → Rat)
    {a : PyNW.Args Rat} (hd : a.useDfs = true) (ha : a.lowerBound ≤ L)
    (hu : ∀ l, IsCliqueList S n l → weight ω l ≤ a.upperBound)
    (hex : ∃ l, IsCliqueList S n l ∧ 2 ≤ l.length ∧ L < weight ω l) :
    ∃ pg1 pg2 l, wruns ops pg = .ok pg1 ∧ pg1.getMaxClique srt junk a = .ok (pg2, .ret l) ∧
      IsCliqueList S n l ∧ ∀ l', IsCliqueList S n l' → (∀ v, l' = [v] → ∃ u, S.Adj v u) →
        weight ω l' ≤ weight ω l := by
  obtain ⟨l0, d1, d2, d3⟩ := id hex
  obtain ⟨pg1, pg2, l, a1, a2, a3, a4⟩ := C49_weights_partial h hnn h0 hl hsrt junk hd ha hu
    (fun W junk ho => by
      have := hW W junk ho l0 d1
      exact ⟨lt_of_le_of_lt h0 (lt_of_lt_of_le d3 this),
        le_trans ha (le_trans (le_of_lt d3) this)⟩) hex
  refine ⟨pg1, pg2, l, a1, a2, a3, fun l' hl' hiso => ?_⟩
  rcases a4 with a4 | ⟨W, junk, b1, b2⟩
  · exact a4 l' hl' hiso
  · exact le_trans (hW W junk b1 l' hl') b2

end Rational

/-! ## The same for `double`s -/

section Double

variable {pg : PyNW Dbl} {n : Nat} {S : SimpleGraph Nat} {ω : Nat → Dbl} {q : Nat → Rat}

/-- The threshold of an iteration is a number. -/
def WOp.FiniteList : WOp Dbl → Prop
  | .list _ W => ∃ W', W = .fin W'
  | _ => True

theorem finite_opFin {op : WOp Dbl} (h : op.FiniteList) : EX.OpFin op := by
  cases op with
  | list _ W => exact h
  | search _ _ _ => trivial
  | reset => trivial

/-- The lower bound of a search is not above `L`. -/
def WOp.NotAbove (L : Rat) : WOp Dbl → Prop
  | .search _ _ a => ¬ Dbl.fin L < a.lowerBound
  | _ => True

theorem notAbove_opLow {L : Rat} {op : WOp Dbl} (h : op.NotAbove L) : EX.OpLow L op := by
  cases op with
  | search _ _ a => exact h
  | list _ _ => trivial
  | reset => trivial

/-- **C62** for `double`s that add up exactly, for programs that make other calls while they hold
an iterator; as `C62_nested_partial`. -/
theorem C62_double_nested_partial (h : WUsable pg n S ω) (x : ExactWeights2 n ω q)
    (hnn : ∀ v, 1 ≤ v → v ≤ n → 0 ≤ q v) {ops : List (WOp Dbl)}
    (hl : ∀ op ∈ ops, op.Legal ∧ op.Within S n q ∧ op.FiniteList) (junk : Nat → Dbl)
    (W : Rat) {xs : List (WAct Dbl)}
    (hx : ∀ op, WAct.call op ∈ xs → op.Legal ∧ op.Within S n q ∧ op.FiniteList) :
    ∃ (pg1 : PyNW Dbl) (E : WEnum Dbl) (pg2 : PyNW Dbl) (E2 : WEnum Dbl) (seen : List (WSeen Dbl))
      (cs : List (List Nat)), wruns ops pg = .ok pg1 ∧ pg1.allCliques junk (.fin W) = .ok E ∧
      wacts xs pg1 E = .ok (pg2, E2, seen) ∧
      -- the held iterator
      WSeen.answers seen = (cs.map some ++ List.replicate (xs.countP WAct.isNext) none).take
        (xs.countP WAct.isNext) ∧
      cs.Nodup ∧
      (∀ l, l ∈ cs ↔ IsCliqueList S n l ∧ 2 ≤ l.length ∧
        ∃ u, u ≠ 1 ∧ WFirst S n q u l ∧ ReachedLast q W u l) ∧
      -- the complete iterations
      (∀ W' ds, WSeen.list (.fin W') ds ∈ seen → ds.Nodup ∧ ∀ l, l ∈ ds ↔ IsCliqueList S n l ∧
        2 ≤ l.length ∧ ∃ u, u ≠ 1 ∧ WFirst S n q u l ∧ ReachedLast q W' u l) ∧
      -- the searches
      (∀ a l, WSeen.found a (.ret l) ∈ seen → (l = [0] ∧ ¬ Dbl.fin 0 < a.lowerBound) ∨
        (IsCliqueList S n l ∧ ¬ Dbl.fin (weight q l) < a.lowerBound)) ∧
      ∀ L, 0 ≤ L → (∀ op, op ∈ ops ∨ WAct.call op ∈ xs → op.NotAbove L) →
        ∀ a r, WSeen.found a r ∈ seen → a.useDfs = true →
          ∀ l', IsCliqueList S n l' → 2 ≤ l'.length → L < weight q l' →
            (∃ l, r = .ret l ∧ IsCliqueList S n l ∧ weight q l' ≤ weight q l) ∨
            ∃ W', (W' = W ∨ ∃ junk', WOp.list junk' (.fin W') ∈ ops ∨
                WAct.call (.list junk' (.fin W')) ∈ xs) ∧
              ((r = .raise ∧ Dbl.fin W' < a.lowerBound) ∨ (r = .ret [0] ∧ W' ≤ 0) ∨
                ∃ l, r = .ret l ∧ IsCliqueList S n l ∧ W' ≤ weight q l) := by
  obtain ⟨pg1, E, pg2, E2, ss, cs, a1, a2, a3, a4, a5, a6, a7⟩ := EX.nested (EX.given2 h x) hnn
    (ops := ops) (fun op ho => ⟨(hl op ho).1, within_opQ (hl op ho).2.1,
      finite_opFin (hl op ho).2.2⟩) junk W
    (xs := xs) (fun op ho => ⟨(hx op ho).1, within_opQ (hx op ho).2.1,
      finite_opFin (hx op ho).2.2⟩)
  let Q : Rat → Prop := fun W' => W' = W ∨ ∃ junk', WOp.list junk' (.fin W') ∈ ops ∨
    WAct.call (.list junk' (.fin W')) ∈ xs
  have hQ : ∀ W' junk', WOp.list junk' (.fin W') ∈ ops ∨
      WAct.call (.list junk' (.fin W')) ∈ xs → Q W' := fun W' junk' hW => Or.inr ⟨junk', hW⟩
  obtain ⟨L, l1, l2⟩ := EX.exists_low (ops ++ EX.calls xs) (S := S) (n := n) (q := q) (by
    intro op ho
    rcases List.mem_append.1 ho with ho | ho
    · exact within_opQ (hl op ho).2.1
    · exact within_opQ (hx op (EX.mem_calls.1 ho)).2.1)
  have a8 := a7 L Q l1 (Or.inl rfl) hQ (by
    intro op ho
    refine l2 op (List.mem_append.2 ?_)
    rwa [EX.mem_calls])
  exact ⟨pg1, E, pg2, E2, ss, cs, a1, a2, a3, a4, a5, a6, fun W' ds hs => a8 _ hs W' rfl,
    fun a l hs => (a8 _ hs).1 l rfl, fun L h0 hL a r hs hd => (a7 L Q h0 (Or.inl rfl) hQ
      (fun op ho => notAbove_opLow (hL op ho)) _ hs).2 hd⟩

/-- **C49** for `double`s that add up exactly; as `C49_weights_partial`. -/
theorem C49_double_weights_partial (h : WUsable pg n S ω) (x : ExactWeights2 n ω q)
    (hnn : ∀ v, 1 ≤ v → v ≤ n → 0 ≤ q v) {ops : List (WOp Dbl)} {L : Rat} (h0 : 0 ≤ L)
    (hl : ∀ op ∈ ops, op.Legal ∧ op.Within S n q ∧ op.FiniteList ∧ op.NotAbove L)
    {srt : List (WData Dbl) → List (WData Dbl)} (hsrt : ∀ l, (srt l).Perm l) (junk : Nat → Dbl)
    {a : PyNW.Args Dbl} (hd : a.useDfs = true) {lb : Rat} (hlb : a.lowerBound = .fin lb)
    (ha : lb ≤ L) (hu : ∀ l, IsCliqueList S n l → Dbl.fin (weight q l) ≤ a.upperBound)
    (hW : ∀ W junk, WOp.list junk (.fin W) ∈ ops → 0 < W ∧ lb ≤ W)
    (hex : ∃ l, IsCliqueList S n l ∧ 2 ≤ l.length ∧ L < weight q l) :
    ∃ pg1 pg2 l, wruns ops pg = .ok pg1 ∧ pg1.getMaxClique srt junk a = .ok (pg2, .ret l) ∧
      IsCliqueList S n l ∧
      ((∀ l', IsCliqueList S n l' → (∀ v, l' = [v] → ∃ u, S.Adj v u) →
          weight q l' ≤ weight q l) ∨
        ∃ W junk, WOp.list junk (.fin W) ∈ ops ∧ W ≤ weight q l) := by
  obtain ⟨H, hF⟩ := (EX.given2 h x).toGiven.fresh
  have hlow : ∀ {p : Rat}, lb ≤ p → ¬ (ExactNum.fin p : Dbl) < a.lowerBound := by
    intro p hp
    rw [hlb]
    exact fun h => absurd ((ExactNum.lt (R := Dbl) p lb).1 h) (not_lt.2 hp)
  obtain ⟨pg1, pg2, l, a1, a2, a3, a4⟩ := EX.search_after (EX.given2 h x) hnn
    (fun op ho => ⟨(hl op ho).1, within_opQ (hl op ho).2.1, finite_opFin (hl op ho).2.2.1⟩) h0
    (fun op ho => notAbove_opLow (hl op ho).2.2.2) hsrt junk (a := a)
    ⟨EX.lowOk_of (by rw [hlb]; simp), upper_ok hu, hu⟩
    (hlow ha) hd (fun W junk ho => ⟨(hW W junk ho).1, hlow (hW W junk ho).2⟩) hex
  refine ⟨pg1, pg2, l, a1, a2, a3, a4.imp (fun a4 l' hl' hiso => ?_) id⟩
  obtain ⟨l2, e1, e2, e3⟩ := isolated_only h.edge hF.pyok.of.rng hnn hl' hiso
  exact le_trans e3 (a4 l2 e1 e2)

end Double

/-! ## Instances -/

namespace Sample

theorem wkite_upper {ub : Rat} (h : 17 ≤ ub) : ∀ l, IsCliqueList (ofPairs rows) 5 l →
    weight (nth ([2, 1/2, 3, 1, 10] : List Rat)) l ≤ ub := by
  intro l hl
  have h1 := weight_le wkite_nonneg hl
  have h2 : weight (nth ([2, 1/2, 3, 1, 10] : List Rat)) ((List.range 5).map (· + 1)) ≤ 17 := by
    decide +kernel
  exact le_trans h1 (le_trans h2 h)

/-- A list of cliques, a search with the lower bound 2, and the clique asked for in between. -/
def wkiteActs : List (WAct Rat) :=
  [.next, .call (.list (fun _ => 0) 3), .next,
    .call (.search byW (fun _ => 0) { lowerBound := 2, upperBound := 100 }), .next, .next]

theorem wkiteActs_ok : ∀ op, WAct.call op ∈ wkiteActs →
    (op.Legal ∧ op.Exact (ofPairs rows) 5 (nth ([2, 1/2, 3, 1, 10] : List Rat))) ∧
      op.LowAtMost 2 := by
  intro op hop
  simp only [wkiteActs, List.mem_cons, WAct.call.injEq, reduceCtorEq, List.not_mem_nil, or_false,
    false_or] at hop
  rcases hop with rfl | rfl
  · exact ⟨⟨trivial, trivial⟩, trivial⟩
  · exact ⟨⟨byW_perm, wkite_upper (by decide)⟩, le_refl (2 : Rat)⟩

/-- What is seen on the sample. -/
example : (wacts wkiteActs wkite (WEnum.new [0, 0, 0, 0, 0, 0] 4) >>= fun x =>
      .ok (WSeen.answers x.2.2)) = .ok [some [2, 3, 4], some [3, 4], some [4, 5], none] := by
  decide +kernel

/-- The hypotheses of `C62_nested_partial` are met, also those of its last part. -/
example : (∃ pg1 E x, wruns [.list (fun _ => 7) 1] wkite = .ok pg1 ∧
      pg1.allCliques (fun _ => 0) 4 = .ok E ∧ wacts wkiteActs pg1 E = .ok x) ∧
    (∀ op, op ∈ [WOp.list (fun _ => 7) (1 : Rat)] ∨ WAct.call op ∈ wkiteActs →
      op.LowAtMost 2) ∧
    ∃ l, IsCliqueList (ofPairs rows) 5 l ∧ 2 ≤ l.length ∧
      2 < weight (nth ([2, 1/2, 3, 1, 10] : List Rat)) l := by
  obtain ⟨pg1, E, pg2, E2, seen, _, h1, h2, h3, _⟩ := C62_nested_partial wkite_usable wkite_nonneg
    (ops := [.list (fun _ => 7) 1]) (by simp [WOp.Legal, WOp.Exact]) (fun _ => 0) 4
    (fun op ho => (wkiteActs_ok op ho).1)
  refine ⟨⟨pg1, E, _, h1, h2, h3⟩, ?_, [2, 3],
    pair_clique (by decide) (by decide) (by decide) (by decide), by decide, by decide +kernel⟩
  rintro op (ho | ho)
  · simp only [List.mem_cons, List.not_mem_nil, or_false] at ho
    subst ho
    trivial
  · exact (wkiteActs_ok op ho).2

/-- Searching, iterating over cliques of weight 3 or more, and searching again. -/
example : ∃ pg1 pg2 l, wruns [.search byW (fun _ => 0) { upperBound := 100 },
      .list (fun _ => 0) 3] wkite = .ok pg1 ∧
    pg1.getMaxClique byW (fun _ => 0) { upperBound := 100 } = .ok (pg2, .ret l) ∧
    IsCliqueList (ofPairs rows) 5 l ∧ 3 ≤ weight (nth ([2, 1/2, 3, 1, 10] : List Rat)) l := by
  obtain ⟨pg1, pg2, l, a1, a2, a3, a4⟩ := C49_weights_partial (L := 1) wkite_usable wkite_nonneg
    (ops := [.search byW (fun _ => 0) { upperBound := 100 }, .list (fun _ => 0) 3])
    (by decide)
    (by
      intro op hop
      simp only [List.mem_cons, List.not_mem_nil, or_false] at hop
      rcases hop with rfl | rfl
      · exact ⟨byW_perm, wkite_upper (by decide), by show (_ : Rat) ≤ _; decide +kernel⟩
      · exact ⟨trivial, trivial, trivial⟩)
    byW_perm (fun _ => 0) (a := { upperBound := 100 }) rfl (by decide +kernel)
    (wkite_upper (by decide))
    (by
      intro W junk hW
      simp only [List.mem_cons, reduceCtorEq, List.not_mem_nil, or_false, false_or,
        WOp.list.injEq] at hW
      rw [hW.2]
      decide +kernel)
    ⟨[2, 3], pair_clique (by decide) (by decide) (by decide) (by decide), by decide,
      by decide +kernel⟩
  refine ⟨pg1, pg2, l, a1, a2, a3, ?_⟩
  rcases a4 with a4 | ⟨W, junk, b1, b2⟩
  · refine le_trans ?_ (a4 [2, 3] (pair_clique (by decide) (by decide) (by decide) (by decide))
      (by simp))
    decide +kernel
  · simp only [List.mem_cons, reduceCtorEq, List.not_mem_nil, or_false, false_or,
      WOp.list.injEq] at b1
    rw [b1.2] at b2
    exact b2

/-- Searching, iterating over cliques of weight 17 or more (there is none), and searching again:
the heaviest clique. -/
example : ∃ pg1 pg2 l, wruns [.search byW (fun _ => 0) { upperBound := 100 },
      .list (fun _ => 0) 17, .reset] wkite = .ok pg1 ∧
    pg1.getMaxClique byW (fun _ => 0) { upperBound := 100 } = .ok (pg2, .ret l) ∧
    IsCliqueList (ofPairs rows) 5 l ∧ 11 ≤ weight (nth ([2, 1/2, 3, 1, 10] : List Rat)) l := by
  obtain ⟨pg1, pg2, l, a1, a2, a3, a4⟩ := C49_heaviest_partial (L := 1) wkite_usable wkite_nonneg
    (ops := [.search byW (fun _ => 0) { upperBound := 100 }, .list (fun _ => 0) 17, .reset])
    (by decide)
    (by
      intro op hop
      simp only [List.mem_cons, List.not_mem_nil, or_false] at hop
      rcases hop with rfl | rfl | rfl
      · exact ⟨byW_perm, wkite_upper (by decide), by show (_ : Rat) ≤ _; decide +kernel⟩
      · exact ⟨trivial, trivial, trivial⟩
      · exact ⟨trivial, trivial, trivial⟩)
    (by
      intro W junk hW
      simp only [List.mem_cons, reduceCtorEq, List.not_mem_nil, or_false, false_or,
        WOp.list.injEq] at hW
      rw [hW.2]
      exact wkite_upper (le_refl _))
    byW_perm (fun _ => 0) (a := { upperBound := 100 }) rfl (by decide +kernel)
    (wkite_upper (by decide))
    ⟨[2, 3], pair_clique (by decide) (by decide) (by decide) (by decide), by decide,
      by decide +kernel⟩
  refine ⟨pg1, pg2, l, a1, a2, a3, le_trans ?_ (a4 [4, 5]
    (pair_clique (by decide) (by decide) (by decide) (by decide)) (by simp))⟩
  decide +kernel

/-- The hypotheses of the theorems about `double`s, for a program on the sample, and what it
sees. -/
example : (∀ op, WAct.call op ∈ ([.next, .call (.list (fun _ => .nan) (.fin 3)), .next,
        .call (.search List.reverse (fun _ => .nan)
          { lowerBound := .fin 1, upperBound := .inf false }), .next, .next] : List (WAct Dbl)) →
      op.Legal ∧ op.Within (ofPairs rows) 5 dq ∧ op.FiniteList ∧ op.NotAbove 1) ∧
    (wacts ([.next, .call (.list (fun _ => .nan) (.fin 3)), .next,
        .call (.search List.reverse (fun _ => .nan)
          { lowerBound := .fin 1, upperBound := .inf false }), .next, .next] : List (WAct Dbl))
      dkite (WEnum.new [.nan, .nan, .nan, .nan, .nan, .nan] (.fin 4)) >>= fun x =>
      .ok (WSeen.answers x.2.2)) = .ok [some [2, 3, 4], some [3, 4], some [4, 5], none] := by
  refine ⟨?_, by decide +kernel⟩
  intro op hop
  simp only [List.mem_cons, WAct.call.injEq, reduceCtorEq, List.not_mem_nil, or_false,
    false_or] at hop
  rcases hop with rfl | rfl
  · exact ⟨trivial, trivial, ⟨3, rfl⟩, trivial⟩
  · exact ⟨fun l => List.reverse_perm l, ⟨by simp, dkite_upper (by decide)⟩, trivial,
      by show ¬ (Dbl.lt _ _ = true); decide +kernel⟩

end Sample

end CM
