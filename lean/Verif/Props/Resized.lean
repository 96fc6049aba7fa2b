import Verif.Props.Correspondence

/-!
# C90: sets that change size after the graph was built

The objects keep `S1` and `S2` as plain attributes.  `build_edges` numbers the pairs with the
size the second set has at that time, `get_correspondence` undoes the numbering with the size
the second set has when it is called (_gen_graph.py:129-131).  Here the graph was built for
sets of `M` and `N` elements, and the second set has `K` elements when it is read.
-/

namespace CM

open Spec Graph Sample

variable {pg : PyGraph} {M N K : Nat} {S : SimpleGraph Nat}

theorem pairId_same {N K g t f s : Nat} (hs : s < K) (e : pairId K f s = pairId N g t) :
    (f = g ∧ s = t) ↔ (K = N ∨ (g = 0 ∧ t < K)) ∧ (K = N → t < N) := by
  unfold pairId at e
  constructor
  · rintro ⟨rfl, rfl⟩
    have e' : f * K = f * N := by omega
    refine ⟨?_, fun h => h ▸ hs⟩
    rcases Nat.eq_zero_or_pos f with h0 | h0
    · exact Or.inr ⟨h0, hs⟩
    · exact Or.inl (Nat.eq_of_mul_eq_mul_left h0 e')
  · rintro ⟨h | ⟨rfl, ht⟩, hn⟩
    · subst h
      exact pairId_inj hs (hn rfl) (by unfold pairId; exact e)
    · have h : pairId K f s = pairId K 0 t := by unfold pairId; omega
      exact pairId_inj hs ht h

/-- Reading one vertex with either size. -/
theorem read_same {l : List Nat} (hr : ∀ v ∈ l, 1 ≤ v ∧ v ≤ M * N) (hK : 1 ≤ K) {k : Nat}
    (hk : k < l.length) :
    pairId K ((firsts K l).getD k 0) ((seconds K l).getD k 0) =
      pairId N ((firsts N l).getD k 0) ((seconds N l).getD k 0) ∧
    (seconds K l).getD k 0 < K ∧ (N ≤ K → (firsts K l).getD k 0 < M) ∧
    (((firsts K l).getD k 0 = (firsts N l).getD k 0 ∧
        (seconds K l).getD k 0 = (seconds N l).getD k 0) ↔
      (K = N ∨ ((firsts N l).getD k 0 = 0 ∧ (seconds N l).getD k 0 < K))) := by
  have hr := hr l[k] (List.getElem_mem hk)
  have e1 : ∀ Q, (firsts Q l).getD k 0 = (l[k] - 1) / Q := fun Q => by
    simp [firsts, List.getD_eq_getElem?_getD, hk]
  have e2 : ∀ Q, (seconds Q l).getD k 0 = (l[k] - 1) % Q := fun Q => by
    simp [seconds, List.getD_eq_getElem?_getD, hk]
  rw [e1, e1, e2, e2]
  obtain ⟨a1, a2, a3⟩ := pairId_surj hr.1 hr.2
  obtain ⟨_, b2, b3⟩ := pairId_surj (M := M * N) (N := K) hr.1
    (hr.2.trans (Nat.le_mul_of_pos_right _ hK))
  have hsame := pairId_same b2 (b3.trans a3.symm)
  refine ⟨b3.trans a3.symm, b2, fun hNK => ?_, hsame.trans ?_⟩
  · exact lt_of_le_of_lt (Nat.div_le_div_left hNK (by
      rcases Nat.eq_zero_or_pos N with h0 | h0
      · subst h0; omega
      · exact h0)) a1
  · exact ⟨fun x => x.1, fun x => ⟨x, fun _ => a2⟩⟩

/-- **C90**, as far as it is true.  The full property: if the sets have changed size since
`build_edges`, `get_correspondence` says so or returns pairs the graph was built from.
Proved: if the second set is not empty, a call returns without a fault in the same cases, and
its pairs stand for the same numbers as the right ones `(g, t)`.  The index into the second
set is in range for the set as it is now, the index into the first one is in range if the
second set has not become smaller, and a pair is the right one exactly if the second set
has its old size, or the pair is about the first element of the first set and the element it
is matched with still exists.  The size of the first set plays no part.  Missing, because
false (`C90_refuted`): that wrong pairs are not returned. -/
theorem C90_resized_partial (h : Usable pg (M * N) S) {ops : List Op}
    (hl : ∀ op ∈ ops, op.Legal) (hp : ∀ op ∈ ops, op.Positive)
    {srt : List VData → List VData} (hsrt : ∀ l, (srt l).Perm l) {a : PyGraph.Args}
    (ha : 1 ≤ a.lowerBound) (hK : 1 ≤ K) :
    ∃ pg1 pg2, runs ops pg = .ok pg1 ∧
      ((pg1.getCorrespondence srt N a = .ok (pg2, .raise) ∧
          pg1.getCorrespondence srt K a = .ok (pg2, .raise)) ∨
        ∃ g t f s, pg1.getCorrespondence srt N a = .ok (pg2, .ret (g, t)) ∧
          pg1.getCorrespondence srt K a = .ok (pg2, .ret (f, s)) ∧
          f.length = g.length ∧ t.length = g.length ∧ s.length = g.length ∧
          ∀ k, k < g.length →
            pairId K (f.getD k 0) (s.getD k 0) = pairId N (g.getD k 0) (t.getD k 0) ∧
            s.getD k 0 < K ∧ (N ≤ K → f.getD k 0 < M) ∧
            ((f.getD k 0 = g.getD k 0 ∧ s.getD k 0 = t.getD k 0) ↔
              (K = N ∨ (g.getD k 0 = 0 ∧ t.getD k 0 < K)))) := by
  obtain ⟨pg1, pg2, r, h1, h2, h3⟩ := C09_returned_is_clique h hl hp hsrt ha
  refine ⟨pg1, pg2, h1, ?_⟩
  have eN := getCorrespondence_eq (M := M) (N := N) h2 (fun l hr => (h3 l hr).1.range)
  have eK := getCorrespondence_eq (M := M * N) (N := K) h2 (fun l hr v hv =>
    ⟨((h3 l hr).1.range v hv).1,
      ((h3 l hr).1.range v hv).2.trans (Nat.le_mul_of_pos_right _ hK)⟩)
  cases r with
  | raise => exact Or.inl ⟨eN, eK⟩
  | ret l =>
    refine Or.inr ⟨_, _, _, _, eN, eK, by simp [firsts], by simp [firsts, seconds],
      by simp [firsts, seconds], ?_⟩
    intro k hk
    exact read_same (h3 l rfl).1.range hK (by simpa [firsts] using hk)

/-- **C90** for the iterator, as far as it is true.  `all_correspondences(k)` uses the size that the
second set has when it is called.  If that is not zero, the iterator yields as many correspondences
as it should, after any history; each consists of `k` pairs that stand for the same numbers as those
that it should contain, and a pair is the right one in the same cases as above. -/
theorem C90_resized_iterator_partial (h : Usable pg (M * N) S) {ops : List Op}
    (hl : ∀ op ∈ ops, op.Legal) (hK : 1 ≤ K) (k : Nat) :
    ∃ (pg1 pg2 : PyGraph) (cs : List ((List Nat × List Nat) × List Nat × List Nat)),
      runs ops pg = .ok pg1 ∧
      pg1.listCorrespondences N k = .ok (pg2, cs.map fun c => .ret c.1) ∧
      pg1.listCorrespondences K k = .ok (pg2, cs.map fun c => .ret c.2) ∧
      ∀ g t f s, ((g, t), f, s) ∈ cs →
        g.length = k ∧ t.length = k ∧ f.length = k ∧ s.length = k ∧
        ∀ i, i < k → pairId K (f.getD i 0) (s.getD i 0) = pairId N (g.getD i 0) (t.getD i 0) ∧
          s.getD i 0 < K ∧ (N ≤ K → f.getD i 0 < M) ∧
          ((f.getD i 0 = g.getD i 0 ∧ s.getD i 0 = t.getD i 0) ↔
            (K = N ∨ (g.getD i 0 = 0 ∧ t.getD i 0 < K))) := by
  obtain ⟨pg1, pg2, cs, h1, h2, _, h3⟩ := C19_sound h hl k
  have eN := listCorrespondences_eq (M := M) (N := N) h2 (fun c hc => (h3 c hc).1.range)
  have eK := listCorrespondences_eq (M := M * N) (N := K) h2 (fun c hc v hv =>
    ⟨((h3 c hc).1.range v hv).1,
      ((h3 c hc).1.range v hv).2.trans (Nat.le_mul_of_pos_right _ hK)⟩)
  refine ⟨pg1, pg2, cs.map fun c => ((firsts N c, seconds N c), firsts K c, seconds K c), h1,
    by rw [eN, List.map_map]; rfl, by rw [eK, List.map_map]; rfl, ?_⟩
  intro g t f s hm
  obtain ⟨l, hl', e⟩ := List.mem_map.1 hm
  injection e with e1 e2
  injection e1 with eg et
  injection e2 with ef es
  subst eg et ef es
  obtain ⟨hc, hlen⟩ := h3 l hl'
  refine ⟨by simp [firsts, hlen], by simp [seconds, hlen], by simp [firsts, hlen],
    by simp [seconds, hlen], fun i hi => ?_⟩
  exact read_same hc.range hK (by omega)

/-- **C90** for a second set that was emptied: whenever there is a correspondence to report
the call divides by zero. -/
theorem C90_emptied (h : Usable pg (M * N) S) {ops : List Op}
    (hl : ∀ op ∈ ops, op.Legal) (hp : ∀ op ∈ ops, op.Positive)
    {srt : List VData → List VData} (hsrt : ∀ l, (srt l).Perm l) {a : PyGraph.Args}
    (ha : 1 ≤ a.lowerBound) :
    ∃ pg1 pg2 r, runs ops pg = .ok pg1 ∧ pg1.getCorrespondence srt N a = .ok (pg2, r) ∧
      (r = .raise → pg1.getCorrespondence srt 0 a = .ok (pg2, .raise)) ∧
      ∀ g t, r = .ret (g, t) → pg1.getCorrespondence srt 0 a = .error .ub := by
  obtain ⟨pg1, pg2, r, h1, h2, h3⟩ := C09_returned_is_clique h hl hp hsrt ha
  refine ⟨pg1, pg2, _, h1,
    getCorrespondence_eq (M := M) h2 (fun l hr => (h3 l hr).1.range), ?_, ?_⟩
  · intro hr
    cases r with
    | ret l => cases hr
    | raise =>
      unfold PyGraph.getCorrespondence
      rw [h2, ok_bind]
  · intro g t hr
    cases r with
    | raise => cases hr
    | ret l =>
      obtain ⟨hc, hlen⟩ := h3 l rfl
      unfold PyGraph.getCorrespondence
      rw [h2, ok_bind]
      cases l with
      | nil => simp at hlen; omega
      | cons v l =>
        have hv := (hc.range v (by simp)).1
        simp only
        unfold PyGraph.getCorrespondence2
        rw [if_neg (by omega), if_pos rfl]
        rfl

/-- **C90** is false.  Points `0, 2, 5` matched with points `10, 12, 15`.  One point more in
the second set when the result is read, and two of the three reported pairs are wrong: all
three are about the same element of the second set.  One point less, and besides there is an
index into the first set that is out of range.  No point left, and the call divides by zero. -/
theorem C90_refuted :
    (line.getCorrespondence byDegree 3 {} >>= fun x => .ok x.2) =
      .ok (.ret ([0, 1, 2], [0, 1, 2])) ∧
    (line.getCorrespondence byDegree 4 {} >>= fun x => .ok x.2) =
      .ok (.ret ([0, 1, 2], [0, 0, 0])) ∧
    (line.getCorrespondence byDegree 2 {} >>= fun x => .ok x.2) =
      .ok (.ret ([0, 2, 4], [0, 0, 0])) ∧
    (line.getCorrespondence byDegree 0 {} >>= fun x => .ok x.2) = .error .ub := by
  decide +kernel

/-- The same for the iterator: it should yield the pairs `(0, 2)`, `(1, 1)`, `(2, 0)`. -/
theorem C90_refuted_iterator :
    (line.listCorrespondences 3 3 >>= fun x => .ok x.2) = .ok [.ret ([0, 1, 2], [2, 1, 0])] ∧
    (line.listCorrespondences 4 3 >>= fun x => .ok x.2) = .ok [.ret ([0, 1, 1], [2, 0, 2])] ∧
    (line.listCorrespondences 2 3 >>= fun x => .ok x.2) = .ok [.ret ([1, 2, 3], [0, 0, 0])] ∧
    (line.listCorrespondences 0 3 >>= fun x => .ok x.2) = .error .ub :=
  ⟨by decide +kernel, by decide +kernel, by decide +kernel, by decide +kernel⟩

/-- The hypotheses of `C90_resized_iterator_partial` are met, and by `C90_refuted_iterator` the list
is not empty. -/
example : ∃ S, Usable line (3 * 3) S ∧ ∃ (pg1 pg2 : PyGraph)
    (cs : List ((List Nat × List Nat) × List Nat × List Nat)), runs [] line = .ok pg1 ∧
    pg1.listCorrespondences 4 3 = .ok (pg2, cs.map fun c => .ret c.2) := by
  obtain ⟨S, h⟩ := line_usable
  obtain ⟨pg1, pg2, cs, e1, _, e2, _⟩ := C90_resized_iterator_partial (M := 3) (N := 3) (K := 4)
    (ops := []) h (by simp) (by decide) 3
  exact ⟨S, h, pg1, pg2, cs, e1, e2⟩

/-- The hypotheses of C90 are met. -/
example : ∃ S, Usable line (3 * 3) S ∧ ∃ pg1 pg2, runs [] line = .ok pg1 ∧
    ((pg1.getCorrespondence byDegree 3 {} = .ok (pg2, .raise) ∧
        pg1.getCorrespondence byDegree 4 {} = .ok (pg2, .raise)) ∨
      ∃ g t f s, pg1.getCorrespondence byDegree 3 {} = .ok (pg2, .ret (g, t)) ∧
        pg1.getCorrespondence byDegree 4 {} = .ok (pg2, .ret (f, s)) ∧ f.length = g.length) := by
  obtain ⟨S, h⟩ := line_usable
  obtain ⟨pg1, pg2, e1, e2⟩ := C90_resized_partial (M := 3) (N := 3) (K := 4) (ops := []) h
    (by simp) (by simp) (fun l => byDegree_perm l) (a := {}) (by decide) (by decide)
  refine ⟨S, h, pg1, pg2, e1, ?_⟩
  rcases e2 with e2 | ⟨g, t, f, s, x1, x2, x3, _⟩
  · exact Or.inl e2
  · exact Or.inr ⟨g, t, f, s, x1, x2, x3⟩

end CM
