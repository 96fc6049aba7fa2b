import Verif.Props.Correspondence

/-!
# C52, C53: how good the correspondences are

A matching is *consistent* for a relation `R` if `R i1 i2 j1 j2` holds for every two of its
pairs `(i1, j1)` and `(i2, j2)`.  The builders join pairs by such a relation, so searches
find the largest consistent matching and iterations go through the consistent matchings of
a given size.
-/

namespace CM

open Spec Graph Sample

/-- Every two pairs of `ps` are related: `R i1 i2 j1 j2` for `(i1, j1)` and `(i2, j2)`. -/
def Consistent (R : Nat → Nat → Nat → Nat → Prop) (ps : List (Nat × Nat)) : Prop :=
  ∀ p ∈ ps, ∀ q ∈ ps, p ≠ q → R p.1 q.1 p.2 q.2

variable {pg : PyGraph} {M N : Nat} {S : SimpleGraph Nat}

theorem matching_length_le {ps : List (Nat × Nat)} (h : IsMatching M N ps) :
    ps.length ≤ M ∧ ps.length ≤ N := by
  have k1 := (h.first.subperm (l₂ := List.range M) (by
    intro i hi
    obtain ⟨p, hp, rfl⟩ := List.mem_map.1 hi
    exact List.mem_range.2 (h.range p hp).1)).length_le
  have k2 := (h.second.subperm (l₂ := List.range N) (by
    intro i hi
    obtain ⟨p, hp, rfl⟩ := List.mem_map.1 hi
    exact List.mem_range.2 (h.range p hp).2)).length_le
  simp only [List.length_map, List.length_range] at k1 k2
  exact ⟨k1, k2⟩

/-- A matching all of whose pairs are joined is a clique. -/
theorem consistent_clique {R : Nat → Nat → Nat → Nat → Prop} {ps : List (Nat × Nat)}
    (hR : ∀ i1 i2 j1 j2, i1 < M → i2 < M → j1 < N → j2 < N → i1 ≠ i2 → j1 ≠ j2 →
      R i1 i2 j1 j2 → S.Adj (pairId N i1 j1) (pairId N i2 j2))
    (hm : IsMatching M N ps) (hc : Consistent R ps) :
    ∃ l, IsCliqueList S (M * N) l ∧ l.length = ps.length ∧
      ∀ v, v ∈ l ↔ ∃ p ∈ ps, v = pairId N p.1 p.2 := by
  refine matching_clique hm ?_
  intro p hp q hq hne
  have rp := hm.range p hp
  have rq := hm.range q hq
  refine hR _ _ _ _ rp.1 rq.1 rp.2 rq.2 ?_ ?_ (hc p hp q hq hne)
  · intro he; exact hne (List.inj_on_of_nodup_map hm.first hp hq he)
  · intro he; exact hne (List.inj_on_of_nodup_map hm.second hp hq he)

/-- What a default search returns on a graph of correspondences. -/
theorem largest_of {R : Nat → Nat → Nat → Nat → Prop} (hA : Apart M N S)
    (h : Usable pg (M * N) S) (hu : M ≤ 65535 ∨ N ≤ 65535)
    (hR : ∀ i1 i2 j1 j2, i1 < M → i2 < M → j1 < N → j2 < N → i1 ≠ i2 → j1 ≠ j2 →
      R i1 i2 j1 j2 → S.Adj (pairId N i1 j1) (pairId N i2 j2))
    {srt : List VData → List VData} (hsrt : ∀ l, (srt l).Perm l) :
    ∃ pg' f s, pg.getCorrespondence srt N {} = .ok (pg', .ret (f, s)) ∧
      f.length = s.length ∧ IsMatching M N (f.zip s) ∧
      (∃ l, IsCliqueList S (M * N) l ∧ (f.zip s).map (fun p => pairId N p.1 p.2) = l) ∧
      ∀ ps, IsMatching M N ps → Consistent R ps → ps.length ≤ f.length := by
  have hcl : ∀ l, IsCliqueList S (M * N) l → l.length ≤ 65535 := by
    intro l hl
    obtain ⟨k1, k2⟩ := clique_matching hA hl
    have := matching_length_le k1
    have hlen := congrArg List.length k2
    rw [List.length_map] at hlen
    omega
  obtain ⟨pg', l, c1, c2⟩ := C10_untimed_exact h hsrt {} rfl rfl hcl (Or.inl rfl)
  have hRet := getCorrespondence_eq (M := M) (N := N) c1
    (fun l' hr => by cases hr; exact c2.1.range)
  obtain ⟨k1, k2⟩ := clique_matching hA c2.1
  refine ⟨pg', _, _, hRet, by simp [firsts, seconds], k1, ⟨l, c2.1, k2⟩, ?_⟩
  intro ps hps hc
  obtain ⟨l', d1, d2, _⟩ := consistent_clique hR hps hc
  have := c2.2 l' d1
  simp only [firsts, List.length_map]
  omega

/-! ## C52 -/

section
variable {D : Type} [LinearOrder D] [Inhabited D]

/-- **C52** for distance metrics: `get_correspondence()` on a graph built by `build_edges` or
`build_edges_with_condition` returns a one-to-one correspondence that is at least as long as
every one-to-one correspondence in which each two pairs agree in distance and are accepted by
the condition function (always `true` if there is none). -/
theorem C52_largest {argLR : Bool} {cap : Nat}
    {srt1 srt2 : List (PairDist D) → List (PairDist D)} {w : Window D}
    {c : Nat → Nat → Nat → Nat → Bool}
    {d1 d2 : Nat → Nat → D} {sym1 sym2 : Bool} (hb : M * N < 2 ^ 27) (hs1 : Sorts srt1)
    (hs2 : Sorts srt2) (hlo : Monotone w.lo) (hsym1 : sym1 = true → ∀ i j, d1 i j = d1 j i)
    (hsym2 : sym2 = true → ∀ i j, d2 i j = d2 j i)
    (he : buildBoth argLR cap PyGraph.new srt1 srt2 M N w c d1 sym1 d2 sym2 = .ok pg)
    (h : Usable pg (M * N) S) (hu : M ≤ 65535 ∨ N ≤ 65535)
    {srt : List VData → List VData} (hsrt : ∀ l, (srt l).Perm l) :
    ∃ pg' f s, pg.getCorrespondence srt N {} = .ok (pg', .ret (f, s)) ∧
      f.length = s.length ∧ IsMatching M N (f.zip s) ∧
      ∀ ps, IsMatching M N ps →
        Consistent (fun i1 i2 j1 j2 => w.lo (d1 i1 i2) < d2 j1 j2 ∧ d2 j1 j2 < w.hi (d1 i1 i2) ∧
          c i1 i2 j1 j2 = true) ps →
        ps.length ≤ f.length := by
  obtain ⟨_, S', e1, e2⟩ := buildBoth_ok hb hs1 hs2 hlo he
  obtain ⟨_, rfl⟩ := h.loaded.unique e1
  have hA : Apart M N S := by
    intro u v ha
    obtain ⟨i1, i2, j1, j2, a, b, c, d, e, f, g, h, _⟩ := e2.apart u v ha
    exact ⟨i1, i2, j1, j2, a, b, c, d, e, f, g, h⟩
  obtain ⟨pg', f, s, r1, r2, r3, _, r4⟩ := largest_of (R := fun i1 i2 j1 j2 =>
      (w.lo (d1 i1 i2) < d2 j1 j2 ∧ d2 j1 j2 < w.hi (d1 i1 i2) ∧ c i1 i2 j1 j2 = true) ∧
        c i2 i1 j2 j1 = true) hA h hu
    (fun i1 i2 j1 j2 a b c' d e f hr =>
      e2.complete hsym1 hsym2 i1 i2 j1 j2 a b c' d e f hr.1.1 hr.1.2.1 hr.1.2.2 hr.2) hsrt
  exact ⟨pg', f, s, r1, r2, r3, fun ps hps hc => r4 ps hps fun p hp q hq hne =>
    ⟨hc p hp q hq hne, (hc q hq p hp hne.symm).2.2⟩⟩

end

/-- **C52** for distance metrics with integer values and a tolerance `ε`: the correspondence
returned has at least as many pairs as every one-to-one correspondence that changes no
distance by `ε` or more. -/
theorem C52_largest_exact {argLR : Bool} {cap : Nat}
    {srt1 srt2 : List (PairDist Int) → List (PairDist Int)} {ε : Int}
    {d1 d2 : Nat → Nat → Int} {sym1 sym2 : Bool} (hb : M * N < 2 ^ 27) (hs1 : Sorts srt1)
    (hs2 : Sorts srt2) (hsym1 : sym1 = true → ∀ i j, d1 i j = d1 j i)
    (hsym2 : sym2 = true → ∀ i j, d2 i j = d2 j i)
    (he : buildMetric argLR cap PyGraph.new srt1 srt2 M N (intWindow ε) d1 sym1 d2 sym2 = .ok pg)
    (h : Usable pg (M * N) S) (hu : M ≤ 65535 ∨ N ≤ 65535)
    {srt : List VData → List VData} (hsrt : ∀ l, (srt l).Perm l) :
    ∃ pg' f s, pg.getCorrespondence srt N {} = .ok (pg', .ret (f, s)) ∧
      f.length = s.length ∧ IsMatching M N (f.zip s) ∧
      ∀ ps, IsMatching M N ps →
        Consistent (fun i1 i2 j1 j2 => |d1 i1 i2 - d2 j1 j2| < ε) ps → ps.length ≤ f.length := by
  rw [buildMetric_eq] at he
  obtain ⟨pg', f, s, r1, r2, r3, r4⟩ := C52_largest hb hs1 hs2
    (by intro a b h; simp only [intWindow]; omega) hsym1 hsym2 he h hu hsrt
  refine ⟨pg', f, s, r1, r2, r3, fun ps hps hc => r4 ps hps fun p hp q hq hne => ?_⟩
  have := abs_lt.1 (hc p hp q hq hne)
  simp only [intWindow]
  exact ⟨by omega, by omega, trivial⟩

/-- **C52** for a condition function alone that accepts two pairs of elements whichever way
they are listed: the correspondence returned is itself consistent, and no consistent one
is longer. -/
theorem C52_condition {argLR : Bool} {cap : Nat} {c : Nat → Nat → Nat → Nat → Bool}
    (hb : M * N < 2 ^ 27)
    (hc1 : ∀ i1 i2 j1 j2, c i1 i2 j1 j2 = c i2 i1 j1 j2)
    (hc2 : ∀ i1 i2 j1 j2, c i1 i2 j1 j2 = c i1 i2 j2 j1)
    (he : buildCondition argLR cap PyGraph.new M N c = .ok pg)
    (h : Usable pg (M * N) S) (hu : M ≤ 65535 ∨ N ≤ 65535)
    {srt : List VData → List VData} (hsrt : ∀ l, (srt l).Perm l) :
    ∃ pg' f s, pg.getCorrespondence srt N {} = .ok (pg', .ret (f, s)) ∧
      f.length = s.length ∧ IsMatching M N (f.zip s) ∧
      Consistent (fun i1 i2 j1 j2 => c i1 i2 j1 j2 = true) (f.zip s) ∧
      ∀ ps, IsMatching M N ps → Consistent (fun i1 i2 j1 j2 => c i1 i2 j1 j2 = true) ps →
        ps.length ≤ f.length := by
  have key : ∀ i1 i2 j1 j2, c (min i1 i2) (max i1 i2) (min j1 j2) (max j1 j2) = c i1 i2 j1 j2 := by
    intro i1 i2 j1 j2
    rcases Nat.le_total i1 i2 with h | h <;> rcases Nat.le_total j1 j2 with h' | h' <;>
      simp only [Nat.min_eq_left, Nat.max_eq_right, Nat.min_eq_right, Nat.max_eq_left, h, h']
    · exact hc2 _ _ _ _
    · exact hc1 _ _ _ _
    · rw [hc1, hc2]
  obtain ⟨pg0, e1, e2⟩ := buildCondition_spec hb c argLR cap
  rw [he] at e1
  cases e1
  obtain ⟨_, rfl⟩ := h.loaded.unique e2
  obtain ⟨pg', f, s, r1, r2, r3, ⟨l, r5, r6⟩, r4⟩ :=
    largest_of (R := fun i1 i2 j1 j2 => c i1 i2 j1 j2 = true) corrGraph_apart h hu
    (fun i1 i2 j1 j2 a b c' d e f hr => by
      rw [corrGraph_adj a b c' d]
      exact ⟨e, f, Or.inl (by rw [key]; exact hr)⟩) hsrt
  refine ⟨pg', f, s, r1, r2, r3, ?_, r4⟩
  intro p hp q hq hne
  have rp := r3.range p hp
  have rq := r3.range q hq
  have mp : pairId N p.1 p.2 ∈ l := by rw [← r6]; exact List.mem_map.2 ⟨p, hp, rfl⟩
  have mq : pairId N q.1 q.2 ∈ l := by rw [← r6]; exact List.mem_map.2 ⟨q, hq, rfl⟩
  have ha := r5.clique mp mq (by
    intro he
    obtain ⟨a, b⟩ := pairId_inj rp.2 rq.2 he
    exact hne (Prod.ext a b))
  rw [corrGraph_adj rp.1 rq.1 rp.2 rq.2, key, key, hc1 q.1, hc2 _ _ q.2] at ha
  rcases ha.2.2 with h3 | h3 <;> exact h3

/-- The hypotheses are met: three points on a line have a correspondence of length three. -/
example : ∃ S, Usable line (3 * 3) S ∧
    IsMatching 3 3 [(0, 0), (1, 1), (2, 2)] ∧
    Consistent (fun i1 i2 j1 j2 => |onLine [0, 2, 5] i1 i2 - onLine [10, 12, 15] j1 j2| < 1)
      [(0, 0), (1, 1), (2, 2)] := by
  obtain ⟨S, h⟩ := line_usable
  refine ⟨S, h, ⟨by decide, by decide, by decide⟩, ?_⟩
  unfold Consistent
  decide

/-! ## C53 -/

/-- Cliques and correspondences listed for them have the same pairs. -/
theorem zip_perm_iff {l : List Nat} {ps : List (Nat × Nat)} (hps : IsMatching M N ps)
    (hl : IsCliqueList S (M * N) l) :
    ((firsts N l).zip (seconds N l)).Perm ps ↔
      ∀ v, v ∈ l ↔ ∃ p ∈ ps, v = pairId N p.1 p.2 := by
  have hnd : ps.Nodup := List.Nodup.of_map _ hps.first
  have key : ∀ p, p ∈ ps → ((pairId N p.1 p.2 - 1) / N, (pairId N p.1 p.2 - 1) % N) = p := by
    intro p hp
    have rp := hps.range p hp
    have hN : 0 < N := by omega
    have e1 : (pairId N p.1 p.2 - 1) = p.2 + N * p.1 := by unfold pairId; rw [Nat.mul_comm]; omega
    rw [e1, Nat.add_mul_div_left _ _ hN, Nat.div_eq_of_lt rp.2, Nat.add_mul_mod_self_left,
      Nat.mod_eq_of_lt rp.2, Nat.zero_add]
  have back : ∀ v ∈ l, pairId N ((v - 1) / N) ((v - 1) % N) = v := by
    intro v hv
    have := (hl.range v hv).1
    unfold pairId
    have := Nat.div_add_mod (v - 1) N
    rw [Nat.mul_comm] at this
    omega
  have hz' : (firsts N l).zip (seconds N l) = l.map fun v => ((v - 1) / N, (v - 1) % N) := by
    unfold firsts seconds
    rw [List.zip_map']
  rw [hz', List.perm_ext_iff_of_nodup ?_ hnd]
  · constructor
    · intro h v
      constructor
      · intro hv
        exact ⟨_, (h _).1 (List.mem_map.2 ⟨v, hv, rfl⟩), (back v hv).symm⟩
      · rintro ⟨p, hp, rfl⟩
        obtain ⟨w, hw, e⟩ := List.mem_map.1 ((h p).2 hp)
        rw [← e]
        simp only
        rw [back w hw]
        exact hw
    · intro h p
      rw [List.mem_map]
      constructor
      · rintro ⟨v, hv, rfl⟩
        obtain ⟨p, hp, rfl⟩ := (h v).1 hv
        rw [key p hp]; exact hp
      · intro hp
        exact ⟨_, (h _).2 ⟨p, hp, rfl⟩, key p hp⟩
  · refine List.Nodup.map_on ?_ (hl.increasing.imp fun h => Nat.ne_of_lt h)
    intro u hu v hv e
    rw [← back u hu, ← back v hv]
    simp only [Prod.mk.injEq] at e
    rw [e.1, e.2]

/-- **C53**, as far as it is true.  The full property: `all_correspondences(k)` yields every
one-to-one correspondence of `k` pairs that are joined.  Proved: which of them it yields.  After any
history of resets, complete iterations and searches that were not cut short these are, for
`k ≥ 1`, the single pairs, the correspondences that do not match element `0` of the first set with
element `0` of the second, and those in which another pair is joined with fewer pairs than this one;
each is listed in some order.  Missing, because false (`C53_refuted`): the others. -/
theorem C53_exactly_partial (h : Usable pg (M * N) S) {ops : List Op} (hl : ∀ op ∈ ops, op.Legal)
    (he : ∀ op ∈ ops, op.Exact S (M * N)) {k : Nat} (hk : 1 ≤ k) :
    ∃ (pg1 pg2 : PyGraph) (cs : List (List Nat × List Nat)), runs ops pg = .ok pg1 ∧
      pg1.listCorrespondences N k = .ok (pg2, cs.map .ret) ∧
      ∀ ps, IsMatching M N ps →
        Consistent (fun i1 i2 j1 j2 => S.Adj (pairId N i1 j1) (pairId N i2 j2)) ps →
        ps.length = k →
        ((∃ c ∈ cs, c.1.length = k ∧ c.2.length = k ∧ (c.1.zip c.2).Perm ps) ↔
          k = 1 ∨ (0, 0) ∉ ps ∨ ∃ p ∈ ps,
            degree S (M * N) (pairId N p.1 p.2) < degree S (M * N) (pairId N 0 0)) := by
  obtain ⟨pg1, pg2, cs, h1, h2, h3⟩ := C20_complete_partial h hl he hk
  obtain ⟨pg1', pg2', cs', h1', h2', _, h4⟩ := C19_sound h hl k
  rw [h1] at h1'
  cases h1'
  rw [h2] at h2'
  cases h2'
  have hC := listCorrespondences_eq (M := M) (N := N) h2 (fun c hc => (h4 c hc).1.range)
  refine ⟨pg1, pg2, cs.map fun c => (firsts N c, seconds N c), h1, ?_, ?_⟩
  · rw [hC, List.map_map]; rfl
  intro ps hps hc hlen
  have h0 : pairId N 0 0 = 1 := by simp [pairId]
  have one : ∀ l : List Nat, (∀ v, v ∈ l ↔ ∃ p ∈ ps, v = pairId N p.1 p.2) →
      (¬ First S (M * N) 1 l ↔ (0, 0) ∉ ps ∨ ∃ p ∈ ps,
        degree S (M * N) (pairId N p.1 p.2) < degree S (M * N) (pairId N 0 0)) := by
    intro l hl
    have h1l : 1 ∈ l ↔ (0, 0) ∈ ps := by
      rw [hl]
      constructor
      · rintro ⟨p, hp, e⟩
        have rp := hps.range p hp
        obtain ⟨a, b⟩ := pairId_inj rp.2 (by omega) (e.symm.trans h0.symm)
        rwa [show p = (0, 0) from Prod.ext a b] at hp
      · intro hp
        exact ⟨_, hp, h0.symm⟩
    unfold First
    rw [not_and_or, h1l, h0]
    refine or_congr_right ?_
    push Not
    constructor
    · rintro ⟨w, hw, hne, hd, hd'⟩
      obtain ⟨p, hp, rfl⟩ := (hl w).1 hw
      refine ⟨p, hp, lt_of_le_of_ne hd fun e => ?_⟩
      have := hd' e.symm
      unfold pairId at this hne
      omega
    · rintro ⟨p, hp, hd⟩
      refine ⟨_, (hl _).2 ⟨p, hp, rfl⟩, fun e => ?_, hd.le, fun e => ?_⟩
      · rw [e] at hd; exact lt_irrefl _ hd
      · rw [e] at hd; exact absurd hd (lt_irrefl _)
  obtain ⟨l, d1, d2, d3⟩ := consistent_clique (R := fun i1 i2 j1 j2 =>
    S.Adj (pairId N i1 j1) (pairId N i2 j2)) (fun _ _ _ _ _ _ _ _ _ _ hr => hr) hps hc
  constructor
  · rintro ⟨c, hcs, _, _, hperm⟩
    obtain ⟨l', hl', rfl⟩ := List.mem_map.1 hcs
    obtain ⟨g1, g2, g3⟩ := (h3 l').1 hl'
    have := (zip_perm_iff hps g1).1 hperm
    rcases Nat.lt_or_ge k 2 with h2 | h2
    · exact Or.inl (by omega)
    · exact Or.inr ((one l' this).1 (g3 h2))
  · intro hz
    have hmem : l ∈ cs := by
      refine (h3 l).2 ⟨d1, by omega, fun hk2 => (one l d3).2 ?_⟩
      rcases hz with hz | hz
      · omega
      · exact hz
    exact ⟨_, List.mem_map.2 ⟨l, hmem, rfl⟩, by simp [firsts]; omega, by simp [seconds]; omega,
      (zip_perm_iff hps d1).2 d3⟩

/-- Part of **C53** for a relation `R` that implies that pairs are joined, without reference to the
other pairs: every consistent correspondence that does not match element `0` of the first set with
element `0` of the second is listed, and so are all single pairs. -/
theorem C53_covers_partial {R : Nat → Nat → Nat → Nat → Prop} (h : Usable pg (M * N) S)
    (hR : ∀ i1 i2 j1 j2, i1 < M → i2 < M → j1 < N → j2 < N → i1 ≠ i2 → j1 ≠ j2 →
      R i1 i2 j1 j2 → S.Adj (pairId N i1 j1) (pairId N i2 j2))
    {ops : List Op} (hl : ∀ op ∈ ops, op.Legal) (he : ∀ op ∈ ops, op.Exact S (M * N))
    {k : Nat} (hk : 1 ≤ k) :
    ∃ (pg1 pg2 : PyGraph) (cs : List (List Nat × List Nat)), runs ops pg = .ok pg1 ∧
      pg1.listCorrespondences N k = .ok (pg2, cs.map .ret) ∧
      ∀ ps, IsMatching M N ps → Consistent R ps → ps.length = k → (k = 1 ∨ (0, 0) ∉ ps) →
        ∃ c ∈ cs, c.1.length = k ∧ c.2.length = k ∧ (c.1.zip c.2).Perm ps := by
  obtain ⟨pg1, pg2, cs, h1, h2, h3⟩ := C53_exactly_partial h hl he hk
  refine ⟨pg1, pg2, cs, h1, h2, fun ps hps hc hlen hz => ?_⟩
  refine (h3 ps hps (fun p hp q hq hne => ?_) hlen).2 (hz.imp_right Or.inl)
  have rp := hps.range p hp
  have rq := hps.range q hq
  refine hR _ _ _ _ rp.1 rq.1 rp.2 rq.2 (fun e => hne ?_) (fun e => hne ?_) (hc p hp q hq hne)
  · exact List.inj_on_of_nodup_map hps.first hp hq e
  · exact List.inj_on_of_nodup_map hps.second hp hq e

/-- **C53** fails for the correspondences that contain `(0, 0)`: the three points on a line
match in order, and iteration yields only the reversed correspondence, which is not
consistent. -/
theorem C53_refuted : ∃ S, Usable line (3 * 3) S ∧
    (∀ i1 i2 j1 j2, i1 < 3 → i2 < 3 → j1 < 3 → j2 < 3 → i1 ≠ i2 → j1 ≠ j2 →
      |onLine [0, 2, 5] i1 i2 - onLine [10, 12, 15] j1 j2| < 1 →
      S.Adj (pairId 3 i1 j1) (pairId 3 i2 j2)) ∧
    Consistent (fun i1 i2 j1 j2 => |onLine [0, 2, 5] i1 i2 - onLine [10, 12, 15] j1 j2| < 1)
      [(0, 0), (1, 1), (2, 2)] ∧
    (line.listCorrespondences 3 3 >>= fun x => .ok x.2) = .ok [.ret ([0, 1, 2], [2, 1, 0])] := by
  obtain ⟨S, h⟩ := line_usable
  obtain ⟨pg, S', e1, e2, e3⟩ := C29_exact (argLR := true) (cap := 400) (ε := 1) (M := 3) (N := 3)
    (by decide) (by decide) (by decide) (by decide) byDist_sorts byDist_sorts
    (sym1 := true) (sym2 := true)
    (fun _ => onLine_symm [0, 2, 5]) (fun _ => onLine_symm [10, 12, 15])
  rw [line_eq] at e1
  cases e1
  obtain ⟨_, rfl⟩ := h.loaded.unique e2
  refine ⟨S, h, e3, ?_, by decide +kernel⟩
  unfold Consistent
  decide

/-- What `C53_covers_partial` promises is not empty: of the twelve joined pairs of the sample
ten are listed, those without `(0, 0)`. -/
example : (line.listCorrespondences 3 2 >>= fun x => .ok x.2) =
    .ok [.ret ([0, 1], [1, 0]), .ret ([0, 1], [1, 2]), .ret ([0, 1], [2, 1]),
      .ret ([0, 2], [2, 0]), .ret ([1, 2], [0, 2]), .ret ([1, 2], [2, 0]), .ret ([1, 2], [1, 0]),
      .ret ([1, 2], [0, 1]), .ret ([1, 2], [2, 1]), .ret ([1, 2], [1, 2])] := by
  decide +kernel

end CM
