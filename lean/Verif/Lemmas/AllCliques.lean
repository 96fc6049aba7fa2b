import Verif.Lemmas.Consume
import Verif.Lemmas.Export

/-! # `all_cliques` in terms of the specified graph -/

namespace CM

open Spec Graph

/-- The length of a neighbour list is one more than the degree. -/
theorem spec_degree {n : Nat} {S : SimpleGraph Nat} {G : Graph} (hO : Of G n S) (w : Str G)
    {u : Nat} (hu : u ≤ n) : (G.V u).N = degree S n u + 1 := by
  classical
  have hnv := hO.nv
  have huv : u < G.nVert := by omega
  have himg : (Finset.range (G.V u).N).image (G.e u) =
      insert u ((Finset.Icc 1 n).filter fun v => S.Adj u v) := by
    ext x
    simp only [Finset.mem_image, Finset.mem_range, Finset.mem_insert, Finset.mem_filter,
      Finset.mem_Icc]
    constructor
    · rintro ⟨i, hi, rfl⟩
      rcases (hO.adj u _ hu).1 ⟨i, hi, rfl⟩ with h | h
      · exact Or.inl h
      · exact Or.inr ⟨(hO.rng _ _ h).2, h⟩
    · intro h
      have : G.nadj u x := by
        rw [hO.adj u x hu]
        rcases h with h | h
        · exact Or.inl h
        · exact Or.inr h.2
      exact this
  have hcard := congrArg Finset.card himg
  rw [Finset.card_image_of_injOn, Finset.card_range, Finset.card_insert_of_notMem] at hcard
  · rw [hcard]; unfold degree; congr!
  · simp
  · intro i hi j hj he
    simp only [Finset.coe_range, Set.mem_Iio] at hi hj
    rcases Nat.lt_trichotomy i j with h1 | h1 | h1
    · have := w.sorted u huv i j h1 hj; omega
    · exact h1
    · have := w.sorted u huv j i h1 hi; omega

theorem rooted_spec_first {n : Nat} {S : SimpleGraph Nat} {G : Graph} (hO : Of G n S) (w : Str G)
    {r : Nat} (hr : r < G.nVert) {C : Finset Nat} (h : Rooted G r C) :
    First S n r (G.listAt r C) := by
  have hnv := hO.nv
  refine ⟨root_mem w hr h.1, ?_⟩
  intro u hu hne
  have := rooted_first w hr h u hu hne
  obtain ⟨i, hi, hN, rfl⟩ := mem_listAt.1 hu
  have hlt := w.e_lt hr hN
  rw [spec_degree hO w (by omega), spec_degree hO w (u := G.e r i) (by omega)] at this
  omega

theorem First.unique {S : SimpleGraph Nat} {n u v : Nat} {l : List Nat} (h : First S n u l)
    (h' : First S n v l) : u = v := by
  by_contra hne
  have h1 := h.2 v h'.1 (fun e => hne e.symm)
  have h2 := h'.2 u h.1 hne
  omega

/-- The list of a rooted set determined by the clique it represents. -/
theorem listAt_eq {n : Nat} {S : SimpleGraph Nat} {G : Graph} (w : Str G) {l : List Nat}
    (hl : IsCliqueList S n l) {r : Nat} {T : Finset Nat} (hr : r < G.nVert)
    (hT : Rooted G r T) (hi : T.image (G.e r) = l.toFinset) : G.listAt r T = l := by
  apply sorted_ext (listAt_sorted w hr T) hl.increasing
  intro x
  rw [← List.mem_toFinset (l := l), ← hi, Finset.mem_image, mem_listAt]
  constructor
  · rintro ⟨i, h1, _, h2⟩; exact ⟨i, h1, h2⟩
  · rintro ⟨i, h1, h2⟩; exact ⟨i, h1, hT.1.2.1 i h1, h2⟩

/-- The result of iterating `all_cliques(k)`, `k ≥ 2`, to the end. -/
theorem allCliques_spec {pg : PyGraph} {n : Nat} {S : SimpleGraph Nat} {G : Graph}
    {b : Nat} (h : PyAt b pg n S G) {Q : Nat → Prop} {k : Nat} (hQ : Q k) (h2 : 2 ≤ k) {fuel : Nat}
    (hf : G.nVert * 2 ^ G.maxDeg < fuel) :
    ∃ (G' : Graph) (E' : Enum) (cs : List (List Nat)),
      pg.consume fuel (Enum.new k) = .ok ({ pg with G := some G' }, E', cs) ∧
      OkAt b G' ∧ CoreAt Q b G G' ∧ cs.Nodup ∧ E'.cur = G.nVert ∧
      (∀ l ∈ cs, IsCliqueList S n l ∧ l.length = k ∧ ¬ First S n 1 l) ∧
      (McsOk G → k ≤ G.limit → ∀ l, IsCliqueList S n l → l.length = k → ¬ First S n 1 l →
        l ∈ cs) := by
  have w := h.ok.wf.str
  have hO := h.of
  obtain ⟨G', E', ps, a1, a2, a3, a4, a6, a5⟩ := allCliques_run h hQ h2 hf
  refine ⟨G', E', _, a1, a2, a3, ?_, a6, ?_, ?_⟩
  · rw [List.nodup_map_iff_inj_on a4]
    rintro ⟨r, C⟩ hq ⟨r', C'⟩ hq' he
    obtain ⟨b1, b2, b3, b4, b5⟩ := (a5 r C).1 hq
    obtain ⟨c1, c2, c3, c4, c5⟩ := (a5 r' C').1 hq'
    obtain ⟨d1, d2⟩ := listAt_inj w b2 c2 b4 c4 he
    rw [d1, d2]
  · intro l hl
    obtain ⟨⟨r, C⟩, hq, rfl⟩ := List.mem_map.1 hl
    obtain ⟨b1, b2, b3, b4, b5⟩ := (a5 r C).1 hq
    refine ⟨listAt_clique hO w b2 (by omega) b4.1, ?_, ?_⟩
    · rw [listAt_length b4.1.2.1]; exact b5
    · intro hfst
      have := First.unique hfst (rooted_spec_first hO w b2 b4)
      omega
  · intro hm hlim l hl hlen hnf
    obtain ⟨r, T, b1, b2, b3, b4, b5⟩ := spec_rooted hO w hl (by rintro rfl; simp at hlen; omega)
    have he := listAt_eq w hl b2 b3 b5
    rw [List.mem_map]
    refine ⟨(r, T), (a5 r T).2 ⟨?_, b2, ?_, b3, by omega⟩, he⟩
    · have h1 := hl.range r b1
      have : r ≠ 1 := by
        rintro rfl
        apply hnf
        have := rooted_spec_first hO w b2 b3
        rwa [he] at this
      omega
    · have := hm r b2 T b3 (by omega)
      omega

/-! ## Single vertices -/

/-- Setting the stored clique of a vertex to the vertex itself. -/
theorem single_spec {Q : Nat → Prop} (hQ : Q 1) {b' : Nat} {G : Graph} (ok : OkAt b' G) {v : Nat} (hv : v < G.nVert) :
    ∃ eb, (do
        let V ← G.vtx v
        let b ← G.vbits V
        let eb ← b.clear G.eb 0
        b.set eb V.spos) = .ok eb ∧ OkAt b' { G with eb := eb } ∧ CoreAt Q b' G { G with eb := eb } ∧
      bset eb (G.vb v) = {(G.V v).spos} := by
  have w := ok.wf
  have hst := ok.bot
  obtain ⟨L, hL, har⟩ := ok.room
  have hE := w.eboEnd v hv
  have hN := N_pos w hv
  have hsp := w.spos v hv
  have hdl := @dlen_le (G.V v).N
  rw [vtx_ok w hv, ok_bind, vbits_ok w, ok_bind]
  obtain ⟨m1, wd, c1, c2, c3, c4, _, _, c5⟩ := (G.vb v).clear_spec G.eb 0
    (by simp only [vb]; omega)
  have hwd := c4 (Or.inl rfl)
  rw [c1, ok_bind]
  obtain ⟨m2, s1, s2, s3⟩ := (G.vb v).set_spec m1 (G.V v).spos
    (by have := div_lt_dlen hsp; simp only [vb]; omega)
  rw [s1]
  simp only [vb] at s3 c5 hwd
  rw [hwd] at c5
  have hb : ∀ a, bitAt m2 a = (decide (a = 64 * (G.V v).ebo + (G.V v).spos) ||
      (if 64 * (G.V v).ebo ≤ a ∧ a < 64 * ((G.V v).ebo + dlen (G.V v).N) then false
        else bitAt G.eb a)) := by
    intro a; rw [s3, c5]; rfl
  have hset : bset m2 (G.vb v) = {(G.V v).spos} := by
    ext i
    rw [mem_bset, Finset.mem_singleton]
    simp only [vb]
    constructor
    · rintro ⟨h1, h2⟩
      rw [hb, if_pos (by omega)] at h2
      simp at h2; exact h2
    · rintro rfl
      refine ⟨hsp, ?_⟩
      rw [hb]; simp
  have hother : ∀ a, ¬ (64 * (G.V v).ebo ≤ a ∧ a < 64 * ((G.V v).ebo + dlen (G.V v).N)) →
      bitAt m2 a = bitAt G.eb a := by
    intro a ha
    rw [hb, if_neg ha]
    have : ¬ (a = 64 * (G.V v).ebo + (G.V v).spos) := by omega
    simp [this]
  have U : EUpdK Q v b' G { G with eb := m2 } := by
    refine ⟨⟨Frame.mk' G m2 G.searchCur G.curMax G.curLoc (s2.trans c2), rfl, rfl, rfl, rfl,
      fun a _ hna => hother a hna, ?_, ?_⟩,
      Or.inr (by show Q (bset m2 (G.vb v)).card; rw [hset, Finset.card_singleton]; exact hQ)⟩
    · intro i h1 h2
      simp only [vb] at h1 h2 ⊢
      rw [hb, if_pos (by omega), Bool.or_false, decide_eq_false_iff_not]
      omega
    · show IsCl G v (bset m2 (G.vb v))
      rw [hset]
      refine ⟨by simp, ?_, ?_⟩
      · intro i hi; rw [Finset.mem_singleton] at hi; rw [hi]; exact hsp
      · intro i hi j hj
        rw [Finset.mem_singleton] at hi hj
        rw [hi, hj]; exact A_refl w hv hsp
  refine ⟨m2, rfl, ⟨U.frame.wf w, ok.cur, hst, ⟨L, hL, ?_⟩, ?_, ?_, ?_, ok.loc⟩,
    U.core w hv hst, hset⟩
  · show _ ≤ m2.length
    rw [s2, c2]; exact har
  · intro a ha
    show bitAt m2 a = false
    rw [hother a (by omega)]; exact ok.zero a ha
  · intro x hx; exact (U.mid ok hv x hx).1
  · intro x hx; exact (U.mid ok hv x hx).2

/-- One `__next__` for size one. -/
theorem next_one {Q : Nat → Prop} (hQ : Q 1) {b : Nat} {pg : PyGraph} {G : Graph} {E : Enum}
    (ok : OkAt b G) (hg : pg.G = some G)
    (hnv : G.nVert = pg.nvert + 1) (hk : E.required = 1) (hs : E.states = []) :
    (E.cur < G.nVert → ∃ G', pg.nextClique E =
        .ok ({ pg with G := some G' }, { E with cur := E.cur + 1 }, some [E.cur]) ∧
        OkAt b G' ∧ CoreAt Q b G G') ∧
    (E.cur = G.nVert → pg.nextClique E = .ok ({ pg with G := some G }, E, none)) := by
  constructor
  · intro hc
    obtain ⟨eb, a1, a2, a3, a4⟩ := single_spec hQ ok hc
    have w := ok.wf
    refine ⟨{ G with eb := eb }, ?_, a2, a3⟩
    unfold PyGraph.nextClique
    rw [hg]
    simp only
    have h1 : G.enumGraph E = .ok ({ G with eb := eb }, { E with cur := E.cur + 1 }, E.cur) := by
      unfold enumGraph
      rw [if_neg (by omega), if_pos ⟨hk, hc⟩]
      rw [vtx_ok w hc, ok_bind, vbits_ok w, ok_bind] at a1 ⊢
      rw [bind_eq_ok] at a1
      obtain ⟨m1, b1, b2⟩ := a1
      rw [b1, ok_bind, b2, ok_bind]
    rw [h1, ok_bind]
    simp only
    rw [if_neg (by omega)]
    rw [getClique_ok a2.wf a2.pad (show E.cur < ({ G with eb := eb } : Graph).nVert from hc),
      ok_bind, cliqueAt_listAt a3.frame]
    simp only
    have : G.listAt E.cur (bset eb (G.vb E.cur)) = [E.cur] := by
      apply sorted_ext (listAt_sorted w.str hc _) (by simp)
      intro x
      rw [mem_listAt, a4]
      simp only [Finset.mem_singleton, List.mem_singleton]
      constructor
      · rintro ⟨i, rfl, _, h⟩; rw [← h, w.self _ hc]
      · rintro rfl; exact ⟨_, rfl, w.spos _ hc, w.self _ hc⟩
    rw [this]
  · intro hc
    have w := ok.wf
    unfold PyGraph.nextClique
    rw [hg]
    simp only
    have hpos : 0 < (G.nVert + 2) * 2 ^ (G.maxDeg + 2) :=
      Nat.mul_pos (by omega) (Nat.pos_of_ne_zero (by simp))
    have h1 : G.enumGraph E = .ok (G, E, E.cur) := by
      unfold enumGraph
      rw [if_neg (by omega), if_neg (by omega)]
      obtain ⟨m, hm⟩ := Nat.exists_eq_succ_of_ne_zero (Nat.ne_of_gt hpos)
      have hb : enumBody (G, E) = .ok (.inr (G, E, E.cur)) := by
        unfold enumBody
        simp only
        rw [if_neg (by omega)]
      rw [hm]
      simp only [loop, hb]
    rw [h1, ok_bind]
    simp only
    rw [if_pos (by omega)]

/-- Iterating over the single vertices. -/
theorem consume_one {Q : Nat → Prop} (hQ : Q 1) {b : Nat} : ∀ (d : Nat) {fuel : Nat}
    {pg : PyGraph} {G : Graph} {E : Enum}, OkAt b G →
    pg.G = some G → G.nVert = pg.nvert + 1 → E.required = 1 → E.states = [] →
    E.cur + d = G.nVert → d < fuel →
    ∃ G' E', pg.consume fuel E =
        .ok ({ pg with G := some G' }, E', (List.range' E.cur d).map fun v => [v]) ∧
      OkAt b G' ∧ CoreAt Q b G G' ∧ E'.cur = G.nVert := by
  intro d
  induction d with
  | zero =>
    intro fuel pg G E ok hg hnv hk hs hd hf
    obtain ⟨f, rfl⟩ := Nat.exists_eq_succ_of_ne_zero (Nat.ne_of_gt hf)
    unfold PyGraph.consume
    rw [(next_one hQ ok hg hnv hk hs).2 (by omega), ok_bind]
    exact ⟨G, E, rfl, ok, CoreAt.refl _ _ _, by omega⟩
  | succ d ih =>
    intro fuel pg G E ok hg hnv hk hs hd hf
    obtain ⟨f, rfl⟩ := Nat.exists_eq_succ_of_ne_zero (show fuel ≠ 0 by omega)
    unfold PyGraph.consume
    obtain ⟨G1, a1, a2, a3⟩ := (next_one hQ ok hg hnv hk hs).1 (by omega)
    rw [a1, ok_bind]
    simp only
    obtain ⟨G2, E2, b1, b2, b3, b4⟩ := ih (fuel := f) (pg := { pg with G := some G1 })
      (E := { E with cur := E.cur + 1 }) a2 rfl (by rw [a3.frame.nVert]; exact hnv) hk hs
      (by rw [a3.frame.nVert]; simp only; omega) (by omega)
    rw [b1, ok_bind]
    exact ⟨G2, E2, by simp [List.range'_succ], b2, a3.trans (Nat.le_refl _) b3, by rw [b4, a3.frame.nVert]⟩

/-- `list(all_cliques(1))`. -/
theorem allCliques_one {Q : Nat → Prop} (hQ : Q 1) {pg : PyGraph} {n : Nat} {S : SimpleGraph Nat} {G : Graph}
    {b : Nat} (h : PyAt b pg n S G) {fuel : Nat} (hf : n < fuel) :
    ∃ G' E', pg.consume fuel (Enum.new 1) =
        .ok ({ pg with G := some G' }, E', (List.range' 1 n).map fun v => [v]) ∧
      OkAt b G' ∧ CoreAt Q b G G' ∧ E'.cur = G.nVert := by
  have hnv := h.of.nv
  exact consume_one hQ n h.ok h.g (by rw [hnv, h.nv]) rfl rfl
    (by rw [hnv]; simp only [Enum.new]; omega) hf

/-- `list(all_cliques(0))`: nothing. -/
theorem allCliques_zero {pg : PyGraph} {n : Nat} {S : SimpleGraph Nat} {G : Graph}
    {b : Nat} (h : PyAt b pg n S G) {fuel : Nat} (hf : 0 < fuel) :
    ∃ E', pg.consume fuel (Enum.new 0) = .ok (pg, E', []) ∧ E'.cur = G.nVert := by
  have hnv := h.of.nv
  have hv := h.nv
  obtain ⟨f, rfl⟩ := Nat.exists_eq_succ_of_ne_zero (Nat.ne_of_gt hf)
  have : pg = { pg with G := some G } := by rw [← h.g]
  refine ⟨{ Enum.new 0 with cur := G.nVert }, ?_, rfl⟩
  unfold PyGraph.consume PyGraph.nextClique
  rw [h.g]
  simp only [enumGraph, Enum.new, if_true, ok_bind]
  rw [if_pos (by omega), ok_bind]
  simp only [← this]

/-- Once past the last vertex, an iterator answers `StopIteration` and changes nothing. -/
theorem next_end {pg : PyGraph} {G : Graph} {E : Enum} (hg : pg.G = some G)
    (hnv : G.nVert = pg.nvert + 1) (hc : E.cur = G.nVert) :
    pg.nextClique E = .ok (pg, E, none) := by
  have hpg : pg = { pg with G := some G } := by rw [← hg]
  have hpos : 0 < (G.nVert + 2) * 2 ^ (G.maxDeg + 2) :=
    Nat.mul_pos (by omega) (Nat.pos_of_ne_zero (by simp))
  have h1 : G.enumGraph E = .ok (G, E, G.nVert) := by
    unfold enumGraph
    by_cases h0 : E.required = 0
    · rw [if_pos h0, ← hc]
    · rw [if_neg h0, if_neg (by omega)]
      obtain ⟨m, hm⟩ := Nat.exists_eq_succ_of_ne_zero (Nat.ne_of_gt hpos)
      have hb : enumBody (G, E) = .ok (.inr (G, E, E.cur)) := by
        unfold enumBody
        simp only
        rw [if_neg (by omega)]
      rw [hm]
      simp only [loop, hb, hc]
  unfold PyGraph.nextClique
  rw [hg]
  simp only
  rw [h1, ok_bind]
  simp only
  rw [if_pos (by omega), ← hpg]

/-- The answers to any number of `__next__` calls, given those until the first
`StopIteration`. -/
theorem nexts_of_consume : ∀ (fuel : Nat) {pg pg' : PyGraph} {E E' : Enum} {cs : List (List Nat)},
    pg.consume fuel E = .ok (pg', E', cs) → pg'.nextClique E' = .ok (pg', E', none) →
    ∀ m, ∃ pg'' E'', PyGraph.nexts m pg E =
      .ok (pg'', E'', (cs.map some ++ List.replicate m none).take m) := by
  intro fuel
  induction fuel with
  | zero => intro pg pg' E E' cs h; simp [PyGraph.consume] at h
  | succ f ih =>
    intro pg pg' E E' cs h hend m
    cases m with
    | zero => exact ⟨pg, E, rfl⟩
    | succ m =>
      unfold PyGraph.consume at h
      rw [bind_eq_ok] at h
      obtain ⟨⟨p1, E1, c⟩, h1, h2⟩ := h
      unfold PyGraph.nexts
      rw [h1, ok_bind]
      cases c with
      | none =>
        simp only at h2 ⊢
        injection h2 with h2
        simp only [Prod.mk.injEq] at h2
        obtain ⟨rfl, rfl, rfl⟩ := h2
        have stay : ∀ m, PyGraph.nexts m p1 E1 = .ok (p1, E1, List.replicate m none) := by
          intro m
          induction m with
          | zero => rfl
          | succ m ihm =>
            unfold PyGraph.nexts
            rw [hend, ok_bind]
            simp only
            rw [ihm, ok_bind]
            rfl
        rw [stay, ok_bind]
        refine ⟨p1, E1, ?_⟩
        simp [List.replicate_succ]
      | some c =>
        simp only at h2 ⊢
        rw [bind_eq_ok] at h2
        obtain ⟨⟨p2, E2, cs'⟩, h3, h4⟩ := h2
        injection h4 with h4
        simp only [Prod.mk.injEq] at h4
        obtain ⟨rfl, rfl, rfl⟩ := h4
        obtain ⟨pg'', E'', h5⟩ := ih h3 hend m
        rw [h5, ok_bind]
        refine ⟨pg'', E'', ?_⟩
        simp only [List.map_cons, List.cons_append, List.take_succ_cons, Except.ok.injEq,
          Prod.mk.injEq, true_and, List.cons.injEq]
        rw [List.take_append, List.take_append]
        congr 1
        rw [List.take_replicate, List.take_replicate]
        congr 1
        omega

end CM
