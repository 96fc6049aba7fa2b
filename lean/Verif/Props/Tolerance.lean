import Verif.Lemmas.Tolerance
import Verif.Props.Mirror

/-!
# Properties: a larger tolerance

A user who raises the tolerance, or weakens the condition, asks for more: no edge is lost, and no
answer gets shorter.
-/

namespace CM

open Spec Graph Sample

variable {M N : Nat} {S S' : SimpleGraph Nat} {pg pg' : PyGraph}

/-- The longest correspondence of a graph is not longer than that of a graph with more edges. -/
theorem more_le (hA : Apart M N S) (hA' : Apart M N S') (h : Usable pg (M * N) S)
    (h' : Usable pg' (M * N) S') (hu : M ≤ 65535 ∨ N ≤ 65535) (hm : S ≤ S')
    {srt srt' : List VData → List VData} (hsrt : ∀ l, (srt l).Perm l)
    (hsrt' : ∀ l, (srt' l).Perm l) :
    ∃ q q' f s f' s', pg.getCorrespondence srt N {} = .ok (q, .ret (f, s)) ∧
      pg'.getCorrespondence srt' N {} = .ok (q', .ret (f', s')) ∧ f.length ≤ f'.length := by
  obtain ⟨q, f, s, h1, h2, h3, ⟨l, h4, h5⟩, _⟩ := largest_of (R := fun _ _ _ _ => False) hA h hu
    (fun _ _ _ _ _ _ _ _ _ _ h => h.elim) hsrt
  obtain ⟨q', f', s', g1, _, _, _, g6⟩ := largest_of (R := fun i1 i2 j1 j2 =>
    S'.Adj (pairId N i1 j1) (pairId N i2 j2)) hA' h' hu
    (fun _ _ _ _ _ _ _ _ _ _ h => h) hsrt'
  refine ⟨q, q', f, s, f', s', h1, g1, ?_⟩
  have := g6 _ h3 (by
    intro p kp q kq hne
    have hpr := h3.range p kp
    have hqr := h3.range q kq
    have mp : pairId N p.1 p.2 ∈ l := by rw [← h5]; exact List.mem_map.2 ⟨p, kp, rfl⟩
    have mq : pairId N q.1 q.2 ∈ l := by rw [← h5]; exact List.mem_map.2 ⟨q, kq, rfl⟩
    refine hm (h4.clique mp mq ?_)
    intro he
    obtain ⟨a, b⟩ := pairId_inj hpr.2 hqr.2 he
    exact hne (Prod.ext a b))
  rw [List.length_zip, ← h2, Nat.min_self] at this
  exact this

section
variable {D : Type} [LinearOrder D] [Inhabited D]
  {srt1 srt2 : List (PairDist D) → List (PairDist D)} {w w' : Window D}
  {c c' : Nat → Nat → Nat → Nat → Bool} {d1 d2 : Nat → Nat → D} {sym1 sym2 : Bool}

/-- **C114**, the graphs of `build_edges_with_condition`: if every interval of accepted distances
lies in the one of the second call, and the second condition accepts what the first does, then the
second graph has all the edges of the first. -/
theorem C114_graph {argLR argLR' : Bool} {cap cap' : Nat} (hb : M * N < 2 ^ 27)
    (hs1 : Sorts srt1) (hs2 : Sorts srt2) (hm : Monotone w.lo) (hm' : Monotone w'.lo)
    (hlo : ∀ v, w'.lo v ≤ w.lo v) (hhi : ∀ v, w.hi v ≤ w'.hi v)
    (hc : ∀ i1 i2 j1 j2, c i1 i2 j1 j2 = true → c' i1 i2 j1 j2 = true)
    (he : buildBoth argLR cap PyGraph.new srt1 srt2 M N w c d1 sym1 d2 sym2 = .ok pg) :
    ∃ pg' S S', buildBoth argLR' cap' PyGraph.new srt1 srt2 M N w' c' d1 sym1 d2 sym2 = .ok pg' ∧
      Loaded pg (M * N) S ∧ Loaded pg' (M * N) S' ∧ ∀ u v, S.Adj u v → S'.Adj u v := by
  obtain ⟨⟨h1, h2, h3⟩, _⟩ := buildBoth_ok hb hs1 hs2 hm he
  obtain ⟨p, p', S, S', a1, a2, a3, a4, a5⟩ := buildBoth_mono (argLR := argLR) (argLR' := argLR')
    (cap := cap) (cap' := cap') (d1 := d1) (d2 := d2) (sym1 := sym1) (sym2 := sym2) h1 h2 h3 hb hs1
    hs2 hm hm' hlo hhi hc
  rw [he] at a1
  cases a1
  exact ⟨p', S, S', a2, a3, a4, fun u v h => a5 h⟩

/-- **C114**, the answers of `build_edges_with_condition`. -/
theorem C114_both {argLR argLR' : Bool} {cap cap' : Nat} (hb : M * N < 2 ^ 27)
    (hs1 : Sorts srt1) (hs2 : Sorts srt2) (hm : Monotone w.lo) (hm' : Monotone w'.lo)
    (hlo : ∀ v, w'.lo v ≤ w.lo v) (hhi : ∀ v, w.hi v ≤ w'.hi v)
    (hc : ∀ i1 i2 j1 j2, c i1 i2 j1 j2 = true → c' i1 i2 j1 j2 = true)
    (he : buildBoth argLR cap PyGraph.new srt1 srt2 M N w c d1 sym1 d2 sym2 = .ok pg)
    (he' : buildBoth argLR' cap' PyGraph.new srt1 srt2 M N w' c' d1 sym1 d2 sym2 = .ok pg')
    (h : Usable pg (M * N) S) (h' : Usable pg' (M * N) S') (hu : M ≤ 65535 ∨ N ≤ 65535)
    {srt srt' : List VData → List VData} (hsrt : ∀ l, (srt l).Perm l)
    (hsrt' : ∀ l, (srt' l).Perm l) :
    ∃ q q' f s f' s', pg.getCorrespondence srt N {} = .ok (q, .ret (f, s)) ∧
      pg'.getCorrespondence srt' N {} = .ok (q', .ret (f', s')) ∧ f.length ≤ f'.length := by
  obtain ⟨p', T, T', a1, a2, a3, a4⟩ := C114_graph (argLR' := argLR') (cap' := cap') hb hs1 hs2 hm
    hm' hlo hhi hc he
  rw [he'] at a1
  cases a1
  obtain ⟨_, rfl⟩ := h.loaded.unique a2
  obtain ⟨_, rfl⟩ := h'.loaded.unique a3
  have hap : ∀ {al : Bool} {cp : Nat} {w : Window D} {c : Nat → Nat → Nat → Nat → Bool}
      {p : PyGraph} {T : SimpleGraph Nat}, Monotone w.lo →
      buildBoth al cp PyGraph.new srt1 srt2 M N w c d1 sym1 d2 sym2 = .ok p →
      Loaded p (M * N) T → Apart M N T := by
    intro al cp w c p T hm he hT
    obtain ⟨_, U, e1, e2⟩ := buildBoth_ok hb hs1 hs2 hm he
    obtain ⟨_, rfl⟩ := hT.unique e1
    intro u v ha
    obtain ⟨i1, i2, j1, j2, a, b, c, d, e, f, g, h, _⟩ := e2.apart u v ha
    exact ⟨i1, i2, j1, j2, a, b, c, d, e, f, g, h⟩
  exact more_le (hap hm he a2) (hap hm' he' a3) h h' hu (fun u v => a4 u v) hsrt hsrt'

end

/-- **C114** for `build_edges` with integer distances: with a larger `epsilon`, `get_correspondence()`
does not match fewer elements. -/
theorem C114_epsilon {argLR argLR' : Bool} {cap cap' : Nat}
    {srt1 srt2 : List (PairDist Int) → List (PairDist Int)} {ε ε' : Int} (hε : ε ≤ ε')
    {d1 d2 : Nat → Nat → Int} {sym1 sym2 : Bool} (hb : M * N < 2 ^ 27) (hs1 : Sorts srt1)
    (hs2 : Sorts srt2)
    (he : buildMetric argLR cap PyGraph.new srt1 srt2 M N (intWindow ε) d1 sym1 d2 sym2 = .ok pg)
    (he' : buildMetric argLR' cap' PyGraph.new srt1 srt2 M N (intWindow ε') d1 sym1 d2 sym2 =
      .ok pg')
    (h : Usable pg (M * N) S) (h' : Usable pg' (M * N) S') (hu : M ≤ 65535 ∨ N ≤ 65535)
    {srt srt' : List VData → List VData} (hsrt : ∀ l, (srt l).Perm l)
    (hsrt' : ∀ l, (srt' l).Perm l) :
    ∃ q q' f s f' s', pg.getCorrespondence srt N {} = .ok (q, .ret (f, s)) ∧
      pg'.getCorrespondence srt' N {} = .ok (q', .ret (f', s')) ∧ f.length ≤ f'.length := by
  rw [buildMetric_eq] at he he'
  exact C114_both hb hs1 hs2 (by intro a b h; simp only [intWindow]; omega)
    (by intro a b h; simp only [intWindow]; omega) (fun v => by simp only [intWindow]; omega)
    (fun v => by simp only [intWindow]; omega) (fun _ _ _ _ h => h) he he' h h' hu hsrt hsrt'

/-- **C114** for `build_edges_condition_only`: a condition that accepts more loses no edge, and no
element of the answer. -/
theorem C114_condition {argLR argLR' : Bool} {cap cap' : Nat}
    {c c' : Nat → Nat → Nat → Nat → Bool} (hb : M * N < 2 ^ 27)
    (hc : ∀ i1 i2 j1 j2, c i1 i2 j1 j2 = true → c' i1 i2 j1 j2 = true)
    (he : buildCondition argLR cap PyGraph.new M N c = .ok pg)
    (he' : buildCondition argLR' cap' PyGraph.new M N c' = .ok pg')
    (h : Usable pg (M * N) S) (h' : Usable pg' (M * N) S') (hu : M ≤ 65535 ∨ N ≤ 65535)
    {srt srt' : List VData → List VData} (hsrt : ∀ l, (srt l).Perm l)
    (hsrt' : ∀ l, (srt' l).Perm l) :
    (∀ u v, S.Adj u v → S'.Adj u v) ∧
    ∃ q q' f s f' s', pg.getCorrespondence srt N {} = .ok (q, .ret (f, s)) ∧
      pg'.getCorrespondence srt' N {} = .ok (q', .ret (f', s')) ∧ f.length ≤ f'.length := by
  obtain ⟨_, e1, e2⟩ := buildCondition_spec hb c argLR cap
  rw [he] at e1
  cases e1
  obtain ⟨_, e1', e2'⟩ := buildCondition_spec hb c' argLR' cap'
  rw [he'] at e1'
  cases e1'
  obtain ⟨_, rfl⟩ := h.loaded.unique e2
  obtain ⟨_, rfl⟩ := h'.loaded.unique e2'
  have hm : ∀ u v, (corrGraph M N fun i1 i2 j1 j2 =>
        c (min i1 i2) (max i1 i2) (min j1 j2) (max j1 j2) = true).Adj u v →
      (corrGraph M N fun i1 i2 j1 j2 =>
        c' (min i1 i2) (max i1 i2) (min j1 j2) (max j1 j2) = true).Adj u v := by
    rintro u v ⟨i1, i2, j1, j2, a, b, x, d, e, f, g, h, r⟩
    exact ⟨i1, i2, j1, j2, a, b, x, d, e, f, g, h, r.imp (hc _ _ _ _) (hc _ _ _ _)⟩
  exact ⟨hm, more_le corrGraph_apart corrGraph_apart h h' hu (fun u v => hm u v) hsrt hsrt'⟩

/-! ## Examples -/

namespace Sample

/-- A condition stronger than `grows`. -/
def growsLow (i1 i2 j1 j2 : Nat) : Bool := grows i1 i2 j1 j2 && decide (j2 ≤ 1)

/-- The points 0, 2, 5, 9 and 0, 2, 6, 20 of a line, and a tolerance. -/
def tol (ε : Int) : PyGraph :=
  get PyGraph.new (buildMetric true 400 PyGraph.new byDist byDist 4 4 (intWindow ε)
    (onLine [0, 2, 5, 9]) true (onLine [0, 2, 6, 20]) true)

theorem tol_usable {ε : Int} (h0 : 0 < ε)
    (he : buildMetric true 400 PyGraph.new byDist byDist 4 4 (intWindow ε) (onLine [0, 2, 5, 9]) true
      (onLine [0, 2, 6, 20]) true = .ok (tol ε))
    (hd : ((tol ε).G.map fun G => G.dangling) = some false) : ∃ S, Usable (tol ε) (4 * 4) S := by
  obtain ⟨pg, S, e1, e2, e3⟩ := C29_exact (argLR := true) (cap := 400) (ε := ε) (M := 4) (N := 4)
    (by decide) (by decide) (by decide) (by decide) byDist_sorts byDist_sorts
    (sym1 := true) (sym2 := true)
    (fun _ => onLine_symm [0, 2, 5, 9]) (fun _ => onLine_symm [0, 2, 6, 20])
  rw [he] at e1
  cases e1
  refine ⟨S, e2, ?_, _, _, e3 0 1 0 1 (by decide) (by decide) (by decide) (by decide) (by decide)
    (by decide) ?_⟩
  · intro G hG
    rw [hG] at hd
    simpa using hd
  · have : |onLine [0, 2, 5, 9] 0 1 - onLine [0, 2, 6, 20] 0 1| = 0 := by decide
    rw [this]
    exact h0

end Sample

/-- The hypotheses of `C114_epsilon` are met, with a tolerance of 1 and one of 11, and the second
answer is longer. -/
example : (∃ S S', Usable (tol 1) (4 * 4) S ∧ Usable (tol 11) (4 * 4) S') ∧
    ((tol 1).getCorrespondence byDegree 4 {} >>= fun x => .ok x.2) =
      .ok (.ret ([0, 1, 2], [0, 1, 2])) ∧
    ((tol 11).getCorrespondence byDegree 4 {} >>= fun x => .ok x.2) =
      .ok (.ret ([0, 1, 2, 3], [0, 1, 2, 3])) := by
  obtain ⟨S, h⟩ := tol_usable (ε := 1) (by decide) (by decide +kernel) (by decide +kernel)
  obtain ⟨S', h'⟩ := tol_usable (ε := 11) (by decide) (by decide +kernel) (by decide +kernel)
  refine ⟨⟨S, S', h, h'⟩, ?_, ?_⟩
  · decide +kernel
  · decide +kernel

/-- The hypotheses of `C114_condition` are met. -/
example : (∀ i1 i2 j1 j2, growsLow i1 i2 j1 j2 = true → grows i1 i2 j1 j2 = true) ∧
    ∃ S S', Usable (growing 2 3 growsLow) (2 * 3) S ∧ Usable (growing 2 3 grows) (2 * 3) S' := by
  have h := growing_usable (M := 2) (N := 3) (c := growsLow) (by decide) (by decide +kernel)
    (by decide +kernel) (by decide) (by decide) (by decide)
  have h' := growing_usable (M := 2) (N := 3) (c := grows) (by decide) (by decide +kernel)
    (by decide +kernel) (by decide) (by decide) (by decide)
  constructor
  · intro i1 i2 j1 j2 h
    unfold growsLow at h
    rw [Bool.and_eq_true] at h
    exact h.1
  · exact h.elim fun S h => h'.elim fun S' h' => ⟨S, S', h, h'⟩

end CM
