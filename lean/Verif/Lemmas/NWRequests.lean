import Verif.Lemmas.Requests
import Verif.Lemmas.NWHeapUse
import Verif.Lemmas.NWHeapEnum

/-! # How many requests for memory a weighted search and a weighted iterator make -/

namespace CM

open Spec

namespace NWG

variable {R : Type} [Zero R] [Add R] [Sub R] [NatCast R] [LT R] [LE R] [DecidableLT R]
  [DecidableLE R]

namespace AW

open Graph

variable {grow : Nat → Nat} {pg : PyNW R} {n : Nat} {S : SimpleGraph Nat} {ω : Nat → R} {H : NWG R}

theorem stackReserve_new {k : Nat} (hm : H.g.maxDeg ≠ 0) (hl : 0 < H.g.limit) :
    ∃ q, H.stackReserve (some (k + 3)) = some q ∧ q.heap = some k := by
  unfold stackReserve
  rw [show k + 3 = (k + 1) + 2 by omega, reserve_new hl]
  dsimp only
  rw [if_neg hm]
  exact ⟨_, rfl, rfl⟩

theorem stackReserve_less {k : Nat} (hm : H.g.maxDeg ≠ 0) (hl : 0 < H.g.limit) (hk : k < 3) :
    H.stackReserve (some k) = none := by
  unfold stackReserve
  by_cases h2 : k < 2
  · obtain ⟨q, e⟩ := reserve_less hl h2
    rw [e]
  · have : k = 0 + 2 := by omega
    rw [this, reserve_new hl]
    dsimp only
    rw [if_neg hm]
    rfl

/-- The search proper: `c` requests. -/
theorem findMaxA_count {srt : List (WData R) → List (WData R)} (hsrt : ∀ l, (srt l).Perm l)
    (junk : Nat → R) {b : Nat} {H : NWG R} (h : WOkAt b H) (hL : Lim H.g) (hC : Calm H)
    (hm : H.g.maxDeg ≠ 0) (hl : 0 < H.g.limit) (sv : Nat) (heur dfs : Bool) {c : Nat}
    (hc : c = (if heur then 1 else 0) + (if dfs then 3 else 0)) (k : Nat) :
    (k < c → ∃ H', H.findMaxCliquesA grow srt junk sv heur dfs (some k) = .ok (H', none)) ∧
    ∃ H' i, H.findMaxCliques srt junk sv heur dfs = .ok (H', i) ∧
      H.findMaxCliquesA grow srt junk sv heur dfs (some (k + c)) = .ok (H', some (i, some k)) := by
  have hstack : ∀ {X : NWG R}, WOkAt b X → Lim X.g → Calm X → X.g.maxDeg ≠ 0 → 0 < X.g.limit →
      (∀ k, k < 3 → X.stackGraphA grow junk (some k) = .ok (X, none)) ∧
      ∃ X' i, X.stackGraph junk = .ok (X', i) ∧
        ∀ k, X.stackGraphA grow junk (some (k + 3)) = .ok (X', some (i, some k)) := by
    intro X o1 o2 o3 o4 o5
    refine ⟨fun k hk => ?_, ?_⟩
    · unfold stackGraphA
      rw [stackReserve_less o4 o5 hk]
    · obtain ⟨X', b1, _⟩ := stackGraph_at o1 junk
      refine ⟨X', _, b1, fun k => ?_⟩
      obtain ⟨q, e1, e2⟩ := stackReserve_new (k := k) o4 o5
      rw [stackGraphA_run o1 o2 o3 junk e1 b1, e2]
  obtain ⟨H1, h1, h2, h3, h4⟩ := heurGraph_at hsrt h
  have F := h3.frame
  have hm1 : H1.g.maxDeg ≠ 0 := by rw [F.frame.maxDeg]; exact hm
  have hl1 : 0 < H1.g.limit := by rw [F.depth]; exact hl
  have hh0 : H.heurGraphA srt (some 0) = .ok (H, none) := by
    unfold heurGraphA
    rw [if_neg hm]
    rfl
  have hh : ∀ k, H.heurGraphA srt (some (k + 1)) = .ok (H1, some (some k)) := by
    intro k
    unfold heurGraphA
    rw [if_neg hm]
    dsimp only [Heap.request]
    rw [h1]
    rfl
  unfold findMaxCliquesA findMaxCliques
  subst hc
  cases heur with
  | false =>
    simp only [Bool.false_eq_true, if_false, Nat.zero_add]
    cases dfs with
    | false => exact ⟨fun hk => by simp at hk, H, sv, rfl, rfl⟩
    | true =>
      obtain ⟨s1, X', i, s2, s3⟩ := hstack h hL hC hm hl
      simp only [if_true]
      exact ⟨fun hk => ⟨H, s1 k hk⟩, X', i, s2, s3 k⟩
  | true =>
    simp only [if_true]
    rw [h1]
    simp only [ok_bind]
    cases dfs with
    | false =>
      simp only [Bool.false_eq_true, if_false, Nat.add_zero]
      refine ⟨fun hk => ?_, H1, sv, rfl, ?_⟩
      · have : k = 0 := by omega
        subst this
        rw [hh0]
        exact ⟨H, rfl⟩
      · rw [hh]
        rfl
    | true =>
      obtain ⟨s1, X', i, s2, s3⟩ := hstack h2 (lim_wframe hL F) (hC.frame F) hm1 hl1
      simp only [if_true]
      refine ⟨fun hk => ?_, X', i, s2, ?_⟩
      · cases k with
        | zero => rw [hh0]; exact ⟨H, rfl⟩
        | succ k => rw [hh]; exact ⟨H1, s1 k (by omega)⟩
      · rw [show k + (1 + 3) = (k + 3) + 1 by omega, hh]
        exact s3 k

/-- One search. -/
theorem wgetMaxCliqueA_count (h : WPyOk pg n S ω H) (hL : Lim H.g) (hC : Calm H)
    (hm : H.g.maxDeg ≠ 0) {srt : List (WData R) → List (WData R)} (hsrt : ∀ l, (srt l).Perm l)
    (junk : Nat → R) (a : PyNW.Args R) (k : Nat) :
    (k < a.requests →
      ∃ pg', pg.getMaxCliqueA grow srt junk (some k) a = .ok (pg', .noMemory)) ∧
    (a.requests ≤ k → ∃ pg' r, pg.getMaxClique srt junk a = .ok (pg', r) ∧
      pg.getMaxCliqueA grow srt junk (some k) a = .ok (pg', .of r)) := by
  have hl : PyNW.checkLoaded { pg with currentVertex := 0 } = some H := h.loaded
  have F := wbounded_frame H a
  have hLb := lim_wframe hL F
  have hlim : 0 < (wbounded H a).g.limit := by
    have := hLb 0 (by rw [F.frame.nVert, h.of.nv]; omega)
    omega
  obtain ⟨c, hc⟩ : ∃ c, c = (if a.useHeuristic = true then 1 else 0) +
      (if a.useDfs = true then 3 else 0) := ⟨_, rfl⟩
  have hreq : a.requests = c + 2 := by
    rw [hc]
    rfl
  have hm' : (wbounded H a).g.maxDeg ≠ 0 := hm
  have hcnt := fun k => findMaxA_count (grow := grow) hsrt junk (wbounded_at h.ok.at a) hLb
    (hC.frame F) hm' hlim 0 a.useHeuristic a.useDfs hc k
  rw [hreq]
  have hgo : ∀ j, ∃ pg' r, pg.getMaxClique srt junk a = .ok (pg', r) ∧
      pg.getMaxCliqueA grow srt junk (some (j + c)) a =
        .ok (pg', if j < 2 then .noMemory else .of r) := by
    intro j
    obtain ⟨_, H', i, e1, e2⟩ := hcnt j
    obtain ⟨ans, w, f2, f3, f1⟩ := wgetMaxClique_of h hsrt junk a e1
    refine ⟨_, _, f1, ?_⟩
    unfold PyNW.getMaxCliqueA
    dsimp only
    rw [hl]
    dsimp only
    unfold wbounded at e2
    rw [e2]
    dsimp only [bind, Except.bind]
    rw [f2]
    dsimp only
    rw [h.nv]
    match j with
    | 0 => rfl
    | 1 =>
      dsimp only [Heap.request]
      rw [f3]
      rfl
    | j + 2 =>
      dsimp only [Heap.request]
      rw [f3]
      dsimp only
      have hj : ¬ j + 2 < 2 := by omega
      by_cases hlb : a.lowerBound > w
      · rw [if_pos hlb, if_neg hj, if_pos hlb]; rfl
      · rw [if_neg hlb, if_neg hj, if_neg hlb]; rfl
  constructor
  · intro hk
    by_cases hkc : k < c
    · obtain ⟨H', e⟩ := (hcnt k).1 hkc
      refine ⟨{ pg with G := some H', currentVertex := 0 }, ?_⟩
      unfold PyNW.getMaxCliqueA
      dsimp only
      rw [hl]
      dsimp only
      unfold wbounded at e
      rw [e]
      rfl
    · obtain ⟨pg', r, _, e⟩ := hgo (k - c)
      rw [show k - c + c = k by omega, if_pos (by omega)] at e
      exact ⟨_, e⟩
  · intro hk
    obtain ⟨pg', r, e1, e⟩ := hgo (k - c)
    rw [show k - c + c = k by omega, if_neg (by omega)] at e
    exact ⟨_, _, e1, e⟩

/-- What a history with enough memory keeps. -/
theorem wruns_calm (h : WUsable pg n S ω) (hR : Roomy S n ω) {ops : List (WOp R)}
    (hl : ∀ op ∈ ops, op.Legal) :
    ∃ pg1 H1, wruns ops pg = .ok pg1 ∧ WPyOk pg1 n S ω H1 ∧ Lim H1.g ∧ Calm H1 ∧
      H1.g.maxDeg ≠ 0 ∧ 0 < H1.g.limit := by
  obtain ⟨H, h1, h2, h3⟩ := usable_calm h hR
  obtain ⟨pg1, H1, a1, a2, a3, _⟩ := wruns_spec ops h1 hl
  have hnv := a2.of.nv
  have hL := lim_wframe h2 a3
  refine ⟨pg1, H1, a1, a2, hL, h3.frame a3,
    a2.ok.ok.wf.maxDeg_ne (by omega), ?_⟩
  have := hL 0 (by omega)
  omega

/-! ## The iterator -/

/-- One `__next__` after which at least two requests are granted. -/
theorem nextCliqueA_count {Hs : NWG R} {E E' : WEnum R} {b j : Nat} (hg : pg.G = some H)
    (h : WEInv b Hs H E) (hL : Lim Hs.g) (hC : Calm Hs) {q q1 : Vecs} {wcap wcap1 : Nat}
    (hc : H.enumReserve q wcap = (q1, wcap1, true)) (hj : q1.heap = some (j + 2))
    {pg' : PyNW R} {c : Option (List Nat)} (hn : pg.nextClique E = .ok (pg', E', c)) :
    ∃ q', pg.nextCliqueA grow E q wcap = .ok (pg', E', (q', wcap1), .ret c) ∧
      q'.states = q1.states ∧ q'.toRemove = q1.toRemove := by
  unfold PyNW.nextClique at hn
  unfold PyNW.nextCliqueA
  rw [hg] at hn ⊢
  dsimp only at hn ⊢
  obtain ⟨⟨G1, E1, v⟩, a1, hn⟩ := bind_eq_ok.1 hn
  rw [enumGraphA_run h hL hC hc a1, ok_bind]
  dsimp only at hn ⊢
  split at hn
  · rename_i hv
    rw [if_pos hv]
    cases hn
    exact ⟨q1, rfl, rfl, rfl⟩
  · rename_i hv
    rw [if_neg hv]
    obtain ⟨⟨G3, ans⟩, d1, d2⟩ := bind_eq_ok.1 hn
    rw [d1, ok_bind]
    dsimp only
    cases d2
    rw [hj]
    exact ⟨_, rfl, rfl, rfl⟩

theorem enumReserve_enough {q : Vecs} {wcap : Nat} (h1 : H.g.limit ≤ q.states)
    (h2 : H.g.limit ≤ q.toRemove) (h3 : H.g.maxDeg ≤ wcap) :
    H.enumReserve q wcap = (q, wcap, true) := by
  unfold enumReserve
  rw [reserve_enough h1 h2]
  dsimp only
  rw [if_pos h3]

theorem enumReserve_new {k : Nat} (hm : H.g.maxDeg ≠ 0) (hl : 0 < H.g.limit) :
    H.enumReserve ⟨0, 0, some (k + 3)⟩ 0 =
      (⟨H.g.limit, H.g.limit, some k⟩, H.g.maxDeg, true) := by
  unfold enumReserve
  rw [show k + 3 = (k + 1) + 2 by omega, reserve_new hl]
  dsimp only
  rw [if_neg (by omega)]
  rfl

theorem enumReserve_less {k : Nat} (hm : H.g.maxDeg ≠ 0) (hl : 0 < H.g.limit) (hk : k < 3) :
    ∃ q w, H.enumReserve ⟨0, 0, some k⟩ 0 = (q, w, false) := by
  unfold enumReserve
  by_cases hk2 : k < 2
  · obtain ⟨q, e⟩ := reserve_less hl hk2
    rw [e]
    exact ⟨_, _, rfl⟩
  · have : k = 0 + 2 := by omega
    subst this
    rw [reserve_new hl]
    dsimp only
    rw [if_neg (by omega)]
    exact ⟨_, _, rfl⟩

/-- A first `__next__` with too few requests. -/
theorem nextCliqueA_few {Hs : NWG R} {E E' : WEnum R} {b i : Nat} (hg : pg.G = some H)
    (h : WEInv b Hs H E) (hL : Lim Hs.g) (hC : Calm Hs) (hm : Hs.g.maxDeg ≠ 0)
    (hl : 0 < Hs.g.limit) {pg' : PyNW R} {c : List Nat}
    (hn : pg.nextClique E = .ok (pg', E', some c)) (hi : i < 5) :
    ∃ p E'' q, pg.nextCliqueA grow E ⟨0, 0, some i⟩ 0 = .ok (p, E'', q, .noMemory) := by
  have hd : H.g.limit = Hs.g.limit := h.1.frame.depth
  have hx : H.g.maxDeg = Hs.g.maxDeg := h.1.frame.frame.maxDeg
  unfold PyNW.nextClique at hn
  unfold PyNW.nextCliqueA
  rw [hg] at hn ⊢
  dsimp only at hn ⊢
  obtain ⟨⟨G1, E1, v⟩, a1, hn⟩ := bind_eq_ok.1 hn
  by_cases hi2 : i < 3
  · obtain ⟨q, w, e⟩ := enumReserve_less (H := H) (by omega) (by omega) hi2
    have : H.enumGraphA grow E ⟨0, 0, some i⟩ 0 = .ok ((H, E, q, none), w) := by
      unfold enumGraphA
      rw [e]
    rw [this]
    exact ⟨_, _, _, rfl⟩
  · obtain ⟨j, rfl⟩ : ∃ j, i = j + 3 := ⟨i - 3, by omega⟩
    rw [enumGraphA_run h hL hC (enumReserve_new (by omega) (by omega)) a1, ok_bind]
    dsimp only at hn ⊢
    split at hn
    · cases hn
    · rename_i hv
      rw [if_neg hv]
      obtain ⟨⟨G3, ans⟩, d1, d2⟩ := bind_eq_ok.1 hn
      rw [d1, ok_bind]
      have : j = 0 ∨ j = 1 := by omega
      rcases this with rfl | rfl <;> exact ⟨_, _, _, rfl⟩

/-- What one `__next__` keeps. -/
theorem nextClique_keeps {Hs : NWG R} {E E1 : WEnum R} {b : Nat} (hg : pg.G = some H)
    (hnv : Hs.g.nVert = pg.nvert + 1) (h : WEInv b Hs H E) {p1 : PyNW R} {c : Option (List Nat)}
    (a1 : pg.nextClique E = .ok (p1, E1, c)) :
    ∃ H', p1 = { pg with G := some H' } ∧ WEInv b Hs H' E1 := by
  obtain ⟨H2, E2', c2, cc⟩ := wnextClique_spec hg hnv h
  refine ⟨H2, ?_⟩
  rcases cc with ⟨v, C, c, _⟩ | ⟨c, _⟩
  · rw [a1] at c
    injection c with c
    rw [Prod.mk.injEq, Prod.mk.injEq] at c
    exact ⟨c.1, by rw [c.2.1]; exact c2⟩
  · rw [a1] at c
    injection c with c
    rw [Prod.mk.injEq, Prod.mk.injEq] at c
    exact ⟨c.1, by rw [c.2.1]; exact c2⟩

/-- Calls on an iterator whose vectors are reserved. -/
theorem nextsA_count {Hs : NWG R} {b : Nat} (hL : Lim Hs.g) (hC : Calm Hs) :
    ∀ (js : List Nat) {pg pg' : PyNW R} {H : NWG R} {E E' : WEnum R} {q : Vecs} {wcap : Nat}
    {cs : List (Option (List Nat))},
    pg.G = some H → Hs.g.nVert = pg.nvert + 1 → WEInv b Hs H E → Hs.g.limit ≤ q.states →
    Hs.g.limit ≤ q.toRemove → Hs.g.maxDeg ≤ wcap → pg.nexts js.length E = .ok (pg', E', cs) →
    ∃ q', pg.nextsA grow (js.map fun j => some (j + 2)) E (q, wcap) =
      .ok (pg', E', q', cs.map .ret) := by
  intro js
  induction js with
  | nil =>
    intro pg pg' H E E' q wcap cs _ _ _ _ _ _ h
    cases h
    exact ⟨(q, wcap), rfl⟩
  | cons j js ih =>
    intro pg pg' H E E' q wcap cs hg hnv hI h1 h3 h4 h
    unfold PyNW.nexts at h
    obtain ⟨⟨p1, E1, c⟩, a1, h⟩ := bind_eq_ok.1 h
    dsimp only at h
    obtain ⟨⟨p2, E2, cs'⟩, a2, h⟩ := bind_eq_ok.1 h
    cases h
    have hd : H.g.limit = Hs.g.limit := hI.1.frame.depth
    have hx : H.g.maxDeg = Hs.g.maxDeg := hI.1.frame.frame.maxDeg
    obtain ⟨q', b1, b2, b3⟩ := nextCliqueA_count (grow := grow) (q := { q with heap := some (j + 2) })
      (wcap := wcap) (j := j) hg hI hL hC
      (enumReserve_enough (by rw [hd]; exact h1) (by rw [hd]; exact h3) (by rw [hx]; exact h4))
      rfl a1
    obtain ⟨H2, rfl, c2⟩ := nextClique_keeps hg hnv hI a1
    obtain ⟨q'', d1⟩ := ih (pg := { pg with G := some H2 }) (q := q') rfl hnv c2
      (by rw [b2]; exact h1) (by rw [b3]; exact h3) h4 a2
    refine ⟨q'', ?_⟩
    rw [List.map_cons]
    unfold PyNW.nextsA
    dsimp only
    rw [b1, ok_bind]
    dsimp only
    rw [d1, ok_bind]
    rfl

/-- Calls on a new iterator. -/
theorem nextsA_new {Hs : NWG R} {b : Nat} (hL : Lim Hs.g) (hC : Calm Hs) (hm : Hs.g.maxDeg ≠ 0)
    (hl : 0 < Hs.g.limit) (j : Nat) (js : List Nat) {pg' : PyNW R} {E E' : WEnum R}
    {cs : List (Option (List Nat))} (hg : pg.G = some H) (hnv : Hs.g.nVert = pg.nvert + 1)
    (hI : WEInv b Hs H E) (h : pg.nexts (js.length + 1) E = .ok (pg', E', cs)) :
    ∃ q', pg.nextsA grow (some (j + 5) :: js.map fun j => some (j + 2)) E (⟨0, 0, none⟩, 0) =
      .ok (pg', E', q', cs.map .ret) := by
  unfold PyNW.nexts at h
  obtain ⟨⟨p1, E1, c⟩, a1, h⟩ := bind_eq_ok.1 h
  dsimp only at h
  obtain ⟨⟨p2, E2, cs'⟩, a2, h⟩ := bind_eq_ok.1 h
  cases h
  have hd : H.g.limit = Hs.g.limit := hI.1.frame.depth
  have hx : H.g.maxDeg = Hs.g.maxDeg := hI.1.frame.frame.maxDeg
  obtain ⟨q', b1, b2, b3⟩ := nextCliqueA_count (grow := grow) (q := ⟨0, 0, some (j + 5)⟩)
    (j := j) hg hI hL hC
    (enumReserve_new (k := j + 2) (by rw [hx]; exact hm) (by rw [hd]; exact hl)) rfl a1
  obtain ⟨H2, rfl, c2⟩ := nextClique_keeps hg hnv hI a1
  obtain ⟨q'', d1⟩ := nextsA_count (grow := grow) hL hC js (pg := { pg with G := some H2 }) (q := q')
    (wcap := H.g.maxDeg) rfl hnv c2 (by rw [b2, hd]) (by rw [b3, hd]) (by rw [hx]) a2
  refine ⟨q'', ?_⟩
  unfold PyNW.nextsA
  rw [b1, ok_bind]
  dsimp only
  rw [d1, ok_bind]
  rfl

end AW

end NWG

end CM
