import Verif.Lemmas.Checked
import Verif.Lemmas.AWHeld
import Verif.Props.Weighted

/-!
# C99: vectors are used within their size

Weighted graphs in a library whose containers check indices (`Model/Checked`).
-/

namespace CM

open Spec NWG

section

variable {R : Type} [Zero R] [Add R] [Sub R] [NatCast R] [LT R] [LE R] [DecidableLT R]
  [DecidableLE R] {pg : PyNW R} {n : Nat} {S : SimpleGraph Nat} {ω : Nat → R}

/-- **C99**, the part that holds.  On any `NWGraph` object, a call of `get_max_clique` that is not
stopped by a check returns what it returns without checks, and leaves the same object.
Missing: that calls are not stopped (`C99_refuted`, `C99_stopped`). -/
theorem C99_same_or_stopped_partial (pg : PyNW R) (srt : List (WData R) → List (WData R))
    (junk : Nat → R) (a : PyNW.Args R) {x : PyNW R × PyRes (List Nat)}
    (h : pg.getMaxCliqueChecked srt a = .ok x) : pg.getMaxClique srt junk a = .ok x := by
  obtain ⟨y, hy, rfl⟩ := getMaxClique_checked srt junk a x h
  exact hy

private theorem nexts_checked {b : Nat} (ws : List R) : ∀ (m : Nat) {pg : PyNW R} {Hs H : NWG R}
    {E F : WEnum R} {q : PyNW R} {cs : List (Option (List Nat))},
    AW.WHeld b pg n S ω Hs H (withWs ws E) → E.ws = [] → pg.nexts m E = .ok (q, F, cs) →
    pg.nexts m (withWs ws E) = .ok (q, withWs ws F, cs) ∧ ∀ c ∈ cs, c = none := by
  intro m
  induction m with
  | zero =>
    intro pg Hs H E F q cs _ _ h
    cases h
    exact ⟨rfl, by simp⟩
  | succ m ih =>
    intro pg Hs H E F q cs hH hE h
    unfold PyNW.nexts at h ⊢
    obtain ⟨⟨p1, E1, c⟩, h1, h⟩ := bind_eq_ok.1 h
    dsimp only at h
    obtain ⟨⟨p2, E2, ds⟩, h2, h⟩ := bind_eq_ok.1 h
    cases h
    have key : pg.nextClique (withWs ws E) = .ok (p1, withWs ws E1, c) ∧ E1.ws = [] ∧ c = none := by
      unfold PyNW.nextClique at h1 ⊢
      rw [hH.py.g] at h1 ⊢
      dsimp only at h1 ⊢
      obtain ⟨⟨A, F1, v⟩, g1, h1⟩ := bind_eq_ok.1 h1
      obtain ⟨_, g2, rfl, g3, g4⟩ := enumGraph_checked ws hE _ g1
      obtain ⟨H2, E3, v3, a1, a2, _⟩ := AW.enumGraph_spec hH.inv
      rw [a1] at g2
      cases g2
      have hv : v > pg.nvert := by
        have e1 := a2.1.frame.frame.nVert
        have e2 := hH.frame.frame.nVert
        have e3 := hH.py.of.nv
        have e4 := hH.py.nv
        dsimp only at g4 e1
        omega
      dsimp only at h1
      rw [if_pos hv] at h1
      cases h1
      rw [a1, ok_bind]
      dsimp only
      rw [if_pos hv]
      exact ⟨rfl, g3, rfl⟩
    obtain ⟨k1, k2, rfl⟩ := key
    obtain ⟨pg1, H1, E4, c4, b1, b2, _⟩ := hH.next
    rw [k1] at b1
    cases b1
    obtain ⟨i1, i2⟩ := ih b2 k2 h2
    rw [k1, ok_bind]
    dsimp only
    rw [i1, ok_bind]
    refine ⟨rfl, ?_⟩
    intro c hc
    rcases List.mem_cons.1 hc with rfl | hc
    · rfl
    · exact i2 c hc

/-- **C99** for iterators, the part that holds.  After any history, if `m` calls of `next()` on a
new `all_cliques(W)` iterator are not stopped by a check, they answer what they answer without
checks; and then no answer is a clique. -/
theorem C99_iterator_partial (h : WUsable pg n S ω) {ops : List (WOp R)}
    (hl : ∀ op ∈ ops, op.Legal) (junk : Nat → R) (W : R) (m : Nat) :
    ∃ q E E', wruns ops pg = .ok q ∧ q.allCliquesChecked W = .ok E ∧
      q.allCliques junk W = .ok E' ∧
      ∀ r F cs, q.nexts m E = .ok (r, F, cs) →
        (∃ F', q.nexts m E' = .ok (r, F', cs)) ∧ ∀ c ∈ cs, c = none := by
  obtain ⟨H, hF⟩ := AW.wusable_fresh h
  obtain ⟨q, H1, a1, a2, _⟩ := AW.wruns_spec ops hF.pyok hl
  obtain ⟨E', b1, b2⟩ := AW.WHeld.new a2 junk W
  refine ⟨q, WEnum.new [] W, E', a1, ?_, b1, ?_⟩
  · unfold PyNW.allCliquesChecked
    rw [a2.loaded]
  · have e : E' = withWs ((List.range H1.g.maxDeg).map junk) (WEnum.new [] W) := by
      unfold PyNW.allCliques at b1
      rw [a2.loaded] at b1
      cases b1
      rfl
    subst e
    intro r F cs hn
    obtain ⟨c1, c2⟩ := nexts_checked _ m b2 rfl hn
    exact ⟨⟨_, c1⟩, c2⟩

end

/-- **C99** fails for every graph with positive weights: on a freshly loaded `NWGraph` an exact
search without the heuristic is always stopped, if there is a clique heavier than the lower bound
to be found. -/
theorem C99_stopped {pg : PyNW Rat} {n : Nat} {S : SimpleGraph Nat} {ω : Nat → Rat}
    (h : WUsable pg n S ω) (hω : ∀ v, 1 ≤ v → v ≤ n → 0 < ω v)
    (srt : List (WData Rat) → List (WData Rat)) {a : PyNW.Args Rat} (h1 : a.useHeuristic = false)
    (h2 : a.useDfs = true) (h3 : ∃ C, IsCliqueList S n C ∧ a.lowerBound < Spec.weight ω C)
    (h4 : 0 < a.upperBound) (h5 : a.lowerBound < a.upperBound) :
    ∃ f, pg.getMaxCliqueChecked srt a = .error f := by
  obtain ⟨H, hF⟩ := h.fresh
  have hP := hF.pyok
  have hB := hF.bounds
  cases hx : pg.getMaxCliqueChecked srt a with
  | error f => exact ⟨f, rfl⟩
  | ok x =>
    exfalso
    unfold PyNW.getMaxCliqueChecked at hx
    have hld : ({ pg with currentVertex := 0 } : PyNW Rat).checkLoaded = some H := hP.loaded
    dsimp only at hx
    rw [hld] at hx
    dsimp only at hx
    obtain ⟨y, hy, _⟩ := bind_eq_ok.1 hx
    unfold findMaxCliquesChecked at hy
    rw [h1, h2] at hy
    simp only [Bool.false_eq_true, if_false, if_true] at hy
    change (wbounded H a).stackGraphChecked = _ at hy
    unfold stackGraphChecked at hy
    obtain ⟨z, hz, _⟩ := bind_eq_ok.1 hy
    refine stackVertex_stopped (H := wbounded H a) (r := H.curLoc) hP.ok.ok.wf
      ⟨hP.ok.l.wt, hP.ok.l.deg, hP.ok.l.mcs⟩ hB.loc ?_ z hz
    by_cases hc : H.wCand H.curLoc = ∅
    · right
      obtain ⟨u, v, huv⟩ := hF.edge
      have hu := (hP.of.rng _ _ huv).1
      have hu1 : IsCliqueList S n [u] := by
        refine ⟨by simp, by simpa using hu, ?_⟩
        simp [SimpleGraph.IsClique]
      have hnn : ∀ v, 0 ≤ H.w v := hP.nonneg fun v a b => (hω v a b).le
      have hlim : 0 < H.limit := by
        have := wbounds_spec hP.of hP.ok.ok.wf hB hnn hu1
        rw [hP.weight hu1] at this
        have h0 := hω u hu.1 hu.2
        simp only [Spec.weight, List.map_cons, List.map_nil, List.sum_cons, List.sum_nil,
          add_zero] at this
        linarith
      have hw : H.w H.curLoc = H.limit := by
        rcases hB.eq with ⟨e, _⟩ | ⟨_, e⟩
        · exact absurd (show H.limit = 0 from e) hlim.ne'
        · rw [hc] at e
          have : H.limit = 0 + H.w H.curLoc := e
          linarith
      have hlb : a.lowerBound < H.limit := by
        obtain ⟨C, hC, hL⟩ := h3
        have := wbounds_spec hP.of hP.ok.ok.wf hB hnn hC
        rw [hP.weight hC] at this
        exact lt_of_lt_of_le hL this
      have hcm : (wbounded H a).curMax = max a.lowerBound 0 := by
        rw [wbounded_curMax, hF.cm]
      rw [hcm, wbounded_limit]
      refine ⟨?_, not_le.2 (lt_min (max_lt h5 h4) (max_lt hlb hlim))⟩
      show ¬ 0 + H.w H.curLoc ≤ _
      rw [hw, zero_add]
      exact not_le.2 (max_lt hlb hlim)
    · exact Or.inl hc

/-- The weighted kite. -/
theorem C99_refuted :
    Sample.wkite.getMaxCliqueChecked Sample.byW {} = .error .ub ∧
    (Sample.wkite.allCliquesChecked 4 >>= fun E => Sample.wkite.nextClique E) = .error .ub ∧
    (Sample.wkite.getMaxClique Sample.byW (fun _ => 0) {} >>= fun x => .ok x.2) =
      .ok (.ret [4, 5]) := by
  refine ⟨?_, ?_, ?_⟩ <;> decide +kernel

/-- The hypotheses of `C99_stopped` hold of the weighted kite. -/
example : ∃ f, Sample.wkite.getMaxCliqueChecked Sample.byW { useHeuristic := false } = .error f :=
  C99_stopped Sample.wkite_usable (by decide +kernel) _ rfl rfl 
    ⟨[5], ⟨by simp, by simp, by simp [SimpleGraph.IsClique]⟩, by decide +kernel⟩
    (by decide +kernel) (by decide +kernel)

/-- Calls that are not stopped: the heuristic alone, and an iterator that has nothing to do. -/
example : (Sample.wkite.getMaxCliqueChecked Sample.byW { useDfs := false } >>= fun x => .ok x.2) =
      .ok (.ret [1, 2, 3, 4]) ∧
    (Sample.wkite.allCliquesChecked 100 >>= fun E => Sample.wkite.nexts 2 E >>= fun x => .ok x.2.2) =
      .ok [none, none] := by
  refine ⟨?_, ?_⟩ <;> decide +kernel

end CM
