import Verif.Lemmas.NWHeapUse
import Verif.Lemmas.HeapAny

/-!
# Searches with a heap, whatever the graph: as without, unless memory runs out
-/

namespace CM

open Spec Graph

namespace NWG

set_option linter.unusedSectionVars false

variable {R : Type} [Zero R] [Add R] [Sub R] [NatCast R] [LT R] [LE R] [DecidableLT R]
  [DecidableLE R]

variable {P : Prop} {grow : Nat → Nat} {H : NWG R} {q : Vecs}

theorem stackScanA_either (hq : P → q.heap = none) {V U : Vtx} {cand : GBits} {eb : Mem}
    {ws : List R} {left k0 : Nat} {r : List Nat × Nat × R}
    (h : H.stackScan V U cand eb ws left k0 = .ok r) :
    (∃ q', (P → q'.heap = none) ∧ H.stackScanA grow V U cand eb ws left k0 q =
      .ok (some (r.1, r.2.1, r.2.2, q'))) ∨
    (¬ P ∧ H.stackScanA grow V U cand eb ws left k0 q = .ok none) := by
  unfold stackScan at h
  unfold stackScanA
  rcases loop_either (P := P) (g := fun (s : (Nat × List Nat × Nat × R) × Vecs) =>
    let ((k, rm, left, pot), q) := s
    if k < V.N ∧ left ≠ 0 then do
      let val ← H.g.nbr V k
      let (f, _) ← binaryFind H.g.el (uadd U.elo U.spos) (usub U.N U.spos) val
      if f then do
        let w ← rd ws k
        let k' ← cand.next eb (k + 1)
        .ok (.inl ((k', rm, left, pot + w), q))
      else
        match q.pushRemove grow rm.length with
        | none => .ok (.inr none)
        | some q => do
          let k' ← cand.next eb (k + 1)
          .ok (.inl ((k', rm ++ [k], usub left 1, pot), q))
    else .ok (.inr (some (rm, left, pot, q))))
    (good := fun (r : List Nat × Nat × R) r' =>
      ∃ q' : Vecs, (P → q'.heap = none) ∧ r' = some (r.1, r.2.1, r.2.2, q'))
    (bad := fun r' => r' = none) 
    (by
      rintro ⟨k, rm, left, pot⟩ s' q hq hf
      dsimp only at hf ⊢
      split at hf
      · rename_i hc
        rw [if_pos hc]
        obtain ⟨val, e1, hf⟩ := bind_eq_ok.1 hf
        rw [e1, ok_bind]
        obtain ⟨⟨f, ans⟩, e2, hf⟩ := bind_eq_ok.1 hf
        rw [e2, ok_bind]
        dsimp only at hf ⊢
        cases f with
        | true =>
          simp only [if_true] at hf ⊢
          obtain ⟨w, e3, hf⟩ := bind_eq_ok.1 hf
          rw [e3, ok_bind]
          obtain ⟨k', e4, hf⟩ := bind_eq_ok.1 hf
          rw [e4, ok_bind]
          simp only [Except.ok.injEq, Sum.inl.injEq] at hf
          rw [← hf]
          exact Or.inl ⟨q, hq, rfl⟩
        | false =>
          simp only [Bool.false_eq_true, if_false] at hf ⊢
          rcases Vecs.pushRemove_either hq grow rm.length with ⟨q', k1, k2⟩ | ⟨k0, k2⟩
          · rw [k2]
            dsimp only
            obtain ⟨k', e4, hf⟩ := bind_eq_ok.1 hf
            rw [e4, ok_bind]
            simp only [Except.ok.injEq, Sum.inl.injEq] at hf
            rw [← hf]
            exact Or.inl ⟨q', k1, rfl⟩
          · rw [k2]
            exact Or.inr ⟨k0, none, rfl, rfl⟩
      · cases hf)
    (by
      rintro ⟨k, rm, left, pot⟩ r q hq hf
      dsimp only at hf ⊢
      split at hf
      · obtain ⟨val, e1, hf⟩ := bind_eq_ok.1 hf
        obtain ⟨⟨f, ans⟩, e2, hf⟩ := bind_eq_ok.1 hf
        dsimp only at hf
        cases f with
        | true =>
          simp only [if_true] at hf
          obtain ⟨w, e3, hf⟩ := bind_eq_ok.1 hf
          obtain ⟨k', e4, hf⟩ := bind_eq_ok.1 hf
          simp at hf
        | false =>
          simp only [Bool.false_eq_true, if_false] at hf
          obtain ⟨k', e4, hf⟩ := bind_eq_ok.1 hf
          simp at hf
      · rename_i hc
        rw [if_neg hc]
        cases hf
        exact Or.inl ⟨_, ⟨q, hq, rfl⟩, rfl⟩)
    _ _ _ q hq h with ⟨r', ⟨q', k1, rfl⟩, k2⟩ | ⟨k0, r', rfl, k2⟩
  · exact Or.inl ⟨q', k1, k2⟩
  · exact Or.inr ⟨k0, k2⟩

/-- The same exit, with capacities. -/
def ForExit.Goes (P : Prop) (x : ForExit R) (x' : ForExitA R) : Prop :=
  ∃ q : Vecs, (P → q.heap = none) ∧
    match x with
    | .pushed H top new cw => x' = .pushed H top new cw q
    | .done H top j => x' = .done H top j q

/-- One iteration of the inner `for`. -/
theorem stackForA_either (hq : P → q.heap = none) {cur : Nat} {V : Vtx} {req : Nat} {ws : List R}
    {cw : R} {size : Nat} {s : NWG R × WState R} {x : (NWG R × WState R) ⊕ ForExit R}
    (h : stackFor cur V req ws cw s = .ok x) :
    (∃ x', stackForA grow cur V req ws cw size (s, q) = .ok x' ∧
      match x with
      | .inl s' => ∃ q', (P → q'.heap = none) ∧ x' = .inl (s', q')
      | .inr e => ∃ e', e.Goes P e' ∧ x' = .inr e') ∨
    (¬ P ∧ ∃ H', stackForA grow cur V req ws cw size (s, q) = .ok (.inr (.oom H'))) := by
  obtain ⟨H, top⟩ := s
  unfold stackFor at h
  unfold stackForA
  dsimp only at h ⊢
  split at h
  · rename_i hc
    rw [if_pos hc]
    obtain ⟨eb, e1, h⟩ := bind_eq_ok.1 h
    rw [e1, ok_bind]
    obtain ⟨sa, e2, h⟩ := bind_eq_ok.1 h
    rw [e2, ok_bind]
    obtain ⟨wj, e3, h⟩ := bind_eq_ok.1 h
    rw [e3, ok_bind]
    obtain ⟨⟨eb', left⟩, e4, h⟩ := bind_eq_ok.1 h
    rw [e4, ok_bind]
    dsimp only at h ⊢
    obtain ⟨vert, e5, h⟩ := bind_eq_ok.1 h
    rw [e5, ok_bind]
    obtain ⟨U, e6, h⟩ := bind_eq_ok.1 h
    rw [e6, ok_bind]
    obtain ⟨⟨rm, left', cp⟩, e7, h⟩ := bind_eq_ok.1 h
    rcases stackScanA_either (grow := grow) hq e7 with ⟨q', k1, k2⟩ | ⟨k0, k2⟩
    · rw [k2, ok_bind]
      dsimp only at h ⊢
      split at h
      · rename_i hp
        rw [if_pos hp]
        split at h
        · rename_i hl
          rw [if_pos hl]
          obtain ⟨a1, f1, h⟩ := bind_eq_ok.1 h
          rw [f1, ok_bind]
          obtain ⟨a2, f2, h⟩ := bind_eq_ok.1 h
          rw [f2, ok_bind]
          obtain ⟨a3, f3, h⟩ := bind_eq_ok.1 h
          rw [f3, ok_bind]
          cases h
          exact Or.inl ⟨_, rfl, q', k1, rfl⟩
        · rename_i hl
          rw [if_neg hl]
          obtain ⟨⟨a1, a1'⟩, f1, h⟩ := bind_eq_ok.1 h
          rw [f1, ok_bind]
          dsimp only at h ⊢
          obtain ⟨a2, f2, h⟩ := bind_eq_ok.1 h
          rw [f2, ok_bind]
          obtain ⟨a3, f3, h⟩ := bind_eq_ok.1 h
          rw [f3, ok_bind]
          cases h
          rcases Vecs.pushState_either k1 grow size with ⟨q2, m1, m2⟩ | ⟨m0, m2⟩
          · rw [m2]
            exact Or.inl ⟨_, rfl, _, ⟨q2, m1, rfl⟩, rfl⟩
          · rw [m2]
            exact Or.inr ⟨m0, _, rfl⟩
      · rename_i hp
        rw [if_neg hp]
        cases h
        exact Or.inl ⟨_, rfl, q', k1, rfl⟩
    · rw [k2]
      exact Or.inr ⟨k0, _, rfl⟩
  · rename_i hc
    rw [if_neg hc]
    cases h
    exact Or.inl ⟨_, rfl, _, ⟨q, hq, rfl⟩, rfl⟩

/-- One iteration of the `while`. -/
theorem stackBodyA_either (hq : P → q.heap = none) {cur : Nat} {V : Vtx} {req : Nat} {ws : List R}
    {s : NWG R × List (WState R) × R}
    {x : (NWG R × List (WState R) × R) ⊕ (NWG R × List (WState R))}
    (h : stackBody cur V req ws s = .ok x) :
    (∃ q', (P → q'.heap = none) ∧ stackBodyA grow cur V req ws (s, q) = .ok
      (match x with
      | .inl s' => .inl (s', q')
      | .inr r => .inr (r.1, some (r.2, q')))) ∨
    (¬ P ∧ ∃ H', stackBodyA grow cur V req ws (s, q) = .ok (.inr (H', none))) := by
  obtain ⟨H, states, cw⟩ := s
  unfold stackBody at h
  unfold stackBodyA
  cases states with
  | nil =>
    cases h
    exact Or.inl ⟨q, hq, rfl⟩
  | cons top rest =>
    dsimp only at h ⊢
    split at h
    · rename_i hc
      rw [if_pos hc]
      cases h
      exact Or.inl ⟨q, hq, rfl⟩
    · rename_i hc
      rw [if_neg hc]
      obtain ⟨⟨eb, c⟩, e1, h⟩ := bind_eq_ok.1 h
      rw [e1, ok_bind]
      dsimp only at h ⊢
      obtain ⟨sa, e2, h⟩ := bind_eq_ok.1 h
      rw [e2, ok_bind]
      obtain ⟨r, e3, h⟩ := bind_eq_ok.1 h
      rcases loop_either (P := P) (good := ForExit.Goes P)
        (g := stackForA grow cur V req ws cw (rest.length + 1))
        (bad := fun r' => ∃ H', r' = .oom H')
        (by
          intro s s' q hq hf
          rcases stackForA_either (grow := grow) (size := rest.length + 1) hq hf with
            ⟨x', k1, q', k2, rfl⟩ | ⟨k0, H', k1⟩
          · exact Or.inl ⟨q', k2, k1⟩
          · exact Or.inr ⟨k0, _, ⟨H', rfl⟩, k1⟩)
        (by
          intro s r q hq hf
          rcases stackForA_either (grow := grow) (size := rest.length + 1) hq hf with
            ⟨x', k1, e', k2, rfl⟩ | ⟨k0, H', k1⟩
          · exact Or.inl ⟨e', k2, k1⟩
          · exact Or.inr ⟨k0, _, ⟨H', rfl⟩, k1⟩)
        _ _ _ q hq e3 with ⟨r', ⟨q', k1, k2⟩, k3⟩ | ⟨k0, r', ⟨H', rfl⟩, k3⟩
      · rw [k3, ok_bind]
        cases r with
        | pushed H1 top1 new cw1 =>
          cases k2
          cases h
          exact Or.inl ⟨q', k1, rfl⟩
        | done H1 top1 j =>
          cases k2
          dsimp only at h ⊢
          split at h
          · rename_i hj
            rw [if_pos hj]
            obtain ⟨a1, f1, h⟩ := bind_eq_ok.1 h
            rw [f1, ok_bind]
            obtain ⟨a2, f2, h⟩ := bind_eq_ok.1 h
            rw [f2, ok_bind]
            obtain ⟨a3, f3, h⟩ := bind_eq_ok.1 h
            rw [f3, ok_bind]
            cases h
            exact Or.inl ⟨q', k1, rfl⟩
          · rename_i hj
            rw [if_neg hj]
            cases h
            exact Or.inl ⟨q', k1, rfl⟩
      · rw [k3]
        exact Or.inr ⟨k0, H', rfl⟩

/-- A rooted search. -/
theorem stackVertexA_either (hq : P → q.heap = none) {s : NWG R × List R} {cur : Nat}
    {r : NWG R × List R} (h : stackVertex s cur = .ok r) :
    (∃ q', (P → q'.heap = none) ∧ stackVertexA grow s cur q = .ok (r.1, some (r.2, q'))) ∨
    (¬ P ∧ ∃ H', stackVertexA grow s cur q = .ok (H', none)) := by
  obtain ⟨H, ws⟩ := s
  unfold stackVertex at h
  unfold stackVertexA
  dsimp only at h ⊢
  obtain ⟨V, e1, h⟩ := bind_eq_ok.1 h
  rw [e1, ok_bind]
  obtain ⟨⟨g, x⟩, e2, h⟩ := bind_eq_ok.1 h
  rw [e2, ok_bind]
  dsimp only at h ⊢
  obtain ⟨⟨eb, ws', pot⟩, e3, h⟩ := bind_eq_ok.1 h
  rw [e3, ok_bind]
  dsimp only at h ⊢
  obtain ⟨wc, e4, h⟩ := bind_eq_ok.1 h
  rw [e4, ok_bind]
  split at h
  · rename_i hc
    rw [if_pos hc]
    obtain ⟨a1, f1, h⟩ := bind_eq_ok.1 h
    rw [f1, ok_bind]
    cases h
    exact Or.inl ⟨q, hq, rfl⟩
  · rename_i hc
    rw [if_neg hc]
    rcases Vecs.pushState_either hq grow 0 with ⟨q2, m1, m2⟩ | ⟨m0, m2⟩
    · rw [m2]
      dsimp only
      obtain ⟨⟨H3, states⟩, e5, h⟩ := bind_eq_ok.1 h
      rcases loop_either (P := P)
        (good := fun (r : NWG R × List (WState R)) (r' : NWG R × Option (List (WState R) × Vecs)) =>
          ∃ q' : Vecs, (P → q'.heap = none) ∧ r' = (r.1, some (r.2, q')))
        (bad := fun r' => ∃ H', r' = (H', none))
        (g := stackBodyA grow cur V (dlen V.N) ws')
        (by
          intro s s' q hq hf
          rcases stackBodyA_either (grow := grow) hq hf with ⟨q', k2, k1⟩ | ⟨k0, H', k1⟩
          · exact Or.inl ⟨q', k2, k1⟩
          · exact Or.inr ⟨k0, _, ⟨H', rfl⟩, k1⟩)
        (by
          intro s r q hq hf
          rcases stackBodyA_either (grow := grow) hq hf with ⟨q', k2, k1⟩ | ⟨k0, H', k1⟩
          · exact Or.inl ⟨_, ⟨q', k2, rfl⟩, k1⟩
          · exact Or.inr ⟨k0, _, ⟨H', rfl⟩, k1⟩)
        _ _ _ q2 m1 e5 with ⟨r', ⟨q', k1, rfl⟩, k3⟩ | ⟨k0, r', ⟨H', rfl⟩, k3⟩
      · rw [k3, ok_bind]
        dsimp only at h ⊢
        split at h
        · rename_i he
          rw [if_pos he]
          rw [ok_bind] at h ⊢
          obtain ⟨b1, c1, h⟩ := bind_eq_ok.1 h
          rw [c1, ok_bind]
          cases h
          exact Or.inl ⟨q', k1, rfl⟩
        · rename_i he
          rw [if_neg he]
          obtain ⟨G4, h3, h⟩ := bind_eq_ok.1 h
          rw [h3, ok_bind]
          obtain ⟨b1, c1, h⟩ := bind_eq_ok.1 h
          rw [c1, ok_bind]
          cases h
          exact Or.inl ⟨q', k1, rfl⟩
      · rw [k3]
        exact Or.inr ⟨k0, H', rfl⟩
    · rw [m2]
      exact Or.inr ⟨m0, _, rfl⟩

/-- The exact search. -/
theorem stackGraphA_either {hp : Heap} (hq : P → hp = none) {junk : Nat → R} {H' : NWG R} {i : Nat}
    (h : H.stackGraph junk = .ok (H', i)) :
    (∃ hp', (P → hp' = none) ∧ H.stackGraphA grow junk hp = .ok (H', some (i, hp'))) ∨
    (¬ P ∧ ∃ X, H.stackGraphA grow junk hp = .ok (X, none)) := by
  unfold stackGraphA
  cases hc : H.stackReserve hp with
  | none =>
    refine Or.inr ⟨fun p => ?_, H, rfl⟩
    obtain ⟨q, e1, _⟩ := AW.stackReserve_none H
    rw [hq p, e1] at hc
    cases hc
  | some q =>
    have hq1 : P → q.heap = none := by
      intro p
      obtain ⟨q', e1, e2⟩ := AW.stackReserve_none H
      rw [hq p, e1] at hc
      cases hc
      exact e2
    have stuck : ∀ (i : Nat) (t : NWG R × Option (List R × Vecs)), t.2 = none →
        stackStepA grow i t = .ok t := by
      rintro i ⟨X, o⟩ ht
      cases ht
      rfl
    dsimp only
    unfold stackGraph at h
    obtain ⟨s1, e1, h⟩ := bind_eq_ok.1 h
    obtain ⟨s2, e2, h⟩ := bind_eq_ok.1 h
    cases h
    rcases stackVertexA_either (grow := grow) hq1 e1 with ⟨q', k1, k2⟩ | ⟨k0, X, k2⟩
    · rw [k2, ok_bind]
      unfold forRange at e2 ⊢
      dsimp only at e2 ⊢
      rcases forN_either (P := P) (g := stackStepA grow)
        (l := fun (s : NWG R × List R) q => (s.1, some (s.2, q)))
        (stuck := fun t => t.2 = none) stuck
        (by
          intro i s s' q hq h
          obtain ⟨mm, g2, h⟩ := bind_eq_ok.1 h
          unfold stackStepA
          dsimp only
          rw [g2, ok_bind]
          split at h
          · rename_i hm
            rw [if_pos hm]
            cases h
            exact Or.inl ⟨q, hq, rfl⟩
          · rename_i hm
            rw [if_neg hm]
            rcases stackVertexA_either (grow := grow) hq h with ⟨q', k1, k2⟩ | ⟨k0, X, k2⟩
            · exact Or.inl ⟨q', k1, k2⟩
            · exact Or.inr ⟨k0, _, rfl, k2⟩) _ _ _ _ q' k1 e2 with
        ⟨q2, m1, m2⟩ | ⟨m0, ⟨X, o⟩, m1, m2⟩
      · rw [m2, ok_bind]
        exact Or.inl ⟨_, m1, rfl⟩
      · cases m1
        rw [m2, ok_bind]
        exact Or.inr ⟨m0, _, rfl⟩
    · rw [k2, ok_bind]
      unfold forRange
      dsimp only
      rw [forN_stuck (stuck := fun (t : NWG R × Option (List R × Vecs)) => t.2 = none)
        (g := stackStepA grow) stuck _ _ _ rfl, ok_bind]
      exact Or.inr ⟨k0, _, rfl⟩

/-- The heuristic and the exact search. -/
theorem findMaxA_either {hp : Heap} (hq : P → hp = none) {srt : List (WData R) → List (WData R)}
    {junk : Nat → R} {sv : Nat} {heur dfs : Bool} {H' : NWG R} {i : Nat}
    (h : H.findMaxCliques srt junk sv heur dfs = .ok (H', i)) :
    (∃ hp', (P → hp' = none) ∧
      H.findMaxCliquesA grow srt junk sv heur dfs hp = .ok (H', some (i, hp'))) ∨
    (¬ P ∧ ∃ X, H.findMaxCliquesA grow srt junk sv heur dfs hp = .ok (X, none)) := by
  unfold findMaxCliques at h
  unfold findMaxCliquesA
  dsimp only at h ⊢
  rw [← ite_bind] at h
  obtain ⟨H1, e1, h⟩ := bind_eq_ok.1 h
  have key : (∃ hp', (P → hp' = none) ∧
      (if heur = true then H.heurGraphA srt hp else .ok (H, some hp)) = .ok (H1, some hp')) ∨
      (¬ P ∧ (if heur = true then H.heurGraphA srt hp else .ok (H, some hp)) = .ok (H, none)) := by
    cases heur with
    | false => cases e1; exact Or.inl ⟨hp, hq, rfl⟩
    | true =>
      simp only [if_true] at e1 ⊢
      unfold heurGraphA
      have hx : (∃ h', (P → h' = none) ∧ (if H.g.maxDeg = 0 then some hp else hp.request) = some h') ∨
          (¬ P ∧ (if H.g.maxDeg = 0 then some hp else hp.request) = none) := by
        split
        · exact Or.inl ⟨hp, hq, rfl⟩
        · exact Heap.request_either hq
      rcases hx with ⟨h', k1, k2⟩ | ⟨k0, k2⟩
      · rw [k2]
        dsimp only
        rw [e1]
        exact Or.inl ⟨h', k1, rfl⟩
      · rw [k2]
        exact Or.inr ⟨k0, rfl⟩
  rcases key with ⟨hp', k1, k2⟩ | ⟨k0, k2⟩
  · rw [k2, ok_bind]
    dsimp only
    cases dfs with
    | false => cases h; exact Or.inl ⟨hp', k1, rfl⟩
    | true =>
      simp only [if_true] at h ⊢
      exact stackGraphA_either k1 h
  · rw [k2]
    exact Or.inr ⟨k0, H, rfl⟩

/-- One search. -/
theorem getMaxCliqueA_either {pg pg' : PyNW R} {hp : Heap} (hq : P → hp = none)
    {srt : List (WData R) → List (WData R)} {junk : Nat → R} {a : PyNW.Args R}
    {r : PyRes (List Nat)} (h : pg.getMaxClique srt junk a = .ok (pg', r)) :
    pg.getMaxCliqueA grow srt junk hp a = .ok (pg', .of r) ∨
    (¬ P ∧ ∃ pg'', pg.getMaxCliqueA grow srt junk hp a = .ok (pg'', .noMemory) ∧
      (pg'' = pg' ∨ pg''.finishedAll = pg.finishedAll ∧
        pg''.currentVertex = 0)) := by
  unfold PyNW.getMaxClique at h
  unfold PyNW.getMaxCliqueA
  dsimp only at h ⊢
  cases hl : PyNW.checkLoaded { pg with currentVertex := 0 } with
  | none =>
    rw [hl] at h
    cases h
    dsimp only
    rcases Heap.request_either hq with ⟨h', k1, k2⟩ | ⟨k0, k2⟩
    · rw [k2]; exact Or.inl rfl
    · rw [k2]; exact Or.inr ⟨k0, _, rfl, Or.inl rfl⟩
  | some H =>
    rw [hl] at h
    dsimp only at h ⊢
    obtain ⟨⟨H1, cv⟩, e1, h⟩ := bind_eq_ok.1 h
    rcases findMaxA_either (grow := grow) hq e1 with ⟨hp', k1, k2⟩ | ⟨k0, X, k2⟩
    · rw [k2, ok_bind]
      dsimp only at h ⊢
      obtain ⟨⟨H2, ans⟩, e2, h⟩ := bind_eq_ok.1 h
      rw [e2, ok_bind]
      dsimp only at h ⊢
      obtain ⟨w, e3, h⟩ := bind_eq_ok.1 h
      rcases Heap.request_either k1 with ⟨h1, m1, m2⟩ | ⟨m0, m2⟩
      · rw [m2]
        dsimp only
        rw [e3, ok_bind]
        rcases Heap.request_either m1 with ⟨h2, n1, n2⟩ | ⟨n0, n2⟩
        · rw [n2]
          dsimp only
          split at h
          · rename_i hw
            rw [if_pos hw]
            cases h
            exact Or.inl rfl
          · rename_i hw
            rw [if_neg hw]
            cases h
            exact Or.inl rfl
        · rw [n2]
          refine Or.inr ⟨n0, _, rfl, Or.inl ?_⟩
          split at h <;> cases h <;> rfl
      · rw [m2]
        refine Or.inr ⟨m0, _, rfl, Or.inl ?_⟩
        split at h <;> cases h <;> rfl
    · rw [k2]
      exact Or.inr ⟨k0, _, rfl, Or.inr ⟨rfl, rfl⟩⟩

end NWG

end CM
