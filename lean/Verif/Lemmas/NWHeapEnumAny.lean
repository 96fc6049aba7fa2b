import Verif.Lemmas.NWHeapAny
import Verif.Model.NWHeapEnum

/-!
# Weighted iterators with a heap, whatever the graph: as without, unless memory runs out
-/

namespace CM

open Spec Graph

namespace NWG

set_option linter.unusedSectionVars false

variable {R : Type} [Zero R] [Add R] [Sub R] [NatCast R] [LT R] [LE R] [DecidableLT R]
  [DecidableLE R]

variable {P : Prop} {grow : Nat → Nat} {H : NWG R} {q : Vecs}

theorem enumScanA_either (hq : P → q.heap = none) {V U : Vtx} {cand : GBits} {eb : Mem}
    {ws : List R} {cw wj required : R} {k0 : Nat} {cp0 : R} {r : List Nat × R}
    (h : H.enumScan V U cand eb ws cw wj required k0 cp0 = .ok r) :
    (∃ q', (P → q'.heap = none) ∧ H.enumScanA grow V U cand eb ws cw wj required k0 cp0 q =
      .ok (some (r.1, r.2, q'))) ∨
    (¬ P ∧ H.enumScanA grow V U cand eb ws cw wj required k0 cp0 q = .ok none) := by
  unfold enumScan at h
  unfold enumScanA
  rcases loop_either (P := P) (g := fun (s : (Nat × List Nat × R) × Vecs) => do
    let ((k, rm, cp), q) := s
    if k < V.N ∧ cp + cw + wj ≥ required then
      if ← cand.test eb k then do
        let val ← H.g.nbr V k
        let (f, _) ← binaryFind H.g.el (uadd U.elo U.spos) (usub U.N U.spos) val
        if f then .ok (.inl ((k + 1, rm, cp), q))
        else
          match q.pushRemove grow rm.length with
          | none => .ok (.inr none)
          | some q => do
            let w ← rd ws k
            .ok (.inl ((k + 1, rm ++ [k], cp - w), q))
      else .ok (.inl ((k + 1, rm, cp), q))
    else .ok (.inr (some (rm, cp, q))))
    (good := fun (r : List Nat × R) r' =>
      ∃ q' : Vecs, (P → q'.heap = none) ∧ r' = some (r.1, r.2, q'))
    (bad := fun r' => r' = none)
    (by
      rintro ⟨k, rm, cp⟩ s' q hq hf
      dsimp only at hf ⊢
      split at hf
      · rename_i hc
        rw [if_pos hc]
        obtain ⟨t, e0, hf⟩ := bind_eq_ok.1 hf
        rw [e0, ok_bind]
        cases t with
        | false =>
          simp only [Bool.false_eq_true, if_false] at hf ⊢
          cases hf
          exact Or.inl ⟨q, hq, rfl⟩
        | true =>
          simp only [if_true] at hf ⊢
          obtain ⟨val, e1, hf⟩ := bind_eq_ok.1 hf
          rw [e1, ok_bind]
          obtain ⟨⟨f, ans⟩, e2, hf⟩ := bind_eq_ok.1 hf
          rw [e2, ok_bind]
          dsimp only at hf ⊢
          cases f with
          | true =>
            simp only [if_true] at hf ⊢
            cases hf
            exact Or.inl ⟨q, hq, rfl⟩
          | false =>
            simp only [Bool.false_eq_true, if_false] at hf ⊢
            obtain ⟨w, e3, hf⟩ := bind_eq_ok.1 hf
            rcases Vecs.pushRemove_either hq grow rm.length with ⟨q', k1, k2⟩ | ⟨k0, k2⟩
            · rw [k2]
              dsimp only
              rw [e3, ok_bind]
              cases hf
              exact Or.inl ⟨q', k1, rfl⟩
            · rw [k2]
              exact Or.inr ⟨k0, none, rfl, rfl⟩
      · cases hf)
    (by
      rintro ⟨k, rm, cp⟩ r q hq hf
      dsimp only at hf ⊢
      split at hf
      · obtain ⟨t, e0, hf⟩ := bind_eq_ok.1 hf
        cases t with
        | false => simp at hf
        | true =>
          simp only [if_true] at hf
          obtain ⟨val, e1, hf⟩ := bind_eq_ok.1 hf
          obtain ⟨⟨f, ans⟩, e2, hf⟩ := bind_eq_ok.1 hf
          dsimp only at hf
          cases f with
          | true => simp at hf
          | false =>
            simp only [Bool.false_eq_true, if_false] at hf
            obtain ⟨w, e3, hf⟩ := bind_eq_ok.1 hf
            simp at hf
      · rename_i hc
        rw [if_neg hc]
        cases hf
        exact Or.inl ⟨_, ⟨q, hq, rfl⟩, rfl⟩)
    _ _ _ q hq h with ⟨r', ⟨q', k1, rfl⟩, k2⟩ | ⟨k0, r', rfl, k2⟩
  · exact Or.inl ⟨q', k1, k2⟩
  · exact Or.inr ⟨k0, k2⟩

/-- The same exit, with capacities. -/
def EnumExit.Goes (P : Prop) (x : EnumExit R) (x' : EnumExitA R) : Prop :=
  ∃ q : Vecs, (P → q.heap = none) ∧
    match x with
    | .found H top => x' = .found H top q
    | .pushed H top new cw => x' = .pushed H top new cw q
    | .done H top => x' = .done H top q

theorem enumForA_either (hq : P → q.heap = none) {V : Vtx} {req : Nat} {ws : List R}
    {cw required : R} {size : Nat} {s : NWG R × WState R × Nat}
    {x : (NWG R × WState R × Nat) ⊕ EnumExit R} (h : enumFor V req ws cw required s = .ok x) :
    (∃ x', enumForA grow V req ws cw required size (s, q) = .ok x' ∧
      match x with
      | .inl s' => ∃ q', (P → q'.heap = none) ∧ x' = .inl (s', q')
      | .inr e => ∃ e', e.Goes P e' ∧ x' = .inr e') ∨
    (¬ P ∧ ∃ H' t' c', enumForA grow V req ws cw required size (s, q) =
      .ok (.inr (.oom H' t' c'))) := by
  obtain ⟨H, top, j⟩ := s
  unfold enumFor at h
  unfold enumForA
  dsimp only at h ⊢
  split at h
  · rename_i hc
    rw [if_pos hc]
    obtain ⟨t, e0, h⟩ := bind_eq_ok.1 h
    rw [e0, ok_bind]
    cases t with
    | false =>
      simp only [Bool.false_eq_true, if_false] at h ⊢
      cases h
      exact Or.inl ⟨_, rfl, q, hq, rfl⟩
    | true =>
      simp only [if_true] at h ⊢
      obtain ⟨eb, e1, h⟩ := bind_eq_ok.1 h
      rw [e1, ok_bind]
      obtain ⟨⟨eb', c⟩, e2, h⟩ := bind_eq_ok.1 h
      rw [e2, ok_bind]
      dsimp only at h ⊢
      obtain ⟨wj, e3, h⟩ := bind_eq_ok.1 h
      rw [e3, ok_bind]
      obtain ⟨vert, e5, h⟩ := bind_eq_ok.1 h
      rw [e5, ok_bind]
      obtain ⟨U, e6, h⟩ := bind_eq_ok.1 h
      rw [e6, ok_bind]
      obtain ⟨⟨rm, cp⟩, e7, h⟩ := bind_eq_ok.1 h
      rcases enumScanA_either (grow := grow) hq e7 with ⟨q', k1, k2⟩ | ⟨k0, k2⟩
      · rw [k2, ok_bind]
        dsimp only at h ⊢
        split at h
        · rename_i hp
          rw [if_pos hp]
          split at h
          · rename_i hl
            rw [if_pos hl]
            obtain ⟨a1, f1, h⟩ := bind_eq_ok.1 h
            rw [f1, ok_bind]
            obtain ⟨a2, f2, h⟩ := bind_eq_ok.1 h
            rw [f2, ok_bind]
            obtain ⟨a3, f3, h⟩ := bind_eq_ok.1 h
            rw [f3, ok_bind]
            obtain ⟨a4, f4, h⟩ := bind_eq_ok.1 h
            rw [f4, ok_bind]
            cases h
            exact Or.inl ⟨_, rfl, _, ⟨q', k1, rfl⟩, rfl⟩
          · rename_i hl
            rw [if_neg hl]
            obtain ⟨⟨a1, a1'⟩, f1, h⟩ := bind_eq_ok.1 h
            rw [f1, ok_bind]
            dsimp only at h ⊢
            obtain ⟨a2, f2, h⟩ := bind_eq_ok.1 h
            rw [f2, ok_bind]
            obtain ⟨a3, f3, h⟩ := bind_eq_ok.1 h
            rw [f3, ok_bind]
            cases h
            rcases Vecs.pushState_either k1 grow size with ⟨q2, m1, m2⟩ | ⟨m0, m2⟩
            · rw [m2]
              exact Or.inl ⟨_, rfl, _, ⟨q2, m1, rfl⟩, rfl⟩
            · rw [m2]
              exact Or.inr ⟨m0, _, _, _, rfl⟩
        · rename_i hp
          rw [if_neg hp]
          cases h
          exact Or.inl ⟨_, rfl, q', k1, rfl⟩
      · rw [k2]
        exact Or.inr ⟨k0, _, _, _, rfl⟩
  · rename_i hc
    rw [if_neg hc]
    cases h
    exact Or.inl ⟨_, rfl, _, ⟨q, hq, rfl⟩, rfl⟩

theorem enumLoadA_either (hq : P → q.heap = none) {E : WEnum R} {r : NWG R × WEnum R × Bool}
    (h : H.enumLoad E = .ok r) :
    (∃ q', (P → q'.heap = none) ∧ H.enumLoadA grow E q = .ok (r.1, r.2.1, q', some r.2.2)) ∨
    (¬ P ∧ ∃ H' E' q', H.enumLoadA grow E q = .ok (H', E', q', none)) := by
  unfold enumLoad at h
  unfold enumLoadA
  dsimp only at h ⊢
  obtain ⟨V, e1, h⟩ := bind_eq_ok.1 h
  rw [e1, ok_bind]
  obtain ⟨⟨g, x⟩, e2, h⟩ := bind_eq_ok.1 h
  rw [e2, ok_bind]
  dsimp only at h ⊢
  obtain ⟨⟨eb, ws, pot⟩, e3, h⟩ := bind_eq_ok.1 h
  rw [e3, ok_bind]
  dsimp only at h ⊢
  obtain ⟨wc, e4, h⟩ := bind_eq_ok.1 h
  rw [e4, ok_bind]
  split at h
  · rename_i hc
    rw [if_pos hc]
    obtain ⟨a1, f1, h⟩ := bind_eq_ok.1 h
    rw [f1, ok_bind]
    cases h
    exact Or.inl ⟨q, hq, rfl⟩
  · rename_i hc
    rw [if_neg hc]
    cases h
    rcases Vecs.pushState_either hq grow E.states.length with ⟨q2, m1, m2⟩ | ⟨m0, m2⟩
    · rw [m2]
      exact Or.inl ⟨q2, m1, rfl⟩
    · rw [m2]
      exact Or.inr ⟨m0, _, _, _, rfl⟩

theorem enumVertexA_either (hq : P → q.heap = none) {E : WEnum R} {r : NWG R × WEnum R}
    (h : H.enumVertex E = .ok r) :
    (∃ q', (P → q'.heap = none) ∧ H.enumVertexA grow E q = .ok (r.1, r.2, q', true)) ∨
    (¬ P ∧ ∃ H' E' q', H.enumVertexA grow E q = .ok (H', E', q', false)) := by
  unfold enumVertex at h
  unfold enumVertexA
  rcases loop_either (P := P) (g := fun (s : (NWG R × WEnum R) × Vecs) => do
    let ((H, E), q) := s
    if E.cur < H.g.vs.length then do
      let m ← rd H.mcs E.cur
      if m < E.required then .ok (.inl ((H, { E with cur := E.cur + 1 }), q))
      else do
        match ← H.enumLoadA grow E q with
        | (H, E, q, none) => .ok (.inr (H, E, q, false))
        | (H, E, q, some true) => .ok (.inr (H, E, q, true))
        | (H, E, q, some false) => .ok (.inl ((H, { E with cur := E.cur + 1 }), q))
    else .ok (.inr (H, E, q, true)))
    (good := fun (r : NWG R × WEnum R) (r' : NWG R × WEnum R × Vecs × Bool) =>
      ∃ q' : Vecs, (P → q'.heap = none) ∧ r' = (r.1, r.2, q', true))
    (bad := fun r' => ∃ H' E' q', r' = (H', E', q', false))
    (by
      rintro ⟨H, E⟩ s' q hq hf
      dsimp only at hf ⊢
      split at hf
      · rename_i hc
        rw [if_pos hc]
        obtain ⟨V, e1, hf⟩ := bind_eq_ok.1 hf
        rw [e1, ok_bind]
        split at hf
        · rename_i hm
          rw [if_pos hm]
          cases hf
          exact Or.inl ⟨q, hq, rfl⟩
        · rename_i hm
          rw [if_neg hm]
          obtain ⟨⟨H1, E1, b⟩, e2, hf⟩ := bind_eq_ok.1 hf
          rcases enumLoadA_either (grow := grow) hq e2 with ⟨q', k1, k2⟩ | ⟨k0, H', E', q', k2⟩
          · rw [k2, ok_bind]
            cases b with
            | true => simp at hf
            | false =>
              simp only [Bool.false_eq_true, if_false] at hf
              cases hf
              exact Or.inl ⟨q', k1, rfl⟩
          · rw [k2]
            exact Or.inr ⟨k0, _, ⟨_, _, _, rfl⟩, rfl⟩
      · cases hf)
    (by
      rintro ⟨H, E⟩ r q hq hf
      dsimp only at hf ⊢
      split at hf
      · rename_i hc
        rw [if_pos hc]
        obtain ⟨V, e1, hf⟩ := bind_eq_ok.1 hf
        rw [e1, ok_bind]
        split at hf
        · cases hf
        · rename_i hm
          rw [if_neg hm]
          obtain ⟨⟨H1, E1, b⟩, e2, hf⟩ := bind_eq_ok.1 hf
          rcases enumLoadA_either (grow := grow) hq e2 with ⟨q', k1, k2⟩ | ⟨k0, H', E', q', k2⟩
          · rw [k2, ok_bind]
            cases b with
            | true =>
              simp only [if_true] at hf
              cases hf
              exact Or.inl ⟨_, ⟨q', k1, rfl⟩, rfl⟩
            | false => simp at hf
          · rw [k2]
            exact Or.inr ⟨k0, _, ⟨_, _, _, rfl⟩, rfl⟩
      · rename_i hc
        rw [if_neg hc]
        cases hf
        exact Or.inl ⟨_, ⟨q, hq, rfl⟩, rfl⟩)
    _ _ _ q hq h with ⟨r', ⟨q', k1, rfl⟩, k2⟩ | ⟨k0, r', ⟨H', E', q', rfl⟩, k2⟩
  · exact Or.inl ⟨q', k1, k2⟩
  · exact Or.inr ⟨k0, _, _, _, k2⟩

theorem enumBodyA_either (hq : P → q.heap = none) {s : NWG R × WEnum R}
    {x : (NWG R × WEnum R) ⊕ (NWG R × WEnum R × Nat)} (h : enumBody s = .ok x) :
    (∃ q', (P → q'.heap = none) ∧ enumBodyA grow (s, q) = .ok
      (match x with
      | .inl s' => .inl (s', q')
      | .inr r => .inr (r.1, r.2.1, q', some r.2.2))) ∨
    (¬ P ∧ ∃ H' E' q', enumBodyA grow (s, q) = .ok (.inr (H', E', q', none))) := by
  obtain ⟨H, E⟩ := s
  unfold enumBody at h
  unfold enumBodyA
  dsimp only at h ⊢
  split at h
  · rename_i hc
    rw [if_pos hc]
    cases hst : E.states with
    | nil =>
      rw [hst] at h
      dsimp only at h ⊢
      obtain ⟨H1, e1, h⟩ := bind_eq_ok.1 h
      rw [e1, ok_bind]
      obtain ⟨⟨H2, E2⟩, e2, h⟩ := bind_eq_ok.1 h
      cases h
      rcases enumVertexA_either (grow := grow) hq e2 with ⟨q', k1, k2⟩ | ⟨k0, H', E', q', k2⟩
      · rw [k2]
        exact Or.inl ⟨q', k1, rfl⟩
      · rw [k2]
        exact Or.inr ⟨k0, _, _, _, rfl⟩
    | cons top rest =>
      rw [hst] at h
      dsimp only at h ⊢
      obtain ⟨V, e1, h⟩ := bind_eq_ok.1 h
      rw [e1, ok_bind]
      obtain ⟨⟨eb, left⟩, e2, h⟩ := bind_eq_ok.1 h
      rw [e2, ok_bind]
      dsimp only at h ⊢
      obtain ⟨r, e3, h⟩ := bind_eq_ok.1 h
      rcases loop_either (P := P) (good := EnumExit.Goes P)
        (g := enumForA grow V E.req E.ws E.cliqueWeight E.required (rest.length + 1))
        (bad := fun r' => ∃ H' t' c', r' = .oom H' t' c')
        (by
          intro s s' q hq hf
          rcases enumForA_either (grow := grow) (size := rest.length + 1) hq hf with
            ⟨x', k1, q', k2, rfl⟩ | ⟨k0, H', t', c', k1⟩
          · exact Or.inl ⟨q', k2, k1⟩
          · exact Or.inr ⟨k0, _, ⟨H', t', c', rfl⟩, k1⟩)
        (by
          intro s r q hq hf
          rcases enumForA_either (grow := grow) (size := rest.length + 1) hq hf with
            ⟨x', k1, e', k2, rfl⟩ | ⟨k0, H', t', c', k1⟩
          · exact Or.inl ⟨e', k2, k1⟩
          · exact Or.inr ⟨k0, _, ⟨H', t', c', rfl⟩, k1⟩)
        _ _ _ q hq e3 with ⟨r', ⟨q', k1, k2⟩, k3⟩ | ⟨k0, r', ⟨H', t', c', rfl⟩, k3⟩
      · rw [k3, ok_bind]
        cases r with
        | found H1 top1 =>
          cases k2
          cases h
          exact Or.inl ⟨q', k1, rfl⟩
        | pushed H1 top1 new cw1 =>
          cases k2
          cases h
          exact Or.inl ⟨q', k1, rfl⟩
        | done H1 top1 =>
          cases k2
          dsimp only at h ⊢
          obtain ⟨a1, f1, h⟩ := bind_eq_ok.1 h
          rw [f1, ok_bind]
          obtain ⟨a2, f2, h⟩ := bind_eq_ok.1 h
          rw [f2, ok_bind]
          obtain ⟨a3, f3, h⟩ := bind_eq_ok.1 h
          rw [f3, ok_bind]
          cases h
          exact Or.inl ⟨q', k1, rfl⟩
      · rw [k3]
        exact Or.inr ⟨k0, _, _, _, rfl⟩
  · rename_i hc
    rw [if_neg hc]
    cases h
    exact Or.inl ⟨q, hq, rfl⟩

theorem enumReserve_either (hq : P → q.heap = none) (wcap : Nat) :
    (∃ q' w', (P → q'.heap = none) ∧ H.enumReserve q wcap = (q', w', true)) ∨
    (¬ P ∧ ∃ q' w', H.enumReserve q wcap = (q', w', false)) := by
  unfold enumReserve
  rcases reserve_either hq H.g.limit with ⟨q1, hq1, hc⟩ | ⟨k0, q1, hc⟩
  · rw [hc]
    dsimp only
    split
    · exact Or.inl ⟨q1, wcap, hq1, rfl⟩
    · rcases Heap.request_either hq1 with ⟨h', k1, k2⟩ | ⟨k0, k2⟩
      · rw [k2]
        exact Or.inl ⟨_, _, k1, rfl⟩
      · rw [k2]
        exact Or.inr ⟨k0, _, _, rfl⟩
  · rw [hc]
    exact Or.inr ⟨k0, q1, wcap, rfl⟩

theorem enumGraphA_either (hq : P → q.heap = none) (wcap : Nat) {E : WEnum R}
    {r : NWG R × WEnum R × Nat} (h : H.enumGraph E = .ok r) :
    (∃ q' w', (P → q'.heap = none) ∧
      H.enumGraphA grow E q wcap = .ok ((r.1, r.2.1, q', some r.2.2), w')) ∨
    (¬ P ∧ ∃ H' E' q' w', H.enumGraphA grow E q wcap = .ok ((H', E', q', none), w')) := by
  unfold enumGraph at h
  unfold enumGraphA
  rcases enumReserve_either (H := H) hq wcap with ⟨q1, w1, hq1, hc⟩ | ⟨k0, q1, w1, hc⟩
  · rw [hc]
    dsimp only
    rcases loop_either (P := P)
      (good := fun (r : NWG R × WEnum R × Nat) (r' : NWG R × WEnum R × Vecs × Option Nat) =>
        ∃ q' : Vecs, (P → q'.heap = none) ∧ r' = (r.1, r.2.1, q', some r.2.2))
      (bad := fun r' => ∃ H' E' q', r' = (H', E', q', none))
      (g := enumBodyA grow)
      (by
        intro s s' q hq hf
        rcases enumBodyA_either (grow := grow) hq hf with ⟨q', k2, k1⟩ | ⟨k0, H', E', q', k1⟩
        · exact Or.inl ⟨q', k2, k1⟩
        · exact Or.inr ⟨k0, _, ⟨H', E', q', rfl⟩, k1⟩)
      (by
        intro s r q hq hf
        rcases enumBodyA_either (grow := grow) hq hf with ⟨q', k2, k1⟩ | ⟨k0, H', E', q', k1⟩
        · exact Or.inl ⟨_, ⟨q', k2, rfl⟩, k1⟩
        · exact Or.inr ⟨k0, _, ⟨H', E', q', rfl⟩, k1⟩)
      _ _ _ q1 hq1 h with ⟨r', ⟨q', k1, rfl⟩, k3⟩ | ⟨k0, r', ⟨H', E', q', rfl⟩, k3⟩
    · rw [k3]
      exact Or.inl ⟨q', w1, k1, rfl⟩
    · rw [k3]
      exact Or.inr ⟨k0, _, _, _, _, rfl⟩
  · rw [hc]
    exact Or.inr ⟨k0, _, _, _, _, rfl⟩

/-- One `__next__`. -/
theorem nextCliqueA_either (hq : P → q.heap = none) (wcap : Nat) {pg : PyNW R} {E : WEnum R}
    {r : PyNW R × WEnum R × Option (List Nat)} (h : pg.nextClique E = .ok r) :
    (∃ q', pg.nextCliqueA grow E q wcap = .ok (r.1, r.2.1, q', .ret r.2.2)) ∨
    (¬ P ∧ ∃ pg' E' q', pg.nextCliqueA grow E q wcap = .ok (pg', E', q', .noMemory)) := by
  unfold PyNW.nextClique at h
  unfold PyNW.nextCliqueA
  cases hg : pg.G with
  | none => rw [hg] at h; cases h
  | some H =>
    rw [hg] at h
    dsimp only at h ⊢
    obtain ⟨⟨H1, E1, v⟩, e1, h⟩ := bind_eq_ok.1 h
    dsimp only at h
    rcases enumGraphA_either (grow := grow) hq wcap e1 with
      ⟨q', w', k1, k2⟩ | ⟨k0, H', E', q', w', k2⟩
    · rw [k2, ok_bind]
      dsimp only
      split at h
      · rename_i hv
        rw [if_pos hv]
        cases h
        exact Or.inl ⟨_, rfl⟩
      · rename_i hv
        rw [if_neg hv]
        obtain ⟨⟨H2, ans⟩, e2, h⟩ := bind_eq_ok.1 h
        rw [e2, ok_bind]
        cases h
        dsimp only
        rcases Heap.request_either k1 with ⟨h1, m1, m2⟩ | ⟨m0, m2⟩
        · rw [m2]
          dsimp only
          rcases Heap.request_either m1 with ⟨h2, n1, n2⟩ | ⟨n0, n2⟩
          · rw [n2]
            exact Or.inl ⟨_, rfl⟩
          · rw [n2]
            exact Or.inr ⟨n0, _, _, _, rfl⟩
        · rw [m2]
          exact Or.inr ⟨m0, _, _, _, rfl⟩
    · rw [k2]
      exact Or.inr ⟨k0, _, _, _, rfl⟩

/-- Several `__next__`: up to the first that raises `MemoryError` as with enough memory. -/
theorem nextsA_either : ∀ (heaps : List Heap) {pg pg' : PyNW R} {E E' : WEnum R}
    {cs : List (Option (List Nat))} (q : Vecs × Nat), pg.nexts heaps.length E = .ok (pg', E', cs) →
    (∃ q', pg.nextsA grow heaps E q = .ok (pg', E', q', cs.map .ret)) ∨
    ∃ pre hp post pg2 E2 q2, heaps = pre ++ hp :: post ∧ hp ≠ none ∧
      pg.nextsA grow (pre ++ [hp]) E q =
        .ok (pg2, E2, q2, (cs.take pre.length).map .ret ++ [.noMemory])
  | [], pg, pg', E, E', cs, q, h => by
    cases h
    exact Or.inl ⟨q, rfl⟩
  | hp :: hs, pg, pg', E, E', cs, q, h => by
    rw [List.length_cons] at h
    unfold PyNW.nexts at h
    obtain ⟨⟨pg1, E1, c⟩, e1, h⟩ := bind_eq_ok.1 h
    dsimp only at h
    obtain ⟨⟨pg2, E2, cs2⟩, e2, h⟩ := bind_eq_ok.1 h
    cases h
    rcases nextCliqueA_either (P := hp = none) (grow := grow) (q := { q.1 with heap := hp }) id q.2
        e1 with
      ⟨q1, k1⟩ | ⟨k0, pgX, EX, qX, k1⟩
    · rcases nextsA_either hs q1 e2 with ⟨q', m1⟩ | ⟨pre, h', post, pg3, E3, q3, m1, m2, m3⟩
      · left
        unfold PyNW.nextsA
        rw [k1, ok_bind]
        dsimp only
        rw [m1]
        exact ⟨q', rfl⟩
      · right
        refine ⟨hp :: pre, h', post, pg3, E3, q3, by rw [m1]; rfl, m2, ?_⟩
        rw [List.cons_append]
        unfold PyNW.nextsA
        rw [k1, ok_bind]
        dsimp only
        rw [m3]
        rfl
    · right
      refine ⟨[], hp, hs, pgX, EX, qX, rfl, k0, ?_⟩
      show PyNW.nextsA grow [hp] pg E q = _
      unfold PyNW.nextsA
      rw [k1]
      rfl

end NWG

end CM
