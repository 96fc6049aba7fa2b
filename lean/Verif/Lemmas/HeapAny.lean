import Verif.Lemmas.HeapUse

/-!
# Searches and iterators with a heap, whatever the graph: as without, unless memory runs out
-/

namespace CM

open Spec Graph

section

variable {P : Prop}

/-- A loop that carries capacities and may stop for lack of memory (only if `¬ P`). -/
theorem loop_either {σ ρ ρ' : Type} {f : σ → M (σ ⊕ ρ)} {g : σ × Vecs → M ((σ × Vecs) ⊕ ρ')}
    {good : ρ → ρ' → Prop} {bad : ρ' → Prop}
    (h1 : ∀ s s' q, (P → q.heap = none) → f s = .ok (.inl s') →
      (∃ q', (P → q'.heap = none) ∧ g (s, q) = .ok (.inl (s', q'))) ∨
      (¬ P ∧ ∃ r', bad r' ∧ g (s, q) = .ok (.inr r')))
    (h2 : ∀ s r q, (P → q.heap = none) → f s = .ok (.inr r) →
      (∃ r', good r r' ∧ g (s, q) = .ok (.inr r')) ∨
      (¬ P ∧ ∃ r', bad r' ∧ g (s, q) = .ok (.inr r'))) :
    ∀ (n : Nat) (s : σ) (r : ρ) (q : Vecs), (P → q.heap = none) → loop n f s = .ok r →
      (∃ r', good r r' ∧ loop n g (s, q) = .ok r') ∨
      (¬ P ∧ ∃ r', bad r' ∧ loop n g (s, q) = .ok r') := by
  intro n
  induction n with
  | zero => intro s r q _ h; cases h
  | succ n ih =>
    intro s r q hq h
    unfold loop at h ⊢
    cases hf : f s with
    | error e => rw [hf] at h; cases h
    | ok x =>
      rw [hf] at h
      cases x with
      | inl s' =>
        rcases h1 s s' q hq hf with ⟨q', k1, k2⟩ | ⟨k0, r', k1, k2⟩
        · rw [k2]
          exact ih s' r q' k1 h
        · rw [k2]
          exact Or.inr ⟨k0, r', k1, rfl⟩
      | inr r1 =>
        cases h
        rcases h2 s r q hq hf with ⟨r', k1, k2⟩ | ⟨k0, r', k1, k2⟩
        · rw [k2]
          exact Or.inl ⟨r', k1, rfl⟩
        · rw [k2]
          exact Or.inr ⟨k0, r', k1, rfl⟩

theorem forN_stuck {τ : Type} {g : Nat → τ → M τ} {stuck : τ → Prop}
    (h0 : ∀ i t, stuck t → g i t = .ok t) :
    ∀ (m lo : Nat) (t : τ), stuck t → forN m lo g t = .ok t := by
  intro m
  induction m with
  | zero => intro lo t _; rfl
  | succ m ih =>
    intro lo t ht
    unfold forN
    rw [h0 _ _ ht]
    exact ih _ t ht

/-- The same for loops over a range, which may get stuck. -/
theorem forN_either {σ τ : Type} {f : Nat → σ → M σ} {g : Nat → τ → M τ} {l : σ → Vecs → τ}
    {stuck : τ → Prop} (h0 : ∀ i t, stuck t → g i t = .ok t)
    (h1 : ∀ i s s' q, (P → q.heap = none) → f i s = .ok s' →
      (∃ q', (P → q'.heap = none) ∧ g i (l s q) = .ok (l s' q')) ∨
      (¬ P ∧ ∃ t, stuck t ∧ g i (l s q) = .ok t)) :
    ∀ (m lo : Nat) (s s' : σ) (q : Vecs), (P → q.heap = none) → forN m lo f s = .ok s' →
      (∃ q', (P → q'.heap = none) ∧ forN m lo g (l s q) = .ok (l s' q')) ∨
      (¬ P ∧ ∃ t, stuck t ∧ forN m lo g (l s q) = .ok t) := by
  intro m
  induction m with
  | zero => intro lo s s' q hq h; cases h; exact Or.inl ⟨q, hq, rfl⟩
  | succ m ih =>
    intro lo s s' q hq h
    unfold forN at h ⊢
    cases hf : f lo s with
    | error e => rw [hf] at h; cases h
    | ok s1 =>
      rw [hf] at h
      rcases h1 lo s s1 q hq hf with ⟨q', k1, k2⟩ | ⟨k0, t, k1, k2⟩
      · rw [k2]
        exact ih _ s1 s' q' k1 h
      · rw [k2]
        exact Or.inr ⟨k0, t, k1, forN_stuck h0 _ _ _ k1⟩

theorem Heap.request_either {h : Heap} (hq : P → h = none) :
    (∃ h', (P → h' = none) ∧ h.request = some h') ∨ (¬ P ∧ h.request = none) := by
  cases h with
  | none => exact Or.inl ⟨none, fun _ => rfl, rfl⟩
  | some n =>
    have hP : ¬ P := fun p => by cases hq p
    cases n with
    | zero => exact Or.inr ⟨hP, rfl⟩
    | succ n => exact Or.inl ⟨some n, fun p => absurd p hP, rfl⟩

theorem Vecs.pushState_either {q : Vecs} (hq : P → q.heap = none) (grow : Nat → Nat) (size : Nat) :
    (∃ q', (P → q'.heap = none) ∧ q.pushState grow size = some q') ∨
    (¬ P ∧ q.pushState grow size = none) := by
  unfold Vecs.pushState
  split
  · exact Or.inl ⟨q, hq, rfl⟩
  · rcases Heap.request_either hq with ⟨h', k1, k2⟩ | ⟨k1, k2⟩
    · rw [k2]; exact Or.inl ⟨_, k1, rfl⟩
    · rw [k2]; exact Or.inr ⟨k1, rfl⟩

theorem Vecs.pushRemove_either {q : Vecs} (hq : P → q.heap = none) (grow : Nat → Nat) (size : Nat) :
    (∃ q', (P → q'.heap = none) ∧ q.pushRemove grow size = some q') ∨
    (¬ P ∧ q.pushRemove grow size = none) := by
  unfold Vecs.pushRemove
  split
  · exact Or.inl ⟨q, hq, rfl⟩
  · rcases Heap.request_either hq with ⟨h', k1, k2⟩ | ⟨k1, k2⟩
    · rw [k2]; exact Or.inl ⟨_, k1, rfl⟩
    · rw [k2]; exact Or.inr ⟨k1, rfl⟩

end

namespace Graph

variable {P : Prop} {grow : Nat → Nat} {G : Graph} {q : Vecs}

theorem keep_either (hq : P → q.heap = none) (f : Bool) (size : Nat) :
    (∃ q', (P → q'.heap = none) ∧ (if f then some q else q.pushRemove grow size) = some q') ∨
    (¬ P ∧ (if f then some q else q.pushRemove grow size) = none) := by
  cases f with
  | true => exact Or.inl ⟨q, hq, rfl⟩
  | false => exact Vecs.pushRemove_either hq grow size

theorem stackScanA_either (hq : P → q.heap = none) {V U : Vtx} {cand : GBits} {eb : Mem}
    {left cs k0 pot0 : Nat} {r : List Nat × Nat}
    (h : G.stackScan V U cand eb left cs k0 pot0 = .ok r) :
    (∃ q', (P → q'.heap = none) ∧ G.stackScanA grow V U cand eb left cs k0 pot0 q =
      .ok (some (r.1, r.2, q'))) ∨
    (¬ P ∧ G.stackScanA grow V U cand eb left cs k0 pot0 q = .ok none) := by
  unfold stackScan at h
  unfold stackScanA
  rcases loop_either (P := P) (g := fun (s : (Nat × Nat × List Nat × Nat) × Vecs) =>
    let ((k, start, rm, pot), q) := s
    if k < V.N ∧ pot > G.curMax then do
      let val ← G.nbr V k
      let (f, ans) ← binaryFind G.el (uadd U.elo start) (usub U.N start) val
      match (if f then some q else q.pushRemove grow rm.length) with
      | none => .ok (.inr none)
      | some q => do
        let rm := if f then rm else rm ++ [k]
        let start := uadd start ans
        let pot := usub left rm.length + cs + 1
        let k ← cand.next eb (k + 1)
        .ok (.inl ((k, start, rm, pot), q))
    else .ok (.inr (some (rm, pot, q))))
    (good := fun (r : List Nat × Nat) r' =>
      ∃ q' : Vecs, (P → q'.heap = none) ∧ r' = some (r.1, r.2, q'))
    (bad := fun r' => r' = none)
    (by
      rintro ⟨k, start, rm, pot⟩ s' q hq hf
      dsimp only at hf ⊢
      split at hf
      · rename_i hc
        rw [if_pos hc]
        obtain ⟨val, e1, hf⟩ := bind_eq_ok.1 hf
        rw [e1, ok_bind]
        obtain ⟨⟨f, ans⟩, e2, hf⟩ := bind_eq_ok.1 hf
        rw [e2, ok_bind]
        dsimp only at hf ⊢
        obtain ⟨k', e3, hf⟩ := bind_eq_ok.1 hf
        rcases keep_either (grow := grow) hq f rm.length with ⟨q', k1, k2⟩ | ⟨k0, k2⟩
        · rw [k2]
          dsimp only
          rw [e3, ok_bind]
          simp only [Except.ok.injEq, Sum.inl.injEq] at hf
          rw [← hf]
          exact Or.inl ⟨q', k1, rfl⟩
        · rw [k2]
          exact Or.inr ⟨k0, none, rfl, rfl⟩
      · cases hf)
    (by
      rintro ⟨k, start, rm, pot⟩ r q hq hf
      dsimp only at hf ⊢
      split at hf
      · obtain ⟨val, e1, hf⟩ := bind_eq_ok.1 hf
        obtain ⟨⟨f, ans⟩, e2, hf⟩ := bind_eq_ok.1 hf
        dsimp only at hf
        obtain ⟨k', e4, hf⟩ := bind_eq_ok.1 hf
        simp at hf
      · rename_i hc
        rw [if_neg hc]
        cases hf
        exact Or.inl ⟨_, ⟨q, hq, rfl⟩, rfl⟩)
    _ _ _ q hq h with ⟨r', ⟨q', k1, rfl⟩, k2⟩ | ⟨k0, r', rfl, k2⟩
  · exact Or.inl ⟨q', k1, k2⟩
  · exact Or.inr ⟨k0, k2⟩

/-- The same exit, with capacities. -/
def ForExit.Goes (P : Prop) (x : ForExit) (x' : ForExitA) : Prop :=
  ∃ q : Vecs, (P → q.heap = none) ∧
    match x with
    | .pushed G top new => x' = .pushed G top new q
    | .done G top j => x' = .done G top j q

/-- One iteration of the inner `for`. -/
theorem stackForA_either (hq : P → q.heap = none) {cur : Nat} {V : Vtx} {req cs size : Nat}
    {s : Graph × SState × Nat} {x : (Graph × SState × Nat) ⊕ ForExit}
    (h : stackFor cur V req cs s = .ok x) :
    (∃ x', stackForA grow cur V req cs size (s, q) = .ok x' ∧
      match x with
      | .inl s' => ∃ q', (P → q'.heap = none) ∧ x' = .inl (s', q')
      | .inr e => ∃ e', e.Goes P e' ∧ x' = .inr e') ∨
    (¬ P ∧ ∃ G', stackForA grow cur V req cs size (s, q) = .ok (.inr (.oom G'))) := by
  obtain ⟨G, top, left⟩ := s
  unfold stackFor at h
  unfold stackForA
  dsimp only at h ⊢
  split at h
  · rename_i hc
    rw [if_pos hc]
    obtain ⟨eb, e1, h⟩ := bind_eq_ok.1 h
    rw [e1, ok_bind]
    obtain ⟨sa, e2, h⟩ := bind_eq_ok.1 h
    rw [e2, ok_bind]
    obtain ⟨vert, e5, h⟩ := bind_eq_ok.1 h
    rw [e5, ok_bind]
    obtain ⟨U, e6, h⟩ := bind_eq_ok.1 h
    rw [e6, ok_bind]
    obtain ⟨⟨rm, pot⟩, e7, h⟩ := bind_eq_ok.1 h
    rcases stackScanA_either (grow := grow) hq e7 with ⟨q', k1, k2⟩ | ⟨k0, k2⟩
    · rw [k2, ok_bind]
      dsimp only at h ⊢
      split at h
      · rename_i hp
        rw [if_pos hp]
        split at h
        · rename_i hl
          rw [if_pos hl]
          obtain ⟨a1, f1, h⟩ := bind_eq_ok.1 h
          rw [f1, ok_bind]
          obtain ⟨a2, f2, h⟩ := bind_eq_ok.1 h
          rw [f2, ok_bind]
          obtain ⟨a3, f3, h⟩ := bind_eq_ok.1 h
          rw [f3, ok_bind]
          cases h
          exact Or.inl ⟨_, rfl, q', k1, rfl⟩
        · rename_i hl
          rw [if_neg hl]
          obtain ⟨⟨a1, a1'⟩, f1, h⟩ := bind_eq_ok.1 h
          rw [f1, ok_bind]
          dsimp only at h ⊢
          obtain ⟨a2, f2, h⟩ := bind_eq_ok.1 h
          rw [f2, ok_bind]
          obtain ⟨a3, f3, h⟩ := bind_eq_ok.1 h
          rw [f3, ok_bind]
          cases h
          rcases Vecs.pushState_either k1 grow size with ⟨q2, m1, m2⟩ | ⟨m0, m2⟩
          · rw [m2]
            exact Or.inl ⟨_, rfl, _, ⟨q2, m1, rfl⟩, rfl⟩
          · rw [m2]
            exact Or.inr ⟨m0, _, rfl⟩
      · rename_i hp
        rw [if_neg hp]
        cases h
        exact Or.inl ⟨_, rfl, q', k1, rfl⟩
    · rw [k2]
      exact Or.inr ⟨k0, _, rfl⟩
  · rename_i hc
    rw [if_neg hc]
    cases h
    exact Or.inl ⟨_, rfl, _, ⟨q, hq, rfl⟩, rfl⟩

/-- One iteration of the `while`. -/
theorem stackBodyA_either (hq : P → q.heap = none) {cur : Nat} {V : Vtx} {req : Nat}
    {s : Graph × List SState × Nat}
    {x : (Graph × List SState × Nat) ⊕ (Graph × List SState)}
    (h : stackBody cur V req s = .ok x) :
    (∃ q', (P → q'.heap = none) ∧ stackBodyA grow cur V req (s, q) = .ok
      (match x with
      | .inl s' => .inl (s', q')
      | .inr r => .inr (r.1, some (r.2, q')))) ∨
    (¬ P ∧ ∃ G', stackBodyA grow cur V req (s, q) = .ok (.inr (G', none))) := by
  obtain ⟨G, states, cs⟩ := s
  unfold stackBody at h
  unfold stackBodyA
  cases states with
  | nil =>
    cases h
    exact Or.inl ⟨q, hq, rfl⟩
  | cons top rest =>
    dsimp only at h ⊢
    split at h
    · rename_i hc
      rw [if_pos hc]
      cases h
      exact Or.inl ⟨q, hq, rfl⟩
    · rename_i hc
      rw [if_neg hc]
      obtain ⟨⟨eb, c⟩, e1, h⟩ := bind_eq_ok.1 h
      rw [e1, ok_bind]
      dsimp only at h ⊢
      obtain ⟨sa, e2, h⟩ := bind_eq_ok.1 h
      rw [e2, ok_bind]
      obtain ⟨r, e3, h⟩ := bind_eq_ok.1 h
      rcases loop_either (P := P) (good := ForExit.Goes P)
        (g := stackForA grow cur V req cs (rest.length + 1))
        (bad := fun r' => ∃ G', r' = .oom G')
        (by
          intro s s' q hq hf
          rcases stackForA_either (grow := grow) (size := rest.length + 1) hq hf with
            ⟨x', k1, q', k2, rfl⟩ | ⟨k0, G', k1⟩
          · exact Or.inl ⟨q', k2, k1⟩
          · exact Or.inr ⟨k0, _, ⟨G', rfl⟩, k1⟩)
        (by
          intro s r q hq hf
          rcases stackForA_either (grow := grow) (size := rest.length + 1) hq hf with
            ⟨x', k1, e', k2, rfl⟩ | ⟨k0, G', k1⟩
          · exact Or.inl ⟨e', k2, k1⟩
          · exact Or.inr ⟨k0, _, ⟨G', rfl⟩, k1⟩)
        _ _ _ q hq e3 with ⟨r', ⟨q', k1, k2⟩, k3⟩ | ⟨k0, r', ⟨G', rfl⟩, k3⟩
      · rw [k3, ok_bind]
        cases r with
        | pushed G1 top1 new =>
          cases k2
          cases h
          exact Or.inl ⟨q', k1, rfl⟩
        | done G1 top1 j =>
          cases k2
          dsimp only at h ⊢
          split at h
          · rename_i hj
            rw [if_pos hj]
            obtain ⟨a1, f1, h⟩ := bind_eq_ok.1 h
            rw [f1, ok_bind]
            obtain ⟨a2, f2, h⟩ := bind_eq_ok.1 h
            rw [f2, ok_bind]
            cases h
            exact Or.inl ⟨q', k1, rfl⟩
          · rename_i hj
            rw [if_neg hj]
            cases h
            exact Or.inl ⟨q', k1, rfl⟩
      · rw [k3]
        exact Or.inr ⟨k0, G', rfl⟩

/-- A rooted search. -/
theorem stackVertexA_either (hq : P → q.heap = none) {cur : Nat} {r : Graph}
    (h : G.stackVertex cur = .ok r) :
    (∃ q', (P → q'.heap = none) ∧ G.stackVertexA grow cur q = .ok (r, some q')) ∨
    (¬ P ∧ ∃ G', G.stackVertexA grow cur q = .ok (G', none)) := by
  unfold stackVertex at h
  unfold stackVertexA
  dsimp only at h ⊢
  obtain ⟨V, e1, h⟩ := bind_eq_ok.1 h
  rw [e1, ok_bind]
  obtain ⟨⟨g, x⟩, e2, h⟩ := bind_eq_ok.1 h
  rw [e2, ok_bind]
  dsimp only at h ⊢
  obtain ⟨⟨eb, pot⟩, e3, h⟩ := bind_eq_ok.1 h
  rw [e3, ok_bind]
  dsimp only at h ⊢
  split at h
  · rename_i hc
    rw [if_pos hc, h]
    exact Or.inl ⟨q, hq, rfl⟩
  · rename_i hc
    rw [if_neg hc]
    rcases Vecs.pushState_either hq grow 0 with ⟨q2, m1, m2⟩ | ⟨m0, m2⟩
    · rw [m2]
      dsimp only
      obtain ⟨⟨G3, states⟩, e5, h⟩ := bind_eq_ok.1 h
      rcases loop_either (P := P)
        (good := fun (r : Graph × List SState) (r' : Graph × Option (List SState × Vecs)) =>
          ∃ q' : Vecs, (P → q'.heap = none) ∧ r' = (r.1, some (r.2, q')))
        (bad := fun r' => ∃ G', r' = (G', none))
        (g := stackBodyA grow cur V (dlen V.N))
        (by
          intro s s' q hq hf
          rcases stackBodyA_either (grow := grow) hq hf with ⟨q', k2, k1⟩ | ⟨k0, G', k1⟩
          · exact Or.inl ⟨q', k2, k1⟩
          · exact Or.inr ⟨k0, _, ⟨G', rfl⟩, k1⟩)
        (by
          intro s r q hq hf
          rcases stackBodyA_either (grow := grow) hq hf with ⟨q', k2, k1⟩ | ⟨k0, G', k1⟩
          · exact Or.inl ⟨_, ⟨q', k2, rfl⟩, k1⟩
          · exact Or.inr ⟨k0, _, ⟨G', rfl⟩, k1⟩)
        _ _ _ q2 m1 e5 with ⟨r', ⟨q', k1, rfl⟩, k3⟩ | ⟨k0, r', ⟨G', rfl⟩, k3⟩
      · rw [k3, ok_bind]
        dsimp only at h ⊢
        split at h
        · rename_i he
          rw [if_pos he]
          rw [ok_bind] at h ⊢
          rw [h]
          exact Or.inl ⟨q', k1, rfl⟩
        · rename_i he
          rw [if_neg he]
          obtain ⟨G4, h3, h⟩ := bind_eq_ok.1 h
          rw [h3, ok_bind, h]
          exact Or.inl ⟨q', k1, rfl⟩
      · rw [k3]
        exact Or.inr ⟨k0, G', rfl⟩
    · rw [m2]
      exact Or.inr ⟨m0, _, rfl⟩

theorem reserve_either (hq : P → q.heap = none) (n : Nat) :
    (∃ q', (P → q'.heap = none) ∧ q.reserve n = (q', true)) ∨
    (¬ P ∧ ∃ q', q.reserve n = (q', false)) := by
  cases hc : q.reserve n with
  | mk q1 ok =>
    have hnone : P → ok = true ∧ q1.heap = none := by
      intro p
      obtain ⟨q', e1, e2⟩ := Vecs.reserve_none (hq p) n
      rw [hc] at e1
      cases e1
      exact ⟨rfl, e2⟩
    cases ok with
    | false => exact Or.inr ⟨fun p => by simpa using (hnone p).1, q1, rfl⟩
    | true => exact Or.inl ⟨q1, fun p => (hnone p).2, rfl⟩

/-- The exact search. -/
theorem stackGraphA_either {hp : Heap} (hq : P → hp = none) {G' : Graph} {i : Nat}
    (h : G.stackGraph = .ok (G', i)) :
    (∃ hp', (P → hp' = none) ∧ G.stackGraphA grow hp = .ok (G', some (i, hp'))) ∨
    (¬ P ∧ ∃ X, G.stackGraphA grow hp = .ok (X, none)) := by
  unfold stackGraphA
  rcases reserve_either (q := ⟨0, 0, hp⟩) hq G.limit with ⟨q, hq1, hc⟩ | ⟨k0, q, hc⟩
  · rw [hc]
    have stuck : ∀ (i : Nat) (t : Graph × Option Vecs), t.2 = none →
        stackStepA grow i t = .ok t := by
      rintro i ⟨X, o⟩ ht
      cases ht
      rfl
    dsimp only
    unfold stackGraph at h
    obtain ⟨s1, e1, h⟩ := bind_eq_ok.1 h
    obtain ⟨s2, e2, h⟩ := bind_eq_ok.1 h
    cases h
    rcases stackVertexA_either (grow := grow) hq1 e1 with ⟨q', k1, k2⟩ | ⟨k0, X, k2⟩
    · rw [k2, ok_bind]
      unfold forRange at e2 ⊢
      dsimp only at e2 ⊢
      rcases forN_either (P := P) (g := stackStepA grow)
        (l := fun (s : Graph) q => (s, some q))
        (stuck := fun t => t.2 = none) stuck
        (by
          intro i s s' q hq h
          obtain ⟨mm, g2, h⟩ := bind_eq_ok.1 h
          unfold stackStepA
          dsimp only
          rw [g2, ok_bind]
          split at h
          · rename_i hm
            rw [if_pos hm]
            cases h
            exact Or.inl ⟨q, hq, rfl⟩
          · rename_i hm
            rw [if_neg hm]
            rcases stackVertexA_either (grow := grow) hq h with ⟨q', k1, k2⟩ | ⟨k0, X, k2⟩
            · exact Or.inl ⟨q', k1, k2⟩
            · exact Or.inr ⟨k0, _, rfl, k2⟩) _ _ _ _ q' k1 e2 with
        ⟨q2, m1, m2⟩ | ⟨m0, ⟨X, o⟩, m1, m2⟩
      · rw [m2, ok_bind]
        exact Or.inl ⟨_, m1, rfl⟩
      · cases m1
        rw [m2, ok_bind]
        exact Or.inr ⟨m0, _, rfl⟩
    · rw [k2, ok_bind]
      unfold forRange
      dsimp only
      rw [forN_stuck (stuck := fun (t : Graph × Option Vecs) => t.2 = none)
        (g := stackStepA grow) stuck _ _ _ rfl, ok_bind]
      exact Or.inr ⟨k0, _, rfl⟩
  · rw [hc]
    exact Or.inr ⟨k0, G, rfl⟩

/-- The heuristic and the exact search. -/
theorem findMaxA_either {hp : Heap} (hq : P → hp = none) {srt : List VData → List VData}
    {sv : Nat} {heur dfs : Bool} {tl : TimeLimit} {G' : Graph} {i : Nat}
    (h : G.findMaxCliques srt sv heur dfs tl = .ok (G', i)) :
    (∃ hp', (P → hp' = none) ∧
      G.findMaxCliquesA grow srt sv heur dfs tl hp = .ok (G', some (i, hp'))) ∨
    (¬ P ∧ ∃ X, G.findMaxCliquesA grow srt sv heur dfs tl hp = .ok (X, none)) := by
  unfold findMaxCliques at h
  unfold findMaxCliquesA
  dsimp only at h ⊢
  rw [← ite_bind] at h
  obtain ⟨G1, e1, h⟩ := bind_eq_ok.1 h
  have key : (∃ hp', (P → hp' = none) ∧
      (if heur = true then G.heurGraphA srt hp else .ok (G, some hp)) = .ok (G1, some hp')) ∨
      (¬ P ∧ (if heur = true then G.heurGraphA srt hp else .ok (G, some hp)) = .ok (G, none)) := by
    cases heur with
    | false => cases e1; exact Or.inl ⟨hp, hq, rfl⟩
    | true =>
      simp only [if_true] at e1 ⊢
      unfold heurGraphA
      have hx : (∃ h', (P → h' = none) ∧ (if G.maxDeg = 0 then some hp else hp.request) = some h') ∨
          (¬ P ∧ (if G.maxDeg = 0 then some hp else hp.request) = none) := by
        split
        · exact Or.inl ⟨hp, hq, rfl⟩
        · exact Heap.request_either hq
      rcases hx with ⟨h', k1, k2⟩ | ⟨k0, k2⟩
      · rw [k2]
        dsimp only
        rw [e1]
        exact Or.inl ⟨h', k1, rfl⟩
      · rw [k2]
        exact Or.inr ⟨k0, rfl⟩
  rcases key with ⟨hp', k1, k2⟩ | ⟨k0, k2⟩
  · rw [k2, ok_bind]
    dsimp only
    cases dfs with
    | false => cases h; exact Or.inl ⟨hp', k1, rfl⟩
    | true =>
      simp only [if_true] at h ⊢
      cases tl with
      | none => exact stackGraphA_either k1 h
      | some t =>
        dsimp only at h ⊢
        rw [h]
        exact Or.inl ⟨hp', k1, rfl⟩
  · rw [k2]
    exact Or.inr ⟨k0, G, rfl⟩

/-- One search. -/
theorem getMaxCliqueA_either {pg pg' : PyGraph} {hp : Heap} (hq : P → hp = none)
    {srt : List VData → List VData} {a : PyGraph.Args}
    {r : PyRes (List Nat)} (h : pg.getMaxClique srt a = .ok (pg', r)) :
    pg.getMaxCliqueA grow srt hp a = .ok (pg', .of r) ∨
    (¬ P ∧ ∃ pg'', pg.getMaxCliqueA grow srt hp a = .ok (pg'', .noMemory) ∧
      (pg'' = pg' ∨ pg''.finishedAll = pg.finishedAll ∧
        pg''.currentVertex = if a.continueSearch then pg.currentVertex else 0)) := by
  unfold PyGraph.getMaxClique at h
  unfold PyGraph.getMaxCliqueA
  dsimp only at h ⊢
  cases hl : PyGraph.checkLoaded
      { pg with currentVertex := if a.continueSearch then pg.currentVertex else 0 } with
  | none =>
    rw [hl] at h
    cases h
    dsimp only
    rcases Heap.request_either hq with ⟨h', k1, k2⟩ | ⟨k0, k2⟩
    · rw [k2]; exact Or.inl rfl
    · rw [k2]; exact Or.inr ⟨k0, _, rfl, Or.inl rfl⟩
  | some G =>
    rw [hl] at h
    dsimp only at h ⊢
    obtain ⟨⟨G1, cv⟩, e1, h⟩ := bind_eq_ok.1 h
    rcases findMaxA_either (grow := grow) hq e1 with ⟨hp', k1, k2⟩ | ⟨k0, X, k2⟩
    · rw [k2, ok_bind]
      dsimp only at h ⊢
      obtain ⟨⟨G2, ans⟩, e2, h⟩ := bind_eq_ok.1 h
      rw [e2, ok_bind]
      dsimp only at h ⊢
      rcases Heap.request_either k1 with ⟨h1, m1, m2⟩ | ⟨m0, m2⟩
      · rw [m2]
        dsimp only
        rcases Heap.request_either m1 with ⟨h2, n1, n2⟩ | ⟨n0, n2⟩
        · rw [n2]
          dsimp only
          split at h
          · rename_i hw
            rw [if_pos hw]
            cases h
            exact Or.inl rfl
          · rename_i hw
            rw [if_neg hw]
            cases h
            exact Or.inl rfl
        · rw [n2]
          refine Or.inr ⟨n0, _, rfl, Or.inl ?_⟩
          split at h <;> cases h <;> rfl
      · rw [m2]
        refine Or.inr ⟨m0, _, rfl, Or.inl ?_⟩
        split at h <;> cases h <;> rfl
    · rw [k2]
      exact Or.inr ⟨k0, _, rfl, Or.inr ⟨rfl, rfl⟩⟩

/-! ## The enumerator -/

theorem enumScanA_either (hq : P → q.heap = none) {V U : Vtx} {cand : GBits} {eb : Mem}
    {left cs required k0 pot0 : Nat} {r : List Nat × Nat}
    (h : G.enumScan V U cand eb left cs required k0 pot0 = .ok r) :
    (∃ q', (P → q'.heap = none) ∧ G.enumScanA grow V U cand eb left cs required k0 pot0 q =
      .ok (some (r.1, r.2, q'))) ∨
    (¬ P ∧ G.enumScanA grow V U cand eb left cs required k0 pot0 q = .ok none) := by
  unfold enumScan at h
  unfold enumScanA
  rcases loop_either (P := P) (g := fun (s : (Nat × Nat × List Nat × Nat) × Vecs) => do
    let ((k, start, rm, pot), q) := s
    if k < V.N ∧ pot ≥ required then
      if ← cand.test eb k then do
        let val ← G.nbr V k
        let (f, ans) ← binaryFind G.el (uadd U.elo start) (usub U.N start) val
        match (if f then some q else q.pushRemove grow rm.length) with
        | none => .ok (.inr none)
        | some q =>
          let rm := if f then rm else rm ++ [k]
          let pot := usub left rm.length + cs + 1
          .ok (.inl ((k + 1, uadd start ans, rm, pot), q))
      else .ok (.inl ((k + 1, start, rm, pot), q))
    else .ok (.inr (some (rm, pot, q))))
    (good := fun (r : List Nat × Nat) r' =>
      ∃ q' : Vecs, (P → q'.heap = none) ∧ r' = some (r.1, r.2, q'))
    (bad := fun r' => r' = none)
    (by
      rintro ⟨k, start, rm, pot⟩ s' q hq hf
      dsimp only at hf ⊢
      split at hf
      · rename_i hc
        rw [if_pos hc]
        obtain ⟨t, e0, hf⟩ := bind_eq_ok.1 hf
        rw [e0, ok_bind]
        cases t with
        | false =>
          simp only [Bool.false_eq_true, if_false] at hf ⊢
          cases hf
          exact Or.inl ⟨q, hq, rfl⟩
        | true =>
          simp only [if_true] at hf ⊢
          obtain ⟨val, e1, hf⟩ := bind_eq_ok.1 hf
          rw [e1, ok_bind]
          obtain ⟨⟨f, ans⟩, e2, hf⟩ := bind_eq_ok.1 hf
          rw [e2, ok_bind]
          dsimp only at hf ⊢
          rcases keep_either (grow := grow) hq f rm.length with ⟨q', k1, k2⟩ | ⟨k0, k2⟩
          · rw [k2]
            simp only [Except.ok.injEq, Sum.inl.injEq] at hf
            rw [← hf]
            exact Or.inl ⟨q', k1, rfl⟩
          · rw [k2]
            exact Or.inr ⟨k0, none, rfl, rfl⟩
      · cases hf)
    (by
      rintro ⟨k, start, rm, pot⟩ r q hq hf
      dsimp only at hf ⊢
      split at hf
      · obtain ⟨t, e0, hf⟩ := bind_eq_ok.1 hf
        cases t with
        | false => simp at hf
        | true =>
          simp only [if_true] at hf
          obtain ⟨val, e1, hf⟩ := bind_eq_ok.1 hf
          obtain ⟨⟨f, ans⟩, e2, hf⟩ := bind_eq_ok.1 hf
          simp at hf
      · rename_i hc
        rw [if_neg hc]
        cases hf
        exact Or.inl ⟨_, ⟨q, hq, rfl⟩, rfl⟩)
    _ _ _ q hq h with ⟨r', ⟨q', k1, rfl⟩, k2⟩ | ⟨k0, r', rfl, k2⟩
  · exact Or.inl ⟨q', k1, k2⟩
  · exact Or.inr ⟨k0, k2⟩

/-- The same exit, with capacities. -/
def EnumExit.Goes (P : Prop) (x : EnumExit) (x' : EnumExitA) : Prop :=
  ∃ q : Vecs, (P → q.heap = none) ∧
    match x with
    | .found G top => x' = .found G top q
    | .pushed G top new => x' = .pushed G top new q
    | .done G top => x' = .done G top q

theorem enumForA_either (hq : P → q.heap = none) {V : Vtx} {req cs required size : Nat}
    {s : Graph × SState × Nat × Nat} {x : (Graph × SState × Nat × Nat) ⊕ EnumExit}
    (h : enumFor V req cs required s = .ok x) :
    (∃ x', enumForA grow V req cs required size (s, q) = .ok x' ∧
      match x with
      | .inl s' => ∃ q', (P → q'.heap = none) ∧ x' = .inl (s', q')
      | .inr e => ∃ e', e.Goes P e' ∧ x' = .inr e') ∨
    (¬ P ∧ ∃ G' t', enumForA grow V req cs required size (s, q) = .ok (.inr (.oom G' t'))) := by
  obtain ⟨G, top, left, j⟩ := s
  unfold enumFor at h
  unfold enumForA
  dsimp only at h ⊢
  split at h
  · rename_i hc
    rw [if_pos hc]
    obtain ⟨t, e0, h⟩ := bind_eq_ok.1 h
    rw [e0, ok_bind]
    cases t with
    | false =>
      simp only [Bool.false_eq_true, if_false] at h ⊢
      cases h
      exact Or.inl ⟨_, rfl, q, hq, rfl⟩
    | true =>
      simp only [if_true] at h ⊢
      obtain ⟨eb, e1, h⟩ := bind_eq_ok.1 h
      rw [e1, ok_bind]
      obtain ⟨vert, e5, h⟩ := bind_eq_ok.1 h
      rw [e5, ok_bind]
      obtain ⟨U, e6, h⟩ := bind_eq_ok.1 h
      rw [e6, ok_bind]
      obtain ⟨⟨rm, pot⟩, e7, h⟩ := bind_eq_ok.1 h
      rcases enumScanA_either (grow := grow) hq e7 with ⟨q', k1, k2⟩ | ⟨k0, k2⟩
      · rw [k2, ok_bind]
        dsimp only at h ⊢
        split at h
        · rename_i hp
          rw [if_pos hp]
          split at h
          · rename_i hl
            rw [if_pos hl]
            obtain ⟨a1, f1, h⟩ := bind_eq_ok.1 h
            rw [f1, ok_bind]
            obtain ⟨a2, f2, h⟩ := bind_eq_ok.1 h
            rw [f2, ok_bind]
            obtain ⟨a3, f3, h⟩ := bind_eq_ok.1 h
            rw [f3, ok_bind]
            obtain ⟨a4, f4, h⟩ := bind_eq_ok.1 h
            rw [f4, ok_bind]
            cases h
            exact Or.inl ⟨_, rfl, _, ⟨q', k1, rfl⟩, rfl⟩
          · rename_i hl
            rw [if_neg hl]
            obtain ⟨⟨a1, a1'⟩, f1, h⟩ := bind_eq_ok.1 h
            rw [f1, ok_bind]
            dsimp only at h ⊢
            obtain ⟨a2, f2, h⟩ := bind_eq_ok.1 h
            rw [f2, ok_bind]
            obtain ⟨a3, f3, h⟩ := bind_eq_ok.1 h
            rw [f3, ok_bind]
            cases h
            rcases Vecs.pushState_either k1 grow size with ⟨q2, m1, m2⟩ | ⟨m0, m2⟩
            · rw [m2]
              exact Or.inl ⟨_, rfl, _, ⟨q2, m1, rfl⟩, rfl⟩
            · rw [m2]
              exact Or.inr ⟨m0, _, _, rfl⟩
        · rename_i hp
          rw [if_neg hp]
          cases h
          exact Or.inl ⟨_, rfl, q', k1, rfl⟩
      · rw [k2]
        exact Or.inr ⟨k0, _, _, rfl⟩
  · rename_i hc
    rw [if_neg hc]
    cases h
    exact Or.inl ⟨_, rfl, _, ⟨q, hq, rfl⟩, rfl⟩

theorem enumLoadA_either (hq : P → q.heap = none) {E : Enum} {r : Graph × Enum × Bool}
    (h : G.enumLoad E = .ok r) :
    (∃ q', (P → q'.heap = none) ∧ G.enumLoadA grow E q = .ok (r.1, r.2.1, q', some r.2.2)) ∨
    (¬ P ∧ ∃ G' E' q', G.enumLoadA grow E q = .ok (G', E', q', none)) := by
  unfold enumLoad at h
  unfold enumLoadA
  dsimp only at h ⊢
  obtain ⟨V, e1, h⟩ := bind_eq_ok.1 h
  rw [e1, ok_bind]
  obtain ⟨⟨g, x⟩, e2, h⟩ := bind_eq_ok.1 h
  rw [e2, ok_bind]
  dsimp only at h ⊢
  obtain ⟨⟨eb, pot⟩, e3, h⟩ := bind_eq_ok.1 h
  rw [e3, ok_bind]
  dsimp only at h ⊢
  split at h
  · rename_i hc
    rw [if_pos hc]
    obtain ⟨a1, f1, h⟩ := bind_eq_ok.1 h
    rw [f1, ok_bind]
    cases h
    exact Or.inl ⟨q, hq, rfl⟩
  · rename_i hc
    rw [if_neg hc]
    cases h
    rcases Vecs.pushState_either hq grow E.states.length with ⟨q2, m1, m2⟩ | ⟨m0, m2⟩
    · rw [m2]
      exact Or.inl ⟨q2, m1, rfl⟩
    · rw [m2]
      exact Or.inr ⟨m0, _, _, _, rfl⟩

theorem enumVertexA_either (hq : P → q.heap = none) {E : Enum} {r : Graph × Enum}
    (h : G.enumVertex E = .ok r) :
    (∃ q', (P → q'.heap = none) ∧ G.enumVertexA grow E q = .ok (r.1, r.2, q', true)) ∨
    (¬ P ∧ ∃ G' E' q', G.enumVertexA grow E q = .ok (G', E', q', false)) := by
  unfold enumVertex at h
  unfold enumVertexA
  rcases loop_either (P := P) (g := fun (s : (Graph × Enum) × Vecs) => do
    let ((G, E), q) := s
    if E.cur < G.vs.length then do
      let V ← G.vtx E.cur
      if V.mcs < E.required then .ok (.inl ((G, { E with cur := E.cur + 1 }), q))
      else do
        match ← G.enumLoadA grow E q with
        | (G, E, q, none) => .ok (.inr (G, E, q, false))
        | (G, E, q, some true) => .ok (.inr (G, E, q, true))
        | (G, E, q, some false) => .ok (.inl ((G, { E with cur := E.cur + 1 }), q))
    else .ok (.inr (G, E, q, true)))
    (good := fun (r : Graph × Enum) (r' : Graph × Enum × Vecs × Bool) =>
      ∃ q' : Vecs, (P → q'.heap = none) ∧ r' = (r.1, r.2, q', true))
    (bad := fun r' => ∃ G' E' q', r' = (G', E', q', false))
    (by
      rintro ⟨G, E⟩ s' q hq hf
      dsimp only at hf ⊢
      split at hf
      · rename_i hc
        rw [if_pos hc]
        obtain ⟨V, e1, hf⟩ := bind_eq_ok.1 hf
        rw [e1, ok_bind]
        split at hf
        · rename_i hm
          rw [if_pos hm]
          cases hf
          exact Or.inl ⟨q, hq, rfl⟩
        · rename_i hm
          rw [if_neg hm]
          obtain ⟨⟨G1, E1, b⟩, e2, hf⟩ := bind_eq_ok.1 hf
          rcases enumLoadA_either (grow := grow) hq e2 with ⟨q', k1, k2⟩ | ⟨k0, G', E', q', k2⟩
          · rw [k2, ok_bind]
            cases b with
            | true => simp at hf
            | false =>
              simp only [Bool.false_eq_true, if_false] at hf
              cases hf
              exact Or.inl ⟨q', k1, rfl⟩
          · rw [k2]
            exact Or.inr ⟨k0, _, ⟨_, _, _, rfl⟩, rfl⟩
      · cases hf)
    (by
      rintro ⟨G, E⟩ r q hq hf
      dsimp only at hf ⊢
      split at hf
      · rename_i hc
        rw [if_pos hc]
        obtain ⟨V, e1, hf⟩ := bind_eq_ok.1 hf
        rw [e1, ok_bind]
        split at hf
        · cases hf
        · rename_i hm
          rw [if_neg hm]
          obtain ⟨⟨G1, E1, b⟩, e2, hf⟩ := bind_eq_ok.1 hf
          rcases enumLoadA_either (grow := grow) hq e2 with ⟨q', k1, k2⟩ | ⟨k0, G', E', q', k2⟩
          · rw [k2, ok_bind]
            cases b with
            | true =>
              simp only [if_true] at hf
              cases hf
              exact Or.inl ⟨_, ⟨q', k1, rfl⟩, rfl⟩
            | false => simp at hf
          · rw [k2]
            exact Or.inr ⟨k0, _, ⟨_, _, _, rfl⟩, rfl⟩
      · rename_i hc
        rw [if_neg hc]
        cases hf
        exact Or.inl ⟨_, ⟨q, hq, rfl⟩, rfl⟩)
    _ _ _ q hq h with ⟨r', ⟨q', k1, rfl⟩, k2⟩ | ⟨k0, r', ⟨G', E', q', rfl⟩, k2⟩
  · exact Or.inl ⟨q', k1, k2⟩
  · exact Or.inr ⟨k0, _, _, _, k2⟩

theorem enumBodyA_either (hq : P → q.heap = none) {s : Graph × Enum}
    {x : (Graph × Enum) ⊕ (Graph × Enum × Nat)} (h : enumBody s = .ok x) :
    (∃ q', (P → q'.heap = none) ∧ enumBodyA grow (s, q) = .ok
      (match x with
      | .inl s' => .inl (s', q')
      | .inr r => .inr (r.1, r.2.1, q', some r.2.2))) ∨
    (¬ P ∧ ∃ G' E' q', enumBodyA grow (s, q) = .ok (.inr (G', E', q', none))) := by
  obtain ⟨G, E⟩ := s
  unfold enumBody at h
  unfold enumBodyA
  dsimp only at h ⊢
  split at h
  · rename_i hc
    rw [if_pos hc]
    cases hst : E.states with
    | nil =>
      rw [hst] at h
      dsimp only at h ⊢
      obtain ⟨G1, e1, h⟩ := bind_eq_ok.1 h
      rw [e1, ok_bind]
      obtain ⟨⟨G2, E2⟩, e2, h⟩ := bind_eq_ok.1 h
      cases h
      rcases enumVertexA_either (grow := grow) hq e2 with ⟨q', k1, k2⟩ | ⟨k0, G', E', q', k2⟩
      · rw [k2]
        exact Or.inl ⟨q', k1, rfl⟩
      · rw [k2]
        exact Or.inr ⟨k0, _, _, _, rfl⟩
    | cons top rest =>
      rw [hst] at h
      dsimp only at h ⊢
      obtain ⟨V, e1, h⟩ := bind_eq_ok.1 h
      rw [e1, ok_bind]
      obtain ⟨⟨eb, left⟩, e2, h⟩ := bind_eq_ok.1 h
      rw [e2, ok_bind]
      dsimp only at h ⊢
      obtain ⟨r, e3, h⟩ := bind_eq_ok.1 h
      rcases loop_either (P := P) (good := EnumExit.Goes P)
        (g := enumForA grow V E.req E.cliqueSize E.required (rest.length + 1))
        (bad := fun r' => ∃ G' t', r' = .oom G' t')
        (by
          intro s s' q hq hf
          rcases enumForA_either (grow := grow) (size := rest.length + 1) hq hf with
            ⟨x', k1, q', k2, rfl⟩ | ⟨k0, G', t', k1⟩
          · exact Or.inl ⟨q', k2, k1⟩
          · exact Or.inr ⟨k0, _, ⟨G', t', rfl⟩, k1⟩)
        (by
          intro s r q hq hf
          rcases enumForA_either (grow := grow) (size := rest.length + 1) hq hf with
            ⟨x', k1, e', k2, rfl⟩ | ⟨k0, G', t', k1⟩
          · exact Or.inl ⟨e', k2, k1⟩
          · exact Or.inr ⟨k0, _, ⟨G', t', rfl⟩, k1⟩)
        _ _ _ q hq e3 with ⟨r', ⟨q', k1, k2⟩, k3⟩ | ⟨k0, r', ⟨G', t', rfl⟩, k3⟩
      · rw [k3, ok_bind]
        cases r with
        | found G1 top1 =>
          cases k2
          cases h
          exact Or.inl ⟨q', k1, rfl⟩
        | pushed G1 top1 new =>
          cases k2
          cases h
          exact Or.inl ⟨q', k1, rfl⟩
        | done G1 top1 =>
          cases k2
          dsimp only at h ⊢
          obtain ⟨a1, f1, h⟩ := bind_eq_ok.1 h
          rw [f1, ok_bind]
          obtain ⟨a2, f2, h⟩ := bind_eq_ok.1 h
          rw [f2, ok_bind]
          cases h
          exact Or.inl ⟨q', k1, rfl⟩
      · rw [k3]
        exact Or.inr ⟨k0, _, _, _, rfl⟩
  · rename_i hc
    rw [if_neg hc]
    cases h
    exact Or.inl ⟨q, hq, rfl⟩

theorem enumGraphA_either (hq : P → q.heap = none) {E : Enum} {r : Graph × Enum × Nat}
    (h : G.enumGraph E = .ok r) :
    (∃ q', (P → q'.heap = none) ∧ G.enumGraphA grow E q = .ok (r.1, r.2.1, q', some r.2.2)) ∨
    (¬ P ∧ ∃ G' E' q', G.enumGraphA grow E q = .ok (G', E', q', none)) := by
  unfold enumGraph at h
  unfold enumGraphA
  split at h
  · rename_i h0
    rw [if_pos h0]
    cases h
    exact Or.inl ⟨q, hq, rfl⟩
  · rename_i h0
    rw [if_neg h0]
    split at h
    · rename_i h1
      rw [if_pos h1]
      obtain ⟨a1, f1, h⟩ := bind_eq_ok.1 h
      rw [f1, ok_bind]
      obtain ⟨a2, f2, h⟩ := bind_eq_ok.1 h
      rw [f2, ok_bind]
      obtain ⟨a3, f3, h⟩ := bind_eq_ok.1 h
      rw [f3, ok_bind]
      obtain ⟨a4, f4, h⟩ := bind_eq_ok.1 h
      rw [f4, ok_bind]
      cases h
      exact Or.inl ⟨q, hq, rfl⟩
    · rename_i h1
      rw [if_neg h1]
      rcases reserve_either hq G.limit with ⟨q1, hq1, hc⟩ | ⟨k0, q1, hc⟩
      · rw [hc]
        dsimp only
        rcases loop_either (P := P)
          (good := fun (r : Graph × Enum × Nat) (r' : Graph × Enum × Vecs × Option Nat) =>
            ∃ q' : Vecs, (P → q'.heap = none) ∧ r' = (r.1, r.2.1, q', some r.2.2))
          (bad := fun r' => ∃ G' E' q', r' = (G', E', q', none))
          (g := enumBodyA grow)
          (by
            intro s s' q hq hf
            rcases enumBodyA_either (grow := grow) hq hf with ⟨q', k2, k1⟩ | ⟨k0, G', E', q', k1⟩
            · exact Or.inl ⟨q', k2, k1⟩
            · exact Or.inr ⟨k0, _, ⟨G', E', q', rfl⟩, k1⟩)
          (by
            intro s r q hq hf
            rcases enumBodyA_either (grow := grow) hq hf with ⟨q', k2, k1⟩ | ⟨k0, G', E', q', k1⟩
            · exact Or.inl ⟨_, ⟨q', k2, rfl⟩, k1⟩
            · exact Or.inr ⟨k0, _, ⟨G', E', q', rfl⟩, k1⟩)
          _ _ _ q1 hq1 h with ⟨r', ⟨q', k1, rfl⟩, k3⟩ | ⟨k0, r', ⟨G', E', q', rfl⟩, k3⟩
        · exact Or.inl ⟨q', k1, k3⟩
        · exact Or.inr ⟨k0, _, _, _, k3⟩
      · rw [hc]
        exact Or.inr ⟨k0, _, _, _, rfl⟩

/-- One `__next__`. -/
theorem nextCliqueA_either (hq : P → q.heap = none) {pg : PyGraph} {E : Enum}
    {r : PyGraph × Enum × Option (List Nat)} (h : pg.nextClique E = .ok r) :
    (∃ q', pg.nextCliqueA grow E q = .ok (r.1, r.2.1, q', .ret r.2.2)) ∨
    (¬ P ∧ ∃ pg' E' q', pg.nextCliqueA grow E q = .ok (pg', E', q', .noMemory)) := by
  unfold PyGraph.nextClique at h
  unfold PyGraph.nextCliqueA
  cases hg : pg.G with
  | none => rw [hg] at h; cases h
  | some G =>
    rw [hg] at h
    dsimp only at h ⊢
    obtain ⟨⟨G1, E1, v⟩, e1, h⟩ := bind_eq_ok.1 h
    dsimp only at h
    rcases enumGraphA_either (grow := grow) hq e1 with ⟨q', k1, k2⟩ | ⟨k0, G', E', q', k2⟩
    · rw [k2, ok_bind]
      dsimp only
      split at h
      · rename_i hv
        rw [if_pos hv]
        cases h
        exact Or.inl ⟨q', rfl⟩
      · rename_i hv
        rw [if_neg hv]
        obtain ⟨⟨G2, ans⟩, e2, h⟩ := bind_eq_ok.1 h
        rw [e2, ok_bind]
        cases h
        dsimp only
        rcases Heap.request_either k1 with ⟨h1, m1, m2⟩ | ⟨m0, m2⟩
        · rw [m2]
          dsimp only
          rcases Heap.request_either m1 with ⟨h2, n1, n2⟩ | ⟨n0, n2⟩
          · rw [n2]
            exact Or.inl ⟨_, rfl⟩
          · rw [n2]
            exact Or.inr ⟨n0, _, _, _, rfl⟩
        · rw [m2]
          exact Or.inr ⟨m0, _, _, _, rfl⟩
    · rw [k2]
      exact Or.inr ⟨k0, _, _, _, rfl⟩

/-- Several `__next__`: up to the first that raises `MemoryError` as with enough memory. -/
theorem nextsA_either : ∀ (heaps : List Heap) {pg pg' : PyGraph} {E E' : Enum}
    {cs : List (Option (List Nat))} (q : Vecs), pg.nexts heaps.length E = .ok (pg', E', cs) →
    (∃ q', pg.nextsA grow heaps E q = .ok (pg', E', q', cs.map .ret)) ∨
    ∃ pre hp post pg2 E2 q2, heaps = pre ++ hp :: post ∧ hp ≠ none ∧
      pg.nextsA grow (pre ++ [hp]) E q =
        .ok (pg2, E2, q2, (cs.take pre.length).map .ret ++ [.noMemory])
  | [], pg, pg', E, E', cs, q, h => by
    cases h
    exact Or.inl ⟨q, rfl⟩
  | hp :: hs, pg, pg', E, E', cs, q, h => by
    rw [List.length_cons] at h
    unfold PyGraph.nexts at h
    obtain ⟨⟨pg1, E1, c⟩, e1, h⟩ := bind_eq_ok.1 h
    dsimp only at h
    obtain ⟨⟨pg2, E2, cs2⟩, e2, h⟩ := bind_eq_ok.1 h
    cases h
    rcases nextCliqueA_either (P := hp = none) (grow := grow) (q := { q with heap := hp }) id e1 with
      ⟨q1, k1⟩ | ⟨k0, pgX, EX, qX, k1⟩
    · rcases nextsA_either hs q1 e2 with ⟨q', m1⟩ | ⟨pre, h', post, pg3, E3, q3, m1, m2, m3⟩
      · left
        unfold PyGraph.nextsA
        rw [k1, ok_bind]
        dsimp only
        rw [m1]
        exact ⟨q', rfl⟩
      · right
        refine ⟨hp :: pre, h', post, pg3, E3, q3, by rw [m1]; rfl, m2, ?_⟩
        rw [List.cons_append]
        unfold PyGraph.nextsA
        rw [k1, ok_bind]
        dsimp only
        rw [m3]
        rfl
    · right
      refine ⟨[], hp, hs, pgX, EX, qX, rfl, k0, ?_⟩
      show PyGraph.nextsA grow [hp] pg E q = _
      unfold PyGraph.nextsA
      rw [k1]
      rfl

end Graph

end CM
