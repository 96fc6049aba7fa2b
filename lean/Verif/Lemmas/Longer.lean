import Verif.Lemmas.Clock
import Verif.Lemmas.Mono

/-!
# Two runs of a search, one of which has more time

Up to the moment at which the time of the first run is over, the two runs are the same; from then
on the first run finds nothing and the second can only get better.
-/

namespace CM

variable {σ τ : Type}

variable {α β γ : Type}

/-- Where both runs return, the results are related by `R`. -/
def Both (R : α → β → Prop) (x : M α) (y : M β) : Prop :=
  ∀ a b, x = .ok a → y = .ok b → R a b

namespace Both

variable {R : α → β → Prop}

theorem pure {a : α} {b : β} (h : R a b) : Both R (.ok a) (.ok b) := by
  intro a' b' h1 h2
  cases h1; cases h2
  exact h

theorem bind {Q : σ → τ → Prop} {x : M σ} {y : M τ} {k : σ → M α} {l : τ → M β}
    (h1 : Both Q x y) (h2 : ∀ a b, Q a b → Both R (k a) (l b)) : Both R (x >>= k) (y >>= l) := by
  intro a b ha hb
  obtain ⟨c, hc, ha⟩ := bind_eq_ok.1 ha
  obtain ⟨d, hd, hb⟩ := bind_eq_ok.1 hb
  exact h2 c d (h1 c d hc hd) a b ha hb

theorem same {x : M γ} {k : γ → M α} {l : γ → M β} (h : ∀ c, Both R (k c) (l c)) :
    Both R (x >>= k) (x >>= l) := by
  intro a b ha hb
  obtain ⟨c, hc, ha⟩ := bind_eq_ok.1 ha
  rw [hc] at hb
  exact h c a b ha hb

theorem ite {p : Prop} [Decidable p] {x x' : M α} {y y' : M β} (h1 : Both R x y)
    (h2 : Both R x' y') : Both R (if p then x else x') (if p then y else y') := by
  split
  · exact h1
  · exact h2

theorem forRange {P : σ → τ → Prop} {f : Nat → σ → M σ} {g : Nat → τ → M τ} {lo hi : Nat} {s : σ}
    {s' : τ} (h0 : P s s') (hs : ∀ k a b, P a b → Both P (f k a) (g k b)) :
    Both P (forRange lo hi f s) (forRange lo hi g s') := by
  unfold CM.forRange
  generalize hi - lo = n
  induction n generalizing lo s s' with
  | zero => exact pure h0
  | succ n ih =>
    intro r r' h1 h2
    unfold forN at h1 h2
    cases hf : f lo s with
    | error e => rw [hf] at h1; cases h1
    | ok b =>
      cases hg : g lo s' with
      | error e => rw [hg] at h2; cases h2
      | ok b' =>
        rw [hf] at h1
        rw [hg] at h2
        exact ih (hs lo s s' h0 b b' hf hg) r r' h1 h2

end Both

namespace Graph

theorem saveClique_curMax {G G' : Graph} {cur : Nat} {V : Vtx} {res : GBits} {size : Nat}
    (h : G.saveClique cur V res size = .ok G') : G'.curMax = size := by
  unfold saveClique at h
  obtain ⟨_, _, h⟩ := bind_eq_ok.1 h
  obtain ⟨_, _, h⟩ := bind_eq_ok.1 h
  obtain ⟨_, _, h⟩ := bind_eq_ok.1 h
  cases h
  rfl

theorem clearMemory_curMax {G G' : Graph} {n : Nat} (h : G.clearMemory n = .ok G') :
    G'.curMax = G.curMax := by
  unfold clearMemory at h
  obtain ⟨_, _, h⟩ := bind_eq_ok.1 h
  cases h
  rfl

/-- When the time is over nothing is found. -/
theorem recSearch_over {cur : Nat} {V : Vtx} {req fuel : Nat} {G : Graph} {prev res : GBits}
    {r : Graph × Clock} (h : recSearch cur V req fuel (G, some 0) prev res = .ok r) :
    r.1.curMax = G.curMax ∧ r.2 = some 0 := by
  cases fuel with
  | zero => cases h
  | succ fuel =>
    unfold recSearch at h
    obtain ⟨x, _, h⟩ := bind_eq_ok.1 h
    obtain ⟨y, _, h⟩ := bind_eq_ok.1 h
    simp only [tick, if_true] at h
    cases h
    exact ⟨rfl, rfl⟩

/-- A search never forgets the size of the best clique. -/
theorem recSearch_grows {cur : Nat} {V : Vtx} {req fuel : Nat} {s : Graph × Clock}
    {prev res : GBits} {r : Graph × Clock}
    (h : recSearch cur V req fuel s prev res = .ok r) : s.1.curMax ≤ r.1.curMax := by
  induction fuel generalizing s prev res r with
  | zero => cases h
  | succ fuel ih =>
    obtain ⟨G, t⟩ := s
    unfold recSearch at h
    obtain ⟨x, _, h⟩ := bind_eq_ok.1 h
    obtain ⟨y, _, h⟩ := bind_eq_ok.1 h
    dsimp only at h
    split at h
    · cases h; exact Nat.le_refl _
    split at h
    · cases h; exact Nat.le_refl _
    split at h
    · cases h; exact Nat.le_refl _
    rename_i hpot
    split at h
    · obtain ⟨G', hG', h⟩ := bind_eq_ok.1 h
      cases h
      have := saveClique_curMax hG'
      simp only at *
      omega
    obtain ⟨z, _, h⟩ := bind_eq_ok.1 h
    obtain ⟨w, _, h⟩ := bind_eq_ok.1 h
    obtain ⟨q, hq, h⟩ := bind_eq_ok.1 h
    obtain ⟨G', hG', h⟩ := bind_eq_ok.1 h
    cases h
    simp only
    rw [clearMemory_curMax hG']
    refine forRange_inv (fun _ (s : Graph × Clock) => G.curMax ≤ s.1.curMax) (Nat.zero_le _)
      (Nat.le_refl _) ?_ hq
    rintro j ⟨G, t⟩ s' _ _ hp hb
    simp only at hp hb
    obtain ⟨b, _, hb⟩ := bind_eq_ok.1 hb
    split at hb
    · obtain ⟨_, _, hb⟩ := bind_eq_ok.1 hb
      obtain ⟨_, _, hb⟩ := bind_eq_ok.1 hb
      obtain ⟨_, _, hb⟩ := bind_eq_ok.1 hb
      obtain ⟨_, _, hb⟩ := bind_eq_ok.1 hb
      obtain ⟨_, _, hb⟩ := bind_eq_ok.1 hb
      obtain ⟨_, _, hb⟩ := bind_eq_ok.1 hb
      obtain ⟨q, hq, hb⟩ := bind_eq_ok.1 hb
      obtain ⟨_, _, hb⟩ := bind_eq_ok.1 hb
      have := ih hq
      cases hb
      exact Nat.le_trans hp this
    · cases hb; exact hp

/-- The second clock allows at least as much time as the first. -/
def Longer : Clock → Clock → Prop
  | some a, some b => a ≤ b
  | some _, none => True
  | none, none => True
  | none, some _ => False

/-- The states of the two runs: the same, or the time of the first is over and the second is
at least as good. -/
def Ahead (s s' : Graph × Clock) : Prop :=
  (s.1 = s'.1 ∧ Longer s.2 s'.2) ∨ (s.2 = some 0 ∧ s.1.curMax ≤ s'.1.curMax)

theorem longer_tick {t t' : Clock} (h : Longer t t') :
    t = some 0 ∨ ((tick t).1 = false ∧ (tick t').1 = false ∧ Longer (tick t).2 (tick t').2) := by
  rcases t with _ | _ | n
  · rcases t' with _ | m
    · right; exact ⟨rfl, rfl, trivial⟩
    · exact absurd h id
  · left; rfl
  · right
    rcases t' with _ | _ | m
    · exact ⟨rfl, rfl, trivial⟩
    · exact absurd h (by simp [Longer])
    · refine ⟨rfl, rfl, ?_⟩
      have : n + 1 ≤ m + 1 := h
      show n ≤ m
      omega

theorem clearMemory_ahead {req : Nat} {q q' : Graph × Clock} (h : Ahead q q') :
    Both Ahead (q.1.clearMemory req >>= fun G => .ok (G, q.2))
      (q'.1.clearMemory req >>= fun G => .ok (G, q'.2)) := by
  intro r r' h1 h1'
  obtain ⟨G1, e1, h1⟩ := bind_eq_ok.1 h1
  obtain ⟨G1', e1', h1'⟩ := bind_eq_ok.1 h1'
  cases h1; cases h1'
  rcases h with ⟨i1, i2⟩ | ⟨i1, i2⟩
  · left
    rw [i1, e1'] at e1
    cases e1
    exact ⟨rfl, i2⟩
  · right
    refine ⟨i1, ?_⟩
    simp only
    rw [clearMemory_curMax e1, clearMemory_curMax e1']
    exact i2

theorem recSearch_ahead (cur : Nat) (V : Vtx) (req fuel : Nat) (G : Graph) {t t' : Clock}
    (prev res : GBits) (hl : Longer t t') :
    Both Ahead (recSearch cur V req fuel (G, t) prev res)
      (recSearch cur V req fuel (G, t') prev res) := by
  induction fuel generalizing G t t' prev res with
  | zero => intro r r' h; cases h
  | succ fuel ih =>
    rcases longer_tick hl with h0 | ⟨hf, hf', hl2⟩
    · intro r r' h h'
      subst h0
      obtain ⟨h1, h2⟩ := recSearch_over h
      have h3 := recSearch_grows h'
      exact Or.inr ⟨h2, by rw [h1]; exact h3⟩
    unfold recSearch
    refine Both.same fun x => Both.same fun y => ?_
    dsimp only
    simp only [hf, hf', Bool.false_eq_true, if_false]
    generalize (tick t).2 = u at *
    generalize (tick t').2 = u' at *
    refine Both.ite (Both.pure (Or.inl ⟨rfl, hl2⟩)) ?_
    refine Both.ite (Both.pure (Or.inl ⟨rfl, hl2⟩)) ?_
    refine Both.ite (Both.same fun G => Both.pure (Or.inl ⟨rfl, hl2⟩)) ?_
    refine Both.same fun z => Both.same fun w => ?_
    refine Both.bind (Both.forRange (P := Ahead) (Or.inl ⟨rfl, hl2⟩) ?_)
      fun q q' hq => clearMemory_ahead hq
    rintro j ⟨G, t⟩ ⟨G', t'⟩ hp
    rcases hp with ⟨hp1, hp2⟩ | ⟨hp1, hp2⟩
    · simp only at hp1 hp2
      subst hp1
      refine Both.same fun c => Both.ite ?_ (Both.pure (Or.inl ⟨rfl, hp2⟩))
      refine Both.same fun _ => Both.same fun _ => Both.same fun _ => Both.same fun _ =>
        Both.same fun _ => Both.same fun _ => ?_
      refine Both.bind (ih _ _ _ hp2) fun q q' hq => ?_
      rcases hq with ⟨i1, i2⟩ | ⟨i1, i2⟩
      · rw [i1]
        exact Both.same fun _ => Both.pure (Or.inl ⟨rfl, i2⟩)
      · intro r r' h h'
        obtain ⟨_, _, h⟩ := bind_eq_ok.1 h
        obtain ⟨_, _, h'⟩ := bind_eq_ok.1 h'
        cases h; cases h'
        exact Or.inr ⟨i1, i2⟩
    · intro b b' hb hb'
      right
      simp only at hp1 hp2 hb hb'
      subst hp1
      have k1 : b.1.curMax = G.curMax ∧ b.2 = some 0 := by
        obtain ⟨c, hc, hb⟩ := bind_eq_ok.1 hb
        split at hb
        · obtain ⟨_, _, hb⟩ := bind_eq_ok.1 hb
          obtain ⟨_, _, hb⟩ := bind_eq_ok.1 hb
          obtain ⟨_, _, hb⟩ := bind_eq_ok.1 hb
          obtain ⟨_, _, hb⟩ := bind_eq_ok.1 hb
          obtain ⟨_, _, hb⟩ := bind_eq_ok.1 hb
          obtain ⟨_, _, hb⟩ := bind_eq_ok.1 hb
          obtain ⟨x7, e7, hb⟩ := bind_eq_ok.1 hb
          obtain ⟨_, _, hb⟩ := bind_eq_ok.1 hb
          have := recSearch_over e7
          cases hb
          exact this
        · cases hb; exact ⟨rfl, rfl⟩
      have k2 : G'.curMax ≤ b'.1.curMax := by
        obtain ⟨c, hc, hb'⟩ := bind_eq_ok.1 hb'
        split at hb'
        · obtain ⟨_, _, hb'⟩ := bind_eq_ok.1 hb'
          obtain ⟨_, _, hb'⟩ := bind_eq_ok.1 hb'
          obtain ⟨_, _, hb'⟩ := bind_eq_ok.1 hb'
          obtain ⟨_, _, hb'⟩ := bind_eq_ok.1 hb'
          obtain ⟨_, _, hb'⟩ := bind_eq_ok.1 hb'
          obtain ⟨_, _, hb'⟩ := bind_eq_ok.1 hb'
          obtain ⟨x7, e7, hb'⟩ := bind_eq_ok.1 hb'
          obtain ⟨_, _, hb'⟩ := bind_eq_ok.1 hb'
          have := recSearch_grows e7
          cases hb'
          exact this
        · cases hb'; exact Nat.le_refl _
      exact ⟨k1.2, by omega⟩

theorem recVertex_cases {s : Graph × Clock} {cur : Nat} {r : Graph × Clock}
    (h : recVertex s cur = .ok r) : ∃ V G req cand res q,
      s.1.curMax = G.curMax ∧ q.1.curMax = r.1.curMax ∧ q.2 = r.2 ∧
      (recSearch cur V req (V.N + 1) (G, s.2) cand res = .ok q ∨ q = (G, s.2)) := by
  obtain ⟨G, t⟩ := s
  unfold recVertex at h
  obtain ⟨V, _, h⟩ := bind_eq_ok.1 h
  obtain ⟨x, _, h⟩ := bind_eq_ok.1 h
  obtain ⟨y, _, h⟩ := bind_eq_ok.1 h
  dsimp only at h
  split at h
  · obtain ⟨q, hq, h⟩ := bind_eq_ok.1 h
    obtain ⟨G', hG', h⟩ := bind_eq_ok.1 h
    cases h
    exact ⟨V, { G with eb := y.1, searchCur := uadd (uadd G.searchCur (dlen V.N)) (dlen V.N) }, _, _,
      _, q, rfl, (clearMemory_curMax hG').symm, rfl, Or.inl hq⟩
  · obtain ⟨q, hq, h⟩ := bind_eq_ok.1 h
    obtain ⟨G', hG', h⟩ := bind_eq_ok.1 h
    cases h
    cases hq
    exact ⟨V, { G with eb := y.1, searchCur := uadd (uadd G.searchCur (dlen V.N)) (dlen V.N) }, 0,
      ⟨0, 0⟩, ⟨0, 0⟩, _, rfl, (clearMemory_curMax hG').symm, rfl, Or.inr rfl⟩

theorem recVertex_over {G : Graph} {cur : Nat} {r : Graph × Clock}
    (h : recVertex (G, some 0) cur = .ok r) : r.1.curMax = G.curMax ∧ r.2 = some 0 := by
  obtain ⟨V, G', req, cand, res, q, h1, h2, h3, h4⟩ := recVertex_cases h
  rw [← h2, ← h3]
  rcases h4 with h4 | h4
  · have := recSearch_over h4
    exact ⟨by rw [this.1]; exact h1.symm, this.2⟩
  · subst h4; exact ⟨h1.symm, rfl⟩

theorem recVertex_grows {s : Graph × Clock} {cur : Nat} {r : Graph × Clock}
    (h : recVertex s cur = .ok r) : s.1.curMax ≤ r.1.curMax := by
  obtain ⟨V, G', req, cand, res, q, h1, h2, h3, h4⟩ := recVertex_cases h
  rw [← h2, h1]
  rcases h4 with h4 | h4
  · exact recSearch_grows h4
  · subst h4; exact Nat.le_refl _

theorem recVertex_ahead (G : Graph) {t t' : Clock} (cur : Nat) (hl : Longer t t') :
    Both Ahead (recVertex (G, t) cur) (recVertex (G, t') cur) := by
  unfold recVertex
  refine Both.same fun V => Both.same fun x => Both.same fun y => ?_
  refine Both.ite ?_ ?_
  · exact Both.bind (recSearch_ahead cur V _ _ _ _ _ hl) fun q q' hq => clearMemory_ahead hq
  · exact Both.bind (Both.pure (R := Ahead) (Or.inl ⟨rfl, hl⟩)) fun q q' hq => clearMemory_ahead hq

/-- One step of the loop over the roots (dfs_recurse.cpp:25-32). -/
def recStep (s : Graph × Clock × Nat) : M (Graph × Clock × Nat ⊕ Graph × Nat) := do
  let (G, t, i) := s
  if i < G.nVert then do
    let V ← G.vtx i
    if V.mcs ≤ G.curMax ∨ G.curMax ≥ G.limit then .ok (.inl (G, t, i + 1))
    else
      let (expired, t) := tick t
      if expired then .ok (.inr (G, i))
      else do
        let (G, t) ← recVertex (G, t) i
        .ok (.inl (G, t, i + 1))
  else .ok (.inr (G, i))

theorem recGraph_eq (G : Graph) (t : Clock) (sv : Nat) :
    G.recGraph t sv = (recVertex (G, t) G.curLoc >>= fun s =>
      loop (s.1.nVert - sv + 1) recStep (s.1, s.2, sv)) := rfl

theorem recLoop_over {fuel : Nat} {G : Graph} {i : Nat} {r : Graph × Nat}
    (h : loop fuel recStep (G, some 0, i) = .ok r) : r.1.curMax = G.curMax := by
  refine loop_inv (fun s : Graph × Clock × Nat => s.1.curMax = G.curMax ∧ s.2.1 = some 0)
    (fun r : Graph × Nat => r.1.curMax = G.curMax) ?_ ?_ ⟨rfl, rfl⟩ h
  · rintro ⟨G1, t, i⟩ s' ⟨h1, h2⟩ hb
    simp only at h1 h2
    subst h2
    unfold recStep at hb
    dsimp only at hb
    split at hb
    · obtain ⟨V, _, hb⟩ := bind_eq_ok.1 hb
      split at hb
      · cases hb; exact ⟨h1, rfl⟩
      · simp only [tick, if_true] at hb
        cases hb
    · cases hb
  · rintro ⟨G1, t, i⟩ s' ⟨h1, h2⟩ hb
    simp only at h1 h2
    subst h2
    unfold recStep at hb
    dsimp only at hb
    split at hb
    · obtain ⟨V, _, hb⟩ := bind_eq_ok.1 hb
      split at hb
      · cases hb
      · simp only [tick, if_true] at hb
        cases hb; exact h1
    · cases hb; exact h1

theorem recLoop_grows {fuel : Nat} {s : Graph × Clock × Nat} {r : Graph × Nat}
    (h : loop fuel recStep s = .ok r) : s.1.curMax ≤ r.1.curMax := by
  refine loop_inv (fun s' : Graph × Clock × Nat => s.1.curMax ≤ s'.1.curMax)
    (fun r : Graph × Nat => s.1.curMax ≤ r.1.curMax) ?_ ?_ (Nat.le_refl _) h
  · rintro ⟨G1, t, i⟩ s' h1 hb
    simp only at h1
    unfold recStep at hb
    dsimp only at hb
    split at hb
    · obtain ⟨V, _, hb⟩ := bind_eq_ok.1 hb
      split at hb
      · cases hb; exact h1
      · split at hb
        · cases hb
        · obtain ⟨q, hq, hb⟩ := bind_eq_ok.1 hb
          have := recVertex_grows hq
          cases hb
          exact Nat.le_trans h1 this
    · cases hb
  · rintro ⟨G1, t, i⟩ s' h1 hb
    simp only at h1
    unfold recStep at hb
    dsimp only at hb
    split at hb
    · obtain ⟨V, _, hb⟩ := bind_eq_ok.1 hb
      split at hb
      · cases hb
      · split at hb
        · cases hb; exact h1
        · obtain ⟨q, hq, hb⟩ := bind_eq_ok.1 hb
          cases hb
    · cases hb; exact h1

theorem recLoop_ahead {fuel : Nat} {G : Graph} {t t' : Clock} {i : Nat} {r r' : Graph × Nat}
    (hl : Longer t t') (h : loop fuel recStep (G, t, i) = .ok r)
    (h' : loop fuel recStep (G, t', i) = .ok r') : r.1.curMax ≤ r'.1.curMax := by
  induction fuel generalizing G t t' i with
  | zero => cases h
  | succ fuel ih =>
    by_cases h0 : t = some 0
    · subst h0
      rw [recLoop_over h]
      exact recLoop_grows h'
    rcases longer_tick hl with e | ⟨hf, hf', hl2⟩
    · exact absurd e h0
    unfold loop at h h'
    cases hs : recStep (G, t, i) with
    | error e => rw [hs] at h; cases h
    | ok x =>
      cases hs' : recStep (G, t', i) with
      | error e => rw [hs'] at h'; cases h'
      | ok x' =>
        rw [hs] at h
        rw [hs'] at h'
        unfold recStep at hs hs'
        dsimp only at hs hs'
        split at hs
        · rename_i hi
          rw [if_pos hi] at hs'
          obtain ⟨V, hV, hs⟩ := bind_eq_ok.1 hs
          rw [hV, ok_bind] at hs'
          split at hs
          · rename_i hm
            rw [if_pos hm] at hs'
            cases hs; cases hs'
            exact ih hl h h'
          rename_i hm
          rw [if_neg hm] at hs'
          rw [hf] at hs
          rw [hf'] at hs'
          simp only [Bool.false_eq_true, if_false] at hs hs'
          obtain ⟨q, hq, hs⟩ := bind_eq_ok.1 hs
          obtain ⟨q', hq', hs'⟩ := bind_eq_ok.1 hs'
          have hA := recVertex_ahead _ _ hl2 _ _ hq hq'
          cases hs; cases hs'
          obtain ⟨q1, q2⟩ := q
          obtain ⟨q1', q2'⟩ := q'
          rcases hA with ⟨i1, i2⟩ | ⟨i1, i2⟩
          · simp only at i1 i2
            subst i1
            exact ih i2 h h'
          · simp only at i1 i2 h h'
            subst i1
            have h1 := recLoop_over h
            have h2 := recLoop_grows h'
            simp only at h2
            omega
        · rename_i hi
          rw [if_neg hi] at hs'
          cases hs; cases hs'
          cases h; cases h'
          exact Nat.le_refl _

theorem recGraph_ahead {G : Graph} {t t' : Clock} {sv : Nat} {r r' : Graph × Nat}
    (hl : Longer t t') (h : G.recGraph t sv = .ok r) (h' : G.recGraph t' sv = .ok r') :
    r.1.curMax ≤ r'.1.curMax := by
  rw [recGraph_eq] at h h'
  obtain ⟨q, hq, h⟩ := bind_eq_ok.1 h
  obtain ⟨q', hq', h'⟩ := bind_eq_ok.1 h'
  have hA := recVertex_ahead _ _ hl _ _ hq hq'
  obtain ⟨q1, q2⟩ := q
  obtain ⟨q1', q2'⟩ := q'
  rcases hA with ⟨i1, i2⟩ | ⟨i1, i2⟩
  · simp only at i1 i2
    subst i1
    exact recLoop_ahead i2 h h'
  · simp only at i1 i2
    subst i1
    have h1 := recLoop_over h
    have h2 := recLoop_grows h'
    simp only at h1 h2
    omega

theorem findMaxCliques_ahead {srt : List VData → List VData} {G : Graph} {sv : Nat} {uh ud : Bool}
    {t t' : Clock} {r r' : Graph × Nat} (hl : Longer t t')
    (h : G.findMaxCliques srt sv uh ud (some t) = .ok r)
    (h' : G.findMaxCliques srt sv uh ud (some t') = .ok r') : r.1.curMax ≤ r'.1.curMax := by
  unfold findMaxCliques at h h'
  have key : ∀ {G : Graph}, (if ud then G.recGraph t sv else .ok (G, sv)) = .ok r →
      (if ud then G.recGraph t' sv else .ok (G, sv)) = .ok r' → r.1.curMax ≤ r'.1.curMax := by
    intro G h h'
    cases ud
    · cases h; cases h'; exact Nat.le_refl _
    · exact recGraph_ahead hl h h'
  cases uh
  · exact key (G := G) h h'
  · obtain ⟨G1, e1, h⟩ := bind_eq_ok.1 h
    obtain ⟨G1', e1', h'⟩ := bind_eq_ok.1 h'
    rw [e1'] at e1
    cases e1
    exact key h h'

end Graph

end CM
