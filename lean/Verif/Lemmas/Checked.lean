import Verif.Model.Checked
import Verif.Lemmas.JunkEnum

/-!
# A run that is not stopped, and the same run with more memory
-/

namespace CM

variable {α β γ δ σ τ ρ ρ' : Type}

/-- If `x` succeeds, so does `y`, with a related result. -/
def Follows (P : α → β → Prop) (x : M α) (y : M β) : Prop :=
  ∀ a, x = .ok a → ∃ b, y = .ok b ∧ P a b

namespace Follows

theorem pure {P : α → β → Prop} {a : α} {b : β} (h : P a b) : Follows P (.ok a) (.ok b) := by
  intro x hx
  cases hx
  exact ⟨b, rfl, h⟩

theorem bind {Q : α → β → Prop} {P : γ → δ → Prop} {x : M α} {y : M β} {f : α → M γ} {g : β → M δ}
    (h : Follows Q x y) (hf : ∀ a b, Q a b → Follows P (f a) (g b)) :
    Follows P (x >>= f) (y >>= g) := by
  intro c hc
  obtain ⟨a, h1, h2⟩ := bind_eq_ok.1 hc
  obtain ⟨b, h3, h4⟩ := h a h1
  rw [h3, ok_bind]
  exact hf a b h4 c h2

theorem same {P : γ → δ → Prop} {x : M α} {f : α → M γ} {g : α → M δ}
    (hf : ∀ a, Follows P (f a) (g a)) : Follows P (x >>= f) (x >>= g) :=
  bind (Q := fun a b => b = a) (fun a h => ⟨a, h, rfl⟩) fun a b h => by subst h; exact hf _

theorem ite {P : α → β → Prop} {p : Prop} [Decidable p] {x x' : M α} {y y' : M β}
    (h1 : Follows P x y) (h2 : Follows P x' y') :
    Follows P (if p then x else x') (if p then y else y') := by
  split
  · exact h1
  · exact h2

theorem none {P : α → β → Prop} {x : M α} {y : M β} (h : ∀ a, x ≠ .ok a) : Follows P x y :=
  fun a ha => absurd ha (h a)

theorem loop {P : σ → τ → Prop} {Q : ρ → ρ' → Prop} {f : σ → M (σ ⊕ ρ)} {g : τ → M (τ ⊕ ρ')}
    (hs : ∀ a b, P a b → Follows (fun x y => (∃ a' b', x = .inl a' ∧ y = .inl b' ∧ P a' b') ∨
      ∃ c d, x = .inr c ∧ y = .inr d ∧ Q c d) (f a) (g b)) (n : Nat) {s : σ} {s' : τ}
    (h0 : P s s') : Follows Q (CM.loop n f s) (CM.loop n g s') := by
  induction n generalizing s s' with
  | zero => intro a ha; cases ha
  | succ n ih =>
    intro a ha
    unfold CM.loop at ha ⊢
    cases hf : f s with
    | error e => rw [hf] at ha; cases ha
    | ok x =>
      rw [hf] at ha
      obtain ⟨y, hy, h⟩ := hs s s' h0 x hf
      rw [hy]
      rcases h with ⟨a', b', rfl, rfl, h⟩ | ⟨c, d, rfl, rfl, h⟩
      · exact ih h a ha
      · cases ha; exact ⟨d, rfl, h⟩

theorem forRange {P : σ → τ → Prop} {f : Nat → σ → M σ} {g : Nat → τ → M τ} {lo hi : Nat}
    {s : σ} {s' : τ} (h0 : P s s') (hs : ∀ k a b, P a b → Follows P (f k a) (g k b)) :
    Follows P (CM.forRange lo hi f s) (CM.forRange lo hi g s') := by
  unfold CM.forRange
  generalize hi - lo = n
  induction n generalizing lo s s' with
  | zero => exact pure h0
  | succ n ih =>
    intro r h1
    unfold forN at h1 ⊢
    cases hf : f lo s with
    | error e => rw [hf] at h1; cases h1
    | ok b =>
      rw [hf] at h1
      obtain ⟨c, hc, h⟩ := hs lo s s' h0 b hf
      rw [hc]
      exact ih h r h1

end Follows

open Graph

namespace NWG

set_option linter.unusedSectionVars false

variable {R : Type} [Zero R] [Add R] [Sub R] [NatCast R] [LT R] [LE R] [DecidableLT R]
  [DecidableLE R]

variable {H : NWG R}

theorem rd_nil (i : Nat) (x : α) : rd ([] : List α) i ≠ .ok x := by
  intro h
  have := (rd_eq_ok.1 h)
  simp at this

theorem wr_nil (i : Nat) (v : α) (x : List α) : wr ([] : List α) i v ≠ .ok x := by
  intro h
  have := (wr_eq_ok.1 h).1
  simp at this

theorem fillCand_checked (r : Nat) (V : Vtx) (cand : GBits) (eb : Mem) (ws : List R) :
    Follows (fun x y => y = (x.1, ws, x.2.2) ∧ x.2.1 = []) (H.fillCand r V cand eb [])
      (H.fillCand r V cand eb ws) := by
  unfold fillCand
  refine Follows.bind (Q := fun (x y : Mem × List R × R) => y = (x.1, ws, x.2.2) ∧ x.2.1 = []) ?_ ?_
  · refine Follows.forRange (P := fun (x y : Mem × List R × R) => y = (x.1, ws, x.2.2) ∧ x.2.1 = []) ⟨rfl, rfl⟩ ?_
    rintro k ⟨m, _, p⟩ _ ⟨rfl, rfl⟩
    dsimp only
    refine Follows.same fun vert => Follows.same fun dv => Follows.same fun d => ?_
    refine Follows.ite (Follows.pure ⟨rfl, rfl⟩) ?_
    refine Follows.same fun eb => Follows.same fun w => Follows.none ?_
    intro a ha
    obtain ⟨_, h, _⟩ := bind_eq_ok.1 ha
    exact wr_nil _ _ _ h
  · rintro ⟨m, _, p⟩ _ ⟨rfl, rfl⟩
    refine Follows.forRange (P := fun (x y : Mem × List R × R) => y = (x.1, ws, x.2.2) ∧ x.2.1 = []) ⟨rfl, rfl⟩ ?_
    rintro k ⟨m, _, p⟩ _ ⟨rfl, rfl⟩
    dsimp only
    refine Follows.same fun vert => Follows.same fun dv => Follows.same fun d => ?_
    refine Follows.ite (Follows.pure ⟨rfl, rfl⟩) ?_
    refine Follows.same fun eb => Follows.same fun w => Follows.none ?_
    intro a ha
    obtain ⟨_, h, _⟩ := bind_eq_ok.1 ha
    exact wr_nil _ _ _ h

/-- The inner loop without weights ends at once, or is stopped. -/
theorem stackFor_checked (r : Nat) (V : Vtx) (req : Nat) (cw : R) (s : NWG R × WState R)
    (x : (NWG R × WState R) ⊕ ForExit R) (h : stackFor r V req [] cw s = .ok x) :
    x = .inr (.done s.1 s.2 s.2.startAt) := by
  obtain ⟨H, top⟩ := s
  unfold stackFor at h
  dsimp only at h
  split at h
  · obtain ⟨_, _, h⟩ := bind_eq_ok.1 h
    obtain ⟨_, _, h⟩ := bind_eq_ok.1 h
    obtain ⟨_, h, _⟩ := bind_eq_ok.1 h
    exact absurd h (rd_nil _ _)
  · cases h
    rfl

theorem stackFor_loop_checked (r : Nat) (V : Vtx) (req : Nat) (cw : R) (n : Nat)
    (s : NWG R × WState R) (x : ForExit R) (h : loop n (stackFor r V req [] cw) s = .ok x) :
    x = .done s.1 s.2 s.2.startAt ∧ ¬ s.2.startAt < V.N := by
  cases n with
  | zero => cases h
  | succ n =>
    unfold loop at h
    cases hf : stackFor r V req [] cw s with
    | error e => rw [hf] at h; cases h
    | ok y =>
      have := stackFor_checked r V req cw s y hf
      subst this
      rw [hf] at h
      cases h
      refine ⟨rfl, fun hlt => ?_⟩
      unfold stackFor at hf
      dsimp only at hf
      rw [if_pos hlt] at hf
      obtain ⟨_, _, h⟩ := bind_eq_ok.1 hf
      obtain ⟨_, _, h⟩ := bind_eq_ok.1 h
      obtain ⟨_, h, _⟩ := bind_eq_ok.1 h
      exact absurd h (rd_nil _ _)

theorem stackFor_loop_end (r : Nat) (V : Vtx) (req : Nat) (ws : List R) (cw : R) (n : Nat)
    (s : NWG R × WState R) (h : ¬ s.2.startAt < V.N) :
    loop (n + 1) (stackFor r V req ws cw) s = .ok (.done s.1 s.2 s.2.startAt) := by
  unfold loop stackFor
  dsimp only
  rw [if_neg h]

theorem stackBody_checked (r : Nat) (V : Vtx) (req : Nat) (ws : List R)
    (s : NWG R × List (WState R) × R) :
    Follows (fun x y => y = x) (stackBody r V req [] s) (stackBody r V req ws s) := by
  obtain ⟨H, states, cw⟩ := s
  unfold stackBody
  dsimp only
  cases states with
  | nil => exact Follows.pure rfl
  | cons top rest =>
    dsimp only
    refine Follows.ite (Follows.pure rfl) (Follows.same fun x => Follows.same fun sa => ?_)
    refine Follows.bind (Q := fun x y => y = x ∧ ∃ H t j, x = .done H t j) ?_ ?_
    · intro x hx
      obtain ⟨rfl, hlt⟩ := stackFor_loop_checked _ _ _ _ _ _ _ hx
      exact ⟨_, stackFor_loop_end _ _ _ _ _ _ _ hlt, rfl, _, _, _, rfl⟩
    · rintro _ _ ⟨rfl, H1, t, j, rfl⟩
      dsimp only
      refine Follows.ite (Follows.same fun g => Follows.same fun eb => Follows.none ?_)
        (Follows.pure rfl)
      intro a ha
      obtain ⟨_, h, _⟩ := bind_eq_ok.1 ha
      exact rd_nil _ _ h

theorem stackVertex_checked (r : Nat) (ws : List R) :
    Follows (fun x y => y = (x.1, ws) ∧ x.2 = []) (stackVertex (H, []) r)
      (stackVertex (H, ws) r) := by
  unfold stackVertex
  dsimp only
  refine Follows.same fun V => Follows.same fun x => ?_
  refine Follows.bind (fillCand_checked _ _ _ _ ws) ?_
  rintro ⟨eb, _, pot⟩ _ ⟨rfl, rfl⟩
  dsimp only
  refine Follows.same fun wc => Follows.ite (Follows.same fun g => Follows.pure ⟨rfl, rfl⟩) ?_
  refine Follows.bind (Q := fun x y => y = x) (Follows.loop (P := fun a b => b = a) ?_ _ rfl) ?_
  · rintro a _ rfl
    intro x hx
    obtain ⟨y, hy, rfl⟩ := stackBody_checked _ _ _ ws _ x hx
    refine ⟨y, hy, ?_⟩
    cases y with
    | inl y => exact Or.inl ⟨_, _, rfl, rfl, rfl⟩
    | inr y => exact Or.inr ⟨_, _, rfl, rfl, rfl⟩
  · rintro ⟨H1, states⟩ _ rfl
    exact Follows.ite (Follows.same fun g => Follows.same fun g => Follows.pure ⟨rfl, rfl⟩)
      (Follows.same fun g => Follows.same fun g => Follows.pure ⟨rfl, rfl⟩)

theorem stackGraph_checked (junk : Nat → R) :
    Follows (fun x y => y = x) H.stackGraphChecked (H.stackGraph junk) := by
  unfold stackGraphChecked stackGraph
  refine Follows.bind (stackVertex_checked _ _) ?_
  rintro ⟨H1, _⟩ _ ⟨rfl, rfl⟩
  dsimp only
  generalize (List.range H.g.maxDeg).map junk = ws
  refine Follows.bind (Q := fun (x y : NWG R × List R) => y = (x.1, ws) ∧ x.2 = [])
    (Follows.forRange (P := fun (x y : NWG R × List R) => y = (x.1, ws) ∧ x.2 = []) ⟨rfl, rfl⟩ ?_) ?_
  · rintro k ⟨H2, _⟩ _ ⟨rfl, rfl⟩
    dsimp only
    exact Follows.same fun m => Follows.ite (Follows.pure ⟨rfl, rfl⟩) (stackVertex_checked _ _)
  · rintro ⟨H2, _⟩ _ ⟨rfl, rfl⟩
    exact Follows.pure rfl

theorem findMax_checked (srt : List (WData R) → List (WData R)) (junk : Nat → R) (sv : Nat)
    (heur dfs : Bool) : Follows (fun x y => y = x) (H.findMaxCliquesChecked srt sv heur dfs)
      (H.findMaxCliques srt junk sv heur dfs) := by
  unfold findMaxCliquesChecked findMaxCliques
  cases heur with
  | false =>
    simp only [Bool.false_eq_true, if_false]
    exact Follows.ite (stackGraph_checked junk) (Follows.pure rfl)
  | true =>
    simp only [if_true]
    exact Follows.same fun A => Follows.ite (stackGraph_checked junk) (Follows.pure rfl)

theorem getMaxClique_checked {pg : PyNW R} (srt : List (WData R) → List (WData R))
    (junk : Nat → R) (a : PyNW.Args R) :
    Follows (fun x y => y = x) (pg.getMaxCliqueChecked srt a) (pg.getMaxClique srt junk a) := by
  unfold PyNW.getMaxCliqueChecked PyNW.getMaxClique
  dsimp only
  cases ({ pg with currentVertex := 0 } : PyNW R).checkLoaded with
  | none => exact Follows.pure rfl
  | some A =>
    dsimp only
    refine Follows.bind (findMax_checked srt junk _ _ _) ?_
    rintro ⟨A, cv⟩ _ rfl
    exact fun x hx => ⟨x, hx, rfl⟩

/-! ## When the search is stopped -/

theorem fillCand_zero {r : Nat} {V : Vtx} {cand : GBits} {eb : Mem} {x : Mem × List R × R}
    (h : H.fillCand r V cand eb [] = .ok x) : x.2.2 = 0 ∧ x.2.1 = [] := by
  unfold fillCand at h
  have step : ∀ {lo hi : Nat} {f : Nat → Mem × List R × R → M (Mem × List R × R)}
      {s x : Mem × List R × R}, (∀ k s x, s.2.1 = [] → f k s = .ok x → x = s) → s.2.1 = [] →
      forRange lo hi f s = .ok x → x = s := by
    intro lo hi f s x hf hs hx
    unfold forRange at hx
    generalize hi - lo = n at hx
    induction n generalizing lo with
    | zero => cases hx; rfl
    | succ n ih =>
      unfold forN at hx
      cases he : f lo s with
      | error e => rw [he] at hx; cases hx
      | ok y =>
        rw [he] at hx
        rw [hf lo s y hs he] at hx
        exact ih hx
  obtain ⟨y, h1, h2⟩ := bind_eq_ok.1 h
  have e1 := step ?_ rfl h1
  · subst e1
    have e2 := step ?_ rfl h2
    · subst e2
      exact ⟨rfl, rfl⟩
    · intro k s x hs hx
      obtain ⟨_, _, hx⟩ := bind_eq_ok.1 hx
      obtain ⟨_, _, hx⟩ := bind_eq_ok.1 hx
      obtain ⟨_, _, hx⟩ := bind_eq_ok.1 hx
      split at hx
      · cases hx; rfl
      · obtain ⟨_, _, hx⟩ := bind_eq_ok.1 hx
        obtain ⟨_, _, hx⟩ := bind_eq_ok.1 hx
        obtain ⟨_, hx, _⟩ := bind_eq_ok.1 hx
        rw [hs] at hx
        exact absurd hx (wr_nil _ _ _)
  · intro k s x hs hx
    obtain ⟨_, _, hx⟩ := bind_eq_ok.1 hx
    obtain ⟨_, _, hx⟩ := bind_eq_ok.1 hx
    obtain ⟨_, _, hx⟩ := bind_eq_ok.1 hx
    split at hx
    · cases hx; rfl
    · obtain ⟨_, _, hx⟩ := bind_eq_ok.1 hx
      obtain ⟨_, _, hx⟩ := bind_eq_ok.1 hx
      obtain ⟨_, hx, _⟩ := bind_eq_ok.1 hx
      rw [hs] at hx
      exact absurd hx (wr_nil _ _ _)

theorem stackLoop_stopped (r : Nat) (V : Vtx) (req n : Nat) {s : NWG R × List (WState R) × R}
    (h1 : s.2.1 ≠ []) (h2 : ¬ s.1.curMax ≥ s.1.limit) (x : NWG R × List (WState R)) :
    loop n (stackBody r V req []) s ≠ .ok x := by
  intro hx
  refine loop_inv (fun s : NWG R × List (WState R) × R => s.2.1 ≠ [] ∧ ¬ s.1.curMax ≥ s.1.limit)
    (fun _ => False) ?_ ?_ ⟨h1, h2⟩ hx
  all_goals
    rintro ⟨A, states, cw⟩ y ⟨g1, g2⟩ hy
    dsimp only at g1 g2
    unfold stackBody at hy
    cases states with
    | nil => exact absurd rfl g1
    | cons top rest =>
    dsimp only at hy
    rw [if_neg g2] at hy
    obtain ⟨_, _, hy⟩ := bind_eq_ok.1 hy
    obtain ⟨_, _, hy⟩ := bind_eq_ok.1 hy
    obtain ⟨e, he, hy⟩ := bind_eq_ok.1 hy
    obtain ⟨rfl, _⟩ := stackFor_loop_checked _ _ _ _ _ _ _ he
    dsimp only at hy
    split at hy
    · obtain ⟨_, _, hy⟩ := bind_eq_ok.1 hy
      obtain ⟨_, _, hy⟩ := bind_eq_ok.1 hy
      obtain ⟨_, hy, _⟩ := bind_eq_ok.1 hy
      exact absurd hy (rd_nil _ _)
    · cases hy <;> exact ⟨by simp, g2⟩

theorem stackVertex_stopped (w : WF H.g) (l : Lens H) {r : Nat} (hr : r < H.g.nVert)
    (h : H.wCand r ≠ ∅ ∨ (¬ 0 + H.w r ≤ H.curMax ∧ ¬ H.curMax ≥ H.limit)) (x : NWG R × List R) :
    stackVertex (H, []) r ≠ .ok x := by
  intro hx
  unfold stackVertex at hx
  dsimp only at hx
  rw [vtx_ok w hr, ok_bind] at hx
  obtain ⟨⟨G1, y⟩, h1, hx⟩ := bind_eq_ok.1 hx
  dsimp only at hx
  obtain ⟨⟨eb, ws, pot⟩, h2, hx⟩ := bind_eq_ok.1 hx
  obtain ⟨z1, z2⟩ := fillCand_zero h2
  dsimp only at z1 z2 hx
  subst z1 z2
  rcases h with h | ⟨ha, hb⟩
  · obtain ⟨i, hi⟩ := Finset.nonempty_iff_ne_empty.2 h
    have e : ({ H with g := G1 } : NWG R).fillCand r (H.g.V r) y.cand G1.eb [] =
        H.fillCand r (H.g.V r) y.cand G1.eb [] := by
      have hG := rootState_core h1
      generalize y.cand = c
      generalize hm : G1.eb = m
      rw [hG]
      rfl
    rw [e] at h2
    have := AW.fillCand_val w l hr h2 i hi
    simp at this
  · have hw : rd H.wt r = .ok (H.w r) := rd_getD 0 (by rw [l.wt]; exact hr)
    rw [hw, ok_bind, if_neg ha] at hx
    obtain ⟨_, hx, _⟩ := bind_eq_ok.1 hx
    exact stackLoop_stopped _ _ _ _ (by simp) hb _ hx

/-! ## The enumerator -/

/-- The same iterator with memory for `weights`. -/
def withWs (ws : List R) (E : WEnum R) : WEnum R := { E with ws := ws }

theorem enumLoad_checked (ws : List R) {E : WEnum R} (h : E.ws = []) :
    Follows (fun x y => y = (x.1, withWs ws x.2.1, x.2.2) ∧ x.2.1.ws = []) (H.enumLoad E)
      (H.enumLoad (withWs ws E)) := by
  unfold enumLoad withWs
  rw [h]
  dsimp only
  refine Follows.same fun V => Follows.same fun x => ?_
  refine Follows.bind (fillCand_checked _ _ _ _ ws) ?_
  rintro ⟨eb, _, pot⟩ _ ⟨rfl, rfl⟩
  dsimp only
  exact Follows.same fun wc => Follows.ite (Follows.same fun g => Follows.pure ⟨rfl, rfl⟩)
    (Follows.pure ⟨rfl, rfl⟩)

theorem enumVertex_checked (ws : List R) {E : WEnum R} (h : E.ws = []) :
    Follows (fun x y => y = (x.1, withWs ws x.2) ∧ x.2.ws = []) (H.enumVertex E)
      (H.enumVertex (withWs ws E)) := by
  unfold enumVertex
  refine Follows.loop (P := fun x y => y = (x.1, withWs ws x.2) ∧ x.2.ws = []) ?_ _ ⟨rfl, h⟩
  rintro ⟨A, F⟩ _ ⟨rfl, hF⟩
  dsimp only at hF ⊢
  refine Follows.ite (Follows.same fun m => Follows.ite
    (Follows.pure (Or.inl ⟨_, _, rfl, rfl, rfl, hF⟩)) ?_)
    (Follows.pure (Or.inr ⟨_, _, rfl, rfl, rfl, hF⟩))
  refine Follows.bind (enumLoad_checked ws hF) ?_
  rintro ⟨B, F1, b⟩ _ ⟨rfl, hF1⟩
  dsimp only at hF1 ⊢
  exact Follows.ite (Follows.pure (Or.inr ⟨_, _, rfl, rfl, rfl, hF1⟩))
    (Follows.pure (Or.inl ⟨_, _, rfl, rfl, rfl, hF1⟩))

/-- The inner loop without weights goes to the end without finding anything, or is stopped. -/
theorem enumFor_checked (V : Vtx) (req : Nat) (ws : List R) (cw T : R) (s : NWG R × WState R × Nat) :
    Follows (fun x y => y = x ∧ ((∃ a, x = .inl a) ∨ ∃ H t, x = .inr (.done H t)))
      (enumFor V req [] cw T s) (enumFor V req ws cw T s) := by
  obtain ⟨H, top, j⟩ := s
  unfold enumFor
  dsimp only
  refine Follows.ite (Follows.same fun t => Follows.ite ?_
    (Follows.pure ⟨rfl, Or.inl ⟨_, rfl⟩⟩)) (Follows.pure ⟨rfl, Or.inr ⟨_, _, rfl⟩⟩)
  refine Follows.same fun eb => Follows.same fun c => Follows.none ?_
  intro a ha
  obtain ⟨_, h, _⟩ := bind_eq_ok.1 ha
  exact rd_nil _ _ h

theorem enumBody_checked (ws : List R) {E : WEnum R} (h : E.ws = []) :
    Follows (fun x y =>
      (∃ a b, x = .inl a ∧ y = .inl b ∧ (b = (a.1, withWs ws a.2) ∧ a.2.ws = [])) ∨
      ∃ a b, x = .inr a ∧ y = .inr b ∧
        (b = (a.1, withWs ws a.2.1, a.2.2) ∧ a.2.1.ws = [] ∧ ¬ a.2.2 < a.1.g.nVert))
      (enumBody (H, E)) (enumBody (H, withWs ws E)) := by
  unfold enumBody
  dsimp only [withWs]
  split
  swap
  · rename_i hlt
    exact Follows.pure (Or.inr ⟨_, _, rfl, rfl, rfl, h, hlt⟩)
  split
  · refine Follows.same fun g => Follows.bind (enumVertex_checked ws h) ?_
    rintro ⟨A, F⟩ _ ⟨rfl, hF⟩
    exact Follows.pure (Or.inl ⟨_, _, rfl, rfl, rfl, hF⟩)
  · rename_i top rest _
    rw [h]
    refine Follows.same fun V => Follows.same fun c => ?_
    refine Follows.bind (Q := fun x y => y = x ∧ ∃ H t, x = .done H t)
      (Follows.loop (P := fun a b => b = a) ?_ _ rfl) ?_
    · rintro a _ rfl
      intro x hx
      obtain ⟨y, hy, rfl, ⟨b, rfl⟩ | ⟨H1, t, rfl⟩⟩ := enumFor_checked _ _ ws _ _ _ x hx
      · exact ⟨_, hy, Or.inl ⟨_, _, rfl, rfl, rfl⟩⟩
      · exact ⟨_, hy, Or.inr ⟨_, _, rfl, rfl, rfl, _, _, rfl⟩⟩
    · rintro _ _ ⟨rfl, H1, t, rfl⟩
      dsimp only
      refine Follows.same fun g => Follows.same fun eb => Follows.none ?_
      intro a ha
      obtain ⟨_, h, _⟩ := bind_eq_ok.1 ha
      exact rd_nil _ _ h

theorem enumGraph_checked (ws : List R) {E : WEnum R} (h : E.ws = []) :
    Follows (fun x y => y = (x.1, withWs ws x.2.1, x.2.2) ∧ x.2.1.ws = [] ∧ ¬ x.2.2 < x.1.g.nVert)
      (H.enumGraph E) (H.enumGraph (withWs ws E)) := by
  unfold enumGraph
  refine Follows.loop (P := fun x y => y = (x.1, withWs ws x.2) ∧ x.2.ws = []) ?_ _ ⟨rfl, h⟩
  rintro ⟨A, F⟩ _ ⟨rfl, hF⟩
  exact enumBody_checked ws hF

end NWG

end CM
