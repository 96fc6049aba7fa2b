import Verif.Lemmas.Basic
import Verif.Model.Api

/-!
# A time limit that is long enough behaves like no expiry

A timed search asks the clock finitely often; with a budget of at least that many
"not yet" answers it behaves as with a clock that never expires.
-/

namespace CM

namespace Graph

/-- If `f` succeeds under a clock that never expires, then it asks some number `T` of
questions, and with a budget of `T + r` it does the same and leaves `r`. -/
def Affine {α : Type} (f : Clock → M (α × Clock)) : Prop :=
  ∀ a c, f none = .ok (a, c) → c = none ∧ ∃ T, ∀ r, f (some (T + r)) = .ok (a, some r)

variable {α β : Type}

theorem Affine.pure (a : α) : Affine (fun t => .ok (a, t)) := by
  intro b c h
  simp only [Except.ok.injEq, Prod.mk.injEq] at h
  obtain ⟨rfl, rfl⟩ := h
  exact ⟨rfl, 0, fun r => by rw [Nat.zero_add]⟩

theorem Affine.bind {f : Clock → M (α × Clock)} {g : α → Clock → M (β × Clock)}
    (hf : Affine f) (hg : ∀ a, Affine (g a)) :
    Affine (fun t => f t >>= fun p => g p.1 p.2) := by
  intro b c h
  obtain ⟨p, h1, h2⟩ := bind_eq_ok.1 h
  obtain ⟨a, c1⟩ := p
  obtain ⟨rfl, T1, e1⟩ := hf a c1 h1
  obtain ⟨rfl, T2, e2⟩ := hg a b c h2
  refine ⟨rfl, T1 + T2, fun r => ?_⟩
  simp only
  rw [Nat.add_assoc, e1, ok_bind]
  exact e2 r

/-- A step that does not look at the clock. -/
theorem Affine.step {x : M α} {g : α → Clock → M (β × Clock)} (hg : ∀ a, Affine (g a)) :
    Affine (fun t => x >>= fun a => g a t) := by
  intro b c h
  obtain ⟨a, h1, h2⟩ := bind_eq_ok.1 h
  obtain ⟨rfl, T, e⟩ := hg a b c h2
  refine ⟨rfl, T, fun r => ?_⟩
  simp only
  rw [h1, ok_bind]
  exact e r

theorem Affine.ite {p : Prop} [Decidable p] {f g : Clock → M (β × Clock)}
    (hf : p → Affine f) (hg : ¬p → Affine g) : Affine (fun t => if p then f t else g t) := by
  by_cases hp : p
  · simpa [hp] using hf hp
  · simpa [hp] using hg hp

/-- One question. -/
theorem Affine.ask {f g : Clock → M (β × Clock)} (hg : Affine g) :
    Affine (fun t => if (tick t).1 then f (tick t).2 else g (tick t).2) := by
  intro b c h
  have h' : g none = .ok (b, c) := by simpa [tick] using h
  obtain ⟨rfl, T, e⟩ := hg b c h'
  refine ⟨rfl, T + 1, fun r => ?_⟩
  have : T + 1 + r = (T + r) + 1 := by omega
  simp only [this, tick]
  simpa using e r

theorem Affine.forRange {lo hi : Nat} {body : Nat → α × Clock → M (α × Clock)}
    (hb : ∀ k a, Affine (fun t => body k (a, t))) (a : α) :
    Affine (fun t => CM.forRange lo hi body (a, t)) := by
  unfold CM.forRange
  have key : ∀ n i a, Affine (fun t => forN n i body (a, t)) := by
    intro n
    induction n with
    | zero => intro i a; exact Affine.pure a
    | succ n ih =>
      intro i a
      have := Affine.bind (g := fun a t => forN n (i + 1) body (a, t)) (hb i a)
        (fun a => ih (i + 1) a)
      have e : (fun t => forN (n + 1) i body (a, t)) =
          fun t => body i (a, t) >>= fun p => forN n (i + 1) body (p.1, p.2) := by
        funext t
        simp only [forN]
        cases body i (a, t) <;> rfl
      rw [e]; exact this
  exact key _ _ _

theorem recSearch_affine (cur : Nat) (V : Vtx) (req : Nat) :
    ∀ (fuel : Nat) (G : Graph) (prev res : GBits),
      Affine (fun t => recSearch cur V req fuel (G, t) prev res) := by
  intro fuel
  induction fuel with
  | zero => intro G prev res a c h; simp [recSearch] at h
  | succ fuel ih =>
    intro G prev res
    simp only [recSearch]
    refine Affine.step fun p => Affine.step fun q => ?_
    refine Affine.ask (f := fun t => .ok ({ G with eb := q.1 }, t)) (g := fun t =>
      if G.curMax ≥ G.limit then .ok ({ G with eb := q.1 }, t)
      else if p.2 + q.2 ≤ G.curMax then .ok ({ G with eb := q.1 }, t)
      else if p.2 = 0 then do
        let G ← { G with eb := q.1 }.saveClique cur V res (p.2 + q.2)
        .ok (G, t)
      else do
        let (G, p) := { G with eb := q.1 }.loadMemory req
        let (cand, eb) ← GBits.copyFrom prev p G.eb
        let (G, q) := { G with eb := eb }.loadMemory req
        let (fut, eb) ← GBits.copyFrom prev q G.eb
        let (G, t) ← CM.forRange 0 V.N (fun j (s : Graph × Clock) => do
          let (G, t) := s
          if ← cand.test G.eb j then do
            let vert ← G.nbr V j
            let eb ← res.set G.eb j
            let eb ← cand.reset eb j
            let eb ← fut.copyData cand.off eb
            let U ← G.vtx vert
            let eb ← G.recScan V U fut eb j
            let (G, t) ← recSearch cur V req fuel ({ G with eb := eb }, t) fut res
            let eb ← res.reset G.eb j
            .ok ({ G with eb := eb }, t)
          else .ok s) ({ G with eb := eb }, t)
        let G ← G.clearMemory (2 * req)
        .ok (G, t)) ?_
    simp only
    refine Affine.ite (fun _ => Affine.pure _) fun _ => ?_
    refine Affine.ite (fun _ => Affine.pure _) fun _ => ?_
    refine Affine.ite (fun _ => ?_) fun _ => ?_
    · exact Affine.step fun G => Affine.pure G
    · refine Affine.step fun cb => Affine.step fun fb => ?_
      refine Affine.bind (g := fun (G : Graph) t => (do
        let G ← G.clearMemory (2 * req)
        .ok (G, t))) ?_ (fun G => Affine.step fun G => Affine.pure G)
      refine Affine.forRange ?_ _
      intro k G
      simp only
      refine Affine.step fun b => ?_
      refine Affine.ite (fun _ => ?_) fun _ => Affine.pure _
      refine Affine.step fun vert => Affine.step fun eb => Affine.step fun eb =>
        Affine.step fun eb => Affine.step fun U => Affine.step fun eb => ?_
      refine Affine.bind (g := fun G t => (do
        let eb ← res.reset G.eb k
        .ok ({ G with eb := eb }, t))) (ih _ _ _) (fun G => Affine.step fun eb => Affine.pure _)

theorem recVertex_affine (G : Graph) (cur : Nat) : Affine (fun t => recVertex (G, t) cur) := by
  simp only [recVertex]
  refine Affine.step fun V => Affine.step fun eb => Affine.step fun p => ?_
  have hg : ∀ G : Graph, Affine (fun t => (do
        let G ← G.clearMemory (2 * dlen V.N)
        .ok (G, t))) := fun G => Affine.step fun G => Affine.pure G
  exact Affine.ite (fun _ => Affine.bind (recSearch_affine _ _ _ _ _ _ _) hg) (fun _ => hg _)

theorem recGraph_budget (G : Graph) (sv : Nat) {G' : Graph} {i : Nat}
    (h : G.recGraph none sv = .ok (G', i)) :
    ∃ T, ∀ b, T ≤ b → G.recGraph (some b) sv = .ok (G', i) := by
  unfold recGraph at h ⊢
  obtain ⟨⟨G1, c1⟩, h1, h2⟩ := bind_eq_ok.1 h
  obtain ⟨rfl, T1, e1⟩ := recVertex_affine G G.curLoc G1 c1 h1
  simp only at h2
  have key : ∀ (fuel : Nat) (G : Graph) (i : Nat) (out : Graph × Nat),
      loop fuel (fun (s : Graph × Clock × Nat) => do
        let (G, t, i) := s
        if i < G.nVert then do
          let V ← G.vtx i
          if V.mcs ≤ G.curMax ∨ G.curMax ≥ G.limit then .ok (.inl (G, t, i + 1))
          else
            let (expired, t) := tick t
            if expired then .ok (.inr (G, i))
            else do
              let (G, t) ← recVertex (G, t) i
              .ok (.inl (G, t, i + 1))
        else .ok (.inr (G, i))) (G, none, i) = .ok out →
      ∃ T, ∀ b, T ≤ b → loop fuel (fun (s : Graph × Clock × Nat) => do
        let (G, t, i) := s
        if i < G.nVert then do
          let V ← G.vtx i
          if V.mcs ≤ G.curMax ∨ G.curMax ≥ G.limit then .ok (.inl (G, t, i + 1))
          else
            let (expired, t) := tick t
            if expired then .ok (.inr (G, i))
            else do
              let (G, t) ← recVertex (G, t) i
              .ok (.inl (G, t, i + 1))
        else .ok (.inr (G, i))) (G, some b, i) = .ok out := by
    intro fuel
    induction fuel with
    | zero => intro G i out h; simp [loop] at h
    | succ fuel ih =>
      intro G i out h
      unfold loop at h
      unfold loop
      simp only at h ⊢
      by_cases hi : i < G.nVert
      · simp only [if_pos hi] at h ⊢
        cases hV : G.vtx i with
        | error e => rw [hV] at h; simp at h
        | ok V =>
          simp only [hV, ok_bind] at h ⊢
          by_cases hc : V.mcs ≤ G.curMax ∨ G.curMax ≥ G.limit
          · simp only [if_pos hc] at h ⊢
            exact ih _ _ _ h
          · simp only [if_neg hc] at h ⊢
            simp only [tick] at h
            cases hR : recVertex (G, none) i with
            | error e => rw [hR] at h; simp at h
            | ok p =>
              obtain ⟨G2, c2⟩ := p
              obtain ⟨rfl, T2, e2⟩ := recVertex_affine G i G2 c2 hR
              rw [hR] at h
              simp only [ok_bind, Bool.false_eq_true, if_false] at h
              obtain ⟨T3, e3⟩ := ih _ _ _ h
              refine ⟨T2 + T3 + 1, fun b hb => ?_⟩
              obtain ⟨r, rfl⟩ : ∃ r, b = T2 + r + 1 := ⟨b - T2 - 1, by omega⟩
              simp only [tick, Bool.false_eq_true, if_false]
              have e2' := e2 r
              simp only at e2'
              rw [e2', ok_bind]
              exact e3 r (by omega)
      · simp only [if_neg hi] at h ⊢
        exact ⟨0, fun b _ => h⟩
  obtain ⟨T2, e2⟩ := key _ _ _ _ h2
  refine ⟨T1 + T2, fun b hb => ?_⟩
  obtain ⟨r, rfl⟩ : ∃ r, b = T1 + r := ⟨b - T1, by omega⟩
  have e1' := e1 r
  simp only at e1'
  rw [e1', ok_bind]
  exact e2 r (by omega)

/-- Under a clock that never expires the loop over the vertices runs to its end. -/
theorem recGraph_done (G : Graph) (sv : Nat) {G' : Graph} {i : Nat}
    (h : G.recGraph none sv = .ok (G', i)) : G'.nVert ≤ i := by
  unfold recGraph at h
  obtain ⟨⟨G1, c1⟩, h1, h2⟩ := bind_eq_ok.1 h
  obtain ⟨rfl, _⟩ := recVertex_affine G G.curLoc G1 c1 h1
  refine loop_inv (fun s : Graph × Clock × Nat => s.2.1 = none)
    (fun q : Graph × Nat => q.1.nVert ≤ q.2) ?_ ?_ rfl h2
  · rintro ⟨X, t, i⟩ s' ht hb
    simp only at ht hb
    subst ht
    split at hb
    · obtain ⟨V, b1, b2⟩ := bind_eq_ok.1 hb
      split at b2
      · injection b2 with b2; injection b2 with b2; subst b2; rfl
      · simp only [tick, Bool.false_eq_true, if_false] at b2
        obtain ⟨⟨Y, c⟩, b3, b4⟩ := bind_eq_ok.1 b2
        obtain ⟨rfl, _⟩ := recVertex_affine X i Y c b3
        injection b4 with b4; injection b4 with b4; subst b4; rfl
    · injection hb with hb; cases hb
  · rintro ⟨X, t, i⟩ q ht hb
    simp only at ht hb
    subst ht
    split at hb
    · obtain ⟨V, b1, b2⟩ := bind_eq_ok.1 hb
      split at b2
      · injection b2 with b2; cases b2
      · simp only [tick, Bool.false_eq_true, if_false] at b2
        obtain ⟨⟨Y, c⟩, b3, b4⟩ := bind_eq_ok.1 b2
        injection b4 with b4; cases b4
    · rename_i hn
      injection hb with hb; injection hb with hb; subst hb; simp only; omega

end Graph

/-- A search whose clock would never expire does the same under every sufficiently large
time limit. -/
theorem getMaxClique_budget (pg : PyGraph) (srt : List Graph.VData → List Graph.VData)
    (a : PyGraph.Args) {out : PyGraph × PyRes (List Nat)}
    (h : pg.getMaxClique srt { a with timeLimit := some none } = .ok out) :
    ∃ T, ∀ b, T ≤ b → pg.getMaxClique srt { a with timeLimit := some (some b) } = .ok out := by
  unfold PyGraph.getMaxClique at h ⊢
  simp only at h ⊢
  split at h
  · rename_i hl
    exact ⟨0, fun b _ => by rw [hl]; exact h⟩
  · rename_i G hl
    obtain ⟨⟨G1, i⟩, h1, h2⟩ := bind_eq_ok.1 h
    have : ∀ (G : Graph) (sv : Nat) (hr : Bool) (p : Graph × Nat),
        G.findMaxCliques srt sv hr a.useDfs (some none) = .ok p →
        ∃ T, ∀ b, T ≤ b → G.findMaxCliques srt sv hr a.useDfs (some (some b)) = .ok p := by
      intro G sv hr p hp
      unfold Graph.findMaxCliques at hp ⊢
      by_cases hd : a.useDfs = true
      · simp only [hd, if_true] at hp ⊢
        cases hr with
        | true =>
          simp only [if_true] at hp ⊢
          obtain ⟨G2, h3, h4⟩ := bind_eq_ok.1 hp
          obtain ⟨T, e⟩ := Graph.recGraph_budget _ _ h4
          exact ⟨T, fun b hb => by rw [h3, ok_bind]; exact e b hb⟩
        | false =>
          simp only [Bool.false_eq_true, if_false, ok_bind] at hp ⊢
          exact Graph.recGraph_budget _ _ hp
      · simp only [hd] at hp ⊢
        exact ⟨0, fun b _ => hp⟩
    obtain ⟨T, e⟩ := this _ _ _ _ h1
    refine ⟨T, fun b hb => ?_⟩
    rw [hl]
    simp only
    rw [e b hb, ok_bind]
    exact h2

end CM
