import Verif.Model.Clock
import Verif.Lemmas.Rec
import Verif.Lemmas.Metric

/-!
# Searches that read a clock
-/

namespace CM

variable {α β α' β' σ τ ρ ρ' : Type}

/-- `x` is `y` with the result mapped by `f`. -/
def Tracks (f : α → β) (x : M β) (y : M α) : Prop := x = y.map f

namespace Tracks

theorem pure {f : α → β} (a : α) : Tracks f (.ok (f a)) (.ok a) := rfl

theorem bind {f : α → β} {g : α' → β'} {x : M β} {y : M α} {k : β → M β'} {l : α → M α'}
    (h1 : Tracks f x y) (h2 : ∀ a, Tracks g (k (f a)) (l a)) : Tracks g (x >>= k) (y >>= l) := by
  unfold Tracks at h1
  subst h1
  cases y with
  | error e => rfl
  | ok a => exact h2 a

theorem same {g : α' → β'} {x : M α} {k : α → M β'} {l : α → M α'}
    (h2 : ∀ a, Tracks g (k a) (l a)) : Tracks g (x >>= k) (x >>= l) := by
  cases x with
  | error e => rfl
  | ok a => exact h2 a

theorem ite {f : α → β} {p : Prop} [Decidable p] {x x' : M β} {y y' : M α}
    (h1 : Tracks f x y) (h2 : Tracks f x' y') :
    Tracks f (if p then x else x') (if p then y else y') := by
  split
  · exact h1
  · exact h2

theorem forN {f : σ → τ} {k : Nat → τ → M τ} {l : Nat → σ → M σ}
    (h : ∀ i s, Tracks f (k i (f s)) (l i s)) (n i : Nat) (s : σ) :
    Tracks f (forN n i k (f s)) (forN n i l s) := by
  induction n generalizing i s with
  | zero => exact pure s
  | succ n ih =>
    have h' := h i s
    unfold Tracks at h' ⊢
    unfold CM.forN
    rw [h']
    cases l i s with
    | error e => rfl
    | ok s' => exact ih _ _

theorem forRange {f : σ → τ} {k : Nat → τ → M τ} {l : Nat → σ → M σ}
    (h : ∀ i s, Tracks f (k i (f s)) (l i s)) (lo hi : Nat) (s : σ) :
    Tracks f (forRange lo hi k (f s)) (forRange lo hi l s) :=
  forN h _ _ s

theorem loop {f : σ → τ} {g : ρ → ρ'} {k : τ → M (τ ⊕ ρ')} {l : σ → M (σ ⊕ ρ)}
    (h : ∀ s, Tracks (Sum.map f g) (k (f s)) (l s)) (n : Nat) (s : σ) :
    Tracks g (loop n k (f s)) (loop n l s) := by
  induction n generalizing s with
  | zero => rfl
  | succ n ih =>
    have h' := h s
    unfold Tracks at h' ⊢
    unfold CM.loop
    rw [h']
    cases l s with
    | error e => rfl
    | ok r =>
      cases r with
      | inl s' => exact ih s'
      | inr r => rfl

end Tracks

namespace Graph

/-- The answers of a clock of `Verif.Model.Search`. -/
def answers : Clock → Nat → Bool
  | none, _ => false
  | some n, k => decide (n ≤ k)

/-- What is left of the clock after `k` readings. -/
def after : Clock → Nat → Clock
  | none, _ => none
  | some n, k => some (n - k)

theorem after_zero (c : Clock) : after c 0 = c := by cases c <;> rfl

theorem tick_after (c : Clock) (k : Nat) : tick (after c k) = (answers c k, after c (k + 1)) := by
  cases c with
  | none => rfl
  | some n =>
    show tick (some (n - k)) = (decide (n ≤ k), some (n - (k + 1)))
    by_cases h : n ≤ k
    · have h0 : n - k = 0 := by omega
      have h1 : n - (k + 1) = 0 := by omega
      rw [h0, h1]
      simp [tick, h]
    · obtain ⟨m, hm⟩ : ∃ m, n - k = m + 1 := ⟨n - k - 1, by omega⟩
      have h1 : n - (k + 1) = m := by omega
      rw [hm, h1]
      simp [tick, h]

/-- The state of a search, with the clock in place of the number of readings. -/
abbrev clk (c : Clock) (s : Graph × Nat) : Graph × Clock := (s.1, after c s.2)

theorem recSearch_sim (c : Clock) (cur : Nat) (V : Vtx) (req fuel : Nat) (s : Graph × Nat)
    (prev res : GBits) :
    Tracks (clk c) (recSearch cur V req fuel (clk c s) prev res)
      (recSearchC (answers c) cur V req fuel s prev res) := by
  induction fuel generalizing s prev res with
  | zero => rfl
  | succ fuel ih =>
    obtain ⟨G, k⟩ := s
    unfold recSearch recSearchC
    refine Tracks.same fun x => Tracks.same fun y => ?_
    simp only [tick_after]
    refine Tracks.ite (Tracks.pure (f := clk c) (_, k + 1)) ?_
    refine Tracks.ite (Tracks.pure (f := clk c) (_, k + 1)) ?_
    refine Tracks.ite (Tracks.pure (f := clk c) (_, k + 1)) ?_
    refine Tracks.ite ?_ ?_
    · exact Tracks.same fun G => Tracks.pure (f := clk c) (G, k + 1)
    · refine Tracks.same fun x => Tracks.same fun y => ?_
      refine Tracks.bind (f := clk c) (Tracks.forRange (f := clk c) ?_ _ _ (_, k + 1)) fun s => ?_
      · rintro j ⟨G, k⟩
        refine Tracks.same fun b => ?_
        refine Tracks.ite ?_ (Tracks.pure (f := clk c) (G, k))
        refine Tracks.same fun _ => Tracks.same fun _ => Tracks.same fun _ => Tracks.same fun _ =>
          Tracks.same fun _ => Tracks.same fun _ => ?_
        refine Tracks.bind (ih (_, k) _ _) fun s => ?_
        exact Tracks.same fun _ => Tracks.pure (f := clk c) (_, s.2)
      · exact Tracks.same fun G => Tracks.pure (f := clk c) (G, s.2)

theorem recVertex_sim (c : Clock) (s : Graph × Nat) (cur : Nat) :
    Tracks (clk c) (recVertex (clk c s) cur) (recVertexC (answers c) s cur) := by
  obtain ⟨G, k⟩ := s
  unfold recVertex recVertexC
  refine Tracks.same fun V => Tracks.same fun _ => Tracks.same fun _ => ?_
  have hend : ∀ r : Graph × Nat, Tracks (clk c)
      ((clk c r).1.clearMemory (2 * dlen V.N) >>= fun G => .ok (G, (clk c r).2))
      (r.1.clearMemory (2 * dlen V.N) >>= fun G => .ok (G, r.2)) := fun r =>
    Tracks.same fun G => Tracks.pure (f := clk c) (G, r.2)
  refine Tracks.ite ?_ ?_
  · exact Tracks.bind (recSearch_sim c cur V _ _ (_, k) _ _) hend
  · exact Tracks.bind (Tracks.pure (f := clk c) (_, k)) hend

theorem recGraph_sim (c : Clock) (G : Graph) (sv : Nat) :
    Tracks (fun r : Graph × Nat × Nat => (r.1, r.2.1)) (G.recGraph c sv)
      (G.recGraphC (answers c) sv) := by
  unfold recGraph recGraphC
  have h0 := recVertex_sim c (G, 0) G.curLoc
  unfold clk at h0
  simp only [after_zero] at h0
  refine Tracks.bind h0 fun s => ?_
  refine Tracks.loop (f := fun s : Graph × Nat × Nat => (s.1, after c s.2.1, s.2.2))
    (g := fun r : Graph × Nat × Nat => (r.1, r.2.1)) ?_ _ (s.1, s.2, sv)
  rintro ⟨G, k, i⟩
  refine Tracks.ite ?_ (Tracks.pure (f := Sum.map _ _) (.inr (G, i, k)))
  refine Tracks.same fun V => ?_
  refine Tracks.ite (Tracks.pure (f := Sum.map _ _) (.inl (G, k, i + 1))) ?_
  simp only [tick_after]
  refine Tracks.ite (Tracks.pure (f := Sum.map _ _) (.inr (G, i, k + 1))) ?_
  refine Tracks.bind (recVertex_sim c (G, k + 1) i) fun s => ?_
  exact Tracks.pure (f := Sum.map _ _) (.inl (s.1, s.2, i + 1))

/-! ## How often the clock is read -/

/-- After the limit has passed, a search of a subtree reads the clock once. -/
theorem recSearchC_late {lt : Nat → Bool} {cur : Nat} {V : Vtx} {req fuel k : Nat} {G : Graph}
    {prev res : GBits} {r : Graph × Nat} (hk : lt k = true)
    (h : recSearchC lt cur V req fuel (G, k) prev res = .ok r) : r.2 = k + 1 := by
  cases fuel with
  | zero => cases h
  | succ fuel =>
    unfold recSearchC at h
    obtain ⟨x, _, h⟩ := bind_eq_ok.1 h
    obtain ⟨y, _, h⟩ := bind_eq_ok.1 h
    simp only [hk, if_true] at h
    cases h
    rfl

/-- The limit passes at reading `n`; then the search of a subtree of height `fuel` reads the clock at
most `fuel * N` more times after that reading. -/
theorem recSearchC_reads {lt : Nat → Bool} {n : Nat} (hlt : ∀ k, lt k = true ↔ n ≤ k) {cur : Nat}
    {V : Vtx} {req fuel k : Nat} {G : Graph} {prev res : GBits} {r : Graph × Nat}
    (h : recSearchC lt cur V req fuel (G, k) prev res = .ok r) (hk : k ≤ n) :
    r.2 ≤ n + 1 + fuel * V.N := by
  induction fuel generalizing k G prev res r with
  | zero => cases h
  | succ fuel ih =>
    by_cases hn : n ≤ k
    · rw [recSearchC_late ((hlt k).2 hn) h]; omega
    unfold recSearchC at h
    obtain ⟨x, _, h⟩ := bind_eq_ok.1 h
    obtain ⟨y, _, h⟩ := bind_eq_ok.1 h
    have hf : lt k = false := by
      cases hh : lt k with
      | false => rfl
      | true => exact absurd ((hlt k).1 hh) hn
    simp only [hf, Bool.false_eq_true, if_false] at h
    split at h
    · cases h; simp only; omega
    split at h
    · cases h; simp only; omega
    split at h
    · obtain ⟨G', _, h⟩ := bind_eq_ok.1 h
      cases h; simp only; omega
    obtain ⟨z, _, h⟩ := bind_eq_ok.1 h
    obtain ⟨w, _, h⟩ := bind_eq_ok.1 h
    obtain ⟨s, hs, h⟩ := bind_eq_ok.1 h
    obtain ⟨G', _, h⟩ := bind_eq_ok.1 h
    cases h
    simp only
    have := forRange_inv (fun j (s : Graph × Nat) => s.2 ≤ n ∨ s.2 ≤ n + 1 + fuel * V.N + j)
      (Nat.zero_le _) (Or.inl (by simp only; omega)) ?_ hs
    · rw [Nat.succ_mul]; omega
    · rintro j ⟨G, k⟩ s' _ hj hp hb
      simp only at hb hp
      obtain ⟨b, _, hb⟩ := bind_eq_ok.1 hb
      split at hb
      · obtain ⟨_, _, hb⟩ := bind_eq_ok.1 hb
        obtain ⟨_, _, hb⟩ := bind_eq_ok.1 hb
        obtain ⟨_, _, hb⟩ := bind_eq_ok.1 hb
        obtain ⟨_, _, hb⟩ := bind_eq_ok.1 hb
        obtain ⟨_, _, hb⟩ := bind_eq_ok.1 hb
        obtain ⟨_, _, hb⟩ := bind_eq_ok.1 hb
        obtain ⟨q, hq, hb⟩ := bind_eq_ok.1 hb
        obtain ⟨_, _, hb⟩ := bind_eq_ok.1 hb
        cases hb
        simp only
        by_cases hkn : k ≤ n
        · right
          have := ih hq hkn
          omega
        · right
          rw [recSearchC_late ((hlt k).2 (by omega)) hq]
          omega
      · cases hb
        simp only
        omega

theorem recVertexC_reads {lt : Nat → Bool} {n : Nat} (hlt : ∀ k, lt k = true ↔ n ≤ k) {cur k : Nat}
    {G : Graph} {r : Graph × Nat} (h : recVertexC lt (G, k) cur = .ok r) (hk : k ≤ n) {D : Nat}
    (hD : ∀ V, G.vtx cur = .ok V → V.N ≤ D) :
    r.2 ≤ n + 1 + (D + 1) * D := by
  unfold recVertexC at h
  obtain ⟨V, hV, h⟩ := bind_eq_ok.1 h
  obtain ⟨x, _, h⟩ := bind_eq_ok.1 h
  obtain ⟨y, _, h⟩ := bind_eq_ok.1 h
  dsimp only at h
  split at h
  · obtain ⟨z, hz, h⟩ := bind_eq_ok.1 h
    obtain ⟨G', _, h⟩ := bind_eq_ok.1 h
    cases h
    simp only
    have h1 := recSearchC_reads hlt hz hk
    have h2 := hD V hV
    have h3 : (V.N + 1) * V.N ≤ (D + 1) * D := Nat.mul_le_mul (by omega) h2
    omega
  · obtain ⟨z, hz, h⟩ := bind_eq_ok.1 h
    obtain ⟨G', _, h⟩ := bind_eq_ok.1 h
    cases h
    cases hz
    simp only
    omega

theorem recVertexC_ok {c : Clock} {G : Graph} (hG : Ready G) {cur k : Nat} (hc : cur < G.nVert) :
    ∃ r, recVertexC (answers c) (G, k) cur = .ok r ∧ VDone cur G r.1 := by
  obtain ⟨G', t', h1, h2, _⟩ := recVertex_spec hG hc (after c k)
  have h := recVertex_sim c (G, k) cur
  unfold Tracks clk at h
  rw [h1] at h
  cases hr : recVertexC (answers c) (G, k) cur with
  | error e => rw [hr] at h; cases h
  | ok r =>
    rw [hr] at h
    refine ⟨r, rfl, ?_⟩
    have := Except.ok.inj h
    simp only [Prod.mk.injEq] at this
    rw [← this.1]
    exact h2

/-- The limit passes at reading `n`; then the search reads the clock at most `(D + 1) * D + 1` more
times after that reading, where no list of neighbours is longer than `D`. -/
theorem recGraphC_reads {n : Nat} {G : Graph} (hG : Ok G) {sv D : Nat}
    (hD : ∀ v, v < G.nVert → (G.V v).N ≤ D) {r : Graph × Nat × Nat}
    (h : G.recGraphC (answers (some n)) sv = .ok r) :
    r.2.2 ≤ n + 2 + (D + 1) * D := by
  have hlt : ∀ k, answers (some n) k = true ↔ n ≤ k := fun k => decide_eq_true_iff
  have hvtx : ∀ {G' : Graph}, Frame G G' → Ok G' → ∀ {i : Nat}, i < G'.nVert →
      ∀ V, G'.vtx i = .ok V → V.N ≤ D := by
    intro G' F o i hi V hV
    rw [vtx_ok o.wf hi] at hV
    cases hV
    rw [(F.stat i).1]
    exact hD i (by rw [← F.nVert]; exact hi)
  unfold recGraphC at h
  obtain ⟨s, hs, h⟩ := bind_eq_ok.1 h
  obtain ⟨s', hs', hv⟩ := recVertexC_ok (c := some n) (k := 0) hG.ready hG.loc
  rw [hs] at hs'
  cases hs'
  obtain ⟨o1, i1⟩ := hv.ok hG hG.loc
  have F0 : Frame G G := Frame.refl G
  have hb0 := recVertexC_reads hlt hs (Nat.zero_le _) (hvtx F0 hG hG.loc)
  refine loop_inv (fun (s : Graph × Nat × Nat) => Ok s.1 ∧ Frame G s.1 ∧
      s.2.1 ≤ n + 1 + (D + 1) * D)
    (fun r => r.2.2 ≤ n + 2 + (D + 1) * D) ?_ ?_ ⟨o1, i1.frame, hb0⟩ h
  · rintro ⟨G1, k, i⟩ s' ⟨h1, h2, h3⟩ hb
    simp only at hb h1 h2 h3
    split at hb
    · rename_i hi
      obtain ⟨V, hV, hb⟩ := bind_eq_ok.1 hb
      split at hb
      · cases hb; exact ⟨h1, h2, h3⟩
      split at hb
      · cases hb
      rename_i hl
      have hk : k + 1 ≤ n := by
        by_contra hc
        exact hl ((hlt k).2 (by omega))
      obtain ⟨q, hq, hb⟩ := bind_eq_ok.1 hb
      obtain ⟨q', hq', hv⟩ := recVertexC_ok (c := some n) (k := k + 1) h1.ready hi
      rw [hq] at hq'
      cases hq'
      obtain ⟨o2, i2⟩ := hv.ok h1 hi
      cases hb
      exact ⟨o2, h2.trans i2.frame, recVertexC_reads hlt hq hk (hvtx h2 h1 hi)⟩
    · cases hb
  · rintro ⟨G1, k, i⟩ r ⟨h1, h2, h3⟩ hb
    simp only at hb h1 h2 h3
    split at hb
    · obtain ⟨V, hV, hb⟩ := bind_eq_ok.1 hb
      split at hb
      · cases hb
      split at hb
      · cases hb; simp only; omega
      · obtain ⟨q, hq, hb⟩ := bind_eq_ok.1 hb
        cases hb
    · cases hb; simp only; omega

end Graph

/-! ## Seconds -/

theorem dbl_lt_of_lt_of_le {x y z : Dbl} (h1 : x < y) (h2 : y ≤ z) : x < z := by
  change Dbl.lt x y = true at h1
  change Dbl.le y z = true at h2
  change Dbl.lt x z = true
  rcases x with a | s | _ <;> rcases y with b | t | _ <;> rcases z with c | u | _ <;>
    simp_all [Dbl.lt, Dbl.le]
  exact lt_of_lt_of_le h1 h2

theorem dbl_lt_of_le_of_lt {x y z : Dbl} (h1 : x ≤ y) (h2 : y < z) : x < z := by
  change Dbl.le x y = true at h1
  change Dbl.lt y z = true at h2
  change Dbl.lt x z = true
  rcases x with a | s | _ <;> rcases y with b | t | _ <;> rcases z with c | u | _ <;>
    simp_all [Dbl.lt, Dbl.le]
  exact lt_of_le_of_lt h1 h2

theorem inSeconds_mono {a b : Nat} (h : a ≤ b) : inSeconds a ≤ inSeconds b := by
  have hab : (a : Dbl) ≤ (b : Dbl) := Dbl.round_mono (by exact_mod_cast h)
  have ha : (a : Dbl) ≠ .nan := Dbl.round_ne_nan _
  have hb : (b : Dbl) ≠ .nan := Dbl.round_ne_nan _
  have ha0 : Dbl.fin 0 ≤ (a : Dbl) := Dbl.round_nonneg (by positivity)
  unfold inSeconds
  generalize (a : Dbl) = x at *
  generalize (b : Dbl) = y at *
  rcases x with x | s | _
  · rcases y with y | t | _
    · dsimp only
      refine Dbl.round_mono ?_
      have : x ≤ y := Dbl.fin_le_fin.1 hab
      exact div_le_div_of_nonneg_right this (by norm_num)
    · dsimp only
      cases t with
      | true => simp [LE.le, Dbl.le] at hab
      | false =>
        have := Dbl.round_ne_nan (x / 1000000)
        rcases hr : Dbl.round (x / 1000000) with q | s | _
        · rfl
        · cases s <;> rfl
        · exact absurd hr this
    · exact absurd rfl hb
  · rcases y with y | t | _
    · cases s with
      | true => simp [LE.le, Dbl.le] at ha0
      | false => simp [LE.le, Dbl.le] at hab
    · exact hab
    · exact absurd rfl hb
  · exact absurd rfl ha

/-- In the first 71 years the number of microseconds is a `double`. -/
theorem inSeconds_eq {us : Nat} (h : us < 2 ^ 51) :
    inSeconds us = Dbl.round ((us : Rat) / 1000000) := by
  have : (us : Dbl) = .fin (us : Rat) := by
    refine Dbl.round_fin64 ⟨us, 0, by simp, ?_, by norm_num, ?_⟩
    · have : |(us : Int)| = us := abs_of_nonneg (by positivity)
      rw [this]
      exact_mod_cast Nat.lt_trans h (by norm_num)
    · rw [abs_of_nonneg (by positivity)]
      have : (us : Rat) < 2 ^ 51 := by exact_mod_cast h
      exact lt_trans this (pow_lt_pow_right₀ (by norm_num) (by norm_num))
  unfold inSeconds
  rw [this]

theorem inSeconds_near {us : Nat} (h : us < 2 ^ 51) :
    ∃ r : Rat, inSeconds us = .fin r ∧ |r - us / 1000000| < 1 / 1000000 := by
  rw [inSeconds_eq h]
  have hx0 : (0 : Rat) ≤ us / 1000000 := by positivity
  have hx1 : (us : Rat) / 1000000 ≤ 2 ^ 32 := by
    have : (us : Rat) < 2 ^ 51 := by exact_mod_cast h
    rw [div_le_iff₀ (by norm_num)]
    exact le_trans (le_of_lt this) (by norm_num)
  obtain ⟨r, hr⟩ : ∃ r, Dbl.round ((us : Rat) / 1000000) = .fin r := by
    have h1 := Dbl.round_mono hx1
    have h2 := Dbl.round_nonneg hx0
    have e : Dbl.round (2 ^ 32) = .fin (2 ^ 32) := by decide +kernel
    rw [e] at h1
    rcases hd : Dbl.round ((us : Rat) / 1000000) with q | s | _
    · exact ⟨q, rfl⟩
    · rw [hd] at h1 h2
      cases s
      · exact absurd h1 (by simp [LE.le, Dbl.le])
      · exact absurd h2 (by simp [LE.le, Dbl.le])
    · exact absurd hd (Dbl.round_ne_nan _)
  refine ⟨r, hr, ?_⟩
  obtain ⟨z, hz⟩ : ∃ z : Nat, z = us * 2 ^ 21 / 1000000 := ⟨_, rfl⟩
  have hz1 : 1000000 * z ≤ us * 2 ^ 21 := by rw [hz]; exact Nat.mul_div_le _ _
  have hz2 : us * 2 ^ 21 < 1000000 * (z + 1) := by
    rw [hz]; exact Nat.lt_mul_div_succ _ (by norm_num)
  have hz3 : z < 2 ^ 53 := by omega
  have hB : Spec.Binary64 ((z : Rat) * 2 ^ (-21 : Int)) := by
    have := Dbl.fin64_mul (z := (z : Int)) (k := -21)
      (by rw [abs_of_nonneg (by positivity)]; exact_mod_cast Nat.le_of_lt hz3) (by norm_num)
      (by norm_num)
    simpa using this
  refine lt_of_le_of_lt ((Dbl.round_spec hr).2 _ hB) ?_
  have q1 : (1000000 : Rat) * z ≤ us * 2 ^ 21 := by exact_mod_cast hz1
  have q2 : (us : Rat) * 2 ^ 21 < 1000000 * (z + 1) := by exact_mod_cast hz2
  have e : (2 : Rat) ^ (-21 : Int) = 1 / 2097152 := by norm_num
  rw [e, abs_lt]
  constructor
  · rw [lt_sub_iff_add_lt, ← sub_pos]
    have : (us : Rat) / 1000000 * 1000000 = us := by field_simp
    nlinarith
  · have : (us : Rat) / 1000000 * 1000000 = us := by field_simp
    nlinarith

namespace Graph

/-- What a search sees of a clock that never goes back. -/
theorem late_answers (limit : Dbl) {now : Nat → Nat} (hn : ∀ j k, j ≤ k → now j ≤ now k) :
    ∃ c, late limit now = answers c := by
  classical
  by_cases h : ∃ k, late limit now k = true
  · refine ⟨some (Nat.find h), ?_⟩
    funext k
    show _ = decide (Nat.find h ≤ k)
    by_cases hk : Nat.find h ≤ k
    · rw [decide_eq_true hk]
      have h1 := Nat.find_spec h
      unfold late at h1 ⊢
      exact decide_eq_true (dbl_lt_of_lt_of_le (of_decide_eq_true h1) (inSeconds_mono (hn _ _ hk)))
    · rw [decide_eq_false hk]
      have := Nat.find_min h (not_le.1 hk)
      simpa using this
  · refine ⟨none, ?_⟩
    funext k
    show _ = false
    cases hl : late limit now k with
    | false => rfl
    | true => exact absurd ⟨k, hl⟩ h

theorem findMaxCliques_sim (srt : List VData → List VData) (G : Graph) (sv : Nat) (uh ud : Bool)
    {limit : Dbl} {now : Nat → Nat} {c : Clock} (hc : late limit now = answers c) :
    Tracks (fun r : Graph × Nat × Nat => (r.1, r.2.1))
      (G.findMaxCliques srt sv uh ud (if limit ≤ 0 then none else some c))
      (G.findMaxCliquesC srt sv uh ud limit now) := by
  unfold findMaxCliques findMaxCliquesC
  have hend : ∀ G : Graph, Tracks (fun r : Graph × Nat × Nat => (r.1, r.2.1))
      (if ud then match (if limit ≤ 0 then none else some c : TimeLimit) with
        | none => G.stackGraph
        | some t => G.recGraph t sv
      else .ok (G, sv))
      (if limit ≤ 0 then
        if ud then do
          let (G, sv) ← G.stackGraph
          .ok (G, sv, 0)
        else .ok (G, sv, 0)
      else
        if ud then G.recGraphC (late limit now) sv
        else .ok (G, sv, 0)) := by
    intro G
    by_cases hl : limit ≤ 0
    · rw [if_pos hl, if_pos hl]
      cases ud
      · rfl
      · show G.stackGraph = _
        cases h : G.stackGraph with
        | error e => simp; rfl
        | ok r => simp; rfl
    · rw [if_neg hl, if_neg hl]
      cases ud
      · rfl
      · rw [hc]; exact recGraph_sim c G sv
  refine Tracks.ite ?_ ?_
  · exact Tracks.same hend
  · exact Tracks.same hend

end Graph

/-- Searches that read a clock and those that are told when to stop. -/
theorem getMaxClique_sim (srt : List Graph.VData → List Graph.VData) (pg : PyGraph)
    (a : PyGraph.Args) {limit : Dbl} {now : Nat → Nat} {c : Graph.Clock}
    (hc : Graph.late limit now = Graph.answers c) :
    Tracks (fun r : PyGraph × PyRes (List Nat) × Nat => (r.1, r.2.1))
      (pg.getMaxClique srt { a with timeLimit := if limit ≤ 0 then none else some c })
      (pg.getMaxCliqueC srt a limit now) := by
  unfold PyGraph.getMaxClique PyGraph.getMaxCliqueC
  dsimp only
  generalize PyGraph.checkLoaded _ = o
  cases o with
  | none => rfl
  | some G =>
    refine Tracks.bind (Graph.findMaxCliques_sim srt _ _ _ _ hc) fun r => ?_
    refine Tracks.same fun x => ?_
    exact Tracks.ite rfl rfl

end CM
