import Verif.Model.Basic

/-! # Rules for loops and for 64-bit arithmetic -/

namespace CM

variable {σ ρ α β : Type}

@[simp] theorem ok_bind (a : α) (f : α → M β) : ((Except.ok a : M α) >>= f) = f a := rfl
@[simp] theorem error_bind (e : Fault) (f : α → M β) :
    ((Except.error e : M α) >>= f) = .error e := rfl
@[simp] theorem pure_eq_ok (a : α) : (pure a : M α) = .ok a := rfl

theorem bind_eq_ok {x : M α} {f : α → M β} {b : β} :
    (x >>= f) = .ok b ↔ ∃ a, x = .ok a ∧ f a = .ok b := by
  cases x with
  | ok a => simp
  | error e => simp

theorem forN_rule (P : Nat → σ → Prop) (body : Nat → σ → M σ) (n : Nat) :
    ∀ (i : Nat) (s : σ), P i s →
      (∀ k s, i ≤ k → k < i + n → P k s → ∃ s', body k s = .ok s' ∧ P (k + 1) s') →
      ∃ s', forN n i body s = .ok s' ∧ P (i + n) s' := by
  induction n with
  | zero => intro i s h _; exact ⟨s, rfl, h⟩
  | succ n ih =>
    intro i s h hs
    obtain ⟨s1, h1, hp1⟩ := hs i s (Nat.le_refl _) (by omega) h
    obtain ⟨s2, h2, hp2⟩ := ih (i + 1) s1 hp1
      (fun k s hk hk' hp => hs k s (by omega) (by omega) hp)
    refine ⟨s2, ?_, ?_⟩
    · simp [forN, h1, h2]
    · have : i + (n + 1) = i + 1 + n := by omega
      rw [this]; exact hp2

/-- Counting loops: an invariant `P i s` that holds before iteration `i`. -/
theorem forRange_rule (P : Nat → σ → Prop) {lo hi : Nat} {body : Nat → σ → M σ} {s : σ}
    (hle : lo ≤ hi) (h0 : P lo s)
    (hs : ∀ k s, lo ≤ k → k < hi → P k s → ∃ s', body k s = .ok s' ∧ P (k + 1) s') :
    ∃ s', forRange lo hi body s = .ok s' ∧ P hi s' := by
  have := forN_rule P body (hi - lo) lo s h0
    (fun k s hk hk' hp => hs k s hk (by omega) hp)
  have he : lo + (hi - lo) = hi := by omega
  rw [he] at this
  exact this

theorem forRange_empty {lo hi : Nat} {body : Nat → σ → M σ} {s : σ} (h : hi ≤ lo) :
    forRange lo hi body s = .ok s := by
  unfold forRange
  have : hi - lo = 0 := by omega
  rw [this]; rfl

/-- General loops: an invariant, a postcondition and a decreasing measure. -/
theorem loop_rule (P : σ → Prop) (Q : ρ → Prop) (μ : σ → Nat)
    {body : σ → M (σ ⊕ ρ)}
    (hs : ∀ s, P s → (∃ s', body s = .ok (.inl s') ∧ P s' ∧ μ s' < μ s) ∨
      (∃ r, body s = .ok (.inr r) ∧ Q r)) :
    ∀ {fuel : Nat} {s : σ}, P s → μ s < fuel → ∃ r, loop fuel body s = .ok r ∧ Q r := by
  intro fuel
  induction fuel with
  | zero => intro s _ h; omega
  | succ n ih =>
    intro s hp hμ
    rcases hs s hp with ⟨s', h1, h2, h3⟩ | ⟨r, h1, h2⟩
    · obtain ⟨r, hr, hq⟩ := ih h2 (by omega)
      exact ⟨r, by simp [loop, h1, hr], hq⟩
    · exact ⟨r, by simp [loop, h1], h2⟩

/-- Inversion for general loops: whatever a loop returns satisfies the postcondition. -/
theorem loop_inv (P : σ → Prop) (Q : ρ → Prop) {body : σ → M (σ ⊕ ρ)}
    (hl : ∀ s s', P s → body s = .ok (.inl s') → P s')
    (hr : ∀ s r, P s → body s = .ok (.inr r) → Q r) :
    ∀ {fuel : Nat} {s : σ} {r : ρ}, P s → loop fuel body s = .ok r → Q r := by
  intro fuel
  induction fuel with
  | zero => intro s r _ h; simp [loop] at h
  | succ n ih =>
    intro s r hp h
    unfold loop at h
    split at h
    · simp at h
    · rename_i s' hb; exact ih (hl _ _ hp hb) h
    · rename_i r' hb; cases h; exact hr _ _ hp hb

theorem forRange_inv (P : Nat → σ → Prop) {lo hi : Nat} {body : Nat → σ → M σ} {s r : σ}
    (hle : lo ≤ hi) (h0 : P lo s)
    (hs : ∀ k s s', lo ≤ k → k < hi → P k s → body k s = .ok s' → P (k + 1) s')
    (h : forRange lo hi body s = .ok r) : P hi r := by
  unfold forRange at h
  have key : ∀ n i s, forN n i body s = .ok r → lo ≤ i → i + n = hi → P i s → P hi r := by
    intro n
    induction n with
    | zero => intro i s h _ h2 hp; simp [forN] at h; subst h; simpa [← h2] using hp
    | succ n ih =>
      intro i s h h1 h2 hp
      unfold forN at h
      split at h
      · rename_i s' hb
        exact ih _ _ h (by omega) (by omega) (hs i s s' h1 (by omega) hp hb)
      · simp at h
  exact key _ _ _ h (Nat.le_refl _) (by omega) h0

/-- Fold with checks, as a rule over the remaining list. -/
theorem foldlM_rule (P : List α → σ → Prop) (f : σ → α → M σ) :
    ∀ (l : List α) (s : σ), P l s →
      (∀ a l s, P (a :: l) s → ∃ s', f s a = .ok s' ∧ P l s') →
      ∃ s', l.foldlM f s = .ok s' ∧ P [] s' := by
  intro l
  induction l with
  | nil => intro s h _; exact ⟨s, rfl, h⟩
  | cons a l ih =>
    intro s h hs
    obtain ⟨s1, h1, hp⟩ := hs a l s h
    obtain ⟨s2, h2, hp2⟩ := ih s1 hp hs
    refine ⟨s2, ?_, hp2⟩
    simp [List.foldlM_cons, h1, h2]

theorem usub_eq {a b : Nat} (h : b ≤ a) (ha : a < 2 ^ 64) : usub a b = a - b := by
  unfold usub
  have : a + 2 ^ 64 - b = (a - b) + 2 ^ 64 := by omega
  rw [this, Nat.add_mod_right, Nat.mod_eq_of_lt (by omega)]

theorem usub_self (a : Nat) : usub a a = 0 := by
  unfold usub
  have : a + 2 ^ 64 - a = 2 ^ 64 := by omega
  rw [this, Nat.mod_self]

theorem umul_eq {a b : Nat} (h : a * b < 2 ^ 64) : umul a b = a * b := by
  unfold umul; exact Nat.mod_eq_of_lt h

theorem uadd_eq {a b : Nat} (h : a + b < 2 ^ 64) : uadd a b = a + b := by
  unfold uadd; exact Nat.mod_eq_of_lt h

theorem usub_zero_one : usub 0 1 = 2 ^ 64 - 1 := by unfold usub; decide

theorem rd_ok {α : Type} {l : List α} {i : Nat} (h : i < l.length) : rd l i = .ok l[i] := by
  unfold rd; simp [h]

theorem rd_getD {α : Type} {l : List α} {i : Nat} (d : α) (h : i < l.length) :
    rd l i = .ok (l.getD i d) := by
  rw [rd_ok h]; simp [List.getD, h]

theorem rd_eq_ok {α : Type} {l : List α} {i : Nat} {a : α} :
    rd l i = .ok a ↔ l[i]? = some a := by
  unfold rd; split <;> simp_all

theorem wr_ok {α : Type} {l : List α} {i : Nat} (a : α) (h : i < l.length) :
    wr l i a = .ok (l.set i a) := by
  unfold wr; simp [h]

theorem wr_eq_ok {α : Type} {l l' : List α} {i : Nat} {a : α} :
    wr l i a = .ok l' ↔ i < l.length ∧ l.set i a = l' := by
  by_cases h : i < l.length <;> simp [wr, h]

end CM
