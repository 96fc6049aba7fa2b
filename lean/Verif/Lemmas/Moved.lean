import Verif.Lemmas.Longer
import Verif.Lemmas.Bits

/-!
# Two buffers in which two neighbouring blocks are exchanged

`Moved b r L m m'`: `m'` is `m` (of `L` words) with the blocks of `r` words at `b` and `b + r` exchanged.
-/

namespace CM

variable {σ τ ρ ρ' α β : Type}

namespace Both

theorem loop {P : σ → τ → Prop} {R : ρ → ρ' → Prop} {f : σ → M (σ ⊕ ρ)} {g : τ → M (τ ⊕ ρ')}
    (hs : ∀ a b, P a b → Both (fun x y => (∃ a' b', x = .inl a' ∧ y = .inl b' ∧ P a' b') ∨
      ∃ c d, x = .inr c ∧ y = .inr d ∧ R c d) (f a) (g b)) (n : Nat) {s : σ} {s' : τ}
    (h0 : P s s') : Both R (loop n f s) (loop n g s') := by
  induction n generalizing s s' with
  | zero => intro a b ha; cases ha
  | succ n ih =>
    intro a b ha hb
    unfold CM.loop at ha hb
    cases hf : f s with
    | error e => rw [hf] at ha; cases ha
    | ok x =>
      cases hg : g s' with
      | error e => rw [hg] at hb; cases hb
      | ok y =>
        rw [hf] at ha
        rw [hg] at hb
        rcases hs s s' h0 x y hf hg with ⟨a', b', rfl, rfl, h⟩ | ⟨c, d, rfl, rfl, h⟩
        · exact ih h a b ha hb
        · cases ha; cases hb; exact h

theorem forRangeIn {P : σ → τ → Prop} {f : Nat → σ → M σ} {g : Nat → τ → M τ} {lo hi : Nat}
    {s : σ} {s' : τ} (h0 : P s s')
    (hs : ∀ k a b, lo ≤ k → k < hi → P a b → Both P (f k a) (g k b)) :
    Both P (CM.forRange lo hi f s) (CM.forRange lo hi g s') := by
  unfold CM.forRange
  generalize hn : hi - lo = n
  induction n generalizing lo s s' with
  | zero => exact pure h0
  | succ n ih =>
    intro r r' h1 h2
    unfold forN at h1 h2
    cases hf : f lo s with
    | error e => rw [hf] at h1; cases h1
    | ok b =>
      cases hg : g lo s' with
      | error e => rw [hg] at h2; cases h2
      | ok b' =>
        rw [hf] at h1
        rw [hg] at h2
        exact ih (hs lo s s' (Nat.le_refl _) (by omega) h0 b b' hf hg)
          (fun k a b h3 h4 => hs k a b (by omega) h4) (by omega) r r' h1 h2

theorem foldlM {P : σ → τ → Prop} {f : σ → α → M σ} {g : τ → α → M τ} {l : List α} {s : σ} {s' : τ}
    (h0 : P s s') (hs : ∀ k ∈ l, ∀ a b, P a b → Both P (f a k) (g b k)) :
    Both P (l.foldlM f s) (l.foldlM g s') := by
  induction l generalizing s s' with
  | nil => exact pure h0
  | cons x xs ih =>
    rw [List.foldlM_cons, List.foldlM_cons]
    refine bind (hs x (List.mem_cons_self ..) s s' h0) fun a b hab => ?_
    exact ih hab fun k hk => hs k (List.mem_cons_of_mem _ hk)

theorem iteP {R : α → β → Prop} {p : Prop} [Decidable p] {x x' : M α} {y y' : M β}
    (h1 : p → Both R x y) (h2 : ¬ p → Both R x' y') :
    Both R (if p then x else x') (if p then y else y') := by
  split
  · exact h1 ‹_›
  · exact h2 ‹_›

theorem eq_refl (x : M α) : Both Eq x x := by
  intro a b ha hb
  rw [ha] at hb
  cases hb
  rfl

theorem mono {R Q : α → β → Prop} {x : M α} {y : M β} (h : Both R x y)
    (hq : ∀ a b, x = .ok a → y = .ok b → R a b → Q a b) : Both Q x y :=
  fun a b ha hb => hq a b ha hb (h a b ha hb)

end Both

/-- The address of word `i` after the exchange. -/
def sw (b r i : Nat) : Nat :=
  if b ≤ i ∧ i < b + r then i + r else if b + r ≤ i ∧ i < b + 2 * r then i - r else i

theorem sw_sw (b r i : Nat) : sw b r (sw b r i) = i := by
  unfold sw
  split
  · rw [if_neg (by omega), if_pos (by omega)]; omega
  · split
    · rw [if_pos (by omega)]; omega
    · rfl

theorem sw_inj {b r i j : Nat} (h : sw b r i = sw b r j) : i = j := by
  rw [← sw_sw b r i, h, sw_sw]

theorem sw_low {b r i : Nat} (h : i < b) : sw b r i = i := by
  unfold sw; rw [if_neg (by omega), if_neg (by omega)]

theorem sw_high {b r i : Nat} (h : b + 2 * r ≤ i) : sw b r i = i := by
  unfold sw; rw [if_neg (by omega), if_neg (by omega)]

/-- `m'` is `m` with the two blocks exchanged. -/
structure Moved (b r L : Nat) (m m' : Mem) : Prop where
  len : m.length = L
  len' : m'.length = L
  get : ∀ i, i < L → sw b r i < L → m'.getD (sw b r i) 0 = m.getD i 0

/-- The bit set `c'` is `c` after the exchange. -/
structure Img (b r : Nat) (c c' : GBits) : Prop where
  len : c'.len = c.len
  off : ∀ i, i < dlen c.len → c'.off + i = sw b r (c.off + i)

theorem Img.low {b r o n : Nat} (h : o + dlen n ≤ b) : Img b r ⟨o, n⟩ ⟨o, n⟩ :=
  ⟨rfl, fun i hi => (sw_low (by dsimp only at hi ⊢; omega)).symm⟩

theorem Img.high {b r o n : Nat} (h : b + 2 * r ≤ o) : Img b r ⟨o, n⟩ ⟨o, n⟩ :=
  ⟨rfl, fun i hi => (sw_high (by dsimp only at hi ⊢; omega)).symm⟩

theorem Img.first {b r n : Nat} (h : dlen n = r) : Img b r ⟨b, n⟩ ⟨b + r, n⟩ :=
  ⟨rfl, fun i hi => by dsimp only at hi ⊢; unfold sw; rw [if_pos (by omega)]; omega⟩

theorem Img.second {b r n : Nat} (h : dlen n = r) : Img b r ⟨b + r, n⟩ ⟨b, n⟩ :=
  ⟨rfl, fun i hi => by
    dsimp only at hi ⊢; unfold sw; rw [if_neg (by omega), if_pos (by omega)]; omega⟩

variable {b r L : Nat} {m m' : Mem} {c c' o o' : GBits}

theorem Moved.rd (h : Moved b r L m m') {i i' : Nat} (hi : i' = sw b r i) :
    Both Eq (rd m i) (rd m' i') := by
  intro x y hx hy
  have h1 := (List.getElem?_eq_some_iff.1 (rd_eq_ok.1 hx))
  have h2 := (List.getElem?_eq_some_iff.1 (rd_eq_ok.1 hy))
  obtain ⟨l1, _⟩ := h1
  obtain ⟨l2, _⟩ := h2
  have := h.get i (h.len ▸ l1) (by rw [← hi]; exact h.len' ▸ l2)
  rw [← hi] at this
  rw [List.getD_eq_getElem?_getD, List.getD_eq_getElem?_getD, rd_eq_ok.1 hx, rd_eq_ok.1 hy] at this
  exact this.symm

theorem Moved.wr (h : Moved b r L m m') {i i' : Nat} (hi : i' = sw b r i) (w : Word) :
    Both (Moved b r L) (wr m i w) (wr m' i' w) := by
  intro x y hx hy
  obtain ⟨l1, rfl⟩ := wr_eq_ok.1 hx
  obtain ⟨l2, rfl⟩ := wr_eq_ok.1 hy
  refine ⟨by simp [h.len], by simp [h.len'], fun k h1 h2 => ?_⟩
  by_cases hk : k = i
  · subst hk
    rw [← hi]
    simp [List.getD_eq_getElem?_getD, l1, l2]
  · have hne : i' ≠ sw b r k := by
      rw [hi]
      exact fun e => hk (sw_inj e).symm
    have := h.get k h1 h2
    simp only [List.getD_eq_getElem?_getD] at this ⊢
    rw [List.getElem?_set_ne hne, List.getElem?_set_ne (Ne.symm hk)]
    exact this

theorem Moved.set (h : Moved b r L m m') (hc : Img b r c c') {i : Nat} (hi : i < c.len) :
    Both (Moved b r L) (c.set m i) (c'.set m' i) := by
  unfold GBits.set
  have e := hc.off (i / 64) (div_lt_dlen hi)
  refine Both.bind (h.rd e) ?_
  rintro w _ rfl
  exact h.wr e _

theorem Moved.reset (h : Moved b r L m m') (hc : Img b r c c') {i : Nat} (hi : i < c.len) :
    Both (Moved b r L) (c.reset m i) (c'.reset m' i) := by
  unfold GBits.reset
  have e := hc.off (i / 64) (div_lt_dlen hi)
  refine Both.bind (h.rd e) ?_
  rintro w _ rfl
  exact h.wr e _

theorem Moved.test (h : Moved b r L m m') (hc : Img b r c c') {i : Nat} (hi : i < c.len) :
    Both Eq (c.test m i) (c'.test m' i) := by
  unfold GBits.test
  have e := hc.off (i / 64) (div_lt_dlen hi)
  refine Both.bind (h.rd e) ?_
  rintro w _ rfl
  exact Both.pure rfl

theorem Moved.nextAux (h : Moved b r L m m') (hc : Img b r c c') (fuel i : Nat) :
    Both Eq (c.nextAux m fuel i) (c'.nextAux m' fuel i) := by
  induction fuel generalizing i with
  | zero => intro a b ha; cases ha
  | succ fuel ih =>
    unfold GBits.nextAux
    rw [hc.len]
    by_cases hi : i < c.len
    · rw [if_pos hi, if_pos hi]
      have e := hc.off (i / 64) (div_lt_dlen hi)
      intro x y hx hy
      cases h1 : CM.rd m (c.off + i / 64) with
      | error e => rw [h1] at hx; cases hx
      | ok w =>
        cases h2 : CM.rd m' (c'.off + i / 64) with
        | error e => rw [h2] at hy; cases hy
        | ok w' =>
          cases h.rd e w w' h1 h2
          rw [h1] at hx
          rw [h2] at hy
          dsimp only at hx hy
          split at hx
          · rename_i hw
            rw [if_pos hw] at hy
            cases hx; cases hy; rfl
          · rename_i hw
            rw [if_neg hw] at hy
            exact ih _ x y hx hy
    · rw [if_neg hi, if_neg hi]
      exact Both.pure rfl

theorem Moved.next (h : Moved b r L m m') (hc : Img b r c c') (i : Nat) :
    Both Eq (c.next m i) (c'.next m' i) := by
  unfold GBits.next
  rw [hc.len]
  exact h.nextAux hc _ _

theorem Moved.count (h : Moved b r L m m') (hc : Img b r c c') :
    Both (fun x y => Moved b r L x.1 y.1 ∧ x.2 = y.2) (c.count m) (c'.count m') := by
  unfold GBits.count
  rw [hc.len]
  dsimp only
  by_cases hd : dlen c.len = 0
  · rw [if_pos hd]; intro a b ha; cases ha
  · rw [if_neg hd, if_neg hd]
    have e := hc.off (dlen c.len - 1) (by omega)
    refine Both.bind (h.rd e) ?_
    rintro w _ rfl
    refine Both.bind (h.wr e _) ?_
    intro m1 m2 hm
    refine Both.bind (Both.forRangeIn (P := Eq) rfl ?_) ?_
    · rintro k s _ _ hk rfl
      refine Both.bind (hm.rd (hc.off k hk)) ?_
      rintro w _ rfl
      exact Both.pure rfl
    · rintro s _ rfl
      exact Both.pure ⟨hm, rfl⟩

theorem Moved.copyData (h : Moved b r L m m') (hc : Img b r c c') {p p' : Nat}
    (hp : ∀ i, i < dlen c.len → p' + i = sw b r (p + i)) :
    Both (Moved b r L) (c.copyData p m) (c'.copyData p' m') := by
  unfold GBits.copyData
  rw [hc.len]
  refine Both.forRangeIn h ?_
  intro k m1 m2 _ hk hm
  refine Both.bind (hm.rd (hp k hk)) ?_
  rintro w _ rfl
  exact hm.wr (hc.off k hk) _

theorem Moved.copyFrom (h : Moved b r L m m') (ho : Img b r o o') {p : Nat} (hp : b + 2 * r ≤ p) :
    Both (fun x y => Moved b r L x.2 y.2 ∧ x.1 = ⟨p, o.len⟩ ∧ y.1 = ⟨p, o.len⟩)
      (o.copyFrom p m) (o'.copyFrom p m') := by
  unfold GBits.copyFrom
  rw [ho.len]
  refine Both.bind (h.copyData (c := ⟨p, o.len⟩) (c' := ⟨p, o.len⟩) (Img.high hp) ho.off) ?_
  intro m1 m2 hm
  exact Both.pure ⟨hm, rfl, rfl⟩

theorem Moved.getSubset (h : Moved b r L m m') (hc : Img b r c c') (el : List Nat) (base : Nat) :
    Both (fun x y => Moved b r L x.1 y.1 ∧ x.2 = y.2) (c.getSubset el base m)
      (c'.getSubset el base m') := by
  unfold GBits.getSubset
  refine Both.bind (h.count hc) ?_
  rintro ⟨m1, n⟩ ⟨m2, _⟩ ⟨hm, rfl⟩
  rw [hc.len]
  dsimp only
  refine Both.bind (Both.forRangeIn (P := Eq) rfl ?_) ?_
  · rintro k s _ _ hk rfl
    refine Both.bind (hm.test hc hk) ?_
    rintro t _ rfl
    exact Both.eq_refl _
  · rintro s _ rfl
    exact Both.pure ⟨hm, rfl⟩

/-- Copying succeeds only where there is room. -/
theorem copyData_room {m1 : Mem} {p : Nat} (h : c.copyData p m = .ok m1) :
    c.off + dlen c.len ≤ m.length ∨ dlen c.len = 0 := by
  rcases Nat.eq_zero_or_pos (dlen c.len) with h0 | h0
  · exact Or.inr h0
  left
  unfold GBits.copyData at h
  have key : ∀ (n i : Nat) (m m1 : Mem), forN n i (fun i m => do
      let w ← CM.rd m (p + i); CM.wr m (c.off + i) w) m = .ok m1 →
      0 < n → c.off + i + n ≤ m.length := by
    intro n
    induction n with
    | zero => intro i m m1 _ h; omega
    | succ n ih =>
      intro i m m1 h _
      unfold forN at h
      cases hs : (do let w ← CM.rd m (p + i); CM.wr m (c.off + i) w : M Mem) with
      | error e => dsimp only at h; rw [hs] at h; cases h
      | ok m2 =>
        dsimp only at h
        rw [hs] at h
        obtain ⟨w, _, hw⟩ := bind_eq_ok.1 hs
        obtain ⟨l1, rfl⟩ := wr_eq_ok.1 hw
        rcases Nat.eq_zero_or_pos n with hn | hn
        · omega
        · have := ih (i + 1) _ m1 h hn
          simp only [List.length_set] at this
          omega
  have := key _ _ _ _ h (by omega)
  omega

end CM
