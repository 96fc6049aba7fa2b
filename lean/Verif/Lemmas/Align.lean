import Mathlib.Tactic.FieldSimp
import Mathlib.Tactic.Ring
import Mathlib.Tactic.Linarith
import Mathlib.Tactic.LinearCombination
import Verif.Lemmas.Callbacks
import Verif.Lemmas.Matching
import Verif.Model.Align

/-! # The similarity of two pairs of points, and the score of a mask -/

namespace CM

namespace Align

theorem den_ne_zero {p1 p2 : Rat × Rat} (h : p1 ≠ p2) :
    (p1.1 - p2.1) * (p1.1 - p2.1) + (p1.2 - p2.2) * (p1.2 - p2.2) ≠ 0 := by
  intro h0
  have h1 : p1.1 - p2.1 = 0 := by nlinarith [mul_self_nonneg (p1.1 - p2.1), mul_self_nonneg (p1.2 - p2.2)]
  have h2 : p1.2 - p2.2 = 0 := by nlinarith [mul_self_nonneg (p1.1 - p2.1), mul_self_nonneg (p1.2 - p2.2)]
  exact h (Prod.ext (by linarith) (by linarith))

/-- The closed form of the model is the one solution of the system of the code. -/
theorem solve_iff {p1 p2 q1 q2 : Rat × Rat} (h : p1 ≠ p2) (T : Sim) :
    (T.apply p1 = q1 ∧ T.apply p2 = q2) ↔ T = solve p1 p2 q1 q2 := by
  have hd := den_ne_zero h
  obtain ⟨a1, b1⟩ := p1
  obtain ⟨a2, b2⟩ := p2
  obtain ⟨x1, y1⟩ := q1
  obtain ⟨x2, y2⟩ := q2
  obtain ⟨a, b, c0, c1⟩ := T
  simp only [Sim.apply, Prod.mk.injEq, solve, Sim.mk.injEq] at hd ⊢
  constructor
  · rintro ⟨⟨e1, e2⟩, e3, e4⟩
    have ha : a = ((a1 - a2) * (x1 - x2) + (b1 - b2) * (y1 - y2)) /
        ((a1 - a2) * (a1 - a2) + (b1 - b2) * (b1 - b2)) := by
      rw [eq_div_iff hd]
      linear_combination (a1 - a2) * (e1 - e3) + (b1 - b2) * (e2 - e4)
    have hb : b = ((a1 - a2) * (y1 - y2) - (b1 - b2) * (x1 - x2)) /
        ((a1 - a2) * (a1 - a2) + (b1 - b2) * (b1 - b2)) := by
      rw [eq_div_iff hd]
      linear_combination (a1 - a2) * (e2 - e4) - (b1 - b2) * (e1 - e3)
    rw [← ha, ← hb]
    exact ⟨rfl, rfl, by linear_combination e1, by linear_combination e2⟩
  · rintro ⟨ha, hb, h0, h1⟩
    rw [← ha, ← hb] at h0 h1
    rw [eq_div_iff hd] at ha hb
    subst h0 h1
    refine ⟨⟨by ring, by ring⟩, ?_, ?_⟩
    · have : ((a1 - a2) * (a1 - a2) + (b1 - b2) * (b1 - b2)) *
          (a * a2 - b * b2 + (x1 - (a * a1 - b * b1)) - x2) = 0 := by
        linear_combination (-(a1 - a2)) * ha + (b1 - b2) * hb
      have := (mul_eq_zero.1 this).resolve_left hd
      linarith
    · have : ((a1 - a2) * (a1 - a2) + (b1 - b2) * (b1 - b2)) *
          (b * a2 + a * b2 + (y1 - (b * a1 + a * b1)) - y2) = 0 := by
        linear_combination (-(a1 - a2)) * hb - (b1 - b2) * ha
      have := (mul_eq_zero.1 this).resolve_left hd
      linarith

theorem castU64_eq {x : Rat} (h0 : 0 ≤ x) (h1 : x < 2 ^ 64) : castU64 x = .ok ⌊x⌋.toNat := by
  unfold castU64
  rw [if_neg (by linarith), if_neg (by linarith), if_pos]
  rw [Int.floor_lt]
  exact_mod_cast h1

theorem mapM_ok {α β : Type} {f : α → M β} {g : α → β} :
    ∀ {l : List α}, (∀ x ∈ l, f x = .ok (g x)) → l.mapM f = .ok (l.map g) := by
  intro l
  induction l with
  | nil => intro _; rfl
  | cons x l ih =>
    intro h
    rw [List.mapM_cons, h x (by simp), ok_bind, ih (fun y hy => h y (by simp [hy])), ok_bind]
    rfl

theorem score_eq {mask : Mask} {T : Sim} {control : List (Rat × Rat)}
    (h : ∀ p ∈ control, 0 ≤ (T.apply p).1 ∧ (T.apply p).1 < 2 ^ 64 ∧ 0 ≤ (T.apply p).2 ∧
      (T.apply p).2 < 2 ^ 64) :
    score mask T control = .ok (control.countP fun p =>
      decide (⌊(T.apply p).2⌋.toNat < mask.rows) && decide (⌊(T.apply p).1⌋.toNat < mask.cols) &&
        mask.val ⌊(T.apply p).2⌋.toNat ⌊(T.apply p).1⌋.toNat) := by
  unfold score
  rw [mapM_ok (g := fun p => (⌊(T.apply p).1⌋.toNat, ⌊(T.apply p).2⌋.toNat))]
  · rw [ok_bind, List.countP_map]; rfl
  · intro p hp
    obtain ⟨a, b, c, d⟩ := h p hp
    rw [castU64_eq a b, castU64_eq c d]
    rfl

end Align

section
variable {D : Type} [LinearOrder D] [Inhabited D]

/-- A build with a condition that does not fail on elements of the two sets. -/
theorem buildBothM_on {c : Nat → Nat → Nat → Nat → CM.M Bool}
    {c' : Nat → Nat → Nat → Nat → Bool} {d1 d2 : Nat → Nat → D} {M N : Nat}
    (hc : ∀ i1 i2 j1 j2, i1 < M → i2 < M → j1 < N → j2 < N → i1 ≠ i2 → j1 ≠ j2 →
      c i1 i2 j1 j2 = .ok (c' i1 i2 j1 j2)) (hM : M < 2 ^ 31) (hN : N < 2 ^ 31)
    {argLR : Bool} {cap : Nat} {pg : PyGraph}
    {srt1 srt2 : List (PairDist D) → List (PairDist D)} (hs1 : Sorts srt1) (hs2 : Sorts srt2)
    {w : Window D} {sym1 sym2 : Bool} :
    buildBothM argLR cap pg srt1 srt2 M N w c (fun i j => .ok (d1 i j)) sym1
        (fun i j => .ok (d2 i j)) sym2 =
      buildBoth argLR cap pg srt1 srt2 M N w c' d1 sym1 d2 sym2 := by
  have hfill : ∀ (srt : List (PairDist D) → List (PairDist D)) (K : Nat) (s : Bool)
      (d : Nat → Nat → D), fillDistsM srt K s (fun i j => .ok (d i j)) = fillDists srt K s d := by
    intro srt K s d
    rcases fillDistsM_or (E := fun _ => False) (d := fun i j => .ok (d i j)) (d' := d)
      (fun i j => OrStops.rfl) srt K s with ⟨_, h, _⟩ | h
    · exact h.elim
    · exact h
  unfold buildBothM buildBoth
  rw [hfill, hfill, fillDists_spec hM, ok_bind, fillDists_spec hN, ok_bind]
  have : efrConditionM M N sym1 sym2 (srt1 (pairList M sym1 d1)) (srt2 (pairList N sym2 d2)) w c =
      efrCondition M N sym1 sym2 (srt1 (pairList M sym1 d1)) (srt2 (pairList N sym2 d2)) w c' := by
    rcases efrConditionM_on (E := fun _ => False) (c := c) (c' := c')
      (d1 := srt1 (pairList M sym1 d1)) (d2 := srt2 (pairList N sym2 d2)) (fun x hx y hy => by
        obtain ⟨a1, a2, a3⟩ := sorted_pairs hs1 M sym1 d1 x hx
        obtain ⟨b1, b2, b3⟩ := sorted_pairs hs2 N sym2 d2 y hy
        exact ⟨Or.inr (hc _ _ _ _ a1 a2 b1 b2 a3 b3),
          Or.inr (hc _ _ _ _ a1 a2 b2 b1 a3 (Ne.symm b3))⟩) M N sym1 sym2 w with ⟨_, h, _⟩ | h
    · exact h.elim
    · exact h
  rw [this]
  rfl

end

end CM
