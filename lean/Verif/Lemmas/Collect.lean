import Verif.Lemmas.Basic

/-! # Loops that append to a list or fill an array -/

namespace CM

variable {α : Type}

/-- A counting loop whose body appends a list and adds to a counter. -/
theorem forRange_collect {lo hi : Nat} {body : Nat → List α × Nat → M (List α × Nat)}
    (f : Nat → List α) (c : Nat → Nat)
    (h : ∀ k s, lo ≤ k → k < hi → body k s = .ok (s.1 ++ f k, s.2 + c k))
    (s : List α × Nat) :
    forRange lo hi body s = .ok (s.1 ++ (List.range' lo (hi - lo)).flatMap f,
      s.2 + ((List.range' lo (hi - lo)).map c).sum) := by
  unfold forRange
  have key : ∀ n i s, lo ≤ i → i + n ≤ max lo hi →
      forN n i body s = .ok (s.1 ++ (List.range' i n).flatMap f,
        s.2 + ((List.range' i n).map c).sum) := by
    intro n
    induction n with
    | zero => intro i s _ _; simp [forN]
    | succ n ih =>
      intro i s h1 h2
      unfold forN
      rw [h i s h1 (by omega)]
      simp only
      rw [ih (i + 1) _ (by omega) (by omega)]
      simp [List.range'_succ, Nat.add_assoc]
  exact key _ _ _ (Nat.le_refl _) (by omega)

/-- An array of which the first entries have been written, and the next index. -/
def Written (init xs : List α) : List α × Nat := (xs ++ init.drop xs.length, xs.length)

theorem wr_written {init xs : List α} (a : α) (h : xs.length < init.length) :
    (do let b ← wr (Written init xs).1 (Written init xs).2 a
        .ok (b, (Written init xs).2 + 1) : M (List α × Nat)) = .ok (Written init (xs ++ [a])) := by
  have hd : init.drop xs.length = init[xs.length] :: init.drop (xs.length + 1) :=
    List.drop_eq_getElem_cons h
  unfold Written
  simp only
  rw [wr_ok a (by simp; omega), ok_bind]
  congr 2
  · rw [List.set_append_right _ _ (Nat.le_refl _), Nat.sub_self, hd, List.set_cons_zero]
    simp
  · simp

/-- A counting loop that fills an array from the front. -/
theorem forRange_written {init : List α} {lo hi : Nat}
    {body : Nat → List α × Nat → M (List α × Nat)} (f : Nat → List α)
    (h : ∀ k xs, lo ≤ k → k < hi → xs.length + (f k).length ≤ init.length →
      body k (Written init xs) = .ok (Written init (xs ++ f k)))
    (xs : List α)
    (hl : xs.length + ((List.range' lo (hi - lo)).flatMap f).length ≤ init.length) :
    forRange lo hi body (Written init xs) =
      .ok (Written init (xs ++ (List.range' lo (hi - lo)).flatMap f)) := by
  unfold forRange
  have key : ∀ n i xs, lo ≤ i → i + n ≤ max lo hi →
      xs.length + ((List.range' i n).flatMap f).length ≤ init.length →
      forN n i body (Written init xs) = .ok (Written init (xs ++ (List.range' i n).flatMap f)) := by
    intro n
    induction n with
    | zero => intro i xs _ _ _; simp [forN]
    | succ n ih =>
      intro i xs h1 h2 h3
      rw [List.range'_succ, List.flatMap_cons, List.length_append] at h3
      unfold forN
      rw [h i xs h1 (by omega) (by omega)]
      simp only
      rw [ih (i + 1) _ (by omega) (by omega) (by rw [List.length_append]; omega)]
      rw [List.range'_succ, List.flatMap_cons, List.append_assoc]
  exact key _ _ _ (Nat.le_refl _) (by omega) hl

theorem written_full {init xs : List α} (h : init.length = xs.length) :
    (Written init xs).1 = xs := by
  unfold Written
  simp only
  rw [← h, List.drop_length, List.append_nil]

end CM
