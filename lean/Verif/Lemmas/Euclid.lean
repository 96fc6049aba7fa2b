import Verif.SpecEuclid
import Verif.Lemmas.Metric
import Mathlib.Algebra.Order.BigOperators.Group.List
import Mathlib.Data.List.Perm.Basic

/-! # Distances of points with fixed-point coordinates -/

namespace CM

namespace Dbl

open Spec

/-- A sum of natural numbers that fits into 53 bits is exact, in any order, also when all
numbers are multiplied by a power of two. -/
theorem SumOf.exact {k : Int} (hk : -1074 ≤ k) (hk' : k ≤ 970) {l : List Dbl} {r : Dbl}
    (h : SumOf l r) : ∀ ns : List Nat, l = ns.map (fun n : Nat => fin ((n : Rat) * 2 ^ k)) →
      ns.sum ≤ 2 ^ 53 → r = fin ((ns.sum : Rat) * 2 ^ k) := by
  induction h with
  | zero =>
    intro ns e _
    cases ns with
    | nil => simp
    | cons _ _ => cases e
  | one x =>
    intro ns e _
    match ns, e with
    | [n], e => simpa using e
  | @add l r s a b _ _ hp ih1 ih2 =>
    intro ns e hb
    -- the numbers of the two parts
    obtain ⟨ms, hms, hmap⟩ : ∃ ms : List Nat, ms.Perm ns ∧
        l ++ r = ms.map fun n : Nat => fin ((n : Rat) * 2 ^ k) := by
      subst e
      have h := List.eq_map_comp_perm fun n : Nat => fin ((n : Rat) * 2 ^ k)
      obtain ⟨ms, h1, h2⟩ := (congrFun (congrFun h _) _).mpr hp
      exact ⟨ms, h2, h1⟩
    obtain ⟨xs, ys, rfl, hx, hy⟩ := List.append_eq_map_iff.1 hmap
    have hsum : ns.sum = xs.sum + ys.sum := by rw [← hms.sum_eq, List.sum_append]
    rw [ih1 xs hx.symm (by omega), ih2 ys hy.symm (by omega), hsum]
    change round _ = _
    have e2 : ((xs.sum : Rat) * 2 ^ k + (ys.sum : Rat) * 2 ^ k) =
        (((xs.sum + ys.sum : Nat) : Int) : Rat) * 2 ^ k := by
      rw [Int.cast_natCast, Nat.cast_add, add_mul]
    rw [e2, round_fin64 (fin64_mul (by rw [abs_of_nonneg (by positivity)]; exact_mod_cast hsum ▸ hb) hk hk')]
    rfl

theorem sub_exact {k a b : Int} (hk : -1074 ≤ k) (hk' : k ≤ 970) (h : |a - b| ≤ 2 ^ 53) :
    (fin ((a : Rat) * 2 ^ k) - fin ((b : Rat) * 2 ^ k) : Dbl) = fin (((a - b : Int) : Rat) * 2 ^ k) := by
  change round _ = _
  have e : (a : Rat) * 2 ^ k + -((b : Rat) * 2 ^ k) = ((a - b : Int) : Rat) * 2 ^ k := by
    push_cast; ring
  rw [e, round_fin64 (fin64_mul h hk hk')]

theorem mul_self_exact {k d : Int} (hk : -537 ≤ k) (hk' : k ≤ 485) (h : d ^ 2 ≤ 2 ^ 53) :
    (fin ((d : Rat) * 2 ^ k) * fin ((d : Rat) * 2 ^ k) : Dbl) =
      fin (((d.natAbs ^ 2 : Nat) : Rat) * 2 ^ (2 * k)) := by
  change round _ = _
  have hn : (((d.natAbs ^ 2 : Nat) : Int) : Rat) = (d : Rat) * d := by
    rw [Nat.cast_pow, Int.natAbs_sq, sq]; push_cast; rfl
  have e : (d : Rat) * 2 ^ k * ((d : Rat) * 2 ^ k) =
      (((d.natAbs ^ 2 : Nat) : Int) : Rat) * 2 ^ (2 * k) := by
    rw [hn, two_mul, zpow_add₀ (by norm_num)]; ring
  rw [e, round_fin64 (fin64_mul (by
    rw [abs_of_nonneg (by positivity), Nat.cast_pow, Int.natAbs_sq]; exact h) (by omega) (by omega))]
  rfl

/-- The squares of the differences of the coordinates, as natural numbers. -/
def sqs (p q : List Int) : List Nat := List.zipWith (fun a b => (a - b).natAbs ^ 2) p q

theorem sqDist_scaled (k : Int) (p q : List Int) :
    sqDist (scaled k p) (scaled k q) = ((sqs p q).sum : Rat) * 2 ^ (2 * k) := by
  unfold sqDist scaled sqs
  induction p generalizing q with
  | nil => simp
  | cons a p ih =>
    cases q with
    | nil => simp
    | cons b q =>
      simp only [List.map_cons, List.zipWith_cons_cons, List.sum_cons]
      rw [ih q]
      have hn : (((a - b).natAbs ^ 2 : Nat) : Rat) = ((a : Rat) - b) ^ 2 := by
        have : (((a - b).natAbs ^ 2 : Nat) : Int) = (a - b) ^ 2 := by
          rw [Nat.cast_pow, Int.natAbs_sq]
        have h2 : ((((a - b).natAbs ^ 2 : Nat) : Int) : Rat) = (((a - b) ^ 2 : Int) : Rat) := by
          rw [this]
        rw [Int.cast_natCast] at h2
        rw [h2, Int.cast_pow, Int.cast_sub]
      rw [Nat.cast_add, hn, two_mul, zpow_add₀ (by norm_num)]; ring

theorem squares_exact {k : Int} (hk : -537 ≤ k) (hk' : k ≤ 485) {p q : List Int}
    (h : (sqs p q).sum ≤ 2 ^ 53) :
    (List.zipWith (fun a b : Dbl => a - b) ((scaled k p).map fin) ((scaled k q).map fin)).map
      (fun x => x * x) = (sqs p q).map fun n : Nat => fin ((n : Rat) * 2 ^ (2 * k)) := by
  unfold scaled
  induction p generalizing q with
  | nil => simp [sqs]
  | cons a p ih =>
    cases q with
    | nil => simp [sqs]
    | cons b q =>
      have hs : sqs (a :: p) (b :: q) = (a - b).natAbs ^ 2 :: sqs p q := rfl
      rw [hs, List.sum_cons] at h
      have h1 : (a - b).natAbs ^ 2 ≤ 2 ^ 53 := by omega
      have h2 : (a - b) ^ 2 ≤ 2 ^ 53 := by
        rw [← Int.natAbs_sq]; exact_mod_cast h1
      have h3 : |a - b| ≤ 2 ^ 53 := by
        rw [Int.abs_eq_natAbs]
        have : (a - b).natAbs ≤ (a - b).natAbs ^ 2 := Nat.le_self_pow (by decide) _
        exact_mod_cast this.trans h1
      simp only [List.map_cons, List.zipWith_cons_cons, hs]
      rw [sub_exact (by omega) (by omega) h3, mul_self_exact hk hk' h2, ih (by omega)]

/-- The default distance is the root of the exact sum of squares. -/
theorem eucDist_scaled {sum : List Dbl → Dbl} (hsum : ∀ l, SumOf l (sum l)) (sqrt : Dbl → Dbl)
    {k : Int} (hk : -537 ≤ k) (hk' : k ≤ 485) {p q : List Int} (h : (sqs p q).sum ≤ 2 ^ 53) :
    eucDist sum sqrt ((scaled k p).map fin) ((scaled k q).map fin) =
      sqrt (fin (sqDist (scaled k p) (scaled k q))) := by
  unfold eucDist
  rw [SumOf.exact (k := 2 * k) (by omega) (by omega) (hsum _) _ (squares_exact hk hk' h) h,
    sqDist_scaled]

end Dbl

end CM
