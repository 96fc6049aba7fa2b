import Verif.Lemmas.Count
import Verif.Model.SetOps

/-! # The word-wise operators on packed sets -/

namespace CM

/-- A word-wise operator acts bit by bit. -/
theorem GBits.zipOp_spec (op : Word → Word → Word) (f : Bool → Bool → Bool)
    (hop : ∀ x y k, k < 64 → (op x y).getMsbD k = f (x.getMsbD k) (y.getMsbD k))
    (b other : GBits) (m : Mem) (hlen : 0 < b.len)
    (hb : b.off + dlen b.len ≤ m.length) (ho : other.off + dlen b.len ≤ m.length)
    (hd : b.off + dlen b.len ≤ other.off ∨ other.off + dlen b.len ≤ b.off ∨
      other.off = b.off) :
    ∃ m', GBits.zipOp op b other m = .ok m' ∧ m'.length = m.length ∧
      ∀ a, bitAt m' a =
        (if 64 * b.off ≤ a ∧ a < 64 * (b.off + dlen b.len) then
          if a < 64 * b.off + b.len then
            f (bitAt m a) (bitAt m (a - 64 * b.off + 64 * other.off)) else false
        else bitAt m a) := by
  have hdp := dlen_pos hlen
  have hdl := @dlen_le b.len
  have hdl2 := @dlen_lt b.len
  unfold GBits.zipOp
  generalize hd' : dlen b.len = d at *
  obtain ⟨m1, h1, h2, h3⟩ := forRange_rule (lo := 0) (hi := d) (s := m)
    (body := fun i m => do
      let x ← rd m (b.off + i)
      let y ← rd m (other.off + i)
      wr m (b.off + i) (op x y))
    (fun i m' => m'.length = m.length ∧
      ∀ a, bitAt m' a = (if 64 * b.off ≤ a ∧ a < 64 * (b.off + i)
        then f (bitAt m a) (bitAt m (a - 64 * b.off + 64 * other.off)) else bitAt m a))
    (Nat.zero_le _) ⟨rfl, fun a => by rw [if_neg]; omega⟩
    (by
      rintro k s _ hk ⟨h1, h2⟩
      have hl : b.off + k < s.length := by omega
      have hl2 : other.off + k < s.length := by omega
      refine ⟨s.set (b.off + k) (op (s.getD (b.off + k) 0#64) (s.getD (other.off + k) 0#64)), ?_,
        by simpa using h1, ?_⟩
      · simp only [rd_getD 0#64 hl2, rd_getD 0#64 hl, ok_bind, wr_ok _ hl]
      intro a
      have hm : a % 64 < 64 := Nat.mod_lt _ (by decide)
      rw [bitAt_set hl]
      by_cases he : a / 64 = b.off + k
      · rw [if_pos he, if_pos (by omega), hop _ _ _ hm, ← bitAt_word hm, ← bitAt_word hm, h2, h2,
          if_neg (by omega), if_neg (by omega)]
        congr 2 <;> omega
      · rw [if_neg he, h2]
        by_cases h3 : 64 * b.off ≤ a ∧ a < 64 * (b.off + k)
        · rw [if_pos h3, if_pos (by omega)]
        · rw [if_neg h3, if_neg (by omega)])
  have hl : b.off + (d - 1) < m1.length := by omega
  refine ⟨m1.set (b.off + (d - 1)) ((m1.getD (b.off + (d - 1)) 0#64) &&& padCover b.len), ?_,
    by simpa using h2, ?_⟩
  · simp only [h1, ok_bind]
    rw [if_neg (by omega)]
    simp only [rd_getD 0#64 hl, ok_bind, wr_ok _ hl]
  · intro a
    rw [bitAt_set hl]
    by_cases he : a / 64 = b.off + (d - 1)
    · have e : 64 * (b.off + (d - 1)) + a % 64 = a := by omega
      rw [if_pos he, BitVec.getMsbD_and, padCover_bit,
        ← bitAt_word (i := b.off + (d - 1)) (Nat.mod_lt _ (by decide)), e, h3]
      have h5 : 64 * b.off ≤ a ∧ a < 64 * (b.off + d) := by omega
      rw [if_pos h5, if_pos h5]
      by_cases h4 : a < 64 * b.off + b.len
      · have : a % 64 < (if b.len % 64 = 0 then 64 else b.len % 64) := by split <;> omega
        rw [if_pos h4, decide_eq_true this, Bool.and_true]
      · have : ¬ a % 64 < (if b.len % 64 = 0 then 64 else b.len % 64) := by split <;> omega
        rw [if_neg h4, decide_eq_false this, Bool.and_false]
    · rw [if_neg he, h3]
      by_cases h4 : 64 * b.off ≤ a ∧ a < 64 * (b.off + d)
      · rw [if_pos h4, if_pos h4, if_pos (by omega)]
      · rw [if_neg h4, if_neg h4]

end CM
