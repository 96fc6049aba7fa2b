import Verif.Model.AlignShape
import Verif.Lemmas.Align

/-! # The mask filter with arrays of any shape -/

namespace CM

namespace Align

/-- The first two entries of a row. -/
def Mat.point (A : Mat) (i : Nat) : Rat × Rat :=
  (A.data.getD (i * A.cols) 0, A.data.getD (i * A.cols + 1) 0)

/-- The first two entries of all rows. -/
def Mat.points (A : Mat) : List (Rat × Rat) := (List.range A.rows).map A.point

theorem Mat.get_eq (A : Mat) {i : Nat} (hi : i < A.rows) (hc : 2 ≤ A.cols) :
    A.get i 0 = .ok (A.point i).1 ∧ A.get i 1 = .ok (A.point i).2 := by
  have h : i * A.cols + 1 < A.data.length := by
    rw [A.full]
    have : (i + 1) * A.cols ≤ A.rows * A.cols := Nat.mul_le_mul_right _ (by omega)
    rw [Nat.add_mul] at this
    omega
  unfold Mat.get Mat.point
  constructor
  · rw [rd_eq_ok, Nat.add_zero, List.getD_eq_getElem?_getD, List.getElem?_eq_getElem (by omega)]
    rfl
  · rw [rd_eq_ok]
    simp [List.getD_eq_getElem?_getD, h]

/-- With two columns all is as with a list of points. -/
theorem rotate_spec (A : Mat) (T : Sim) (hc : A.cols = 2) :
    ∃ rot, rotate A T = .ok rot ∧ rot.length = A.rows * 2 ∧
      ∀ i, i < A.rows → rot[i * 2]? = some (T.apply (A.point i)).1 ∧
        rot[i * 2 + 1]? = some (T.apply (A.point i)).2 := by
  have hg : ∀ i, i < A.rows → A.get i 0 = .ok (A.point i).1 ∧ A.get i 1 = .ok (A.point i).2 :=
    fun i hi => A.get_eq hi (by omega)
  unfold rotate
  simp only [hc]
  obtain ⟨r1, e1, l1, p1⟩ := forRange_rule (lo := 0) (hi := A.rows)
    (body := fun k rot => do
      let x ← A.get k 0
      let y ← A.get k 1
      wr rot (k * 2) (T.a * x - T.b * y)) (s := List.replicate (A.rows * 2) 0)
    (fun k rot => rot.length = A.rows * 2 ∧ ∀ i, i < k →
      rot[i * 2]? = some (T.a * (A.point i).1 - T.b * (A.point i).2)) (Nat.zero_le _)
    ⟨by simp, fun i hi => absurd hi (by omega)⟩
    (by
      rintro k rot _ hk ⟨hl, hp⟩
      rw [(hg k hk).1, ok_bind, (hg k hk).2, ok_bind]
      refine ⟨_, wr_eq_ok.2 ⟨by omega, rfl⟩, by simpa using hl, fun i hi => ?_⟩
      rcases Nat.lt_or_ge i k with h | h
      · rw [List.getElem?_set_ne (by omega)]; exact hp i h
      · have : i = k := by omega
        subst this
        rw [List.getElem?_set_self (by omega)])
  rw [e1, ok_bind]
  obtain ⟨r2, e2, l2, q2, p2⟩ := forRange_rule (lo := 0) (hi := A.rows)
    (body := fun k rot => do
      let x ← A.get k 0
      let y ← A.get k 1
      wr rot (k * 2 + 1) (T.b * x + T.a * y)) (s := r1)
    (fun k rot => rot.length = A.rows * 2 ∧ (∀ i, i < A.rows →
      rot[i * 2]? = some (T.a * (A.point i).1 - T.b * (A.point i).2)) ∧
      ∀ i, i < k → rot[i * 2 + 1]? = some (T.b * (A.point i).1 + T.a * (A.point i).2))
    (Nat.zero_le _) ⟨l1, p1, fun i hi => absurd hi (by omega)⟩
    (by
      rintro k rot _ hk ⟨hl, hq, hp⟩
      rw [(hg k hk).1, ok_bind, (hg k hk).2, ok_bind]
      refine ⟨_, wr_eq_ok.2 ⟨by omega, rfl⟩, by simpa using hl, fun i hi => ?_, fun i hi => ?_⟩
      · rw [List.getElem?_set_ne (by omega)]; exact hq i hi
      · rcases Nat.lt_or_ge i k with h | h
        · rw [List.getElem?_set_ne (by omega)]; exact hp i h
        · have : i = k := by omega
          subst this
          rw [List.getElem?_set_self (by omega)])
  rw [e2, ok_bind]
  have step : ∀ k (rot : List Rat) (x y : Rat), k < A.rows → rot.length = A.rows * 2 →
      rot[k * 2]? = some x → rot[k * 2 + 1]? = some y →
      forRange 0 2 (fun j rot => do
        let t ← rd [T.c0, T.c1] j
        let z ← rd rot (k * 2 + j)
        wr rot (k * 2 + j) (z + t)) rot =
      .ok ((rot.set (k * 2) (x + T.c0)).set (k * 2 + 1) (y + T.c1)) := by
    intro k rot x y hk hl hx hy
    have a1 : rd rot (k * 2) = .ok x := rd_eq_ok.2 hx
    have a2 : wr rot (k * 2) (x + T.c0) = .ok (rot.set (k * 2) (x + T.c0)) :=
      wr_eq_ok.2 ⟨by omega, rfl⟩
    have a3 : rd (rot.set (k * 2) (x + T.c0)) (k * 2 + 1) = .ok y := by
      rw [rd_eq_ok, List.getElem?_set_ne (by omega)]; exact hy
    have a4 : wr (rot.set (k * 2) (x + T.c0)) (k * 2 + 1) (y + T.c1) =
        .ok ((rot.set (k * 2) (x + T.c0)).set (k * 2 + 1) (y + T.c1)) :=
      wr_eq_ok.2 ⟨by simp; omega, rfl⟩
    have b1 : rd [T.c0, T.c1] 0 = .ok T.c0 := rfl
    have b2 : rd [T.c0, T.c1] 1 = .ok T.c1 := rfl
    simp only [forRange, forN, Nat.sub_zero, Nat.add_zero, Nat.zero_add, b1, b2, ok_bind, a1, a2,
      a3, a4]
  obtain ⟨r3, e3, l3, p3, _⟩ := forRange_rule (lo := 0) (hi := A.rows)
    (body := fun k rot => forRange 0 2 (fun j rot => do
      let t ← rd [T.c0, T.c1] j
      let z ← rd rot (k * 2 + j)
      wr rot (k * 2 + j) (z + t)) rot) (s := r2)
    (fun k rot => rot.length = A.rows * 2 ∧
      (∀ i, i < k → rot[i * 2]? = some (T.apply (A.point i)).1 ∧
        rot[i * 2 + 1]? = some (T.apply (A.point i)).2) ∧
      ∀ i, k ≤ i → i < A.rows →
        rot[i * 2]? = some (T.a * (A.point i).1 - T.b * (A.point i).2) ∧
        rot[i * 2 + 1]? = some (T.b * (A.point i).1 + T.a * (A.point i).2))
    (Nat.zero_le _) ⟨l2, fun i hi => absurd hi (by omega), fun i _ hi => ⟨q2 i hi, p2 i hi⟩⟩
    (by
      rintro k rot _ hk ⟨hl, hp, hq⟩
      obtain ⟨x, y⟩ := hq k (Nat.le_refl _) hk
      refine ⟨_, step k rot _ _ hk hl x y, by simpa using hl, fun i hi => ?_, fun i h1 h2 => ?_⟩
      · rcases Nat.lt_or_ge i k with h | h
        · rw [List.getElem?_set_ne (by omega), List.getElem?_set_ne (by omega),
            List.getElem?_set_ne (by omega), List.getElem?_set_ne (by omega)]
          exact hp i h
        · have : i = k := by omega
          subst this
          rw [List.getElem?_set_ne (by omega), List.getElem?_set_self (by omega),
            List.getElem?_set_self (by simp; omega)]
          exact ⟨rfl, rfl⟩
      · rw [List.getElem?_set_ne (by omega), List.getElem?_set_ne (by omega),
            List.getElem?_set_ne (by omega), List.getElem?_set_ne (by omega)]
        exact hq i (by omega) h2)
  exact ⟨r3, e3, l3, p3⟩

theorem scoreMat_eq {mask : Mask} {T : Sim} {A : Mat} (hc : A.cols = 2)
    (h : ∀ p ∈ A.points, 0 ≤ (T.apply p).1 ∧ (T.apply p).1 < 2 ^ 64 ∧ 0 ≤ (T.apply p).2 ∧
      (T.apply p).2 < 2 ^ 64) : scoreMat mask T A = score mask T A.points := by
  obtain ⟨rot, e, hl, hp⟩ := rotate_spec A T hc
  have hpt : ∀ i, i < A.rows → 0 ≤ (T.apply (A.point i)).1 ∧ (T.apply (A.point i)).1 < 2 ^ 64 ∧
      0 ≤ (T.apply (A.point i)).2 ∧ (T.apply (A.point i)).2 < 2 ^ 64 := fun i hi =>
    h _ (List.mem_map.2 ⟨i, List.mem_range.2 hi, rfl⟩)
  rw [score_eq h]
  unfold scoreMat
  rw [e, ok_bind]
  have hm : rot.mapM castU64 = .ok (rot.map fun x => ⌊x⌋.toNat) := by
    refine mapM_ok fun x hx => ?_
    obtain ⟨m, hm, rfl⟩ := List.mem_iff_getElem.1 hx
    have hi : m / 2 < A.rows := by omega
    have hcases : m = m / 2 * 2 ∨ m = m / 2 * 2 + 1 := by omega
    have hpm := hp (m / 2) hi
    obtain ⟨a, b, c, d⟩ := hpt (m / 2) hi
    rcases hcases with h' | h'
    · rw [← h', List.getElem?_eq_getElem hm] at hpm
      rw [Option.some.inj hpm.1]
      exact castU64_eq a b
    · rw [← h', List.getElem?_eq_getElem hm] at hpm
      rw [Option.some.inj hpm.2]
      exact castU64_eq c d
  rw [hm, ok_bind]
  let f : Nat → Bool := fun i =>
    decide (⌊(T.apply (A.point i)).2⌋.toNat < mask.rows) &&
      decide (⌊(T.apply (A.point i)).1⌋.toNat < mask.cols) &&
        mask.val ⌊(T.apply (A.point i)).2⌋.toNat ⌊(T.apply (A.point i)).1⌋.toNat
  obtain ⟨s, e2, p2⟩ := forRange_rule (lo := 0) (hi := A.rows)
    (body := fun k s => do
      let y ← rd (rot.map fun x => ⌊x⌋.toNat) (k * A.cols + 1)
      let x ← rd (rot.map fun x => ⌊x⌋.toNat) (k * A.cols)
      Except.ok (if y < mask.rows ∧ x < mask.cols ∧ mask.val y x = true then s + 1 else s)) (s := 0)
    (fun k s => s = (List.range k).countP f) (Nat.zero_le _) (by simp)
    (by
      rintro k s _ hk rfl
      have a1 : rd (rot.map fun x => ⌊x⌋.toNat) (k * A.cols + 1) =
          .ok ⌊(T.apply (A.point k)).2⌋.toNat := by
        rw [rd_eq_ok, hc, List.getElem?_map, (hp k hk).2]; rfl
      have a2 : rd (rot.map fun x => ⌊x⌋.toNat) (k * A.cols) =
          .ok ⌊(T.apply (A.point k)).1⌋.toNat := by
        rw [rd_eq_ok, hc, List.getElem?_map, (hp k hk).1]; rfl
      rw [a1, ok_bind, a2, ok_bind]
      refine ⟨_, rfl, ?_⟩
      rw [List.range_succ, List.countP_append, List.countP_singleton]
      by_cases hf : f k = true
      · rw [if_pos hf, if_pos]
        simpa [f, and_assoc] using hf
      · rw [if_neg hf, if_neg, Nat.add_zero]
        intro hh
        apply hf
        simp only [f, Bool.and_eq_true, decide_eq_true_eq]
        exact ⟨⟨hh.1, hh.2.1⟩, hh.2.2⟩)
  rw [e2, p2]
  unfold Mat.points
  rw [List.countP_map]
  rfl

theorem ruleMat_eq {control : Mat} {mask : Mask} {percentage : Rat} {M1 M2 : Mat}
    {i1 j1 i2 j2 : Nat} (hc : control.cols = 2) (h1 : 2 ≤ M1.cols) (h2 : 2 ≤ M2.cols)
    (a : i1 < M1.rows) (b : j1 < M1.rows) (c : i2 < M2.rows) (d : j2 < M2.rows)
    (hr : M2.point i2 ≠ M2.point j2 → ∀ p ∈ control.points,
      let T := solve (M2.point i2) (M2.point j2) (M1.point i1) (M1.point j1)
      0 ≤ (T.apply p).1 ∧ (T.apply p).1 < 2 ^ 64 ∧ 0 ≤ (T.apply p).2 ∧ (T.apply p).2 < 2 ^ 64) :
    ruleMat control mask percentage M1 M2 i1 j1 i2 j2 =
      rule control.points mask percentage M1.point M2.point i1 j1 i2 j2 := by
  unfold ruleMat rule
  rw [(M2.get_eq c h2).1, ok_bind, (M2.get_eq c h2).2, ok_bind, (M2.get_eq d h2).1, ok_bind,
    (M2.get_eq d h2).2, ok_bind, (M1.get_eq a h1).1, ok_bind, (M1.get_eq a h1).2, ok_bind,
    (M1.get_eq b h1).1, ok_bind, (M1.get_eq b h1).2, ok_bind]
  have he : ((M2.point i2).1 - (M2.point j2).1 = 0 ∧ (M2.point i2).2 - (M2.point j2).2 = 0) ↔
      M2.point i2 = M2.point j2 := by
    rw [sub_eq_zero, sub_eq_zero, ← Prod.ext_iff]
  simp only [he]
  split
  · rfl
  · rename_i hne
    rw [scoreMat_eq hc (hr hne)]
    simp [Mat.points]

/-- All failures of reading and writing are of one kind. -/
theorem rd_ub {α : Type} {l : List α} {i : Nat} {e : Fault} (h : rd l i = .error e) : e = .ub := by
  unfold rd at h
  split at h <;> cases h
  rfl

theorem wr_ub {α : Type} {l : List α} {i : Nat} {a : α} {e : Fault} (h : wr l i a = .error e) :
    e = .ub := by
  unfold wr at h
  split at h <;> cases h
  rfl

theorem castU64_ub {x : Rat} {e : Fault} (h : castU64 x = .error e) : e = .ub := by
  unfold castU64 at h
  split at h
  · cases h; rfl
  · split at h
    · cases h
    · split at h <;> cases h
      rfl

/-- Computations that only fail by undefined behaviour. -/
def Raw {α : Type} (x : M α) : Prop := ∀ e, x = .error e → e = .ub

theorem Raw.bind {α β : Type} {x : M α} {f : α → M β} (hx : Raw x) (hf : ∀ a, Raw (f a)) :
    Raw (x >>= f) := by
  intro e h
  cases x with
  | error e' => cases h; exact hx _ rfl
  | ok a => exact hf a e h

theorem Raw.forRange {σ : Type} {b : Nat → σ → M σ} (hb : ∀ i s, Raw (b i s)) (lo hi : Nat)
    (s : σ) : Raw (forRange lo hi b s) := by
  unfold CM.forRange
  generalize hi - lo = n
  induction n generalizing lo s with
  | zero => intro e h; cases h
  | succ n ih =>
    intro e h
    unfold forN at h
    split at h
    · exact ih _ _ e h
    · rename_i hb'
      cases h
      exact hb _ _ _ hb'

theorem Raw.mapM {α β : Type} {f : α → M β} (hf : ∀ a, Raw (f a)) (l : List α) :
    Raw (l.mapM f) := by
  induction l with
  | nil => intro e h; cases h
  | cons a l ih =>
    rw [List.mapM_cons]
    exact (hf a).bind fun b => ih.bind fun _ => fun e h => by cases h

theorem raw_ok {α : Type} (a : α) : Raw (.ok a : M α) := fun e h => by cases h

theorem rotate_raw (A : Mat) (T : Sim) : Raw (rotate A T) := by
  unfold rotate
  refine Raw.bind (Raw.forRange (fun i s => ?_) _ _ _) fun r1 =>
    Raw.bind (Raw.forRange (fun i s => ?_) _ _ _) fun r2 =>
    Raw.forRange (fun i s => Raw.forRange (fun j s => ?_) _ _ _) _ _ _
  · exact Raw.bind (fun e h => rd_ub h) fun x => Raw.bind (fun e h => rd_ub h) fun y =>
      fun e h => wr_ub h
  · exact Raw.bind (fun e h => rd_ub h) fun x => Raw.bind (fun e h => rd_ub h) fun y =>
      fun e h => wr_ub h
  · exact Raw.bind (fun e h => rd_ub h) fun x => Raw.bind (fun e h => rd_ub h) fun y =>
      fun e h => wr_ub h

theorem scoreMat_raw (mask : Mask) (T : Sim) (A : Mat) : Raw (scoreMat mask T A) := by
  unfold scoreMat
  refine Raw.bind (rotate_raw A T) fun rot => Raw.bind (Raw.mapM (fun x e h => castU64_ub h) _)
    fun rcu => Raw.forRange (fun k s => ?_) _ _ _
  exact Raw.bind (fun e h => rd_ub h) fun x => Raw.bind (fun e h => rd_ub h) fun y => raw_ok _

/-- With another number of columns there is no result. -/
theorem rotate_bad {A : Mat} {T : Sim} (hr : 1 ≤ A.rows) (hc : A.cols ≠ 2) :
    rotate A T = .error .ub := by
  cases h : rotate A T with
  | error e => rw [rotate_raw A T e h]
  | ok rot =>
    exfalso
    unfold rotate at h
    simp only [bind_eq_ok] at h
    obtain ⟨r1, h1, r2, h2, h3⟩ := h
    rcases Nat.lt_or_ge A.cols 2 with hlt | hge
    · obtain ⟨s, s', h4⟩ := forRange_ran h1 (Nat.zero_le (A.rows - 1)) (by omega)
      rw [bind_eq_ok] at h4
      obtain ⟨x, hx, h4⟩ := h4
      rw [bind_eq_ok] at h4
      obtain ⟨y, hy, _⟩ := h4
      unfold Mat.get at hy
      rw [rd_eq_ok] at hy
      have hl := (List.getElem?_eq_some_iff.1 hy).1
      rw [A.full] at hl
      have : A.cols = 0 ∨ A.cols = 1 := by omega
      rcases this with e | e <;> rw [e] at hl <;> omega
    · obtain ⟨s, s', h4⟩ := forRange_ran h3 (Nat.zero_le 0) (by omega)
      obtain ⟨t, t', h5⟩ := forRange_ran h4 (Nat.zero_le 2) (by omega)
      rw [bind_eq_ok] at h5
      obtain ⟨x, hx, _⟩ := h5
      rw [rd_eq_ok] at hx
      simp at hx

theorem ruleMat_bad {control : Mat} {mask : Mask} {percentage : Rat} {M1 M2 : Mat}
    (hr : 1 ≤ control.rows) (hc : control.cols ≠ 2) (hp : 0 < percentage) (i1 j1 i2 j2 : Nat) :
    OrStops (· = .ub) (ruleMat control mask percentage M1 M2 i1 j1 i2 j2) (.ok false) := by
  have hraw : ∀ (A : Mat) i j, Raw (A.get i j) := fun A i j e h => rd_ub h
  have hbind : ∀ {α : Type} {x : M α} {f : α → M Bool}, Raw x →
      (∀ a, OrStops (· = .ub) (f a) (.ok false)) → OrStops (· = .ub) (x >>= f) (.ok false) := by
    intro α x f hx hf
    cases x with
    | error e => exact Or.inl ⟨e, hx e rfl, rfl⟩
    | ok a => exact hf a
  unfold ruleMat
  refine hbind (hraw _ _ _) fun x1 => hbind (hraw _ _ _) fun y1 => hbind (hraw _ _ _) fun x2 =>
    hbind (hraw _ _ _) fun y2 => hbind (hraw _ _ _) fun x3 => hbind (hraw _ _ _) fun y3 =>
    hbind (hraw _ _ _) fun x4 => hbind (hraw _ _ _) fun y4 => ?_
  split
  · right
    congr 1
    exact decide_eq_false (by linarith)
  · left
    refine ⟨.ub, rfl, ?_⟩
    unfold scoreMat
    rw [rotate_bad hr hc]
    rfl

end Align

end CM
