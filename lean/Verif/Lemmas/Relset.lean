import Mathlib.Order.Monotone.Defs
import Verif.Lemmas.Corr

/-! # Distance lists, `binary_find2` and the edges made from them -/

namespace CM

open Spec Graph

variable {D : Type} [LinearOrder D] [Inhabited D]

/-! ## `fill_dists` -/

/-- The entries `fill_dists` writes for the first element `i`. -/
def pairRow (N : Nat) (sym : Bool) (d : Nat → Nat → D) (i : Nat) : List (PairDist D) :=
  (List.range' (if sym then i + 1 else 0) (N - (if sym then i + 1 else 0))).flatMap
    fun j => if j = i then [] else [{ first := i, second := j, dist := d i j }]

/-- All entries of the list, before sorting. -/
def pairList (N : Nat) (sym : Bool) (d : Nat → Nat → D) : List (PairDist D) :=
  (List.range' 0 (N - 0)).flatMap (pairRow N sym d)

/-- The number of entries. -/
def relLen (N : Nat) (sym : Bool) : Nat := if sym then N * (N - 1) / 2 else N * (N - 1)

omit [LinearOrder D] [Inhabited D] in
theorem mem_pairList {N : Nat} {sym : Bool} {d : Nat → Nat → D} {p : PairDist D} :
    p ∈ pairList N sym d ↔ p.first < N ∧ p.second < N ∧ p.first ≠ p.second ∧
      (sym = true → p.first < p.second) ∧ p.dist = d p.first p.second := by
  unfold pairList pairRow
  simp only [List.mem_flatMap, List.mem_range'_1]
  constructor
  · rintro ⟨i, hi, j, hj, h⟩
    split at h
    · simp at h
    · simp only [List.mem_singleton] at h
      subst h
      simp only
      cases sym <;> simp at hj ⊢ <;> omega
  · rintro ⟨h1, h2, h3, h4, h5⟩
    refine ⟨p.first, by omega, p.second, ?_, ?_⟩
    · cases sym
      · simp; omega
      · simp at h4 ⊢; omega
    · rw [if_neg (Ne.symm h3), List.mem_singleton]
      cases p; simp at h5 ⊢; exact h5

theorem length_skip {β : Type} (f : Nat → β) (i : Nat) (l : List Nat) :
    (l.flatMap fun j => if j = i then [] else [f j]).length + l.count i = l.length := by
  induction l with
  | nil => simp
  | cons a l ih =>
    rw [List.flatMap_cons, List.length_append, List.count_cons, List.length_cons]
    by_cases h : a = i
    · rw [if_pos h, if_pos (by simp [h]), List.length_nil]; omega
    · rw [if_neg h, if_neg (by simp [h]), List.length_singleton]; omega

theorem sum_below : ∀ n a, 2 * ((List.range' a n).map fun i => a + n - (i + 1)).sum =
    n * (n - 1) := by
  intro n
  induction n with
  | zero => intro a; simp
  | succ n ih =>
    intro a
    rw [List.range'_succ, List.map_cons, List.sum_cons]
    have h := ih (a + 1)
    have e : ∀ i, a + 1 + n - (i + 1) = a + (n + 1) - (i + 1) := by intro i; omega
    simp only [e] at h
    rw [Nat.mul_add, h]
    cases n with
    | zero => simp
    | succ m =>
      simp only [Nat.add_sub_cancel]
      have : a + (m + 1 + 1) - (a + 1) = m + 1 := by omega
      rw [this, Nat.add_mul (m + 1) 1 (m + 1)]
      have : (m + 1) * (m + 1) = (m + 1) * m + (m + 1) := by rw [Nat.mul_succ]
      omega

omit [LinearOrder D] [Inhabited D] in
theorem pairRow_length {N : Nat} {sym : Bool} {d : Nat → Nat → D} {i : Nat} (hi : i < N) :
    (pairRow N sym d i).length = if sym then N - (i + 1) else N - 1 := by
  unfold pairRow
  have h := length_skip (fun j => ({ first := i, second := j, dist := d i j } : PairDist D)) i
    (List.range' (if sym then i + 1 else 0) (N - (if sym then i + 1 else 0)))
  rw [List.length_range'] at h
  cases sym
  · simp only [Bool.false_eq_true, if_false] at h ⊢
    rw [List.count_eq_one_of_mem List.nodup_range' (by rw [List.mem_range'_1]; omega)] at h
    omega
  · simp only [if_true] at h ⊢
    rw [List.count_eq_zero.2 (by rw [List.mem_range'_1]; omega)] at h
    omega

omit [LinearOrder D] [Inhabited D] in
theorem pairList_length {N : Nat} {sym : Bool} {d : Nat → Nat → D} :
    (pairList N sym d).length = relLen N sym := by
  unfold pairList relLen
  rw [List.length_flatMap]
  have h : ((List.range' 0 (N - 0)).map fun i => (pairRow N sym d i).length) =
      (List.range' 0 N).map fun i => if sym then N - (i + 1) else N - 1 := by
    rw [Nat.sub_zero]
    apply List.map_congr_left
    intro i hi
    rw [List.mem_range'_1] at hi
    exact pairRow_length (by omega)
  rw [h]
  cases sym
  · simp
  · simp only [if_true]
    have := sum_below N 0
    simp only [Nat.zero_add] at this
    omega

omit [LinearOrder D] in
theorem fillDists_spec {N : Nat} (hN : N < 2 ^ 31) (sym : Bool) (d : Nat → Nat → D)
    (srt : List (PairDist D) → List (PairDist D)) :
    fillDists srt N sym d = .ok (srt (pairList N sym d)) := by
  unfold fillDists
  have hmul : N * (N - 1) < 2 ^ 64 := by
    have : N * (N - 1) ≤ 2 ^ 31 * 2 ^ 31 := Nat.mul_le_mul (by omega) (by omega)
    omega
  have hum : umul N (usub N 1) = N * (N - 1) := by
    rcases Nat.eq_zero_or_pos N with h | h
    · subst h; unfold umul; simp
    · rw [usub_eq h (by omega), umul_eq hmul]
  have hlen : (if sym then umul N (usub N 1) / 2 else umul N (usub N 1)) = relLen N sym := by
    rw [hum]; rfl
  simp only [hlen]
  have hinit : ((List.replicate (relLen N sym) default, 0) : List (PairDist D) × Nat) =
      Written (List.replicate (relLen N sym) default) [] := by
    unfold Written; simp
  rw [hinit]
  have := forRange_written (init := List.replicate (relLen N sym) (default : PairDist D))
    (lo := 0) (hi := N) (body := fun i s =>
      forRange (if sym then i + 1 else 0) N (fun j (s : List (PairDist D) × Nat) =>
      if j = i then .ok s
      else do
        let b ← wr s.1 s.2 { first := i, second := j, dist := d i j }
        .ok (b, s.2 + 1)) s) (pairRow N sym d)
    (by
      intro i xs _ hi hl
      refine forRange_written _ (fun j xs hj hj' hl => ?_) xs hl
      split
      · simp
      · rename_i hne
        rw [if_neg hne] at hl
        exact wr_written _ (by simp at hl ⊢; omega)) []
    (by
      have : ((List.range' 0 (N - 0)).flatMap (pairRow N sym d)).length = relLen N sym :=
        pairList_length
      rw [this]; simp)
  rw [this, ok_bind]
  simp only [List.nil_append]
  have hf : (Written (List.replicate (relLen N sym) (default : PairDist D))
      (pairList N sym d)).1 = pairList N sym d :=
    written_full (by rw [pairList_length]; simp)
  change (Except.ok (srt (Written _ (pairList N sym d)).1) : M _) = _
  rw [hf]

/-! ## `binary_find2` -/

omit [LinearOrder D] in
theorem getD_of_lt {a : List (PairDist D)} {i : Nat} (h : i < a.length) :
    a.getD i default = a[i] := by
  simp [List.getD_eq_getElem?_getD, h]

/-- The distance in entry `i`. -/
def dist (a : List (PairDist D)) (i : Nat) : D := (a.getD i default).dist

theorem Ascending.le {a : List (PairDist D)} (h : Ascending a) {i j : Nat} (hij : i ≤ j)
    (hj : j < a.length) : dist a i ≤ dist a j := by
  rcases Nat.eq_or_lt_of_le hij with rfl | hlt
  · exact le_refl _
  · unfold dist
    rw [getD_of_lt (by omega), getD_of_lt hj]
    exact List.pairwise_iff_getElem.1 h i j (by omega) hj hlt

/-- Where the search for `val` stopped. -/
def Stop (a : List (PairDist D)) (val : D) (loc : Nat) : Prop :=
  loc < a.length ∧ (dist a loc = val ∨
    (dist a loc < val ∧ ∀ k, loc < k → k < a.length → val < dist a k) ∨
    (val < dist a loc ∧ ∀ k, k < loc → dist a k < val))

theorem binaryFind2_spec {a : List (PairDist D)} (hs : Ascending a) (h0 : 0 < a.length)
    (hl : a.length < 2 ^ 63) (val : D) :
    ∃ f loc, binaryFind2 a a.length val = .ok (f, loc) ∧
      ((f = -1 ∧ ∀ k, k < a.length → dist a k < val) ∨
        (f ≠ -1 ∧ val ≤ dist a (a.length - 1) ∧ Stop a val loc)) := by
  have hr : ∀ i, i < a.length → rd a i = .ok (a.getD i default) := fun i hi => rd_getD _ hi
  unfold binaryFind2
  rw [usub_eq (by omega) (by omega)]
  simp only [hr _ h0, hr (a.length - 1) (by omega), ok_bind]
  by_cases h1 : (a.getD (a.length - 1) default).dist < val
  · rw [if_pos h1]
    exact ⟨_, _, rfl, Or.inl ⟨rfl, fun k hk => lt_of_le_of_lt (hs.le (by omega) (by omega)) h1⟩⟩
  rw [if_neg h1]
  have hlast : val ≤ dist a (a.length - 1) := le_of_not_gt h1
  by_cases h2 : (a.getD 0 default).dist > val
  · rw [if_pos h2]
    exact ⟨_, _, rfl, Or.inr ⟨by decide, hlast, h0, Or.inr (Or.inr ⟨h2, fun k hk => by omega⟩)⟩⟩
  rw [if_neg h2]
  have hfirst : dist a 0 ≤ val := le_of_not_gt h2
  obtain ⟨⟨f, loc⟩, e, hq⟩ := loop_rule
    (body := fun (s : Nat × Nat × Nat × Nat) => do
      let (beg, e, mid, loc) := s
      if beg ≤ e then do
        let z ← rd a mid
        if z.dist = val then .ok (.inr ((1 : Int), mid))
        else
          let (beg, e) := if z.dist < val then (uadd mid 1, e) else (beg, usub mid 1)
          .ok (.inl (beg, e, uadd beg (usub e beg / 2), mid))
      else .ok (.inr (0, loc)))
    (fun s => s.1 ≤ s.2.1 + 1 ∧ s.2.1 < a.length ∧
      (s.1 ≤ s.2.1 → s.2.2.1 = s.1 + (s.2.1 - s.1) / 2) ∧
      (∀ k, k < s.1 → dist a k < val) ∧
      (∀ k, s.2.1 < k → k < a.length → val < dist a k) ∧
      (s.1 = s.2.1 + 1 → s.2.2.2 < a.length ∧ (s.2.2.2 + 1 = s.1 ∨ s.2.2.2 = s.1)))
    (fun r => r.1 ≠ -1 ∧ Stop a val r.2)
    (fun s => s.2.1 + 1 - s.1)
    (by
      rintro ⟨beg, en, mid, loc⟩ ⟨a1, a2, a3, a4, a5, a6⟩
      simp only at a1 a2 a3 a4 a5 a6 ⊢
      by_cases hle : beg ≤ en
      · have hm := a3 hle
        have hmid : mid < a.length := by omega
        simp only [hle, if_true, hr mid hmid, ok_bind]
        by_cases hx : (a.getD mid default).dist = val
        · right
          refine ⟨(1, mid), by rw [if_pos hx], by simp, hmid, Or.inl hx⟩
        · rw [if_neg hx]
          left
          by_cases hx2 : (a.getD mid default).dist < val
          · simp only [if_pos hx2]
            rw [uadd_eq (a := mid) (by omega)]
            refine ⟨_, rfl, ⟨by simp only; omega, a2, ?_, ?_, a5, ?_⟩, by simp only; omega⟩
            · intro h
              simp only at h ⊢
              rw [usub_eq h (by omega), uadd_eq (by omega)]
            · intro k hk
              exact lt_of_le_of_lt (hs.le (i := k) (j := mid) (by simp only at hk; omega) hmid) hx2
            · intro h
              simp only at h ⊢
              exact ⟨hmid, Or.inl (by trivial)⟩
          · simp only [if_neg hx2]
            have hgt : val < dist a mid := lt_of_le_of_ne (le_of_not_gt hx2) (Ne.symm hx)
            have hpos : 0 < mid := by
              rcases Nat.eq_zero_or_pos mid with h | h
              · rw [h] at hgt; exact absurd hfirst (not_le_of_gt hgt)
              · exact h
            rw [usub_eq (a := mid) hpos (by omega)]
            refine ⟨_, rfl, ⟨by simp only; omega, by simp only; omega, ?_, a4, ?_, ?_⟩,
              by simp only; omega⟩
            · intro h
              simp only at h ⊢
              rw [usub_eq h (by omega), uadd_eq (by omega)]
            · intro k hk hk2
              exact lt_of_lt_of_le hgt (hs.le (i := mid) (j := k) (by simp only at hk; omega) hk2)
            · intro h
              simp only at h ⊢
              exact ⟨hmid, Or.inr (by omega)⟩
      · right
        simp only [hle, if_false]
        obtain ⟨b1, b2⟩ := a6 (by omega)
        refine ⟨(0, loc), rfl, by simp, b1, ?_⟩
        rcases b2 with b2 | b2
        · exact Or.inr (Or.inl ⟨a4 _ (by omega), fun k hk hk2 => a5 k (by omega) hk2⟩)
        · exact Or.inr (Or.inr ⟨a5 _ (by omega) b1, fun k hk => a4 k (by omega)⟩))
    (fuel := a.length + 1) (s := (0, a.length - 1, uadd 0 (usub (a.length - 1) 0 / 2), 0))
    (by
      refine ⟨by simp only; omega, by simp only; omega, ?_, ?_, ?_, ?_⟩
      · intro _
        simp only
        rw [usub_eq (by omega) (by omega), uadd_eq (by omega)]
      · intro k hk; simp only at hk; omega
      · intro k hk hk2; simp only at hk; omega
      · intro h; simp only at h; omega)
    (by simp only; omega)
  exact ⟨f, loc, e, Or.inr ⟨hq.1, hlast, hq.2⟩⟩

/-! ## The edges -/

/-- `y` is linked to `x` only if its distance is in the window, or is the next one below or
above it. -/
def Near (w : Window D) (d2 : List (PairDist D)) (x y : PairDist D) : Prop :=
  (w.lo x.dist ≤ y.dist ∧ y.dist ≤ w.hi x.dist) ∨
  (y.dist < w.lo x.dist ∧ ∀ z ∈ d2, y.dist < z.dist → w.lo x.dist < z.dist) ∨
  (w.hi x.dist < y.dist ∧ ∀ z ∈ d2, z.dist < y.dist → z.dist < w.hi x.dist)

/-- The edges added for two entries. -/
def linksOf (N : Nat) (sym1 sym2 : Bool) (c : Nat → Nat → Nat → Nat → Bool)
    (x y : PairDist D) : Edges :=
  (if c x.first x.second y.first y.second then
    [(pairId N x.first y.first, pairId N x.second y.second),
     (pairId N x.second y.second, pairId N x.first y.first)] else []) ++
  (if !sym1 && !sym2 then []
   else if c x.first x.second y.second y.first then
    [(pairId N x.second y.first, pairId N x.first y.second),
     (pairId N x.first y.second, pairId N x.second y.first)] else [])

omit [LinearOrder D] [Inhabited D] in
theorem mem_linksOf {N : Nat} {sym1 sym2 : Bool} {c : Nat → Nat → Nat → Nat → Bool}
    {x y : PairDist D} {e : Nat × Nat} :
    e ∈ linksOf N sym1 sym2 c x y ↔
      (c x.first x.second y.first y.second = true ∧
        (e = (pairId N x.first y.first, pairId N x.second y.second) ∨
         e = (pairId N x.second y.second, pairId N x.first y.first))) ∨
      ((sym1 = true ∨ sym2 = true) ∧ c x.first x.second y.second y.first = true ∧
        (e = (pairId N x.second y.first, pairId N x.first y.second) ∨
         e = (pairId N x.first y.second, pairId N x.second y.first))) := by
  unfold linksOf
  rw [List.mem_append]
  apply or_congr
  · split
    · rename_i h; simp [h]
    · rename_i h; simp [h]
  · cases sym1 <;> cases sym2 <;> simp

omit [LinearOrder D] [Inhabited D] in
theorem linksOf_symm {N : Nat} {sym1 sym2 : Bool} {c : Nat → Nat → Nat → Nat → Bool}
    {x y : PairDist D} {u v : Nat} (h : (u, v) ∈ linksOf N sym1 sym2 c x y) :
    (v, u) ∈ linksOf N sym1 sym2 c x y := by
  rw [mem_linksOf] at h ⊢
  rcases h with ⟨h1, h2 | h2⟩ | ⟨h0, h1, h2 | h2⟩ <;> injection h2 with a b <;> subst a b
  · exact Or.inl ⟨h1, Or.inr rfl⟩
  · exact Or.inl ⟨h1, Or.inl rfl⟩
  · exact Or.inr ⟨h0, h1, Or.inr rfl⟩
  · exact Or.inr ⟨h0, h1, Or.inl rfl⟩

omit [LinearOrder D] [Inhabited D] in
theorem linksOf_length {N : Nat} {sym1 sym2 : Bool} {c : Nat → Nat → Nat → Nat → Bool}
    {x y : PairDist D} : (linksOf N sym1 sym2 c x y).length ≤ 4 := by
  unfold linksOf
  rw [List.length_append]
  have h1 : (if c x.first x.second y.first y.second then
    [(pairId N x.first y.first, pairId N x.second y.second),
     (pairId N x.second y.second, pairId N x.first y.first)] else []).length ≤ 2 := by
    split <;> simp
  have h2 : (if !sym1 && !sym2 then ([] : Edges)
   else if c x.first x.second y.second y.first then
    [(pairId N x.second y.first, pairId N x.first y.second),
     (pairId N x.first y.second, pairId N x.second y.first)] else []).length ≤ 2 := by
    split
    · simp
    · split <;> simp
  omega

omit [Inhabited D] in
/-- `edges_from_relsets` is `efr_condition` with a condition that always holds. -/
theorem edgesFromRelsets_eq (M N : Nat) (sym1 sym2 : Bool) (d1 d2 : List (PairDist D))
    (w : Window D) :
    edgesFromRelsets M N sym1 sym2 d1 d2 w =
      efrCondition M N sym1 sym2 d1 d2 w (fun _ _ _ _ => true) := by
  unfold edgesFromRelsets efrCondition
  simp only [if_true]

/-- The entries of a distance list are pairs of different elements. -/
def Pairs (M : Nat) (d : List (PairDist D)) : Prop :=
  ∀ p ∈ d, p.first < M ∧ p.second < M ∧ p.first ≠ p.second

theorem relLen_eq {N : Nat} (hN : N < 2 ^ 31) (h1 : 1 ≤ N) (sym : Bool) :
    (if sym then umul N (usub N 1) / 2 else umul N (usub N 1)) = relLen N sym := by
  have hmul : N * (N - 1) < 2 ^ 64 := by
    have : N * (N - 1) ≤ 2 ^ 31 * 2 ^ 31 := Nat.mul_le_mul (by omega) (by omega)
    omega
  rw [usub_eq h1 (by omega), umul_eq hmul]; rfl

omit [LinearOrder D] [Inhabited D] in
theorem mem_iff_getD {a : List (PairDist D)} [Inhabited D] {p : PairDist D} :
    p ∈ a ↔ ∃ k, k < a.length ∧ a.getD k default = p := by
  rw [List.mem_iff_getElem]
  constructor
  · rintro ⟨k, hk, rfl⟩; exact ⟨k, hk, getD_of_lt hk⟩
  · rintro ⟨k, hk, rfl⟩; exact ⟨k, hk, (getD_of_lt hk).symm⟩

/-- The edges collected after the first `i` entries of the first list. -/
structure Collected (N : Nat) (sym1 sym2 : Bool) (c : Nat → Nat → Nat → Nat → Bool)
    (d1 d2 : List (PairDist D)) (w : Window D) (i : Nat) (E : Edges) : Prop where
  sound : ∀ e ∈ E, ∃ x ∈ d1, ∃ y ∈ d2, Near w d2 x y ∧ e ∈ linksOf N sym1 sym2 c x y
  symm : ∀ u v, (u, v) ∈ E → (v, u) ∈ E
  complete : ∀ k, k < i → k < d1.length → ∀ y ∈ d2,
    w.lo (dist d1 k) < y.dist → y.dist < w.hi (dist d1 k) →
    ∀ e ∈ linksOf N sym1 sym2 c (d1.getD k default) y, e ∈ E

theorem efrCondition_collect {M N : Nat} {sym1 sym2 : Bool} {d1 d2 : List (PairDist D)}
    {w : Window D} {c : Nat → Nat → Nat → Nat → Bool} (hM : 1 ≤ M) (hN : 1 ≤ N)
    (hb : M * N < 2 ^ 31) (hl1 : d1.length = relLen M sym1) (hl2 : d2.length = relLen N sym2)
    (hne : M = 1 ∨ 2 ≤ N) (hs1 : Ascending d1) (hs2 : Ascending d2) (hp1 : Pairs M d1)
    (hp2 : Pairs N d2) (hlo : Monotone w.lo) :
    ∃ m E, efrCondition M N sym1 sym2 d1 d2 w c = .ok (M * N, m, PyGraph.selfLoops (M * N) ++ E) ∧
      Collected N sym1 sym2 c d1 d2 w d1.length E ∧
      E.length ≤ 4 * d1.length * d2.length := by
  have hMb : M ≤ M * N := Nat.le_mul_of_pos_right _ hN
  have hNb : N ≤ M * N := Nat.le_mul_of_pos_left _ hM
  have hrl : ∀ K sym, K < 2 ^ 31 → relLen K sym < 2 ^ 62 := by
    intro K sym hK
    have : K * (K - 1) ≤ (2 ^ 31 - 1) * 2 ^ 31 := Nat.mul_le_mul (by omega) (by omega)
    unfold relLen; split <;> omega
  have hb1 := hrl M sym1 (by omega)
  have hb2 := hrl N sym2 (by omega)
  have h2pos : 2 ≤ N → 0 < d2.length := by
    intro h
    rw [hl2]
    have : 2 * 1 ≤ N * (N - 1) := Nat.mul_le_mul h (by omega)
    unfold relLen; split <;> omega
  have h1zero : M = 1 → d1.length = 0 := by
    intro h; rw [hl1, h]; unfold relLen; split <;> rfl
  unfold efrCondition
  rw [if_neg (by omega), relLen_eq (by omega) hM, relLen_eq (by omega) hN, umul_eq (by omega),
    ← hl1, ← hl2]
  simp only
  have hr1 : ∀ i, i < d1.length → rd d1 i = .ok (d1.getD i default) := fun i hi => rd_getD _ hi
  have hr2 : ∀ i, i < d2.length → rd d2 i = .ok (d2.getD i default) := fun i hi => rd_getD _ hi
  obtain ⟨⟨es, m⟩, e, E, he, hC, hlE⟩ := loop_rule
    (body := fun (s : Nat × Edges × Nat) => do
      let (i, es, m) := s
      if i < d1.length then do
        let x ← rd d1 i
        let (f1, lb) ← binaryFind2 d2 d2.length (w.lo x.dist)
        if f1 = -1 then .ok (.inr (es, m))
        else do
          let (f2, ub) ← binaryFind2 d2 d2.length (w.hi x.dist)
          let ub := if f2 = -1 then usub d2.length 1 else ub
          let (es, m) ← forRange lb (ub + 1) (fun j (s : Edges × Nat) => do
            let y ← rd d2 j
            let s := if c x.first x.second y.first y.second then
                (link s.1 (pairVertex N x.first y.first) (pairVertex N x.second y.second), s.2 + 1)
              else s
            if !sym1 && !sym2 then .ok s
            else if c x.first x.second y.second y.first then
              .ok (link s.1 (pairVertex N x.second y.first) (pairVertex N x.first y.second), s.2 + 1)
            else .ok s) (es, m)
          .ok (.inl (i + 1, es, m))
      else .ok (.inr (es, m)))
    (fun s => s.1 ≤ d1.length ∧ ∃ E, s.2.1 = PyGraph.selfLoops (M * N) ++ E ∧
      Collected N sym1 sym2 c d1 d2 w s.1 E ∧ E.length ≤ 4 * s.1 * d2.length)
    (fun r => ∃ E, r.1 = PyGraph.selfLoops (M * N) ++ E ∧
      Collected N sym1 sym2 c d1 d2 w d1.length E ∧ E.length ≤ 4 * d1.length * d2.length)
    (fun s => d1.length - s.1)
    (by
      rintro ⟨i, es, m⟩ ⟨hi, E, hE, hC, hlE⟩
      simp only at hi hE hC hlE ⊢
      by_cases hlt : i < d1.length
      swap
      · right
        rw [if_neg hlt]
        have : i = d1.length := by omega
        subst this
        exact ⟨_, rfl, E, hE, hC, hlE⟩
      rw [if_pos hlt]
      simp only [hr1 i hlt, ok_bind]
      have hd2 : 0 < d2.length := by
        rcases hne with h | h
        · have := h1zero h; omega
        · exact h2pos h
      obtain ⟨f1, lb, e1, q1⟩ := binaryFind2_spec hs2 hd2 (by omega)
        (w.lo (d1.getD i default).dist)
      simp only [e1, ok_bind]
      rcases q1 with ⟨q1, q1'⟩ | ⟨q1, q1', q1s⟩
      · right
        rw [if_pos q1]
        refine ⟨_, rfl, E, hE, ⟨hC.sound, hC.symm, ?_⟩, ?_⟩
        · intro k hk hk2 y hy hy1 hy2
          by_cases hki : k < i
          · exact hC.complete k hki hk2 y hy hy1 hy2
          · exfalso
            obtain ⟨j, hj, rfl⟩ := mem_iff_getD.1 hy
            have h1 := q1' j hj
            have h2 : w.lo (dist d1 i) ≤ w.lo (dist d1 k) := hlo (hs1.le (by omega) hk2)
            exact absurd (lt_of_lt_of_le h1 h2) (not_lt_of_gt hy1)
        · refine hlE.trans (Nat.mul_le_mul_right _ (Nat.mul_le_mul_left _ hi))
      · left
        rw [if_neg q1]
        obtain ⟨f2, ub, e2, q2⟩ := binaryFind2_spec hs2 hd2 (by omega)
          (w.hi (d1.getD i default).dist)
        simp only [e2, ok_bind]
        -- the last index
        obtain ⟨ub', hub', hu1, hu2, hu3⟩ : ∃ ub',
            (if f2 = -1 then usub d2.length 1 else ub) = ub' ∧ ub' < d2.length ∧
            (∀ k, k < d2.length → ub' < k → w.hi (d1.getD i default).dist ≤ dist d2 k) ∧
            (∀ k, k ≤ ub' → dist d2 k ≤ w.hi (d1.getD i default).dist ∨
              (w.hi (d1.getD i default).dist < dist d2 k ∧
                ∀ z, z < d2.length → dist d2 z < dist d2 k →
                  dist d2 z < w.hi (d1.getD i default).dist)) := by
          rcases q2 with ⟨q2, q2'⟩ | ⟨q2, q2', q2l, q2s⟩
          · refine ⟨d2.length - 1, by rw [if_pos q2, usub_eq (by omega) (by omega)], by omega,
              fun k hk hk2 => by omega, fun k hk => Or.inl (q2' k (by omega)).le⟩
          · refine ⟨ub, by rw [if_neg q2], q2l, ?_, ?_⟩
            · intro k hk hk2
              rcases q2s with h | ⟨_, h⟩ | ⟨h, _⟩
              · rw [← h]; exact hs2.le (by omega) hk
              · exact (h k hk2 hk).le
              · exact h.le.trans (hs2.le (by omega) hk)
            · intro k hk
              rcases q2s with h | ⟨h, _⟩ | ⟨h, h'⟩
              · left; rw [← h]; exact hs2.le hk q2l
              · left; exact (hs2.le hk q2l).trans h.le
              · rcases Nat.lt_or_eq_of_le hk with hk' | rfl
                · left; exact (h' k hk').le
                · right
                  refine ⟨h, fun z hz hzk => h' z ?_⟩
                  by_contra hn
                  exact absurd hzk (not_lt_of_ge (hs2.le (by omega) hz))
        rw [hub']
        obtain ⟨q1l, q1s⟩ := q1s
        have hl1' : ∀ k, k < lb → dist d2 k ≤ w.lo (d1.getD i default).dist := by
          intro k hk
          rcases q1s with h | ⟨h, _⟩ | ⟨_, h⟩
          · rw [← h]; exact hs2.le (by omega) q1l
          · exact (hs2.le (by omega) q1l).trans h.le
          · exact (h k hk).le
        have hl2' : ∀ k, lb ≤ k → k < d2.length → w.lo (d1.getD i default).dist ≤ dist d2 k ∨
            (dist d2 k < w.lo (d1.getD i default).dist ∧
              ∀ z, z < d2.length → dist d2 k < dist d2 z →
                w.lo (d1.getD i default).dist < dist d2 z) := by
          intro k hk hk2
          rcases q1s with h | ⟨h, h'⟩ | ⟨h, _⟩
          · left; rw [← h]; exact hs2.le hk hk2
          · rcases Nat.lt_or_eq_of_le hk with hk' | rfl
            · left; exact (h' k hk' hk2).le
            · right
              refine ⟨h, fun z hz hzk => h' z ?_ hz⟩
              by_contra hn
              exact absurd hzk (not_lt_of_ge (hs2.le (by omega) hk2))
          · left; exact h.le.trans (hs2.le hk hk2)
        have hx := hp1 _ (mem_iff_getD.2 ⟨i, hlt, rfl⟩)
        have hin := forRange_collect (lo := lb) (hi := ub' + 1)
          (body := fun j (s : Edges × Nat) => do
            let y ← rd d2 j
            let s := if c (d1.getD i default).first (d1.getD i default).second y.first y.second
              then (link s.1 (pairVertex N (d1.getD i default).first y.first)
                (pairVertex N (d1.getD i default).second y.second), s.2 + 1)
              else s
            if !sym1 && !sym2 then .ok s
            else if c (d1.getD i default).first (d1.getD i default).second y.second y.first then
              .ok (link s.1 (pairVertex N (d1.getD i default).second y.first)
                (pairVertex N (d1.getD i default).first y.second), s.2 + 1)
            else .ok s)
          (fun j => linksOf N sym1 sym2 c (d1.getD i default) (d2.getD j default))
          (fun j => (linksOf N sym1 sym2 c (d1.getD i default) (d2.getD j default)).length / 2)
          (by
            intro j s hj hj2
            have hj3 : j < d2.length := by omega
            have hy := hp2 _ (mem_iff_getD.2 ⟨j, hj3, rfl⟩)
            have hb' : M * N < 2 ^ 63 := by omega
            simp only [hr2 j hj3, ok_bind]
            rw [pairVertex_eq hx.1 hy.1 hb', pairVertex_eq hx.2.1 hy.2.1 hb',
              pairVertex_eq hx.2.1 hy.1 hb', pairVertex_eq hx.1 hy.2.1 hb']
            unfold linksOf link
            cases c (d1.getD i default).first (d1.getD i default).second
                (d2.getD j default).first (d2.getD j default).second <;>
              cases c (d1.getD i default).first (d1.getD i default).second
                (d2.getD j default).second (d2.getD j default).first <;>
              cases sym1 <;> cases sym2 <;> simp)
          (es, m)
        rw [hin]
        simp only [ok_bind]
        refine ⟨_, rfl, ⟨by simp only; omega, E ++ (List.range' lb (ub' + 1 - lb)).flatMap
          (fun j => linksOf N sym1 sym2 c (d1.getD i default) (d2.getD j default)),
          by simp only [hE, List.append_assoc], ?_, ?_⟩, by simp only; omega⟩
        · refine ⟨?_, ?_, ?_⟩
          · intro e he
            rcases List.mem_append.1 he with he | he
            · exact hC.sound e he
            · rw [List.mem_flatMap] at he
              obtain ⟨j, hj, he⟩ := he
              rw [List.mem_range'_1] at hj
              have hj3 : j < d2.length := by omega
              refine ⟨_, mem_iff_getD.2 ⟨i, hlt, rfl⟩, _, mem_iff_getD.2 ⟨j, hj3, rfl⟩, ?_, he⟩
              rcases hl2' j hj.1 hj3 with h | ⟨h, h'⟩
              · rcases hu3 j (by omega) with g | ⟨g, g'⟩
                · exact Or.inl ⟨h, g⟩
                · refine Or.inr (Or.inr ⟨g, ?_⟩)
                  intro z hz
                  obtain ⟨k, hk, rfl⟩ := mem_iff_getD.1 hz
                  exact g' k hk
              · refine Or.inr (Or.inl ⟨h, ?_⟩)
                intro z hz
                obtain ⟨k, hk, rfl⟩ := mem_iff_getD.1 hz
                exact h' k hk
          · intro u v he
            rcases List.mem_append.1 he with he | he
            · exact List.mem_append_left _ (hC.symm u v he)
            · rw [List.mem_flatMap] at he
              obtain ⟨j, hj, he⟩ := he
              exact List.mem_append_right _ (List.mem_flatMap.2 ⟨j, hj, linksOf_symm he⟩)
          · intro k hk hk2 y hy hy1 hy2 e he
            by_cases hki : k < i
            · exact List.mem_append_left _ (hC.complete k hki hk2 y hy hy1 hy2 e he)
            · have : k = i := by simp only at hk; omega
              subst this
              refine List.mem_append_right _ (List.mem_flatMap.2 ?_)
              obtain ⟨j, hj, rfl⟩ := mem_iff_getD.1 hy
              refine ⟨j, ?_, he⟩
              rw [List.mem_range'_1]
              have g1 : lb ≤ j := by
                by_contra hn
                exact absurd hy1 (not_lt_of_ge (hl1' j (by omega)))
              have g2 : j ≤ ub' := by
                by_contra hn
                exact absurd hy2 (not_lt_of_ge (hu2 j hj (by omega)))
              omega
        · rw [List.length_append]
          have h1 := length_flatMap_le (l := List.range' lb (ub' + 1 - lb))
            (f := fun j => linksOf N sym1 sym2 c (d1.getD i default) (d2.getD j default)) (k := 4)
            (fun _ _ => linksOf_length)
          rw [List.length_range'] at h1
          have h2 : (ub' + 1 - lb) * 4 ≤ d2.length * 4 := Nat.mul_le_mul_right _ (by omega)
          have h3 : 4 * (i + 1) * d2.length = 4 * i * d2.length + 4 * d2.length := by
            rw [Nat.mul_add, Nat.mul_one, Nat.add_mul]
          simp only
          omega)
    (fuel := d1.length + 1) (s := (0, PyGraph.selfLoops (M * N), 0))
    (by
      refine ⟨Nat.zero_le _, [], by simp, ⟨by simp, by simp, ?_⟩, by simp⟩
      intro k hk; simp only at hk; omega)
    (by simp only; omega)
  rw [e]
  simp only at he
  refine ⟨m, E, ?_, hC, hlE⟩
  rw [ok_bind, he]

theorem Collected.ends {M N : Nat} {sym1 sym2 : Bool} {c : Nat → Nat → Nat → Nat → Bool}
    {d1 d2 : List (PairDist D)} {w : Window D} {i : Nat} {E : Edges}
    (h : Collected N sym1 sym2 c d1 d2 w i E) (hp1 : Pairs M d1) (hp2 : Pairs N d2)
    {u v : Nat} (he : (u, v) ∈ E) :
    u ≠ v ∧ (1 ≤ u ∧ u ≤ M * N) ∧ (1 ≤ v ∧ v ≤ M * N) := by
  obtain ⟨x, hx, y, hy, _, hl⟩ := h.sound _ he
  have h1 := hp1 x hx
  have h2 := hp2 y hy
  rw [mem_linksOf] at hl
  rcases hl with ⟨_, hl | hl⟩ | ⟨_, _, hl | hl⟩ <;> injection hl with a b <;> subst a b
  · exact ⟨fun hh => h1.2.2 (pairId_inj h2.1 h2.2.1 hh).1, pairId_range h1.1 h2.1,
      pairId_range h1.2.1 h2.2.1⟩
  · exact ⟨fun hh => h1.2.2 (pairId_inj h2.2.1 h2.1 hh).1.symm, pairId_range h1.2.1 h2.2.1,
      pairId_range h1.1 h2.1⟩
  · exact ⟨fun hh => h1.2.2 (pairId_inj h2.1 h2.2.1 hh).1.symm, pairId_range h1.2.1 h2.1,
      pairId_range h1.1 h2.2.1⟩
  · exact ⟨fun hh => h1.2.2 (pairId_inj h2.2.1 h2.1 hh).1, pairId_range h1.1 h2.2.1,
      pairId_range h1.2.1 h2.1⟩

theorem Collected.adj {M N : Nat} {sym1 sym2 : Bool} {c : Nat → Nat → Nat → Nat → Bool}
    {d1 d2 : List (PairDist D)} {w : Window D} {i : Nat} {E : Edges}
    (h : Collected N sym1 sym2 c d1 d2 w i E) (hp1 : Pairs M d1) (hp2 : Pairs N d2)
    (u v : Nat) : (u, v) ∈ E ↔ (ofPairs E).Adj u v := by
  constructor
  · intro he; exact ⟨(h.ends hp1 hp2 he).1, Or.inl he⟩
  · rintro ⟨_, he | he⟩
    · exact he
    · exact h.symm _ _ he

theorem Collected.describes {M N : Nat} {sym1 sym2 : Bool} {c : Nat → Nat → Nat → Nat → Bool}
    {d1 d2 : List (PairDist D)} {w : Window D} {i : Nat} {E : Edges}
    (h : Collected N sym1 sym2 c d1 d2 w i E) (hp1 : Pairs M d1) (hp2 : Pairs N d2) :
    Describes (PyGraph.selfLoops (M * N) ++ E) (M * N) (ofPairs E) :=
  describes_of (h.adj hp1 hp2) (fun u v ha =>
    (h.ends hp1 hp2 (((h.adj hp1 hp2) u v).2 ha)).2)

end CM
