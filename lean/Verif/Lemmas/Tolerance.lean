import Verif.Lemmas.Matching

/-! # The edges that `build_edges` makes, exactly, and a larger tolerance -/

namespace CM

open Spec

section
variable {D : Type} [LinearOrder D] [Inhabited D]

/-! ## `binary_find2` for two values -/

/-- One round of `binary_find2`. -/
def findBody (a : List (PairDist D)) (val : D) (s : Nat × Nat × Nat × Nat) :
    M ((Nat × Nat × Nat × Nat) ⊕ (Int × Nat)) := do
  let (beg, e, mid, loc) := s
  if beg ≤ e then do
    let z ← rd a mid
    if z.dist = val then .ok (.inr (1, mid))
    else
      let (beg, e) := if z.dist < val then (uadd mid 1, e) else (beg, usub mid 1)
      .ok (.inl (beg, e, uadd beg (usub e beg / 2), mid))
  else .ok (.inr (0, loc))

/-- The states in which the search can be. -/
structure FindState (a : List (PairDist D)) (beg e mid : Nat) : Prop where
  le : beg ≤ e + 1
  lt : e < a.length
  mid : beg ≤ e → mid = beg + (e - beg) / 2

theorem FindState.right {a : List (PairDist D)} {beg e mid : Nat} (h : FindState a beg e mid)
    (hl : a.length < 2 ^ 63) (hle : beg ≤ e) :
    FindState a (uadd mid 1) e (uadd (uadd mid 1) (usub e (uadd mid 1) / 2)) ∧
      uadd mid 1 = mid + 1 := by
  have h1 := h.mid hle
  have h2 := h.lt
  have h3 : uadd mid 1 = mid + 1 := uadd_eq (by omega)
  refine ⟨⟨by omega, h.lt, fun hx => ?_⟩, h3⟩
  rw [h3] at hx ⊢
  rw [usub_eq hx (by omega), uadd_eq (by omega)]

theorem FindState.left {a : List (PairDist D)} {beg e mid : Nat} (h : FindState a beg e mid)
    (hl : a.length < 2 ^ 63) (hle : beg ≤ e) (hpos : 0 < mid) :
    FindState a beg (usub mid 1) (uadd beg (usub (usub mid 1) beg / 2)) ∧
      usub mid 1 = mid - 1 := by
  have h1 := h.mid hle
  have h2 := h.lt
  have h3 : usub mid 1 = mid - 1 := usub_eq hpos (by omega)
  refine ⟨⟨by omega, by omega, fun hx => ?_⟩, h3⟩
  rw [h3] at hx ⊢
  rw [usub_eq hx (by omega), uadd_eq (by omega)]

/-- What one round does. -/
theorem findBody_cases {a : List (PairDist D)} {beg e mid loc : Nat}
    (h : FindState a beg e mid) (hle : beg ≤ e) (val : D) :
    (dist a mid = val ∧ findBody a val (beg, e, mid, loc) = .ok (.inr (1, mid))) ∨
    (dist a mid < val ∧ findBody a val (beg, e, mid, loc) =
      .ok (.inl (uadd mid 1, e, uadd (uadd mid 1) (usub e (uadd mid 1) / 2), mid))) ∨
    (val < dist a mid ∧ findBody a val (beg, e, mid, loc) =
      .ok (.inl (beg, usub mid 1, uadd beg (usub (usub mid 1) beg / 2), mid))) := by
  have h1 := h.mid hle
  have h2 := h.lt
  unfold findBody
  simp only [if_pos hle]
  rw [rd_getD default (by omega), ok_bind]
  by_cases hx : (a.getD mid default).dist = val
  · exact Or.inl ⟨hx, by rw [if_pos hx]⟩
  · rw [if_neg hx]
    by_cases hx2 : (a.getD mid default).dist < val
    · exact Or.inr (Or.inl ⟨hx2, by simp only [if_pos hx2]⟩)
    · exact Or.inr (Or.inr ⟨lt_of_le_of_ne (le_of_not_gt hx2) (Ne.symm hx),
        by simp only [if_neg hx2]⟩)

theorem find_pos {a : List (PairDist D)} {mid : Nat} {val : D} (h0 : dist a 0 ≤ val)
    (h : val < dist a mid) : 0 < mid := by
  rcases Nat.eq_zero_or_pos mid with h' | h'
  · rw [h'] at h; exact absurd h0 (not_le_of_gt h)
  · exact h'

theorem find_range {a : List (PairDist D)} (hl : a.length < 2 ^ 63) {val : D}
    (h0 : dist a 0 ≤ val) {lo hi : Nat} {r : Int × Nat} :
    ∀ (fuel : Nat) {beg e mid loc : Nat}, FindState a beg e mid → lo ≤ beg → e ≤ hi → lo ≤ loc →
      loc ≤ hi → loop fuel (findBody a val) (beg, e, mid, loc) = .ok r → lo ≤ r.2 ∧ r.2 ≤ hi := by
  intro fuel
  induction fuel with
  | zero => intro beg e mid loc _ _ _ _ _ h; cases h
  | succ n ih =>
    intro beg e mid loc hs h1 h2 h3 h4 hr
    unfold loop at hr
    by_cases hle : beg ≤ e
    · have hm := hs.mid hle
      rcases findBody_cases (loc := loc) hs hle val with ⟨hx, hb⟩ | ⟨hx, hb⟩ | ⟨hx, hb⟩ <;>
        rw [hb] at hr
      · cases hr; exact ⟨by simp only; omega, by simp only; omega⟩
      · obtain ⟨hs', e'⟩ := hs.right hl hle
        exact ih hs' (by omega) h2 (by omega) (by omega) hr
      · obtain ⟨hs', e'⟩ := hs.left hl hle (find_pos h0 hx)
        exact ih hs' h1 (by omega) (by omega) (by omega) hr
    · have hb : findBody a val (beg, e, mid, loc) = .ok (.inr (0, loc)) := by
        unfold findBody; simp only [if_neg hle]
      rw [hb] at hr
      cases hr
      exact ⟨h3, h4⟩

/-- The search for a larger value does not stop earlier in the list. -/
theorem find_mono {a : List (PairDist D)} (hl : a.length < 2 ^ 63) {v v' : D}
    (h0 : dist a 0 ≤ v) (hv : v ≤ v') {r r' : Int × Nat} :
    ∀ (fuel : Nat) {beg e mid loc : Nat}, FindState a beg e mid →
      loop fuel (findBody a v) (beg, e, mid, loc) = .ok r →
      loop fuel (findBody a v') (beg, e, mid, loc) = .ok r' → r.2 ≤ r'.2 := by
  have h0' := h0.trans hv
  intro fuel
  induction fuel with
  | zero => intro beg e mid loc _ h; cases h
  | succ n ih =>
    intro beg e mid loc hs hr hr'
    unfold loop at hr hr'
    by_cases hle : beg ≤ e
    · have hm := hs.mid hle
      rcases findBody_cases (loc := loc) hs hle v with ⟨hx, hb⟩ | ⟨hx, hb⟩ | ⟨hx, hb⟩ <;>
        rw [hb] at hr <;>
        rcases findBody_cases (loc := loc) hs hle v' with ⟨hx', hb'⟩ | ⟨hx', hb'⟩ | ⟨hx', hb'⟩ <;>
        rw [hb'] at hr'
      · cases hr; cases hr'; exact le_refl _
      · cases hr
        obtain ⟨hs', e'⟩ := hs.right hl hle
        exact (find_range hl h0' n (lo := mid) (hi := e) hs' (by omega) (le_refl _) (le_refl _)
          (by omega) hr').1
      · rw [hx] at hx'; exact absurd hv (not_le_of_gt hx')
      · rw [hx'] at hx; exact absurd hv (not_le_of_gt hx)
      · exact ih (hs.right hl hle).1 hr hr'
      · exact absurd hv (not_le_of_gt (hx'.trans hx))
      · cases hr'
        obtain ⟨hs', e'⟩ := hs.left hl hle (find_pos h0 hx)
        exact (find_range hl h0 n (lo := beg) (hi := mid) hs' (le_refl _) (by omega) (by omega)
          (le_refl _) hr).2
      · obtain ⟨hs', e'⟩ := hs.left hl hle (find_pos h0 hx)
        obtain ⟨hs2, e2⟩ := hs.right hl hle
        have g1 := (find_range hl h0 n (lo := beg) (hi := mid) hs' (le_refl _) (by omega)
          (by omega) (le_refl _) hr).2
        have g2 := (find_range hl h0' n (lo := mid) (hi := e) hs2 (by omega) (le_refl _)
          (le_refl _) (by omega) hr').1
        omega
      · exact ih (hs.left hl hle (find_pos h0 hx)).1 hr hr'
    · have hb : ∀ x : D, findBody a x (beg, e, mid, loc) = .ok (.inr (0, loc)) := by
        intro x; unfold findBody; simp only [if_neg hle]
      rw [hb] at hr hr'
      cases hr; cases hr'
      exact le_refl _

/-- `binary_find2` on a list that is not empty, in three cases. -/
theorem binaryFind2_cases {a : List (PairDist D)} (h0 : 0 < a.length) (hl : a.length < 2 ^ 63)
    (v : D) :
    (dist a (a.length - 1) < v ∧ binaryFind2 a a.length v = .ok (-1, a.length - 1)) ∨
    (¬ dist a (a.length - 1) < v ∧ v < dist a 0 ∧ binaryFind2 a a.length v = .ok (0, 0)) ∨
    (¬ dist a (a.length - 1) < v ∧ dist a 0 ≤ v ∧ binaryFind2 a a.length v =
      loop (a.length + 1) (findBody a v)
        (0, a.length - 1, uadd 0 (usub (a.length - 1) 0 / 2), 0)) := by
  have hr : ∀ i, i < a.length → rd a i = .ok (a.getD i default) := fun i hi => rd_getD _ hi
  unfold binaryFind2
  rw [usub_eq (by omega) (by omega)]
  simp only [hr _ h0, hr (a.length - 1) (by omega), ok_bind]
  by_cases h1 : (a.getD (a.length - 1) default).dist < v
  · exact Or.inl ⟨h1, by rw [if_pos h1]⟩
  · rw [if_neg h1]
    by_cases h2 : (a.getD 0 default).dist > v
    · exact Or.inr (Or.inl ⟨h1, h2, by rw [if_pos h2]⟩)
    · exact Or.inr (Or.inr ⟨h1, le_of_not_gt h2, by rw [if_neg h2]; rfl⟩)

theorem find_start {a : List (PairDist D)} (h0 : 0 < a.length) (hl : a.length < 2 ^ 63) :
    FindState a 0 (a.length - 1) (uadd 0 (usub (a.length - 1) 0 / 2)) :=
  ⟨by omega, by omega, fun _ => by rw [usub_eq (by omega) (by omega), uadd_eq (by omega)]⟩

theorem loop_find_ne {a : List (PairDist D)} {v : D} {r : Int × Nat} :
    ∀ (fuel : Nat) {s}, loop fuel (findBody a v) s = .ok r → r.1 ≠ -1 := by
  intro fuel
  induction fuel with
  | zero => intro s h; cases h
  | succ n ih =>
    rintro ⟨beg, e, mid, loc⟩ h
    unfold loop at h
    unfold findBody at h
    simp only at h
    split at h
    · cases h
    · exact ih h
    · rename_i hb
      cases h
      split at hb
      · obtain ⟨z, _, hb⟩ := bind_eq_ok.1 hb
        split at hb
        · cases hb; simp
        · cases hb
      · cases hb; simp

/-- All that is needed of `binary_find2`: it ends at an entry, at the last one if it returns -1, it
returns -1 just if all values are smaller, and it does not stop earlier for a larger value. -/
theorem binaryFind2_total {a : List (PairDist D)} (hs : Ascending a) (h0 : 0 < a.length)
    (hl : a.length < 2 ^ 63) :
    ∃ F : D → Int × Nat, (∀ v, binaryFind2 a a.length v = .ok (F v)) ∧
      (∀ v, (F v).2 < a.length) ∧ (∀ v, (F v).1 = -1 → (F v).2 = a.length - 1) ∧
      (∀ v v', v ≤ v' → (F v).1 = -1 → (F v').1 = -1) ∧
      (∀ v v', v ≤ v' → (F v).2 ≤ (F v').2) := by
  have hex : ∀ v, ∃ r : Int × Nat, binaryFind2 a a.length v = .ok r := fun v => by
    obtain ⟨f, loc, e, _⟩ := binaryFind2_spec hs h0 hl v
    exact ⟨_, e⟩
  choose F hF using hex
  have hst := find_start h0 hl
  have h1 : ∀ v, (F v).1 = -1 ↔ dist a (a.length - 1) < v := by
    intro v
    rcases binaryFind2_cases h0 hl v with ⟨c, e⟩ | ⟨c, _, e⟩ | ⟨c, _, e⟩ <;> rw [hF] at e
    · rw [Except.ok.inj e]; simp [c]
    · rw [Except.ok.inj e]; simp [c]
    · exact ⟨fun h => absurd h (loop_find_ne _ e.symm), fun h => absurd h c⟩
  have h2 : ∀ v, (F v).2 < a.length := by
    intro v
    rcases binaryFind2_cases h0 hl v with ⟨c, e⟩ | ⟨c, _, e⟩ | ⟨c, d, e⟩ <;> rw [hF] at e
    · rw [Except.ok.inj e]; simp only; omega
    · rw [Except.ok.inj e]; exact h0
    · have := (find_range hl d _ (lo := 0) (hi := a.length - 1) hst (by omega) (by omega) (by omega)
        (by omega) e.symm).2
      omega
  refine ⟨F, hF, h2, ?_, ?_, ?_⟩
  · intro v h
    rcases binaryFind2_cases h0 hl v with ⟨c, e⟩ | ⟨c, _, e⟩ | ⟨c, _, e⟩
    · rw [hF] at e; rw [Except.ok.inj e]
    · exact absurd ((h1 v).1 h) c
    · exact absurd ((h1 v).1 h) c
  · intro v v' hv h
    exact (h1 v').2 (lt_of_lt_of_le ((h1 v).1 h) hv)
  · intro v v' hv
    rcases binaryFind2_cases h0 hl v with ⟨c, e⟩ | ⟨c, _, e⟩ | ⟨c, d, e⟩
    · have e' : F v' = (-1, a.length - 1) := by
        rcases binaryFind2_cases h0 hl v' with ⟨c', e'⟩ | ⟨c', _, e'⟩ | ⟨c', _, e'⟩
        · rw [hF] at e'; exact Except.ok.inj e'
        · exact absurd (lt_of_lt_of_le c hv) c'
        · exact absurd (lt_of_lt_of_le c hv) c'
      rw [e']
      have := h2 v
      simp only
      omega
    · rw [hF] at e
      rw [Except.ok.inj e]
      exact Nat.zero_le _
    · rcases binaryFind2_cases h0 hl v' with ⟨c', e'⟩ | ⟨c', d', e'⟩ | ⟨c', d', e'⟩
      · rw [hF] at e'
        rw [Except.ok.inj e']
        have := h2 v
        simp only
        omega
      · exact absurd (d.trans hv) (not_le_of_gt d')
      · rw [hF] at e e'
        exact find_mono hl d hv _ hst e.symm e'.symm

/-! ## The edges -/

/-- The last entry of the second list that is linked. -/
def upper (F : D → Int × Nat) (len : Nat) (v : D) : Nat :=
  if (F v).1 = -1 then usub len 1 else (F v).2

/-- The edges that the entries before the `i`th of the first list bring. -/
def Linked (N : Nat) (sym1 sym2 : Bool) (c : Nat → Nat → Nat → Nat → Bool)
    (d1 d2 : List (PairDist D)) (w : Window D) (F : D → Int × Nat) (i : Nat) (e : Nat × Nat) :
    Prop :=
  ∃ k, k < i ∧ (∀ k', k' ≤ k → (F (w.lo (dist d1 k'))).1 ≠ -1) ∧
    ∃ j, (F (w.lo (dist d1 k))).2 ≤ j ∧ j ≤ upper F d2.length (w.hi (dist d1 k)) ∧
      e ∈ linksOf N sym1 sym2 c (d1.getD k default) (d2.getD j default)

theorem efrCondition_exact {M N : Nat} {sym1 sym2 : Bool} {d1 d2 : List (PairDist D)}
    {w : Window D} {c : Nat → Nat → Nat → Nat → Bool} {F : D → Int × Nat} (hM : 1 ≤ M) (hN : 1 ≤ N)
    (hb : M * N < 2 ^ 31) (hl1 : d1.length = relLen M sym1) (hl2 : d2.length = relLen N sym2)
    (hp1 : Pairs M d1) (hp2 : Pairs N d2)
    (hF : 0 < d1.length → (∀ v, binaryFind2 d2 d2.length v = .ok (F v)) ∧
      ∀ v, upper F d2.length v < d2.length) :
    ∃ m E, efrCondition M N sym1 sym2 d1 d2 w c = .ok (M * N, m, PyGraph.selfLoops (M * N) ++ E) ∧
      ∀ e, e ∈ E ↔ Linked N sym1 sym2 c d1 d2 w F d1.length e := by
  have hMb : M ≤ M * N := Nat.le_mul_of_pos_right _ hN
  have hNb : N ≤ M * N := Nat.le_mul_of_pos_left _ hM
  unfold efrCondition
  rw [if_neg (by omega), relLen_eq (by omega) hM, relLen_eq (by omega) hN, umul_eq (by omega),
    ← hl1, ← hl2]
  simp only
  have hr1 : ∀ i, i < d1.length → rd d1 i = .ok (d1.getD i default) := fun i hi => rd_getD _ hi
  have hr2 : ∀ i, i < d2.length → rd d2 i = .ok (d2.getD i default) := fun i hi => rd_getD _ hi
  obtain ⟨⟨es, m⟩, e, E, he, hC⟩ := loop_rule
    (body := fun (s : Nat × Edges × Nat) => do
      let (i, es, m) := s
      if i < d1.length then do
        let x ← rd d1 i
        let (f1, lb) ← binaryFind2 d2 d2.length (w.lo x.dist)
        if f1 = -1 then .ok (.inr (es, m))
        else do
          let (f2, ub) ← binaryFind2 d2 d2.length (w.hi x.dist)
          let ub := if f2 = -1 then usub d2.length 1 else ub
          let (es, m) ← forRange lb (ub + 1) (fun j (s : Edges × Nat) => do
            let y ← rd d2 j
            let s := if c x.first x.second y.first y.second then
                (link s.1 (pairVertex N x.first y.first) (pairVertex N x.second y.second), s.2 + 1)
              else s
            if !sym1 && !sym2 then .ok s
            else if c x.first x.second y.second y.first then
              .ok (link s.1 (pairVertex N x.second y.first) (pairVertex N x.first y.second), s.2 + 1)
            else .ok s) (es, m)
          .ok (.inl (i + 1, es, m))
      else .ok (.inr (es, m)))
    (fun s => s.1 ≤ d1.length ∧ (∀ k, k < s.1 → (F (w.lo (dist d1 k))).1 ≠ -1) ∧
      ∃ E, s.2.1 = PyGraph.selfLoops (M * N) ++ E ∧
      ∀ e, e ∈ E ↔ Linked N sym1 sym2 c d1 d2 w F s.1 e)
    (fun r => ∃ E, r.1 = PyGraph.selfLoops (M * N) ++ E ∧
      ∀ e, e ∈ E ↔ Linked N sym1 sym2 c d1 d2 w F d1.length e)
    (fun s => d1.length - s.1)
    (by
      rintro ⟨i, es, m⟩ ⟨hi, hg, E, hE, hC⟩
      simp only at hi hg hE hC ⊢
      by_cases hlt : i < d1.length
      swap
      · right
        rw [if_neg hlt]
        have : i = d1.length := by omega
        subst this
        exact ⟨_, rfl, E, hE, hC⟩
      rw [if_pos hlt]
      obtain ⟨hF1, hF2⟩ := hF (by omega)
      simp only [hr1 i hlt, ok_bind, hF1]
      by_cases q1 : (F (w.lo (d1.getD i default).dist)).1 = -1
      · right
        rw [if_pos q1]
        refine ⟨_, rfl, E, hE, fun e => (hC e).trans ?_⟩
        constructor
        · rintro ⟨k, hk, h⟩
          exact ⟨k, by omega, h⟩
        · rintro ⟨k, hk, h, h'⟩
          refine ⟨k, ?_, h, h'⟩
          by_contra hn
          exact h i (by omega) q1
      · left
        rw [if_neg q1]
        have hub : (if (F (w.hi (d1.getD i default).dist)).1 = -1 then usub d2.length 1
            else (F (w.hi (d1.getD i default).dist)).2) =
            upper F d2.length (w.hi (dist d1 i)) := rfl
        rw [hub]
        have hu := hF2 (w.hi (dist d1 i))
        have hx := hp1 _ (mem_iff_getD.2 ⟨i, hlt, rfl⟩)
        have hin := forRange_collect (lo := (F (w.lo (d1.getD i default).dist)).2)
          (hi := upper F d2.length (w.hi (dist d1 i)) + 1)
          (body := fun j (s : Edges × Nat) => do
            let y ← rd d2 j
            let s := if c (d1.getD i default).first (d1.getD i default).second y.first y.second
              then (link s.1 (pairVertex N (d1.getD i default).first y.first)
                (pairVertex N (d1.getD i default).second y.second), s.2 + 1)
              else s
            if !sym1 && !sym2 then .ok s
            else if c (d1.getD i default).first (d1.getD i default).second y.second y.first then
              .ok (link s.1 (pairVertex N (d1.getD i default).second y.first)
                (pairVertex N (d1.getD i default).first y.second), s.2 + 1)
            else .ok s)
          (fun j => linksOf N sym1 sym2 c (d1.getD i default) (d2.getD j default))
          (fun j => (linksOf N sym1 sym2 c (d1.getD i default) (d2.getD j default)).length / 2)
          (by
            intro j s hj hj2
            have hj3 : j < d2.length := by omega
            have hy := hp2 _ (mem_iff_getD.2 ⟨j, hj3, rfl⟩)
            have hb' : M * N < 2 ^ 63 := by omega
            simp only [hr2 j hj3, ok_bind]
            rw [pairVertex_eq hx.1 hy.1 hb', pairVertex_eq hx.2.1 hy.2.1 hb',
              pairVertex_eq hx.2.1 hy.1 hb', pairVertex_eq hx.1 hy.2.1 hb']
            unfold linksOf link
            cases c (d1.getD i default).first (d1.getD i default).second
                (d2.getD j default).first (d2.getD j default).second <;>
              cases c (d1.getD i default).first (d1.getD i default).second
                (d2.getD j default).second (d2.getD j default).first <;>
              cases sym1 <;> cases sym2 <;> simp)
          (es, m)
        rw [hin]
        simp only [ok_bind]
        have hg' : ∀ k, k < i + 1 → (F (w.lo (dist d1 k))).1 ≠ -1 := by
          intro k hk
          rcases Nat.lt_succ_iff_lt_or_eq.1 hk with h | rfl
          · exact hg k h
          · exact q1
        refine ⟨_, rfl, ⟨by simp only; omega, hg', E ++ (List.range'
          (F (w.lo (d1.getD i default).dist)).2 (upper F d2.length (w.hi (dist d1 i)) + 1 -
            (F (w.lo (d1.getD i default).dist)).2)).flatMap
          (fun j => linksOf N sym1 sym2 c (d1.getD i default) (d2.getD j default)),
          by simp only [hE, List.append_assoc], ?_⟩, by simp only; omega⟩
        intro e
        rw [List.mem_append, hC, List.mem_flatMap]
        constructor
        · rintro (⟨k, hk, h⟩ | ⟨j, hj, h⟩)
          · exact ⟨k, by simp only; omega, h⟩
          · rw [List.mem_range'_1] at hj
            exact ⟨i, by simp only; omega, fun k' hk' => hg' k' (by omega), j, hj.1, by omega, h⟩
        · rintro ⟨k, hk, h, j, hj1, hj2, h'⟩
          rcases Nat.lt_succ_iff_lt_or_eq.1 hk with hk | rfl
          · exact Or.inl ⟨k, hk, h, j, hj1, hj2, h'⟩
          · refine Or.inr ⟨j, ?_, h'⟩
            rw [List.mem_range'_1]
            have : (F (w.lo (d1.getD k default).dist)).2 ≤ j := hj1
            omega)
    (fuel := d1.length + 1) (s := (0, PyGraph.selfLoops (M * N), 0))
    (by
      refine ⟨Nat.zero_le _, fun k hk => by simp only at hk; omega, [], by simp, fun e => ?_⟩
      simp only [List.not_mem_nil, false_iff]
      rintro ⟨k, hk, _⟩
      omega)
    (by simp only; omega)
  rw [e]
  simp only at he
  refine ⟨m, E, ?_, hC⟩
  rw [ok_bind, he]

/-- Edges are not lost with a larger tolerance and a weaker condition. -/
theorem Linked.mono {N : Nat} {sym1 sym2 : Bool} {c c' : Nat → Nat → Nat → Nat → Bool}
    {d1 d2 : List (PairDist D)} {w w' : Window D} {F : D → Int × Nat}
    (hlo : ∀ v, w'.lo v ≤ w.lo v) (hhi : ∀ v, w.hi v ≤ w'.hi v)
    (hc : ∀ i1 i2 j1 j2, c i1 i2 j1 j2 = true → c' i1 i2 j1 j2 = true)
    (h1 : ∀ v v', v ≤ v' → (F v).1 = -1 → (F v').1 = -1)
    (h2 : ∀ v v', v ≤ v' → (F v).2 ≤ (F v').2)
    (h3 : ∀ v, upper F d2.length v = (F v).2) {i : Nat} {e : Nat × Nat}
    (h : Linked N sym1 sym2 c d1 d2 w F i e) : Linked N sym1 sym2 c' d1 d2 w' F i e := by
  obtain ⟨k, hk, g, j, a, b, he⟩ := h
  refine ⟨k, hk, fun k' hk' hx => g k' hk' (h1 _ _ (hlo _) hx), j, (h2 _ _ (hlo _)).trans a, ?_, ?_⟩
  · rw [h3] at b ⊢
    exact b.trans (h2 _ _ (hhi _))
  · rw [mem_linksOf] at he ⊢
    rcases he with ⟨x, y⟩ | ⟨x, y, z⟩
    · exact Or.inl ⟨hc _ _ _ _ x, y⟩
    · exact Or.inr ⟨x, hc _ _ _ _ y, z⟩

/-- `build_edges` with two tolerances and two conditions. -/
theorem buildBoth_mono {argLR argLR' : Bool} {cap cap' : Nat}
    {srt1 srt2 : List (PairDist D) → List (PairDist D)} {M N : Nat} {w w' : Window D}
    {c c' : Nat → Nat → Nat → Nat → Bool} {d1 d2 : Nat → Nat → D} {sym1 sym2 : Bool}
    (hM : 1 ≤ M) (hN : 1 ≤ N) (hne : M = 1 ∨ 2 ≤ N) (hb : M * N < 2 ^ 27) (hs1 : Sorts srt1)
    (hs2 : Sorts srt2) (hm : Monotone w.lo) (hm' : Monotone w'.lo)
    (hlo : ∀ v, w'.lo v ≤ w.lo v) (hhi : ∀ v, w.hi v ≤ w'.hi v)
    (hc : ∀ i1 i2 j1 j2, c i1 i2 j1 j2 = true → c' i1 i2 j1 j2 = true) :
    ∃ pg pg' S S', buildBoth argLR cap PyGraph.new srt1 srt2 M N w c d1 sym1 d2 sym2 = .ok pg ∧
      buildBoth argLR' cap' PyGraph.new srt1 srt2 M N w' c' d1 sym1 d2 sym2 = .ok pg' ∧
      Loaded pg (M * N) S ∧ Loaded pg' (M * N) S' ∧ S ≤ S' := by
  have hMb : M ≤ M * N := Nat.le_mul_of_pos_right _ hN
  have hNb : N ≤ M * N := Nat.le_mul_of_pos_left _ hM
  have hp1 := sorted_pairs hs1 M sym1 d1
  have hp2 := sorted_pairs hs2 N sym2 d2
  have hl1 := sorted_length hs1 M sym1 d1
  have hl2 := sorted_length hs2 N sym2 d2
  have hrl : ∀ K sym, relLen K sym ≤ K * K := by
    intro K sym
    have : K * (K - 1) ≤ K * K := Nat.mul_le_mul_left _ (by omega)
    unfold relLen; split <;> omega
  -- where the searches stop
  obtain ⟨F, f1, f2, f3, f4⟩ : ∃ F : D → Int × Nat,
      (0 < (srt1 (pairList M sym1 d1)).length →
        (∀ v, binaryFind2 (srt2 (pairList N sym2 d2)) (srt2 (pairList N sym2 d2)).length v =
          .ok (F v)) ∧
        ∀ v, upper F (srt2 (pairList N sym2 d2)).length v < (srt2 (pairList N sym2 d2)).length) ∧
      (∀ v v', v ≤ v' → (F v).1 = -1 → (F v').1 = -1) ∧ (∀ v v', v ≤ v' → (F v).2 ≤ (F v').2) ∧
      ∀ v, upper F (srt2 (pairList N sym2 d2)).length v = (F v).2 := by
    by_cases h2 : 2 ≤ N
    · have hpos : 0 < (srt2 (pairList N sym2 d2)).length := by
        rw [hl2]
        have : 2 * 1 ≤ N * (N - 1) := Nat.mul_le_mul h2 (by omega)
        unfold relLen; split <;> omega
      have hlt : (srt2 (pairList N sym2 d2)).length < 2 ^ 63 := by
        rw [hl2]
        have h3 := hrl N sym2
        have : N * N ≤ 2 ^ 27 * 2 ^ 27 := Nat.mul_le_mul (by omega) (by omega)
        omega
      obtain ⟨F, a1, a2, a3, a4, a5⟩ := binaryFind2_total (hs2 (pairList N sym2 d2)).2 hpos hlt
      have hup : ∀ v, upper F (srt2 (pairList N sym2 d2)).length v = (F v).2 := by
        intro v
        unfold upper
        split
        · rename_i h
          rw [usub_eq (by omega) (by omega), a3 v h]
        · rfl
      exact ⟨F, fun _ => ⟨a1, fun v => by rw [hup]; exact a2 v⟩, a4, a5, hup⟩
    · refine ⟨fun _ => (0, 0), fun h => ?_, fun _ _ _ h => h, fun _ _ _ => le_refl _,
        fun v => by unfold upper; rw [if_neg (by simp)]⟩
      have h1 : M = 1 := by omega
      rw [hl1, h1] at h
      unfold relLen at h
      split at h <;> omega
  obtain ⟨m, E, h1, h2, h3⟩ := efrCondition_collect (c := c) (w := w) hM hN (by omega)
    hl1 hl2 hne (hs1 _).2 (hs2 _).2 hp1 hp2 hm
  obtain ⟨m', E', h1', h2', h3'⟩ := efrCondition_collect (c := c') (w := w') hM hN (by omega)
    hl1 hl2 hne (hs1 _).2 (hs2 _).2 hp1 hp2 hm'
  have hE : ∀ e, e ∈ E ↔ Linked N sym1 sym2 c (srt1 (pairList M sym1 d1))
      (srt2 (pairList N sym2 d2)) w F (srt1 (pairList M sym1 d1)).length e := by
    obtain ⟨n, E2, g1, g2⟩ := efrCondition_exact (c := c) (w := w) hM hN (by omega) hl1 hl2 hp1 hp2
      f1
    rw [h1] at g1
    injection g1 with g1
    injection g1 with _ g1
    injection g1 with _ g1
    rw [List.append_cancel_left g1]
    exact g2
  have hE' : ∀ e, e ∈ E' ↔ Linked N sym1 sym2 c' (srt1 (pairList M sym1 d1))
      (srt2 (pairList N sym2 d2)) w' F (srt1 (pairList M sym1 d1)).length e := by
    obtain ⟨n, E2, g1, g2⟩ := efrCondition_exact (c := c') (w := w') hM hN (by omega) hl1 hl2 hp1
      hp2 f1
    rw [h1'] at g1
    injection g1 with g1
    injection g1 with _ g1
    injection g1 with _ g1
    rw [List.append_cancel_left g1]
    exact g2
  have hbd : ∀ X : Edges, X.length ≤ 4 * (srt1 (pairList M sym1 d1)).length *
      (srt2 (pairList N sym2 d2)).length → (PyGraph.selfLoops (M * N) ++ X).length < 2 ^ 58 := by
    intro X h3
    rw [List.length_append, selfLoops_length]
    rw [hl1, hl2] at h3
    have h4 : 4 * relLen M sym1 * relLen N sym2 ≤ 4 * (M * M) * (N * N) :=
      Nat.mul_le_mul (Nat.mul_le_mul_left _ (hrl _ _)) (hrl _ _)
    have h5 : 4 * (M * M) * (N * N) = 4 * (M * N) * (M * N) := by
      simp only [Nat.mul_comm, Nat.mul_left_comm, Nat.mul_assoc]
    have := sq_bound hb
    omega
  obtain ⟨pg, e1, e2, _⟩ := load_built (h2.describes hp1 hp2) (by omega) (hbd E h3) argLR cap m
  obtain ⟨pg', e1', e2', _⟩ := load_built (h2'.describes hp1 hp2) (by omega) (hbd E' h3') argLR'
    cap' m'
  refine ⟨pg, pg', _, _, ?_, ?_, e2, e2', ?_⟩
  · rw [buildBoth_eq (by omega) (by omega), h1, ok_bind]
    simp only
    rw [if_neg (selfLoops_ne _ _), e1]
  · rw [buildBoth_eq (by omega) (by omega), h1', ok_bind]
    simp only
    rw [if_neg (selfLoops_ne _ _), e1']
  · intro u v ha
    rw [← h2.adj hp1 hp2] at ha
    rw [← h2'.adj hp1 hp2]
    exact (hE' _).2 (((hE _).1 ha).mono hlo hhi hc f2 f3 f4)

end

end CM
