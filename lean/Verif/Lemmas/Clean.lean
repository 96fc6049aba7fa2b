import Verif.Lemmas.Radix

/-! # `modUnique` and `clean_edges` (utils.cpp:96-126) -/

namespace CM

/-- Strict lexicographic order on edges. -/
def lexLt (x y : Nat × Nat) : Prop := x.1 < y.1 ∨ (x.1 = y.1 ∧ x.2 < y.2)

theorem lexLt_of {x y : Nat × Nat} (h : lexLe x y) (hne : x ≠ y) : lexLt x y := by
  unfold lexLe lexLt at *
  by_contra hn
  apply hne
  apply Prod.ext <;> omega

theorem lexLt.trans {x y z : Nat × Nat} (h : lexLt x y) (h' : lexLt y z) : lexLt x z := by
  unfold lexLt at *; omega

/-- The state of `modUnique` after looking at positions up to `st`. -/
structure UniqInv (a0 a : Edges) (en result st : Nat) : Prop where
  len : a.length = a0.length
  le : result ≤ st
  lt : st < en
  last : ev a result = ev a0 st
  tail : ∀ p, st < p → ev a p = ev a0 p
  strict : ∀ p q, p < q → q ≤ result → lexLt (ev a p) (ev a q)
  sub : ∀ p, p ≤ result → ∃ q, q ≤ st ∧ ev a p = ev a0 q
  sup : ∀ q, q ≤ st → ∃ p, p ≤ result ∧ ev a p = ev a0 q

theorem modUnique_spec {a : Edges} {en : Nat} (h0 : 0 < en) (he : en ≤ a.length)
    (hs : SortedOn 0 en a) :
    ∃ a' m, modUnique a 0 en = .ok (a', m) ∧ m ≤ en ∧ a'.length = a.length ∧
      (∀ p q, p < q → q < m → lexLt (ev a' p) (ev a' q)) ∧
      (∀ p, p < m → ∃ q, q < en ∧ ev a' p = ev a q) ∧
      ∀ q, q < en → ∃ p, p < m ∧ ev a' p = ev a q := by
  unfold modUnique
  rw [if_neg (by omega)]
  obtain ⟨⟨a', m⟩, h1, h2⟩ := loop_rule
    (fun s : Edges × Nat × Nat => UniqInv a s.1 en s.2.1 s.2.2)
    (fun r : Edges × Nat => r.2 ≤ en ∧ r.1.length = a.length ∧
      (∀ p q, p < q → q < r.2 → lexLt (ev r.1 p) (ev r.1 q)) ∧
      (∀ p, p < r.2 → ∃ q, q < en ∧ ev r.1 p = ev a q) ∧
      ∀ q, q < en → ∃ p, p < r.2 ∧ ev r.1 p = ev a q)
    (fun s => en - s.2.2)
    (body := fun (s : Edges × Nat × Nat) =>
      let (a, result, st) := s
      let st := st + 1
      if st = en then .ok (.inr (a, result + 1))
      else do
        let x ← rd a result
        let y ← rd a st
        if x ≠ y then
          let result := result + 1
          if result ≠ st then do
            let a ← wr a result y
            .ok (.inl (a, result, st))
          else .ok (.inl (a, result, st))
        else .ok (.inl (a, result, st)))
    (by
      rintro ⟨b, result, st⟩ I
      have hle := I.le
      have hlt := I.lt
      have hlen := I.len
      simp only at hle hlt hlen ⊢
      by_cases hst : st + 1 = en
      · rw [if_pos hst]
        refine Or.inr ⟨_, rfl, by simp only; omega, hlen, ?_, ?_, ?_⟩
        · intro p q h1 h2; exact I.strict p q h1 (by simp only at h2 ⊢; omega)
        · intro p hp
          obtain ⟨q, h1, h2⟩ := I.sub p (by simp only at hp ⊢; omega)
          exact ⟨q, by simp only at h1; omega, h2⟩
        · intro q hq
          obtain ⟨p, h1, h2⟩ := I.sup q (by simp only; omega)
          exact ⟨p, by simp only at h1 ⊢; omega, h2⟩
      rw [if_neg hst, rd_ev (by omega), ok_bind, rd_ev (by omega), ok_bind]
      have hnext : ev b (st + 1) = ev a (st + 1) := I.tail _ (Nat.lt_succ_self _)
      have hlast : ev b result = ev a st := I.last
      have hord : lexLe (ev a st) (ev a (st + 1)) :=
        hs st (st + 1) (by omega) (by omega) (by omega)
      left
      by_cases hne : ev b result ≠ ev b (st + 1)
      · rw [if_pos hne]
        have hlt' : lexLt (ev b result) (ev b (st + 1)) := by
          apply lexLt_of _ hne
          rw [hlast, hnext]; exact hord
        have key : ∀ c : Edges, c.length = b.length →
            ev c (result + 1) = ev b (st + 1) → (∀ p, p ≠ result + 1 → ev c p = ev b p) →
            UniqInv a c en (result + 1) (st + 1) := by
          intro c c1 c2 c3
          refine ⟨by omega, by omega, by omega, by rw [c2, hnext], ?_, ?_, ?_, ?_⟩
          · intro p hp; rw [c3 p (by omega)]; exact I.tail p (by simp only; omega)
          · intro p q h1 h2
            rw [c3 p (by omega)]
            by_cases hq : q = result + 1
            · rw [hq, c2]
              by_cases hp : p = result
              · rw [hp]; exact hlt'
              · exact (I.strict p result (by omega) (Nat.le_refl _)).trans hlt'
            · rw [c3 q hq]; exact I.strict p q h1 (by simp only; omega)
          · intro p hp
            by_cases hq : p = result + 1
            · exact ⟨st + 1, Nat.le_refl _, by rw [hq, c2, hnext]⟩
            · obtain ⟨q, h1, h2⟩ := I.sub p (by simp only; omega)
              exact ⟨q, by simp only at h1; omega, by rw [c3 p hq]; exact h2⟩
          · intro q hq
            by_cases hq' : q = st + 1
            · exact ⟨result + 1, Nat.le_refl _, by rw [c2, hnext, hq']⟩
            · obtain ⟨p, h1, h2⟩ := I.sup q (by simp only; omega)
              simp only at h1
              exact ⟨p, by omega, by rw [c3 p (by omega)]; exact h2⟩
        by_cases hr : result + 1 ≠ st + 1
        · rw [if_pos hr, wr_ok _ (by omega), ok_bind]
          refine ⟨_, rfl, key _ (by simp) ?_ ?_, by simp only; omega⟩
          · rw [ev_set (by omega), if_pos rfl]
          · intro p hp; rw [ev_set (by omega), if_neg hp]
        · rw [if_neg hr]
          have hrs : result + 1 = st + 1 := by omega
          exact ⟨_, rfl, key b rfl (by rw [hrs]) (fun _ _ => rfl), by simp only; omega⟩
      · rw [if_neg hne]
        have heq : ev b result = ev b (st + 1) := not_not.1 hne
        refine ⟨_, rfl, ⟨hlen, by simp only; omega, by simp only; omega, ?_, ?_, I.strict, ?_, ?_⟩,
          by simp only; omega⟩
        · simp only; rw [heq, hnext]
        · intro p hp; exact I.tail p (by simp only at hp ⊢; omega)
        · intro p hp
          obtain ⟨q, h1, h2⟩ := I.sub p hp
          exact ⟨q, by simp only at h1 ⊢; omega, h2⟩
        · intro q hq
          by_cases hq' : q = st + 1
          · exact ⟨result, Nat.le_refl _, by simp only; rw [heq, hnext, hq']⟩
          · exact I.sup q (by simp only at hq ⊢; omega))
    (fuel := en - 0 + 1) (s := (a, 0, 0))
    ⟨rfl, Nat.le_refl _, h0, rfl, fun _ _ => rfl, fun p q h1 h2 => by simp only at h2; omega,
      fun p hp => ⟨p, hp, rfl⟩, fun q hq => ⟨q, hq, rfl⟩⟩
    (by simp only; omega)
  exact ⟨a', m, h1, h2⟩

theorem hexDigits_lt : ∀ (fuel m : Nat), m < 16 ^ fuel → m < 16 ^ hexDigits fuel m := by
  intro fuel
  induction fuel with
  | zero => intro m h; simpa [hexDigits] using h
  | succ n ih =>
    intro m h
    unfold hexDigits
    by_cases h0 : m = 0
    · rw [if_pos h0, h0]; decide
    · rw [if_neg h0]
      have e : m >>> 4 = m / 16 := by rw [Nat.shiftRight_eq_div_pow]
      rw [e]
      have := ih (m / 16) (by
        rw [Nat.pow_succ] at h
        exact Nat.div_lt_of_lt_mul (by omega))
      rw [Nat.add_comm, Nat.pow_succ]
      generalize 16 ^ hexDigits n (m / 16) = x at *
      omega

theorem hexDigits_le : ∀ (k fuel m : Nat), m < 16 ^ k → hexDigits fuel m ≤ k := by
  intro k
  induction k with
  | zero =>
    intro fuel m h
    have : m = 0 := by simpa using h
    cases fuel <;> simp [hexDigits, this]
  | succ k ih =>
    intro fuel m h
    cases fuel with
    | zero => simp [hexDigits]
    | succ n =>
      unfold hexDigits
      split
      · omega
      · have e : m >>> 4 = m / 16 := by rw [Nat.shiftRight_eq_div_pow]
        rw [e]
        have := ih n (m / 16) (by
          rw [Nat.pow_succ] at h
          exact Nat.div_lt_of_lt_mul (by omega))
        omega

theorem hexDigits_pos {m : Nat} (h : 0 < m) : 1 ≤ hexDigits 17 m := by
  unfold hexDigits
  rw [if_neg (by omega)]; omega

theorem mem_iff_ev {a : Edges} {e : Nat × Nat} : e ∈ a ↔ ∃ p, p < a.length ∧ ev a p = e := by
  rw [List.mem_iff_getElem]
  constructor
  · rintro ⟨p, h, rfl⟩; exact ⟨p, h, by simp [ev, h]⟩
  · rintro ⟨p, h, rfl⟩; exact ⟨p, h, by simp [ev, h]⟩

/-- `clean_edges` returns the strictly sorted list of the distinct entries. -/
theorem cleanEdges_spec {n : Nat} {edges : Edges} (hn : 0 < n) (hn' : n < 2 ^ 64)
    (h : ∀ e ∈ edges, e.1 ≤ n ∧ e.2 ≤ n) :
    ∃ out, cleanEdges n edges = .ok out ∧ out.Pairwise lexLt ∧ ∀ e, e ∈ out ↔ e ∈ edges := by
  unfold cleanEdges
  have hd1 := hexDigits_pos hn
  have hd2 := hexDigits_le 16 17 n (by simpa using hn')
  have hd3 := hexDigits_lt 17 n (by
    have : (2 : Nat) ^ 64 < 16 ^ 17 := by decide
    omega)
  have hsh : usub (4 * hexDigits 17 n) 4 = 4 * hexDigits 17 n - 4 := usub_eq (by omega) (by omega)
  rw [hsh]
  simp only
  generalize hexDigits 17 n = D at *
  have hpow : 2 ^ (4 * D - 4 + 4) = 16 ^ D := by
    have : 4 * D - 4 + 4 = 4 * D := by omega
    rw [this, Nat.pow_mul]
  have hev : ∀ p, p < edges.length → (ev edges p).1 ≤ n ∧ (ev edges p).2 ≤ n := by
    intro p hp
    exact h _ (mem_iff_ev.2 ⟨p, hp, rfl⟩)
  obtain ⟨a, a1, a2, a3⟩ := radixSort_spec (maxShift := 4 * D - 4) (by omega) (by omega) 64 edges 0
    edges.length (4 * D - 4) true (Nat.zero_le _) (Nat.le_refl _) (Nat.le_refl _) (by omega)
    (by unfold levels; simp only [if_true]; omega)
    (by
      intro p _ hp
      rw [hpow]
      have := (hev p hp).2
      omega)
    (by
      intro p q _ h2 _ h4
      simp only [if_true]
      rw [hpow]
      have := (hev p h2).1
      have := (hev q h4).1
      rw [Nat.div_eq_of_lt (by omega), Nat.div_eq_of_lt (by omega)])
  rw [a1, ok_bind]
  have hal : a.length = edges.length := a2.1
  have memA : ∀ e, e ∈ a ↔ e ∈ edges := by
    intro e
    rw [mem_iff_ev, mem_iff_ev]
    constructor
    · rintro ⟨p, h1, rfl⟩
      obtain ⟨q, h2, h3⟩ := a2.inside (p := p) ⟨Nat.zero_le _, by omega⟩
      exact ⟨q, h2.2, h3.symm⟩
    · rintro ⟨p, h1, rfl⟩
      obtain ⟨q, h2, h3⟩ := a2.symm.inside (p := p) ⟨Nat.zero_le _, by omega⟩
      exact ⟨q, by omega, h3.symm⟩
  by_cases hl : a.length = 0
  · have hnil : a = [] := List.length_eq_zero_iff.1 hl
    subst hnil
    refine ⟨[], by simp [modUnique], List.Pairwise.nil, memA⟩
  obtain ⟨a', m, b1, b2, b3, b4, b5, b6⟩ := modUnique_spec (a := a) (en := a.length) (by omega)
    (Nat.le_refl _) (by rw [hal]; exact a3)
  rw [b1, ok_bind]
  have hev' : ∀ p, p < m → ev (a'.take m) p = ev a' p := by
    intro p hp
    unfold ev
    rw [List.getD_eq_getElem?_getD, List.getD_eq_getElem?_getD, List.getElem?_take, if_pos hp]
  have hlen : (a'.take m).length = m := by simp; omega
  refine ⟨_, rfl, ?_, ?_⟩
  · rw [List.pairwise_iff_getElem]
    intro i j hi hj hij
    rw [hlen] at hi hj
    have := b4 i j hij hj
    rw [← hev' i hi, ← hev' j hj] at this
    have e : ∀ p (hp : p < (a'.take m).length), ev (a'.take m) p = (a'.take m)[p] := by
      intro p hp
      unfold ev
      rw [List.getD_eq_getElem?_getD, List.getElem?_eq_getElem hp, Option.getD_some]
    rw [e i (by omega), e j (by omega)] at this
    exact this
  · intro e
    rw [← memA, mem_iff_ev, mem_iff_ev, hlen]
    constructor
    · rintro ⟨p, h1, rfl⟩
      obtain ⟨q, h2, h3⟩ := b5 p h1
      exact ⟨q, h2, by rw [hev' p h1, h3]⟩
    · rintro ⟨p, h1, rfl⟩
      obtain ⟨q, h2, h3⟩ := b6 p h1
      exact ⟨q, h2, by rw [hev' q h2, h3]⟩

end CM
