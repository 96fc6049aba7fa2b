import Verif.Lemmas.Loaders

/-! # `from_adj_list` (pygraph.cpp:205-233) -/

namespace CM

open Spec Graph

theorem forRange_throw {σ : Type} (P : Nat → Prop) {lo hi : Nat} {body : Nat → σ → M σ}
    (h1 : ∀ k s, lo ≤ k → k < hi → P k → ∃ s', body k s = .ok s')
    (h2 : ∀ k s, lo ≤ k → k < hi → ¬ P k → body k s = .error .throw)
    (hx : ∃ k, lo ≤ k ∧ k < hi ∧ ¬ P k) (s : σ) : forRange lo hi body s = .error .throw := by
  unfold forRange
  have key : ∀ n i (s : σ), lo ≤ i → i + n = hi → (∃ k, i ≤ k ∧ k < hi ∧ ¬ P k) →
      forN n i body s = .error .throw := by
    intro n
    induction n with
    | zero => rintro i s _ h ⟨k, a, b, _⟩; omega
    | succ n ih =>
      rintro i s hi' h ⟨k, a, b, c⟩
      unfold forN
      by_cases hp : P i
      · obtain ⟨s', hs⟩ := h1 i s hi' (by omega) hp
        rw [hs]
        refine ih (i + 1) s' (by omega) (by omega) ⟨k, ?_, b, c⟩
        by_cases hik : i = k
        · subst hik; exact absurd hp c
        · omega
      · rw [h2 i s hi' (by omega) hp]
  obtain ⟨k, a, b, c⟩ := hx
  exact key _ _ _ (Nat.le_refl _) (by omega) ⟨k, a, b, c⟩

/-- What `from_adj_list` demands of the sets. -/
structure ValidSets (sets : List (List Nat)) (n : Nat) : Prop where
  len : sets.length = n + 1
  zero : sets.getD 0 [] = []
  entry : ∀ i, i ≤ n → ∀ j ∈ sets.getD i [], (1 ≤ j ∧ j ≤ n) ∧ j ≠ i ∧ i ∈ sets.getD j []

/-- Total number of entries. -/
def entries (sets : List (List Nat)) : Nat := (sets.map List.length).sum

theorem sets_fold {sets : List (List Nat)} {n : Nat} (hl : sets.length = n + 1) (i : Nat) :
    ∀ (si : List Nat) (s : Edges × Nat),
    si.foldlM (fun (s : Edges × Nat) j =>
        if j = 0 ∨ j > n ∨ j = i then (.error .throw : M (Edges × Nat))
        else do
          let sj ← rd sets j
          if i ∈ sj then .ok (s.1 ++ [(i, j)], s.2 + 1)
          else .error .throw) s =
    if ∀ j ∈ si, (1 ≤ j ∧ j ≤ n) ∧ j ≠ i ∧ i ∈ sets.getD j [] then
      .ok (s.1 ++ si.map (fun j => (i, j)), s.2 + si.length)
    else .error .throw := by
  intro si
  induction si with
  | nil => intro s; simp
  | cons j si ih =>
    intro s
    rw [List.foldlM_cons]
    by_cases h1 : j = 0 ∨ j > n ∨ j = i
    · rw [if_pos h1, error_bind, if_neg]
      intro h; have := h j (by simp); omega
    rw [if_neg h1, rd_getD [] (by omega), ok_bind]
    by_cases h2 : i ∈ sets.getD j []
    · rw [if_pos h2, ok_bind, ih]
      by_cases h3 : ∀ j ∈ si, (1 ≤ j ∧ j ≤ n) ∧ j ≠ i ∧ i ∈ sets.getD j []
      · rw [if_pos h3, if_pos]
        · simp only [List.map_cons, List.append_assoc, List.length_cons]
          congr 2
          omega
        · intro j' hj'
          rcases List.mem_cons.1 hj' with h | h
          · subst h; exact ⟨by omega, by omega, h2⟩
          · exact h3 j' h
      · rw [if_neg h3, if_neg]
        intro h; exact h3 (fun r' hr' => h r' (List.mem_cons_of_mem _ hr'))
    · rw [if_neg h2, error_bind, if_neg]
      intro h; exact h2 (h j (by simp)).2.2

theorem sum_take_succ (sets : List (List Nat)) {k : Nat} (hk : k < sets.length) :
    entries (sets.take (k + 1)) = entries (sets.take k) + (sets.getD k []).length := by
  unfold entries
  rw [List.take_succ_eq_append_getElem hk, List.map_append, List.sum_append]
  simp [List.getD_eq_getElem?_getD, List.getElem?_eq_getElem hk]

/-- The edge array built from neighbour sets. -/
theorem adj_edges {n : Nat} {sets : List (List Nat)} (hn : n < 2 ^ 31)
    (hlen : entries sets < 2 ^ 57) (hsl : sets.length = n + 1) (hz : sets.getD 0 [] = []) :
    ((∀ i, i ≤ n → ∀ j ∈ sets.getD i [], (1 ≤ j ∧ j ≤ n) ∧ j ≠ i ∧ i ∈ sets.getD j []) →
      ∃ edges : Edges, forRange 0 sets.length (fun i (s : Edges × Nat) => do
        let si ← rd sets i
        si.foldlM (fun (s : Edges × Nat) j =>
          if j = 0 ∨ j > n ∨ j = i then (.error .throw : M (Edges × Nat))
          else do
            let sj ← rd sets j
            if i ∈ sj then .ok (s.1 ++ [(i, j)], s.2 + 1)
            else .error .throw) (s.1 ++ [(i, i)], s.2)) ([], 0) = .ok (edges, entries sets) ∧
        edges.length < 2 ^ 58 ∧ Describes edges n (ofSets sets)) ∧
    (¬ (∀ i, i ≤ n → ∀ j ∈ sets.getD i [], (1 ≤ j ∧ j ≤ n) ∧ j ≠ i ∧ i ∈ sets.getD j []) →
      forRange 0 sets.length (fun i (s : Edges × Nat) => do
        let si ← rd sets i
        si.foldlM (fun (s : Edges × Nat) j =>
          if j = 0 ∨ j > n ∨ j = i then (.error .throw : M (Edges × Nat))
          else do
            let sj ← rd sets j
            if i ∈ sj then .ok (s.1 ++ [(i, j)], s.2 + 1)
            else .error .throw) (s.1 ++ [(i, i)], s.2)) ([], 0) = .error .throw) := by
  have hrow : ∀ i (s : Edges × Nat), 0 ≤ i → i < sets.length →
      (∀ j ∈ sets.getD i [], (1 ≤ j ∧ j ≤ n) ∧ j ≠ i ∧ i ∈ sets.getD j []) →
      (do
        let si ← rd sets i
        si.foldlM (fun (s : Edges × Nat) j =>
          if j = 0 ∨ j > n ∨ j = i then (.error .throw : M (Edges × Nat))
          else do
            let sj ← rd sets j
            if i ∈ sj then .ok (s.1 ++ [(i, j)], s.2 + 1)
            else .error .throw) (s.1 ++ [(i, i)], s.2)) =
      .ok (s.1 ++ [(i, i)] ++ (sets.getD i []).map (fun j => (i, j)),
        s.2 + (sets.getD i []).length) := by
    intro i s _ hi hgood
    rw [rd_getD [] hi, ok_bind, sets_fold hsl, if_pos hgood]
  by_cases hv : ∀ i, i ≤ n → ∀ j ∈ sets.getD i [], (1 ≤ j ∧ j ≤ n) ∧ j ≠ i ∧ i ∈ sets.getD j []
  · obtain ⟨⟨edges, e⟩, a1, a2, a3, a4⟩ := forRange_rule (lo := 0) (hi := sets.length)
      (s := (([], 0) : Edges × Nat))
      (body := fun i (s : Edges × Nat) => do
        let si ← rd sets i
        si.foldlM (fun (s : Edges × Nat) j =>
          if j = 0 ∨ j > n ∨ j = i then (.error .throw : M (Edges × Nat))
          else do
            let sj ← rd sets j
            if i ∈ sj then .ok (s.1 ++ [(i, j)], s.2 + 1)
            else .error .throw) (s.1 ++ [(i, i)], s.2))
      (fun k s => s.2 = entries (sets.take k) ∧ s.1.length = k + s.2 ∧
        ∀ e : Nat × Nat, e ∈ s.1 ↔ e.1 < k ∧ (e.2 = e.1 ∨ e.2 ∈ sets.getD e.1 []))
      (Nat.zero_le _) (by simp [entries])
      (by
        rintro i s _ hi ⟨i1, i2, i3⟩
        refine ⟨_, hrow i s (Nat.zero_le _) hi (hv i (by omega)), ?_, ?_, ?_⟩
        · simp only; rw [sum_take_succ _ hi, i1]
        · simp only [List.length_append, List.length_map, List.length_cons, List.length_nil]; omega
        · rintro ⟨x, y⟩
          simp only [List.mem_append, i3, List.mem_cons, List.not_mem_nil, or_false, List.mem_map,
            Prod.mk.injEq]
          constructor
          · rintro ((⟨h, h'⟩ | h) | ⟨j, h, h', h''⟩)
            · exact ⟨by omega, h'⟩
            · exact ⟨by omega, Or.inl (by omega)⟩
            · subst h' h''; exact ⟨by omega, Or.inr h⟩
          · rintro ⟨h, h'⟩
            by_cases hx : x = i
            · subst hx
              rcases h' with h' | h'
              · exact Or.inl (Or.inr ⟨rfl, h'⟩)
              · exact Or.inr ⟨y, h', rfl, rfl⟩
            · exact Or.inl (Or.inl ⟨by omega, h'⟩))
    simp only at a2 a3 a4
    rw [List.take_length] at a2
    refine ⟨fun _ => ⟨edges, by rw [a1, a2], ?_, ?_⟩, fun h => absurd hv h⟩
    · have h2 : (2 : Nat) ^ 31 + 2 ^ 57 < 2 ^ 58 := by decide
      omega
    · have hout : ∀ u, n < u → sets.getD u [] = [] := by
        intro u hu
        rw [List.getD_eq_getElem?_getD, List.getElem?_eq_none (by omega)]; rfl
      have hin : ∀ u v, v ∈ sets.getD u [] → (1 ≤ u ∧ u ≤ n) ∧ (1 ≤ v ∧ v ≤ n) := by
        intro u v huv
        have hu : u ≤ n := by
          by_contra hc; rw [hout u (by omega)] at huv; simp at huv
        have hu0 : u ≠ 0 := by rintro rfl; rw [hz] at huv; simp at huv
        exact ⟨by omega, (hv u hu v huv).1⟩
      refine ⟨?_, ?_, ?_⟩
      · intro u v hu hv'
        rw [a4]
        simp only [ofSets]
        constructor
        · rintro ⟨_, h | h⟩
          · exact Or.inl h.symm
          · exact Or.inr ⟨(hv u hu v h).2.1.symm, Or.inl h⟩
        · rintro (h | ⟨h, h' | h'⟩)
          · exact ⟨by omega, Or.inl h.symm⟩
          · exact ⟨by omega, Or.inr h'⟩
          · exact ⟨by omega, Or.inr (hv v hv' u h').2.2⟩
      · intro e' he'
        rw [a4] at he'
        rcases he' with ⟨h, h' | h'⟩
        · omega
        · have := hin _ _ h'; omega
      · rintro u v ⟨_, h | h⟩
        · exact hin _ _ h
        · exact ⟨(hin _ _ h).2, (hin _ _ h).1⟩
  · refine ⟨fun h => absurd h hv, fun _ => ?_⟩
    rw [forRange_throw
      (P := fun i => ∀ j ∈ sets.getD i [], (1 ≤ j ∧ j ≤ n) ∧ j ≠ i ∧ i ∈ sets.getD j [])]
    · intro k s a b c; exact ⟨_, hrow k s a b c⟩
    · intro k s a b c
      rw [rd_getD [] b, ok_bind, sets_fold hsl, if_neg c]
    · simp only [not_forall] at hv
      obtain ⟨k, hk, hk'⟩ := hv
      exact ⟨k, Nat.zero_le _, by omega, by simpa only [not_forall] using hk'⟩


theorem fromAdjList_spec (argLR : Bool) (cap : Nat) {n m : Nat} {sets : List (List Nat)}
    (hn : n < 2 ^ 31) (hs : sets.length < 2 ^ 64) (hlen : entries sets < 2 ^ 57) :
    (ValidSets sets n ∧ entries sets / 2 = m → ∃ pg G,
      PyGraph.fromAdjList argLR cap n m sets = .ok pg ∧ LoadedAs cap n m (ofSets sets) pg G) ∧
    (¬ (ValidSets sets n ∧ entries sets / 2 = m) →
      PyGraph.fromAdjList argLR cap n m sets = .error .throw) := by
  unfold PyGraph.fromAdjList
  by_cases h0 : sets.length > 0 ∧ sets.headD [] ≠ []
  · rw [if_pos h0]
    refine ⟨fun h => ?_, fun _ => rfl⟩
    exfalso
    have := h.1.zero
    cases sets with
    | nil => simp at h0
    | cons a t => simp at this h0; exact h0 this
  rw [if_neg h0]
  by_cases h1 : n ≠ usub sets.length 1
  · rw [if_pos h1]
    refine ⟨fun h => ?_, fun _ => rfl⟩
    exfalso
    apply h1
    rw [usub_eq] <;> have := h.1.len
    · omega
    · omega
    · have h2 : (2 : Nat) ^ 31 < 2 ^ 64 := by decide
      omega
  rw [if_neg h1]
  have hsl : sets.length = n + 1 := by
    rw [not_not] at h1
    by_cases hz : sets.length = 0
    · rw [hz] at h1
      unfold usub at h1
      norm_num at h1
      have h2 : (2 : Nat) ^ 31 = 2147483648 := by decide
      omega
    · rw [usub_eq (by omega) hs] at h1
      omega
  have hz : sets.getD 0 [] = [] := by
    cases sets with
    | nil => rfl
    | cons a t => simpa using h0
  obtain ⟨k1, k2⟩ := adj_edges hn hlen hsl hz
  by_cases hv : ∀ i, i ≤ n → ∀ j ∈ sets.getD i [], (1 ≤ j ∧ j ≤ n) ∧ j ≠ i ∧ i ∈ sets.getD j []
  · obtain ⟨edges, a1, a2, a3⟩ := k1 hv
    rw [a1, ok_bind]
    simp only
    have hV : ValidSets sets n := ⟨hsl, hz, hv⟩
    by_cases hm : entries sets / 2 ≠ m
    · rw [if_pos hm]
      exact ⟨fun h => absurd h.2 hm, fun _ => rfl⟩
    · rw [if_neg hm]
      rw [not_not] at hm
      exact ⟨fun _ => loadGraph_spec a3 hn a2 argLR cap m, fun h => absurd ⟨hV, hm⟩ h⟩
  · refine ⟨fun h => absurd h.1.entry hv, fun _ => ?_⟩
    rw [k2 hv, error_bind]

end CM
