import Verif.Lemmas.Basic
import Verif.Model.Callbacks

/-! # Computations that may stop earlier than others -/

namespace CM

variable {α β σ ρ : Type}

/-- `x` is `y`, or stops with one of the faults `E`. -/
def OrStops (E : Fault → Prop) (x y : M α) : Prop := (∃ e, E e ∧ x = .error e) ∨ x = y

theorem OrStops.rfl {E : Fault → Prop} {x : M α} : OrStops E x x := Or.inr _root_.rfl

theorem OrStops.bind {E : Fault → Prop} {x y : M α} {f g : α → M β} (h : OrStops E x y)
    (hf : ∀ a, OrStops E (f a) (g a)) : OrStops E (x >>= f) (y >>= g) := by
  rcases h with ⟨e, he, h⟩ | h
  · subst h; exact Or.inl ⟨e, he, _root_.rfl⟩
  · subst h
    cases x with
    | error e => exact Or.inr _root_.rfl
    | ok a => exact hf a

theorem OrStops.bindOk {E : Fault → Prop} {x : M α} {f g : α → M β}
    (hf : ∀ a, x = .ok a → OrStops E (f a) (g a)) : OrStops E (x >>= f) (x >>= g) := by
  cases x with
  | error e => exact Or.inr _root_.rfl
  | ok a => exact hf a _root_.rfl

theorem rd_ok_mem {l : List α} {i : Nat} {x : α} (h : rd l i = .ok x) : x ∈ l := by
  unfold rd at h
  split at h
  · rename_i hx
    cases h
    exact List.mem_of_getElem? hx
  · cases h

theorem OrStops.ite {E : Fault → Prop} {p : Prop} [Decidable p] {x y x' y' : M α}
    (h : OrStops E x y) (h' : OrStops E x' y') :
    OrStops E (if p then x else x') (if p then y else y') := by
  split
  · exact h
  · exact h'

theorem OrStops.forN {E : Fault → Prop} {b b' : Nat → σ → M σ}
    (h : ∀ i s, OrStops E (b i s) (b' i s)) :
    ∀ (n i : Nat) (s : σ), OrStops E (CM.forN n i b s) (CM.forN n i b' s) := by
  intro n
  induction n with
  | zero => intro i s; exact OrStops.rfl
  | succ n ih =>
    intro i s
    unfold CM.forN
    rcases h i s with ⟨e, he, h⟩ | h
    · rw [h]; exact Or.inl ⟨e, he, _root_.rfl⟩
    · rw [h]
      cases b' i s with
      | error e => exact OrStops.rfl
      | ok s' => exact ih (i + 1) s'

theorem OrStops.forRange {E : Fault → Prop} {b b' : Nat → σ → M σ}
    (h : ∀ i s, OrStops E (b i s) (b' i s)) (lo hi : Nat) (s : σ) :
    OrStops E (CM.forRange lo hi b s) (CM.forRange lo hi b' s) := OrStops.forN h _ _ _

theorem OrStops.loop {E : Fault → Prop} {b b' : σ → M (σ ⊕ ρ)}
    (h : ∀ s, OrStops E (b s) (b' s)) :
    ∀ (n : Nat) (s : σ), OrStops E (CM.loop n b s) (CM.loop n b' s) := by
  intro n
  induction n with
  | zero => intro s; exact OrStops.rfl
  | succ n ih =>
    intro s
    unfold CM.loop
    rcases h s with ⟨e, he, h⟩ | h
    · rw [h]; exact Or.inl ⟨e, he, _root_.rfl⟩
    · rw [h]
      cases b' s with
      | error e => exact OrStops.rfl
      | ok r =>
        cases r with
        | inl s' => exact ih s'
        | inr r => exact OrStops.rfl

/-- Every iteration of a loop that finished was run and finished. -/
theorem forN_ran {b : Nat → σ → M σ} : ∀ (n i : Nat) (s r : σ), CM.forN n i b s = .ok r →
    ∀ k, i ≤ k → k < i + n → ∃ s s', b k s = .ok s' := by
  intro n
  induction n with
  | zero => intro i s r _ k h1 h2; omega
  | succ n ih =>
    intro i s r h k h1 h2
    unfold CM.forN at h
    cases hb : b i s with
    | error e => rw [hb] at h; cases h
    | ok s' =>
      rw [hb] at h
      by_cases hk : k = i
      · subst hk; exact ⟨s, s', hb⟩
      · exact ih (i + 1) s' r h k (by omega) (by omega)

theorem forRange_ran {b : Nat → σ → M σ} {lo hi : Nat} {s r : σ}
    (h : CM.forRange lo hi b s = .ok r) {k : Nat} (h1 : lo ≤ k) (h2 : k < hi) :
    ∃ s s', b k s = .ok s' := forN_ran _ _ _ _ h k h1 (by omega)

section
variable {D : Type} [Inhabited D]

theorem fillDistsM_or {E : Fault → Prop} {d : Nat → Nat → M D} {d' : Nat → Nat → D}
    (h : ∀ i j, OrStops E (d i j) (.ok (d' i j))) (srt : List (PairDist D) → List (PairDist D))
    (N : Nat) (sym : Bool) : OrStops E (fillDistsM srt N sym d) (fillDists srt N sym d') := by
  unfold fillDistsM fillDists
  refine OrStops.bind (OrStops.forRange (fun i s => OrStops.forRange (fun j s => ?_) _ _ _) _ _ _)
    fun _ => OrStops.rfl
  refine OrStops.ite OrStops.rfl ?_
  rcases h i j with ⟨e, he, h⟩ | h
  · rw [h]; exact Or.inl ⟨e, he, _root_.rfl⟩
  · rw [h]; exact OrStops.rfl

/-- A distance function that raises somewhere is noticed. -/
theorem fillDistsM_raises {d : Nat → Nat → M D} {srt : List (PairDist D) → List (PairDist D)}
    {N : Nat} {sym : Bool} {r : List (PairDist D)} (h : fillDistsM srt N sym d = .ok r)
    {i j : Nat} (hi : i < N) (hj : j < N) (hne : j ≠ i) (hs : sym = true → i < j) :
    ∃ x, d i j = .ok x := by
  unfold fillDistsM at h
  obtain ⟨p, h1, _⟩ := bind_eq_ok.1 h
  obtain ⟨s, s', h2⟩ := forRange_ran h1 (Nat.zero_le i) hi
  obtain ⟨s, s', h3⟩ := forRange_ran h2 (k := j) (by
    split
    · rename_i h; exact hs h
    · exact Nat.zero_le _) hj
  rw [if_neg hne] at h3
  obtain ⟨x, h4, _⟩ := bind_eq_ok.1 h3
  exact ⟨x, h4⟩

variable [LinearOrder D]

omit [Inhabited D] in
theorem efrConditionM_on {E : Fault → Prop} {c : Nat → Nat → Nat → Nat → CM.M Bool}
    {c' : Nat → Nat → Nat → Nat → Bool} {d1 d2 : List (PairDist D)}
    (h : ∀ x ∈ d1, ∀ y ∈ d2,
      OrStops E (c x.first x.second y.first y.second) (.ok (c' x.first x.second y.first y.second)) ∧
      OrStops E (c x.first x.second y.second y.first) (.ok (c' x.first x.second y.second y.first)))
    (M N : Nat) (sym1 sym2 : Bool) (w : Window D) :
    OrStops E (efrConditionM M N sym1 sym2 d1 d2 w c) (efrCondition M N sym1 sym2 d1 d2 w c') := by
  unfold efrConditionM efrCondition
  refine OrStops.ite OrStops.rfl ?_
  refine OrStops.bind (OrStops.loop (fun s => ?_) _ _) fun _ => OrStops.rfl
  refine OrStops.ite ?_ OrStops.rfl
  refine OrStops.bindOk fun x hx => ?_
  refine OrStops.bind OrStops.rfl fun f1 => ?_
  refine OrStops.ite OrStops.rfl ?_
  refine OrStops.bind OrStops.rfl fun f2 => ?_
  refine OrStops.bind (OrStops.forRange (fun j s => ?_) _ _ _) fun _ => OrStops.rfl
  refine OrStops.bindOk fun y hy => ?_
  obtain ⟨ha, hb⟩ := h x (rd_ok_mem hx) y (rd_ok_mem hy)
  rcases ha with ⟨e, he, h1⟩ | h1
  · rw [h1]; exact Or.inl ⟨e, he, _root_.rfl⟩
  rw [h1, ok_bind]
  refine OrStops.ite OrStops.rfl ?_
  rcases hb with ⟨e, he, h2⟩ | h2
  · rw [h2]; exact Or.inl ⟨e, he, _root_.rfl⟩
  rw [h2, ok_bind]
  exact OrStops.rfl

theorem buildBothM_or {E : Fault → Prop} {c : Nat → Nat → Nat → Nat → CM.M Bool}
    {c' : Nat → Nat → Nat → Nat → Bool} {d1 d2 : Nat → Nat → CM.M D} {d1' d2' : Nat → Nat → D}
    (hc : ∀ i1 i2 j1 j2, OrStops E (c i1 i2 j1 j2) (.ok (c' i1 i2 j1 j2)))
    (h1 : ∀ i j, OrStops E (d1 i j) (.ok (d1' i j))) (h2 : ∀ i j, OrStops E (d2 i j) (.ok (d2' i j)))
    (argLR : Bool) (cap : Nat) (pg : PyGraph) (srt1 srt2 : List (PairDist D) → List (PairDist D))
    (M N : Nat) (w : Window D) (sym1 sym2 : Bool) :
    OrStops E (buildBothM argLR cap pg srt1 srt2 M N w c d1 sym1 d2 sym2)
      (buildBoth argLR cap pg srt1 srt2 M N w c' d1' sym1 d2' sym2) := by
  unfold buildBothM buildBoth
  refine OrStops.bind (fillDistsM_or h1 _ _ _) fun _ => ?_
  refine OrStops.bind (fillDistsM_or h2 _ _ _) fun _ => ?_
  exact OrStops.bind (efrConditionM_on (fun _ _ _ _ => ⟨hc _ _ _ _, hc _ _ _ _⟩) _ _ _ _ _)
    fun _ => OrStops.rfl

theorem buildMetricM_or {E : Fault → Prop} {d1 d2 : Nat → Nat → CM.M D} {d1' d2' : Nat → Nat → D}
    (h1 : ∀ i j, OrStops E (d1 i j) (.ok (d1' i j))) (h2 : ∀ i j, OrStops E (d2 i j) (.ok (d2' i j)))
    (argLR : Bool) (cap : Nat) (pg : PyGraph) (srt1 srt2 : List (PairDist D) → List (PairDist D))
    (M N : Nat) (w : Window D) (sym1 sym2 : Bool) :
    OrStops E (buildMetricM argLR cap pg srt1 srt2 M N w d1 sym1 d2 sym2)
      (buildMetric argLR cap pg srt1 srt2 M N w d1' sym1 d2' sym2) := by
  unfold buildMetricM buildMetric
  refine OrStops.bind (fillDistsM_or h1 _ _ _) fun _ => ?_
  exact OrStops.bind (fillDistsM_or h2 _ _ _) fun _ => OrStops.rfl

omit [Inhabited D] [LinearOrder D] in
theorem buildConditionM_or {E : Fault → Prop} {c : Nat → Nat → Nat → Nat → CM.M Bool}
    {c' : Nat → Nat → Nat → Nat → Bool}
    (hc : ∀ i1 i2 j1 j2, OrStops E (c i1 i2 j1 j2) (.ok (c' i1 i2 j1 j2)))
    (argLR : Bool) (cap : Nat) (pg : PyGraph) (M N : Nat) :
    OrStops E (buildConditionM argLR cap pg M N c) (buildCondition argLR cap pg M N c') := by
  unfold buildConditionM buildCondition
  refine OrStops.bind (OrStops.forRange (fun i1 s => OrStops.forRange (fun i2 s =>
    OrStops.forRange (fun j1 s => OrStops.forRange (fun j2 s => ?_) _ _ _) _ _ _) _ _ _) _ _ _)
    fun _ => OrStops.rfl
  rcases hc i1 i2 j1 j2 with ⟨e, he, h1⟩ | h1
  · rw [h1]; exact Or.inl ⟨e, he, _root_.rfl⟩
  rw [h1, ok_bind]
  exact OrStops.rfl

end

end CM
