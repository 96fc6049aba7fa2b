import Verif.Lemmas.Effects

/-! # A builder with functions and one with any table, step by step -/

namespace CM

open Spec

variable {D τ α β γ δ : Type}

/-- Unless one of the functions fails, `x` and `y` end in the same way, and if both return, `R`
holds between the calls made by `x` and the two results. -/
def Lock (Inv : PyGraph × τ → Prop) (Fail : Fault → Prop)
    (x : Eff (PyGraph × τ × List (Call D)) α) (y : M β) (R : List (Call D) → α → β → Prop) : Prop :=
  ∀ pg t l, Inv (pg, t) → ∃ pg' t' l' r, Inv (pg', t') ∧ x (pg, t, l) = ((pg', t', l ++ l'), r) ∧
    ((∃ e, Fail e ∧ r = .error e) ∨ (∃ e, r = .error e ∧ y = .error e) ∨
      ∃ a b, r = .ok a ∧ y = .ok b ∧ R l' a b)

variable {Inv : PyGraph × τ → Prop} {Fail : Fault → Prop}

theorem Lock.ok {a : α} {b : β} {R : List (Call D) → α → β → Prop} (h : R [] a b) :
    Lock Inv Fail (Eff.lift (.ok a)) (.ok b) R := fun pg t l hi =>
  ⟨pg, t, [], .ok a, hi, by simp [Eff.lift], Or.inr (Or.inr ⟨a, b, rfl, rfl, h⟩)⟩

theorem Lock.error {e : Fault} {R : List (Call D) → α → β → Prop} :
    Lock Inv Fail (Eff.lift (.error e)) (.error e) R := fun pg t l hi =>
  ⟨pg, t, [], .error e, hi, by simp [Eff.lift], Or.inr (Or.inl ⟨e, rfl, rfl⟩)⟩

theorem Lock.mono {x : Eff (PyGraph × τ × List (Call D)) α} {y : M β}
    {R R' : List (Call D) → α → β → Prop} (h : Lock Inv Fail x y R)
    (hR : ∀ l a b, R l a b → R' l a b) : Lock Inv Fail x y R' := by
  intro pg t l hi
  obtain ⟨pg', t', l', r, h1, h2, h3⟩ := h pg t l hi
  exact ⟨pg', t', l', r, h1, h2, h3.imp id fun h => h.imp id fun ⟨a, b, h4, h5, h6⟩ =>
    ⟨a, b, h4, h5, hR _ _ _ h6⟩⟩

theorem Lock.bind {x : Eff (PyGraph × τ × List (Call D)) α} {y : M β}
    {R1 : List (Call D) → α → β → Prop} {R2 : List (Call D) → γ → δ → Prop}
    {f : α → Eff (PyGraph × τ × List (Call D)) γ} {g : β → M δ} (h : Lock Inv Fail x y R1)
    (hf : ∀ l a b, R1 l a b → Lock Inv Fail (f a) (g b) fun l' c d => R2 (l ++ l') c d) :
    Lock Inv Fail (x >>= f) (y >>= g) R2 := by
  intro pg t l hi
  obtain ⟨pg1, t1, l1, r1, i1, e1, c1⟩ := h pg t l hi
  rcases c1 with ⟨e, he, rfl⟩ | ⟨e, rfl, rfl⟩ | ⟨a, b, rfl, rfl, hR⟩
  · exact ⟨pg1, t1, l1, .error e, i1, Eff.run_error e1, Or.inl ⟨e, he, rfl⟩⟩
  · exact ⟨pg1, t1, l1, .error e, i1, Eff.run_error e1, Or.inr (Or.inl ⟨e, rfl, rfl⟩)⟩
  · obtain ⟨pg2, t2, l2, r2, i2, e2, c2⟩ := hf l1 a b hR pg1 t1 (l ++ l1) i1
    refine ⟨pg2, t2, l1 ++ l2, r2, i2, ?_, c2⟩
    rw [Eff.run_ok e1, e2, List.append_assoc]

/-- After a step of one side. -/
theorem Lock.asking {x : Eff (PyGraph × τ × List (Call D)) α} {R1 : List (Call D) → α → Prop}
    {R2 : List (Call D) → γ → δ → Prop} {f : α → Eff (PyGraph × τ × List (Call D)) γ} {y : M δ}
    (h : Lock Inv Fail x (.ok ()) fun l a _ => R1 l a)
    (hf : ∀ l a, R1 l a → Lock Inv Fail (f a) y fun l' c d => R2 (l ++ l') c d) :
    Lock Inv Fail (x >>= f) y R2 :=
  Lock.bind (g := fun _ => y) h fun l a _ => hf l a

/-- After a step that asks nothing. -/
theorem Lock.after {m : M α} {f : α → Eff (PyGraph × τ × List (Call D)) γ} {g : α → M δ}
    {R : List (Call D) → γ → δ → Prop}
    (h : ∀ a, m = .ok a → Lock Inv Fail (f a) (g a) R) :
    Lock Inv Fail (Eff.lift m >>= f) (m >>= g) R := by
  cases hm : m with
  | error e =>
    exact Lock.bind (R1 := fun _ _ _ => False) (β := α) Lock.error fun _ _ _ h => h.elim
  | ok a =>
    refine Lock.bind (R1 := fun l a' b' => l = [] ∧ a' = a ∧ b' = a) (Lock.ok ⟨rfl, rfl, rfl⟩) ?_
    rintro _ _ _ ⟨rfl, rfl, rfl⟩
    exact h _ hm

theorem Lock.ite {p : Prop} [Decidable p] {x x' : Eff (PyGraph × τ × List (Call D)) α}
    {y y' : M β} {R : List (Call D) → α → β → Prop} (h1 : p → Lock Inv Fail x y R)
    (h2 : ¬ p → Lock Inv Fail x' y' R) :
    Lock Inv Fail (if p then x else x') (if p then y else y') R := by
  by_cases h : p
  · rw [if_pos h, if_pos h]; exact h1 h
  · rw [if_neg h, if_neg h]; exact h2 h

theorem Lock.forN {b : Nat → α → Eff (PyGraph × τ × List (Call D)) α} {b' : Nat → β → M β}
    {R : List (Call D) → α → β → Prop}
    (h : ∀ i l x y, R l x y → Lock Inv Fail (b i x) (b' i y) fun l' x' y' => R (l ++ l') x' y') :
    ∀ n i l x y, R l x y →
      Lock Inv Fail (Eff.forN n i b x) (forN n i b' y) fun l' x' y' => R (l ++ l') x' y' := by
  intro n
  induction n with
  | zero =>
    intro i l x y hR
    exact Lock.ok (by simpa using hR)
  | succ n ih =>
    intro i l x y hR
    have e : CM.forN (n + 1) i b' y = (b' i y >>= CM.forN n (i + 1) b') := by
      rw [CM.forN]
      cases b' i y <;> rfl
    rw [e]
    refine Lock.bind (h i l x y hR) fun l1 x1 y1 h1 => (ih (i + 1) _ x1 y1 h1).mono ?_
    intro l2 x2 y2 h2
    rwa [← List.append_assoc]

theorem Lock.forRange {b : Nat → α → Eff (PyGraph × τ × List (Call D)) α} {b' : Nat → β → M β}
    {R : List (Call D) → α → β → Prop}
    (h : ∀ i l x y, R l x y → Lock Inv Fail (b i x) (b' i y) fun l' x' y' => R (l ++ l') x' y')
    (lo hi : Nat) {l : List (Call D)} {x : α} {y : β} (hR : R l x y) :
    Lock Inv Fail (Eff.forRange lo hi b x) (forRange lo hi b' y)
      fun l' x' y' => R (l ++ l') x' y' :=
  Lock.forN h _ _ _ _ _ hR

/-- The relation between the states of two loops, during and after. -/
def LockSum (R : List (Call D) → α → β → Prop) (S : List (Call D) → γ → δ → Prop)
    (l : List (Call D)) : α ⊕ γ → β ⊕ δ → Prop
  | .inl a, .inl b => R l a b
  | .inr a, .inr b => S l a b
  | _, _ => False

theorem Lock.loop {b : α → Eff (PyGraph × τ × List (Call D)) (α ⊕ γ)} {b' : β → M (β ⊕ δ)}
    {R : List (Call D) → α → β → Prop} {S : List (Call D) → γ → δ → Prop}
    (h : ∀ l x y, R l x y → Lock Inv Fail (b x) (b' y) fun l' => LockSum R S (l ++ l')) :
    ∀ n l x y, R l x y →
      Lock Inv Fail (Eff.loop n b x) (loop n b' y) fun l' x' y' => S (l ++ l') x' y' := by
  intro n
  induction n with
  | zero => intro l x y _; exact Lock.error
  | succ n ih =>
    intro l x y hR
    have e : CM.loop (n + 1) b' y = (b' y >>= fun r => match r with
        | .inl a => CM.loop n b' a
        | .inr a => .ok a) := by
      rw [CM.loop]
      cases b' y with
      | error _ => rfl
      | ok r => cases r <;> rfl
    rw [e]
    refine Lock.bind (h l x y hR) fun l1 x1 y1 h1 => ?_
    cases x1 with
    | inl x1 =>
      cases y1 with
      | inl y1 =>
        refine (ih _ x1 y1 h1).mono fun l2 x2 y2 h2 => ?_
        rwa [← List.append_assoc]
      | inr y1 => exact h1.elim
    | inr x1 =>
      cases y1 with
      | inl y1 => exact h1.elim
      | inr y1 =>
        refine Lock.ok ?_
        rw [List.append_nil]
        exact h1

variable {F : Fns (PyGraph × τ) D}

/-- One question about a condition. -/
theorem lock_c (hF : F.Keeps Inv) (i1 i2 j1 j2 : Nat) :
    Lock Inv (F.Fails Inv) (F.noted.c i1 i2 j1 j2) (.ok ())
      fun l b _ => l = [.c i1 i2 j1 j2 b] := by
  intro pg t l hi
  have h1 := hF.c _ i1 i2 j1 j2 hi
  show ∃ pg' t' l' r, _ ∧ noted _ _ _ = _ ∧ _
  unfold noted
  rcases hr : F.c i1 i2 j1 j2 (pg, t) with ⟨⟨pg', t'⟩, r⟩
  rw [hr] at h1
  cases r with
  | error e =>
    exact ⟨pg', t', [], .error e, h1, by simp, Or.inl ⟨e, ⟨_, hi, Or.inr (Or.inr
      ⟨i1, i2, j1, j2, by rw [hr]⟩)⟩, rfl⟩⟩
  | ok b => exact ⟨pg', t', [.c i1 i2 j1 j2 b], .ok b, h1, rfl, Or.inr (Or.inr ⟨b, (), rfl, rfl, rfl⟩)⟩

/-- The two edges for one combination. -/
def Joins (N i1 i2 j1 j2 : Nat) (e : Nat × Nat) : Prop :=
  e = (pairVertex N i1 j1, pairVertex N i2 j2) ∨ e = (pairVertex N i2 j2, pairVertex N i1 j1)

/-- What two runs of `efr_condition` have made, one from the answers in `l` and one from the
table `c`. -/
structure Sides (M N : Nat) (base : Edges) (c : Nat → Nat → Nat → Nat → Bool) (l : List (Call D))
    (s s' : Edges × Nat) : Prop where
  said : ∀ e, e ∈ s.1 ↔ e ∈ base ∨ ∃ i1 i2 j1 j2, .c i1 i2 j1 j2 true ∈ l ∧ Joins N i1 i2 j1 j2 e
  table : ∀ e, e ∈ s'.1 ↔ e ∈ base ∨ ∃ i1 i2 j1 j2 b, .c i1 i2 j1 j2 b ∈ l ∧ c i1 i2 j1 j2 = true ∧
    Joins N i1 i2 j1 j2 e
  range : ∀ i1 i2 j1 j2 b, .c i1 i2 j1 j2 b ∈ l → i1 < M ∧ i2 < M ∧ j1 < N ∧ j2 < N

variable {M N : Nat} {base : Edges} {c : Nat → Nat → Nat → Nat → Bool} {l : List (Call D)}

theorem mem_link {es : Edges} {u v : Nat} {e : Nat × Nat} :
    e ∈ link es u v ↔ e ∈ es ∨ e = (u, v) ∨ e = (v, u) := by
  simp [link]

theorem Sides.ask {s s' : Edges × Nat} (h : Sides M N base c l s s') {i1 i2 j1 j2 : Nat} {b : Bool}
    {r r' : Edges × Nat} (hi1 : i1 < M) (hi2 : i2 < M) (hj1 : j1 < N) (hj2 : j2 < N)
    (hr : ∀ e, e ∈ r.1 ↔ e ∈ s.1 ∨ (b = true ∧ Joins N i1 i2 j1 j2 e))
    (hr' : ∀ e, e ∈ r'.1 ↔ e ∈ s'.1 ∨ (c i1 i2 j1 j2 = true ∧ Joins N i1 i2 j1 j2 e)) :
    Sides M N base c (l ++ [.c i1 i2 j1 j2 b]) r r' := by
  refine ⟨fun e => ?_, fun e => ?_, fun k1 k2 m1 m2 b' hm => ?_⟩
  · rw [hr, h.said, or_assoc]
    refine or_congr_right ⟨?_, ?_⟩
    · rintro (⟨k1, k2, m1, m2, hm, hJ⟩ | ⟨rfl, hJ⟩)
      · exact ⟨k1, k2, m1, m2, List.mem_append_left _ hm, hJ⟩
      · exact ⟨i1, i2, j1, j2, List.mem_append_right _ (List.mem_singleton.2 rfl), hJ⟩
    · rintro ⟨k1, k2, m1, m2, hm, hJ⟩
      rcases List.mem_append.1 hm with hm | hm
      · exact Or.inl ⟨k1, k2, m1, m2, hm, hJ⟩
      · cases List.mem_singleton.1 hm
        exact Or.inr ⟨rfl, hJ⟩
  · rw [hr', h.table, or_assoc]
    refine or_congr_right ⟨?_, ?_⟩
    · rintro (⟨k1, k2, m1, m2, b', hm, hc, hJ⟩ | ⟨hc, hJ⟩)
      · exact ⟨k1, k2, m1, m2, b', List.mem_append_left _ hm, hc, hJ⟩
      · exact ⟨i1, i2, j1, j2, b, List.mem_append_right _ (List.mem_singleton.2 rfl), hc, hJ⟩
    · rintro ⟨k1, k2, m1, m2, b', hm, hc, hJ⟩
      rcases List.mem_append.1 hm with hm | hm
      · exact Or.inl ⟨k1, k2, m1, m2, b', hm, hc, hJ⟩
      · cases List.mem_singleton.1 hm
        exact Or.inr ⟨hc, hJ⟩
  · rcases List.mem_append.1 hm with hm | hm
    · exact h.range _ _ _ _ _ hm
    · cases List.mem_singleton.1 hm
      exact ⟨hi1, hi2, hj1, hj2⟩

theorem mem_linkIf {s : Edges × Nat} {u v k : Nat} {b : Bool} {e : Nat × Nat} :
    e ∈ (if b then (link s.1 u v, k) else s).1 ↔ e ∈ s.1 ∨ (b = true ∧ (e = (u, v) ∨ e = (v, u))) := by
  cases b
  · simp
  · simp [mem_link]

theorem lock_step (hF : F.Keeps Inv) (sym1 sym2 : Bool) {x y : PairDist D} (hx1 : x.first < M)
    (hx2 : x.second < M) (hy1 : y.first < N) (hy2 : y.second < N) {s s' : Edges × Nat}
    (h : Sides M N base c l s s') :
    Lock Inv (F.Fails Inv)
      (F.noted.c x.first x.second y.first y.second >>= fun a =>
        let s := if a then
            (link s.1 (pairVertex N x.first y.first) (pairVertex N x.second y.second), s.2 + 1)
          else s
        if !sym1 && !sym2 then Eff.lift (.ok s)
        else F.noted.c x.first x.second y.second y.first >>= fun b =>
          if b then
            Eff.lift (.ok (link s.1 (pairVertex N x.second y.first)
              (pairVertex N x.first y.second), s.2 + 1))
          else Eff.lift (.ok s))
      (let s := if c x.first x.second y.first y.second then
            (link s'.1 (pairVertex N x.first y.first) (pairVertex N x.second y.second), s'.2 + 1)
          else s'
        if !sym1 && !sym2 then .ok s
        else if c x.first x.second y.second y.first then
          .ok (link s.1 (pairVertex N x.second y.first) (pairVertex N x.first y.second), s.2 + 1)
        else .ok s)
      fun l' => Sides M N base c (l ++ l') := by
  refine Lock.asking (lock_c hF x.first x.second y.first y.second) ?_
  rintro _ a rfl
  have h1 : Sides M N base c (l ++ [.c x.first x.second y.first y.second a])
      (if a then (link s.1 (pairVertex N x.first y.first) (pairVertex N x.second y.second), s.2 + 1)
        else s)
      (if c x.first x.second y.first y.second then
        (link s'.1 (pairVertex N x.first y.first) (pairVertex N x.second y.second), s'.2 + 1)
        else s') :=
    h.ask hx1 hx2 hy1 hy2 (fun e => mem_linkIf) fun e => mem_linkIf
  simp only
  refine Lock.ite (fun _ => Lock.ok (by simpa using h1)) fun _ => ?_
  refine Lock.asking (lock_c hF x.first x.second y.second y.first) ?_
  rintro _ b rfl
  revert h1
  generalize (if a then (link s.1 (pairVertex N x.first y.first)
    (pairVertex N x.second y.second), s.2 + 1) else s) = u
  generalize (if c x.first x.second y.first y.second then
    (link s'.1 (pairVertex N x.first y.first) (pairVertex N x.second y.second), s'.2 + 1)
    else s') = u'
  intro h1
  have h2 : Sides M N base c (l ++ [.c x.first x.second y.first y.second a] ++
        [.c x.first x.second y.second y.first b])
      (if b then (link u.1 (pairVertex N x.second y.first) (pairVertex N x.first y.second), u.2 + 1)
        else u)
      (if c x.first x.second y.second y.first then
        (link u'.1 (pairVertex N x.second y.first) (pairVertex N x.first y.second), u'.2 + 1)
        else u') :=
    h1.ask hx1 hx2 hy2 hy1
      (fun e => mem_linkIf.trans (or_congr_right (and_congr_right fun _ => Or.comm)))
      (fun e => mem_linkIf.trans (or_congr_right (and_congr_right fun _ => Or.comm)))
  rw [List.append_assoc] at h2
  cases b <;> by_cases hc : c x.first x.second y.second y.first = true <;>
    simp only [hc, if_true, if_false, Bool.false_eq_true] at h2 ⊢ <;>
    (refine Lock.ok ?_; simpa using h2)

theorem lock_efrCondition [LinearOrder D] (hF : F.Keeps Inv) (sym1 sym2 : Bool)
    {d1 d2 : List (PairDist D)} (h1 : ∀ x ∈ d1, x.first < M ∧ x.second < M)
    (h2 : ∀ x ∈ d2, x.first < N ∧ x.second < N) (w : Window D)
    (c : Nat → Nat → Nat → Nat → Bool) :
    Lock Inv (F.Fails Inv) (efrConditionE M N sym1 sym2 d1 d2 w F.noted.c)
      (efrCondition M N sym1 sym2 d1 d2 w c)
      fun l a b => a.1 = umul M N ∧ b.1 = umul M N ∧
        Sides M N (PyGraph.selfLoops (umul M N)) c l (a.2.2, a.2.1) (b.2.2, b.2.1) := by
  unfold efrConditionE efrCondition
  generalize (if sym1 = true then umul M (usub M 1) / 2 else umul M (usub M 1)) = len1
  generalize (if sym2 = true then umul N (usub N 1) / 2 else umul N (usub N 1)) = len2
  refine Lock.ite (fun _ => Lock.error) fun _ => ?_
  refine Lock.bind (R1 := Sides M N (PyGraph.selfLoops (umul M N)) c) ?_
    fun l a b h => Lock.ok ⟨rfl, rfl, by simpa using h⟩
  refine (Lock.loop (R := fun l (s s' : Nat × Edges × Nat) => s.1 = s'.1 ∧
    Sides M N (PyGraph.selfLoops (umul M N)) c l s.2 s'.2) (fun l s s' h => ?_) _ [] _ _
    ⟨rfl, ?_⟩).mono fun l a b h => by simpa using h
  · obtain ⟨i, es, m⟩ := s
    obtain ⟨i', es', m'⟩ := s'
    obtain ⟨rfl, h⟩ := h
    refine Lock.ite (fun _ => ?_) fun _ => Lock.ok (by simpa [LockSum] using h)
    refine Lock.after fun x hx => ?_
    have hx' := h1 x (List.mem_of_getElem? (rd_eq_ok.1 hx))
    refine Lock.after fun f1 _ => ?_
    refine Lock.ite (fun _ => Lock.ok (by simpa [LockSum] using h)) fun _ => ?_
    refine Lock.after fun f2 _ => ?_
    refine Lock.bind (Lock.forRange (R := Sides M N (PyGraph.selfLoops (umul M N)) c)
      (fun j l s s' h => ?_) _ _ h) fun l' a b h => Lock.ok ?_
    · refine Lock.after fun y hy => ?_
      have hy' := h2 y (List.mem_of_getElem? (rd_eq_ok.1 hy))
      exact lock_step hF sym1 sym2 hx'.1 hx'.2 hy'.1 hy'.2 h
    · rw [List.append_nil]
      exact ⟨rfl, h⟩
  · exact ⟨fun e => by simp, fun e => by simp, fun _ _ _ _ _ h => by simp at h⟩

end CM
