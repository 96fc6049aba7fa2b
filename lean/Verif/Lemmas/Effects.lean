import Mathlib.Data.List.Sublists
import Mathlib.Data.List.Nodup
import Verif.Model.Effects
import Verif.SpecEffects
import Verif.Lemmas.CorrCount

/-! # Functions with effects, as if their answers were a table -/

namespace CM

open Spec

variable {D τ α β γ : Type}

/-- Whatever the functions did to the world, `x` asked only questions of `Q`, in that order, and
either one of the functions failed or `x` came out as `y` for every table with the answers. -/
def Sim (Inv : PyGraph × τ → Prop) (Fail : Fault → Prop)
    (x : Eff (PyGraph × τ × List (Call D)) α) (y : Answers D → M α) (Q : List Question)
    (P : List Question → α → Prop) : Prop :=
  ∀ pg t l, Inv (pg, t) → ∃ pg' t' l' r, Inv (pg', t') ∧ x (pg, t, l) = ((pg', t', l ++ l'), r) ∧
    (l'.map Call.question).Sublist Q ∧
    ((∃ e, Fail e ∧ r = .error e) ∨
      (∀ T : Answers D, (∀ q ∈ l', q.Agrees T) → y T = r) ∧
        ∀ a, r = .ok a → P (l'.map Call.question) a)

variable {Inv : PyGraph × τ → Prop} {Fail : Fault → Prop}

theorem Sim.lift (m : M α) : Sim (D := D) Inv Fail (Eff.lift m) (fun _ => m) []
    (fun l a => l = [] ∧ m = .ok a) := by
  intro pg t l h
  exact ⟨pg, t, [], m, h, by simp [Eff.lift], List.Sublist.refl _, Or.inr ⟨fun _ _ => rfl,
    fun _ h => ⟨rfl, h⟩⟩⟩

theorem Sim.mono {x : Eff (PyGraph × τ × List (Call D)) α} {y : Answers D → M α}
    {Q Q' : List Question} {P P' : List Question → α → Prop} (h : Sim Inv Fail x y Q P)
    (hQ : Q.Sublist Q') (hP : ∀ l a, P l a → P' l a) : Sim Inv Fail x y Q' P' := by
  intro pg t l hi
  obtain ⟨pg', t', l', r, h1, h2, h3, h4⟩ := h pg t l hi
  exact ⟨pg', t', l', r, h1, h2, h3.trans hQ, h4.imp id fun ⟨a, b⟩ => ⟨a, fun _ e => hP _ _ (b _ e)⟩⟩

theorem Sim.bind {x : Eff (PyGraph × τ × List (Call D)) α} {y : Answers D → M α}
    {Q1 Q2 : List Question} {P1 : List Question → α → Prop} {P2 : List Question → β → Prop}
    {f : α → Eff (PyGraph × τ × List (Call D)) β} {g : Answers D → α → M β}
    (h : Sim Inv Fail x y Q1 P1)
    (hf : ∀ a l, P1 l a → Sim Inv Fail (f a) (fun T => g T a) Q2 (fun l2 b => P2 (l ++ l2) b)) :
    Sim Inv Fail (x >>= f) (fun T => y T >>= g T) (Q1 ++ Q2) P2 := by
  intro pg t l hi
  obtain ⟨pg1, t1, l1, r1, i1, e1, q1, c1⟩ := h pg t l hi
  show ∃ pg' t' l' r, Inv (pg', t') ∧ Eff.bind x f (pg, t, l) = _ ∧ _
  unfold Eff.bind
  rw [e1]
  rcases c1 with ⟨e, he, hr⟩ | ⟨c1, p1⟩
  · subst hr
    exact ⟨pg1, t1, l1, .error e, i1, rfl, q1.trans (List.sublist_append_left _ _),
      Or.inl ⟨e, he, rfl⟩⟩
  · cases r1 with
    | error e =>
      refine ⟨pg1, t1, l1, .error e, i1, rfl, q1.trans (List.sublist_append_left _ _),
        Or.inr ⟨fun T hT => ?_, fun a ha => by cases ha⟩⟩
      show (y T >>= g T) = _
      rw [c1 T hT]
      rfl
    | ok a =>
      obtain ⟨pg2, t2, l2, r2, i2, e2, q2, c2⟩ := hf a _ (p1 a rfl) pg1 t1 (l ++ l1) i1
      refine ⟨pg2, t2, l1 ++ l2, r2, i2, ?_, ?_, ?_⟩
      · simp only
        rw [e2, List.append_assoc]
      · rw [List.map_append]
        exact List.Sublist.append q1 q2
      · refine c2.imp id fun ⟨c2, p2⟩ => ⟨fun T hT => ?_, fun b hb => ?_⟩
        · show (y T >>= g T) = _
          rw [c1 T fun q hq => hT q (List.mem_append_left _ hq), ok_bind]
          exact c2 T fun q hq => hT q (List.mem_append_right _ hq)
        · rw [List.map_append]
          exact p2 b hb

/-- After a step that asks nothing. -/
theorem Sim.after {m : M α} {f : α → Eff (PyGraph × τ × List (Call D)) β}
    {g : Answers D → α → M β} {Q : List Question} {P : List Question → β → Prop}
    (hf : ∀ a, m = .ok a → Sim Inv Fail (f a) (fun T => g T a) Q P) :
    Sim Inv Fail (Eff.lift m >>= f) (fun T => m >>= g T) Q P := by
  intro pg t l hi
  cases m with
  | error e =>
    exact ⟨pg, t, [], .error e, hi, by simp [Eff.lift, Bind.bind, Eff.bind], List.nil_sublist _,
      Or.inr ⟨fun _ _ => rfl, fun a ha => by cases ha⟩⟩
  | ok a => exact hf a rfl pg t l hi

/-- Before a step that asks nothing. -/
theorem Sim.before {x : Eff (PyGraph × τ × List (Call D)) α} {y : Answers D → M α}
    {Q : List Question} {P1 : List Question → α → Prop} {P2 : List Question → β → Prop}
    {f : α → M β} (h : Sim Inv Fail x y Q P1) (hP : ∀ l a b, P1 l a → f a = .ok b → P2 l b) :
    Sim Inv Fail (x >>= fun a => Eff.lift (f a)) (fun T => y T >>= f) Q P2 := by
  have := Sim.bind (g := fun _ => f) (Q2 := []) (P2 := P2) h (f := fun a => Eff.lift (f a))
    fun a l hl => by
      intro pg t l0 hi
      refine ⟨pg, t, [], f a, hi, by simp [Eff.lift], List.nil_sublist _, Or.inr ⟨fun _ _ => rfl,
        fun b hb => ?_⟩⟩
      simpa using hP l a b hl hb
  rwa [List.append_nil] at this

theorem Sim.ite {p : Prop} [Decidable p] {x x' : Eff (PyGraph × τ × List (Call D)) α}
    {y y' : Answers D → M α} {Q : List Question} {P : List Question → α → Prop}
    (h : p → Sim Inv Fail x y Q P) (h' : ¬ p → Sim Inv Fail x' y' Q P) :
    Sim Inv Fail (if p then x else x') (fun T => if p then y T else y' T) Q P := by
  by_cases hp : p
  · simp only [if_pos hp]; exact h hp
  · simp only [if_neg hp]; exact h' hp

theorem Sim.forN {b : Nat → α → Eff (PyGraph × τ × List (Call D)) α}
    {y : Answers D → Nat → α → M α} {Q : Nat → List Question} {I : Prop}
    (h : ∀ i a, Sim Inv Fail (b i a) (fun T => y T i a) (Q i) (fun l _ => I → l = Q i)) :
    ∀ (n i : Nat) (a : α), Sim Inv Fail (Eff.forN n i b a) (fun T => CM.forN n i (y T) a)
      ((List.range' i n).flatMap Q) (fun l _ => I → l = (List.range' i n).flatMap Q) := by
  intro n
  induction n with
  | zero => intro i a; exact (Sim.lift (.ok a)).mono (List.Sublist.refl _) fun l a h _ => h.1
  | succ n ih =>
    intro i a
    have := Sim.bind (P2 := fun l _ => I → l = (List.range' i (n + 1)).flatMap Q) (h i a)
      (f := Eff.forN n (i + 1) b) (g := fun T => CM.forN n (i + 1) (y T))
      (Q2 := (List.range' (i + 1) n).flatMap Q) fun a l hl =>
        (ih (i + 1) a).mono (List.Sublist.refl _) fun l2 _ h2 hI => by
          rw [hl hI, h2 hI, List.range'_succ, List.flatMap_cons]
    rw [List.range'_succ, List.flatMap_cons]
    rw [List.range'_succ, List.flatMap_cons] at this
    intro pg t l hi
    obtain ⟨pg', t', l', r, h1, h2, h3, h4⟩ := this pg t l hi
    refine ⟨pg', t', l', r, h1, h2, h3, h4.imp id fun ⟨c, d⟩ => ⟨fun T hT => ?_, d⟩⟩
    rw [← c T hT]
    show CM.forN (n + 1) i (y T) a = (y T i a >>= CM.forN n (i + 1) (y T))
    rw [CM.forN]
    cases y T i a <;> rfl

theorem Sim.forRange {b : Nat → α → Eff (PyGraph × τ × List (Call D)) α}
    {y : Answers D → Nat → α → M α} {Q : Nat → List Question} {I : Prop}
    (h : ∀ i a, Sim Inv Fail (b i a) (fun T => y T i a) (Q i) (fun l _ => I → l = Q i))
    (lo hi : Nat) (a : α) :
    Sim Inv Fail (Eff.forRange lo hi b a) (fun T => CM.forRange lo hi (y T) a)
      ((List.range' lo (hi - lo)).flatMap Q)
      (fun l _ => I → l = (List.range' lo (hi - lo)).flatMap Q) := Sim.forN h _ _ _

/-- A loop that counts its iterations in `idx`. -/
theorem Sim.loop {b : α → Eff (PyGraph × τ × List (Call D)) (α ⊕ β)}
    {y : Answers D → α → M (α ⊕ β)} {Q : Nat → List Question} {idx : α → Nat}
    (h : ∀ a, Sim Inv Fail (b a) (fun T => y T a) (Q (idx a))
      (fun _ r => ∀ a', r = .inl a' → idx a' = idx a + 1)) :
    ∀ (n : Nat) (a : α), Sim Inv Fail (Eff.loop n b a) (fun T => CM.loop n (y T) a)
      ((List.range' (idx a) n).flatMap Q) (fun _ _ => True) := by
  intro n
  induction n with
  | zero => intro a; exact (Sim.lift _).mono (List.Sublist.refl _) fun _ _ _ => trivial
  | succ n ih =>
    intro a
    have := Sim.bind (P2 := fun _ (_ : β) => True) (h a)
      (f := fun | .inl a' => Eff.loop n b a' | .inr c => Eff.lift (.ok c))
      (g := fun T => fun | .inl a' => CM.loop n (y T) a' | .inr c => .ok c)
      (Q2 := (List.range' (idx a + 1) n).flatMap Q) fun r l hl => by
        cases r with
        | inl a' =>
          have := ih a'
          rw [hl a' rfl] at this
          exact this
        | inr c => exact (Sim.lift _).mono (List.nil_sublist _) fun _ _ _ => trivial
    rw [List.range'_succ, List.flatMap_cons]
    intro pg t l hi
    obtain ⟨pg', t', l', r, h1, h2, h3, h4⟩ := this pg t l hi
    refine ⟨pg', t', l', r, h1, h2, h3, h4.imp id fun ⟨c, d⟩ => ⟨fun T hT => ?_, d⟩⟩
    rw [← c T hT]
    show CM.loop (n + 1) (y T) a = (y T a >>= fun
      | .inl a' => CM.loop n (y T) a'
      | .inr c => .ok c)
    rw [CM.loop]
    cases y T a with
    | error e => rfl
    | ok r => cases r <;> rfl

/-- One question. -/
theorem Sim.ask {mk : α → Call D} {f : Eff (PyGraph × τ) α} {y : Answers D → α} {q : Question}
    (hI : ∀ s, Inv s → Inv (f s).1) (hF : ∀ s e, Inv s → (f s).2 = .error e → Fail e)
    (hq : ∀ a, (mk a).question = q) (hy : ∀ a T, (mk a).Agrees T → y T = a) :
    Sim Inv Fail (noted mk f) (fun T => .ok (y T)) [q] (fun l _ => l = [q]) := by
  intro pg t l hi
  have h1 := hI _ hi
  have h2 := fun e => hF _ e hi
  unfold noted
  rcases hr : f (pg, t) with ⟨⟨pg', t'⟩, r⟩
  rw [hr] at h1 h2
  cases r with
  | error e =>
    exact ⟨pg', t', [], .error e, h1, by simp, List.nil_sublist _, Or.inl ⟨e, h2 e rfl, rfl⟩⟩
  | ok a =>
    refine ⟨pg', t', [mk a], .ok a, h1, rfl, by simp [hq], Or.inr ⟨fun T hT => ?_, fun b _ => ?_⟩⟩
    · simp only
      rw [hy a T (hT _ (List.mem_singleton.2 rfl))]
    · simp [hq]

/-! ### The functions of a user -/

section
variable {F : Fns (PyGraph × τ) D}

theorem sim_d1 (hF : F.Keeps Inv) (i j : Nat) :
    Sim Inv (F.Fails Inv) (F.noted.d1 i j) (fun T => .ok (T.d1 i j)) [.d1 i j]
      (fun l _ => l = [.d1 i j]) :=
  Sim.ask (y := fun T => T.d1 i j) (fun s => hF.d1 s i j) (fun s _ h e => ⟨s, h, Or.inl ⟨i, j, e⟩⟩)
    (fun _ => rfl) fun _ _ h => h

theorem sim_d2 (hF : F.Keeps Inv) (i j : Nat) :
    Sim Inv (F.Fails Inv) (F.noted.d2 i j) (fun T => .ok (T.d2 i j)) [.d2 i j]
      (fun l _ => l = [.d2 i j]) :=
  Sim.ask (y := fun T => T.d2 i j) (fun s => hF.d2 s i j)
    (fun s _ h e => ⟨s, h, Or.inr (Or.inl ⟨i, j, e⟩)⟩) (fun _ => rfl) fun _ _ h => h

theorem sim_c (hF : F.Keeps Inv) (i1 i2 j1 j2 : Nat) :
    Sim Inv (F.Fails Inv) (F.noted.c i1 i2 j1 j2) (fun T => .ok (T.c i1 i2 j1 j2)) [.c i1 i2 j1 j2]
      (fun l _ => l = [.c i1 i2 j1 j2]) :=
  Sim.ask (y := fun T => T.c i1 i2 j1 j2) (fun s => hF.c s i1 i2 j1 j2)
    (fun s _ h e => ⟨s, h, Or.inr (Or.inr ⟨i1, i2, j1, j2, e⟩)⟩) (fun _ => rfl) fun _ _ h => h

/-- The questions of `fill_dists`, in order. -/
def rowQ (mk : Nat → Nat → Question) (N : Nat) (sym : Bool) (i : Nat) : List Question :=
  (List.range' (if sym then i + 1 else 0) (N - (if sym then i + 1 else 0))).flatMap
    fun j => if j = i then [] else [mk i j]

def fillQ (mk : Nat → Nat → Question) (N : Nat) (sym : Bool) : List Question :=
  (List.range' 0 (N - 0)).flatMap (rowQ mk N sym)

theorem sim_fillDists [Inhabited D] {d : Nat → Nat → Eff (PyGraph × τ × List (Call D)) D}
    {y : Answers D → Nat → Nat → D} {mk : Nat → Nat → Question}
    (hd : ∀ i j, Sim Inv Fail (d i j) (fun T => .ok (y T i j)) [mk i j] (fun l _ => l = [mk i j]))
    (srt : List (PairDist D) → List (PairDist D)) (N : Nat) (sym : Bool) :
    Sim Inv Fail (fillDistsE srt N sym d) (fun T => fillDists srt N sym (y T)) (fillQ mk N sym)
      (fun l _ => l = fillQ mk N sym) := by
  unfold fillDistsE fillDists
  refine Sim.before (f := fun x : List (PairDist D) × Nat => .ok (srt x.1))
    (Sim.forRange (I := True) (y := fun T i s => CM.forRange (if sym then i + 1 else 0) N
      (fun j (s : List (PairDist D) × Nat) =>
        if j = i then .ok s
        else do
          let b ← wr s.1 s.2 { first := i, second := j, dist := y T i j }
          .ok (b, s.2 + 1)) s) (fun i s => ?_) 0 N _) fun l a b h _ => h trivial
  refine Sim.forRange (I := True) (y := fun T j (s : List (PairDist D) × Nat) =>
        if j = i then .ok s
        else do
          let b ← wr s.1 s.2 { first := i, second := j, dist := y T i j }
          .ok (b, s.2 + 1)) (Q := fun j => if j = i then [] else [mk i j]) (fun j s => ?_) _ N s
  by_cases hji : j = i
  · simp only [if_pos hji]
    exact (Sim.lift _).mono (List.Sublist.refl _) fun _ _ h _ => h.1
  · simp only [if_neg hji]
    have := Sim.bind (Q2 := []) (P2 := fun l _ => True → l = [mk i j]) (hd i j)
      (f := fun x => Eff.lift (wr s.1 s.2 { first := i, second := j, dist := x }) >>= fun b =>
        Eff.lift (.ok (b, s.2 + 1)))
      (g := fun _ x => wr s.1 s.2 { first := i, second := j, dist := x } >>= fun b =>
        .ok (b, s.2 + 1)) fun a l hl => by
          refine Sim.after (g := fun _ b => .ok (b, s.2 + 1)) fun b _ => ?_
          exact (Sim.lift _).mono (List.Sublist.refl _) fun l2 _ h2 _ => by rw [hl, h2.1]; rfl
    rw [List.append_nil] at this
    exact this

/-- The questions about two pairs of elements. -/
def askQ (sym1 sym2 : Bool) (x y : PairDist D) : List Question :=
  if !sym1 && !sym2 then [.c x.first x.second y.first y.second]
  else [.c x.first x.second y.first y.second, .c x.first x.second y.second y.first]

theorem range'_flatMap_get (l : List α) (f : α → List β) (i n : Nat) :
    ((List.range' i n).flatMap fun j => (l[j]?).elim [] f).Sublist (l.flatMap f) := by
  have key : ∀ k, ((List.range k).flatMap fun j => (l[j]?).elim [] f) = (l.take k).flatMap f := by
    intro k
    induction k with
    | zero => simp
    | succ k ih =>
      rw [List.range_succ, List.flatMap_append, ih, List.take_succ, List.flatMap_append]
      congr 1
      rw [List.flatMap_cons, List.flatMap_nil, List.append_nil]
      cases l[k]? <;> simp
  have h1 : (List.range' i n).Sublist (List.range (i + n)) := by
    rw [List.range_eq_range', ← List.range'_append_1 (s := 0), Nat.zero_add]
    exact List.sublist_append_right _ _
  refine (h1.flatMap _).trans ?_
  rw [key]
  exact (List.take_sublist _ _).flatMap _

theorem sim_step (hF : F.Keeps Inv) (N : Nat) (sym1 sym2 : Bool) (x y : PairDist D)
    (s : Edges × Nat) {P : List Question → Edges × Nat → Prop} :
    Sim Inv (F.Fails Inv)
      (F.noted.c x.first x.second y.first y.second >>= fun a =>
        let s := if a then
            (link s.1 (pairVertex N x.first y.first) (pairVertex N x.second y.second), s.2 + 1)
          else s
        if !sym1 && !sym2 then Eff.lift (.ok s)
        else F.noted.c x.first x.second y.second y.first >>= fun b =>
          if b then
            Eff.lift (.ok (link s.1 (pairVertex N x.second y.first)
              (pairVertex N x.first y.second), s.2 + 1))
          else Eff.lift (.ok s))
      (fun T =>
        let s := if T.c x.first x.second y.first y.second then
            (link s.1 (pairVertex N x.first y.first) (pairVertex N x.second y.second), s.2 + 1)
          else s
        if !sym1 && !sym2 then .ok s
        else if T.c x.first x.second y.second y.first then
          .ok (link s.1 (pairVertex N x.second y.first) (pairVertex N x.first y.second), s.2 + 1)
        else .ok s)
      (askQ sym1 sym2 x y) (fun l a => False → P l a) := by
  unfold askQ
  by_cases h : (!sym1 && !sym2) = true
  · simp only [if_pos h]
    exact Sim.bind (Q2 := []) (P2 := fun l a => False → P l a)
      (sim_c hF x.first x.second y.first y.second)
      (g := fun _ a => .ok (if a then
        (link s.1 (pairVertex N x.first y.first) (pairVertex N x.second y.second), s.2 + 1) else s))
      fun a l _ => (Sim.lift _).mono (List.Sublist.refl _) fun _ _ _ h => h.elim
  · simp only [if_neg h]
    refine Sim.bind (Q2 := [.c x.first x.second y.second y.first]) (P2 := fun l a => False → P l a)
      (sim_c hF x.first x.second y.first y.second)
      (g := fun T a =>
        let s := if a then
            (link s.1 (pairVertex N x.first y.first) (pairVertex N x.second y.second), s.2 + 1)
          else s
        if T.c x.first x.second y.second y.first then
          .ok (link s.1 (pairVertex N x.second y.first) (pairVertex N x.first y.second), s.2 + 1)
        else .ok s) fun a l _ => ?_
    refine Sim.bind (Q2 := []) (P2 := fun l2 a => False → P (l ++ l2) a)
      (sim_c hF x.first x.second y.second y.first)
      (g := fun _ b =>
        let s := if a then
            (link s.1 (pairVertex N x.first y.first) (pairVertex N x.second y.second), s.2 + 1)
          else s
        if b then
          .ok (link s.1 (pairVertex N x.second y.first) (pairVertex N x.first y.second), s.2 + 1)
        else .ok s) fun b l2 _ => ?_
    cases b <;>
    exact (Sim.lift _).mono (List.Sublist.refl _) fun _ _ _ h => h.elim

theorem sim_efrCondition [LinearOrder D] (hF : F.Keeps Inv) (M N : Nat) (sym1 sym2 : Bool)
    (d1 d2 : List (PairDist D)) (w : Window D) :
    Sim Inv (F.Fails Inv) (efrConditionE M N sym1 sym2 d1 d2 w F.noted.c)
      (fun T => efrCondition M N sym1 sym2 d1 d2 w T.c)
      (d1.flatMap fun x => d2.flatMap (askQ sym1 sym2 x)) (fun _ _ => True) := by
  unfold efrConditionE efrCondition
  generalize (if sym1 = true then umul M (usub M 1) / 2 else umul M (usub M 1)) = len1
  generalize (if sym2 = true then umul N (usub N 1) / 2 else umul N (usub N 1)) = len2
  refine Sim.ite (fun _ => (Sim.lift _).mono (List.nil_sublist _) fun _ _ _ => trivial) fun _ => ?_
  refine Sim.before (f := fun x : Edges × Nat => .ok (umul M N, x.2, x.1))
    (P1 := fun _ _ => True) ?_ fun _ _ _ _ _ => trivial
  refine (Sim.loop (idx := fun s : Nat × Edges × Nat => s.1)
    (Q := fun i => (d1[i]?).elim [] fun x => d2.flatMap (askQ sym1 sym2 x)) (fun s => ?_) _ _).mono
    (range'_flatMap_get _ _ _ _) fun _ _ _ => trivial
  obtain ⟨i, es, m⟩ := s
  refine Sim.ite (fun _ => ?_) fun _ => (Sim.lift _).mono (List.nil_sublist _) fun l a h a' e => ?_
  · refine Sim.after fun x hx => ?_
    have hx' : d1[i]? = some x := rd_eq_ok.1 hx
    simp only [hx', Option.elim]
    refine Sim.after fun f1 _ => ?_
    refine Sim.ite (fun _ => (Sim.lift _).mono (List.nil_sublist _) fun l a h a' e => ?_) fun _ => ?_
    · cases h.2; cases e
    refine Sim.after fun f2 _ => ?_
    refine Sim.before (P1 := fun _ _ => True)
      (f := fun s : Edges × Nat =>
        (.ok (Sum.inl (i + 1, s)) : Except Fault ((Nat × Edges × Nat) ⊕ (Edges × Nat))))
      ((Sim.forRange (I := False) (Q := fun j => (d2[j]?).elim [] (askQ sym1 sym2 x))
        (fun j s => ?_) _ _ _).mono (range'_flatMap_get _ _ _ _) fun _ _ _ => trivial)
      (fun l a b _ e => ?_)
    · refine Sim.after fun y hy => ?_
      have hy' : d2[j]? = some y := rd_eq_ok.1 hy
      simp only [hy', Option.elim]
      exact sim_step hF N sym1 sym2 x y s
    · cases e
      intro a' e'
      cases e'
      rfl
  · cases h.2; cases e

/-- The questions of `build_edges_condition_only`, in order. -/
def condQ (M N : Nat) : List Question :=
  (List.range' 0 (M - 0)).flatMap fun i1 => (List.range' (i1 + 1) (M - (i1 + 1))).flatMap fun i2 =>
    (List.range' 0 (N - 0)).flatMap fun j1 => (List.range' (j1 + 1) (N - (j1 + 1))).flatMap fun j2 =>
      [.c i1 i2 j1 j2]

/-- The loops of `build_edges_condition_only`. -/
def condLoop (M N : Nat) (c : Nat → Nat → Nat → Nat → Bool) : CM.M (Edges × Nat) :=
  CM.forRange 0 M (fun i1 s =>
    CM.forRange (i1 + 1) M (fun i2 s =>
      CM.forRange 0 N (fun j1 s =>
        CM.forRange (j1 + 1) N (fun j2 (s : Edges × Nat) =>
          if c i1 i2 j1 j2 then
            let es := link s.1 (pairVertex N i1 j1) (pairVertex N i2 j2)
            let es := link es (pairVertex N i2 j1) (pairVertex N i1 j2)
            .ok (es, s.2 + 2)
          else .ok s) s) s) s) (PyGraph.selfLoops (umul M N), 0)

theorem buildCondition_loop (argLR : Bool) (cap : Nat) (pg : PyGraph) (M N : Nat)
    (c : Nat → Nat → Nat → Nat → Bool) :
    buildCondition argLR cap pg M N c = condLoop M N c >>= fun x =>
      if x.1.length = 0 then .error .throw
      else PyGraph.loadGraph argLR cap pg (umul M N) x.2 x.1 := rfl

/-- The loops of `build_edges_condition_only`. -/
def condLoopE {σ : Type} (M N : Nat) (F : Fns σ D) : Eff σ (Edges × Nat) :=
  Eff.forRange 0 M (fun i1 s =>
    Eff.forRange (i1 + 1) M (fun i2 s =>
      Eff.forRange 0 N (fun j1 s =>
        Eff.forRange (j1 + 1) N (fun j2 (s : Edges × Nat) => F.c i1 i2 j1 j2 >>= fun a =>
          if a then
            let es := link s.1 (pairVertex N i1 j1) (pairVertex N i2 j2)
            let es := link es (pairVertex N i2 j1) (pairVertex N i1 j2)
            Eff.lift (.ok (es, s.2 + 2))
          else Eff.lift (.ok s)) s) s) s) (PyGraph.selfLoops (umul M N), 0)

theorem buildConditionE_loop (argLR : Bool) (cap : Nat) (M N : Nat) :
    buildConditionE argLR cap M N F = condLoopE M N F >>= fun x =>
      if x.1.length = 0 then Eff.lift (.error .throw)
      else loadE argLR cap (umul M N) x.2 x.1 := rfl

theorem sim_condLoop (hF : F.Keeps Inv) (M N : Nat) :
    Sim Inv (F.Fails Inv) (condLoopE M N F.noted) (fun T => condLoop M N T.c) (condQ M N)
      (fun l _ => True → l = condQ M N) := by
  unfold condLoopE condLoop condQ
  refine Sim.forRange (fun i1 s => ?_) _ _ _
  refine Sim.forRange (fun i2 s => ?_) _ _ _
  refine Sim.forRange (fun j1 s => ?_) _ _ _
  refine Sim.forRange (fun j2 s => ?_) _ _ _
  refine Sim.bind (Q2 := []) (P2 := fun l _ => True → l = [.c i1 i2 j1 j2]) (sim_c hF i1 i2 j1 j2)
    (g := fun _ a =>
      if a then
        let es := link s.1 (pairVertex N i1 j1) (pairVertex N i2 j2)
        let es := link es (pairVertex N i2 j1) (pairVertex N i1 j2)
        .ok (es, s.2 + 2)
      else .ok s) fun a l hl => ?_
  cases a <;>
  exact (Sim.lift _).mono (List.Sublist.refl _) fun _ _ h _ => by rw [hl, h.1]; rfl

/-! ### Tables -/

theorem exists_answers [Inhabited D] (l : List (Call D)) (h : (l.map Call.question).Nodup) :
    ∃ T : Answers D, ∀ q ∈ l, q.Agrees T := by
  induction l with
  | nil => exact ⟨⟨fun _ _ => default, fun _ _ => default, fun _ _ _ _ => false⟩, by simp⟩
  | cons q l ih =>
    rw [List.map_cons, List.nodup_cons] at h
    obtain ⟨T, hT⟩ := ih h.2
    have hne : ∀ p ∈ l, p.question ≠ q.question := fun p hp e => h.1 (List.mem_map.2 ⟨p, hp, e⟩)
    cases q with
    | d1 i j x =>
      refine ⟨{ T with d1 := fun a b => if a = i ∧ b = j then x else T.d1 a b }, ?_⟩
      intro p hp
      rcases List.mem_cons.1 hp with rfl | hp
      · simp [Call.Agrees]
      · have h1 := hT p hp
        have h2 := hne p hp
        cases p with
        | d1 a b y =>
          simp only [Call.Agrees, Call.question, ne_eq, Question.d1.injEq] at h1 h2 ⊢
          rw [if_neg h2, h1]
        | d2 a b y => exact h1
        | c a b c d y => exact h1
    | d2 i j x =>
      refine ⟨{ T with d2 := fun a b => if a = i ∧ b = j then x else T.d2 a b }, ?_⟩
      intro p hp
      rcases List.mem_cons.1 hp with rfl | hp
      · simp [Call.Agrees]
      · have h1 := hT p hp
        have h2 := hne p hp
        cases p with
        | d2 a b y =>
          simp only [Call.Agrees, Call.question, ne_eq, Question.d2.injEq] at h1 h2 ⊢
          rw [if_neg h2, h1]
        | d1 a b y => exact h1
        | c a b c d y => exact h1
    | c i1 i2 j1 j2 x =>
      refine ⟨{ T with c := fun a b c d =>
        if a = i1 ∧ b = i2 ∧ c = j1 ∧ d = j2 then x else T.c a b c d }, ?_⟩
      intro p hp
      rcases List.mem_cons.1 hp with rfl | hp
      · simp [Call.Agrees]
      · have h1 := hT p hp
        have h2 := hne p hp
        cases p with
        | c a b c d y =>
          simp only [Call.Agrees, Call.question, ne_eq, Question.c.injEq] at h1 h2 ⊢
          rw [if_neg h2, h1]
        | d1 a b y => exact h1
        | d2 a b y => exact h1

theorem fillQ_eq (mk : Nat → Nat → Question) (N : Nat) (sym : Bool) :
    fillQ mk N sym = (pairs N sym).map fun p => mk p.1 p.2 := by
  unfold fillQ pairs rowQ
  rw [List.filter_flatMap, List.map_flatMap, Nat.sub_zero, ← List.range_eq_range']
  apply List.flatMap_congr
  intro i hi
  rw [List.mem_range] at hi
  cases sym with
  | false =>
    simp only [Bool.false_eq_true, if_false, Nat.sub_zero]
    rw [← List.range_eq_range']
    generalize List.range N = l
    induction l with
    | nil => rfl
    | cons j l ih =>
      rw [List.flatMap_cons, ih, List.map_cons, List.filter_cons]
      by_cases h : j = i
      · subst h; simp
      · have : i ≠ j := fun e => h e.symm
        simp [h, this]
  | true =>
    simp only [if_true]
    have e : List.range N = List.range' 0 (i + 1) ++ List.range' (i + 1) (N - (i + 1)) := by
      have := List.range'_append_1 (s := 0) (m := i + 1) (n := N - (i + 1))
      rw [Nat.zero_add] at this
      rw [List.range_eq_range', this]
      congr 1
      omega
    rw [e, List.map_append, List.filter_append]
    have e1 : ((List.range' 0 (i + 1)).map fun j => (i, j)).filter
        (fun p => decide (p.1 < p.2)) = [] := by
      rw [List.filter_eq_nil_iff]
      simp only [List.mem_map, List.mem_range'_1]
      rintro p ⟨j, hj, rfl⟩
      simp only [decide_eq_true_eq]
      omega
    have e2 : ((List.range' (i + 1) (N - (i + 1))).map fun j => (i, j)).filter
        (fun p => decide (p.1 < p.2)) = (List.range' (i + 1) (N - (i + 1))).map fun j => (i, j) := by
      rw [List.filter_eq_self]
      simp only [List.mem_map, List.mem_range'_1]
      rintro p ⟨j, hj, rfl⟩
      simp only [decide_eq_true_eq]
      omega
    rw [e1, e2, List.nil_append, List.map_map]
    have : ∀ l : List Nat, (∀ j ∈ l, j ≠ i) →
        (l.flatMap fun j => if j = i then [] else [mk i j]) = l.map fun j => mk i j := by
      intro l hl
      induction l with
      | nil => rfl
      | cons j l ih =>
        rw [List.flatMap_cons, ih fun a ha => hl a (List.mem_cons_of_mem _ ha),
          if_neg (hl j List.mem_cons_self), List.map_cons]
        rfl
    exact this _ fun j hj => by rw [List.mem_range'_1] at hj; omega

theorem pairs_true (N : Nat) : pairs N true = (List.range' 0 (N - 0)).flatMap fun i =>
    (List.range' (i + 1) (N - (i + 1))).flatMap fun j => [(i, j)] := by
  unfold pairs
  rw [List.filter_flatMap, Nat.sub_zero, ← List.range_eq_range']
  apply List.flatMap_congr
  intro i hi
  rw [List.mem_range] at hi
  simp only [if_true]
  have e : List.range N = List.range' 0 (i + 1) ++ List.range' (i + 1) (N - (i + 1)) := by
    have := List.range'_append_1 (s := 0) (m := i + 1) (n := N - (i + 1))
    rw [Nat.zero_add] at this
    rw [List.range_eq_range', this]
    congr 1
    omega
  rw [e, List.map_append, List.filter_append]
  have e1 : ((List.range' 0 (i + 1)).map fun j => (i, j)).filter
      (fun p => decide (p.1 < p.2)) = [] := by
    rw [List.filter_eq_nil_iff]
    simp only [List.mem_map, List.mem_range'_1]
    rintro p ⟨j, hj, rfl⟩
    simp only [decide_eq_true_eq]
    omega
  have e2 : ((List.range' (i + 1) (N - (i + 1))).map fun j => (i, j)).filter
      (fun p => decide (p.1 < p.2)) = (List.range' (i + 1) (N - (i + 1))).map fun j => (i, j) := by
    rw [List.filter_eq_self]
    simp only [List.mem_map, List.mem_range'_1]
    rintro p ⟨j, hj, rfl⟩
    simp only [decide_eq_true_eq]
    omega
  rw [e1, e2, List.nil_append, List.map_eq_flatMap]

theorem condQ_eq (M N : Nat) : condQ M N = (pairs M true).flatMap fun p =>
    (pairs N true).map fun r => .c p.1 p.2 r.1 r.2 := by
  unfold condQ
  rw [pairs_true, pairs_true]
  simp only [List.flatMap_assoc, List.map_flatMap, List.flatMap_cons, List.flatMap_nil,
    List.append_nil, List.map_cons, List.map_nil]

theorem pairs_nodup (N : Nat) (sym : Bool) : (pairs N sym).Nodup := by
  unfold pairs
  refine List.Nodup.filter _ (nodup_keyed (fun p => p.1) List.nodup_range (fun i _ => ?_) ?_)
  · exact List.nodup_range.map fun a b h => (Prod.mk.inj h).2
  · intro i _ e he
    obtain ⟨j, _, rfl⟩ := List.mem_map.1 he
    rfl

theorem distQ_nodup (M N : Nat) (sym1 sym2 : Bool) :
    (fillQ .d1 M sym1 ++ fillQ .d2 N sym2).Nodup := by
  rw [fillQ_eq, fillQ_eq]
  refine List.Nodup.append ?_ ?_ ?_
  · exact (pairs_nodup M sym1).map fun a b h => by
      injection h with h1 h2; exact Prod.ext h1 h2
  · exact (pairs_nodup N sym2).map fun a b h => by
      injection h with h1 h2; exact Prod.ext h1 h2
  · intro q h1 h2
    obtain ⟨_, _, rfl⟩ := List.mem_map.1 h1
    obtain ⟨_, _, e⟩ := List.mem_map.1 h2
    cases e

theorem condQ_nodup (M N : Nat) : (condQ M N).Nodup := by
  have key : ∀ i1 i2 j1 j2 : Nat, ∀ e ∈ [Question.c i1 i2 j1 j2], e = .c i1 i2 j1 j2 := by simp
  unfold condQ
  refine nodup_keyed (fun q => match q with | .c i1 _ _ _ => i1 | _ => 0) List.nodup_range'
    (fun i1 _ => ?_) ?_
  · refine nodup_keyed (fun q => match q with | .c _ i2 _ _ => i2 | _ => 0) List.nodup_range'
      (fun i2 _ => ?_) ?_
    · refine nodup_keyed (fun q => match q with | .c _ _ j1 _ => j1 | _ => 0) List.nodup_range'
        (fun j1 _ => ?_) ?_
      · refine nodup_keyed (fun q => match q with | .c _ _ _ j2 => j2 | _ => 0) List.nodup_range'
          (fun j2 _ => by simp) ?_
        intro j2 _ e he
        rw [key _ _ _ _ e he]
      · intro j1 _ e he
        obtain ⟨j2, _, he⟩ := List.mem_flatMap.1 he
        rw [key _ _ _ _ e he]
    · intro i2 _ e he
      obtain ⟨j1, _, he⟩ := List.mem_flatMap.1 he
      obtain ⟨j2, _, he⟩ := List.mem_flatMap.1 he
      rw [key _ _ _ _ e he]
  · intro i1 _ e he
    obtain ⟨i2, _, he⟩ := List.mem_flatMap.1 he
    obtain ⟨j1, _, he⟩ := List.mem_flatMap.1 he
    obtain ⟨j2, _, he⟩ := List.mem_flatMap.1 he
    rw [key _ _ _ _ e he]

/-- Two phases, of which the first asks fixed questions and never fails by itself. -/
theorem Sim.run [Inhabited D] {x : Eff (PyGraph × τ × List (Call D)) α} {y : Answers D → M α}
    {Q1 : List Question} {f : α → Eff (PyGraph × τ × List (Call D)) β} {g : Answers D → α → M β}
    {Q2 : α → List Question} {P2 : α → List Question → β → Prop}
    (h1 : Sim Inv Fail x y Q1 (fun l _ => l = Q1)) (hy : ∀ T, ∃ a, y T = .ok a)
    (h2 : ∀ a, (∃ T, y T = .ok a) → Sim Inv Fail (f a) (fun T => g T a) (Q2 a) (P2 a))
    (hQ : Q1.Nodup) (hQ2 : ∀ a, (∃ T, y T = .ok a) → (Q1 ++ Q2 a).Nodup) {pg : PyGraph} {t : τ}
    (hi : Inv (pg, t)) :
    ∃ pg1 t1 log r, Inv (pg1, t1) ∧ (x >>= f) (pg, t, []) = ((pg1, t1, log), r) ∧
      ((∃ e, Fail e ∧ r = .error e) ∨
        ∃ T a qs, (∀ q ∈ log, q.Agrees T) ∧ y T = .ok a ∧ g T a = r ∧
          log.map Call.question = Q1 ++ qs ∧ qs.Sublist (Q2 a) ∧ ∀ b, r = .ok b → P2 a qs b) := by
  obtain ⟨pg1, t1, l1, r1, i1, e1, q1, c1⟩ := h1 pg t [] hi
  show ∃ pg' t' l' r, Inv (pg', t') ∧ Eff.bind x f (pg, t, []) = _ ∧ _
  unfold Eff.bind
  rw [e1]
  rcases c1 with ⟨e, he, hr⟩ | ⟨c1, p1⟩
  · subst hr
    exact ⟨pg1, t1, l1, .error e, i1, rfl, Or.inl ⟨e, he, rfl⟩⟩
  · obtain ⟨T0, hT0⟩ := exists_answers l1 (hQ.sublist q1)
    obtain ⟨a, ha⟩ := hy T0
    have hr := c1 T0 hT0
    rw [ha] at hr
    subst hr
    obtain ⟨pg2, t2, l2, r2, i2, e2, q2, c2⟩ := h2 a ⟨T0, ha⟩ pg1 t1 ([] ++ l1) i1
    refine ⟨pg2, t2, l1 ++ l2, r2, i2, by simpa using e2, c2.imp id fun ⟨c2, p2⟩ => ?_⟩
    have hq : (l1 ++ l2).map Call.question = Q1 ++ l2.map Call.question := by
      rw [List.map_append, p1 a rfl]
    obtain ⟨T, hT⟩ := exists_answers (l1 ++ l2) (by
      rw [hq]
      exact (hQ2 a ⟨T0, ha⟩).sublist (List.Sublist.append (List.Sublist.refl _) q2))
    exact ⟨T, a, l2.map Call.question, hT, c1 T fun q h => hT q (List.mem_append_left _ h),
      c2 T fun q h => hT q (List.mem_append_right _ h), hq, q2, p2⟩

theorem Eff.assoc {σ : Type} (x : Eff σ α) (f : α → Eff σ β) (g : β → Eff σ γ) :
    (x >>= f) >>= g = x >>= fun a => f a >>= g := by
  funext s
  show Eff.bind (Eff.bind x f) g s = Eff.bind x (fun a => Eff.bind (f a) g) s
  unfold Eff.bind
  rcases x s with ⟨s', r⟩
  cases r <;> rfl

theorem Eff.run_ok {σ : Type} {x : Eff σ α} {k : α → Eff σ β} {s s' : σ} {a : α}
    (h : x s = (s', .ok a)) : (x >>= k) s = k a s' := by
  show Eff.bind x k s = _
  unfold Eff.bind
  rw [h]

theorem Eff.run_error {σ : Type} {x : Eff σ α} {k : α → Eff σ β} {s s' : σ} {e : Fault}
    (h : x s = (s', .error e)) : (x >>= k) s = (s', .error e) := by
  show Eff.bind x k s = _
  unfold Eff.bind
  rw [h]

theorem loadE_eq (argLR : Bool) (cap n m : Nat) (es : Edges) (s : PyGraph × τ) :
    (if es.length = 0 then Eff.lift (.error .throw) else loadE argLR cap n m es) s =
      ended s (if es.length = 0 then .error .throw
        else PyGraph.loadGraph argLR cap s.1 n m es) := by
  split
  · rfl
  · unfold loadE ended
    cases PyGraph.loadGraph argLR cap s.1 n m es <;> rfl

/-- The end of every builder. -/
theorem run_load {x : Eff (PyGraph × τ) (Nat × Nat × Edges)} {s s' : PyGraph × τ}
    {r : M (Nat × Nat × Edges)} (argLR : Bool) (cap : Nat) (h : x s = (s', r)) :
    (x >>= fun a => if a.2.2.length = 0 then Eff.lift (.error .throw)
      else loadE argLR cap a.1 a.2.1 a.2.2) s =
    ended s' (r >>= fun a => if a.2.2.length = 0 then .error .throw
      else PyGraph.loadGraph argLR cap s'.1 a.1 a.2.1 a.2.2) := by
  cases r with
  | ok a => rw [Eff.run_ok h, loadE_eq, ok_bind]
  | error e => rw [Eff.run_error h]; rfl

variable [LinearOrder D] [Inhabited D]

/-- Both lists of distances. -/
def fillBoth {σ : Type} (srt1 srt2 : List (PairDist D) → List (PairDist D)) (M N : Nat)
    (F : Fns σ D) (sym1 sym2 : Bool) : Eff σ (List (PairDist D) × List (PairDist D)) :=
  fillDistsE srt1 M sym1 F.d1 >>= fun ps1 => fillDistsE srt2 N sym2 F.d2 >>= fun ps2 =>
    Eff.lift (.ok (ps1, ps2))

omit [LinearOrder D] in
theorem sim_fillBoth (hF : F.Keeps Inv) (srt1 srt2 : List (PairDist D) → List (PairDist D))
    {M N : Nat} (hM : M < 2 ^ 31) (hN : N < 2 ^ 31) (sym1 sym2 : Bool) :
    Sim Inv (F.Fails Inv) (fillBoth srt1 srt2 M N F.noted sym1 sym2)
      (fun T => .ok (srt1 (pairList M sym1 T.d1), srt2 (pairList N sym2 T.d2)))
      (fillQ .d1 M sym1 ++ fillQ .d2 N sym2)
      (fun l _ => l = fillQ .d1 M sym1 ++ fillQ .d2 N sym2) := by
  have h1 := sim_fillDists (fun i j => sim_d1 hF i j) srt1 M sym1
  have h2 := sim_fillDists (fun i j => sim_d2 hF i j) srt2 N sym2
  have := Sim.bind (P2 := fun l _ => l = fillQ .d1 M sym1 ++ fillQ .d2 N sym2) h1
    (f := fun ps1 => fillDistsE srt2 N sym2 F.noted.d2 >>= fun ps2 => Eff.lift (.ok (ps1, ps2)))
    (g := fun T ps1 => fillDists srt2 N sym2 T.d2 >>= fun ps2 => .ok (ps1, ps2))
    fun ps1 l hl => Sim.before (f := fun ps2 => .ok (ps1, ps2)) h2 fun l2 _ _ h _ => by rw [hl, h]
  intro pg t l hi
  obtain ⟨pg', t', l', r, a, b, c, d⟩ := this pg t l hi
  refine ⟨pg', t', l', r, a, b, c, d.imp id fun ⟨d, e⟩ => ⟨fun T hT => ?_, e⟩⟩
  rw [← d T hT]
  simp only [fillDists_spec hM, fillDists_spec hN, ok_bind]

theorem buildMetricE_eq {argLR : Bool} {cap : Nat} {srt1 srt2 : List (PairDist D) → List (PairDist D)}
    {M N : Nat} {w : Window D} {sym1 sym2 : Bool} :
    buildMetricE argLR cap srt1 srt2 M N w F sym1 sym2 =
      (fillBoth srt1 srt2 M N F sym1 sym2 >>= fun ps =>
        Eff.lift (edgesFromRelsets M N sym1 sym2 ps.1 ps.2 w)) >>= fun a =>
        if a.2.2.length = 0 then Eff.lift (.error .throw) else loadE argLR cap a.1 a.2.1 a.2.2 := by
  unfold fillBoth
  simp only [Eff.assoc]
  rfl

theorem buildBothE_eq {argLR : Bool} {cap : Nat} {srt1 srt2 : List (PairDist D) → List (PairDist D)}
    {M N : Nat} {w : Window D} {sym1 sym2 : Bool} :
    buildBothE argLR cap srt1 srt2 M N w F sym1 sym2 =
      (fillBoth srt1 srt2 M N F sym1 sym2 >>= fun ps =>
        efrConditionE M N sym1 sym2 ps.1 ps.2 w F.c) >>= fun a =>
        if a.2.2.length = 0 then Eff.lift (.error .throw) else loadE argLR cap a.1 a.2.1 a.2.2 := by
  unfold fillBoth
  simp only [Eff.assoc]
  rfl

omit [LinearOrder D] [Inhabited D] in
theorem buildConditionE_eq {argLR : Bool} {cap M N : Nat} :
    buildConditionE argLR cap M N F =
      (condLoopE M N F >>= fun x => Eff.lift (.ok (umul M N, x.2, x.1))) >>= fun a =>
        if a.2.2.length = 0 then Eff.lift (.error .throw) else loadE argLR cap a.1 a.2.1 a.2.2 := by
  rw [Eff.assoc]
  rfl

omit [LinearOrder D] [Inhabited D] in
theorem pairList_keys {N : Nat} {sym : Bool} {d : Nat → Nat → D} :
    ((pairList N sym d).map fun p => (p.first, p.second)).Nodup := by
  unfold pairList
  rw [List.map_flatMap]
  refine nodup_keyed (fun e => e.1) List.nodup_range' (fun i _ => ?_) ?_
  · unfold pairRow
    rw [List.map_flatMap]
    refine nodup_keyed (fun e => e.2) List.nodup_range' (fun j _ => ?_) ?_
    · split <;> simp
    · intro j _ e he
      split at he
      · simp at he
      · simp only [List.map_cons, List.map_nil, List.mem_singleton] at he
        rw [he]
  · intro i _ e he
    obtain ⟨p, hp, rfl⟩ := List.mem_map.1 he
    unfold pairRow at hp
    obtain ⟨j, _, hp⟩ := List.mem_flatMap.1 hp
    split at hp
    · simp at hp
    · simp only [List.mem_singleton] at hp
      rw [hp]

/-- The questions about two pairs of elements, which do not depend on the distances. -/
def askK (sym : Bool) (x y : Nat × Nat) : List Question :=
  if sym then [.c x.1 x.2 y.1 y.2, .c x.1 x.2 y.2 y.1] else [.c x.1 x.2 y.1 y.2]

omit [Inhabited D] in
/-- Distances that were sorted still belong to different pairs. -/
theorem askQ_nodup {srt1 srt2 : List (PairDist D) → List (PairDist D)} (hs1 : Sorts srt1)
    (hs2 : Sorts srt2) (M N : Nat) (sym : Bool) (d1 d2 : Nat → Nat → D) :
    ((srt1 (pairList M sym d1)).flatMap fun x =>
      (srt2 (pairList N sym d2)).flatMap (askQ sym sym x)).Nodup := by
  have e1 : ((srt1 (pairList M sym d1)).map fun p => (p.first, p.second)).Nodup :=
    (((hs1 _).1.map fun p => (p.first, p.second)).nodup_iff).2 pairList_keys
  have e2 : ((srt2 (pairList N sym d2)).map fun p => (p.first, p.second)).Nodup :=
    (((hs2 _).1.map fun p => (p.first, p.second)).nodup_iff).2 pairList_keys
  have o2 : ∀ y ∈ (srt2 (pairList N sym d2)).map fun p => (p.first, p.second),
      sym = true → y.1 < y.2 := by
    intro y hy
    obtain ⟨p, hp, rfl⟩ := List.mem_map.1 hy
    exact (mem_pairList.1 (hs2.mem.1 hp)).2.2.2.1
  have ek : ((srt1 (pairList M sym d1)).flatMap fun x =>
      (srt2 (pairList N sym d2)).flatMap (askQ sym sym x)) =
      ((srt1 (pairList M sym d1)).map fun p => (p.first, p.second)).flatMap fun x =>
        ((srt2 (pairList N sym d2)).map fun p => (p.first, p.second)).flatMap (askK sym x) := by
    rw [List.flatMap_map]
    apply List.flatMap_congr
    intro x _
    rw [List.flatMap_map]
    apply List.flatMap_congr
    intro y _
    unfold askQ askK
    cases sym <;> rfl
  rw [ek]
  refine nodup_keyed (fun q => match q with | .c i1 i2 _ _ => (i1, i2) | _ => (0, 0)) e1
    (fun x _ => ?_) ?_
  · refine nodup_keyed (fun q => match q with
      | .c _ _ j1 j2 => if sym then (min j1 j2, max j1 j2) else (j1, j2)
      | _ => (0, 0)) e2 (fun y hy => ?_) ?_
    · have := o2 y hy
      unfold askK
      cases sym with
      | false => simp
      | true =>
        have := this rfl
        simp only [if_true, List.nodup_cons, List.mem_singleton, Question.c.injEq, true_and,
          List.not_mem_nil, not_false_eq_true, List.nodup_nil, and_true]
        omega
    · intro y hy e he
      have := o2 y hy
      unfold askK at he
      cases sym with
      | false =>
        simp only [Bool.false_eq_true, if_false, List.mem_singleton] at he
        subst he
        rfl
      | true =>
        have := this rfl
        simp only [if_true, List.mem_cons, List.not_mem_nil, or_false] at he
        rcases he with rfl | rfl
        · exact Prod.ext (Nat.min_eq_left this.le) (Nat.max_eq_right this.le)
        · exact Prod.ext (Nat.min_eq_right this.le) (Nat.max_eq_left this.le)
  · intro x _ e he
    obtain ⟨y, _, he⟩ := List.mem_flatMap.1 he
    unfold askK at he
    cases sym with
    | false =>
      simp only [Bool.false_eq_true, if_false, List.mem_singleton] at he
      subst he
      rfl
    | true =>
      simp only [if_true, List.mem_cons, List.not_mem_nil, or_false] at he
      rcases he with rfl | rfl <;> rfl

end

theorem mem_pairs {N : Nat} {sym : Bool} {i j : Nat} :
    (i, j) ∈ pairs N sym ↔ i < N ∧ j < N ∧ i ≠ j ∧ (sym = true → i < j) := by
  unfold pairs
  simp only [List.mem_filter, List.mem_flatMap, List.mem_range, List.mem_map, Prod.mk.injEq]
  constructor
  · rintro ⟨⟨a, ha, b, hb, rfl, rfl⟩, h⟩
    cases sym <;> simp at h ⊢ <;> omega
  · rintro ⟨h1, h2, h3, h4⟩
    refine ⟨⟨i, h1, j, h2, rfl, rfl⟩, ?_⟩
    cases sym <;> simp at h4 ⊢ <;> omega

theorem forN_total {b : Nat → α → M α} (h : ∀ i a, ∃ a', b i a = .ok a') :
    ∀ (n i : Nat) (a : α), ∃ a', CM.forN n i b a = .ok a' := by
  intro n
  induction n with
  | zero => intro i a; exact ⟨a, rfl⟩
  | succ n ih =>
    intro i a
    obtain ⟨a', h1⟩ := h i a
    unfold CM.forN
    rw [h1]
    exact ih (i + 1) a'

theorem condLoop_total (M N : Nat) (c : Nat → Nat → Nat → Nat → Bool) :
    ∃ x, condLoop M N c = .ok x := by
  refine forN_total (fun i1 s => forN_total (fun i2 s => forN_total (fun j1 s => forN_total
    (fun j2 s => ?_) _ _ _) _ _ _) _ _ _) _ _ _
  split
  · exact ⟨_, rfl⟩
  · exact ⟨_, rfl⟩

theorem mem_askQ {sym : Bool} {l1 l2 : List (PairDist D)} {q : Question}
    (h : q ∈ l1.flatMap fun x => l2.flatMap (askQ sym sym x)) :
    ∃ x ∈ l1, ∃ y ∈ l2, q = .c x.first x.second y.first y.second ∨
      sym = true ∧ q = .c x.first x.second y.second y.first := by
  obtain ⟨x, hx, h⟩ := List.mem_flatMap.1 h
  obtain ⟨y, hy, h⟩ := List.mem_flatMap.1 h
  refine ⟨x, hx, y, hy, ?_⟩
  unfold askQ at h
  cases sym with
  | false => exact Or.inl (List.mem_singleton.1 h)
  | true =>
    rcases List.mem_cons.1 h with h | h
    · exact Or.inl h
    · exact Or.inr ⟨rfl, List.mem_singleton.1 h⟩

/-! ### Recording changes nothing -/

/-- The same, but for the record. -/
def Erases (x : Eff (PyGraph × τ × List (Call D)) α) (x' : Eff (PyGraph × τ) α) : Prop :=
  ∀ pg t l, ∃ pg' t' l' r, x (pg, t, l) = ((pg', t', l'), r) ∧ x' (pg, t) = ((pg', t'), r)

theorem Erases.lift (m : M α) : Erases (D := D) (τ := τ) (Eff.lift m) (Eff.lift m) :=
  fun pg t l => ⟨pg, t, l, m, rfl, rfl⟩

theorem Erases.bind {x : Eff (PyGraph × τ × List (Call D)) α} {x' : Eff (PyGraph × τ) α}
    {f : α → Eff (PyGraph × τ × List (Call D)) β} {f' : α → Eff (PyGraph × τ) β}
    (h : Erases x x') (hf : ∀ a, Erases (f a) (f' a)) : Erases (x >>= f) (x' >>= f') := by
  intro pg t l
  obtain ⟨pg1, t1, l1, r, h1, h2⟩ := h pg t l
  cases r with
  | error e => exact ⟨pg1, t1, l1, .error e, Eff.run_error h1, Eff.run_error h2⟩
  | ok a =>
    rw [Eff.run_ok h1, Eff.run_ok h2]
    exact hf a pg1 t1 l1

theorem Erases.ite {p : Prop} [Decidable p] {x y : Eff (PyGraph × τ × List (Call D)) α}
    {x' y' : Eff (PyGraph × τ) α} (h : Erases x x') (h' : Erases y y') :
    Erases (if p then x else y) (if p then x' else y') := by
  split
  · exact h
  · exact h'

theorem Erases.forN {b : Nat → α → Eff (PyGraph × τ × List (Call D)) α}
    {b' : Nat → α → Eff (PyGraph × τ) α} (h : ∀ i a, Erases (b i a) (b' i a)) :
    ∀ (n i : Nat) (a : α), Erases (Eff.forN n i b a) (Eff.forN n i b' a) := by
  intro n
  induction n with
  | zero => intro i a; exact Erases.lift _
  | succ n ih => intro i a; exact Erases.bind (h i a) fun a => ih (i + 1) a

theorem Erases.forRange {b : Nat → α → Eff (PyGraph × τ × List (Call D)) α}
    {b' : Nat → α → Eff (PyGraph × τ) α} (h : ∀ i a, Erases (b i a) (b' i a)) (lo hi : Nat) (a : α) :
    Erases (Eff.forRange lo hi b a) (Eff.forRange lo hi b' a) := Erases.forN h _ _ _

theorem Erases.loop {b : α → Eff (PyGraph × τ × List (Call D)) (α ⊕ β)}
    {b' : α → Eff (PyGraph × τ) (α ⊕ β)} (h : ∀ a, Erases (b a) (b' a)) :
    ∀ (n : Nat) (a : α), Erases (Eff.loop n b a) (Eff.loop n b' a) := by
  intro n
  induction n with
  | zero => intro a; exact Erases.lift _
  | succ n ih =>
    intro a
    refine Erases.bind (h a) fun r => ?_
    cases r with
    | inl a' => exact ih a'
    | inr c => exact Erases.lift _

theorem Erases.noted (mk : α → Call D) (f : Eff (PyGraph × τ) α) : Erases (noted mk f) f := by
  intro pg t l
  unfold CM.noted
  rcases h : f (pg, t) with ⟨⟨pg', t'⟩, r⟩
  cases r with
  | ok a => exact ⟨pg', t', l ++ [mk a], .ok a, by simp [h], rfl⟩
  | error e => exact ⟨pg', t', l, .error e, by simp [h], rfl⟩

theorem Erases.load (argLR : Bool) (cap n m : Nat) (es : Edges) :
    Erases (D := D) (τ := τ) (loadE argLR cap n m es) (loadE argLR cap n m es) := by
  intro pg t l
  unfold loadE
  simp only
  cases PyGraph.loadGraph argLR cap pg n m es with
  | ok pg' => exact ⟨pg', t, l, .ok (), rfl, rfl⟩
  | error e => exact ⟨pg, t, l, .error e, rfl, rfl⟩

theorem Erases.fillDists [Inhabited D] {d : Nat → Nat → Eff (PyGraph × τ × List (Call D)) D}
    {d' : Nat → Nat → Eff (PyGraph × τ) D} (h : ∀ i j, Erases (d i j) (d' i j))
    (srt : List (PairDist D) → List (PairDist D)) (N : Nat) (sym : Bool) :
    Erases (fillDistsE srt N sym d) (fillDistsE srt N sym d') := by
  unfold fillDistsE
  refine Erases.bind (Erases.forRange (fun i s => Erases.forRange (fun j s => ?_) _ _ _) _ _ _)
    fun _ => Erases.lift _
  exact Erases.ite (Erases.lift _) (Erases.bind (h i j) fun _ => Erases.bind (Erases.lift _) fun _ =>
    Erases.lift _)

theorem Erases.efrCondition [LinearOrder D]
    {c : Nat → Nat → Nat → Nat → Eff (PyGraph × τ × List (Call D)) Bool}
    {c' : Nat → Nat → Nat → Nat → Eff (PyGraph × τ) Bool}
    (h : ∀ i1 i2 j1 j2, Erases (c i1 i2 j1 j2) (c' i1 i2 j1 j2)) (M N : Nat) (sym1 sym2 : Bool)
    (d1 d2 : List (PairDist D)) (w : Window D) :
    Erases (efrConditionE M N sym1 sym2 d1 d2 w c) (efrConditionE M N sym1 sym2 d1 d2 w c') := by
  unfold efrConditionE
  refine Erases.ite (Erases.lift _) (Erases.bind (Erases.loop (fun s => ?_) _ _) fun _ =>
    Erases.lift _)
  refine Erases.ite (Erases.bind (Erases.lift _) fun x => Erases.bind (Erases.lift _) fun f1 =>
    Erases.ite (Erases.lift _) (Erases.bind (Erases.lift _) fun f2 => Erases.bind
      (Erases.forRange (fun j s => ?_) _ _ _) fun _ => Erases.lift _)) (Erases.lift _)
  exact Erases.bind (Erases.lift _) fun y => Erases.bind (h _ _ _ _) fun a => Erases.ite
    (Erases.lift _) (Erases.bind (h _ _ _ _) fun b => Erases.ite (Erases.lift _) (Erases.lift _))

end CM
