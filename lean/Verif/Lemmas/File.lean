import Verif.Model.File
import Verif.Lemmas.Loaders
import Verif.Lemmas.Export

/-! # Reading and writing files -/

namespace CM

open Spec Graph

/-! ## Characters -/

theorem digit_not_space {c : Char} (h : c.isDigit = true) : IStream.isSpace c = false := by
  unfold IStream.isSpace
  simp only [Bool.or_eq_false_iff, decide_eq_false_iff_not]
  refine ⟨⟨⟨⟨⟨?_, ?_⟩, ?_⟩, ?_⟩, ?_⟩, ?_⟩ <;> (rintro rfl; revert h; decide)

theorem digit_not_sign {c : Char} (h : c.isDigit = true) : ¬ (c = '-' ∨ c = '+') := by
  rintro (rfl | rfl) <;> (revert h; decide)

theorem dropWhile_append_all {α : Type} {p : α → Bool} {l l' : List α} (h : ∀ x ∈ l, p x = true) :
    (l ++ l').dropWhile p = l'.dropWhile p := by
  induction l with
  | nil => rfl
  | cons x xs ih =>
    rw [List.cons_append, List.dropWhile_cons, if_pos (h x (by simp))]
    exact ih fun y hy => h y (by simp [hy])

theorem takeWhile_append_all {α : Type} {p : α → Bool} {l l' : List α} (h : ∀ x ∈ l, p x = true) :
    (l ++ l').takeWhile p = l ++ l'.takeWhile p := by
  induction l with
  | nil => rfl
  | cons x xs ih =>
    rw [List.cons_append, List.takeWhile_cons, if_pos (h x (by simp)), List.cons_append,
      ih fun y hy => h y (by simp [hy])]

theorem blank_space {cs : List Char} (h : IsBlank cs) : ∀ c ∈ cs, IStream.isSpace c = true := by
  intro c hc
  rcases h c hc with rfl | rfl <;> decide

theorem blank_no_digit {cs : List Char} (h : IsBlank cs) : ∀ c ∈ cs, c.isDigit = false := by
  intro c hc
  rcases h c hc with rfl | rfl <;> decide

theorem head_digit {cs : List Char} (h : ∀ c, cs.head? = some c → c.isDigit = false) :
    cs.takeWhile Char.isDigit = [] ∧ cs.dropWhile Char.isDigit = cs := by
  cases cs with
  | nil => exact ⟨rfl, rfl⟩
  | cons c cs => simp [List.takeWhile_cons, List.dropWhile_cons, h c rfl]

/-- Extraction of a number. -/
theorem extract_number {ws ds tail : List Char} {v : Nat} {old : Option Nat}
    (hw : ∀ c ∈ ws, IStream.isSpace c = true) (hd : IsNumber v ds) (hv : v < 2 ^ 64)
    (ht : ∀ c, tail.head? = some c → c.isDigit = false) :
    IStream.extract ⟨ws ++ ds ++ tail, false, false⟩ old =
      (⟨tail, tail.isEmpty, false⟩, some v) := by
  obtain ⟨t1, t2⟩ := head_digit ht
  obtain ⟨d, ds', rfl⟩ := List.exists_cons_of_ne_nil hd.nonempty
  have hdig := hd.digits d (by simp)
  unfold IStream.extract
  rw [if_pos (by rfl)]
  have e1 : (ws ++ d :: ds' ++ tail).dropWhile IStream.isSpace = d :: (ds' ++ tail) := by
    rw [List.append_assoc, dropWhile_append_all hw, List.cons_append, List.dropWhile_cons,
      if_neg (by rw [digit_not_space hdig]; decide)]
  simp only [e1, if_neg (digit_not_sign hdig)]
  have e2 : (d :: (ds' ++ tail)).takeWhile Char.isDigit = d :: ds' := by
    rw [← List.cons_append, takeWhile_append_all hd.digits, t1, List.append_nil]
  have e3 : (d :: (ds' ++ tail)).dropWhile Char.isDigit = tail := by
    rw [← List.cons_append, dropWhile_append_all hd.digits, t2]
  rw [e2, e3, hd.value, if_neg (by simp), if_neg (by omega),
    if_neg (fun h => digit_not_sign hdig (Or.inl h))]

theorem skip_line {look : Bool} {line tail : List Char} (h : '\n' ∉ line) :
    ∀ {k : Nat}, line.length < k → IStream.skip look k (line ++ '\n' :: tail) = (tail, false) := by
  induction line with
  | nil =>
    intro k hk
    obtain ⟨k, rfl⟩ : ∃ j, k = j + 1 := ⟨k - 1, by simp at hk; omega⟩
    simp [IStream.skip]
  | cons c cs ih =>
    intro k hk
    simp only [List.length_cons] at hk
    obtain ⟨k, rfl⟩ : ∃ j, k = j + 1 := ⟨k - 1, by omega⟩
    simp only [List.mem_cons, not_or] at h
    rw [List.cons_append, IStream.skip, if_neg (fun e => h.1 e.symm)]
    exact ih h.2 (by omega)

theorem ignore_line {look : Bool} {line tail : List Char} (h : '\n' ∉ line)
    (hl : line.length < 2048) :
    IStream.ignore look ⟨line ++ '\n' :: tail, false, false⟩ = ⟨tail, false, false⟩ := by
  unfold IStream.ignore
  rw [if_pos (by rfl), skip_line h hl]

/-! ## Numbers written -/

theorem decimal_number (v : Nat) : IsNumber v (PyGraph.decimal v) where
  nonempty := Nat.toDigits_ne_nil
  digits := fun _ hc => Nat.isDigit_of_mem_toDigits (by omega) (by omega) hc
  value := Nat.ofDigitChars_toDigits (by omega) (by omega)

/-! ## The preamble -/

theorem preamble_comment {look : Bool} {c : List Char} (h : IsComment c) (tail : List Char) :
    Mmio.preambleBody look ⟨c ++ tail, false, false⟩ = .ok (.inl ⟨tail, false, false⟩) := by
  obtain ⟨line, rfl, h1, h2, h3⟩ := h
  have hig : IStream.ignore look ⟨line ++ '\n' :: tail, false, false⟩ = ⟨tail, false, false⟩ :=
    ignore_line h1 h2
  have hl : line ++ ['\n'] ++ tail = line ++ '\n' :: tail := by simp
  rw [hl]
  cases line with
  | nil => simp at h3
  | cons x xs =>
    simp only [List.head?_cons, Option.some.injEq] at h3
    rw [List.cons_append] at hig
    unfold Mmio.preambleBody IStream.peek
    simp only [List.cons_append, IStream.good, Bool.not_false, Bool.and_self, if_true,
      Option.some.injEq]
    rcases h3 with rfl | rfl
    · rw [if_pos rfl, hig]
    · rw [if_neg (by decide), if_pos rfl, hig]

theorem preamble_end {look : Bool} {c : Char} {tail : List Char} (h1 : c ≠ '%') (h2 : c ≠ '#') :
    Mmio.preambleBody look ⟨c :: tail, false, false⟩ = .ok (.inr ⟨c :: tail, false, false⟩) := by
  unfold Mmio.preambleBody IStream.peek
  simp [IStream.good, h1, h2]

theorem loop_step {σ ρ : Type} {body : σ → M (σ ⊕ ρ)} {s s' : σ} (h : body s = .ok (.inl s'))
    (n : Nat) : loop (n + 1) body s = loop n body s' := by
  simp [loop, h]

theorem loop_done {σ ρ : Type} {body : σ → M (σ ⊕ ρ)} {s : σ} {r : ρ} (h : body s = .ok (.inr r))
    (n : Nat) : loop (n + 1) body s = .ok r := by
  simp [loop, h]

theorem preamble {look : Bool} {comments : List (List Char)} (hc : ∀ c ∈ comments, IsComment c)
    {x : Char} {tail : List Char} (h1 : x ≠ '%') (h2 : x ≠ '#') :
    ∀ fuel, loop (comments.length + fuel + 1) (Mmio.preambleBody look)
      ⟨comments.flatten ++ x :: tail, false, false⟩ = .ok ⟨x :: tail, false, false⟩ := by
  induction comments with
  | nil =>
    intro fuel
    exact loop_done (preamble_end h1 h2) _
  | cons c cs ih =>
    intro fuel
    have : (c :: cs).length + fuel + 1 = (cs.length + fuel + 1) + 1 := by
      simp only [List.length_cons]; omega
    rw [this, List.flatten_cons, List.append_assoc, loop_step (preamble_comment (hc c (by simp)) _)]
    exact ih (fun c' h => hc c' (by simp [h])) fuel

theorem comment_length {c : List Char} (h : IsComment c) : 1 ≤ c.length := by
  obtain ⟨line, rfl, _⟩ := h
  simp

theorem comments_length {comments : List (List Char)} (hc : ∀ c ∈ comments, IsComment c) :
    comments.length ≤ comments.flatten.length := by
  induction comments with
  | nil => simp
  | cons c cs ih =>
    have h1 := comment_length (hc c (by simp))
    have h2 := ih (fun c' h => hc c' (by simp [h]))
    simp only [List.flatten_cons, List.length_append, List.length_cons]
    omega

/-! ## Rows -/

namespace Mmio

/-- The two entries stored for a line. -/
def stored (n : Nat) (r : Nat × Nat) : Edges :=
  if r.1 > n ∨ r.2 > n ∨ r.1 = r.2 then [(0, 0), (0, 0)] else [(r.1, r.2), (r.2, r.1)]

theorem stored_length (n : Nat) (r : Nat × Nat) : (stored n r).length = 2 := by
  unfold stored; split <;> rfl

theorem wr_at {α : Type} {done rest : List α} {j : Nat} (hj : j = done.length) (x y : α) :
    wr (done ++ x :: rest) j y = .ok (done ++ y :: rest) := by
  subst hj
  unfold wr
  rw [if_pos (by simp)]
  simp

theorem write_two {done rest : Edges} {j n a b : Nat} (hj : j = done.length) (hb : j + 1 < 2 ^ 64)
    {x y : Nat × Nat} :
    (do
      let e := if a > n ∨ b > n ∨ a = b then (0, 0) else (a, b)
      let edges ← wr (done ++ x :: y :: rest) j e
      wr edges (uadd j 1) (e.2, e.1)) = .ok (done ++ stored n (a, b) ++ rest) := by
  simp only
  rw [wr_at hj, ok_bind, uadd_eq hb]
  have := wr_at (done := done ++ [if a > n ∨ b > n ∨ a = b then (0, 0) else (a, b)]) (rest := rest)
    (j := j + 1) (by simp [hj]) y
    ((if a > n ∨ b > n ∨ a = b then ((0, 0) : Nat × Nat) else (a, b)).2,
      (if a > n ∨ b > n ∨ a = b then ((0, 0) : Nat × Nat) else (a, b)).1)
  simp only [List.append_assoc, List.cons_append, List.nil_append] at this
  rw [this]
  unfold stored
  split <;> simp

/-- What the state of the reader is between two lines. -/
structure Between (n m : Nat) (done : Edges) (s : State) : Prop where
  j : s.j = n + 1 + 2 * s.i
  len : done.length = n + 1 + 2 * s.i
  edges : s.edges = done ++ List.replicate (2 * (m - s.i)) (0, 0)

/-- A line whose numbers could be read. -/
theorem edge_step {look : Bool} {n m : Nat} {done : Edges} {s : State} (h : Between n m done s)
    (hb : n + 2 * m + 1 < 2 ^ 64) (hi : s.i < m) (he : s.f.eof = false) {a b : Nat} {f : IStream}
    (h1 : (s.f.extract s.v1).2 = some a)
    (h2 : ((s.f.extract s.v1).1.extract s.v2).2 = some b)
    (h3 : ((s.f.extract s.v1).1.extract s.v2).1.ignore look = f) :
    ∃ s', edgeBody look n m s = .ok (.inl s') ∧ Between n m (done ++ stored n (a, b)) s' ∧
      s'.i = s.i + 1 ∧ s'.f = f ∧ s'.v1 = some a ∧ s'.v2 = some b := by
  have hrep : List.replicate (2 * (m - s.i)) ((0, 0) : Nat × Nat) =
      (0, 0) :: (0, 0) :: List.replicate (2 * (m - (s.i + 1))) (0, 0) := by
    rw [← List.replicate_succ, ← List.replicate_succ]
    congr 1; omega
  have hw := write_two (n := n) (a := a) (b := b) (x := (0, 0)) (y := (0, 0)) (done := done)
    (rest := List.replicate (2 * (m - (s.i + 1))) (0, 0)) (j := s.j)
    (by rw [h.j, h.len]) (by rw [h.j]; omega)
  refine ⟨
    { f := f
      i := s.i + 1
      j := uadd s.j 2
      v1 := some a
      v2 := some b
      edges := done ++ stored n (a, b) ++ List.replicate (2 * (m - (s.i + 1))) (0, 0) },
    ?_, ⟨?_, ?_, rfl⟩, rfl, rfl, rfl, rfl⟩
  · unfold edgeBody
    rw [if_pos ⟨hi, he⟩]
    simp only [h1, h2, h3, value, ok_bind]
    rw [h.edges, hrep]
    simp only at hw
    rw [← bind_assoc, hw, ok_bind]
  · rw [uadd_eq (by rw [h.j]; omega), h.j]; simp only; omega
  · simp only [List.length_append, stored_length, h.len]; omega

theorem row_extract {look : Bool} {r : Nat × Nat} {line pre tail : List Char} (h : IsRow r line)
    (hp : ∀ c ∈ pre, IStream.isSpace c = true) (hr : r.1 < 2 ^ 64 ∧ r.2 < 2 ^ 64)
    (old1 old2 : Option Nat) :
    let f : IStream := ⟨pre ++ line ++ tail, false, false⟩
    (f.extract old1).2 = some r.1 ∧ ((f.extract old1).1.extract old2).2 = some r.2 ∧
      ((f.extract old1).1.extract old2).1.ignore look = ⟨tail, false, false⟩ := by
  obtain ⟨b0, a, b1, b, t, rfl, h0, ha, h1, h1', hb, ht, ht', ht''⟩ := h
  have hcs : pre ++ (b0 ++ a ++ b1 ++ b ++ t ++ ['\n']) ++ tail =
      (pre ++ b0) ++ a ++ (b1 ++ b ++ (t ++ '\n' :: tail)) := by simp
  have e1 := extract_number (ws := pre ++ b0) (ds := a) (tail := b1 ++ b ++ (t ++ '\n' :: tail))
    (old := old1)
    (by
      intro c hc
      rcases List.mem_append.1 hc with hc | hc
      · exact hp c hc
      · exact blank_space h0 c hc) ha hr.1
    (by
      intro c hc
      obtain ⟨x, xs, rfl⟩ := List.exists_cons_of_ne_nil h1'
      simp only [List.cons_append, List.head?_cons, Option.some.injEq] at hc
      exact blank_no_digit h1 c (by simp [hc]))
  have hne : (b1 ++ b ++ (t ++ '\n' :: tail)).isEmpty = false := by simp
  have e2 := extract_number (ws := b1) (ds := b) (tail := t ++ '\n' :: tail) (old := old2)
    (blank_space h1) hb hr.2
    (by
      intro c hc
      cases t with
      | nil =>
        simp only [List.nil_append, List.head?_cons, Option.some.injEq] at hc
        subst hc; decide
      | cons x xs =>
        simp only [List.cons_append, List.head?_cons, Option.some.injEq] at hc
        exact ht'' c (by simp [hc]))
  have hne2 : (t ++ '\n' :: tail).isEmpty = false := by simp
  simp only
  rw [hcs, e1, hne, e2, hne2]
  exact ⟨rfl, rfl, ignore_line ht ht'⟩

/-- The loop over the lines of the edges. -/
theorem edge_rows {look : Bool} {n m : Nat} (hb : n + 2 * m + 1 < 2 ^ 64) :
    ∀ {rows : List (Nat × Nat)} {lines : List (List Char)}, List.Forall₂ IsRow rows lines →
    (∀ r ∈ rows, r.1 < 2 ^ 64 ∧ r.2 < 2 ^ 64) →
    ∀ (s : State) (done : Edges) (pre rest : List Char), Between n m done s →
    s.i + rows.length ≤ m → (∀ c ∈ pre, IStream.isSpace c = true) →
    s.f = ⟨pre ++ lines.flatten ++ rest, false, false⟩ →
    ∃ s', (∀ fuel, loop (rows.length + fuel) (edgeBody look n m) s =
        loop fuel (edgeBody look n m) s') ∧
      Between n m (done ++ rows.flatMap (stored n)) s' ∧ s'.i = s.i + rows.length ∧
      s'.f.eof = false ∧ (rows = [] → s' = s) ∧
      ∀ r, rows.getLast? = some r →
        s'.f = ⟨rest, false, false⟩ ∧ s'.v1 = some r.1 ∧ s'.v2 = some r.2 := by
  intro rows lines hall
  induction hall with
  | nil =>
    intro _ s done pre rest hB _ _ hf
    refine ⟨s, by simp, by simpa using hB, rfl, by rw [hf], fun _ => rfl, ?_⟩
    intro r hr; simp at hr
  | @cons r line rows lines hrow hall ih =>
    intro hlt s done pre rest hB hi hp hf
    simp only [List.length_cons] at hi
    obtain ⟨x1, x2, x3⟩ := row_extract (look := look) (tail := lines.flatten ++ rest) hrow hp
      (hlt r (by simp)) s.v1 s.v2
    have hf' : s.f = ⟨pre ++ line ++ (lines.flatten ++ rest), false, false⟩ := by
      rw [hf]; simp
    rw [← hf'] at x1 x2 x3
    obtain ⟨s1, y1, y2, y3, y4, y5, y6⟩ := edge_step hB hb (by omega) (by rw [hf]) x1 x2 x3
    obtain ⟨s2, z1, z2, z3, z4, z5, z6⟩ := ih (fun q hq => hlt q (by simp [hq])) s1 _ [] rest y2
      (by omega) (by simp) (by rw [y4]; simp)
    refine ⟨s2, ?_, ?_, ?_, z4, by simp, ?_⟩
    · intro fuel
      have : (r :: rows).length + fuel = (rows.length + fuel) + 1 := by
        simp only [List.length_cons]; omega
      rw [this, loop_step y1, z1]
    · simpa using z2
    · simp only [List.length_cons]; omega
    · intro q hq
      cases rows with
      | nil =>
        cases hall
        simp only [List.getLast?_singleton, Option.some.injEq] at hq
        subst hq
        rw [z5 rfl]
        exact ⟨by rw [y4]; simp, y5, y6⟩
      | cons r' rows' =>
        rw [List.getLast?_cons_cons] at hq
        exact z6 q hq

/-- The header. -/
theorem header_extract {n k m : Nat} {header tail : List Char} (h : IsHeader n k m header)
    (hn : n < 2 ^ 64) (hk : k < 2 ^ 64) (hm : m < 2 ^ 64) :
    ∃ x xs, header = x :: xs ∧ x ≠ '%' ∧ x ≠ '#' ∧ ∃ b3,
      let f : IStream := ⟨header ++ tail, false, false⟩
      (f.extract none).2 = some n ∧
      ((((f.extract none).1.extract none).1).extract none) = (⟨b3 ++ '\n' :: tail, false, false⟩,
        some m) ∧ ∀ c ∈ b3 ++ ['\n'], IStream.isSpace c = true := by
  obtain ⟨b0, a, b1, b, b2, c, b3, rfl, h0, ha, h1, h1', hb, h2, h2', hc, h3⟩ := h
  have hx : ∃ x xs, b0 ++ a ++ b1 ++ b ++ b2 ++ c ++ b3 ++ ['\n'] = x :: xs ∧ x ≠ '%' ∧ x ≠ '#' := by
    cases b0 with
    | nil =>
      obtain ⟨x, xs, rfl⟩ := List.exists_cons_of_ne_nil ha.nonempty
      refine ⟨x, _, rfl, ?_, ?_⟩ <;>
        (rintro rfl; have := ha.digits _ (List.mem_cons_self); revert this; decide)
    | cons x xs =>
      refine ⟨x, _, rfl, ?_, ?_⟩ <;>
        (rintro rfl; rcases h0 _ List.mem_cons_self with h | h <;> (revert h; decide))
  obtain ⟨x, xs, hx1, hx2, hx3⟩ := hx
  refine ⟨x, xs, hx1, hx2, hx3, b3, ?_⟩
  have hcs : b0 ++ a ++ b1 ++ b ++ b2 ++ c ++ b3 ++ ['\n'] ++ tail =
      b0 ++ a ++ (b1 ++ b ++ (b2 ++ c ++ (b3 ++ '\n' :: tail))) := by simp
  have hblank : ∀ {bs tl : List Char}, IsBlank bs → bs ≠ [] →
      ∀ c, (bs ++ tl).head? = some c → c.isDigit = false := by
    intro bs tl hbs hne c hc
    obtain ⟨x, xs, rfl⟩ := List.exists_cons_of_ne_nil hne
    simp only [List.cons_append, List.head?_cons, Option.some.injEq] at hc
    exact blank_no_digit hbs c (by simp [hc])
  have e1 := extract_number (ws := b0) (ds := a) (tail := b1 ++ b ++ (b2 ++ c ++ (b3 ++ '\n' :: tail)))
    (old := none) (blank_space h0) ha hn (by rw [List.append_assoc]; exact hblank h1 h1')
  have e2 := extract_number (ws := b1) (ds := b) (tail := b2 ++ c ++ (b3 ++ '\n' :: tail))
    (old := none) (blank_space h1) hb hk (by rw [List.append_assoc]; exact hblank h2 h2')
  have e3 := extract_number (ws := b2) (ds := c) (tail := b3 ++ '\n' :: tail)
    (old := none) (blank_space h2) hc hm (by
      intro c hc
      cases b3 with
      | nil =>
        simp only [List.nil_append, List.head?_cons, Option.some.injEq] at hc
        subst hc; decide
      | cons x xs => exact hblank h3 (by simp) c hc)
  have n1 : (b1 ++ b ++ (b2 ++ c ++ (b3 ++ '\n' :: tail))).isEmpty = false := by simp
  have n2 : (b2 ++ c ++ (b3 ++ '\n' :: tail)).isEmpty = false := by simp
  have n3 : (b3 ++ '\n' :: tail).isEmpty = false := by simp
  simp only
  rw [hcs, e1, n1, e2, n2, e3, n3]
  refine ⟨rfl, rfl, ?_⟩
  intro c hc
  rcases List.mem_append.1 hc with hc | hc
  · exact blank_space h3 c hc
  · simp only [List.mem_cons, List.not_mem_nil, or_false] at hc
    subst hc; decide

/-- mmio.cpp:46-50: the self loops. -/
theorem loops_written {n k : Nat} :
    forRange 0 (n + 1) (fun j (es : Edges) => wr es j (j, j)) (List.replicate (n + 1 + k) (0, 0)) =
      .ok (PyGraph.selfLoops n ++ List.replicate k (0, 0)) := by
  obtain ⟨s, h1, h2⟩ := forRange_rule (lo := 0) (hi := n + 1)
    (s := List.replicate (n + 1 + k) ((0, 0) : Nat × Nat))
    (body := fun j (es : Edges) => wr es j (j, j))
    (fun j es => es = (List.range j).map (fun v => (v, v)) ++
      List.replicate (n + 1 - j + k) ((0, 0) : Nat × Nat)) (Nat.zero_le _)
    (by simp)
    (by
      rintro j s _ hj rfl
      have : List.replicate (n + 1 - j + k) ((0, 0) : Nat × Nat) =
          (0, 0) :: List.replicate (n + 1 - (j + 1) + k) (0, 0) := by
        rw [← List.replicate_succ]; congr 1; omega
      rw [this, wr_at (by simp)]
      refine ⟨_, rfl, ?_⟩
      rw [List.range_succ]; simp)
  rw [h1, h2]
  simp [PyGraph.selfLoops]

theorem edge_done {look : Bool} {n m : Nat} {s : State} (h : m ≤ s.i ∨ s.f.eof = true) :
    edgeBody look n m s = .ok (.inr s.edges) := by
  unfold edgeBody
  rw [if_neg]
  rintro ⟨h1, h2⟩
  rcases h with h | h
  · omega
  · rw [h2] at h; cases h

/-- What the reader returns for a well-formed file: the self loops and `E`. -/
structure Entries (n m : Nat) (rows : List (Nat × Nat)) (E : Edges) : Prop where
  length : E.length = 2 * m
  sound : ∀ e ∈ E, e ∈ rows.flatMap (stored n) ∨ e = (0, 0)
  complete : ∀ e ∈ rows.flatMap (stored n), e ∈ E

theorem loop_append {look : Bool} {text tail : List Char} {x : Char}
    {comments : List (List Char)} (hc : ∀ c ∈ comments, IsComment c) (h1 : x ≠ '%') (h2 : x ≠ '#')
    (ht : text = comments.flatten ++ x :: tail) :
    loop (text.length + 1) (preambleBody look) ⟨text, false, false⟩ =
      .ok ⟨x :: tail, false, false⟩ := by
  have hl := comments_length hc
  have : text.length + 1 = comments.length + (text.length - comments.length) + 1 := by
    rw [ht, List.length_append]; omega
  rw [this, ht]
  exact preamble hc h1 h2 _

theorem reader_file {look : Bool} {n m : Nat} {rows : List (Nat × Nat)} {rest text : List Char}
    (h : IsFile n m rows rest text) (hb : n + 2 * m + 1 < 2 ^ 60)
    (hr : ∀ r ∈ rows, r.1 < 2 ^ 64 ∧ r.2 < 2 ^ 64) (hl : rows.length ≤ m)
    (hrest : rows.length < m → rest = [] ∧ rows ≠ []) :
    ∃ E, reader look text = .ok (n, m, PyGraph.selfLoops n ++ E) ∧ Entries n m rows E := by
  have h60 : (2 : Nat) ^ 60 < 2 ^ 64 := by decide
  obtain ⟨comments, lines, header, k, ht, hc, hh, hk, hall⟩ := h
  obtain ⟨x, xs, hx, hx1, hx2, b3, a1, a2, a3⟩ := header_extract (tail := lines.flatten ++ rest) hh
    (by omega) hk (by omega)
  have hpre := loop_append (look := look) (text := text) (tail := xs ++ (lines.flatten ++ rest))
    hc hx1 hx2 (by rw [ht, hx]; simp)
  have hcons : x :: (xs ++ (lines.flatten ++ rest)) = header ++ (lines.flatten ++ rest) := by
    rw [hx]; simp
  rw [hcons] at hpre
  unfold reader
  rw [hpre, ok_bind]
  simp only [a1, a2, value, ok_bind]
  have hsize : uadd (uadd (umul 2 m) n) 1 = n + 1 + 2 * m := by
    rw [umul_eq (by omega), uadd_eq (a := 2 * m) (b := n) (by omega), uadd_eq (by omega)]; omega
  have hj : uadd n 1 = n + 1 := uadd_eq (by omega)
  rw [hsize, if_neg (by omega), hj, loops_written, ok_bind]
  have hB : Between n m (PyGraph.selfLoops n)
      { f := ⟨b3 ++ '\n' :: (lines.flatten ++ rest), false, false⟩
        i := 0
        j := n + 1
        v1 := none
        v2 := none
        edges := PyGraph.selfLoops n ++ List.replicate (2 * m) (0, 0) } :=
    ⟨by simp, by simp [selfLoops_length], by simp⟩
  obtain ⟨s1, y1, y2, y3, y4, y5, y6⟩ := edge_rows (look := look) (by omega) hall hr _ _
    (b3 ++ ['\n']) rest hB (by simpa using hl) a3 (by simp)
  have hfuel : m + 1 = rows.length + (m - rows.length + 1) := by omega
  rw [hfuel, y1]
  simp only [Nat.zero_add] at y3
  rcases Nat.lt_or_ge rows.length m with hlt | hge
  · obtain ⟨hr0, hne⟩ := hrest hlt
    obtain ⟨r, hlast⟩ : ∃ r, rows.getLast? = some r := by
      cases hg : rows.getLast? with
      | none => exact absurd (List.getLast?_eq_none_iff.1 hg) hne
      | some r => exact ⟨r, rfl⟩
    obtain ⟨z1, z2, z3⟩ := y6 r hlast
    rw [hr0] at z1
    have x1 : s1.f.extract s1.v1 = (⟨[], true, true⟩, some r.1) := by rw [z1, z2]; rfl
    have x2 : (s1.f.extract s1.v1).1.extract s1.v2 = (⟨[], true, true⟩, some r.2) := by
      rw [x1, z3]; rfl
    obtain ⟨s2, w1, w2, w3, w4, w5, w6⟩ := edge_step (look := look) (a := r.1) (b := r.2)
      (f := ⟨[], true, true⟩) y2 (by omega)
      (by omega) y4 (by rw [x1]) (by rw [x2]) (by rw [x2]; rfl)
    rw [loop_step w1]
    obtain ⟨q, hq⟩ : ∃ q, m - rows.length = q + 1 := ⟨m - rows.length - 1, by omega⟩
    rw [hq, loop_done (edge_done (Or.inr (by rw [w4]))), ok_bind, w2.edges]
    refine ⟨_, by rw [List.append_assoc, List.append_assoc], ?_, ?_, ?_⟩
    · have := w2.len
      simp only [List.length_append, List.length_replicate, selfLoops_length] at this ⊢
      omega
    · intro e he
      simp only [List.mem_append] at he
      rcases he with he | he | he
      · exact Or.inl he
      · left
        rw [List.mem_flatMap]
        exact ⟨r, List.mem_of_getLast? hlast, he⟩
      · exact Or.inr (List.eq_of_mem_replicate he)
    · intro e he
      simp only [List.mem_append]
      exact Or.inl he
  · have : m - rows.length = 0 := by omega
    rw [this, loop_done (edge_done (Or.inl (by omega))), ok_bind, y2.edges]
    refine ⟨_, by rw [List.append_assoc], ?_, ?_, ?_⟩
    · have := y2.len
      simp only [List.length_append, List.length_replicate, selfLoops_length] at this ⊢
      omega
    · intro e he
      simp only [List.mem_append] at he
      rcases he with he | he
      · exact Or.inl he
      · exact Or.inr (List.eq_of_mem_replicate he)
    · intro e he
      simp only [List.mem_append]
      exact Or.inl he

/-- Once two variables have a value, they keep having one. -/
theorem extract_some (f : IStream) (x : Nat) : ∃ y, (f.extract (some x)).2 = some y := by
  unfold IStream.extract
  split
  · split
    · exact ⟨_, rfl⟩
    · simp only
      repeat' split
      all_goals exact ⟨_, rfl⟩
  · exact ⟨_, rfl⟩

/-- After the first row, nothing the file contains stops the reader. -/
theorem edge_any {look : Bool} {n m : Nat} (hb : n + 2 * m + 1 < 2 ^ 64) :
    ∀ (q : Nat) (s : State) (done : Edges), Between n m done s → m - s.i ≤ q →
    (∃ a, s.v1 = some a) → (∃ b, s.v2 = some b) →
    ∃ es, loop (q + 1) (edgeBody look n m) s = .ok es := by
  intro q
  induction q with
  | zero =>
    intro s done hB hq _ _
    exact ⟨s.edges, loop_done (edge_done (Or.inl (by omega))) _⟩
  | succ q ih =>
    rintro s done hB hq ⟨a, ha⟩ ⟨b, hb'⟩
    by_cases hc : s.i < m ∧ s.f.eof = false
    · obtain ⟨x, hx⟩ := extract_some s.f a
      obtain ⟨y, hy⟩ := extract_some (s.f.extract (some a)).1 b
      obtain ⟨s1, w1, w2, w3, _, w5, w6⟩ := edge_step (look := look) (a := x) (b := y) hB hb hc.1
        hc.2 (by rw [ha]; exact hx) (by rw [ha, hb']; exact hy) rfl
      rw [loop_step w1]
      exact ih s1 _ w2 (by omega) ⟨_, w5⟩ ⟨_, w6⟩
    · refine ⟨s.edges, loop_done (edge_done ?_) _⟩
      by_cases h1 : s.i < m
      · right
        by_contra h2
        exact hc ⟨h1, by simpa using h2⟩
      · left; omega

/-- A file whose header and first row are well-formed is read, whatever follows. -/
theorem reader_ok {look : Bool} {n m : Nat} {rows : List (Nat × Nat)} {rest text : List Char}
    (h : IsFile n m rows rest text) (hb : n + 2 * m + 1 < 2 ^ 60)
    (hr : ∀ r ∈ rows, r.1 < 2 ^ 64 ∧ r.2 < 2 ^ 64) (hl : rows.length ≤ m)
    (hne : rows ≠ [] ∨ m = 0) :
    ∃ es, reader look text = .ok (n, m, es) := by
  have h60 : (2 : Nat) ^ 60 < 2 ^ 64 := by decide
  obtain ⟨comments, lines, header, k, ht, hc, hh, hk, hall⟩ := h
  obtain ⟨x, xs, hx, hx1, hx2, b3, a1, a2, a3⟩ := header_extract (tail := lines.flatten ++ rest) hh
    (by omega) hk (by omega)
  have hpre := loop_append (look := look) (text := text) (tail := xs ++ (lines.flatten ++ rest))
    hc hx1 hx2 (by rw [ht, hx]; simp)
  have hcons : x :: (xs ++ (lines.flatten ++ rest)) = header ++ (lines.flatten ++ rest) := by
    rw [hx]; simp
  rw [hcons] at hpre
  unfold reader
  rw [hpre, ok_bind]
  simp only [a1, a2, value, ok_bind]
  have hsize : uadd (uadd (umul 2 m) n) 1 = n + 1 + 2 * m := by
    rw [umul_eq (by omega), uadd_eq (a := 2 * m) (b := n) (by omega), uadd_eq (by omega)]; omega
  have hj : uadd n 1 = n + 1 := uadd_eq (by omega)
  rw [hsize, if_neg (by omega), hj, loops_written, ok_bind]
  have hB : Between n m (PyGraph.selfLoops n)
      { f := ⟨b3 ++ '\n' :: (lines.flatten ++ rest), false, false⟩
        i := 0
        j := n + 1
        v1 := none
        v2 := none
        edges := PyGraph.selfLoops n ++ List.replicate (2 * m) (0, 0) } :=
    ⟨by simp, by simp [selfLoops_length], by simp⟩
  obtain ⟨s1, y1, y2, y3, y4, y5, y6⟩ := edge_rows (look := look) (by omega) hall hr _ _
    (b3 ++ ['\n']) rest hB (by simpa using hl) a3 (by simp)
  have hfuel : m + 1 = rows.length + (m - rows.length + 1) := by omega
  rw [hfuel, y1]
  simp only [Nat.zero_add] at y3
  have key : ∃ es, loop (m - rows.length + 1) (edgeBody look n m) s1 = .ok es := by
    rcases hne with hne | hne
    · obtain ⟨r, hlast⟩ : ∃ r, rows.getLast? = some r := by
        cases hg : rows.getLast? with
        | none => exact absurd (List.getLast?_eq_none_iff.1 hg) hne
        | some r => exact ⟨r, rfl⟩
      obtain ⟨_, z2, z3⟩ := y6 r hlast
      exact edge_any (by omega) _ _ _ y2 (by omega) ⟨_, z2⟩ ⟨_, z3⟩
    · exact ⟨s1.edges, loop_done (edge_done (Or.inl (by omega))) _⟩
  obtain ⟨es, hes⟩ := key
  exact ⟨es, by rw [hes, ok_bind]⟩

/-- The rows the reader keeps. -/
def kept (n : Nat) (rows : List (Nat × Nat)) : List (Nat × Nat) :=
  rows.filter fun r => decide (r.1 ≤ n ∧ r.2 ≤ n)

theorem entries_describe {n m : Nat} {rows : List (Nat × Nat)} {E : Edges} (h : Entries n m rows E)
    (hz : ∀ r ∈ rows, r.1 ≤ n → r.2 ≤ n → r.1 ≠ r.2 → 1 ≤ r.1 ∧ 1 ≤ r.2) :
    Describes (PyGraph.selfLoops n ++ E) n (ofPairs (kept n rows)) := by
  have key : ∀ e, e ∈ rows.flatMap (stored n) ↔ (∃ r ∈ rows, (r.1 > n ∨ r.2 > n ∨ r.1 = r.2) ∧
      e = (0, 0)) ∨ (e.1 ≠ e.2 ∧ e.1 ≤ n ∧ e.2 ≤ n ∧ (e ∈ rows ∨ (e.2, e.1) ∈ rows)) := by
    rintro ⟨u, v⟩
    rw [List.mem_flatMap]
    constructor
    · rintro ⟨r, hr, he⟩
      unfold stored at he
      split at he
      · rename_i hc
        left
        refine ⟨r, hr, hc, ?_⟩
        simpa using he
      · rename_i hc
        right
        simp only [List.mem_cons, List.not_mem_nil, or_false, Prod.mk.injEq] at he
        rcases he with ⟨rfl, rfl⟩ | ⟨rfl, rfl⟩
        · exact ⟨by omega, by omega, by omega, Or.inl hr⟩
        · exact ⟨by simp only; omega, by omega, by omega, Or.inr hr⟩
    · rintro (⟨r, hr, hc, he⟩ | ⟨h1, h2, h3, h4⟩)
      · refine ⟨r, hr, ?_⟩
        unfold stored
        rw [if_pos hc, he]; simp
      · simp only at h1 h2 h3
        rcases h4 with h4 | h4
        · refine ⟨_, h4, ?_⟩
          unfold stored
          rw [if_neg (by simp only; omega)]; simp
        · refine ⟨_, h4, ?_⟩
          unfold stored
          rw [if_neg (by simp only; omega)]; simp
  have hadj : ∀ u v, (ofPairs (kept n rows)).Adj u v ↔ u ≠ v ∧ u ≤ n ∧ v ≤ n ∧
      ((u, v) ∈ rows ∨ (v, u) ∈ rows) := by
    intro u v
    simp only [ofPairs, kept, List.mem_filter, decide_eq_true_eq]
    constructor
    · rintro ⟨h1, ⟨h2, h3⟩ | ⟨h2, h3⟩⟩
      · exact ⟨h1, h3.1, h3.2, Or.inl h2⟩
      · exact ⟨h1, h3.2, h3.1, Or.inr h2⟩
    · rintro ⟨h1, h2, h3, h4 | h4⟩
      · exact ⟨h1, Or.inl ⟨h4, h2, h3⟩⟩
      · exact ⟨h1, Or.inr ⟨h4, h3, h2⟩⟩
  refine ⟨?_, ?_, ?_⟩
  · intro u v hu hv
    rw [List.mem_append, mem_selfLoops, hadj]
    constructor
    · rintro (⟨h1, _⟩ | h1)
      · exact Or.inl h1
      · rcases h.sound _ h1 with h2 | h2
        · rcases (key _).1 h2 with ⟨_, _, _, h3⟩ | ⟨h3, h4, h5, h6⟩
          · cases h3; exact Or.inl rfl
          · exact Or.inr ⟨h3, h4, h5, h6⟩
        · cases h2; exact Or.inl rfl
    · rintro (h1 | ⟨h1, h2, h3, h4⟩)
      · exact Or.inl ⟨h1, hu⟩
      · exact Or.inr (h.complete _ ((key _).2 (Or.inr ⟨h1, h2, h3, h4⟩)))
  · intro e he
    rcases List.mem_append.1 he with he | he
    · have := mem_selfLoops.1 he; omega
    · rcases h.sound _ he with h2 | h2
      · rcases (key _).1 h2 with ⟨_, _, _, h3⟩ | ⟨_, h4, h5, _⟩
        · rw [h3]; simp
        · exact ⟨h4, h5⟩
      · rw [h2]; simp
  · intro u v huv
    obtain ⟨h1, h2, h3, h4⟩ := (hadj u v).1 huv
    rcases h4 with h4 | h4
    · have := hz _ h4 h2 h3 h1; omega
    · have := hz _ h4 h3 h2 (Ne.symm h1); simp only at this; omega

/-- Whatever the file contains. -/
theorem reader_any {look : Bool} {text : List Char} {n m : Nat} {edges : Edges}
    (h : reader look text = .ok (n, m, edges)) (hb : n + 2 * m + 1 < 2 ^ 60) :
    ∃ E : Edges, edges = PyGraph.selfLoops n ++ E ∧ E.length = 2 * m ∧
      (∀ e ∈ E, e.1 ≤ n ∧ e.2 ≤ n ∧ (e.2, e.1) ∈ E) := by
  have h60 : (2 : Nat) ^ 60 < 2 ^ 64 := by decide
  unfold reader at h
  obtain ⟨f, _, h⟩ := bind_eq_ok.1 h
  simp only at h
  obtain ⟨m1, _, h⟩ := bind_eq_ok.1 h
  obtain ⟨n1, _, h⟩ := bind_eq_ok.1 h
  split at h
  · cases h
  obtain ⟨e1, he1, h⟩ := bind_eq_ok.1 h
  obtain ⟨e2, he2, h⟩ := bind_eq_ok.1 h
  cases h
  have hsize : uadd (uadd (umul 2 m) n) 1 = n + 1 + 2 * m := by
    rw [umul_eq (by omega), uadd_eq (a := 2 * m) (b := n) (by omega), uadd_eq (by omega)]; omega
  have hj : uadd n 1 = n + 1 := uadd_eq (by omega)
  rw [hsize, hj, loops_written] at he1
  cases he1
  rw [hj] at he2
  refine loop_inv (body := edgeBody look n m)
    (fun s => s.i ≤ m ∧ ∃ E, Between n m (PyGraph.selfLoops n ++ E) s ∧
      ∀ e ∈ E, e.1 ≤ n ∧ e.2 ≤ n ∧ (e.2, e.1) ∈ E)
    (fun edges => ∃ E : Edges, edges = PyGraph.selfLoops n ++ E ∧ E.length = 2 * m ∧
      (∀ e ∈ E, e.1 ≤ n ∧ e.2 ≤ n ∧ (e.2, e.1) ∈ E)) ?_ ?_ ?_ he2
  · rintro s s' ⟨hi, E, hB, hE⟩ hs
    have hc : s.i < m ∧ s.f.eof = false := by
      by_contra hc
      unfold edgeBody at hs
      rw [if_neg hc] at hs
      cases hs
    have hs0 := hs
    unfold edgeBody at hs
    rw [if_pos hc] at hs
    simp only at hs
    obtain ⟨a, ha, hs⟩ := bind_eq_ok.1 hs
    obtain ⟨b, hb', hs⟩ := bind_eq_ok.1 hs
    have ha' : (s.f.extract s.v1).2 = some a := by
      cases hx : (s.f.extract s.v1).2 with
      | none => rw [hx] at ha; cases ha
      | some x => rw [hx] at ha; cases ha; rfl
    have hb'' : ((s.f.extract s.v1).1.extract s.v2).2 = some b := by
      cases hx : ((s.f.extract s.v1).1.extract s.v2).2 with
      | none => rw [hx] at hb'; cases hb'
      | some x => rw [hx] at hb'; cases hb'; rfl
    obtain ⟨s1, w1, w2, w3, _⟩ := edge_step (look := look) hB (by omega) hc.1 hc.2 ha' hb'' rfl
    rw [w1] at hs0
    cases hs0
    refine ⟨by omega, E ++ stored n (a, b), by rw [← List.append_assoc]; exact w2, ?_⟩
    intro e he
    rcases List.mem_append.1 he with he | he
    · obtain ⟨x1, x2, x3⟩ := hE e he
      exact ⟨x1, x2, List.mem_append.2 (Or.inl x3)⟩
    · rw [List.mem_append]
      unfold stored at he ⊢
      split at he
      · rename_i hcc
        rw [if_pos hcc]
        have : e = (0, 0) := by simpa using he
        subst this
        exact ⟨by simp, by simp, Or.inr (by simp)⟩
      · rename_i hcc
        rw [if_neg hcc]
        simp only [List.mem_cons, List.not_mem_nil, or_false] at he
        rcases he with rfl | rfl
        · exact ⟨by omega, by omega, Or.inr (by simp)⟩
        · exact ⟨by simp only; omega, by simp only; omega, Or.inr (by simp)⟩
  · rintro s r ⟨hi, E, hB, hE⟩ hs
    have hr : s.edges = r := by
      unfold edgeBody at hs
      split at hs
      · simp only at hs
        obtain ⟨a, ha, hs⟩ := bind_eq_ok.1 hs
        obtain ⟨b, hb', hs⟩ := bind_eq_ok.1 hs
        obtain ⟨_, _, hs⟩ := bind_eq_ok.1 hs
        obtain ⟨_, _, hs⟩ := bind_eq_ok.1 hs
        cases hs
      · cases hs; rfl
    subst hr
    refine ⟨E ++ List.replicate (2 * (m - s.i)) (0, 0), ?_, ?_, ?_⟩
    · rw [hB.edges, List.append_assoc]
    · have := hB.len
      simp only [List.length_append, selfLoops_length, List.length_replicate] at this ⊢
      omega
    · intro e he
      rcases List.mem_append.1 he with he | he
      · obtain ⟨x1, x2, x3⟩ := hE e he
        exact ⟨x1, x2, List.mem_append.2 (Or.inl x3)⟩
      · have := List.eq_of_mem_replicate he
        subst this
        exact ⟨by simp, by simp, List.mem_append.2 (Or.inr he)⟩
  · exact ⟨Nat.zero_le _, [], ⟨by simp, by simp [selfLoops_length], by simp⟩, by simp⟩

end Mmio

/-! ## Writing -/

theorem blank_one : IsBlank [' '] := by intro c hc; left; simpa using hc

theorem row_written (e : Nat × Nat) :
    IsRow e (PyGraph.decimal e.1 ++ [' '] ++ PyGraph.decimal e.2 ++ ['\n']) :=
  ⟨[], PyGraph.decimal e.1, [' '], PyGraph.decimal e.2, [], by simp, by simp [IsBlank],
    decimal_number _, blank_one, by simp, decimal_number _, by simp, by simp, by simp⟩

theorem rows_written (es : List (Nat × Nat)) :
    List.Forall₂ IsRow es (es.map fun e =>
      PyGraph.decimal e.1 ++ [' '] ++ PyGraph.decimal e.2 ++ ['\n']) := by
  induction es with
  | nil => exact List.Forall₂.nil
  | cons e es ih => exact List.Forall₂.cons (row_written e) ih

theorem toFile_spec {pg : PyGraph} {n : Nat} {S : SimpleGraph Nat} {G : Graph}
    (h : Holds pg n S G) (h0 : n ≠ 0) (hn : n < 2 ^ 64) :
    ∃ text es, pg.toFile = .ok text ∧ IsFile n pg.nedges es [] text ∧ es.Pairwise lexLt ∧
      ∀ e, e ∈ es ↔ e.1 < e.2 ∧ S.Adj e.1 e.2 := by
  obtain ⟨es, h1, h2, h3⟩ := sendData_spec h.str h.of
  unfold PyGraph.toFile
  rw [h.loaded h0]
  simp only
  rw [h1, ok_bind, h.nv]
  refine ⟨_, es, rfl, ⟨["%% generated by cliquematch\n".toList], _,
    PyGraph.decimal n ++ [' '] ++ PyGraph.decimal n ++ [' '] ++ PyGraph.decimal pg.nedges ++ ['\n'],
    n, ?_, ?_, ?_, hn, rows_written es⟩, h2, h3⟩
  · rw [List.flatMap_def]; simp
  · intro c hc
    simp only [List.mem_cons, List.not_mem_nil, or_false] at hc
    subst hc
    exact ⟨"%% generated by cliquematch".toList, by decide, by decide, by decide, by decide⟩
  · exact ⟨[], PyGraph.decimal n, [' '], PyGraph.decimal n, [' '], PyGraph.decimal pg.nedges, [],
      by simp, by simp [IsBlank], decimal_number _, blank_one, by simp, decimal_number _, blank_one,
      by simp, decimal_number _, by simp [IsBlank]⟩

end CM
