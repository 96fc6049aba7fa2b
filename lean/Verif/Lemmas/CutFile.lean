import Verif.Lemmas.File

/-! # Files that end too early -/

namespace CM

open Spec Graph

/-! ## Prefixes -/

theorem prefix_split {α : Type} {p a b : List α} (h : p <+: a ++ b) :
    (p <+: a ∧ p ≠ a) ∨ ∃ q, p = a ++ q ∧ q <+: b := by
  rcases List.prefix_or_prefix_of_prefix h (List.prefix_append a b) with h1 | h1
  · by_cases e : p = a
    · exact Or.inr ⟨[], by simp [e], by simp⟩
    · exact Or.inl ⟨h1, e⟩
  · obtain ⟨q, rfl⟩ := h1
    exact Or.inr ⟨q, rfl, (List.prefix_append_right_inj a).1 h⟩

/-- The first digits of a number are those of a smaller one. -/
theorem prefix_decimal (v : Nat) : ∀ {d : List Char}, d <+: PyGraph.decimal v → d ≠ [] →
    ∃ v', d = PyGraph.decimal v' ∧ v' ≤ v ∧ (1 ≤ v → 1 ≤ v') := by
  induction v using Nat.strong_induction_on with
  | _ v ih =>
    intro d hd hne
    by_cases hv : v < 10
    · refine ⟨v, ?_, le_refl _, id⟩
      unfold PyGraph.decimal at hd ⊢
      rw [Nat.toDigits_of_lt_base hv] at hd ⊢
      rcases List.prefix_cons_iff.1 hd with h | ⟨t, rfl, ht⟩
      · exact absurd h hne
      · rw [List.prefix_nil.1 ht]
    · have hs : PyGraph.decimal v = PyGraph.decimal (v / 10) ++ [(v % 10).digitChar] := by
        unfold PyGraph.decimal
        rw [Nat.toDigits_of_base_le (by omega) (by omega)]
      rw [hs] at hd
      rcases List.prefix_concat_iff.1 hd with h | h
      · exact ⟨v, by rw [h, hs], le_refl _, id⟩
      · obtain ⟨v', h1, h2, h3⟩ := ih (v / 10) (by omega) h hne
        exact ⟨v', h1, by omega, fun _ => h3 (by omega)⟩

/-- The beginning of a row. -/
theorem row_fragments {a b : Nat} {q : List Char}
    (h : q <+: PyGraph.decimal a ++ [' '] ++ PyGraph.decimal b ++ ['\n'])
    (hne : q ≠ PyGraph.decimal a ++ [' '] ++ PyGraph.decimal b ++ ['\n']) :
    q = [] ∨ (∃ a', q = PyGraph.decimal a' ∧ a' ≤ a ∧ (1 ≤ a → 1 ≤ a')) ∨
      q = PyGraph.decimal a ++ [' '] ∨
      ∃ b', q = PyGraph.decimal a ++ [' '] ++ PyGraph.decimal b' ∧ b' ≤ b ∧ (1 ≤ b → 1 ≤ b') := by
  rcases List.prefix_concat_iff.1 h with h | h
  · exact absurd h hne
  by_cases h0 : q = []
  · exact Or.inl h0
  rcases prefix_split h with ⟨h1, h2⟩ | ⟨d, rfl, hd⟩
  · rcases List.prefix_concat_iff.1 h1 with h3 | h3
    · exact absurd h3 h2
    · exact Or.inr (Or.inl (prefix_decimal a h3 h0))
  · by_cases hd0 : d = []
    · subst hd0; exact Or.inr (Or.inr (Or.inl (by simp)))
    · obtain ⟨b', rfl, h4⟩ := prefix_decimal b hd hd0
      exact Or.inr (Or.inr (Or.inr ⟨b', rfl, h4⟩))

/-- The beginning of the line with the numbers of vertices and edges. -/
theorem header_fragments {n m : Nat} {h : List Char}
    (hp : h <+: PyGraph.decimal n ++ [' '] ++ PyGraph.decimal n ++ [' '] ++ PyGraph.decimal m) :
    h = [] ∨ (∃ a, h = PyGraph.decimal a ∧ a ≤ n) ∨ h = PyGraph.decimal n ++ [' '] ∨
      (∃ a, h = PyGraph.decimal n ++ [' '] ++ PyGraph.decimal a ∧ a ≤ n) ∨
      h = PyGraph.decimal n ++ [' '] ++ PyGraph.decimal n ++ [' '] ∨
      ∃ a, h = PyGraph.decimal n ++ [' '] ++ PyGraph.decimal n ++ [' '] ++ PyGraph.decimal a ∧
        a ≤ m := by
  by_cases h0 : h = []
  · exact Or.inl h0
  rcases prefix_split hp with ⟨h1, h2⟩ | ⟨d, rfl, hd⟩
  · rcases List.prefix_concat_iff.1 h1 with h3 | h3
    · exact absurd h3 h2
    rcases prefix_split h3 with ⟨h4, h5⟩ | ⟨d, rfl, hd⟩
    · rcases List.prefix_concat_iff.1 h4 with h6 | h6
      · exact absurd h6 h5
      · obtain ⟨a, rfl, h7, _⟩ := prefix_decimal n h6 h0
        exact Or.inr (Or.inl ⟨a, rfl, h7⟩)
    · by_cases hd0 : d = []
      · subst hd0; exact Or.inr (Or.inr (Or.inl (by simp)))
      · obtain ⟨a, rfl, h4, _⟩ := prefix_decimal n hd hd0
        exact Or.inr (Or.inr (Or.inr (Or.inl ⟨a, rfl, h4⟩)))
  · by_cases hd0 : d = []
    · subst hd0; exact Or.inr (Or.inr (Or.inr (Or.inr (Or.inl (by simp)))))
    · obtain ⟨a, rfl, h4, _⟩ := prefix_decimal m hd hd0
      exact Or.inr (Or.inr (Or.inr (Or.inr (Or.inr ⟨a, rfl, h4⟩))))

/-- A prefix of lines is some of the lines and the beginning of the next one. -/
theorem prefix_flatMap {α β : Type} (f : α → List β) : ∀ {l : List α} {p : List β},
    p <+: l.flatMap f → p = l.flatMap f ∨
      ∃ (k : Nat) (hk : k < l.length) (q : List β), p = (l.take k).flatMap f ++ q ∧
        q <+: f l[k] ∧ q ≠ f l[k] := by
  intro l
  induction l with
  | nil => intro p h; exact Or.inl (by simpa using h)
  | cons x xs ih =>
    intro p h
    rw [List.flatMap_cons] at h ⊢
    rcases prefix_split h with ⟨h1, h2⟩ | ⟨q, rfl, hq⟩
    · exact Or.inr ⟨0, by simp, p, by simp, h1, h2⟩
    · rcases ih hq with rfl | ⟨k, hk, q', rfl, h1, h2⟩
      · exact Or.inl rfl
      · exact Or.inr ⟨k + 1, by simpa using hk, q', by simp, by simpa using h1, by simpa using h2⟩

/-! ## Extraction at the end of the file -/

theorem extract_bad {f : IStream} (h : f.good = false) (v : Option Nat) :
    f.extract v = ({ f with fail := true }, v) := by
  unfold IStream.extract
  rw [if_neg (by simp [h])]

theorem extract_end {ws : List Char} (h : ∀ c ∈ ws, IStream.isSpace c = true) (v : Option Nat) :
    IStream.extract ⟨ws, false, false⟩ v = (⟨[], true, true⟩, v) := by
  have : ws.dropWhile IStream.isSpace = [] := by
    have := dropWhile_append_all (l' := []) h
    simpa using this
  unfold IStream.extract
  rw [if_pos (by rfl)]
  simp only [this]

theorem extract_last {ws ds : List Char} {v : Nat} {old : Option Nat}
    (hw : ∀ c ∈ ws, IStream.isSpace c = true) (hd : IsNumber v ds) (hv : v < 2 ^ 64) :
    IStream.extract ⟨ws ++ ds, false, false⟩ old = (⟨[], true, false⟩, some v) := by
  have := extract_number (tail := []) (old := old) hw hd hv (by simp)
  simpa using this

theorem extract_space {ws ds tail : List Char} {v : Nat} {old : Option Nat}
    (hw : ∀ c ∈ ws, IStream.isSpace c = true) (hd : IsNumber v ds) (hv : v < 2 ^ 64) :
    IStream.extract ⟨ws ++ ds ++ ' ' :: tail, false, false⟩ old =
      (⟨' ' :: tail, false, false⟩, some v) := by
  have := extract_number (tail := ' ' :: tail) (old := old) hw hd hv (by
    intro c hc
    simp only [List.head?_cons, Option.some.injEq] at hc
    subst hc; decide)
  simpa using this

theorem ignore_eof {look : Bool} {f : IStream} (h : f.eof = true) : (f.ignore look).eof = true := by
  unfold IStream.ignore
  rw [if_neg (by simp [IStream.good, h])]
  exact h

namespace Mmio

/-- What two extractions find in the beginning of a row at the end of the file. -/
inductive Fragment : List Char → Option Nat → Option Nat → Prop
  | nil : Fragment [] none none
  | first (a : Nat) : a < 2 ^ 64 → Fragment (PyGraph.decimal a) (some a) none
  | space (a : Nat) : a < 2 ^ 64 → Fragment (PyGraph.decimal a ++ [' ']) (some a) none
  | second (a b : Nat) : a < 2 ^ 64 → b < 2 ^ 64 →
      Fragment (PyGraph.decimal a ++ [' '] ++ PyGraph.decimal b) (some a) (some b)

theorem fragment_extract {look : Bool} {q pre : List Char} {x y : Option Nat} (h : Fragment q x y)
    (hp : ∀ c ∈ pre, IStream.isSpace c = true) (old1 old2 : Option Nat) :
    let f : IStream := ⟨pre ++ q, false, false⟩
    (f.extract old1).2 = x.or old1 ∧ ((f.extract old1).1.extract old2).2 = y.or old2 ∧
      (((f.extract old1).1.extract old2).1.ignore look).eof = true := by
  simp only
  cases h with
  | nil =>
    rw [List.append_nil, extract_end hp, extract_bad (by rfl)]
    exact ⟨rfl, rfl, ignore_eof rfl⟩
  | first a ha =>
    rw [extract_last hp (decimal_number a) ha, extract_bad (by rfl)]
    exact ⟨rfl, rfl, ignore_eof rfl⟩
  | space a ha =>
    rw [← List.append_assoc, extract_space hp (decimal_number a) ha,
      extract_end (by simp [IStream.isSpace])]
    exact ⟨rfl, rfl, ignore_eof rfl⟩
  | second a b ha hb =>
    have : pre ++ (PyGraph.decimal a ++ [' '] ++ PyGraph.decimal b) =
        pre ++ PyGraph.decimal a ++ ' ' :: PyGraph.decimal b := by simp
    rw [this, extract_space hp (decimal_number a) ha]
    have h2 := extract_last (ws := [' ']) (old := old2) (by simp [IStream.isSpace])
      (decimal_number b) hb
    simp only [List.cons_append, List.nil_append] at h2
    rw [h2]
    exact ⟨rfl, rfl, ignore_eof rfl⟩

/-- The reader after some of the rows. -/
theorem reader_rows {look : Bool} {n m : Nat} {rows : List (Nat × Nat)} {rest text : List Char}
    (h : IsFile n m rows rest text) (hb : n + 2 * m + 1 < 2 ^ 60)
    (hr : ∀ r ∈ rows, r.1 < 2 ^ 64 ∧ r.2 < 2 ^ 64) (hl : rows.length ≤ m) :
    ∃ s, reader look text = (loop (m - rows.length + 1) (edgeBody look n m) s >>=
        fun es => .ok (n, m, es)) ∧
      Between n m (PyGraph.selfLoops n ++ rows.flatMap (stored n)) s ∧ s.i = rows.length ∧
      s.f.eof = false ∧ ∃ pre, (∀ c ∈ pre, IStream.isSpace c = true) ∧
        s.f = ⟨pre ++ rest, false, false⟩ ∧
        s.v1 = rows.getLast?.map Prod.fst ∧ s.v2 = rows.getLast?.map Prod.snd := by
  have h60 : (2 : Nat) ^ 60 < 2 ^ 64 := by decide
  obtain ⟨comments, lines, header, k, ht, hc, hh, hk, hall⟩ := h
  obtain ⟨x, xs, hx, hx1, hx2, b3, a1, a2, a3⟩ := header_extract (tail := lines.flatten ++ rest) hh
    (by omega) hk (by omega)
  have hpre := loop_append (look := look) (text := text) (tail := xs ++ (lines.flatten ++ rest))
    hc hx1 hx2 (by rw [ht, hx]; simp)
  have hcons : x :: (xs ++ (lines.flatten ++ rest)) = header ++ (lines.flatten ++ rest) := by
    rw [hx]; simp
  rw [hcons] at hpre
  unfold reader
  rw [hpre, ok_bind]
  simp only [a1, a2, value, ok_bind]
  have hsize : uadd (uadd (umul 2 m) n) 1 = n + 1 + 2 * m := by
    rw [umul_eq (by omega), uadd_eq (a := 2 * m) (b := n) (by omega), uadd_eq (by omega)]; omega
  have hj : uadd n 1 = n + 1 := uadd_eq (by omega)
  rw [hsize, if_neg (by omega), hj, loops_written, ok_bind]
  have hB : Between n m (PyGraph.selfLoops n)
      { f := ⟨b3 ++ '\n' :: (lines.flatten ++ rest), false, false⟩
        i := 0
        j := n + 1
        v1 := none
        v2 := none
        edges := PyGraph.selfLoops n ++ List.replicate (2 * m) (0, 0) } :=
    ⟨by simp, by simp [selfLoops_length], by simp⟩
  obtain ⟨s1, y1, y2, y3, y4, y5, y6⟩ := edge_rows (look := look) (by omega) hall hr _ _
    (b3 ++ ['\n']) rest hB (by simpa using hl) a3 (by simp)
  have hfuel : m + 1 = rows.length + (m - rows.length + 1) := by omega
  rw [hfuel, y1]
  simp only [Nat.zero_add] at y3
  refine ⟨s1, rfl, y2, y3, y4, ?_⟩
  cases hg : rows.getLast? with
  | none =>
    have hnil := List.getLast?_eq_none_iff.1 hg
    rw [y5 hnil]
    subst hnil
    cases hall
    exact ⟨b3 ++ ['\n'], a3, by simp, rfl, rfl⟩
  | some r =>
    obtain ⟨z1, z2, z3⟩ := y6 r hg
    exact ⟨[], by simp, by simpa using z1, z2, z3⟩

/-- A file that ends in the middle of a row. -/
theorem reader_cut {look : Bool} {n m : Nat} {rows : List (Nat × Nat)} {q text : List Char}
    (h : IsFile n m rows q text) (hb : n + 2 * m + 1 < 2 ^ 60)
    (hr : ∀ r ∈ rows, r.1 < 2 ^ 64 ∧ r.2 < 2 ^ 64) (hl : rows.length < m)
    {x y : Option Nat} (hq : Fragment q x y) :
    (∀ a b, x.or (rows.getLast?.map Prod.fst) = some a →
      y.or (rows.getLast?.map Prod.snd) = some b →
      ∃ E, reader look text = .ok (n, m, PyGraph.selfLoops n ++ E) ∧
        Entries n m (rows ++ [(a, b)]) E) ∧
    (y.or (rows.getLast?.map Prod.snd) = none → reader look text = .error .ub) := by
  obtain ⟨s, r1, r2, r3, r4, pre, r5, r6, r7, r8⟩ := reader_rows (look := look) h hb hr hl.le
  obtain ⟨x1, x2, x3⟩ := fragment_extract (look := look) hq r5 s.v1 s.v2
  rw [← r6] at x1 x2 x3
  constructor
  · intro a b ha hb'
    obtain ⟨s2, w1, w2, w3, w4, w5, w6⟩ := edge_step (look := look) (a := a) (b := b) r2 (by omega)
      (by omega) r4 (by rw [x1, r7, ha]) (by rw [x2, r8, hb']) rfl
    rw [r1, loop_step w1]
    obtain ⟨q', hq'⟩ : ∃ q', m - rows.length = q' + 1 := ⟨m - rows.length - 1, by omega⟩
    rw [hq', loop_done (edge_done (Or.inr (by rw [w4]; exact x3))), ok_bind, w2.edges]
    refine ⟨_, by rw [List.append_assoc, List.append_assoc], ?_, ?_, ?_⟩
    · have := w2.len
      simp only [List.length_append, List.length_replicate, selfLoops_length] at this ⊢
      omega
    · intro e he
      simp only [List.mem_append] at he
      rw [List.flatMap_append, List.mem_append]
      rcases he with he | he | he
      · exact Or.inl (Or.inl he)
      · exact Or.inl (Or.inr (by simpa using he))
      · exact Or.inr (List.eq_of_mem_replicate he)
    · intro e he
      rw [List.flatMap_append, List.mem_append] at he
      simp only [List.mem_append]
      rcases he with he | he
      · exact Or.inl he
      · exact Or.inr (Or.inl (by simpa using he))
  · intro hn
    have hbody : edgeBody look n m s = .error .ub := by
      unfold edgeBody
      rw [if_pos ⟨by omega, r4⟩]
      have x2' : ((s.f.extract s.v1).1.extract s.v2).2 = none := by rw [x2, r8, hn]
      simp only [x2', value]
      cases (s.f.extract s.v1).2 <;> rfl
    rw [r1, loop, hbody]
    rfl

end Mmio

/-! ## Files that end in the preamble or the header -/

theorem skip_end {look : Bool} {line : List Char} (h : '\n' ∉ line) :
    ∀ {k : Nat}, line.length < k → IStream.skip look k line = ([], true) := by
  induction line with
  | nil =>
    intro k hk
    obtain ⟨k, rfl⟩ : ∃ j, k = j + 1 := ⟨k - 1, by simp at hk; omega⟩
    simp [IStream.skip]
  | cons c cs ih =>
    intro k hk
    simp only [List.length_cons] at hk
    obtain ⟨k, rfl⟩ : ∃ j, k = j + 1 := ⟨k - 1, by omega⟩
    simp only [List.mem_cons, not_or] at h
    rw [IStream.skip, if_neg (fun e => h.1 e.symm)]
    exact ih h.2 (by omega)

namespace Mmio

theorem preamble_bad {look : Bool} {f : IStream} (h : f.good = false) (fuel : Nat) :
    loop (fuel + 1) (preambleBody look) f = .ok { f with fail := true } := by
  apply loop_done
  have hp : f.peek = ({ f with fail := true }, none) := by
    unfold IStream.peek
    rw [if_neg (by simp [h])]
  have hp2 : IStream.peek { f with fail := true } = ({ f with fail := true }, none) := by
    unfold IStream.peek
    rw [if_neg (by simp [IStream.good])]
  unfold preambleBody
  simp only [hp, hp2]
  rfl

/-- Without a third number the reader uses variables that were never assigned. -/
theorem reader_none {look : Bool} {text : List Char} {f : IStream}
    (h : loop (text.length + 1) (preambleBody look) ⟨text, false, false⟩ = .ok f)
    (hm : ((f.extract none).1.extract none).1.good = false) : reader look text = .error .ub := by
  unfold reader
  rw [h, ok_bind]
  simp only [extract_bad hm, value]
  rfl

/-- The file ends in a comment. -/
theorem reader_comment {look : Bool} {line : List Char} (h : '\n' ∉ line) (hl : line.length < 2048)
    (hh : line.head? = some '%' ∨ line.head? = some '#') : reader look line = .error .ub := by
  have hig : IStream.ignore look ⟨line, false, false⟩ = ⟨[], true, false⟩ := by
    unfold IStream.ignore
    rw [if_pos (by rfl), skip_end h hl]
  have hbody : preambleBody look ⟨line, false, false⟩ = .ok (.inl ⟨[], true, false⟩) := by
    cases line with
    | nil => simp at hh
    | cons x xs =>
      simp only [List.head?_cons, Option.some.injEq] at hh
      unfold preambleBody IStream.peek
      simp only [IStream.good, Bool.not_false, Bool.and_self, if_true, Option.some.injEq]
      rcases hh with rfl | rfl
      · rw [if_pos rfl, hig]
      · rw [if_neg (by decide), if_pos rfl, hig]
  obtain ⟨j, hj⟩ : ∃ j, line.length = j + 1 := by
    cases line with
    | nil => simp at hh
    | cons x xs => exact ⟨xs.length, rfl⟩
  refine reader_none (f := ⟨[], true, true⟩) ?_ (by rfl)
  rw [loop_step hbody, hj, preamble_bad (by rfl)]

/-- The file ends after the comments. -/
theorem reader_comments {look : Bool} : reader look [] = .error .ub ∧
    ∀ c, IsComment c → reader look c = .error .ub := by
  have hend : preambleBody look ⟨[], false, false⟩ = .ok (.inr ⟨[], true, true⟩) := rfl
  constructor
  · exact reader_none (f := ⟨[], true, true⟩) (loop_done hend _) (by rfl)
  · intro c hc
    refine reader_none (f := ⟨[], true, true⟩) ?_ (by rfl)
    have h1 := preamble_comment (look := look) hc []
    rw [List.append_nil] at h1
    have := comment_length hc
    obtain ⟨j, hj⟩ : ∃ j, c.length = j + 1 := ⟨c.length - 1, by omega⟩
    rw [loop_step h1, hj]
    exact loop_done hend _

theorem decimal_cons (v : Nat) : ∃ x xs, PyGraph.decimal v = x :: xs ∧ x ≠ '%' ∧ x ≠ '#' := by
  have h := decimal_number v
  obtain ⟨x, xs, hx⟩ := List.exists_cons_of_ne_nil h.nonempty
  have hd := h.digits x (by rw [hx]; simp)
  refine ⟨x, xs, hx, ?_, ?_⟩ <;> (rintro rfl; revert hd; decide)

theorem preamble_decimal {look : Bool} {c tail : List Char} (hc : IsComment c) (v : Nat) :
    loop ((c ++ (PyGraph.decimal v ++ tail)).length + 1) (preambleBody look)
      ⟨c ++ (PyGraph.decimal v ++ tail), false, false⟩ =
        .ok ⟨PyGraph.decimal v ++ tail, false, false⟩ := by
  obtain ⟨x, xs, hx, h1, h2⟩ := decimal_cons v
  rw [hx]
  exact loop_append (comments := [c]) (by simpa using hc) h1 h2 (by simp)

/-- The file ends in the header, before the number of edges. -/
theorem reader_header {look : Bool} {c : List Char} (hc : IsComment c) {n : Nat} (hn : n < 2 ^ 64) :
    (∀ a, a < 2 ^ 64 → reader look (c ++ PyGraph.decimal a) = .error .ub) ∧
    reader look (c ++ (PyGraph.decimal n ++ [' '])) = .error .ub ∧
    (∀ a, a < 2 ^ 64 →
      reader look (c ++ (PyGraph.decimal n ++ [' '] ++ PyGraph.decimal a)) = .error .ub) ∧
    reader look (c ++ (PyGraph.decimal n ++ [' '] ++ PyGraph.decimal n ++ [' '])) =
      .error .ub := by
  have sp : ∀ {ds tail : List Char} {v : Nat} {old : Option Nat}, IsNumber v ds → v < 2 ^ 64 →
      IStream.extract ⟨ds ++ ' ' :: tail, false, false⟩ old =
        (⟨' ' :: tail, false, false⟩, some v) := by
    intro ds tail v old hd hv
    have := extract_space (ws := []) (tail := tail) (old := old) (by simp) hd hv
    simpa using this
  have sp' : ∀ {ds tail : List Char} {v : Nat} {old : Option Nat}, IsNumber v ds → v < 2 ^ 64 →
      IStream.extract ⟨' ' :: (ds ++ ' ' :: tail), false, false⟩ old =
        (⟨' ' :: tail, false, false⟩, some v) := by
    intro ds tail v old hd hv
    have := extract_space (ws := [' ']) (tail := tail) (old := old) (by simp [IStream.isSpace]) hd hv
    simpa using this
  refine ⟨?_, ?_, ?_, ?_⟩
  · intro a ha
    have hp := preamble_decimal (look := look) (tail := []) hc a
    rw [List.append_nil] at hp
    refine reader_none hp ?_
    have := extract_last (ws := []) (old := none) (by simp) (decimal_number a) ha
    rw [List.nil_append] at this
    rw [this, extract_bad (by rfl)]
    rfl
  · refine reader_none (preamble_decimal (look := look) hc n) ?_
    rw [sp (decimal_number n) hn, extract_end (by simp [IStream.isSpace])]
    rfl
  · intro a ha
    have e : PyGraph.decimal n ++ [' '] ++ PyGraph.decimal a =
        PyGraph.decimal n ++ ' ' :: PyGraph.decimal a := by simp
    rw [e]
    refine reader_none (preamble_decimal (look := look) hc n) ?_
    have := extract_last (ws := [' ']) (old := none) (by simp [IStream.isSpace])
      (decimal_number a) ha
    simp only [List.cons_append, List.nil_append] at this
    rw [sp (decimal_number n) hn, this]
    rfl
  · have e : PyGraph.decimal n ++ [' '] ++ PyGraph.decimal n ++ [' '] =
        PyGraph.decimal n ++ ' ' :: (PyGraph.decimal n ++ ' ' :: []) := by simp
    rw [e]
    unfold reader
    rw [preamble_decimal (look := look) hc n, ok_bind]
    simp only
    rw [sp (decimal_number n) hn, sp' (decimal_number n) hn, extract_end (by simp [IStream.isSpace])]
    rfl

/-- The file ends in or after the number of edges, of which `m` is left. -/
theorem reader_header_end {look : Bool} {c : List Char} (hc : IsComment c) {n m : Nat}
    (hb : n + 2 * m + 1 < 2 ^ 60) :
    ∃ E, reader look (c ++ (PyGraph.decimal n ++ [' '] ++ PyGraph.decimal n ++ [' '] ++
        PyGraph.decimal m)) = .ok (n, m, PyGraph.selfLoops n ++ E) ∧ Entries n m [] E := by
  have h60 : (2 : Nat) ^ 60 < 2 ^ 64 := by decide
  have e : PyGraph.decimal n ++ [' '] ++ PyGraph.decimal n ++ [' '] ++ PyGraph.decimal m =
      PyGraph.decimal n ++ ' ' :: (PyGraph.decimal n ++ ' ' :: PyGraph.decimal m) := by simp
  have e1 := extract_space (ws := []) (tail := PyGraph.decimal n ++ ' ' :: PyGraph.decimal m)
    (old := none) (by simp) (decimal_number n) (by omega)
  have e2 := extract_space (ws := [' ']) (tail := PyGraph.decimal m)
    (old := none) (by simp [IStream.isSpace]) (decimal_number n) (by omega)
  have e3 := extract_last (ws := [' ']) (old := none) (by simp [IStream.isSpace])
    (decimal_number m) (by omega)
  simp only [List.cons_append, List.nil_append] at e1 e2 e3
  unfold reader
  rw [e, preamble_decimal (look := look) hc n, ok_bind]
  simp only [e1, e2, e3, value, ok_bind]
  have hsize : uadd (uadd (umul 2 m) n) 1 = n + 1 + 2 * m := by
    rw [umul_eq (by omega), uadd_eq (a := 2 * m) (b := n) (by omega), uadd_eq (by omega)]; omega
  have hj : uadd n 1 = n + 1 := uadd_eq (by omega)
  rw [hsize, if_neg (by omega), hj, loops_written, ok_bind, loop_done (edge_done (Or.inr rfl)),
    ok_bind]
  refine ⟨_, rfl, by simp, ?_, by simp⟩
  intro e he
  exact Or.inr (List.eq_of_mem_replicate he)

end Mmio

end CM
