import Verif.Lemmas.CutFile
import Verif.Props.File

/-!
# C79: files that `to_file` did not finish

What is in the file when the program is stopped while `to_file` writes, or when the disk is
full, is a prefix of what it would have written.
-/

namespace CM

open Spec Graph Sample

namespace Spec

/-- The comment and the header that `to_file` writes for `n` vertices and `m` edges. -/
def fileHead (n m : Nat) : List Char :=
  "%% generated by cliquematch\n".toList ++ Nat.toDigits 10 n ++ [' '] ++ Nat.toDigits 10 n ++
    [' '] ++ Nat.toDigits 10 m ++ ['\n']

/-- The line of an edge. -/
def fileRow (e : Nat × Nat) : List Char :=
  Nat.toDigits 10 e.1 ++ [' '] ++ Nat.toDigits 10 e.2 ++ ['\n']

/-- How the beginning `q` of a line is read after a line with the numbers `prev`: a number that is
cut off is taken for a smaller one, and one that is not there keeps its last value. -/
def readAs (prev : Nat × Nat) (q : List Char) : Nat × Nat :=
  let a := q.takeWhile fun c => c ≠ ' '
  let b := (q.dropWhile fun c => c ≠ ' ').drop 1
  (if a = [] then prev.1 else Nat.ofDigitChars 10 a 0,
    if b = [] then prev.2 else Nat.ofDigitChars 10 b 0)

end Spec

variable {pg : PyGraph} {n : Nat} {S : SimpleGraph Nat} {es : List (Nat × Nat)}

/-- What `to_file` writes: a line for each edge. -/
theorem C79_text (h : Reached pg n S) (h0 : n ≠ 0) :
    ∃ es : List (Nat × Nat), es.Nodup ∧ (∀ e, e ∈ es ↔ e.1 < e.2 ∧ S.Adj e.1 e.2) ∧
      es.length = edgeCount S n ∧
      pg.toFile = .ok (fileHead n pg.nedges ++ es.flatMap fileRow) := by
  obtain ⟨hn, G, H⟩ := h.holds
  obtain ⟨es, h1, h2, h3⟩ := sendData_spec H.str H.of
  refine ⟨es, lexLt_nodup h2, h3, edgeCount_list H.of.rng (lexLt_nodup h2) h3, ?_⟩
  unfold PyGraph.toFile
  rw [H.loaded h0]
  simp only
  rw [h1, ok_bind, H.nv]
  rfl

theorem file_rows (n m : Nat) (es : List (Nat × Nat)) (hn : n < 2 ^ 64) (q : List Char) :
    IsFile n m es q (fileHead n m ++ es.flatMap fileRow ++ q) := by
  refine ⟨["%% generated by cliquematch\n".toList], _,
    PyGraph.decimal n ++ [' '] ++ PyGraph.decimal n ++ [' '] ++ PyGraph.decimal m ++ ['\n'],
    n, ?_, ?_, ?_, hn, rows_written es⟩
  · rw [List.flatMap_def, List.flatten_singleton]
    unfold fileHead
    generalize "%% generated by cliquematch\n".toList = c
    have hrow : fileRow = fun e => PyGraph.decimal e.1 ++ [' '] ++ PyGraph.decimal e.2 ++ ['\n'] := rfl
    rw [hrow]
    simp only [List.append_assoc]
    rfl
  · intro c hc
    simp only [List.mem_cons, List.not_mem_nil, or_false] at hc
    subst hc
    exact ⟨"%% generated by cliquematch".toList, by decide, by decide, by decide, by decide⟩
  · exact ⟨[], PyGraph.decimal n, [' '], PyGraph.decimal n, [' '], PyGraph.decimal m, [],
      by simp, by simp [IsBlank], decimal_number _, blank_one, by simp, decimal_number _, blank_one,
      by simp, decimal_number _, by simp [IsBlank]⟩

theorem not_space {d : List Char} (h : ∀ c ∈ d, c.isDigit = true) (tail : List Char) :
    ((d ++ ' ' :: tail).takeWhile fun c => decide (c ≠ ' ')) = d ∧
    ((d ++ ' ' :: tail).dropWhile fun c => decide (c ≠ ' ')) = ' ' :: tail ∧
    (d.takeWhile fun c => decide (c ≠ ' ')) = d ∧
    (d.dropWhile fun c => decide (c ≠ ' ')) = [] := by
  have hd : ∀ c ∈ d, decide (c ≠ ' ') = true := by
    intro c hc
    have := h c hc
    simp only [decide_eq_true_eq]
    rintro rfl
    revert this; decide
  have e1 := takeWhile_append_all (l' := ' ' :: tail) hd
  have e2 := dropWhile_append_all (l' := ' ' :: tail) hd
  have e3 := takeWhile_append_all (l' := []) hd
  have e4 := dropWhile_append_all (l' := []) hd
  simp only [List.append_nil] at e3 e4
  rw [e1, e2, e3, e4]
  simp

/-- The beginning of a line as the reader sees it. -/
theorem fragment_of {e : Nat × Nat} {q : List Char} (hq : q <+: fileRow e) (hne : q ≠ fileRow e)
    (hlt : e.1 < 2 ^ 64 ∧ e.2 < 2 ^ 64) (h1 : 1 ≤ e.1 ∧ 1 ≤ e.2) (prev : Nat × Nat) :
    ∃ x y, Mmio.Fragment q x y ∧ x.or (some prev.1) = some (readAs prev q).1 ∧
      y.or (some prev.2) = some (readAs prev q).2 ∧
      (∀ a, x = some a → 1 ≤ a ∧ a ≤ e.1) ∧ (∀ b, y = some b → 1 ≤ b ∧ b ≤ e.2) ∧
      (y = none ↔ (q.dropWhile fun c => c ≠ ' ').drop 1 = []) ∧
      (y ≠ none → x ≠ none) := by
  have dig : ∀ v, ∀ c ∈ PyGraph.decimal v, c.isDigit = true := fun v => (decimal_number v).digits
  have hne' : ∀ v, PyGraph.decimal v ≠ [] := fun v => (decimal_number v).nonempty
  have val : ∀ v, Nat.ofDigitChars 10 (PyGraph.decimal v) 0 = v := fun v => (decimal_number v).value
  rcases row_fragments hq hne with rfl | ⟨a, rfl, ha, ha'⟩ | rfl | ⟨b, rfl, hb, hb'⟩
  · exact ⟨none, none, .nil, rfl, rfl, by simp, by simp, by simp, by simp⟩
  · obtain ⟨_, _, t1, t2⟩ := not_space (dig a) []
    refine ⟨some a, none, .first a (by omega), ?_, ?_, ?_, by simp, ?_, by simp⟩
    · simp only [readAs, t1, if_neg (hne' a), val]; rfl
    · simp only [readAs, t2]; rfl
    · rintro _ ⟨⟩; exact ⟨ha' h1.1, ha⟩
    · rw [t2]; simp
  · obtain ⟨t1, t2, _, _⟩ := not_space (dig e.1) []
    refine ⟨some e.1, none, .space e.1 hlt.1, ?_, ?_, ?_, by simp, ?_, by simp⟩
    · simp only [readAs, t1, if_neg (hne' _), val]; rfl
    · simp only [readAs, t2]; rfl
    · rintro _ ⟨⟩; exact ⟨h1.1, le_refl _⟩
    · rw [t2]; simp
  · obtain ⟨t1, t2, _, _⟩ := not_space (dig e.1) (PyGraph.decimal b)
    have e : PyGraph.decimal e.1 ++ [' '] ++ PyGraph.decimal b =
        PyGraph.decimal e.1 ++ ' ' :: PyGraph.decimal b := by simp
    refine ⟨some _, some b, .second _ b hlt.1 (by omega), ?_, ?_, ?_, ?_, ?_, by simp⟩
    · rw [e]
      simp only [readAs, t1, if_neg (hne' _), val]; rfl
    · rw [e]
      simp only [readAs, t2, List.drop_succ_cons, List.drop_zero, if_neg (hne' _), val]; rfl
    · rintro _ ⟨⟩; exact ⟨h1.1, le_refl _⟩
    · rintro _ ⟨⟩; exact ⟨hb' h1.2, hb⟩
    · rw [e, t2]
      simp [hne' b]

/-- From the reader to `from_file`. -/
theorem load_entries {m : Nat} {rows : List (Nat × Nat)} {E : Edges} {look : Bool}
    {text : List Char} (hn : n < 2 ^ 31) (hm : m < 2 ^ 56)
    (hr : Mmio.reader look text = .ok (n, m, PyGraph.selfLoops n ++ E))
    (hE : Mmio.Entries n m rows E) (hin : ∀ r ∈ rows, (1 ≤ r.1 ∧ r.1 ≤ n) ∧ (1 ≤ r.2 ∧ r.2 ≤ n))
    (argLR : Bool) (cap : Nat) :
    ∃ pg', PyGraph.fromFile argLR cap look text = .ok pg' ∧ Loaded pg' n (ofPairs rows) ∧
      pg'.nedges = m := by
  have h60 : (2 : Nat) ^ 31 + 2 * 2 ^ 56 + 1 < 2 ^ 58 := by decide
  have hD := Mmio.entries_describe hE (by intro r hr _ _ _; have := hin r hr; omega)
  have hk : Mmio.kept n rows = rows := by
    unfold Mmio.kept
    rw [List.filter_eq_self]
    intro r hr
    have := hin r hr
    simp only [decide_eq_true_eq]; omega
  rw [hk] at hD
  obtain ⟨pg', p1, p2, p3⟩ := load_built hD hn (by
    rw [List.length_append, selfLoops_length, hE.length]; omega) argLR cap m
  refine ⟨pg', ?_, p2, p3⟩
  unfold PyGraph.fromFile
  rw [hr, ok_bind]
  simp only
  rw [if_neg (selfLoops_ne n E)]
  exact p1

theorem fromFile_ub {argLR : Bool} {cap : Nat} {look : Bool} {text : List Char}
    (h : Mmio.reader look text = .error .ub) :
    PyGraph.fromFile argLR cap look text = .error .ub := by
  unfold PyGraph.fromFile
  rw [h]; rfl

theorem edges_range (h : Reached pg n S) (hes : ∀ e, e ∈ es ↔ e.1 < e.2 ∧ S.Adj e.1 e.2) :
    ∀ r ∈ es, (1 ≤ r.1 ∧ r.1 ≤ n) ∧ (1 ≤ r.2 ∧ r.2 ≤ n) := by
  intro r hr
  obtain ⟨_, G, H⟩ := h.holds
  have := H.of.rng _ _ ((hes r).1 hr).2
  omega

/-- **C79**, as far as it is true, for a file that ends in the row after `k + 1` complete ones (in
the sense of `C79_text`).  The full property: what `to_file` did not finish is refused by `from_file`,
or is loaded as a graph all of whose edges are edges of the saved one.  Proved: it is loaded, and its
edges are those of the complete rows and one more, which is read from the incomplete row and the one
before it.  Missing, because false: that this one was an edge (`C79_refuted`). -/
theorem C79_in_row_partial (h : Reached pg n S)
    (hes : ∀ e, e ∈ es ↔ e.1 < e.2 ∧ S.Adj e.1 e.2) (hm : es.length ≤ pg.nedges)
    (hb : pg.nedges < 2 ^ 56) {k : Nat} (hk : k + 1 < es.length) {q : List Char}
    (hq : q <+: fileRow es[k + 1]) (hne : q ≠ fileRow es[k + 1])
    (argLR : Bool) (cap : Nat) (look : Bool) :
    ∃ pg', PyGraph.fromFile argLR cap look
        (fileHead n pg.nedges ++ (es.take (k + 1)).flatMap fileRow ++ q) = .ok pg' ∧
      Loaded pg' n (ofPairs (es.take (k + 1) ++ [readAs es[k] q])) ∧ pg'.nedges = pg.nedges := by
  have h60 : (2 : Nat) ^ 31 + 2 * 2 ^ 56 + 1 < 2 ^ 60 := by decide
  have h64 : (2 : Nat) ^ 31 < 2 ^ 64 := by decide
  have hrange := edges_range h hes
  obtain ⟨hn, _, _⟩ := h.holds
  have hlast : (es.take (k + 1)).getLast? = some es[k] := by
    rw [List.getLast?_eq_getElem?, List.length_take, Nat.min_eq_left (by omega)]
    simp only [Nat.add_sub_cancel]
    rw [List.getElem?_take_of_lt (by omega), List.getElem?_eq_getElem]
  have hk1 := hrange es[k + 1] (List.getElem_mem hk)
  have hk0 := hrange es[k] (List.getElem_mem (by omega))
  obtain ⟨x, y, f1, f2, f3, f4, f5, _, _⟩ := fragment_of hq hne (by omega) (by omega) es[k]
  obtain ⟨E, r1, r2⟩ := (Mmio.reader_cut (look := look)
    (file_rows n pg.nedges (es.take (k + 1)) (by omega) q) (by omega)
    (by intro r hr; have := hrange r (List.mem_of_mem_take hr); omega)
    (by rw [List.length_take]; omega) f1).1 (readAs es[k] q).1 (readAs es[k] q).2
    (by rw [hlast]; exact f2) (by rw [hlast]; exact f3)
  refine load_entries hn hb r1 r2 ?_ argLR cap
  intro r hr
  rcases List.mem_append.1 hr with hr | hr
  · exact hrange r (List.mem_of_mem_take hr)
  · simp only [List.mem_cons, List.not_mem_nil, or_false] at hr
    subst hr
    simp only
    constructor
    · cases x with
      | none => simp only [Option.none_or, Option.some.injEq] at f2; rw [← f2]; exact hk0.1
      | some a =>
        have := f4 a rfl
        simp only [Option.some_or, Option.some.injEq] at f2; rw [← f2]; omega
    · cases y with
      | none => simp only [Option.none_or, Option.some.injEq] at f3; rw [← f3]; exact hk0.2
      | some a =>
        have := f5 a rfl
        simp only [Option.some_or, Option.some.injEq] at f3; rw [← f3]; omega

/-- **C79**, as far as it is true, for a file that ends in its first row: if a digit of the second
number is there, a graph with one edge is loaded; otherwise a variable is used that was never
assigned. -/
theorem C79_first_row_partial (h : Reached pg n S)
    (hes : ∀ e, e ∈ es ↔ e.1 < e.2 ∧ S.Adj e.1 e.2) (hm : es.length ≤ pg.nedges)
    (hb : pg.nedges < 2 ^ 56) (hk : 0 < es.length) {q : List Char}
    (hq : q <+: fileRow es[0]) (hne : q ≠ fileRow es[0])
    (argLR : Bool) (cap : Nat) (look : Bool) :
    ((q.dropWhile fun c => c ≠ ' ').drop 1 ≠ [] →
      ∃ pg', PyGraph.fromFile argLR cap look (fileHead n pg.nedges ++ q) = .ok pg' ∧
        Loaded pg' n (ofPairs [readAs (0, 0) q]) ∧ pg'.nedges = pg.nedges) ∧
    ((q.dropWhile fun c => c ≠ ' ').drop 1 = [] →
      PyGraph.fromFile argLR cap look (fileHead n pg.nedges ++ q) = .error .ub) := by
  have h60 : (2 : Nat) ^ 31 + 2 * 2 ^ 56 + 1 < 2 ^ 60 := by decide
  have h64 : (2 : Nat) ^ 31 < 2 ^ 64 := by decide
  have hrange := edges_range h hes
  obtain ⟨hn, _, _⟩ := h.holds
  have hk1 := hrange es[0] (List.getElem_mem hk)
  obtain ⟨x, y, f1, f2, f3, f4, f5, f6, f7⟩ := fragment_of hq hne (by omega) (by omega) (0, 0)
  have hfile := file_rows n pg.nedges [] (by omega) q
  simp only [List.flatMap_nil, List.append_nil] at hfile
  obtain ⟨c1, c2⟩ := Mmio.reader_cut (look := look) hfile (by omega) (by simp)
    (by simp only [List.length_nil]; omega) f1
  constructor
  · intro hd
    have hy : y ≠ none := fun hy => hd (f6.1 hy)
    have hx := f7 hy
    obtain ⟨a, rfl⟩ := Option.ne_none_iff_exists'.1 hx
    obtain ⟨b, rfl⟩ := Option.ne_none_iff_exists'.1 hy
    simp only [Option.some_or, Option.some.injEq] at f2 f3
    obtain ⟨E, r1, r2⟩ := c1 a b rfl rfl
    have := f4 a rfl
    have := f5 b rfl
    have e : readAs (0, 0) q = (a, b) := Prod.ext f2.symm f3.symm
    rw [e]
    refine load_entries hn hb r1 r2 ?_ argLR cap
    intro r hr
    simp only [List.nil_append, List.mem_cons, List.not_mem_nil, or_false] at hr
    subst hr
    simp only; omega
  · intro hd
    refine fromFile_ub (c2 ?_)
    rw [f6.2 hd]; rfl

/-- **C79**, as far as it is true, for a file that ends before the end of the header: if a digit of
the number of edges is there, a graph without edges is loaded, which has this number as `n_edges`;
otherwise a variable is used that was never assigned. -/
theorem C79_header_partial (hn : n < 2 ^ 31) {m : Nat} (hb : m < 2 ^ 56) {p : List Char}
    (hp : p <+: fileHead n m) (hne : p ≠ fileHead n m) (argLR : Bool) (cap : Nat) (look : Bool) :
    (∃ m' pg', p = "%% generated by cliquematch\n".toList ++ Nat.toDigits 10 n ++ [' '] ++
        Nat.toDigits 10 n ++ [' '] ++ Nat.toDigits 10 m' ∧ m' ≤ m ∧
      PyGraph.fromFile argLR cap look p = .ok pg' ∧ Loaded pg' n ⊥ ∧ pg'.nedges = m') ∨
    ((∀ m', p ≠ "%% generated by cliquematch\n".toList ++ Nat.toDigits 10 n ++ [' '] ++
        Nat.toDigits 10 n ++ [' '] ++ Nat.toDigits 10 m') ∧
      PyGraph.fromFile argLR cap look p = .error .ub) := by
  have h60 : (2 : Nat) ^ 31 + 2 * 2 ^ 56 + 1 < 2 ^ 60 := by decide
  have h64 : (2 : Nat) ^ 31 < 2 ^ 64 := by decide
  have hcom : IsComment "%% generated by cliquematch\n".toList :=
    ⟨"%% generated by cliquematch".toList, by decide, by decide, by decide, by decide⟩
  have hnd : ∀ v, PyGraph.decimal v ≠ [] := fun v => (decimal_number v).nonempty
  have dig : ∀ v, ' ' ∉ PyGraph.decimal v := by
    intro v hv
    have := (decimal_number v).digits _ hv
    revert this; decide
  -- the number of blanks in `p` tells how much of it is there
  have hbl : ∀ v, (PyGraph.decimal v).count ' ' = 0 := fun v => List.count_eq_zero.2 (dig v)
  have hcnt : ∀ m', ("%% generated by cliquematch\n".toList ++ Nat.toDigits 10 n ++ [' '] ++
      Nat.toDigits 10 n ++ [' '] ++ Nat.toDigits 10 m').count ' ' = 5 := by
    intro m'
    have h1 := hbl n
    have h2 := hbl m'
    unfold PyGraph.decimal at h1 h2
    simp only [List.count_append, h1, h2]
    rfl
  have hlast : ∀ m', ("%% generated by cliquematch\n".toList ++ Nat.toDigits 10 n ++ [' '] ++
      Nat.toDigits 10 n ++ [' '] ++ Nat.toDigits 10 m').getLast? ≠ some ' ' := by
    intro m' hl
    change (_ ++ PyGraph.decimal m').getLast? = _ at hl
    rw [List.getLast?_append_of_ne_nil _ (hnd m')] at hl
    exact dig m' (List.mem_of_getLast? hl)
  unfold fileHead at hp hne
  rcases List.prefix_concat_iff.1 hp with h | hp
  · exact absurd h hne
  have hp' : p <+: "%% generated by cliquematch\n".toList ++ (PyGraph.decimal n ++ [' '] ++
      PyGraph.decimal n ++ [' '] ++ PyGraph.decimal m) := by
    simpa [PyGraph.decimal] using hp
  rcases prefix_split hp' with ⟨h1, h2⟩ | ⟨h, rfl, hh⟩
  · right
    constructor
    · rintro m' rfl
      have := h1.length_le
      have h3 := List.length_pos_of_ne_nil (hnd n)
      unfold PyGraph.decimal at h3
      simp only [List.length_append] at this
      omega
    · apply fromFile_ub
      by_cases h0 : p = []
      · subst h0; exact Mmio.reader_comments.1
      have h3 : p <+: "%% generated by cliquematch".toList := by
        have e : "%% generated by cliquematch\n".toList =
          "%% generated by cliquematch".toList ++ ['\n'] := by decide
        rw [e] at h1 h2
        rcases List.prefix_concat_iff.1 h1 with h | h
        · exact absurd h h2
        · exact h
      refine Mmio.reader_comment ?_ ?_ ?_
      · intro hmem
        have := h3.subset hmem
        revert this; decide
      · have := h3.length_le
        have e : "%% generated by cliquematch".toList.length = 27 := by decide
        omega
      · left
        obtain ⟨c, cs, rfl⟩ := List.exists_cons_of_ne_nil h0
        obtain ⟨t, ht⟩ := h3
        have e : "%% generated by cliquematch".toList.head? = some '%' := by decide
        rw [← ht] at e
        simpa using e
  · have hub := fun (hn' : n < 2 ^ 64) => Mmio.reader_header (look := look) hcom hn'
    have hub := hub (by omega)
    have count0 : ∀ {t : List Char}, t.count ' ' < 2 → ∀ m', "%% generated by cliquematch\n".toList ++
        t ≠ "%% generated by cliquematch\n".toList ++ Nat.toDigits 10 n ++ [' '] ++
        Nat.toDigits 10 n ++ [' '] ++ Nat.toDigits 10 m' := by
      intro t ht m' e
      have h1 := hcnt m'
      rw [← e, List.count_append] at h1
      have e2 : "%% generated by cliquematch\n".toList.count ' ' = 3 := by decide
      omega
    rcases header_fragments hh with rfl | ⟨a, rfl, ha⟩ | rfl | ⟨a, rfl, ha⟩ | rfl | ⟨a, rfl, ha⟩
    · right
      refine ⟨count0 (by simp), fromFile_ub ?_⟩
      rw [List.append_nil]
      exact Mmio.reader_comments.2 _ hcom
    · right
      exact ⟨count0 (by rw [hbl]; omega), fromFile_ub (hub.1 a (by omega))⟩
    · right
      exact ⟨count0 (by rw [List.count_append, hbl]; decide), fromFile_ub hub.2.1⟩
    · right
      exact ⟨count0 (by rw [List.count_append, List.count_append, hbl, hbl]; decide),
        fromFile_ub (hub.2.2.1 a (by omega))⟩
    · right
      refine ⟨?_, fromFile_ub hub.2.2.2⟩
      intro m' e
      apply hlast m'
      rw [← e, ← List.append_assoc, List.getLast?_concat]
    · left
      obtain ⟨E, r1, r2⟩ := Mmio.reader_header_end (look := look) hcom (n := n) (m := a) (by omega)
      obtain ⟨pg', p1, p2, p3⟩ := load_entries hn (by omega) r1 r2 (by simp) argLR cap
      refine ⟨a, pg', by simp [PyGraph.decimal], ha, p1, ?_, p3⟩
      have : ofPairs [] = (⊥ : SimpleGraph Nat) := by
        ext u v; simp [ofPairs]
      rwa [this] at p2

/-- **C79**, as far as it is true, for a file that ends between two rows: the graph of the complete
rows is loaded, with the `n_edges` of the saved one. -/
theorem C79_between_rows_partial (h : Reached pg n S)
    (hes : ∀ e, e ∈ es ↔ e.1 < e.2 ∧ S.Adj e.1 e.2) (hm : es.length ≤ pg.nedges)
    (hb : pg.nedges < 2 ^ 56) {k : Nat} (hk : k + 1 < es.length)
    (argLR : Bool) (cap : Nat) (look : Bool) :
    ∃ pg', PyGraph.fromFile argLR cap look
        (fileHead n pg.nedges ++ (es.take (k + 1)).flatMap fileRow) = .ok pg' ∧
      Loaded pg' n (ofPairs (es.take (k + 1))) ∧ pg'.nedges = pg.nedges := by
  obtain ⟨pg', h1, h2, h3⟩ := C79_in_row_partial h hes hm hb hk (q := []) (by simp)
    (by simp [fileRow]) argLR cap look
  rw [List.append_nil] at h1
  refine ⟨pg', h1, ?_, h3⟩
  have e : ofPairs (es.take (k + 1) ++ [readAs es[k] []]) = ofPairs (es.take (k + 1)) := by
    have hmem : es[k] ∈ es.take (k + 1) := by
      rw [List.mem_take_iff_getElem]
      exact ⟨k, by omega, rfl⟩
    have hr : readAs es[k] [] = es[k] := rfl
    ext u v
    simp only [ofPairs, hr, List.mem_append, List.mem_cons, List.not_mem_nil, or_false]
    constructor
    · rintro ⟨h1, (h2 | h2) | (h2 | h2)⟩
      · exact ⟨h1, Or.inl h2⟩
      · exact ⟨h1, Or.inl (h2 ▸ hmem)⟩
      · exact ⟨h1, Or.inr h2⟩
      · exact ⟨h1, Or.inr (h2 ▸ hmem)⟩
    · rintro ⟨h1, h2 | h2⟩
      · exact ⟨h1, Or.inl (Or.inl h2)⟩
      · exact ⟨h1, Or.inr (Or.inl h2)⟩
  rwa [e] at h2

/-- **C79**, as far as it is true, for all points at which the writing can stop: reading what is
there uses a variable that was never assigned, or loads a graph with the same number of vertices
and, but for at most one, only edges of the saved graph. -/
theorem C79_any_cut_partial (h : Reached pg n S) (h0 : n ≠ 0) (hm : edgeCount S n ≤ pg.nedges)
    (hb : pg.nedges < 2 ^ 56) {text p : List Char} (ht : pg.toFile = .ok text) (hp : p <+: text)
    (hne : p ≠ text) (argLR : Bool) (cap : Nat) (look : Bool) :
    PyGraph.fromFile argLR cap look p = .error .ub ∨
    ∃ pg' S' x, PyGraph.fromFile argLR cap look p = .ok pg' ∧ Loaded pg' n S' ∧
      ∀ u v, S'.Adj u v → S.Adj u v ∨ s(u, v) = x := by
  obtain ⟨es, _, hes, hlen, hw⟩ := C79_text h h0
  obtain ⟨hn, _, _⟩ := h.holds
  rw [hw] at ht
  cases ht
  have hm' : es.length ≤ pg.nedges := by omega
  rcases prefix_split hp with ⟨h1, h2⟩ | ⟨t, rfl, hq⟩
  · rcases C79_header_partial hn hb h1 h2 argLR cap look with ⟨m', pg', _, _, h3, h4, _⟩ | ⟨_, h3⟩
    · exact Or.inr ⟨pg', ⊥, s(0, 0), h3, h4, by simp⟩
    · exact Or.inl h3
  · rcases prefix_flatMap fileRow hq with rfl | ⟨k, hk, q, rfl, h1, h2⟩
    · exact absurd rfl hne
    cases k with
    | zero =>
      obtain ⟨c1, c2⟩ := C79_first_row_partial h hes hm' hb hk h1 h2 argLR cap look
      simp only [List.take_zero, List.flatMap_nil, List.nil_append]
      by_cases hd : (q.dropWhile fun c => decide (c ≠ ' ')).drop 1 = []
      · exact Or.inl (c2 hd)
      · obtain ⟨pg', p1, p2, _⟩ := c1 hd
        refine Or.inr ⟨pg', _, s((readAs (0, 0) q).1, (readAs (0, 0) q).2), p1, p2, ?_⟩
        rintro u v ⟨_, huv⟩
        right
        simp only [List.mem_cons, List.not_mem_nil, or_false] at huv
        rcases huv with huv | huv <;> rw [← huv]
        exact Sym2.eq_swap
    | succ k =>
      obtain ⟨pg', p1, p2, _⟩ := C79_in_row_partial h hes hm' hb hk h1 h2 argLR cap look
      rw [List.append_assoc] at p1
      refine Or.inr ⟨pg', _, s((readAs es[k] q).1, (readAs es[k] q).2), p1, p2, ?_⟩
      rintro u v ⟨_, huv⟩
      simp only [List.mem_append, List.mem_cons, List.not_mem_nil, or_false] at huv
      rcases huv with (huv | huv) | (huv | huv)
      · exact Or.inl ((hes _).1 (List.mem_of_mem_take huv)).2
      · right; rw [← huv]
      · exact Or.inl ((hes _).1 (List.mem_of_mem_take huv)).2.symm
      · right; rw [← huv]; exact Sym2.eq_swap

namespace Sample

/-- Two edges without a common vertex. -/
def apart : PyGraph := get PyGraph.new (PyGraph.fromEdgelist true 64 [(1, 2), (3, 4)] 4)

theorem apart_loaded : Loaded apart 4 (ofPairs [(1, 2), (3, 4)]) := by
  refine .edgelist (argLR := true) (cap := 64) (by decide) (by decide) ?_
  decide +kernel

end Sample

/-- **C79** is false: the graph has the edges `1 - 2` and `3 - 4`.  If the writing stops after the `3`,
a graph is loaded that has the edge `2 - 3`, and `n_edges` is 2; if it stops after the header, a
variable is used that was never assigned. -/
theorem C79_refuted : Reached apart 4 (ofPairs [(1, 2), (3, 4)]) ∧
    apart.toFile = .ok ("%% generated by cliquematch\n4 4 2\n1 2\n3".toList ++ " 4\n".toList) ∧
    apart.getVertexData 3 = .ok [4] ∧
    (PyGraph.fromFile true 64 true "%% generated by cliquematch\n4 4 2\n1 2\n3".toList >>=
      fun pg => pg.getVertexData 3) = .ok [2] ∧
    PyGraph.fromFile true 64 true "%% generated by cliquematch\n4 4 2\n".toList = .error .ub := by
  refine ⟨Or.inl apart_loaded, ?_⟩
  decide +kernel

/-- The hypotheses of the theorems above are met, and `readAs` at work. -/
example : (4 : Nat) ≠ 0 ∧ apart.nedges = 2 ∧ apart.nedges < 2 ^ 56 ∧
    "3".toList <+: fileRow (3, 4) ∧ "3".toList ≠ fileRow (3, 4) ∧
    readAs (1, 2) "3".toList = (3, 2) ∧ readAs (1, 2) "3 ".toList = (3, 2) ∧
    readAs (1, 2) [] = (1, 2) ∧ readAs (1, 2) "14 1".toList = (14, 1) := by
  decide +kernel

end CM
