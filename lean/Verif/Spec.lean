import Mathlib.Combinatorics.SimpleGraph.Clique
import Mathlib.Order.Interval.Finset.Nat
import Mathlib.Data.Finset.Prod

/-!
# Specification

The mathematical objects the properties talk about.  Nothing here depends on how the
library stores a graph or searches it: graphs are Mathlib's `SimpleGraph`, and the
vertices of a loaded graph are `1 .. n`.
-/

namespace CM.Spec

/-- The graph described by a list of edges: orientation, repetition and self loops do
not matter. -/
def ofPairs (rows : List (Nat × Nat)) : SimpleGraph Nat where
  Adj u v := u ≠ v ∧ ((u, v) ∈ rows ∨ (v, u) ∈ rows)
  symm := ⟨fun _ _ h => ⟨h.1.symm, h.2.symm⟩⟩
  loopless := ⟨fun _ h => h.1 rfl⟩

/-- The graph described by an `n × n` matrix (vertex `i` is row and column `i - 1`). -/
def ofMatrix (n : Nat) (A : Nat → Nat → Bool) : SimpleGraph Nat where
  Adj u v := u ≠ v ∧ (1 ≤ u ∧ u ≤ n) ∧ (1 ≤ v ∧ v ≤ n) ∧
    (A (u - 1) (v - 1) = true ∨ A (v - 1) (u - 1) = true)
  symm := ⟨fun _ _ h => ⟨h.1.symm, h.2.2.1, h.2.1, h.2.2.2.symm⟩⟩
  loopless := ⟨fun _ h => h.1 rfl⟩

/-- The graph described by a list of neighbour sets (entry `v` is the set of `v`). -/
def ofSets (sets : List (List Nat)) : SimpleGraph Nat where
  Adj u v := u ≠ v ∧ (v ∈ sets.getD u [] ∨ u ∈ sets.getD v [])
  symm := ⟨fun _ _ h => ⟨h.1.symm, h.2.symm⟩⟩
  loopless := ⟨fun _ h => h.1 rfl⟩

/-- `l` lists, in increasing order, pairwise adjacent vertices of a graph on `1 .. n`. -/
structure IsCliqueList (S : SimpleGraph Nat) (n : Nat) (l : List Nat) : Prop where
  increasing : l.Pairwise (· < ·)
  range : ∀ v ∈ l, 1 ≤ v ∧ v ≤ n
  clique : S.IsClique {v | v ∈ l}

/-- `l` is a clique of maximum size. -/
def IsMaxCliqueList (S : SimpleGraph Nat) (n : Nat) (l : List Nat) : Prop :=
  IsCliqueList S n l ∧ ∀ l', IsCliqueList S n l' → l'.length ≤ l.length

open Classical in
/-- The number of neighbours of `u` among the vertices `1 .. n`. -/
noncomputable def degree (S : SimpleGraph Nat) (n u : Nat) : Nat :=
  ((Finset.Icc 1 n).filter fun v => S.Adj u v).card

open Classical in
/-- The number of edges among the vertices `1 .. n`, each counted once. -/
noncomputable def edgeCount (S : SimpleGraph Nat) (n : Nat) : Nat :=
  ((Finset.Icc 1 n ×ˢ Finset.Icc 1 n).filter fun e => e.1 < e.2 ∧ S.Adj e.1 e.2).card

/-- Dictionary order on pairs. -/
def lexLess (x y : Nat × Nat) : Prop := x.1 < y.1 ∨ (x.1 = y.1 ∧ x.2 < y.2)

/-- `u` is the member of `l` with the fewest neighbours, the smallest such vertex if there
are several. -/
def First (S : SimpleGraph Nat) (n u : Nat) (l : List Nat) : Prop :=
  u ∈ l ∧ ∀ w ∈ l, w ≠ u →
    degree S n u < degree S n w ∨ (degree S n u = degree S n w ∧ u < w)

/-- The vertex that stands for "element `i` of the first set corresponds to element `j` of
the second", both counted from 0, when the second set has `N` elements. -/
def pairId (N i j : Nat) : Nat := i * N + j + 1

/-- The correspondence graph of two sets with `M` and `N` elements for a relation `R`:
two correspondences are joined if they involve two elements of each set and `R` accepts
"`i1` to `j1` and `i2` to `j2`" in one of its two readings. -/
def corrGraph (M N : Nat) (R : Nat → Nat → Nat → Nat → Prop) : SimpleGraph Nat where
  Adj u v := ∃ i1 i2 j1 j2, i1 < M ∧ i2 < M ∧ j1 < N ∧ j2 < N ∧ i1 ≠ i2 ∧ j1 ≠ j2 ∧
    u = pairId N i1 j1 ∧ v = pairId N i2 j2 ∧ (R i1 i2 j1 j2 ∨ R i2 i1 j2 j1)
  symm := ⟨fun _ _ ⟨i1, i2, j1, j2, a, b, c, d, e, f, g, h, r⟩ =>
    ⟨i2, i1, j2, j1, b, a, d, c, e.symm, f.symm, h, g, r.symm⟩⟩
  loopless := ⟨by
    rintro u ⟨i1, i2, j1, j2, a, b, c, d, e, f, g, h, _⟩
    unfold pairId at g h
    have h1 : (i1 * N + j1) / N = i1 := by
      rw [Nat.add_comm, Nat.add_mul_div_right _ _ (by omega), Nat.div_eq_of_lt c]; omega
    have h2 : (i2 * N + j2) / N = i2 := by
      rw [Nat.add_comm, Nat.add_mul_div_right _ _ (by omega), Nat.div_eq_of_lt d]; omega
    have h3 : i1 * N + j1 = i2 * N + j2 := by omega
    rw [h3, h2] at h1
    exact e h1.symm⟩

/-- The relation of a subgraph isomorphism from a graph `S2` into a graph `S1` (vertices
counted from 0): an edge of `S2` is mapped to an edge of `S1`. -/
def isoRel (S1 S2 : SimpleGraph Nat) (i1 i2 j1 j2 : Nat) : Prop :=
  S2.Adj (j1 + 1) (j2 + 1) → S1.Adj (i1 + 1) (i2 + 1)

end CM.Spec

namespace CM

/-- The array `edges`, in the form the internal constructor of graphs expects, stands for
the graph `S` on the vertices `1 .. n`: it lists every edge in both directions, and a self
loop for every vertex including the unused vertex 0. -/
structure Describes (edges : List (Nat × Nat)) (n : Nat) (S : SimpleGraph Nat) : Prop where
  mem : ∀ u v, u ≤ n → v ≤ n → ((u, v) ∈ edges ↔ u = v ∨ S.Adj u v)
  range : ∀ e ∈ edges, e.1 ≤ n ∧ e.2 ≤ n
  rng : ∀ u v, S.Adj u v → (1 ≤ u ∧ u ≤ n) ∧ (1 ≤ v ∧ v ≤ n)

end CM

namespace CM.Spec

/-- `ps` matches elements of a set of `M` elements with elements of a set of `N` elements,
both counted from 0, using no element twice. -/
structure IsMatching (M N : Nat) (ps : List (Nat × Nat)) : Prop where
  range : ∀ p ∈ ps, p.1 < M ∧ p.2 < N
  first : (ps.map Prod.fst).Nodup
  second : (ps.map Prod.snd).Nodup

/-- `ps` matches vertices of `S1` with vertices of `S2` so that every edge of `S2` between
matched vertices is an edge of `S1`: a subgraph isomorphism from a part of `S2` into `S1`.
Vertex `v` of a graph is element `v - 1`. -/
structure IsoMatching (n1 n2 : Nat) (S1 S2 : SimpleGraph Nat) (ps : List (Nat × Nat)) :
    Prop extends IsMatching n1 n2 ps where
  edges : ∀ p ∈ ps, ∀ q ∈ ps, S2.Adj (p.2 + 1) (q.2 + 1) → S1.Adj (p.1 + 1) (q.1 + 1)

/-! ## Text files -/

/-- `cs` writes the number `v` in decimal digits; zeros in front are allowed. -/
structure IsNumber (v : Nat) (cs : List Char) : Prop where
  nonempty : cs ≠ []
  digits : ∀ c ∈ cs, c.isDigit = true
  value : Nat.ofDigitChars 10 cs 0 = v

/-- Spaces and tabs. -/
def IsBlank (cs : List Char) : Prop := ∀ c ∈ cs, c = ' ' ∨ c = '\t'

/-- A comment line: it starts with `%` or `#` and has fewer than 2048 characters. -/
def IsComment (cs : List Char) : Prop :=
  ∃ line, cs = line ++ ['\n'] ∧ '\n' ∉ line ∧ line.length < 2048 ∧
    (line.head? = some '%' ∨ line.head? = some '#')

/-- The line with the number of vertices, twice, and the number of edges.  (The second number
of vertices is not used by the reader.) -/
def IsHeader (n k m : Nat) (cs : List Char) : Prop :=
  ∃ b0 a b1 b b2 c b3, cs = b0 ++ a ++ b1 ++ b ++ b2 ++ c ++ b3 ++ ['\n'] ∧
    IsBlank b0 ∧ IsNumber n a ∧ IsBlank b1 ∧ b1 ≠ [] ∧ IsNumber k b ∧ IsBlank b2 ∧ b2 ≠ [] ∧
    IsNumber m c ∧ IsBlank b3

/-- The line of one edge: two numbers and, after a character that is not a digit, anything. -/
def IsRow (e : Nat × Nat) (cs : List Char) : Prop :=
  ∃ b0 a b1 b tail, cs = b0 ++ a ++ b1 ++ b ++ tail ++ ['\n'] ∧
    IsBlank b0 ∧ IsNumber e.1 a ∧ IsBlank b1 ∧ b1 ≠ [] ∧ IsNumber e.2 b ∧ '\n' ∉ tail ∧
    tail.length < 2048 ∧ ∀ c, tail.head? = some c → c.isDigit = false

/-- A Matrix Market file: comments, the header, one line for each of `rows`, and whatever
follows. -/
def IsFile (n m : Nat) (rows : List (Nat × Nat)) (rest text : List Char) : Prop :=
  ∃ (comments lines : List (List Char)) (header : List Char) (k : Nat),
    text = comments.flatten ++ header ++ lines.flatten ++ rest ∧
    (∀ c ∈ comments, IsComment c) ∧ IsHeader n k m header ∧ k < 2 ^ 64 ∧
    List.Forall₂ IsRow rows lines

end CM.Spec
