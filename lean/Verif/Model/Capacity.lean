import Mathlib.Data.Finset.Prod
import Mathlib.Data.Finset.Card
import Verif.Model.History

/-!
# The capacity of the edge array with GNU's libstdc++

The C++ standard leaves the growth of `std::vector` to the library; the theorems therefore take
the capacity of the vector `edges.first`, which the constructor of the graph takes over
(graph.cpp:35-36), as a parameter.  Here is what libstdc++ does (bits/stl_vector.h,
`_M_check_len`; bits/vector.tcc, `_M_realloc_insert` and `_M_default_append`): a vector that is
full grows to twice its size, and an empty vector that is resized gets exactly the size asked
for.  clean_edges (utils.cpp:112-123) only shrinks the size and keeps the capacity.
-/

namespace CM

/-- `push_back` on a vector with the given size and capacity. (The library function behind
core/pygraph.cpp:155-158.) -/
def pushCap (s : Nat × Nat) : Nat × Nat :=
  (s.1 + 1, if s.1 = s.2 then s.1 + max s.1 1 else s.2)

/-- The capacity after `k` calls of `push_back` on a vector with size and capacity `s`. (The library
function behind core/pygraph.cpp:155-158.) -/
def grown (s : Nat × Nat) : Nat → Nat
  | 0 => s.2
  | k + 1 => grown (pushCap s) k

/-- pygraph.cpp:133-158, pynwgraph.cpp:117-150: `resize(n + 1)`, then two `push_back` per row;
likewise ext_template.hpp:28-76, 100-156 and 199-231 with two `push_back` per link. -/
def edgelistCap (n rows : Nat) : Nat := grown (n + 1, n + 1) (2 * rows)

/-- The number of cells that are marked or on the diagonal. (core/pygraph.cpp:183-187: how often the
condition holds.) -/
def cellCount (n : Nat) (A : Nat → Nat → Bool) : Nat :=
  ((Finset.range n ×ˢ Finset.range n).filter fun e => A e.1 e.2 = true ∨ e.1 = e.2).card

/-- pygraph.cpp:181-192: `push_back` of the sentinel and two for each such cell. -/
def matrixCap (n : Nat) (A : Nat → Nat → Bool) : Nat := grown (0, 0) (1 + 2 * cellCount n A)

/-- pygraph.cpp:215-226: `push_back` for each vertex, the sentinel and each entry. -/
def adjlistCap (n entries : Nat) : Nat := grown (0, 0) (n + 1 + entries)

/-- mmio.cpp:41: `resize(2 * n_edges + n_vert + 1)`. -/
def fileCap (n m : Nat) : Nat := 2 * m + n + 1

end CM
