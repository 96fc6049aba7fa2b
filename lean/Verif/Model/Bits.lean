import Verif.Model.Basic

/-!
# `detail/gbits.h`, `detail/gbits.cpp`: bit sets over a word buffer

A `graphBits` object is a raw pointer into a word buffer plus a length.  All the
pointers in the unweighted and weighted graph classes point into the one vector
`edge_bits`, so the model keeps that vector as a `List (BitVec 64)` and represents a
pointer by its offset.  Bit `i` lives in word `i >> 6` at mask `MSB_64 >> (i & 63)`.
-/

namespace CM

/-- `u64` as a word of a bit set. (detail/gbits.h, core/core.h:19.) -/
abbrev Word := BitVec 64

/-- The vector `edge_bits`. (detail/graph/graph.h:49, detail/nwgraph/nwgraph.h:17.) -/
abbrev Mem := List Word

/-- gbits.h:41 `ALL_ONES`. -/
def ALL_ONES : Word := 0xFFFFFFFFFFFFFFFF#64

/-- gbits.h:42 `MSB_64`. -/
def MSB_64 : Word := 0x8000000000000000#64

/-- gbits.h:44-53 `clz`: number of leading zeros (the callers never pass 0). -/
def clz (n : Word) : Nat := 63 - n.toNat.log2

/-- The expression `(n % 64 != 0) + n / 64` (gbits.h:84,105; gbits.cpp:29;
dfs_stack.cpp:44-45; graph.cpp:65): words needed for `n` bits. -/
def dlen (n : Nat) : Nat := (if n % 64 ≠ 0 then 1 else 0) + n / 64

/-- gbits.h:58-60: a `graphBits` object. `off` is the position `data` points to in
`edge_bits`, `len` is `valid_len`; `pad_cover` is a function of `len` (`padCover`). -/
structure GBits where
  off : Nat
  len : Nat
  deriving DecidableEq, Repr

/-- gbits.h:98 `pad_cover = ALL_ONES << (64 - (n_bits & 63))`.  When `n_bits` is a
multiple of 64 the C++ shifts a 64-bit value by 64, which the standard leaves
undefined; x86-64 and AArch64 use the shift count modulo 64, i.e. the result is
`ALL_ONES`.  That machine behaviour is what is modelled (see DESIGN.md). -/
def padCover (n : Nat) : Word := ALL_ONES <<< ((64 - n % 64) % 64)

/-- gbits.cpp:15-24 `bitcount`. -/
def bitcount (n : Word) : Nat :=
  let n := n - ((n >>> 1) &&& 0x5555555555555555#64)
  let n := (n &&& 0x3333333333333333#64) + ((n >>> 2) &&& 0x3333333333333333#64)
  let n := (n + (n >>> 4)) &&& 0x0f0f0f0f0f0f0f0f#64
  let n := n + (n >>> 8)
  let n := n + (n >>> 16)
  let n := n + (n >>> 32)
  (n &&& 0x7f#64).toNat

namespace GBits

/-- gbits.h:110-115 `set`. -/
def set (b : GBits) (m : Mem) (i : Nat) : M Mem := do
  let w ← rd m (b.off + i / 64)
  wr m (b.off + i / 64) (w ||| (MSB_64 >>> (i % 64)))

/-- gbits.h:116-121 `reset`. -/
def reset (b : GBits) (m : Mem) (i : Nat) : M Mem := do
  let w ← rd m (b.off + i / 64)
  wr m (b.off + i / 64) (w &&& ~~~ (MSB_64 >>> (i % 64)))

/-- gbits.h:122-127 `toggle`. -/
def toggle (b : GBits) (m : Mem) (i : Nat) : M Mem := do
  let w ← rd m (b.off + i / 64)
  wr m (b.off + i / 64) (w ^^^ (MSB_64 >>> (i % 64)))

/-- gbits.h:129-134 `operator[]`. -/
def test (b : GBits) (m : Mem) (i : Nat) : M Bool := do
  let w ← rd m (b.off + i / 64)
  .ok ((w &&& (MSB_64 >>> (i % 64))) != 0#64)

/-- gbits.h:135-148 `next` (recursive in the source; `fuel` bounds the recursion). -/
def nextAux (b : GBits) (m : Mem) : Nat → Nat → M Nat
  | 0, _ => .error .fuel
  | fuel + 1, i =>
    if i < b.len then
      match rd m (b.off + i / 64) with
      | .error e => .error e
      | .ok w =>
        let mask := w &&& (ALL_ONES >>> (i % 64))
        if mask ≠ 0#64 then .ok (i / 64 * 64 + clz mask)
        else nextAux b m fuel ((i / 64 + 1) * 64)
    else .ok b.len

/-- gbits.h:135-148 `next(i)`; at most one call per word plus one. -/
def next (b : GBits) (m : Mem) (i : Nat) : M Nat := nextAux b m (b.len / 64 + 2) i

/-- gbits.h:101-108 `clear(N)`. -/
def clear (b : GBits) (m : Mem) (N : Nat) : M Mem :=
  let d := dlen b.len
  let cl := 1 + N / 64
  let cl := if N = 0 ∨ cl > d then d else cl
  forRange 0 cl (fun i m => wr m (b.off + i) 0#64) m

/-- gbits.cpp:26-33 `count` (a `const` method that nevertheless masks the last
word in place).  `data[dlen-1]` with `dlen = 0` is an access before the buffer. -/
def count (b : GBits) (m : Mem) : M (Mem × Nat) := do
  let d := dlen b.len
  if d = 0 then .error .ub else
  let w ← rd m (b.off + (d - 1))
  let m ← wr m (b.off + (d - 1)) (w &&& padCover b.len)
  let s ← forRange 0 d (fun i s => do
    let w ← rd m (b.off + i)
    .ok (s + bitcount w)) 0
  .ok (m, s)

/-- gbits.h:82-86 `copy_data`: `std::copy` of `dlen` words, front to back. -/
def copyData (b : GBits) (other : Nat) (m : Mem) : M Mem :=
  forRange 0 (dlen b.len) (fun i m => do
    let w ← rd m (other + i)
    wr m (b.off + i) w) m

/-- gbits.h:75-81 `copy_from(other, data_ptr)`: returns the new object as well. -/
def copyFrom (other : GBits) (ptr : Nat) (m : Mem) : M (GBits × Mem) := do
  let b : GBits := ⟨ptr, other.len⟩
  let m ← b.copyData other.off m
  .ok (b, m)

/-- gbits.cpp:35-42 `operator&=`, word-wise with the last word masked; `-=` and the
others (gbits.cpp:44-69) have the same shape with another word operation `op`. -/
def zipOp (op : Word → Word → Word) (b other : GBits) (m : Mem) : M Mem := do
  let d := dlen b.len
  let m ← forRange 0 d (fun i m => do
    let x ← rd m (b.off + i)
    let y ← rd m (other.off + i)
    wr m (b.off + i) (op x y)) m
  if d = 0 then .error .ub else
  let w ← rd m (b.off + (d - 1))
  wr m (b.off + (d - 1)) (w &&& padCover b.len)

/-- gbits.cpp:112-125 `get_subset(elements, len)`: the elements at the set
positions.  `ans` has `count()` slots and is filled left to right. -/
def getSubset (b : GBits) (el : List Nat) (base : Nat) (m : Mem) : M (Mem × List Nat) := do
  let (m, c) ← b.count m
  let (ans, _) ← forRange 0 b.len (fun i (p : List Nat × Nat) => do
    if ← b.test m i then
      let x ← rd el (base + i)
      let a ← wr p.1 p.2 x
      .ok (a, p.2 + 1)
    else .ok p) (List.replicate c 0, 0)
  .ok (m, ans)

end GBits

end CM
