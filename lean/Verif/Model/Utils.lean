import Verif.Model.Basic

/-!
# `detail/utils.h`, `detail/utils.cpp`: searching and sorting
-/

namespace CM

/-- utils.h:27-55 `binary_find(a, N, val, loc)` with `a = &el[base]`; the result is
`(found, loc)`.  Indices are `u64` and wrap: for `N = 0` the variable `end` becomes
`2^64-1` and `a[end]` is the element before `a`, which is what a flat address space
gives (the standard calls the pointer arithmetic undefined).  `loc` is always
assigned before it is read, since `0 ≤ end`. -/
def binaryFind (el : List Nat) (base N val : Nat) : M (Bool × Nat) := do
  let e := usub N 1
  let ae ← rd el (uadd base e)
  if ae < val then .ok (false, e) else
  let a0 ← rd el (uadd base 0)
  if a0 > val then .ok (false, 0) else
  loop (N + 2) (fun (s : Nat × Nat × Nat) =>
    let (beg, en, loc) := s
    if beg ≤ en then do
      let loc := beg + (en - beg) / 2
      let x ← rd el (uadd base loc)
      if x = val then .ok (.inr (true, loc))
      else if x < val then .ok (.inl (loc + 1, en, loc))
      else .ok (.inl (beg, usub loc 1, loc))
    else .ok (.inr (false, loc))) (0, e, 0)

/-- An edge array: the C++ keeps `p0`, `p1` as two arrays that are always permuted together, here
one list of pairs. (The `std::pair` of core/pygraph.cpp:24, detail/utils.h:57-61.) -/
abbrev Edges := List (Nat × Nat)

/-- `std::swap(p0[i], p0[j]); std::swap(p1[i], p1[j]);`. (detail/utils.cpp:23-24, 61-62.) -/
def swapE (a : Edges) (i j : Nat) : M Edges := do
  let x ← rd a i
  let y ← rd a j
  let a ← wr a i y
  wr a j x

/-- utils.cpp:19-20: `p0[j-1] != p0[j] ? p0[j-1] > p0[j] : p1[j-1] > p1[j]`. -/
def pairGt (x y : Nat × Nat) : Bool :=
  if x.1 ≠ y.1 then decide (x.1 > y.1) else decide (x.2 > y.2)

/-- utils.cpp:19-25: the inner loop of `insertionSort`, counting `j` down to `start`. -/
def sink (start : Nat) : Nat → Edges → M Edges
  | 0, a => .ok a
  | j + 1, a =>
    if j + 1 = start then .ok a else do
      let x ← rd a j
      let y ← rd a (j + 1)
      if pairGt x y then do
        let a ← swapE a (j + 1) j
        sink start j a
      else .ok a

/-- utils.cpp:15-27 `insertionSort`. -/
def insertionSort (a : Edges) (start en : Nat) : M Edges :=
  forRange (start + 1) en (fun i a => sink start i a) a

/-- utils.cpp:41,43: the radix digit `(p[i] >> shift) & 0xF` of the selected key. -/
def digit (keyFirst : Bool) (shift : Nat) (x : Nat × Nat) : Nat :=
  ((if keyFirst then x.1 else x.2) >>> shift) % 16

/-- utils.cpp:43: histogram of digits on `[start, en)`. -/
def radixHist (a : Edges) (start en shift : Nat) (kf : Bool) : M (List Nat) :=
  forRange start en (fun i ends => do
    let x ← rd a i
    let d := digit kf shift x
    let c ← rd ends d
    wr ends d (c + 1)) (List.replicate 16 0)

/-- utils.cpp:44-50: prefix sums, giving `(starts, ends)`. -/
def radixOffsets (start : Nat) (hist : List Nat) : M (List Nat × List Nat) := do
  let starts ← wr (List.replicate 16 0) 0 start
  let e0 ← rd hist 0
  let ends ← wr hist 0 (e0 + start)
  forRange 1 16 (fun i (p : List Nat × List Nat) => do
    let prev ← rd p.2 (i - 1)
    let starts ← wr p.1 i prev
    let ei ← rd p.2 i
    let ends ← wr p.2 i (ei + prev)
    .ok (starts, ends)) (starts, ends)

/-- utils.cpp:54-65: move the elements of bin `i` into place.  At most one
iteration per element that is put into its bin, or skipped. -/
def radixBin (kf : Bool) (shift fuel i : Nat) (ends : List Nat)
    (p : Edges × List Nat) : M (Edges × List Nat) := do
  let j ← rd p.2 i
  let e ← rd ends i
  loop fuel (fun (s : Nat × Edges × List Nat) =>
    let (j, a, starts) := s
    if j < e then do
      let x ← rd a j
      let k := digit kf shift x
      if k = i then .ok (.inl (j + 1, a, starts))
      else do
        let sk ← rd starts k
        let a ← swapE a j sk
        let starts ← wr starts k (sk + 1)
        .ok (.inl (j, a, starts))
    else .ok (.inr (a, starts))) (j, p.1, p.2)

/-- utils.cpp:52-66: the in-place permutation into 16 bins. -/
def radixPermute (a : Edges) (start en shift : Nat) (kf : Bool)
    (starts ends : List Nat) : M (Edges × List Nat) :=
  forRange 0 16 (fun i p => radixBin kf shift (2 * (en - start) + 1) i ends p) (a, starts)

/-- utils.cpp:77-78: `starts` recomputed from `ends`. -/
def radixRestart (start : Nat) (starts ends : List Nat) : M (List Nat) := do
  let starts ← wr starts 0 start
  forRange 1 16 (fun i starts => do
    let e ← rd ends (i - 1)
    wr starts i e) starts

/-- utils.cpp:35-90 `radixSort`; `fuel` bounds the recursion depth.  A shift of 64 or
more applied to a `u64` is undefined. -/
def radixSort : Nat → Edges → Nat → Nat → Nat → Bool → Nat → M Edges
  | 0, _, _, _, _, _, _ => .error .fuel
  | fuel + 1, a, start, en, shift, kf, maxShift => do
    if start < en ∧ 64 ≤ shift then .error .ub else
    let hist ← radixHist a start en shift kf
    let (starts, ends) ← radixOffsets start hist
    let (a, starts) ← radixPermute a start en shift kf starts ends
    if shift = 0 ∧ kf = false then .ok a else
    let shift' := if shift = 0 then maxShift else usub shift 4
    let kf' := if shift = 0 then false else kf
    let starts ← radixRestart start starts ends
    forRange 0 16 (fun i a => do
      let s ← rd starts i
      let e ← rd ends i
      if s ≥ e then .ok a
      else if e - s ≤ 32 then insertionSort a s e
      else radixSort fuel a s e shift' kf' maxShift) a

/-- utils.cpp:96-110 `modUnique`: the new length and the edited array. -/
def modUnique (a : Edges) (start en : Nat) : M (Edges × Nat) :=
  if start = en then .ok (a, en) else
  loop (en - start + 1) (fun (s : Edges × Nat × Nat) =>
    let (a, result, st) := s
    let st := st + 1
    if st = en then .ok (.inr (a, result + 1))
    else do
      let x ← rd a result
      let y ← rd a st
      if x ≠ y then
        let result := result + 1
        if result ≠ st then do
          let a ← wr a result y
          .ok (.inl (a, result, st))
        else .ok (.inl (a, result, st))
      else .ok (.inl (a, result, st))) (a, start, start)

/-- utils.cpp:118-120: number of hexadecimal digits of `m`. -/
def hexDigits : Nat → Nat → Nat
  | 0, _ => 0
  | fuel + 1, m => if m = 0 then 0 else 1 + hexDigits fuel (m >>> 4)

/-- utils.cpp:116-126 `clean_edges`. -/
def cleanEdges (nVert : Nat) (edges : Edges) : M Edges := do
  let shift := usub (4 * hexDigits 17 nVert) 4
  let a ← radixSort 64 edges 0 edges.length shift true shift
  let (a, m) ← modUnique a 0 a.length
  .ok (a.take m)

end CM
