import Verif.Model.History

/-!
# Matrix Market files

The reader `detail/mmio.cpp`, `from_file` and `to_file`, at the level of characters.  A file
is the list of its characters.  The parts of `std::ifstream` that the reader uses are modelled
after the C++ standard; an error of the file system is not modelled.
-/

namespace CM

/-- An input stream: the characters not yet extracted and the two state bits the reader can cause
(`badbit` needs a failure of the device). (The `ifstream` of detail/mmio.cpp:16.) -/
structure IStream where
  rest : List Char
  eof : Bool
  fail : Bool
  deriving DecidableEq, Repr

namespace IStream

/-- `std::ios::good`. (Used by the extractions of detail/mmio.cpp:26, 33-35, 53-55.) -/
def good (f : IStream) : Bool := !f.eof && !f.fail

/-- `std::istream::peek` (used in mmio.cpp:26): `none` is `EOF`. -/
def peek (f : IStream) : IStream × Option Char :=
  if f.good then
    match f.rest with
    | [] => ({ f with eof := true }, none)
    | c :: _ => (f, some c)
  else ({ f with fail := true }, none)

/-- The characters left after `ignore(k, '\n')`, and whether it met the end of the file. The
standard does not say what happens first after `k` characters: stopping, or looking at the next
character. `look` is the library's choice (libstdc++ looks, libc++ stops). (detail/mmio.cpp:26, 55.)
-/
def skip (look : Bool) : Nat → List Char → List Char × Bool
  | 0, [] => ([], look)
  | 0, c :: cs => if look ∧ c = '\n' then (cs, false) else (c :: cs, false)
  | _ + 1, [] => ([], true)
  | k + 1, c :: cs => if c = '\n' then (cs, false) else skip look k cs

/-- `std::istream::ignore(2048, '\n')` (mmio.cpp:26, 55). -/
def ignore (look : Bool) (f : IStream) : IStream :=
  if f.good then
    let r := skip look 2048 f.rest
    { rest := r.1, eof := r.2, fail := false }
  else { f with fail := true }

/-- `std::isspace` in the "C" locale. (Used by the extractions of detail/mmio.cpp:33-35, 53.) -/
def isSpace (c : Char) : Bool :=
  c = ' ' || c = '\n' || c = '\t' || c = '\r' || c = '\x0b' || c = '\x0c'

/-- `f >> v` for a `u64 v` (mmio.cpp:33-35, 53), in the "C" locale: skip white space, read a
sign and decimal digits.  `none` is the value of a variable that was never assigned; it is
left alone if the stream is not good or ends before a character is found.  Without digits
the result is 0, with too many it is the largest `u64`, and both set `failbit`; a minus sign
negates modulo `2^64`. -/
def extract (f : IStream) (v : Option Nat) : IStream × Option Nat :=
  if f.good then
    match f.rest.dropWhile isSpace with
    | [] => ({ rest := [], eof := true, fail := true }, v)
    | c :: cs =>
      let cs1 := if c = '-' ∨ c = '+' then cs else c :: cs
      let ds := cs1.takeWhile Char.isDigit
      let rest := cs1.dropWhile Char.isDigit
      let x := Nat.ofDigitChars 10 ds 0
      if ds = [] then ({ rest := rest, eof := rest.isEmpty, fail := true }, some 0)
      else if x ≥ 2 ^ 64 then
        ({ rest := rest, eof := rest.isEmpty, fail := true }, some (2 ^ 64 - 1))
      else ({ rest := rest, eof := rest.isEmpty, fail := false },
        some (if c = '-' then usub 0 x else x))
  else ({ f with fail := true }, v)

end IStream

namespace Mmio

/-- mmio.cpp:26, the preamble: one round of `while (f.peek() == '%' || f.peek() == '#')`. -/
def preambleBody (look : Bool) (f : IStream) : M (IStream ⊕ IStream) :=
  let (f, c) := f.peek
  if c = some '%' then .ok (.inl (f.ignore look))
  else
    let (f, c) := f.peek
    if c = some '#' then .ok (.inl (f.ignore look)) else .ok (.inr f)

/-- A variable is read: undefined behaviour if it was never assigned. (The variables of
detail/mmio.cpp:28-29.) -/
def value : Option Nat → M Nat
  | none => .error .ub
  | some v => .ok v

/-- The variables of the loop over the edges (mmio.cpp:28-29, 51). -/
structure State where
  f : IStream
  i : Nat
  j : Nat
  v1 : Option Nat
  v2 : Option Nat
  edges : Edges

/-- mmio.cpp:51-73, one round of the loop over the edges.  The two vectors of end points are
one list of pairs.  The counters for the message on `std::cerr` are left out. -/
def edgeBody (look : Bool) (n m : Nat) (s : State) : M (State ⊕ Edges) :=
  if s.i < m ∧ s.f.eof = false then do
    let (f, v1) := s.f.extract s.v1
    let (f, v2) := f.extract s.v2
    let f := f.ignore look
    let a ← value v1
    let b ← value v2
    let e := if a > n ∨ b > n ∨ a = b then (0, 0) else (a, b)
    let edges ← wr s.edges s.j e
    let edges ← wr edges (uadd s.j 1) (e.2, e.1)
    .ok (.inl { f, i := s.i + 1, j := uadd s.j 2, v1, v2, edges })
  else .ok (.inr s.edges)

/-- mmio.cpp:11-80 `mmio4_reader` on a file that can be opened: the number of vertices, the
number of edges and the edges.  A vector of more than `2^60 - 1` elements of eight bytes
cannot exist (`std::length_error`). -/
def reader (look : Bool) (text : List Char) : M (Nat × Nat × Edges) := do
  let f ← loop (text.length + 1) (preambleBody look) ⟨text, false, false⟩
  let (f, n) := f.extract none
  let (f, _) := f.extract none
  let (f, m) := f.extract none
  let m ← value m
  let n ← value n
  let size := uadd (uadd (umul 2 m) n) 1
  if size ≥ 2 ^ 60 then .error .throw
  else do
    let edges ← forRange 0 (uadd n 1) (fun j (es : Edges) => wr es j (j, j))
      (List.replicate size (0, 0))
    let edges ← loop (m + 1) (edgeBody look n m)
      { f, i := 0, j := uadd n 1, v1 := none, v2 := none, edges }
    .ok (n, m, edges)

end Mmio

namespace PyGraph

/-- pygraph.cpp:113-124 `from_file`. -/
def fromFile (argLR : Bool) (cap : Nat) (look : Bool) (text : List Char) : M PyGraph := do
  let (n, m, edges) ← Mmio.reader look text
  if edges.length = 0 then .error .throw
  else loadGraph argLR cap new n m edges

/-- `f << x` for a `u64` in the "C" locale: decimal digits. (core/pygraph.cpp:264-267.) -/
def decimal (x : Nat) : List Char := Nat.toDigits 10 x

/-- pygraph.cpp:253-269 `to_file`: the characters written. -/
def toFile (pg : PyGraph) : M (List Char) :=
  match pg.checkLoaded with
  | none => .error .throw
  | some G => do
    let es ← G.sendData
    .ok ("%% generated by cliquematch\n".toList ++
      decimal pg.nvert ++ [' '] ++ decimal pg.nvert ++ [' '] ++ decimal pg.nedges ++ ['\n'] ++
      es.flatMap fun e => decimal e.1 ++ [' '] ++ decimal e.2 ++ ['\n'])

end PyGraph

end CM
