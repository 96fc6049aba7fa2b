/-!
# Execution model

Outcomes, loops and 64-bit arithmetic shared by every part of the model.
-/

namespace CM

/-- How a C++ call can fail to return normally.  `throw` is a `CM_ERROR`
(`core/core.h`) or `std::runtime_error` which pybind11 turns into a Python exception;
`ub` is an access the C++ program is not allowed to make (out of bounds, dangling,
null, division by zero); `fuel` means a loop exceeded the bound given in the model. -/
inductive Fault where
  | throw
  | ub
  | fuel
  deriving DecidableEq, Repr

/-- A C++ computation: a value, or one of the failures above. (core/core.h:15-17 `CM_ERROR` for the
exceptions; the type itself models no line of /repo.) -/
abbrev M (α : Type) := Except Fault α

/-- `2^64`, the modulus of `u64` arithmetic. (core/core.h:19 `typedef uint64_t u64`.) -/
abbrev u64max : Nat := 2 ^ 64

/-- `a - b` on `u64` (wraps around). (core/core.h:19; used for example in detail/utils.h:33.) -/
def usub (a b : Nat) : Nat := (a + 2 ^ 64 - b) % 2 ^ 64

/-- `a + b` on `u64` (wraps around). (core/core.h:19; used for example in detail/graph/graph.h:68.)
-/
def uadd (a b : Nat) : Nat := (a + b) % 2 ^ 64

/-- `a * b` on `u64` (wraps around). (core/core.h:19; used for example in core/pygraph.cpp:238.) -/
def umul (a b : Nat) : Nat := (a * b) % 2 ^ 64

variable {σ ρ : Type}

/-- `n` iterations of a counting loop starting at `i`. (Models no single line of /repo: the loops of
this kind, for example detail/graph/graph.h:74.) -/
def forN : Nat → Nat → (Nat → σ → M σ) → σ → M σ
  | 0, _, _, s => .ok s
  | n + 1, i, body, s =>
    match body i s with
    | .ok s' => forN n (i + 1) body s'
    | .error e => .error e

/-- `for (i = lo; i < hi; i++) body`. (Models no single line of /repo: the loops of this kind, for
example detail/graph/graph.h:74.) -/
def forRange (lo hi : Nat) (body : Nat → σ → M σ) (s : σ) : M σ :=
  forN (hi - lo) lo body s

/-- A `while`/`for` loop with arbitrary control flow: the body either continues with a new state
(`inl`) or leaves the loop (`inr`). `fuel` bounds the iterations. (Models no single line of /repo:
the loops of this kind, for example detail/utils.h:44-53.) -/
def loop : Nat → (σ → M (σ ⊕ ρ)) → σ → M ρ
  | 0, _, _ => .error .fuel
  | n + 1, body, s =>
    match body s with
    | .error e => .error e
    | .ok (.inl s') => loop n body s'
    | .ok (.inr r) => .ok r

/-- Checked read of a vector/array element. (Models no single line of /repo: every `v[i]` that is
read, for example detail/utils.h:34.) -/
def rd {α : Type} (l : List α) (i : Nat) : M α :=
  match l[i]? with
  | some a => .ok a
  | none => .error .ub

/-- Checked write of a vector/array element. (Models no single line of /repo: every `v[i]` that is
written, for example detail/graph/graph.h:74.) -/
def wr {α : Type} (l : List α) (i : Nat) (a : α) : M (List α) :=
  if i < l.length then .ok (l.set i a) else .error .ub

end CM
