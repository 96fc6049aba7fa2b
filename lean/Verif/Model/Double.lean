import Mathlib.Algebra.Order.Ring.Rat

/-!
# `double`

The weights of `nwgraph` are `double`s (nwgraph.h, wvertex.h, nwclique.h).  On the platforms the
project is built for these are the binary64 numbers of IEEE 754, and each operation rounds its
exact result to the nearest such number, ties to even.  This is a model of the operations that
`nwgraph` uses: `+`, `-`, conversion of integers, `<`, `≤`.  Zero has no sign in the model (no
operation used can tell `-0.0` from `0.0`), NaN no payload.
-/

namespace CM

/-- An IEEE 754 binary64 number; `fin q` is meant for those `q` that have 53 bits. (The type
`double` of core/pynwgraph.cpp and detail/nwgraph/nwgraph.h:59-61.) -/
inductive Dbl where
  | fin (q : Rat)
  | inf (neg : Bool)
  | nan
  deriving DecidableEq

namespace Dbl

/-- `a / b` rounded to the nearest integer, ties to even. (Part of the rounding of `double`, used
for every `+` in detail/nwgraph.) -/
def divEven (a b : Nat) : Nat :=
  let m := a / b
  let r := a % b
  if 2 * r < b then m else if b < 2 * r then m + 1 else m + m % 2

/-- The exponent of the last bit of the significand of a number between `a / b / 2` and `a / b`,
where `a / b` is a positive number: `⌊log₂ (a / b)⌋ - 52`, but at least `-1074`. (Part of the
rounding of `double`, used for every `+` in detail/nwgraph.) -/
def ulp (a b : Nat) : Int :=
  let e : Int := (a.log2 : Int) - b.log2
  -- `2 ^ (e - 1) < a / b < 2 ^ (e + 1)`
  let e := if 0 ≤ e then (if a < b * 2 ^ e.toNat then e - 1 else e)
    else if a * 2 ^ (-e).toNat < b then e - 1 else e
  max (e - 52) (-1074)

/-- The magnitude of `a / b` rounded to 53 bits. (Part of the rounding of `double`, used for every
`+` in detail/nwgraph.) -/
def roundNat (a b : Nat) : Rat :=
  let k := ulp a b
  if 0 ≤ k then divEven a (b * 2 ^ k.toNat) * 2 ^ k.toNat
  else divEven (a * 2 ^ (-k).toNat) b / 2 ^ (-k).toNat

/-- IEEE 754: round to nearest, ties to even; overflow gives an infinity. (The rounding of `double`,
used for every `+` in detail/nwgraph.) -/
def round (q : Rat) : Dbl :=
  if q = 0 then fin 0
  else
    let r := roundNat q.num.natAbs q.den
    if r < 2 ^ 1024 then fin (if q < 0 then -r else r) else inf (decide (q < 0))

/-- `double` zero, for example core/pynwgraph.cpp:39. -/
instance : Zero Dbl := ⟨fin 0⟩

/-- The conversion of an integer to `double`. -/
instance : NatCast Dbl := ⟨fun n => round n⟩

/-- `-a` of `double`. -/
instance : Neg Dbl := ⟨fun
  | fin q => fin (-q)
  | inf s => inf !s
  | nan => nan⟩

/-- `a + b` of `double`, for example in detail/nwgraph/nwgraph.cpp. -/
instance : Add Dbl := ⟨fun
  | fin a, fin b => round (a + b)
  | nan, _ => nan
  | _, nan => nan
  | inf s, inf t => if s = t then inf s else nan
  | inf s, fin _ => inf s
  | fin _, inf s => inf s⟩

/-- `a - b` of `double`, for example in detail/nwgraph/nw_dfs.cpp. -/
instance : Sub Dbl := ⟨fun a b => a + -b⟩

/-- `a < b`; false if one of them is NaN. (The `<` and `>` of `double`, for example
core/pynwgraph.cpp:49.) -/
def lt : Dbl → Dbl → Bool
  | fin a, fin b => decide (a < b)
  | nan, _ => false
  | _, nan => false
  | inf s, inf t => s && !t
  | inf s, fin _ => s
  | fin _, inf t => !t

/-- `a ≤ b`; false if one of them is NaN. (The `<=` and `>=` of `double`, for example
detail/nwgraph/nw_dfs.cpp.) -/
def le : Dbl → Dbl → Bool
  | fin a, fin b => decide (a ≤ b)
  | nan, _ => false
  | _, nan => false
  | inf s, inf t => s || !t
  | inf s, fin _ => s
  | fin _, inf t => !t

/-- `a < b` of `double`, for example core/pynwgraph.cpp:53. -/
instance : LT Dbl := ⟨fun a b => lt a b = true⟩
/-- `a <= b` of `double`, for example in detail/nwgraph/nw_dfs.cpp. -/
instance : LE Dbl := ⟨fun a b => le a b = true⟩
/-- As `lt`. -/
instance : DecidableLT Dbl := fun a b => inferInstanceAs (Decidable (lt a b = true))
/-- As `le`. -/
instance : DecidableLE Dbl := fun a b => inferInstanceAs (Decidable (le a b = true))

/-- `double` literals, for example core/wrap_pygraph.cpp:83. -/
instance (n : Nat) : OfNat Dbl n := ⟨round n⟩

end Dbl

end CM
