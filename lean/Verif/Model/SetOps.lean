import Verif.Model.Bits

/-!
# `detail/gbits.cpp`: the in-place set operators

The four compound assignments combine two packed sets word by word (`GBits.zipOp`).
-/

namespace CM.GBits

/-- gbits.cpp:35-42 `operator&=`: `data[i] &= other.data[i]`. -/
def andEq (b other : GBits) (m : Mem) : M Mem := zipOp (fun x y => x &&& y) b other m

/-- gbits.cpp:44-51 `operator|=`: `data[i] |= other.data[i]`. -/
def orEq (b other : GBits) (m : Mem) : M Mem := zipOp (fun x y => x ||| y) b other m

/-- gbits.cpp:53-60 `operator^=`: `data[i] ^= other.data[i]`. -/
def xorEq (b other : GBits) (m : Mem) : M Mem := zipOp (fun x y => x ^^^ y) b other m

/-- gbits.cpp:62-69 `operator-=`: `data[i] &= ~(other.data[i])`. -/
def subEq (b other : GBits) (m : Mem) : M Mem := zipOp (fun x y => x &&& ~~~ y) b other m

/-- gbits.h:128 `block_empty(i)`: is the word holding position `i` zero. -/
def blockEmpty (b : GBits) (m : Mem) (i : Nat) : M Bool := do
  let w ← rd m (b.off + i / 64)
  .ok (w == 0#64)

end CM.GBits
