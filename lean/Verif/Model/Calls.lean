import Verif.Model.History

/-!
# Kinds of calls

Client-level vocabulary for histories in which searches may be cut short by the clock.
-/

namespace CM

namespace Op

/-- The call, if it is a search, has an `upper_bound` of at least `u`. (A condition on the arguments
of core/wrap_pygraph.cpp:27-30.) -/
def Ample (u : Nat) : Op → Prop
  | search _ a => u ≤ a.upperBound
  | _ => True

/-- The call, if it is a search, has the default `lower_bound`. (core/wrap_pygraph.cpp:29.) -/
def Unbounded : Op → Prop
  | search _ a => a.lowerBound = 1
  | _ => True

/-- The call is not an iteration. (A condition on the calls of core/wrap_pygraph.cpp:27-40.) -/
def NoList : Op → Prop
  | list _ => False
  | _ => True

/-- The call is a search with a time limit that expires sooner or later. (A condition on the
arguments of core/wrap_pygraph.cpp:27-30.) -/
def timed : Op → Bool
  | search _ a => match a.timeLimit with
    | some (some _) => true
    | _ => false
  | _ => false

end Op

end CM
