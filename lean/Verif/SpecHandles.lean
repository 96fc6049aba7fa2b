import Verif.Model.Handles

/-!
# Specification: programs that call `iter()` on iterators
-/

namespace CM

variable {P E K C A : Type}

/-- The program only names iterator objects that it has made; `m` have been made already. -/
def Named : List (HAct K C) → Nat → Prop
  | [], _ => True
  | .all _ :: xs, m => Named xs (m + 1)
  | .iter it :: xs, m => it < m ∧ Named xs (m + 1)
  | .next it :: xs, m => it < m ∧ Named xs m
  | .call _ :: xs, m => Named xs m

/-- The same program without `iter()`: instead of `iter(it)` it uses `it`.  `names` gives, for each
object the first program has made, the object used instead of it, and `m` is the number of objects
made by the program without `iter()`. -/
def direct : List (HAct K C) → List Nat → Nat → List (HAct K C)
  | [], _, _ => []
  | .all k :: xs, names, m => .all k :: direct xs (names ++ [m]) (m + 1)
  | .iter it :: xs, names, m => direct xs (names ++ [names.getD it 0]) m
  | .next it :: xs, names, m => .next (names.getD it 0) :: direct xs names m
  | .call c :: xs, names, m => .call c :: direct xs names m

/-- What a program sees: the graph object afterwards, and the answers. -/
def outcome (r : M (P × Iters E × List A)) : M (P × List A) := do
  let (pg, _, as) ← r
  .ok (pg, as)

/-- The program uses one iterator only. -/
def Single (xs : List (HAct K C)) : Prop := ∀ k, HAct.all k ∉ xs

/-- The action asks some iterator. -/
def HAct.isNext : HAct K C → Bool
  | .next _ => true
  | _ => false

end CM
