import Verif.Model.Effects

/-!
# Functions with effects: what is asked and what is answered
-/

namespace CM

variable {D τ α : Type}

namespace Spec

/-- A call of one of the functions, without the answer. -/
inductive Question where
  | d1 (i j : Nat)
  | d2 (i j : Nat)
  | c (i1 i2 j1 j2 : Nat)
  deriving DecidableEq, Repr

/-- A call of one of the functions that returned, with the answer. -/
inductive Call (D : Type) where
  | d1 (i j : Nat) (x : D)
  | d2 (i j : Nat) (x : D)
  | c (i1 i2 j1 j2 : Nat) (b : Bool)
  deriving DecidableEq, Repr

def Call.question : Call D → Question
  | .d1 i j _ => .d1 i j
  | .d2 i j _ => .d2 i j
  | .c i1 i2 j1 j2 _ => .c i1 i2 j1 j2

/-- Functions without effects: tables of answers. -/
structure Answers (D : Type) where
  d1 : Nat → Nat → D
  d2 : Nat → Nat → D
  c : Nat → Nat → Nat → Nat → Bool

/-- The answer in the table is the one that was given in the call. -/
def Call.Agrees (T : Answers D) : Call D → Prop
  | .d1 i j x => T.d1 i j = x
  | .d2 i j x => T.d2 i j = x
  | .c i1 i2 j1 j2 b => T.c i1 i2 j1 j2 = b

/-- The pairs of different elements of a set of `N`, in order; only those with the smaller one
first if the distance is declared symmetric. -/
def pairs (N : Nat) (sym : Bool) : List (Nat × Nat) :=
  ((List.range N).flatMap fun i => (List.range N).map fun j => (i, j)).filter fun p =>
    if sym then p.1 < p.2 else p.1 ≠ p.2

end Spec

open Spec

/-- The call `f`, kept in a record if it returns. -/
def noted (mk : α → Call D) (f : Eff (PyGraph × τ) α) : Eff (PyGraph × τ × List (Call D)) α :=
  fun s => match f (s.1, s.2.1) with
    | ((pg, t), .ok a) => ((pg, t, s.2.2 ++ [mk a]), .ok a)
    | ((pg, t), .error e) => ((pg, t, s.2.2), .error e)

/-- The same functions, with a record of all calls that return. -/
def Fns.noted (F : Fns (PyGraph × τ) D) : Fns (PyGraph × τ × List (Call D)) D where
  d1 i j := CM.noted (.d1 i j) (F.d1 i j)
  d2 i j := CM.noted (.d2 i j) (F.d2 i j)
  c i1 i2 j1 j2 := CM.noted (.c i1 i2 j1 j2) (F.c i1 i2 j1 j2)

/-- No function, called in a world with `Inv`, leaves one without. -/
structure Fns.Keeps (F : Fns (PyGraph × τ) D) (Inv : PyGraph × τ → Prop) : Prop where
  d1 : ∀ s i j, Inv s → Inv (F.d1 i j s).1
  d2 : ∀ s i j, Inv s → Inv (F.d2 i j s).1
  c : ∀ s i1 i2 j1 j2, Inv s → Inv (F.c i1 i2 j1 j2 s).1

/-- Some function, called in a world with `Inv`, fails with `e`. -/
def Fns.Fails (F : Fns (PyGraph × τ) D) (Inv : PyGraph × τ → Prop) (e : Fault) : Prop :=
  ∃ s, Inv s ∧ ((∃ i j, (F.d1 i j s).2 = .error e) ∨ (∃ i j, (F.d2 i j s).2 = .error e) ∨
    ∃ i1 i2 j1 j2, (F.c i1 i2 j1 j2 s).2 = .error e)

/-- The world after a builder: the object is the one that was built, or as it was if nothing was
built. -/
def ended (s : PyGraph × τ) : M PyGraph → (PyGraph × τ) × M Unit
  | .ok pg => ((pg, s.2), .ok ())
  | .error e => (s, .error e)

/-- How a builder with recorded functions can end, when every world in between has `Inv`: one of
the functions failed, and the object is as they left it; or there is a table of all the answers
that were given, the questions were `asked`, and the object is what the builder makes, with the
table in place of the functions, of the object that the functions left. -/
def AsTable (F : Fns (PyGraph × τ) D) (Inv : PyGraph × τ → Prop)
    (run : (PyGraph × τ × List (Call D)) × M Unit) (asked : List Question → Prop)
    (build : Answers D → PyGraph → M PyGraph) : Prop :=
  ∃ pg t log, Inv (pg, t) ∧
    ((∃ e, F.Fails Inv e ∧ run = ((pg, t, log), .error e)) ∨
      ∃ T : Answers D, (∀ q ∈ log, q.Agrees T) ∧ asked (log.map Call.question) ∧
        run = ended (pg, t, log) (build T pg))

end CM
