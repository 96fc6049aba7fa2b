import Verif.Model.History

/-!
# Sample objects

Concrete inputs on which the hypotheses of the property theorems are shown to hold.
-/

namespace CM.Sample

open Spec

/-- The value of a successful computation. -/
def get {α : Type} (d : α) : M α → α
  | .ok a => a
  | .error _ => d

/-- Insertion into a list sorted by decreasing degree. -/
def insertByDegree (x : Graph.VData) : List Graph.VData → List Graph.VData
  | [] => [x]
  | y :: ys => if x.N ≥ y.N then x :: y :: ys else y :: insertByDegree x ys

/-- A sort by decreasing degree, as the heuristic asks for (heuristic.cpp:78-79). -/
def byDegree (l : List Graph.VData) : List Graph.VData := l.foldr insertByDegree []

theorem insertByDegree_perm (x : Graph.VData) (l : List Graph.VData) :
    (insertByDegree x l).Perm (x :: l) := by
  induction l with
  | nil => exact List.Perm.refl _
  | cons y ys ih =>
    unfold insertByDegree
    split
    · exact List.Perm.refl _
    · exact (ih.cons y).trans (List.Perm.swap x y ys)

theorem byDegree_perm (l : List Graph.VData) : (byDegree l).Perm l := by
  induction l with
  | nil => exact List.Perm.refl _
  | cons x xs ih =>
    show (insertByDegree x (byDegree xs)).Perm _
    exact (insertByDegree_perm x _).trans (ih.cons x)

theorem byDegree_sorted (l : List Graph.VData) :
    (byDegree l).Pairwise (fun x y => x.N ≥ y.N) := by
  induction l with
  | nil => exact List.Pairwise.nil
  | cons x xs ih =>
    show (insertByDegree x (byDegree xs)).Pairwise _
    generalize byDegree xs = ys at ih
    induction ys with
    | nil => simp [insertByDegree]
    | cons y ys ih' =>
      rw [List.pairwise_cons] at ih
      unfold insertByDegree
      split
      · rename_i h
        rw [List.pairwise_cons]
        refine ⟨?_, List.pairwise_cons.2 ih⟩
        intro z hz
        rcases List.mem_cons.1 hz with rfl | hz
        · exact h
        · have := ih.1 z hz; omega
      · rename_i h
        rw [List.pairwise_cons]
        refine ⟨?_, ih' ih.2⟩
        intro z hz
        have hz' := (insertByDegree_perm x ys).mem_iff.1 hz
        rcases List.mem_cons.1 hz' with rfl | hz'
        · omega
        · exact ih.1 z hz'

/-- A complete graph on `1 .. 4` with a tail `4 - 5`. -/
def rows : List (Nat × Nat) := [(1, 2), (1, 3), (1, 4), (2, 3), (2, 4), (3, 4), (4, 5)]

/-- The object `Graph.from_edgelist(rows, 5)`, with room in the buffer. -/
def kite : PyGraph := get PyGraph.new (PyGraph.fromEdgelist true 64 rows 5)

theorem kite_eq : PyGraph.fromEdgelist true 64 rows 5 = .ok kite := by decide +kernel

theorem kite_usable : Usable kite 5 (ofPairs rows) := by
  refine ⟨.edgelist (by decide) (by decide) kite_eq, ?_, 1, 2, by decide, Or.inl (by decide)⟩
  intro G hG
  have : (kite.G.map fun G => G.dangling) = some false := by decide +kernel
  rw [hG] at this
  simpa using this

end CM.Sample
