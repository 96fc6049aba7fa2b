import Verif.Model.NWHistory

/-!
# Weighted search with the C++ rule for `std::sort`

nw_heuristic.cpp:71-72 sorts the candidates with `std::greater<vdata>`, which compares their
weighted degrees, `double`s (nwclique.h:108-111).  `std::sort` is only defined if the comparison
is a strict weak order of the elements to be sorted.  `NWG.heurVertex` (`Model/NWSearch`) does not
look at that: the sorting function is one of its parameters.  Here is the search with the rule of
the language.  (heuristic.cpp:77-79 compares integers, which always are so ordered.)
-/

namespace CM

/-- What `std::sort` requires of a comparison ("comp" in the C++ standard, [alg.sorting]) and the
elements to be sorted: it is a strict order of them, and being incomparable is transitive. (For the
`std::sort` of detail/nwgraph/nw_heuristic.cpp:71.) -/
def StrictWeak {α : Type} (r : α → α → Prop) (l : List α) : Prop :=
  (∀ x ∈ l, ¬ r x x) ∧
  (∀ x ∈ l, ∀ y ∈ l, ∀ z ∈ l, r x y → r y z → r x z) ∧
  (∀ x ∈ l, ∀ y ∈ l, ∀ z ∈ l, (¬ r x y ∧ ¬ r y x) → (¬ r y z ∧ ¬ r z y) → ¬ r x z ∧ ¬ r z x)

/-- To compute with `StrictWeak`; models no line of /repo. -/
instance {α : Type} (r : α → α → Prop) [∀ x y, Decidable (r x y)] (l : List α) :
    Decidable (StrictWeak r l) := by
  unfold StrictWeak
  infer_instance

variable {R : Type} [Zero R] [Add R] [Sub R] [NatCast R] [LT R] [LE R] [DecidableLT R]
  [DecidableLE R]

namespace NWG

/-- nwclique.h:108-111 `vdata::operator>`. -/
def WData.gt (x y : WData R) : Prop := y.degree < x.degree

/-- To compute with `WData.gt`; models no line of /repo. -/
instance (x y : WData R) : Decidable (x.gt y) := inferInstanceAs (Decidable (y.degree < x.degree))

/-- nw_heuristic.cpp:30-126 like `heurVertex`; the call of `std::sort` in lines 71-72 is undefined
if the comparison is not as required. -/
def heurVertexStrict (srt : List (WData R) → List (WData R)) (s : NWG R × List (WData R)) (cur : Nat)
    (res cand : GBits) : M (NWG R × List (WData R)) := do
  let (H, nb) := s
  let V ← H.g.vtx cur
  let eb ← res.clear H.g.eb V.N
  let eb ← cand.clear eb V.N
  let eb ← res.set eb V.spos
  let cw ← rd H.wt cur
  let (eb, nb, _, left, cp) ← H.heurCollect cur V cand eb nb
  let H := { H with g := { H.g with eb := eb } }
  if (left : R) ≤ H.curMax then .ok (H, nb)
  else if StrictWeak WData.gt (nb.take left) then do
    let nb := srt (nb.take left) ++ nb.drop left
    let H ← loop (left + 1) (heurGrow cur V nb left res cand) (H, 0, cw, left, cp)
    .ok (H, nb)
  else .error .ub

/-- nw_heuristic.cpp:9-28, like `heurGraph`. -/
def heurGraphStrict (srt : List (WData R) → List (WData R)) (H : NWG R) : M (NWG R) := do
  let req := dlen H.g.maxDeg
  let (g, rp) := H.g.loadMemory req
  let (g, cp) := g.loadMemory req
  let res : GBits := ⟨rp, g.maxDeg⟩
  let cand : GBits := ⟨cp, g.maxDeg⟩
  let s ← heurVertexStrict srt ({ H with g := g },
    List.replicate g.maxDeg { id := 0, N := 0, pos := 0, degree := 0 }) H.curLoc res cand
  let H ← loop (s.1.g.nVert + 1) (fun (s : (NWG R × List (WData R)) × Nat) => do
    let ((H, nb), i) := s
    if i < H.g.nVert ∧ H.curMax < H.limit then do
      let m ← rd H.mcs i
      if m ≤ H.curMax then .ok (.inl ((H, nb), i + 1))
      else do
        let s ← heurVertexStrict srt (H, nb) i res cand
        .ok (.inl (s, i + 1))
    else .ok (.inr H)) (s, 0)
  let g ← H.g.clearMemory (2 * req)
  .ok { H with g := g }

/-- nwclique.cpp:8-15, like `findMaxCliques`. -/
def findMaxCliquesStrict (srt : List (WData R) → List (WData R)) (junk : Nat → R) (H : NWG R)
    (startVert : Nat) (useHeur useDfs : Bool) : M (NWG R × Nat) := do
  let H ← if useHeur then H.heurGraphStrict srt else .ok H
  if useDfs then H.stackGraph junk else .ok (H, startVert)

end NWG

namespace PyNW

/-- pynwgraph.cpp:44-64 `get_max_clique`, like `getMaxClique`. -/
def getMaxCliqueStrict (srt : List (NWG.WData R) → List (NWG.WData R)) (junk : Nat → R)
    (pg : PyNW R) (a : Args R) : M (PyNW R × PyRes (List Nat)) :=
  let pg := { pg with currentVertex := 0 }
  match pg.checkLoaded with
  | none => .ok (pg, .raise)
  | some H => do
    let H := { H with
      curMax := if a.lowerBound > H.curMax then a.lowerBound else H.curMax
      limit := if a.upperBound < H.limit then a.upperBound else H.limit }
    let (H, cv) ← H.findMaxCliquesStrict srt junk 0 a.useHeuristic a.useDfs
    let fin := decide (cv ≥ pg.nvert)
    let (H, ans) ← H.getClique H.curLoc
    let pg := { pg with G := some H, currentVertex := cv, finishedAll := fin }
    let w ← H.cliqueWeight ans
    if a.lowerBound > w then .ok (pg, .raise) else .ok (pg, .ret ans)

/-- pynwgraph.cpp:87-94 `get_correspondence`, like `getCorrespondence`. -/
def getCorrespondenceStrict (srt : List (NWG.WData R) → List (NWG.WData R)) (junk : Nat → R)
    (pg : PyNW R) (len2 : Nat) (a : Args R) : M (PyNW R × PyRes (List Nat × List Nat)) := do
  let (pg, r) ← pg.getMaxCliqueStrict srt junk a
  match r with
  | .raise => .ok (pg, .raise)
  | .ret c => do
    let r ← PyGraph.getCorrespondence2 len2 c
    .ok (pg, r)

end PyNW

/-- The state after the call, like `WOp.run`. (core/pynwgraph.cpp:37-63, core/pyiterator.cpp:32-42.)
-/
def WOp.runStrict (pg : PyNW R) : WOp R → M (PyNW R)
  | .search srt junk a => do
    let (pg, _) ← pg.getMaxCliqueStrict srt junk a
    .ok pg
  | op => op.run pg

/-- The state after a sequence of calls, like `wruns`. (A client of core/wrap_pygraph.cpp:81-100;
models no line of /repo.) -/
def wrunsStrict (ops : List (WOp R)) (pg : PyNW R) : M (PyNW R) := ops.foldlM WOp.runStrict pg

end CM
