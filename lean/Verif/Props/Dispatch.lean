import Verif.Model.Dispatch
import Verif.Props.Metric

/-!
# C77, C78: which distance the classes use by default, and iteration over isomorphisms
-/

namespace CM

open Spec Graph Sample

variable {M N : Nat} {D : Type} [LinearOrder D] [Inhabited D]

/-- Which of the two sets of a class are compared by the Euclidean distance of their rows if no
distance function is given, according to the documentation of the classes; for the others
`build_edges` is to raise. -/
def documented : MatcherClass → Bool × Bool
  | .a2a => (true, true)
  | .a2l => (true, false)
  | .l2a => (false, true)
  | .l2l => (false, false)
  | .align => (true, true)

/-- A default distance function: Euclidean, or one that raises. -/
def defaultFn (euclidean : Bool) (euc : Nat → Nat → CM.M D) : Nat → Nat → CM.M D :=
  if euclidean then euc else fun _ _ => .error .throw

/-! ## C77 -/

/-- The kind of a set is found out from the set. -/
def kindOf (s : PySet) : SetKind := if s.fitsRef then .array else .object

theorem default_kindOf (s : PySet) (euc : Nat → Nat → CM.M D) :
    (kindOf s).default euc = defaultFn s.fitsRef euc := by
  unfold kindOf defaultFn
  cases s.fitsRef <;> rfl

theorem resolve_pick {arities : List Nat} {s1 s2 : PySet} {n : Nat} (h : n ∈ arities) (r : Bool) :
    ((overloads arities).find? fun f =>
      decide (f.nargs = n) && f.set1.accepts s1 && f.set2.accepts s2 && r) =
    if r then some ⟨kindOf s1, kindOf s2, n⟩ else none := by
  have inner : ∀ k1 k2 : SetKind, (arities.map fun n => (⟨k1, k2, n⟩ : Overload)).find? (fun f =>
      decide (f.nargs = n) && f.set1.accepts s1 && f.set2.accepts s2 && r) =
      if k1.accepts s1 && k2.accepts s2 && r then some ⟨k1, k2, n⟩ else none := by
    intro k1 k2
    rw [List.find?_map]
    cases ha : (k1.accepts s1 && k2.accepts s2 && r)
    · rw [List.find?_eq_none.2]
      · simp
      · intro x _
        simp only [Function.comp_apply, Bool.and_assoc] at ha ⊢
        rw [ha]; simp
    · have : (fun x => (fun f : Overload =>
          decide (f.nargs = n) && f.set1.accepts s1 && f.set2.accepts s2 && r) ((⟨k1, k2, x⟩ : Overload))) =
          fun x => decide (x = n) := by
        funext x
        simp only [Bool.and_assoc] at ha ⊢
        rw [ha]; simp
      have h2 : arities.find? (fun x => decide (x = n)) = some n := by
        induction arities with
        | nil => cases h
        | cons a l ih =>
          rw [List.find?_cons]
          by_cases e : a = n
          · simp [e]
          · simp only [e, decide_false]
            exact ih (by simpa [Ne.symm e] using h)
      change Option.map _ (List.find? (fun x => (fun f : Overload =>
          decide (f.nargs = n) && f.set1.accepts s1 && f.set2.accepts s2 && r)
            ((⟨k1, k2, x⟩ : Overload))) arities) = _
      rw [this, h2]; rfl
  unfold overloads
  simp only [List.flatMap_cons, List.flatMap_nil, List.append_nil, List.find?_append, inner]
  simp only [SetKind.accepts, kindOf]
  rcases Bool.eq_false_or_eq_true s1.fitsRef with h1 | h1 <;>
    rcases Bool.eq_false_or_eq_true s2.fitsRef with h2 | h2 <;> cases r <;> simp [h1, h2]

theorem resolve_eq {arities : List Nat} {rest : Bool → Bool} (hrest : rest true = true)
    {s1 s2 : PySet} {n : Nat} (h : n ∈ arities) :
    resolve (overloads arities) rest s1 s2 n = some ⟨kindOf s1, kindOf s2, n⟩ := by
  unfold resolve
  simp only [resolve_pick h, hrest]
  cases rest false <;> rfl

/-- Which of its sets a class converts by `np.float64`. -/
def converted : MatcherClass → Bool × Bool
  | .a2a => (true, true)
  | .a2l => (true, false)
  | .l2a => (false, true)
  | .l2l => (false, false)
  | .align => (false, false)

/-- Arrays of `double`s that can be changed and whose rows are contiguous; an array with one axis
is one column. -/
def RowMatrix (a : ArrayInfo) : Prop :=
  a.float64 = true ∧ a.writeable = true ∧
    ((∃ n s, a.shape = [n] ∧ a.strides = [s] ∧ 0 ≤ s) ∨
      ∃ n c s t, a.shape = [n, c] ∧ a.strides = [s, t] ∧ 0 ≤ s ∧ 0 ≤ t ∧ (t = 1 ∨ c = 1))

/-- The sets whose elements are compared by the Euclidean distance: matrices, and what is converted
to a matrix. -/
def IsMatrixSet (conv : PySet → ArrayInfo) (converts : Bool) : PySet → Prop
  | .array a => if a.float64 = true then RowMatrix a else converts = true ∧ RowMatrix (conv (.array a))
  | .other n => converts = true ∧ RowMatrix (conv (.other n))

theorem fitsRef_iff (a : ArrayInfo) : (PySet.array a).fitsRef = true ↔ RowMatrix a := by
  obtain ⟨f, w, sh, st⟩ := a
  unfold PySet.fitsRef RowMatrix
  simp only [Bool.and_eq_true]
  rw [and_assoc]
  refine and_congr_right fun _ => and_congr_right fun _ => ?_
  rcases sh with _ | ⟨n, _ | ⟨c, _ | ⟨_, _⟩⟩⟩ <;> rcases st with _ | ⟨s, _ | ⟨t, _ | ⟨_, _⟩⟩⟩ <;>
    simp [and_assoc]

theorem other_fitsRef (n : Nat) : (PySet.other n).fitsRef = false := rfl

theorem npFloat64_fitsRef (conv : PySet → ArrayInfo) (s : PySet) : (s.npFloat64 conv).fitsRef = true ↔ IsMatrixSet conv true s := by
  cases s with
  | array a =>
    unfold PySet.npFloat64 IsMatrixSet
    dsimp only
    by_cases h : a.float64 = true
    · rw [if_pos h, if_pos h, fitsRef_iff]
    · rw [if_neg h, if_neg h, fitsRef_iff]; simp
  | other n =>
    unfold PySet.npFloat64 IsMatrixSet
    dsimp only
    rw [fitsRef_iff]; simp

theorem asIs_fitsRef (conv : PySet → ArrayInfo) (s : PySet) :
    s.fitsRef = true ↔ IsMatrixSet conv false s := by
  cases s with
  | array a =>
    unfold IsMatrixSet
    dsimp only
    rw [fitsRef_iff]
    by_cases h : a.float64 = true
    · rw [if_pos h]
    · rw [if_neg h]
      simp only [Bool.false_eq_true, false_and, iff_false]
      exact fun hr => h hr.1
  | other n =>
    unfold IsMatrixSet
    rw [other_fitsRef]; simp

theorem npFloat64_len (conv : PySet → ArrayInfo) (hc : ∀ s, (PySet.array (conv s)).len = s.len)
    (s : PySet) : (s.npFloat64 conv).len = s.len := by
  cases s with
  | array a =>
    unfold PySet.npFloat64
    dsimp only
    by_cases h : a.float64 = true
    · rw [if_pos h]
    · rw [if_neg h]; exact hc _
  | other n => exact hc _

theorem attributes_len (cls : MatcherClass) (conv : PySet → ArrayInfo)
    (hc : ∀ s, (PySet.array (conv s)).len = s.len) (s1 s2 : PySet) :
    (cls.attributes conv s1 s2).1.len = s1.len ∧ (cls.attributes conv s1 s2).2.len = s2.len := by
  cases cls <;> simp only [MatcherClass.attributes, npFloat64_len conv hc, and_self]

theorem attributes_fitsRef (cls : MatcherClass) (conv : PySet → ArrayInfo)
    (s1 s2 : PySet) :
    ((cls.attributes conv s1 s2).1.fitsRef = true ↔ IsMatrixSet conv (converted cls).1 s1) ∧
    ((cls.attributes conv s1 s2).2.fitsRef = true ↔ IsMatrixSet conv (converted cls).2 s2) := by
  cases cls <;> simp only [MatcherClass.attributes, converted]
  · exact ⟨npFloat64_fitsRef conv s1, npFloat64_fitsRef conv s2⟩
  · exact ⟨npFloat64_fitsRef conv s1, asIs_fitsRef conv s2⟩
  · exact ⟨asIs_fitsRef conv s1, npFloat64_fitsRef conv s2⟩
  · exact ⟨asIs_fitsRef conv s1, asIs_fitsRef conv s2⟩
  · exact ⟨asIs_fitsRef conv s1, asIs_fitsRef conv s2⟩

theorem sets_decide (cls : MatcherClass) (conv : PySet → ArrayInfo) {rest : Bool → Bool}
    (hrest : rest true = true) (argLR : Bool) (cap : Nat)
    (srt1 srt2 : List (PairDist D) → List (PairDist D)) (s1 s2 : PySet)
    (d1 d2 : Option (Nat → Nat → CM.M D)) (sym1 sym2 : Bool) (w : Window D)
    (euc1 euc2 : Nat → Nat → CM.M D) (hcls : cls ≠ .align ∨ d1 = none ∧ d2 = none)
    (c : Nat → Nat → Nat → Nat → CM.M Bool) (only : Bool) :
    let S := cls.attributes conv s1 s2
    cls.build conv rest argLR cap srt1 srt2 s1 s2 d1 d2 sym1 sym2 w euc1 euc2 =
      (GenObj.init S.1.len S.2.len d1 d2 sym1 sym2 w).buildEdges argLR cap srt1 srt2
        (defaultFn S.1.fitsRef euc1) (defaultFn S.2.fitsRef euc2) ∧
    cls.buildWithCondition conv rest argLR cap srt1 srt2 s1 s2 d1 d2 sym1 sym2 w euc1 euc2 c only =
      (GenObj.init S.1.len S.2.len d1 d2 sym1 sym2 w).buildEdgesWithCondition argLR cap srt1 srt2
        (defaultFn S.1.fitsRef euc1) (defaultFn S.2.fitsRef euc2) c only := by
  have e1 : (if cls = .align then none else d1) = d1 := by
    rcases hcls with h | ⟨h, _⟩
    · rw [if_neg h]
    · rw [h, ite_self]
  have e2 : (if cls = .align then none else d2) = d2 := by
    rcases hcls with h | ⟨_, h⟩
    · rw [if_neg h]
    · rw [h, ite_self]
  constructor
  · unfold MatcherClass.build
    simp only [e1, e2]
    unfold metricOverloads
    rw [resolve_eq hrest (by
      cases d1 <;> cases d2 <;> simp [GenObj.init, GenObj.extra])]
    simp only [default_kindOf]
    cases d1 <;> cases d2 <;> rfl
  · unfold MatcherClass.buildWithCondition
    simp only [e1, e2]
    unfold bothOverloads conditionOverloads
    rw [resolve_eq hrest (by simp), resolve_eq hrest (by
      cases d1 <;> cases d2 <;> simp [GenObj.init, GenObj.extra])]
    simp only [default_kindOf]
    cases only <;> cases d1 <;> cases d2 <;> rfl

/-- **C77**: which default is used for a set depends on that set and on whether the class converts
it, and on nothing else: it is the Euclidean distance for matrices of `double`s with contiguous rows
that can be changed, and a function that raises for all other sets.  `conv` is numpy's conversion
(`hconv`: the result has the length of its argument); `rest true`: the other arguments, such as
`epsilon`, have values of the right type. -/
theorem C77_sets_decide (cls : MatcherClass) {conv : PySet → ArrayInfo}
    (hconv : ∀ s, (PySet.array (conv s)).len = s.len)
    {rest : Bool → Bool}
    (hrest : rest true = true) (argLR : Bool) (cap : Nat)
    (srt1 srt2 : List (PairDist D) → List (PairDist D)) (s1 s2 : PySet)
    (d1 d2 : Option (Nat → Nat → CM.M D)) (sym1 sym2 : Bool) (w : Window D)
    (euc1 euc2 : Nat → Nat → CM.M D) (hcls : cls ≠ .align ∨ d1 = none ∧ d2 = none)
    (c : Nat → Nat → Nat → Nat → CM.M Bool) (only : Bool) :
    ∃ b1 b2 : Bool, (b1 = true ↔ IsMatrixSet conv (converted cls).1 s1) ∧
      (b2 = true ↔ IsMatrixSet conv (converted cls).2 s2) ∧
      cls.build conv rest argLR cap srt1 srt2 s1 s2 d1 d2 sym1 sym2 w euc1 euc2 =
        (GenObj.init s1.len s2.len d1 d2 sym1 sym2 w).buildEdges argLR cap srt1 srt2
          (defaultFn b1 euc1) (defaultFn b2 euc2) ∧
      cls.buildWithCondition conv rest argLR cap srt1 srt2 s1 s2 d1 d2 sym1 sym2 w euc1 euc2 c only =
        (GenObj.init s1.len s2.len d1 d2 sym1 sym2 w).buildEdgesWithCondition argLR cap srt1 srt2
          (defaultFn b1 euc1) (defaultFn b2 euc2) c only := by
  obtain ⟨h1, h2⟩ := sets_decide cls conv hrest argLR cap srt1 srt2 s1 s2 d1 d2 sym1 sym2 w euc1
    euc2 hcls c only
  obtain ⟨l1, l2⟩ := attributes_len cls conv hconv s1 s2
  obtain ⟨f1, f2⟩ := attributes_fitsRef cls conv s1 s2
  simp only [l1, l2] at h1 h2
  exact ⟨_, _, f1, f2, h1, h2⟩

/-- **C77**, as far as it is true.  The full property: without distance functions the classes use
the Euclidean distance for the sets that are documented as arrays, and raise for those that are
not.  Proved: this is so if the sets of the first kind are matrices of `double`s with contiguous rows
that can be changed, or converted to such, and those of the second are not.  Missing, because false:
other arrays (`C77_refuted_arrays`) and matrices as lists (`C77_refuted_lists`). -/
theorem C77_documented_partial (cls : MatcherClass) {conv : PySet → ArrayInfo}
    (hconv : ∀ s, (PySet.array (conv s)).len = s.len)
    {rest : Bool → Bool} (hrest : rest true = true) (argLR : Bool) (cap : Nat)
    (srt1 srt2 : List (PairDist D) → List (PairDist D)) (s1 s2 : PySet)
    (d1 d2 : Option (Nat → Nat → CM.M D)) (sym1 sym2 : Bool) (w : Window D)
    (euc1 euc2 : Nat → Nat → CM.M D) (hcls : cls ≠ .align ∨ d1 = none ∧ d2 = none)
    (h1 : IsMatrixSet conv (converted cls).1 s1 ↔ (documented cls).1 = true)
    (h2 : IsMatrixSet conv (converted cls).2 s2 ↔ (documented cls).2 = true)
    (c : Nat → Nat → Nat → Nat → CM.M Bool) (only : Bool) :
    cls.build conv rest argLR cap srt1 srt2 s1 s2 d1 d2 sym1 sym2 w euc1 euc2 =
      (GenObj.init s1.len s2.len d1 d2 sym1 sym2 w).buildEdges argLR cap srt1 srt2
        (defaultFn (documented cls).1 euc1) (defaultFn (documented cls).2 euc2) ∧
    cls.buildWithCondition conv rest argLR cap srt1 srt2 s1 s2 d1 d2 sym1 sym2 w euc1 euc2 c only =
      (GenObj.init s1.len s2.len d1 d2 sym1 sym2 w).buildEdgesWithCondition argLR cap srt1 srt2
        (defaultFn (documented cls).1 euc1) (defaultFn (documented cls).2 euc2) c only := by
  obtain ⟨b1, b2, f1, f2, a1, a2⟩ := C77_sets_decide cls hconv hrest argLR cap srt1 srt2 s1 s2 d1 d2
    sym1 sym2 w euc1 euc2 hcls c only
  rw [Bool.eq_iff_iff.2 (f1.trans h1), Bool.eq_iff_iff.2 (f2.trans h2)] at a1 a2
  exact ⟨a1, a2⟩

/-- **C77** is false: `build_edges()` of every class raises if no distance function is given and
the first set is an array of `float64`, but the elements of its rows are not adjacent or it is not
writeable, or (`AlignGraph`) if it is not of type `float64`. -/
theorem C77_refuted_arrays (cls : MatcherClass) {conv : PySet → ArrayInfo}
    (hconv : ∀ s, (PySet.array (conv s)).len = s.len)
    {rest : Bool → Bool}
    (hrest : rest true = true) (argLR : Bool) (cap : Nat)
    (srt1 srt2 : List (PairDist D) → List (PairDist D)) (s1 s2 : PySet)
    (sym1 sym2 : Bool) (w : Window D) (euc1 euc2 : Nat → Nat → D)
    (hfit : ¬ IsMatrixSet conv (converted cls).1 s1)
    (hlen1 : 2 ≤ s1.len) (hlen1' : s1.len < 2 ^ 31) (hlen2' : s2.len < 2 ^ 31) :
    cls.build conv rest argLR cap srt1 srt2 s1 s2 none none sym1 sym2 w
      (fun i j => .ok (euc1 i j)) (fun i j => .ok (euc2 i j)) = .error .throw := by
  obtain ⟨b1, b2, f1, f2, a1, _⟩ := C77_sets_decide cls hconv hrest argLR cap srt1 srt2 s1 s2 none
    none sym1 sym2 w (fun i j => .ok (euc1 i j)) (fun i j => .ok (euc2 i j)) (Or.inr ⟨rfl, rfl⟩)
    (fun _ _ _ _ => .ok true) true
  have hb1 : b1 = false := by
    cases b1
    · rfl
    · exact absurd (f1.1 rfl) hfit
  rw [a1, hb1]
  have hth : ∀ (i j : Nat), (defaultFn false (fun i j => .ok (euc1 i j)) : Nat → Nat → CM.M D) i j =
      .error .throw ∨ ∃ x, (defaultFn false (fun i j => .ok (euc1 i j)) : Nat → Nat → CM.M D) i j =
        .ok x := fun i j => Or.inl rfl
  have hok : ∀ (b : Bool) (i j : Nat),
      (defaultFn b (fun i j => .ok (euc2 i j)) : Nat → Nat → CM.M D) i j = .error .throw ∨
      ∃ x, (defaultFn b (fun i j => .ok (euc2 i j)) : Nat → Nat → CM.M D) i j = .ok x := by
    intro b i j
    cases b
    · exact Or.inl rfl
    · exact Or.inr ⟨_, rfl⟩
  unfold GenObj.init GenObj.buildEdges
  simp only
  rw [(C54_metric_raises hth (hok _) hlen1' hlen2'
    (Or.inl ⟨0, 1, by omega, by omega, by omega, fun _ => by omega, rfl⟩) argLR cap srt1 srt2 w
    (fun _ _ _ _ => .ok true)).1]
  rfl

/-- **C77** is false: `L2LGraph(S1, S2).build_edges()` is documented to raise without distance
functions.  It succeeds if both objects are matrices of `double`s, and joins the correspondences
whose Euclidean distances agree. -/
theorem C77_refuted_lists {conv : PySet → ArrayInfo}
    (hconv : ∀ s, (PySet.array (conv s)).len = s.len)
    {rest : Bool → Bool}
    (hrest : rest true = true) {argLR : Bool} {cap : Nat}
    {srt1 srt2 : List (PairDist Dist) → List (PairDist Dist)} {ε : Rat}
    {sum : List Dbl → Dbl} (hsum : ∀ l, SumOf l (sum l)) {sqrt : Dbl → Dbl}
    (hsqrt : ∀ x : Dbl, .fin 0 ≤ x → .fin 0 ≤ sqrt x) (h0 : sqrt (.fin 0) = .fin 0)
    (rows1 rows2 : Nat → List Rat) {sym1 sym2 : Bool} {a1 a2 : ArrayInfo}
    (hfit1 : RowMatrix a1) (hfit2 : RowMatrix a2) (hM : 1 ≤ (PySet.array a1).len)
    (hN : 2 ≤ (PySet.array a2).len)
    (hb : (PySet.array a1).len * (PySet.array a2).len < 2 ^ 27) (hs1 : Sorts srt1)
    (hs2 : Sorts srt2) (hε : Binary64 ε) :
    let m := (PySet.array a1).len
    let n := (PySet.array a2).len
    ∃ o S, MatcherClass.l2l.build conv rest argLR cap srt1 srt2 (.array a1) (.array a2) none none
        sym1 sym2
        (dblWindow ε) (defaultDist sum sqrt fun i => (rows1 i).map .fin)
        (defaultDist sum sqrt fun i => (rows2 i).map .fin) = .ok o ∧
      Loaded o.pg (m * n) S ∧
      ∀ i1 i2 j1 j2, i1 < m → i2 < m → j1 < n → j2 < n → i1 ≠ i2 → j1 ≠ j2 →
        ∀ x y, eucDist sum sqrt ((rows1 i1).map .fin) ((rows1 i2).map .fin) = .fin x →
          eucDist sum sqrt ((rows2 j1).map .fin) ((rows2 j2).map .fin) = .fin y →
          Binary64 x → Within ε x y → S.Adj (pairId n i1 j1) (pairId n i2 j2) := by
  intro m n
  obtain ⟨o, S, h1, h2, h3⟩ := C72_default_build (argLR := argLR) (cap := cap) hsum hsqrt h0 rows1
    rows2 (sym1 := sym1) (sym2 := sym2) hM (by omega : 1 ≤ (PySet.array a2).len) (Or.inr hN) hb
    hs1 hs2 hε
  refine ⟨o, S, ?_, h2, h3⟩
  obtain ⟨b1, b2, f1, f2, a1', _⟩ := C77_sets_decide .l2l hconv hrest argLR cap srt1 srt2
    (.array a1) (.array a2) none none sym1 sym2 (dblWindow ε)
    (defaultDist sum sqrt fun i => (rows1 i).map .fin)
    (defaultDist sum sqrt fun i => (rows2 i).map .fin) (Or.inr ⟨rfl, rfl⟩)
    (fun _ _ _ _ => .ok true) true
  have e1 : b1 = true := f1.2 (by unfold IsMatrixSet; dsimp only; rw [if_pos hfit1.1]; exact hfit1)
  have e2 : b2 = true := f2.2 (by unfold IsMatrixSet; dsimp only; rw [if_pos hfit2.1]; exact hfit2)
  rw [a1', e1, e2]
  exact h1

namespace Sample

/-- A matrix with two columns in C order. -/
def cOrder (n : Nat) : PySet := .array ⟨true, true, [n, 2], [2, 1]⟩

/-- The transpose of a matrix with two rows in C order. -/
def transposed (n : Nat) : PySet := .array ⟨true, true, [n, 2], [1, n]⟩

/-- A matrix of integers with two columns. -/
def integers (n : Nat) : PySet := .array ⟨false, true, [n, 2], [2, 1]⟩

/-- Conversion to `float64` in C order. -/
def inCOrder : PySet → ArrayInfo
  | .array a => ⟨true, true, a.shape, match a.shape with | [_, c] => [c, 1] | _ => [1]⟩
  | .other n => ⟨true, true, [n], [1]⟩

end Sample

theorem Sample.inCOrder_len (s : PySet) : (PySet.array (inCOrder s)).len = s.len := by
  cases s <;> rfl

/-- The hypotheses of `C77_documented_partial` are met: matrices in C order, or of integers, and
lists. -/
example : IsMatrixSet inCOrder (converted .a2a).1 (cOrder 5) ∧
    IsMatrixSet inCOrder (converted .a2a).2 (integers 4) ∧
    IsMatrixSet inCOrder (converted .a2l).1 (integers 5) ∧
    ¬ IsMatrixSet inCOrder (converted .a2l).2 (.other 4) ∧
    ¬ IsMatrixSet inCOrder (converted .l2l).1 (.other 3) := by
  simp [IsMatrixSet, RowMatrix, converted, inCOrder, cOrder, integers]

/-- The hypotheses of `C77_refuted_arrays` are met: a transposed matrix of `float64`, for
`A2AGraph`, and a matrix of integers, for `AlignGraph`. -/
example : ¬ IsMatrixSet inCOrder (converted .a2a).1 (transposed 5) ∧ (transposed 5).len = 5 ∧
    ¬ IsMatrixSet inCOrder (converted .align).1 (integers 5) ∧ (integers 5).len = 5 := by
  simp [IsMatrixSet, RowMatrix, converted, transposed, integers, PySet.len]

/-- The triangle of C73 again: by `A2AGraph`, by `L2LGraph`, and with the first array transposed. -/
example :
    let call (cls : MatcherClass) (s1 : PySet) :=
      cls.build inCOrder (fun _ => true) true 100 byDbl byDbl s1 (cOrder 4) none none true true
        (dblWindow (1 / 4)) (defaultDist addUp rootOf fun i => (corners i).map .fin)
        (defaultDist addUp rootOf fun i => (shuffled i).map .fin) >>= fun o =>
        o.pg.getCorrespondence byDegree 4 {} >>= fun r => .ok r.2
    call .a2a (cOrder 3) = .ok (.ret ([0, 1, 2], [2, 3, 0])) ∧
    call .l2l (cOrder 3) = .ok (.ret ([0, 1, 2], [2, 3, 0])) ∧
    call .a2a (transposed 3) = .error .throw := by
  decide +kernel

/-! ## C78 -/

/-- **C78**, as far as it is true.  The full property: `IsoGraph(G1, G2).all_correspondences(size)`
yields the isomorphisms between subgraphs with `size` vertices.  Proved: it raises a `TypeError`,
for all graphs and sizes, and leaves the object as it was.  Nothing more is true, because graphs
have no length. -/
theorem C78_raises_partial (pg pg1 pg2 : PyGraph) (size : Nat) :
    isoAllCorrespondences pg pg1 pg2 size = .ok (pg, .raise) := by
  have h : ∀ n, pyLen graphMethods n = .raise := fun n => if_neg (by decide +kernel)
  unfold isoAllCorrespondences
  rw [h, h]

/-- **C78** is false: a cycle of four vertices and a path of three.  `get_correspondence()` finds an
isomorphism between subgraphs with three vertices, and so would the iteration if the lengths were
those of `get_correspondence()`; but it raises. -/
theorem C78_refuted : buildIso true 1000 PyGraph.new cycle path = .ok iso ∧
    (isoCorrespondence byDegree iso path {} >>= fun r => .ok r.2) =
      .ok (.ret ([1, 2, 4], [2, 1, 3])) ∧
    (iso.listCorrespondences 3 3 >>= fun r => .ok r.2.length) = .ok 8 ∧
    (isoAllCorrespondences iso cycle path 3 >>= fun r => .ok r.2) = .ok .raise := by
  refine ⟨iso_eq, ?_, ?_, ?_⟩
  · decide +kernel
  · decide +kernel
  · rw [C78_raises_partial]; rfl

end CM
