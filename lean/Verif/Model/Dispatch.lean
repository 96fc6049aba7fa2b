import Verif.Model.Wrappers

/-!
# Which builder a call reaches

The four classes of correspondence graphs do not call four functions: the builders for all
combinations of arrays and lists are registered under the same name in the same module
(core/core.cpp:17-28, templates/wrap_template.hpp), and pybind11 chooses by the arguments of the
call.
-/

namespace CM

/-- What numpy says about an array; strides are counted in elements. (What is passed for `set1` and
`set2` in templates/wrap_template.hpp:20.) -/
structure ArrayInfo where
  float64 : Bool
  writeable : Bool
  shape : List Nat
  strides : List Int
  deriving DecidableEq

/-- A set passed to the constructor of one of the classes: an array, or another object with a
length. (The arguments of wrappers/_gen_graph.py:26-31.) -/
inductive PySet where
  | array (a : ArrayInfo)
  | other (len : Nat)
  deriving DecidableEq

namespace PySet

/-- `len(S)` (wrappers/_gen_graph.py:49); the length of an array is that of its first axis. -/
def len : PySet → Nat
  | array a => a.shape.headD 0
  | other n => n

/-- Whether an argument is accepted as `Eigen::Ref<DoubleMatrixR>`, a mutable reference to a row
major matrix (ext/eigen_wrap.h:13-14; declared `noconvert`, templates/wrap_template.hpp:20-21).
This is the type caster of pybind11, which is not part of the repository; simplification: its
documented conditions.  No copy is made for a mutable reference, so the array must have the right
type, be writeable and have one or two axes, its strides must not be negative and the elements of
a row must be adjacent. -/
def fitsRef : PySet → Bool
  | array a => a.float64 && a.writeable && match a.shape, a.strides with
    | [_], [s] => decide (0 ≤ s)
    | [_, c], [s, t] => decide (0 ≤ s) && decide (0 ≤ t) && (decide (t = 1) || decide (c = 1))
    | _, _ => false
  | other _ => false

/-- `np.float64(S)` (wrappers/a2agraph.py:29-30): an array that is of this type already is
returned as it is.  `conv` is what is made of other arrays and of sequences. -/
def npFloat64 (conv : PySet → ArrayInfo) : PySet → PySet
  | array a => if a.float64 then array a else array (conv (array a))
  | other n => array (conv (other n))

end PySet

/-- The types `List1`, `List2` of the template parameters (ext/A2Agraph.cpp:31-35, A2Lgraph.cpp:6-9,
L2Agraph.cpp:6-9, L2Lgraph.cpp:12-15): `Eigen::Ref<DoubleMatrixR>` or `pybind11::object`. -/
inductive SetKind where
  | array
  | object
  deriving DecidableEq

/-- `pybind11::object` accepts everything. (The arguments `set1` and `set2` in
templates/wrap_template.hpp:20.) -/
def SetKind.accepts : SetKind → PySet → Bool
  | .array, s => s.fitsRef
  | .object, _ => true

/-- A function registered under some name: the types of its two sets and the number of its
arguments. (One `m.def` of templates/wrap_template.hpp:15-71.) -/
structure Overload where
  set1 : SetKind
  set2 : SetKind
  nargs : Nat
  deriving DecidableEq

/-- What `init_GraphTemplate` registers for each pair of types, in the order of core/core.cpp:22-25.
`arities` are the numbers of arguments in the order of templates/wrap_template.hpp. -/
def overloads (arities : List Nat) : List Overload :=
  [(SetKind.array, SetKind.array), (.array, .object), (.object, .array), (.object, .object)].flatMap
    fun k => arities.map fun n => ⟨k.1, k.2, n⟩

/-- templates/wrap_template.hpp:15-38 `_build_edges_metric_only`. -/
def metricOverloads : List Overload := overloads [6, 8, 10]

/-- pybind11's choice: the first function that accepts the arguments, first without and then with
implicit conversions. `rest conv` says whether the arguments other than the sets are accepted,
without (`conv = false`) and with conversions; their types are the same in all functions. (What
pybind11 does with templates/wrap_template.hpp:15-71.) -/
def resolve (fs : List Overload) (rest : Bool → Bool) (s1 s2 : PySet) (nargs : Nat) :
    Option Overload :=
  let pick (conv : Bool) := fs.find? fun f =>
    decide (f.nargs = nargs) && f.set1.accepts s1 && f.set2.accepts s2 && rest conv
  match pick false with
  | some f => some f
  | none => pick true

/-- The default distance function of a type of sets (templates/ext_template.h:15-20, or
ext/A2Agraph.cpp:7-12 for arrays); `euc` is the Euclidean distance of the rows. -/
def SetKind.default {D : Type} (euc : Nat → Nat → M D) : SetKind → Nat → Nat → M D
  | .array => euc
  | .object => fun _ _ => .error .throw

/-- The Python classes for sets. (The classes of wrappers/a2agraph.py, a2lgraph.py, l2agraph.py,
l2lgraph.py and aligngraph.py.) -/
inductive MatcherClass where
  | a2a | a2l | l2a | l2l | align
  deriving DecidableEq

/-- The attributes `S1`, `S2` (a2agraph.py:29-30, a2lgraph.py:31-32, l2agraph.py:31-32,
l2lgraph.py:29-30; aligngraph.py:88-89 converts nothing). -/
def MatcherClass.attributes (conv : PySet → ArrayInfo) (s1 s2 : PySet) : MatcherClass → PySet × PySet
  | .a2a => (s1.npFloat64 conv, s2.npFloat64 conv)
  | .a2l => (s1.npFloat64 conv, s2)
  | .l2a => (s1, s2.npFloat64 conv)
  | .l2l => (s1, s2)
  | .align => (s1, s2)

section

variable {D : Type}

/-- The arguments of `build_edges` after `epsilon`, or after `condition_func`: a function and
whether it is symmetric (wrappers/_gen_graph.py:50-53, 83-86). -/
def GenObj.extra (o : GenObj D) : List ((Nat → Nat → M D) × Bool) :=
  match o.d1 with
  | none => []
  | some f => (f, o.sym1) :: match o.d2 with
    | none => []
    | some g => [(g, o.sym2)]

/-- The distance functions in a registered function that has these arguments
(templates/wrap_template.hpp:15-38, 44-72): the ones that are missing are those of
templates/ext_template.h:76-88, `e1` and `e2`. -/
def withDefaults (e1 e2 : Nat → Nat → M D) : List ((Nat → Nat → M D) × Bool) →
    ((Nat → Nat → M D) × Bool) × ((Nat → Nat → M D) × Bool)
  | [] => ((e1, true), (e2, true))
  | [a] => (a, (e2, true))
  | a :: b :: _ => (a, b)

end

/-- The constructor of a class, the assignment of `epsilon` and `build_edges()`
(wrappers/_gen_graph.py:38-54) with the choice of the function.  `AlignGraph` takes no distance
functions (aligngraph.py:88-89).  No suitable function is a `TypeError`. -/
def MatcherClass.build {D : Type} [LinearOrder D] [Inhabited D] (cls : MatcherClass)
    (conv : PySet → ArrayInfo) (rest : Bool → Bool) (argLR : Bool) (cap : Nat)
    (srt1 srt2 : List (PairDist D) → List (PairDist D)) (s1 s2 : PySet)
    (d1 d2 : Option (Nat → Nat → M D)) (sym1 sym2 : Bool) (w : Window D)
    (euc1 euc2 : Nat → Nat → M D) : M (GenObj D) :=
  let S := cls.attributes conv s1 s2
  let d1 := if cls = .align then none else d1
  let d2 := if cls = .align then none else d2
  let o := GenObj.init S.1.len S.2.len d1 d2 sym1 sym2 w
  match resolve metricOverloads rest S.1 S.2 (6 + 2 * o.extra.length) with
  | none => .error .throw
  | some f => do
    let (a, b) := withDefaults (f.set1.default euc1) (f.set2.default euc2) o.extra
    let pg ← buildMetricM argLR cap o.pg srt1 srt2 o.n1 o.n2 o.w a.1 a.2 b.1 b.2
    .ok { o with pg := pg }

/-- templates/wrap_template.hpp:44-72 `_build_edges`, without the function for two graphs
(ext/Isograph.cpp:22-27), which has three arguments. -/
def bothOverloads : List Overload := overloads [11, 9, 7]

/-- templates/wrap_template.hpp:39-42 `_build_edges_condition_only`. -/
def conditionOverloads : List Overload := overloads [6]

/-- The same for `build_edges_with_condition` (wrappers/_gen_graph.py:56-88). -/
def MatcherClass.buildWithCondition {D : Type} [LinearOrder D] [Inhabited D] (cls : MatcherClass)
    (conv : PySet → ArrayInfo) (rest : Bool → Bool) (argLR : Bool) (cap : Nat)
    (srt1 srt2 : List (PairDist D) → List (PairDist D)) (s1 s2 : PySet)
    (d1 d2 : Option (Nat → Nat → M D)) (sym1 sym2 : Bool) (w : Window D)
    (euc1 euc2 : Nat → Nat → M D) (c : Nat → Nat → Nat → Nat → M Bool) (only : Bool) :
    M (GenObj D) :=
  let S := cls.attributes conv s1 s2
  let d1 := if cls = .align then none else d1
  let d2 := if cls = .align then none else d2
  let o := GenObj.init S.1.len S.2.len d1 d2 sym1 sym2 w
  if only then
    match resolve conditionOverloads rest S.1 S.2 6 with
    | none => .error .throw
    | some _ => do
      let pg ← buildConditionM argLR cap o.pg o.n1 o.n2 c
      .ok { o with pg := pg }
  else
    match resolve bothOverloads rest S.1 S.2 (7 + 2 * o.extra.length) with
    | none => .error .throw
    | some f => do
      let (a, b) := withDefaults (f.set1.default euc1) (f.set2.default euc2) o.extra
      let pg ← buildBothM argLR cap o.pg srt1 srt2 o.n1 o.n2 o.w c a.1 a.2 b.1 b.2
      .ok { o with pg := pg }

/-- The methods of `Graph` (core/wrap_pygraph.cpp:17-70); `IsoGraph` adds `build_edges`,
`get_correspondence`, `all_correspondences`. -/
def graphMethods : List String :=
  ["__init__", "search_done", "n_vertices", "n_edges", "_vertex_neighbors", "get_max_clique",
    "reset_search", "_get_correspondence", "all_cliques", "_all_correspondences", "from_file",
    "from_edgelist", "from_matrix", "from_adjlist", "to_file", "to_edgelist", "to_matrix",
    "to_adjlist", "__repr__", "__str__"]

/-- Python's `len(G)`: a `TypeError` if the class has no method `__len__`.
(wrappers/isograph.py:115, 120.) -/
def pyLen (methods : List String) (size : Nat) : PyRes Nat :=
  if "__len__" ∈ methods then .ret size else .raise

/-- `list(IsoGraph(G1, G2).all_correspondences(size))` after `build_edges()`
(wrappers/isograph.py:112-122): the lengths of the two graphs are asked for first. -/
def isoAllCorrespondences (pg pg1 pg2 : PyGraph) (size : Nat) :
    M (PyGraph × PyRes (List (PyRes (List Nat × List Nat)))) :=
  match pyLen graphMethods pg1.nvert, pyLen graphMethods pg2.nvert with
  | .ret _, .ret len2 => do
    let (pg, cs) ← pg.listCorrespondences len2 size
    .ok (pg, .ret (cs.map fun
      | .ret (f, s) => .ret (f.map (· + 1), s.map (· + 1))
      | .raise => .raise))
  | _, _ => .ok (pg, .raise)

end CM
