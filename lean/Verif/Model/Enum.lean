import Verif.Model.Search

/-!
# `detail/graph/enumerate.cpp`, `dfs.h`: the resumable clique enumerator
-/

namespace CM

/-- dfs.h:58-74, clique.h:22-29: the persistent members of a `CliqueEnumerator`
(the others are scratch variables that are written before they are read). -/
structure Enum where
  states : List SState
  cliqueSize : Nat
  cur : Nat
  req : Nat
  required : Nat
  deriving DecidableEq, Repr

/-- dfs.h:71: the constructor starts at `cur(1)`; `request_size = 0` (clique.h:26). -/
def Enum.new (size : Nat) : Enum :=
  { states := [], cliqueSize := 0, cur := 1, req := 0, required := size }

namespace Graph

/-- enumerate.cpp:39-84 `load_vertex`. -/
def enumLoad (G : Graph) (E : Enum) : M (Graph × Enum × Bool) := do
  let V ← G.vtx E.cur
  let req := dlen V.N
  let (G, x) ← G.rootState V req
  let (eb, pot) ← G.fillCand V x.cand G.eb
  let G := { G with eb := eb }
  if pot < E.required then do
    let G ← G.clearMemory (2 * req)
    .ok (G, { E with req := req }, false)
  else
    .ok (G, { E with req := req, states := x :: E.states, cliqueSize := 1 }, true)

/-- enumerate.cpp:27-36 `process_vertex`: `for (cur++; …; cur++)`. -/
def enumVertex (G : Graph) (E : Enum) : M (Graph × Enum) :=
  loop (G.vs.length + 1) (fun (s : Graph × Enum) => do
    let (G, E) := s
    if E.cur < G.vs.length then do
      let V ← G.vtx E.cur
      if V.mcs < E.required then .ok (.inl (G, { E with cur := E.cur + 1 }))
      else do
        let (G, E, b) ← G.enumLoad E
        if b then .ok (.inr (G, E))
        else .ok (.inl (G, { E with cur := E.cur + 1 }))
    else .ok (.inr (G, E))) (G, { E with cur := E.cur + 1 })

/-- enumerate.cpp:146-159: as `stackScan`, but over all positions and starting
after `vert`'s own position. -/
def enumScan (G : Graph) (V U : Vtx) (cand : GBits) (eb : Mem)
    (left cs required k0 pot0 : Nat) : M (List Nat × Nat) :=
  loop (V.N + 2) (fun (s : Nat × Nat × List Nat × Nat) => do
    let (k, start, rm, pot) := s
    if k < V.N ∧ pot ≥ required then
      if ← cand.test eb k then do
        let val ← G.nbr V k
        let (f, ans) ← binaryFind G.el (uadd U.elo start) (usub U.N start) val
        let rm := if f then rm else rm ++ [k]
        let pot := usub left rm.length + cs + 1
        .ok (.inl (k + 1, uadd start ans, rm, pot))
      else .ok (.inl (k + 1, start, rm, pot))
    else .ok (.inr (rm, pot))) (k0, U.spos + 1, [], pot0)

/-- How the inner `for` of `CliqueEnumerator::process_graph` ends.
(detail/graph/enumerate.cpp:132-209.) -/
inductive EnumExit where
  /-- `return cur` (enumerate.cpp:175) -/
  | found (G : Graph) (top : SState)
  /-- `break` after a push (enumerate.cpp:196-202) -/
  | pushed (G : Graph) (top new : SState)
  /-- loop condition false -/
  | done (G : Graph) (top : SState)

/-- enumerate.cpp:132-208: one iteration of the inner `for`; state: graph, top,
`candidates_left`, `j`. -/
def enumFor (V : Vtx) (req cs required : Nat)
    (s : Graph × SState × Nat × Nat) :
    M ((Graph × SState × Nat × Nat) ⊕ EnumExit) := do
  let (G, top, left, j) := s
  if j < V.N then do
    if ← top.cand.test G.eb j then do
      let eb ← top.cand.reset G.eb j
      let G := { G with eb := eb }
      let top := { top with startAt := j + 1 }
      let left := usub left 1
      let pot := left + 1 + cs
      let vert ← G.nbr V j
      let U ← G.vtx vert
      let (rm, pot) ← G.enumScan V U top.cand eb left cs required (j + 1) pot
      if pot ≥ required then
        if cs + 1 ≥ required then do
          let eb ← top.res.set G.eb j
          let vb ← G.vbits V
          let eb ← vb.copyData top.res.off eb
          let eb ← top.res.reset eb j
          .ok (.inr (.found { G with eb := eb } top))
        else do
          let (G, ptr) := G.loadMemory req
          let (cand, eb) ← GBits.copyFrom top.cand ptr G.eb
          let eb ← top.res.set eb j
          let eb ← rm.foldlM (fun eb k => cand.reset eb k) eb
          .ok (.inr (.pushed { G with eb := eb } top
            { id := j, startAt := j, res := top.res, cand := cand }))
      else .ok (.inl (G, top, left, j + 1))
    else .ok (.inl (G, top, left, j + 1))
  else .ok (.inr (.done G top))

/-- enumerate.cpp:106-223: one iteration of the `while`; `inr` carries the returned
vertex. -/
def enumBody (s : Graph × Enum) : M ((Graph × Enum) ⊕ (Graph × Enum × Nat)) :=
  let (G, E) := s
  if E.cur < G.nVert then
    match E.states with
    | [] => do
      let G ← G.clearMemory E.req
      let (G, E) ← G.enumVertex E
      .ok (.inl (G, E))
    | top :: rest => do
      let V ← G.vtx E.cur
      let (eb, left) ← top.cand.count G.eb
      let r ← loop (V.N + 2) (enumFor V E.req E.cliqueSize E.required)
        ({ G with eb := eb }, top, left, top.startAt)
      match r with
      | .found G top => .ok (.inr (G, { E with states := top :: rest }, E.cur))
      | .pushed G top new =>
        .ok (.inl (G, { E with states := new :: top :: rest, cliqueSize := E.cliqueSize + 1 }))
      | .done G top => do
        let G ← G.clearMemory E.req
        let eb ← top.res.reset G.eb top.id
        .ok (.inl ({ G with eb := eb },
          { E with states := rest, cliqueSize := usub E.cliqueSize 1 }))
  else .ok (.inr (G, E, E.cur))

/-- enumerate.cpp:88-229 `process_graph`. The fuel exceeds the number of vertices
plus the total number of search-tree nodes. -/
def enumGraph (G : Graph) (E : Enum) : M (Graph × Enum × Nat) :=
  if E.required = 0 then .ok (G, { E with cur := G.nVert }, G.nVert)
  else if E.required = 1 ∧ E.cur < G.nVert then do
    let V ← G.vtx E.cur
    let b ← G.vbits V
    let eb ← b.clear G.eb 0
    let eb ← b.set eb V.spos
    .ok ({ G with eb := eb }, { E with cur := E.cur + 1 }, E.cur)
  else
    loop ((G.nVert + 2) * 2 ^ (G.maxDeg + 2)) enumBody (G, E)

end Graph

end CM
