import Verif.Model.NWSearch

/-!
# `detail/nwgraph/nw_enumerate.cpp`: the resumable enumerator of heavy cliques
-/

namespace CM

/-- nwclique.h:69-88: the persistent members of an `NWCliqueEnumerator` (the others are scratch
variables that are written before they are read).  `ws` is the storage of `weights`
(see `NWG.fillCand`); it is reserved in the first call of `process_graph`
(nw_enumerate.cpp:80). -/
structure WEnum (R : Type) where
  states : List (WState R)
  ws : List R
  cliqueWeight : R
  cur : Nat
  req : Nat
  required : R
  deriving DecidableEq

/-- nwclique.h:85: the constructor starts at `cur(1)`; `request_size = 0` (nwclique.h:15);
`ws` is the storage the first call will reserve. -/
def WEnum.new {R : Type} [Zero R] (ws : List R) (weight : R) : WEnum R :=
  { states := [], ws := ws, cliqueWeight := 0, cur := 1, req := 0, required := weight }

namespace NWG

variable {R : Type} [Zero R] [Add R] [Sub R] [NatCast R] [LT R] [LE R] [DecidableLT R]
  [DecidableLE R]

/-- nw_enumerate.cpp:22-71 `load_vertex`. -/
def enumLoad (H : NWG R) (E : WEnum R) : M (NWG R × WEnum R × Bool) := do
  let V ← H.g.vtx E.cur
  let req := dlen V.N
  let (g, x) ← H.g.rootState V req
  let (eb, ws, pot) ← { H with g := g }.fillCand E.cur V x.cand g.eb E.ws
  let H := { H with g := { g with eb := eb } }
  let wc ← rd H.wt E.cur
  if pot + wc < E.required then do
    let g ← H.g.clearMemory (2 * req)
    .ok ({ H with g := g }, { E with req := req, ws := ws }, false)
  else
    .ok (H, { E with
      req := req
      ws := ws
      states := { id := x.id, startAt := x.startAt, pot := pot, res := x.res, cand := x.cand }
        :: E.states
      cliqueWeight := wc }, true)

/-- nw_enumerate.cpp:7-18 `process_vertex`: `for (cur++; …; cur++)`. -/
def enumVertex (H : NWG R) (E : WEnum R) : M (NWG R × WEnum R) :=
  loop (H.g.vs.length + 1) (fun (s : NWG R × WEnum R) => do
    let (H, E) := s
    if E.cur < H.g.vs.length then do
      let m ← rd H.mcs E.cur
      if m < E.required then .ok (.inl (H, { E with cur := E.cur + 1 }))
      else do
        let (H, E, b) ← H.enumLoad E
        if b then .ok (.inr (H, E))
        else .ok (.inl (H, { E with cur := E.cur + 1 }))
    else .ok (.inr (H, E))) (H, { E with cur := E.cur + 1 })

/-- nw_enumerate.cpp:121-138: find the candidates after `j` that are not adjacent to `vert`
(record `U`), as long as the potential suffices; `cw` is `clique_weight` and `wj` is
`weights[j]`.  Result: `(to_remove, cand_potential)`; `clique_potential` is always
`cand_potential + cw + wj`. -/
def enumScan (H : NWG R) (V U : Vtx) (cand : GBits) (eb : Mem) (ws : List R)
    (cw wj required : R) (k0 : Nat) (cp0 : R) : M (List Nat × R) :=
  loop (V.N + 2) (fun (s : Nat × List Nat × R) => do
    let (k, rm, cp) := s
    if k < V.N ∧ cp + cw + wj ≥ required then
      if ← cand.test eb k then do
        let val ← H.g.nbr V k
        let (f, _) ← binaryFind H.g.el (uadd U.elo U.spos) (usub U.N U.spos) val
        if f then .ok (.inl (k + 1, rm, cp))
        else do
          let w ← rd ws k
          .ok (.inl (k + 1, rm ++ [k], cp - w))
      else .ok (.inl (k + 1, rm, cp))
    else .ok (.inr (rm, cp))) (k0, [], cp0)

/-- How the inner `for` of `NWCliqueEnumerator::process_graph` ends.
(detail/nwgraph/nw_enumerate.cpp:108-190.) -/
inductive EnumExit (R : Type) where
  /-- `return cur` (nw_enumerate.cpp:154) -/
  | found (H : NWG R) (top : WState R)
  /-- `break` after a push (nw_enumerate.cpp:179-183); the last component is
  `clique_weight` -/
  | pushed (H : NWG R) (top new : WState R) (cw : R)
  /-- loop condition false -/
  | done (H : NWG R) (top : WState R)

/-- nw_enumerate.cpp:108-189: one iteration of the inner `for`; state: graph, top, `j`. -/
def enumFor (V : Vtx) (req : Nat) (ws : List R) (cw required : R)
    (s : NWG R × WState R × Nat) : M ((NWG R × WState R × Nat) ⊕ EnumExit R) := do
  let (H, top, j) := s
  if j < V.N then do
    if ← top.cand.test H.g.eb j then do
      let eb ← top.cand.reset H.g.eb j
      let top := { top with startAt := j + 1 }
      let (eb, _) ← top.cand.count eb
      let H := { H with g := { H.g with eb := eb } }
      let wj ← rd ws j
      let vert ← H.g.nbr V j
      let U ← H.g.vtx vert
      let (rm, cp) ← H.enumScan V U top.cand eb ws cw wj required (j + 1) top.pot
      if cp + cw + wj ≥ required then
        if cw + wj ≥ required then do
          let eb ← top.res.set H.g.eb j
          let vb ← H.g.vbits V
          let eb ← vb.copyData top.res.off eb
          let eb ← top.res.reset eb j
          .ok (.inr (.found { H with g := { H.g with eb := eb } } top))
        else do
          let (g, ptr) := H.g.loadMemory req
          let (cand, eb) ← GBits.copyFrom top.cand ptr g.eb
          let eb ← top.res.set eb j
          let eb ← rm.foldlM (fun eb k => cand.reset eb k) eb
          .ok (.inr (.pushed { H with g := { g with eb := eb } } top
            { id := j, startAt := j, pot := cp, res := top.res, cand := cand } (cw + wj)))
      else .ok (.inl (H, top, j + 1))
    else .ok (.inl (H, top, j + 1))
  else .ok (.inr (.done H top))

/-- nw_enumerate.cpp:82-204: one iteration of the `while`; `inr` carries the returned
vertex. -/
def enumBody (s : NWG R × WEnum R) : M ((NWG R × WEnum R) ⊕ (NWG R × WEnum R × Nat)) :=
  let (H, E) := s
  if E.cur < H.g.nVert then
    match E.states with
    | [] => do
      let g ← H.g.clearMemory E.req
      let (H, E) ← { H with g := g }.enumVertex E
      .ok (.inl (H, E))
    | top :: rest => do
      let V ← H.g.vtx E.cur
      let (eb, _) ← top.cand.count H.g.eb
      let r ← loop (V.N + 2) (enumFor V E.req E.ws E.cliqueWeight E.required)
        ({ H with g := { H.g with eb := eb } }, top, top.startAt)
      match r with
      | .found H top => .ok (.inr (H, { E with states := top :: rest }, E.cur))
      | .pushed H top new cw =>
        .ok (.inl (H, { E with states := new :: top :: rest, cliqueWeight := cw }))
      | .done H top => do
        let g ← H.g.clearMemory E.req
        let eb ← top.res.reset g.eb top.id
        let wid ← rd E.ws top.id
        .ok (.inl ({ H with g := { g with eb := eb } },
          { E with states := rest, cliqueWeight := E.cliqueWeight - wid }))
  else .ok (.inr (H, E, E.cur))

/-- nw_enumerate.cpp:75-210 `process_graph`. The fuel exceeds the number of vertices plus the
total number of search-tree nodes. -/
def enumGraph (H : NWG R) (E : WEnum R) : M (NWG R × WEnum R × Nat) :=
  loop ((H.g.nVert + 2) * 2 ^ (H.g.maxDeg + 2)) enumBody (H, E)

end NWG

end CM
