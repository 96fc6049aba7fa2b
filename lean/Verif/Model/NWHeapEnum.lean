import Verif.Model.NWHeap

/-!
# Weighted iterators when memory runs out

As `Model/NWHeap`, for the iterators of `NWGraph`.  What a call wrote before `std::bad_alloc` stays: in
the graph object, and in the iterator, e.g. `clique_weight`, which is written before the state is pushed
(nw_enumerate.cpp:168-176).  Everything else is as in `Model/NWEnum` and `Model/NWApi`.
-/

namespace CM

namespace NWG

variable {R : Type} [Zero R] [Add R] [Sub R] [NatCast R] [LT R] [LE R] [DecidableLT R]
  [DecidableLE R]

/-- nw_enumerate.cpp:22-71 `load_vertex`; `none` if `states.push_back` throws. -/
def enumLoadA (grow : Nat → Nat) (H : NWG R) (E : WEnum R) (q : Vecs) :
    M (NWG R × WEnum R × Vecs × Option Bool) := do
  let V ← H.g.vtx E.cur
  let req := dlen V.N
  let (g, x) ← H.g.rootState V req
  let (eb, ws, pot) ← { H with g := g }.fillCand E.cur V x.cand g.eb E.ws
  let H := { H with g := { g with eb := eb } }
  let wc ← rd H.wt E.cur
  if pot + wc < E.required then do
    let g ← H.g.clearMemory (2 * req)
    .ok ({ H with g := g }, { E with req := req, ws := ws }, q, some false)
  else
    match q.pushState grow E.states.length with
    | none => .ok (H, { E with req := req, ws := ws }, q, none)
    | some q => .ok (H, { E with
        req := req
        ws := ws
        states := { id := x.id, startAt := x.startAt, pot := pot, res := x.res, cand := x.cand }
          :: E.states
        cliqueWeight := wc }, q, some true)

/-- nw_enumerate.cpp:7-18 `process_vertex`; false if memory ran out. -/
def enumVertexA (grow : Nat → Nat) (H : NWG R) (E : WEnum R) (q : Vecs) :
    M (NWG R × WEnum R × Vecs × Bool) :=
  loop (H.g.vs.length + 1) (fun (s : (NWG R × WEnum R) × Vecs) => do
    let ((H, E), q) := s
    if E.cur < H.g.vs.length then do
      let m ← rd H.mcs E.cur
      if m < E.required then .ok (.inl ((H, { E with cur := E.cur + 1 }), q))
      else do
        match ← H.enumLoadA grow E q with
        | (H, E, q, none) => .ok (.inr (H, E, q, false))
        | (H, E, q, some true) => .ok (.inr (H, E, q, true))
        | (H, E, q, some false) => .ok (.inl ((H, { E with cur := E.cur + 1 }), q))
    else .ok (.inr (H, E, q, true))) ((H, { E with cur := E.cur + 1 }), q)

/-- nw_enumerate.cpp:121-138, `enumScan`; `none` if `to_remove.push_back` throws. -/
def enumScanA (grow : Nat → Nat) (H : NWG R) (V U : Vtx) (cand : GBits) (eb : Mem) (ws : List R)
    (cw wj required : R) (k0 : Nat) (cp0 : R) (q : Vecs) : M (Option (List Nat × R × Vecs)) :=
  loop (V.N + 2) (fun (s : (Nat × List Nat × R) × Vecs) => do
    let ((k, rm, cp), q) := s
    if k < V.N ∧ cp + cw + wj ≥ required then
      if ← cand.test eb k then do
        let val ← H.g.nbr V k
        let (f, _) ← binaryFind H.g.el (uadd U.elo U.spos) (usub U.N U.spos) val
        if f then .ok (.inl ((k + 1, rm, cp), q))
        else
          match q.pushRemove grow rm.length with
          | none => .ok (.inr none)
          | some q => do
            let w ← rd ws k
            .ok (.inl ((k + 1, rm ++ [k], cp - w), q))
      else .ok (.inl ((k + 1, rm, cp), q))
    else .ok (.inr (some (rm, cp, q)))) ((k0, [], cp0), q)

/-- How the inner `for` of `NWCliqueEnumerator::process_graph` ends
(nw_enumerate.cpp:108-190). -/
inductive EnumExitA (R : Type) where
  /-- `return cur` -/
  | found (H : NWG R) (top : WState R) (q : Vecs)
  /-- `break` after a push; the fourth component is `clique_weight` -/
  | pushed (H : NWG R) (top new : WState R) (cw : R) (q : Vecs)
  /-- loop condition false -/
  | done (H : NWG R) (top : WState R) (q : Vecs)
  /-- `std::bad_alloc`; the last component is `clique_weight` -/
  | oom (H : NWG R) (top : WState R) (cw : R)

/-- nw_enumerate.cpp:108-189, `enumFor`; `size` is the size of `states`. -/
def enumForA (grow : Nat → Nat) (V : Vtx) (req : Nat) (ws : List R) (cw required : R) (size : Nat)
    (s : (NWG R × WState R × Nat) × Vecs) :
    M (((NWG R × WState R × Nat) × Vecs) ⊕ EnumExitA R) := do
  let ((H, top, j), q) := s
  if j < V.N then do
    if ← top.cand.test H.g.eb j then do
      let eb ← top.cand.reset H.g.eb j
      let top := { top with startAt := j + 1 }
      let (eb, _) ← top.cand.count eb
      let H := { H with g := { H.g with eb := eb } }
      let wj ← rd ws j
      let vert ← H.g.nbr V j
      let U ← H.g.vtx vert
      match ← H.enumScanA grow V U top.cand eb ws cw wj required (j + 1) top.pot q with
      | none => .ok (.inr (.oom H top cw))
      | some (rm, cp, q) =>
        if cp + cw + wj ≥ required then
          if cw + wj ≥ required then do
            let eb ← top.res.set H.g.eb j
            let vb ← H.g.vbits V
            let eb ← vb.copyData top.res.off eb
            let eb ← top.res.reset eb j
            .ok (.inr (.found { H with g := { H.g with eb := eb } } top q))
          else do
            let (g, ptr) := H.g.loadMemory req
            let (cand, eb) ← GBits.copyFrom top.cand ptr g.eb
            let eb ← top.res.set eb j
            let eb ← rm.foldlM (fun eb k => cand.reset eb k) eb
            match q.pushState grow size with
            | none => .ok (.inr (.oom { H with g := { g with eb := eb } } top (cw + wj)))
            | some q => .ok (.inr (.pushed { H with g := { g with eb := eb } } top
                { id := j, startAt := j, pot := cp, res := top.res, cand := cand } (cw + wj) q))
        else .ok (.inl ((H, top, j + 1), q))
    else .ok (.inl ((H, top, j + 1), q))
  else .ok (.inr (.done H top q))

/-- nw_enumerate.cpp:82-204, `enumBody`; at the end the vertex, or `none` if memory ran out. -/
def enumBodyA (grow : Nat → Nat) (s : (NWG R × WEnum R) × Vecs) :
    M (((NWG R × WEnum R) × Vecs) ⊕ (NWG R × WEnum R × Vecs × Option Nat)) :=
  let ((H, E), q) := s
  if E.cur < H.g.nVert then
    match E.states with
    | [] => do
      let g ← H.g.clearMemory E.req
      match ← { H with g := g }.enumVertexA grow E q with
      | (H, E, q, false) => .ok (.inr (H, E, q, none))
      | (H, E, q, true) => .ok (.inl ((H, E), q))
    | top :: rest => do
      let V ← H.g.vtx E.cur
      let (eb, _) ← top.cand.count H.g.eb
      let r ← loop (V.N + 2)
        (enumForA grow V E.req E.ws E.cliqueWeight E.required (rest.length + 1))
        (({ H with g := { H.g with eb := eb } }, top, top.startAt), q)
      match r with
      | .oom H top cw =>
        .ok (.inr (H, { E with states := top :: rest, cliqueWeight := cw }, q, none))
      | .found H top q => .ok (.inr (H, { E with states := top :: rest }, q, some E.cur))
      | .pushed H top new cw q =>
        .ok (.inl ((H, { E with states := new :: top :: rest, cliqueWeight := cw }), q))
      | .done H top q => do
        let g ← H.g.clearMemory E.req
        let eb ← top.res.reset g.eb top.id
        let wid ← rd E.ws top.id
        .ok (.inl (({ H with g := { g with eb := eb } },
          { E with states := rest, cliqueWeight := E.cliqueWeight - wid }), q))
  else .ok (.inr (H, E, q, some E.cur))

/-- nw_enumerate.cpp:78-80: the three vectors of an iterator are reserved; `wcap` is the capacity of
`weights`.  False if a request was refused. -/
def enumReserve (H : NWG R) (q : Vecs) (wcap : Nat) : Vecs × Nat × Bool :=
  match q.reserve H.g.limit with
  | (q, false) => (q, wcap, false)
  | (q, true) =>
    if H.g.maxDeg ≤ wcap then (q, wcap, true)
    else
      match q.heap.request with
      | none => (q, wcap, false)
      | some h => ({ q with heap := h }, H.g.maxDeg, true)

/-- nw_enumerate.cpp:75-210 `process_graph`; the vertex, or `none` if memory ran out. -/
def enumGraphA (grow : Nat → Nat) (H : NWG R) (E : WEnum R) (q : Vecs) (wcap : Nat) :
    M ((NWG R × WEnum R × Vecs × Option Nat) × Nat) :=
  match H.enumReserve q wcap with
  | (q, wcap, false) => .ok ((H, E, q, none), wcap)
  | (q, wcap, true) => do
    let r ← loop ((H.g.nVert + 2) * 2 ^ (H.g.maxDeg + 2)) (enumBodyA grow) ((H, E), q)
    .ok (r, wcap)

end NWG

namespace PyNW

variable {R : Type} [Zero R] [Add R] [Sub R] [NatCast R] [LT R] [LE R] [DecidableLT R]
  [DecidableLE R]

/-- pyiterator.cpp:32-42 `__next__` of an iterator that is `E` and has vectors with the capacities of
`q` and `wcap`; `ret none` is `StopIteration`.  The clique is in a vector and then in a list. -/
def nextCliqueA (grow : Nat → Nat) (pg : PyNW R) (E : WEnum R) (q : Vecs) (wcap : Nat) :
    M (PyNW R × WEnum R × (Vecs × Nat) × HeapRes (Option (List Nat))) :=
  match pg.G with
  | none => .error .ub
  | some H => do
    match ← H.enumGraphA grow E q wcap with
    | ((H, E, q, none), wcap) => .ok ({ pg with G := some H }, E, (q, wcap), .noMemory)
    | ((H, E, q, some v), wcap) =>
      if v > pg.nvert then .ok ({ pg with G := some H }, E, (q, wcap), .ret none)
      else do
        let (H, ans) ← H.getClique v
        match q.heap.request with
        | none => .ok ({ pg with G := some H }, E, (q, wcap), .noMemory)
        | some h =>
          match h.request with
          | none => .ok ({ pg with G := some H }, E, (q, wcap), .noMemory)
          | some h => .ok ({ pg with G := some H }, E, ({ q with heap := h }, wcap), .ret (some ans))

/-- Calls of `__next__` on one iterator, the `i`-th with the `i`-th heap, whatever they answer
(pyiterator.cpp:32-42); the list records the answers. -/
def nextsA (grow : Nat → Nat) : List Heap → PyNW R → WEnum R → Vecs × Nat →
    M (PyNW R × WEnum R × (Vecs × Nat) × List (HeapRes (Option (List Nat))))
  | [], pg, E, q => .ok (pg, E, q, [])
  | h :: hs, pg, E, q => do
    let (pg, E, q, c) ← pg.nextCliqueA grow E { q.1 with heap := h } q.2
    let (pg, E, q, cs) ← nextsA grow hs pg E q
    .ok (pg, E, q, c :: cs)

end PyNW

end CM
