import Verif.Model.Recompile
import Verif.Lemmas.FlipApi
import Verif.Lemmas.RoomExact

/-!
# Loading in two builds
-/

namespace CM

open Spec

variable {n : Nat} {S : SimpleGraph Nat} {G G' : Graph} {pg pg' : PyGraph}

namespace Graph

theorem ctorStep_fl (i : Nat) (G : Graph) : Agree fl (G.fl.ctorStep i) (G.ctorStep i) := by
  unfold ctorStep
  refine Agree.same fun a => Agree.same fun eb => ?_
  exact Agree.pure (f := fl) { G with
    eb := eb, vs := G.vs ++ [_], elSize := G.elSize + a.2.1, ebSize := G.ebSize + dlen a.2.1
    maxDeg := if a.2.1 > G.maxDeg then a.2.1 else G.maxDeg }

theorem mcsOf_fl (cur : Nat) (G : Graph) : G.fl.mcsOf cur = G.mcsOf cur := rfl

theorem boundsLoop_fl (G : Graph) : Agree fl G.fl.boundsLoop G.boundsLoop := by
  unfold boundsLoop
  refine Agree.forRange (f := fl) (fun cur G => ?_) 0 G.vs.length { G with limit := 0 }
  rw [mcsOf_fl]
  refine Agree.same fun m => Agree.bind (setMcs_fl G cur m) fun G => ?_
  show Agree fl (if m > G.limit then _ else _) _
  refine Agree.ite ?_ (Agree.pure G)
  exact Agree.pure (f := fl) { G with curLoc := cur, limit := m }

theorem setBounds_fl (cap : Nat) (G : Graph) : Agree fl (G.fl.setBounds cap) (G.setBounds cap) := by
  unfold setBounds
  refine Agree.bind (boundsLoop_fl G) fun G => ?_
  refine Agree.ite ?_ (Agree.pure G)
  exact Agree.pure (f := fl) { G with
    eb := resizeMem G.eb (G.ebSize + 2 * (G.limit + 1) * dlen G.maxDeg + 1)
    searchEnd := G.ebSize + 2 * (G.limit + 1) * dlen G.maxDeg + 1
    dangling := decide (G.ebSize + 2 * (G.limit + 1) * dlen G.maxDeg + 1 > cap) }

theorem ctor_fl (l : Bool) (cap n : Nat) (edges : Edges) :
    Agree fl (ctor (!l) cap n edges) (ctor l cap n edges) := by
  unfold ctor
  refine Agree.same fun es => ?_
  refine Agree.bind (Agree.forRange (f := fl) (fun i G => ctorStep_fl i G) 0 (n + 1)
    { Graph.empty l with
      el := es.map Prod.snd
      eb := es.map (fun e => BitVec.ofNat 64 e.1)
      nVert := n + 1 }) fun G => ?_
  exact setBounds_fl cap { G with
    searchStart := 1 + G.ebSize, searchCur := 1 + G.ebSize, searchEnd := G.eb.length }

theorem Ok.fl (h : Graph.Ok G) : Graph.Ok G.fl := by
  obtain ⟨a, b, c, d, e, f⟩ := h
  refine ⟨?_, b, c, d, e, f⟩
  obtain ⟨a1, a2, a3, a4, a5, a6, a7, a8, a9, a10, a11, a12, a13, a14, a15⟩ := a
  exact ⟨a1, a2, a3, a4, a5, a6, a7, a8, a9, a10, a11, a12, a13, a14, a15⟩

theorem Of.fl (h : Graph.Of G n S) : Graph.Of G.fl n S := by
  obtain ⟨a, b, c⟩ := h
  exact ⟨a, b, c⟩

end Graph

theorem PyOk.fl (h : PyOk pg n S G) : PyOk pg.fl n S G.fl := by
  obtain ⟨a, b, c, d, e⟩ := h
  exact ⟨by rw [PyGraph.fl_some a], b, c, d.fl, e.fl⟩

theorem loadGraph_two {l l' : Bool} {c c' m : Nat} {edges : Edges} {pg0 : PyGraph}
    (h : PyGraph.loadGraph l c pg0 n m edges = .ok pg)
    (h' : PyGraph.loadGraph l' c' pg0 n m edges = .ok pg') (hk : BufferKept pg)
    (hk' : BufferKept pg') : pg' = pg ∨ pg' = pg.fl := by
  unfold PyGraph.loadGraph at h h'
  obtain ⟨G, h1, h⟩ := bind_eq_ok.1 h
  obtain ⟨G', h1', h'⟩ := bind_eq_ok.1 h'
  obtain ⟨d, h2⟩ := ctor_flag (cap' := c') h1
  cases h
  cases h'
  have e1 : G.dangling = false := hk G rfl
  have e2 : G'.dangling = false := hk' G' rfl
  have key : ∀ A : Graph, A = { G with dangling := d } ∨ A = Graph.fl { G with dangling := d } →
      A = G' → G' = G ∨ G' = G.fl := by
    rintro A (rfl | rfl) rfl
    · have : d = false := e2
      subst this
      exact .inl (by cases G; cases e1; rfl)
    · have : d = false := e2
      subst this
      exact .inr (by cases G; cases e1; rfl)
  have : G' = G ∨ G' = G.fl := by
    by_cases hl : l' = l
    · subst hl
      rw [h2] at h1'
      exact key _ (.inl rfl) (by injection h1')
    · have : l' = !l := by cases l <;> cases l' <;> simp_all
      subst this
      exact key _ (.inr rfl) (Graph.ctor_fl l c' n edges _ _ h2 h1').symm
  rcases this with rfl | rfl
  · exact .inl rfl
  · exact .inr rfl

theorem Recompiled.cases (h : Recompiled pg pg') (hk : BufferKept pg) (hk' : BufferKept pg') :
    pg' = pg ∨ pg' = pg.fl := by
  cases h with
  | edgelist h h' =>
    unfold PyGraph.fromEdgelist at h h'
    obtain ⟨x, h5, h⟩ := bind_eq_ok.1 h
    rw [h5, ok_bind] at h'
    simp only at h h'
    split at h
    · cases h
    · rename_i hc
      rw [if_neg hc] at h'
      exact loadGraph_two h h' hk hk'
  | matrix h h' =>
    unfold PyGraph.fromMatrix at h h'
    rw [if_neg (by simp)] at h h'
    obtain ⟨x, h5, h⟩ := bind_eq_ok.1 h
    rw [h5, ok_bind] at h'
    simp only at h h'
    split at h
    · cases h
    · rename_i hc
      rw [if_neg hc] at h'
      exact loadGraph_two h h' hk hk'
  | adjlist h h' =>
    unfold PyGraph.fromAdjList at h h'
    split at h
    · cases h
    · rename_i hc
      rw [if_neg hc] at h'
      split at h
      · cases h
      · rename_i hc
        rw [if_neg hc] at h'
        obtain ⟨x, h5, h⟩ := bind_eq_ok.1 h
        rw [h5, ok_bind] at h'
        simp only at h h'
        split at h
        · cases h
        · rename_i hc
          rw [if_neg hc] at h'
          exact loadGraph_two h h' hk hk'
  | built h h' => exact loadGraph_two h h' hk hk'

/-- One call in the two builds. -/
theorem call_two (h : PyOk pg n S G) {op : Op} (hl : op.Legal) (E : Enum) :
    ∃ q G1 s, Act.run pg E (.call op) = .ok (q, E, s) ∧ Act.run pg.fl E (.call op) = .ok (q.fl, E, s) ∧
      PyOk q n S G1 := by
  obtain ⟨q, G1, a1, a2, _⟩ := op_spec h hl
  obtain ⟨q', G1', b1, b2, _⟩ := op_spec h.fl hl
  cases op with
  | search srt a =>
    obtain ⟨⟨q, r⟩, c1, c2⟩ := bind_eq_ok.1 a1
    obtain ⟨⟨q', r'⟩, d1, d2⟩ := bind_eq_ok.1 b1
    cases c2; cases d2
    have := getMaxClique_rel h hl a _ _ c1 d1
    cases this
    refine ⟨q, G1, .found a r, ?_, ?_, a2⟩
    · show (pg.getMaxClique srt a >>= _) = _
      rw [c1]; rfl
    · show (pg.fl.getMaxClique srt a >>= _) = _
      rw [d1]; rfl
  | reset =>
    have a1 : pg.resetSearch = .ok q := a1
    have b1 : pg.fl.resetSearch = .ok q' := b1
    have := resetSearch_rel h _ _ a1 b1
    cases this
    refine ⟨q, G1, .reset, ?_, ?_, a2⟩
    · show (pg.resetSearch >>= _) = _
      rw [a1]; rfl
    · show (pg.fl.resetSearch >>= _) = _
      rw [b1]; rfl
  | list k =>
    obtain ⟨⟨q, r⟩, c1, c2⟩ := bind_eq_ok.1 a1
    obtain ⟨⟨q', r'⟩, d1, d2⟩ := bind_eq_ok.1 b1
    cases c2; cases d2
    have := listCliques_rel h k _ _ c1 d1
    cases this
    refine ⟨q, G1, .list k r, ?_, ?_, a2⟩
    · show (pg.listCliques k >>= _) = _
      rw [c1]; rfl
    · show (pg.fl.listCliques k >>= _) = _
      rw [d1]; rfl

theorem calls_two (ops : List Op) (h : PyOk pg n S G) (hl : ∀ op ∈ ops, op.Legal) (E : Enum) :
    ∃ q G1 ss, acts (ops.map .call) pg E = .ok (q, E, ss) ∧
      acts (ops.map .call) pg.fl E = .ok (q.fl, E, ss) ∧ PyOk q n S G1 := by
  induction ops generalizing pg G with
  | nil => exact ⟨pg, G, [], rfl, rfl, h⟩
  | cons op ops ih =>
    obtain ⟨q, G1, s, a1, a2, a3⟩ := call_two h (hl op (by simp)) E
    obtain ⟨r, G2, ss, b1, b2, b3⟩ := ih a3 (fun o ho => hl o (by simp [ho]))
    refine ⟨r, G2, s :: ss, ?_, ?_, b3⟩
    · show (Act.run pg E (.call op) >>= _) = _
      rw [a1, ok_bind]
      show (acts _ q E >>= _) = _
      rw [b1]; rfl
    · show (Act.run pg.fl E (.call op) >>= _) = _
      rw [a2, ok_bind]
      show (acts _ q.fl E >>= _) = _
      rw [b2]; rfl

end CM
