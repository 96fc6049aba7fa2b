import Verif.Model.Api
import Verif.Lemmas.Basic

/-!
# Runs with and without the moved buffer

`Cut f x y`: where `y` returns `b`, `x` returns `f b` or runs into undefined behaviour.  With `y`
a search on a graph whose buffer is in place and `x` the same search on the same graph with
the buffer moved, this holds for `f` = "mark as moved", function by function.
-/

namespace CM

variable {α β α' β' σ τ ρ ρ' : Type}

def Cut (f : α → β) (x : M β) (y : M α) : Prop :=
  ∀ b, y = .ok b → x = .error .ub ∨ x = .ok (f b)

namespace Cut

theorem pure {f : α → β} (a : α) : Cut f (.ok (f a)) (.ok a) := by
  intro b hb
  cases hb
  exact Or.inr rfl

theorem bind {f : α → β} {g : α' → β'} {x : M β} {y : M α} {k : β → M β'} {l : α → M α'}
    (h1 : Cut f x y) (h2 : ∀ a, Cut g (k (f a)) (l a)) : Cut g (x >>= k) (y >>= l) := by
  intro b hb
  obtain ⟨a, ha, hb⟩ := bind_eq_ok.1 hb
  rcases h1 a ha with h | h
  · rw [h]; exact Or.inl rfl
  · rw [h]; exact h2 a b hb

/-- The same first step on both sides. -/
theorem same {g : α' → β'} {x : M α} {k : α → M β'} {l : α → M α'}
    (h2 : ∀ a, Cut g (k a) (l a)) : Cut g (x >>= k) (x >>= l) :=
  bind (f := id) (fun b hb => Or.inr hb) h2

theorem ite {f : α → β} {p : Prop} [Decidable p] {x x' : M β} {y y' : M α}
    (h1 : Cut f x y) (h2 : Cut f x' y') :
    Cut f (if p then x else x') (if p then y else y') := by
  split
  · exact h1
  · exact h2

theorem forN {f : σ → τ} {k : Nat → τ → M τ} {l : Nat → σ → M σ}
    (h : ∀ i s, Cut f (k i (f s)) (l i s)) (n i : Nat) (s : σ) :
    Cut f (forN n i k (f s)) (forN n i l s) := by
  induction n generalizing i s with
  | zero => exact pure s
  | succ n ih =>
    intro b hb
    unfold CM.forN at hb ⊢
    cases hl : l i s with
    | error e => rw [hl] at hb; cases hb
    | ok s' =>
      rw [hl] at hb
      rcases h i s s' hl with h' | h'
      · rw [h']; exact Or.inl rfl
      · rw [h']; exact ih _ _ b hb

theorem forRange {f : σ → τ} {k : Nat → τ → M τ} {l : Nat → σ → M σ}
    (h : ∀ i s, Cut f (k i (f s)) (l i s)) (lo hi : Nat) (s : σ) :
    Cut f (forRange lo hi k (f s)) (forRange lo hi l s) :=
  forN h _ _ s

theorem loop {f : σ → τ} {g : ρ → ρ'} {k : τ → M (τ ⊕ ρ')} {l : σ → M (σ ⊕ ρ)}
    (h : ∀ s, Cut (Sum.map f g) (k (f s)) (l s)) (n : Nat) (s : σ) :
    Cut g (loop n k (f s)) (loop n l s) := by
  induction n generalizing s with
  | zero => intro b hb; cases hb
  | succ n ih =>
    intro b hb
    unfold CM.loop at hb ⊢
    cases hl : l s with
    | error e => rw [hl] at hb; cases hb
    | ok r =>
      rw [hl] at hb
      rcases h s r hl with h' | h'
      · rw [h']; exact Or.inl rfl
      · rw [h']
        cases r with
        | inl s' => exact ih s' b hb
        | inr r => cases hb; exact Or.inr rfl

end Cut

namespace Graph

/-- The graph after its buffer was moved. -/
def mv (G : Graph) : Graph := { G with dangling := true }

/-- The graph in the first component of a pair. -/
abbrev mvp (s : Graph × α) : Graph × α := (s.1.mv, s.2)

theorem clearMemory_cut (G : Graph) (n : Nat) :
    Cut mv (G.mv.clearMemory n) (G.clearMemory n) := by
  unfold clearMemory
  exact Cut.same fun a => Cut.pure (f := mv) _

theorem vbits_cut {f : α → β} (G : Graph) (V : Vtx) {k : GBits → M β} {l : GBits → M α} :
    Cut f (G.mv.vbits V >>= k) (G.vbits V >>= l) := by
  intro b _
  exact Or.inl rfl

theorem rootState_cut (G : Graph) (V : Vtx) (req : Nat) :
    Cut mvp (G.mv.rootState V req) (G.rootState V req) := by
  unfold rootState
  exact Cut.same fun a => Cut.pure (f := mvp) _

theorem saveClique_cut (G : Graph) (cur : Nat) (V : Vtx) (res : GBits) (size : Nat) :
    Cut mv (G.mv.saveClique cur V res size) (G.saveClique cur V res size) := by
  unfold saveClique
  exact vbits_cut G V

/-- How the inner loop ends, with the buffer moved. -/
def ForExit.mv : ForExit → ForExit
  | .pushed G t n => .pushed G.mv t n
  | .done G t j => .done G.mv t j

theorem stackFor_cut (cur : Nat) (V : Vtx) (req cs : Nat) (s : Graph × SState × Nat) :
    Cut (Sum.map mvp ForExit.mv) (stackFor cur V req cs (mvp s)) (stackFor cur V req cs s) := by
  obtain ⟨G, top, left⟩ := s
  unfold stackFor
  refine Cut.ite ?_ (Cut.pure (f := Sum.map mvp ForExit.mv) (.inr (.done G top top.startAt)))
  refine Cut.same fun eb => Cut.same fun sa => Cut.same fun vert => Cut.same fun U => ?_
  refine Cut.same fun r => ?_
  refine Cut.ite (Cut.ite ?_ ?_) ?_
  · refine Cut.same fun eb' => ?_
    refine Cut.bind (saveClique_cut { G with eb := eb' } cur V top.res _) fun G => ?_
    exact Cut.same fun eb => Cut.pure (f := Sum.map mvp ForExit.mv) (.inl _)
  · refine Cut.same fun a => Cut.same fun b => Cut.same fun c => ?_
    exact Cut.pure (f := Sum.map mvp ForExit.mv) (.inr (.pushed _ _ _))
  · exact Cut.pure (f := Sum.map mvp ForExit.mv) (.inl _)

theorem stackBody_cut (cur : Nat) (V : Vtx) (req : Nat) (s : Graph × List SState × Nat) :
    Cut (Sum.map mvp mvp) (stackBody cur V req (mvp s)) (stackBody cur V req s) := by
  obtain ⟨G, states, cs⟩ := s
  unfold stackBody
  cases states with
  | nil => exact Cut.pure (f := Sum.map mvp mvp) (.inr _)
  | cons top rest =>
    refine Cut.ite (Cut.pure (f := Sum.map mvp mvp) (.inr _)) ?_
    refine Cut.same fun c => Cut.same fun sa => ?_
    refine Cut.bind (Cut.loop (stackFor_cut cur V req cs) _
      ({ G with eb := c.1 }, { top with startAt := sa }, c.2)) fun r => ?_
    cases r with
    | pushed G top new => exact Cut.pure (f := Sum.map mvp mvp) (.inl _)
    | done G top j =>
      refine Cut.ite ?_ (Cut.pure (f := Sum.map mvp mvp) (.inl _))
      refine Cut.bind (clearMemory_cut G req) fun G => ?_
      exact Cut.same fun eb => Cut.pure (f := Sum.map mvp mvp) (.inl _)

theorem stackVertex_cut (G : Graph) (cur : Nat) :
    Cut mv (G.mv.stackVertex cur) (G.stackVertex cur) := by
  unfold stackVertex
  refine Cut.same fun V => ?_
  refine Cut.bind (rootState_cut G V _) fun r => ?_
  refine Cut.same fun c => ?_
  refine Cut.ite (clearMemory_cut { r.1 with eb := c.1 } _) ?_
  refine Cut.bind (Cut.loop (stackBody_cut cur V _) _ ({ r.1 with eb := c.1 }, [r.2], 1))
    fun q => ?_
  refine Cut.ite ?_ ?_
  · exact Cut.bind (Cut.pure (f := mv) q.1) fun G => clearMemory_cut G _
  · exact Cut.bind (clearMemory_cut q.1 _) fun G => clearMemory_cut G _

theorem stackGraph_cut (G : Graph) : Cut mvp G.mv.stackGraph G.stackGraph := by
  unfold stackGraph
  refine Cut.bind (stackVertex_cut G G.curLoc) fun G => ?_
  refine Cut.bind (Cut.forRange (f := mv) ?_ 0 G.nVert G) fun G => Cut.pure (f := mvp) _
  intro i G
  refine Cut.same fun V => ?_
  exact Cut.ite (Cut.pure (f := mv) G) (stackVertex_cut G i)

theorem recSearch_cut (cur : Nat) (V : Vtx) (req fuel : Nat) (s : Graph × Clock)
    (prev res : GBits) :
    Cut mvp (recSearch cur V req fuel (mvp s) prev res) (recSearch cur V req fuel s prev res) := by
  induction fuel generalizing s prev res with
  | zero => intro b hb; cases hb
  | succ fuel ih =>
    obtain ⟨G, t⟩ := s
    unfold recSearch
    refine Cut.same fun c => Cut.same fun d => ?_
    refine Cut.ite (Cut.pure (f := mvp) ({ G with eb := d.1 }, _)) ?_
    refine Cut.ite (Cut.pure (f := mvp) ({ G with eb := d.1 }, _)) ?_
    refine Cut.ite (Cut.pure (f := mvp) ({ G with eb := d.1 }, _)) ?_
    refine Cut.ite ?_ ?_
    · refine Cut.bind (saveClique_cut { G with eb := d.1 } cur V res _) fun G => ?_
      exact Cut.pure (f := mvp) (G, _)
    · refine Cut.same fun e => Cut.same fun g => ?_
      refine Cut.bind (Cut.forRange (f := mvp) ?_ 0 V.N
        ({ { G with eb := d.1 } with
            searchCur := uadd (uadd G.searchCur req) req, eb := g.2 }, _)) fun r => ?_
      · intro j s
        obtain ⟨G, t⟩ := s
        refine Cut.same fun b => ?_
        refine Cut.ite ?_ (Cut.pure (f := mvp) (G, t))
        refine Cut.same fun vert => Cut.same fun eb => Cut.same fun eb => Cut.same fun eb => ?_
        refine Cut.same fun U => Cut.same fun eb => ?_
        refine Cut.bind (ih ({ G with eb := eb }, t) _ res) fun q => ?_
        exact Cut.same fun eb => Cut.pure (f := mvp) ({ q.1 with eb := eb }, q.2)
      · refine Cut.bind (clearMemory_cut r.1 _) fun G => ?_
        exact Cut.pure (f := mvp) (G, r.2)

theorem recVertex_cut (s : Graph × Clock) (cur : Nat) :
    Cut mvp (recVertex (mvp s) cur) (recVertex s cur) := by
  obtain ⟨G, t⟩ := s
  unfold recVertex
  refine Cut.same fun V => Cut.same fun eb => Cut.same fun c => ?_
  have hend : ∀ r : Graph × Clock, Cut mvp
      ((mvp r).1.clearMemory (2 * dlen V.N) >>= fun G => .ok (G, r.2))
      (r.1.clearMemory (2 * dlen V.N) >>= fun G => .ok (G, r.2)) := fun r =>
    Cut.bind (clearMemory_cut r.1 _) fun G => Cut.pure (f := mvp) (G, r.2)
  refine Cut.ite ?_ ?_
  · exact Cut.bind (recSearch_cut cur V _ _
      ({ G with searchCur := uadd (uadd G.searchCur (dlen V.N)) (dlen V.N), eb := c.1 }, t) _ _)
      hend
  · exact Cut.bind (Cut.pure (f := mvp)
      ({ G with searchCur := uadd (uadd G.searchCur (dlen V.N)) (dlen V.N), eb := c.1 }, t))
      hend

theorem recGraph_cut (G : Graph) (t : Clock) (k : Nat) :
    Cut mvp (G.mv.recGraph t k) (G.recGraph t k) := by
  unfold recGraph
  refine Cut.bind (recVertex_cut (G, t) G.curLoc) fun r => ?_
  refine Cut.loop (f := mvp) (g := mvp) ?_ _ (r.1, r.2, k)
  rintro ⟨G, t, i⟩
  refine Cut.ite ?_ (Cut.pure (f := Sum.map mvp mvp) (.inr (G, i)))
  refine Cut.same fun V => ?_
  refine Cut.ite (Cut.pure (f := Sum.map mvp mvp) (.inl (G, t, i + 1))) ?_
  refine Cut.ite (Cut.pure (f := Sum.map mvp mvp) (.inr (G, i))) ?_
  refine Cut.bind (recVertex_cut (G, _) i) fun r => ?_
  exact Cut.pure (f := Sum.map mvp mvp) (.inl (r.1, r.2, i + 1))

theorem heurGrow_cut (cur : Nat) (V : Vtx) (nb : List VData) (res cand : GBits)
    (s : Graph × Nat × Nat × Nat) :
    Cut (Sum.map mvp mv) (heurGrow cur V nb res cand (mvp s)) (heurGrow cur V nb res cand s) := by
  obtain ⟨G, i, cs, left⟩ := s
  unfold heurGrow
  refine Cut.ite ?_ (Cut.pure (f := Sum.map mvp mv) (.inr G))
  refine Cut.same fun x => Cut.same fun b => ?_
  refine Cut.ite ?_ (Cut.pure (f := Sum.map mvp mv) (.inl (G, i + 1, cs, left)))
  refine Cut.same fun eb => Cut.same fun eb => Cut.same fun c => ?_
  refine Cut.ite (Cut.pure (f := Sum.map mvp mv) (.inr { G with eb := c.1 })) ?_
  refine Cut.ite ?_ (Cut.pure (f := Sum.map mvp mv) (.inl ({ G with eb := c.1 }, _, _, _)))
  exact vbits_cut { G with eb := c.1 } V

theorem heurVertex_cut (srt : List VData → List VData) (G : Graph) (cur : Nat)
    (res cand : GBits) :
    Cut mv (G.mv.heurVertex srt cur res cand) (G.heurVertex srt cur res cand) := by
  unfold heurVertex
  refine Cut.same fun V => Cut.same fun eb => Cut.same fun eb => Cut.same fun eb => ?_
  refine Cut.same fun c => ?_
  refine Cut.ite (Cut.pure (f := mv) { G with eb := c.1 }) ?_
  exact Cut.loop (heurGrow_cut cur V _ res cand) _ ({ G with eb := c.1 }, 0, 1, _)

theorem heurGraph_cut (srt : List VData → List VData) (G : Graph) :
    Cut mv (G.mv.heurGraph srt) (G.heurGraph srt) := by
  unfold heurGraph
  refine Cut.bind (heurVertex_cut srt
    { G with searchCur := uadd (uadd G.searchCur (dlen G.maxDeg)) (dlen G.maxDeg) }
    G.curLoc _ _) fun G' => ?_
  refine Cut.bind (Cut.loop (f := mvp) (g := mv) ?_ _ (G', 0)) fun G => clearMemory_cut G _
  rintro ⟨G, i⟩
  refine Cut.ite ?_ (Cut.pure (f := Sum.map mvp mv) (.inr G))
  refine Cut.same fun V => ?_
  refine Cut.ite (Cut.pure (f := Sum.map mvp mv) (.inl (G, i + 1))) ?_
  refine Cut.bind (heurVertex_cut srt G i _ _) fun G => ?_
  exact Cut.pure (f := Sum.map mvp mv) (.inl (G, i + 1))

theorem findMaxCliques_cut (srt : List VData → List VData) (G : Graph) (k : Nat)
    (useHeur useDfs : Bool) (tl : TimeLimit) :
    Cut mvp (G.mv.findMaxCliques srt k useHeur useDfs tl)
      (G.findMaxCliques srt k useHeur useDfs tl) := by
  unfold findMaxCliques
  have hend : ∀ G : Graph, Cut mvp
      (if useDfs then match tl with
        | none => G.mv.stackGraph
        | some t => G.mv.recGraph t k
      else .ok (G.mv, k))
      (if useDfs then match tl with
        | none => G.stackGraph
        | some t => G.recGraph t k
      else .ok (G, k)) := by
    intro G
    refine Cut.ite ?_ (Cut.pure (f := mvp) (G, k))
    cases tl with
    | none => exact stackGraph_cut G
    | some t => exact recGraph_cut G t k
  refine Cut.ite ?_ ?_
  · exact Cut.bind (heurGraph_cut srt G) hend
  · exact Cut.bind (Cut.pure (f := mv) G) hend

end Graph

/-- Every search on a graph whose buffer was moved runs into undefined behaviour, if the same
search would return with the buffer in place. -/
theorem getMaxClique_moved {pg : PyGraph} {G : Graph} (hG : pg.G = some G) (hn : pg.nvert ≠ 0)
    {srt : List Graph.VData → List Graph.VData} {a : PyGraph.Args} {r : PyGraph × PyRes (List Nat)}
    (h : pg.getMaxClique srt a = .ok r) :
    { pg with G := some G.mv }.getMaxClique srt a = .error .ub := by
  unfold PyGraph.getMaxClique PyGraph.checkLoaded at h ⊢
  simp only [hn, if_false, hG] at h ⊢
  obtain ⟨q, h1, h2⟩ := bind_eq_ok.1 h
  rcases Graph.findMaxCliques_cut srt _ _ _ _ _ q h1 with h' | h'
  · erw [h']; rfl
  · erw [h', ok_bind]
    obtain ⟨c, h3, h4⟩ := bind_eq_ok.1 h2
    unfold Graph.getClique at h3 ⊢
    obtain ⟨V, h5, h6⟩ := bind_eq_ok.1 h3
    have e : q.1.mv.vtx q.1.mv.curLoc = q.1.vtx q.1.curLoc := rfl
    simp only [Graph.mvp] at *
    rw [e, h5, ok_bind]
    rfl

end CM
