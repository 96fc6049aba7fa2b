import Verif.Model.Api
import Verif.Lemmas.Basic

/-!
# The order in which arguments are evaluated

`Agree f x y`: where both runs return, `x` returns `f` of what `y` returns.  Here `f` is "the same
graph, compiled by a compiler that evaluates arguments in the other order"; this file has the
functions that do not depend on it at all.
-/

namespace CM

variable {α β α' β' σ τ ρ ρ' : Type}

def Agree (f : α → β) (x : M β) (y : M α) : Prop := ∀ a b, y = .ok a → x = .ok b → b = f a

namespace Agree

theorem pure {f : α → β} (a : α) : Agree f (.ok (f a)) (.ok a) := by
  intro a b ha hb
  cases ha; cases hb
  rfl

theorem bind {f : α → β} {g : α' → β'} {x : M β} {y : M α} {k : β → M β'} {l : α → M α'}
    (h1 : Agree f x y) (h2 : ∀ a, Agree g (k (f a)) (l a)) : Agree g (x >>= k) (y >>= l) := by
  intro a b ha hb
  obtain ⟨c, hc, ha⟩ := bind_eq_ok.1 ha
  obtain ⟨d, hd, hb⟩ := bind_eq_ok.1 hb
  cases h1 c d hc hd
  exact h2 c a b ha hb

/-- The same first step on both sides. -/
theorem same {g : α' → β'} {x : M α} {k : α → M β'} {l : α → M α'}
    (h2 : ∀ a, Agree g (k a) (l a)) : Agree g (x >>= k) (x >>= l) :=
  bind (f := id) (fun a b ha hb => by rw [ha] at hb; cases hb; rfl) h2

theorem ite {f : α → β} {p : Prop} [Decidable p] {x x' : M β} {y y' : M α}
    (h1 : Agree f x y) (h2 : Agree f x' y') :
    Agree f (if p then x else x') (if p then y else y') := by
  split
  · exact h1
  · exact h2

theorem forN {f : σ → τ} {k : Nat → τ → M τ} {l : Nat → σ → M σ}
    (h : ∀ i s, Agree f (k i (f s)) (l i s)) (n i : Nat) (s : σ) :
    Agree f (forN n i k (f s)) (forN n i l s) := by
  induction n generalizing i s with
  | zero => exact pure s
  | succ n ih =>
    intro a b ha hb
    unfold CM.forN at ha hb
    cases hl : l i s with
    | error e => rw [hl] at ha; cases ha
    | ok s' =>
      cases hk : k i (f s) with
      | error e => rw [hk] at hb; cases hb
      | ok t' =>
        cases h i s s' t' hl hk
        rw [hl] at ha
        rw [hk] at hb
        exact ih _ _ a b ha hb

theorem forRange {f : σ → τ} {k : Nat → τ → M τ} {l : Nat → σ → M σ}
    (h : ∀ i s, Agree f (k i (f s)) (l i s)) (lo hi : Nat) (s : σ) :
    Agree f (forRange lo hi k (f s)) (forRange lo hi l s) :=
  forN h _ _ s

theorem loop {f : σ → τ} {g : ρ → ρ'} {k : τ → M (τ ⊕ ρ')} {l : σ → M (σ ⊕ ρ)}
    (h : ∀ s, Agree (Sum.map f g) (k (f s)) (l s)) (n : Nat) (s : σ) :
    Agree g (loop n k (f s)) (loop n l s) := by
  induction n generalizing s with
  | zero => intro a b ha; cases ha
  | succ n ih =>
    intro a b ha hb
    unfold CM.loop at ha hb
    cases hl : l s with
    | error e => rw [hl] at ha; cases ha
    | ok r =>
      cases hk : k (f s) with
      | error e => rw [hk] at hb; cases hb
      | ok t =>
        cases h s r t hl hk
        rw [hl] at ha
        rw [hk] at hb
        cases r with
        | inl s' => exact ih s' a b ha hb
        | inr r => cases ha; cases hb; rfl

end Agree

namespace Graph

/-- The graph in a program whose compiler evaluates arguments in the other order. -/
def fl (G : Graph) : Graph := { G with argLR := !G.argLR }

theorem fl_fl (G : Graph) : G.fl.fl = G := by
  cases G
  simp [fl]

/-- The graph in the first component of a pair. -/
abbrev flp (s : Graph × α) : Graph × α := (s.1.fl, s.2)

theorem clearMemory_fl (G : Graph) (n : Nat) :
    Agree fl (G.fl.clearMemory n) (G.clearMemory n) := by
  unfold clearMemory
  exact Agree.same fun a => Agree.pure (f := fl) _

theorem setMcs_fl (G : Graph) (v x : Nat) : Agree fl (G.fl.setMcs v x) (G.setMcs v x) := by
  unfold setMcs
  refine Agree.same fun V => Agree.same fun vs => ?_
  exact Agree.pure (f := fl) { G with vs := vs }

theorem saveClique_fl (G : Graph) (cur : Nat) (V : Vtx) (res : GBits) (size : Nat) :
    Agree fl (G.fl.saveClique cur V res size) (G.saveClique cur V res size) := by
  unfold saveClique
  refine Agree.same fun vb => Agree.same fun eb => ?_
  refine Agree.bind (setMcs_fl { G with eb := eb } cur size) fun G => ?_
  exact Agree.pure (f := fl) { G with curMax := size, curLoc := cur }

theorem recSearch_fl (cur : Nat) (V : Vtx) (req fuel : Nat) (s : Graph × Clock)
    (prev res : GBits) :
    Agree flp (recSearch cur V req fuel (flp s) prev res) (recSearch cur V req fuel s prev res) := by
  induction fuel generalizing s prev res with
  | zero => intro a b ha; cases ha
  | succ fuel ih =>
    obtain ⟨G, t⟩ := s
    unfold recSearch
    refine Agree.same fun c => Agree.same fun d => ?_
    refine Agree.ite (Agree.pure (f := flp) ({ G with eb := d.1 }, _)) ?_
    refine Agree.ite (Agree.pure (f := flp) ({ G with eb := d.1 }, _)) ?_
    refine Agree.ite (Agree.pure (f := flp) ({ G with eb := d.1 }, _)) ?_
    refine Agree.ite ?_ ?_
    · refine Agree.bind (saveClique_fl { G with eb := d.1 } cur V res _) fun G => ?_
      exact Agree.pure (f := flp) (G, _)
    · refine Agree.same fun e => Agree.same fun g => ?_
      refine Agree.bind (Agree.forRange (f := flp) ?_ 0 V.N
        ({ { G with eb := d.1 } with
            searchCur := uadd (uadd G.searchCur req) req, eb := g.2 }, _)) fun r => ?_
      · intro j s
        obtain ⟨G, t⟩ := s
        refine Agree.same fun b => ?_
        refine Agree.ite ?_ (Agree.pure (f := flp) (G, t))
        refine Agree.same fun vert => Agree.same fun eb => Agree.same fun eb => Agree.same fun eb => ?_
        refine Agree.same fun U => Agree.same fun eb => ?_
        refine Agree.bind (ih ({ G with eb := eb }, t) _ res) fun q => ?_
        exact Agree.same fun eb => Agree.pure (f := flp) ({ q.1 with eb := eb }, q.2)
      · refine Agree.bind (clearMemory_fl r.1 _) fun G => ?_
        exact Agree.pure (f := flp) (G, r.2)

theorem recVertex_fl (s : Graph × Clock) (cur : Nat) :
    Agree flp (recVertex (flp s) cur) (recVertex s cur) := by
  obtain ⟨G, t⟩ := s
  unfold recVertex
  refine Agree.same fun V => Agree.same fun eb => Agree.same fun c => ?_
  have hend : ∀ r : Graph × Clock, Agree flp
      ((flp r).1.clearMemory (2 * dlen V.N) >>= fun G => .ok (G, r.2))
      (r.1.clearMemory (2 * dlen V.N) >>= fun G => .ok (G, r.2)) := fun r =>
    Agree.bind (clearMemory_fl r.1 _) fun G => Agree.pure (f := flp) (G, r.2)
  refine Agree.ite ?_ ?_
  · exact Agree.bind (recSearch_fl cur V _ _
      ({ G with searchCur := uadd (uadd G.searchCur (dlen V.N)) (dlen V.N), eb := c.1 }, t) _ _)
      hend
  · exact Agree.bind (Agree.pure (f := flp)
      ({ G with searchCur := uadd (uadd G.searchCur (dlen V.N)) (dlen V.N), eb := c.1 }, t))
      hend

theorem recGraph_fl (G : Graph) (t : Clock) (k : Nat) :
    Agree flp (G.fl.recGraph t k) (G.recGraph t k) := by
  unfold recGraph
  refine Agree.bind (recVertex_fl (G, t) G.curLoc) fun r => ?_
  refine Agree.loop (f := flp) (g := flp) ?_ _ (r.1, r.2, k)
  rintro ⟨G, t, i⟩
  refine Agree.ite ?_ (Agree.pure (f := Sum.map flp flp) (.inr (G, i)))
  refine Agree.same fun V => ?_
  refine Agree.ite (Agree.pure (f := Sum.map flp flp) (.inl (G, t, i + 1))) ?_
  refine Agree.ite (Agree.pure (f := Sum.map flp flp) (.inr (G, i))) ?_
  refine Agree.bind (recVertex_fl (G, _) i) fun r => ?_
  exact Agree.pure (f := Sum.map flp flp) (.inl (r.1, r.2, i + 1))

theorem heurGrow_fl (cur : Nat) (V : Vtx) (nb : List VData) (res cand : GBits)
    (s : Graph × Nat × Nat × Nat) :
    Agree (Sum.map flp fl) (heurGrow cur V nb res cand (flp s)) (heurGrow cur V nb res cand s) := by
  obtain ⟨G, i, cs, left⟩ := s
  unfold heurGrow
  refine Agree.ite ?_ (Agree.pure (f := Sum.map flp fl) (.inr G))
  refine Agree.same fun x => Agree.same fun b => ?_
  refine Agree.ite ?_ (Agree.pure (f := Sum.map flp fl) (.inl (G, i + 1, cs, left)))
  refine Agree.same fun eb => Agree.same fun eb => Agree.same fun c => ?_
  refine Agree.ite (Agree.pure (f := Sum.map flp fl) (.inr { G with eb := c.1 })) ?_
  refine Agree.ite ?_ (Agree.pure (f := Sum.map flp fl) (.inl ({ G with eb := c.1 }, _, _, _)))
  refine Agree.same fun vb => Agree.same fun eb => ?_
  exact Agree.pure (f := Sum.map flp fl) (.inr { G with eb := eb, curMax := cs + 1, curLoc := cur })

theorem heurVertex_fl (srt : List VData → List VData) (G : Graph) (cur : Nat)
    (res cand : GBits) :
    Agree fl (G.fl.heurVertex srt cur res cand) (G.heurVertex srt cur res cand) := by
  unfold heurVertex
  refine Agree.same fun V => Agree.same fun eb => Agree.same fun eb => Agree.same fun eb => ?_
  refine Agree.same fun c => ?_
  refine Agree.ite (Agree.pure (f := fl) { G with eb := c.1 }) ?_
  exact Agree.loop (heurGrow_fl cur V _ res cand) _ ({ G with eb := c.1 }, 0, 1, _)

theorem heurGraph_fl (srt : List VData → List VData) (G : Graph) :
    Agree fl (G.fl.heurGraph srt) (G.heurGraph srt) := by
  unfold heurGraph
  refine Agree.bind (heurVertex_fl srt
    { G with searchCur := uadd (uadd G.searchCur (dlen G.maxDeg)) (dlen G.maxDeg) }
    G.curLoc _ _) fun G' => ?_
  refine Agree.bind (Agree.loop (f := flp) (g := fl) ?_ _ (G', 0)) fun G => clearMemory_fl G _
  rintro ⟨G, i⟩
  refine Agree.ite ?_ (Agree.pure (f := Sum.map flp fl) (.inr G))
  refine Agree.same fun V => ?_
  refine Agree.ite (Agree.pure (f := Sum.map flp fl) (.inl (G, i + 1))) ?_
  refine Agree.bind (heurVertex_fl srt G i _ _) fun G => ?_
  exact Agree.pure (f := Sum.map flp fl) (.inl (G, i + 1))

end Graph

end CM
