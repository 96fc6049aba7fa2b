import Verif.Lemmas.Recompile
import Verif.Lemmas.WRecompile
import Verif.Props.EffectsMixed

/-! # Two loads of one graph -/

namespace CM

open Spec Graph

/-- Every load passes an edge array describing the graph to `load_graph`. -/
theorem Loaded.made {pg : PyGraph} {n : Nat} {S : SimpleGraph Nat} (h : Loaded pg n S) :
    n < 2 ^ 31 ∧ ∃ l c m edges, Describes edges n S ∧
      PyGraph.loadGraph l c PyGraph.new n m edges = .ok pg := by
  cases h with
  | @edgelist argLR cap rows n pg hn hl he =>
    refine ⟨hn, argLR, cap, ?_⟩
    unfold PyGraph.fromEdgelist at he
    rw [rows_fold] at he
    by_cases hv : ∀ r ∈ rows, (1 ≤ r.1 ∧ r.1 ≤ n) ∧ (1 ≤ r.2 ∧ r.2 ≤ n)
    · rw [if_pos hv, ok_bind] at he
      simp only at he
      split at he
      · cases he
      · exact ⟨_, _, rows_describe hv, he⟩
    · rw [if_neg hv] at he; cases he
  | @matrix argLR cap n A pg hn he =>
    obtain ⟨edges, h1, h2, h3, hD⟩ := matrix_edges (A := A) hn
    unfold PyGraph.fromMatrix at he
    rw [if_neg (by simp), h1, ok_bind] at he
    simp only at he
    rw [if_neg h2] at he
    exact ⟨by omega, argLR, cap, _, edges, hD, he⟩
  | @adjlist argLR cap n m sets pg hn hs hl he =>
    obtain ⟨h1, h2⟩ := fromAdjList_spec argLR cap (n := n) (m := m) (sets := sets) hn hs hl
    by_cases hv : ValidSets sets n ∧ entries sets / 2 = m
    · obtain ⟨k1, k2⟩ := adj_edges hn hl hv.1.len hv.1.zero
      obtain ⟨edges, a1, a2, a3⟩ := k1 hv.1.entry
      unfold PyGraph.fromAdjList at he
      split at he
      · cases he
      · split at he
        · cases he
        · rw [a1, ok_bind] at he
          simp only at he
          split at he
          · cases he
          · exact ⟨hn, argLR, cap, _, edges, a3, he⟩
    · rw [h2 hv] at he; cases he
  | @built argLR cap n m edges pg S hn hl hD he => exact ⟨hn, argLR, cap, m, edges, hD, he⟩

theorem Describes.same {edges edges' : Edges} {n : Nat} {S : SimpleGraph Nat}
    (h : Describes edges n S) (h' : Describes edges' n S) : ∀ e, e ∈ edges ↔ e ∈ edges' := by
  intro e
  constructor
  · intro he
    have hr := h.range e he
    exact (h'.mem e.1 e.2 hr.1 hr.2).2 ((h.mem e.1 e.2 hr.1 hr.2).1 he)
  · intro he
    have hr := h'.range e he
    exact (h.mem e.1 e.2 hr.1 hr.2).2 ((h'.mem e.1 e.2 hr.1 hr.2).1 he)

theorem Describes.clean {edges edges' : Edges} {n : Nat} {S : SimpleGraph Nat} (hn : n < 2 ^ 31)
    (h : Describes edges n S) (h' : Describes edges' n S) :
    cleanEdges (n + 1) edges = cleanEdges (n + 1) edges' := by
  have : (2 : Nat) ^ 31 + 1 < 2 ^ 64 := by decide
  refine cleanEdges_congr (by omega) (by omega) (fun e he => ?_) (h.same h')
  have := h.range e he
  omega

/-- Two loads of the same graph differ at most in the number of edges that is displayed, and as
two builds differ. -/
theorem Loaded.two {pg pg' : PyGraph} {n : Nat} {S : SimpleGraph Nat} (h : Loaded pg n S)
    (h' : Loaded pg' n S) : Recompiled pg { pg' with nedges := pg.nedges } := by
  obtain ⟨hn, l, c, m, edges, hD, he⟩ := h.made
  obtain ⟨_, l', c', m', edges', hD', he'⟩ := h'.made
  refine .built (edges := edges) he (l' := l') (c' := c') ?_
  unfold PyGraph.loadGraph at he he' ⊢
  have hc : Graph.ctor l' c' n edges = Graph.ctor l' c' n edges' := by
    unfold Graph.ctor
    rw [hD.clean hn hD']
  obtain ⟨G, _, he⟩ := bind_eq_ok.1 he
  obtain ⟨G', h1, he'⟩ := bind_eq_ok.1 he'
  rw [hc, h1, ok_bind]
  cases he
  cases he'
  rfl

/-! ## The number of edges that is displayed has no influence -/

/-- The same object, with another number of edges displayed. -/
def PyGraph.shown (m : Nat) (pg : PyGraph) : PyGraph := { pg with nedges := m }

theorem nextClique_shown (m : Nat) (pg : PyGraph) (E : Enum) :
    (pg.shown m).nextClique E = (pg.nextClique E).map fun x => (x.1.shown m, x.2) := by
  unfold PyGraph.nextClique PyGraph.shown
  simp only
  cases pg.G with
  | none => rfl
  | some G =>
    simp only
    cases G.enumGraph E with
    | error e => rfl
    | ok x =>
      obtain ⟨G1, E1, v⟩ := x
      rw [ok_bind, ok_bind]
      simp only
      split
      · rfl
      · cases G1.getClique v with
        | error e => rfl
        | ok y => rfl

theorem nexts_shown (m : Nat) : ∀ (k : Nat) (pg : PyGraph) (E : Enum),
    (pg.shown m).nexts k E = (pg.nexts k E).map fun x => (x.1.shown m, x.2) := by
  intro k
  induction k with
  | zero => intro pg E; rfl
  | succ k ih =>
    intro pg E
    unfold PyGraph.nexts
    rw [nextClique_shown]
    cases pg.nextClique E with
    | error e => rfl
    | ok x =>
      show ((x.1.shown m).nexts k x.2.1 >>= _) = _
      rw [ih, ok_bind]
      dsimp only
      cases x.1.nexts k x.2.1 with
      | error e => rfl
      | ok y => rfl

theorem consume_shown (m : Nat) : ∀ (k : Nat) (pg : PyGraph) (E : Enum),
    (pg.shown m).consume k E = (pg.consume k E).map fun x => (x.1.shown m, x.2) := by
  intro k
  induction k with
  | zero => intro pg E; rfl
  | succ k ih =>
    intro pg E
    unfold PyGraph.consume
    rw [nextClique_shown]
    cases pg.nextClique E with
    | error e => rfl
    | ok x =>
      obtain ⟨pg1, E1, o⟩ := x
      cases o with
      | none => rfl
      | some c =>
        show ((pg1.shown m).consume k E1 >>= _) = _
        rw [ih, ok_bind]
        dsimp only
        cases pg1.consume k E1 with
        | error e => rfl
        | ok y => rfl

theorem listCliques_shown (m : Nat) (pg : PyGraph) (k : Nat) :
    (pg.shown m).listCliques k = (pg.listCliques k).map fun x => (x.1.shown m, x.2) := by
  unfold PyGraph.listCliques
  have h : (pg.shown m).allCliques k = pg.allCliques k := rfl
  have hG : (pg.shown m).G = pg.G := rfl
  rw [h, hG]
  cases pg.allCliques k with
  | error e => rfl
  | ok E =>
    rw [ok_bind, ok_bind]
    cases pg.G with
    | none => rfl
    | some G =>
      dsimp only
      rw [consume_shown]
      cases pg.consume (G.nVert * 2 ^ G.maxDeg + 1) E with
      | error e => rfl
      | ok x => rfl

theorem run_shown (m : Nat) (pg : PyGraph) (E : Enum) (x : Act) :
    x.run (pg.shown m) E = (x.run pg E).map fun x => (x.1.shown m, x.2) := by
  cases x with
  | next =>
    show ((pg.shown m).nextClique E >>= _) = (pg.nextClique E >>= _).map _
    rw [nextClique_shown]
    cases pg.nextClique E with
    | error e => rfl
    | ok x => rfl
  | call op =>
    cases op with
    | search srt a =>
      show ((pg.shown m).getMaxClique srt a >>= _) = (pg.getMaxClique srt a >>= _).map _
      rw [show (pg.shown m).getMaxClique srt a = _ from getMaxClique_nedges pg m srt a]
      cases pg.getMaxClique srt a with
      | error e => rfl
      | ok x => rfl
    | reset =>
      show ((pg.shown m).resetSearch >>= _) = (pg.resetSearch >>= _).map _
      unfold PyGraph.resetSearch
      have hG : (pg.shown m).G = pg.G := rfl
      rw [hG]
      cases pg.G with
      | none => rfl
      | some G => rfl
    | list k =>
      show ((pg.shown m).listCliques k >>= _) = (pg.listCliques k >>= _).map _
      rw [listCliques_shown]
      cases pg.listCliques k with
      | error e => rfl
      | ok x => rfl

theorem acts_shown (m : Nat) : ∀ (xs : List Act) (pg : PyGraph) (E : Enum),
    acts xs (pg.shown m) E = (acts xs pg E).map fun x => (x.1.shown m, x.2) := by
  intro xs
  induction xs with
  | nil => intro pg E; rfl
  | cons x xs ih =>
    intro pg E
    show (x.run (pg.shown m) E >>= _) = (x.run pg E >>= _).map _
    rw [run_shown]
    cases x.run pg E with
    | error e => rfl
    | ok y =>
      show (acts xs (y.1.shown m) y.2.1 >>= _) = (acts xs y.1 y.2.1 >>= _).map _
      rw [ih]
      cases acts xs y.1 y.2.1 with
      | error e => rfl
      | ok z => rfl

end CM
