import Verif.Lemmas.SameLoad
import Verif.Lemmas.AWApi

/-! # Two loads of one weighted graph -/

namespace CM

open Spec NWG

variable {R : Type} [Zero R] [Add R] [Sub R] [NatCast R] [LT R] [LE R] [DecidableLT R]
  [DecidableLE R]

/-- Every load passes an edge array describing the graph, and the weights, to `load_graph`. -/
theorem WLoaded.made {pg : PyNW R} {n : Nat} {S : SimpleGraph Nat} {ω : Nat → R}
    (h : WLoaded pg n S ω) :
    n < 2 ^ 31 ∧ ∃ l c m edges wts, Describes edges n S ∧ wts.length = n ∧ ω = nth wts ∧
      PyNW.loadGraph l c PyNW.new n m edges (0 :: wts) = .ok pg := by
  cases h with
  | @edgelist argLR cap rows n wts pg hn hl he =>
    refine ⟨hn, argLR, cap, ?_⟩
    unfold PyNW.fromEdgelist at he
    split at he
    · cases he
    rename_i hw
    rw [rows_fold] at he
    by_cases hv : ∀ r ∈ rows, (1 ≤ r.1 ∧ r.1 ≤ n) ∧ (1 ≤ r.2 ∧ r.2 ≤ n)
    · rw [if_pos hv, ok_bind] at he
      simp only at he
      split at he
      · cases he
      · exact ⟨_, _, wts, rows_describe hv, not_not.1 hw, rfl, he⟩
    · rw [if_neg hv] at he; cases he
  | @matrix argLR cap n A wts pg hn he =>
    obtain ⟨edges, h1, h2, h3, hD⟩ := matrix_edges (A := A) hn
    unfold PyNW.fromMatrix at he
    rw [if_neg (by simp)] at he
    split at he
    · cases he
    rename_i hw
    rw [h1, ok_bind] at he
    simp only at he
    rw [if_neg h2] at he
    exact ⟨by omega, argLR, cap, _, edges, wts, hD, not_not.1 hw, rfl, he⟩
  | @adjlist argLR cap n m sets wts pg hn hl he =>
    obtain ⟨h1, h2⟩ := AW.wfromAdjList_spec argLR cap (m := m) (sets := sets) (wts := wts) hn hl
    by_cases hv : ValidSets sets n ∧ wts.length = n ∧ entries sets / 2 = m
    · rw [h1 hv] at he; cases he
    · rw [h2 hv] at he; cases he

theorem nth_inj {wts wts' : List R} {n : Nat} (h : wts.length = n) (h' : wts'.length = n)
    (hw : ∀ v, 1 ≤ v → v ≤ n → nth wts v = nth wts' v) : wts = wts' := by
  refine List.ext_getElem (h.trans h'.symm) fun i h1 h2 => ?_
  have := hw (i + 1) (by omega) (by omega)
  unfold nth at this
  rw [Nat.add_sub_cancel, List.getD_eq_getElem?_getD, List.getD_eq_getElem?_getD,
    List.getElem?_eq_getElem h1, List.getElem?_eq_getElem h2] at this
  exact this

/-- Two loads of the same weighted graph differ at most in the number of edges that is displayed,
and as two builds differ. -/
theorem WLoaded.two {pg pg' : PyNW R} {n : Nat} {S : SimpleGraph Nat} {ω ω' : Nat → R}
    (h : WLoaded pg n S ω) (h' : WLoaded pg' n S ω') (hω : ∀ v, 1 ≤ v → v ≤ n → ω v = ω' v) :
    WRecompiled pg { pg' with nedges := pg.nedges } := by
  obtain ⟨hn, l, c, m, edges, wts, hD, hw, rfl, he⟩ := h.made
  obtain ⟨_, l', c', m', edges', wts', hD', hw', rfl, he'⟩ := h'.made
  obtain rfl := nth_inj hw hw' hω
  refine .built (edges := edges) he (l' := l') (c' := c') ?_
  unfold PyNW.loadGraph at he he' ⊢
  have hc : NWG.ctor l' c' n edges (0 :: wts) = NWG.ctor l' c' n edges' (0 :: wts) := by
    unfold NWG.ctor Graph.ctor
    rw [hD.clean hn hD']
  obtain ⟨G, _, he⟩ := bind_eq_ok.1 he
  obtain ⟨G', h1, he'⟩ := bind_eq_ok.1 he'
  rw [hc, h1, ok_bind]
  cases he
  cases he'
  rfl

/-- The same object, with another number of edges displayed. -/
def PyNW.shown (m : Nat) (pg : PyNW R) : PyNW R := { pg with nedges := m }

theorem nextClique_wshown (m : Nat) (pg : PyNW R) (E : WEnum R) :
    (pg.shown m).nextClique E = (pg.nextClique E).map fun x => (x.1.shown m, x.2) := by
  unfold PyNW.nextClique PyNW.shown
  simp only
  cases pg.G with
  | none => rfl
  | some G =>
    simp only
    cases G.enumGraph E with
    | error e => rfl
    | ok x =>
      obtain ⟨G1, E1, v⟩ := x
      rw [ok_bind, ok_bind]
      simp only
      split
      · rfl
      · cases G1.getClique v with
        | error e => rfl
        | ok y => rfl

theorem nexts_wshown (m : Nat) : ∀ (k : Nat) (pg : PyNW R) (E : WEnum R),
    (pg.shown m).nexts k E = (pg.nexts k E).map fun x => (x.1.shown m, x.2) := by
  intro k
  induction k with
  | zero => intro pg E; rfl
  | succ k ih =>
    intro pg E
    unfold PyNW.nexts
    rw [nextClique_wshown]
    cases pg.nextClique E with
    | error e => rfl
    | ok x =>
      show ((x.1.shown m).nexts k x.2.1 >>= _) = _
      rw [ih, ok_bind]
      dsimp only
      cases x.1.nexts k x.2.1 with
      | error e => rfl
      | ok y => rfl

theorem consume_wshown (m : Nat) : ∀ (k : Nat) (pg : PyNW R) (E : WEnum R),
    (pg.shown m).consume k E = (pg.consume k E).map fun x => (x.1.shown m, x.2) := by
  intro k
  induction k with
  | zero => intro pg E; rfl
  | succ k ih =>
    intro pg E
    unfold PyNW.consume
    rw [nextClique_wshown]
    cases pg.nextClique E with
    | error e => rfl
    | ok x =>
      obtain ⟨pg1, E1, o⟩ := x
      cases o with
      | none => rfl
      | some c =>
        show ((pg1.shown m).consume k E1 >>= _) = _
        rw [ih, ok_bind]
        dsimp only
        cases pg1.consume k E1 with
        | error e => rfl
        | ok y => rfl

theorem listCliques_wshown (m : Nat) (pg : PyNW R) (junk : Nat → R) (W : R) :
    (pg.shown m).listCliques junk W = (pg.listCliques junk W).map fun x => (x.1.shown m, x.2) := by
  unfold PyNW.listCliques
  have h : (pg.shown m).allCliques junk W = pg.allCliques junk W := rfl
  have hG : (pg.shown m).G = pg.G := rfl
  rw [h, hG]
  cases pg.allCliques junk W with
  | error e => rfl
  | ok E =>
    rw [ok_bind, ok_bind]
    cases pg.G with
    | none => rfl
    | some G =>
      dsimp only
      rw [consume_wshown]
      cases pg.consume (G.g.nVert * 2 ^ G.g.maxDeg + 1) E with
      | error e => rfl
      | ok x => rfl

theorem getMaxClique_wshown (m : Nat) (pg : PyNW R)
    (srt : List (NWG.WData R) → List (NWG.WData R)) (junk : Nat → R) (a : PyNW.Args R) :
    (pg.shown m).getMaxClique srt junk a =
      (pg.getMaxClique srt junk a).map fun x => (x.1.shown m, x.2) := by
  unfold PyNW.getMaxClique PyNW.checkLoaded PyNW.shown
  simp only
  generalize (if pg.nvert = 0 then none else pg.G) = o
  cases o with
  | none => rfl
  | some G =>
    simp only
    generalize NWG.findMaxCliques (R := R) _ _ _ _ _ _ = o1
    cases o1 with
    | error e => rfl
    | ok x =>
      obtain ⟨G1, cv⟩ := x
      rw [ok_bind, ok_bind]
      simp only
      cases G1.getClique G1.curLoc with
      | error e => rfl
      | ok y =>
        obtain ⟨G2, ans⟩ := y
        rw [ok_bind, ok_bind]
        simp only
        cases G2.cliqueWeight ans with
        | error e => rfl
        | ok w =>
          rw [ok_bind, ok_bind]
          split <;> rfl

theorem run_wshown (m : Nat) (pg : PyNW R) (E : WEnum R) (x : WAct R) :
    x.run (pg.shown m) E = (x.run pg E).map fun x => (x.1.shown m, x.2) := by
  cases x with
  | next =>
    show ((pg.shown m).nextClique E >>= _) = (pg.nextClique E >>= _).map _
    rw [nextClique_wshown]
    cases pg.nextClique E with
    | error e => rfl
    | ok x => rfl
  | call op =>
    cases op with
    | search srt junk a =>
      show ((pg.shown m).getMaxClique srt junk a >>= _) = (pg.getMaxClique srt junk a >>= _).map _
      rw [show (pg.shown m).getMaxClique srt junk a = _ from getMaxClique_wshown m pg srt junk a]
      cases pg.getMaxClique srt junk a with
      | error e => rfl
      | ok x => rfl
    | reset =>
      show ((pg.shown m).resetSearch >>= _) = (pg.resetSearch >>= _).map _
      unfold PyNW.resetSearch
      have hG : (pg.shown m).G = pg.G := rfl
      rw [hG]
      cases pg.G with
      | none => rfl
      | some G => rfl
    | list junk W =>
      show ((pg.shown m).listCliques junk W >>= _) = (pg.listCliques junk W >>= _).map _
      rw [listCliques_wshown]
      cases pg.listCliques junk W with
      | error e => rfl
      | ok x => rfl

theorem wacts_wshown (m : Nat) : ∀ (xs : List (WAct R)) (pg : PyNW R) (E : WEnum R),
    wacts xs (pg.shown m) E = (wacts xs pg E).map fun x => (x.1.shown m, x.2) := by
  intro xs
  induction xs with
  | nil => intro pg E; rfl
  | cons x xs ih =>
    intro pg E
    show (x.run (pg.shown m) E >>= _) = (x.run pg E >>= _).map _
    rw [run_wshown]
    cases x.run pg E with
    | error e => rfl
    | ok y =>
      show (wacts xs (y.1.shown m) y.2.1 >>= _) = (wacts xs y.1 y.2.1 >>= _).map _
      rw [ih]
      cases wacts xs y.1 y.2.1 with
      | error e => rfl
      | ok z => rfl

end CM
