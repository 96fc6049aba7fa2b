import Verif.Lemmas.Results
import Verif.Lemmas.Shown
import Verif.Lemmas.AWApi

/-! # Searches that do nothing -/

namespace CM

open Spec Graph

/-- `search_done` agrees with the position of the search. -/
theorem inverted_done {pg : PyGraph} (h : Inverted pg) :
    pg.finishedAll = decide (pg.currentVertex ≥ pg.nvert) := by
  have := h.shown
  unfold PyGraph.shownSearchDone at this
  rw [show decide (pg.currentVertex ≥ pg.nvert) = !decide (pg.currentVertex < pg.nvert) by
    rw [← decide_not, decide_eq_decide]; omega, this, Bool.not_not]

theorem findMax_idle (srt : List VData → List VData) (G : Graph) (v : Nat) (tl : TimeLimit) :
    G.findMaxCliques srt v false false tl = .ok (G, v) := rfl

/-- A call that uses neither the heuristic nor the exact search. -/
theorem idle_spec {pg : PyGraph} {n : Nat} {S : SimpleGraph Nat} {G : Graph} (h : PyOk pg n S G)
    (srt : List VData → List VData) {a : PyGraph.Args} (ha : a.useHeuristic = false)
    (hd : a.useDfs = false) :
    pg.getMaxClique srt a =
      .ok ({ pg with
          G := some (bounded G a)
          currentVertex := if a.continueSearch then pg.currentVertex else 0
          finishedAll := decide ((if a.continueSearch then pg.currentVertex else 0) ≥ n) },
        if a.lowerBound > (stored G).length then .raise else .ret (stored G)) := by
  have hl : PyGraph.checkLoaded { pg with
      currentVertex := if a.continueSearch = true then pg.currentVertex else 0 } = some G := h.loaded
  have hok := bounded_ok h.ok a
  have hg := getClique_ok hok.wf hok.pad hok.loc
  unfold bounded at hg
  dsimp only at hg
  unfold PyGraph.getMaxClique
  dsimp only
  rw [hl]
  dsimp only
  rw [ha, hd, ite_self]
  rw [findMax_idle, ok_bind]
  dsimp only
  rw [hg, ok_bind, h.nv]
  dsimp only
  by_cases hlt : a.lowerBound > (stored G).length
  · rw [if_pos hlt]
    exact if_pos hlt
  · rw [if_neg hlt]
    exact if_neg hlt

namespace NWG.AW

variable {R : Type} [Zero R] [Add R] [Sub R] [NatCast R] [LT R] [LE R] [DecidableLT R]
  [DecidableLE R]

open NWG

theorem findMax_idle (srt : List (WData R) → List (WData R)) (junk : Nat → R) (H : NWG R) (v : Nat) :
    H.findMaxCliques srt junk v false false = .ok (H, v) := rfl

theorem idle_spec {pg : PyNW R} {n : Nat} {S : SimpleGraph Nat} {ω : Nat → R} {H : NWG R}
    (h : WPyOk pg n S ω H) (srt : List (WData R) → List (WData R)) (junk : Nat → R)
    {a : PyNW.Args R} (ha : a.useHeuristic = false) (hd : a.useDfs = false) :
    pg.getMaxClique srt junk a =
      .ok ({ pg with G := some (wbounded H a), currentVertex := 0, finishedAll := false },
        if a.lowerBound > summed H.w (wstored H) then .raise else .ret (wstored H)) := by
  have hl : PyNW.checkLoaded { pg with currentVertex := 0 } = some H := h.loaded
  have hok := wbounded_ok h.ok a
  have hg := NWG.getClique_ok hok hok.loc
  have hw := AW.cliqueWeight_spec hok.l (cliqueAt_lt hok hok.loc)
  unfold wbounded at hg hw
  dsimp only at hg hw
  unfold PyNW.getMaxClique
  dsimp only
  rw [hl]
  dsimp only
  rw [ha, hd]
  rw [findMax_idle, ok_bind]
  dsimp only
  rw [hg, ok_bind, h.nv]
  dsimp only
  rw [hw, ok_bind]
  have h0 : decide (0 ≥ n) = false := by
    have := h.pos
    simp
    omega
  rw [h0]
  by_cases hlt : a.lowerBound > summed H.w (wstored H)
  · rw [if_pos hlt]
    exact if_pos hlt
  · rw [if_neg hlt]
    exact if_neg hlt

end NWG.AW

end CM
