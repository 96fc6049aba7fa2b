import Verif.Lemmas.RoomExact
import Verif.Lemmas.NWCut
import Verif.Lemmas.AWApi

/-! # Searches on a graph without edges

The constructor then leaves no room behind the bit sets, and the first access to the scratch
space is out of bounds. -/

namespace CM

open Spec Graph

variable {n : Nat} {S : SimpleGraph Nat} {G : Graph}

theorem wr_oob {α : Type} {l : List α} {i : Nat} {a : α} (h : l.length ≤ i) :
    wr l i a = .error .ub := by
  unfold wr
  rw [if_neg (by omega)]

theorem rd_oob {α : Type} {l : List α} {i : Nat} (h : l.length ≤ i) :
    rd l i = .error .ub := by
  unfold rd
  rw [List.getElem?_eq_none h]

theorem set_oob {b : GBits} {m : Mem} {i : Nat} (h : m.length ≤ b.off) :
    b.set m i = .error .ub := by
  unfold GBits.set
  rw [rd_oob (by omega)]
  rfl

theorem clear_oob {b : GBits} {m : Mem} {N : Nat} (h : m.length ≤ b.off) (hl : 0 < b.len) :
    b.clear m N = .error .ub := by
  have hd : 0 < dlen b.len := by unfold dlen; split <;> omega
  have hpos : ∀ k, 0 < k → forRange 0 k (fun i m => wr m (b.off + i) 0#64) m = .error .ub := by
    intro k hk
    obtain ⟨j, rfl⟩ : ∃ j, k = j + 1 := ⟨k - 1, by omega⟩
    unfold forRange
    rw [Nat.sub_zero]
    unfold forN
    simp only
    rw [wr_oob (by omega)]
  unfold GBits.clear
  simp only
  apply hpos
  split <;> omega

/-- A graph object with no room behind its bit sets. -/
structure Bare (G : Graph) : Prop where
  full : G.eb.length ≤ G.searchCur
  small : G.searchCur < 2 ^ 33
  loc : G.curLoc < G.nVert
  vlen : G.vs.length = G.nVert
  one : ∀ v, v < G.nVert → (G.V v).N = 1
  maxd : G.maxDeg = 1

theorem Bare.vtx (b : Bare G) {v : Nat} (hv : v < G.nVert) : G.vtx v = .ok (G.V v) := by
  unfold Graph.vtx Graph.V; exact rd_getD _ (by rw [b.vlen]; exact hv)

theorem bare_heurGraph (b : Bare G) (srt : List VData → List VData) :
    G.heurGraph srt = .error .ub := by
  unfold heurGraph heurVertex
  simp only [loadMemory]
  have e : ∀ x, Graph.vtx { G with searchCur := x } G.curLoc = G.vtx G.curLoc := fun _ => rfl
  rw [e, b.vtx b.loc, ok_bind, clear_oob b.full (by simp only; rw [b.maxd]; omega)]
  rfl

theorem le_swapped {c : Prop} [Decidable c] {L x y : Nat} (hx : L ≤ x) (hy : L ≤ y) :
    L ≤ (if c then (x, y) else (y, x)).1 := by
  split
  · exact hx
  · exact hy

theorem bare_rootState (b : Bare G) {v : Nat} (hv : v < G.nVert) :
    G.rootState (G.V v) (dlen (G.V v).N) = .error .ub := by
  unfold rootState
  simp only [loadMemory]
  have h1 := b.full
  have h2 : G.searchCur ≤ uadd G.searchCur (dlen (G.V v).N) := by
    rw [b.one v hv]
    unfold uadd
    have := b.small
    have h64 : (2 : Nat) ^ 33 + 1 < 2 ^ 64 := by decide
    have hd : dlen 1 = 1 := rfl
    rw [hd, Nat.mod_eq_of_lt (by omega)]
    omega
  rw [set_oob (le_swapped h1 (Nat.le_trans h1 h2))]
  rfl

theorem bare_stackVertex (b : Bare G) : G.stackVertex G.curLoc = .error .ub := by
  unfold stackVertex
  rw [b.vtx b.loc, ok_bind]
  simp only
  rw [bare_rootState b b.loc]
  rfl

theorem bare_recVertex (b : Bare G) (t : Clock) : recVertex (G, t) G.curLoc = .error .ub := by
  unfold recVertex
  simp only [loadMemory]
  rw [b.vtx b.loc, ok_bind, set_oob b.full]
  rfl

theorem bare_find (b : Bare G) (srt : List VData → List VData) (k : Nat) {useHeur useDfs : Bool}
    (tl : TimeLimit) (h : useHeur = true ∨ useDfs = true) :
    G.findMaxCliques srt k useHeur useDfs tl = .error .ub := by
  unfold findMaxCliques
  cases useHeur with
  | true => simp only [if_true]; rw [bare_heurGraph b]; rfl
  | false =>
    simp only [Bool.false_eq_true, if_false, false_or] at h ⊢
    rw [ok_bind, h]
    simp only [if_true]
    cases tl with
    | none => simp only; unfold stackGraph; rw [bare_stackVertex b]; rfl
    | some t => simp only; unfold recGraph; rw [bare_recVertex b]; rfl

theorem bare_of (hO : Of G n S) (w : Str G) (s : Sizes n G) (B : Bounds G)
    (hm : ∀ v, v < G.nVert → (G.V v).N ≤ G.maxDeg)
    (hb : G.eb.length = G.ebSize ∧ G.searchCur = 1 + G.ebSize)
    (hn : n < 2 ^ 31) (hno : ¬ ∃ u v, S.Adj u v) : Bare G := by
  classical
  have hd : ∀ v, degree S n v = 0 := by
    intro v
    unfold degree
    rw [Finset.card_eq_zero, Finset.filter_eq_empty_iff]
    intro u _ h
    exact hno ⟨_, _, h⟩
  have hnv := hO.nv
  have hN : ∀ v, v < G.nVert → (G.V v).N = 1 := by
    intro v hv
    rw [spec_degree hO w (by omega), hd]
  refine ⟨by omega, ?_, B.loc, w.vlen, hN, ?_⟩
  · have : G.ebSize = n + 1 := by
      rw [s.ebs, Finset.sum_congr rfl (g := fun _ => 1)]
      · simp
      · intro v hv
        rw [Finset.mem_range] at hv
        rw [hN v (by omega)]; rfl
    have h33 : (2 : Nat) ^ 31 + 3 < 2 ^ 33 := by decide
    omega
  · rw [maxDeg_eq hO w s hm]
    have : (Finset.Icc 1 n).sup (degree S n) = 0 := by
      rw [← Nat.bot_eq_zero, Finset.sup_eq_bot_iff]
      intro v _
      exact hd v
    rw [this]

/-- Every search on a graph without edges. -/
theorem getMaxClique_bare {pg : PyGraph} (h : Loaded pg n S) (hno : ¬ ∃ u v, S.Adj u v)
    (hpos : 1 ≤ n) (srt : List VData → List VData) (a : PyGraph.Args)
    (ha : a.useHeuristic = true ∨ a.useDfs = true) : pg.getMaxClique srt a = .error .ub := by
  obtain ⟨hn, cap, m, G, hL⟩ := h.as
  have hB := bare_of hL.of hL.str hL.sizes hL.bounds hL.maxd (hL.bare hno) hn hno
  unfold PyGraph.getMaxClique PyGraph.checkLoaded
  rw [hL.eq]
  simp only [Nat.ne_of_gt hpos, if_false, ne_eq, not_true_eq_false, and_false, ite_self]
  rw [bare_find (G := { G with
    curMax := if a.lowerBound > G.curMax then a.lowerBound else G.curMax
    limit := if a.upperBound < G.limit then a.upperBound else G.limit })
    ⟨hB.full, hB.small, hB.loc, hB.vlen, hB.one, hB.maxd⟩ srt 0 a.timeLimit ha]
  rfl

/-! ## Weighted graphs -/

variable {R : Type} [Zero R] [Add R] [Sub R] [NatCast R] [LT R] [LE R] [DecidableLT R]
  [DecidableLE R] {H : NWG R}

theorem bare_wfind (b : Bare H.g) (hloc : H.curLoc < H.g.nVert)
    (srt : List (NWG.WData R) → List (NWG.WData R)) (junk : Nat → R) (k : Nat)
    {useHeur useDfs : Bool} (h : useHeur = true ∨ useDfs = true) :
    H.findMaxCliques srt junk k useHeur useDfs = .error .ub := by
  unfold NWG.findMaxCliques
  cases useHeur with
  | true =>
    simp only [if_true]
    have : H.heurGraph srt = .error .ub := by
      unfold NWG.heurGraph NWG.heurVertex
      simp only [loadMemory]
      have e : ∀ x, Graph.vtx { H.g with searchCur := x } H.curLoc = H.g.vtx H.curLoc :=
        fun _ => rfl
      rw [e, b.vtx hloc, ok_bind, clear_oob b.full (by simp only; rw [b.maxd]; omega)]
      rfl
    rw [this]; rfl
  | false =>
    simp only [Bool.false_eq_true, if_false, false_or] at h ⊢
    rw [ok_bind, h]
    simp only [if_true]
    unfold NWG.stackGraph NWG.stackVertex
    simp only
    rw [b.vtx hloc, ok_bind, bare_rootState b hloc]
    rfl

/-- Every search on a weighted graph without edges. -/
theorem wgetMaxClique_bare {pg : PyNW R} {ω : Nat → R} (h : WLoaded pg n S ω)
    (hno : ¬ ∃ u v, S.Adj u v) (hpos : 1 ≤ n) (srt : List (NWG.WData R) → List (NWG.WData R))
    (junk : Nat → R) (a : PyNW.Args R) (ha : a.useHeuristic = true ∨ a.useDfs = true) :
    pg.getMaxClique srt junk a = .error .ub := by
  obtain ⟨hn, cap, m, H, hL⟩ := NWG.AW.wloaded_as h
  have hB := bare_of hL.of hL.str hL.sizes hL.bounds hL.maxd (hL.bare hno) hn hno
  unfold PyNW.getMaxClique PyNW.checkLoaded
  rw [hL.eq]
  simp only [Nat.ne_of_gt hpos, if_false]
  rw [bare_wfind (H := { H with
    curMax := if a.lowerBound > H.curMax then a.lowerBound else H.curMax
    limit := if a.upperBound < H.limit then a.upperBound else H.limit })
    hB hL.loc srt junk 0 ha]
  rfl

end CM
