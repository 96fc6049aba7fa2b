import Mathlib.Algebra.BigOperators.Group.Finset.Basic
import Mathlib.Algebra.Order.BigOperators.Group.Finset
import Mathlib.Tactic.Linarith
import Verif.Model.NWSearch
import Verif.Lemmas.NWExact
import Verif.Lemmas.Clique

/-! # Weighted graphs: weights of positions, root candidates, saving a clique -/

namespace CM

open Graph

namespace NWG

section

variable {R : Type} [Zero R] {H : NWG R}

/-- The weight of vertex `v`. -/
def w (H : NWG R) (v : Nat) : R := H.wt.getD v 0

/-- The weighted degree of vertex `v`. -/
def d (H : NWG R) (v : Nat) : R := H.deg.getD v 0

/-- The bound of vertex `v`. -/
def mc (H : NWG R) (v : Nat) : R := H.mcs.getD v 0

/-- The weight of position `i` in the list of `r`. -/
def we (H : NWG R) (r i : Nat) : R := H.w (H.g.e r i)

open Classical in
/-- Positions in the list of `r` that take part in a weighted search rooted at `r`. -/
noncomputable def wCand [LT R] [LE R] (H : NWG R) (r : Nat) : Finset Nat :=
  (Finset.range (H.g.V r).N).filter fun i =>
    (i < (H.g.V r).spos ∧ ¬ H.d (H.g.e r i) ≤ H.d r) ∨
    ((H.g.V r).spos < i ∧ ¬ H.d (H.g.e r i) < H.d r)

theorem mem_wCand' [LT R] [LE R] {r i : Nat} : i ∈ H.wCand r ↔ i < (H.g.V r).N ∧
    ((i < (H.g.V r).spos ∧ ¬ H.d (H.g.e r i) ≤ H.d r) ∨
    ((H.g.V r).spos < i ∧ ¬ H.d (H.g.e r i) < H.d r)) := by
  simp [wCand]

theorem wCand_lt [LT R] [LE R] {r i : Nat} (h : i ∈ H.wCand r) : i < (H.g.V r).N ∧
    i ≠ (H.g.V r).spos := by
  have := mem_wCand'.1 h
  omega

theorem wCand_card_lt [LT R] [LE R] (wf : WF H.g) {r : Nat} (hr : r < H.g.nVert) :
    (H.wCand r).card < (H.g.V r).N := by
  have h : H.wCand r ⊆ (Finset.range (H.g.V r).N).erase (H.g.V r).spos := by
    intro x hx
    have := mem_wCand'.1 hx
    simp only [Finset.mem_erase, Finset.mem_range]
    omega
  have h2 := Finset.card_le_card h
  rw [Finset.card_erase_of_mem (Finset.mem_range.2 (wf.spos r hr)), Finset.card_range] at h2
  have := N_pos wf hr
  omega

/-- The arrays of a weighted graph have one entry for each vertex. -/
structure Lens (H : NWG R) : Prop where
  wt : H.wt.length = H.g.nVert
  deg : H.deg.length = H.g.nVert
  mcs : H.mcs.length = H.g.nVert

theorem rd_wt (l : Lens H) {v : Nat} (hv : v < H.g.nVert) : rd H.wt v = .ok (H.w v) :=
  rd_getD _ (by rw [l.wt]; exact hv)

theorem rd_deg (l : Lens H) {v : Nat} (hv : v < H.g.nVert) : rd H.deg v = .ok (H.d v) :=
  rd_getD _ (by rw [l.deg]; exact hv)

theorem rd_mcs (l : Lens H) {v : Nat} (hv : v < H.g.nVert) : rd H.mcs v = .ok (H.mc v) :=
  rd_getD _ (by rw [l.mcs]; exact hv)

theorem getD_set {l : List R} {i : Nat} (x : R) (hi : i < l.length) (k : Nat) :
    (l.set i x).getD k 0 = if k = i then x else l.getD k 0 := by
  rw [List.getD_eq_getElem?_getD, List.getD_eq_getElem?_getD, List.getElem?_set]
  by_cases h : i = k
  · subst h; simp [hi]
  · have : ¬ k = i := fun h' => h h'.symm
    simp [h, this]

omit [Zero R] in
theorem filter_skip {S : Finset Nat} {k : Nat} (h : k ∉ S) :
    S.filter (· < k + 1) = S.filter (· < k) := by
  ext x; simp only [Finset.mem_filter]
  constructor
  · rintro ⟨hx, hxk⟩
    refine ⟨hx, ?_⟩
    have : x ≠ k := fun e => h (e ▸ hx)
    omega
  · rintro ⟨hx, hxk⟩; exact ⟨hx, by omega⟩

omit [Zero R] in
theorem filter_take {S : Finset Nat} {k : Nat} (h : k ∈ S) :
    S.filter (· < k + 1) = insert k (S.filter (· < k)) := by
  ext x; simp only [Finset.mem_filter, Finset.mem_insert]
  constructor
  · rintro ⟨hx, hxk⟩
    by_cases e : x = k
    · exact Or.inl e
    · exact Or.inr ⟨hx, by omega⟩
  · rintro (rfl | ⟨hx, hxk⟩)
    · exact ⟨h, by omega⟩
    · exact ⟨hx, by omega⟩

/-- What operations on a weighted graph leave alone. -/
structure WFrame (H H' : NWG R) : Prop where
  frame : Frame H.g H'.g
  vs : H'.g.vs = H.g.vs
  cl : H'.g.curLoc = H.g.curLoc
  wt : H'.wt = H.wt
  deg : H'.deg = H.deg
  mlen : H'.mcs.length = H.mcs.length
  depth : H'.g.limit = H.g.limit

namespace WFrame

variable {H' : NWG R}

omit [Zero R] in
theorem refl (H : NWG R) : WFrame H H := ⟨Frame.refl _, rfl, rfl, rfl, rfl, rfl, rfl⟩

omit [Zero R] in
theorem trans {H1 H2 H3 : NWG R} (h : WFrame H1 H2) (h' : WFrame H2 H3) : WFrame H1 H3 :=
  ⟨h.frame.trans h'.frame, h'.vs.trans h.vs, h'.cl.trans h.cl, h'.wt.trans h.wt,
    h'.deg.trans h.deg, h'.mlen.trans h.mlen, h'.depth.trans h.depth⟩

omit [Zero R] in
theorem V (h : WFrame H H') (v : Nat) : H'.g.V v = H.g.V v := by unfold Graph.V; rw [h.vs]
theorem w (h : WFrame H H') (v : Nat) : H'.w v = H.w v := by unfold NWG.w; rw [h.wt]
theorem d (h : WFrame H H') (v : Nat) : H'.d v = H.d v := by unfold NWG.d; rw [h.deg]
theorem we (h : WFrame H H') (r i : Nat) : H'.we r i = H.we r i := by
  unfold NWG.we; rw [h.w, h.frame.e]
theorem wCand [LT R] [LE R] (h : WFrame H H') (r : Nat) : H'.wCand r = H.wCand r := by
  ext i; rw [mem_wCand', mem_wCand', h.V, h.d, h.d, h.frame.e]
omit [Zero R] in
theorem lens (h : WFrame H H') (l : Lens H) : Lens H' :=
  ⟨by rw [h.wt, h.frame.nVert]; exact l.wt, by rw [h.deg, h.frame.nVert]; exact l.deg,
    by rw [h.mlen, h.frame.nVert]; exact l.mcs⟩

omit [Zero R] in
/-- Changing the buffer (same length), the stack pointer and the record. -/
theorem mk' (H : NWG R) (eb : Mem) (sc : Nat) (lim cm : R) (cl : Nat)
    (h : eb.length = H.g.eb.length) :
    WFrame H { H with
      g := { H.g with eb := eb, searchCur := sc }, limit := lim, curMax := cm, curLoc := cl } :=
  ⟨⟨rfl, rfl, fun _ => ⟨rfl, rfl, rfl, rfl⟩, h, rfl, rfl, rfl, rfl, rfl, rfl⟩, rfl, rfl, rfl, rfl,
    rfl, rfl⟩

end WFrame

end

section

open ExactNum

set_option linter.unusedSectionVars false

variable {R : Type} [Zero R] [Add R] [Sub R] [NatCast R] [LT R] [LE R] [DecidableLT R]
  [DecidableLE R] [ExactNum R] {H : NWG R}

/-- The value of the weight of position `i` in the list of `r`. -/
def qe (H : NWG R) (r i : Nat) : Rat := val (H.we r i)

/-- The value of the weighted degree of vertex `v`. -/
def dq (H : NWG R) (v : Nat) : Rat := val (H.d v)

/-- The value of the bound of vertex `v`. -/
def mq (H : NWG R) (v : Nat) : Rat := val (H.mc v)

/-- The value of the record. -/
def cm (H : NWG R) : Rat := val H.curMax

/-- The value of the limit. -/
def lm (H : NWG R) : Rat := val H.limit

/-- The weight of a set of positions. -/
def wsum (H : NWG R) (r : Nat) (S : Finset Nat) : Rat := ∑ i ∈ S, H.qe r i

/-- The weights, the bounds and the record are numbers, and the weights of distinct vertices can be
added up exactly. -/
structure XN (H : NWG R) : Prop where
  w : ∀ v, v < H.g.nVert → Num (H.w v)
  sums : ∀ T : Finset Nat, (∀ v ∈ T, v < H.g.nVert) → Rep R (∑ v ∈ T, val (H.w v))
  d : ∀ v, v < H.g.nVert → Num (H.d v)
  mc : ∀ v, v < H.g.nVert → Num (H.mc v)
  cm : Num H.curMax
  lim : Num H.limit

namespace XN

variable {r : Nat}

theorem we (X : XN H) (wf : WF H.g) (hr : r < H.g.nVert) {i : Nat} (hi : i < (H.g.V r).N) :
    H.we r i = fin (H.qe r i) := X.w _ (e_lt wf hr hi)

/-- The weight of a set of positions is representable. -/
theorem rep (X : XN H) (wf : WF H.g) (hr : r < H.g.nVert) {S : Finset Nat}
    (hS : ∀ i ∈ S, i < (H.g.V r).N) : Rep R (H.wsum r S) := by
  have h := X.sums (S.image (H.g.e r)) (by
    intro v hv
    obtain ⟨i, hi, rfl⟩ := Finset.mem_image.1 hv
    exact e_lt wf hr (hS i hi))
  rw [Finset.sum_image (fun i hi j hj he => e_inj wf hr (hS i hi) (hS j hj) he)] at h
  exact h

/-- Adding the weight of one more position. -/
theorem add (X : XN H) (wf : WF H.g) (hr : r < H.g.nVert) {S : Finset Nat} {k : Nat}
    (hS : ∀ i ∈ S, i < (H.g.V r).N) (hk : k < (H.g.V r).N) (hkS : k ∉ S) :
    fin (H.wsum r S) + H.we r k = fin (H.wsum r (insert k S)) := by
  have e : H.wsum r (insert k S) = H.wsum r S + H.qe r k := by
    unfold wsum; rw [Finset.sum_insert hkS, add_comm]
  rw [X.we wf hr hk, e]
  apply ExactNum.add
  rw [← e]
  apply X.rep wf hr
  intro i hi
  rcases Finset.mem_insert.1 hi with h | h
  · rw [h]; exact hk
  · exact hS i h

/-- Adding the weights of two disjoint sets of positions. -/
theorem add_disj (X : XN H) (wf : WF H.g) (hr : r < H.g.nVert) {S T : Finset Nat}
    (hS : ∀ i ∈ S, i < (H.g.V r).N) (hT : ∀ i ∈ T, i < (H.g.V r).N) (hd : Disjoint S T) :
    (fin (H.wsum r S) + fin (H.wsum r T) : R) = fin (H.wsum r S + H.wsum r T) := by
  have e : H.wsum r S + H.wsum r T = H.wsum r (S ∪ T) := by
    unfold wsum; rw [Finset.sum_union hd]
  apply ExactNum.add
  rw [e]
  apply X.rep wf hr
  intro i hi
  rcases Finset.mem_union.1 hi with h | h
  · exact hS i h
  · exact hT i h

/-- Taking away the weight of a position. -/
theorem sub (X : XN H) (wf : WF H.g) (hr : r < H.g.nVert) {S : Finset Nat} {k : Nat}
    (hS : ∀ i ∈ S, i < (H.g.V r).N) (hk : k < (H.g.V r).N) :
    fin (H.qe r k + H.wsum r S) - H.we r k = fin (H.wsum r S) := by
  rw [X.we wf hr hk, ExactNum.sub, add_sub_cancel_left]
  rw [add_sub_cancel_left]
  exact X.rep wf hr hS

theorem of_frame {H' : NWG R} (X : XN H) (h : WFrame H H') (hm : ∀ v, v < H.g.nVert → Num (H'.mc v))
    (hc : Num H'.curMax) (hl : Num H'.limit) : XN H' := by
  refine ⟨?_, ?_, ?_, ?_, hc, hl⟩
  · intro v hv; rw [h.w]; exact X.w v (by rwa [h.frame.nVert] at hv)
  · intro T hT
    simp only [h.w]
    exact X.sums T (fun v hv => by have := hT v hv; rwa [h.frame.nVert] at this)
  · intro v hv; rw [h.d]; exact X.d v (by rwa [h.frame.nVert] at hv)
  · intro v hv; exact hm v (by rwa [h.frame.nVert] at hv)

end XN

theorem mem_wCand (X : XN H) (wf : WF H.g) {r i : Nat} (hr : r < H.g.nVert) :
    i ∈ H.wCand r ↔ i < (H.g.V r).N ∧
    ((i < (H.g.V r).spos ∧ H.dq r < H.dq (H.g.e r i)) ∨
    ((H.g.V r).spos < i ∧ H.dq r ≤ H.dq (H.g.e r i))) := by
  rw [mem_wCand']
  unfold dq
  constructor <;> rintro ⟨h1, h2⟩ <;> refine ⟨h1, ?_⟩ <;>
    rw [(X.d _ (e_lt wf hr h1)).le (X.d _ hr), (X.d _ (e_lt wf hr h1)).lt (X.d _ hr), not_le,
      not_lt] at * <;> exact h2

theorem WFrame.qe {H' : NWG R} (h : WFrame H H') (r i : Nat) : H'.qe r i = H.qe r i := by
  unfold NWG.qe; rw [h.we]

theorem WFrame.dq {H' : NWG R} (h : WFrame H H') (v : Nat) : H'.dq v = H.dq v := by
  unfold NWG.dq; rw [h.d]

theorem WFrame.wsum {H' : NWG R} (h : WFrame H H') (r : Nat) (S : Finset Nat) :
    H'.wsum r S = H.wsum r S := by
  unfold NWG.wsum; simp only [h.qe]

/-- What filling the candidate set has done when the positions below `j` are handled. -/
def FillInv (H : NWG R) (r : Nat) (cand : GBits) (eb : Mem) (ws : List R) (j : Nat)
    (s : Mem × List R × R) : Prop :=
  s.1.length = eb.length ∧ s.2.1.length = ws.length ∧
    s.2.2 = fin (H.wsum r ((H.wCand r).filter (· < j))) ∧
    (∀ i ∈ (H.wCand r).filter (· < j), s.2.1.getD i 0 = H.we r i) ∧
    ∀ a, bitAt s.1 a =
      (decide (64 * cand.off ≤ a ∧ a - 64 * cand.off ∈ (H.wCand r).filter (· < j)) || bitAt eb a)

theorem fill_step (X : XN H) (wf : WF H.g) (l : Lens H) {r : Nat} (hr : r < H.g.nVert) (cand : GBits)
    (eb : Mem) (ws : List R) (hin : cand.off + dlen (H.g.V r).N ≤ eb.length)
    (hws : (H.g.V r).N ≤ ws.length) {k : Nat} (hk : k < (H.g.V r).N) {s : Mem × List R × R}
    (I : FillInv H r cand eb ws k s) (hm : k ∈ H.wCand r) :
    ∃ s', (do
      let eb ← cand.set s.1 k
      let w ← rd H.wt (H.g.e r k)
      let ws ← wr s.2.1 k w
      .ok (eb, ws, s.2.2 + w) : M (Mem × List R × R)) = .ok s' ∧
      FillInv H r cand eb ws (k + 1) s' := by
  obtain ⟨m, u, c⟩ := s
  obtain ⟨a1, a2, a3, a4, a5⟩ := I
  simp only at a1 a2 a3 a4 a5 ⊢
  obtain ⟨m', b1, b2, b3⟩ := cand.set_spec m k (by have := div_lt_dlen hk; omega)
  rw [b1, ok_bind, rd_wt l (e_lt wf hr hk), ok_bind, wr_ok _ (by omega), ok_bind]
  refine ⟨_, rfl, b2.trans a1, by simpa using a2, ?_, ?_, ?_⟩
  · simp only
    rw [filter_take hm, ← X.add wf hr (fun i hi => (wCand_lt (Finset.mem_filter.1 hi).1).1) hk
      (by simp), a3]
    rfl
  · intro i hi
    simp only
    rw [getD_set _ (by omega)]
    by_cases hik : i = k
    · rw [if_pos hik, hik]; rfl
    · rw [if_neg hik]
      apply a4
      rw [Finset.mem_filter] at hi ⊢
      exact ⟨hi.1, by omega⟩
  · intro a
    simp only
    rw [b3, a5, filter_take hm, ← Bool.or_assoc]
    congr 1
    rw [← Bool.decide_or]
    apply decide_eq_decide.2
    simp only [Finset.mem_insert]
    constructor
    · rintro (h | h)
      · exact ⟨by omega, Or.inl (by omega)⟩
      · exact ⟨h.1, Or.inr h.2⟩
    · rintro ⟨h, h' | h'⟩
      · exact Or.inl (by omega)
      · exact Or.inr ⟨h, h'⟩

theorem FillInv.skip {r : Nat} {cand : GBits} {eb : Mem} {ws : List R} {k : Nat}
    {s : Mem × List R × R} (I : FillInv H r cand eb ws k s) (hm : k ∉ H.wCand r) :
    FillInv H r cand eb ws (k + 1) s := by
  unfold FillInv at I ⊢
  rw [filter_skip hm]; exact I

theorem fillCand_spec (X : XN H) (wf : WF H.g) (l : Lens H) {r : Nat} (hr : r < H.g.nVert) (cand : GBits)
    (eb : Mem) (ws : List R) (hin : cand.off + dlen (H.g.V r).N ≤ eb.length)
    (hws : (H.g.V r).N ≤ ws.length) :
    ∃ eb' ws', H.fillCand r (H.g.V r) cand eb ws = .ok (eb', ws', fin (H.wsum r (H.wCand r))) ∧
      eb'.length = eb.length ∧ ws'.length = ws.length ∧
      (∀ i ∈ H.wCand r, ws'.getD i 0 = H.we r i) ∧
      ∀ a, bitAt eb' a =
        (decide (64 * cand.off ≤ a ∧ a - 64 * cand.off ∈ H.wCand r) || bitAt eb a) := by
  have hsp := wf.spos r hr
  unfold fillCand
  obtain ⟨s1, h1, h2⟩ := forRange_rule (lo := 0) (hi := (H.g.V r).spos) (s := (eb, ws, (0 : R)))
    (body := fun j (s : Mem × List R × R) => do
      let vert ← H.g.nbr (H.g.V r) j
      let dv ← rd H.deg vert
      let d ← rd H.deg r
      if dv ≤ d then .ok s
      else do
        let eb ← cand.set s.1 j
        let w ← rd H.wt vert
        let ws ← wr s.2.1 j w
        .ok (eb, ws, s.2.2 + w))
    (FillInv H r cand eb ws) (Nat.zero_le _)
    ⟨rfl, rfl, by simp [wsum, fin_zero], by simp, by simp⟩
    (by
      intro k s _ hk I
      have hkN : k < (H.g.V r).N := by omega
      have hek := e_lt wf hr hkN
      rw [nbr_ok wf hr hkN, ok_bind, rd_deg l hek, ok_bind, rd_deg l hr, ok_bind]
      by_cases hc : H.d (H.g.e r k) ≤ H.d r
      · rw [if_pos hc]
        refine ⟨_, rfl, I.skip ?_⟩
        rw [mem_wCand']
        rintro ⟨_, h | h⟩
        · exact h.2 hc
        · omega
      · rw [if_neg hc]
        exact fill_step X wf l hr cand eb ws hin hws hkN I
          (mem_wCand'.2 ⟨hkN, Or.inl ⟨hk, hc⟩⟩))
  rw [h1, ok_bind]
  obtain ⟨⟨m, u, c⟩, k1, k2⟩ := forRange_rule (lo := (H.g.V r).spos + 1) (hi := (H.g.V r).N)
    (s := s1)
    (body := fun j (s : Mem × List R × R) => do
      let vert ← H.g.nbr (H.g.V r) j
      let dv ← rd H.deg vert
      let d ← rd H.deg r
      if dv < d then .ok s
      else do
        let eb ← cand.set s.1 j
        let w ← rd H.wt vert
        let ws ← wr s.2.1 j w
        .ok (eb, ws, s.2.2 + w))
    (FillInv H r cand eb ws) (by omega)
    (h2.skip (by rw [mem_wCand']; omega))
    (by
      intro k s hlo hk I
      have hek := e_lt wf hr hk
      rw [nbr_ok wf hr hk, ok_bind, rd_deg l hek, ok_bind, rd_deg l hr, ok_bind]
      by_cases hc : H.d (H.g.e r k) < H.d r
      · rw [if_pos hc]
        refine ⟨_, rfl, I.skip ?_⟩
        rw [mem_wCand']
        rintro ⟨_, h | h⟩
        · omega
        · exact h.2 hc
      · rw [if_neg hc]
        exact fill_step X wf l hr cand eb ws hin hws hk I
          (mem_wCand'.2 ⟨hk, Or.inr ⟨by omega, hc⟩⟩))
  have hall : (H.wCand r).filter (· < (H.g.V r).N) = H.wCand r := by
    ext x; simp only [Finset.mem_filter]
    exact ⟨fun h => h.1, fun h => ⟨h, (mem_wCand'.1 h).1⟩⟩
  obtain ⟨a1, a2, a3, a4, a5⟩ := k2
  rw [hall] at a3 a4 a5
  simp only at a1 a2 a3 a4 a5
  rw [k1, a3]
  exact ⟨m, u, rfl, a1, a2, a4, a5⟩

/-- A set of positions that is a clique is no larger than every bound on the unweighted root
candidates. -/
theorem isCl_card_le {G : Graph} (wf : WF G) {L : Nat}
    (hL : ∀ v, v < G.nVert → (G.rootCand v).card + 1 ≤ L) {r : Nat} (hr : r < G.nVert)
    {S : Finset Nat} (hS : IsCl G r S) : S.card ≤ L := by
  have hinj : (S.image (G.e r)).card = S.card := by
    apply Finset.card_image_of_injOn
    intro i hi j hj he
    exact e_inj wf hr (hS.2.1 i hi) (hS.2.1 j hj) he
  obtain ⟨r', hr', T, h1, h2, h3⟩ := clique_rooted wf.str (C := S.image (G.e r))
    ⟨_, Finset.mem_image_of_mem _ hS.1⟩
    (by
      intro u hu
      obtain ⟨i, hi, rfl⟩ := Finset.mem_image.1 hu
      exact e_lt wf hr (hS.2.1 i hi))
    (by
      intro u hu v hv
      obtain ⟨i, hi, rfl⟩ := Finset.mem_image.1 hu
      obtain ⟨j, hj, rfl⟩ := Finset.mem_image.1 hv
      exact hS.2.2 i hi j hj)
  obtain ⟨i, hi, rfl⟩ := Finset.mem_image.1 hr'
  have h4 := rooted_card_le wf.str (e_lt wf hr (hS.2.1 i hi)) h1
  have h5 := hL _ (e_lt wf hr (hS.2.1 i hi))
  omega

/-- What a weighted search rooted at `r` may have done between `H0` and `H`, `B` being the
bottom of the scratch memory it uses. -/
structure WUpd (r B : Nat) (H0 H : NWG R) : Prop where
  frame : WFrame H0 H
  lim : H.limit = H0.limit
  other : ∀ v, v ≠ r → H.mc v = H0.mc v
  out : ∀ a, a < 64 * B →
    ¬ (64 * (H0.g.V r).ebo ≤ a ∧ a < 64 * ((H0.g.V r).ebo + dlen (H0.g.V r).N)) →
    bitAt H.g.eb a = bitAt H0.g.eb a
  pad : PadZero H.g.eb (H0.g.vb r)
  res : ((∀ a, a < 64 * B → bitAt H.g.eb a = bitAt H0.g.eb a) ∧ H.curMax = H0.curMax ∧
      H.curLoc = H0.curLoc ∧ H.mc r = H0.mc r) ∨
    (IsCl H0.g r (bset H.g.eb (H0.g.vb r)) ∧ fin (H0.wsum r (bset H.g.eb (H0.g.vb r))) = H.curMax ∧
      H.curLoc = r ∧ (H.mc r = H0.mc r ∨ H.mc r = H.curMax))

namespace WUpd

variable {r B : Nat} {H0 : NWG R}

theorem refl (hp : PadZero H0.g.eb (H0.g.vb r)) : WUpd r B H0 H0 :=
  ⟨WFrame.refl _, rfl, fun _ _ => rfl, fun _ _ _ => rfl, hp,
    Or.inl ⟨fun _ _ => rfl, rfl, rfl, rfl⟩⟩

/-- Changing only scratch memory. -/
theorem scratch (h : WUpd r B H0 H) (hB : (H0.g.V r).ebo + dlen (H0.g.V r).N ≤ B)
    (eb : Mem) (sc : Nat) (hl : eb.length = H.g.eb.length)
    (hb : ∀ a, a < 64 * B → bitAt eb a = bitAt H.g.eb a) :
    WUpd r B H0 { H with g := { H.g with eb := eb, searchCur := sc } } := by
  have hd := @dlen_le (H0.g.V r).N
  have hwin : bset eb (H0.g.vb r) = bset H.g.eb (H0.g.vb r) := by
    apply bset_congr rfl
    intro i hi
    simp only [vb] at hi ⊢
    rw [hb _ (by omega)]
  refine ⟨h.frame.trans (WFrame.mk' H eb sc H.limit H.curMax H.curLoc hl), h.lim, h.other, ?_, ?_, ?_⟩
  · intro a ha hna
    show bitAt eb a = _
    rw [hb a ha]; exact h.out a ha hna
  · intro i h1 h2
    show bitAt eb _ = _
    simp only [vb] at h1 h2
    rw [hb _ (by simp only [vb]; omega)]; exact h.pad i h1 h2
  · rcases h.res with ⟨h1, h2⟩ | h1
    · refine Or.inl ⟨?_, h2⟩
      intro a ha
      show bitAt eb a = _
      rw [hb a ha]; exact h1 a ha
    · refine Or.inr ?_
      show IsCl H0.g r (bset eb _) ∧ fin (H0.wsum r (bset eb _)) = _ ∧ _
      rw [hwin]; exact h1

/-- Popping scratch memory down to the bottom of a search. -/
theorem pop {n : Nat} (h : WUpd r B H0 H) (wf : WF H0.g) (hr : r < H0.g.nVert)
    (hB : H0.g.ebSize < B)
    (hn : H.g.searchCur = B + n) (hlen : H.g.searchCur ≤ H0.g.eb.length) :
    ∃ g', H.g.clearMemory n = .ok g' ∧ WUpd r B H0 { H with g := g' } ∧ g'.searchCur = B ∧
      (∀ a, 64 * B ≤ a → a < 64 * H.g.searchCur → bitAt g'.eb a = false) ∧
      ∀ a, ¬ (64 * B ≤ a ∧ a < 64 * H.g.searchCur) → bitAt g'.eb a = bitAt H.g.eb a := by
  have hebl := h.frame.frame.ebl
  have hebb := wf.eblen
  have hebo := wf.eboEnd r hr
  obtain ⟨m1, d1, d2, d3⟩ := clearMemory_spec (G := H.g) n (by omega) (by omega) (by omega)
  have : H.g.searchCur - n = B := by omega
  rw [this] at d1 d3
  refine ⟨_, d1, ?_, rfl, ?_, ?_⟩
  · exact h.scratch (by omega) m1 _ d2 (fun a ha => by rw [d3, if_neg (by omega)])
  · intro a h1 h2; simp only; rw [d3, if_pos ⟨h1, h2⟩]
  · intro a h1; simp only; rw [d3, if_neg h1]

/-- A search keeps numbers numbers. -/
theorem xn (h : WUpd r B H0 H) (X : XN H0) : XN H := by
  have hc : Num H.curMax := by
    rcases h.res with ⟨_, h2, _⟩ | ⟨_, h2, _⟩
    · rw [h2]; exact X.cm
    · rw [← h2]; exact num_fin _
  refine X.of_frame h.frame (fun v hv => ?_) hc (by rw [h.lim]; exact X.lim)
  by_cases hvr : v = r
  · subst hvr
    rcases h.res with ⟨_, _, _, h2⟩ | ⟨_, _, _, h2 | h2⟩
    · rw [h2]; exact X.mc _ hv
    · rw [h2]; exact X.mc _ hv
    · rw [h2]; exact hc
  · rw [h.other v hvr]; exact X.mc v hv

end WUpd

/-- Storing a clique as the record, with or without changing the bound. -/
theorem store_spec {r B : Nat} {H0 : NWG R} (wf : WF H0.g) (hr : r < H0.g.nVert)
    (h : WUpd r B H0 H) (hB : H0.g.ebSize < B) {res : GBits} {size : R}
    (hB2 : B ≤ res.off)
    (hin : res.off + dlen (H0.g.V r).N ≤ H.g.eb.length)
    (hpad : ∀ i, (H0.g.V r).N ≤ i → i < 64 * dlen (H0.g.V r).N →
      bitAt H.g.eb (64 * res.off + i) = false)
    (hcl : IsCl H0.g r (bset H.g.eb ⟨res.off, (H0.g.V r).N⟩))
    (hsz : fin (H0.wsum r (bset H.g.eb ⟨res.off, (H0.g.V r).N⟩)) = size) :
    ∃ eb, (H.g.vb r).copyData res.off H.g.eb = .ok eb ∧ eb.length = H.g.eb.length ∧
      H.g.vbits (H0.g.V r) = .ok (H.g.vb r) ∧
      (∀ a, 64 * B ≤ a → bitAt eb a = bitAt H.g.eb a) ∧
      ∀ mcs, mcs.length = H.mcs.length → (∀ v, v ≠ r → mcs.getD v 0 = H.mc v) →
        (mcs.getD r 0 = H0.mc r ∨ mcs.getD r 0 = size) →
        WUpd r B H0 { H with
          g := { H.g with eb := eb }, mcs := mcs, curMax := size, curLoc := r } := by
  have wG := h.frame.frame.wf wf
  have hebo := wf.eboEnd r hr
  have hV := h.frame.V r
  obtain ⟨eb, c1, c2, c3⟩ := (H.g.vb r).copyData_spec res.off H.g.eb
    (by simp only [vb]; rw [hV]; omega) (by simp only [vb]; rw [hV]; omega)
    (by simp only [vb]; rw [hV]; omega)
  simp only [vb, hV] at c3
  have hvb : H.g.vbits (H0.g.V r) = .ok (H.g.vb r) := by
    unfold vbits vb; rw [wG.dang, hV]; rfl
  have hwin : bset eb (H0.g.vb r) = bset H.g.eb ⟨res.off, (H0.g.V r).N⟩ := by
    apply bset_congr
    · rfl
    · intro i hi
      simp only [vb] at hi ⊢
      have := @dlen_le (H0.g.V r).N
      rw [c3, if_pos (by omega)]
      congr 1; omega
  refine ⟨eb, c1, c2, hvb, ?_, ?_⟩
  · intro a ha
    rw [c3, if_neg (by omega)]
  · intro mcs m1 m2 m3
    refine ⟨⟨h.frame.frame.trans ⟨rfl, rfl, fun _ => ⟨rfl, rfl, rfl, rfl⟩, c2, rfl, rfl, rfl, rfl,
      rfl, rfl⟩, h.frame.vs, h.frame.cl, h.frame.wt, h.frame.deg, m1.trans h.frame.mlen,
      h.frame.depth⟩, h.lim, ?_, ?_, ?_,
      Or.inr ⟨?_, ?_, rfl, m3⟩⟩
    · intro v hv
      exact (m2 v hv).trans (h.other v hv)
    · intro a ha hna
      show bitAt eb a = _
      rw [c3, if_neg hna]; exact h.out a ha hna
    · intro i h1 h2
      show bitAt eb _ = _
      simp only [vb] at h1 h2 ⊢
      rw [c3, if_pos (by omega)]
      rw [← hpad i h1 h2]; congr 1; omega
    · show IsCl H0.g r (bset eb _)
      rw [hwin]; exact hcl
    · show fin (H0.wsum r (bset eb _)) = size
      rw [hwin]; exact hsz

/-- nw_dfs.cpp:127-131. -/
theorem saveClique_spec {r B : Nat} {H0 : NWG R} (wf : WF H0.g) (l : Lens H0) (hr : r < H0.g.nVert)
    (h : WUpd r B H0 H) (hB : H0.g.ebSize < B) {res : GBits} {size : R}
    (hlen : res.len = (H0.g.V r).N) (hB2 : B ≤ res.off)
    (hin : res.off + dlen (H0.g.V r).N ≤ H.g.eb.length) (hpad : PadZero H.g.eb res)
    (hcl : IsCl H0.g r (bset H.g.eb res)) (hsz : fin (H0.wsum r (bset H.g.eb res)) = size) :
    ∃ H', H.saveClique r (H0.g.V r) res size = .ok H' ∧ WUpd r B H0 H' ∧ H'.curMax = size ∧
      H'.g.searchCur = H.g.searchCur ∧ (∀ a, 64 * B ≤ a → bitAt H'.g.eb a = bitAt H.g.eb a) := by
  have hres : res = ⟨res.off, (H0.g.V r).N⟩ := by rw [← hlen]
  obtain ⟨eb, c1, c2, c3, c4, c5⟩ := store_spec wf hr h hB (res := res) (size := size)
    hB2 hin (fun i h1 h2 => hpad i (by omega) (by rw [hlen]; exact h2))
    (by rw [← hres]; exact hcl) (by rw [← hres]; exact hsz)
  have hrm : r < H.mcs.length := by
    rw [h.frame.mlen, l.mcs]; exact hr
  unfold saveClique
  rw [c3, ok_bind, c1, ok_bind, wr_ok _ hrm, ok_bind]
  refine ⟨_, rfl, c5 _ (by simp) ?_ ?_, rfl, rfl, c4⟩
  · intro v hv
    rw [getD_set _ hrm, if_neg hv]; rfl
  · right; rw [getD_set _ hrm, if_pos rfl]

end

end NWG

end CM
