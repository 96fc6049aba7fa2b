import Verif.Lemmas.EXMain
import Verif.Lemmas.AWHeld
import Verif.Lemmas.Held

/-! # Complete calls while one weighted iterator is held, for weights that add up exactly -/

namespace CM

namespace EX

open Graph Spec NWG

open ExactNum

set_option linter.unusedSectionVars false

variable {R : Type} [Zero R] [Add R] [Sub R] [NatCast R] [LT R] [LE R] [DecidableLT R]
  [DecidableLE R] [ExactNum R]
  {pg : PyNW R} {n : Nat} {S : SimpleGraph Nat} {q : Nat → Rat} {H : NWG R}

/-- What `all_cliques(W)` has to report. -/
def WWanted (S : SimpleGraph Nat) (n : Nat) (q : Nat → Rat) (W : Rat) (l : List Nat) : Prop :=
  IsCliqueList S n l ∧ 2 ≤ l.length ∧ ∃ u, u ≠ 1 ∧ WFirst S n q u l ∧ ReachedLast q W u l

/-- The sets of positions that reach one of the thresholds `Q`. -/
def reaching (Q : Rat → Prop) (Hr : NWG R) (v : Nat) (C : Finset Nat) : Prop :=
  ∃ W, Q W ∧ W ≤ Hr.wsum v C

/-- The weight of the stored clique. -/
def sw (H : NWG R) : Rat := weight (fun u => val (H.w u)) (wstored H)

/-- The record is at most `L` or the weight of the stored clique, or an iteration stored a clique
that reaches one of the thresholds `Q`. -/
def WHonestBut (Q : Rat → Prop) (L : Rat) (H : NWG R) : Prop :=
  H.cm ≤ max L (sw H) ∨ ∃ W, Q W ∧ W ≤ sw H

variable {Q : Rat → Prop} {L W : Rat} {b : Nat} {Hr Hs : NWG R} {E : WEnum R}

theorem core_honest {H' : NWG R} (h : WCoreS (reaching Q Hr) b H H') (F : WFrame Hr H)
    (hl : H.curLoc < H.g.nVert) (hh : WHonestBut Q L H) : WHonestBut Q L H' := by
  have hc : H'.curLoc = H.curLoc := by rw [h.same]
  have hm : H'.cm = H.cm := by unfold cm; rw [h.same]
  have e : sw H' = Hr.wsum H.curLoc (bset H'.g.eb (H.g.vb H.curLoc)) := by
    unfold sw
    rw [weight_wstored, hc, h.frame.wsum, F.wsum, h.frame.frame.vb]
  have e0 : sw H = Hr.wsum H.curLoc (bset H.g.eb (H.g.vb H.curLoc)) := by
    unfold sw
    rw [weight_wstored, F.wsum]
  unfold WHonestBut at hh ⊢
  rcases h.core.keep H.curLoc hl with k | k
  · have : sw H' = sw H := by rw [e, e0, k]
    rw [this, hm]; exact hh
  · right
    obtain ⟨W, h1, h2⟩ := k
    exact ⟨W, h1, by rw [e]; exact h2⟩

/-- The object between two actions, while the scratch space below `b` is in use. -/
structure Fit (Q : Rat → Prop) (L : Rat) (b : Nat) (pg : PyNW R) (n : Nat) (S : SimpleGraph Nat)
    (q : Nat → Rat) (Hr H : NWG R) : Prop where
  py : WPyAt b pg n S (fq q) H
  xe : XE H
  nn : ∀ v, 0 ≤ val (H.w v)
  deg : DegOk n H
  mcs : McsOk H
  lim : LimQ S n q H
  ref : WFrame Hr H
  hon : WHonestBut Q L H

theorem wweight_q (h : WPyAt b pg n S (fq q) H) {l : List Nat} (hl : IsCliqueList S n l) :
    weight (fun u => val (H.w u)) l = weight q l := by
  rw [weight_at h hl, val_fq]

theorem Fit.xe_of {H' : NWG R} (h : XE H) (F : WFrame H H') (X : XN H') : XE H' := by
  refine ⟨X, fun T T' hT hT' => ?_⟩
  simp only [F.w]
  rw [F.frame.nVert] at hT hT'
  exact h.sums2 T T' hT hT'

/-- Bounds that are intact admit every clique that is looked for. -/
theorem Fit.mcs_ge (h : Fit Q L b pg n S q Hr H) {r : Nat} (hr : r < H.g.nVert) (h0 : r ≠ 0)
    {C : Finset Nat} (hR : RootW H W r C) : W ≤ H.mq r := by
  have w := h.py.ok.ok.wf.str
  obtain ⟨h1, h2⟩ := (rootW_list w hr hR.1).1 hR
  have hcl := listAt_clique h.py.of w hr h0 hR.1.1
  have h3 : W ≤ weight q (H.g.listAt r C) := by
    rw [← wweight_q h.py hcl]; exact h2.1
  rw [listAt_length hR.1.1.2.1] at h1
  rcases h.mcs r hr C hR.1 h1 with h4 | h4
  · rw [wsum_listAt hR.1.1.2.1, wweight_q h.py hcl] at h4
    exact le_trans h3 h4
  · exact le_trans h3 (le_trans (h.lim _ hcl) h4)

/-- No lower bound is above `L`. -/
def OpLow (L : Rat) : WOp R → Prop
  | .search _ _ a => ¬ (fin L : R) < a.lowerBound
  | _ => True

/-- The thresholds are numbers of `Q`. -/
def OpIn (Q : Rat → Prop) : WOp R → Prop
  | .list _ W => ∃ W', Q W' ∧ W = fin W'
  | _ => True

/-- What a call reports. -/
def WSeenQ (Q : Rat → Prop) (L : Rat) (S : SimpleGraph Nat) (n : Nat) (q : Nat → Rat) :
    WSeen R → Prop
  | .next _ => True
  | .reset => True
  | .list W cs => ∀ W', W = fin W' → cs.Nodup ∧ ∀ l, l ∈ cs ↔ WWanted S n q W' l
  | .found a r => (∀ l, r = .ret l → (l = [0] ∧ ¬ (fin 0 : R) < a.lowerBound) ∨
        (IsCliqueList S n l ∧ ¬ (fin (weight q l) : R) < a.lowerBound)) ∧
      (a.useDfs = true → ∀ l', IsCliqueList S n l' → 2 ≤ l'.length → L < weight q l' →
        (∃ l, r = .ret l ∧ IsCliqueList S n l ∧ weight q l' ≤ weight q l) ∨
        ∃ W, Q W ∧ ((r = .raise ∧ (fin W : R) < a.lowerBound) ∨ (r = .ret [0] ∧ W ≤ 0) ∨
          ∃ l, r = .ret l ∧ IsCliqueList S n l ∧ W ≤ weight q l))

theorem low_le {x : R} (hx : LowOk x) (hL : ¬ (fin L : R) < x) {p : Rat} (hp : L < p) :
    ¬ (fin p : R) < x := by
  rcases hx with h | h
  · rw [h] at hL ⊢
    rw [ExactNum.lt] at hL ⊢
    exact fun h => hL (lt_trans hp h)
  · exact h p

theorem bounded_le (X : XN H) {a : PyNW.Args R} (hl : LowOk a.lowerBound)
    (hL : ¬ (fin L : R) < a.lowerBound) : (wbounded H a).cm ≤ max L H.cm := by
  unfold cm
  simp only [wbounded]
  split
  · rename_i h
    rcases hl with hl | hl
    · rw [hl, ExactNum.lt, not_lt] at hL
      exact le_trans hL (le_max_left _ _)
    · rw [X.cm] at h; exact absurd h (hl _)
  · exact le_max_right _ _

/-- One call. -/
theorem Fit.call (h : Fit Q L b pg n S q Hr H) (h0 : 0 ≤ L) {op : WOp R} (hl : op.Legal)
    (hx : OpQ S n q op) (hlow : OpLow L op) (hin : OpIn Q op) :
    ∃ pg' H' s, op.run pg = .ok pg' ∧
      (∀ E : WEnum R, (WAct.call op).run pg E = .ok (pg', E, s)) ∧
      Fit Q L b pg' n S q Hr H' ∧ WFrame H H' ∧
      (∀ x, 64 * H.g.ebSize ≤ x → x < 64 * b → bitAt H'.g.eb x = bitAt H.g.eb x) ∧
      WSeenQ Q L S n q s ∧ ∀ c, s ≠ .next c := by
  cases op with
  | search srt junk a =>
    obtain ⟨pg', H', a1, a2, F, a4, aX, a5, _, _, _, a6, a7⟩ :=
      wsearch_at h.xe.toXN h.py hl junk a hx.1 hx.2.1
    obtain ⟨b1, b2⟩ := a7 h.nn h.mcs
    have hlim : LimQ S n q H' := by
      intro l hl
      have := wbounded_lm_ge h.xe.toXN hx.2.1 (h.lim l hl) (hx.2.2 l hl)
      unfold lm at this ⊢
      rw [a5]; exact this
    have hon : WHonestBut Q L H' := by
      rcases a6 with ⟨c1, _, c2⟩ | c1
      · have e1 : sw H' = sw H := by
          unfold sw
          rw [c2]
          exact weight_congr (fun v _ => by rw [F.w])
        have e2 : H'.cm ≤ max L H.cm := by
          have := bounded_le (L := L) h.xe.toXN hx.1 hlow
          unfold cm at this ⊢
          rw [c1]; exact this
        rcases h.hon with k | k
        · left
          rw [e1]
          exact le_trans e2 (max_le (le_max_left _ _) k)
        · right; rw [e1]; exact k
      · left
        show H'.cm ≤ max L (weight _ _)
        rw [c1]
        exact le_max_right _ _
    have hres : (if a.lowerBound > fin (sw H') then (.raise : PyRes (List Nat))
        else .ret (wstored H')) = if a.lowerBound > fin (sw H') then .raise
          else .ret (wstored H') := rfl
    have hz : H'.curLoc = 0 → wstored H' = [0] ∧ sw H' = 0 := by
      intro hc
      have := wstored_zero_at a2 hc
      refine ⟨this, ?_⟩
      unfold sw
      rw [this]
      simp [weight, a2.w0, val_zero]
    have hnz : H'.curLoc ≠ 0 → IsCliqueList S n (wstored H') ∧
        sw H' = weight q (wstored H') := by
      intro hc
      have := wstored_clique_at a2 hc
      exact ⟨this, wweight_q a2 this⟩
    refine ⟨pg', H', .found a (if a.lowerBound > fin (sw H') then .raise else .ret (wstored H')),
      ?_, fun E => ?_, ⟨a2, Fit.xe_of h.xe F aX, fun v => by rw [F.w]; exact h.nn v,
        h.deg.frame F, b1, hlim, h.ref.trans F, hon⟩, F, a4, ⟨?_, ?_⟩, by simp⟩
    · show (pg.getMaxClique srt junk a >>= _) = _
      rw [a1, ok_bind]
    · show (pg.getMaxClique srt junk a >>= _) = _
      rw [a1, ok_bind]; rfl
    · intro l hr
      split at hr
      · cases hr
      · rename_i hlt
        injection hr with hr
        subst hr
        by_cases hc : H'.curLoc = 0
        · refine Or.inl ⟨(hz hc).1, ?_⟩
          rw [(hz hc).2] at hlt; exact hlt
        · refine Or.inr ⟨(hnz hc).1, ?_⟩
          rw [← (hnz hc).2]; exact hlt
    · intro hd l' hl' h2 hL'
      have hbest : weight q l' ≤ H'.cm := by
        rcases wbest_spec aX a2.ok.ok.wf a2.of a2.ok.ok.wf.str (b2 hd) hl' h2 with h3 | h3
        · rwa [wweight_q a2 hl'] at h3
        · exact le_trans (hlim l' hl') h3
      rcases hon with k | ⟨W, k1, k2⟩
      · left
        have h4 : weight q l' ≤ sw H' := by
          rcases le_max_iff.1 k with k | k
          · exact absurd (lt_of_lt_of_le hL' (le_trans hbest k)) (lt_irrefl _)
          · exact le_trans hbest k
        have h5 : L < sw H' := lt_of_lt_of_le hL' h4
        have hc : H'.curLoc ≠ 0 := by
          intro hc
          rw [(hz hc).2] at h5
          exact absurd h5 (not_lt.2 h0)
        rw [if_neg (low_le hx.1 hlow h5)]
        exact ⟨_, rfl, (hnz hc).1, by rw [← (hnz hc).2]; exact h4⟩
      · right
        refine ⟨W, k1, ?_⟩
        by_cases hc : a.lowerBound > fin (sw H')
        · left
          rw [if_pos hc]
          refine ⟨rfl, ?_⟩
          rcases hx.1 with hx | hx
          · rw [gt_iff_lt, hx, ExactNum.lt] at hc
            rw [hx, ExactNum.lt]
            exact lt_of_le_of_lt k2 hc
          · exact absurd hc (hx _)
        · right
          rw [if_neg hc]
          by_cases hc0 : H'.curLoc = 0
          · exact Or.inl ⟨by rw [(hz hc0).1], by rw [← (hz hc0).2]; exact k2⟩
          · exact Or.inr ⟨_, rfl, (hnz hc0).1, by rw [← (hnz hc0).2]; exact k2⟩
  | reset =>
    have X := h.xe.toXN
    have F : WFrame H { H with curMax := 0 } := ⟨Frame.refl _, rfl, rfl, rfl, rfl, rfl, rfl⟩
    refine ⟨{ pg with G := some { H with curMax := 0 }, finishedAll := false, currentVertex := 0 },
      { H with curMax := 0 }, .reset, ?_, fun E => ?_, ⟨⟨rfl, h.py.nv, h.py.pos, ⟨h.py.ok.ok,
        ⟨h.py.ok.l.wt, h.py.ok.l.deg, h.py.ok.l.mcs⟩, h.py.ok.loc⟩, h.py.of, h.py.w, h.py.w0⟩,
      Fit.xe_of h.xe F ⟨X.w, X.sums, X.d, X.mc, num_zero, X.lim⟩, h.nn, h.deg, wreset_mcs h.mcs,
      h.lim, h.ref.trans F, Or.inl ?_⟩, F, fun _ _ _ => rfl, trivial, by simp⟩
    · simp only [WOp.run, PyNW.resetSearch, h.py.g]
    · show (pg.resetSearch >>= _) = _
      unfold PyNW.resetSearch
      rw [h.py.g, ok_bind]
    · refine le_trans (le_of_eq ?_) (le_trans h0 (le_max_left _ _))
      exact val_zero
  | list junk W =>
    obtain ⟨W, hW, rfl⟩ := hin
    obtain ⟨H', cs, a1, a2, a3, a4, a5, a6⟩ := wlistCliques_at (Al := reaching Q Hr) h.xe h.py junk
      W (fun v C hC => ⟨W, hW, by rw [← h.ref.wsum]; exact hC⟩)
    have F := a3.frame
    obtain ⟨c1, c2⟩ := a6 h.deg
    rw [val_fq] at c1 c2
    refine ⟨{ pg with G := some H' }, H', .list (fin W) cs, ?_, fun E => ?_,
      ⟨⟨rfl, h.py.nv, h.py.pos, a3.okAt h.py.ok a2, h.py.of.frame F.frame,
        fun v h1 h2 => by rw [F.w]; exact h.py.w v h1 h2, by rw [F.w]; exact h.py.w0⟩,
        a3.xe h.xe, fun v => by rw [F.w]; exact h.nn v, h.deg.frame F, core_mcs a3 h.mcs,
        fun l hl => ?_, h.ref.trans F, core_honest a3 h.ref h.py.ok.loc h.hon⟩, F, a3.core.low,
      fun W' hW' => ⟨a4, fun l => ?_⟩, by simp⟩
    · show (pg.listCliques junk (fin W) >>= _) = _
      rw [a1, ok_bind]
    · show (pg.listCliques junk (fin W) >>= _) = _
      rw [a1, ok_bind]
    · have : H'.lm = H.lm := by unfold lm; rw [a3.same]
      rw [this]; exact h.lim l hl
    · have : W = W' := by
        have := congrArg val hW'
        rwa [val_fin, val_fin] at this
      subst this
      constructor
      · intro hm
        exact ⟨(a5 l hm).1, (a5 l hm).2, c1 l hm⟩
      · rintro ⟨h1, h2, u, h3, h4, h5⟩
        exact c2 h.nn h.mcs h.lim l u h1 h2 h4 h3 h5

/-- A history. -/
theorem Fit.runs (h0 : 0 ≤ L) : ∀ (ops : List (WOp R)) {pg : PyNW R} {H : NWG R},
    Fit Q L H.g.searchStart pg n S q Hr H → WOk H →
    (∀ op ∈ ops, op.Legal ∧ OpQ S n q op ∧ OpLow L op ∧ OpIn Q op) →
    ∃ pg' H', wruns ops pg = .ok pg' ∧ Fit Q L H'.g.searchStart pg' n S q Hr H' ∧ WOk H' := by
  intro ops
  induction ops with
  | nil => intro pg H h hk _; exact ⟨pg, H, rfl, h, hk⟩
  | cons op ops ih =>
    intro pg H h hk hop
    obtain ⟨o1, o2, o3, o4⟩ := hop op (List.mem_cons_self ..)
    obtain ⟨pg1, H1, _, a1, _, a2, a3, a4, _⟩ := h.call h0 o1 o2 o3 o4
    have hs := a3.frame.searchStart
    obtain ⟨pg2, H2, b1, b2⟩ := ih (pg := pg1) (H := H1) (by rw [hs]; exact a2)
      (a2.py.pyok hk a3.frame a4).ok (fun o ho => hop o (List.mem_cons_of_mem _ ho))
    refine ⟨pg2, H2, ?_, b2⟩
    rw [wruns_cons, a1, ok_bind, b1]

/-- A fresh object. -/
theorem Given2.fit (h : Given2 pg n S q) (hnn : ∀ v, 1 ≤ v → v ≤ n → 0 ≤ q v) (h0 : 0 ≤ L) :
    ∃ H, Fit Q L H.g.searchStart pg n S q H H ∧ WOk H := by
  obtain ⟨H, hF⟩ := h.toGiven.fresh
  refine ⟨H, ⟨hF.pyok.at, h.xe hF.x hF.pyok, nonneg_q hF.pyok hnn, hF.d, fresh_mcs hF hnn,
    fresh_lim hF hnn, WFrame.refl _, Or.inl ?_⟩, hF.pyok.ok⟩
  unfold cm
  rw [hF.cm, val_zero]
  exact le_trans h0 (le_max_left _ _)

/-- The state between two actions of a program that holds one iterator over the cliques of weight
`W` or more.  The iterator uses the scratch space from `b`; `T` are the cliques still to come;
`Hs` is the object when the last call of another kind ended. -/
structure WHeld (Q : Rat → Prop) (L : Rat) (b : Nat) (W : Rat) (pg : PyNW R) (n : Nat)
    (S : SimpleGraph Nat) (q : Nat → Rat) (Hr Hs H : NWG R) (E : WEnum R)
    (T : Finset (List Nat)) : Prop where
  fit : Fit Q L H.g.searchCur pg n S q Hr H
  le : b ≤ H.g.searchCur
  bot : H.g.ebSize < b
  room : ∃ L, (∀ v, v < H.g.nVert → (H.g.rootCand v).card + 1 ≤ L) ∧
    b + 2 * (L + 1) * dlen H.g.maxDeg ≤ H.g.eb.length
  inv : WEInv (reaching Q Hr) b Hs W H E
  honS : WHonestBut Q L Hs
  st : E.states ≠ [] ∨ (H.g.searchCur = b ∧
    ((∃ ws, H.g.maxDeg ≤ ws.length ∧ E = WEnum.new ws (fin W)) ∨
      (E.states = [] ∧ E.cur = H.g.nVert)))
  pend : ∀ r C, WPnd Hs W H E r C → 1 < r ∧ r < Hs.g.nVert ∧ RootW Hs W r C
  rest : ∀ l, l ∈ T ↔ ∃ r C, WPnd Hs W H E r C ∧ Hs.g.listAt r C = l

variable {T : Finset (List Nat)}

theorem WHeld.frame (h : WHeld Q L b W pg n S q Hr Hs H E T) : WFrame Hs H := h.inv.2.1.frame

/-- A call of another kind. -/
theorem WHeld.resume (h : WHeld Q L b W pg n S q Hr Hs H E T) {pg' : PyNW R} {H' : NWG R}
    (ft : Fit Q L H.g.searchCur pg' n S q Hr H') (F : WFrame H H')
    (hlow : ∀ a, 64 * H.g.ebSize ≤ a → a < 64 * H.g.searchCur →
      bitAt H'.g.eb a = bitAt H.g.eb a) :
    ∃ Hs', WHeld Q L b W pg' n S q Hr Hs' H' E T := by
  have py' := ft.py
  have hcur := py'.ok.ok.cur
  have hroom : ∃ L, (∀ v, v < H'.g.nVert → (H'.g.rootCand v).card + 1 ≤ L) ∧
      b + 2 * (L + 1) * dlen H'.g.maxDeg ≤ H'.g.eb.length := by
    obtain ⟨L, h1, h2⟩ := h.room
    refine ⟨L, fun v hv => ?_, by rw [F.frame.maxDeg, F.frame.ebl]; exact h2⟩
    rw [F.frame.rootCand]; exact h1 v (by rw [← F.frame.nVert]; exact hv)
  have key : ∃ Hs', WFrame Hs Hs' ∧ WHonestBut Q L Hs' ∧ WEInv (reaching Q Hr) b Hs' W H' E ∧
      ∀ C, PendW Hs' (par E.cur) H'.g.eb W C E.states ↔
        PendW Hs (par E.cur) H.g.eb W C E.states := by
    by_cases hs : E.states = []
    · refine ⟨H', h.frame.trans F, ft.hon, ?_, ?_⟩
      · rcases h.st with hst | ⟨hst, hst'⟩
        · exact absurd hs hst
        · have hok : WOkAt b H' := by rw [← hst]; exact py'.ok
          rcases hst' with ⟨ws, hw, rfl⟩ | ⟨_, he⟩
          · exact einv_new hok (by rw [py'.of.nv]; have := py'.pos; omega) ws
              (by rw [F.frame.maxDeg]; exact hw) W
          · refine ⟨h.inv.1, WCoreS.refl _ _ _, hok.l, ?_, Or.inr (Or.inl ⟨hs, ?_, hok.ok⟩)⟩
            · rw [F.frame.maxDeg, h.frame.frame.maxDeg]; exact h.inv.2.2.2.1
            · rw [F.frame.nVert]; exact he
      · intro C
        rw [hs]
        simp [PendW]
    · obtain ⟨Hs', m, h1, h2, h3, h4, h5⟩ := h.inv.resume hs py'.ok.ok F hlow
      refine ⟨Hs', h3, ?_, h4, h5⟩
      have e : sw Hs' = sw H' := by
        unfold sw
        rw [weight_wstored, weight_wstored, h1]
        show H'.wsum H'.curLoc (bset m (H'.g.vb H'.curLoc)) = _
        rw [h2 _ py'.ok.loc]
      have := ft.hon
      unfold WHonestBut at this ⊢
      rw [e, h1]; exact this
  obtain ⟨Hs', FS, c0, c1, c2⟩ := key
  have hm1 : ∀ r, Hs.mq r = H.mq r := fun r => by unfold mq; rw [h.inv.2.1.mc]
  have hm2 : ∀ r, Hs'.mq r = H'.mq r := fun r => by unfold mq; rw [c1.2.1.mc]
  have hP : ∀ r C, WPnd Hs' W H' E r C ↔ WPnd Hs W H E r C := by
    intro r C
    unfold WPnd
    rw [c2 C, FS.frame.nVert, FS.rootW]
    refine or_congr_right (and_congr_right fun d1 => and_congr_right fun d2 => ?_)
    constructor
    · rintro ⟨_, d4⟩
      refine ⟨?_, d4⟩
      rw [hm1]
      exact h.fit.mcs_ge (by rw [h.frame.frame.nVert]; exact d2) (by omega)
        ((h.frame.rootW W r C).2 d4)
    · rintro ⟨_, d4⟩
      refine ⟨?_, d4⟩
      rw [hm2]
      exact ft.mcs_ge (by rw [F.frame.nVert, h.frame.frame.nVert]; exact d2) (by omega)
        (((h.frame.trans F).rootW W r C).2 d4)
  refine ⟨Hs', by rw [hcur]; exact ft, by rw [hcur]; exact h.le,
    by rw [F.frame.ebSize]; exact h.bot, hroom, c1, c0, ?_, fun r C hp => ?_, fun l => ?_⟩
  · rw [hcur, F.frame.nVert, F.frame.maxDeg]; exact h.st
  · rw [FS.frame.nVert, FS.rootW]
    exact h.pend r C ((hP r C).1 hp)
  · rw [h.rest]
    simp only [hP, listAt_frame FS.frame]

/-- `next(it)` -/
theorem WHeld.next (h : WHeld Q L b W pg n S q Hr Hs H E T) (hQ : Q W) :
    ∃ pg' H' E' c T', pg.nextClique E = .ok (pg', E', c) ∧
      WHeld Q L b W pg' n S q Hr Hs H' E' T' ∧
      ((∃ l, c = some l ∧ l ∈ T ∧ T' = T.erase l) ∨ (c = none ∧ T = ∅ ∧ T' = ∅)) := by
  have py := h.fit.py
  have hnv : Hs.g.nVert = pg.nvert + 1 := by
    rw [← h.frame.frame.nVert, py.of.nv, py.nv]
  have FR : WFrame Hr Hs := h.fit.ref.trans h.frame.symm
  have xs : XE Hs := by
    have F := h.frame.symm
    refine Fit.xe_of h.fit.xe F (h.fit.xe.toXN.of_frame F (fun v hv => ?_) ?_ ?_)
    · rw [← h.inv.2.1.mc]; exact h.fit.xe.toXN.mc v hv
    · have := h.fit.xe.toXN.cm; rw [h.inv.2.1.same] at this; exact this
    · have := h.fit.xe.toXN.lim; rw [h.inv.2.1.same] at this; exact this
  have hnn : ∀ v, 0 ≤ val (Hs.w v) := fun v => by rw [← h.frame.w]; exact h.fit.nn v
  obtain ⟨H', E', a1, a2⟩ := wnextClique_spec xs
    (fun v C hC => ⟨W, hQ, by rw [← FR.wsum]; exact hC⟩) py.g hnv h.inv
  have F : WFrame H H' := h.frame.symm.trans a1.2.1.frame
  have hcl : H'.curLoc = H.curLoc := by rw [a1.2.1.same, h.inv.2.1.same]
  have hlc : Hs.curLoc < Hs.g.nVert := by
    have := py.ok.loc
    rw [h.frame.frame.nVert, h.inv.2.1.same] at this
    exact this
  have hmc : ∀ v, H'.mc v = H.mc v := fun v => by rw [a1.2.1.mc, h.inv.2.1.mc]
  have hlm : H'.lm = H.lm := by unfold lm; rw [a1.2.1.same, h.inv.2.1.same]
  have xh : XE H' := a1.2.1.xe xs
  have step : ∀ {T' : Finset (List Nat)}, OkAt H'.g.searchCur H'.g → b ≤ H'.g.searchCur →
      (E'.states ≠ [] ∨ (H'.g.searchCur = b ∧
        ((∃ ws, H'.g.maxDeg ≤ ws.length ∧ E' = WEnum.new ws (fin W)) ∨
          (E'.states = [] ∧ E'.cur = H'.g.nVert)))) →
      (∀ r C, WPnd Hs W H' E' r C → 1 < r ∧ r < Hs.g.nVert ∧ RootW Hs W r C) →
      (∀ l, l ∈ T' ↔ ∃ r C, WPnd Hs W H' E' r C ∧ Hs.g.listAt r C = l) →
      WHeld Q L b W { pg with G := some H' } n S q Hr Hs H' E' T' := by
    intro T' ok' le' st' pe' re'
    refine ⟨⟨⟨rfl, py.nv, py.pos, ⟨ok', F.lens py.ok.l, ?_⟩, py.of.frame F.frame,
      fun v h1 h2 => by rw [F.w]; exact py.w v h1 h2, by rw [F.w]; exact py.w0⟩, xh,
      fun v => by rw [F.w]; exact h.fit.nn v, h.fit.deg.frame F, ?_, ?_, h.fit.ref.trans F,
      core_honest a1.2.1 FR hlc h.honS⟩, le', by rw [F.frame.ebSize]; exact h.bot, ?_, a1, h.honS,
      st', pe', re'⟩
    · rw [hcl, F.frame.nVert]; exact py.ok.loc
    · intro v hv C hC h2
      rw [F.frame.nVert] at hv
      have := h.fit.mcs v hv C ((F.rooted v C).1 hC) h2
      unfold mq at this ⊢
      rw [F.wsum, hmc, hlm]; exact this
    · intro l hl
      rw [hlm]; exact h.fit.lim l hl
    · obtain ⟨L, h1, h2⟩ := h.room
      refine ⟨L, fun v hv => ?_, by rw [F.frame.maxDeg, F.frame.ebl]; exact h2⟩
      rw [F.frame.rootCand]; exact h1 v (by rw [← F.frame.nVert]; exact hv)
  rcases a2 with ⟨v, C, b1, b2, b3, b4, b5⟩ | ⟨b1, b2, b3, b4, b5⟩
  · have hroom : ∃ L, (∀ v, v < Hs.g.nVert → (Hs.g.rootCand v).card + 1 ≤ L) ∧
        b + 2 * (L + 1) * dlen Hs.g.maxDeg ≤ Hs.g.eb.length := by
      obtain ⟨L, h1, h2⟩ := h.room
      have F := h.frame.frame
      refine ⟨L, fun v hv => ?_, by rw [← F.maxDeg, ← F.ebl]; exact h2⟩
      rw [← F.rootCand]; exact h1 v (by rw [F.nVert]; exact hv)
    obtain ⟨p1, p2⟩ := a1.paused b4 b5 hroom
    have wfs : WF Hs.g := h.frame.symm.frame.wf py.ok.ok.wf
    refine ⟨_, H', E', _, T.erase (Hs.g.listAt v C), b1, step p1 p2 (Or.inl b4)
      (fun r D hp => h.pend r D (b3.1 r D hp).1) (fun l => ?_),
      Or.inl ⟨_, rfl, (h.rest _).2 ⟨v, C, b2, rfl⟩, rfl⟩⟩
    rw [Finset.mem_erase, h.rest]
    constructor
    · rintro ⟨hne, r, D, hp, rfl⟩
      refine ⟨r, D, b3.2 hnn r D ⟨hp, ?_⟩, rfl⟩
      rintro ⟨rfl, rfl⟩
      exact hne rfl
    · rintro ⟨r, D, hp, rfl⟩
      obtain ⟨hp1, hp2⟩ := b3.1 r D hp
      refine ⟨fun he => hp2 ?_, r, D, hp1, rfl⟩
      obtain ⟨_, d1, d2⟩ := h.pend r D hp1
      obtain ⟨_, d3, d4⟩ := h.pend v C b2
      exact wlistAt_inj xs.toXN wfs wfs.str d1 d3 d2.1 d4.1 he
  · have hT0 : T = ∅ := by
      rw [Finset.eq_empty_iff_forall_notMem]
      intro l hl
      obtain ⟨r, C, hp, _⟩ := (h.rest l).1 hl
      exact b5 hnn r C hp
    have hno : ∀ r C, ¬ WPnd Hs W H' E' r C := by
      intro r C hp
      unfold WPnd at hp
      rw [b4] at hp
      simp only [PendW, and_false, false_or] at hp
      omega
    refine ⟨_, H', E', _, ∅, b1, step (by rw [b2.cur]; exact b2) (Nat.le_of_eq b2.cur.symm)
      (Or.inr ⟨b2.cur, Or.inr ⟨b4, by rw [b3, a1.2.1.frame.frame.nVert]⟩⟩)
      (fun r C hp => absurd hp (hno r C)) (fun l => ?_), Or.inr ⟨rfl, hT0, rfl⟩⟩
    simp only [Finset.notMem_empty, false_iff]
    rintro ⟨r, C, hp, _⟩
    exact hno r C hp

/-- `iter(G.all_cliques(W))` -/
theorem WHeld.new (h : Fit Q L H.g.searchStart pg n S q Hr H) (hk : WOk H) (junk : Nat → R)
    (W : Rat) :
    ∃ E T, pg.allCliques junk (fin W) = .ok E ∧
      WHeld Q L H.g.searchStart W pg n S q Hr H H E T ∧ ∀ l, l ∈ T ↔ WWanted S n q W l := by
  classical
  have w := hk.ok.wf
  have hsc := hk.ok.cur
  have hnv := h.py.of.nv
  have X := h.xe.toXN
  obtain ⟨P, h3, _⟩ := wpend_finite w ((List.range H.g.maxDeg).map junk) W
  have hmem : ∀ l, l ∈ (P.filter fun p => WPnd H W H
        (WEnum.new ((List.range H.g.maxDeg).map junk) (fin W)) p.1 p.2).image
        (fun p => H.g.listAt p.1 p.2) ↔
      ∃ r C, WPnd H W H (WEnum.new ((List.range H.g.maxDeg).map junk) (fin W)) r C ∧
        H.g.listAt r C = l := by
    intro l
    rw [Finset.mem_image]
    constructor
    · rintro ⟨⟨r, C⟩, hq, rfl⟩; exact ⟨r, C, (Finset.mem_filter.1 hq).2, rfl⟩
    · rintro ⟨r, C, hq, rfl⟩; exact ⟨(r, C), Finset.mem_filter.2 ⟨h3 r C hq, hq⟩, rfl⟩
  have hfirst : ∀ {r : Nat} {C : Finset Nat}, 1 ≤ r → r < H.g.nVert → WRooted H r C →
      WFirst S n q r (H.g.listAt r C) := by
    intro r C h0 hr hC
    refine ⟨root_mem w.str hr hC.1, ?_⟩
    intro u hu hne
    have hcl := listAt_clique h.py.of w.str hr (by omega) hC.1
    have hur := hcl.range u hu
    have := wrooted_first X w w.str hr hC u hu hne
    rwa [spec_wdegree_at h.py h0 (by omega) (h.deg r (by omega)),
      spec_wdegree_at h.py hur.1 hur.2 (h.deg u hur.2), val_fq] at this
  have hw : ∀ {l : List Nat}, IsCliqueList S n l → ∀ v ∈ l, val (H.w v) = q v :=
    fun hl v hv => by
      rw [h.py.w v (hl.range v hv).1 (hl.range v hv).2]
      exact val_fin _
  refine ⟨WEnum.new ((List.range H.g.maxDeg).map junk) (fin W), _, ?_, ⟨by rw [hsc]; exact h,
    Nat.le_of_eq hsc.symm, w.start, w.arena,
    einv_new h.py.ok (by have := h.py.pos; omega) _ (by simp) W, h.hon,
    Or.inr ⟨hsc, Or.inl ⟨_, by simp, rfl⟩⟩, fun r C hp => ?_, hmem⟩, fun l => ?_⟩
  · unfold PyNW.allCliques
    rw [h.py.loaded]
  · obtain ⟨e1, e2, _, e3⟩ := (new_wpend _ W r C).1 hp
    exact ⟨e1, e2, e3⟩
  · rw [hmem]
    constructor
    · rintro ⟨r, C, hp, rfl⟩
      obtain ⟨e1, e2, _, e3⟩ := (new_wpend _ W r C).1 hp
      have hcl := listAt_clique h.py.of w.str e2 (by omega) e3.1.1
      obtain ⟨f1, f2⟩ := (rootW_list w.str e2 e3.1).1 e3
      have hf := hfirst (by omega) e2 e3.1
      exact ⟨hcl, f1, r, by omega, hf, (reachedLast_congr (hw hcl) hf.1).1 f2⟩
    · rintro ⟨hl, h2, u, hu1, hu, hre⟩
      obtain ⟨r, C, b1, b2, b3, b4, b5, b6, _⟩ := spec_wrooted X w h.py.of w.str hl
        (by rintro rfl; simp at h2)
      have he := wlistAt_eq w.str hl b2 b3 b5
      have hrr := hl.range r b1
      have hf := hfirst hrr.1 b2 b3
      rw [he] at hf
      have hur : u = r := WFirst.unique hu hf
      subst hur
      have hR : RootW H W u C := by
        rw [rootW_list w.str b2 b3, he]
        exact ⟨h2, (reachedLast_congr (hw hl) b1).2 hre⟩
      exact ⟨u, C, (new_wpend _ W u C).2 ⟨by omega, b2, h.mcs_ge b2 (by omega) hR, hR⟩, he⟩

/-- A program that holds one iterator. -/
theorem wacts_spec (h0 : 0 ≤ L) : ∀ (xs : List (WAct R)) {pg : PyNW R} {Hs H : NWG R}
    {E : WEnum R} {T : Finset (List Nat)}, WHeld Q L b W pg n S q Hr Hs H E T →
    (WAct.next ∈ xs → Q W) →
    (∀ op, WAct.call op ∈ xs → op.Legal ∧ OpQ S n q op ∧ OpLow L op ∧ OpIn Q op) →
    ∃ (pg' : PyNW R) (E' : WEnum R) (ss : List (WSeen R)) (cs : List (List Nat)),
      wacts xs pg E = .ok (pg', E', ss) ∧ cs.Nodup ∧ (∀ l, l ∈ cs ↔ l ∈ T) ∧
      WSeen.answers ss = (cs.map some ++ List.replicate (xs.countP WAct.isNext) none).take
        (xs.countP WAct.isNext) ∧
      ∀ s ∈ ss, WSeenQ Q L S n q s := by
  intro xs
  induction xs with
  | nil =>
    intro pg Hs H E T h _ _
    exact ⟨pg, E, [], T.toList, rfl, T.nodup_toList, fun l => Finset.mem_toList, by
      simp [WSeen.answers], by simp⟩
  | cons x xs ih =>
    intro pg Hs H E T h hQ hc
    have hc' : ∀ op, WAct.call op ∈ xs → _ := fun op ho => hc op (List.mem_cons_of_mem _ ho)
    have hQ' : WAct.next ∈ xs → Q W := fun ho => hQ (List.mem_cons_of_mem _ ho)
    cases x with
    | next =>
      obtain ⟨pg1, H1, E1, c, T1, a1, a2, a3⟩ := h.next (hQ (List.mem_cons_self ..))
      obtain ⟨pg2, E2, ss, cs, b1, b2, b3, b4, b5⟩ := ih a2 hQ' hc'
      have hrun : wacts (WAct.next :: xs) pg E = .ok (pg2, E2, .next c :: ss) := by
        show ((pg.nextClique E >>= _) >>= _) = _
        rw [a1, ok_bind, ok_bind]
        show (wacts xs pg1 E1 >>= _) = _
        rw [b1, ok_bind]
      have hcnt : (WAct.next :: xs).countP (WAct.isNext (R := R)) =
          xs.countP WAct.isNext + 1 := by
        rw [List.countP_cons]; rfl
      have hseen : ∀ s ∈ WSeen.next c :: ss, WSeenQ Q L S n q s := by
        intro s hs
        rcases List.mem_cons.1 hs with rfl | hs
        · trivial
        · exact b5 s hs
      rcases a3 with ⟨l, rfl, hl, rfl⟩ | ⟨rfl, rfl, rfl⟩
      · refine ⟨pg2, E2, _, l :: cs, hrun, ?_, ?_, ?_, hseen⟩
        · rw [List.nodup_cons]
          exact ⟨fun hm => by simpa using (b3 l).1 hm, b2⟩
        · intro l'
          rw [List.mem_cons, b3, Finset.mem_erase]
          constructor
          · rintro (rfl | h)
            · exact hl
            · exact h.2
          · intro hl'
            by_cases he : l' = l
            · exact Or.inl he
            · exact Or.inr ⟨he, hl'⟩
        · rw [hcnt]
          show some l :: WSeen.answers ss = _
          rw [b4]
          simp only [List.map_cons, List.cons_append, List.take_succ_cons]
          congr 1
          rw [List.take_append, List.take_append]
          congr 1
          rw [List.take_replicate, List.take_replicate]
          congr 1
          omega
      · have hcs : cs = [] := by
          rw [List.eq_nil_iff_forall_not_mem]
          intro l hl
          simpa using (b3 l).1 hl
        subst hcs
        refine ⟨pg2, E2, _, [], hrun, b2, b3, ?_, hseen⟩
        rw [hcnt]
        show none :: WSeen.answers ss = _
        rw [b4]
        simp [List.replicate_succ]
    | call op =>
      obtain ⟨h1, h2, h3, h4⟩ := hc op (List.mem_cons_self ..)
      obtain ⟨pg1, H1, s, _, a1, a2, a3, a4, a5, a6⟩ := h.fit.call h0 h1 h2 h3 h4
      obtain ⟨Hs1, a7⟩ := h.resume a2 a3 a4
      obtain ⟨pg2, E2, ss, cs, b1, b2, b3, b4, b5⟩ := ih a7 hQ' hc'
      have hcnt : (WAct.call op :: xs).countP (WAct.isNext (R := R)) =
          xs.countP WAct.isNext := by
        rw [List.countP_cons]; rfl
      refine ⟨pg2, E2, s :: ss, cs, ?_, b2, b3, ?_, ?_⟩
      · show ((WAct.call op).run pg E >>= _) = _
        rw [a1, ok_bind]
        show (wacts xs pg1 E >>= _) = _
        rw [b1, ok_bind]
      · rw [hcnt, ← b4]
        cases s with
        | next c => exact absurd rfl (a6 c)
        | found a r => rfl
        | reset => rfl
        | list W cs => rfl
      · intro s' hs
        rcases List.mem_cons.1 hs with rfl | hs
        · exact a5
        · exact b5 s' hs

theorem OpLow.mono {L' : Rat} {op : WOp R} (hx : OpQ S n q op) (h : OpLow L op) (hL : L ≤ L') :
    OpLow L' op := by
  cases op with
  | search srt junk a =>
    rcases lt_or_eq_of_le hL with h1 | rfl
    · exact low_le hx.1 h h1
    · exact h
  | list _ _ => trivial
  | reset => trivial

/-- Some number is above all lower bounds. -/
theorem exists_low : ∀ (ops : List (WOp R)), (∀ op ∈ ops, OpQ S n q op) →
    ∃ L, 0 ≤ L ∧ ∀ op ∈ ops, OpLow L op := by
  intro ops
  induction ops with
  | nil => intro _; exact ⟨0, le_rfl, by simp⟩
  | cons op ops ih =>
    intro h
    obtain ⟨L, h1, h2⟩ := ih (fun o ho => h o (List.mem_cons_of_mem _ ho))
    have : ∃ L', OpLow L' op := by
      have := h op (List.mem_cons_self ..)
      cases op with
      | search srt junk a =>
        rcases this.1 with h3 | h3
        · refine ⟨val a.lowerBound, ?_⟩
          show ¬ _
          intro h4
          rw [h3, ExactNum.lt, val_fin] at h4
          exact absurd h4 (lt_irrefl _)
        · exact ⟨0, h3 0⟩
      | list _ _ => exact ⟨0, trivial⟩
      | reset => exact ⟨0, trivial⟩
    obtain ⟨L', h3⟩ := this
    refine ⟨max L L', le_trans h1 (le_max_left _ _), fun o ho => ?_⟩
    have hq := h o ho
    rcases List.mem_cons.1 ho with rfl | ho
    · exact h3.mono hq (le_max_right _ _)
    · exact (h2 o ho).mono hq (le_max_left _ _)

/-- The thresholds are numbers. -/
def OpFin : WOp R → Prop
  | .list _ W => ∃ W', W = fin W'
  | _ => True

/-- The complete calls among actions. -/
def calls : List (WAct R) → List (WOp R)
  | [] => []
  | .next :: xs => calls xs
  | .call op :: xs => op :: calls xs

theorem mem_calls {op : WOp R} : ∀ {xs : List (WAct R)}, op ∈ calls xs ↔ WAct.call op ∈ xs := by
  intro xs
  induction xs with
  | nil => simp [calls]
  | cons x xs ih => cases x <;> simp [calls, ih]

/-- A program that holds one iterator after a history. -/
theorem nested (h : Given2 pg n S q) (hnn : ∀ v, 1 ≤ v → v ≤ n → 0 ≤ q v) {ops : List (WOp R)}
    (hl : ∀ op ∈ ops, op.Legal ∧ OpQ S n q op ∧ OpFin op) (junk : Nat → R) (W : Rat)
    {xs : List (WAct R)}
    (hx : ∀ op, WAct.call op ∈ xs → op.Legal ∧ OpQ S n q op ∧ OpFin op) :
    ∃ (pg1 : PyNW R) (E : WEnum R) (pg2 : PyNW R) (E2 : WEnum R) (seen : List (WSeen R))
      (cs : List (List Nat)), wruns ops pg = .ok pg1 ∧ pg1.allCliques junk (fin W) = .ok E ∧
      wacts xs pg1 E = .ok (pg2, E2, seen) ∧
      WSeen.answers seen = (cs.map some ++ List.replicate (xs.countP WAct.isNext) none).take
        (xs.countP WAct.isNext) ∧
      cs.Nodup ∧ (∀ l, l ∈ cs ↔ WWanted S n q W l) ∧
      ∀ (L : Rat) (Q : Rat → Prop), 0 ≤ L → Q W →
        (∀ W' junk, WOp.list junk (fin W') ∈ ops ∨ WAct.call (.list junk (fin W')) ∈ xs → Q W') →
        (∀ op, op ∈ ops ∨ WAct.call op ∈ xs → OpLow L op) → ∀ s ∈ seen, WSeenQ Q L S n q s := by
  have run : ∀ (L : Rat) (Q : Rat → Prop), 0 ≤ L → Q W →
      (∀ W' junk, WOp.list junk (fin W') ∈ ops ∨ WAct.call (.list junk (fin W')) ∈ xs → Q W') →
      (∀ op, op ∈ ops ∨ WAct.call op ∈ xs → OpLow L op) →
      ∃ (pg1 : PyNW R) (E : WEnum R) (pg2 : PyNW R) (E2 : WEnum R) (seen : List (WSeen R))
      (cs : List (List Nat)), wruns ops pg = .ok pg1 ∧ pg1.allCliques junk (fin W) = .ok E ∧
      wacts xs pg1 E = .ok (pg2, E2, seen) ∧
      WSeen.answers seen = (cs.map some ++ List.replicate (xs.countP WAct.isNext) none).take
        (xs.countP WAct.isNext) ∧
      cs.Nodup ∧ (∀ l, l ∈ cs ↔ WWanted S n q W l) ∧ ∀ s ∈ seen, WSeenQ Q L S n q s := by
    intro L Q h0 hW hQ hL
    have hin : ∀ op, op ∈ ops ∨ WAct.call op ∈ xs → OpFin op → OpIn Q op := by
      intro op ho hf
      cases op with
      | search _ _ _ => trivial
      | reset => trivial
      | list junk w =>
        obtain ⟨W', rfl⟩ := hf
        exact ⟨W', hQ W' junk ho, rfl⟩
    obtain ⟨H, f1, f2⟩ := h.fit (Q := Q) (L := L) hnn h0
    obtain ⟨pg1, H1, a1, a2, a3⟩ := Fit.runs h0 ops f1 f2
      (fun op ho => ⟨(hl op ho).1, (hl op ho).2.1, hL op (Or.inl ho),
        hin op (Or.inl ho) (hl op ho).2.2⟩)
    obtain ⟨E, T, b1, b2, b3⟩ := WHeld.new a2 a3 junk W
    obtain ⟨pg2, E2, ss, cs, c1, c2, c3, c4, c5⟩ := wacts_spec h0 xs b2 (fun _ => hW)
      (fun op ho => ⟨(hx op ho).1, (hx op ho).2.1, hL op (Or.inr ho),
        hin op (Or.inr ho) (hx op ho).2.2⟩)
    exact ⟨pg1, E, pg2, E2, ss, cs, a1, b1, c1, c4, c2, fun l => by rw [c3, b3], c5⟩
  obtain ⟨L, l1, l2⟩ := exists_low (ops ++ calls xs) (S := S) (n := n) (q := q) (by
    intro op ho
    rcases List.mem_append.1 ho with ho | ho
    · exact (hl op ho).2.1
    · exact (hx op (mem_calls.1 ho)).2.1)
  obtain ⟨pg1, E, pg2, E2, ss, cs, c1, c2, c3, c4, c5, c6, _⟩ := run L (fun _ => True) l1 trivial
    (fun _ _ _ => trivial) (by
      intro op ho
      refine l2 op (List.mem_append.2 ?_)
      rwa [mem_calls])
  refine ⟨pg1, E, pg2, E2, ss, cs, c1, c2, c3, c4, c5, c6, fun L Q h0 hW hQ hL => ?_⟩
  obtain ⟨pg1', E', pg2', E2', ss', cs', d1, d2, d3, _, _, _, d7⟩ := run L Q h0 hW hQ hL
  rw [c1] at d1
  injection d1 with d1
  subst d1
  rw [c2] at d2
  injection d2 with d2
  subst d2
  rw [c3] at d3
  injection d3 with d3
  injection d3 with d3 d4
  injection d4 with d4 d5
  subst d5
  exact d7

/-- A search after a history. -/
theorem search_after (h : Given2 pg n S q) (hnn : ∀ v, 1 ≤ v → v ≤ n → 0 ≤ q v)
    {ops : List (WOp R)} (hl : ∀ op ∈ ops, op.Legal ∧ OpQ S n q op ∧ OpFin op) (h0 : 0 ≤ L)
    (hL : ∀ op ∈ ops, OpLow L op) {srt : List (WData R) → List (WData R)}
    (hsrt : ∀ l, (srt l).Perm l) (junk : Nat → R) {a : PyNW.Args R}
    (ha : OpQ S n q (.search srt junk a)) (haL : OpLow L (.search srt junk a))
    (hd : a.useDfs = true)
    (hW : ∀ W junk, WOp.list junk (fin W) ∈ ops → 0 < W ∧ ¬ (fin W : R) < a.lowerBound)
    (hex : ∃ l, IsCliqueList S n l ∧ 2 ≤ l.length ∧ L < weight q l) :
    ∃ pg1 pg2 l, wruns ops pg = .ok pg1 ∧ pg1.getMaxClique srt junk a = .ok (pg2, .ret l) ∧
      IsCliqueList S n l ∧
      ((∀ l', IsCliqueList S n l' → 2 ≤ l'.length → weight q l' ≤ weight q l) ∨
        ∃ W junk, WOp.list junk (fin W) ∈ ops ∧ W ≤ weight q l) := by
  let Q : Rat → Prop := fun W => ∃ junk, WOp.list junk (fin W) ∈ ops
  obtain ⟨H, f1, f2⟩ := h.fit (Q := Q) (L := L) hnn h0
  obtain ⟨pg1, H1, a1, a2, a3⟩ := Fit.runs h0 ops f1 f2
    (fun op ho => ⟨(hl op ho).1, (hl op ho).2.1, hL op ho, by
      have := (hl op ho).2.2
      cases op with
      | search _ _ _ => trivial
      | reset => trivial
      | list junk w =>
        obtain ⟨W', rfl⟩ := this
        exact ⟨W', ⟨junk, ho⟩, rfl⟩⟩)
  obtain ⟨pg2, H2, s, b0, b1, b2, _, _, b3, _⟩ := a2.call h0 (op := .search srt junk a) hsrt ha haL
    trivial
  have hb := b1 (WEnum.new [] 0)
  obtain ⟨⟨pg3, r⟩, c1, c2⟩ := bind_eq_ok.1 (show (pg1.getMaxClique srt junk a >>= fun x =>
    (.ok (x.1, WEnum.new [] 0, .found a x.2) : CM.M (PyNW R × WEnum R × WSeen R))) = _ from hb)
  injection c2 with c2
  injection c2 with c2 c3
  injection c3 with c3 c4
  subst c4
  obtain ⟨_, b5⟩ := b3
  have b6 := b5 hd
  by_cases hc : ∃ l', IsCliqueList S n l' ∧ 2 ≤ l'.length ∧ L < weight q l' ∧
      ¬ ∃ l, r = .ret l ∧ IsCliqueList S n l ∧ weight q l' ≤ weight q l
  · obtain ⟨l', d1, d2, d3, d4⟩ := hc
    rcases b6 l' d1 d2 d3 with d5 | ⟨W, ⟨j, d5⟩, d6⟩
    · exact absurd d5 d4
    · obtain ⟨e1, e2⟩ := hW W j d5
      rcases d6 with d6 | d6 | ⟨l, rfl, d6, d7⟩
      · exact absurd d6.2 e2
      · exact absurd e1 (not_lt.2 d6.2)
      · exact ⟨pg1, pg3, l, a1, c1, d6, Or.inr ⟨W, j, d5, d7⟩⟩
  · have hall : ∀ l', IsCliqueList S n l' → 2 ≤ l'.length → L < weight q l' →
        ∃ l, r = .ret l ∧ IsCliqueList S n l ∧ weight q l' ≤ weight q l := by
      intro l' d1 d2 d3
      by_contra hn
      exact hc ⟨l', d1, d2, d3, hn⟩
    obtain ⟨l0, d1, d2, d3⟩ := hex
    obtain ⟨l, rfl, d4, d5⟩ := hall l0 d1 d2 d3
    refine ⟨pg1, pg3, l, a1, c1, d4, Or.inl fun l' e1 e2 => ?_⟩
    by_cases e3 : L < weight q l'
    · obtain ⟨l2, e4, _, e5⟩ := hall l' e1 e2 e3
      injection e4 with e4
      subst e4
      exact e5
    · exact le_trans (not_lt.1 e3) (le_trans (le_of_lt d3) d5)

end EX

end CM
