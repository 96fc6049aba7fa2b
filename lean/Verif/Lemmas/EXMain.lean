import Verif.Lemmas.EXCalls

/-! # What calls on a weighted graph do if weights add up exactly -/

namespace CM

namespace EX

open Graph Spec NWG

open ExactNum

set_option linter.unusedSectionVars false

variable {R : Type} [Zero R] [Add R] [Sub R] [NatCast R] [LT R] [LE R] [DecidableLT R]
  [DecidableLE R] [ExactNum R]
  {pg : PyNW R} {n : Nat} {S : SimpleGraph Nat} {q : Nat → Rat} {H : NWG R}

/-- The weights are the numbers `q v`. -/
def fq (q : Nat → Rat) : Nat → R := fun v => fin (q v)

theorem val_fq (q : Nat → Rat) : (fun v => val (fq (R := R) q v)) = q := by
  funext v; exact val_fin _

/-- A usable object with weights `q v` whose sums are exact. -/
structure Given (pg : PyNW R) (n : Nat) (S : SimpleGraph Nat) (q : Nat → Rat) : Prop where
  usable : ∃ ω, WUsable pg n S ω ∧ ∀ v, 1 ≤ v → v ≤ n → ω v = fin (q v)
  sums : ∀ T ⊆ Finset.Icc 1 n, Rep R (∑ v ∈ T, q v)

/-- Sums of two sums are exact, too. -/
structure Given2 (pg : PyNW R) (n : Nat) (S : SimpleGraph Nat) (q : Nat → Rat) : Prop
    extends Given pg n S q where
  sums2 : ∀ T ⊆ Finset.Icc 1 n, ∀ T' ⊆ Finset.Icc 1 n, Rep R (∑ v ∈ T, q v + ∑ v ∈ T', q v)

theorem Given.fresh (h : Given pg n S q) : ∃ H, WFresh pg n S (fq q) H := by
  obtain ⟨ω, hu, hω⟩ := h.usable
  have x : XW n ω := by
    refine ⟨fun v h1 h2 => num_of (hω v h1 h2), fun T hT => ?_⟩
    rw [Finset.sum_congr rfl (g := q)]
    · exact h.sums T hT
    · intro v hv
      have := Finset.mem_Icc.1 (hT hv)
      exact val_of (hω v this.1 this.2)
  obtain ⟨H, hF⟩ := wusable_fresh hu x
  have p := hF.pyok
  exact ⟨H, ⟨p.g, p.nv, p.pos, p.ok, p.of, fun v h1 h2 => (p.w v h1 h2).trans (hω v h1 h2), p.w0⟩,
    hF.x, hF.bounds, hF.d, hF.cm, hF.sing, hF.edge, hF.cv, hF.fin, hF.small⟩

theorem Given2.xe (h : Given2 pg n S q) {pg' : PyNW R} {H : NWG R} (X : XN H)
    (hp : WPyOk pg' n S (fq q) H) : XE H := by
  refine xe_of X hp ⟨⟨fun v _ _ => num_fin _, ?_⟩, ?_⟩
  · rw [val_fq]; exact h.sums
  · rw [val_fq]; exact h.sums2

theorem weight_q (h : WPyOk pg n S (fq q) H) {l : List Nat} (hl : IsCliqueList S n l) :
    weight (fun u => val (H.w u)) l = weight q l := by
  rw [pyok_weight h hl, val_fq]

theorem nonneg_q (h : WPyOk pg n S (fq q) H) (hnn : ∀ v, 1 ≤ v → v ≤ n → 0 ≤ q v) :
    ∀ v, 0 ≤ val (H.w v) :=
  pyok_nonneg h (fun v h1 h2 => by unfold fq; rw [val_fin]; exact hnn v h1 h2)

/-- No clique is heavier than the limit. -/
def LimQ (S : SimpleGraph Nat) (n : Nat) (q : Nat → Rat) (H : NWG R) : Prop :=
  ∀ l, IsCliqueList S n l → weight q l ≤ H.lm

theorem limQ : LimQ S n q H ↔ LimOk S n (fq q) H := by
  unfold LimOk; rw [val_fq]; rfl

theorem fresh_mcs (hF : WFresh pg n S (fq q) H) (hnn : ∀ v, 1 ≤ v → v ≤ n → 0 ≤ q v) : McsOk H :=
  mcsOk_of_bounds hF.pyok.ok.ok.wf.str hF.bounds (nonneg_q hF.pyok hnn)

theorem fresh_lim (hF : WFresh pg n S (fq q) H) (hnn : ∀ v, 1 ≤ v → v ≤ n → 0 ≤ q v) :
    LimQ S n q H := by
  intro l hl
  rw [← weight_q hF.pyok hl]
  exact wbounds_spec hF.x hF.pyok.ok.ok.wf hF.pyok.of hF.pyok.ok.ok.wf.str hF.bounds
    (nonneg_q hF.pyok hnn) hl

/-- The condition on the calls of a history. -/
def OpQ (S : SimpleGraph Nat) (n : Nat) (q : Nat → Rat) : WOp R → Prop
  | .search _ _ a => LowOk a.lowerBound ∧ UpOk a.upperBound ∧
      ∀ l, IsCliqueList S n l → (fin (weight q l) : R) ≤ a.upperBound
  | _ => True

theorem OpQ.ok {op : WOp R} (h : OpQ S n q op) : OpOk op := by
  cases op with
  | search _ _ a => exact ⟨h.1, h.2.1⟩
  | list _ _ => trivial
  | reset => trivial

theorem OpQ.exact {op : WOp R} (h : OpQ S n q op) : OpExact S n (fq q) op := by
  cases op with
  | search _ _ a =>
    unfold OpExact
    rw [val_fq]
    exact h.2.2
  | list _ _ => trivial
  | reset => trivial

/-- The weighted degrees are exact sums. -/
def DegOk (n : Nat) (H : NWG R) : Prop :=
  ∀ u, u ≤ n → H.d u = fin (∑ j ∈ Finset.range (H.g.V u).N, H.qe u j)

theorem DegOk.frame {H' : NWG R} (h : DegOk n H) (F : WFrame H H') : DegOk n H' := by
  intro u hu
  rw [F.d, h u hu, F.V]
  congr 1
  apply Finset.sum_congr rfl
  intro j _
  unfold qe
  rw [F.we]

/-- A history on a fresh object. -/
theorem history (h : Given pg n S q) (hnn : ∀ v, 1 ≤ v → v ≤ n → 0 ≤ q v) {ops : List (WOp R)}
    (hl : ∀ op ∈ ops, op.Legal) (hx : ∀ op ∈ ops, OpQ S n q op) :
    ∃ pg1 H1, wruns ops pg = .ok pg1 ∧ WPyOk pg1 n S (fq q) H1 ∧ XN H1 ∧ McsOk H1 ∧
      LimQ S n q H1 ∧ DegOk n H1 := by
  obtain ⟨H, hF⟩ := h.fresh
  obtain ⟨pg1, H1, a1, a2, a3, aX, _, a4⟩ := wruns_spec ops hF.x hF.pyok hl
    (fun op ho => (hx op ho).ok)
  obtain ⟨a5, a6⟩ := a4 (nonneg_q hF.pyok hnn) (fun op ho => (hx op ho).exact) (fresh_mcs hF hnn)
    (limQ.1 (fresh_lim hF hnn))
  exact ⟨pg1, H1, a1, a2, aX, a5, limQ.2 a6, DegOk.frame hF.d a3⟩

/-- The same without a restriction on weights and upper bounds. -/
theorem history' (h : Given pg n S q) {ops : List (WOp R)}
    (hl : ∀ op ∈ ops, op.Legal) (hx : ∀ op ∈ ops, OpOk op) :
    ∃ pg1 H1, wruns ops pg = .ok pg1 ∧ WPyOk pg1 n S (fq q) H1 ∧ XN H1 ∧ DegOk n H1 := by
  obtain ⟨H, hF⟩ := h.fresh
  obtain ⟨pg1, H1, a1, a2, a3, aX, _, a4⟩ := wruns_spec ops hF.x hF.pyok hl hx
  exact ⟨pg1, H1, a1, a2, aX, DegOk.frame hF.d a3⟩

theorem bounded_cm (X : XN H) {a : PyNW.Args R} {lb : Rat} (hlb : a.lowerBound = fin lb) :
    (wbounded H a).cm = max lb H.cm := by
  unfold cm
  simp only [wbounded]
  have hiff : a.lowerBound > H.curMax ↔ val H.curMax < lb := by
    rw [gt_iff_lt, X.cm.lt (num_of hlb), hlb, val_fin]
  split
  · rename_i h
    rw [hlb, val_fin, max_eq_left (le_of_lt (hiff.1 h))]
  · rename_i h
    rw [hiff, not_lt] at h
    rw [max_eq_right h]

/-- A complete search in a state whose bounds are intact: the result is as heavy as every clique
with two vertices or more, or as heavy as the upper bound. -/
theorem wexact (X : XN H) (h : WPyOk pg n S (fq q) H) (hnn : ∀ v, 1 ≤ v → v ≤ n → 0 ≤ q v)
    (hm : McsOk H) (hc : 0 ≤ H.cm)
    {srt : List (WData R) → List (WData R)}
    (hsrt : ∀ l, (srt l).Perm l) (junk : Nat → R) {a : PyNW.Args R} (hd : a.useDfs = true)
    {lb : Rat} (hlb : a.lowerBound = fin lb) (hub : UpOk a.upperBound)
    {f : List Nat → Rat} (hf : ∀ l, IsCliqueList S n l → f l ≤ weight q l)
    (hfu : ∀ l, IsCliqueList S n l → f l ≤ (wbounded H a).lm)
    (hex : ∃ l, IsCliqueList S n l ∧ 2 ≤ l.length ∧ max lb H.cm < f l) :
    ∃ pg' l, pg.getMaxClique srt junk a = .ok (pg', .ret l) ∧ IsCliqueList S n l ∧
      lb < weight q l ∧ pg'.finishedAll = true ∧
      ∀ l', IsCliqueList S n l' → 2 ≤ l'.length → f l' ≤ weight q l := by
  obtain ⟨pg', H', b1, b2, b3, bX, b4, _, _, bf, b5, b6⟩ := wsearch_spec X h hsrt junk a
    (Or.inl (num_of hlb)) hub
  obtain ⟨_, hb⟩ := b6 (nonneg_q h hnn) hm
  have hlm : H'.lm = (wbounded H a).lm := by unfold lm; rw [b4]
  have hbest : ∀ l, IsCliqueList S n l → 2 ≤ l.length → f l ≤ H'.cm := by
    intro l hl h2
    rcases wbest_spec bX b2.ok.ok.wf b2.of b2.ok.ok.wf.str (hb hd) hl h2 with h3 | h3
    · rw [weight_q b2 hl] at h3
      exact le_trans (hf l hl) h3
    · rw [hlm] at h3
      exact le_trans (hfu l hl) h3
  obtain ⟨l0, e1, e2, e3⟩ := hex
  have h0 := lt_of_lt_of_le e3 (hbest l0 e1 e2)
  have hrec : weight (fun u => val (H'.w u)) (wstored H') = H'.cm := by
    rcases b5 with h3 | h3
    · have : H'.cm = max lb H.cm := by
        rw [← bounded_cm X hlb]; unfold cm; rw [h3.1]
      rw [this] at h0; exact absurd h0 (lt_irrefl _)
    · exact h3
  have hloc : H'.curLoc ≠ 0 := by
    intro hz
    rw [wstored_zero b2 hz] at hrec
    simp only [weight, List.map_cons, List.map_nil, List.sum_cons, List.sum_nil, b2.w0,
      add_zero, val_zero] at hrec
    rw [← hrec] at h0
    exact absurd (le_trans hc (le_max_right _ _)) (not_le.2 h0)
  have hcl := wstored_clique b2 hloc
  rw [weight_q b2 hcl] at hrec
  have hlt : lb < H'.cm := lt_of_le_of_lt (le_max_left _ _) h0
  rw [weight_q b2 hcl, hrec, if_neg (by
    rw [hlb, gt_iff_lt, ExactNum.lt]; exact not_lt.2 (le_of_lt hlt))] at b1
  refine ⟨pg', _, b1, hcl, by rw [hrec]; exact hlt, by rw [bf, hd], ?_⟩
  intro l' hl' h2
  rw [hrec]; exact hbest l' hl' h2

/-- The same if no clique is heavier than the upper bound. -/
theorem wexact_all (X : XN H) (h : WPyOk pg n S (fq q) H) (hnn : ∀ v, 1 ≤ v → v ≤ n → 0 ≤ q v)
    (hm : McsOk H) (hlim : LimQ S n q H) (hc : 0 ≤ H.cm)
    {srt : List (WData R) → List (WData R)}
    (hsrt : ∀ l, (srt l).Perm l) (junk : Nat → R) {a : PyNW.Args R} (hd : a.useDfs = true)
    {lb : Rat} (hlb : a.lowerBound = fin lb) (hub : UpOk a.upperBound)
    (hu : ∀ l, IsCliqueList S n l → (fin (weight q l) : R) ≤ a.upperBound)
    (hex : ∃ l, IsCliqueList S n l ∧ 2 ≤ l.length ∧ max lb H.cm < weight q l) :
    ∃ pg' l, pg.getMaxClique srt junk a = .ok (pg', .ret l) ∧ IsCliqueList S n l ∧
      lb < weight q l ∧ pg'.finishedAll = true ∧
      ∀ l', IsCliqueList S n l' → 2 ≤ l'.length → weight q l' ≤ weight q l :=
  wexact X h hnn hm hc hsrt junk hd hlb hub (fun _ _ => le_refl _)
    (fun l hl => wbounded_lm_ge X hub (hlim l hl) (hu l hl)) hex

/-- The exact search on a fresh object. -/
theorem exact_fresh (h : Given pg n S q) (hnn : ∀ v, 1 ≤ v → v ≤ n → 0 ≤ q v)
    {srt : List (WData R) → List (WData R)}
    (hsrt : ∀ l, (srt l).Perm l) (junk : Nat → R) {a : PyNW.Args R} (hd : a.useDfs = true)
    {lb : Rat} (hlb : a.lowerBound = fin lb) (h0 : 0 ≤ lb) (hub : UpOk a.upperBound)
    (hu : ∀ l, IsCliqueList S n l → (fin (weight q l) : R) ≤ a.upperBound)
    (hex : ∃ l, IsCliqueList S n l ∧ 2 ≤ l.length ∧ lb < weight q l) :
    ∃ pg' l, pg.getMaxClique srt junk a = .ok (pg', .ret l) ∧ IsCliqueList S n l ∧
      lb < weight q l ∧ pg'.finishedAll = true ∧
      ∀ l', IsCliqueList S n l' → 2 ≤ l'.length → weight q l' ≤ weight q l := by
  obtain ⟨H, hF⟩ := h.fresh
  have hcm : H.cm = 0 := by unfold cm; rw [hF.cm, val_zero]
  exact wexact_all hF.x hF.pyok hnn (fresh_mcs hF hnn) (fresh_lim hF hnn) (by rw [hcm]) hsrt junk
    hd hlb hub hu (by rw [hcm, max_eq_left h0]; exact hex)

/-- The exact search with an upper bound. -/
theorem exact_upper (h : Given pg n S q) (hnn : ∀ v, 1 ≤ v → v ≤ n → 0 ≤ q v)
    {srt : List (WData R) → List (WData R)}
    (hsrt : ∀ l, (srt l).Perm l) (junk : Nat → R) {a : PyNW.Args R} (hd : a.useDfs = true)
    {lb ub : Rat} (hlb : a.lowerBound = fin lb) (h0 : 0 ≤ lb) (hub : a.upperBound = fin ub)
    (hlu : lb < ub)
    (hex : ∃ l, IsCliqueList S n l ∧ 2 ≤ l.length ∧ lb < weight q l) :
    ∃ pg' l, pg.getMaxClique srt junk a = .ok (pg', .ret l) ∧ IsCliqueList S n l ∧
      lb < weight q l ∧
      ∀ l', IsCliqueList S n l' → 2 ≤ l'.length → min ub (weight q l') ≤ weight q l := by
  obtain ⟨H, hF⟩ := h.fresh
  have hcm : H.cm = 0 := by unfold cm; rw [hF.cm, val_zero]
  have hUp : UpOk a.upperBound := Or.inl (num_of hub)
  obtain ⟨pg', l, a1, a2, a3, _, a4⟩ := wexact hF.x hF.pyok hnn (fresh_mcs hF hnn) (by rw [hcm])
    hsrt junk hd hlb hUp (f := fun l => min ub (weight q l))
    (fun _ _ => min_le_right _ _)
    (fun l hl => wbounded_lm_ge hF.x hUp (le_trans (min_le_right _ _) (fresh_lim hF hnn l hl)) (by
      rw [hub, ExactNum.le]; exact min_le_left _ _))
    (by
      obtain ⟨l, e1, e2, e3⟩ := hex
      exact ⟨l, e1, e2, by rw [hcm, max_eq_left h0]; exact lt_min hlu e3⟩)
  exact ⟨pg', l, a1, a2, a3, a4⟩

/-- The exact search after a history and `reset_search`. -/
theorem exact_reset (h : Given pg n S q) (hnn : ∀ v, 1 ≤ v → v ≤ n → 0 ≤ q v)
    {ops : List (WOp R)} (hl : ∀ op ∈ ops, op.Legal) (hx : ∀ op ∈ ops, OpQ S n q op)
    {srt : List (WData R) → List (WData R)}
    (hsrt : ∀ l, (srt l).Perm l) (junk : Nat → R) {a : PyNW.Args R} (hd : a.useDfs = true)
    {lb : Rat} (hlb : a.lowerBound = fin lb) (h0 : 0 ≤ lb) (hub : UpOk a.upperBound)
    (hu : ∀ l, IsCliqueList S n l → (fin (weight q l) : R) ≤ a.upperBound)
    (hex : ∃ l, IsCliqueList S n l ∧ 2 ≤ l.length ∧ lb < weight q l) :
    ∃ pg1 pg2 pg3 l, wruns ops pg = .ok pg1 ∧ pg1.resetSearch = .ok pg2 ∧
      pg2.getMaxClique srt junk a = .ok (pg3, .ret l) ∧ IsCliqueList S n l ∧ lb < weight q l ∧
      ∀ l', IsCliqueList S n l' → 2 ≤ l'.length → weight q l' ≤ weight q l := by
  obtain ⟨pg1, H1, a1, a2, X1, a3, a4, _⟩ := history h hnn hl hx
  have hP : WPyOk ({ pg1 with
      G := some { H1 with curMax := 0 }, finishedAll := false, currentVertex := 0 } : PyNW R)
      n S (fq q) { H1 with curMax := 0 } :=
    ⟨rfl, a2.nv, a2.pos, ⟨a2.ok.ok, ⟨a2.ok.l.wt, a2.ok.l.deg, a2.ok.l.mcs⟩, a2.ok.loc⟩,
      a2.of, a2.w, a2.w0⟩
  have hcm : NWG.cm { H1 with curMax := 0 } = 0 := by unfold cm; exact val_zero
  have hX : XN { H1 with curMax := 0 } := ⟨X1.w, X1.sums, X1.d, X1.mc, num_zero, X1.lim⟩
  obtain ⟨pg', l, h1, h2, h3, _, h4⟩ := wexact_all hX hP hnn (wreset_mcs a3) a4 (by rw [hcm]) hsrt junk hd hlb hub hu
    (by rw [hcm, max_eq_left h0]; exact hex)
  exact ⟨pg1, _, pg', l, a1, by simp only [PyNW.resetSearch, a2.g], h1, h2, h3, h4⟩

/-- Iterating over heavy cliques after a history. -/
theorem list_sound (h : Given2 pg n S q) {ops : List (WOp R)} (hl : ∀ op ∈ ops, op.Legal)
    (hx : ∀ op ∈ ops, OpOk op) (junk : Nat → R) (W : Rat) :
    ∃ pg1 pg2 cs, wruns ops pg = .ok pg1 ∧ pg1.listCliques junk (fin W) = .ok (pg2, cs) ∧
      cs.Nodup ∧ ∀ l ∈ cs, IsCliqueList S n l ∧ 2 ≤ l.length ∧ W ≤ weight q l := by
  obtain ⟨pg1, H1, a1, a2, X1, aD⟩ := history' h.toGiven hl hx
  obtain ⟨H2, cs, b1, _, _, b2, b3, b4⟩ := wlistCliques_spec (h.xe X1 a2) a2 junk W
  refine ⟨pg1, _, cs, a1, b1, b2, ?_⟩
  intro l hl
  obtain ⟨c1, c2⟩ := b3 l hl
  obtain ⟨u, _, _, c3⟩ := (b4 aD).1 l hl
  rw [val_fq] at c3
  exact ⟨c1, c2, c3.1⟩

theorem list_exactly (h : Given2 pg n S q) (hnn : ∀ v, 1 ≤ v → v ≤ n → 0 ≤ q v)
    {ops : List (WOp R)} (hl : ∀ op ∈ ops, op.Legal) (hx : ∀ op ∈ ops, OpQ S n q op)
    (junk : Nat → R) (W : Rat) :
    ∃ pg1 pg2 cs, wruns ops pg = .ok pg1 ∧ pg1.listCliques junk (fin W) = .ok (pg2, cs) ∧
      cs.Nodup ∧ ∀ l, l ∈ cs ↔ IsCliqueList S n l ∧ 2 ≤ l.length ∧
        ∃ u, u ≠ 1 ∧ WFirst S n q u l ∧ ReachedLast q W u l := by
  obtain ⟨pg1, H1, a1, a2, X1, a5, a6, aD⟩ := history h.toGiven hnn hl hx
  obtain ⟨H2, cs, b1, _, _, b2, b3, b4⟩ := wlistCliques_spec (h.xe X1 a2) a2 junk W
  obtain ⟨b5, b6⟩ := b4 aD
  rw [val_fq] at b5 b6
  refine ⟨pg1, _, cs, a1, b1, b2, ?_⟩
  intro l
  constructor
  · intro hm
    exact ⟨(b3 l hm).1, (b3 l hm).2, b5 l hm⟩
  · rintro ⟨h1, h2, u, h3, h4, h5⟩
    exact b6 (nonneg_q a2 hnn) a5 a6 l u h1 h2 h4 h3 h5

/-- Exact searches after a clique was returned. -/
theorem search_mono (X : XN H) (h : WPyOk pg n S (fq q) H) (hnn : ∀ v, 1 ≤ v → v ≤ n → 0 ≤ q v)
    (hm : McsOk H) (hlim : LimQ S n q H)
    {srt : List (WData R) → List (WData R)} (hsrt : ∀ l, (srt l).Perm l) (junk : Nat → R)
    {a : PyNW.Args R} (hd : a.useDfs = true) (hlb : LowOk a.lowerBound) (hub : UpOk a.upperBound)
    (hu : ∀ l, IsCliqueList S n l → (fin (weight q l) : R) ≤ a.upperBound)
    {l0 : List Nat} (hl0 : IsCliqueList S n l0) (h2 : 2 ≤ l0.length)
    (hs : weight q l0 ≤ weight (fun u => val (H.w u)) (wstored H)) :
    ∃ pg' H', pg.getMaxClique srt junk a = .ok (pg',
        if a.lowerBound > fin (weight (fun u => val (H'.w u)) (wstored H'))
        then .raise else .ret (wstored H')) ∧ WPyOk pg' n S (fq q) H' ∧ XN H' ∧ McsOk H' ∧
      LimQ S n q H' ∧ weight q l0 ≤ weight (fun u => val (H'.w u)) (wstored H') := by
  obtain ⟨pg', H', b1, b2, b3, bX, b4, _, _, _, b5, b6⟩ := wsearch_spec X h hsrt junk a hlb hub
  obtain ⟨b7, hb⟩ := b6 (nonneg_q h hnn) hm
  have hlim' : LimQ S n q H' := by
    intro l hl
    have := wbounded_lm_ge X hub (hlim l hl) (hu l hl)
    unfold lm at this ⊢
    rw [b4]; exact this
  refine ⟨pg', H', b1, b2, bX, b7, hlim', ?_⟩
  rcases b5 with ⟨_, _, b8⟩ | b8
  · have e : weight (fun u => val (H'.w u)) (wstored H) =
        weight (fun u => val (H.w u)) (wstored H) := weight_congr (fun v _ => by rw [b3.w v])
    rw [b8, e]; exact hs
  · rw [b8]
    rcases wbest_spec bX b2.ok.ok.wf b2.of b2.ok.ok.wf.str (hb hd) hl0 h2 with h3 | h3
    · rwa [weight_q b2 hl0] at h3
    · exact le_trans (hlim' l0 hl0) h3

/-- Exact searches with sufficient upper bounds. -/
def SearchQ (S : SimpleGraph Nat) (n : Nat) (q : Nat → Rat) : WOp R → Prop
  | .search srt _ a => (∀ l, (srt l).Perm l) ∧ a.useDfs = true ∧ LowOk a.lowerBound ∧
      UpOk a.upperBound ∧ ∀ l, IsCliqueList S n l → (fin (weight q l) : R) ≤ a.upperBound
  | _ => False

/-- A sequence of exact searches after a clique was returned. -/
theorem searches_mono (hnn : ∀ v, 1 ≤ v → v ≤ n → 0 ≤ q v) {l0 : List Nat}
    (hl0 : IsCliqueList S n l0) (h2 : 2 ≤ l0.length) : ∀ (ops : List (WOp R)),
    (∀ op ∈ ops, SearchQ S n q op) → ∀ {pg : PyNW R} {H : NWG R},
      XN H → WPyOk pg n S (fq q) H → McsOk H → LimQ S n q H →
      weight q l0 ≤ weight (fun u => val (H.w u)) (wstored H) →
      ∃ pg' H', wruns ops pg = .ok pg' ∧ XN H' ∧ WPyOk pg' n S (fq q) H' ∧ McsOk H' ∧
        LimQ S n q H' ∧ weight q l0 ≤ weight (fun u => val (H'.w u)) (wstored H') := by
  intro ops
  induction ops with
  | nil =>
    intro _ pg H kX k1 k2 k3 k4
    exact ⟨pg, H, rfl, kX, k1, k2, k3, k4⟩
  | cons op ops ih =>
    intro hE pg H kX k1 k2 k3 k4
    have hop := hE op (by simp)
    cases op with
    | search srt junk a =>
      obtain ⟨e1, e2, e3, e4, e5⟩ := hop
      obtain ⟨pgX, HX, d1, d2, dX, d3, d4, d5⟩ :=
        search_mono kX k1 hnn k2 k3 e1 junk e2 e3 e4 e5 hl0 h2 k4
      obtain ⟨pg3, H3, f1, f2⟩ := ih (fun o ho => hE o (by simp [ho])) dX d2 d3 d4 d5
      refine ⟨pg3, H3, ?_, f2⟩
      rw [wruns_cons]
      show ((pg.getMaxClique srt junk a >>= _) >>= _) = _
      rw [d1, ok_bind, ok_bind, f1]
    | list _ _ => exact hop.elim
    | reset => exact hop.elim

/-- A search returned a clique; exact searches later return one at least as heavy. -/
theorem repeat_mono (h : Given pg n S q) (hnn : ∀ v, 1 ≤ v → v ≤ n → 0 ≤ q v)
    {ops : List (WOp R)} (hl : ∀ op ∈ ops, op.Legal) (hx : ∀ op ∈ ops, OpQ S n q op)
    {srt1 : List (WData R) → List (WData R)} (hsrt1 : ∀ l, (srt1 l).Perm l) (junk1 : Nat → R)
    {a1 : PyNW.Args R} (hlb1 : LowOk a1.lowerBound) (hub1 : UpOk a1.upperBound)
    (hu1 : ∀ l, IsCliqueList S n l → (fin (weight q l) : R) ≤ a1.upperBound)
    {pg1 pg2 : PyNW R} {l1 : List Nat} (h1 : wruns ops pg = .ok pg1)
    (h2 : pg1.getMaxClique srt1 junk1 a1 = .ok (pg2, .ret l1)) (hlen : 2 ≤ l1.length)
    (hpos : 0 < weight q l1) {ops' : List (WOp R)} (hl' : ∀ op ∈ ops', SearchQ S n q op)
    {srt2 : List (WData R) → List (WData R)} (hsrt2 : ∀ l, (srt2 l).Perm l) (junk2 : Nat → R)
    {a2 : PyNW.Args R} (hd2 : a2.useDfs = true) (hub2 : UpOk a2.upperBound)
    (hu2 : ∀ l, IsCliqueList S n l → (fin (weight q l) : R) ≤ a2.upperBound) {lb : Rat}
    (hlb2 : a2.lowerBound = fin lb) (hlow : lb ≤ weight q l1) :
    ∃ pg3 pg4 l2, wruns ops' pg2 = .ok pg3 ∧
      pg3.getMaxClique srt2 junk2 a2 = .ok (pg4, .ret l2) ∧ IsCliqueList S n l2 ∧
      weight q l1 ≤ weight q l2 := by
  obtain ⟨pg1', H1, a1', b2, bX, b5, b6, _⟩ := history h hnn hl hx
  rw [h1] at a1'
  cases a1'
  obtain ⟨pg2', H2, c1, c2, c3, cX, c4, _, _, _, _, c6⟩ := wsearch_spec bX b2 hsrt1 junk1 a1 hlb1 hub1
  rw [h2] at c1
  injection c1 with c1
  injection c1 with c1 c1'
  subst c1
  obtain ⟨c7, _⟩ := c6 (nonneg_q b2 hnn) b5
  have hlim2 : LimQ S n q H2 := by
    intro l hl
    have := wbounded_lm_ge bX hub1 (b6 l hl) (hu1 l hl)
    unfold lm at this ⊢
    rw [c4]; exact this
  have hst : l1 = wstored H2 := by
    split at c1'
    · cases c1'
    · injection c1'
  have hclq : ∀ {pg' : PyNW R} {H' : NWG R}, WPyOk pg' n S (fq q) H' → wstored H' ≠ [0] →
      IsCliqueList S n (wstored H') := by
    intro pg' H' hp hne
    apply wstored_clique hp
    intro h0
    exact hne (wstored_zero hp h0)
  have hcl1 : IsCliqueList S n l1 := by
    rw [hst]
    apply hclq c2
    intro h0
    rw [hst, h0] at hlen
    simp at hlen
  obtain ⟨pg3, H3, f1, fX, f2, f3, f4, f5⟩ := searches_mono hnn hcl1 hlen ops' hl' cX c2 c7 hlim2 (by
    rw [← hst, weight_q c2 hcl1])
  obtain ⟨pg4, H4, g1, g2, _, _, _, g5⟩ := search_mono fX f2 hnn f3 f4 hsrt2 junk2 hd2
    (Or.inl (num_of hlb2)) hub2 hu2 hcl1 hlen f5
  rw [if_neg (by rw [hlb2, gt_iff_lt, ExactNum.lt]; exact not_lt.2 (le_trans hlow g5))] at g1
  by_cases hz : wstored H4 = [0]
  · rw [hz] at g5
    have hw0 : weight (fun u => val (H4.w u)) [0] = 0 := by simp [weight, g2.w0, val_zero]
    rw [hw0] at g5
    exact absurd hpos (not_lt.2 g5)
  · have hcl := hclq g2 hz
    exact ⟨pg3, pg4, _, f1, g1, hcl, by rw [← weight_q g2 hcl]; exact g5⟩

/-- The weight of a clique, read after a history. -/
theorem clique_weight (h : Given pg n S q) {ops : List (WOp R)}
    (hl : ∀ op ∈ ops, op.Legal) (hx : ∀ op ∈ ops, OpOk op) {l : List Nat} (hnd : l.Nodup)
    (hr : ∀ v ∈ l, 1 ≤ v ∧ v ≤ n) :
    ∃ pg1, wruns ops pg = .ok pg1 ∧ pg1.getCliqueWeight l = .ok (fin (weight q l)) := by
  obtain ⟨pg1, H1, a1, a2, X1, _⟩ := history' h hl hx
  refine ⟨pg1, a1, ?_⟩
  unfold PyNW.getCliqueWeight
  rw [a2.loaded]
  simp only
  rw [cliqueWeight_spec X1 a2.ok.l hnd (by
    intro v hv
    have := hr v hv
    have := a2.of.nv
    omega)]
  congr 2
  apply weight_congr
  intro v hv
  show val (H1.w v) = q v
  rw [a2.w v (hr v hv).1 (hr v hv).2]
  exact val_fin _

end EX

end CM
