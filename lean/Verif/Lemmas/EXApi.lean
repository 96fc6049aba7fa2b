import Verif.Model.NWHistory
import Verif.Lemmas.NWCtor
import Verif.Lemmas.NWObj
import Verif.Lemmas.NWHeur
import Verif.Lemmas.NWEnumScan
import Verif.Lemmas.AWApi
import Verif.Lemmas.WSpecLemmas
import Verif.Lemmas.Export
import Verif.Lemmas.AllCliques

/-! # The API of weighted graphs whose weights add up exactly -/

namespace CM

namespace EX

open Graph Spec NWG

open ExactNum

set_option linter.unusedSectionVars false

variable {R : Type} [Zero R] [Add R] [Sub R] [NatCast R] [LT R] [LE R] [DecidableLT R]
  [DecidableLE R] [ExactNum R] {H H' : NWG R} {n : Nat} {S : SimpleGraph Nat}

/-! ## Cliques as lists -/

theorem sum_eq {l : List Nat} (hnd : l.Nodup) (f : Nat → Rat) :
    (l.map f).sum = ∑ v ∈ l.toFinset, f v := (List.sum_toFinset f hnd).symm

/-- The weight of a stored clique. -/
theorem weight_cliqueAt (v : Nat) :
    weight (fun u => val (H.w u)) (H.g.cliqueAt v) = H.wsum v (bset H.g.eb (H.g.vb v)) := by
  unfold weight cliqueAt pick
  rw [List.map_map]
  have hnd : ((List.range (H.g.vb v).len).filter fun i =>
      bitAt H.g.eb (64 * (H.g.vb v).off + i)).Nodup := List.Nodup.filter _ List.nodup_range
  rw [sum_eq hnd]
  unfold wsum
  apply Finset.sum_congr
  · ext i
    rw [List.mem_toFinset, List.mem_filter, List.mem_range, mem_bset]
  · intro i _; rfl

/-- The first vertex of a nonempty set in the order (weighted degree, id). -/
theorem exists_wroot (H : NWG R) {C : Finset Nat} (hC : C.Nonempty) :
    ∃ r ∈ C, ∀ u ∈ C, u ≠ r → (u < r ∧ H.dq r < H.dq u) ∨ (r < u ∧ H.dq r ≤ H.dq u) := by
  obtain ⟨r0, h0, hmin⟩ := Finset.exists_min_image C (fun u => H.dq u) hC
  obtain ⟨r, hr, hrm⟩ := Finset.exists_min_image (C.filter fun u => H.dq u = H.dq r0) id
    ⟨r0, Finset.mem_filter.2 ⟨h0, rfl⟩⟩
  rw [Finset.mem_filter] at hr
  refine ⟨r, hr.1, ?_⟩
  intro u hu hne
  have h1 := hmin u hu
  by_cases he : H.dq u = H.dq r0
  · have := hrm u (Finset.mem_filter.2 ⟨hu, he⟩)
    simp only [id] at this
    exact Or.inr ⟨by omega, by rw [hr.2, he]⟩
  · have hlt : H.dq r0 < H.dq u := lt_of_le_of_ne h1 (fun e => he e.symm)
    rcases Nat.lt_or_gt_of_ne hne with h | h
    · exact Or.inl ⟨h, by rw [hr.2]; exact hlt⟩
    · exact Or.inr ⟨h, by rw [hr.2]; exact le_of_lt hlt⟩

/-- Every clique is searched from one root: from its first vertex. -/
theorem clique_wrooted (X : XN H) (wf : WF H.g) (w : Str H.g) {C : Finset Nat} (hC : C.Nonempty)
    (hlt : ∀ u ∈ C, u < H.g.nVert) (hadj : ∀ u ∈ C, ∀ v ∈ C, H.g.nadj u v) :
    ∃ r ∈ C, (∀ u ∈ C, u ≠ r → (u < r ∧ H.dq r < H.dq u) ∨ (r < u ∧ H.dq r ≤ H.dq u)) ∧
      ∃ T, WRooted H r T ∧ T.card = C.card ∧ T.image (H.g.e r) = C ∧
        H.wsum r T = ∑ v ∈ C, val (H.w v) := by
  obtain ⟨r, hr, hmin⟩ := exists_wroot H hC
  have hrn := hlt r hr
  let T := (Finset.range (H.g.V r).N).filter fun i => H.g.e r i ∈ C
  have hinj : ∀ i ∈ T, ∀ j ∈ T, H.g.e r i = H.g.e r j → i = j := by
    intro i hi j hj he
    have hi' := Finset.mem_range.1 (Finset.mem_filter.1 hi).1
    have hj' := Finset.mem_range.1 (Finset.mem_filter.1 hj).1
    rcases Nat.lt_trichotomy i j with h1 | h1 | h1
    · have := w.sorted r hrn i j h1 hj'; omega
    · exact h1
    · have := w.sorted r hrn j i h1 hi'; omega
  have himg : T.image (H.g.e r) = C := by
    ext u
    rw [Finset.mem_image]
    constructor
    · rintro ⟨i, hi, rfl⟩; exact (Finset.mem_filter.1 hi).2
    · intro hu
      obtain ⟨i, hi, he⟩ := hadj r hr u hu
      exact ⟨i, Finset.mem_filter.2 ⟨Finset.mem_range.2 hi, by rw [he]; exact hu⟩, he⟩
  have hcard : T.card = C.card := by
    rw [← himg, Finset.card_image_of_injOn]
    intro i hi j hj he
    exact hinj i hi j hj he
  have hsum : H.wsum r T = ∑ v ∈ C, val (H.w v) := by
    conv_rhs => rw [← himg]
    rw [Finset.sum_image (fun i hi j hj he => hinj i hi j hj he)]
    rfl
  refine ⟨r, hr, hmin, T, ⟨⟨?_, ?_, ?_⟩, ?_⟩, hcard, himg, hsum⟩
  · exact Finset.mem_filter.2 ⟨Finset.mem_range.2 (w.spos r hrn), by rw [w.self r hrn]; exact hr⟩
  · intro i hi; exact Finset.mem_range.1 (Finset.mem_filter.1 hi).1
  · intro i hi j hj
    exact hadj _ (Finset.mem_filter.1 hi).2 _ (Finset.mem_filter.1 hj).2
  · intro i hi hne
    have hi' := Finset.mem_range.1 (Finset.mem_filter.1 hi).1
    have hC' := (Finset.mem_filter.1 hi).2
    rw [mem_wCand X wf hrn]
    refine ⟨hi', ?_⟩
    rcases Nat.lt_or_gt_of_ne hne with h | h
    · left
      have hlt' := w.sorted r hrn i _ h (w.spos r hrn)
      rw [w.self r hrn] at hlt'
      rcases hmin _ hC' (by omega) with h1 | h1
      · exact ⟨h, h1.2⟩
      · omega
    · right
      have hlt' := w.sorted r hrn _ i h hi'
      rw [w.self r hrn] at hlt'
      rcases hmin _ hC' (by omega) with h1 | h1
      · omega
      · exact ⟨h, h1.2⟩

/-- A clique of the specified graph, as a rooted set of positions. -/
theorem spec_wrooted (X : XN H) (wf : WF H.g) (hO : Of H.g n S) (w : Str H.g) {l : List Nat}
    (hl : IsCliqueList S n l) (hne : l ≠ []) :
    ∃ r T, r ∈ l ∧ r < H.g.nVert ∧ WRooted H r T ∧ T.card = l.length ∧
      T.image (H.g.e r) = l.toFinset ∧ H.wsum r T = weight (fun u => val (H.w u)) l ∧
      ∀ u ∈ l, u ≠ r → (u < r ∧ H.dq r < H.dq u) ∨ (r < u ∧ H.dq r ≤ H.dq u) := by
  have hnd : l.Nodup := hl.increasing.imp (fun h => Nat.ne_of_lt h)
  have hnv := hO.nv
  obtain ⟨r, hr, hmin, T, h1, h2, h3, h4⟩ := clique_wrooted (H := H) X wf w (C := l.toFinset)
    (by
      obtain ⟨x, xs, rfl⟩ := List.exists_cons_of_ne_nil hne
      exact ⟨x, by simp⟩)
    (by
      intro u hu
      have := hl.range u (List.mem_toFinset.1 hu)
      omega)
    (by
      intro u hu v hv
      rw [List.mem_toFinset] at hu hv
      have := hl.range u hu
      rw [hO.adj u v (by omega)]
      by_cases huv : u = v
      · exact Or.inl huv.symm
      · exact Or.inr (hl.clique hu hv huv))
  rw [List.mem_toFinset] at hr
  exact ⟨r, T, hr, by have := hl.range r hr; omega, h1, by
    rw [h2, List.toFinset_card_of_nodup hnd], h3, by rw [h4, weight, sum_eq hnd],
    fun u hu => hmin u (List.mem_toFinset.2 hu)⟩

/-- A freshly built object's bounds are valid. -/
theorem mcsOk_of_bounds (w : Str H.g) (B : WBounds H) (hnn : ∀ v, 0 ≤ val (H.w v)) : McsOk H := by
  intro v hv T hT _
  left
  unfold mq; rw [B.mcs v hv, val_fin]
  have := wrooted_le hnn hT
  unfold qe we at this
  rwa [w.self v hv] at this

/-- The largest bound is at least the weight of every clique. -/
theorem wbounds_spec (X : XN H) (wf : WF H.g) (hO : Of H.g n S) (w : Str H.g) (B : WBounds H)
    (hnn : ∀ v, 0 ≤ val (H.w v))
    {l : List Nat} (hl : IsCliqueList S n l) : weight (fun u => val (H.w u)) l ≤ H.lm := by
  by_cases hne : l = []
  · subst hne; simpa [weight] using B.nonneg
  obtain ⟨r, T, _, h3, h4, _, _, h6, _⟩ := spec_wrooted X wf hO w hl hne
  rw [← h6]
  have := wrooted_le hnn h4
  unfold qe we at this
  rw [w.self r h3] at this
  exact le_trans this (B.le r h3)

/-- Cliques are no heavier than the record, once the record is best. -/
theorem wbest_spec (X : XN H) (wf : WF H.g) (hO : Of H.g n S) (w : Str H.g) (hb : Best H) {l : List Nat}
    (hl : IsCliqueList S n l) (h2 : 2 ≤ l.length) :
    weight (fun u => val (H.w u)) l ≤ H.cm ∨ H.lm ≤ H.cm := by
  obtain ⟨r, T, _, h3, h4, h5, _, h6, _⟩ := spec_wrooted X wf hO w hl (by rintro rfl; simp at h2)
  rw [← h6]
  exact hb r h3 T h4 (by omega)

/-- Weights added up one by one are their sum. -/
theorem summed_eq {ω : Nat → R} {l : List Nat} (hnd : l.Nodup) (hw : ∀ v ∈ l, Num (ω v))
    (hs : ∀ T ⊆ l.toFinset, Rep R (∑ v ∈ T, val (ω v))) :
    summed ω l = fin (weight (fun u => val (ω u)) l) := by
  have key : ∀ (c : List Nat) (T : Finset Nat), c.Nodup → (∀ v ∈ c, v ∉ T) →
      (∀ v ∈ c, v ∈ l) → T ⊆ l.toFinset →
      c.foldl (fun a v => a + ω v) (fin (∑ v ∈ T, val (ω v)) : R) =
        fin (∑ v ∈ T, val (ω v) + weight (fun u => val (ω u)) c) := by
    intro c
    induction c with
    | nil => intro T _ _ _ _; simp [weight]
    | cons v c ih =>
      intro T h1 h2 h3 h4
      rw [List.nodup_cons] at h1
      have hv : v ∉ T := h2 v (by simp)
      have hsum : ∑ u ∈ insert v T, val (ω u) = ∑ u ∈ T, val (ω u) + val (ω v) := by
        rw [Finset.sum_insert hv, add_comm]
      have hsub : insert v T ⊆ l.toFinset := by
        intro u hu
        rcases Finset.mem_insert.1 hu with rfl | hu
        · exact List.mem_toFinset.2 (h3 _ (by simp))
        · exact h4 hu
      rw [List.foldl_cons, hw v (h3 v (by simp)), ExactNum.add _ _ (by
        rw [← hsum]; exact hs _ hsub), ← hsum, ih _ h1.2 (by
          intro u hu hm
          rcases Finset.mem_insert.1 hm with rfl | hm
          · exact h1.1 hu
          · exact h2 u (by simp [hu]) hm) (fun u hu => h3 u (by simp [hu])) hsub, hsum]
      congr 1
      simp [weight, add_assoc]
  have h := key l ∅ hnd (by simp) (fun _ h => h) (by simp)
  rw [Finset.sum_empty, zero_add, fin_zero] at h
  exact h

theorem cliqueWeight_spec (X : XN H) (l : Lens H) {c : List Nat} (hnd : c.Nodup)
    (hc : ∀ v ∈ c, v < H.g.nVert) :
    H.cliqueWeight c = .ok (fin (weight (fun u => val (H.w u)) c)) := by
  rw [AW.cliqueWeight_spec l hc, summed_eq hnd (fun v hv => X.w v (hc v hv))]
  intro T hT
  exact X.sums T (fun v hv => hc v (List.mem_toFinset.1 (hT hv)))

/-! ## Loaded objects -/

variable {pg : PyNW R} {n : Nat} {S : SimpleGraph Nat} {ω : Nat → R} {H : NWG R}

theorem weight_at {b : Nat} (h : WPyAt b pg n S ω H) {l : List Nat} (hl : IsCliqueList S n l) :
    weight (fun u => val (H.w u)) l = weight (fun u => val (ω u)) l :=
  weight_congr (fun v hv => by rw [h.w v (hl.range v hv).1 (hl.range v hv).2])

theorem pyok_weight (h : WPyOk pg n S ω H) {l : List Nat} (hl : IsCliqueList S n l) :
    weight (fun u => val (H.w u)) l = weight (fun u => val (ω u)) l := weight_at h.at hl

/-- The weight recorded for the stored clique. -/
theorem weight_wstored (H : NWG R) :
    weight (fun u => val (H.w u)) (wstored H) = H.wsum H.curLoc (bset H.g.eb (H.g.vb H.curLoc)) :=
  weight_cliqueAt _

/-- A lower bound that is a number, or that no number is below. -/
def LowOk (x : R) : Prop := Num x ∨ ∀ q : Rat, ¬ (fin q : R) < x

/-- An upper bound that is a number, or that is below no number. -/
def UpOk (x : R) : Prop := Num x ∨ ∀ q : Rat, ¬ x < (fin q : R)

theorem wbounded_xn (X : XN H) {a : PyNW.Args R} (hl : LowOk a.lowerBound)
    (hu : UpOk a.upperBound) : XN (wbounded H a) := by
  refine ⟨X.w, X.sums, X.d, X.mc, ?_, ?_⟩
  · simp only [wbounded]
    rcases hl with hl | hl
    · split
      · exact hl
      · exact X.cm
    · rw [if_neg (by rw [X.cm]; exact hl _)]; exact X.cm
  · simp only [wbounded]
    rcases hu with hu | hu
    · split
      · exact hu
      · exact X.lim
    · rw [if_neg (by rw [X.lim]; exact hu _)]; exact X.lim

theorem wbounded_lm (X : XN H) {a : PyNW.Args R} (hu : UpOk a.upperBound) :
    (wbounded H a).lm ≤ H.lm := by
  unfold lm
  simp only [wbounded]
  split
  · rename_i h
    rcases hu with hu | hu
    · exact le_of_lt ((hu.lt X.lim).1 h)
    · rw [X.lim] at h; exact absurd h (hu _)
  · exact le_refl _

theorem wbounded_lm_ge (X : XN H) {a : PyNW.Args R} (hu : UpOk a.upperBound) {q : Rat}
    (h1 : q ≤ H.lm) (h2 : (fin q : R) ≤ a.upperBound) : q ≤ (wbounded H a).lm := by
  unfold lm
  simp only [wbounded]
  split
  · rename_i h
    rcases hu with hu | hu
    · rw [(num_fin q).le hu, val_fin] at h2
      exact h2
    · rw [X.lim] at h; exact absurd h (hu _)
  · exact h1

theorem wbounded_mcs (X : XN H) (h : McsOk H) {a : PyNW.Args R} (hu : UpOk a.upperBound) :
    McsOk (wbounded H a) := by
  intro v hv T hT h2
  rcases h v hv T hT h2 with h3 | h3
  · exact Or.inl h3
  · exact Or.inr (le_trans (wbounded_lm X hu) h3)

/-- What one call does. -/
theorem wsearch_at {b : Nat} (X : XN H) (h : WPyAt b pg n S ω H) {srt : List (WData R) → List (WData R)}
    (hsrt : ∀ l, (srt l).Perm l) (junk : Nat → R) (a : PyNW.Args R) (hlb : LowOk a.lowerBound)
    (hub : UpOk a.upperBound) :
    ∃ pg' H', pg.getMaxClique srt junk a =
        .ok (pg', if a.lowerBound > fin (weight (fun u => val (H'.w u)) (wstored H')) then .raise
          else .ret (wstored H')) ∧
      WPyAt b pg' n S ω H' ∧ WFrame H H' ∧
      (∀ x, 64 * H.g.ebSize ≤ x → x < 64 * b → bitAt H'.g.eb x = bitAt H.g.eb x) ∧
      XN H' ∧ H'.limit = (wbounded H a).limit ∧
      pg'.nedges = pg.nedges ∧
      pg'.currentVertex = (if a.useDfs then n + 1 else 0) ∧
      pg'.finishedAll = a.useDfs ∧
      ((H'.curMax = (wbounded H a).curMax ∧ H'.curLoc = H.curLoc ∧
          wstored H' = wstored H) ∨
        weight (fun u => val (H'.w u)) (wstored H') = H'.cm) ∧
      ((∀ v, 0 ≤ val (H.w v)) → McsOk H → McsOk H' ∧ (a.useDfs = true → Best H')) := by
  obtain ⟨H', i, h1, h2, h3, hX, hi, h4⟩ := NWG.findMax_at hsrt junk (wbounded_xn X hlb hub)
    (wbounded_at h.ok a) 0 a.useHeuristic a.useDfs
  have hnv : (wbounded H a).g.nVert = n + 1 := h.of.nv
  have F := (wbounded_frame H a).trans h3.frame
  refine ⟨{
      G := some H'
      finishedAll := decide (i ≥ pg.nvert)
      nvert := pg.nvert
      nedges := pg.nedges
      currentVertex := i }, H', ?_,
      ⟨rfl, h.nv, h.pos, h2, h.of.frame F.frame, fun v h4 h5 => by rw [F.w]; exact h.w v h4 h5,
        by rw [F.w]; exact h.w0⟩, F, h3.low, hX, h3.lim, rfl,
      ?_, ?_, ?_, ?_⟩
  · unfold PyNW.getMaxClique
    simp only
    have hl : PyNW.checkLoaded { pg with currentVertex := 0 } = some H := h.loaded
    rw [hl]
    simp only
    unfold wbounded at h1
    rw [h1, ok_bind]
    simp only
    rw [NWG.getClique_at h2 h2.loc, ok_bind]
    simp only
    rw [cliqueWeight_spec hX h2.l
      ((cliqueAt_sorted h2.ok.wf.str h2.loc).imp (fun h => Nat.ne_of_lt h))
      (cliqueAt_lt_at h2 h2.loc), ok_bind]
    unfold wstored
    split <;> rfl
  · simp only
    rw [hi, hnv]
  · simp only
    rw [hi, hnv, h.nv]
    have := h.pos
    cases a.useDfs with
    | true => simp
    | false => simpa using this
  · rcases h3.best with ⟨b1, b2, b3⟩ | ⟨b1, b2⟩
    · left
      refine ⟨b1, b2, ?_⟩
      unfold wstored
      have hl : H'.curLoc = H.curLoc := b2
      rw [hl, cliqueAt_listAt F.frame, cliqueAt_listAt (Frame.refl H.g)]
      congr 1
      apply bset_congr rfl
      intro j _
      exact b3 _
    · right
      rw [weight_wstored]
      unfold cm
      rw [← b2, val_fin, h3.frame.wsum, h3.frame.frame.vb]
  · intro hnn hm
    exact h4 hnn (wbounded_mcs X hm hub)

theorem wsearch_spec (X : XN H) (h : WPyOk pg n S ω H) {srt : List (WData R) → List (WData R)}
    (hsrt : ∀ l, (srt l).Perm l) (junk : Nat → R) (a : PyNW.Args R) (hlb : LowOk a.lowerBound)
    (hub : UpOk a.upperBound) :
    ∃ pg' H', pg.getMaxClique srt junk a =
        .ok (pg', if a.lowerBound > fin (weight (fun u => val (H'.w u)) (wstored H')) then .raise
          else .ret (wstored H')) ∧
      WPyOk pg' n S ω H' ∧ WFrame H H' ∧ XN H' ∧ H'.limit = (wbounded H a).limit ∧
      pg'.nedges = pg.nedges ∧
      pg'.currentVertex = (if a.useDfs then n + 1 else 0) ∧
      pg'.finishedAll = a.useDfs ∧
      ((H'.curMax = (wbounded H a).curMax ∧ H'.curLoc = H.curLoc ∧
          wstored H' = wstored H) ∨
        weight (fun u => val (H'.w u)) (wstored H') = H'.cm) ∧
      ((∀ v, 0 ≤ val (H.w v)) → McsOk H → McsOk H' ∧ (a.useDfs = true → Best H')) := by
  obtain ⟨pg', H', h1, h2, h3, h4, h5⟩ := wsearch_at X h.at hsrt junk a hlb hub
  exact ⟨pg', H', h1, h2.pyok h.ok h3.frame h4, h3, h5⟩

/-! ## Loading -/

/-- Weights of the vertices 1 to `n` that are numbers, and whose sums are all exact. -/
structure XW (n : Nat) (ω : Nat → R) : Prop where
  num : ∀ v, 1 ≤ v → v ≤ n → Num (ω v)
  sums : ∀ T ⊆ Finset.Icc 1 n, Rep R (∑ v ∈ T, val (ω v))

/-- Two sums can be added as well. -/
structure XW2 (n : Nat) (ω : Nat → R) : Prop extends XW n ω where
  sums2 : ∀ T ⊆ Finset.Icc 1 n, ∀ T' ⊆ Finset.Icc 1 n,
    Rep R (∑ v ∈ T, val (ω v) + ∑ v ∈ T', val (ω v))

theorem sum_erase_zero {f g : Nat → Rat} (h0 : f 0 = 0) (T : Finset Nat)
    (h : ∀ v ∈ T, 1 ≤ v → f v = g v) : ∑ v ∈ T, f v = ∑ v ∈ T.erase 0, g v := by
  rw [← Finset.sum_erase T h0]
  apply Finset.sum_congr rfl
  intro v hv
  rw [Finset.mem_erase] at hv
  exact h v hv.2 (by omega)

theorem sub_erase {n : Nat} {T : Finset Nat} (hT : ∀ v ∈ T, v ≤ n) :
    T.erase 0 ⊆ Finset.Icc 1 n := by
  intro v hv
  rw [Finset.mem_erase] at hv
  rw [Finset.mem_Icc]
  exact ⟨by omega, hT v hv.2⟩

theorem XW.list {wts : List R} (x : XW wts.length (nth wts)) : XL (0 :: wts) := by
  have e : ∀ v, 1 ≤ v → (0 :: wts).getD v 0 = nth wts v := by
    intro v hv
    unfold nth
    obtain ⟨k, rfl⟩ : ∃ k, v = k + 1 := ⟨v - 1, by omega⟩
    simp
  refine ⟨?_, ?_⟩
  · intro v hv
    by_cases h0 : v = 0
    · subst h0; exact num_zero
    · rw [e v (by omega)]
      exact x.num v (by omega) (by simp at hv; omega)
  · intro T hT
    rw [sum_erase_zero (g := fun v => val (nth wts v)) (by exact val_zero) T
      (fun v _ h => by rw [e v h])]
    exact x.sums _ (sub_erase (fun v hv => by have := hT v hv; simp at this; omega))

/-- What a successful load yields. -/
structure WLoadedAs (cap n m : Nat) (S : SimpleGraph Nat) (ω : Nat → R) (pg : PyNW R)
    (H : NWG R) : Prop where
  eq : pg = { G := some H, finishedAll := false, nvert := n, nedges := m, currentVertex := 0 }
  str : Str H.g
  of : Of H.g n S
  l : Lens H
  w : ∀ v, 1 ≤ v → v ≤ n → H.w v = ω v
  w0 : H.w 0 = 0
  d : ∀ v, v ≤ n → H.d v = fin (∑ j ∈ Finset.range (H.g.V v).N, H.qe v j)
  bounds : WBounds H
  cm : H.curMax = 0
  x : XL H.wt
  dang : (∃ u v, S.Adj u v) → (H.g.dangling = false ↔ H.g.need ≤ cap ∨ H.g.need < H.g.el.length)
  ok : (∃ u v, S.Adj u v) → H.g.dangling = false → WOk H
  sing : (∃ u v, S.Adj u v) → ∀ v, v < H.g.nVert → bset H.g.eb (H.g.vb v) = {(H.g.V v).spos}
  sizes : Sizes n H.g

theorem wctor_desc {edges : Edges} (hD : Describes edges n S)
    (hn : n < 2 ^ 31) (hlen : edges.length < 2 ^ 58) (argLR : Bool) (cap : Nat) (wts : List R) :
    n + 1 = wts.length → XL wts → ∃ H, NWG.ctor argLR cap n edges wts = .ok H ∧
      WBuilt cap n edges wts H :=
  NWG.ctor_spec argLR cap hn hlen hD.range
    (fun v hv => (hD.mem v v hv hv).2 (Or.inl rfl))
    (by
      intro u v huv
      have hr := hD.range _ huv
      rw [hD.mem v u hr.2 hr.1]
      rcases (hD.mem u v hr.1 hr.2).1 huv with h | h
      · exact Or.inl h.symm
      · exact Or.inr h.symm)

theorem wloadGraph_spec {edges : Edges} (hD : Describes edges n S)
    (hn : n < 2 ^ 31) (hlen : edges.length < 2 ^ 58) {wts : List R} (hw : wts.length = n)
    (x : XW n (nth wts))
    (argLR : Bool) (cap m : Nat) :
    ∃ pg H, PyNW.loadGraph argLR cap PyNW.new n m edges (0 :: wts) = .ok pg ∧
      WLoadedAs cap n m S (nth wts) pg H := by
  obtain ⟨H, h1, B⟩ := wctor_desc hD hn hlen argLR cap (0 :: wts) (by simp; omega)
    (by subst hw; exact x.list)
  refine ⟨_, H, ?_, rfl, B.g.str, ?_, B.l, ?_, ?_, B.d, B.bounds, B.cm, B.x, ?_, ?_, ?_, B.g.sizes⟩
  · unfold PyNW.loadGraph PyNW.new
    rw [h1, ok_bind]
  · refine ⟨B.g.nv, ?_, hD.rng⟩
    intro u w hu
    rw [B.g.adj u w hu]
    constructor
    · intro h
      rcases (hD.mem u w hu (hD.range _ h).2).1 h with h | h
      · exact Or.inl h.symm
      · exact Or.inr h
    · rintro (h | h)
      · subst h; exact (hD.mem _ _ hu hu).2 (Or.inl rfl)
      · exact (hD.mem u w hu (hD.rng _ _ h).2.2).2 (Or.inr h)
  · intro v h2 h3
    rw [B.w v h3]
    unfold nth
    obtain ⟨k, rfl⟩ : ∃ k, v = k + 1 := ⟨v - 1, by omega⟩
    simp
  · rw [B.w 0 (Nat.zero_le _)]; rfl
  · rintro ⟨u, v, huv⟩
    have hr := hD.rng _ _ huv
    exact B.g.dang ⟨(u, v), (hD.mem u v hr.1.2 hr.2.2).2 (Or.inr huv), huv.ne⟩
  · rintro ⟨u, v, huv⟩ hd
    have hr := hD.rng _ _ huv
    exact ⟨B.g.ok ⟨(u, v), (hD.mem u v hr.1.2 hr.2.2).2 (Or.inr huv), huv.ne⟩ hd, B.l,
      B.bounds.loc⟩
  · rintro ⟨u, v, huv⟩
    have hr := hD.rng _ _ huv
    exact B.g.sing ⟨(u, v), (hD.mem u v hr.1.2 hr.2.2).2 (Or.inr huv), huv.ne⟩

theorem wfromEdgelist_spec (argLR : Bool) (cap : Nat) {rows : List (Nat × Nat)} {wts : List R}
    (hn : n < 2 ^ 31) (hlen : rows.length < 2 ^ 56) (x : XW n (nth wts)) :
    (ValidRows rows n ∧ wts.length = n → ∃ pg H,
      PyNW.fromEdgelist argLR cap rows n wts = .ok pg ∧
      WLoadedAs cap n rows.length (ofPairs rows) (nth wts) pg H) ∧
    (¬ (ValidRows rows n ∧ wts.length = n) →
      PyNW.fromEdgelist argLR cap rows n wts = .error .throw) := by
  unfold PyNW.fromEdgelist
  rw [rows_fold]
  by_cases hw : wts.length = n
  swap
  · rw [if_pos hw]
    exact ⟨fun h => absurd h.2 hw, fun _ => rfl⟩
  rw [if_neg (fun h => h hw)]
  constructor
  · rintro ⟨h, _⟩
    rw [if_pos (show ∀ r ∈ rows, (1 ≤ r.1 ∧ r.1 ≤ n) ∧ (1 ≤ r.2 ∧ r.2 ≤ n) from h), ok_bind]
    simp only
    have hl : (PyGraph.selfLoops n ++ rows.flatMap (fun r => [(r.1, r.2), (r.2, r.1)])).length =
        n + 1 + 2 * rows.length := by
      rw [List.length_append, selfLoops_length, flat_length]
    rw [if_neg (by omega)]
    have := wloadGraph_spec (rows_describe h) hn (by
      rw [hl]
      have : (2 : Nat) ^ 31 + 1 + 2 * 2 ^ 56 < 2 ^ 58 := by decide
      omega) hw x argLR cap (0 + rows.length)
    rw [Nat.zero_add] at this ⊢
    exact this
  · intro h
    have h' : ¬ ValidRows rows n := fun h2 => h ⟨h2, hw⟩
    rw [if_neg (show ¬ ∀ r ∈ rows, (1 ≤ r.1 ∧ r.1 ≤ n) ∧ (1 ≤ r.2 ∧ r.2 ≤ n) from h'),
      error_bind]

theorem wfromMatrix_spec (argLR : Bool) (cap : Nat) {A : Nat → Nat → Bool} {wts : List R}
    (hn : n < 2 ^ 28) (x : XW n (nth wts)) :
    (wts.length = n → ∃ pg H, PyNW.fromMatrix argLR cap n n A wts = .ok pg ∧
      WLoadedAs cap n (offDiag n A / 2) (ofMatrix n A) (nth wts) pg H) ∧
    (wts.length ≠ n → PyNW.fromMatrix argLR cap n n A wts = .error .throw) := by
  unfold PyNW.fromMatrix
  rw [if_neg (by simp)]
  constructor
  · intro hw
    obtain ⟨edges, h1, h2, h3, hD⟩ := matrix_edges (A := A) hn
    rw [if_neg (fun h => h hw), h1, ok_bind]
    simp only
    rw [if_neg h2]
    exact wloadGraph_spec hD (by
      have : (2 : Nat) ^ 28 < 2 ^ 31 := by decide
      omega) h3 hw x argLR cap _
  · intro hw
    rw [if_pos hw]

theorem wloaded_as (h : WLoaded pg n S ω) (x : XW n ω) :
    n < 2 ^ 31 ∧ ∃ cap m H, WLoadedAs cap n m S ω pg H := by
  cases h with
  | @edgelist argLR cap rows n wts pg hn hl he =>
    obtain ⟨h1, h2⟩ := wfromEdgelist_spec argLR cap (rows := rows) (wts := wts) hn hl x
    by_cases hv : ValidRows rows n ∧ wts.length = n
    · obtain ⟨pg', H, h3, h4⟩ := h1 hv
      rw [he] at h3
      cases h3
      exact ⟨hn, cap, _, H, h4⟩
    · rw [h2 hv] at he; cases he
  | @matrix argLR cap n A wts pg hn he =>
    obtain ⟨h1, h2⟩ := wfromMatrix_spec argLR cap (A := A) (wts := wts) hn x
    by_cases hv : wts.length = n
    · obtain ⟨pg', H, h3, h4⟩ := h1 hv
      rw [he] at h3
      cases h3
      exact ⟨by omega, cap, _, H, h4⟩
    · rw [h2 hv] at he; cases he
  | @adjlist argLR cap n m sets wts pg hn hl he =>
    obtain ⟨h1, h2⟩ := AW.wfromAdjList_spec argLR cap (m := m) (sets := sets) (wts := wts) hn hl
    by_cases hv : ValidSets sets n ∧ wts.length = n ∧ entries sets / 2 = m
    · rw [h1 hv] at he; cases he
    · rw [h2 hv] at he; cases he

/-- A usable object: a fresh load together with its invariant. -/
structure WFresh (pg : PyNW R) (n : Nat) (S : SimpleGraph Nat) (ω : Nat → R) (H : NWG R) :
    Prop where
  pyok : WPyOk pg n S ω H
  x : XN H
  bounds : WBounds H
  d : ∀ v, v ≤ n → H.d v = fin (∑ j ∈ Finset.range (H.g.V v).N, H.qe v j)
  cm : H.curMax = 0
  sing : ∀ v, v < H.g.nVert → bset H.g.eb (H.g.vb v) = {(H.g.V v).spos}
  edge : ∃ u v, S.Adj u v
  cv : pg.currentVertex = 0
  fin : pg.finishedAll = false
  small : n < 2 ^ 31

theorem WLoadedAs.xn {cap m : Nat} (h : WLoadedAs cap n m S ω pg H) : XN H := by
  have hnv := h.of.nv
  refine ⟨?_, ?_, ?_, ?_, ?_, h.bounds.num⟩
  · intro v hv; exact h.x.num v (by rw [h.l.wt]; exact hv)
  · intro T hT; exact h.x.sums T (fun v hv => by rw [h.l.wt]; exact hT v hv)
  · intro v hv; exact num_of (h.d v (by omega))
  · intro v hv; exact num_of (h.bounds.mcs v hv)
  · rw [h.cm]; exact num_zero

theorem wusable_fresh (h : WUsable pg n S ω) (x : XW n ω) : ∃ H, WFresh pg n S ω H := by
  obtain ⟨hn, cap, m, H, hL⟩ := wloaded_as h.loaded x
  have hg : pg.G = some H := by rw [hL.eq]
  refine ⟨H, ⟨hg, by rw [hL.eq], ?_, hL.ok h.edge (h.kept H hg), hL.of, hL.w, hL.w0⟩, hL.xn,
    hL.bounds, hL.d, hL.cm, hL.sing h.edge, h.edge, by rw [hL.eq], by rw [hL.eq], hn⟩
  obtain ⟨u, v, huv⟩ := h.edge
  have := (hL.of.rng _ _ huv).1
  omega

/-- Exactness of sums of two sums. -/
theorem xe_of_at {b : Nat} (X : XN H) (h : WPyAt b pg n S ω H) (x : XW2 n ω) : XE H := by
  have hnv := h.of.nv
  refine ⟨X, ?_⟩
  intro T T' hT hT'
  have e : ∀ T : Finset Nat, (∀ v ∈ T, v < H.g.nVert) →
      ∑ v ∈ T, val (H.w v) = ∑ v ∈ T.erase 0, val (ω v) := by
    intro T hT
    apply sum_erase_zero (by rw [h.w0]; exact val_zero)
    intro v hv h1
    rw [h.w v h1 (by have := hT v hv; omega)]
  rw [e T hT, e T' hT']
  exact x.sums2 _ (sub_erase (fun v hv => by have := hT v hv; omega)) _
    (sub_erase (fun v hv => by have := hT' v hv; omega))

theorem xe_of (X : XN H) (h : WPyOk pg n S ω H) (x : XW2 n ω) : XE H := xe_of_at X h.at x

theorem nonneg_at {b : Nat} (h : WPyAt b pg n S ω H) (hnn : ∀ v, 1 ≤ v → v ≤ n → 0 ≤ val (ω v)) :
    ∀ v, 0 ≤ val (H.w v) := by
  intro v
  by_cases h0 : v = 0
  · rw [h0, h.w0, val_zero]
  · by_cases h1 : v ≤ n
    · rw [h.w v (by omega) h1]; exact hnn v (by omega) h1
    · have hl := h.ok.l.wt
      have := h.of.nv
      unfold NWG.w
      rw [List.getD_eq_getElem?_getD, List.getElem?_eq_none (by omega)]
      exact le_of_eq val_zero.symm

theorem pyok_nonneg (h : WPyOk pg n S ω H) (hnn : ∀ v, 1 ≤ v → v ≤ n → 0 ≤ val (ω v)) :
    ∀ v, 0 ≤ val (H.w v) := nonneg_at h.at hnn

/-- The stored clique of a fresh object is one vertex. -/
theorem WFresh.stored (h : WFresh pg n S ω H) : wstored H = [H.curLoc] := by
  have w := h.pyok.ok.ok.wf
  have hloc := h.pyok.ok.loc
  apply sorted_ext
  · exact cliqueAt_sorted w.str hloc
  · simp
  · intro x
    unfold wstored
    rw [mem_cliqueAt, h.sing _ hloc]
    simp only [Finset.mem_singleton, exists_eq_left, List.mem_singleton]
    rw [w.self _ hloc]
    exact eq_comm

end EX

end CM
