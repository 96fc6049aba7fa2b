import Verif.Lemmas.NWEnumBody
import Verif.Lemmas.EXApi

/-! # Iterating over heavy cliques (pyiterator.cpp, pyiterator.h) -/

namespace CM

namespace EX

open Spec Graph NWG

open ExactNum

set_option linter.unusedSectionVars false

variable {R : Type} [Zero R] [Add R] [Sub R] [NatCast R] [LT R] [LE R] [DecidableLT R]
  [DecidableLE R] [ExactNum R] {Al : Nat → Finset Nat → Prop} {b : Nat}

theorem einv_pad {Hs H : NWG R} {E : WEnum R} {W : Rat} (h : WEInv Al b Hs W H E) (hs : E.states ≠ []) :
    WF H.g ∧ ∀ v, v < H.g.nVert → PadZero H.g.eb (H.g.vb v) := by
  obtain ⟨_, hc, _, _, h⟩ := h
  rcases h with ⟨h1, _⟩ | ⟨h1, _⟩ | ⟨_, _, H0, p, ok, hc0, p1, p2, Wg, I, p3, _⟩
  · exact absurd h1 hs
  · exact absurd h1 hs
  · have F := I.upd.frame
    refine ⟨F.wf Wg.g.wf, ?_⟩
    intro v hv
    rw [F.nVert] at hv
    have U := I.upd
    rw [p2] at U
    exact (U.mid ok Wg.g.hr v hv).1

theorem einv_new {Hs : NWG R} (ok : WOkAt b Hs) (h1 : 1 < Hs.g.nVert) (ws : List R)
    (hws : Hs.g.maxDeg ≤ ws.length) (W : Rat) : WEInv Al b Hs W Hs (WEnum.new ws (fin W)) := by
  refine ⟨rfl, WCoreS.refl _ _ _, ok.l, hws, Or.inl ⟨rfl, h1, ?_⟩⟩
  exact pop_nothing_at ok.ok

/-- Everything that is pending for a new enumerator. -/
theorem new_wpend {Hs : NWG R} (ws : List R) (W : Rat) (r : Nat) (C : Finset Nat) :
    WPnd Hs W Hs (WEnum.new ws (fin W)) r C ↔
      (1 < r ∧ r < Hs.g.nVert ∧ W ≤ Hs.mq r ∧ RootW Hs W r C) := by
  unfold WPnd WEnum.new
  simp [PendW]

theorem wpend_finite {Hs : NWG R} (w : WF Hs.g) (ws : List R) (W : Rat) :
    ∃ P : Finset (Nat × Finset Nat), (∀ r C, WPnd Hs W Hs (WEnum.new ws (fin W)) r C → (r, C) ∈ P) ∧
      P.card ≤ Hs.g.nVert * 2 ^ Hs.g.maxDeg := by
  refine ⟨(Finset.range Hs.g.nVert) ×ˢ (Finset.range Hs.g.maxDeg).powerset, ?_, ?_⟩
  · intro r C h
    rw [Finset.mem_product, Finset.mem_range, Finset.mem_powerset]
    obtain ⟨h1, h2, h3, h4⟩ := (new_wpend ws W r C).1 h
    refine ⟨h2, ?_⟩
    intro i hi
    rw [Finset.mem_range]
    exact Nat.lt_of_lt_of_le (h4.1.1.2.1 i hi) (w.maxd r h2)
  · rw [Finset.card_product, Finset.card_powerset, Finset.card_range, Finset.card_range]

/-- One `__next__`. -/
theorem wnextClique_spec {pg : PyNW R} {Hs H : NWG R} {E : WEnum R} {W : Rat} (Xe : XE Hs)
    (hAl : ∀ v C, W ≤ Hs.wsum v C → Al v C) (hg : pg.G = some H) (hnv : Hs.g.nVert = pg.nvert + 1) (h : WEInv Al b Hs W H E) :
    ∃ H' E', WEInv Al b Hs W H' E' ∧
      ((∃ v C, pg.nextClique E = .ok ({ pg with G := some H' }, E', some (Hs.g.listAt v C)) ∧
          WPnd Hs W H E v C ∧
          Shr Hs (WPnd Hs W H' E') (fun r D => WPnd Hs W H E r D ∧ ¬ (r = v ∧ D = C)) ∧
          E'.states ≠ [] ∧ E'.states.length + 1 ≤ (bset H'.g.eb (Hs.g.vb E'.cur)).card) ∨
       (pg.nextClique E = .ok ({ pg with G := some H' }, E', none) ∧ OkAt b H'.g ∧
          E'.cur = Hs.g.nVert ∧ E'.states = [] ∧ ((∀ x, 0 ≤ val (Hs.w x)) → ∀ r C, ¬ WPnd Hs W H E r C))) := by
  obtain ⟨H', E', v, a1, a2, a3⟩ := enumGraph_spec Xe hAl h
  refine ⟨H', E', a2, ?_⟩
  unfold PyNW.nextClique
  rw [hg]
  simp only
  rw [a1, ok_bind]
  simp only
  rcases a3 with ⟨b1, b2, b3, b4, b5⟩ | ⟨b1, b2, b3, b4, b5⟩
  · left
    rw [if_neg (by omega)]
    obtain ⟨w, hp⟩ := einv_pad a2 b3.1
    have F := a2.2.1.core.frame
    unfold NWG.getClique
    rw [Graph.getClique_ok w hp (by rw [F.nVert]; exact b1), ok_bind, ok_bind]
    refine ⟨v, _, ?_, b4, b5, b3.1, by rw [b2]; exact b3.2⟩
    simp only
    rw [cliqueAt_listAt F]
  · right
    rw [if_pos (by omega)]
    exact ⟨rfl, b4, b2, b3, b5⟩

/-- Iterating to the end: only pending cliques are reported, each once; all of them if no
weight is negative. -/
theorem wconsume_spec {Hs : NWG R} {W : Rat} (Xe : XE Hs)
    (hAl : ∀ v C, W ≤ Hs.wsum v C → Al v C) : ∀ (fuel : Nat) {pg : PyNW R} {H : NWG R}
    {E : WEnum R} (P : Finset (Nat × Finset Nat)), pg.G = some H → Hs.g.nVert = pg.nvert + 1 →
    WEInv Al b Hs W H E → (∀ r C, WPnd Hs W H E r C → (r, C) ∈ P) → P.card < fuel →
    ∃ (H' : NWG R) (E' : WEnum R) (ps : List (Nat × Finset Nat)),
      pg.consume fuel E = .ok ({ pg with G := some H' }, E', ps.map fun q => Hs.g.listAt q.1 q.2) ∧
      OkAt b H'.g ∧ WCoreS Al b Hs H' ∧ ps.Nodup ∧ (∀ q ∈ ps, WPnd Hs W H E q.1 q.2) ∧
      ((∀ x, 0 ≤ val (Hs.w x)) → ∀ r C, WPnd Hs W H E r C → (r, C) ∈ ps) ∧ E'.cur = Hs.g.nVert := by
  intro fuel
  induction fuel with
  | zero => intro pg H E P _ _ _ _ h; omega
  | succ f ih =>
    intro pg H E P hg hnv hI hP hf
    obtain ⟨H1, E1, a1, a2⟩ := wnextClique_spec Xe hAl hg hnv hI
    unfold PyNW.consume
    rcases a2 with ⟨v, C, b1, b2, b3, _⟩ | ⟨b1, b2, b4, _, b3⟩
    · rw [b1, ok_bind]
      simp only
      have hvC : (v, C) ∈ P := hP v C b2
      obtain ⟨H2, E2, ps, c1, c2, c3, c4, c5, c7, c6⟩ := ih (pg := { pg with G := some H1 })
        (P := P.erase (v, C)) rfl hnv a1
        (by
          intro r D h
          obtain ⟨h1, h2⟩ := b3.1 r D h
          rw [Finset.mem_erase]
          exact ⟨fun h => h2 ⟨congrArg Prod.fst h, congrArg Prod.snd h⟩, hP r D h1⟩)
        (by
          rw [Finset.card_erase_of_mem hvC]
          have := Finset.card_pos.2 ⟨_, hvC⟩
          omega)
      rw [c1, ok_bind]
      refine ⟨H2, E2, (v, C) :: ps, rfl, c2, c3, ?_, ?_, ?_, c6⟩
      · rw [List.nodup_cons]
        exact ⟨fun h => (b3.1 _ _ (c5 _ h)).2 ⟨rfl, rfl⟩, c4⟩
      · intro q hq
        rcases List.mem_cons.1 hq with rfl | hq
        · exact b2
        · exact (b3.1 _ _ (c5 q hq)).1
      · intro hn r D h
        rw [List.mem_cons]
        by_cases hq : r = v ∧ D = C
        · left; rw [hq.1, hq.2]
        · right; exact c7 hn r D (b3.2 hn r D ⟨h, hq⟩)
    · rw [b1, ok_bind]
      refine ⟨H1, E1, [], rfl, b2, a1.2.1, List.nodup_nil, by simp, ?_, b4⟩
      intro hn r C h
      exact absurd h (b3 hn r C)

/-! ## Lists of positions and lists of vertices -/

variable {H : NWG R}

theorem listAt_filter (w : Str H.g) {r : Nat} (hr : r < H.g.nVert) {X : Finset Nat} {t : Nat}
    (ht : t < (H.g.V r).N) :
    H.g.listAt r (X.filter (· < t)) = (H.g.listAt r X).filter fun x => decide (x < H.g.e r t) := by
  apply sorted_ext (listAt_sorted w hr _)
    (List.Pairwise.sublist List.filter_sublist (listAt_sorted w hr X))
  intro x
  rw [mem_listAt, List.mem_filter, mem_listAt, decide_eq_true_eq]
  have hmono : ∀ i, i < (H.g.V r).N → (i < t ↔ H.g.e r i < H.g.e r t) := by
    intro i hi
    constructor
    · intro h; exact w.sorted r hr i t h ht
    · intro h
      rcases Nat.lt_trichotomy i t with h1 | h1 | h1
      · exact h1
      · subst h1; omega
      · have := w.sorted r hr t i h1 hi; omega
  constructor
  · rintro ⟨i, h1, h2, rfl⟩
    rw [Finset.mem_filter] at h1
    exact ⟨⟨i, h1.1, h2, rfl⟩, (hmono i h2).1 h1.2⟩
  · rintro ⟨⟨i, h1, h2, rfl⟩, h3⟩
    exact ⟨i, Finset.mem_filter.2 ⟨h1, (hmono i h2).2 h3⟩, h2, rfl⟩

theorem wsum_listAt {r : Nat} {X : Finset Nat} (hX : ∀ i ∈ X, i < (H.g.V r).N) :
    H.wsum r X = weight (fun u => val (H.w u)) (H.g.listAt r X) := by
  unfold weight listAt
  rw [List.map_map]
  have hnd : ((List.range (H.g.V r).N).filter fun i => decide (i ∈ X)).Nodup :=
    List.Nodup.filter _ List.nodup_range
  rw [sum_eq hnd]
  unfold wsum
  apply Finset.sum_congr
  · ext i
    simp only [List.mem_toFinset, List.mem_filter, List.mem_range, decide_eq_true_iff]
    exact ⟨fun h => ⟨hX i h, h⟩, fun h => h.2⟩
  · intro i _; rfl

theorem listAt_erase (w : Str H.g) {r : Nat} (hr : r < H.g.nVert) (C : Finset Nat) :
    (H.g.listAt r C).erase r = H.g.listAt r (C.erase (H.g.V r).spos) := by
  have hnd : (H.g.listAt r C).Nodup := (listAt_sorted w hr C).imp (fun h => Nat.ne_of_lt h)
  apply sorted_ext (List.Pairwise.sublist List.erase_sublist (listAt_sorted w hr C))
    (listAt_sorted w hr _)
  intro x
  rw [hnd.mem_erase_iff, mem_listAt, mem_listAt]
  constructor
  · rintro ⟨h1, i, h2, h3, rfl⟩
    refine ⟨i, Finset.mem_erase.2 ⟨?_, h2⟩, h3, rfl⟩
    rintro rfl
    exact h1 (w.self r hr)
  · rintro ⟨i, h2, h3, rfl⟩
    rw [Finset.mem_erase] at h2
    refine ⟨?_, i, h2.2, h3, rfl⟩
    intro he
    apply h2.1
    have hsp := w.spos r hr
    have hs := w.self r hr
    rcases Nat.lt_trichotomy i (H.g.V r).spos with h | h | h
    · have := w.sorted r hr _ _ h hsp; omega
    · exact h
    · have := w.sorted r hr _ _ h h3; omega

/-- `RootW` in terms of the list of vertices. -/
theorem rootW_list (w : Str H.g) {r : Nat} (hr : r < H.g.nVert) {W : Rat} {C : Finset Nat}
    (hC : WRooted H r C) :
    RootW H W r C ↔ (2 ≤ (H.g.listAt r C).length ∧ ReachedLast (fun u => val (H.w u)) W r (H.g.listAt r C)) := by
  have hN : ∀ i ∈ C, i < (H.g.V r).N := hC.1.2.1
  have hX : ∀ i ∈ C.erase (H.g.V r).spos, i < (H.g.V r).N := fun i hi =>
    hN i (Finset.mem_of_mem_erase hi)
  have hrm := root_mem w hr hC.1
  have hlen := listAt_length hN
  have hel : (H.g.listAt r (C.erase (H.g.V r).spos)).length + 1 = C.card := by
    rw [listAt_length hX, Finset.card_erase_of_mem hC.1.1]
    have := Finset.card_pos.2 ⟨_, hC.1.1⟩
    omega
  have hw : weight (fun u => val (H.w u)) (H.g.listAt r C) =
      val (H.w r) + weight (fun u => val (H.w u)) (H.g.listAt r (C.erase (H.g.V r).spos)) := by
    rw [← wsum_listAt hN, ← wsum_listAt hX, wsum_erase hC.1.1]
    congr 1
    unfold qe we; rw [w.self r hr]
  have hsort := listAt_sorted w hr (C.erase (H.g.V r).spos)
  unfold RootW ReachedLast Heavy
  rw [hlen, hw, listAt_erase w hr, wsum_listAt (r := (par r).r) hX]
  simp only [hC, true_and, par]
  have hpos : (C.erase (H.g.V r).spos).Nonempty ↔ 2 ≤ C.card := by
    rw [← Finset.card_pos, Finset.card_erase_of_mem hC.1.1]; omega
  rw [hpos]
  refine and_congr_right fun _ => and_congr_right fun _ => ?_
  have hwf : ∀ t ∈ C.erase (H.g.V r).spos,
      H.wsum r ((C.erase (H.g.V r).spos).filter (· < t)) =
        weight (fun u => val (H.w u)) ((H.g.listAt r (C.erase (H.g.V r).spos)).filter
          fun x => decide (x < H.g.e r t)) := by
    intro t ht
    rw [wsum_listAt (fun i hi => hX i (Finset.mem_of_mem_filter i hi)),
      listAt_filter w hr (hX t ht)]
  constructor
  · intro h m h2 hm
    obtain ⟨m', rfl⟩ : ∃ m', m = m' + 1 := ⟨m - 1, by omega⟩
    have hm' : m' < (H.g.listAt r (C.erase (H.g.V r).spos)).length := by omega
    obtain ⟨t, ht, htN, hte⟩ := mem_listAt.1 (List.getElem_mem hm')
    have hf := filter_lt_take hsort hm'
    rw [← hte] at hf
    have h3 := h t ht (by
      rw [Finset.nonempty_iff_ne_empty]
      intro h0
      have h4 := listAt_filter w hr (X := C.erase (H.g.V r).spos) htN
      rw [h0, hf] at h4
      have h5 := congrArg List.length h4
      rw [listAt_length (by simp), Finset.card_empty, List.length_take] at h5
      omega)
    rw [hwf t ht, hf] at h3
    rw [List.take_succ_cons]
    simpa [weight] using h3
  · intro h t ht hne
    rw [hwf t ht]
    have htm : H.g.e r t ∈ H.g.listAt r (C.erase (H.g.V r).spos) :=
      mem_listAt.2 ⟨t, ht, hX t ht, rfl⟩
    obtain ⟨m, hm, hme⟩ := List.getElem_of_mem htm
    have hf := filter_lt_take hsort hm
    rw [hme] at hf
    have hm0 : 1 ≤ m := by
      by_contra h0
      have h0' : m = 0 := by omega
      rw [h0'] at hf
      have h4 := listAt_filter w hr (X := C.erase (H.g.V r).spos) (hX t ht)
      rw [hf] at h4
      have h5 := congrArg List.length h4
      rw [listAt_length (fun i hi => hX i (Finset.mem_of_mem_filter i hi))] at h5
      simp only [List.take_zero, List.length_nil, Finset.card_eq_zero] at h5
      rw [h5] at hne
      simp at hne
    have h3 := h (m + 1) (by omega) (by omega)
    rw [List.take_succ_cons] at h3
    rw [hf]
    simpa [weight] using h3

end EX

end CM
