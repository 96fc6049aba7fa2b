import Verif.Lemmas.Blocks
import Verif.Lemmas.Matching
import Verif.SpecCorrLoops

/-! # Programs with nested loops over correspondences -/

namespace CM

open Spec Graph

variable {pg : PyGraph} {M N : Nat} {S : SimpleGraph Nat} {G : Graph}
  {Sd : Prop} {Q : Nat → Prop} {b k m : Nat}

theorem names_of {l : List Nat} (h : ∀ v ∈ l, 1 ≤ v ∧ v ≤ M * N) :
    Names M N (firsts N l, seconds N l) l := by
  refine ⟨by simp [firsts], by simp [seconds], ?_, ?_, ?_⟩
  · intro i hi
    obtain ⟨v, hv, rfl⟩ := List.mem_map.1 hi
    exact (pairId_surj (h v hv).1 (h v hv).2).1
  · intro i hi
    obtain ⟨v, hv, rfl⟩ := List.mem_map.1 hi
    exact (pairId_surj (h v hv).1 (h v hv).2).2.1
  · unfold firsts seconds
    rw [List.zip_map', List.map_map]
    conv_rhs => rw [← List.map_id l]
    exact List.map_congr_left fun v hv => (pairId_surj (h v hv).1 (h v hv).2).2.2

theorem Spec.Names.eq {c : List Nat × List Nat} {l : List Nat} (h : Names M N c l) :
    c = (firsts N l, seconds N l) := by
  obtain ⟨c1, c2⟩ := c
  obtain ⟨h1, h2, h3, h4, h5⟩ := h
  simp only at h1 h2 h3 h4 h5
  have hz : ∀ p ∈ c1.zip c2, p.2 < N := fun p hp => h4 _ (List.of_mem_zip hp).2
  have e1 : firsts N l = (c1.zip c2).map Prod.fst := by
    rw [← h5, firsts, List.map_map]
    exact List.map_congr_left fun p hp => pairId_div (hz p hp)
  have e2 : seconds N l = (c1.zip c2).map Prod.snd := by
    rw [← h5, seconds, List.map_map]
    exact List.map_congr_left fun p hp => pairId_mod (hz p hp)
  rw [e1, e2, List.map_fst_zip (by omega), List.map_snd_zip (by omega)]

theorem next_some {pg pg' : PyGraph} {E E' : Enum} {l : List Nat}
    (h : pg.nextClique E = .ok (pg', E', some l)) (hl : ∀ v ∈ l, 1 ≤ v ∧ v ≤ M * N) :
    pg.nextCorrespondence N E = .ok (pg', E', .ret (some (firsts N l, seconds N l))) := by
  unfold PyGraph.nextClique at h
  unfold PyGraph.nextCorrespondence
  cases hg : pg.G with
  | none => rw [hg] at h; cases h
  | some G =>
    rw [hg] at h
    simp only at h ⊢
    obtain ⟨⟨G1, E1, v⟩, h1, h2⟩ := bind_eq_ok.1 h
    rw [h1, ok_bind]
    simp only at h2 ⊢
    by_cases hv : v > pg.nvert
    · rw [if_pos hv] at h2
      injection h2 with h2
      injection h2 with _ h2
      injection h2 with _ h2
      cases h2
    · rw [if_neg hv] at h2 ⊢
      obtain ⟨⟨G2, ans⟩, h3, h4⟩ := bind_eq_ok.1 h2
      injection h4 with h4
      injection h4 with h5 h4
      injection h4 with h6 h4
      injection h4 with h4
      subst h4 h5 h6
      rw [h3, ok_bind]
      simp only
      rw [getCorrespondence2_spec hl, ok_bind]

theorem next_none {pg pg' : PyGraph} {E E' : Enum}
    (h : pg.nextClique E = .ok (pg', E', none)) :
    pg.nextCorrespondence N E = .ok (pg', E', .ret none) := by
  unfold PyGraph.nextClique at h
  unfold PyGraph.nextCorrespondence
  cases hg : pg.G with
  | none => rw [hg] at h; cases h
  | some G =>
    rw [hg] at h
    simp only at h ⊢
    obtain ⟨⟨G1, E1, v⟩, h1, h2⟩ := bind_eq_ok.1 h
    rw [h1, ok_bind]
    simp only at h2 ⊢
    by_cases hv : v > pg.nvert
    · rw [if_pos hv] at h2 ⊢
      injection h2 with h2
      injection h2 with h5 h2
      injection h2 with h6 h2
      subst h5 h6
      rfl
    · rw [if_neg hv] at h2
      obtain ⟨⟨G2, ans⟩, h3, h4⟩ := bind_eq_ok.1 h2
      injection h4 with h4
      injection h4 with h5 h4
      injection h4 with h6 h4
      cases h4

theorem getCorrespondence2_total (hN : 0 < N) : ∀ l,
    ∃ r, PyGraph.getCorrespondence2 N l = .ok r := by
  intro l
  induction l with
  | nil => exact ⟨_, rfl⟩
  | cons v l ih =>
    obtain ⟨r, hr⟩ := ih
    unfold PyGraph.getCorrespondence2
    split
    · exact ⟨_, rfl⟩
    rw [if_neg (by omega), hr, ok_bind]
    cases r with
    | raise => exact ⟨_, rfl⟩
    | ret x => exact ⟨_, rfl⟩

/-- A search. -/
theorem Ready.find (hN : 0 < N) (h : Ready Sd Q m pg (M * N) S G)
    {srt : List VData → List VData} {a : PyGraph.Args}
    (ho : (Op.search srt a).Fits S (M * N) Q Sd) :
    ∃ pg' G' r, pg.getCorrespondence srt N a = .ok (pg', r) ∧ Ready Sd Q m pg' (M * N) S G' ∧
      G'.searchCur = G.searchCur ∧ Leaves G.searchCur G G' ∧
      (Sd → ∃ c l, r = .ret c ∧ Names M N c l ∧ IsCliqueList S (M * N) l ∧
        (a.useDfs = true → IsMaxCliqueList S (M * N) l ∨ Q l.length)) := by
  obtain ⟨pg', G', s, h1, h2, h3, h4, r, rfl, h5⟩ := h.call ho
  obtain ⟨⟨pg1, r1⟩, e1, e2⟩ := bind_eq_ok.1 h1
  injection e2 with e2
  injection e2 with e2 e3
  injection e3 with _ e3
  subst e2 e3
  by_cases hs : Sd
  · obtain ⟨l, rfl, h6, h7⟩ := h5 hs
    exact ⟨_, G', _, getCorrespondence_eq (M := M) e1 (fun l' hl' => by
      injection hl' with hl'; subst hl'; exact h6.range), h2, h3, h4,
      fun _ => ⟨_, l, rfl, names_of h6.range, h6, h7⟩⟩
  · have : ∃ r', pg.getCorrespondence srt N a = .ok (pg1, r') := by
      unfold PyGraph.getCorrespondence
      rw [e1, ok_bind]
      cases r1 with
      | raise => exact ⟨_, rfl⟩
      | ret l =>
        obtain ⟨r', hr'⟩ := getCorrespondence2_total hN l
        simp only
        rw [hr', ok_bind]
        exact ⟨_, rfl⟩
    obtain ⟨r', hr'⟩ := this
    exact ⟨_, G', r', hr', h2, h3, h4, fun s => (hs s).elim⟩

/-- A loop. -/
theorem eachCorr_spec (hQ : Q k) {f : List Nat × List Nat → PyGraph → CM.M (PyGraph × List CorrSeen)}
    {R : List Nat × List Nat → List CorrSeen → Prop}
    (hf : ∀ c l, Names M N c l → IsCliqueList S (M * N) l → l.length = k → kept k ≤ m ∧
      ∀ {pg : PyGraph} {G : Graph}, Ready Sd Q (m - kept k) pg (M * N) S G →
      ∃ pg' G' ss, f c pg = .ok (pg', ss) ∧ Ready Sd Q (m - kept k) pg' (M * N) S G' ∧
        G'.searchCur = G.searchCur ∧ Leaves G.searchCur G G' ∧ R c ss) :
    ∀ (fuel : Nat) {pg : PyGraph} {Gs G : Graph} {E : Enum} {T : Finset (List Nat)},
    Held Sd Q b k pg (M * N) S Gs G E T → T.card < fuel → (∀ l ∈ T, Wanted S (M * N) k l) →
    (∃ L, (∀ v, v < G.nVert → (G.rootCand v).card + 1 ≤ L) ∧
      b + (m + L + 2) * dlen G.maxDeg ≤ G.eb.length) →
    ∃ (pg' : PyGraph) (G' : Graph) (items : List ((List Nat × List Nat) × List CorrSeen)),
      eachCorrespondence N f fuel pg E =
        .ok (pg', items.flatMap (fun p => .next (some p.1) :: p.2) ++ [.next none]) ∧
      Ready Sd Q m pg' (M * N) S G' ∧ G'.searchCur = b ∧ Leaves b G G' ∧
      (items.map Prod.fst).Nodup ∧
      (∀ c, c ∈ items.map Prod.fst ↔ ∃ l, Names M N c l ∧ l ∈ T) ∧
      ∀ p ∈ items, R p.1 p.2 := by
  intro fuel
  induction fuel with
  | zero => intro pg Gs G E T _ h; omega
  | succ fuel ih =>
    intro pg Gs G E T h hc hT hr
    obtain ⟨pg1, G1, E1, c, T1, a1, a2, a3⟩ := h.next hQ
    have hL := h.leaves a2
    have hr1 := room_frame hL.frame hr
    unfold eachCorrespondence
    rcases a3 with ⟨l, rfl, hl, rfl⟩ | ⟨rfl, rfl, rfl, hb⟩
    · obtain ⟨w1, w2, _, _⟩ := hT l hl
      have hn := names_of (M := M) (N := N) w1.range
      rw [next_some (M := M) a1 w1.range, ok_bind]
      simp only
      obtain ⟨hk, hbody⟩ := hf _ l hn w1 w2
      obtain ⟨pg2, G2, ss, b1, b2, b3, b4, b5⟩ := hbody (a2.ready hk hr1)
      rw [b1, ok_bind]
      obtain ⟨Gs2, c1⟩ := a2.resume (pg' := pg2) (G' := G2) (by rw [← b3]; exact b2.py) b4.frame
        b4.low b2.mcs b2.lim b2.hon
      obtain ⟨pg3, G3, items, d1, d2, d3, d4, d5, d6, d7⟩ := ih c1
        (by rw [Finset.card_erase_of_mem hl]; have := Finset.card_pos.2 ⟨_, hl⟩; omega)
        (fun l' hl' => hT l' (Finset.mem_of_mem_erase hl')) (room_frame b4.frame hr1)
      simp only
      rw [d1, ok_bind]
      refine ⟨pg3, G3, ((firsts N l, seconds N l), ss) :: items, by simp, d2, d3,
        (hL.trans b4 a2.le).trans d4 (Nat.le_refl _), ?_, ?_, ?_⟩
      · rw [List.map_cons, List.nodup_cons]
        refine ⟨fun hm => ?_, d5⟩
        obtain ⟨l', h1, h2⟩ := (d6 _).1 hm
        have e : l = l' := hn.pairs.symm.trans h1.pairs
        exact (Finset.mem_erase.1 h2).1 e.symm
      · intro c
        rw [List.map_cons, List.mem_cons, d6]
        constructor
        · rintro (rfl | ⟨l', h1, h2⟩)
          · exact ⟨l, hn, hl⟩
          · exact ⟨l', h1, Finset.mem_of_mem_erase h2⟩
        · rintro ⟨l', h1, h2⟩
          by_cases he : l' = l
          · subst he; exact Or.inl h1.eq
          · exact Or.inr ⟨l', h1, Finset.mem_erase.2 ⟨he, h2⟩⟩
      · intro p hp
        rcases List.mem_cons.1 hp with rfl | hp
        · exact b5
        · exact d7 p hp
    · rw [next_none a1, ok_bind]
      exact ⟨pg1, G1, [], rfl, a2.ready_base hb hr1, hb, hL, by simp, by simp, by simp⟩

/-- Blocks. -/
theorem corrBlock_spec (hN : 0 < N) : ∀ (B : CorrBlock) {m : Nat} {pg : PyGraph} {G : Graph},
    B.Fits S M N Q Sd m → Ready Sd Q m pg (M * N) S G →
    ∃ pg' G' ss, B.run N pg = .ok (pg', ss) ∧ Ready Sd Q m pg' (M * N) S G' ∧
      G'.searchCur = G.searchCur ∧ Leaves G.searchCur G G' ∧ B.Reports S M N Q Sd ss := by
  intro B
  induction B with
  | done => intro m pg G _ h; exact ⟨pg, G, [], rfl, h, rfl, Leaves.refl _ _, rfl⟩
  | find srt a rest ih =>
    rintro m pg G ⟨f1, f2⟩ h
    obtain ⟨pg1, G1, r, a1, a2, a3, a4, a5⟩ := h.find hN f1
    obtain ⟨pg2, G2, ss, b1, b2, b3, b4, b5⟩ := ih r (f2 r) a2
    refine ⟨pg2, G2, .found a r :: ss, ?_, b2, b3.trans a3, a4.trans b4 (Nat.le_of_eq a3.symm), r, ss,
      rfl, a5, b5⟩
    unfold CorrBlock.run
    rw [a1, ok_bind]
    simp only
    rw [b1, ok_bind]
  | each k body rest ihb ihr =>
    rintro m pg G ⟨f1, f2, f3⟩ h
    obtain ⟨T, a1, a2, a3, a4⟩ := h.held k
      (fun ⟨l, hl⟩ => (f3 _ l (names_of hl.1.range) hl.1 hl.2.1).1)
    obtain ⟨pg1, G1, items, b1, b2, b3, b4, b5, b6, b7⟩ := eachCorr_spec (m := m) f1
      (f := fun c pg => (body c).run N pg) (R := fun c ss => (body c).Reports S M N Q Sd ss)
      (fun c l h0 h1 h2 => ⟨(f3 c l h0 h1 h2).1, fun hR => ihb c (f3 c l h0 h1 h2).2 hR⟩)
      (G.nVert * 2 ^ G.maxDeg + 1) a2 (by omega) (fun l hl => (a3 l).1 hl) h.room
    obtain ⟨pg2, G2, ss, c1, c2, c3, c4, c5⟩ := ihr _ (f2 _) b2
    refine ⟨pg2, G2, _, ?_, c2, c3.trans b3, b4.trans c4 (Nat.le_of_eq b3.symm), items, _, ss, rfl,
      rfl, b5, fun c => ?_, b7, c5⟩
    · unfold CorrBlock.run
      rw [a1, ok_bind, h.py.g]
      simp only
      rw [b1, ok_bind]
      simp only
      rw [c1, ok_bind]
    · rw [b6]
      exact exists_congr fun l => and_congr_right fun _ => by rw [a3, listed_iff]

end CM
