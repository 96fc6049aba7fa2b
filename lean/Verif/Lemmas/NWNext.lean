import Verif.Lemmas.NWObj
import Verif.Lemmas.Matching

/-! # Single `__next__` calls and correspondences, for weights of any number type -/

namespace CM

open Spec Graph NWG

set_option linter.unusedSectionVars false

variable {R : Type} [Zero R] [Add R] [Sub R] [NatCast R] [LT R] [LE R] [DecidableLT R]
  [DecidableLE R]

variable {pg : PyNW R} {n : Nat} {S : SimpleGraph Nat} {ω : Nat → R} {H : NWG R}

/-- Once past the last vertex, an iterator answers `StopIteration` and changes nothing. -/
theorem wnext_end {E : WEnum R} (hg : pg.G = some H) (hnv : H.g.nVert = pg.nvert + 1)
    (hc : E.cur = H.g.nVert) : pg.nextClique E = .ok (pg, E, none) := by
  have hpg : pg = { pg with G := some H } := by rw [← hg]
  have hpos : 0 < (H.g.nVert + 2) * 2 ^ (H.g.maxDeg + 2) :=
    Nat.mul_pos (by omega) (Nat.pos_of_ne_zero (by simp))
  have h1 : H.enumGraph E = .ok (H, E, H.g.nVert) := by
    unfold NWG.enumGraph
    obtain ⟨m, hm⟩ := Nat.exists_eq_succ_of_ne_zero (Nat.ne_of_gt hpos)
    have hb : NWG.enumBody (H, E) = .ok (.inr (H, E, E.cur)) := by
      unfold NWG.enumBody
      simp only
      rw [if_neg (by omega)]
    rw [hm]
    simp only [loop, hb, hc]
  unfold PyNW.nextClique
  rw [hg]
  simp only
  rw [h1, ok_bind]
  simp only
  rw [if_pos (by omega), ← hpg]

/-- The answers to any number of `__next__` calls, given those until the first
`StopIteration`. -/
theorem wnexts_of_consume : ∀ (fuel : Nat) {pg pg' : PyNW R} {E E' : WEnum R} {cs : List (List Nat)},
    pg.consume fuel E = .ok (pg', E', cs) → pg'.nextClique E' = .ok (pg', E', none) →
    ∀ m, ∃ pg'' E'', PyNW.nexts m pg E =
      .ok (pg'', E'', (cs.map some ++ List.replicate m none).take m) := by
  intro fuel
  induction fuel with
  | zero => intro pg pg' E E' cs h; simp [PyNW.consume] at h
  | succ f ih =>
    intro pg pg' E E' cs h hend m
    cases m with
    | zero => exact ⟨pg, E, rfl⟩
    | succ m =>
      unfold PyNW.consume at h
      rw [bind_eq_ok] at h
      obtain ⟨⟨p1, E1, c⟩, h1, h2⟩ := h
      unfold PyNW.nexts
      rw [h1, ok_bind]
      cases c with
      | none =>
        simp only at h2 ⊢
        injection h2 with h2
        simp only [Prod.mk.injEq] at h2
        obtain ⟨rfl, rfl, rfl⟩ := h2
        have stay : ∀ m, PyNW.nexts m p1 E1 = .ok (p1, E1, List.replicate m none) := by
          intro m
          induction m with
          | zero => rfl
          | succ m ihm =>
            unfold PyNW.nexts
            rw [hend, ok_bind]
            simp only
            rw [ihm, ok_bind]
            rfl
        rw [stay, ok_bind]
        refine ⟨p1, E1, ?_⟩
        simp [List.replicate_succ]
      | some c =>
        simp only at h2 ⊢
        rw [bind_eq_ok] at h2
        obtain ⟨⟨p2, E2, cs'⟩, h3, h4⟩ := h2
        injection h4 with h4
        simp only [Prod.mk.injEq] at h4
        obtain ⟨rfl, rfl, rfl⟩ := h4
        obtain ⟨pg'', E'', h5⟩ := ih h3 hend m
        rw [h5, ok_bind]
        refine ⟨pg'', E'', ?_⟩
        simp only [List.map_cons, List.cons_append, List.take_succ_cons, Except.ok.injEq,
          Prod.mk.injEq, true_and, List.cons.injEq]
        rw [List.take_append, List.take_append]
        congr 1
        rw [List.take_replicate, List.take_replicate]
        congr 1
        omega

theorem wconsumeCorr_eq {M N : Nat} : ∀ {fuel : Nat} {pg pg' : PyNW R} {E E' : WEnum R}
    {cs : List (List Nat)}, pg.consume fuel E = .ok (pg', E', cs) →
    (∀ c ∈ cs, ∀ v ∈ c, 1 ≤ v ∧ v ≤ M * N) →
    pg.consumeCorr N fuel E = .ok (pg', E', cs.map fun c => .ret (firsts N c, seconds N c)) := by
  intro fuel
  induction fuel with
  | zero => intro pg pg' E E' cs h; cases h
  | succ f ih =>
    intro pg pg' E E' cs h hc
    unfold PyNW.consume at h
    obtain ⟨⟨pg1, E1, r⟩, h1, h2⟩ := bind_eq_ok.1 h
    unfold PyNW.nextClique at h1
    unfold PyNW.consumeCorr PyNW.nextCorrespondence
    cases hg : pg.G with
    | none => rw [hg] at h1; cases h1
    | some G =>
      rw [hg] at h1
      simp only at h1 ⊢
      obtain ⟨⟨G1, E2, v⟩, h3, h4⟩ := bind_eq_ok.1 h1
      rw [h3, ok_bind]
      simp only at h4 ⊢
      by_cases hv : v > pg.nvert
      · rw [if_pos hv] at h4
        rw [if_pos hv]
        injection h4 with h4
        injection h4 with h5 h6
        injection h6 with h6 h7
        subst h5 h6 h7
        simp only at h2
        injection h2 with h2
        injection h2 with h2 h8
        injection h8 with h8 h9
        subst h2 h8 h9
        rfl
      · rw [if_neg hv] at h4
        rw [if_neg hv]
        obtain ⟨⟨G2, ans⟩, h5, h6⟩ := bind_eq_ok.1 h4
        rw [h5, ok_bind]
        injection h6 with h6
        injection h6 with h7 h8
        injection h8 with h8 h9
        subst h7 h8 h9
        simp only at h2 ⊢
        obtain ⟨⟨pg2, E3, cs'⟩, h10, h11⟩ := bind_eq_ok.1 h2
        injection h11 with h11
        injection h11 with h12 h13
        injection h13 with h13 h14
        subst h12 h13 h14
        rw [getCorrespondence2_spec (fun w hw => hc ans (by simp) w hw), ok_bind]
        simp only [ok_bind]
        rw [ih h10 (fun c hc' => hc c (by simp [hc'])), ok_bind]
        rfl

theorem wlistCorrespondences_eq {M N : Nat} {junk : Nat → R} {W : R} {pg pg' : PyNW R}
    {cs : List (List Nat)} (h : pg.listCliques junk W = .ok (pg', cs))
    (hc : ∀ c ∈ cs, ∀ v ∈ c, 1 ≤ v ∧ v ≤ M * N) :
    pg.listCorrespondences junk N W =
      .ok (pg', cs.map fun c => .ret (firsts N c, seconds N c)) := by
  unfold PyNW.listCliques at h
  unfold PyNW.listCorrespondences
  obtain ⟨E, h1, h2⟩ := bind_eq_ok.1 h
  rw [h1, ok_bind]
  cases hg : pg.G with
  | none => rw [hg] at h2; cases h2
  | some G =>
    rw [hg] at h2
    simp only at h2 ⊢
    obtain ⟨⟨pg2, E3, cs'⟩, h3, h4⟩ := bind_eq_ok.1 h2
    injection h4 with h4
    injection h4 with h5 h6
    subst h5 h6
    rw [wconsumeCorr_eq h3 hc, ok_bind]

/-- The correspondence returned by `get_correspondence`. -/
theorem wgetCorrespondence_eq {M N : Nat} {pg pg' : PyNW R} {srt : List (WData R) → List (WData R)}
    {junk : Nat → R} {a : PyNW.Args R} {r : PyRes (List Nat)}
    (h : pg.getMaxClique srt junk a = .ok (pg', r))
    (hr : ∀ l, r = .ret l → ∀ v ∈ l, 1 ≤ v ∧ v ≤ M * N) :
    pg.getCorrespondence srt junk N a = .ok (pg', readOff N r) := by
  unfold PyNW.getCorrespondence
  rw [h, ok_bind]
  cases r with
  | raise => rfl
  | ret l =>
    simp only
    rw [getCorrespondence2_spec (hr l rfl), ok_bind]
    rfl

end CM
