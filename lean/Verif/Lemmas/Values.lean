import Verif.Lemmas.PoppedW
import Verif.SpecValues

/-!
# Values passed from Python

The type casters accept exactly the values that `SpecValues` describes.  An iterator over weighted
cliques whose threshold compares with nothing (NaN) yields nothing.
-/

namespace CM

/-! ## The type casters -/

theorem PyVal.toU64_iff (v : PyVal) (k : Nat) : v.toU64 = some k ↔ v.IsCount k := by
  unfold PyVal.IsCount PyVal.IsInt
  cases v with
  | bool b => cases b <;> simp [PyVal.toU64] <;> omega
  | int z =>
    simp only [PyVal.toU64, PyVal.int.injEq, reduceCtorEq, false_and, or_false]
    constructor
    · intro h
      split at h
      · have := Option.some.inj h
        omega
      · cases h
    · rintro ⟨rfl, h⟩
      rw [if_pos ⟨by omega, by omega⟩]
      simp
  | none => simp [PyVal.toU64]
  | float x => simp [PyVal.toU64]
  | other => simp [PyVal.toU64]

theorem PyVal.toU64_none (v : PyVal) : v.toU64 = Option.none ↔ ∀ k, ¬ v.IsCount k := by
  rw [Option.eq_none_iff_forall_ne_some]
  exact forall_congr' fun k => not_congr (v.toU64_iff k)

theorem PyVal.toDbl_iff (v : PyVal) (x : Dbl) : v.toDbl = some x ↔ v.IsReal x := by
  have h1 : Dbl.round ((1 : Int) : Rat) = .fin 1 := by decide +kernel
  have h0 : Dbl.round ((0 : Int) : Rat) = .fin 0 := by decide +kernel
  unfold PyVal.IsReal PyVal.IsInt
  cases v with
  | bool b =>
    cases b
    · simp only [PyVal.toDbl, Bool.toNat_false, Option.some.injEq]
      constructor
      · rintro rfl
        exact Or.inr ⟨0, 0, by simp, rfl, h0⟩
      · rintro (h | ⟨z, q, h, rfl, h2⟩)
        · cases h
        · have hz : z = 0 := by simpa using h
          rw [hz, h0] at h2
          exact h2
    · simp only [PyVal.toDbl, Bool.toNat_true, Option.some.injEq]
      constructor
      · rintro rfl
        exact Or.inr ⟨1, 1, by simp, rfl, h1⟩
      · rintro (h | ⟨z, q, h, rfl, h2⟩)
        · cases h
        · have hz : z = 1 := by simpa using h
          rw [hz, h1] at h2
          exact h2
  | int z =>
    simp only [PyVal.toDbl]
    constructor
    · intro h
      split at h
      · rename_i q hq
        cases h
        exact Or.inr ⟨z, q, Or.inl rfl, rfl, hq⟩
      · cases h
    · rintro (h | ⟨z', q, h, rfl, h2⟩)
      · cases h
      · rcases h with h | ⟨h, _⟩ | ⟨h, _⟩
        · cases h
          rw [h2]
        · cases h
        · cases h
  | none => simp [PyVal.toDbl]
  | float y =>
    simp only [PyVal.toDbl, Option.some.injEq, PyVal.float.injEq, reduceCtorEq, false_and, or_false,
      exists_false]
  | other => simp [PyVal.toDbl]

theorem PyVal.toDbl_none (v : PyVal) : v.toDbl = Option.none ↔ ∀ x, ¬ v.IsReal x := by
  rw [Option.eq_none_iff_forall_ne_some]
  exact forall_congr' fun k => not_congr (v.toDbl_iff k)

theorem PyVal.toBool_iff (v : PyVal) (b : Bool) : v.toBool = some b ↔ v.IsFlag b := by
  unfold PyVal.IsFlag
  cases v with
  | bool c => simp [PyVal.toBool]
  | int z =>
    simp only [PyVal.toBool, Option.some.injEq, reduceCtorEq, false_and, false_or, PyVal.int.injEq,
      exists_eq_left', exists_false, or_false]
    cases b <;> simp
  | float x =>
    simp only [PyVal.toBool, Option.some.injEq, reduceCtorEq, false_and, false_or,
      PyVal.float.injEq, exists_eq_left', exists_false]
    cases b <;> simp
  | none => simp [PyVal.toBool, eq_comm]
  | other => simp [PyVal.toBool]

theorem PyVal.toBool_none (v : PyVal) : v.toBool = Option.none ↔ ∀ b, ¬ v.IsFlag b := by
  rw [Option.eq_none_iff_forall_ne_some]
  exact forall_congr' fun k => not_congr (v.toBool_iff k)

/-! ## Thresholds that nothing reaches -/

variable {R : Type} [Zero R] [Add R] [Sub R] [NatCast R] [LT R] [LE R] [DecidableLT R]
  [DecidableLE R]

namespace NWG

variable {H : NWG R}

omit [Sub R] [NatCast R] in
theorem enumLoad_required {E : WEnum R} {r : NWG R × WEnum R × Bool} (h : H.enumLoad E = .ok r) :
    r.2.1.required = E.required := by
  unfold enumLoad at h
  obtain ⟨V, _, h⟩ := bind_eq_ok.1 h
  obtain ⟨x, h1, h⟩ := bind_eq_ok.1 h
  obtain ⟨y, _, h⟩ := bind_eq_ok.1 h
  obtain ⟨w, _, h⟩ := bind_eq_ok.1 h
  simp only at h
  split at h
  · obtain ⟨z, h2, h⟩ := bind_eq_ok.1 h
    cases h
    rfl
  · cases h
    rfl

theorem enumVertex_required {E : WEnum R} {r : NWG R × WEnum R} (h : H.enumVertex E = .ok r) :
    r.2.required = E.required := by
  unfold enumVertex at h
  refine loop_inv (fun s : NWG R × WEnum R => s.2.required = E.required)
    (fun r : NWG R × WEnum R => r.2.required = E.required) ?_ ?_ rfl h
  · rintro ⟨Ga, Ea⟩ s' hP hb
    simp only at hb hP
    split at hb
    · obtain ⟨V, _, hb⟩ := bind_eq_ok.1 hb
      split at hb
      · cases hb; exact hP
      · obtain ⟨⟨Gb, Eb, b⟩, h1, hb⟩ := bind_eq_ok.1 hb
        have e := enumLoad_required h1
        simp only at hb e
        split at hb
        · cases hb
        · cases hb; exact e.trans hP
    · cases hb
  · rintro ⟨Ga, Ea⟩ s' hP hb
    simp only at hb hP
    split at hb
    · obtain ⟨V, _, hb⟩ := bind_eq_ok.1 hb
      split at hb
      · cases hb
      · obtain ⟨⟨Gb, Eb, b⟩, h1, hb⟩ := bind_eq_ok.1 hb
        have e := enumLoad_required h1
        simp only at hb e
        split at hb
        · cases hb; exact e.trans hP
        · cases hb
    · cases hb; exact hP

omit [Zero R] [NatCast R] [LT R] [DecidableLT R] in
/-- Nothing is found if nothing reaches the threshold. -/
theorem enumFor_unreached {V : Vtx} {req : Nat} {ws : List R} {cw required : R}
    {s : NWG R × WState R × Nat} {x : EnumExit R} (hr : ∀ x : R, ¬ x ≥ required)
    (h : enumFor V req ws cw required s = .ok (.inr x)) : ∃ H' top, x = .done H' top := by
  obtain ⟨H, top, j⟩ := s
  unfold enumFor at h
  simp only at h
  split at h
  · obtain ⟨b, _, h⟩ := bind_eq_ok.1 h
    split at h
    · obtain ⟨eb, _, h⟩ := bind_eq_ok.1 h
      obtain ⟨c, _, h⟩ := bind_eq_ok.1 h
      obtain ⟨w, _, h⟩ := bind_eq_ok.1 h
      obtain ⟨v, _, h⟩ := bind_eq_ok.1 h
      obtain ⟨U, _, h⟩ := bind_eq_ok.1 h
      obtain ⟨rm, _, h⟩ := bind_eq_ok.1 h
      rw [if_neg (hr _)] at h
      cases h
    · cases h
  · cases h
    exact ⟨_, _, rfl⟩

theorem enumBody_unreached {s : NWG R × WEnum R}
    {r : (NWG R × WEnum R) ⊕ (NWG R × WEnum R × Nat)} (hr : ∀ x : R, ¬ x ≥ s.2.required)
    (h : enumBody s = .ok r) :
    (∀ s', r = .inl s' → s'.1.g.nVert = s.1.g.nVert ∧ s'.2.required = s.2.required) ∧
      ∀ x, r = .inr x → s.1.g.nVert ≤ x.2.2 := by
  obtain ⟨H, E⟩ := s
  unfold enumBody at h
  simp only at h hr
  split at h
  · rename_i hc
    split at h
    · rename_i hst
      obtain ⟨G1, h1, h⟩ := bind_eq_ok.1 h
      obtain ⟨⟨G2, E2⟩, h2, h⟩ := bind_eq_ok.1 h
      have e1 := Graph.clearMemory_nVert h1
      have e2 := enumVertex_nVert h2
      have e3 := enumVertex_required h2
      cases h
      exact ⟨fun s' e => (by cases e; exact ⟨e2.trans e1, e3⟩), fun x e => by cases e⟩
    · obtain ⟨V, _, h⟩ := bind_eq_ok.1 h
      obtain ⟨⟨eb, left⟩, _, h⟩ := bind_eq_ok.1 h
      obtain ⟨x, h1, h⟩ := bind_eq_ok.1 h
      have e1 : x.left.g.nVert = H.g.nVert ∧ ∃ H' top, x = .done H' top :=
        loop_inv (fun s : NWG R × WState R × Nat => s.1.g.nVert = H.g.nVert)
          (fun x : EnumExit R => x.left.g.nVert = H.g.nVert ∧ ∃ H' top, x = .done H' top)
          (fun s s' hs hb => ((enumFor_nVert hb).1 s' rfl).trans hs)
          (fun s r hs hb => ⟨((enumFor_nVert hb).2 r rfl).trans hs, enumFor_unreached hr hb⟩) rfl h1
      obtain ⟨e1, H', top, rfl⟩ := e1
      simp only at h
      obtain ⟨G2, h2, h⟩ := bind_eq_ok.1 h
      obtain ⟨_, _, h⟩ := bind_eq_ok.1 h
      obtain ⟨_, _, h⟩ := bind_eq_ok.1 h
      have e2 := Graph.clearMemory_nVert h2
      cases h
      exact ⟨fun s' e => (by cases e; exact ⟨e2.trans e1, rfl⟩), fun x e => by cases e⟩
  · rename_i hc
    cases h
    exact ⟨fun s' e => (by cases e), fun x e => by cases e; exact Nat.not_lt.1 hc⟩

theorem enumGraph_unreached {E : WEnum R} {r : NWG R × WEnum R × Nat}
    (hr : ∀ x : R, ¬ x ≥ E.required) (h : H.enumGraph E = .ok r) : H.g.nVert ≤ r.2.2 := by
  unfold enumGraph at h
  refine loop_inv
    (fun s : NWG R × WEnum R => s.1.g.nVert = H.g.nVert ∧ s.2.required = E.required)
    (fun r : NWG R × WEnum R × Nat => H.g.nVert ≤ r.2.2) ?_ ?_ ⟨rfl, rfl⟩ h
  · intro s s' hs hb
    obtain ⟨a, b⟩ := (enumBody_unreached (by rw [hs.2]; exact hr) hb).1 s' rfl
    exact ⟨a.trans hs.1, b.trans hs.2⟩
  · intro s x hs hb
    have := (enumBody_unreached (by rw [hs.2]; exact hr) hb).2 x rfl
    rw [hs.1] at this
    exact this

end NWG

/-- An iteration yields nothing if nothing reaches the threshold. -/
theorem listCliques_unreached {pg pg' : PyNW R} {junk : Nat → R} {W : R} {cs : List (List Nat)}
    (hr : ∀ x : R, ¬ x ≥ W) (hw : pg.Whole) (h : pg.listCliques junk W = .ok (pg', cs)) :
    cs = [] := by
  obtain ⟨H, hH, hn⟩ := hw
  unfold PyNW.listCliques at h
  obtain ⟨E, hE, h⟩ := bind_eq_ok.1 h
  have hq : E.required = W := by
    unfold PyNW.allCliques at hE
    split at hE
    · cases hE
    · cases hE
      rfl
  rw [hH] at h
  obtain ⟨⟨pg2, E2, cs2⟩, h2, h⟩ := bind_eq_ok.1 h
  cases h
  unfold PyNW.consume at h2
  obtain ⟨⟨pg3, E3, c⟩, h3, h2⟩ := bind_eq_ok.1 h2
  cases c with
  | none => cases h2; rfl
  | some c =>
    exfalso
    unfold PyNW.nextClique at h3
    rw [hH] at h3
    simp only at h3
    obtain ⟨⟨H1, E1, v⟩, h1, h3⟩ := bind_eq_ok.1 h3
    have := NWG.enumGraph_unreached (by rw [hq]; exact hr) h1
    simp only at h3 this
    rw [if_pos (by omega)] at h3
    cases h3

end CM
