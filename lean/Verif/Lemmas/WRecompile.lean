import Verif.Lemmas.FlipNWApi

/-!
# Loading and using weighted graphs in two builds
-/

namespace CM

open Graph NWG

variable {R : Type} [Zero R] [Add R] [Sub R] [NatCast R] [LT R] [LE R] [DecidableLT R]
  [DecidableLE R] {pg pg' : PyNW R} {n : Nat} {S : SimpleGraph Nat} {ω : Nat → R} {H : NWG R}

theorem wloadGraph_two {l l' : Bool} {c c' m : Nat} {edges : Edges} {wts : List R} {pg0 : PyNW R}
    (h : PyNW.loadGraph l c pg0 n m edges wts = .ok pg)
    (h' : PyNW.loadGraph l' c' pg0 n m edges wts = .ok pg')
    (hk : ∀ H, pg.G = some H → H.g.dangling = false)
    (hk' : ∀ H, pg'.G = some H → H.g.dangling = false) : pg' = pg ∨ pg' = pg.fl := by
  unfold PyNW.loadGraph at h h'
  obtain ⟨G, h1, h⟩ := bind_eq_ok.1 h
  obtain ⟨G', h1', h'⟩ := bind_eq_ok.1 h'
  cases h
  cases h'
  rcases wctor_two h1 h1' (hk G rfl) (hk' G' rfl) with rfl | rfl
  · exact .inl rfl
  · exact .inr rfl

theorem WRecompiled.cases (h : WRecompiled pg pg')
    (hk : ∀ H, pg.G = some H → H.g.dangling = false)
    (hk' : ∀ H, pg'.G = some H → H.g.dangling = false) : pg' = pg ∨ pg' = pg.fl := by
  cases h with
  | edgelist h h' =>
    unfold PyNW.fromEdgelist at h h'
    split at h
    · cases h
    · rename_i hc
      rw [if_neg hc] at h'
      obtain ⟨x, h5, h⟩ := bind_eq_ok.1 h
      rw [h5, ok_bind] at h'
      simp only at h h'
      split at h
      · cases h
      · rename_i hc
        rw [if_neg hc] at h'
        exact wloadGraph_two h h' hk hk'
  | matrix h h' =>
    unfold PyNW.fromMatrix at h h'
    rw [if_neg (by simp)] at h h'
    split at h
    · cases h
    · rename_i hc
      rw [if_neg hc] at h'
      obtain ⟨x, h5, h⟩ := bind_eq_ok.1 h
      rw [h5, ok_bind] at h'
      simp only at h h'
      split at h
      · cases h
      · rename_i hc
        rw [if_neg hc] at h'
        exact wloadGraph_two h h' hk hk'
  | built h h' => exact wloadGraph_two h h' hk hk'

/-- One call in the two builds. -/
theorem wcall_two (h : WPyOk pg n S ω H) {op : WOp R} (hl : op.Legal) (E : WEnum R) :
    ∃ q H1 s, WAct.run pg E (.call op) = .ok (q, E, s) ∧
      WAct.run pg.fl E (.call op) = .ok (q.fl, E, s) ∧ WPyOk q n S ω H1 := by
  obtain ⟨q, H1, a1, a2, _⟩ := AW.wop_spec h hl
  obtain ⟨q', H1', b1, b2, _⟩ := AW.wop_spec h.fl hl
  cases op with
  | search srt junk a =>
    obtain ⟨⟨q, r⟩, c1, c2⟩ := bind_eq_ok.1 a1
    obtain ⟨⟨q', r'⟩, d1, d2⟩ := bind_eq_ok.1 b1
    cases c2; cases d2
    have := wgetMaxClique_rel h hl junk a _ _ c1 d1
    cases this
    refine ⟨q, H1, .found a r, ?_, ?_, a2⟩
    · show (pg.getMaxClique srt junk a >>= _) = _
      rw [c1]; rfl
    · show (pg.fl.getMaxClique srt junk a >>= _) = _
      rw [d1]; rfl
  | reset =>
    have a1 : pg.resetSearch = .ok q := a1
    have b1 : pg.fl.resetSearch = .ok q' := b1
    have := wresetSearch_rel h _ _ a1 b1
    cases this
    refine ⟨q, H1, .reset, ?_, ?_, a2⟩
    · show (pg.resetSearch >>= _) = _
      rw [a1]; rfl
    · show (pg.fl.resetSearch >>= _) = _
      rw [b1]; rfl
  | list junk W =>
    obtain ⟨⟨q, r⟩, c1, c2⟩ := bind_eq_ok.1 a1
    obtain ⟨⟨q', r'⟩, d1, d2⟩ := bind_eq_ok.1 b1
    cases c2; cases d2
    have := wlistCliques_rel h junk W _ _ c1 d1
    cases this
    refine ⟨q, H1, .list W r, ?_, ?_, a2⟩
    · show (pg.listCliques junk W >>= _) = _
      rw [c1]; rfl
    · show (pg.fl.listCliques junk W >>= _) = _
      rw [d1]; rfl

theorem wcalls_two (ops : List (WOp R)) (h : WPyOk pg n S ω H) (hl : ∀ op ∈ ops, op.Legal)
    (E : WEnum R) :
    ∃ q H1 ss, wacts (ops.map .call) pg E = .ok (q, E, ss) ∧
      wacts (ops.map .call) pg.fl E = .ok (q.fl, E, ss) ∧ WPyOk q n S ω H1 := by
  induction ops generalizing pg H with
  | nil => exact ⟨pg, H, [], rfl, rfl, h⟩
  | cons op ops ih =>
    obtain ⟨q, H1, s, a1, a2, a3⟩ := wcall_two h (hl op (by simp)) E
    obtain ⟨r, H2, ss, b1, b2, b3⟩ := ih a3 (fun o ho => hl o (by simp [ho]))
    refine ⟨r, H2, s :: ss, ?_, ?_, b3⟩
    · show (WAct.run pg E (.call op) >>= _) = _
      rw [a1, ok_bind]
      show (wacts _ q E >>= _) = _
      rw [b1]; rfl
    · show (WAct.run pg.fl E (.call op) >>= _) = _
      rw [a2, ok_bind]
      show (wacts _ q.fl E >>= _) = _
      rw [b2]; rfl

end CM
