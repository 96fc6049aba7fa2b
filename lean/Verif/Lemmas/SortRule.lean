import Verif.Model.SortRule
import Verif.Lemmas.AWApi

/-! # Weighted search with the C++ rule for `std::sort`: when it is the ordinary search -/

namespace CM

/-- Loops with bodies that agree as long as an invariant holds. -/
theorem loop_congr {σ ρ : Type} (P : σ → Prop) {f g : σ → M (σ ⊕ ρ)} (he : ∀ s, P s → f s = g s)
    (hp : ∀ s s', P s → g s = .ok (.inl s') → P s') :
    ∀ (n : Nat) (s : σ), P s → loop n f s = loop n g s := by
  intro n
  induction n with
  | zero => intro s _; rfl
  | succ n ih =>
    intro s hs
    unfold loop
    rw [he s hs]
    cases hg : g s with
    | error e => rfl
    | ok x =>
      cases x with
      | inl s' => exact ih s' (hp s s' hs hg)
      | inr r => rfl

/-- Calls followed by continuations that agree on the possible results. -/
theorem bind_congr_ok {α β : Type} {x : M α} {f g : α → M β} (h : ∀ a, x = .ok a → f a = g a) :
    (x >>= f) = (x >>= g) := by
  cases x with
  | error e => rfl
  | ok a => exact h a rfl

variable {R : Type} [Zero R] [Add R] [Sub R] [NatCast R] [LT R] [LE R] [DecidableLT R]
  [DecidableLE R]

namespace NWG

/-- Records with these degrees can be sorted. -/
def Sortable (D : List R) : Prop :=
  ∀ l : List (WData R), (∀ x ∈ l, x.degree ∈ D) → StrictWeak WData.gt l

omit [Sub R] [NatCast R] in
theorem heurLoad_inv {H : NWG R} {V : Vtx} {cand : GBits} {ok : R → Bool} {i : Nat}
    {s s' : Mem × List (WData R) × Nat × Nat × R} (h : H.heurLoad V cand ok i s = .ok s')
    (hj : s.2.2.1 = s.2.2.2.1) (hs : ∀ x ∈ s.2.1.take s.2.2.1, x.degree ∈ H.deg) :
    s'.2.2.1 = s'.2.2.2.1 ∧ ∀ x ∈ s'.2.1.take s'.2.2.1, x.degree ∈ H.deg := by
  obtain ⟨eb, nb, j, left, cp⟩ := s
  simp only at hj hs
  unfold heurLoad at h
  simp only [bind_eq_ok] at h
  obtain ⟨id, _, nb1, h1, d, h2, h⟩ := h
  rw [wr_eq_ok] at h1
  obtain ⟨h1, rfl⟩ := h1
  split at h
  · simp only [bind_eq_ok] at h
    obtain ⟨U, _, nb2, h3, eb', _, y, _, w, _, h⟩ := h
    rw [wr_eq_ok] at h3
    obtain ⟨h3, rfl⟩ := h3
    cases h
    refine ⟨by simp [hj], ?_⟩
    simp only [List.set_set]
    intro x hx
    rw [List.take_add_one, List.mem_append] at hx
    rcases hx with hx | hx
    · rw [List.take_set_of_le (by omega)] at hx
      exact hs x hx
    · rw [List.getElem?_set_self h1] at hx
      simp only [Option.toList_some, List.mem_singleton] at hx
      subst hx
      rw [rd_eq_ok] at h2
      exact List.mem_of_getElem? h2
  · cases h
    refine ⟨hj, ?_⟩
    simp only
    rw [List.take_set_of_le (by omega)]
    exact hs

omit [Sub R] [NatCast R] in
theorem heurCollect_inv {H : NWG R} {cur : Nat} {V : Vtx} {cand : GBits} {eb : Mem}
    {nb : List (WData R)} {s : Mem × List (WData R) × Nat × Nat × R}
    (h : H.heurCollect cur V cand eb nb = .ok s) :
    ∀ x ∈ s.2.1.take s.2.2.2.1, x.degree ∈ H.deg := by
  unfold heurCollect at h
  simp only [bind_eq_ok] at h
  obtain ⟨d, _, s1, h1, h2⟩ := h
  let P : Nat → Mem × List (WData R) × Nat × Nat × R → Prop := fun _ s =>
    s.2.2.1 = s.2.2.2.1 ∧ ∀ x ∈ s.2.1.take s.2.2.1, x.degree ∈ H.deg
  have p1 : P V.spos s1 := forRange_inv P (Nat.zero_le _) ⟨rfl, by simp⟩
    (fun k s s' _ _ hp hb => heurLoad_inv hb hp.1 hp.2) h1
  have p2 : P (max V.N (V.spos + 1)) s := by
    rcases Nat.lt_or_ge (V.spos + 1) V.N with hlt | hge
    · exact forRange_inv P (hi := V.N) hlt.le p1
        (fun k s s' _ _ hp hb => heurLoad_inv hb hp.1 hp.2) h2
    · rw [forRange_empty hge] at h2
      cases h2
      exact p1
  rw [← p2.1]
  exact p2.2

theorem heurGrow_deg {cur : Nat} {V : Vtx} {nb : List (WData R)} {candMax : Nat} {res cand : GBits}
    {s : NWG R × Nat × R × Nat × R} {r : (NWG R × Nat × R × Nat × R) ⊕ NWG R}
    (h : heurGrow cur V nb candMax res cand s = .ok r) :
    (match r with | .inl s' => s'.1 | .inr H' => H').deg = s.1.deg := by
  obtain ⟨H, i, cw, left, cp⟩ := s
  unfold heurGrow at h
  simp only at h ⊢
  split at h
  · simp only [bind_eq_ok] at h
    obtain ⟨x, _, b, _, h⟩ := h
    split at h
    · simp only [bind_eq_ok] at h
      obtain ⟨eb, _, w, _, eb1, _, s1, _, h⟩ := h
      split at h
      · cases h; rfl
      · split at h
        · simp only [bind_eq_ok] at h
          obtain ⟨vb, _, eb2, _, h⟩ := h
          cases h; rfl
        · cases h; rfl
    · cases h; rfl
  · cases h; rfl

theorem heurVertex_deg {srt : List (WData R) → List (WData R)} {s s' : NWG R × List (WData R)}
    {cur : Nat} {res cand : GBits} (h : heurVertex srt s cur res cand = .ok s') :
    s'.1.deg = s.1.deg := by
  obtain ⟨H, nb⟩ := s
  unfold heurVertex at h
  simp only [bind_eq_ok] at h
  obtain ⟨V, _, eb, _, eb1, _, eb2, _, cw, _, c, _, h⟩ := h
  split at h
  · cases h; rfl
  · simp only [bind_eq_ok] at h
    obtain ⟨H', h1, h⟩ := h
    cases h
    exact loop_inv (P := fun t : NWG R × Nat × R × Nat × R => t.1.deg = H.deg)
      (Q := fun t => t.deg = H.deg)
      (fun t t' hp hb => (heurGrow_deg hb).trans hp)
      (fun t r hp hb => (heurGrow_deg hb).trans hp) rfl h1

theorem heurVertexStrict_eq {srt : List (WData R) → List (WData R)} {s : NWG R × List (WData R)}
    {cur : Nat} {res cand : GBits} (hd : Sortable s.1.deg) :
    heurVertexStrict srt s cur res cand = heurVertex srt s cur res cand := by
  obtain ⟨H, nb⟩ := s
  unfold heurVertexStrict heurVertex
  refine bind_congr_ok fun V _ => bind_congr_ok fun eb _ => bind_congr_ok fun eb1 _ =>
    bind_congr_ok fun eb2 _ => bind_congr_ok fun cw _ => bind_congr_ok fun c hc => ?_
  obtain ⟨eb3, nb3, j, left, cp⟩ := c
  simp only
  rw [if_pos (hd _ (heurCollect_inv hc))]

theorem heurGraphStrict_eq {srt : List (WData R) → List (WData R)} {H : NWG R}
    (hd : Sortable H.deg) : H.heurGraphStrict srt = H.heurGraph srt := by
  unfold heurGraphStrict heurGraph
  simp only
  rw [heurVertexStrict_eq hd]
  refine bind_congr_ok fun s hs => ?_
  have hs' := heurVertex_deg hs
  simp only at hs'
  congr 1
  refine loop_congr (fun t : (NWG R × List (WData R)) × Nat => t.1.1.deg = H.deg) ?_ ?_ _ _ hs'
  · rintro ⟨⟨H', nb⟩, i⟩ ht
    simp only at ht ⊢
    split
    · refine bind_congr_ok fun m _ => ?_
      split
      · rfl
      · rw [heurVertexStrict_eq (by rw [ht]; exact hd)]
    · rfl
  · rintro ⟨⟨H', nb⟩, i⟩ t' ht hb
    simp only at ht hb
    split at hb
    · simp only [bind_eq_ok] at hb
      obtain ⟨m, _, hb⟩ := hb
      split at hb
      · cases hb; exact ht
      · simp only [bind_eq_ok] at hb
        obtain ⟨s2, h2, hb⟩ := hb
        cases hb
        exact (heurVertex_deg h2).trans ht
    · cases hb

theorem findMaxCliquesStrict_eq {srt : List (WData R) → List (WData R)} {junk : Nat → R}
    {H : NWG R} {v : Nat} {h d : Bool} (hd : Sortable H.deg) :
    H.findMaxCliquesStrict srt junk v h d = H.findMaxCliques srt junk v h d := by
  unfold findMaxCliquesStrict findMaxCliques
  rw [heurGraphStrict_eq hd]

end NWG

theorem getMaxCliqueStrict_eq {srt : List (NWG.WData R) → List (NWG.WData R)} {junk : Nat → R}
    {pg : PyNW R} {a : PyNW.Args R} (hd : ∀ H, pg.G = some H → NWG.Sortable H.deg) :
    pg.getMaxCliqueStrict srt junk a = pg.getMaxClique srt junk a := by
  unfold PyNW.getMaxCliqueStrict PyNW.getMaxClique
  simp only
  cases hH : PyNW.checkLoaded { pg with currentVertex := 0 } with
  | none => rfl
  | some H =>
    have : pg.G = some H := by
      unfold PyNW.checkLoaded at hH
      split at hH
      · cases hH
      · exact hH
    have hs := hd H this
    simp only
    rw [NWG.findMaxCliquesStrict_eq]
    exact hs

namespace NWG

/-- If one sorting function only fails because of the rule, all do. -/
theorem heurVertexStrict_ub {f : List (WData R) → List (WData R)} {s : NWG R × List (WData R)}
    {cur : Nat} {res cand : GBits} (h : (heurVertex f s cur res cand).isOk = true)
    (h' : (heurVertexStrict f s cur res cand).isOk = false)
    (srt : List (WData R) → List (WData R)) :
    heurVertexStrict srt s cur res cand = .error .ub := by
  obtain ⟨H, nb⟩ := s
  unfold heurVertexStrict at h' ⊢
  unfold heurVertex at h
  cases h1 : H.g.vtx cur with
  | error e => simp only [h1, error_bind] at h; cases h
  | ok V =>
  simp only [h1, ok_bind] at h h' ⊢
  cases h2 : res.clear H.g.eb V.N with
  | error e => simp only [h2, error_bind] at h; cases h
  | ok eb =>
  simp only [h2, ok_bind] at h h' ⊢
  cases h3 : cand.clear eb V.N with
  | error e => simp only [h3, error_bind] at h; cases h
  | ok eb1 =>
  simp only [h3, ok_bind] at h h' ⊢
  cases h4 : res.set eb1 V.spos with
  | error e => simp only [h4, error_bind] at h; cases h
  | ok eb2 =>
  simp only [h4, ok_bind] at h h' ⊢
  cases h5 : rd H.wt cur with
  | error e => simp only [h5, error_bind] at h; cases h
  | ok cw =>
  simp only [h5, ok_bind] at h h' ⊢
  cases h6 : H.heurCollect cur V cand eb2 nb with
  | error e => simp only [h6, error_bind] at h; cases h
  | ok c =>
  obtain ⟨eb3, nb3, j, left, cp⟩ := c
  simp only [h6, ok_bind] at h h' ⊢
  split at h
  · rename_i hle
    rw [if_pos hle] at h'
    cases h'
  · rename_i hle
    rw [if_neg hle] at h' ⊢
    split at h'
    · rw [h] at h'; cases h'
    · rename_i hw
      rw [if_neg hw]

/-- The call of the heuristic for the first vertex. -/
def firstVertex (f : NWG R × List (WData R) → Nat → GBits → GBits → M (NWG R × List (WData R)))
    (H : NWG R) : M (NWG R × List (WData R)) :=
  let req := dlen H.g.maxDeg
  let (g, rp) := H.g.loadMemory req
  let (g, cp) := g.loadMemory req
  f ({ H with g := g }, List.replicate g.maxDeg { id := 0, N := 0, pos := 0, degree := 0 })
    H.curLoc ⟨rp, g.maxDeg⟩ ⟨cp, g.maxDeg⟩

theorem heurGraphStrict_ub {f : List (WData R) → List (WData R)} {H : NWG R}
    (h : (H.firstVertex (heurVertex f)).isOk = true)
    (h' : (H.firstVertex (heurVertexStrict f)).isOk = false)
    (srt : List (WData R) → List (WData R)) : H.heurGraphStrict srt = .error .ub := by
  unfold firstVertex at h h'
  simp only at h h'
  have := heurVertexStrict_ub h h' srt
  unfold heurGraphStrict
  simp only
  rw [this, error_bind]

end NWG

/-- The call of the heuristic for the first vertex. -/
def PyNW.firstVertex (f : NWG R × List (NWG.WData R) → Nat → GBits → GBits →
    M (NWG R × List (NWG.WData R))) (pg : PyNW R) (a : PyNW.Args R) :
    M (NWG R × List (NWG.WData R)) :=
  match pg.checkLoaded with
  | none => .error .throw
  | some H => { H with
      curMax := if a.lowerBound > H.curMax then a.lowerBound else H.curMax
      limit := if a.upperBound < H.limit then a.upperBound else H.limit }.firstVertex f

theorem getMaxCliqueStrict_ub {f : List (NWG.WData R) → List (NWG.WData R)} {pg : PyNW R}
    {a : PyNW.Args R} (hu : a.useHeuristic = true)
    (h : (pg.firstVertex (NWG.heurVertex f) a).isOk = true)
    (h' : (pg.firstVertex (NWG.heurVertexStrict f) a).isOk = false)
    (srt : List (NWG.WData R) → List (NWG.WData R)) (junk : Nat → R) :
    pg.getMaxCliqueStrict srt junk a = .error .ub := by
  unfold PyNW.firstVertex at h h'
  unfold PyNW.getMaxCliqueStrict
  have e : PyNW.checkLoaded { pg with currentVertex := 0 } = pg.checkLoaded := rfl
  cases hG : pg.checkLoaded with
  | none => rw [hG] at h; cases h
  | some H =>
  rw [hG] at h h' e
  simp only [e]
  unfold NWG.findMaxCliquesStrict
  rw [hu]
  simp only [if_true]
  rw [NWG.heurGraphStrict_ub h h' srt]
  rfl

/-- A whole history of calls is as with any sorting function. -/
theorem wrunsStrict_eq : ∀ (ops : List (WOp R)) {pg : PyNW R} {n : Nat} {S : SimpleGraph Nat}
    {ω : Nat → R} {H : NWG R}, WPyOk pg n S ω H → (∀ op ∈ ops, op.Legal) →
    NWG.Sortable H.deg → wrunsStrict ops pg = wruns ops pg := by
  intro ops
  induction ops with
  | nil => intro pg n S ω H _ _ _; rfl
  | cons op ops ih =>
    intro pg n S ω H h hl hd
    obtain ⟨pg1, H1, a1, a2, a3, a4⟩ := NWG.AW.wop_spec h (hl op (by simp))
    have hop : op.runStrict pg = op.run pg := by
      cases op with
      | search srt junk a =>
        simp only [WOp.runStrict, WOp.run]
        rw [getMaxCliqueStrict_eq]
        intro H' h'
        rw [h.g] at h'
        cases h'
        exact hd
      | list junk w => rfl
      | reset => rfl
    have e1 : wrunsStrict (op :: ops) pg = (op.runStrict pg >>= wrunsStrict ops) := by
      unfold wrunsStrict; rw [List.foldlM_cons]
    have e2 : wruns (op :: ops) pg = (op.run pg >>= wruns ops) := by
      unfold wruns; rw [List.foldlM_cons]
    rw [e1, e2, hop, a1, ok_bind, ok_bind]
    exact ih a2 (fun o ho => hl o (by simp [ho])) (by rw [a3.deg]; exact hd)

end CM
