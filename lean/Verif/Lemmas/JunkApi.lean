import Verif.Lemmas.JunkEnum
import Verif.Model.Uninit

/-!
# What the memory reserved for `weights` contained does not matter: the calls
-/

namespace CM

open Graph

namespace NWG

namespace AW

set_option linter.unusedSectionVars false

variable {R : Type} [Zero R] [Add R] [Sub R] [NatCast R] [LT R] [LE R] [DecidableLT R]
  [DecidableLE R]

variable {pg : PyNW R} {n : Nat} {S : SimpleGraph Nat} {ω : Nat → R} {b : Nat} {Hs H : NWG R}
  {E E' : WEnum R}

theorem getMaxClique_junk (h : WPyAt b pg n S ω H) {srt : List (WData R) → List (WData R)}
    (hsrt : ∀ l, (srt l).Perm l) (junk junk' : Nat → R) (a : PyNW.Args R) :
    pg.getMaxClique srt junk' a = pg.getMaxClique srt junk a := by
  have main : Both (fun x y => y = x) (pg.getMaxClique srt junk a) (pg.getMaxClique srt junk' a) := by
    have hpos := h.pos
    have hnv := h.nv
    unfold PyNW.getMaxClique PyNW.checkLoaded
    dsimp only
    have hnz : pg.nvert ≠ 0 := by omega
    rw [if_neg hnz, h.g]
    dsimp only
    refine Both.bind (findMax_junk hsrt (wbounded_at h.ok a) junk junk' 0 a.useHeuristic a.useDfs) ?_
    rintro ⟨A, cv⟩ _ rfl
    exact fun x y hx hy => by rw [hx] at hy; cases hy; rfl
  obtain ⟨_, _, h1, _⟩ := wsearch_at h hsrt junk a
  obtain ⟨_, _, h2, _⟩ := wsearch_at h hsrt junk' a
  rw [h1, h2]
  rw [main _ _ h1 h2]

theorem WEInv.junk (h : WEInv b Hs H E) (hJ : JR Hs E E') : WEInv b Hs H E' := by
  obtain ⟨e1, e2, _⟩ := hJ
  generalize E'.ws = ws at e1 e2
  generalize E'.cliqueWeight = cw at e1
  subst e1
  unfold WEInv at h ⊢
  dsimp only
  rw [e2]
  exact h

theorem nextClique_junk (hg : pg.G = some H) (hI : WEInv b Hs H E) (hJ : JR Hs E E') :
    Both (fun x y => y.1 = x.1 ∧ y.2.2 = x.2.2 ∧ JR Hs x.2.1 y.2.1)
      (pg.nextClique E) (pg.nextClique E') := by
  unfold PyNW.nextClique
  rw [hg]
  dsimp only
  refine Both.bind (enumGraph_junk hI hJ) ?_
  rintro ⟨A, F, v⟩ ⟨_, F', _⟩ ⟨rfl, rfl, q⟩
  refine Both.ite (Both.pure ⟨rfl, rfl, q⟩) ?_
  exact Both.same fun x => Both.pure ⟨rfl, rfl, q⟩

theorem consume_junk (fuel : Nat) {pg : PyNW R} {H : NWG R} {E E' : WEnum R} (hg : pg.G = some H)
    (hnv : Hs.g.nVert = pg.nvert + 1) (hI : WEInv b Hs H E) (hJ : JR Hs E E') :
    Both (fun x y => y.1 = x.1 ∧ y.2.2 = x.2.2) (pg.consume fuel E) (pg.consume fuel E') := by
  induction fuel generalizing pg H E E' with
  | zero => intro a b ha; cases ha
  | succ f ih =>
    unfold PyNW.consume
    obtain ⟨H1, E1, I1, hs⟩ := wnextClique_spec hg hnv hI
    refine Both.bind (Q := fun x y => (y.1 = x.1 ∧ y.2.2 = x.2.2 ∧ JR Hs x.2.1 y.2.1) ∧
        x.1 = { pg with G := some H1 } ∧ x.2.1 = E1)
      (Both.mono (nextClique_junk hg hI hJ) fun x y hx _ hq => ⟨hq, ?_⟩) ?_
    · rcases hs with ⟨v, C, s1, _⟩ | ⟨s1, _⟩ <;> rw [s1] at hx <;> cases hx <;> exact ⟨rfl, rfl⟩
    · rintro ⟨_, E2, _⟩ ⟨p1, E3, c⟩ ⟨⟨rfl, rfl, q1⟩, q2, q3⟩
      dsimp only at q1 q2 q3
      subst q2 q3
      cases c with
      | none => exact Both.pure ⟨rfl, rfl⟩
      | some c =>
        refine Both.bind (ih (pg := { pg with G := some H1 }) rfl hnv I1 q1) ?_
        rintro ⟨p3, E3, cs⟩ ⟨_, E4, _⟩ ⟨rfl, rfl⟩
        exact Both.pure ⟨rfl, rfl⟩

theorem JR.new (ws ws' : List R) (hl : ws'.length = ws.length) (W : R) :
    JR Hs (WEnum.new ws W) (WEnum.new ws' W) :=
  ⟨rfl, hl, fun h => absurd rfl h⟩

theorem listCliques_junk (h : WPyAt b pg n S ω H) (junk junk' : Nat → R) (W : R) :
    pg.listCliques junk' W = pg.listCliques junk W := by
  have hnv := h.of.nv
  have hnv' := h.nv
  have hpos := h.pos
  have main : Both (fun x y => y = x) (pg.listCliques junk W) (pg.listCliques junk' W) := by
    have e : ∀ j : Nat → R,
        pg.allCliques j W = .ok (WEnum.new ((List.range H.g.maxDeg).map j) W) := by
      intro j; unfold PyNW.allCliques PyNW.checkLoaded
      rw [if_neg (by omega), h.g]
    unfold PyNW.listCliques
    rw [e, e, ok_bind, ok_bind, h.g]
    dsimp only
    refine Both.bind (consume_junk _ h.g (by omega)
      (WEInv.new h.ok (by omega) ((List.range H.g.maxDeg).map junk) (by simp) W)
      (JR.new _ _ (by simp) W)) ?_
    rintro ⟨p1, E1, cs⟩ ⟨_, E2, _⟩ ⟨rfl, rfl⟩
    exact Both.pure rfl
  obtain ⟨_, _, _, _, _, _, _, _, _, h1, _⟩ := wlistCliques_at h junk W
  obtain ⟨_, _, _, _, _, _, _, _, _, h2, _⟩ := wlistCliques_at h junk' W
  rw [h1, h2]
  rw [main _ _ h1 h2]

theorem JR.frame {Hs' : NWG R} (h : JR Hs E E') (F : WFrame Hs Hs') : JR Hs' E E' := by
  refine ⟨h.1, h.2.1, fun hs => ?_⟩
  rw [F.wCand]
  exact h.2.2 hs

/-- A program that holds one iterator. -/
theorem wacts_junk {xs ys : List (WAct R)} (hxy : List.Forall₂ WAct.SameButMemory xs ys) :
    ∀ {pg : PyNW R} {Hs H : NWG R} {E E' : WEnum R}, WHeld b pg n S ω Hs H E →
    (∀ op, WAct.call op ∈ xs → op.Legal) → JR Hs E E' →
    ∃ q J J' seen, wacts xs pg E = .ok (q, J, seen) ∧ wacts ys pg E' = .ok (q, J', seen) := by
  induction hxy with
  | nil =>
    intro pg Hs H E E' _ _ _
    exact ⟨pg, E, E', [], rfl, rfl⟩
  | @cons x y xs ys hx _ ih =>
    intro pg Hs H E E' h hc hJ
    have hc' : ∀ op, WAct.call op ∈ xs → op.Legal := fun op ho => hc op (List.mem_cons_of_mem _ ho)
    have other : ∀ op op', x = .call op → y = .call op' →
        (∀ p1 s, (WAct.call op).run pg E = .ok (p1, E, s) →
          (WAct.call op').run pg E' = .ok (p1, E', s)) →
        ∃ q J J' seen, wacts (x :: xs) pg E = .ok (q, J, seen) ∧
          wacts (y :: ys) pg E' = .ok (q, J', seen) := by
      rintro op op' rfl rfl he
      obtain ⟨pg1, Hs1, H1, s, a1, a2, a3, _⟩ := h.call (hc op (List.mem_cons_self ..))
      obtain ⟨q, J, J', ss, b1, b2⟩ := ih a2 hc' (hJ.frame a3)
      refine ⟨q, J, J', s :: ss, ?_, ?_⟩
      · show ((WAct.call op).run pg E >>= _) = _
        rw [a1, ok_bind]
        show (wacts xs pg1 E >>= _) = _
        rw [b1, ok_bind]
      · show ((WAct.call op').run pg E' >>= _) = _
        rw [he _ _ a1, ok_bind]
        show (wacts ys pg1 E' >>= _) = _
        rw [b2, ok_bind]
    cases hx with
    | next =>
      obtain ⟨pg1, H1, E1, c, a1, a2, _⟩ := h.next
      have hnv : Hs.g.nVert = pg.nvert + 1 := by
        rw [← h.frame.frame.nVert, h.py.of.nv, h.py.nv]
      have hex : ∃ z, pg.nextClique E' = .ok z := by
        obtain ⟨_, _, _, hs | ⟨hs, _⟩⟩ := wnextClique_spec h.py.g hnv (h.inv.junk hJ)
        · obtain ⟨_, _, hs, _⟩ := hs
          exact ⟨_, hs⟩
        · exact ⟨_, hs⟩
      obtain ⟨⟨p2, E2, c2⟩, hz⟩ := hex
      obtain ⟨e1, e2, e3⟩ := nextClique_junk h.py.g h.inv hJ _ _ a1 hz
      dsimp only at e1 e2 e3
      subst e1 e2
      obtain ⟨q, J, J', ss, b1, b2⟩ := ih a2 hc' e3
      refine ⟨q, J, J', .next c2 :: ss, ?_, ?_⟩
      · show ((pg.nextClique E >>= _) >>= _) = _
        rw [a1, ok_bind, ok_bind]
        show (wacts xs _ E1 >>= _) = _
        rw [b1, ok_bind]
      · show ((pg.nextClique E' >>= _) >>= _) = _
        rw [hz, ok_bind, ok_bind]
        show (wacts ys _ E2 >>= _) = _
        rw [b2, ok_bind]
    | search srt j j' a =>
      refine other _ _ rfl rfl fun p1 s hs => ?_
      have hl := hc _ (List.mem_cons_self ..)
      rw [show (WAct.call (.search srt j' a)).run pg E' =
        (pg.getMaxClique srt j' a >>= fun z => .ok (z.1, E', .found a z.2)) from rfl,
        getMaxClique_junk h.py hl j j' a]
      obtain ⟨z, h1, h2⟩ := bind_eq_ok.1 hs
      cases h2
      rw [h1, ok_bind]
    | reset =>
      refine other _ _ rfl rfl fun p1 s hs => ?_
      obtain ⟨z, h1, h2⟩ := bind_eq_ok.1 hs
      cases h2
      show (pg.resetSearch >>= _) = _
      rw [h1, ok_bind]
    | list j j' W =>
      refine other _ _ rfl rfl fun p1 s hs => ?_
      rw [show (WAct.call (.list j' W)).run pg E' =
        (pg.listCliques j' W >>= fun z => .ok (z.1, E', .list W z.2)) from rfl,
        listCliques_junk h.py j j' W]
      obtain ⟨z, h1, h2⟩ := bind_eq_ok.1 hs
      cases h2
      rw [h1, ok_bind]

end AW

end NWG

end CM
