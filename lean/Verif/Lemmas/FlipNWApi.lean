import Verif.Lemmas.FlipNWEnum
import Verif.Lemmas.Recompile

/-!
# The calls of the weighted API with the arguments of `NWSearchState` evaluated in either order
-/

namespace CM

open Graph

variable {R : Type} [Zero R] [Add R] [Sub R] [NatCast R] [LT R] [LE R] [DecidableLT R]
  [DecidableLE R]

namespace PyNW

/-- The object in a program whose compiler evaluates arguments in the other order. -/
def fl (pg : PyNW R) : PyNW R := { pg with G := pg.G.map NWG.fl }

theorem fl_some {pg : PyNW R} {H : NWG R} (h : pg.G = some H) :
    pg.fl = { pg with G := some H.fl } := by
  unfold fl
  rw [h]
  rfl

end PyNW

open NWG NWG.AW

variable {pg : PyNW R} {n : Nat} {S : SimpleGraph Nat} {ω : Nat → R} {H : NWG R} {b : Nat}

theorem WPyOk.fl (h : WPyOk pg n S ω H) : WPyOk pg.fl n S ω H.fl := by
  obtain ⟨a, b, c, ⟨d1, d2, d3⟩, e, f, g⟩ := h
  exact ⟨by rw [PyNW.fl_some a], b, c, ⟨d1.fl, ⟨d2.wt, d2.deg, d2.mcs⟩, d3⟩, e.fl, f, g⟩

namespace NWG

theorem wgetMaxClique_rel (h : WPyOk pg n S ω H) {srt : List (NWG.WData R) → List (NWG.WData R)}
    (hsrt : ∀ l, (srt l).Perm l) (junk : Nat → R) (a : PyNW.Args R) :
    Both (fun x y => y = (x.1.fl, x.2)) (pg.getMaxClique srt junk a)
      (pg.fl.getMaxClique srt junk a) := by
  have hpos := h.pos
  have hnv := h.nv
  rw [PyNW.fl_some h.g]
  unfold PyNW.getMaxClique PyNW.checkLoaded
  dsimp only
  have hnz : pg.nvert ≠ 0 := by omega
  rw [if_neg hnz, if_neg hnz, h.g]
  dsimp only
  refine Both.bind (AW.findMax_rel hsrt (wbounded_at h.ok.at a) junk 0 a.useHeuristic a.useDfs) ?_
  rintro ⟨A, cv⟩ _ rfl
  refine Both.bind (AW.getClique_fl A _) ?_
  rintro ⟨B, ans⟩ _ rfl
  refine Both.same fun w => ?_
  exact Both.ite (Both.pure rfl) (Both.pure rfl)

theorem wresetSearch_rel (h : WPyOk pg n S ω H) :
    Both (fun x y => y = x.fl) pg.resetSearch pg.fl.resetSearch := by
  rw [PyNW.fl_some h.g]
  unfold PyNW.resetSearch
  rw [h.g]
  exact Both.pure rfl

/-- Two iterators in use. -/
structure WIRel (b : Nat) (Hs : NWG R) (pg pg' : PyNW R) (E E' : WEnum R) : Prop where
  inv : ∃ H H', pg.G = some H ∧ pg' = { pg with G := some H' } ∧ AW.WEInv b Hs H E ∧
    AW.WER b Hs.g.eb.length (H, E) (H', E')
  nv : Hs.g.nVert = pg.nvert + 1
  lt : Hs.g.eb.length < 2 ^ 64

theorem WIRel.new (h : WPyAt b pg n S ω H) {ws : List R} (hws : H.g.maxDeg ≤ ws.length) (W : R) :
    WIRel b H pg pg.fl (WEnum.new ws W) (WEnum.new ws W) := by
  have hnv := h.of.nv
  have h1 := h.nv
  have h0 := h.pos
  have hl := h.ok.ok.wf.eblen
  refine ⟨⟨H, H.fl, h.g, PyNW.fl_some h.g, AW.WEInv.new h.ok (by omega) ws hws W, rfl,
    Or.inr ⟨?_, 0, ?_, ?_, ?_⟩⟩, by omega, by omega⟩
  · show 1 < H.g.nVert
    omega
  · intro h; exact absurd rfl h
  · exact .nil
  · refine ⟨_, rfl, fun _ => ⟨H.g.eb, rfl, rfl, rfl, h.ok.ok.cur, ?_, fun i _ => rfl⟩,
      fun h => absurd rfl h⟩
    obtain ⟨K, _, hr⟩ := h.ok.ok.room
    show b + 0 ≤ _
    omega

theorem WIRel.next {Hs : NWG R} {pg' : PyNW R} {E E' : WEnum R} (h : WIRel b Hs pg pg' E E') :
    Both (fun x y => x.2.2 = y.2.2 ∧ WIRel b Hs x.1 y.1 x.2.1 y.2.1 ∧
      (x.2.2 = none → y.1 = x.1.fl)) (pg.nextClique E) (pg'.nextClique E') := by
  obtain ⟨⟨H, H', hg, rfl, hI, hR⟩, hnv, hlt⟩ := h
  obtain ⟨H1, E1, I1, hs⟩ := AW.wnextClique_spec hg hnv hI
  have main : Both (fun x y => x.2.2 = y.2.2 ∧ ∃ A B, x.1 = { pg with G := some A } ∧
      y.1 = { pg with G := some B } ∧ AW.WER b Hs.g.eb.length (A, x.2.1) (B, y.2.1))
      (pg.nextClique E) (PyNW.nextClique { pg with G := some H' } E') := by
    unfold PyNW.nextClique
    rw [hg]
    dsimp only
    obtain ⟨H2, E2, v, a1, a2, a3⟩ := AW.enumGraph_spec hI
    refine Both.bind (Q := fun x y => (AW.WER b Hs.g.eb.length (x.1, x.2.1) (y.1, y.2.1) ∧
      x.2.2 = y.2.2) ∧ x = (H2, E2, v))
      (Both.mono (AW.enumGraph_rel hI hlt hR) fun x y hx _ hq => ⟨hq, ?_⟩) ?_
    · rw [a1] at hx
      cases hx
      rfl
    · rintro ⟨A, F, u⟩ ⟨B, F', u'⟩ ⟨⟨q1, q2⟩, q3⟩
      cases q3
      dsimp only at q1 q2
      subst q2
      refine Both.iteP (fun _ => Both.pure ⟨rfl, _, _, rfl, rfl, q1⟩) fun hle => ?_
      dsimp only at hle
      rcases a3 with hrep | ⟨c1, _⟩
      · refine Both.bind (q1.getClique ?_ ?_) ?_
        · exact hrep.2.2.1.1
        · exact hrep.2.1.symm
        · rintro ⟨C, ans⟩ ⟨D, _⟩ ⟨rfl, q4⟩
          exact Both.pure ⟨rfl, _, _, rfl, rfl, q4⟩
      · omega
  refine Both.mono main ?_
  rintro ⟨x1, x2, x3⟩ ⟨y1, y2, y3⟩ hx _ ⟨q1, A, B, qa, qb, qr⟩
  dsimp only at q1 qa qb qr
  subst q1 qa qb
  have hA : A = H1 ∧ x2 = E1 ∧ (x3 = none → E1.cur = Hs.g.nVert) := by
    rcases hs with ⟨v, C, s1, _⟩ | ⟨s1, _, s3, _⟩
    · rw [s1] at hx
      cases hx
      exact ⟨rfl, rfl, fun h => by cases h⟩
    · rw [s1] at hx
      cases hx
      exact ⟨rfl, rfl, fun _ => s3⟩
  obtain ⟨rfl, rfl, hn⟩ := hA
  refine ⟨rfl, ⟨⟨A, B, rfl, rfl, I1, qr⟩, hnv, hlt⟩, fun h => ?_⟩
  have hc := hn h
  rcases qr.2 with ⟨_, _, _, e⟩ | ⟨e, _⟩
  · dsimp only at e
    rw [e]
    rfl
  · dsimp only at e
    have := I1.1.frame.frame.nVert
    omega

theorem WIRel.consume {Hs : NWG R} (fuel : Nat)
    {pg pg' : PyNW R} {E E' : WEnum R} (h : WIRel b Hs pg pg' E E') :
    Both (fun x y => x.2.2 = y.2.2 ∧ y.1 = x.1.fl) (pg.consume fuel E) (pg'.consume fuel E') := by
  induction fuel generalizing pg pg' E E' with
  | zero => intro a b ha; cases ha
  | succ f ih =>
    unfold PyNW.consume
    refine Both.bind h.next ?_
    rintro ⟨p1, E1, c⟩ ⟨p2, E2, _⟩ ⟨rfl, h1, h3⟩
    dsimp only at h1 h3
    cases c with
    | none => exact Both.pure ⟨rfl, h3 rfl⟩
    | some c =>
      refine Both.bind (ih h1) ?_
      rintro ⟨p3, E3, cs⟩ ⟨p4, E4, _⟩ ⟨rfl, h4⟩
      exact Both.pure ⟨rfl, h4⟩

theorem wlistCliques_rel (h : WPyOk pg n S ω H) (junk : Nat → R) (W : R) :
    Both (fun x y => y = (x.1.fl, x.2)) (pg.listCliques junk W) (pg.fl.listCliques junk W) := by
  have e1 : pg.allCliques junk W = .ok (WEnum.new ((List.range H.g.maxDeg).map junk) W) := by
    unfold PyNW.allCliques; rw [h.loaded]
  have e2 : pg.fl.allCliques junk W = .ok (WEnum.new ((List.range H.g.maxDeg).map junk) W) := by
    unfold PyNW.allCliques; rw [h.fl.loaded]; rfl
  unfold PyNW.listCliques
  rw [e1, e2, ok_bind, ok_bind, h.g]
  have hfg : pg.fl.G = some H.fl := by rw [PyNW.fl_some h.g]
  rw [hfg]
  dsimp only
  refine Both.bind ((WIRel.new h.at (by simp) W).consume (H.g.nVert * 2 ^ H.g.maxDeg + 1)) ?_
  rintro ⟨p1, E1, cs⟩ ⟨p2, E2, _⟩ ⟨rfl, q⟩
  dsimp only at q
  subst q
  exact Both.pure rfl

/-! ## Loading -/

/-- The same graph in another build. -/
def alt (H : NWG R) (d a : Bool) : NWG R := { H with g := { H.g with dangling := d, argLR := a } }

theorem boundsLoop_alt (d a : Bool) (H : NWG R) :
    Both (fun x y => y = NWG.alt x d a) H.boundsLoop (H.alt d a).boundsLoop := by
  unfold boundsLoop
  refine Both.forRange (P := fun x y => y = NWG.alt x d a) rfl ?_
  rintro cur A _ rfl
  refine Both.same fun m => Both.same fun mcs => ?_
  exact Both.ite (Both.pure rfl) (Both.pure rfl)

theorem gctor_two {l l' : Bool} {c c' n : Nat} {edges : Edges} {G G' : Graph}
    (h : Graph.ctor l c n edges = .ok G) (h' : Graph.ctor l' c' n edges = .ok G') :
    ∃ d a, G' = { G with dangling := d, argLR := a } := by
  obtain ⟨d, h2⟩ := ctor_flag (cap' := c') h
  by_cases hl : l' = l
  · subst hl
    rw [h2] at h'
    cases h'
    exact ⟨d, G.argLR, rfl⟩
  · have : l' = !l := by cases l <;> cases l' <;> simp_all
    subst this
    have := Graph.ctor_fl l c' n edges _ _ h2 h'
    exact ⟨d, !G.argLR, this⟩

theorem wctor_two {l l' : Bool} {c c' n : Nat} {edges : Edges} {wts : List R} {H H' : NWG R}
    (h : NWG.ctor l c n edges wts = .ok H) (h' : NWG.ctor l' c' n edges wts = .ok H')
    (hd : H.g.dangling = false) (hd' : H'.g.dangling = false) : H' = H ∨ H' = H.fl := by
  have key : ∃ d a, H' = H.alt d a := by
    unfold NWG.ctor at h h'
    obtain ⟨G, h1, h⟩ := bind_eq_ok.1 h
    obtain ⟨G', h1', h'⟩ := bind_eq_ok.1 h'
    obtain ⟨d, a, rfl⟩ := gctor_two h1 h1'
    obtain ⟨⟨wt, deg⟩, h2, h⟩ := bind_eq_ok.1 h
    obtain ⟨x, h2', h'⟩ := bind_eq_ok.1 h'
    have e : x = (wt, deg) := by
      have := h2.symm.trans h2'
      cases this
      rfl
    subst e
    exact ⟨d, a, boundsLoop_alt d a _ _ _ h h'⟩
  obtain ⟨d, a, rfl⟩ := key
  have : d = false := hd'
  subst this
  by_cases ha : a = H.g.argLR
  · subst ha
    left
    unfold alt
    rw [← hd]
  · right
    have : a = !H.g.argLR := by cases hb : H.g.argLR <;> cases a <;> simp_all
    subst this
    unfold alt NWG.fl Graph.fl
    rw [← hd]

end NWG

end CM
