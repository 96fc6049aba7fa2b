import Verif.Lemmas.FlipNW
import Verif.Lemmas.FlipApi
import Verif.Lemmas.AWHeld

/-!
# The weighted enumerator with the arguments of `NWSearchState` evaluated in either order

As `FlipEnum` and `FlipApi`, for weighted graphs.
-/

namespace CM

open Graph

namespace NWG

namespace AW

variable {R : Type} [Zero R] [Add R] [Sub R] [NatCast R] [LT R] [LE R] [DecidableLT R]
  [DecidableLE R]

variable {b r L d N : Nat} {H H' : NWG R} {s s' : WState R}

theorem fl_fl (H : NWG R) : H.fl.fl = H := by
  unfold fl
  dsimp only
  rw [Graph.fl_fl]

/-- A result with the graph in the other build. -/
def wflp {α : Type} (x : NWG R × α) : NWG R × α := (x.1.fl, x.2)

/-! ## Searches -/

theorem stackGraph_rel {H : NWG R} (h : WOkAt b H) (junk : Nat → R) :
    Both (fun x y => y = wflp x) (H.stackGraph junk) (H.fl.stackGraph junk) := by
  unfold stackGraph
  obtain ⟨H1, ws1, a1, aw, a2⟩ := stackVertex_spec h.ok.ready h.l h.loc
    (ws := (List.range H.g.maxDeg).map junk) (by simp)
  obtain ⟨o1, i1⟩ := a2.okAt h h.loc
  have hmd : H1.g.maxDeg = H.g.maxDeg := i1.frame.frame.maxDeg
  refine Both.bind (Q := fun A B => B = wflp A ∧ A = (H1, ws1))
    (Both.mono (stackVertex_rel h.ok.start _ H.curLoc) fun A B hA _ hq => ⟨hq, ?_⟩) ?_
  · rw [a1] at hA; cases hA; rfl
  rintro _ _ ⟨rfl, rfl⟩
  refine Both.bind (Q := fun A B => B = wflp A)
    (Both.mono (Both.forRangeIn (P := fun X Y => Y = wflp X ∧ WOkAt b X.1 ∧
        X.1.g.nVert = H1.g.nVert ∧ X.2.length = X.1.g.maxDeg)
      ⟨rfl, o1, rfl, by rw [aw]; exact hmd.symm⟩ ?_) fun _ _ _ _ h => h.1) ?_
  · rintro i ⟨X, ws⟩ _ _ hi ⟨rfl, oX, hn, hw⟩
    dsimp only at oX hn hw ⊢
    refine Both.same fun m => ?_
    refine Both.ite (Both.pure ⟨rfl, oX, hn, hw⟩) ?_
    have hiX : i < X.g.nVert := by rw [hn]; exact hi
    obtain ⟨Y, ws', d1, d2, d3⟩ := stackVertex_spec oX.ok.ready oX.l hiX hw
    obtain ⟨o2, i2⟩ := d3.okAt oX hiX
    refine Both.mono (stackVertex_rel oX.ok.start ws i) fun C D hC _ hq => ⟨hq, ?_⟩
    rw [d1] at hC
    cases hC
    exact ⟨o2, by rw [i2.frame.frame.nVert]; exact hn, by rw [d2]; exact i2.frame.frame.maxDeg.symm⟩
  · rintro ⟨X, ws⟩ _ rfl
    exact Both.pure rfl

theorem heurGrow_fl (cur : Nat) (V : Vtx) (nb : List (WData R)) (candMax : Nat) (res cand : GBits)
    (H : NWG R) (q : Nat × R × Nat × R) :
    Both (fun x y => (∃ a c, x = .inl a ∧ y = .inl c ∧ c = wflp a) ∨
      ∃ a c, x = .inr a ∧ y = .inr c ∧ c = NWG.fl a)
      (heurGrow cur V nb candMax res cand (H, q)) (heurGrow cur V nb candMax res cand (H.fl, q)) := by
  obtain ⟨i, cw, left, cp⟩ := q
  unfold heurGrow
  dsimp only
  refine Both.ite ?_ (Both.pure (Or.inr ⟨_, _, rfl, rfl, rfl⟩))
  refine Both.same fun x => Both.same fun t => ?_
  refine Both.ite ?_ (Both.pure (Or.inl ⟨_, _, rfl, rfl, rfl⟩))
  refine Both.same fun eb => Both.same fun w => Both.same fun eb => Both.same fun z => ?_
  refine Both.ite (Both.pure (Or.inr ⟨_, _, rfl, rfl, rfl⟩)) ?_
  refine Both.ite ?_ (Both.pure (Or.inl ⟨_, _, rfl, rfl, rfl⟩))
  refine Both.same fun vb => Both.same fun eb => ?_
  exact Both.pure (Or.inr ⟨_, _, rfl, rfl, rfl⟩)

theorem heurVertex_fl (srt : List (WData R) → List (WData R)) (H : NWG R) (nb : List (WData R))
    (cur : Nat) (res cand : GBits) :
    Both (fun x y => y = wflp x) (heurVertex srt (H, nb) cur res cand)
      (heurVertex srt (H.fl, nb) cur res cand) := by
  unfold heurVertex
  dsimp only
  refine Both.same fun V => Both.same fun eb => Both.same fun eb => Both.same fun eb =>
    Both.same fun cw => Both.same fun z => ?_
  refine Both.ite (Both.pure rfl) ?_
  refine Both.bind (Both.loop (P := fun x y => y = wflp x) (R := fun x y => y = NWG.fl x) ?_ _ rfl) ?_
  · rintro ⟨A, q⟩ _ rfl
    exact heurGrow_fl cur V _ _ res cand A q
  · rintro A _ rfl
    exact Both.pure rfl

theorem heurGraph_fl (srt : List (WData R) → List (WData R)) (H : NWG R) :
    Both (fun x y => y = NWG.fl x) (H.heurGraph srt) (H.fl.heurGraph srt) := by
  unfold heurGraph
  dsimp only [Graph.loadMemory]
  refine Both.bind (heurVertex_fl srt { H with g := { { H.g with
    searchCur := uadd H.g.searchCur (dlen H.g.maxDeg) } with
      searchCur := uadd (uadd H.g.searchCur (dlen H.g.maxDeg)) (dlen H.g.maxDeg) } } _ _ _ _) ?_
  rintro ⟨A, nb⟩ _ rfl
  refine Both.bind (Both.loop (P := fun x y => y = (wflp x.1, x.2)) (R := fun x y => y = NWG.fl x) ?_ _ rfl) ?_
  · rintro ⟨⟨A, nb⟩, i⟩ _ rfl
    dsimp only
    refine Both.ite ?_ (Both.pure (Or.inr ⟨_, _, rfl, rfl, rfl⟩))
    refine Both.same fun m => ?_
    refine Both.ite (Both.pure (Or.inl ⟨_, _, rfl, rfl, rfl⟩)) ?_
    refine Both.bind (heurVertex_fl srt A nb i _ _) ?_
    rintro ⟨B, nb⟩ _ rfl
    exact Both.pure (Or.inl ⟨_, _, rfl, rfl, rfl⟩)
  · rintro A _ rfl
    refine Both.bind (Both.of_agree (clearMemory_fl A.g _)) ?_
    rintro B _ rfl
    exact Both.pure rfl

theorem findMax_rel {H : NWG R} {srt : List (WData R) → List (WData R)}
    (hsrt : ∀ l, (srt l).Perm l) (h : WOkAt b H) (junk : Nat → R) (sv : Nat) (heur dfs : Bool) :
    Both (fun x y => y = wflp x) (H.findMaxCliques srt junk sv heur dfs)
      (H.fl.findMaxCliques srt junk sv heur dfs) := by
  have key : ∀ X : NWG R, WOkAt b X → Both (fun x y => y = wflp x)
      (if dfs then X.stackGraph junk else .ok (X, sv))
      (if dfs then X.fl.stackGraph junk else .ok (X.fl, sv)) := by
    intro X oX
    exact Both.ite (stackGraph_rel oX junk) (Both.pure rfl)
  unfold findMaxCliques
  cases heur with
  | false =>
    simp only [Bool.false_eq_true, if_false]
    exact key H h
  | true =>
    simp only [if_true]
    obtain ⟨H1, h1, h2, _⟩ := heurGraph_at hsrt h
    refine Both.bind (Q := fun A B => B = A.fl ∧ A = H1)
      (Both.mono (heurGraph_fl srt H) fun A B hA _ hq => ⟨hq, ?_⟩) ?_
    · rw [h1] at hA; cases hA; rfl
    · rintro A _ ⟨rfl, rfl⟩
      exact key A h2

theorem getClique_fl (H : NWG R) (i : Nat) :
    Both (fun x y => y = wflp x) (H.getClique i) (H.fl.getClique i) := by
  unfold NWG.getClique
  refine Both.bind (Graph.getClique_fl H.g i) ?_
  rintro ⟨A, ans⟩ _ rfl
  exact Both.pure rfl

/-! ## The enumerator -/

theorem enumScan_rel {H : NWG R} {V U : Vtx} {m m' : Mem} {c c' : GBits}
    (hm : Moved b r L m m') (hi : Img b r c c') (hN : c.len = V.N) (e : Mem)
    (ws : List R) (cw wj required : R) (k0 : Nat) (cp0 : R) :
    Both (fun x y => x = y ∧ ∀ k ∈ x.1, k < V.N) (H.enumScan V U c m ws cw wj required k0 cp0)
      (NWG.enumScan { H with g := H.g.other e } V U c' m' ws cw wj required k0 cp0) := by
  unfold enumScan
  refine Both.loop (P := fun x y => x = y ∧ ∀ k ∈ x.2.1, k < V.N) ?_ _
    ⟨rfl, fun k hk => by cases hk⟩
  rintro ⟨k, rm, cp⟩ _ ⟨rfl, hrm⟩
  refine Both.iteP (fun hc => ?_) fun hc => ?_
  · refine Both.bind (hm.test hi (by omega)) ?_
    rintro t _ rfl
    refine Both.ite ?_ (Both.pure (Or.inl ⟨_, _, rfl, rfl, rfl, hrm⟩))
    refine Both.same fun val => Both.same fun fa => ?_
    refine Both.ite (Both.pure (Or.inl ⟨_, _, rfl, rfl, rfl, hrm⟩)) ?_
    refine Both.same fun w => ?_
    refine Both.pure (Or.inl ⟨_, _, rfl, rfl, rfl, ?_⟩)
    dsimp only
    intro q hq
    rcases List.mem_append.1 hq with h | h
    · exact hrm q h
    · rw [List.mem_singleton.1 h]; exact hc.1
  · exact Both.pure (Or.inr ⟨_, _, rfl, rfl, rfl, hrm⟩)

def WExitRel (b r L N d : Nat) : NWG.EnumExit R → NWG.EnumExit R → Prop
  | .found H t, .found H' t' => WRel b r L d H H' ∧ WSRel b r N t t'
  | .pushed H t n cw, .pushed H' t' n' cw' => WRel b r L (d + 1) H H' ∧ WSRel b r N t t' ∧
      WSRel b r N n n' ∧ cw = cw'
  | .done H t, .done H' t' => WRel b r L d H H' ∧ WSRel b r N t t'
  | _, _ => False

theorem enumFor_rel {V : Vtx} (ws : List R) (cw required : R) (j : Nat) (hr : dlen V.N = r)
    (hlow : V.ebo + dlen V.N ≤ b) (hL : L < 2 ^ 64) (hd : 2 ≤ d) (h : WRel b r L d H H')
    (hs : WSRel b r V.N s s') :
    Both (fun x y => (∃ a' b', x = .inl a' ∧ y = .inl b' ∧
        (WRel b r L d a'.1 b'.1 ∧ WSRel b r V.N a'.2.1 b'.2.1 ∧ a'.2.2 = b'.2.2)) ∨
      ∃ c e, x = .inr c ∧ y = .inr e ∧ WExitRel b r L V.N d c e)
      (enumFor V r ws cw required (H, s, j)) (enumFor V r ws cw required (H', s', j)) := by
  obtain ⟨g, rfl, eb, rfl, hm, hc, hb⟩ := h
  obtain ⟨hp, hs⟩ := hs
  have hci := hs.cand
  have hcN : s.cand.len = V.N := hs.cN
  have hri := hs.resImg hr
  have hrN : s.res.len = V.N := hs.resN
  have hcN' : s.plain.cand.len = V.N := hcN
  have hrN' : s.plain.res.len = V.N := hrN
  unfold enumFor
  dsimp only
  rw [hp]
  refine Both.iteP (fun hj => ?_) fun hj =>
    Both.pure (Or.inr ⟨_, _, rfl, rfl, ⟨_, rfl, eb, rfl, hm, hc, hb⟩, hp, hs⟩)
  refine Both.bind (hm.test hci (by rw [hcN']; exact hj)) ?_
  rintro t _ rfl
  refine Both.ite ?_ (Both.pure (Or.inl ⟨_, _, rfl, rfl, ⟨_, rfl, eb, rfl, hm, hc, hb⟩, ⟨hp, hs⟩, rfl⟩))
  refine Both.bind (hm.reset hci (by rw [hcN']; exact hj)) ?_
  intro x y hxy
  refine Both.bind (hxy.count hci) ?_
  rintro ⟨x, left⟩ ⟨y, _⟩ ⟨hxy, rfl⟩
  dsimp only at hxy ⊢
  have hs' : WSRel b r V.N { s with startAt := j + 1 } { s' with startAt := j + 1, pot := s.pot } :=
    ⟨rfl, hs.id, rfl, hs.idN, hs.res, hs.cand, hs.cN⟩
  refine Both.same fun wj => Both.same fun vert => Both.same fun U => ?_
  refine Both.bind (enumScan_rel (H := { H with g := { H.g with eb := x } }) hxy hci hcN' y ws cw wj _ _ _) ?_
  rintro ⟨rm, cp⟩ _ ⟨rfl, hrm⟩
  dsimp only at hrm
  refine Both.ite ?_ (Both.pure (Or.inl ⟨_, _, rfl, rfl, ⟨_, rfl, y, rfl, hxy, hc, hb⟩, hs', rfl⟩))
  refine Both.ite ?_ ?_
  · refine Both.bind (hxy.set hri (by rw [hrN']; exact hj)) ?_
    intro x1 y1 h1
    refine Both.bind (vbits_rel (G := { H.g with eb := x }) V y) ?_
    rintro vb _ ⟨rfl, rfl⟩
    refine Both.bind (h1.copyData (c := ⟨V.ebo, V.N⟩) (c' := ⟨V.ebo, V.N⟩) (Img.low hlow)
      (p := s.res.off) (p' := s'.res.off) (by
        have := hri.off
        rw [hrN'] at this
        exact this)) ?_
    intro x2 y2 h2
    refine Both.bind (h2.reset hri (by rw [hrN']; exact hj)) ?_
    intro x3 y3 h3
    exact Both.pure (Or.inr ⟨_, _, rfl, rfl, ⟨_, rfl, y3, rfl, h3, hc, hb⟩, hs'⟩)
  · refine Both.bind (push_rel (G := { H.g with eb := x }) hxy hc hd hb hL hci
      ((congrArg dlen hcN).trans hr)) ?_
    rintro ⟨c1, x1⟩ ⟨c2, y1⟩ ⟨h1, h2, h3, h4, h5⟩
    dsimp only at h1 h2 h3 h4
    subst h3 h2
    refine Both.bind (h1.set hri (by rw [hrN']; exact hj)) ?_
    intro x2 y2 h6
    have hdr : 2 * r ≤ d * r := Nat.mul_le_mul_right r hd
    have hci' : Img b r ⟨b + d * r, s.cand.len⟩ ⟨b + d * r, s.cand.len⟩ := Img.high (by omega)
    refine Both.bind (Both.foldlM (P := Moved b r L) h6 ?_) ?_
    · intro k hk x3 y3 h7
      exact h7.reset hci' (by show k < s.cand.len; rw [hcN]; exact hrm k hk)
    · intro x3 y3 h7
      refine Both.pure (Or.inr ⟨_, _, rfl, rfl, ⟨_, rfl, y3, rfl, h7, h4, h5⟩, hs', ?_, rfl⟩)
      exact ⟨rfl, rfl, rfl, hj, hs.res, hci', hcN⟩

/-- The two enumerators are related. -/
def WER (b L : Nat) (x y : NWG R × WEnum R) : Prop :=
  y.2 = { x.2 with states := y.2.states } ∧
  ((x.1.g.nVert ≤ x.2.cur ∧ x.2.states = [] ∧ y.2.states = [] ∧ y.1 = x.1.fl) ∨
   (x.2.cur < x.1.g.nVert ∧ ∃ N, (x.2.states ≠ [] → dlen N = x.2.req ∧
      ∃ V, x.1.g.vtx x.2.cur = .ok V ∧ V.N = N ∧ V.ebo + dlen V.N ≤ b) ∧
    List.Forall₂ (WSRel b x.2.req N) x.2.states y.2.states ∧
    WGRel b x.2.req L x.2.states.length x.1 y.1))

theorem enumLoad_rel {H : NWG R} {E : WEnum R} (h : Start b L H.g) (hst : E.states = [])
    (hcur : E.cur < H.g.nVert) :
    Both (fun x y => (x.2.2 = false ∧ y = (x.1.fl, x.2.1, false)) ∨
      (x.2.2 = true ∧ y.2.2 = true ∧ WER b L (x.1, x.2.1) (y.1, y.2.1)))
      (H.enumLoad E) (H.fl.enumLoad E) := by
  unfold enumLoad
  refine Both.bind (Q := fun x y => x = y ∧ H.g.vtx E.cur = .ok x)
    (fun x y hx hy => ⟨by have := hx.symm.trans hy; cases this; rfl, hx⟩) ?_
  rintro V _ ⟨rfl, hV⟩
  obtain ⟨hlow, hsp, hroom⟩ := h.low E.cur V hV
  refine Both.bind (Q := fun x y => (Rel b (dlen V.N) L 2 x.1 y.1 ∧ SRel b (dlen V.N) V.N x.2 y.2) ∧
      x.1.vs = H.g.vs ∧ x.1.nVert = H.g.nVert)
    (Both.mono (rootState_rel rfl hsp h.len h.cur hroom h.lt fun i h1 _ => h.zero i h1) ?_) ?_
  · intro x y hx _ hq
    refine ⟨hq, ?_⟩
    unfold rootState at hx
    obtain ⟨_, _, hx⟩ := bind_eq_ok.1 hx
    cases hx
    exact ⟨rfl, rfl⟩
  rintro ⟨G1, x⟩ ⟨G2, x'⟩ ⟨⟨⟨eb, hG2, hm, hc, hb⟩, hs⟩, hvs, hnv⟩
  dsimp only at hG2 hm hc hs hvs hnv ⊢
  subst hG2
  refine Both.bind (fillCand_rel (H := { H with g := G1 }) hm hs.cand hs.cN hsp eb E.cur E.ws) ?_
  rintro ⟨m1, ws, pot⟩ ⟨m2, _⟩ ⟨hxy, rfl⟩
  dsimp only at hxy ⊢
  have hrel : Rel b (dlen V.N) L 2 { G1 with eb := m1 } { G1.other eb with eb := m2 } :=
    ⟨m2, rfl, hxy, hc, hb⟩
  refine Both.same fun wc => ?_
  refine Both.ite ?_ ?_
  · refine Both.bind (hrel.clearBoth h.lt) ?_
    rintro A _ rfl
    exact Both.pure (Or.inl ⟨rfl, rfl⟩)
  · refine Both.pure (Or.inr ⟨rfl, rfl, rfl, Or.inr ⟨by rw [← hnv] at hcur; exact hcur, V.N, ?_, ?_, ?_⟩⟩)
    · intro _
      refine ⟨rfl, V, ?_, rfl, hlow⟩
      unfold vtx at hV ⊢
      rw [← hvs] at hV
      exact hV
    · rw [hst]
      exact .cons ⟨rfl, hs⟩ .nil
    · rw [hst]
      exact ⟨_, rfl, fun h => by simp at h, fun _ => hrel⟩

theorem enumVertex_rel {Hs H : NWG R} {E : WEnum R}
    (ok : OkAt b H.g) (hc : WCoreS anyCl b Hs H) (hl : Lens Hs) (hws : Hs.g.maxDeg ≤ E.ws.length)
    (hst : E.states = []) (hcur : E.cur < Hs.g.nVert) :
    Both (WER b Hs.g.eb.length) (H.enumVertex E) (H.fl.enumVertex E) := by
  unfold enumVertex
  refine Both.loop (P := fun x y => y = (x.1.fl, x.2) ∧ OkAt b x.1.g ∧ WCoreS anyCl b Hs x.1 ∧
    x.2.states = [] ∧ Hs.g.maxDeg ≤ x.2.ws.length ∧ x.2.cur ≤ Hs.g.nVert) ?_ _
    ⟨rfl, ok, hc, hst, hws, hcur⟩
  rintro ⟨A, F⟩ _ ⟨rfl, ok, hc, hst, hws, hcur⟩
  dsimp only at ok hc hst hws hcur ⊢
  have hvl : A.g.vs.length = Hs.g.nVert := by rw [ok.wf.vlen, hc.frame.frame.nVert]
  have hnv : A.g.nVert = Hs.g.nVert := hc.frame.frame.nVert
  refine Both.iteP (fun hlt => ?_) fun hge => ?_
  · have hlt' : F.cur < Hs.g.nVert := by rw [← hvl]; exact hlt
    refine Both.same fun V => ?_
    refine Both.ite (Both.pure (Or.inl ⟨_, _, rfl, rfl, rfl, ok, hc, hst, hws, hlt'⟩)) ?_
    have hL := enumLoad_rel (E := F) ok.start hst (by rw [hnv]; exact hlt')
    refine Both.bind (Q := fun x y => (x.2.2 = false ∧ y = (x.1.fl, x.2.1, false) ∧ OkAt b x.1.g ∧
        WCoreS anyCl b Hs x.1 ∧ x.2.1.states = [] ∧ Hs.g.maxDeg ≤ x.2.1.ws.length ∧
        x.2.1.cur = F.cur) ∨
      (x.2.2 = true ∧ y.2.2 = true ∧ WER b A.g.eb.length (x.1, x.2.1) (y.1, y.2.1)))
      (Both.mono hL ?_) ?_
    · rintro ⟨x1, x2, x3⟩ y hx _ hq
      rcases hq with ⟨q1, q2⟩ | hq
      · left
        rcases enumLoad_spec ok hc hl hws hlt' hst with ⟨G1, E1, e1, e2, e3, e4, e5, e6⟩ | ⟨G1, E1, e1, _⟩
        · rw [e1] at hx
          cases hx
          exact ⟨q1, q2, e2, e3, e5, e6, e4⟩
        · rw [e1] at hx
          cases hx
          cases q1
      · exact Or.inr hq
    · rintro ⟨x1, x2, x3⟩ ⟨y1, y2, y3⟩ (⟨q1, q2, q3, q4, q5, q6, q7⟩ | ⟨q1, q2, q3⟩)
      · dsimp only at q1 q2 q3 q4 q5 q6 q7
        cases q1
        cases q2
        refine Both.pure (Or.inl ⟨_, _, rfl, rfl, rfl, q3, q4, q5, q6, ?_⟩)
        dsimp only
        rw [q7]; exact hlt'
      · dsimp only at q1 q2 q3
        subst q1 q2
        refine Both.pure (Or.inr ⟨_, _, rfl, rfl, ?_⟩)
        rw [← hc.frame.frame.ebl]
        exact q3
  · refine Both.pure (Or.inr ⟨_, _, rfl, rfl, rfl, Or.inl ⟨?_, hst, hst, rfl⟩⟩)
    dsimp only
    rw [hnv]
    omega

/-- The graph at the end of the inner loop. -/
def _root_.CM.NWG.EnumExit.nw : NWG.EnumExit R → NWG R
  | .found H _ => H
  | .pushed H _ _ _ => H
  | .done H _ => H

theorem enumFor_stat {V : Vtx} {req : Nat} {ws : List R} {cw required : R}
    {s : NWG R × WState R × Nat} {r : (NWG R × WState R × Nat) ⊕ NWG.EnumExit R}
    (h : enumFor V req ws cw required s = .ok r) :
    (∀ s', r = .inl s' → s'.1.g.vs = s.1.g.vs ∧ s'.1.g.nVert = s.1.g.nVert) ∧
      ∀ x, r = .inr x → x.nw.g.vs = s.1.g.vs ∧ x.nw.g.nVert = s.1.g.nVert := by
  obtain ⟨H, top, j⟩ := s
  unfold enumFor at h
  simp only at h
  split at h
  · obtain ⟨b, _, h⟩ := bind_eq_ok.1 h
    split at h
    · obtain ⟨eb, _, h⟩ := bind_eq_ok.1 h
      obtain ⟨eb, _, h⟩ := bind_eq_ok.1 h
      obtain ⟨w, _, h⟩ := bind_eq_ok.1 h
      obtain ⟨v, _, h⟩ := bind_eq_ok.1 h
      obtain ⟨U, _, h⟩ := bind_eq_ok.1 h
      obtain ⟨rm, _, h⟩ := bind_eq_ok.1 h
      split at h
      · split at h
        · obtain ⟨_, _, h⟩ := bind_eq_ok.1 h
          obtain ⟨_, _, h⟩ := bind_eq_ok.1 h
          obtain ⟨_, _, h⟩ := bind_eq_ok.1 h
          obtain ⟨_, _, h⟩ := bind_eq_ok.1 h
          cases h
          exact ⟨fun s' e => (by cases e), fun x e => by cases e; exact ⟨rfl, rfl⟩⟩
        · simp only [loadMemory] at h
          obtain ⟨_, _, h⟩ := bind_eq_ok.1 h
          obtain ⟨_, _, h⟩ := bind_eq_ok.1 h
          obtain ⟨_, _, h⟩ := bind_eq_ok.1 h
          cases h
          exact ⟨fun s' e => (by cases e), fun x e => by cases e; exact ⟨rfl, rfl⟩⟩
      · cases h
        exact ⟨fun s' e => (by cases e; exact ⟨rfl, rfl⟩), fun x e => by cases e⟩
    · cases h
      exact ⟨fun s' e => (by cases e; exact ⟨rfl, rfl⟩), fun x e => by cases e⟩
  · cases h
    exact ⟨fun s' e => (by cases e), fun x e => by cases e; exact ⟨rfl, rfl⟩⟩

theorem enumBody_rel {Hs H H' : NWG R} {E E' : WEnum R} (hI : WEInv b Hs H E)
    (hL : Hs.g.eb.length < 2 ^ 64) (h : WER b Hs.g.eb.length (H, E) (H', E')) :
    Both (fun x y => (∃ a c, x = .inl a ∧ y = .inl c ∧ WER b Hs.g.eb.length a c) ∨
      ∃ a c, x = .inr a ∧ y = .inr c ∧ WER b Hs.g.eb.length (a.1, a.2.1) (c.1, c.2.1) ∧
        a.2.2 = c.2.2)
      (enumBody (H, E)) (enumBody (H', E')) := by
  obtain ⟨hE, h⟩ := h
  dsimp only at hE h
  obtain ⟨st', hst'⟩ : ∃ st', st' = E'.states := ⟨_, rfl⟩
  rw [← hst'] at hE h
  subst hE
  clear hst'
  unfold enumBody
  dsimp only
  rcases h with ⟨h1, h3, h4, rfl⟩ | ⟨h1, N, h3, h4, h5⟩
  · rw [if_neg (by omega), if_neg (by show ¬ _ < H.g.nVert; omega)]
    refine Both.pure (Or.inr ⟨_, _, rfl, rfl, ⟨rfl, Or.inl ⟨h1, h3, h4, rfl⟩⟩, rfl⟩)
  · obtain ⟨g', rfl, h5⟩ := h5
    have hnv : g'.nVert = H.g.nVert := by
      by_cases h0 : E.states.length = 0
      · obtain ⟨eb, rfl, _⟩ := h5.1 h0; rfl
      · obtain ⟨eb, rfl, _⟩ := h5.2 h0; rfl
    rw [if_pos h1]
    dsimp only
    rw [hnv, if_pos h1]
    obtain ⟨hc, hl, hws, hI⟩ := hI
    have hnG := hc.frame.frame.nVert
    have h1s : E.cur < Hs.g.nVert := by rw [← hnG]; exact h1
    cases hst : E.states with
    | nil =>
      rw [hst] at h4 h5
      cases h4
      dsimp only
      have hW := (h5.1 rfl).clear hL
      rcases hI with ⟨a1, a2, G1, a3, a4, a5⟩ | ⟨a1, a2, a3⟩ | ⟨a1, _⟩
      · refine Both.bind (Q := fun A B => B = A.fl ∧ A = G1) (Both.mono hW ?_) ?_
        · intro A B hA _ hq
          rw [a3] at hA
          cases hA
          exact ⟨hq, rfl⟩
        · rintro A _ ⟨rfl, rfl⟩
          have e : ({ E with states := [] } : WEnum R) = E := by rw [← hst]
          rw [e]
          have hcn : WCoreS anyCl b Hs { H with g := A } := by
            refine ⟨?_, a5⟩
            conv_lhs => rw [hc.same]
          refine Both.bind (enumVertex_rel (H := { H with g := A }) a4 hcn hl hws hst h1s) ?_
          intro x y hxy
          exact Both.pure (Or.inl ⟨_, _, rfl, rfl, hxy⟩)
      · omega
      · exact absurd hst a1
    | cons top rest =>
      rw [hst] at h3 h4 h5
      obtain ⟨hr, V, hV, rfl, hlow⟩ := h3 (by simp)
      cases h4 with
      | @cons _ top' _ rest' hs hrest =>
      dsimp only
      have hR : Rel b E.req Hs.g.eb.length (rest.length + 2) H.g g' := h5.2 (by simp)
      obtain ⟨eb, rfl, hm, hcu, hb⟩ := hR
      refine Both.bind (Q := fun x y => x = V ∧ y = V) ?_ ?_
      · intro x y hx hy
        rw [hV] at hx
        have : (H.g.other eb).vtx E.cur = .ok V := hV
        rw [this] at hy
        cases hx; cases hy
        exact ⟨rfl, rfl⟩
      rintro W W' ⟨hW, hW'⟩
      rw [hW, hW']
      clear hW hW' W W'
      refine Both.bind (hm.count hs.2.cand) ?_
      rintro ⟨x, left⟩ ⟨y, _⟩ ⟨hxy, rfl⟩
      dsimp only at hxy ⊢
      rw [show top'.startAt = top.startAt from hs.2.sa]
      have hvsl : ∀ r, loop (V.N + 2) (enumFor V E.req E.ws E.cliqueWeight E.required)
          ({ H with g := { H.g with eb := x } }, top, top.startAt) = .ok r →
          r.nw.g.vs = H.g.vs ∧ r.nw.g.nVert = H.g.nVert := by
        intro r hr
        refine loop_inv (fun (s : NWG R × WState R × Nat) => s.1.g.vs = H.g.vs ∧
            s.1.g.nVert = H.g.nVert)
          (fun r : NWG.EnumExit R => r.nw.g.vs = H.g.vs ∧ r.nw.g.nVert = H.g.nVert) ?_ ?_
          ⟨rfl, rfl⟩ hr
        · intro s s' hP hb
          have := (enumFor_stat hb).1 s' rfl
          exact ⟨this.1.trans hP.1, this.2.trans hP.2⟩
        · intro s x hP hb
          have := (enumFor_stat hb).2 x rfl
          exact ⟨this.1.trans hP.1, this.2.trans hP.2⟩
      refine Both.bind (Both.mono (Both.loop (P := fun a b' =>
        WRel b E.req Hs.g.eb.length (rest.length + 2) a.1 b'.1 ∧
        WSRel b E.req V.N a.2.1 b'.2.1 ∧ a.2.2 = b'.2.2)
        (R := WExitRel b E.req Hs.g.eb.length V.N (rest.length + 2)) ?_ _
        ⟨⟨_, rfl, y, rfl, hxy, hcu, hb⟩, hs, rfl⟩) fun r r' hr _ hq => And.intro (hvsl r hr) hq) ?_
      · rintro ⟨A, t, j⟩ ⟨B, t', _⟩ ⟨q1, q2, rfl⟩
        exact enumFor_rel _ _ _ j hr hlow hL (by omega) q1 q2
      · have hV' : ∀ A : Graph, A.vs = H.g.vs ∧ A.nVert = H.g.nVert →
            A.vtx E.cur = .ok V ∧ E.cur < A.nVert := by
          intro A hA
          refine ⟨?_, by rw [hA.2]; exact h1⟩
          unfold vtx at hV ⊢
          rw [hA.1]
          exact hV
        rintro (⟨A, t⟩ | ⟨A, t, n, c1⟩ | ⟨A, t⟩) (⟨B, t'⟩ | ⟨B, t', n', c2⟩ | ⟨B, t'⟩) ⟨hvv, hq⟩ <;>
          try exact hq.elim
        · obtain ⟨⟨gB, rfl, q1⟩, q2⟩ := hq
          refine Both.pure (Or.inr ⟨_, _, rfl, rfl, ⟨rfl, Or.inr ⟨(hV' A.g hvv).2, V.N, ?_, ?_, ?_⟩⟩,
            rfl⟩)
          · exact fun _ => ⟨hr, V, (hV' A.g hvv).1, rfl, hlow⟩
          · exact .cons q2 hrest
          · exact ⟨_, rfl, fun h => by simp at h, fun _ => q1⟩
        · obtain ⟨⟨gB, rfl, q1⟩, q2, q3, rfl⟩ := hq
          refine Both.pure (Or.inl ⟨_, _, rfl, rfl, ⟨rfl, Or.inr ⟨(hV' A.g hvv).2, V.N, ?_, ?_, ?_⟩⟩⟩)
          · exact fun _ => ⟨hr, V, (hV' A.g hvv).1, rfl, hlow⟩
          · exact .cons q3 (.cons q2 hrest)
          · exact ⟨_, rfl, fun h => by simp at h, fun _ => q1⟩
        · obtain ⟨⟨gB, rfl, q1⟩, q2⟩ := hq
          have hvc : ∀ A' : Graph, A.g.clearMemory E.req = .ok A' →
              A'.vs = H.g.vs ∧ A'.nVert = H.g.nVert := by
            intro A' hA
            unfold clearMemory at hA
            obtain ⟨_, _, hA⟩ := bind_eq_ok.1 hA
            cases hA
            exact hvv
          refine Both.bind (Both.mono (pop_clear q1 hL) fun A' _ hA _ hq => And.intro (hvc A' hA) hq) ?_
          rintro A' B' ⟨hv, q3, q4⟩
          refine Both.bind (pop_reset q3 q2.2 hr q4) ?_
          intro x2 y2 q5
          rw [show t'.id = t.id from q2.2.id]
          refine Both.same fun wid => ?_
          refine Both.pure (Or.inl ⟨_, _, rfl, rfl, ⟨rfl, Or.inr ⟨(hV' A' hv).2, V.N, ?_, ?_, ?_⟩⟩⟩)
          · exact fun _ => ⟨hr, V, (hV' A' hv).1, rfl, hlow⟩
          · exact hrest
          · exact ⟨_, rfl, q5⟩

theorem WER.stat {x y : NWG R × WEnum R} (h : WER b L x y) :
    y.1.g.nVert = x.1.g.nVert ∧ y.1.g.maxDeg = x.1.g.maxDeg := by
  rcases h.2 with ⟨_, _, _, h⟩ | ⟨_, N, _, _, g, e, h⟩
  · rw [h]; exact ⟨rfl, rfl⟩
  · rw [e]
    by_cases h0 : x.2.states.length = 0
    · obtain ⟨eb, e, _⟩ := h.1 h0
      rw [e]; exact ⟨rfl, rfl⟩
    · obtain ⟨eb, e, _⟩ := h.2 h0
      rw [e]; exact ⟨rfl, rfl⟩

theorem enumGraph_rel {Hs H H' : NWG R} {E E' : WEnum R} (hI : WEInv b Hs H E)
    (hL : Hs.g.eb.length < 2 ^ 64) (h : WER b Hs.g.eb.length (H, E) (H', E')) :
    Both (fun x y => WER b Hs.g.eb.length (x.1, x.2.1) (y.1, y.2.1) ∧ x.2.2 = y.2.2)
      (H.enumGraph E) (H'.enumGraph E') := by
  have hst := h.stat
  dsimp only at hst
  unfold enumGraph
  rw [hst.1, hst.2]
  refine Both.loop (P := fun x y => WER b Hs.g.eb.length x y ∧ WEInv b Hs x.1 x.2) ?_ _ ⟨h, hI⟩
  rintro ⟨A, F⟩ ⟨B, F'⟩ ⟨e1, e2⟩
  refine Both.mono (enumBody_rel e2 hL e1) ?_
  rintro x y hx _ (⟨a, c, rfl, rfl, hq⟩ | ⟨a, c, rfl, rfl, hq⟩)
  · left
    refine ⟨a, c, rfl, rfl, hq, ?_⟩
    obtain ⟨q, q1, q2⟩ := enumBody_spec e2
    have : enumBody (A, F) = .ok (.inl a) := hx
    rw [this] at q1
    cases q1
    exact q2.1
  · exact Or.inr ⟨a, c, rfl, rfl, hq⟩

theorem WER.getClique {H H' : NWG R} {E E' : WEnum R} {v : Nat}
    (h : WER b L (H, E) (H', E')) (hst : E.states ≠ []) (hv : v = E.cur) :
    Both (fun x y => x.2 = y.2 ∧ WER b L (x.1, E) (y.1, E')) (H.getClique v) (H'.getClique v) := by
  subst hv
  obtain ⟨hE, h⟩ := h
  dsimp only at hE h
  rcases h with ⟨_, h3, _⟩ | ⟨h1, N, h3, h4, h5⟩
  · exact absurd h3 hst
  obtain ⟨hr, V, hV, rfl, hlow⟩ := h3 hst
  have hl : E.states.length ≠ 0 := by
    intro h; exact hst (List.length_eq_zero_iff.1 h)
  obtain ⟨g', rfl, h5⟩ := h5
  obtain ⟨eb, rfl, hm, hc, hb⟩ := h5.2 hl
  unfold NWG.getClique
  refine Both.bind (Q := fun x y => x.2 = y.2 ∧ x.1.vs = H.g.vs ∧ x.1.nVert = H.g.nVert ∧
    Rel b E.req L (E.states.length + 1) x.1 y.1) ?_ ?_
  · unfold Graph.getClique
    refine Both.bind (Q := fun x y => x = V ∧ y = V) ?_ ?_
    · intro x y hx hy
      have : (H.g.other eb).vtx E.cur = .ok V := hV
      rw [hV] at hx
      rw [this] at hy
      cases hx; cases hy
      exact ⟨rfl, rfl⟩
    rintro W W' ⟨hW, hW'⟩
    rw [hW, hW']
    clear hW hW' W W'
    refine Both.bind (vbits_rel V eb) ?_
    rintro vb _ ⟨rfl, rfl⟩
    refine Both.bind (hm.getSubset (c := ⟨V.ebo, V.N⟩) (c' := ⟨V.ebo, V.N⟩) (Img.low hlow) _ _) ?_
    rintro ⟨x, ans⟩ ⟨y, _⟩ ⟨hxy, rfl⟩
    dsimp only at hxy
    exact Both.pure ⟨rfl, rfl, rfl, y, rfl, hxy, hc, hb⟩
  · rintro ⟨A, ans⟩ ⟨B, _⟩ ⟨rfl, q1, q2, q3⟩
    dsimp only at q1 q2 q3
    refine Both.pure ⟨rfl, hE, Or.inr ⟨?_, V.N, fun _ => ⟨hr, V, ?_, rfl, hlow⟩, h4, ?_⟩⟩
    · show E.cur < A.nVert
      rw [q2]; exact h1
    · show A.vtx E.cur = _
      unfold vtx at hV ⊢
      rw [q1]; exact hV
    · exact ⟨_, rfl, fun h => absurd h hl, fun _ => q3⟩

end AW

end NWG

end CM
