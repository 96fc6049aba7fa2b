import Verif.Lemmas.FlipEnum
import Verif.Model.NWSearch

/-!
# The weighted search with the arguments of `NWSearchState` evaluated in either order

As `FlipStack`, for weighted graphs.
-/

namespace CM

open Graph

/-- The entry of the stack without its potential. -/
def WState.plain {R : Type} (s : WState R) : SState :=
  { id := s.id, startAt := s.startAt, res := s.res, cand := s.cand }

namespace NWG

variable {R : Type} [Zero R] [Add R] [Sub R] [NatCast R] [LT R] [LE R] [DecidableLT R]
  [DecidableLE R]

/-- The graph in a program whose compiler evaluates arguments in the other order. -/
def fl (H : NWG R) : NWG R := { H with g := H.g.fl }

def WRel (b r L d : Nat) (H H' : NWG R) : Prop :=
  ∃ g, H' = { H with g := g } ∧ Rel b r L d H.g g

def WGRel (b r L n : Nat) (H H' : NWG R) : Prop :=
  ∃ g, H' = { H with g := g } ∧ GRel b r L n H.g g

def WSRel (b r N : Nat) (s s' : WState R) : Prop :=
  s'.pot = s.pot ∧ SRel b r N s.plain s'.plain

variable {b r L d N : Nat} {H H' : NWG R} {s s' : WState R}

theorem fillCand_rel {H : NWG R} {V : Vtx} {m m' : Mem} {c c' : GBits} (hm : Moved b r L m m')
    (hi : Img b r c c') (hN : c.len = V.N) (hsp : V.spos < V.N) (e : Mem) (cur : Nat)
    (ws : List R) :
    Both (fun x y => Moved b r L x.1 y.1 ∧ x.2 = y.2) (H.fillCand cur V c m ws)
      (NWG.fillCand { H with g := H.g.other e } cur V c' m' ws) := by
  unfold fillCand
  refine Both.bind (Q := fun x y => Moved b r L x.1 y.1 ∧ x.2 = y.2) ?_ ?_
  · refine Both.forRangeIn ⟨hm, rfl⟩ ?_
    rintro k ⟨a, n⟩ ⟨a', _⟩ _ hk ⟨h, rfl⟩
    refine Both.same fun v => Both.same fun dv => Both.same fun d => ?_
    refine Both.ite (Both.pure ⟨h, rfl⟩) ?_
    refine Both.bind (h.set hi (by omega)) ?_
    intro x y hxy
    refine Both.same fun w => Both.same fun ws => ?_
    exact Both.pure ⟨hxy, rfl⟩
  · rintro ⟨a, n⟩ ⟨a', _⟩ ⟨h, rfl⟩
    refine Both.forRangeIn ⟨h, rfl⟩ ?_
    rintro k ⟨a, n⟩ ⟨a', _⟩ _ hk ⟨h, rfl⟩
    refine Both.same fun v => Both.same fun dv => Both.same fun d => ?_
    refine Both.ite (Both.pure ⟨h, rfl⟩) ?_
    refine Both.bind (h.set hi (by omega)) ?_
    intro x y hxy
    refine Both.same fun w => Both.same fun ws => ?_
    exact Both.pure ⟨hxy, rfl⟩

theorem stackScan_rel {H : NWG R} {V U : Vtx} {m m' : Mem} {c c' : GBits}
    (hm : Moved b r L m m') (hi : Img b r c c') (e : Mem) (ws : List R) (left k0 : Nat) :
    Both (fun x y => x = y ∧ ∀ k ∈ x.1, k < V.N) (H.stackScan V U c m ws left k0)
      (NWG.stackScan { H with g := H.g.other e } V U c' m' ws left k0) := by
  unfold stackScan
  refine Both.loop (P := fun x y => x = y ∧ ∀ k ∈ x.2.1, k < V.N) ?_ _
    ⟨rfl, fun k hk => by cases hk⟩
  rintro ⟨k, rm, left, pot⟩ _ ⟨rfl, hrm⟩
  refine Both.iteP (fun hc => ?_) fun hc => ?_
  · refine Both.same fun val => Both.same fun fa => ?_
    refine Both.ite ?_ ?_
    · refine Both.same fun w => ?_
      refine Both.bind (hm.next hi _) ?_
      rintro k' _ rfl
      exact Both.pure (Or.inl ⟨_, _, rfl, rfl, rfl, hrm⟩)
    · refine Both.bind (hm.next hi _) ?_
      rintro k' _ rfl
      refine Both.pure (Or.inl ⟨_, _, rfl, rfl, rfl, ?_⟩)
      dsimp only
      intro q hq
      rcases List.mem_append.1 hq with h | h
      · exact hrm q h
      · rw [List.mem_singleton.1 h]; exact hc.1
  · exact Both.pure (Or.inr ⟨_, _, rfl, rfl, rfl, hrm⟩)

theorem saveClique_rel {V : Vtx} {c c' : GBits} (h : WRel b r L d H H') (hi : Img b r c c')
    (hN : c.len = V.N) (hlow : V.ebo + dlen V.N ≤ b) (cur : Nat) (size : R) :
    Both (WRel b r L d) (H.saveClique cur V c size) (H'.saveClique cur V c' size) := by
  obtain ⟨g, rfl, eb, rfl, hm, hc, hb⟩ := h
  unfold saveClique
  refine Both.bind (vbits_rel (G := H.g) V eb) ?_
  rintro vb _ ⟨rfl, rfl⟩
  refine Both.bind (hm.copyData (c := ⟨V.ebo, V.N⟩) (c' := ⟨V.ebo, V.N⟩) (Img.low hlow)
    (by rw [← hN]; exact hi.off)) ?_
  intro x y hxy
  refine Both.same fun mcs => ?_
  exact Both.pure ⟨_, rfl, y, rfl, hxy, hc, hb⟩

def WForRel (b r L N d : Nat) : NWG.ForExit R → NWG.ForExit R → Prop
  | .pushed H t n cw, .pushed H' t' n' cw' => WRel b r L (d + 1) H H' ∧ WSRel b r N t t' ∧
      WSRel b r N n n' ∧ cw = cw'
  | .done H t j, .done H' t' j' => WRel b r L d H H' ∧ WSRel b r N t t' ∧ j = j'
  | _, _ => False

theorem stackFor_rel {V : Vtx} (cur : Nat) (ws : List R) (cw : R) (hr : dlen V.N = r)
    (hlow : V.ebo + dlen V.N ≤ b) (hL : L < 2 ^ 64) (hd : 2 ≤ d) (h : WRel b r L d H H')
    (hs : WSRel b r V.N s s') :
    Both (fun x y => (∃ a' b', x = .inl a' ∧ y = .inl b' ∧
        (WRel b r L d a'.1 b'.1 ∧ WSRel b r V.N a'.2 b'.2)) ∨
      ∃ c e, x = .inr c ∧ y = .inr e ∧ WForRel b r L V.N d c e)
      (stackFor cur V r ws cw (H, s)) (stackFor cur V r ws cw (H', s')) := by
  obtain ⟨g, rfl, eb, rfl, hm, hc, hb⟩ := h
  obtain ⟨hp, hs⟩ := hs
  have hsa : s'.startAt = s.startAt := hs.sa
  have hci := hs.cand
  have hcN : s.cand.len = V.N := hs.cN
  have hri := hs.resImg hr
  have hrN : s.res.len = V.N := hs.resN
  unfold stackFor
  dsimp only
  rw [hsa, hp]
  by_cases hj : s.startAt < V.N
  swap
  · rw [if_neg hj, if_neg hj]
    exact Both.pure (Or.inr ⟨_, _, rfl, rfl, ⟨_, rfl, eb, rfl, hm, hc, hb⟩, ⟨hp, hs⟩, rfl⟩)
  rw [if_pos hj, if_pos hj]
  refine Both.bind (hm.reset hci (by rw [show s.plain.cand.len = V.N from hcN]; exact hj)) ?_
  intro x y hxy
  refine Both.bind (hxy.next hci _) ?_
  rintro sa _ rfl
  refine Both.same fun wj => ?_
  refine Both.bind (hxy.count hci) ?_
  rintro ⟨x, left⟩ ⟨y, _⟩ ⟨hxy, rfl⟩
  dsimp only at hxy ⊢
  have hs' : WSRel b r V.N { s with startAt := sa, pot := s.pot - wj }
      { s' with startAt := sa, pot := s.pot - wj } :=
    ⟨rfl, hs.id, rfl, hs.idN, hs.res, hs.cand, hs.cN⟩
  refine Both.same fun vert => Both.same fun U => ?_
  refine Both.bind (stackScan_rel (H := { H with g := { H.g with eb := x } }) hxy hci y ws _ _) ?_
  rintro ⟨rm, left, cp⟩ _ ⟨rfl, hrm⟩
  dsimp only at hrm
  refine Both.ite ?_ (Both.pure (Or.inl ⟨_, _, rfl, rfl, ⟨_, rfl, y, rfl, hxy, hc, hb⟩, hs'⟩))
  refine Both.ite ?_ ?_
  · refine Both.bind (hxy.set hri (by rw [show s.plain.res.len = V.N from hrN]; exact hj)) ?_
    intro x1 y1 h1
    refine Both.bind (saveClique_rel (H := { H with g := { H.g with eb := x1 } })
      (H' := { H with g := { H.g.other eb with eb := y1 } }) (c := s.res) (c' := s'.res) (d := d)
      ⟨_, rfl, y1, rfl, h1, hc, hb⟩ hri hrN hlow _ _) ?_
    rintro A _ ⟨gB, rfl, hAB⟩
    refine Both.bind (Rel.reset hAB hs hr hj) ?_
    intro x2 y2 h2
    exact Both.pure (Or.inl ⟨_, _, rfl, rfl, ⟨_, rfl, h2⟩, hs'⟩)
  · refine Both.bind (push_rel (G := { H.g with eb := x }) hxy hc hd hb hL hci
      ((congrArg dlen hcN).trans hr)) ?_
    rintro ⟨c1, x1⟩ ⟨c2, y1⟩ ⟨h1, h2, h3, h4, h5⟩
    dsimp only at h1 h2 h3 h4
    subst h3 h2
    refine Both.bind (h1.set hri (by rw [show s.plain.res.len = V.N from hrN]; exact hj)) ?_
    intro x2 y2 h6
    have hdr : 2 * r ≤ d * r := Nat.mul_le_mul_right r hd
    have hci' : Img b r ⟨b + d * r, s.cand.len⟩ ⟨b + d * r, s.cand.len⟩ := Img.high (by omega)
    refine Both.bind (Both.foldlM (P := Moved b r L) h6 ?_) ?_
    · intro k hk x3 y3 h7
      exact h7.reset hci' (by show k < s.cand.len; rw [hcN]; exact hrm k hk)
    · intro x3 y3 h7
      refine Both.pure (Or.inr ⟨_, _, rfl, rfl, ⟨_, rfl, y3, rfl, h7, h4, h5⟩, hs', ?_, rfl⟩)
      exact ⟨rfl, rfl, rfl, hj, hs.res, hci', hcN⟩

theorem WRel.grel {n : Nat} (h : WRel b r L (n + 1) H H') (hn : n ≠ 0) : WGRel b r L n H H' := by
  obtain ⟨g, rfl, h⟩ := h
  exact ⟨g, rfl, fun h => absurd h hn, fun _ => h⟩

theorem stackBody_rel {V : Vtx} (cur : Nat) (ws : List R) (cw : R) (hr : dlen V.N = r)
    (hlow : V.ebo + dlen V.N ≤ b) (hL : L < 2 ^ 64) {st st' : List (WState R)}
    (hst : List.Forall₂ (WSRel b r V.N) st st') (h : WGRel b r L st.length H H') :
    Both (fun x y => (∃ a' b', x = .inl a' ∧ y = .inl b' ∧
        (List.Forall₂ (WSRel b r V.N) a'.2.1 b'.2.1 ∧
        WGRel b r L a'.2.1.length a'.1 b'.1 ∧ a'.2.2 = b'.2.2)) ∨
      ∃ c e, x = .inr c ∧ y = .inr e ∧ (List.Forall₂ (WSRel b r V.N) c.2 e.2 ∧
        WGRel b r L c.2.length c.1 e.1))
      (stackBody cur V r ws (H, st, cw)) (stackBody cur V r ws (H', st', cw)) := by
  cases hst with
  | nil =>
    exact Both.pure (Or.inr ⟨_, _, rfl, rfl, List.Forall₂.nil, h⟩)
  | @cons top top' rest rest' hs hrest =>
    have hh := h
    obtain ⟨g, rfl, h⟩ := h
    have hR : Rel b r L (rest.length + 2) H.g g := h.2 (by simp)
    obtain ⟨eb, rfl, hm, hc, hb⟩ := hR
    have hs0 := hs
    obtain ⟨hp, hs⟩ := hs
    have hsa : top'.startAt = top.startAt := hs.sa
    unfold stackBody
    dsimp only
    refine Both.ite (Both.pure (Or.inr ⟨_, _, rfl, rfl, List.Forall₂.cons hs0 hrest, hh⟩)) ?_
    refine Both.bind (hm.count hs.cand) ?_
    rintro ⟨x, left⟩ ⟨y, _⟩ ⟨hxy, rfl⟩
    dsimp only at hxy ⊢
    rw [hsa]
    refine Both.bind (hxy.next hs.cand _) ?_
    rintro sa _ rfl
    have hs' : WSRel b r V.N { top with startAt := sa } { top' with startAt := sa } :=
      ⟨hp, hs.id, rfl, hs.idN, hs.res, hs.cand, hs.cN⟩
    refine Both.bind (Both.loop (P := fun a b' => WRel b r L (rest.length + 2) a.1 b'.1 ∧
      WSRel b r V.N a.2 b'.2) (R := WForRel b r L V.N (rest.length + 2)) ?_ _
      ⟨⟨_, rfl, y, rfl, hxy, hc, hb⟩, hs'⟩) ?_
    · rintro ⟨A, t⟩ ⟨B, t'⟩ ⟨h1, h2⟩
      exact stackFor_rel cur ws cw hr hlow hL (by omega) h1 h2
    · rintro (⟨A, t, n, c1⟩ | ⟨A, t, j⟩) (⟨B, t', n', c2⟩ | ⟨B, t', j'⟩) hq
      · obtain ⟨h1, h2, h3, rfl⟩ := hq
        exact Both.pure (Or.inl ⟨_, _, rfl, rfl, .cons h3 (.cons h2 hrest),
          by simpa using h1.grel (by simp), rfl⟩)
      · exact hq.elim
      · exact hq.elim
      · obtain ⟨⟨gB, rfl, h1⟩, h2, rfl⟩ := hq
        dsimp only
        refine Both.ite ?_ ?_
        · refine Both.bind (pop_clear h1 hL) ?_
          rintro A' B' ⟨h3, h4⟩
          refine Both.bind (pop_reset h3 h2.2 hr h4) ?_
          intro x2 y2 h5
          rw [show t'.id = t.id from h2.2.id]
          refine Both.same fun wid => ?_
          exact Both.pure (Or.inl ⟨_, _, rfl, rfl, hrest, ⟨_, rfl, h5⟩, rfl⟩)
        · exact Both.pure (Or.inl ⟨_, _, rfl, rfl, .cons h2 hrest,
            by simpa using WRel.grel (n := rest.length + 1) ⟨_, rfl, h1⟩ (by simp), rfl⟩)

theorem stackVertex_rel {H : NWG R} (h : Start b L H.g) (ws : List R) (cur : Nat) :
    Both (fun A B => B = (A.1.fl, A.2)) (stackVertex (H, ws) cur) (stackVertex (H.fl, ws) cur) := by
  unfold stackVertex
  dsimp only
  refine Both.bind (Q := fun x y => x = y ∧ H.g.vtx cur = .ok x)
    (fun x y hx hy => ⟨by have := hx.symm.trans hy; cases this; rfl, hx⟩) ?_
  rintro V _ ⟨rfl, hV⟩
  obtain ⟨hlow, hsp, hroom⟩ := h.low cur V hV
  refine Both.bind (rootState_rel rfl hsp h.len h.cur hroom h.lt fun i h1 _ => h.zero i h1) ?_
  rintro ⟨G1, x⟩ ⟨G2, x'⟩ ⟨⟨eb, hG2, hm, hc, hb⟩, hs⟩
  dsimp only at hG2 hm hc hs ⊢
  subst hG2
  refine Both.bind (fillCand_rel (H := { H with g := G1 }) hm hs.cand hs.cN hsp eb cur ws) ?_
  rintro ⟨m1, ws1, pot⟩ ⟨m2, _⟩ ⟨hxy, rfl⟩
  dsimp only at hxy ⊢
  have hrel : Rel b (dlen V.N) L 2 { G1 with eb := m1 } { G1.other eb with eb := m2 } :=
    ⟨m2, rfl, hxy, hc, hb⟩
  refine Both.same fun wc => ?_
  refine Both.ite ?_ ?_
  · refine Both.bind (hrel.clearBoth h.lt) ?_
    rintro A _ rfl
    exact Both.pure rfl
  refine Both.bind (Both.loop (P := fun a b' => List.Forall₂ (WSRel b (dlen V.N) V.N) a.2.1 b'.2.1 ∧
    WGRel b (dlen V.N) L a.2.1.length a.1 b'.1 ∧ a.2.2 = b'.2.2)
    (R := fun c e => List.Forall₂ (WSRel b (dlen V.N) V.N) c.2 e.2 ∧
      WGRel b (dlen V.N) L c.2.length c.1 e.1) ?_ _
    ⟨.cons ⟨rfl, hs⟩ .nil, ⟨_, rfl, fun h => by simp at h, fun _ => hrel⟩, rfl⟩) ?_
  · rintro ⟨A, st, cs⟩ ⟨B, st', _⟩ ⟨h1, h2, rfl⟩
    exact stackBody_rel cur ws1 cs rfl hlow h.lt h1 h2
  · rintro ⟨A, st⟩ ⟨B, st'⟩ ⟨h1, gB, rfl, h2⟩
    dsimp only at h1 h2 ⊢
    rw [← h1.length_eq]
    cases h1 with
    | nil =>
      refine Both.bind (Q := fun x y => x = A.g ∧ y = gB) (Both.pure ⟨rfl, rfl⟩) ?_
      rintro _ _ ⟨rfl, rfl⟩
      refine Both.bind ((h2.1 rfl).clear h.lt) ?_
      rintro A' _ rfl
      exact Both.pure rfl
    | @cons t t' rest rest' _ _ =>
      dsimp only [List.isEmpty]
      have := (h2.2 (by simp)).clearTop (by simp) h.lt
      rw [Nat.add_sub_cancel, Nat.mul_comm (List.length _) (dlen V.N)] at this
      refine Both.bind this ?_
      rintro A' B' ⟨h3, _⟩
      refine Both.bind (h3.clear h.lt) ?_
      rintro A'' _ rfl
      exact Both.pure rfl

end NWG

end CM
