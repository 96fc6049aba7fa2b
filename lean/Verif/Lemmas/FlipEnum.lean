import Verif.Lemmas.FlipStack
import Verif.Lemmas.Consume
import Verif.Lemmas.EnumKeeps

/-!
# The enumerator with the arguments of `SearchState` evaluated in either order
-/

namespace CM

namespace Graph

variable {b r L d N : Nat} {G G' : Graph} {s s' : SState}

theorem word_zero {m : Mem} (h : ∀ a, 64 * b ≤ a → bitAt m a = false) {i : Nat} (hi : b ≤ i) :
    m.getD i 0 = 0 := by
  apply BitVec.eq_of_getMsbD_eq
  intro k hk
  have := h (64 * i + k) (by omega)
  rw [bitAt_word hk] at this
  simpa using this

theorem OkAt.start (h : OkAt b G) : Start b G.eb.length G := by
  have hl := h.wf.eblen
  refine ⟨rfl, h.cur, by omega, fun i hi => word_zero h.zero hi, ?_⟩
  intro v V hV
  have hv : v < G.nVert := by
    unfold vtx at hV
    have := (List.getElem?_eq_some_iff.1 (rd_eq_ok.1 hV)).1
    rw [h.wf.vlen] at this
    exact this
  rw [vtx_ok h.wf hv] at hV
  cases hV
  have h1 := h.wf.eboEnd v hv
  have h2 := h.wf.spos v hv
  have h3 := h.bot
  obtain ⟨K, _, h4⟩ := h.room
  have h5 := dlen_mono (h.wf.maxd v hv)
  have h6 : 2 * dlen G.maxDeg ≤ (K + 2) * dlen G.maxDeg := Nat.mul_le_mul_right _ (by omega)
  exact ⟨by omega, h2, by omega⟩

theorem enumScan_rel {G : Graph} {V U : Vtx} {m m' : Mem} {c c' : GBits}
    (hm : Moved b r L m m') (hi : Img b r c c') (hN : c.len = V.N) (e : Mem)
    (left cs required k0 pot0 : Nat) :
    Both (fun x y => x = y ∧ ∀ k ∈ x.1, k < V.N) (G.enumScan V U c m left cs required k0 pot0)
      ((G.other e).enumScan V U c' m' left cs required k0 pot0) := by
  unfold enumScan
  refine Both.loop (P := fun x y => x = y ∧ ∀ k ∈ x.2.2.1, k < V.N) ?_ _
    ⟨rfl, fun k hk => by cases hk⟩
  rintro ⟨k, st, rm, pot⟩ _ ⟨rfl, hrm⟩
  refine Both.iteP (fun hc => ?_) fun hc => ?_
  · refine Both.bind (hm.test hi (by omega)) ?_
    rintro t _ rfl
    refine Both.ite ?_ (Both.pure (Or.inl ⟨_, _, rfl, rfl, rfl, hrm⟩))
    refine Both.same fun val => Both.same fun fa => ?_
    refine Both.pure (Or.inl ⟨_, _, rfl, rfl, rfl, ?_⟩)
    dsimp only
    intro q hq
    split at hq
    · exact hrm q hq
    · rcases List.mem_append.1 hq with h | h
      · exact hrm q h
      · rw [List.mem_singleton.1 h]; exact hc.1
  · exact Both.pure (Or.inr ⟨_, _, rfl, rfl, rfl, hrm⟩)

def ExitRel (b r L N d : Nat) : EnumExit → EnumExit → Prop
  | .found G t, .found G' t' => Rel b r L d G G' ∧ SRel b r N t t'
  | .pushed G t n, .pushed G' t' n' => Rel b r L (d + 1) G G' ∧ SRel b r N t t' ∧ SRel b r N n n'
  | .done G t, .done G' t' => Rel b r L d G G' ∧ SRel b r N t t'
  | _, _ => False

theorem vbits_rel {G : Graph} (V : Vtx) (e : Mem) :
    Both (fun x y => x = y ∧ x = ⟨V.ebo, V.N⟩) (G.vbits V) ((G.other e).vbits V) := by
  intro x y hx hy
  unfold vbits at hx hy
  have : (G.other e).dangling = G.dangling := rfl
  rw [this] at hy
  split at hx
  · cases hx
  · rename_i h
    rw [if_neg h] at hy
    cases hx; cases hy
    exact ⟨rfl, rfl⟩

theorem enumFor_rel {V : Vtx} (cs left required j : Nat) (hr : dlen V.N = r)
    (hlow : V.ebo + dlen V.N ≤ b) (hL : L < 2 ^ 64) (hd : 2 ≤ d) (h : Rel b r L d G G')
    (hs : SRel b r V.N s s') :
    Both (fun x y => (∃ a' b', x = .inl a' ∧ y = .inl b' ∧
        (Rel b r L d a'.1 b'.1 ∧ SRel b r V.N a'.2.1 b'.2.1 ∧ a'.2.2 = b'.2.2)) ∨
      ∃ c e, x = .inr c ∧ y = .inr e ∧ ExitRel b r L V.N d c e)
      (enumFor V r cs required (G, s, left, j)) (enumFor V r cs required (G', s', left, j)) := by
  obtain ⟨eb, rfl, hm, hc, hb⟩ := h
  unfold enumFor
  dsimp only
  refine Both.iteP (fun hj => ?_) fun hj =>
    Both.pure (Or.inr ⟨_, _, rfl, rfl, ⟨eb, rfl, hm, hc, hb⟩, hs⟩)
  refine Both.bind (hm.test hs.cand (by rw [hs.cN]; exact hj)) ?_
  rintro t _ rfl
  refine Both.ite ?_ (Both.pure (Or.inl ⟨_, _, rfl, rfl, ⟨eb, rfl, hm, hc, hb⟩, hs, rfl⟩))
  refine Both.bind (hm.reset hs.cand (by rw [hs.cN]; exact hj)) ?_
  intro x y hxy
  have hs' : SRel b r V.N { s with startAt := j + 1 } { s' with startAt := j + 1 } :=
    ⟨hs.id, rfl, hs.idN, hs.res, hs.cand, hs.cN⟩
  refine Both.same fun vert => Both.same fun U => ?_
  refine Both.bind (enumScan_rel (G := { G with eb := x }) hxy hs.cand hs.cN y _ _ _ _ _) ?_
  rintro ⟨rm, pot⟩ _ ⟨rfl, hrm⟩
  dsimp only at hrm
  refine Both.ite ?_ (Both.pure (Or.inl ⟨_, _, rfl, rfl, ⟨y, rfl, hxy, hc, hb⟩, hs', rfl⟩))
  refine Both.ite ?_ ?_
  · refine Both.bind (hxy.set (hs.resImg hr) (by rw [hs.resN]; exact hj)) ?_
    intro x1 y1 h1
    refine Both.bind (vbits_rel (G := { G with eb := x }) V y) ?_
    rintro vb _ ⟨rfl, rfl⟩
    refine Both.bind (h1.copyData (c := ⟨V.ebo, V.N⟩) (c' := ⟨V.ebo, V.N⟩) (Img.low hlow)
      (p := s.res.off) (p' := s'.res.off) (by
        have := (hs.resImg hr).off
        rw [hs.resN] at this
        exact this)) ?_
    intro x2 y2 h2
    refine Both.bind (h2.reset (hs.resImg hr) (by rw [hs.resN]; exact hj)) ?_
    intro x3 y3 h3
    exact Both.pure (Or.inr ⟨_, _, rfl, rfl, ⟨y3, rfl, h3, hc, hb⟩, hs'⟩)
  · refine Both.bind (push_rel (G := { G with eb := x }) hxy hc hd hb hL hs.cand
      (by rw [hs.cN]; exact hr)) ?_
    rintro ⟨c1, x1⟩ ⟨c2, y1⟩ ⟨h1, h2, h3, h4, h5⟩
    dsimp only at h1 h2 h3 h4
    subst h3 h2
    refine Both.bind (h1.set (hs.resImg hr) (by rw [hs.resN]; exact hj)) ?_
    intro x2 y2 h6
    have hdr : 2 * r ≤ d * r := Nat.mul_le_mul_right r hd
    have hci : Img b r ⟨b + d * r, s.cand.len⟩ ⟨b + d * r, s.cand.len⟩ := Img.high (by omega)
    refine Both.bind (Both.foldlM (P := Moved b r L) h6 ?_) ?_
    · intro k hk x3 y3 h7
      exact h7.reset hci (by show k < s.cand.len; rw [hs.cN]; exact hrm k hk)
    · intro x3 y3 h7
      refine Both.pure (Or.inr ⟨_, _, rfl, rfl, ⟨y3, rfl, h7, h4, h5⟩, hs', ?_⟩)
      exact ⟨rfl, rfl, hj, hs.res, hci, hs.cN⟩

/-- The two enumerators are related. -/
def ER (b L : Nat) (x y : Graph × Enum) : Prop :=
  y.2 = { x.2 with states := y.2.states } ∧
  ((x.1.nVert ≤ x.2.cur ∧ x.2.states = [] ∧ y.2.states = [] ∧ y.1 = x.1.fl) ∨
   (x.2.cur < x.1.nVert ∧ ∃ N, (x.2.states ≠ [] → dlen N = x.2.req ∧
      ∃ V, x.1.vtx x.2.cur = .ok V ∧ V.N = N ∧ V.ebo + dlen V.N ≤ b) ∧
    List.Forall₂ (SRel b x.2.req N) x.2.states y.2.states ∧
    GRel b x.2.req L x.2.states.length x.1 y.1))

theorem enumLoad_rel {G : Graph} {E : Enum} (h : Start b L G) (hst : E.states = [])
    (hcur : E.cur < G.nVert) :
    Both (fun x y => (x.2.2 = false ∧ y = (x.1.fl, x.2.1, false)) ∨
      (x.2.2 = true ∧ y.2.2 = true ∧ ER b L (x.1, x.2.1) (y.1, y.2.1)))
      (G.enumLoad E) (G.fl.enumLoad E) := by
  unfold enumLoad
  refine Both.bind (Q := fun x y => x = y ∧ G.vtx E.cur = .ok x)
    (fun x y hx hy => ⟨by have := hx.symm.trans hy; cases this; rfl, hx⟩) ?_
  rintro V _ ⟨rfl, hV⟩
  obtain ⟨hlow, hsp, hroom⟩ := h.low E.cur V hV
  refine Both.bind (Q := fun x y => (Rel b (dlen V.N) L 2 x.1 y.1 ∧ SRel b (dlen V.N) V.N x.2 y.2) ∧
      x.1.vs = G.vs ∧ x.1.nVert = G.nVert)
    (Both.mono (rootState_rel rfl hsp h.len h.cur hroom h.lt fun i h1 _ => h.zero i h1) ?_) ?_
  · intro x y hx _ hq
    refine ⟨hq, ?_⟩
    unfold rootState at hx
    obtain ⟨_, _, hx⟩ := bind_eq_ok.1 hx
    cases hx
    exact ⟨rfl, rfl⟩
  rintro ⟨G1, x⟩ ⟨G2, x'⟩ ⟨⟨⟨eb, hG2, hm, hc, hb⟩, hs⟩, hvs, hnv⟩
  dsimp only at hG2 hm hc hs hvs hnv ⊢
  subst hG2
  refine Both.bind (fillCand_rel hm hs.cand hs.cN hsp eb) ?_
  rintro ⟨m1, pot⟩ ⟨m2, _⟩ ⟨hxy, rfl⟩
  dsimp only at hxy ⊢
  have hrel : Rel b (dlen V.N) L 2 { G1 with eb := m1 } { G1.other eb with eb := m2 } :=
    ⟨m2, rfl, hxy, hc, hb⟩
  refine Both.ite ?_ ?_
  · refine Both.bind (hrel.clearBoth h.lt) ?_
    rintro A _ rfl
    exact Both.pure (Or.inl ⟨rfl, rfl⟩)
  · refine Both.pure (Or.inr ⟨rfl, rfl, rfl, Or.inr ⟨by rw [← hnv] at hcur; exact hcur, V.N, ?_, ?_, ?_⟩⟩)
    · intro _
      refine ⟨rfl, V, ?_, rfl, hlow⟩
      unfold vtx at hV ⊢
      rw [← hvs] at hV
      exact hV
    · rw [hst]
      exact .cons hs .nil
    · rw [hst]
      exact ⟨fun h => by simp at h, fun _ => hrel⟩

theorem enumVertex_rel {Gs G : Graph} {E : Enum} {Q : Nat → Prop} {k : Nat} (hQ : Q k)
    (ok : OkAt b G) (hc : CoreAt Q b Gs G) (hst : E.states = [])
    (hk : E.required = k) (h2 : 2 ≤ k) (hcur : E.cur < Gs.nVert) :
    Both (ER b Gs.eb.length) (G.enumVertex E) (G.fl.enumVertex E) := by
  unfold enumVertex
  refine Both.loop (P := fun x y => y = (x.1.fl, x.2) ∧ OkAt b x.1 ∧ CoreAt Q b Gs x.1 ∧
    x.2.states = [] ∧ x.2.required = k ∧ x.2.cur ≤ Gs.nVert) ?_ _ ⟨rfl, ok, hc, hst, hk, hcur⟩
  rintro ⟨A, F⟩ _ ⟨rfl, ok, hc, hst, hk, hcur⟩
  dsimp only at ok hc hst hk hcur ⊢
  have hvl : A.vs.length = Gs.nVert := by rw [ok.wf.vlen, hc.frame.nVert]
  have hnv : A.nVert = Gs.nVert := hc.frame.nVert
  refine Both.iteP (fun hlt => ?_) fun hge => ?_
  · have hlt' : F.cur < Gs.nVert := by rw [← hvl]; exact hlt
    refine Both.same fun V => ?_
    refine Both.ite (Both.pure (Or.inl ⟨_, _, rfl, rfl, rfl, ok, hc, hst, hk, hlt'⟩)) ?_
    have hL := enumLoad_rel (E := F) ok.start hst (by rw [hnv]; exact hlt')
    refine Both.bind (Q := fun x y => (x.2.2 = false ∧ y = (x.1.fl, x.2.1, false) ∧ OkAt b x.1 ∧
        CoreAt Q b Gs x.1 ∧ x.2.1.states = [] ∧ x.2.1.required = k ∧ x.2.1.cur = F.cur) ∨
      (x.2.2 = true ∧ y.2.2 = true ∧ ER b A.eb.length (x.1, x.2.1) (y.1, y.2.1)))
      (Both.mono hL ?_) ?_
    · rintro ⟨x1, x2, x3⟩ y hx _ hq
      rcases hq with ⟨q1, q2⟩ | hq
      · left
        rcases enumLoad_spec hQ ok hc hlt' hst hk h2 with ⟨G1, req, e1, e2, e3, _⟩ | ⟨G1, E1, e1, _⟩
        · rw [e1] at hx
          cases hx
          exact ⟨q1, q2, e2, e3, hst, hk, rfl⟩
        · rw [e1] at hx
          cases hx
          cases q1
      · exact Or.inr hq
    · rintro ⟨x1, x2, x3⟩ ⟨y1, y2, y3⟩ (⟨q1, q2, q3, q4, q5, q6, q7⟩ | ⟨q1, q2, q3⟩)
      · dsimp only at q1 q2 q3 q4 q5 q6 q7
        cases q1
        cases q2
        refine Both.pure (Or.inl ⟨_, _, rfl, rfl, rfl, q3, q4, q5, q6, ?_⟩)
        dsimp only
        rw [q7]; exact hlt'
      · dsimp only at q1 q2 q3
        subst q1 q2
        refine Both.pure (Or.inr ⟨_, _, rfl, rfl, ?_⟩)
        rw [← hc.frame.ebl]
        exact q3
  · refine Both.pure (Or.inr ⟨_, _, rfl, rfl, rfl, Or.inl ⟨?_, hst, hst, rfl⟩⟩)
    dsimp only
    rw [hnv]
    omega

theorem enumFor_stat {V : Vtx} {req cs required : Nat} {s : Graph × SState × Nat × Nat}
    {r : (Graph × SState × Nat × Nat) ⊕ EnumExit} (h : enumFor V req cs required s = .ok r) :
    (∀ s', r = .inl s' → s'.1.vs = s.1.vs ∧ s'.1.nVert = s.1.nVert) ∧
      ∀ x, r = .inr x → x.graph.vs = s.1.vs ∧ x.graph.nVert = s.1.nVert := by
  obtain ⟨G, top, left, j⟩ := s
  unfold enumFor at h
  simp only at h
  split at h
  · obtain ⟨b, _, h⟩ := bind_eq_ok.1 h
    split at h
    · obtain ⟨eb, _, h⟩ := bind_eq_ok.1 h
      obtain ⟨v, _, h⟩ := bind_eq_ok.1 h
      obtain ⟨U, _, h⟩ := bind_eq_ok.1 h
      obtain ⟨rm, _, h⟩ := bind_eq_ok.1 h
      split at h
      · split at h
        · obtain ⟨_, _, h⟩ := bind_eq_ok.1 h
          obtain ⟨_, _, h⟩ := bind_eq_ok.1 h
          obtain ⟨_, _, h⟩ := bind_eq_ok.1 h
          obtain ⟨_, _, h⟩ := bind_eq_ok.1 h
          cases h
          exact ⟨fun s' e => (by cases e), fun x e => by cases e; exact ⟨rfl, rfl⟩⟩
        · simp only [loadMemory] at h
          obtain ⟨_, _, h⟩ := bind_eq_ok.1 h
          obtain ⟨_, _, h⟩ := bind_eq_ok.1 h
          obtain ⟨_, _, h⟩ := bind_eq_ok.1 h
          cases h
          exact ⟨fun s' e => (by cases e), fun x e => by cases e; exact ⟨rfl, rfl⟩⟩
      · cases h
        exact ⟨fun s' e => (by cases e; exact ⟨rfl, rfl⟩), fun x e => by cases e⟩
    · cases h
      exact ⟨fun s' e => (by cases e; exact ⟨rfl, rfl⟩), fun x e => by cases e⟩
  · cases h
    exact ⟨fun s' e => (by cases e), fun x e => by cases e; exact ⟨rfl, rfl⟩⟩

theorem enumBody_rel {Gs G G' : Graph} {E E' : Enum} {Q : Nat → Prop} {k : Nat} (hQ : Q k)
    (h2 : 2 ≤ k) (hI : EInv Q b Gs k G E) (hL : Gs.eb.length < 2 ^ 64)
    (h : ER b Gs.eb.length (G, E) (G', E')) :
    Both (fun x y => (∃ a c, x = .inl a ∧ y = .inl c ∧ ER b Gs.eb.length a c) ∨
      ∃ a c, x = .inr a ∧ y = .inr c ∧ ER b Gs.eb.length (a.1, a.2.1) (c.1, c.2.1) ∧ a.2.2 = c.2.2)
      (enumBody (G, E)) (enumBody (G', E')) := by
  obtain ⟨hE, h⟩ := h
  dsimp only at hE h
  obtain ⟨st', hst'⟩ : ∃ st', st' = E'.states := ⟨_, rfl⟩
  rw [← hst'] at hE h
  subst hE
  clear hst'
  unfold enumBody
  dsimp only
  rcases h with ⟨h1, h3, h4, rfl⟩ | ⟨h1, N, h3, h4, h5⟩
  · rw [if_neg (by omega), if_neg (by show ¬ _ < G.nVert; omega)]
    refine Both.pure (Or.inr ⟨_, _, rfl, rfl, ⟨rfl, Or.inl ⟨h1, h3, h4, rfl⟩⟩, rfl⟩)
  · have hnv : G'.nVert = G.nVert := by
      by_cases h0 : E.states.length = 0
      · obtain ⟨eb, rfl, _⟩ := h5.1 h0; rfl
      · obtain ⟨eb, rfl, _⟩ := h5.2 h0; rfl
    rw [if_pos h1, hnv, if_pos h1]
    obtain ⟨hk, hc, hI⟩ := hI
    have hnG := hc.frame.nVert
    have h1s : E.cur < Gs.nVert := by rw [← hnG]; exact h1
    cases hst : E.states with
    | nil =>
      rw [hst] at h4 h5
      cases h4
      dsimp only
      have hW := (h5.1 rfl).clear hL
      rcases hI with ⟨a1, a2, G1, a3, a4, a5⟩ | ⟨a1, a2, a3⟩ | ⟨a1, _⟩
      · refine Both.bind (Q := fun A B => B = A.fl ∧ A = G1) (Both.mono hW ?_) ?_
        · intro A B hA _ hq
          rw [a3] at hA
          cases hA
          exact ⟨hq, rfl⟩
        · rintro A _ ⟨rfl, rfl⟩
          have e : ({ E with states := [] } : Enum) = E := by rw [← hst]
          rw [e]
          refine Both.bind (enumVertex_rel hQ a4 a5 hst hk h2 h1s) ?_
          intro x y hxy
          exact Both.pure (Or.inl ⟨_, _, rfl, rfl, hxy⟩)
      · omega
      · exact absurd hst a1
    | cons top rest =>
      rw [hst] at h3 h4 h5
      obtain ⟨hr, V, hV, rfl, hlow⟩ := h3 (by simp)
      cases h4 with
      | @cons _ top' _ rest' hs hrest =>
      dsimp only
      have hR : Rel b E.req Gs.eb.length (rest.length + 2) G G' := h5.2 (by simp)
      obtain ⟨eb, rfl, hm, hcu, hb⟩ := hR
      refine Both.bind (Q := fun x y => x = V ∧ y = V) ?_ ?_
      · intro x y hx hy
        rw [hV] at hx
        have : (G.other eb).vtx E.cur = .ok V := hV
        rw [this] at hy
        cases hx; cases hy
        exact ⟨rfl, rfl⟩
      rintro W W' ⟨hW, hW'⟩
      rw [hW, hW']
      clear hW hW' W W'
      refine Both.bind (hm.count hs.cand) ?_
      rintro ⟨x, left⟩ ⟨y, _⟩ ⟨hxy, rfl⟩
      dsimp only at hxy ⊢
      rw [hs.sa]
      have hvsl : ∀ r, loop (V.N + 2) (enumFor V E.req E.cliqueSize E.required)
          ({ G with eb := x }, top, left, top.startAt) = .ok r →
          r.graph.vs = G.vs ∧ r.graph.nVert = G.nVert := by
        intro r hr
        refine loop_inv (fun (s : Graph × SState × Nat × Nat) => s.1.vs = G.vs ∧ s.1.nVert = G.nVert)
          (fun r : EnumExit => r.graph.vs = G.vs ∧ r.graph.nVert = G.nVert) ?_ ?_ ⟨rfl, rfl⟩ hr
        · intro s s' hP hb
          have := (enumFor_stat hb).1 s' rfl
          exact ⟨this.1.trans hP.1, this.2.trans hP.2⟩
        · intro s x hP hb
          have := (enumFor_stat hb).2 x rfl
          exact ⟨this.1.trans hP.1, this.2.trans hP.2⟩
      refine Both.bind (Both.mono (Both.loop (P := fun a b' => Rel b E.req Gs.eb.length (rest.length + 2) a.1 b'.1 ∧
        SRel b E.req V.N a.2.1 b'.2.1 ∧ a.2.2 = b'.2.2)
        (R := ExitRel b E.req Gs.eb.length V.N (rest.length + 2)) ?_ _
        ⟨⟨y, rfl, hxy, hcu, hb⟩, hs, rfl⟩) fun r r' hr _ hq => And.intro (hvsl r hr) hq) ?_
      · rintro ⟨A, t, l, j⟩ ⟨B, t', _⟩ ⟨q1, q2, rfl⟩
        exact enumFor_rel _ l _ j hr hlow hL (by omega) q1 q2
      · have hV' : ∀ A : Graph, A.vs = G.vs ∧ A.nVert = G.nVert →
            A.vtx E.cur = .ok V ∧ E.cur < A.nVert := by
          intro A hA
          refine ⟨?_, by rw [hA.2]; exact h1⟩
          unfold vtx at hV ⊢
          rw [hA.1]
          exact hV
        rintro (⟨A, t⟩ | ⟨A, t, n⟩ | ⟨A, t⟩) (⟨B, t'⟩ | ⟨B, t', n'⟩ | ⟨B, t'⟩) ⟨hvv, hq⟩ <;>
          try exact hq.elim
        · obtain ⟨q1, q2⟩ := hq
          refine Both.pure (Or.inr ⟨_, _, rfl, rfl, ⟨rfl, Or.inr ⟨(hV' A hvv).2, V.N, ?_, ?_, ?_⟩⟩,
            rfl⟩)
          · exact fun _ => ⟨hr, V, (hV' A hvv).1, rfl, hlow⟩
          · exact .cons q2 hrest
          · exact ⟨fun h => by simp at h, fun _ => q1⟩
        · obtain ⟨q1, q2, q3⟩ := hq
          refine Both.pure (Or.inl ⟨_, _, rfl, rfl, ⟨rfl, Or.inr ⟨(hV' A hvv).2, V.N, ?_, ?_, ?_⟩⟩⟩)
          · exact fun _ => ⟨hr, V, (hV' A hvv).1, rfl, hlow⟩
          · exact .cons q3 (.cons q2 hrest)
          · exact ⟨fun h => by simp at h, fun _ => q1⟩
        · obtain ⟨q1, q2⟩ := hq
          have hvc : ∀ A' : Graph, A.clearMemory E.req = .ok A' →
              A'.vs = G.vs ∧ A'.nVert = G.nVert := by
            intro A' hA
            unfold clearMemory at hA
            obtain ⟨_, _, hA⟩ := bind_eq_ok.1 hA
            cases hA
            exact hvv
          refine Both.bind (Both.mono (pop_clear q1 hL) fun A' _ hA _ hq => And.intro (hvc A' hA) hq) ?_
          rintro A' B' ⟨hv, q3, q4⟩
          refine Both.bind (pop_reset q3 q2 hr q4) ?_
          intro x2 y2 q5
          refine Both.pure (Or.inl ⟨_, _, rfl, rfl, ⟨rfl, Or.inr ⟨(hV' A' hv).2, V.N, ?_, ?_, ?_⟩⟩⟩)
          · exact fun _ => ⟨hr, V, (hV' A' hv).1, rfl, hlow⟩
          · exact hrest
          · exact q5

end Graph

end CM
