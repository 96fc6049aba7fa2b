import Verif.Lemmas.AWCtor
import Verif.Lemmas.AWEnumBody
import Verif.Lemmas.NWObj
import Verif.Lemmas.NWCtor
import Verif.Lemmas.NWNext

/-! # Arbitrary arithmetic: the API of weighted graphs -/

namespace CM

open Graph Spec

namespace NWG

namespace AW

set_option linter.unusedSectionVars false

variable {R : Type} [Zero R] [Add R] [Sub R] [NatCast R] [LT R] [LE R] [DecidableLT R]
  [DecidableLE R]

variable {pg : PyNW R} {n : Nat} {S : SimpleGraph Nat} {ω : Nat → R} {H : NWG R}

theorem cliqueWeight_spec (l : Lens H) {c : List Nat} (hc : ∀ v ∈ c, v < H.g.nVert) :
    H.cliqueWeight c = .ok (summed H.w c) := by
  unfold cliqueWeight
  have key : ∀ (c : List Nat) (a : R), (∀ v ∈ c, v < H.g.nVert) →
      c.foldlM (fun wt v =>
        if v < H.g.nVert then do
          let w ← rd H.wt v
          .ok (wt + w)
        else (.ok wt : M R)) a = .ok (c.foldl (fun a v => a + H.w v) a) := by
    intro c
    induction c with
    | nil => intro a _; rfl
    | cons v c ih =>
      intro a h
      rw [List.foldlM_cons, if_pos (h v (by simp)), rd_wt l (h v (by simp)), ok_bind, ok_bind,
        ih _ (fun x hx => h x (by simp [hx])), List.foldl_cons]
  exact key c 0 hc

theorem summed_congr {ω ω' : Nat → R} {l : List Nat} (h : ∀ v ∈ l, ω v = ω' v) :
    summed ω l = summed ω' l := by
  unfold summed
  exact foldl_congr fun a x hx => by rw [h x hx]

/-- What one call does. -/
theorem wsearch_at {b : Nat} (h : WPyAt b pg n S ω H) {srt : List (WData R) → List (WData R)}
    (hsrt : ∀ l, (srt l).Perm l) (junk : Nat → R) (a : PyNW.Args R) :
    ∃ pg' H', pg.getMaxClique srt junk a =
        .ok (pg', if a.lowerBound > summed H'.w (wstored H') then .raise
          else .ret (wstored H')) ∧
      WPyAt b pg' n S ω H' ∧ WFrame H H' ∧
      (∀ x, 64 * H.g.ebSize ≤ x → x < 64 * b → bitAt H'.g.eb x = bitAt H.g.eb x) ∧
      pg'.nedges = pg.nedges ∧
      pg'.currentVertex = (if a.useDfs then n + 1 else 0) ∧
      pg'.finishedAll = a.useDfs := by
  obtain ⟨H', i, h1, h2, h3, hi⟩ := findMax_at hsrt junk (wbounded_at h.ok a) 0
    a.useHeuristic a.useDfs
  have hnv : (wbounded H a).g.nVert = n + 1 := h.of.nv
  have F := (wbounded_frame H a).trans h3.frame
  refine ⟨{
      G := some H'
      finishedAll := decide (i ≥ pg.nvert)
      nvert := pg.nvert
      nedges := pg.nedges
      currentVertex := i }, H', ?_,
      ⟨rfl, h.nv, h.pos, h2, h.of.frame F.frame, fun v h4 h5 => by rw [F.w]; exact h.w v h4 h5,
        by rw [F.w]; exact h.w0⟩, F, h3.low, rfl, ?_, ?_⟩
  · unfold PyNW.getMaxClique
    simp only
    have hl : PyNW.checkLoaded { pg with currentVertex := 0 } = some H := h.loaded
    rw [hl]
    simp only
    unfold wbounded at h1
    rw [h1, ok_bind]
    simp only
    rw [NWG.getClique_at h2 h2.loc, ok_bind]
    simp only
    rw [cliqueWeight_spec h2.l (cliqueAt_lt_at h2 h2.loc), ok_bind]
    unfold wstored
    split <;> rfl
  · simp only
    rw [hi, hnv]
  · simp only
    rw [hi, hnv, h.nv]
    have := h.pos
    cases a.useDfs with
    | true => simp
    | false => simpa using this

theorem wsearch_spec (h : WPyOk pg n S ω H) {srt : List (WData R) → List (WData R)}
    (hsrt : ∀ l, (srt l).Perm l) (junk : Nat → R) (a : PyNW.Args R) :
    ∃ pg' H', pg.getMaxClique srt junk a =
        .ok (pg', if a.lowerBound > summed H'.w (wstored H') then .raise
          else .ret (wstored H')) ∧
      WPyOk pg' n S ω H' ∧ WFrame H H' ∧
      pg'.nedges = pg.nedges ∧
      pg'.currentVertex = (if a.useDfs then n + 1 else 0) ∧
      pg'.finishedAll = a.useDfs := by
  obtain ⟨pg', H', h1, h2, h3, h4, h5⟩ := wsearch_at h.at hsrt junk a
  exact ⟨pg', H', h1, h2.pyok h.ok h3.frame h4, h3, h5⟩

/-! ## Loading -/

/-- What a successful load yields. -/
structure WLoadedAs (cap n m : Nat) (S : SimpleGraph Nat) (ω : Nat → R) (pg : PyNW R)
    (H : NWG R) : Prop where
  eq : pg = { G := some H, finishedAll := false, nvert := n, nedges := m, currentVertex := 0 }
  str : Str H.g
  of : Of H.g n S
  l : Lens H
  w : ∀ v, 1 ≤ v → v ≤ n → H.w v = ω v
  w0 : H.w 0 = 0
  d : ∀ v, v ≤ n → H.d v = degSum H v
  loc : H.curLoc < H.g.nVert
  dang : (∃ u v, S.Adj u v) → (H.g.dangling = false ↔ H.g.need ≤ cap ∨ H.g.need < H.g.el.length)
  ok : (∃ u v, S.Adj u v) → H.g.dangling = false → WOk H
  sing : (∃ u v, S.Adj u v) → ∀ v, v < H.g.nVert → bset H.g.eb (H.g.vb v) = {(H.g.V v).spos}
  sizes : Sizes n H.g
  bounds : Bounds H.g
  maxd : ∀ v, v < H.g.nVert → (H.g.V v).N ≤ H.g.maxDeg
  bare : (¬ ∃ u v, S.Adj u v) → H.g.eb.length = H.g.ebSize ∧ H.g.searchCur = 1 + H.g.ebSize

theorem wctor_desc {edges : Edges} (hD : Describes edges n S)
    (hn : n < 2 ^ 31) (hlen : edges.length < 2 ^ 58) (argLR : Bool) (cap : Nat) (wts : List R) :
    (n < wts.length → ∃ H, NWG.ctor argLR cap n edges wts = .ok H ∧
      WBuilt cap n edges wts H) ∧
    (wts.length ≤ n → NWG.ctor argLR cap n edges wts = .error .ub) :=
  ctor_spec argLR cap hn hlen hD.range
    (fun v hv => (hD.mem v v hv hv).2 (Or.inl rfl))
    (by
      intro u v huv
      have hr := hD.range _ huv
      rw [hD.mem v u hr.2 hr.1]
      rcases (hD.mem u v hr.1 hr.2).1 huv with h | h
      · exact Or.inl h.symm
      · exact Or.inr h.symm)

theorem wloadGraph_spec {edges : Edges} (hD : Describes edges n S)
    (hn : n < 2 ^ 31) (hlen : edges.length < 2 ^ 58) {wts : List R} (hw : wts.length = n)
    (argLR : Bool) (cap m : Nat) :
    ∃ pg H, PyNW.loadGraph argLR cap PyNW.new n m edges (0 :: wts) = .ok pg ∧
      WLoadedAs cap n m S (nth wts) pg H := by
  obtain ⟨H, h1, B⟩ := (wctor_desc hD hn hlen argLR cap (0 :: wts)).1 (by simp; omega)
  refine ⟨_, H, ?_, rfl, B.g.str, ?_, B.l, ?_, ?_, B.d, B.loc, ?_, ?_, ?_, B.g.sizes,
    B.g.bounds, B.g.maxd, ?_⟩
  · unfold PyNW.loadGraph PyNW.new
    rw [h1, ok_bind]
  · refine ⟨B.g.nv, ?_, hD.rng⟩
    intro u w hu
    rw [B.g.adj u w hu]
    constructor
    · intro h
      rcases (hD.mem u w hu (hD.range _ h).2).1 h with h | h
      · exact Or.inl h.symm
      · exact Or.inr h
    · rintro (h | h)
      · subst h; exact (hD.mem _ _ hu hu).2 (Or.inl rfl)
      · exact (hD.mem u w hu (hD.rng _ _ h).2.2).2 (Or.inr h)
  · intro v h2 h3
    rw [B.w v h3]
    unfold nth
    obtain ⟨k, rfl⟩ : ∃ k, v = k + 1 := ⟨v - 1, by omega⟩
    simp
  · rw [B.w 0 (Nat.zero_le _)]; rfl
  · rintro ⟨u, v, huv⟩
    have hr := hD.rng _ _ huv
    exact B.g.dang ⟨(u, v), (hD.mem u v hr.1.2 hr.2.2).2 (Or.inr huv), huv.ne⟩
  · rintro ⟨u, v, huv⟩ hd
    have hr := hD.rng _ _ huv
    exact ⟨B.g.ok ⟨(u, v), (hD.mem u v hr.1.2 hr.2.2).2 (Or.inr huv), huv.ne⟩ hd, B.l,
      B.loc⟩
  · rintro ⟨u, v, huv⟩
    have hr := hD.rng _ _ huv
    exact B.g.sing ⟨(u, v), (hD.mem u v hr.1.2 hr.2.2).2 (Or.inr huv), huv.ne⟩
  · intro hno
    refine B.g.bare ?_
    rintro ⟨⟨u, v⟩, he, hne⟩
    have hr := hD.range _ he
    rcases (hD.mem u v hr.1 hr.2).1 he with h | h
    · exact hne h
    · exact hno ⟨u, v, h⟩

theorem wfromEdgelist_spec (argLR : Bool) (cap : Nat) {rows : List (Nat × Nat)} {wts : List R}
    (hn : n < 2 ^ 31) (hlen : rows.length < 2 ^ 56) :
    (ValidRows rows n ∧ wts.length = n → ∃ pg H,
      PyNW.fromEdgelist argLR cap rows n wts = .ok pg ∧
      WLoadedAs cap n rows.length (ofPairs rows) (nth wts) pg H) ∧
    (¬ (ValidRows rows n ∧ wts.length = n) →
      PyNW.fromEdgelist argLR cap rows n wts = .error .throw) := by
  unfold PyNW.fromEdgelist
  rw [rows_fold]
  by_cases hw : wts.length = n
  swap
  · rw [if_pos hw]
    exact ⟨fun h => absurd h.2 hw, fun _ => rfl⟩
  rw [if_neg (fun h => h hw)]
  constructor
  · rintro ⟨h, _⟩
    rw [if_pos (show ∀ r ∈ rows, (1 ≤ r.1 ∧ r.1 ≤ n) ∧ (1 ≤ r.2 ∧ r.2 ≤ n) from h), ok_bind]
    simp only
    have hl : (PyGraph.selfLoops n ++ rows.flatMap (fun r => [(r.1, r.2), (r.2, r.1)])).length =
        n + 1 + 2 * rows.length := by
      rw [List.length_append, selfLoops_length, flat_length]
    rw [if_neg (by omega)]
    have := wloadGraph_spec (rows_describe h) hn (by
      rw [hl]
      have : (2 : Nat) ^ 31 + 1 + 2 * 2 ^ 56 < 2 ^ 58 := by decide
      omega) hw argLR cap (0 + rows.length)
    rw [Nat.zero_add] at this ⊢
    exact this
  · intro h
    have h' : ¬ ValidRows rows n := fun h2 => h ⟨h2, hw⟩
    rw [if_neg (show ¬ ∀ r ∈ rows, (1 ≤ r.1 ∧ r.1 ≤ n) ∧ (1 ≤ r.2 ∧ r.2 ≤ n) from h'),
      error_bind]

theorem wfromMatrix_spec (argLR : Bool) (cap : Nat) {A : Nat → Nat → Bool} {wts : List R}
    (hn : n < 2 ^ 28) :
    (wts.length = n → ∃ pg H, PyNW.fromMatrix argLR cap n n A wts = .ok pg ∧
      WLoadedAs cap n (offDiag n A / 2) (ofMatrix n A) (nth wts) pg H) ∧
    (wts.length ≠ n → PyNW.fromMatrix argLR cap n n A wts = .error .throw) := by
  unfold PyNW.fromMatrix
  rw [if_neg (by simp)]
  constructor
  · intro hw
    obtain ⟨edges, h1, h2, h3, hD⟩ := matrix_edges (A := A) hn
    rw [if_neg (fun h => h hw), h1, ok_bind]
    simp only
    rw [if_neg h2]
    exact wloadGraph_spec hD (by
      have : (2 : Nat) ^ 28 < 2 ^ 31 := by decide
      omega) h3 hw argLR cap _
  · intro hw
    rw [if_pos hw]

/-- `from_adjlist` never returns an object: every accepted input reads past the weights. -/
theorem wfromAdjList_spec (argLR : Bool) (cap : Nat) {m : Nat} {sets : List (List Nat)}
    {wts : List R} (hn : n < 2 ^ 31) (hlen : entries sets < 2 ^ 57) :
    (ValidSets sets n ∧ wts.length = n ∧ entries sets / 2 = m →
      PyNW.fromAdjList argLR cap n m sets wts = .error .ub) ∧
    (¬ (ValidSets sets n ∧ wts.length = n ∧ entries sets / 2 = m) →
      PyNW.fromAdjList argLR cap n m sets wts = .error .throw) := by
  unfold PyNW.fromAdjList
  by_cases h0 : sets.length > 0 ∧ sets.headD [] ≠ []
  · rw [if_pos h0]
    refine ⟨fun h => ?_, fun _ => rfl⟩
    exfalso
    have := h.1.zero
    cases sets with
    | nil => simp at h0
    | cons a t => simp at this h0; exact h0 this
  rw [if_neg h0]
  have hu : uadd n 1 = n + 1 := uadd_eq (by
    have h2 : (2 : Nat) ^ 31 < 2 ^ 63 := by decide
    have h3 : (2 : Nat) ^ 63 + 2 ^ 63 = 2 ^ 64 := by decide
    omega)
  rw [hu]
  by_cases h1 : n + 1 ≠ sets.length ∨ n ≠ wts.length
  · rw [if_pos h1]
    refine ⟨fun h => ?_, fun _ => rfl⟩
    exfalso
    have := h.1.len
    have := h.2.1
    omega
  rw [if_neg h1]
  have hsl : sets.length = n + 1 := by omega
  have hwl : wts.length = n := by omega
  have hz : sets.getD 0 [] = [] := by
    cases sets with
    | nil => rfl
    | cons a t => simpa using h0
  obtain ⟨k1, k2⟩ := adj_edges hn hlen hsl hz
  by_cases hv : ∀ i, i ≤ n → ∀ j ∈ sets.getD i [], (1 ≤ j ∧ j ≤ n) ∧ j ≠ i ∧ i ∈ sets.getD j []
  · obtain ⟨edges, a1, a2, a3⟩ := k1 hv
    rw [a1, ok_bind]
    simp only
    have hV : ValidSets sets n := ⟨hsl, hz, hv⟩
    by_cases hm : entries sets / 2 ≠ m
    · rw [if_pos hm]
      exact ⟨fun h => absurd h.2.2 hm, fun _ => rfl⟩
    · rw [if_neg hm]
      rw [not_not] at hm
      refine ⟨fun _ => ?_, fun h => absurd ⟨hV, hwl, hm⟩ h⟩
      unfold PyNW.loadGraph
      rw [(wctor_desc a3 hn a2 argLR cap wts).2 (by omega), error_bind]
  · refine ⟨fun h => absurd h.1.entry hv, fun _ => ?_⟩
    rw [k2 hv, error_bind]

theorem wloaded_as (h : WLoaded pg n S ω) :
    n < 2 ^ 31 ∧ ∃ cap m H, WLoadedAs cap n m S ω pg H := by
  cases h with
  | @edgelist argLR cap rows n wts pg hn hl he =>
    obtain ⟨h1, h2⟩ := wfromEdgelist_spec argLR cap (rows := rows) (wts := wts) hn hl
    by_cases hv : ValidRows rows n ∧ wts.length = n
    · obtain ⟨pg', H, h3, h4⟩ := h1 hv
      rw [he] at h3
      cases h3
      exact ⟨hn, cap, _, H, h4⟩
    · rw [h2 hv] at he; cases he
  | @matrix argLR cap n A wts pg hn he =>
    obtain ⟨h1, h2⟩ := wfromMatrix_spec argLR cap (A := A) (wts := wts) hn
    by_cases hv : wts.length = n
    · obtain ⟨pg', H, h3, h4⟩ := h1 hv
      rw [he] at h3
      cases h3
      exact ⟨by omega, cap, _, H, h4⟩
    · rw [h2 hv] at he; cases he
  | @adjlist argLR cap n m sets wts pg hn hl he =>
    obtain ⟨h1, h2⟩ := wfromAdjList_spec argLR cap (m := m) (sets := sets) (wts := wts) hn hl
    by_cases hv : ValidSets sets n ∧ wts.length = n ∧ entries sets / 2 = m
    · rw [h1 hv] at he; cases he
    · rw [h2 hv] at he; cases he

/-- A usable object: a fresh load together with its invariant. -/
structure WFresh (pg : PyNW R) (n : Nat) (S : SimpleGraph Nat) (ω : Nat → R) (H : NWG R) :
    Prop where
  pyok : WPyOk pg n S ω H
  d : ∀ v, v ≤ n → H.d v = degSum H v
  sing : ∀ v, v < H.g.nVert → bset H.g.eb (H.g.vb v) = {(H.g.V v).spos}
  edge : ∃ u v, S.Adj u v
  cv : pg.currentVertex = 0
  fin : pg.finishedAll = false
  small : n < 2 ^ 31

theorem wusable_fresh (h : WUsable pg n S ω) : ∃ H, WFresh pg n S ω H := by
  obtain ⟨hn, cap, m, H, hL⟩ := wloaded_as h.loaded
  have hg : pg.G = some H := by rw [hL.eq]
  refine ⟨H, ⟨hg, by rw [hL.eq], ?_, hL.ok h.edge (h.kept H hg), hL.of, hL.w, hL.w0⟩,
    hL.d, hL.sing h.edge, h.edge, by rw [hL.eq], by rw [hL.eq], hn⟩
  obtain ⟨u, v, huv⟩ := h.edge
  have := (hL.of.rng _ _ huv).1
  omega

/-! ## Iterating -/

variable {b : Nat}

theorem WEInv.pad {Hs H : NWG R} {E : WEnum R} (h : WEInv b Hs H E) (hs : E.states ≠ []) :
    WF H.g ∧ ∀ v, v < H.g.nVert → PadZero H.g.eb (H.g.vb v) := by
  obtain ⟨hc, _, _, h⟩ := h
  rcases h with ⟨h1, _⟩ | ⟨h1, _⟩ | ⟨_, _, H0, p, ok, hc0, p1, p2, Wg, I, p3, _⟩
  · exact absurd h1 hs
  · exact absurd h1 hs
  · have F := I.upd.frame
    refine ⟨F.wf Wg.g.wf, ?_⟩
    intro v hv
    rw [F.nVert] at hv
    exact ((I.updS p2).mid ok Wg.g.hr v hv).1

theorem WEInv.new {Hs : NWG R} (ok : WOkAt b Hs) (h1 : 1 < Hs.g.nVert) (ws : List R)
    (hws : Hs.g.maxDeg ≤ ws.length) (W : R) : WEInv b Hs Hs (WEnum.new ws W) := by
  refine ⟨WCoreS.refl _ _ _, ok.l, hws, Or.inl ⟨rfl, h1, ?_⟩⟩
  exact pop_nothing_at ok.ok

/-- Everything that is pending for a new enumerator. -/
theorem new_wpend {Hs : NWG R} (ws : List R) (W : R) (r : Nat) (C : Finset Nat) :
    WPnd Hs Hs (WEnum.new ws W) r C ↔ (1 < r ∧ r < Hs.g.nVert ∧ RootS Hs r C) := by
  unfold WPnd WEnum.new
  simp [PendS]

theorem wpend_finite {Hs : NWG R} (w : WF Hs.g) (ws : List R) (W : R) :
    ∃ P : Finset (Nat × Finset Nat), (∀ r C, WPnd Hs Hs (WEnum.new ws W) r C → (r, C) ∈ P) ∧
      P.card ≤ Hs.g.nVert * 2 ^ Hs.g.maxDeg := by
  refine ⟨(Finset.range Hs.g.nVert) ×ˢ (Finset.range Hs.g.maxDeg).powerset, ?_, ?_⟩
  · intro r C h
    rw [Finset.mem_product, Finset.mem_range, Finset.mem_powerset]
    obtain ⟨h1, h2, h4⟩ := (new_wpend ws W r C).1 h
    refine ⟨h2, ?_⟩
    intro i hi
    rw [Finset.mem_range]
    exact Nat.lt_of_lt_of_le (h4.1.1.2.1 i hi) (w.maxd r h2)
  · rw [Finset.card_product, Finset.card_powerset, Finset.card_range, Finset.card_range]

/-- One `__next__`. -/
theorem wnextClique_spec {Hs : NWG R} {E : WEnum R}
    (hg : pg.G = some H) (hnv : Hs.g.nVert = pg.nvert + 1) (h : WEInv b Hs H E) :
    ∃ H' E', WEInv b Hs H' E' ∧
      ((∃ v C, pg.nextClique E = .ok ({ pg with G := some H' }, E', some (Hs.g.listAt v C)) ∧
          WPnd Hs H E v C ∧
          Shr (WPnd Hs H' E') (fun r D => WPnd Hs H E r D ∧ ¬ (r = v ∧ D = C)) ∧
          E'.states ≠ [] ∧ E'.states.length + 1 ≤ (bset H'.g.eb (Hs.g.vb E'.cur)).card) ∨
       (pg.nextClique E = .ok ({ pg with G := some H' }, E', none) ∧ OkAt b H'.g ∧
          E'.cur = Hs.g.nVert ∧ E'.states = [])) := by
  obtain ⟨H', E', v, a1, a2, a3⟩ := enumGraph_spec h
  refine ⟨H', E', a2, ?_⟩
  unfold PyNW.nextClique
  rw [hg]
  simp only
  rw [a1, ok_bind]
  simp only
  rcases a3 with ⟨b1, b2, b3, b4, b5⟩ | ⟨b1, b2, b3, b4⟩
  · left
    rw [if_neg (by omega)]
    obtain ⟨w, hp⟩ := WEInv.pad a2 b3.1
    have F := a2.1.core.frame
    unfold NWG.getClique
    rw [Graph.getClique_ok w hp (by rw [F.nVert]; exact b1), ok_bind, ok_bind]
    refine ⟨v, _, ?_, b4, b5, b3.1, by rw [b2]; exact b3.2⟩
    simp only
    rw [cliqueAt_listAt F]
  · right
    rw [if_pos (by omega)]
    exact ⟨rfl, b4, b2, b3⟩

/-- Iterating to the end: only pending cliques are reported, each once. -/
theorem wconsume_spec {Hs : NWG R} : ∀ (fuel : Nat) {pg : PyNW R} {H : NWG R}
    {E : WEnum R} (P : Finset (Nat × Finset Nat)), pg.G = some H → Hs.g.nVert = pg.nvert + 1 →
    WEInv b Hs H E → (∀ r C, WPnd Hs H E r C → (r, C) ∈ P) → P.card < fuel →
    ∃ (H' : NWG R) (E' : WEnum R) (ps : List (Nat × Finset Nat)),
      pg.consume fuel E = .ok ({ pg with G := some H' }, E', ps.map fun q => Hs.g.listAt q.1 q.2) ∧
      OkAt b H'.g ∧ WCoreS anyCl b Hs H' ∧ ps.Nodup ∧ (∀ q ∈ ps, WPnd Hs H E q.1 q.2) ∧
      E'.cur = Hs.g.nVert := by
  intro fuel
  induction fuel with
  | zero => intro pg H E P _ _ _ _ h; omega
  | succ f ih =>
    intro pg H E P hg hnv hI hP hf
    obtain ⟨H1, E1, a1, a2⟩ := wnextClique_spec hg hnv hI
    unfold PyNW.consume
    rcases a2 with ⟨v, C, b1, b2, b3, _⟩ | ⟨b1, b2, b4, _⟩
    · rw [b1, ok_bind]
      simp only
      have hvC : (v, C) ∈ P := hP v C b2
      obtain ⟨H2, E2, ps, c1, c2, c3, c4, c5, c6⟩ := ih (pg := { pg with G := some H1 })
        (P := P.erase (v, C)) rfl hnv a1
        (by
          intro r D h
          obtain ⟨h1, h2⟩ := b3 r D h
          rw [Finset.mem_erase]
          exact ⟨fun h => h2 ⟨congrArg Prod.fst h, congrArg Prod.snd h⟩, hP r D h1⟩)
        (by
          rw [Finset.card_erase_of_mem hvC]
          have := Finset.card_pos.2 ⟨_, hvC⟩
          omega)
      rw [c1, ok_bind]
      refine ⟨H2, E2, (v, C) :: ps, rfl, c2, c3, ?_, ?_, c6⟩
      · rw [List.nodup_cons]
        exact ⟨fun h => (b3 _ _ (c5 _ h)).2 ⟨rfl, rfl⟩, c4⟩
      · intro q hq
        rcases List.mem_cons.1 hq with rfl | hq
        · exact b2
        · exact (b3 _ _ (c5 q hq)).1
    · rw [b1, ok_bind]
      exact ⟨H1, E1, [], rfl, b2, a1.1, List.nodup_nil, by simp, b4⟩

/-- Two vertices of a rooted set cannot both be its root if their degrees can be compared. -/
theorem wlistAt_inj (w : Str H.g) {r r' : Nat} (hr : r < H.g.nVert) (hr' : r' < H.g.nVert)
    (hcmp : H.d r ≤ H.d r' ∨ H.d r' < H.d r) (hcmp' : H.d r' ≤ H.d r ∨ H.d r < H.d r')
    {C C' : Finset Nat} (h : WRooted H r C) (h' : WRooted H r' C')
    (he : H.g.listAt r C = H.g.listAt r' C') : r = r' ∧ C = C' := by
  have key0 : ∀ {r r' : Nat}, r < H.g.nVert → r' < H.g.nVert → r ≠ r' → ∀ {C C' : Finset Nat},
      WRooted H r C → WRooted H r' C' → H.g.listAt r C = H.g.listAt r' C' →
      (r' < r ∧ ¬ H.d r' ≤ H.d r) ∨ (r < r' ∧ ¬ H.d r' < H.d r) := by
    intro r r' hr hr' hne C C' h h' he
    have hm : r' ∈ H.g.listAt r C := by rw [he]; exact root_mem w hr' h'.1
    obtain ⟨i, hi, hN, hie⟩ := mem_listAt.1 hm
    have hs := w.self r hr
    have hi2 : i ≠ (H.g.V r).spos := by
      rintro rfl
      exact hne (hs.symm.trans hie)
    have hc := (mem_wCand'.1 (h.2 i hi hi2)).2
    rw [hie] at hc
    rcases hc with ⟨h1, h2⟩ | ⟨h1, h2⟩
    · have h3 := w.sorted r hr i _ h1 (w.spos r hr)
      exact Or.inl ⟨by omega, h2⟩
    · have h3 := w.sorted r hr _ i h1 hN
      exact Or.inr ⟨by omega, h2⟩
  have hrr : r = r' := by
    by_contra hne
    rcases key0 hr hr' hne h h' he with ⟨a1, a2⟩ | ⟨a1, a2⟩ <;>
      rcases key0 hr' hr (fun e => hne e.symm) h' h he.symm with ⟨b1, b2⟩ | ⟨b1, b2⟩
    · omega
    · exact hcmp'.elim a2 b2
    · exact hcmp.elim b2 a2
    · omega
  subst hrr
  refine ⟨rfl, ?_⟩
  have key : ∀ {C C' : Finset Nat}, IsCl H.g r C → IsCl H.g r C' →
      H.g.listAt r C = H.g.listAt r C' → C ⊆ C' := by
    intro C C' h h' he i hi
    have hN := h.2.1 i hi
    have : H.g.e r i ∈ H.g.listAt r C := mem_listAt.2 ⟨i, hi, hN, rfl⟩
    rw [he] at this
    obtain ⟨j, hj, hjN, hje⟩ := mem_listAt.1 this
    have : i = j := by
      rcases Nat.lt_trichotomy i j with h1 | h1 | h1
      · have := w.sorted r hr i j h1 hjN; omega
      · exact h1
      · have := w.sorted r hr j i h1 hN; omega
    rw [this]; exact hj
  exact Finset.Subset.antisymm (key h.1 h'.1 he) (key h'.1 h.1 he.symm)

/-- The degree the code computes, in terms of the specified graph. -/
theorem spec_summedDegree (h : WPyOk pg n S ω H) {u : Nat} (h1 : 1 ≤ u) (hu : u ≤ n)
    (hd : H.d u = degSum H u) : H.d u = summedDegree S n ω u := by
  classical
  have hO := h.of
  have w := h.ok.ok.wf.str
  have hnv := hO.nv
  have huv : u < H.g.nVert := by omega
  have hl : (List.range (H.g.V u).N).map (H.g.e u) = neighbourhood S n u := by
    apply sorted_ext
    · rw [List.pairwise_map]
      refine (List.pairwise_lt_range (n := (H.g.V u).N)).imp_of_mem ?_
      intro a b _ hb hab
      exact w.sorted u huv a b hab (List.mem_range.1 hb)
    · unfold neighbourhood
      exact List.Pairwise.sublist List.filter_sublist List.pairwise_lt_range
    · intro x
      unfold neighbourhood
      simp only [List.mem_map, List.mem_range, List.mem_filter, decide_eq_true_eq]
      have := hO.adj u x hu
      unfold nadj at this
      rw [this]
      constructor
      · rintro (h | h)
        · exact ⟨by omega, Or.inl h⟩
        · have := (hO.rng _ _ h).2
          exact ⟨by omega, Or.inr h⟩
      · exact fun h => h.2
  rw [hd]
  unfold degSum summedDegree summed
  rw [← hl, List.foldl_map]
  apply foldl_congr
  intro a j hj
  have hjN := List.mem_range.1 hj
  have he : H.g.e u j ∈ neighbourhood S n u := by
    rw [← hl]; exact List.mem_map.2 ⟨j, hj, rfl⟩
  have hr : 1 ≤ H.g.e u j ∧ H.g.e u j ≤ n := by
    rcases (hO.adj u _ hu).1 ⟨j, hjN, rfl⟩ with h3 | h3
    · omega
    · exact (hO.rng _ _ h3).2
  show a + H.w (H.g.e u j) = _
  rw [h.w _ hr.1 hr.2]

/-- The result of iterating `all_cliques(W)` to the end. -/
theorem wlistCliques_at (h : WPyAt b pg n S ω H) (junk : Nat → R) (W : R) :
    ∃ (fuel : Nat) (E : WEnum R) (H' : NWG R) (E' : WEnum R) (cs : List (List Nat)),
      pg.allCliques junk W = .ok E ∧
      pg.consume fuel E = .ok ({ pg with G := some H' }, E', cs) ∧
      E'.cur = H'.g.nVert ∧ H'.g.nVert = pg.nvert + 1 ∧
      pg.listCliques junk W = .ok ({ pg with G := some H' }, cs) ∧
      OkAt b H'.g ∧ WCoreS anyCl b H H' ∧
      (∀ l ∈ cs, IsCliqueList S n l ∧ 2 ≤ l.length) ∧
      ((∀ u v, 1 ≤ u → u ≤ n → 1 ≤ v → v ≤ n → H.d u ≤ H.d v ∨ H.d v < H.d u) → cs.Nodup) := by
  have w := h.ok.ok.wf.str
  have hO := h.of
  have hnv := hO.nv
  have hpos := h.pos
  obtain ⟨P, h3, h4⟩ := wpend_finite h.ok.ok.wf ((List.range H.g.maxDeg).map junk) W
  obtain ⟨H', E', ps, a1, a2, a3, a4, a5, a7⟩ := wconsume_spec (pg := pg)
    (H.g.nVert * 2 ^ H.g.maxDeg + 1) P h.g (by rw [hnv, h.nv])
    (WEInv.new h.ok (by omega) ((List.range H.g.maxDeg).map junk) (by simp) W) h3 (by omega)
  have hf : H'.g.nVert = H.g.nVert := a3.frame.frame.nVert
  have hq : ∀ q ∈ ps, 1 < q.1 ∧ q.1 < H.g.nVert ∧ RootS H q.1 q.2 := by
    intro q hq
    exact (new_wpend _ W q.1 q.2).1 (a5 q hq)
  refine ⟨_, _, H', E', ps.map fun q => H.g.listAt q.1 q.2, ?_, a1, by rw [a7, hf],
    by rw [hf, hnv, h.nv], ?_, a2, a3, ?_, ?_⟩
  · unfold PyNW.allCliques
    rw [h.loaded]
  · unfold PyNW.listCliques PyNW.allCliques
    rw [h.loaded]
    simp only
    rw [ok_bind, h.g]
    simp only
    rw [a1, ok_bind]
  · intro l hl
    obtain ⟨⟨r, C⟩, hm, rfl⟩ := List.mem_map.1 hl
    obtain ⟨b1, b2, b3, b4⟩ := hq _ hm
    simp only at b1 b2 b3 b4 ⊢
    refine ⟨listAt_clique hO w b2 (by omega) b3.1, ?_⟩
    rw [listAt_length b3.1.2.1]
    have := Finset.card_pos.2 b4
    rw [Finset.card_erase_of_mem b3.1.1] at this
    omega
  · intro hcmp
    rw [List.nodup_map_iff_inj_on a4]
    rintro ⟨r, C⟩ hq1 ⟨r', C'⟩ hq2 he
    obtain ⟨b1, b2, b3, _⟩ := hq _ hq1
    obtain ⟨c1, c2, c3, _⟩ := hq _ hq2
    simp only at b1 b2 b3 c1 c2 c3
    obtain ⟨d1, d2⟩ := wlistAt_inj w b2 c2 (hcmp r r' (by omega) (by omega) (by omega) (by omega))
      (hcmp r' r (by omega) (by omega) (by omega) (by omega)) b3 c3 he
    rw [d1, d2]

theorem wlistCliques_spec (h : WPyOk pg n S ω H) (junk : Nat → R) (W : R) :
    ∃ (fuel : Nat) (E : WEnum R) (H' : NWG R) (E' : WEnum R) (cs : List (List Nat)),
      pg.allCliques junk W = .ok E ∧
      pg.consume fuel E = .ok ({ pg with G := some H' }, E', cs) ∧
      E'.cur = H'.g.nVert ∧ H'.g.nVert = pg.nvert + 1 ∧
      pg.listCliques junk W = .ok ({ pg with G := some H' }, cs) ∧
      WOk H' ∧ WCoreS anyCl H.g.searchStart H H' ∧
      (∀ l ∈ cs, IsCliqueList S n l ∧ 2 ≤ l.length) ∧
      ((∀ u v, 1 ≤ u → u ≤ n → 1 ≤ v → v ≤ n → H.d u ≤ H.d v ∨ H.d v < H.d u) → cs.Nodup) := by
  obtain ⟨fuel, E, H', E', cs, h1, h2, h3, h4, h5, h6, h7, h8⟩ := wlistCliques_at h.at junk W
  exact ⟨fuel, E, H', E', cs, h1, h2, h3, h4, h5,
    (h7.okAt h.ok.at h6).wok h.ok h7.frame.frame h7.core.low, h7, h8⟩

/-! ## Sequences of calls -/

/-- One call keeps the object's invariant and the graph it stores. -/
theorem wop_spec (h : WPyOk pg n S ω H) {op : WOp R} (hl : op.Legal) :
    ∃ pg' H', op.run pg = .ok pg' ∧ WPyOk pg' n S ω H' ∧ WFrame H H' ∧
      pg'.nedges = pg.nedges := by
  cases op with
  | search srt junk a =>
    obtain ⟨pg', H', h1, h2, h3, h5, _⟩ := wsearch_spec h hl junk a
    refine ⟨pg', H', ?_, h2, h3, h5⟩
    show (pg.getMaxClique srt junk a >>= _) = _
    rw [h1, ok_bind]
  | list junk weight =>
    obtain ⟨_, _, H', _, cs, _, _, _, _, h1, h2, h3, _⟩ := wlistCliques_spec h junk weight
    have hW := h2
    have F := h3.frame
    refine ⟨{ pg with G := some H' }, H', ?_, ⟨rfl, h.nv, h.pos, hW, h.of.frame F.frame, ?_, ?_⟩,
      F, rfl⟩
    · show (pg.listCliques junk weight >>= _) = _
      rw [h1, ok_bind]
    · intro v h4 h5; rw [F.w]; exact h.w v h4 h5
    · rw [F.w]; exact h.w0
  | reset =>
    refine ⟨{ pg with G := some { H with curMax := 0 }, finishedAll := false, currentVertex := 0 },
      { H with curMax := 0 }, ?_, ⟨rfl, h.nv, h.pos, ⟨h.ok.ok, ⟨h.ok.l.wt, h.ok.l.deg, h.ok.l.mcs⟩,
      h.ok.loc⟩, h.of, h.w, h.w0⟩, ⟨Frame.refl _, rfl, rfl, rfl, rfl, rfl, rfl⟩, rfl⟩
    simp only [WOp.run, PyNW.resetSearch, h.g]

theorem wruns_cons (op : WOp R) (ops : List (WOp R)) (pg : PyNW R) :
    wruns (op :: ops) pg = (op.run pg >>= wruns ops) := by
  unfold wruns
  rw [List.foldlM_cons]

theorem wruns_spec : ∀ (ops : List (WOp R)) {pg : PyNW R} {n : Nat} {S : SimpleGraph Nat}
    {ω : Nat → R} {H : NWG R}, WPyOk pg n S ω H → (∀ op ∈ ops, op.Legal) →
    ∃ pg' H', wruns ops pg = .ok pg' ∧ WPyOk pg' n S ω H' ∧ WFrame H H' ∧
      pg'.nedges = pg.nedges := by
  intro ops
  induction ops with
  | nil =>
    intro pg n S ω H h _
    exact ⟨pg, H, rfl, h, WFrame.refl _, rfl⟩
  | cons op ops ih =>
    intro pg n S ω H h hleg
    obtain ⟨pg1, H1, a1, a2, a3, a4⟩ := wop_spec h (hleg op (by simp))
    obtain ⟨pg2, H2, b1, b2, b3, b4⟩ := ih a2 (fun o ho => hleg o (by simp [ho]))
    refine ⟨pg2, H2, ?_, b2, a3.trans b3, b4.trans a4⟩
    rw [wruns_cons, a1, ok_bind, b1]

end AW

end NWG

end CM
