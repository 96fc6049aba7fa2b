import Verif.Lemmas.NWCtor

/-! # Arbitrary arithmetic: the constructor of weighted graphs -/

namespace CM

open Graph Spec

namespace NWG

namespace AW

set_option linter.unusedSectionVars false

variable {R : Type} [Zero R] [Add R] [Sub R] [NatCast R] [LT R] [LE R] [DecidableLT R]
  [DecidableLE R]

variable {H : NWG R}

theorem foldl_congr {α β : Type} {f g : α → β → α} : ∀ {l : List β} {a : α},
    (∀ a, ∀ x ∈ l, f a x = g a x) → l.foldl f a = l.foldl g a := by
  intro l
  induction l with
  | nil => intro a _; rfl
  | cons x l ih =>
    intro a h
    rw [List.foldl_cons, List.foldl_cons, h a x (by simp), ih fun a y hy => h a y (by simp [hy])]

/-- nwgraph.cpp:47-56 -/
theorem degOf_spec {g : Graph} (s : Str g) {wts : List R} {i : Nat} (hi : i < g.nVert)
    (hw : ∀ j, j < (g.V i).N → g.e i j < wts.length) :
    degOf g wts i =
      .ok ((List.range (g.V i).N).foldl (fun a j => a + wts.getD (g.e i j) 0) 0) := by
  unfold degOf
  rw [s.vtx_ok hi, ok_bind]
  obtain ⟨d, h1, h2⟩ := forRange_rule (lo := 0) (hi := (g.V i).N) (s := (0 : R))
    (body := fun j d => do
      let x ← g.nbr (g.V i) j
      let w ← rd wts x
      .ok (d + w))
    (fun k d => d = (List.range k).foldl (fun a j => a + wts.getD (g.e i j) 0) 0)
    (Nat.zero_le _) (by simp)
    (by
      rintro k d _ hk rfl
      rw [s.nbr_ok hi hk, ok_bind, rd_getD (0 : R) (hw k hk), ok_bind]
      exact ⟨_, rfl, by rw [List.range_succ, List.foldl_append]; rfl⟩)
  rw [h1, h2]

theorem degOf_ub {g : Graph} (s : Str g) {wts : List R} {i : Nat} (hi : i < g.nVert)
    (hw : ∃ j, j < (g.V i).N ∧ wts.length ≤ g.e i j) :
    degOf g wts i = .error .ub := by
  unfold degOf
  rw [s.vtx_ok hi, ok_bind]
  apply forRange_ub (P := fun j => g.e i j < wts.length)
  · intro k d _ hk hP
    rw [s.nbr_ok hi hk, ok_bind, rd_getD (0 : R) hP, ok_bind]
    exact ⟨_, rfl⟩
  · intro k d _ hk hP
    rw [s.nbr_ok hi hk, ok_bind, rd_ub (by omega), error_bind]
  · obtain ⟨j, h1, h2⟩ := hw
    exact ⟨j, Nat.zero_le _, h1, by omega⟩

/-- nwgraph.cpp:86-105 -/
theorem mcsOf_spec (s : Str H.g) (l : Lens H) {r : Nat} (hr : r < H.g.nVert) :
    ∃ c, H.mcsOf r = .ok c := by
  have hsp := s.spos r hr
  unfold mcsOf
  rw [s.vtx_ok hr, ok_bind]
  obtain ⟨m, a1, _⟩ := forRange_rule (lo := 0) (hi := (H.g.V r).spos) (s := (0 : R))
    (body := fun j m => do
      let vert ← H.g.nbr (H.g.V r) j
      let dv ← rd H.deg vert
      let d ← rd H.deg r
      let w ← rd H.wt vert
      .ok (if dv > d then m + w else m))
    (fun _ _ => True) (Nat.zero_le _) trivial
    (by
      rintro k m _ hk _
      have hkN : k < (H.g.V r).N := by omega
      have he := s.e_lt hr hkN
      rw [s.nbr_ok hr hkN, ok_bind, rd_deg l he, ok_bind, rd_deg l hr, ok_bind, rd_wt l he,
        ok_bind]
      exact ⟨_, rfl, trivial⟩)
  rw [a1, ok_bind]
  obtain ⟨m', b1, _⟩ := forRange_rule (lo := (H.g.V r).spos) (hi := (H.g.V r).N) (s := m)
    (body := fun j m => do
      let vert ← H.g.nbr (H.g.V r) j
      let dv ← rd H.deg vert
      let d ← rd H.deg r
      let w ← rd H.wt vert
      .ok (if dv ≥ d then m + w else m))
    (fun _ _ => True) (by omega) trivial
    (by
      rintro k m h1 hk _
      have he := s.e_lt hr hk
      rw [s.nbr_ok hr hk, ok_bind, rd_deg l he, ok_bind, rd_deg l hr, ok_bind, rd_wt l he,
        ok_bind]
      exact ⟨_, rfl, trivial⟩)
  exact ⟨m', b1⟩

/-- nwgraph.cpp:79-113 -/
theorem boundsLoop_spec (s : Str H.g) (l : Lens H) (hl : H.curLoc = 0) :
    ∃ mcs lim loc, H.boundsLoop = .ok { H with mcs := mcs, limit := lim, curLoc := loc } ∧
      mcs.length = H.g.nVert ∧ loc < H.g.nVert := by
  unfold boundsLoop
  obtain ⟨H', h1, h2⟩ := forRange_rule (lo := 0) (hi := H.g.vs.length)
    (s := ({ H with limit := 0 } : NWG R))
    (body := fun cur (H : NWG R) => do
      let m ← H.mcsOf cur
      let mcs ← wr H.mcs cur m
      let H : NWG R := { H with mcs := mcs }
      if m > H.limit then .ok { H with curLoc := cur, limit := m } else .ok H)
    (fun _ (H' : NWG R) => ∃ (mcs : List R) (lim : R) (loc : Nat),
      H' = { H with mcs := mcs, limit := lim, curLoc := loc } ∧
      mcs.length = H.g.nVert ∧ loc < H.g.nVert)
    (Nat.zero_le _)
    ⟨H.mcs, 0, H.curLoc, rfl, l.mcs, by rw [hl]; exact s.npos⟩
    (by
      rintro k H1 _ hk ⟨mcs, lim, loc, rfl, i0, i4⟩
      have hkn : k < H.g.nVert := by rw [← s.vlen]; exact hk
      obtain ⟨c, hc⟩ := mcsOf_spec (H := { H with mcs := mcs, limit := lim, curLoc := loc }) s
        ⟨l.wt, l.deg, i0⟩ hkn
      rw [hc, ok_bind, wr_ok _ (by simp only; omega), ok_bind]
      simp only
      split
      · exact ⟨_, rfl, _, _, _, rfl, by simpa using i0, hkn⟩
      · exact ⟨_, rfl, _, _, _, rfl, by simpa using i0, i4⟩)
  obtain ⟨mcs, lim, loc, rfl, i0, i4⟩ := h2
  exact ⟨mcs, lim, loc, h1, i0, i4⟩

/-- The sum of the weights of a vertex and its neighbours, in increasing order. -/
def degSum (H : NWG R) (v : Nat) : R :=
  (List.range (H.g.V v).N).foldl (fun a j => a + H.we v j) 0

/-- What the constructor promises. -/
structure WBuilt (cap n : Nat) (edges : Edges) (wts : List R) (H : NWG R) : Prop where
  g : Built cap n edges H.g
  l : Lens H
  w : ∀ v, v ≤ n → H.w v = wts.getD v 0
  d : ∀ v, v ≤ n → H.d v = degSum H v
  loc : H.curLoc < H.g.nVert

theorem ctor_spec {n : Nat} {edges : Edges} {wts : List R} (argLR : Bool) (cap : Nat)
    (hn : n < 2 ^ 31)
    (hlen : edges.length < 2 ^ 58) (hr : ∀ e ∈ edges, e.1 ≤ n ∧ e.2 ≤ n)
    (hself : ∀ v, v ≤ n → (v, v) ∈ edges) (hsym : ∀ u v, (u, v) ∈ edges → (v, u) ∈ edges) :
    (n < wts.length → ∃ H, ctor argLR cap n edges wts = .ok H ∧ WBuilt cap n edges wts H) ∧
    (wts.length ≤ n → ctor argLR cap n edges wts = .error .ub) := by
  obtain ⟨g, a1, B⟩ := CM.ctor_spec argLR cap hn hlen hr hself hsym
  have s := B.str
  have hnv := B.nv
  unfold ctor
  rw [a1, ok_bind]
  constructor
  · intro hwl
    obtain ⟨⟨wt, deg⟩, b1, b2, b3, b4, b5⟩ := forRange_rule (lo := 0) (hi := n + 1)
      (s := (([], []) : List R × List R))
      (body := fun i (s : List R × List R) => do
        let d ← degOf g wts i
        let w ← rd wts i
        .ok (s.1 ++ [w], s.2 ++ [d]))
      (fun k s => s.1.length = k ∧ s.2.length = k ∧ (∀ v, v < k → s.1.getD v 0 = wts.getD v 0) ∧
        (∀ v, v < k → s.2.getD v 0 = (List.range (g.V v).N).foldl
          (fun a j => a + wts.getD (g.e v j) 0) 0))
      (Nat.zero_le _) (by simp)
      (by
        rintro k ⟨wt, deg⟩ _ hk ⟨i1, i2, i3, i4⟩
        simp only at i1 i2 i3 i4
        rw [degOf_spec s (by omega) (fun j hj => by
          have := s.e_lt (v := k) (by omega) hj; omega), ok_bind, rd_getD (0 : R) (by omega), ok_bind]
        refine ⟨_, rfl, by simp [i1], by simp [i2], ?_, ?_⟩
        · intro v hv
          simp only
          by_cases hvk : v = k
          · subst hvk
            rw [List.getD_eq_getElem?_getD, List.getElem?_append_right (by omega), i1]
            simp
          · rw [List.getD_eq_getElem?_getD, List.getElem?_append_left (by omega),
              ← List.getD_eq_getElem?_getD]
            exact i3 v (by omega)
        · intro v hv
          simp only
          by_cases hvk : v = k
          · subst hvk
            rw [List.getD_eq_getElem?_getD, List.getElem?_append_right (by omega), i2]
            simp
          · rw [List.getD_eq_getElem?_getD, List.getElem?_append_left (by omega),
              ← List.getD_eq_getElem?_getD]
            exact i4 v (by omega))
    rw [b1, ok_bind]
    simp only at b2 b3 b4 b5 ⊢
    obtain ⟨mcs, lim, loc, c1, c2, c3⟩ := boundsLoop_spec
      (H := { g := g, wt := wt, deg := deg, mcs := wt, limit := 0, curMax := 0, curLoc := 0 }) s
      ⟨by simp only; omega, by simp only; omega, by simp only; omega⟩ rfl
    rw [c1]
    refine ⟨_, rfl, B, ⟨by simp only; omega, by simp only; omega, c2⟩, ?_, ?_, c3⟩
    · intro v hv
      exact b4 v (by omega)
    · intro v hv
      show deg.getD v 0 = _
      rw [b5 v (by omega)]
      unfold degSum
      apply foldl_congr
      intro a j hj
      rw [List.mem_range] at hj
      have := s.e_lt (v := v) (by omega) hj
      show _ = a + wt.getD (g.e v j) 0
      rw [b4 _ (by omega)]
  · intro hwl
    rw [forRange_ub (P := fun i => i < wts.length ∧ ∀ j, j < (g.V i).N → g.e i j < wts.length)]
    · rfl
    · intro k s' _ hk hP
      rw [degOf_spec s (by omega) hP.2, ok_bind, rd_getD (0 : R) hP.1, ok_bind]
      exact ⟨_, rfl⟩
    · intro k s' _ hk hP
      by_cases h1 : ∀ j, j < (g.V k).N → g.e k j < wts.length
      · rw [degOf_spec s (by omega) h1, ok_bind, rd_ub (by
          by_contra hc; exact hP ⟨by omega, h1⟩), error_bind]
      · simp only [not_forall] at h1
        obtain ⟨j, hj, h1⟩ := h1
        rw [degOf_ub s (by omega) ⟨j, hj, by omega⟩, error_bind]
    · exact ⟨n, Nat.zero_le _, by omega, by omega⟩

end AW

end NWG

end CM
