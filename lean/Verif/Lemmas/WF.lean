import Verif.Lemmas.BinaryFind
import Verif.Lemmas.Count
import Verif.Model.Search

/-! # Well-formed graph objects and what searches may change -/

namespace CM

namespace Graph

/-- The record of vertex `v`. -/
def V (G : Graph) (v : Nat) : Vtx := G.vs.getD v ⟨0, 0, 0, 0, 0⟩

/-- Entry `i` of the neighbour list of `v`. -/
def e (G : Graph) (v i : Nat) : Nat := G.el.getD ((G.V v).elo + i) 0

/-- `w` is in the neighbour list of `u` (which contains `u` itself). -/
def nadj (G : Graph) (u w : Nat) : Prop := ∃ i, i < (G.V u).N ∧ G.e u i = w

instance (G : Graph) (u w : Nat) : Decidable (G.nadj u w) :=
  inferInstanceAs (Decidable (∃ i, i < (G.V u).N ∧ G.e u i = w))

/-- The bit set of vertex `v`. -/
def vb (G : Graph) (v : Nat) : GBits := ⟨(G.V v).ebo, (G.V v).N⟩

/-- Positions in the list of `r` that take part in a search rooted at `r`. -/
def rootCand (G : Graph) (r : Nat) : Finset Nat :=
  (Finset.range (G.V r).N).filter fun i =>
    (i < (G.V r).spos ∧ (G.V r).N < (G.V (G.e r i)).N) ∨
    ((G.V r).spos < i ∧ (G.V r).N ≤ (G.V (G.e r i)).N)

/-- The part of the invariant that only concerns the immutable structure. -/
structure WF (G : Graph) : Prop where
  vlen : G.vs.length = G.nVert
  npos : 0 < G.nVert
  spos : ∀ v, v < G.nVert → (G.V v).spos < (G.V v).N
  self : ∀ v, v < G.nVert → G.e v (G.V v).spos = v
  inEl : ∀ v, v < G.nVert → (G.V v).elo + (G.V v).N ≤ G.el.length
  ellen : G.el.length < 2 ^ 60
  sorted : ∀ v, v < G.nVert → ∀ i j, i < j → j < (G.V v).N → G.e v i < G.e v j
  symm : ∀ u, u < G.nVert → ∀ w, G.nadj u w → w < G.nVert ∧ G.nadj w u
  maxd : ∀ v, v < G.nVert → (G.V v).N ≤ G.maxDeg
  ebo : ∀ u v, u < v → v < G.nVert → (G.V u).ebo + dlen (G.V u).N ≤ (G.V v).ebo
  eboEnd : ∀ v, v < G.nVert → (G.V v).ebo + dlen (G.V v).N ≤ G.ebSize
  eblen : G.eb.length < 2 ^ 60
  start : G.ebSize < G.searchStart
  arena : ∃ L, (∀ v, v < G.nVert → (G.rootCand v).card + 1 ≤ L) ∧
    G.searchStart + 2 * (L + 1) * dlen G.maxDeg ≤ G.eb.length
  dang : G.dangling = false

/-- What every operation of a search leaves alone. -/
structure Frame (G G' : Graph) : Prop where
  el : G'.el = G.el
  vlen : G'.vs.length = G.vs.length
  stat : ∀ v, (G'.V v).N = (G.V v).N ∧ (G'.V v).spos = (G.V v).spos ∧
    (G'.V v).elo = (G.V v).elo ∧ (G'.V v).ebo = (G.V v).ebo
  ebl : G'.eb.length = G.eb.length
  ebSize : G'.ebSize = G.ebSize
  searchStart : G'.searchStart = G.searchStart
  nVert : G'.nVert = G.nVert
  maxDeg : G'.maxDeg = G.maxDeg
  dangling : G'.dangling = G.dangling
  argLR : G'.argLR = G.argLR

namespace Frame

theorem refl (G : Graph) : Frame G G :=
  ⟨rfl, rfl, fun _ => ⟨rfl, rfl, rfl, rfl⟩, rfl, rfl, rfl, rfl, rfl, rfl, rfl⟩

theorem trans {G1 G2 G3 : Graph} (h : Frame G1 G2) (h' : Frame G2 G3) : Frame G1 G3 :=
  ⟨h'.el.trans h.el, h'.vlen.trans h.vlen,
    fun v => ⟨(h'.stat v).1.trans (h.stat v).1, (h'.stat v).2.1.trans (h.stat v).2.1,
      (h'.stat v).2.2.1.trans (h.stat v).2.2.1, (h'.stat v).2.2.2.trans (h.stat v).2.2.2⟩,
    h'.ebl.trans h.ebl, h'.ebSize.trans h.ebSize, h'.searchStart.trans h.searchStart,
    h'.nVert.trans h.nVert, h'.maxDeg.trans h.maxDeg, h'.dangling.trans h.dangling,
    h'.argLR.trans h.argLR⟩

variable {G G' : Graph}

theorem N (h : Frame G G') (v : Nat) : (G'.V v).N = (G.V v).N := (h.stat v).1
theorem sp (h : Frame G G') (v : Nat) : (G'.V v).spos = (G.V v).spos := (h.stat v).2.1
theorem elo (h : Frame G G') (v : Nat) : (G'.V v).elo = (G.V v).elo := (h.stat v).2.2.1
theorem ebo (h : Frame G G') (v : Nat) : (G'.V v).ebo = (G.V v).ebo := (h.stat v).2.2.2

theorem e (h : Frame G G') (v i : Nat) : G'.e v i = G.e v i := by
  unfold Graph.e; rw [h.el, h.elo]

theorem nadj (h : Frame G G') (u w : Nat) : G'.nadj u w ↔ G.nadj u w := by
  unfold Graph.nadj; simp only [h.N, h.e]

theorem vb (h : Frame G G') (v : Nat) : G'.vb v = G.vb v := by
  unfold Graph.vb; rw [h.ebo, h.N]

theorem rootCand (h : Frame G G') (r : Nat) : G'.rootCand r = G.rootCand r := by
  unfold Graph.rootCand; simp only [h.N, h.e, h.sp]

theorem wf (h : Frame G G') (w : WF G) : WF G' where
  vlen := by rw [h.vlen, h.nVert]; exact w.vlen
  npos := by rw [h.nVert]; exact w.npos
  spos v hv := by rw [h.sp, h.N]; exact w.spos v (by rwa [h.nVert] at hv)
  self v hv := by rw [h.sp, h.e]; exact w.self v (by rwa [h.nVert] at hv)
  inEl v hv := by rw [h.elo, h.N, h.el]; exact w.inEl v (by rwa [h.nVert] at hv)
  ellen := by rw [h.el]; exact w.ellen
  sorted v hv i j hij hj := by
    rw [h.e, h.e]; exact w.sorted v (by rwa [h.nVert] at hv) i j hij (by rwa [h.N] at hj)
  symm u hu v huv := by
    rw [h.nadj, h.nVert]; exact w.symm u (by rwa [h.nVert] at hu) v ((h.nadj _ _).1 huv)
  maxd v hv := by rw [h.N, h.maxDeg]; exact w.maxd v (by rwa [h.nVert] at hv)
  ebo u v huv hv := by
    rw [h.ebo, h.ebo, h.N]; exact w.ebo u v huv (by rwa [h.nVert] at hv)
  eboEnd v hv := by rw [h.ebo, h.N, h.ebSize]; exact w.eboEnd v (by rwa [h.nVert] at hv)
  eblen := by rw [h.ebl]; exact w.eblen
  start := by rw [h.ebSize, h.searchStart]; exact w.start
  arena := by
    obtain ⟨L, h1, h2⟩ := w.arena
    exact ⟨L, fun v hv => by rw [h.rootCand]; exact h1 v (by rwa [h.nVert] at hv),
      by rw [h.searchStart, h.maxDeg, h.ebl]; exact h2⟩
  dang := by rw [h.dangling]; exact w.dang

/-- Changing only the buffer (same length), the stack pointer and the best size. -/
theorem mk' (G : Graph) (eb : Mem) (sc cm cl : Nat) (h : eb.length = G.eb.length) :
    Frame G { G with eb := eb, searchCur := sc, curMax := cm, curLoc := cl } :=
  ⟨rfl, rfl, fun _ => ⟨rfl, rfl, rfl, rfl⟩, h, rfl, rfl, rfl, rfl, rfl, rfl⟩

end Frame

variable {G : Graph}

theorem vtx_ok (w : WF G) {v : Nat} (hv : v < G.nVert) : G.vtx v = .ok (G.V v) := by
  unfold Graph.vtx Graph.V; exact rd_getD _ (by rw [w.vlen]; exact hv)

theorem nbr_ok (w : WF G) {v i : Nat} (hv : v < G.nVert) (hi : i < (G.V v).N) :
    G.nbr (G.V v) i = .ok (G.e v i) := by
  unfold Graph.nbr Graph.e; exact rd_getD _ (by have := w.inEl v hv; omega)

theorem vbits_ok (w : WF G) (v : Nat) : G.vbits (G.V v) = .ok (G.vb v) := by
  unfold Graph.vbits Graph.vb; rw [w.dang]; rfl

theorem nadj_self (w : WF G) {v : Nat} (hv : v < G.nVert) : G.nadj v v :=
  ⟨(G.V v).spos, w.spos v hv, w.self v hv⟩

theorem e_nadj {v i : Nat} (hi : i < (G.V v).N) : G.nadj v (G.e v i) := ⟨i, hi, rfl⟩

theorem e_lt (w : WF G) {v i : Nat} (hv : v < G.nVert) (hi : i < (G.V v).N) :
    G.e v i < G.nVert := (w.symm v hv _ (e_nadj hi)).1

theorem e_inj (w : WF G) {v i j : Nat} (hv : v < G.nVert) (hi : i < (G.V v).N)
    (hj : j < (G.V v).N) (h : G.e v i = G.e v j) : i = j := by
  rcases Nat.lt_trichotomy i j with h1 | h1 | h1
  · have := w.sorted v hv i j h1 hj; omega
  · exact h1
  · have := w.sorted v hv j i h1 hi; omega

theorem nadj_symm (w : WF G) {u v : Nat} (hu : u < G.nVert) (h : G.nadj u v) : G.nadj v u :=
  (w.symm u hu v h).2

theorem N_pos (w : WF G) {v : Nat} (hv : v < G.nVert) : 0 < (G.V v).N := by
  have := w.spos v hv; omega

theorem N_lt (w : WF G) {v : Nat} (hv : v < G.nVert) : (G.V v).N < 2 ^ 60 := by
  have := w.inEl v hv; have := w.ellen; omega

/-- One step of the incremental merge that tests membership of `val` in the
neighbour list of `u`, given that everything before `start` is smaller. -/
theorem probe (w : WF G) {u start val : Nat} (hu : u < G.nVert)
    (hs : start ≤ (G.V u).N) (hlt : ∀ i, i < start → G.e u i < val) :
    ∃ f ans, binaryFind G.el (uadd (G.V u).elo start) (usub (G.V u).N start) val = .ok (f, ans) ∧
      (f = true ↔ G.nadj u val) ∧ uadd start ans ≤ (G.V u).N ∧
      (start < (G.V u).N → uadd start ans < (G.V u).N) ∧
      ∀ i, i < uadd start ans → G.e u i < val := by
  have hel := w.inEl u hu
  have hll := w.ellen
  have hN := N_pos w hu
  have h1 : uadd (G.V u).elo start = (G.V u).elo + start := uadd_eq (by omega)
  have h2 : usub (G.V u).N start = (G.V u).N - start := usub_eq hs (by omega)
  rw [h1, h2]
  by_cases hst : start < (G.V u).N
  · obtain ⟨f, loc, hb, hl, hf, hfl, hbef⟩ := binaryFind_spec (el := G.el)
      (base := (G.V u).elo + start) (N := (G.V u).N - start) (val := val) (by omega)
      (by omega) (by omega)
      (by
        intro i j hij hj
        have := w.sorted u hu (start + i) (start + j) (by omega) (by omega)
        unfold Graph.e at this
        simpa [Nat.add_assoc] using this)
    have h3 : uadd start loc = start + loc := uadd_eq (by omega)
    have conv : ∀ i, G.el.getD ((G.V u).elo + start + i) 0 = G.e u (start + i) := by
      intro i; unfold Graph.e; rw [Nat.add_assoc]
    refine ⟨f, loc, hb, ?_, by omega, by omega, ?_⟩
    · rw [hf]
      constructor
      · rintro ⟨i, hi, h⟩
        exact ⟨start + i, by omega, by rw [← conv]; exact h⟩
      · rintro ⟨i, hi, h⟩
        by_cases hi2 : i < start
        · have := hlt i hi2; omega
        · refine ⟨i - start, by omega, ?_⟩
          rw [conv]
          have : start + (i - start) = i := by omega
          rw [this]; exact h
    · intro i hi
      by_cases hi2 : i < start
      · exact hlt i hi2
      · have := hbef (i - start) (by omega)
        rw [conv] at this
        have h4 : start + (i - start) = i := by omega
        rwa [h4] at this
  · have hse : start = (G.V u).N := by omega
    subst hse
    rw [Nat.sub_self]
    have hb := binaryFind_zero (el := G.el) (base := (G.V u).elo + (G.V u).N) (val := val)
      (by omega) hel (by omega)
      (by
        have := hlt ((G.V u).N - 1) (by omega)
        unfold Graph.e at this
        have h4 : (G.V u).elo + (G.V u).N - 1 = (G.V u).elo + ((G.V u).N - 1) := by omega
        rw [h4]; exact this)
    have h3 : uadd (G.V u).N (2 ^ 64 - 1) = (G.V u).N - 1 := by
      unfold uadd
      have : (G.V u).N + (2 ^ 64 - 1) = ((G.V u).N - 1) + 2 ^ 64 := by omega
      rw [this, Nat.add_mod_right, Nat.mod_eq_of_lt (by omega)]
    refine ⟨_, _, hb, ?_, by omega, by omega, fun i hi => hlt i (by omega)⟩
    simp only [Bool.false_eq_true, false_iff]
    rintro ⟨i, hi, h⟩
    have := hlt i hi; omega

/-- A set of positions in the list of `v` whose vertices form a clique with `v`. -/
def IsCl (G : Graph) (v : Nat) (S : Finset Nat) : Prop :=
  (G.V v).spos ∈ S ∧ (∀ i ∈ S, i < (G.V v).N) ∧
    ∀ i ∈ S, ∀ j ∈ S, G.nadj (G.e v i) (G.e v j)

theorem Frame.isCl {G G' : Graph} (h : Frame G G') (v : Nat) (S : Finset Nat) :
    IsCl G' v S ↔ IsCl G v S := by
  unfold IsCl; simp only [h.sp, h.N, h.e, h.nadj]

/-- The invariant of a graph object between calls. -/
structure Ok (G : Graph) : Prop where
  wf : WF G
  cur : G.searchCur = G.searchStart
  zero : ∀ a, 64 * G.ebSize ≤ a → bitAt G.eb a = false
  pad : ∀ v, v < G.nVert → PadZero G.eb (G.vb v)
  cliq : ∀ v, v < G.nVert → IsCl G v (bset G.eb (G.vb v))
  loc : G.curLoc < G.nVert

end Graph

end CM
