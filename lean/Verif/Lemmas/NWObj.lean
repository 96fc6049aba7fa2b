import Verif.Model.NWHistory
import Verif.Lemmas.NWHeur
import Verif.Lemmas.Export
import Verif.Lemmas.AllCliques

/-! # Loaded weighted graphs, for weights of any number type -/

namespace CM

open Graph Spec

set_option linter.unusedSectionVars false

variable {R : Type} [Zero R] [Add R] [Sub R] [NatCast R] [LT R] [LE R] [DecidableLT R]
  [DecidableLE R]

namespace NWG

variable {H : NWG R}

theorem getClique_at {b : Nat} (h : WOkAt b H) {v : Nat} (hv : v < H.g.nVert) :
    H.getClique v = .ok (H, H.g.cliqueAt v) := by
  unfold getClique
  rw [Graph.getClique_ok h.ok.wf h.ok.pad hv, ok_bind]

theorem getClique_ok (h : WOk H) {v : Nat} (hv : v < H.g.nVert) :
    H.getClique v = .ok (H, H.g.cliqueAt v) := getClique_at h.at hv

theorem cliqueAt_lt_at {b : Nat} (h : WOkAt b H) {v : Nat} (hv : v < H.g.nVert) :
    ∀ x ∈ H.g.cliqueAt v, x < H.g.nVert := by
  intro x hx
  obtain ⟨i, hi, rfl⟩ := mem_cliqueAt.1 hx
  exact e_lt h.ok.wf hv ((h.ok.cliq v hv).2.1 i hi)

theorem cliqueAt_lt (h : WOk H) {v : Nat} (hv : v < H.g.nVert) :
    ∀ x ∈ H.g.cliqueAt v, x < H.g.nVert := cliqueAt_lt_at h.at hv

end NWG

open NWG

/-- The invariant of a loaded Python object between calls. -/
structure WPyOk (pg : PyNW R) (n : Nat) (S : SimpleGraph Nat) (ω : Nat → R) (H : NWG R) :
    Prop where
  g : pg.G = some H
  nv : pg.nvert = n
  pos : n ≠ 0
  ok : WOk H
  of : Of H.g n S
  w : ∀ v, 1 ≤ v → v ≤ n → H.w v = ω v
  w0 : H.w 0 = 0

variable {pg : PyNW R} {n : Nat} {S : SimpleGraph Nat} {ω : Nat → R} {H : NWG R}

theorem WPyOk.loaded (h : WPyOk pg n S ω H) : pg.checkLoaded = some H := by
  unfold PyNW.checkLoaded
  rw [h.nv, if_neg h.pos, h.g]

/-- The same while the scratch space below `b` is in use. -/
structure WPyAt (b : Nat) (pg : PyNW R) (n : Nat) (S : SimpleGraph Nat) (ω : Nat → R)
    (H : NWG R) : Prop where
  g : pg.G = some H
  nv : pg.nvert = n
  pos : n ≠ 0
  ok : WOkAt b H
  of : Of H.g n S
  w : ∀ v, 1 ≤ v → v ≤ n → H.w v = ω v
  w0 : H.w 0 = 0

theorem WPyAt.loaded {b : Nat} (h : WPyAt b pg n S ω H) : pg.checkLoaded = some H := by
  unfold PyNW.checkLoaded
  rw [h.nv, if_neg h.pos, h.g]

theorem WPyOk.at (h : WPyOk pg n S ω H) : WPyAt H.g.searchStart pg n S ω H :=
  ⟨h.g, h.nv, h.pos, h.ok.at, h.of, h.w, h.w0⟩

/-- Between calls nothing is in use. -/
theorem WPyAt.pyok {pg' : PyNW R} {H' : NWG R} (h : WPyAt H.g.searchStart pg' n S ω H')
    (ok : WOk H) (F : Frame H.g H'.g) (hl : ∀ a, 64 * H.g.ebSize ≤ a → a < 64 * H.g.searchStart →
      bitAt H'.g.eb a = bitAt H.g.eb a) : WPyOk pg' n S ω H' :=
  ⟨h.g, h.nv, h.pos, h.ok.wok ok F hl, h.of, h.w, h.w0⟩

/-- The clique an object would report if a search found nothing better. -/
def wstored (H : NWG R) : List Nat := H.g.cliqueAt H.curLoc

theorem wstored_clique_at {b : Nat} (h : WPyAt b pg n S ω H) (h0 : H.curLoc ≠ 0) :
    IsCliqueList S n (wstored H) :=
  cliqueAt_clique h.of h.ok.ok.wf.str h.ok.loc (h.ok.ok.cliq _ h.ok.loc) h0

/-- The vertex 0 is alone. -/
theorem wstored_zero_at {b : Nat} (h : WPyAt b pg n S ω H) (h0 : H.curLoc = 0) : wstored H = [0] := by
  have w := h.ok.ok.wf
  have hcl := h.ok.ok.cliq 0 w.npos
  have hmem : ∀ x, x ∈ wstored H ↔ x = 0 := by
    intro x
    unfold wstored
    rw [h0, mem_cliqueAt]
    constructor
    · rintro ⟨i, hi, rfl⟩; exact h.of.zero ⟨i, hcl.2.1 i hi, rfl⟩
    · rintro rfl; exact ⟨_, hcl.1, w.self 0 w.npos⟩
  apply sorted_ext
  · exact cliqueAt_sorted w.str h.ok.loc
  · simp
  · intro x; rw [hmem]; simp

theorem wstored_clique (h : WPyOk pg n S ω H) (h0 : H.curLoc ≠ 0) :
    IsCliqueList S n (wstored H) :=
  wstored_clique_at h.at h0

theorem wstored_zero (h : WPyOk pg n S ω H) (h0 : H.curLoc = 0) : wstored H = [0] :=
  wstored_zero_at h.at h0

/-- The state a call starts its search in. -/
def wbounded (H : NWG R) (a : PyNW.Args R) : NWG R :=
  { H with
    curMax := if a.lowerBound > H.curMax then a.lowerBound else H.curMax
    limit := if a.upperBound < H.limit then a.upperBound else H.limit }

theorem wbounded_frame (H : NWG R) (a : PyNW.Args R) : WFrame H (wbounded H a) :=
  ⟨Frame.refl _, rfl, rfl, rfl, rfl, rfl, rfl⟩

theorem wbounded_at {b : Nat} (h : WOkAt b H) (a : PyNW.Args R) : WOkAt b (wbounded H a) :=
  ⟨h.ok, ⟨h.l.wt, h.l.deg, h.l.mcs⟩, h.loc⟩

theorem wbounded_ok (h : WOk H) (a : PyNW.Args R) : WOk (wbounded H a) :=
  ⟨h.ok, ⟨h.l.wt, h.l.deg, h.l.mcs⟩, h.loc⟩

end CM
