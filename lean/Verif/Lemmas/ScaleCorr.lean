import Verif.Model.Corr
import Verif.Lemmas.Scale

/-! # Correspondence graphs in two units of length -/

namespace CM

open Spec

variable {D D' : Type} [LinearOrder D] [Inhabited D] [LinearOrder D'] [Inhabited D'] {φ : D → D'}

/-- An entry of a list of distances, in the other unit. -/
def PairDist.unit (φ : D → D') (x : PairDist D) : PairDist D' :=
  { first := x.first, second := x.second, dist := φ x.dist }

omit [LinearOrder D] [LinearOrder D'] in
theorem fillDists_unit (h0 : φ default = default) {srt : List (PairDist D) → List (PairDist D)}
    {srt' : List (PairDist D') → List (PairDist D')}
    (hs : ∀ l, srt' (l.map (PairDist.unit φ)) = (srt l).map (PairDist.unit φ)) (N : Nat) (sym : Bool)
    (d : Nat → Nat → D) :
    fillDists srt' N sym (fun i j => φ (d i j)) =
      (fillDists srt N sym d).map (List.map (PairDist.unit φ)) := by
  unfold fillDists
  dsimp only
  rw [map_bindM]
  have e0 : ∀ n, (List.replicate n (default : PairDist D'), 0) =
      (fun s : List (PairDist D) × Nat => (s.1.map (PairDist.unit φ), s.2))
        (List.replicate n default, 0) := by
    intro n
    dsimp only
    rw [List.map_replicate]
    congr 2
    show (⟨default, default, default⟩ : PairDist D') = ⟨default, default, φ default⟩
    rw [h0]
  rw [e0, forRange_mapM (f := fun s : List (PairDist D) × Nat => (s.1.map (PairDist.unit φ), s.2))
    (b := fun i s => forRange (if sym = true then i + 1 else 0) N
      (fun j (s : List (PairDist D) × Nat) =>
        if j = i then .ok s
        else do
          let b ← wr s.1 s.2 { first := i, second := j, dist := d i j }
          .ok (b, s.2 + 1)) s), bind_mapM]
  · refine bind_congrM fun s => ?_
    show Except.ok _ = Except.ok _
    rw [hs]
  · intro i s
    refine forRange_mapM (f := fun s : List (PairDist D) × Nat => (s.1.map (PairDist.unit φ), s.2))
      (fun j s => ?_) _ _ _
    by_cases hj : j = i
    · rw [if_pos hj, if_pos hj]; rfl
    · rw [if_neg hj, if_neg hj, map_bindM]
      have e := wr_mapM (PairDist.unit φ) s.1 s.2 { first := i, second := j, dist := d i j }
      refine Eq.trans (congrArg (· >>= _) e) ?_
      rw [bind_mapM]
      rfl

omit [Inhabited D] [Inhabited D'] in
theorem binaryFind2_unit (hφ : StrictMono φ) (a : List (PairDist D)) (N : Nat) (v : D) :
    binaryFind2 (a.map (PairDist.unit φ)) N (φ v) = binaryFind2 a N v := by
  unfold binaryFind2
  simp only [rd_mapM, bind_mapM]
  refine bind_congrM fun x => ?_
  show (if φ x.dist < φ v then _ else _) = (if x.dist < v then _ else _)
  by_cases hx : x.dist < v
  · rw [if_pos (hφ.lt_iff_lt.2 hx), if_pos hx]
  rw [if_neg (fun h => hx (hφ.lt_iff_lt.1 h)), if_neg hx]
  refine bind_congrM fun y => ?_
  show (if φ v < φ y.dist then _ else _) = (if v < y.dist then _ else _)
  by_cases hy : v < y.dist
  · rw [if_pos (hφ.lt_iff_lt.2 hy), if_pos hy]
  rw [if_neg (fun h => hy (hφ.lt_iff_lt.1 h)), if_neg hy]
  congr 1
  funext s
  obtain ⟨b, e, mid, loc⟩ := s
  dsimp only
  by_cases hb : b ≤ e
  · rw [if_pos hb, if_pos hb]
    refine bind_congrM fun z => ?_
    have e1 : (PairDist.unit φ z).dist = φ v ↔ z.dist = v := hφ.injective.eq_iff
    have e2 : (PairDist.unit φ z).dist < φ v ↔ z.dist < v := hφ.lt_iff_lt
    by_cases hz : z.dist = v
    · rw [if_pos (e1.2 hz), if_pos hz]
    rw [if_neg (fun h => hz (e1.1 h)), if_neg hz]
    by_cases hl : z.dist < v
    · simp only [if_pos (e2.2 hl), if_pos hl]
    · simp only [if_neg (fun h => hl (e2.1 h)), if_neg hl]
  · rw [if_neg hb, if_neg hb]

omit [Inhabited D] [Inhabited D'] in
theorem edgesFromRelsets_unit (hφ : StrictMono φ) {w : Window D} {w' : Window D'}
    (hlo : ∀ x, w'.lo (φ x) = φ (w.lo x)) (hhi : ∀ x, w'.hi (φ x) = φ (w.hi x)) (M N : Nat)
    (sym1 sym2 : Bool) (d1 d2 : List (PairDist D)) :
    edgesFromRelsets M N sym1 sym2 (d1.map (PairDist.unit φ)) (d2.map (PairDist.unit φ)) w' =
      edgesFromRelsets M N sym1 sym2 d1 d2 w := by
  unfold edgesFromRelsets
  dsimp only
  by_cases hz : M = 0 ∨ N = 0
  · rw [if_pos hz, if_pos hz]
  rw [if_neg hz, if_neg hz]
  congr 1
  congr 1
  funext s
  obtain ⟨i, es, m⟩ := s
  dsimp only
  by_cases hi : i < if sym1 = true then umul M (usub M 1) / 2 else umul M (usub M 1)
  · rw [if_pos hi, if_pos hi, rd_mapM, bind_mapM]
    refine bind_congrM fun x => ?_
    rw [show w'.lo (PairDist.unit φ x).dist = φ (w.lo x.dist) from hlo _,
      show w'.hi (PairDist.unit φ x).dist = φ (w.hi x.dist) from hhi _, binaryFind2_unit hφ,
      binaryFind2_unit hφ]
    refine bind_congrM fun y => ?_
    congr 1
    refine bind_congrM fun z => ?_
    congr 1
    congr 1
    funext j s
    rw [rd_mapM, bind_mapM]
    rfl
  · rw [if_neg hi, if_neg hi]

omit [Inhabited D] [Inhabited D'] in
theorem efrCondition_unit (hφ : StrictMono φ) {w : Window D} {w' : Window D'}
    (hlo : ∀ x, w'.lo (φ x) = φ (w.lo x)) (hhi : ∀ x, w'.hi (φ x) = φ (w.hi x)) (M N : Nat)
    (sym1 sym2 : Bool) (d1 d2 : List (PairDist D)) (c : Nat → Nat → Nat → Nat → Bool) :
    efrCondition M N sym1 sym2 (d1.map (PairDist.unit φ)) (d2.map (PairDist.unit φ)) w' c =
      efrCondition M N sym1 sym2 d1 d2 w c := by
  unfold efrCondition
  dsimp only
  by_cases hz : M = 0 ∨ N = 0
  · rw [if_pos hz, if_pos hz]
  rw [if_neg hz, if_neg hz]
  congr 1
  congr 1
  funext s
  obtain ⟨i, es, m⟩ := s
  dsimp only
  by_cases hi : i < if sym1 = true then umul M (usub M 1) / 2 else umul M (usub M 1)
  · rw [if_pos hi, if_pos hi, rd_mapM, bind_mapM]
    refine bind_congrM fun x => ?_
    rw [show w'.lo (PairDist.unit φ x).dist = φ (w.lo x.dist) from hlo _,
      show w'.hi (PairDist.unit φ x).dist = φ (w.hi x.dist) from hhi _, binaryFind2_unit hφ,
      binaryFind2_unit hφ]
    refine bind_congrM fun y => ?_
    congr 1
    refine bind_congrM fun z => ?_
    congr 1
    congr 1
    funext j s
    rw [rd_mapM, bind_mapM]
    rfl
  · rw [if_neg hi, if_neg hi]

variable (hφ : StrictMono φ) (h0 : φ default = default) {w : Window D} {w' : Window D'}
  (hlo : ∀ x, w'.lo (φ x) = φ (w.lo x)) (hhi : ∀ x, w'.hi (φ x) = φ (w.hi x))
  {srt1 srt2 : List (PairDist D) → List (PairDist D)}
  {srt1' srt2' : List (PairDist D') → List (PairDist D')}
  (hs1 : ∀ l, srt1' (l.map (PairDist.unit φ)) = (srt1 l).map (PairDist.unit φ))
  (hs2 : ∀ l, srt2' (l.map (PairDist.unit φ)) = (srt2 l).map (PairDist.unit φ))
include hφ h0 hlo hhi hs1 hs2

theorem buildMetric_unit (argLR : Bool) (cap : Nat) (pg : PyGraph) (M N : Nat)
    (d1 : Nat → Nat → D) (sym1 : Bool) (d2 : Nat → Nat → D) (sym2 : Bool) :
    buildMetric argLR cap pg srt1' srt2' M N w' (fun i j => φ (d1 i j)) sym1
        (fun i j => φ (d2 i j)) sym2 =
      buildMetric argLR cap pg srt1 srt2 M N w d1 sym1 d2 sym2 := by
  unfold buildMetric
  rw [fillDists_unit h0 hs1, bind_mapM]
  refine bind_congrM fun p1 => ?_
  rw [fillDists_unit h0 hs2, bind_mapM]
  refine bind_congrM fun p2 => ?_
  rw [edgesFromRelsets_unit hφ hlo hhi]

theorem buildBoth_unit (argLR : Bool) (cap : Nat) (pg : PyGraph) (M N : Nat)
    (c : Nat → Nat → Nat → Nat → Bool) (d1 : Nat → Nat → D) (sym1 : Bool) (d2 : Nat → Nat → D)
    (sym2 : Bool) :
    buildBoth argLR cap pg srt1' srt2' M N w' c (fun i j => φ (d1 i j)) sym1
        (fun i j => φ (d2 i j)) sym2 =
      buildBoth argLR cap pg srt1 srt2 M N w c d1 sym1 d2 sym2 := by
  unfold buildBoth
  rw [fillDists_unit h0 hs1, bind_mapM]
  refine bind_congrM fun p1 => ?_
  rw [fillDists_unit h0 hs2, bind_mapM]
  refine bind_congrM fun p2 => ?_
  rw [efrCondition_unit hφ hlo hhi]

end CM
