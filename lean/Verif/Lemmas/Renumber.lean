import Verif.Spec
import Mathlib.Data.Finset.Sort

/-!
Cliques and degrees under a renumbering of the vertices, for C68.
-/

namespace CM

open Spec

variable {n : Nat} {S T : SimpleGraph Nat}

/-- Sorting the image of a clique under a renaming of the vertices gives a clique. -/
theorem Spec.IsCliqueList.image {f : Nat → Nat} (hr : ∀ v, 1 ≤ v → v ≤ n → 1 ≤ f v ∧ f v ≤ n)
    (ha : ∀ u v, S.Adj u v → T.Adj (f u) (f v)) {l : List Nat} (h : IsCliqueList S n l) :
    ∃ l', IsCliqueList T n l' ∧ l'.length = l.length ∧ ∀ w, w ∈ l' ↔ ∃ v ∈ l, f v = w := by
  have hnd : l.Nodup := h.increasing.imp (fun h => Nat.ne_of_lt h)
  have hinj : Set.InjOn f (l.toFinset : Set Nat) := by
    intro u hu v hv he
    by_contra hne
    exact (ha u v (h.clique (by simpa using hu) (by simpa using hv) hne)).ne he
  have hm : ∀ w, w ∈ (l.toFinset.image f).sort (· ≤ ·) ↔ ∃ v ∈ l, f v = w := by
    intro w
    simp
  refine ⟨(l.toFinset.image f).sort (· ≤ ·), ⟨?_, ?_, ?_⟩, ?_, hm⟩
  · exact (l.toFinset.image f).sortedLT_sort.pairwise
  · intro w hw
    obtain ⟨v, hv, rfl⟩ := (hm w).1 hw
    exact hr v (h.range v hv).1 (h.range v hv).2
  · intro x hx y hy hne
    obtain ⟨u, hu, rfl⟩ := (hm x).1 hx
    obtain ⟨v, hv, rfl⟩ := (hm y).1 hy
    exact ha u v (h.clique hu hv (fun he => hne (by rw [he])))
  · rw [Finset.length_sort, Finset.card_image_of_injOn hinj, List.toFinset_card_of_nodup hnd]

/-- A renumbering keeps degrees. -/
theorem Spec.degree_le {f g : Nat → Nat} (hf : ∀ v, 1 ≤ v → v ≤ n → 1 ≤ f v ∧ f v ≤ n)
    (hgf : ∀ v, 1 ≤ v → v ≤ n → g (f v) = v) (hST : ∀ u v, S.Adj u v → T.Adj (f u) (f v))
    (v : Nat) : degree S n v ≤ degree T n (f v) := by
  classical
  unfold degree
  apply Finset.card_le_card_of_injOn f
  · intro u hu
    simp only [Finset.coe_filter, Finset.mem_Icc, Set.mem_ofPred_eq] at hu ⊢
    exact ⟨hf u hu.1.1 hu.1.2, hST v u hu.2⟩
  · intro u hu w hw he
    simp only [Finset.coe_filter, Finset.mem_Icc, Set.mem_ofPred_eq] at hu hw
    rw [← hgf u hu.1.1 hu.1.2, ← hgf w hw.1.1 hw.1.2, he]

/-- The cliques that are listed, in one numbering and in another that keeps the first vertex. -/
theorem renumbered_le {f g : Nat → Nat} (hf : ∀ v, 1 ≤ v → v ≤ n → 1 ≤ f v ∧ f v ≤ n)
    (hg : ∀ v, 1 ≤ v → v ≤ n → 1 ≤ g v ∧ g v ≤ n)
    (hgf : ∀ v, 1 ≤ v → v ≤ n → g (f v) = v) (hfg : ∀ v, 1 ≤ v → v ≤ n → f (g v) = v)
    (hST : ∀ u v, S.Adj u v → T.Adj (f u) (f v)) (hTS : ∀ u v, T.Adj u v → S.Adj (g u) (g v))
    (h1 : f 1 = 1) {k : Nat} {cs cs' : List (List Nat)} (hnd : cs.Nodup)
    (hc : ∀ l, l ∈ cs → IsCliqueList S n l ∧ l.length = k ∧ (2 ≤ k → ¬ First S n 1 l))
    (hc' : ∀ l, IsCliqueList T n l → l.length = k → (2 ≤ k → ¬ First T n 1 l) → l ∈ cs') :
    cs.length ≤ cs'.length := by
  classical
  have himg : ∀ l, ∃ l', l ∈ cs → IsCliqueList T n l' ∧ l'.length = l.length ∧
      ∀ w, w ∈ l' ↔ ∃ v ∈ l, f v = w := by
    intro l
    by_cases hl : l ∈ cs
    · obtain ⟨l', h⟩ := (hc l hl).1.image hf hST
      exact ⟨l', fun _ => h⟩
    · exact ⟨[], fun h => absurd h hl⟩
  choose F hF using himg
  have hback : ∀ l ∈ cs, ∀ v, v ∈ l ↔ 1 ≤ v ∧ v ≤ n ∧ f v ∈ F l := by
    intro l hl v
    obtain ⟨_, _, hm⟩ := hF l hl
    have hr := (hc l hl).1.range
    constructor
    · intro hv
      exact ⟨(hr v hv).1, (hr v hv).2, (hm _).2 ⟨v, hv, rfl⟩⟩
    · rintro ⟨a, b, hv⟩
      obtain ⟨u, hu, he⟩ := (hm _).1 hv
      have := hgf u (hr u hu).1 (hr u hu).2
      rw [he, hgf v a b] at this
      rw [this]; exact hu
  have hinj : ∀ l ∈ cs, ∀ m ∈ cs, F l = F m → l = m := by
    intro l hl m hm he
    have hs : l.toFinset = m.toFinset := by
      ext v
      rw [List.mem_toFinset, List.mem_toFinset, hback l hl, hback m hm, he]
    have e1 := (hc l hl).1.increasing
    have e2 := (hc m hm).1.increasing
    apply List.Perm.eq_of_pairwise (le := (· < ·)) _ e1 e2
    · rw [List.perm_ext_iff_of_nodup (e1.imp fun h => Nat.ne_of_lt h)
        (e2.imp fun h => Nat.ne_of_lt h)]
      intro v
      rw [← List.mem_toFinset, ← List.mem_toFinset, hs]
    · intro a b _ _ x y; omega
  have hdeg : ∀ v, 1 ≤ v → v ≤ n → degree T n (f v) = degree S n v := by
    intro v a b
    apply le_antisymm
    · have := Spec.degree_le hg hfg hTS (f v)
      rwa [hgf v a b] at this
    · exact Spec.degree_le hf hgf hST v
  have hsub : (cs.map F) ⊆ cs' := by
    intro x hx
    obtain ⟨l, hl, rfl⟩ := List.mem_map.1 hx
    obtain ⟨a, b, c⟩ := hF l hl
    obtain ⟨d, e, e'⟩ := hc l hl
    refine hc' _ a (b.trans e) fun h2 hfst => e' h2 ?_
    obtain ⟨x1, x2⟩ := hfst
    have hn1 : 1 ≤ n := (a.range 1 x1).2
    refine ⟨(hback l hl 1).2 ⟨le_refl _, hn1, by rwa [h1]⟩, ?_⟩
    intro w hw hne
    have hr := d.range w hw
    have hne' : f w ≠ 1 := by
      intro he
      apply hne
      have := hgf w hr.1 hr.2
      rw [he] at this
      have h3 := hgf 1 (le_refl _) hn1
      rw [h1] at h3
      omega
    have := x2 (f w) ((c _).2 ⟨w, hw, rfl⟩) hne'
    rw [hdeg w hr.1 hr.2] at this
    have e1 := hdeg 1 (le_refl _) hn1
    rw [h1] at e1
    omega
  have hnd' : (cs.map F).Nodup := List.Nodup.map_on (fun l hl m hm => hinj l hl m hm) hnd
  have := (List.subperm_of_subset hnd' hsub).length_le
  simpa using this

end CM
