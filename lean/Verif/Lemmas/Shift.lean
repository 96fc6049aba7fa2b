import Verif.Model.Shift
import Verif.Lemmas.Basic

/-! # Loading with and without the rule for shifts -/

namespace CM

namespace Graph

theorem ctorStep_vs {i : Nat} {G G' : Graph} (h : ctorStep i G = .ok G') :
    ∃ V, G'.vs = G.vs ++ [V] ∧
      ctorStepStrict i G = if V.N % 64 = 0 then .error .ub else .ok G' := by
  unfold ctorStep at h
  unfold ctorStepStrict
  obtain ⟨⟨eb, j, spos⟩, h1, h2⟩ := bind_eq_ok.1 h
  simp only at h2
  obtain ⟨eb', h3, h4⟩ := bind_eq_ok.1 h2
  rw [h1, ok_bind]
  simp only
  rw [h3, ok_bind, h4]
  injection h4 with h4
  subst h4
  exact ⟨_, rfl, rfl⟩

theorem forN_succ {σ : Type} (n i : Nat) (b : Nat → σ → M σ) (s : σ) :
    forN (n + 1) i b s = (b i s >>= fun s => forN n (i + 1) b s) := by
  rw [forN]
  cases b i s <;> rfl

theorem forN_strict (n : Nat) : ∀ (i : Nat) (G G' : Graph), forN n i ctorStep G = .ok G' →
    ∃ l, G'.vs = G.vs ++ l ∧
      ((∀ V ∈ l, V.N % 64 ≠ 0) → forN n i ctorStepStrict G = .ok G') ∧
      ((∃ V ∈ l, V.N % 64 = 0) → forN n i ctorStepStrict G = .error .ub) := by
  induction n with
  | zero =>
    intro i G G' h
    unfold forN at h
    injection h with h
    subst h
    exact ⟨[], by simp, fun _ => rfl, by simp⟩
  | succ n ih =>
    intro i G G' h
    rw [forN_succ] at h
    obtain ⟨G1, h1, h2⟩ := bind_eq_ok.1 h
    obtain ⟨V, v1, v2⟩ := ctorStep_vs h1
    obtain ⟨l, l1, l2, l3⟩ := ih _ _ _ h2
    refine ⟨V :: l, by rw [l1, v1]; simp, fun hl => ?_, fun hl => ?_⟩
    · rw [forN_succ, v2, if_neg (hl V (by simp)), ok_bind]
      exact l2 fun W hW => hl W (by simp [hW])
    · rw [forN_succ, v2]
      by_cases hV : V.N % 64 = 0
      · rw [if_pos hV]; rfl
      · rw [if_neg hV, ok_bind]
        obtain ⟨W, hW, hw⟩ := hl
        rcases List.mem_cons.1 hW with rfl | hW
        · exact absurd hw hV
        · exact l3 ⟨W, hW, hw⟩

theorem setMcs_N {G G' : Graph} {v x : Nat} (h : G.setMcs v x = .ok G') :
    G'.vs.map Vtx.N = G.vs.map Vtx.N := by
  unfold setMcs at h
  obtain ⟨V, h1, h⟩ := bind_eq_ok.1 h
  obtain ⟨vs, h2, h⟩ := bind_eq_ok.1 h
  injection h with h
  subst h
  have hv := rd_eq_ok.1 h1
  obtain ⟨_, h3⟩ := wr_eq_ok.1 h2
  simp only
  rw [← h3]
  apply List.ext_getElem
  · simp
  · intro k k1 k2
    simp only [List.getElem_map, List.getElem_set]
    split
    · next hk =>
      subst hk
      have hk' : v < G.vs.length := by simpa using k2
      rw [List.getElem?_eq_getElem hk'] at hv
      injection hv with hv
      rw [hv]
    · rfl

theorem setBounds_N {cap : Nat} {G G' : Graph} (h : G.setBounds cap = .ok G') :
    G'.vs.map Vtx.N = G.vs.map Vtx.N := by
  unfold setBounds at h
  obtain ⟨G1, h1, h⟩ := bind_eq_ok.1 h
  have h2 : G1.vs.map Vtx.N = G.vs.map Vtx.N := by
    unfold boundsLoop at h1
    refine forRange_inv (fun _ (s : Graph) => s.vs.map Vtx.N = G.vs.map Vtx.N) (Nat.zero_le _)
      (by rfl) ?_ h1
    intro k s s' _ _ hs hb
    obtain ⟨m, _, hb⟩ := bind_eq_ok.1 hb
    obtain ⟨s1, b1, hb⟩ := bind_eq_ok.1 hb
    rw [← hs, ← setMcs_N b1]
    split at hb
    · injection hb with hb; subst hb; rfl
    · injection hb with hb; subst hb; rfl
  rw [← h2]
  simp only at h
  split at h
  · injection h with h; subst h; rfl
  · injection h with h; subst h; rfl

theorem ctorStrict_eq {argLR : Bool} {cap n : Nat} {edges : Edges} {G : Graph}
    (h : ctor argLR cap n edges = .ok G) :
    ((∀ V ∈ G.vs, V.N % 64 ≠ 0) → ctorStrict argLR cap n edges = .ok G) ∧
    ((∃ V ∈ G.vs, V.N % 64 = 0) → ctorStrict argLR cap n edges = .error .ub) := by
  unfold ctor at h
  unfold ctorStrict
  obtain ⟨E, h1, h⟩ := bind_eq_ok.1 h
  obtain ⟨G1, h2, h⟩ := bind_eq_ok.1 h
  rw [h1, ok_bind]
  simp only
  unfold forRange at h2 ⊢
  obtain ⟨l, l1, l2, l3⟩ := forN_strict _ _ _ _ h2
  have hN := setBounds_N h
  simp only at hN
  rw [l1] at hN
  have hN' : G.vs.map Vtx.N = l.map Vtx.N := by rw [hN]; rfl
  constructor
  · intro hg
    rw [l2, ok_bind]
    · exact h
    · intro V hV
      have : V.N ∈ G.vs.map Vtx.N := by rw [hN']; exact List.mem_map_of_mem hV
      obtain ⟨W, hW, he⟩ := List.mem_map.1 this
      rw [← he]
      exact hg W hW
  · rintro ⟨V, hV, hv⟩
    rw [l3]
    · rfl
    · have : V.N ∈ l.map Vtx.N := by rw [← hN']; exact List.mem_map_of_mem hV
      obtain ⟨W, hW, he⟩ := List.mem_map.1 this
      exact ⟨W, hW, by rw [he]; exact hv⟩

end Graph

/-- The result of a loader, if the only thing that can go wrong is the shift. -/
def StrictOf {α : Type} (bad : Prop) (x y : M α) : Prop := (¬ bad → y = x) ∧ (bad → y = .error .ub)

theorem loadGraphStrict_eq {argLR : Bool} {cap n m : Nat} {edges : Edges} {pg pg' : PyGraph}
    {G : Graph} (h : PyGraph.loadGraph argLR cap pg n m edges = .ok pg') (hG : pg'.G = some G) :
    StrictOf (∃ V ∈ G.vs, V.N % 64 = 0) (PyGraph.loadGraph argLR cap pg n m edges)
      (PyGraph.loadGraphStrict argLR cap pg n m edges) := by
  unfold PyGraph.loadGraph at h ⊢
  unfold PyGraph.loadGraphStrict
  obtain ⟨G1, h1, h2⟩ := bind_eq_ok.1 h
  injection h2 with h2
  subst h2
  injection hG with hG
  subst hG
  obtain ⟨a, b⟩ := Graph.ctorStrict_eq h1
  constructor
  · intro hb
    rw [h1, a fun V hV hv => hb ⟨V, hV, hv⟩]
  · intro hb
    rw [b hb]; rfl

section

variable {R : Type} [Zero R] [Add R] [Sub R] [NatCast R] [LT R] [LE R] [DecidableLT R]
  [DecidableLE R]

theorem NWG.boundsLoop_g {H H' : NWG R} (h : NWG.boundsLoop H = .ok H') : H'.g = H.g := by
  unfold NWG.boundsLoop at h
  refine forRange_inv (fun _ (s : NWG R) => s.g = H.g) (Nat.zero_le _) (by rfl) ?_ h
  intro k s s' _ _ hs hb
  obtain ⟨m, _, hb⟩ := bind_eq_ok.1 hb
  obtain ⟨s1, b1, hb⟩ := bind_eq_ok.1 hb
  rw [← hs]
  simp only at hb
  split at hb
  · injection hb with hb; subst hb; rfl
  · injection hb with hb; subst hb; rfl

theorem wloadGraphStrict_eq {argLR : Bool} {cap n m : Nat} {edges : Edges} {wts : List R}
    {pg pg' : PyNW R} {H : NWG R} (h : PyNW.loadGraph argLR cap pg n m edges wts = .ok pg')
    (hG : pg'.G = some H) :
    StrictOf (∃ V ∈ H.g.vs, V.N % 64 = 0) (PyNW.loadGraph argLR cap pg n m edges wts)
      (PyNW.loadGraphStrict argLR cap pg n m edges wts) := by
  unfold PyNW.loadGraph at h ⊢
  unfold PyNW.loadGraphStrict
  obtain ⟨H1, h1, h2⟩ := bind_eq_ok.1 h
  injection h2 with h2
  subst h2
  injection hG with hG
  subst hG
  unfold NWG.ctor at h1
  obtain ⟨g, g1, h1⟩ := bind_eq_ok.1 h1
  obtain ⟨⟨wt, deg⟩, g2, h1⟩ := bind_eq_ok.1 h1
  have hg : H1.g = g := NWG.boundsLoop_g h1
  rw [hg]
  obtain ⟨a, b⟩ := Graph.ctorStrict_eq g1
  constructor
  · intro hb
    unfold NWG.ctor NWG.ctorStrict
    rw [g1, a fun V hV hv => hb ⟨V, hV, hv⟩]
  · intro hb
    unfold NWG.ctorStrict
    rw [b hb]; rfl

end

end CM
