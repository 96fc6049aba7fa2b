import Verif.Lemmas.Nested
import Verif.Lemmas.Iterated

/-! # Searches that run in part of the scratch space -/

namespace CM

open Spec

namespace Graph

variable {G G' : Graph}

/-- clique.cpp:15-34 -/
theorem findMax_at {srt : List VData → List VData} (hsrt : ∀ l, (srt l).Perm l) {b : Nat}
    (h : OkAt b G) (sv : Nat) (heur dfs : Bool) :
    ∃ G' i, G.findMaxCliques srt sv heur dfs none = .ok (G', i) ∧ OkAt b G' ∧ ImpAt b G G' ∧
      (McsOk G → McsOk G' ∧ (dfs = true → Best G')) := by
  have key : ∃ G1, (if heur = true then G.heurGraph srt else .ok G) = .ok G1 ∧ OkAt b G1 ∧
      ImpAt b G G1 ∧ (McsOk G → McsOk G1) := by
    cases heur with
    | true =>
      obtain ⟨G1, h1, h2, h3, h4⟩ := heurGraph_at hsrt h
      exact ⟨G1, by simpa using h1, h2, h3,
        McsOk.congr h3.frame (Nat.le_of_eq h3.lim) (fun v => by rw [h4])⟩
    | false => exact ⟨G, by simp, h, ImpAt.refl b G, id⟩
  obtain ⟨G1, a1, a2, a3, a4⟩ := key
  unfold findMaxCliques
  dsimp only
  rw [← ite_bind, a1, ok_bind]
  cases dfs with
  | false =>
    exact ⟨G1, sv, by simp, a2, a3, fun hm => ⟨a4 hm, by simp⟩⟩
  | true =>
    simp only [if_true]
    obtain ⟨G2, b1, b2, b3, b4⟩ := stackGraph_at a2
    refine ⟨G2, G1.nVert, b1, b2, a3.trans b3, fun hm => ?_⟩
    obtain ⟨c1, c2⟩ := b4 (a4 hm)
    exact ⟨c1, fun _ => c2⟩

theorem bounded_at {b : Nat} (h : OkAt b G) (a : PyGraph.Args) : OkAt b (bounded G a) := by
  obtain ⟨L, h1, h2⟩ := h.room
  have F := bounded_frame G a
  refine ⟨F.wf h.wf, h.cur, h.bot, ⟨L, fun v hv => ?_, h2⟩, h.zero, h.pad,
    fun v hv => (F.isCl v _).2 (h.cliq v hv), h.loc⟩
  rw [F.rootCand]; exact h1 v hv

end Graph

open Graph

variable {pg : PyGraph} {n : Nat} {S : SimpleGraph Nat} {G : Graph} {b : Nat}

/-- A search without a time limit. -/
theorem search_at (h : PyAt b pg n S G) {srt : List VData → List VData}
    (hsrt : ∀ l, (srt l).Perm l) {a : PyGraph.Args} (ht : a.timeLimit = none) :
    ∃ pg' G', pg.getMaxClique srt a =
        .ok (pg', if a.lowerBound > (stored G').length then .raise else .ret (stored G')) ∧
      PyAt b pg' n S G' ∧ Frame G G' ∧
      (∀ x, 64 * G.ebSize ≤ x → x < 64 * b → bitAt G'.eb x = bitAt G.eb x) ∧
      G'.limit = min a.upperBound G.limit ∧
      (McsOk G → McsOk G' ∧ (a.useDfs = true → Best G')) ∧
      (1 ≤ a.lowerBound → G.curLoc ≠ 0 → G'.curLoc ≠ 0) ∧
      ((G'.curMax = max a.lowerBound G.curMax ∧ stored G' = stored G) ∨
        (max a.lowerBound G.curMax < G'.curMax ∧ (stored G').length = G'.curMax)) := by
  obtain ⟨G', i, h1, h2, h3, h4⟩ := findMax_at hsrt (bounded_at h.ok a)
    (if a.continueSearch = true then pg.currentVertex else 0)
    (if a.continueSearch = true ∧ pg.currentVertex ≠ 0 then false else a.useHeuristic)
    a.useDfs
  have F := (bounded_frame G a).trans h3.frame
  refine ⟨{ pg with G := some G', currentVertex := i, finishedAll := decide (i ≥ n) }, G', ?_,
    ⟨rfl, h.nv, h.pos, h2, h.of.frame F⟩, F, h3.low, by rw [h3.lim, bounded_limit],
    fun hm => h4 (bounded_mcs hm a), fun hp h0 => ?_, ?_⟩
  · unfold PyGraph.getMaxClique
    simp only
    have hl : PyGraph.checkLoaded { pg with
        currentVertex := if a.continueSearch = true then pg.currentVertex else 0 } = some G :=
      h.loaded
    rw [hl, ht]
    simp only
    unfold bounded at h1
    rw [h1, ok_bind]
    simp only
    rw [getClique_ok h2.wf h2.pad h2.loc, ok_bind, h.nv]
    show (if a.lowerBound > (stored G').length then _ else _) = _
    by_cases hx : a.lowerBound > (stored G').length
    · rw [if_pos hx, if_pos hx]
    · rw [if_neg hx, if_neg hx]; rfl
  · exact imp_loc' (h.of.frame (bounded_frame G a)) (bounded_at h.ok a).wf.str h3.toImp h2.wf
      (h2.cliq 0 h2.wf.npos) (by rw [bounded_curMax]; omega) h0
  · have := imp_cases h3.toImp
    rw [bounded_curMax] at this
    exact this

theorem stored_clique_at (h : PyAt b pg n S G) (h0 : G.curLoc ≠ 0) : IsCliqueList S n (stored G) :=
  cliqueAt_clique h.of h.ok.wf.str h.ok.loc (h.ok.cliq _ h.ok.loc) h0

theorem stored_pos_at (h : PyAt b pg n S G) : 1 ≤ (stored G).length := by
  unfold stored
  rw [cliqueAt_length]
  exact Finset.card_pos.2 ⟨_, (h.ok.cliq _ h.ok.loc).1⟩

/-- A search without a time limit and with the default `lower_bound`, in a state whose bounds
are intact and whose record may have been overwritten by an iteration. -/
theorem search_honestBut_at {Q : Nat → Prop} (h : PyAt b pg n S G) (hh : HonestBut Q G)
    {srt : List VData → List VData} (hsrt : ∀ l, (srt l).Perm l) {a : PyGraph.Args}
    (hm : McsOk G) (hlim : ∀ l, IsCliqueList S n l → l.length ≤ G.limit) (h0 : G.curLoc ≠ 0)
    (hlb : a.lowerBound = 1) (ht : a.timeLimit = none)
    (hu : ∀ l, IsCliqueList S n l → l.length ≤ a.upperBound) :
    ∃ pg' G' l, pg.getMaxClique srt a = .ok (pg', .ret l) ∧ PyAt b pg' n S G' ∧
      G'.curLoc ≠ 0 ∧ HonestBut Q G' ∧ pg'.G = some G' ∧
      IsCliqueList S n l ∧ (a.useDfs = true → IsMaxCliqueList S n l ∨ Q l.length) := by
  obtain ⟨pg', G', a1, a2, a3, a4, a5, a6, a7, a8⟩ := search_at h hsrt ht
  have hl0 := a7 (by omega) h0
  have hpos := stored_pos_at a2
  have hp := stored_pos_at h
  have hcl := stored_clique_at a2 hl0
  refine ⟨pg', G', stored G', by rw [a1, if_neg (by omega)], a2, hl0, ?_, a2.g, hcl, fun hd => ?_⟩
  · unfold HonestBut at hh ⊢
    rcases a8 with ⟨c1, c2⟩ | ⟨c1, c2⟩
    · rw [c1, c2]
      rcases hh with hh | hh
      · left; omega
      · exact Or.inr hh
    · left; omega
  · have hb := (a6 hm).2 hd
    have hmax : 1 ≤ G'.curMax := by rcases a8 with ⟨c1, _⟩ | ⟨c1, _⟩ <;> omega
    have hbest : ∀ l, IsCliqueList S n l → l.length ≤ G'.curMax := by
      intro l hl
      rcases Nat.lt_or_ge l.length 2 with h5 | h5
      · omega
      · have h6 := best_spec a2.of a2.ok.wf.str hb hl h5
        have h7 := hlim l hl
        have h8 := hu l hl
        rw [a5] at h6
        omega
    rcases a8 with ⟨c1, c2⟩ | ⟨c1, c2⟩
    · rcases hh with hh | hh
      · left
        refine ⟨hcl, fun l hl => ?_⟩
        have := hbest l hl
        rw [c2]; omega
      · right; rw [c2]; exact hh
    · left
      exact ⟨hcl, fun l hl => by rw [c2]; exact hbest l hl⟩

end CM
