import Verif.Lemmas.EnumKeeps
import Verif.Props.Rebuild

/-!
# C80: iterators that have been asked before `build_edges()` is called again
-/

namespace CM

open Spec Graph Sample

variable {pg0 pg pg1 pg2 : PyGraph} {E1 : Enum}

theorem racts_append : ∀ (xs ys : List RAct) (pg : PyGraph) (it : HeldIter),
    racts (xs ++ ys) pg it = racts xs pg it >>= fun x => racts ys x.1 x.2.1 >>= fun y =>
      .ok (y.1, y.2.1, x.2.2 ++ y.2.2) := by
  intro xs
  induction xs with
  | nil => intro ys pg it; cases h : racts ys pg it <;> simp [racts, ok_bind, h] <;> rfl
  | cons x xs ih =>
    intro ys pg it
    simp only [List.cons_append, racts, ih, bind_assoc, ok_bind, List.append_assoc]

/-- **C80**, where it is false, for every object: an iterator over the cliques with `k ≥ 2` vertices
that has been asked `m` times and whose last answer was a clique, so that it has not ended.  If
`build_edges()` is called again, for sets that are not smaller (the same ones, for example), the
next question to the iterator reads memory that has been freed. -/
theorem C80_asked_undefined {f0 f : Builder} (h0 : IsBuilder f0) (hb : f0 pg0 = .ok pg)
    {k m : Nat} (hk : 2 ≤ k) {cs : List (Option (List Nat))} {c : List Nat}
    (hm : pg.nexts m (Enum.new k) = .ok (pg1, E1, cs)) (hc : cs.getLast? = some (some c))
    (hf : IsBuilder f) (hb2 : f pg1 = .ok pg2) (hn : pg.nvert ≤ pg2.nvert) :
    racts (List.replicate m .next ++ [.build f, .next]) pg ⟨Enum.new k, false⟩ = .error .ub := by
  obtain ⟨_, _, _, e⟩ := nexts_keeps (h0.nVert hb) hm
  obtain ⟨hs, hcur⟩ := e hk c hc
  have hreq := (nexts_keeps (h0.nVert hb) hm).2.2.1
  obtain ⟨G2, hG2, hv⟩ := hf.nVert hb2
  simp only at hs hcur hreq
  rw [racts_append, racts_next m _ _ false (by simp), hm]
  simp only [ok_bind, racts, RAct.run, hb2, hG2]
  rw [if_pos ⟨trivial, by rw [hreq]; exact (by simp [Enum.new]; omega), hs, by omega⟩]
  rfl

/-- A case: two sets with two elements each, and the iterator has given one pair. -/
example : ∃ pg1 E1 pg2, twoTwo.nexts 1 (Enum.new 2) = .ok (pg1, E1, [some [2, 3]]) ∧
    joinAll 2 2 pg1 = .ok pg2 ∧ twoTwo.nvert ≤ pg2.nvert ∧
    racts (List.replicate 1 .next ++ [.build (joinAll 2 2), .next]) twoTwo ⟨Enum.new 2, false⟩ =
      .error .ub := by
  have h1 : (twoTwo.nexts 1 (Enum.new 2) >>= fun x => .ok (x.2.2, joinAll 2 2 x.1 >>= fun p =>
      .ok p.nvert)) = (.ok ([some [2, 3]], .ok 4) : M _) := by decide +kernel
  obtain ⟨⟨pg1, E1, cs⟩, ha, h1⟩ := bind_eq_ok.1 h1
  simp only [Except.ok.injEq, Prod.mk.injEq] at h1
  obtain ⟨rfl, h1⟩ := h1
  obtain ⟨pg2, hb, h1⟩ := bind_eq_ok.1 h1
  have hn : twoTwo.nvert ≤ pg2.nvert := by
    have : pg2.nvert = 4 := by injection h1
    rw [this]
    decide +kernel
  exact ⟨pg1, E1, pg2, ha, hb, hn, C80_asked_undefined (joinAll_builder 2 2) twoTwo_eq (le_refl 2) ha
    rfl (joinAll_builder 2 2) hb hn⟩

end CM
