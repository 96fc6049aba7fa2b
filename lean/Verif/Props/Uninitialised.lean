import Verif.Lemmas.JunkApi
import Verif.Lemmas.WRecompile
import Verif.Props.Weighted

/-!
# C98: what the reserved memory contained never shows
-/

namespace CM

open Spec NWG

section

variable {R : Type} [Zero R] [Add R] [Sub R] [NatCast R] [LT R] [LE R] [DecidableLT R]
  [DecidableLE R] {pg : PyNW R} {n : Nat} {S : SimpleGraph Nat} {ω : Nat → R}

private theorem calls_memory {ops ops' : List (WOp R)}
    (hs : List.Forall₂ (fun o o' => WAct.SameButMemory (.call o) (.call o')) ops ops') :
    ∀ {pg : PyNW R} {H : NWG R}, WPyOk pg n S ω H → (∀ op ∈ ops, op.Legal) → ∀ E : WEnum R,
    ∃ q H1 ss, wacts (ops.map .call) pg E = .ok (q, E, ss) ∧
      wacts (ops'.map .call) pg E = .ok (q, E, ss) ∧ WPyOk q n S ω H1 := by
  induction hs with
  | nil => intro pg H h _ E; exact ⟨pg, H, [], rfl, rfl, h⟩
  | @cons o o' ops ops' ho _ ih =>
    intro pg H h hl E
    have hlo := hl o (by simp)
    obtain ⟨q, H1, s, a1, _, a3⟩ := wcall_two h hlo E
    obtain ⟨r, H2, ss, b1, b2, b3⟩ := ih a3 (fun o ho => hl o (by simp [ho])) E
    have e : WAct.run pg E (.call o') = WAct.run pg E (.call o) := by
      cases ho with
      | search srt j j' a =>
        show (pg.getMaxClique srt j' a >>= _) = (pg.getMaxClique srt j a >>= _)
        rw [AW.getMaxClique_junk h.at hlo j j' a]
      | reset => rfl
      | list j j' W =>
        show (pg.listCliques j' W >>= _) = (pg.listCliques j W >>= _)
        rw [AW.listCliques_junk h.at j j' W]
    refine ⟨r, H2, s :: ss, ?_, ?_, b3⟩
    · show (WAct.run pg E (.call o) >>= _) = _
      rw [a1, ok_bind]
      show (wacts _ q E >>= _) = _
      rw [b1]; rfl
    · show (WAct.run pg E (.call o') >>= _) = _
      rw [e, a1, ok_bind]
      show (wacts _ q E >>= _) = _
      rw [b2]; rfl

/-- **C98**: two runs of one program on a loaded weighted graph, in which the memory reserved for
`weights` contains different numbers each time it is reserved.  Both see the same answers to the
calls they make first, both can then create an `all_cliques(W)` iterator, and both see the same
answers to whatever they do next: `next()` on the iterator and further calls on the graph, in any
order.  The graph object is the same after the first part and at the end. -/
theorem C98_reserved_memory (h : WUsable pg n S ω) {ops ops' : List (WOp R)}
    (hs : List.Forall₂ (fun o o' => WAct.SameButMemory (.call o) (.call o')) ops ops')
    (hl : ∀ op ∈ ops, op.Legal) {xs xs' : List (WAct R)}
    (hx : List.Forall₂ WAct.SameButMemory xs xs') (hlx : ∀ op, WAct.call op ∈ xs → op.Legal)
    (junk junk' : Nat → R) (W : R) (E : WEnum R) :
    ∃ q seen I I' r J J' seen₂,
      wacts (ops.map .call) pg E = .ok (q, E, seen) ∧
      wacts (ops'.map .call) pg E = .ok (q, E, seen) ∧
      q.allCliques junk W = .ok I ∧ q.allCliques junk' W = .ok I' ∧
      wacts xs q I = .ok (r, J, seen₂) ∧ wacts xs' q I' = .ok (r, J', seen₂) := by
  obtain ⟨H, hF⟩ := AW.wusable_fresh h
  obtain ⟨q, H1, ss, a1, a2, a3⟩ := calls_memory hs hF.pyok hl E
  obtain ⟨I, b1, b2⟩ := AW.WHeld.new a3 junk W
  obtain ⟨I', c1, _⟩ := AW.WHeld.new a3 junk' W
  have hJ : AW.JR H1 I I' := by
    unfold PyNW.allCliques at b1 c1
    rw [a3.loaded] at b1 c1
    cases b1
    cases c1
    exact AW.JR.new _ _ (by simp) W
  obtain ⟨r, J, J', ss2, d1, d2⟩ := AW.wacts_junk hx b2 hlx hJ
  exact ⟨q, ss, I, I', r, J, J', ss2, a1, a2, b1, c1, d1, d2⟩

/-- **C98** for `get_correspondence` after any history, with any argument `len2`. -/
theorem C98_correspondence (h : WUsable pg n S ω) {ops : List (WOp R)}
    (hl : ∀ op ∈ ops, op.Legal) {srt : List (WData R) → List (WData R)}
    (hsrt : ∀ l, (srt l).Perm l) (junk junk' : Nat → R) (len2 : Nat) (a : PyNW.Args R) :
    ∃ q, wruns ops pg = .ok q ∧
      q.getCorrespondence srt junk' len2 a = q.getCorrespondence srt junk len2 a := by
  obtain ⟨H, hF⟩ := AW.wusable_fresh h
  obtain ⟨q, H1, a1, a2, _⟩ := AW.wruns_spec ops hF.pyok hl
  refine ⟨q, a1, ?_⟩
  unfold PyNW.getCorrespondence
  rw [AW.getMaxClique_junk a2.at hsrt junk junk' a]

end

/-- The weighted kite: a search and a list first, then an iterator asked between other calls. -/
example : WUsable Sample.wkite 5 (ofPairs Sample.rows) (nth ([2, 1/2, 3, 1, 10] : List Rat)) ∧
    List.Forall₂ (fun o o' => WAct.SameButMemory (.call o) (.call o'))
      [.search Sample.byW (fun _ => 0) {}, .list (fun _ => 3) 4]
      [.search Sample.byW (fun i => (i : Rat) - 50) {}, .list (fun _ => 1000) 4] ∧
    List.Forall₂ WAct.SameButMemory
      [.next, .call .reset, .next, .call (.search Sample.byW (fun _ => 1) {}), .next]
      [.next, .call .reset, .next, .call (.search Sample.byW (fun _ => -900) {}), .next] ∧
    (∀ op, WAct.call op ∈ [WAct.next, .call .reset, .next,
      .call (.search Sample.byW (fun _ => (1 : Rat)) {}), .next] → op.Legal) := by
  refine ⟨Sample.wkite_usable, ?_, ?_, ?_⟩
  · exact .cons (.search ..) (.cons (.list ..) .nil)
  · exact .cons .next (.cons .reset (.cons .next (.cons (.search ..) (.cons .next .nil))))
  · simp [WOp.Legal, Sample.byW_perm]

example : (wacts [.next, .next, .call (.search Sample.byW (fun _ => 1) {}), .next]
      Sample.wkite (WEnum.new [0, 0, 0, 0, 0, 0] 4) >>= fun x => .ok (WSeen.answers x.2.2)) =
    (wacts [.next, .next, .call (.search Sample.byW (fun _ => -900) {}), .next]
      Sample.wkite (WEnum.new [70, -50, 9, 12, 6, 8] 4) >>= fun x => .ok (WSeen.answers x.2.2)) := by
  decide +kernel

end CM
