import Verif.Model.Rebuild
import Verif.Props.Correspondence

/-!
# C80: iterators that are kept while `build_edges()` is called again
-/

namespace CM

open Spec Graph Sample

variable {pg pg1 pg2 : PyGraph} {E E1 : Enum}

/-- `next(it)` looks at the graph and its number of vertices only. -/
theorem nextClique_other (pg : PyGraph) (E : Enum) (v : Nat) (b : Bool) :
    ({ pg with currentVertex := v, finishedAll := b } : PyGraph).nextClique E =
      pg.nextClique E >>= fun x =>
        .ok ({ x.1 with currentVertex := v, finishedAll := b }, x.2) := by
  unfold PyGraph.nextClique
  simp only
  split
  · rfl
  · rw [bind_assoc]
    congr 1
    funext x
    split
    · rfl
    · rw [bind_assoc]; rfl

theorem nexts_other (m : Nat) : ∀ (pg : PyGraph) (E : Enum) (v : Nat) (b : Bool),
    PyGraph.nexts m { pg with currentVertex := v, finishedAll := b } E =
      PyGraph.nexts m pg E >>= fun x =>
        .ok ({ x.1 with currentVertex := v, finishedAll := b }, x.2) := by
  induction m with
  | zero => intro pg E v b; rfl
  | succ m ih =>
    intro pg E v b
    simp only [PyGraph.nexts]
    rw [nextClique_other]
    simp only [bind_assoc, ok_bind]
    congr 1
    funext x
    rw [ih]
    simp only [bind_assoc, ok_bind]

theorem consume_other (m : Nat) : ∀ (pg : PyGraph) (E : Enum) (v : Nat) (b : Bool),
    PyGraph.consume m { pg with currentVertex := v, finishedAll := b } E =
      PyGraph.consume m pg E >>= fun x =>
        .ok ({ x.1 with currentVertex := v, finishedAll := b }, x.2) := by
  induction m with
  | zero => intro pg E v b; rfl
  | succ m ih =>
    intro pg E v b
    simp only [PyGraph.consume]
    rw [nextClique_other]
    simp only [bind_assoc, ok_bind]
    congr 1
    funext x
    obtain ⟨p, E', c⟩ := x
    cases c with
    | none => rfl
    | some c =>
      simp only
      rw [ih]
      simp only [bind_assoc, ok_bind]

theorem listCliques_other (pg : PyGraph) (k v : Nat) (b : Bool) :
    ({ pg with currentVertex := v, finishedAll := b } : PyGraph).listCliques k =
      pg.listCliques k >>= fun x =>
        .ok ({ x.1 with currentVertex := v, finishedAll := b }, x.2) := by
  unfold PyGraph.listCliques
  rw [bind_assoc]
  have e : ({ pg with currentVertex := v, finishedAll := b } : PyGraph).allCliques k =
      pg.allCliques k := rfl
  rw [e]
  congr 1
  funext E
  simp only
  split
  · rfl
  · rw [consume_other]
    simp only [bind_assoc, ok_bind]

/-- As long as no memory has been freed, the iterator answers as always. -/
theorem racts_next (m : Nat) : ∀ (pg : PyGraph) (E : Enum) (s : Bool), (s = true → E.states = []) →
    racts (List.replicate m .next) pg ⟨E, s⟩ = PyGraph.nexts m pg E >>= fun x =>
      .ok (x.1, ⟨x.2.1, s && decide (m = 0)⟩, x.2.2) := by
  induction m with
  | zero => intro pg E s _; simp [racts, PyGraph.nexts, ok_bind]
  | succ m ih =>
    intro pg E s hs
    rw [List.replicate_succ]
    simp only [racts, RAct.run, PyGraph.nexts]
    cases hG : pg.G with
    | none =>
      have e : pg.nextClique E = .error .ub := by unfold PyGraph.nextClique; rw [hG]
      simp only [e, error_bind]
    | some G =>
      simp only
      rw [if_neg (by rintro ⟨a, _, b, _⟩; exact b (hs a))]
      simp only [bind_assoc, ok_bind]
      congr 1
      funext x
      have e : (s && !E.states.isEmpty) = false := by
        cases s with
        | false => rfl
        | true => rw [hs rfl]; rfl
      rw [e, ih _ _ false (by simp)]
      simp only [bind_assoc, ok_bind]
      congr 1
      funext y
      simp

/-- **C80**, as far as it is true, for an iterator that has not been asked yet.  The full property:
an iterator that is kept while `build_edges()` is called again raises, ends, or yields cliques of
the new graph, and one that has ended yields nothing any more.  Proved here: an iterator that was
made before `build_edges()` but not asked gives the same answers as one that is made afterwards,
which are those of an iterator of an object on which nothing else was called (so that C19 to C21
apply).  Missing, because false (`C80_refuted`): iterators that have been asked. -/
theorem C80_unasked_partial {f : Builder} (hf : IsBuilder f) {k : Nat}
    (hE : pg.allCliques k = .ok E) {pg1 : PyGraph} (h1 : f pg = .ok pg1) :
    ∃ pg2, f PyGraph.new = .ok pg2 ∧
      (pg1.nvert ≠ 0 → pg1.allCliques k = .ok E ∧ pg2.allCliques k = .ok E) ∧
      (∀ m, (racts (.build f :: List.replicate m .next) pg ⟨E, false⟩ >>= fun x => .ok x.2.2) =
        (PyGraph.nexts m pg1 E >>= fun x => .ok x.2.2)) ∧
      (∀ m, (PyGraph.nexts m pg1 E >>= fun x => .ok x.2.2) =
        (PyGraph.nexts m pg2 E >>= fun x => .ok x.2.2)) ∧
      ∀ k, (pg1.listCliques k >>= fun x => .ok x.2) = (pg2.listCliques k >>= fun x => .ok x.2) := by
  have hr := hf.rebuild pg
  rw [h1] at hr
  obtain ⟨pg2, h2, e⟩ := bind_eq_ok.1 hr.symm
  cases e
  have hE' : E = Enum.new k := by
    unfold PyGraph.allCliques at hE
    split at hE
    · cases hE
    · cases hE; rfl
  subst hE'
  refine ⟨pg2, h2, ?_, ?_, ?_, ?_⟩
  · intro hn
    obtain ⟨G, hG⟩ := hf.graph h2
    have hc : pg2.checkLoaded = some G := by
      unfold PyGraph.checkLoaded
      rw [hG]
      exact if_neg hn
    have hc1 : ({ pg2 with currentVertex := pg.currentVertex, finishedAll := pg.finishedAll } :
        PyGraph).checkLoaded = some G := hc
    unfold PyGraph.allCliques
    rw [hc, hc1]
    exact ⟨rfl, rfl⟩
  · intro m
    simp only [racts, RAct.run]
    rw [h1]
    simp only [ok_bind]
    rw [racts_next m _ _ true (fun _ => rfl)]
    simp only [bind_assoc, ok_bind, List.nil_append]
  · intro m
    rw [nexts_other]
    simp only [bind_assoc, ok_bind]
  · intro k
    rw [listCliques_other]
    simp only [bind_assoc, ok_bind]

/-! ### Iterators that have ended -/

theorem ctor_nVert {argLR : Bool} {cap n : Nat} {edges : Edges} {G : Graph}
    (h : Graph.ctor argLR cap n edges = .ok G) : G.nVert = n + 1 := by
  unfold Graph.ctor at h
  obtain ⟨e, _, h⟩ := bind_eq_ok.1 h
  obtain ⟨G1, h1, h⟩ := bind_eq_ok.1 h
  have n1 : G1.nVert = n + 1 := by
    refine forRange_inv (fun _ (G : Graph) => G.nVert = n + 1) (by omega) rfl ?_ h1
    intro k s s' _ _ hP hb
    unfold ctorStep at hb
    obtain ⟨x, _, hb⟩ := bind_eq_ok.1 hb
    obtain ⟨y, _, hb⟩ := bind_eq_ok.1 hb
    cases hb
    exact hP
  simp only at h
  unfold setBounds at h
  obtain ⟨G2, h2, h⟩ := bind_eq_ok.1 h
  have n2 : G2.nVert = n + 1 := by
    unfold boundsLoop at h2
    refine forRange_inv (fun _ (G : Graph) => G.nVert = n + 1) (Nat.zero_le _) ?_ ?_ h2
    · exact n1
    intro k s s' _ _ hP hb
    obtain ⟨m, _, hb⟩ := bind_eq_ok.1 hb
    obtain ⟨s1, h3, hb⟩ := bind_eq_ok.1 hb
    have : s1.nVert = n + 1 := by
      unfold setMcs at h3
      obtain ⟨_, _, h3⟩ := bind_eq_ok.1 h3
      obtain ⟨_, _, h3⟩ := bind_eq_ok.1 h3
      cases h3
      exact hP
    split at hb <;> · cases hb; exact this
  simp only at h
  split at h <;> · cases h; exact n2

theorem loadGraph_nVert {argLR : Bool} {cap n m : Nat} {edges : Edges} {pg pg' : PyGraph}
    (h : PyGraph.loadGraph argLR cap pg n m edges = .ok pg') :
    ∃ G, pg'.G = some G ∧ G.nVert = pg'.nvert + 1 := by
  unfold PyGraph.loadGraph at h
  obtain ⟨G, hG, h⟩ := bind_eq_ok.1 h
  cases h
  exact ⟨G, rfl, ctor_nVert hG⟩

theorem IsBuilder.nVert {f : Builder} (h : IsBuilder f) {pg pg' : PyGraph} (he : f pg = .ok pg') :
    ∃ G, pg'.G = some G ∧ G.nVert = pg'.nvert + 1 := by
  cases h with
  | iso argLR cap pg1 pg2 =>
    change buildIso _ _ _ _ _ = _ at he
    unfold buildIso at he
    split at he
    · cases he
    · split at he
      · obtain ⟨_, _, he⟩ := bind_eq_ok.1 he
        simp only at he
        split at he
        · cases he
        · exact loadGraph_nVert he
      · cases he
  | metric argLR cap srt1 srt2 M N w d1 d2 sym1 sym2 =>
    change buildMetric _ _ _ _ _ _ _ _ _ _ _ _ = _ at he
    unfold buildMetric at he
    obtain ⟨_, _, he⟩ := bind_eq_ok.1 he
    obtain ⟨_, _, he⟩ := bind_eq_ok.1 he
    obtain ⟨_, _, he⟩ := bind_eq_ok.1 he
    simp only at he
    split at he
    · cases he
    · exact loadGraph_nVert he
  | condition argLR cap M N c =>
    change buildCondition _ _ _ _ _ _ = _ at he
    unfold buildCondition at he
    obtain ⟨_, _, he⟩ := bind_eq_ok.1 he
    simp only at he
    split at he
    · cases he
    · exact loadGraph_nVert he
  | both argLR cap srt1 srt2 M N w c d1 d2 sym1 sym2 =>
    change buildBoth _ _ _ _ _ _ _ _ _ _ _ _ _ = _ at he
    unfold buildBoth at he
    obtain ⟨_, _, he⟩ := bind_eq_ok.1 he
    obtain ⟨_, _, he⟩ := bind_eq_ok.1 he
    obtain ⟨_, _, he⟩ := bind_eq_ok.1 he
    simp only at he
    split at he
    · cases he
    · exact loadGraph_nVert he

/-- Where an iterator is that has just ended. -/
theorem ended_cur {c : Option (List Nat)} (h : pg.nextClique E = .ok (pg1, E1, c)) (hc : c = none) :
    pg.nvert < E1.cur := by
  unfold PyGraph.nextClique at h
  split at h
  · cases h
  · rename_i G hG
    obtain ⟨⟨G', E', v⟩, h1, h⟩ := bind_eq_ok.1 h
    simp only at h
    split at h
    · rename_i hv
      cases h
      have : v ≤ E1.cur := by
        unfold enumGraph at h1
        split at h1
        · cases h1; exact le_refl _
        · split at h1
          · obtain ⟨_, _, h1⟩ := bind_eq_ok.1 h1
            obtain ⟨_, _, h1⟩ := bind_eq_ok.1 h1
            obtain ⟨_, _, h1⟩ := bind_eq_ok.1 h1
            obtain ⟨_, _, h1⟩ := bind_eq_ok.1 h1
            cases h1
            exact Nat.le_succ _
          · refine loop_inv (fun _ => True) (fun r : Graph × Enum × Nat => r.2.2 ≤ r.2.1.cur)
              (fun _ _ _ _ => trivial) ?_ trivial h1
            rintro ⟨Ga, Ea⟩ r _ hr
            unfold enumBody at hr
            simp only at hr
            split at hr
            · split at hr
              · obtain ⟨_, _, hr⟩ := bind_eq_ok.1 hr
                obtain ⟨_, _, hr⟩ := bind_eq_ok.1 hr
                cases hr
              · obtain ⟨_, _, hr⟩ := bind_eq_ok.1 hr
                obtain ⟨_, _, hr⟩ := bind_eq_ok.1 hr
                obtain ⟨x, _, hr⟩ := bind_eq_ok.1 hr
                cases x with
                | found G top => cases hr; exact le_refl _
                | pushed G top new => cases hr
                | done G top =>
                  simp only at hr
                  obtain ⟨_, _, hr⟩ := bind_eq_ok.1 hr
                  obtain ⟨_, _, hr⟩ := bind_eq_ok.1 hr
                  cases hr
            · cases hr; exact le_refl _
      omega
    · obtain ⟨x, _, h⟩ := bind_eq_ok.1 h
      cases h
      cases hc

/-- An iterator that is beyond the last vertex answers nothing and leaves the object alone. -/
theorem next_beyond {G : Graph} (hG : pg.G = some G) (hnv : G.nVert = pg.nvert + 1)
    (hc : pg.nvert < E.cur) :
    ∃ E', pg.nextClique E = .ok (pg, E', none) ∧ pg.nvert < E'.cur ∧ E'.required = E.required := by
  have hpg : pg = { pg with G := some G } := by rw [← hG]
  unfold PyGraph.nextClique
  rw [hG]
  simp only
  unfold enumGraph
  by_cases h0 : E.required = 0
  · rw [if_pos h0, ok_bind]
    simp only
    rw [if_pos (by omega), ← hpg]
    exact ⟨_, rfl, by simp only; omega, rfl⟩
  · rw [if_neg h0, if_neg (by omega)]
    have hpos : 0 < (G.nVert + 2) * 2 ^ (G.maxDeg + 2) :=
      Nat.mul_pos (by omega) (Nat.pos_of_ne_zero (by simp))
    obtain ⟨m, hm⟩ := Nat.exists_eq_succ_of_ne_zero (Nat.ne_of_gt hpos)
    have hb : enumBody (G, E) = .ok (.inr (G, E, E.cur)) := by
      unfold enumBody
      simp only
      rw [if_neg (by omega)]
    have hl : loop ((G.nVert + 2) * 2 ^ (G.maxDeg + 2)) enumBody (G, E) = .ok (G, E, E.cur) := by
      rw [hm]
      unfold loop
      rw [hb]
    rw [hl, ok_bind]
    simp only
    rw [if_pos (by omega), ← hpg]
    exact ⟨E, rfl, hc, rfl⟩

/-- **C80**, as far as it is true, for an iterator that has ended: if the object has been built again,
any number of times, and now has no more vertices than when the iterator ended, the iterator still
answers nothing, and asking it does not change the object.  The sets of a matcher have their lengths,
so this is the case unless they are replaced. -/
theorem C80_ended_partial (hend : pg.nextClique E = .ok (pg1, E1, none)) {f : Builder}
    (hf : IsBuilder f) {pg' : PyGraph} (hb : f pg' = .ok pg2) (hn : pg2.nvert ≤ pg.nvert)
    (s : Bool) (m : Nat) :
    ∃ it, racts (.build f :: List.replicate m .next) pg' ⟨E1, s⟩ =
      .ok (pg2, it, List.replicate m none) := by
  obtain ⟨G, hG, hnv⟩ := hf.nVert hb
  have hc : pg2.nvert < E1.cur := lt_of_le_of_lt hn (ended_cur hend rfl)
  have key : ∀ (m : Nat) (E : Enum) (s : Bool), pg2.nvert < E.cur →
      ∃ it, racts (List.replicate m .next) pg2 ⟨E, s⟩ = .ok (pg2, it, List.replicate m none) := by
    intro m
    induction m with
    | zero => intro E s _; exact ⟨_, rfl⟩
    | succ m ih =>
      intro E s hc
      obtain ⟨E', h1, h2, _⟩ := next_beyond hG hnv hc
      obtain ⟨it, hit⟩ := ih E' (s && !E.states.isEmpty) h2
      refine ⟨it, ?_⟩
      rw [List.replicate_succ]
      simp only [racts, RAct.run, hG]
      rw [if_neg (by omega), h1]
      simp only [ok_bind]
      rw [hit]
      rfl
  obtain ⟨it, hit⟩ := key m E1 true hc
  refine ⟨it, ?_⟩
  simp only [racts, RAct.run]
  rw [hb]
  simp only [ok_bind]
  rw [hit]
  rfl

namespace Sample

/-- `build_edges_with_condition(lambda ...: True, True)` for sets with `M` and `N` elements. -/
def joinAll (M N : Nat) : Builder := fun pg => buildCondition true 400 pg M N fun _ _ _ _ => true

theorem joinAll_builder (M N : Nat) : IsBuilder (joinAll M N) := .condition _ _ _ _ _

/-- Sets with two elements each. -/
def twoTwo : PyGraph := get PyGraph.new (joinAll 2 2 PyGraph.new)

theorem twoTwo_eq : joinAll 2 2 PyGraph.new = .ok twoTwo := by decide +kernel

end Sample

/-- **C80** is false.  An iterator is asked once, `build_edges()` is called again for the same sets
and the iterator is asked again: it reads memory that has been freed.  An iterator has ended, the
object is built for larger sets and the iterator is asked again: it is alive, with some of the
cliques of the new graph. -/
theorem C80_refuted : joinAll 2 2 PyGraph.new = .ok twoTwo ∧
    twoTwo.allCliques 2 = .ok (Enum.new 2) ∧
    (racts [.next] twoTwo ⟨Enum.new 2, false⟩ >>= fun x => .ok x.2.2) = .ok [some [2, 3]] ∧
    (racts [.next, .build (joinAll 2 2), .next] twoTwo ⟨Enum.new 2, false⟩ >>=
      fun x => .ok x.2.2) = .error .ub ∧
    (racts [.next, .next, .build (joinAll 3 3), .next, .next, .next] twoTwo ⟨Enum.new 2, false⟩ >>=
      fun x => .ok x.2.2) = .ok [some [2, 3], none, some [6, 7], some [6, 8], none] := by
  refine ⟨twoTwo_eq, ?_⟩
  decide +kernel

/-- The hypotheses of `C80_unasked_partial` and `C80_ended_partial` are met, and what they say of
these objects is not trivial. -/
example : (joinAll 3 3 twoTwo >>= fun pg => .ok pg.nvert) = .ok 9 ∧
    (racts (.build (joinAll 3 3) :: List.replicate 3 .next) twoTwo ⟨Enum.new 2, false⟩ >>=
      fun x => .ok x.2.2) = .ok [some [2, 4], some [2, 6], some [2, 7]] ∧
    (racts [.next, .next, .build (joinAll 2 2), .next, .next] twoTwo ⟨Enum.new 2, false⟩ >>=
      fun x => .ok x.2.2) = .ok [some [2, 3], none, none, none] := by
  decide +kernel

end CM
