import Verif.Lemmas.Lifetime
import Verif.Props.Iteration

/-!
# C100: objects live as long as they are needed, and no longer
-/

namespace CM

open Spec

variable {P E K C A : Type}

/-- **C100**: a program that makes graphs and iterators of any of the four classes, passes them
around, uses them and deletes variables in any order, sees what it would see if nothing were ever
destroyed. -/
theorem C100_never_too_early (L : IterClass P E K C A) (xs : List (LAct P K C)) :
    (lacts L xs World.empty >>= fun z => .ok z.2) =
      (Forever.run L xs Forever.empty >>= fun z => .ok z.2) := by
  obtain ⟨h, _⟩ := Forever.run_counted L xs Forever.fine_empty
  rw [← Forever.real_empty, h]
  cases Forever.run L xs Forever.empty <;> rfl

/-- **C100**: no program uses an object that was destroyed, or destroys one twice.  Undefined
behaviour can only come from the work of the constructor, of `next` or of the other calls. -/
theorem C100_no_undefined_behaviour (L : IterClass P E K C A)
    (h1 : ∀ pg k, L.new pg k ≠ .error .ub) (h2 : ∀ pg e, L.next pg e ≠ .error .ub)
    (h3 : ∀ pg c, L.call pg c ≠ .error .ub) (xs : List (LAct P K C)) :
    lacts L xs World.empty ≠ .error .ub := by
  suffices ∀ s : Forever P E, Forever.Fine s → lacts L xs s.real ≠ .error .ub from
    this _ Forever.fine_empty
  induction xs with
  | nil => intro s _ h; cases h
  | cons x xs ih =>
    intro s hf h
    obtain ⟨a1, a2⟩ := Forever.step_counted L hf x
    unfold lacts at h
    rw [a1] at h
    cases hs : Forever.step L s x with
    | ok z =>
      rw [hs] at h
      simp only [ok_bind] at h
      have := ih z.1 (a2 _ hs)
      cases hl : lacts L xs z.1.real with
      | ok y => rw [hl] at h; cases h
      | error f => rw [hl] at h; cases h; exact this hl
    | error f =>
      rw [hs] at h
      have hu : f = .ub := by cases h; rfl
      subst hu
      exact Forever.step_ub h1 h2 h3 hf x hs

/-- **C100**: after any program, exactly those objects are still there that the program can reach:
a graph if a variable refers to it or to an iterator object over it, an iterator object if a
variable refers to it, an enumerator if a variable refers to an iterator object that uses it. -/
theorem C100_never_too_late (L : IterClass P E K C A) {xs : List (LAct P K C)} {w : World P E}
    {as : List A} (h : lacts L xs World.empty = .ok (w, as)) :
    (∀ i c, w.graphs[i]? = some c → (c.val.isSome ↔ some (Ref.graph i) ∈ w.names ∨
      ∃ j n o, some (Ref.iter j) ∈ w.names ∧ w.its[j]? = some ⟨n, some o⟩ ∧ o.graph = i)) ∧
    (∀ j c, w.its[j]? = some c → (c.val.isSome ↔ some (Ref.iter j) ∈ w.names)) ∧
    (∀ i c, w.ens[i]? = some c → (c.val.isSome ↔
      ∃ j n o, some (Ref.iter j) ∈ w.names ∧ w.its[j]? = some ⟨n, some o⟩ ∧ o.en = i)) := by
  obtain ⟨a1, _⟩ := Forever.run_counted L xs (Forever.fine_empty (P := P) (E := E))
  rw [Forever.real_empty, h] at a1
  cases hr : Forever.run L xs (Forever.empty (P := P) (E := E)) with
  | error f => rw [hr] at a1; cases a1
  | ok z =>
    rw [hr] at a1
    cases a1
    obtain ⟨s, as⟩ := z
    dsimp only
    have key : ∀ p : IterObj → Bool, s.holders p ≠ 0 ↔ ∃ j n o, some (Ref.iter j) ∈ s.names ∧
        s.real.its[j]? = some ⟨n, some o⟩ ∧ p o = true := by
      intro p
      rw [Forever.holders_iff]
      constructor
      · rintro ⟨j, o, h1, h2, h3⟩
        obtain ⟨n, h4⟩ := (Forever.its_real h1).1 h2
        exact ⟨j, n, o, h1, h4, h3⟩
      · rintro ⟨j, n, o, h1, h2, h3⟩
        exact ⟨j, o, h1, (Forever.its_real h1).2 ⟨n, h2⟩, h3⟩
    refine ⟨fun i c hc => ?_, fun j c hc => ?_, fun i c hc => ?_⟩
    · have h1 : c.val.isSome ↔ s.grefs i ≠ 0 := Forever.alive hc
      have h2 : s.grefs i ≠ 0 ↔ s.named (.graph i) ≠ 0 ∨
          s.holders (fun o => decide (o.graph = i)) ≠ 0 := by
        unfold Forever.grefs; omega
      rw [h1, h2, key, Forever.named_ne_zero]
      simp only [decide_eq_true_eq]
      rfl
    · have h1 : c.val.isSome ↔ s.named (.iter j) ≠ 0 :=
        Forever.alive (cnt := fun j => s.named (.iter j)) (vals := s.its) hc
      rw [h1, Forever.named_ne_zero]
      rfl
    · have h1 : c.val.isSome ↔ s.erefs i ≠ 0 := Forever.alive hc
      rw [h1]
      unfold Forever.erefs
      rw [key]
      simp only [decide_eq_true_eq]
      rfl

/-- **C100**: a program that has deleted all its variables has left nothing behind. -/
theorem C100_no_leak (L : IterClass P E K C A) {xs : List (LAct P K C)} {w : World P E}
    {as : List A} (h : lacts L xs World.empty = .ok (w, as)) (hd : ∀ q ∈ w.names, q = none) :
    (∀ c ∈ w.graphs, c.val = none) ∧ (∀ c ∈ w.its, c.val = none) ∧ ∀ c ∈ w.ens, c.val = none := by
  have hn : ∀ r, ¬ some r ∈ w.names := fun r hr => by cases hd _ hr
  obtain ⟨h1, h2, h3⟩ := C100_never_too_late L h
  refine ⟨fun c hc => ?_, fun c hc => ?_, fun c hc => ?_⟩
  · obtain ⟨i, hi⟩ := List.getElem?_of_mem hc
    have := h1 i c hi
    cases hv : c.val with
    | none => rfl
    | some v =>
      rw [hv] at this
      rcases this.1 rfl with h | ⟨j, _, _, h, _⟩
      · exact absurd h (hn _)
      · exact absurd h (hn _)
  · obtain ⟨i, hi⟩ := List.getElem?_of_mem hc
    have := h2 i c hi
    cases hv : c.val with
    | none => rfl
    | some v => rw [hv] at this; exact absurd (this.1 rfl) (hn _)
  · obtain ⟨i, hi⟩ := List.getElem?_of_mem hc
    have := h3 i c hi
    cases hv : c.val with
    | none => rfl
    | some v =>
      rw [hv] at this
      obtain ⟨j, _, _, h, _⟩ := this.1 rfl
      exact absurd h (hn _)

/-- **C100** on a graph: after any history, `it = G.all_cliques(k)`, `del G`, and `m` times `next(it)`.
The answers are those of an iterator over a graph that was kept. -/
theorem C100_iterator_outlives_variable {pg : PyGraph} {n : Nat} {S : SimpleGraph Nat}
    (h : Usable pg n S) {ops : List Op} (hl : ∀ op ∈ ops, op.Legal) (k : Nat) :
    ∃ pg1 pg2 cs, runs ops pg = .ok pg1 ∧ pg1.listCliques k = .ok (pg2, cs) ∧ ∀ m,
      (lacts cliqueIter ([.load pg1, .all 0 k, .del 0] ++ List.replicate m (.next 1)) World.empty >>=
        fun z => .ok z.2) =
      .ok (((cs.map some ++ List.replicate m none).take m).map Seen.next) := by
  obtain ⟨pg1, pg2, E, cs, a1, a2, a3, a4⟩ := C21_terminates h hl k
  refine ⟨pg1, pg2, cs, a1, a3, fun m => ?_⟩
  obtain ⟨pg', E', a5⟩ := a4 m
  rw [C100_never_too_early]
  have hk : ∀ (m : Nat) (p : PyGraph) (E : Enum) (p' : PyGraph) (E' : Enum)
      (as : List (Option (List Nat))), PyGraph.nexts m p E = .ok (p', E', as) →
      (Forever.run cliqueIter (List.replicate m (.next 1))
        ⟨[none, some (.iter 0)], [p], [E], [⟨0, 0⟩]⟩ >>= fun z => .ok z.2) =
        .ok (as.map Seen.next) := by
    intro m
    induction m with
    | zero =>
      intro p E p' E' as h
      cases h
      rfl
    | succ m ih =>
      intro p E p' E' as h
      unfold PyGraph.nexts at h
      obtain ⟨⟨p1, E1, c⟩, b1, h⟩ := bind_eq_ok.1 h
      obtain ⟨⟨p2, E2, ds⟩, b2, h⟩ := bind_eq_ok.1 h
      cases h
      rw [List.replicate_succ]
      unfold Forever.run
      have : Forever.step cliqueIter ⟨[none, some (.iter 0)], [p], [E], [⟨0, 0⟩]⟩ (.next 1) =
          .ok (⟨[none, some (.iter 0)], [p1], [E1], [⟨0, 0⟩]⟩, [Seen.next c]) := by
        simp [Forever.step, cliqueIter, Act.run, b1]
      rw [this, ok_bind]
      have := ih _ _ _ _ _ b2
      cases hr : Forever.run cliqueIter (List.replicate m (.next 1))
          ⟨[none, some (.iter 0)], [p1], [E1], [⟨0, 0⟩]⟩ with
      | error f => rw [hr] at this; cases this
      | ok z =>
        rw [hr] at this
        have e : z.2 = ds.map Seen.next := by
          simp only [ok_bind] at this
          exact Except.ok.inj this
        simp only [ok_bind]
        rw [hr]
        simp [e]
  have := hk m pg1 E pg' E' _ a5
  rw [← this]
  show (Forever.run cliqueIter (.load pg1 :: .all 0 k :: .del 0 :: _) _ >>= _) = _
  have hs : Forever.step (C := Op) cliqueIter ⟨[some (.graph 0)], [pg1], [], []⟩ (.all 0 k) =
      .ok (⟨[some (.graph 0), some (.iter 0)], [pg1], [E], [⟨0, 0⟩]⟩, []) := by
    simp [Forever.step, cliqueIter, a2]
  have rc : ∀ (x : LAct PyGraph Nat Op) xs s, Forever.run cliqueIter (x :: xs) s =
      (Forever.step cliqueIter s x >>= fun z => Forever.run cliqueIter xs z.1 >>= fun y =>
        .ok (y.1, z.2 ++ y.2)) := fun _ _ _ => rfl
  rw [rc, show Forever.step cliqueIter Forever.empty (.load pg1) =
    .ok (⟨[some (.graph 0)], [pg1], [], []⟩, []) from rfl, ok_bind, rc, hs, ok_bind, rc,
    show Forever.step cliqueIter ⟨[some (.graph 0), some (.iter 0)], [pg1], [E], [⟨0, 0⟩]⟩ (.del 0) =
    .ok (⟨[none, some (.iter 0)], [pg1], [E], [⟨0, 0⟩]⟩, []) from rfl, ok_bind]
  show (((Forever.run cliqueIter (List.replicate m (.next 1)) _ >>= _) >>= _) >>= _) >>= _ = _
  cases Forever.run cliqueIter (List.replicate m (.next 1))
    ⟨[none, some (.iter 0)], [pg1], [E], [⟨0, 0⟩]⟩ <;> rfl

/-- A program on the kite: two iterators over one graph, one of them twice; the variable of the graph
goes first, and the others one by one. -/
def passing : List (LAct PyGraph Nat Op) :=
  [.load Sample.kite, .all 0 2, .all 0 3, .iter 1, .del 0, .next 1, .next 2, .del 1, .next 3, .del 2,
    .copy 3, .del 3, .next 4, .load Sample.kite, .call 5 (.list 3)]

example : (lacts cliqueIter passing World.empty >>= fun z => .ok (Seen.answers z.2)) =
      .ok [some [2, 3], some [2, 3, 4], some [2, 4], some [3, 4]] ∧
    (lacts cliqueIter passing World.empty >>= fun z => .ok (z.1.names,
      z.1.graphs.map fun c => c.refs, z.1.its.map fun c => c.refs, z.1.ens.map fun c => c.refs)) =
      .ok ([none, none, none, none, some (.iter 2), some (.graph 1)], [1, 1], [0, 0, 1], [1, 0]) ∧
    (lacts cliqueIter (passing ++ [.del 4, .del 5]) World.empty >>= fun z => .ok (
      z.1.graphs.map fun c => c.val.isSome, z.1.its.map fun c => c.val.isSome,
      z.1.ens.map fun c => c.val.isSome)) =
      .ok ([false, false], [false, false, false], [false, false]) := by
  refine ⟨?_, ?_, ?_⟩ <;> decide +kernel

/-- A deleted variable cannot be used, and an object without a graph cannot be iterated over. -/
example : (lacts cliqueIter [.load Sample.kite, .del 0, .call 0 .reset] World.empty >>=
      fun z => .ok z.2.length) = .error .throw ∧
    (lacts cliqueIter [.load PyGraph.new, .all 0 2, .del 0] World.empty >>= fun z => .ok z.1.names) =
      .ok [none, none] := by
  refine ⟨?_, ?_⟩ <;> decide +kernel

/-- A class for which `C100_no_undefined_behaviour` speaks. -/
def countdown : IterClass Unit Nat Nat Unit Nat where
  new _ k := .ok k
  next pg e := .ok (pg, e - 1, e)
  call pg _ := .ok (pg, 0)

example : lacts countdown [.load (), .all 0 3, .iter 1, .del 0, .next 1, .del 1, .next 2] World.empty ≠
      .error .ub ∧
    (lacts countdown [.load (), .all 0 3, .iter 1, .del 0, .next 1, .del 1, .next 2] World.empty >>=
      fun z => .ok z.2) = .ok [3, 2] :=
  ⟨C100_no_undefined_behaviour countdown (by intro _ _ h; cases h) (by intro _ _ h; cases h)
    (by intro _ _ h; cases h) _, by decide +kernel⟩

end CM
