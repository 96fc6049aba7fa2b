import Verif.SpecHandles
import Verif.Lemmas.Basic

/-!
# Programs with `iter()` and without
-/

namespace CM

variable {P E K C A : Type}

theorem outcome_cons {r : M (P × Iters E × List A)} {a : List A} :
    outcome (r >>= fun x => .ok (x.1, x.2.1, a ++ x.2.2)) =
      outcome r >>= fun y => .ok (y.1, a ++ y.2) := by
  rcases r with e | ⟨pg, w, as⟩ <;> rfl

theorem hacts_direct (L : IterClass P E K C A) : ∀ (xs : List (HAct K C)) (pg : P) (heap : List E)
    (names : List Nat), (∀ p ∈ names, p < heap.length) → Named xs names.length →
    outcome (hacts L xs pg ⟨heap, names⟩) =
      outcome (hacts L (direct xs names heap.length) pg ⟨heap, List.range heap.length⟩) := by
  intro xs
  induction xs with
  | nil => intros; rfl
  | cons x xs ih =>
    intro pg heap names hn hb
    cases x with
    | all k =>
      simp only [direct, hacts, HAct.run]
      rcases L.new pg k with e | e
      · rfl
      · simp only [ok_bind]
        have := ih pg (heap ++ [e]) (names ++ [heap.length]) (by
          intro p hp
          rcases List.mem_append.1 hp with h | h
          · have := hn p h; simp; omega
          · simp at h; simp [h]) (by simpa [Named] using hb)
        have e1 : List.range heap.length ++ [heap.length] = List.range (heap ++ [e]).length := by
          simp [List.range_succ]
        rw [e1]
        have e2 : heap.length + 1 = (heap ++ [e]).length := by simp
        rw [e2]
        rw [outcome_cons (a := []), outcome_cons (a := []), this]
    | iter it =>
      obtain ⟨h1, h2⟩ := hb
      have e1 : names[it]? = some (names[it]) := List.getElem?_eq_getElem h1
      simp only [direct, hacts, HAct.run, e1, ok_bind]
      have := ih pg heap (names ++ [names[it]]) (by
          intro p hp
          rcases List.mem_append.1 hp with h | h
          · exact hn p h
          · simp at h; rw [h]; exact hn _ (List.getElem_mem h1)) (by simpa using h2)
      rw [outcome_cons (a := []), this]
      have e2 : names.getD it 0 = names[it] := by simp [List.getD_eq_getElem?_getD, e1]
      rw [e2]
      rcases outcome _ with e | ⟨pg, as⟩ <;> rfl
    | next it =>
      obtain ⟨h1, h2⟩ := hb
      have e1 : names[it]? = some (names[it]) := List.getElem?_eq_getElem h1
      have hp := hn _ (List.getElem_mem h1)
      have e2 : names.getD it 0 = names[it] := by simp [List.getD_eq_getElem?_getD, e1]
      have e3 : (List.range heap.length)[names[it]]? = some (names[it]) := by
        rw [List.getElem?_range hp]
      simp only [direct, hacts, HAct.run, e1, e2, e3, List.getElem?_eq_getElem hp]
      rcases L.next pg heap[names[it]] with e | ⟨pg', e, a⟩
      · rfl
      · simp only [ok_bind]
        have := ih pg' (heap.set names[it] e) names (by simpa using hn) h2
        rw [List.length_set] at this
        rw [outcome_cons, outcome_cons, this]
    | call c =>
      simp only [direct, hacts, HAct.run]
      rcases L.call pg c with e | ⟨pg', a⟩
      · rfl
      · simp only [ok_bind]
        rw [outcome_cons, outcome_cons, ih pg' heap names hn hb]

/-- The actions of a program that uses one iterator, whatever object it asks. -/
def single : List (HAct Nat Op) → List Act
  | [] => []
  | .next _ :: xs => .next :: single xs
  | .call op :: xs => .call op :: single xs
  | _ :: xs => single xs

theorem call_free (pg : PyGraph) (E : Enum) (op : Op) :
    Act.run pg E (.call op) =
      (do let (pg, _, s) ← Act.run pg (Enum.new 0) (.call op); .ok (pg, E, s)) := by
  cases op with
  | search srt a => simp only [Act.run]; rcases pg.getMaxClique srt a with e | ⟨x, y⟩ <;> rfl
  | reset => simp only [Act.run]; rcases pg.resetSearch with e | x <;> rfl
  | list k => simp only [Act.run]; rcases pg.listCliques k with e | ⟨x, y⟩ <;> rfl

theorem hacts_single : ∀ (xs : List (HAct Nat Op)) (pg : PyGraph) (E : Enum) (m : Nat),
    Single xs → Named xs m →
    outcome (hacts cliqueIter xs pg ⟨[E], List.replicate m 0⟩) =
      (do let (pg, _, ss) ← acts (single xs) pg E; .ok (pg, ss)) := by
  intro xs
  induction xs with
  | nil => intros; rfl
  | cons x xs ih =>
    intro pg E m hs hb
    have hs' : Single xs := fun k hk => hs k (List.mem_cons_of_mem _ hk)
    cases x with
    | all k => exact absurd (List.mem_cons_self ..) (hs k)
    | iter it =>
      obtain ⟨h1, h2⟩ := hb
      have e1 : (List.replicate m 0)[it]? = some 0 := by simp [h1]
      simp only [hacts, HAct.run, e1, ok_bind, single]
      have e2 : List.replicate m 0 ++ [0] = List.replicate (m + 1) 0 := by
        rw [List.replicate_succ']
      rw [e2, outcome_cons (a := []), ih pg E (m + 1) hs' h2]
      rcases acts (single xs) pg E with e | ⟨pg, E, ss⟩ <;> rfl
    | next it =>
      obtain ⟨h1, h2⟩ := hb
      have e1 : (List.replicate m 0)[it]? = some 0 := by simp [h1]
      simp only [hacts, HAct.run, e1, single, acts, cliqueIter, List.getElem?_cons_zero]
      rcases Act.run pg E .next with e | ⟨pg', E', s⟩
      · rfl
      · simp only [ok_bind, List.set_cons_zero]
        have := ih pg' E' m hs' h2
        rw [show cliqueIter = ⟨_, _, _⟩ from rfl] at this
        rw [outcome_cons, this]
        rcases acts (single xs) pg' E' with e | ⟨pg, E, ss⟩ <;> rfl
    | call op =>
      simp only [hacts, HAct.run, single, acts, cliqueIter, call_free pg E op]
      rcases Act.run pg (Enum.new 0) (.call op) with e | ⟨pg', E', s⟩
      · rfl
      · simp only [ok_bind]
        have := ih pg' E m hs' hb
        rw [show cliqueIter = ⟨_, _, _⟩ from rfl] at this
        rw [outcome_cons, this]
        rcases acts (single xs) pg' E with e | ⟨pg, E, ss⟩ <;> rfl

end CM
