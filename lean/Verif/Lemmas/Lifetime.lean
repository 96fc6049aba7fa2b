import Verif.SpecLifetime
import Verif.Lemmas.Basic
import Mathlib.Data.List.Count

/-!
# Reference counts

The counted heap is a function of the variables and of the objects that were ever made
(`real`), and every action keeps it so.
-/

namespace CM

open Spec

variable {α P E K C A : Type}

namespace Rc

/-- The cells of the objects `vals`, when object `i` has `cnt i` references. -/
def place (cnt : Nat → Nat) (vals : List α) : List (Rc α) :=
  vals.mapIdx fun i v => ⟨cnt i, if cnt i = 0 then none else some v⟩

theorem place_length (cnt : Nat → Nat) (vals : List α) : (place cnt vals).length = vals.length := by
  simp [place]

theorem place_get (cnt : Nat → Nat) (vals : List α) (i : Nat) : (place cnt vals)[i]? =
    (vals[i]?).map fun v => ⟨cnt i, if cnt i = 0 then none else some v⟩ := by
  simp [place]

theorem place_ext {cnt cnt' : Nat → Nat} {vals : List α}
    (h : ∀ i, i < vals.length → cnt i = cnt' i) : place cnt vals = place cnt' vals := by
  apply List.ext_getElem?
  intro i
  rw [place_get, place_get]
  by_cases hi : i < vals.length
  · rw [h i hi]
  · rw [List.getElem?_eq_none (by omega)]; rfl

theorem place_append (cnt : Nat → Nat) (vals : List α) (v : α) (h : cnt vals.length ≠ 0) :
    place cnt (vals ++ [v]) = place cnt vals ++ [⟨cnt vals.length, some v⟩] := by
  simp [place, List.mapIdx_append, h]

theorem place_new {cnt cnt' : Nat → Nat} {vals : List α} (v : α)
    (h : ∀ i, i < vals.length → cnt i = cnt' i) (h1 : cnt' vals.length = 1) :
    place cnt vals ++ [⟨1, some v⟩] = place cnt' (vals ++ [v]) := by
  rw [place_append _ _ _ (by omega), place_ext h, h1]

theorem look_place {cnt : Nat → Nat} {vals : List α} {i : Nat} {v : α} (hv : vals[i]? = some v)
    (hc : cnt i ≠ 0) : look (place cnt vals) i = .ok v := by
  unfold look
  rw [place_get, hv]
  simp [hc]

theorem store_place {cnt : Nat → Nat} {vals : List α} {i : Nat} {u : α} (hv : vals[i]? = some u)
    (hc : cnt i ≠ 0) (v : α) : store (place cnt vals) i v = .ok (place cnt (vals.set i v)) := by
  unfold store
  have hi : i < vals.length := (List.getElem?_eq_some_iff.1 hv).1
  rw [place_get, hv]
  simp only [Option.map_some, hc, if_false, Option.isNone_some, Bool.false_eq_true]
  congr 1
  apply List.ext_getElem?
  intro k
  rw [place_get, List.getElem?_set, List.getElem?_set, place_length, place_get]
  by_cases hk : i = k
  · subst hk; simp [hi, hc]
  · simp [hk]

theorem incr_place {cnt : Nat → Nat} {vals : List α} {i : Nat} {u : α} (hv : vals[i]? = some u)
    (hc : cnt i ≠ 0) : incr (place cnt vals) i =
      .ok (place (fun k => if k = i then cnt k + 1 else cnt k) vals) := by
  unfold incr
  have hi : i < vals.length := (List.getElem?_eq_some_iff.1 hv).1
  rw [place_get, hv]
  simp only [Option.map_some, hc, if_false, Option.isNone_some, Bool.false_eq_true]
  congr 1
  apply List.ext_getElem?
  intro k
  rw [place_get, List.getElem?_set, place_length, place_get]
  by_cases hk : i = k
  · subst hk; simp [hi, (List.getElem?_eq_some_iff.1 hv).2]
  · simp [hk, Ne.symm hk]

theorem decr_place {cnt : Nat → Nat} {vals : List α} {i : Nat} {u : α} (hv : vals[i]? = some u)
    (hc : cnt i ≠ 0) : decr (place cnt vals) i =
      .ok (place (fun k => if k = i then cnt k - 1 else cnt k) vals,
        if cnt i = 1 then some u else none) := by
  unfold decr
  have hi : i < vals.length := (List.getElem?_eq_some_iff.1 hv).1
  rw [place_get, hv]
  simp only [Option.map_some, hc, if_false]
  split
  · rename_i h1
    congr 2
    apply List.ext_getElem?
    intro k
    rw [place_get, List.getElem?_set, place_length, place_get]
    by_cases hk : i = k
    · subst hk; simp [hi, h1]
    · simp [hk, Ne.symm hk]
  · rename_i h1
    congr 2
    apply List.ext_getElem?
    intro k
    rw [place_get, List.getElem?_set, place_length, place_get]
    by_cases hk : i = k
    · subst hk
      have : ¬ cnt i - 1 = 0 := by omega
      simp [hi, this, (List.getElem?_eq_some_iff.1 hv).2]
    · simp [hk, Ne.symm hk]

end Rc

namespace Spec.Forever

/-- The number of variables that refer to `r`. -/
def named (s : Forever P E) (r : Ref) : Nat := s.names.count (some r)

/-- Iterator objects with a variable, that satisfy `p`. -/
def holders (s : Forever P E) (p : IterObj → Bool) : Nat :=
  (List.range s.its.length).countP fun j =>
    decide (s.named (.iter j) ≠ 0) && (s.its[j]?.any p)

/-- The references to graph `i`. -/
def grefs (s : Forever P E) (i : Nat) : Nat :=
  s.named (.graph i) + s.holders fun o => decide (o.graph = i)

/-- The references to enumerator `e`. -/
def erefs (s : Forever P E) (e : Nat) : Nat := s.holders fun o => decide (o.en = e)

/-- The counted heap. -/
def real (s : Forever P E) : World P E where
  names := s.names
  graphs := Rc.place s.grefs s.graphs
  ens := Rc.place s.erefs s.ens
  its := Rc.place (fun j => s.named (.iter j)) s.its

/-- All references are to objects that were made. -/
structure Fine (s : Forever P E) : Prop where
  graph : ∀ {i}, some (Ref.graph i) ∈ s.names → i < s.graphs.length
  iter : ∀ {j}, some (Ref.iter j) ∈ s.names → j < s.its.length
  held : ∀ o ∈ s.its, o.graph < s.graphs.length ∧ o.en < s.ens.length

theorem named_ne_zero {s : Forever P E} {r : Ref} : s.named r ≠ 0 ↔ some r ∈ s.names := by
  unfold named
  rw [← List.count_pos_iff]
  omega

theorem countP_range {n j : Nat} {q q' : Nat → Bool} (hj : j < n)
    (h : ∀ k, k ≠ j → q k = q' k) (h0 : q' j = false) :
    (List.range n).countP q = (List.range n).countP q' + if q j then 1 else 0 := by
  induction n with
  | zero => omega
  | succ n ih =>
    rw [List.range_succ, List.countP_append, List.countP_append]
    by_cases e : j = n
    · subst e
      have : (List.range j).countP q = (List.range j).countP q' := by
        apply List.countP_congr
        intro k hk
        rw [h k (by have := List.mem_range.1 hk; omega)]
      rw [this]
      simp [List.countP_cons, h0]
    · rw [ih (by omega)]
      simp only [List.countP_cons, List.countP_nil, h n (Ne.symm e)]
      omega

/-- Variables for iterator objects come and go, but some remain for the same objects. -/
theorem holders_congr {s s' : Forever P E} (hi : s'.its = s.its)
    (h : ∀ j, j < s.its.length → (s'.named (.iter j) ≠ 0 ↔ s.named (.iter j) ≠ 0))
    (p : IterObj → Bool) : s'.holders p = s.holders p := by
  unfold holders
  rw [hi]
  apply List.countP_congr
  intro j hj
  have := h j (List.mem_range.1 hj)
  simp only [Bool.and_eq_true, decide_eq_true_eq, this]

/-- A new iterator object, and a variable for it. -/
theorem holders_new {s s' : Forever P E} (hf : Fine s) {o : IterObj} (hi : s'.its = s.its ++ [o])
    (hn : s'.names = s.names ++ [some (.iter s.its.length)]) (p : IterObj → Bool) :
    s'.holders p = s.holders p + if p o then 1 else 0 := by
  unfold holders
  rw [hi, List.length_append, List.length_singleton, List.range_succ, List.countP_append]
  congr 1
  · apply List.countP_congr
    intro j hj
    have hj := List.mem_range.1 hj
    have : s'.named (.iter j) = s.named (.iter j) := by
      unfold named
      rw [hn, List.count_append]
      have : ¬ s.its.length = j := by omega
      simp [this]
    rw [this, List.getElem?_append_left hj]
  · have : s'.named (.iter s.its.length) ≠ 0 := by
      rw [named_ne_zero, hn]; simp
    simp [List.countP_cons, this]

theorem named_new {s s' : Forever P E} {q : Option Ref} (hn : s'.names = s.names ++ [q]) (r : Ref) :
    s'.named r = s.named r + if q = some r then 1 else 0 := by
  unfold named
  rw [hn, List.count_append, List.count_singleton]
  simp [beq_iff_eq]

theorem named_del {s s' : Forever P E} {x : Nat} {r : Ref} (hx : s.names[x]? = some (some r))
    (hn : s'.names = s.names.set x none) (r' : Ref) :
    s.named r' = s'.named r' + if r = r' then 1 else 0 := by
  unfold named
  obtain ⟨h1, h2⟩ := List.getElem?_eq_some_iff.1 hx
  rw [hn, List.count_set h1, h2]
  have : (none == some r') = false := rfl
  by_cases e : r = r'
  · subst e
    have : 0 < s.names.count (some r) := List.count_pos_iff.2 (h2 ▸ List.getElem_mem h1)
    simp
    omega
  · simp [e]

/-- The variable `x` of iterator object `j` is deleted. -/
theorem holders_del {s s' : Forever P E} {x j : Nat} {o : IterObj}
    (hx : s.names[x]? = some (some (.iter j))) (hn : s'.names = s.names.set x none)
    (hi : s'.its = s.its) (ho : s.its[j]? = some o) (p : IterObj → Bool) :
    s.holders p = s'.holders p + if s.named (.iter j) = 1 ∧ p o then 1 else 0 := by
  by_cases h1 : s.named (.iter j) = 1
  · have h0 : s'.named (.iter j) = 0 := by have := named_del hx hn (.iter j); simp at this; omega
    unfold holders
    rw [hi, countP_range (q' := fun k => decide (s'.named (.iter k) ≠ 0) && (s.its[k]?.any p))
      (List.getElem?_eq_some_iff.1 ho).1]
    · simp [h1, ho]
    · intro k hk
      have : s.named (.iter k) = s'.named (.iter k) := by
        have := named_del hx hn (.iter k)
        simpa [Ne.symm hk] using this
      rw [this]
    · simp [h0]
  · rw [if_neg (by tauto), Nat.add_zero]
    refine (holders_congr hi (fun k _ => ?_) p).symm
    have := named_del hx hn (.iter k)
    by_cases e : j = k
    · subst e
      have h2 := named_ne_zero.2 (List.mem_of_getElem? hx)
      simp at this
      omega
    · have : s.named (.iter k) = s'.named (.iter k) := by simpa [e] using this
      rw [this]

theorem holders_pos {s : Forever P E} {j : Nat} {o : IterObj} {p : IterObj → Bool}
    (hj : some (Ref.iter j) ∈ s.names) (ho : s.its[j]? = some o) (hp : p o = true) :
    s.holders p ≠ 0 := by
  unfold holders
  have : 0 < (List.range s.its.length).countP fun j =>
      decide (s.named (.iter j) ≠ 0) && (s.its[j]?.any p) := by
    rw [List.countP_pos_iff]
    refine ⟨j, List.mem_range.2 (List.getElem?_eq_some_iff.1 ho).1, ?_⟩
    simp only [Bool.and_eq_true, decide_eq_true_eq]
    exact ⟨named_ne_zero.2 hj, by rw [ho]; exact hp⟩
  omega

theorem ref_real (s : Forever P E) (x : Nat) : s.real.ref x =
    match s.names[x]? with
    | some (some r) => .ok r
    | _ => .error .throw := rfl

/-- The run with counting after the run without. -/
def Counted (x : M (World P E × List A)) (y : M (Forever P E × List A)) : Prop :=
  x = (y >>= fun z => .ok (z.1.real, z.2)) ∧ ∀ z, y = .ok z → Fine z.1

theorem Counted.err {f : Fault} : Counted (P := P) (E := E) (A := A) (.error f) (.error f) :=
  ⟨rfl, fun _ h => by cases h⟩

theorem Counted.ok {w : World P E} {s : Forever P E} {a : List A} (h : w = s.real) (hf : Fine s) :
    Counted (.ok (w, a)) (.ok (s, a)) :=
  ⟨by rw [h]; rfl, fun _ h => by cases h; exact hf⟩

theorem Fine.names {s : Forever P E} (hf : Fine s) {l : List (Option Ref)}
    (h : ∀ r, some r ∈ l → some r ∈ s.names) : Fine { s with names := l } :=
  ⟨fun hi => hf.graph (h _ hi), fun hi => hf.iter (h _ hi), hf.held⟩

theorem mem_set_none {l : List (Option Ref)} {x : Nat} {r : Ref} (h : some r ∈ l.set x none) :
    some r ∈ l := by
  rcases List.mem_or_eq_of_mem_set h with h | h
  · exact h
  · cases h

theorem world_ext {w w' : World P E} (h1 : w.names = w'.names) (h2 : w.graphs = w'.graphs)
    (h3 : w.ens = w'.ens) (h4 : w.its = w'.its) : w = w' := by
  cases w; cases w'; cases h1; cases h2; cases h3; cases h4; rfl

theorem holders_zero {s : Forever P E} {p : IterObj → Bool} (h : ∀ o ∈ s.its, p o = false) :
    s.holders p = 0 := by
  unfold holders
  rw [List.countP_eq_zero]
  intro j hj
  have hj := List.mem_range.1 hj
  rw [List.getElem?_eq_getElem hj]
  simp [h _ (List.getElem_mem hj)]

theorem Fine.new_graph {s : Forever P E} (hf : Fine s) : s.named (.graph s.graphs.length) = 0 := by
  by_contra h
  exact absurd (hf.graph (named_ne_zero.1 h)) (lt_irrefl _)

theorem Fine.new_iter {s : Forever P E} (hf : Fine s) : s.named (.iter s.its.length) = 0 := by
  by_contra h
  exact absurd (hf.iter (named_ne_zero.1 h)) (lt_irrefl _)

/-- A new object, or a new variable for an object. -/
theorem Fine.more {s : Forever P E} (hf : Fine s) {q : Option Ref} {gs : List P} {es : List E}
    {os : List IterObj} (hg : ∀ i, q = some (.graph i) → i < s.graphs.length + gs.length)
    (hi : ∀ j, q = some (.iter j) → j < s.its.length + os.length)
    (ho : ∀ o ∈ os, o.graph < s.graphs.length + gs.length ∧ o.en < s.ens.length + es.length) :
    Fine { names := s.names ++ [q], graphs := s.graphs ++ gs, ens := s.ens ++ es,
           its := s.its ++ os } := by
  refine ⟨fun {i} h => ?_, fun {j} h => ?_, fun o h => ?_⟩
  · rw [List.length_append]
    rcases List.mem_append.1 h with h | h
    · have := hf.graph h; omega
    · exact hg i (List.mem_singleton.1 h).symm
  · rw [List.length_append]
    rcases List.mem_append.1 h with h | h
    · have := hf.iter h; omega
    · exact hi j (List.mem_singleton.1 h).symm
  · rw [List.length_append, List.length_append]
    rcases List.mem_append.1 h with h | h
    · have := hf.held o h; omega
    · exact ho o h

theorem get_graph {s : Forever P E} (hf : Fine s) {i : Nat} (h : some (Ref.graph i) ∈ s.names) :
    ∃ pg, s.graphs[i]? = some pg := ⟨_, List.getElem?_eq_getElem (hf.graph h)⟩

theorem get_iter {s : Forever P E} (hf : Fine s) {j : Nat} (h : some (Ref.iter j) ∈ s.names) :
    ∃ o pg e, s.its[j]? = some o ∧ s.graphs[o.graph]? = some pg ∧ s.ens[o.en]? = some e := by
  have hj := hf.iter h
  obtain ⟨h1, h2⟩ := hf.held _ (List.getElem_mem hj)
  exact ⟨_, _, _, List.getElem?_eq_getElem hj, List.getElem?_eq_getElem h1,
    List.getElem?_eq_getElem h2⟩

theorem grefs_named {s : Forever P E} {i : Nat} (h : some (Ref.graph i) ∈ s.names) :
    s.grefs i ≠ 0 := by
  have := named_ne_zero.2 h
  unfold grefs
  omega

theorem grefs_held {s : Forever P E} {j : Nat} {o : IterObj} (h : some (Ref.iter j) ∈ s.names)
    (ho : s.its[j]? = some o) : s.grefs o.graph ≠ 0 := by
  have := holders_pos (p := fun o' => decide (o'.graph = o.graph)) h ho (by simp)
  unfold grefs
  omega

theorem erefs_held {s : Forever P E} {j : Nat} {o : IterObj} (h : some (Ref.iter j) ∈ s.names)
    (ho : s.its[j]? = some o) : s.erefs o.en ≠ 0 :=
  holders_pos (p := fun o' => decide (o'.en = o.en)) h ho (by simp)

theorem step_counted (L : IterClass P E K C A) {s : Forever P E} (hf : Fine s) (x : LAct P K C) :
    Counted (x.run L s.real) (step L s x) := by
  cases x with
  | load p =>
    unfold LAct.run step
    dsimp only
    obtain ⟨s', hs⟩ : ∃ s' : Forever P E, s' = { s with
      names := s.names ++ [some (.graph s.graphs.length)], graphs := s.graphs ++ [p] } := ⟨_, rfl⟩
    rw [← hs]
    have hn : s'.names = s.names ++ [some (.graph s.graphs.length)] := by rw [hs]
    have hh : ∀ p, s'.holders p = s.holders p :=
      holders_congr (by rw [hs]) (fun j _ => by rw [named_new hn]; simp)
    refine Counted.ok (world_ext ?_ ?_ ?_ ?_) ?_
    · simp [real, Rc.place_length, hn]
    · show _ = Rc.place s'.grefs s'.graphs
      rw [show s'.graphs = s.graphs ++ [p] by rw [hs]]
      refine Rc.place_new p (fun i hi => ?_) ?_
      · unfold grefs
        rw [hh, named_new hn, if_neg, Nat.add_zero]
        intro h; cases h; omega
      · unfold grefs
        rw [hh, named_new hn, hf.new_graph, holders_zero fun o ho => ?_]
        · simp
        · have := (hf.held o ho).1
          simp; omega
    · show _ = Rc.place s'.erefs s'.ens
      rw [show s'.ens = s.ens by rw [hs]]
      refine Rc.place_ext fun i _ => ?_
      unfold erefs
      rw [hh]
    · show _ = Rc.place _ s'.its
      rw [show s'.its = s.its by rw [hs]]
      refine Rc.place_ext fun i _ => ?_
      rw [named_new hn]
      simp
    · have := hf.more (q := some (.graph s.graphs.length)) (gs := [p]) (es := []) (os := [])
        (by rintro i h; cases h; simp) (by rintro i h; cases h) (by simp)
      rw [hs]
      simpa using this
  | all y k =>
    unfold LAct.run step
    dsimp only
    rw [ref_real]
    cases hy : s.names[y]? with
    | none => exact Counted.err
    | some q =>
      cases q with
      | none => exact Counted.err
      | some r =>
        have hm := List.mem_of_getElem? hy
        cases r with
        | iter j => exact Counted.err
        | graph i =>
          obtain ⟨pg, hp⟩ := get_graph hf hm
          dsimp only
          rw [ok_bind]
          show Counted (Rc.look (Rc.place s.grefs s.graphs) i >>= _) _
          rw [Rc.look_place hp (grefs_named hm), ok_bind, hp]
          dsimp only
          cases L.new pg k with
          | error f =>
            cases f with
            | throw =>
              dsimp only
              obtain ⟨s', hs⟩ : ∃ s' : Forever P E, s' = { s with names := s.names ++ [none] } :=
                ⟨_, rfl⟩
              rw [← hs]
              have hn : s'.names = s.names ++ [none] := by rw [hs]
              have hh : ∀ p, s'.holders p = s.holders p :=
                holders_congr (by rw [hs]) (fun j _ => by rw [named_new hn]; simp)
              refine Counted.ok (world_ext ?_ ?_ ?_ ?_) ?_
              · rw [hs]; rfl
              · show _ = Rc.place s'.grefs s'.graphs
                rw [show s'.graphs = s.graphs by rw [hs]]
                refine Rc.place_ext fun i _ => ?_
                unfold grefs; rw [hh, named_new hn]; simp
              · show _ = Rc.place s'.erefs s'.ens
                rw [show s'.ens = s.ens by rw [hs]]
                refine Rc.place_ext fun i _ => ?_
                unfold erefs; rw [hh]
              · show _ = Rc.place _ s'.its
                rw [show s'.its = s.its by rw [hs]]
                refine Rc.place_ext fun i _ => ?_
                rw [named_new hn]; simp
              · have := hf.more (q := none) (gs := []) (es := []) (os := [])
                  (by rintro i h; cases h) (by rintro i h; cases h) (by simp)
                rw [hs]
                simpa using this
            | _ => exact Counted.err
          | ok e =>
            dsimp only
            show Counted (Rc.incr (Rc.place s.grefs s.graphs) i >>= _) _
            rw [Rc.incr_place hp (grefs_named hm), ok_bind]
            obtain ⟨s', hs⟩ : ∃ s' : Forever P E, s' = { s with
              names := s.names ++ [some (.iter s.its.length)], ens := s.ens ++ [e]
              its := s.its ++ [⟨i, s.ens.length⟩] } := ⟨_, rfl⟩
            rw [← hs]
            have hn : s'.names = s.names ++ [some (.iter s.its.length)] := by rw [hs]
            have hh : ∀ p, s'.holders p = s.holders p + _ := holders_new hf (by rw [hs]) hn
            refine Counted.ok (world_ext ?_ ?_ ?_ ?_) ?_
            · simp [real, Rc.place_length, hn]
            · show _ = Rc.place s'.grefs s'.graphs
              rw [show s'.graphs = s.graphs by rw [hs]]
              refine Rc.place_ext fun l _ => ?_
              unfold grefs
              rw [hh, named_new hn]
              by_cases e : l = i
              · subst e; simp; omega
              · simp [e, Ne.symm e]
            · show _ = Rc.place s'.erefs s'.ens
              rw [show s'.ens = s.ens ++ [e] by rw [hs]]
              refine Rc.place_new e (fun l hl => ?_) ?_
              · unfold erefs
                rw [hh]
                have : ¬ s.ens.length = l := by omega
                simp [this]
              · unfold erefs
                rw [hh, holders_zero fun o ho => ?_]
                · simp
                · have := (hf.held o ho).2
                  simp; omega
            · show Rc.place _ s.its ++ [⟨1, some ⟨i, (Rc.place s.erefs s.ens).length⟩⟩] =
                Rc.place _ s'.its
              rw [show s'.its = s.its ++ [⟨i, s.ens.length⟩] by rw [hs], Rc.place_length]
              refine Rc.place_new _ (fun l hl => ?_) ?_
              · rw [named_new hn]
                have : ¬ s.its.length = l := by omega
                simp [this]
              · rw [named_new hn, hf.new_iter]; simp
            · have := hf.more (q := some (.iter s.its.length)) (gs := []) (es := [e])
                (os := [⟨i, s.ens.length⟩])
                (by rintro i h; cases h) (by rintro j h; cases h; simp)
                (by simpa using hf.graph hm)
              rw [hs]
              simpa using this
  | iter y =>
    unfold LAct.run step
    dsimp only
    rw [ref_real]
    cases hy : s.names[y]? with
    | none => exact Counted.err
    | some q =>
      cases q with
      | none => exact Counted.err
      | some r =>
        have hm := List.mem_of_getElem? hy
        cases r with
        | graph i => exact Counted.err
        | iter j =>
          obtain ⟨o, pg, e, ho, hp, he⟩ := get_iter hf hm
          dsimp only
          rw [ok_bind]
          show Counted (Rc.look (Rc.place _ s.its) j >>= _) _
          rw [Rc.look_place ho (named_ne_zero.2 hm), ok_bind, ho]
          dsimp only
          show Counted (Rc.incr (Rc.place s.grefs s.graphs) o.graph >>= _) _
          rw [Rc.incr_place hp (grefs_held hm ho), ok_bind]
          show Counted (Rc.incr (Rc.place s.erefs s.ens) o.en >>= _) _
          rw [Rc.incr_place he (erefs_held hm ho), ok_bind]
          obtain ⟨s', hs⟩ : ∃ s' : Forever P E, s' = { s with
              names := s.names ++ [some (.iter s.its.length)], its := s.its ++ [o] } := ⟨_, rfl⟩
          rw [← hs]
          have hn : s'.names = s.names ++ [some (.iter s.its.length)] := by rw [hs]
          have hh : ∀ p, s'.holders p = s.holders p + _ := holders_new hf (by rw [hs]) hn
          refine Counted.ok (world_ext ?_ ?_ ?_ ?_) ?_
          · simp [real, Rc.place_length, hn]
          · show _ = Rc.place s'.grefs s'.graphs
            rw [show s'.graphs = s.graphs by rw [hs]]
            refine Rc.place_ext fun l _ => ?_
            unfold grefs
            rw [hh, named_new hn]
            by_cases e : l = o.graph
            · subst e; simp; omega
            · simp [e, Ne.symm e]
          · show _ = Rc.place s'.erefs s'.ens
            rw [show s'.ens = s.ens by rw [hs]]
            refine Rc.place_ext fun l _ => ?_
            unfold erefs
            rw [hh]
            by_cases e : l = o.en
            · subst e; simp
            · simp [e, Ne.symm e]
          · show _ = Rc.place _ s'.its
            rw [show s'.its = s.its ++ [o] by rw [hs]]
            refine Rc.place_new _ (fun l hl => ?_) ?_
            · rw [named_new hn]
              have : ¬ s.its.length = l := by omega
              simp [this]
            · rw [named_new hn, hf.new_iter]; simp
          · have := hf.more (q := some (.iter s.its.length)) (gs := []) (es := []) (os := [o])
              (by rintro i h; cases h) (by rintro j h; cases h; simp)
              (by simpa using hf.held o (List.mem_of_getElem? ho))
            rw [hs]
            simpa using this
  | copy y =>
    unfold LAct.run step
    dsimp only
    rw [ref_real]
    cases hy : s.names[y]? with
    | none => exact Counted.err
    | some q =>
      cases q with
      | none => exact Counted.err
      | some r =>
        have hm := List.mem_of_getElem? hy
        dsimp only
        rw [ok_bind]
        obtain ⟨s', hs⟩ : ∃ s' : Forever P E, s' = { s with names := s.names ++ [some r] } := ⟨_, rfl⟩
        rw [← hs]
        have hn : s'.names = s.names ++ [some r] := by rw [hs]
        have hh : ∀ p, s'.holders p = s.holders p := holders_congr (by rw [hs]) (fun j _ => by
          rw [named_ne_zero, named_ne_zero, hn, List.mem_append, List.mem_singleton]
          constructor
          · rintro (h | h)
            · exact h
            · rw [h]; exact hm
          · exact Or.inl)
        have hf' : Fine s' := by
          rw [hs]
          refine hf.names fun r' h => ?_
          rcases List.mem_append.1 h with h | h
          · exact h
          · rw [List.mem_singleton.1 h]; exact hm
        have he : Rc.place s'.erefs s.ens = Rc.place s.erefs s.ens :=
          Rc.place_ext fun i _ => by unfold erefs; rw [hh]
        cases r with
        | graph i =>
          obtain ⟨pg, hp⟩ := get_graph hf hm
          dsimp only
          show Counted (Rc.incr (Rc.place s.grefs s.graphs) i >>= _) _
          rw [Rc.incr_place hp (grefs_named hm), ok_bind]
          refine Counted.ok (world_ext hn.symm ?_ ?_ ?_) hf'
          · show _ = Rc.place s'.grefs s'.graphs
            rw [show s'.graphs = s.graphs by rw [hs]]
            refine Rc.place_ext fun l _ => ?_
            unfold grefs
            rw [hh, named_new hn]
            by_cases e : l = i
            · subst e; simp; omega
            · simp [e, Ne.symm e]
          · show _ = Rc.place s'.erefs s'.ens
            rw [show s'.ens = s.ens by rw [hs], he]; rfl
          · show _ = Rc.place _ s'.its
            rw [show s'.its = s.its by rw [hs]]
            refine Rc.place_ext fun l _ => ?_
            rw [named_new hn]; simp
        | iter j =>
          obtain ⟨o, pg, e, ho, hp, _⟩ := get_iter hf hm
          dsimp only
          show Counted (Rc.incr (Rc.place _ s.its) j >>= _) _
          rw [Rc.incr_place ho (named_ne_zero.2 hm), ok_bind]
          refine Counted.ok (world_ext hn.symm ?_ ?_ ?_) hf'
          · show _ = Rc.place s'.grefs s'.graphs
            rw [show s'.graphs = s.graphs by rw [hs]]
            refine Rc.place_ext fun l _ => ?_
            unfold grefs
            rw [hh, named_new hn]; simp
          · show _ = Rc.place s'.erefs s'.ens
            rw [show s'.ens = s.ens by rw [hs], he]; rfl
          · show _ = Rc.place _ s'.its
            rw [show s'.its = s.its by rw [hs]]
            refine Rc.place_ext fun l _ => ?_
            rw [named_new hn]
            by_cases e : l = j
            · subst e; simp
            · simp [e, Ne.symm e]
  | next y =>
    unfold LAct.run step
    dsimp only
    rw [ref_real]
    cases hy : s.names[y]? with
    | none => exact Counted.err
    | some q =>
      cases q with
      | none => exact Counted.err
      | some r =>
        have hm := List.mem_of_getElem? hy
        cases r with
        | graph i => exact Counted.err
        | iter j =>
          obtain ⟨o, pg, e, ho, hp, he⟩ := get_iter hf hm
          dsimp only
          rw [ok_bind]
          show Counted (Rc.look (Rc.place _ s.its) j >>= _) _
          rw [Rc.look_place ho (named_ne_zero.2 hm), ok_bind, ho]
          dsimp only
          show Counted (Rc.look (Rc.place s.erefs s.ens) o.en >>= _) _
          rw [Rc.look_place he (erefs_held hm ho), ok_bind, he]
          show Counted (Rc.look (Rc.place s.grefs s.graphs) o.graph >>= _) _
          rw [Rc.look_place hp (grefs_held hm ho), ok_bind, hp]
          dsimp only
          cases L.next pg e with
          | error f => exact Counted.err
          | ok z =>
            obtain ⟨pg', e', a⟩ := z
            rw [ok_bind]
            dsimp only
            show Counted (Rc.store (Rc.place s.erefs s.ens) o.en e' >>= _) _
            rw [Rc.store_place he (erefs_held hm ho), ok_bind]
            show Counted (Rc.store (Rc.place s.grefs s.graphs) o.graph pg' >>= _) _
            rw [Rc.store_place hp (grefs_held hm ho), ok_bind]
            refine Counted.ok rfl ⟨?_, hf.iter, ?_⟩
            · intro i hi; simpa using hf.graph hi
            · intro o ho; simpa using hf.held o ho
  | call y c =>
    unfold LAct.run step
    dsimp only
    rw [ref_real]
    cases hy : s.names[y]? with
    | none => exact Counted.err
    | some q =>
      cases q with
      | none => exact Counted.err
      | some r =>
        have hm := List.mem_of_getElem? hy
        cases r with
        | iter j => exact Counted.err
        | graph i =>
          obtain ⟨pg, hp⟩ := get_graph hf hm
          dsimp only
          rw [ok_bind]
          show Counted (Rc.look (Rc.place s.grefs s.graphs) i >>= _) _
          rw [Rc.look_place hp (grefs_named hm), ok_bind, hp]
          dsimp only
          cases L.call pg c with
          | error f => exact Counted.err
          | ok z =>
            obtain ⟨pg', a⟩ := z
            rw [ok_bind]
            dsimp only
            show Counted (Rc.store (Rc.place s.grefs s.graphs) i pg' >>= _) _
            rw [Rc.store_place hp (grefs_named hm), ok_bind]
            refine Counted.ok rfl ⟨?_, hf.iter, ?_⟩
            · intro i hi; simpa using hf.graph hi
            · intro o ho; simpa using hf.held o ho
  | del y =>
    unfold LAct.run step
    dsimp only
    rw [ref_real]
    cases hy : s.names[y]? with
    | none => exact Counted.err
    | some q =>
      cases q with
      | none => exact Counted.err
      | some r =>
        have hm := List.mem_of_getElem? hy
        dsimp only
        rw [ok_bind]
        obtain ⟨s', hs⟩ : ∃ s' : Forever P E, s' = { s with names := s.names.set y none } := ⟨_, rfl⟩
        rw [← hs]
        have hn : s'.names = s.names.set y none := by rw [hs]
        have hf' : Fine s' := by
          rw [hs]
          exact hf.names fun r' h => mem_set_none h
        cases r with
        | graph i =>
          obtain ⟨pg, hp⟩ := get_graph hf hm
          unfold World.drop
          dsimp only
          show Counted ((Rc.decr (Rc.place s.grefs s.graphs) i >>= _) >>= _) _
          rw [Rc.decr_place hp (grefs_named hm)]
          have hk : ∀ j, s'.named (.iter j) = s.named (.iter j) := by
            intro j
            have := named_del hy hn (.iter j)
            simpa using this.symm
          have hh : ∀ p, s'.holders p = s.holders p :=
            holders_congr (by rw [hs]) (fun j _ => by rw [hk])
          refine Counted.ok (world_ext hn.symm ?_ ?_ ?_) hf'
          · show _ = Rc.place s'.grefs s'.graphs
            rw [show s'.graphs = s.graphs by rw [hs]]
            refine Rc.place_ext fun l _ => ?_
            unfold grefs
            rw [hh]
            have := named_del hy hn (.graph l)
            by_cases e : l = i
            · subst e; simp at this ⊢; omega
            · simp [Ne.symm e] at this
              rw [if_neg e, this]
          · show _ = Rc.place s'.erefs s'.ens
            rw [show s'.ens = s.ens by rw [hs]]
            exact Rc.place_ext fun i _ => by unfold erefs; rw [hh]
          · show _ = Rc.place _ s'.its
            rw [show s'.its = s.its by rw [hs]]
            exact Rc.place_ext fun i _ => by rw [hk]
        | iter j =>
          obtain ⟨o, pg, e, ho, hp, he⟩ := get_iter hf hm
          unfold World.drop
          dsimp only
          show Counted ((Rc.decr (Rc.place _ s.its) j >>= _) >>= _) _
          rw [Rc.decr_place ho (named_ne_zero.2 hm), ok_bind]
          dsimp only
          have hh := fun p => holders_del hy hn (by rw [hs]) ho p
          have hk : ∀ i, s'.named (.graph i) = s.named (.graph i) := by
            intro i
            have := named_del hy hn (.graph i)
            simpa using this.symm
          have hi : Rc.place (fun k => if k = j then s.named (.iter k) - 1 else s.named (.iter k))
              s.its = Rc.place (fun j => s'.named (.iter j)) s'.its := by
            rw [show s'.its = s.its by rw [hs]]
            refine Rc.place_ext fun l _ => ?_
            have := named_del hy hn (.iter l)
            by_cases e : l = j
            · subst e; simp at this ⊢; omega
            · simp [Ne.symm e] at this
              rw [if_neg e, this]
          by_cases h1 : s.named (.iter j) = 1
          · rw [if_pos h1]
            dsimp only
            show Counted ((Rc.decr (Rc.place s.erefs s.ens) o.en >>= _) >>= _) _
            rw [Rc.decr_place he (erefs_held hm ho), ok_bind]
            show Counted ((Rc.decr (Rc.place s.grefs s.graphs) o.graph >>= _) >>= _) _
            rw [Rc.decr_place hp (grefs_held hm ho), ok_bind]
            refine Counted.ok (world_ext hn.symm ?_ ?_ hi) hf'
            · show _ = Rc.place s'.grefs s'.graphs
              rw [show s'.graphs = s.graphs by rw [hs]]
              refine Rc.place_ext fun l _ => ?_
              unfold grefs
              rw [hk, hh]
              by_cases e : l = o.graph
              · subst e; simp [h1]
              · simp [e, Ne.symm e]
            · show _ = Rc.place s'.erefs s'.ens
              rw [show s'.ens = s.ens by rw [hs]]
              refine Rc.place_ext fun l _ => ?_
              unfold erefs
              rw [hh]
              by_cases e : l = o.en
              · subst e; simp [h1]
              · simp [e, Ne.symm e]
          · rw [if_neg h1]
            refine Counted.ok (world_ext hn.symm ?_ ?_ hi) hf'
            · show _ = Rc.place s'.grefs s'.graphs
              rw [show s'.graphs = s.graphs by rw [hs]]
              refine Rc.place_ext fun l _ => ?_
              unfold grefs
              rw [hk, hh]
              simp [h1]
            · show _ = Rc.place s'.erefs s'.ens
              rw [show s'.ens = s.ens by rw [hs]]
              refine Rc.place_ext fun l _ => ?_
              unfold erefs
              rw [hh]
              simp [h1]

theorem run_counted (L : IterClass P E K C A) (xs : List (LAct P K C)) {s : Forever P E}
    (hf : Fine s) : Counted (lacts L xs s.real) (run L xs s) := by
  induction xs generalizing s with
  | nil => exact Counted.ok rfl hf
  | cons x xs ih =>
    obtain ⟨h1, h2⟩ := step_counted L hf x
    unfold lacts run
    rw [h1]
    cases hs : step L s x with
    | error f => exact Counted.err
    | ok z =>
      obtain ⟨s1, a⟩ := z
      obtain ⟨h3, h4⟩ := ih (h2 _ hs)
      simp only [ok_bind]
      rw [h3]
      cases hr : run L xs s1 with
      | error f => exact Counted.err
      | ok z => exact Counted.ok rfl (h4 _ hr)

theorem real_empty : (empty : Forever P E).real = World.empty := rfl

theorem fine_empty : Fine (empty : Forever P E) :=
  ⟨fun h => by simp [empty] at h, fun h => by simp [empty] at h, fun o h => by simp [empty] at h⟩

theorem step_ub {L : IterClass P E K C A} (h1 : ∀ pg k, L.new pg k ≠ .error .ub)
    (h2 : ∀ pg e, L.next pg e ≠ .error .ub) (h3 : ∀ pg c, L.call pg c ≠ .error .ub)
    {s : Forever P E} (hf : Fine s) (x : LAct P K C) : step L s x ≠ .error .ub := by
  intro h
  cases x with
  | load p => cases h
  | all y k =>
    unfold step at h
    dsimp only at h
    split at h
    · rename_i i hy
      obtain ⟨pg, hp⟩ := get_graph hf (List.mem_of_getElem? hy)
      rw [hp] at h
      dsimp only at h
      split at h
      · cases h
      · cases h
      · rename_i f hn hL
        cases h
        exact h1 _ _ hL
    · cases h
  | iter y =>
    unfold step at h
    dsimp only at h
    split at h
    · rename_i j hy
      obtain ⟨o, pg, e, ho, hp, he⟩ := get_iter hf (List.mem_of_getElem? hy)
      rw [ho] at h
      cases h
    · cases h
  | copy y =>
    unfold step at h
    dsimp only at h
    split at h <;> cases h
  | next y =>
    unfold step at h
    dsimp only at h
    split at h
    · rename_i j hy
      obtain ⟨o, pg, e, ho, hp, he⟩ := get_iter hf (List.mem_of_getElem? hy)
      rw [ho] at h
      dsimp only at h
      rw [hp, he] at h
      dsimp only at h
      split at h
      · rename_i f hL
        cases h
        exact h2 _ _ hL
      · cases h
    · cases h
  | call y c =>
    unfold step at h
    dsimp only at h
    split at h
    · rename_i i hy
      obtain ⟨pg, hp⟩ := get_graph hf (List.mem_of_getElem? hy)
      rw [hp] at h
      dsimp only at h
      split at h
      · rename_i f hL
        cases h
        exact h3 _ _ hL
      · cases h
    · cases h
  | del y =>
    unfold step at h
    dsimp only at h
    split at h <;> cases h

theorem holders_iff {s : Forever P E} {p : IterObj → Bool} : s.holders p ≠ 0 ↔
    ∃ j o, some (Ref.iter j) ∈ s.names ∧ s.its[j]? = some o ∧ p o = true := by
  constructor
  · intro h
    unfold holders at h
    have := List.countP_pos_iff.1 (Nat.pos_of_ne_zero h)
    obtain ⟨j, hj, h1⟩ := this
    simp only [Bool.and_eq_true, decide_eq_true_eq] at h1
    rw [List.getElem?_eq_getElem (List.mem_range.1 hj)] at h1
    exact ⟨j, _, named_ne_zero.1 h1.1, List.getElem?_eq_getElem (List.mem_range.1 hj), h1.2⟩
  · rintro ⟨j, o, h1, h2, h3⟩
    exact holders_pos h1 h2 h3

theorem alive {α : Type} {cnt : Nat → Nat} {vals : List α} {i : Nat} {c : Rc α}
    (h : (Rc.place cnt vals)[i]? = some c) : c.val.isSome ↔ cnt i ≠ 0 := by
  rw [Rc.place_get] at h
  obtain ⟨v, _, rfl⟩ := Option.map_eq_some_iff.1 h
  by_cases e : cnt i = 0 <;> simp [e]

theorem its_real {s : Forever P E} {j : Nat} (hj : some (Ref.iter j) ∈ s.names) {o : IterObj} :
    s.its[j]? = some o ↔ ∃ n, s.real.its[j]? = some ⟨n, some o⟩ := by
  show _ ↔ ∃ n, (Rc.place _ s.its)[j]? = _
  rw [Rc.place_get]
  have := named_ne_zero.2 hj
  cases hs : s.its[j]? with
  | none => simp
  | some o' => simp [this]

end Spec.Forever

end CM
