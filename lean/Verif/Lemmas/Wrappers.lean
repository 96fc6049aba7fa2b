import Verif.Lemmas.Callbacks
import Verif.Lemmas.Matching
import Verif.Model.Wrappers
import Verif.Props.Loading

/-! # Dictionaries, picking elements, formatting of matched subgraphs -/

namespace CM

open Spec

theorem Dict.set_new {κ ν : Type} [DecidableEq κ] {d : Dict κ ν} {k : κ} {v : ν}
    (h : k ∉ d.map Prod.fst) : d.set k v = d ++ [(k, v)] := by
  induction d with
  | nil => rfl
  | cons p d ih =>
    simp only [List.map_cons, List.mem_cons, not_or] at h
    unfold Dict.set
    rw [if_neg (fun e => h.1 e.symm), ih h.2]
    rfl

/-- Filling a dictionary with items whose keys are new and distinct. -/
theorem Dict.fill {κ ν ι : Type} [DecidableEq κ] {f : ι → κ} {g : ι → ν} :
    ∀ (l : List ι) (d : Dict κ ν), (d.map Prod.fst ++ l.map f).Nodup →
      l.foldl (fun (d : Dict κ ν) i => d.set (f i) (g i)) d = d ++ l.map fun i => (f i, g i) := by
  intro l
  induction l with
  | nil => intro d _; simp
  | cons i l ih =>
    intro d h
    have hk : f i ∉ d.map Prod.fst := by
      intro hm
      have := List.nodup_append.1 h
      exact this.2.2 _ hm _ (by simp) rfl
    rw [List.foldl_cons, Dict.set_new hk, ih]
    · simp
    · simpa using h

theorem Dict.get_of_mem {κ ν : Type} [DecidableEq κ] {d : Dict κ ν} (h : (d.map Prod.fst).Nodup)
    {k : κ} {v : ν} (hm : (k, v) ∈ d) : d.get k = some v := by
  induction d with
  | nil => cases hm
  | cons p d ih =>
    obtain ⟨k', v'⟩ := p
    simp only [List.map_cons, List.nodup_cons] at h
    unfold Dict.get
    by_cases hk : k' = k
    · subst hk
      rcases List.mem_cons.1 hm with e | hm
      · cases e; simp
      · exact absurd (List.mem_map.2 ⟨_, hm, rfl⟩) h.1
    · rcases List.mem_cons.1 hm with e | hm
      · cases e; exact absurd rfl hk
      · have := ih h.2 hm
        unfold Dict.get at this
        simpa [List.find?_cons, hk] using this

theorem mapM_some {α β : Type} {f : α → Option β} {g : α → β} :
    ∀ {l : List α}, (∀ x ∈ l, f x = some (g x)) → l.mapM f = some (l.map g) := by
  intro l
  induction l with
  | nil => intro _; rfl
  | cons x l ih =>
    intro h
    rw [List.mapM_cons, h x (by simp), ih (fun y hy => h y (by simp [hy]))]
    rfl

theorem mapM_none {α β : Type} {f : α → Option β} :
    ∀ {l : List α}, (∃ x ∈ l, f x = none) → l.mapM f = none := by
  intro l
  induction l with
  | nil => rintro ⟨x, hx, _⟩; cases hx
  | cons x l ih =>
    rintro ⟨y, hy, e⟩
    rw [List.mapM_cons]
    rcases List.mem_cons.1 hy with rfl | hy
    · rw [e]; rfl
    · cases f x with
      | none => rfl
      | some b => rw [ih ⟨y, hy, e⟩]; rfl

theorem pickAll_spec {α : Type} [Inhabited α] {xs : List α} {is : List Nat}
    (h : ∀ i ∈ is, i < xs.length) : pickAll xs is = some (is.map fun i => xs[i]?.getD default) := by
  refine mapM_some fun i hi => ?_
  rw [List.getElem?_eq_getElem (h i hi)]
  rfl

/-- What the dictionaries of `isoFormat` hold if those neighbours of matched vertices that are
numbers of matched vertices of the first graph are also matched in the second; `nbr` lists
neighbours in the second graph, and `back` inverts the mapping. -/
theorem isoFormat_spec {pg2 : PyGraph} {f s : List Nat} {nbr : Nat → List Nat}
    (hlen : f.length = s.length) (hf : f.Nodup) (hs : s.Nodup)
    (hn : ∀ v ∈ s, pg2.getVertexData v = .ok (nbr v)) 
    (hfs : ∀ w ∈ s, ∀ v ∈ nbr w, v ∈ f → v ∈ s) :
    ∃ back : Nat → Nat, (∀ p ∈ f.zip s, back p.2 = p.1) ∧
      isoFormat pg2 f s = .ok (.ret
        ((f.zip s).map fun p => (p.1, ((nbr p.2).filter (· ∈ f)).map back),
         (f.zip s).map fun p => (p.2, (nbr p.2).filter (· ∈ f)), f.zip s)) := by
  have m1 : (f.zip s).map Prod.fst = f := List.map_fst_zip (by omega)
  have m2 : (f.zip s).map Prod.snd = s := List.map_snd_zip (by omega)
  have hmap : (f.zip s).foldl (fun (d : Dict Nat Nat) p => d.set p.1 p.2) [] = f.zip s := by
    rw [Dict.fill (f := Prod.fst) (g := Prod.snd) _ _ (by simpa [m1] using hf)]
    simp
  have hinv : (f.zip s).foldl (fun (d : Dict Nat Nat) p => d.set p.2 p.1) [] =
      (f.zip s).map fun p => (p.2, p.1) := by
    rw [Dict.fill (f := Prod.snd) (g := Prod.fst) _ _ (by simpa [m2] using hs)]
    simp
  set inv : Dict Nat Nat := (f.zip s).map fun p => (p.2, p.1) with hinvd
  have hkeys : (inv.map Prod.fst).Nodup := by
    have : inv.map Prod.fst = s := by rw [hinvd, List.map_map]; exact m2
    rw [this]; exact hs
  have hget : ∀ p ∈ f.zip s, inv.get p.2 = some p.1 := fun p hp =>
    Dict.get_of_mem hkeys (List.mem_map.2 ⟨p, hp, rfl⟩)
  have hget' : ∀ v ∈ s, inv.get v = some ((inv.get v).getD 0) := by
    intro v hv
    rw [← m2] at hv
    obtain ⟨p, hp, rfl⟩ := List.mem_map.1 hv
    rw [hget p hp]; rfl
  refine ⟨fun v => (inv.get v).getD 0, fun p hp => by simp [hget p hp], ?_⟩
  have hfold : ∀ (l : List (Nat × Nat)) (g1 g2 : Dict Nat (List Nat)), (∀ p ∈ l, p.2 ∈ s) →
      (g1.map Prod.fst ++ l.map Prod.fst).Nodup → (g2.map Prod.fst ++ l.map Prod.snd).Nodup →
      l.foldlM (isoFormatStep pg2 f inv) (.ret (g1, g2)) =
      .ok (.ret (g1 ++ l.map fun p => (p.1, ((nbr p.2).filter (· ∈ f)).map
          fun v => (inv.get v).getD 0),
        g2 ++ l.map fun p => (p.2, (nbr p.2).filter (· ∈ f)))) := by
    intro l
    induction l with
    | nil => intro g1 g2 _ _ _; simp [pure, Except.pure]
    | cons p l ih =>
      intro g1 g2 hl h1 h2
      have hk1 : p.1 ∉ g1.map Prod.fst := fun hm =>
        (List.nodup_append.1 h1).2.2 _ hm _ (by simp) rfl
      have hk2 : p.2 ∉ g2.map Prod.fst := fun hm =>
        (List.nodup_append.1 h2).2.2 _ hm _ (by simp) rfl
      have hmm : ((nbr p.2).filter (· ∈ f)).mapM (fun x => inv.get x) =
          some (((nbr p.2).filter (· ∈ f)).map fun v => (inv.get v).getD 0) := by
        refine mapM_some fun v hv => hget' v (hfs p.2 (hl p (by simp)) v (List.mem_filter.1 hv).1 ?_)
        simpa using (List.mem_filter.1 hv).2
      have hstep : isoFormatStep pg2 f inv (.ret (g1, g2)) p =
          .ok (.ret (g1.set p.1 (((nbr p.2).filter (· ∈ f)).map fun v => (inv.get v).getD 0),
            g2.set p.2 ((nbr p.2).filter (· ∈ f)))) := by
        unfold isoFormatStep
        simp only [hn p.2 (hl p (by simp)), ok_bind, hmm]
      rw [List.foldlM_cons, hstep, ok_bind, ih _ _ (fun q hq => hl q (by simp [hq]))
        (by rw [Dict.set_new hk1]; simpa using h1) (by rw [Dict.set_new hk2]; simpa using h2),
        Dict.set_new hk1, Dict.set_new hk2]
      simp
  unfold isoFormat
  simp only [hmap, hinv]
  rw [hfold (f.zip s) [] [] (fun p hp => by rw [← m2]; exact List.mem_map.2 ⟨p, hp, rfl⟩)
    (by simpa [m1] using hf) (by simpa [m2] using hs)]
  rfl

/-- A neighbour that is the number of a matched vertex of the first graph and is not matched in the
second is a `KeyError`. -/
theorem isoFormat_raise {pg2 : PyGraph} {f s : List Nat} {nbr : Nat → List Nat}
    (hlen : f.length = s.length) (hs : s.Nodup)
    (hn : ∀ v ∈ s, pg2.getVertexData v = .ok (nbr v))
    (hex : ∃ p ∈ f.zip s, ∃ v ∈ nbr p.2, v ∈ f ∧ v ∉ s) :
    isoFormat pg2 f s = .ok .raise := by
  have m2 : (f.zip s).map Prod.snd = s := List.map_snd_zip (by omega)
  have hinv : (f.zip s).foldl (fun (d : Dict Nat Nat) p => d.set p.2 p.1) [] =
      (f.zip s).map fun p => (p.2, p.1) := by
    rw [Dict.fill (f := Prod.snd) (g := Prod.fst) _ _ (by simpa [m2] using hs)]
    simp
  set inv : Dict Nat Nat := (f.zip s).map fun p => (p.2, p.1) with hinvd
  have hkeys : inv.map Prod.fst = s := by rw [hinvd, List.map_map]; exact m2
  have hget : ∀ v, v ∉ s → inv.get v = none := by
    intro v hv
    unfold Dict.get
    rw [List.find?_eq_none.2]
    · rfl
    · intro q hq
      have : q.1 ∈ s := by rw [← hkeys]; exact List.mem_map.2 ⟨q, hq, rfl⟩
      simp only [decide_eq_true_eq]
      exact fun e => hv (e ▸ this)
  have hraise : ∀ l : List (Nat × Nat),
      l.foldlM (isoFormatStep pg2 f inv) .raise = .ok .raise := by
    intro l
    induction l with
    | nil => rfl
    | cons p l ih =>
      rw [List.foldlM_cons]
      exact ih
  have hfold : ∀ (l : List (Nat × Nat)) (x : Dict Nat (List Nat) × Dict Nat (List Nat)),
      (∀ p ∈ l, p.2 ∈ s) → (∃ p ∈ l, ∃ v ∈ nbr p.2, v ∈ f ∧ v ∉ s) →
      l.foldlM (isoFormatStep pg2 f inv) (.ret x) = .ok .raise := by
    intro l
    induction l with
    | nil => rintro x _ ⟨p, hp, _⟩; cases hp
    | cons p l ih =>
      rintro ⟨g1, g2⟩ hl ⟨q, hq, v, hv, hvf, hvs⟩
      rw [List.foldlM_cons]
      unfold isoFormatStep
      simp only [hn p.2 (hl p (by simp)), ok_bind]
      rcases hm : ((nbr p.2).filter (· ∈ f)).mapM (fun x => inv.get x) with _ | back
      · simp only [ok_bind]
        exact hraise l
      · simp only [ok_bind]
        refine ih _ (fun q hq => hl q (by simp [hq])) ?_
        rcases List.mem_cons.1 hq with rfl | hq
        · rw [mapM_none ⟨v, List.mem_filter.2 ⟨hv, by simpa using hvf⟩, hget v hvs⟩] at hm
          cases hm
        · exact ⟨q, hq, v, hv, hvf, hvs⟩
  unfold isoFormat
  simp only [hinv]
  rw [hfold (f.zip s) ([], []) (fun p hp => by rw [← m2]; exact List.mem_map.2 ⟨p, hp, rfl⟩) hex]
  rfl

end CM
