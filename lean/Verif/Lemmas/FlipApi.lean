import Verif.Lemmas.FlipEnum
import Verif.Lemmas.HeldSearch

/-!
# The calls of the API with the arguments of `SearchState` evaluated in either order
-/

namespace CM

namespace Both

theorem of_agree {α β : Type} {f : α → β} {x : M β} {y : M α} (h : Agree f x y) :
    Both (fun a b => b = f a) y x := fun a b ha hb => h a b ha hb

end Both

namespace Graph

variable {b L : Nat} {G G' : Graph}

/-! ## Searches -/

theorem stackGraph_rel (h : OkAt b G) :
    Both (fun x y => y = flp x) G.stackGraph G.fl.stackGraph := by
  unfold stackGraph
  obtain ⟨G1, a1, a2, _⟩ := stackVertex_at h.ready h.loc
  obtain ⟨o1, i1⟩ := a2.okAt h h.loc
  refine Both.bind (Q := fun A B => B = A.fl ∧ A = G1)
    (Both.mono (stackVertex_rel h.start G.curLoc) fun A B hA _ hq => ⟨hq, ?_⟩) ?_
  · rw [a1] at hA; cases hA; rfl
  rintro A _ ⟨rfl, rfl⟩
  refine Both.bind (Q := fun A B => B = A.fl)
    (Both.mono (Both.forRangeIn (P := fun X Y => Y = X.fl ∧ OkAt b X ∧ X.nVert = A.nVert)
      ⟨rfl, o1, rfl⟩ ?_) fun _ _ _ _ h => h.1) ?_
  · rintro i X _ _ hi ⟨rfl, oX, hn⟩
    refine Both.same fun V => ?_
    refine Both.ite (Both.pure ⟨rfl, oX, hn⟩) ?_
    have hiX : i < X.nVert := by rw [hn]; exact hi
    obtain ⟨Y, d1, d2, _⟩ := stackVertex_at oX.ready hiX
    obtain ⟨o2, i2⟩ := d2.okAt oX hiX
    refine Both.mono (stackVertex_rel oX.start i) fun C D hC _ hq => ⟨hq, ?_⟩
    rw [d1] at hC
    cases hC
    exact ⟨o2, by rw [i2.frame.nVert]; exact hn⟩
  · rintro X _ rfl
    exact Both.pure rfl

theorem findMax_rel {srt : List VData → List VData} (hsrt : ∀ l, (srt l).Perm l) (h : OkAt b G)
    (sv : Nat) (heur dfs : Bool) (tl : TimeLimit) :
    Both (fun x y => y = flp x) (G.findMaxCliques srt sv heur dfs tl)
      (G.fl.findMaxCliques srt sv heur dfs tl) := by
  have key : ∀ X : Graph, OkAt b X → Both (fun x y => y = flp x)
      (if dfs then (match tl with
        | none => X.stackGraph
        | some t => X.recGraph t sv) else .ok (X, sv))
      (if dfs then (match tl with
        | none => X.fl.stackGraph
        | some t => X.fl.recGraph t sv) else .ok (X.fl, sv)) := by
    intro X oX
    refine Both.ite ?_ (Both.pure rfl)
    cases tl with
    | none => exact stackGraph_rel oX
    | some t => exact Both.of_agree (recGraph_fl X t sv)
  unfold findMaxCliques
  cases heur with
  | false =>
    simp only [Bool.false_eq_true, if_false]
    exact key G h
  | true =>
    simp only [if_true]
    obtain ⟨G1, h1, h2, _⟩ := heurGraph_at hsrt h
    refine Both.bind (Q := fun A B => B = A.fl ∧ A = G1)
      (Both.mono (Both.of_agree (heurGraph_fl srt G)) fun A B hA _ hq => ⟨hq, ?_⟩) ?_
    · rw [h1] at hA; cases hA; rfl
    · rintro A _ ⟨rfl, rfl⟩
      exact key A h2

theorem getClique_fl (G : Graph) (i : Nat) :
    Both (fun x y => y = flp x) (G.getClique i) (G.fl.getClique i) := by
  unfold getClique
  refine Both.same fun V => Both.same fun vb => Both.same fun c => ?_
  exact Both.pure rfl

/-! ## The enumerator -/

theorem ER.stat {x y : Graph × Enum} (h : ER b L x y) :
    y.1.nVert = x.1.nVert ∧ y.1.maxDeg = x.1.maxDeg := by
  rcases h.2 with ⟨_, _, _, h⟩ | ⟨_, N, _, _, h⟩
  · rw [h]; exact ⟨rfl, rfl⟩
  · by_cases h0 : x.2.states.length = 0
    · obtain ⟨eb, e, _⟩ := h.1 h0
      rw [e]; exact ⟨rfl, rfl⟩
    · obtain ⟨eb, e, _⟩ := h.2 h0
      rw [e]; exact ⟨rfl, rfl⟩

theorem enumGraph_rel {Gs : Graph} {E E' : Enum} {Q : Nat → Prop} {k : Nat} (hQ : Q k)
    (h2 : 2 ≤ k) (hI : EInv Q b Gs k G E) (hL : Gs.eb.length < 2 ^ 64)
    (h : ER b Gs.eb.length (G, E) (G', E')) :
    Both (fun x y => ER b Gs.eb.length (x.1, x.2.1) (y.1, y.2.1) ∧ x.2.2 = y.2.2)
      (G.enumGraph E) (G'.enumGraph E') := by
  have hreq : E'.required = E.required := by
    have := h.1
    dsimp only at this
    rw [this]
  have hst := h.stat
  dsimp only at hst
  unfold enumGraph
  rw [hreq, hI.1, hst.1, hst.2, if_neg (by omega), if_neg (by omega), if_neg (by omega),
    if_neg (by omega)]
  refine Both.loop (P := fun x y => ER b Gs.eb.length x y ∧ EInv Q b Gs k x.1 x.2) ?_ _ ⟨h, hI⟩
  rintro ⟨A, F⟩ ⟨B, F'⟩ ⟨e1, e2⟩
  refine Both.mono (enumBody_rel hQ h2 e2 hL e1) ?_
  rintro x y hx _ (⟨a, c, rfl, rfl, hq⟩ | ⟨a, c, rfl, rfl, hq⟩)
  · left
    refine ⟨a, c, rfl, rfl, hq, ?_⟩
    obtain ⟨q, q1, q2⟩ := enumBody_spec hQ h2 e2
    have : enumBody (A, F) = .ok (.inl a) := hx
    rw [this] at q1
    cases q1
    exact q2.1
  · exact Or.inr ⟨a, c, rfl, rfl, hq⟩

/-- Both blocks of the two enumerators lie above the bit sets of the vertices. -/
theorem ER.getClique {Gs : Graph} {E E' : Enum} {Q : Nat → Prop} {k v : Nat}
    (hI : EInv Q b Gs k G E) (h : ER b L (G, E) (G', E')) (hst : E.states ≠ []) (hv : v = E.cur) :
    Both (fun x y => x.2 = y.2 ∧ ER b L (x.1, E) (y.1, E')) (G.getClique v) (G'.getClique v) := by
  subst hv
  obtain ⟨hE, h⟩ := h
  dsimp only at hE h
  rcases h with ⟨_, h3, _⟩ | ⟨h1, N, h3, h4, h5⟩
  · exact absurd h3 hst
  obtain ⟨hr, V, hV, rfl, hlow⟩ := h3 hst
  have hl : E.states.length ≠ 0 := by
    intro h; exact hst (List.length_eq_zero_iff.1 h)
  obtain ⟨eb, rfl, hm, hc, hb⟩ := h5.2 hl
  unfold Graph.getClique
  refine Both.bind (Q := fun x y => x = V ∧ y = V) ?_ ?_
  · intro x y hx hy
    have : (G.other eb).vtx E.cur = .ok V := hV
    rw [hV] at hx
    rw [this] at hy
    cases hx; cases hy
    exact ⟨rfl, rfl⟩
  rintro W W' ⟨hW, hW'⟩
  rw [hW, hW']
  clear hW hW' W W'
  refine Both.bind (vbits_rel V eb) ?_
  rintro vb _ ⟨rfl, rfl⟩
  refine Both.bind (hm.getSubset (c := ⟨V.ebo, V.N⟩) (c' := ⟨V.ebo, V.N⟩) (Img.low hlow) _ _) ?_
  rintro ⟨x, ans⟩ ⟨y, _⟩ ⟨hxy, rfl⟩
  dsimp only at hxy
  refine Both.pure ⟨rfl, hE, Or.inr ⟨h1, V.N, fun _ => ⟨hr, V, hV, rfl, hlow⟩, h4, ?_⟩⟩
  exact ⟨fun h => absurd h hl, fun _ => ⟨y, rfl, hxy, hc, hb⟩⟩

end Graph

open Graph

namespace PyGraph

/-- The object in a program whose compiler evaluates arguments in the other order. -/
def fl (pg : PyGraph) : PyGraph := { pg with G := pg.G.map Graph.fl }

theorem fl_some {pg : PyGraph} {G : Graph} (h : pg.G = some G) :
    pg.fl = { pg with G := some G.fl } := by
  unfold fl
  rw [h]
  rfl

theorem fl_fl (pg : PyGraph) : pg.fl.fl = pg := by
  cases pg with
  | mk G a b c d =>
    cases G with
    | none => rfl
    | some G => simp [fl, Graph.fl_fl]

end PyGraph

variable {pg : PyGraph} {n : Nat} {S : SimpleGraph Nat} {G : Graph}

theorem getMaxClique_rel (h : PyOk pg n S G) {srt : List VData → List VData}
    (hsrt : ∀ l, (srt l).Perm l) (a : PyGraph.Args) :
    Both (fun x y => y = (x.1.fl, x.2)) (pg.getMaxClique srt a) (pg.fl.getMaxClique srt a) := by
  have hpos := h.pos
  have hnv := h.nv
  rw [PyGraph.fl_some h.g]
  unfold PyGraph.getMaxClique PyGraph.checkLoaded
  dsimp only
  have hnz : pg.nvert ≠ 0 := by omega
  rw [if_neg hnz, if_neg hnz, h.g]
  dsimp only
  have hB := findMax_rel hsrt (bounded_at h.ok.at a)
    (if a.continueSearch = true then pg.currentVertex else 0)
    (if a.continueSearch = true ∧ pg.currentVertex ≠ 0 then false else a.useHeuristic) a.useDfs
    a.timeLimit
  refine Both.bind hB ?_
  rintro ⟨A, cv⟩ _ rfl
  refine Both.bind (getClique_fl A _) ?_
  rintro ⟨B, ans⟩ _ rfl
  exact Both.ite (Both.pure rfl) (Both.pure rfl)

theorem resetSearch_rel (h : PyOk pg n S G) :
    Both (fun x y => y = x.fl) pg.resetSearch pg.fl.resetSearch := by
  rw [PyGraph.fl_some h.g]
  unfold PyGraph.resetSearch
  rw [h.g]
  exact Both.pure rfl

/-- Sizes zero and one do not use the scratch space. -/
theorem nextClique_small {E : Enum} (hk : E.required ≤ 1) (hg : pg.G = some G) :
    Both (fun x y => y = (x.1.fl, x.2)) (pg.nextClique E) (pg.fl.nextClique E) := by
  rw [PyGraph.fl_some hg]
  unfold PyGraph.nextClique
  rw [hg]
  dsimp only
  refine Both.bind (Q := fun x y => y = (x.1.fl, x.2)) ?_ ?_
  · unfold enumGraph
    refine Both.iteP (fun _ => Both.pure rfl) fun h0 => ?_
    refine Both.iteP (fun _ => ?_) fun h1 => ?_
    · refine Both.same fun V => Both.same fun vb => Both.same fun eb => Both.same fun eb => ?_
      exact Both.pure rfl
    · have h1' : E.required = 1 := by omega
      have hc : ¬ E.cur < G.nVert := fun h => h1 ⟨h1', h⟩
      have e1 : enumBody (G, E) = .ok (.inr (G, E, E.cur)) := by
        unfold enumBody
        dsimp only
        rw [if_neg hc]
      have e2 : enumBody (G.fl, E) = .ok (.inr (G.fl, E, E.cur)) := by
        unfold enumBody
        dsimp only
        rw [if_neg (show ¬ E.cur < G.fl.nVert from hc)]
      intro x y hx hy
      obtain ⟨f, hf⟩ : ∃ f, (G.nVert + 2) * 2 ^ (G.maxDeg + 2) = f + 1 :=
        ⟨_, (Nat.succ_pred_eq_of_pos (by positivity)).symm⟩
      have hf' : (G.fl.nVert + 2) * 2 ^ (G.fl.maxDeg + 2) = f + 1 := hf
      rw [hf] at hx
      rw [hf'] at hy
      unfold loop at hx hy
      rw [e1] at hx
      rw [e2] at hy
      cases hx; cases hy
      rfl
  · rintro ⟨A, F, v⟩ _ rfl
    dsimp only
    refine Both.ite (Both.pure rfl) ?_
    refine Both.bind (getClique_fl A v) ?_
    rintro ⟨B, ans⟩ _ rfl
    exact Both.pure rfl

/-- Two iterators in use. -/
structure IRel (Q : Nat → Prop) (b k : Nat) (Gs : Graph) (pg pg' : PyGraph) (E E' : Enum) : Prop where
  inv : ∃ G G', pg.G = some G ∧ pg' = { pg with G := some G' } ∧ EInv Q b Gs k G E ∧
    ER b Gs.eb.length (G, E) (G', E')
  nv : Gs.nVert = pg.nvert + 1
  lt : Gs.eb.length < 2 ^ 64

theorem IRel.new {b k : Nat} (h : PyAt b pg n S G) {Q : Nat → Prop} :
    IRel Q b k G pg pg.fl (Enum.new k) (Enum.new k) := by
  have hnv := h.of.nv
  have h1 := h.nv
  have h0 := h.pos
  have hl := h.ok.wf.eblen
  refine ⟨⟨G, G.fl, h.g, PyGraph.fl_some h.g, EInv.new h.ok (by omega) k, rfl, Or.inr ⟨?_, 0, ?_, ?_, ?_⟩⟩,
    by omega, by omega⟩
  · show 1 < G.nVert
    omega
  · intro h; exact absurd rfl h
  · exact .nil
  · refine ⟨fun _ => ⟨G.eb, rfl, rfl, rfl, h.ok.cur, ?_, fun i _ => rfl⟩, fun h => absurd rfl h⟩
    obtain ⟨K, _, hr⟩ := h.ok.room
    show b + 0 ≤ _
    omega

theorem IRel.next {b k : Nat} {Q : Nat → Prop} {Gs : Graph} {pg' : PyGraph} {E E' : Enum} (hQ : Q k)
    (h2 : 2 ≤ k) (h : IRel Q b k Gs pg pg' E E') :
    Both (fun x y => x.2.2 = y.2.2 ∧ IRel Q b k Gs x.1 y.1 x.2.1 y.2.1 ∧
      (x.2.2 = none → y.1 = x.1.fl)) (pg.nextClique E) (pg'.nextClique E') := by
  obtain ⟨⟨G, G', hg, rfl, hI, hR⟩, hnv, hlt⟩ := h
  obtain ⟨G1, E1, I1, hs⟩ := nextClique_spec hQ h2 hg hnv hI
  have main : Both (fun x y => x.2.2 = y.2.2 ∧ ∃ A B, x.1 = { pg with G := some A } ∧
      y.1 = { pg with G := some B } ∧ ER b Gs.eb.length (A, x.2.1) (B, y.2.1))
      (pg.nextClique E) (PyGraph.nextClique { pg with G := some G' } E') := by
    unfold PyGraph.nextClique
    rw [hg]
    dsimp only
    obtain ⟨G2, E2, v, a1, a2, a3⟩ := enumGraph_spec hQ h2 hI
    refine Both.bind (Q := fun x y => (ER b Gs.eb.length (x.1, x.2.1) (y.1, y.2.1) ∧ x.2.2 = y.2.2) ∧
      x = (G2, E2, v)) (Both.mono (enumGraph_rel hQ h2 hI hlt hR) fun x y hx _ hq => ⟨hq, ?_⟩) ?_
    · rw [a1] at hx
      cases hx
      rfl
    · rintro ⟨A, F, u⟩ ⟨B, F', u'⟩ ⟨⟨q1, q2⟩, q3⟩
      cases q3
      dsimp only at q1 q2
      subst q2
      refine Both.iteP (fun _ => Both.pure ⟨rfl, _, _, rfl, rfl, q1⟩) fun hle => ?_
      dsimp only at hle
      rcases a3 with ⟨c1, c2, c3, _⟩ | ⟨c1, _⟩
      · refine Both.bind (ER.getClique a2 q1 c3 c2.symm) ?_
        rintro ⟨C, ans⟩ ⟨D, _⟩ ⟨rfl, q4⟩
        exact Both.pure ⟨rfl, _, _, rfl, rfl, q4⟩
      · omega
  refine Both.mono main ?_
  rintro ⟨x1, x2, x3⟩ ⟨y1, y2, y3⟩ hx _ ⟨q1, A, B, qa, qb, qr⟩
  dsimp only at q1 qa qb qr
  subst q1 qa qb
  have hA : A = G1 ∧ x2 = E1 ∧ (x3 = none → E1.cur = Gs.nVert) := by
    rcases hs with ⟨v, C, s1, _⟩ | ⟨s1, _, s3, _⟩
    · rw [s1] at hx
      cases hx
      exact ⟨rfl, rfl, fun h => by cases h⟩
    · rw [s1] at hx
      cases hx
      exact ⟨rfl, rfl, fun _ => s3⟩
  obtain ⟨rfl, rfl, hn⟩ := hA
  refine ⟨rfl, ⟨⟨A, B, rfl, rfl, I1, qr⟩, hnv, hlt⟩, fun h => ?_⟩
  have hc := hn h
  rcases qr.2 with ⟨_, _, _, e⟩ | ⟨e, _⟩
  · dsimp only at e
    rw [e]
    rfl
  · dsimp only at e
    have := I1.2.1.frame.nVert
    omega

/-! ## Complete iterations -/

theorem consume_small (fuel : Nat) {E : Enum} (hk : E.required ≤ 1) (hg : pg.G = some G) :
    Both (fun x y => y = (x.1.fl, x.2)) (pg.consume fuel E) (pg.fl.consume fuel E) := by
  induction fuel generalizing pg G E with
  | zero => intro a b ha; cases ha
  | succ f ih =>
    unfold PyGraph.consume
    refine Both.bind (Both.mono (nextClique_small hk hg) fun x y hx _ hq => And.intro hq
      (show (∃ A, x.1.G = some A) ∧ x.2.1.required = E.required by
        unfold PyGraph.nextClique at hx
        rw [hg] at hx
        dsimp only at hx
        obtain ⟨⟨A, F, v⟩, h1, hx⟩ := bind_eq_ok.1 hx
        have hF := (enumGraph_keeps h1)
        dsimp only at hx
        split at hx
        · cases hx
          exact ⟨⟨_, rfl⟩, hF.2.1⟩
        · obtain ⟨⟨B, ans⟩, _, hx⟩ := bind_eq_ok.1 hx
          cases hx
          exact ⟨⟨_, rfl⟩, hF.2.1⟩)) ?_
    rintro ⟨p1, E1, c⟩ _ ⟨rfl, ⟨A, hA⟩, hr⟩
    dsimp only at hA hr
    cases c with
    | none => exact Both.pure rfl
    | some c =>
      refine Both.bind (ih (E := E1) (by omega) hA) ?_
      rintro ⟨p2, E2, cs⟩ _ rfl
      exact Both.pure rfl

theorem IRel.consume {b k : Nat} {Q : Nat → Prop} {Gs : Graph} (hQ : Q k) (h2 : 2 ≤ k) (fuel : Nat)
    {pg pg' : PyGraph} {E E' : Enum} (h : IRel Q b k Gs pg pg' E E') :
    Both (fun x y => x.2.2 = y.2.2 ∧ y.1 = x.1.fl) (pg.consume fuel E) (pg'.consume fuel E') := by
  induction fuel generalizing pg pg' E E' with
  | zero => intro a b ha; cases ha
  | succ f ih =>
    unfold PyGraph.consume
    refine Both.bind (h.next hQ h2) ?_
    rintro ⟨p1, E1, c⟩ ⟨p2, E2, _⟩ ⟨rfl, h1, h3⟩
    dsimp only at h1 h3
    cases c with
    | none => exact Both.pure ⟨rfl, h3 rfl⟩
    | some c =>
      refine Both.bind (ih h1) ?_
      rintro ⟨p3, E3, cs⟩ ⟨p4, E4, _⟩ ⟨rfl, h4⟩
      exact Both.pure ⟨rfl, h4⟩

theorem listCliques_rel (h : PyOk pg n S G) (k : Nat) :
    Both (fun x y => y = (x.1.fl, x.2)) (pg.listCliques k) (pg.fl.listCliques k) := by
  have hnz : pg.nvert ≠ 0 := by rw [h.nv]; exact h.pos
  have e1 : pg.allCliques k = .ok (Enum.new k) := by
    unfold PyGraph.allCliques; rw [h.loaded]
  have e2 : pg.fl.allCliques k = .ok (Enum.new k) := by
    unfold PyGraph.allCliques
    have : pg.fl.checkLoaded = some G.fl := by
      rw [PyGraph.fl_some h.g]
      unfold PyGraph.checkLoaded
      dsimp only
      rw [if_neg hnz]
    rw [this]
  unfold PyGraph.listCliques
  rw [e1, e2, ok_bind, ok_bind, h.g]
  have hfg : pg.fl.G = some G.fl := by rw [PyGraph.fl_some h.g]
  rw [hfg]
  dsimp only
  have hc : Both (fun x y => x.2.2 = y.2.2 ∧ y.1 = x.1.fl)
      (pg.consume (G.nVert * 2 ^ G.maxDeg + 1) (Enum.new k))
      (pg.fl.consume (G.fl.nVert * 2 ^ G.fl.maxDeg + 1) (Enum.new k)) := by
    by_cases hk : 2 ≤ k
    · exact (IRel.new (k := k) (Q := fun _ => True) h.at).consume trivial hk _
    · refine Both.mono (consume_small _ (E := Enum.new k) (by show k ≤ 1; omega) h.g) ?_
      rintro x _ _ _ rfl
      exact ⟨rfl, rfl⟩
  refine Both.bind hc ?_
  rintro ⟨p1, E1, cs⟩ ⟨p2, E2, _⟩ ⟨rfl, q⟩
  dsimp only at q
  subst q
  exact Both.pure rfl

/-! ## Iterators -/

theorem IRel.nexts {b k : Nat} {Q : Nat → Prop} {Gs : Graph} (hQ : Q k) (h2 : 2 ≤ k) (m : Nat)
    {pg pg' : PyGraph} {E E' : Enum} (h : IRel Q b k Gs pg pg' E E') :
    Both (fun x y => x.2.2 = y.2.2) (pg.nexts m E) (pg'.nexts m E') := by
  induction m generalizing pg pg' E E' with
  | zero => exact Both.pure rfl
  | succ m ih =>
    unfold PyGraph.nexts
    refine Both.bind (h.next hQ h2) ?_
    rintro ⟨p1, E1, c⟩ ⟨p2, E2, _⟩ ⟨rfl, h1, _⟩
    refine Both.bind (ih h1) ?_
    rintro ⟨p3, E3, cs⟩ ⟨p4, E4, _⟩ h4
    dsimp only at h4
    subst h4
    exact Both.pure rfl

end CM
