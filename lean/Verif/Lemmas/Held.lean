import Verif.Lemmas.HeldSearch
import Verif.SpecLoops

/-! # Complete calls while one iterator is held -/

namespace CM

open Spec Graph

variable {pg : PyGraph} {n : Nat} {S : SimpleGraph Nat} {G : Graph}

/-- What `all_cliques(k)` has to report. -/
def Wanted (S : SimpleGraph Nat) (n k : Nat) (l : List Nat) : Prop :=
  IsCliqueList S n l ∧ l.length = k ∧ k ≠ 0 ∧ (2 ≤ k → ¬ First S n 1 l)

theorem wanted_one {l : List Nat} : Wanted S n 1 l ↔ ∃ v, 1 ≤ v ∧ v < n + 1 ∧ l = [v] := by
  constructor
  · rintro ⟨h1, h2, _⟩
    obtain ⟨v, rfl⟩ := List.length_eq_one_iff.1 h2
    have := h1.range v (by simp)
    exact ⟨v, by omega, by omega, rfl⟩
  · rintro ⟨v, h1, h2, rfl⟩
    refine ⟨⟨by simp, ?_, ?_⟩, rfl, by omega, by omega⟩
    · intro x hx
      rw [List.mem_singleton] at hx
      omega
    · intro x hx y hy hxy
      simp only [List.mem_singleton, Set.mem_setOf_eq] at hx hy
      exact absurd (hx.trans hy.symm) hxy

/-- Bounds that are intact admit every clique that is looked for. -/
theorem mcs_ge (hO : Of G n S) (w : Str G) (hm : McsOk G)
    (hlim : ∀ l, IsCliqueList S n l → l.length ≤ G.limit) {r k : Nat} {C : Finset Nat}
    (hr : r < G.nVert) (h0 : r ≠ 0) (hC : Rooted G r C) (hk : C.card = k) (h2 : 2 ≤ k) :
    k ≤ (G.V r).mcs := by
  have h1 := hm r hr C hC (by omega)
  have h3 := hlim _ (listAt_clique hO w hr h0 hC.1)
  rw [listAt_length hC.1.2.1] at h3
  omega

/-- The state between two actions of a program that holds one iterator over the cliques of size
`k`.  The iterator uses the scratch space from `b`; `T` are the cliques still to come; `Gs` is
the object when the last call of another kind ended.  `Sd` says whether the searches all had
the default `lower_bound`. -/
structure Held (Sd : Prop) (Q : Nat → Prop) (b k : Nat) (pg : PyGraph) (n : Nat)
    (S : SimpleGraph Nat) (Gs G : Graph) (E : Enum) (T : Finset (List Nat)) : Prop where
  py : PyAt G.searchCur pg n S G
  le : b ≤ G.searchCur
  bot : G.ebSize < b
  room : T ≠ ∅ → ∃ L, (∀ v, v < G.nVert → (G.rootCand v).card + 1 ≤ L) ∧
    (b + 2 * (L + 1) * dlen G.maxDeg ≤ G.eb.length ∨
      b + (kept k + L + 2) * dlen G.maxDeg ≤ G.eb.length)
  mcs : McsOk G
  lim : ∀ l, IsCliqueList S n l → l.length ≤ G.limit
  core : CoreAt Q b Gs G
  hon : Sd → G.curLoc ≠ 0 ∧ HonestBut Q Gs
  req : E.required = k
  kind : (2 ≤ k ∧ EInv Q b Gs k G E ∧
      (E.states ≠ [] ∨ (G.searchCur = b ∧ (E = Enum.new k ∨ E.cur = G.nVert))) ∧
      (∀ r C, Pnd Gs k G E r C → r < Gs.nVert ∧ Rooted Gs r C) ∧
      ∀ l, l ∈ T ↔ ∃ r C, Pnd Gs k G E r C ∧ Gs.listAt r C = l) ∨
    (k = 1 ∧ E.states = [] ∧ G.searchCur = b ∧ E.cur ≤ G.nVert ∧
      ∀ l, l ∈ T ↔ ∃ v, E.cur ≤ v ∧ v < G.nVert ∧ l = [v]) ∨
    (k = 0 ∧ G.searchCur = b ∧ T = ∅)

theorem Graph.Frame.symm {G G' : Graph} (F : Frame G G') : Frame G' G :=
  ⟨F.el.symm, F.vlen.symm, fun v => by
    obtain ⟨h1, h2, h3, h4⟩ := F.stat v
    exact ⟨h1.symm, h2.symm, h3.symm, h4.symm⟩, F.ebl.symm, F.ebSize.symm, F.searchStart.symm,
    F.nVert.symm, F.maxDeg.symm, F.dangling.symm, F.argLR.symm⟩

theorem listAt_frame {G G' : Graph} (F : Frame G G') (r : Nat) (C : Finset Nat) :
    G'.listAt r C = G.listAt r C := by
  unfold listAt
  rw [F.N]
  congr 1
  funext i
  exact F.e r i

variable {Sd : Prop} {Q : Nat → Prop} {b k : Nat} {Gs : Graph} {E : Enum} {T : Finset (List Nat)}

theorem Held.honG (h : Held Sd Q b k pg n S Gs G E T) (hs : Sd) : HonestBut Q G := by
  have hh := (h.hon hs).2
  have hl : Gs.curLoc < Gs.nVert := by
    rw [← h.core.loc, ← h.core.frame.nVert]; exact h.py.ok.loc
  unfold HonestBut at hh ⊢
  rcases h.core.stored_length hl with e | e
  · rw [e, h.core.cm]; exact hh
  · exact Or.inr e

/-- A call of another kind. -/
theorem Held.resume (h : Held Sd Q b k pg n S Gs G E T) {pg' : PyGraph} {G' : Graph}
    (py' : PyAt G.searchCur pg' n S G') (F : Frame G G')
    (hlow : ∀ a, 64 * G.ebSize ≤ a → a < 64 * G.searchCur → bitAt G'.eb a = bitAt G.eb a)
    (hm : McsOk G') (hlim : ∀ l, IsCliqueList S n l → l.length ≤ G'.limit)
    (hon : Sd → G'.curLoc ≠ 0 ∧ HonestBut Q G') :
    ∃ Gs', Held Sd Q b k pg' n S Gs' G' E T := by
  have hcur := py'.ok.cur
  have hroom : T ≠ ∅ → ∃ L, (∀ v, v < G'.nVert → (G'.rootCand v).card + 1 ≤ L) ∧
      (b + 2 * (L + 1) * dlen G'.maxDeg ≤ G'.eb.length ∨
        b + (kept k + L + 2) * dlen G'.maxDeg ≤ G'.eb.length) := by
    intro hT0
    obtain ⟨L, h1, h2⟩ := h.room hT0
    refine ⟨L, fun v hv => ?_, by rw [F.maxDeg, F.ebl]; exact h2⟩
    rw [F.rootCand]; exact h1 v (by rw [← F.nVert]; exact hv)
  have hle : b ≤ G'.searchCur := by rw [hcur]; exact h.le
  have hbot : G'.ebSize < b := by rw [F.ebSize]; exact h.bot
  have hpy : PyAt G'.searchCur pg' n S G' := by rw [hcur]; exact py'
  rcases h.kind with ⟨k2, hI, hst, hR, hT⟩ | ⟨k1, hst, hc, hcn, hT⟩ | ⟨k0, hc, hT⟩
  · -- sizes above one
    have key : ∃ Gs', CoreAt Q b Gs' G' ∧ (Sd → HonestBut Q Gs') ∧ EInv Q b Gs' k G' E ∧
        ∀ C, PendC Gs' (par E.cur) G'.eb k C E.states ↔
          PendC Gs (par E.cur) G.eb k C E.states := by
      by_cases hs : E.states = []
      · refine ⟨G', CoreAt.refl _ _ _, fun s => (hon s).2, ?_, ?_⟩
        · rcases hst with hst | ⟨hst, hst'⟩
          · exact absurd hs hst
          · have hok : OkAt b G' := by rw [← hst]; exact py'.ok
            rcases hst' with rfl | he
            · exact EInv.new hok (by rw [py'.of.nv]; have := py'.pos; omega) k
            · exact ⟨h.req, CoreAt.refl _ _ _, Or.inr (Or.inl ⟨hs, by rw [F.nVert]; exact he, hok⟩)⟩
        · intro C
          rw [hs]
          simp [PendC]
      · obtain ⟨L, r1, r2⟩ := py'.ok.room
        obtain ⟨m, m1, m2, m3⟩ := py'.ok.without (b := b) hbot h.le
          ⟨L, r1, Nat.le_trans (Nat.add_le_add_right h.le _) r2⟩
        have hF : Frame { G' with eb := m, searchCur := b } G' :=
          ⟨rfl, rfl, fun _ => ⟨rfl, rfl, rfl, rfl⟩, m1.symm, rfl, rfl, rfl, rfl, rfl, rfl⟩
        have hset : ∀ v, v < G'.nVert → bset G'.eb (G'.vb v) = bset m (G'.vb v) := by
          intro v hv
          apply bset_congr rfl
          intro i hi
          have := py'.ok.wf.eboEnd v hv
          have := @dlen_le (G'.V v).N
          simp only [vb] at hi ⊢
          exact (m2 _ (by omega)).symm
        have hc : CoreAt Q b { G' with eb := m, searchCur := b } G' :=
          ⟨⟨hF, rfl, rfl, rfl, rfl⟩, fun v hv => Or.inl (hset v hv),
            fun a _ h2 => (m2 a h2).symm⟩
        obtain ⟨e1, e2⟩ := hI.resume hs py'.ok F hlow hc
        refine ⟨_, hc, fun s => ?_, e1, e2⟩
        have := (hon s).2
        have e : (stored { G' with eb := m, searchCur := b }).length = (stored G').length := by
          unfold stored
          rw [cliqueAt_length, cliqueAt_length]
          exact congrArg Finset.card (hset _ py'.ok.loc).symm
        unfold HonestBut at this ⊢
        rw [e]; exact this
    obtain ⟨Gs', c1, c2, c3, c4⟩ := key
    have FS : Frame Gs Gs' := (h.core.frame.trans F).trans c1.frame.symm
    have hP : ∀ r C, Pnd Gs' k G' E r C ↔ Pnd Gs k G E r C := by
      intro r C
      unfold Pnd
      rw [c4 C]
      refine or_congr_right ?_
      constructor
      · rintro ⟨d1, d2, _, d4, d5⟩
        have e2 : r < G.nVert := by rw [← F.nVert, c1.frame.nVert]; exact d2
        have e4 : Rooted G r C := (F.rooted r C).1 ((c1.frame.rooted r C).2 d4)
        refine ⟨d1, by rw [← FS.nVert]; exact d2, ?_, (FS.rooted r C).1 d4, d5⟩
        rw [← h.core.V]
        exact mcs_ge h.py.of h.py.ok.wf.str h.mcs h.lim e2 (by omega) e4 d5 k2
      · rintro ⟨d1, d2, _, d4, d5⟩
        have d2' : r < Gs'.nVert := by rw [FS.nVert]; exact d2
        have d4' : Rooted Gs' r C := (FS.rooted r C).2 d4
        refine ⟨d1, d2', ?_, d4', d5⟩
        rw [← c1.V]
        exact mcs_ge py'.of py'.ok.wf.str hm hlim (by rw [c1.frame.nVert]; exact d2') (by omega)
          ((c1.frame.rooted r C).2 d4') d5 k2
    refine ⟨Gs', hpy, hle, hbot, hroom, hm, hlim, c1, fun s => ⟨(hon s).1, c2 s⟩, h.req,
      Or.inl ⟨k2, c3, ?_, fun r C hp => ?_, fun l => ?_⟩⟩
    · rw [hcur, F.nVert]; exact hst
    · obtain ⟨e1, e2⟩ := hR r C ((hP r C).1 hp)
      exact ⟨by rw [FS.nVert]; exact e1, (FS.rooted r C).2 e2⟩
    · rw [hT]
      simp only [hP, listAt_frame FS]
  · subst k1
    refine ⟨G', hpy, hle, hbot, hroom, hm, hlim, CoreAt.refl _ _ _, hon, h.req,
      Or.inr (Or.inl ⟨rfl, hst, by rw [hcur]; exact hc, by rw [F.nVert]; exact hcn, ?_⟩)⟩
    rw [F.nVert]; exact hT
  · subst k0
    exact ⟨G', hpy, hle, hbot, hroom, hm, hlim, CoreAt.refl _ _ _, hon, h.req,
      Or.inr (Or.inr ⟨rfl, by rw [hcur]; exact hc, hT⟩)⟩

/-- `next(it)` -/
theorem Held.next (hQ : Q k) (h : Held Sd Q b k pg n S Gs G E T) :
    ∃ pg' G' E' c T', pg.nextClique E = .ok (pg', E', c) ∧
      Held Sd Q b k pg' n S Gs G' E' T' ∧
      ((∃ l, c = some l ∧ l ∈ T ∧ T' = T.erase l) ∨
        (c = none ∧ T = ∅ ∧ T' = ∅ ∧ G'.searchCur = b)) := by
  have hnv : G.nVert = pg.nvert + 1 := by rw [h.py.of.nv, h.py.nv]
  have hnvs : Gs.nVert = pg.nvert + 1 := by rw [← h.core.frame.nVert]; exact hnv
  -- what a step needs for the next state
  have step : ∀ {G' : Graph} {E' : Enum} {T' : Finset (List Nat)}, OkAt G'.searchCur G' →
      T' ⊆ T → b ≤ G'.searchCur → CoreAt Q b Gs G' → E'.required = k →
      ((2 ≤ k ∧ EInv Q b Gs k G' E' ∧
        (E'.states ≠ [] ∨ (G'.searchCur = b ∧ (E' = Enum.new k ∨ E'.cur = G'.nVert))) ∧
        (∀ r C, Pnd Gs k G' E' r C → r < Gs.nVert ∧ Rooted Gs r C) ∧
        ∀ l, l ∈ T' ↔ ∃ r C, Pnd Gs k G' E' r C ∧ Gs.listAt r C = l) ∨
      (k = 1 ∧ E'.states = [] ∧ G'.searchCur = b ∧ E'.cur ≤ G'.nVert ∧
        ∀ l, l ∈ T' ↔ ∃ v, E'.cur ≤ v ∧ v < G'.nVert ∧ l = [v]) ∨
      (k = 0 ∧ G'.searchCur = b ∧ T' = ∅)) →
      Held Sd Q b k { pg with G := some G' } n S Gs G' E' T' := by
    intro G' E' T' ok' hTT le' core' req' kind'
    have F : Frame G G' := h.core.frame.symm.trans core'.frame
    have hV : ∀ v, G'.V v = G.V v := fun v => by rw [core'.V, h.core.V]
    refine ⟨⟨rfl, h.py.nv, h.py.pos, ok', h.py.of.frame F⟩, le', by rw [F.ebSize]; exact h.bot, ?_,
      McsOk.congr F (by rw [core'.lim, h.core.lim]) (fun v => by rw [hV]) h.mcs,
      by rw [core'.lim, ← h.core.lim]; exact h.lim, core',
      fun s => ⟨by rw [core'.loc, ← h.core.loc]; exact (h.hon s).1, (h.hon s).2⟩, req', kind'⟩
    intro hT0
    obtain ⟨L, h1, h2⟩ := h.room (fun e => hT0 (Finset.subset_empty.1 (e ▸ hTT)))
    refine ⟨L, fun v hv => ?_, by rw [F.maxDeg, F.ebl]; exact h2⟩
    rw [F.rootCand]; exact h1 v (by rw [← F.nVert]; exact hv)
  rcases h.kind with ⟨k2, hI, hst, hR, hT⟩ | ⟨rfl, hst, hc, hcn, hT⟩ | ⟨rfl, hc, rfl⟩
  · obtain ⟨G', E', a1, a2⟩ := nextClique_spec hQ k2 h.py.g hnvs hI
    rcases a2 with ⟨v, C, b1, b2, b3, b4⟩ | ⟨b1, b2, b3, b4⟩
    · have hmem : Gs.listAt v C ∈ T := (hT _).2 ⟨v, C, b3, rfl⟩
      have hroom : ∃ L, (∀ v, v < Gs.nVert → (Gs.rootCand v).card + 1 ≤ L) ∧
          (b + 2 * (L + 1) * dlen Gs.maxDeg ≤ Gs.eb.length ∨
            b + (k + L + 2) * dlen Gs.maxDeg ≤ Gs.eb.length) := by
        obtain ⟨L, h1, h2⟩ := h.room (Finset.ne_empty_of_mem hmem)
        rw [kept, if_neg (by omega)] at h2
        have F := h.core.frame
        refine ⟨L, fun v hv => ?_, by rw [← F.maxDeg, ← F.ebl]; exact h2⟩
        rw [← F.rootCand]; exact h1 v (by rw [F.nVert]; exact hv)
      obtain ⟨p1, p2⟩ := a1.paused b2 hroom
      refine ⟨_, G', E', _, T.erase (Gs.listAt v C), b1, step p1 (Finset.erase_subset _ _) p2 a1.2.1 a1.1
        (Or.inl ⟨k2, a1, Or.inl b2, fun r D hp => hR r D ((b4 r D).1 hp).1, fun l => ?_⟩),
        Or.inl ⟨_, rfl, (hT _).2 ⟨v, C, b3, rfl⟩, rfl⟩⟩
      rw [Finset.mem_erase, hT]
      constructor
      · rintro ⟨hne, r, D, hp, rfl⟩
        refine ⟨r, D, (b4 r D).2 ⟨hp, ?_⟩, rfl⟩
        rintro ⟨rfl, rfl⟩
        exact hne rfl
      · rintro ⟨r, D, hp, rfl⟩
        obtain ⟨hp1, hp2⟩ := (b4 r D).1 hp
        refine ⟨fun he => hp2 ?_, r, D, hp1, rfl⟩
        have ws : Str Gs := (h.core.frame.symm.wf h.py.ok.wf).str
        exact listAt_inj ws (hR r D hp1).1 (hR v C b3).1 (hR r D hp1).2 (hR v C b3).2 he
    · have hT0 : T = ∅ := by
        rw [Finset.eq_empty_iff_forall_notMem]
        intro l hl
        obtain ⟨r, C, hp, _⟩ := (hT l).1 hl
        exact b4 r C hp
      have hs' : E'.states = [] := by
        obtain ⟨_, _, h3⟩ := a1
        rcases h3 with ⟨h1, _⟩ | ⟨h1, _⟩ | ⟨_, _, _, _, _, G0, p, ok, hc0, p1, p2, g, I, p3, p4⟩
        · exact h1
        · exact h1
        · have := g.hr
          rw [hc0.frame.nVert] at this
          omega
      have hno : ∀ r C, ¬ Pnd Gs k G' E' r C := by
        intro r C hp
        unfold Pnd at hp
        rw [hs'] at hp
        simp only [PendC, and_false, false_or] at hp
        omega
      refine ⟨_, G', E', _, ∅, b1, step (by rw [b2.cur]; exact b2)
        (Finset.empty_subset _) (Nat.le_of_eq b2.cur.symm) a1.2.1
        a1.1 (Or.inl ⟨k2, a1, Or.inr ⟨b2.cur, Or.inr (by rw [a1.2.1.frame.nVert]; exact b3)⟩,
          fun r C hp => absurd hp (hno r C), fun l => ?_⟩), Or.inr ⟨rfl, hT0, rfl, b2.cur⟩⟩
      simp only [Finset.notMem_empty, false_iff]
      rintro ⟨r, C, hp, _⟩
      exact hno r C hp
  · have ok : OkAt b G := by rw [← hc]; exact h.py.ok
    obtain ⟨c1, c2⟩ := next_one hQ ok h.py.g hnv h.req hst
    rcases Nat.lt_or_eq_of_le hcn with hlt | heq
    · obtain ⟨G', d1, d2, d3⟩ := c1 hlt
      refine ⟨_, G', _, _, T.erase [E.cur], d1, step (by rw [d2.cur]; exact d2)
        (Finset.erase_subset _ _) (Nat.le_of_eq d2.cur.symm) (h.core.trans (Nat.le_refl _) d3) h.req
        (Or.inr (Or.inl ⟨rfl, hst, d2.cur, by rw [d3.frame.nVert]; exact hlt, fun l => ?_⟩)),
        Or.inl ⟨_, rfl, (hT _).2 ⟨E.cur, Nat.le_refl _, hlt, rfl⟩, rfl⟩⟩
      rw [Finset.mem_erase, hT, d3.frame.nVert]
      constructor
      · rintro ⟨hne, v, e1, e2, rfl⟩
        refine ⟨v, ?_, e2, rfl⟩
        have : v ≠ E.cur := fun he => hne (by rw [he])
        simp only; omega
      · rintro ⟨v, e1, e2, rfl⟩
        simp only at e1
        refine ⟨?_, v, by omega, e2, rfl⟩
        intro he
        injection he with he
        omega
    · have hT0 : T = ∅ := by
        rw [Finset.eq_empty_iff_forall_notMem]
        intro l hl
        obtain ⟨v, e1, e2, _⟩ := (hT l).1 hl
        omega
      refine ⟨_, G, E, none, T, c2 heq, step h.py.ok (Finset.Subset.refl _) h.le h.core h.req
        (Or.inr (Or.inl ⟨rfl, hst, hc, hcn, hT⟩)), Or.inr ⟨rfl, hT0, hT0, hc⟩⟩
  · refine ⟨{ pg with G := some G }, G, { E with cur := G.nVert }, none, ∅, ?_,
      step h.py.ok (Finset.Subset.refl _) h.le h.core h.req (Or.inr (Or.inr ⟨rfl, hc, rfl⟩)),
      Or.inr ⟨rfl, rfl, rfl, hc⟩⟩
    unfold PyGraph.nextClique
    rw [h.py.g]
    simp only [enumGraph, h.req, if_true, ok_bind]
    rw [if_pos (by omega)]

/-- `iter(G.all_cliques(k))` -/
theorem Held.newAt (h : PyAt b pg n S G) (hm : McsOk G)
    (hlim : ∀ l, IsCliqueList S n l → l.length ≤ G.limit)
    (hon : Sd → G.curLoc ≠ 0 ∧ HonestBut Q G) (k : Nat)
    (hroom : (∃ l, Wanted S n k l) → ∃ L, (∀ v, v < G.nVert → (G.rootCand v).card + 1 ≤ L) ∧
      (b + 2 * (L + 1) * dlen G.maxDeg ≤ G.eb.length ∨
        b + (kept k + L + 2) * dlen G.maxDeg ≤ G.eb.length)) :
    ∃ T, pg.allCliques k = .ok (Enum.new k) ∧
      Held Sd Q b k pg n S G G (Enum.new k) T ∧ (∀ l, l ∈ T ↔ Wanted S n k l) ∧
      T.card ≤ G.nVert * 2 ^ G.maxDeg := by
  classical
  have w := h.ok.wf
  have hnv := h.of.nv
  have hsc := h.ok.cur
  have all : pg.allCliques k = .ok (Enum.new k) := by
    unfold PyGraph.allCliques
    rw [h.loaded]
  have mk : ∀ T : Finset (List Nat), (∀ l, l ∈ T ↔ Wanted S n k l) → _ →
      Held Sd Q b k pg n S G G (Enum.new k) T :=
    fun T hT kind => ⟨by rw [hsc]; exact h, Nat.le_of_eq hsc.symm, h.ok.bot, fun hne => by
      obtain ⟨l, hl⟩ := Finset.nonempty_iff_ne_empty.2 hne
      exact hroom ⟨l, (hT l).1 hl⟩, hm, hlim, CoreAt.refl _ _ _, hon, rfl, kind⟩
  rcases Nat.lt_or_ge k 2 with hk | hk
  · have hk' : k = 0 ∨ k = 1 := by omega
    rcases hk' with rfl | rfl
    · have hw : ∀ l, l ∈ (∅ : Finset (List Nat)) ↔ Wanted S n 0 l := by simp [Wanted]
      exact ⟨∅, all, mk _ hw (Or.inr (Or.inr ⟨rfl, hsc, rfl⟩)), hw, by simp⟩
    · have hmem : ∀ l, l ∈ (Finset.Ico 1 G.nVert).image (fun v => [v]) ↔
          ∃ v, 1 ≤ v ∧ v < G.nVert ∧ l = [v] := by
        intro l
        rw [Finset.mem_image]
        constructor
        · rintro ⟨v, hv, rfl⟩
          rw [Finset.mem_Ico] at hv
          exact ⟨v, hv.1, hv.2, rfl⟩
        · rintro ⟨v, h1, h2, rfl⟩
          exact ⟨v, by rw [Finset.mem_Ico]; exact ⟨h1, h2⟩, rfl⟩
      have hw : ∀ l, l ∈ (Finset.Ico 1 G.nVert).image (fun v => [v]) ↔ Wanted S n 1 l := by
        intro l
        rw [hmem, wanted_one, hnv]
      refine ⟨_, all, mk _ hw (Or.inr (Or.inl ⟨rfl, rfl, hsc, by simp only [Enum.new]; omega, hmem⟩)),
        hw, Nat.le_trans Finset.card_image_le ?_⟩
      rw [Nat.card_Ico]
      have := Nat.le_mul_of_pos_right G.nVert (Nat.two_pow_pos G.maxDeg)
      omega
  · obtain ⟨P, h3, h4⟩ := pend_finite w k
    have hmem : ∀ l, l ∈ P.image (fun q => G.listAt q.1 q.2) ↔
        ∃ r C, Pnd G k G (Enum.new k) r C ∧ G.listAt r C = l := by
      intro l
      rw [Finset.mem_image]
      constructor
      · rintro ⟨⟨r, C⟩, hq, rfl⟩; exact ⟨r, C, (h3 r C).2 hq, rfl⟩
      · rintro ⟨r, C, hq, rfl⟩; exact ⟨(r, C), (h3 r C).1 hq, rfl⟩
    have hw : ∀ l, l ∈ P.image (fun q => G.listAt q.1 q.2) ↔ Wanted S n k l := by
      intro l
      rw [hmem]
      constructor
      · rintro ⟨r, C, hp, rfl⟩
        obtain ⟨e0, e1, _, e2, e3⟩ := (new_pend k r C).1 hp
        refine ⟨listAt_clique h.of w.str e1 (by omega) e2.1, ?_, by omega, fun _ hf => ?_⟩
        · rw [listAt_length e2.1.2.1]; exact e3
        · have := First.unique hf (rooted_spec_first h.of w.str e1 e2)
          omega
      · rintro ⟨hl, hlen, _, hnf⟩
        obtain ⟨r, C, b1, b2, b3, b4, b5⟩ := spec_rooted h.of w.str hl
          (by rintro rfl; simp at hlen; omega)
        have he := listAt_eq w.str hl b2 b3 b5
        have h1 := hl.range r b1
        have hr1 : r ≠ 1 := by
          rintro rfl
          apply hnf hk
          have := rooted_spec_first h.of w.str b2 b3
          rwa [he] at this
        refine ⟨r, C, (new_pend k r C).2 ⟨by omega, b2, ?_, b3, by omega⟩, he⟩
        exact mcs_ge h.of w.str hm hlim b2 (by omega) b3 (by omega) hk
    refine ⟨_, all, mk _ hw (Or.inl ⟨hk, EInv.new h.ok (by have := h.pos; omega) k,
      Or.inr ⟨hsc, Or.inl rfl⟩, fun r C hp => ?_, hmem⟩), hw, Nat.le_trans Finset.card_image_le h4⟩
    obtain ⟨_, e1, _, e2, _⟩ := (new_pend k r C).1 hp
    exact ⟨e1, e2⟩

/-- `iter(G.all_cliques(k))` -/
theorem Held.new (h : PyOk pg n S G) (hm : McsOk G)
    (hlim : ∀ l, IsCliqueList S n l → l.length ≤ G.limit)
    (hon : Sd → G.curLoc ≠ 0 ∧ HonestBut Q G) (k : Nat) :
    ∃ T, pg.allCliques k = .ok (Enum.new k) ∧
      Held Sd Q G.searchStart k pg n S G G (Enum.new k) T ∧ ∀ l, l ∈ T ↔ Wanted S n k l := by
  obtain ⟨T, h1, h2, h3, _⟩ := Held.newAt h.at hm hlim hon k (fun _ => by
    obtain ⟨L, a1, a2⟩ := h.ok.wf.arena
    exact ⟨L, a1, Or.inl a2⟩)
  exact ⟨T, h1, h2, h3⟩

/-- What a call of another kind reports. -/
def SeenOk (Sd : Prop) (Q : Nat → Prop) (S : SimpleGraph Nat) (n : Nat) : Seen → Prop
  | .next _ => True
  | .reset => True
  | .list k cs => cs.Nodup ∧ ∀ l, l ∈ cs ↔ Wanted S n k l
  | .found a r => Sd → ∃ l, r = .ret l ∧ IsCliqueList S n l ∧
      (a.useDfs = true → IsMaxCliqueList S n l ∨ Q l.length)

/-- A call of another kind while the iterator is held. -/
theorem Held.call (h : Held Sd Q b k pg n S Gs G E T) {op : Op} (hl : op.Legal)
    (he : op.Exact S n) (hu : op.Untimed) (hb : Sd → op.Unbounded)
    (hQ : ∀ j, op = .list j → Q j) :
    ∃ pg' Gs' G' s, (Act.call op).run pg E = .ok (pg', E, s) ∧
      Held Sd Q b k pg' n S Gs' G' E T ∧ SeenOk Sd Q S n s ∧ (∀ c, s ≠ .next c) ∧
      Frame G G' ∧ G'.searchCur = G.searchCur ∧
      ∀ a, 64 * G.ebSize ≤ a → a < 64 * G.searchCur → bitAt G'.eb a = bitAt G.eb a := by
  cases op with
  | search srt a =>
    have ht : a.timeLimit = none := hu
    obtain ⟨pg', G', a1, a2, a3, a4, a5, a6, a7, a8⟩ := search_at h.py hl ht
    have hlim : ∀ l, IsCliqueList S n l → l.length ≤ G'.limit := by
      intro l hl
      have := he.2 l hl
      have := h.lim l hl
      rw [a5]; omega
    have hs : Sd → G'.curLoc ≠ 0 ∧ HonestBut Q G' ∧ ∃ l,
        (if a.lowerBound > (stored G').length then (.raise : PyRes (List Nat))
          else .ret (stored G')) = .ret l ∧ IsCliqueList S n l ∧
        (a.useDfs = true → IsMaxCliqueList S n l ∨ Q l.length) := by
      intro s
      obtain ⟨pg2, G2, l, b1, b2, b3, b4, b5, b6, b7⟩ := search_honestBut_at h.py (h.honG s) hl
        h.mcs h.lim (h.hon s).1 (hb s) ht he.2
      rw [a1] at b1
      injection b1 with b1
      rw [Prod.mk.injEq] at b1
      obtain ⟨rfl, b1⟩ := b1
      have : G2 = G' := by
        have := a2.g
        rw [b5] at this
        injection this
      subst this
      exact ⟨b3, b4, l, b1, b6, b7⟩
    obtain ⟨Gs', c1⟩ := h.resume a2 a3 a4 (a6 h.mcs).1 hlim (fun s => ⟨(hs s).1, (hs s).2.1⟩)
    refine ⟨pg', Gs', G', .found a _, ?_, c1, fun s => (hs s).2.2, by simp, a3, a2.ok.cur, a4⟩
    show (pg.getMaxClique srt a >>= _) = _
    rw [a1, ok_bind]
  | reset =>
    have F := reset_frame G 1
    have ok := h.py.ok
    have hsp := stored_pos_at h.py
    obtain ⟨L, r1, r2⟩ := ok.room
    have ok' : OkAt G.searchCur { G with curMax := 1 } :=
      ⟨F.wf ok.wf, ok.cur, ok.bot, ⟨L, fun v hv => by rw [F.rootCand]; exact r1 v hv, r2⟩, ok.zero,
        ok.pad, fun v hv => (F.isCl v _).2 (ok.cliq v hv), ok.loc⟩
    obtain ⟨Gs', c1⟩ := h.resume (pg' := { pg with
        G := some { G with curMax := 1 }, finishedAll := false, currentVertex := 0 })
      ⟨rfl, h.py.nv, h.py.pos, ok', h.py.of.frame F⟩ F (fun _ _ _ => rfl)
      (McsOk.congr F (Nat.le_refl _) (fun _ => rfl) h.mcs) h.lim
      (fun s => ⟨(h.hon s).1, Or.inl hsp⟩)
    refine ⟨_, Gs', _, .reset, ?_, c1, trivial, by simp, F, rfl, fun _ _ _ => rfl⟩
    show (pg.resetSearch >>= _) = _
    unfold PyGraph.resetSearch
    rw [h.py.g, ok_bind]
  | list j =>
    obtain ⟨G', cs, a1, a2, a3, a4, a5, a6, a7, a8, a9⟩ := listCliques_at h.py (hQ j rfl)
    have hV : ∀ v, G'.V v = G.V v := a3.V
    obtain ⟨Gs', c1⟩ := h.resume (pg' := { pg with G := some G' })
      ⟨rfl, h.py.nv, h.py.pos, a2, h.py.of.frame a3.frame⟩ a3.frame a3.low
      (McsOk.congr a3.frame (by rw [a3.lim]) (fun v => by rw [hV]) h.mcs)
      (by rw [a3.lim]; exact h.lim)
      (fun s => ⟨by rw [a3.loc]; exact (h.hon s).1, by
        have := h.honG s
        unfold HonestBut at this ⊢
        rcases a3.stored_length h.py.ok.loc with e | e
        · rw [e, a3.cm]; exact this
        · exact Or.inr e⟩)
    refine ⟨_, Gs', _, .list j cs, ?_, c1, ⟨a4, fun l => ?_⟩, by simp, a3.frame, a2.cur, a3.low⟩
    · show (pg.listCliques j >>= _) = _
      rw [a1, ok_bind]
    · have hj : j = 0 ∨ j = 1 ∨ 2 ≤ j := by omega
      rcases hj with rfl | rfl | hj
      · rw [a8 rfl]; simp [Wanted]
      · rw [a7 rfl, wanted_one]
        simp only [List.mem_map, List.mem_range'_1]
        constructor
        · rintro ⟨v, h1, rfl⟩; exact ⟨v, by omega, by omega, rfl⟩
        · rintro ⟨v, h1, h2, rfl⟩; exact ⟨v, by omega, rfl⟩
      · constructor
        · intro hl
          exact ⟨(a5 l hl).1, (a5 l hl).2, by omega, fun _ => a6 hj l hl⟩
        · rintro ⟨h1, h2, _, h4⟩
          exact a9 h.mcs (by rw [← h2]; exact h.lim l h1) hj l h1 h2 (h4 hj)

theorem acts_spec (hQk : Q k) : ∀ (xs : List Act) {pg : PyGraph} {Gs G : Graph} {E : Enum}
    {T : Finset (List Nat)}, Held Sd Q b k pg n S Gs G E T →
    (∀ op, Act.call op ∈ xs → op.Legal ∧ op.Exact S n ∧ op.Untimed ∧ (Sd → op.Unbounded)) →
    (∀ j, Act.call (.list j) ∈ xs → Q j) →
    ∃ (pg' : PyGraph) (E' : Enum) (ss : List Seen) (cs : List (List Nat)),
      acts xs pg E = .ok (pg', E', ss) ∧ cs.Nodup ∧ (∀ l, l ∈ cs ↔ l ∈ T) ∧
      Seen.answers ss = (cs.map some ++ List.replicate (xs.countP Act.isNext) none).take
        (xs.countP Act.isNext) ∧
      ∀ s ∈ ss, SeenOk Sd Q S n s := by
  intro xs
  induction xs with
  | nil =>
    intro pg Gs G E T h _ _
    exact ⟨pg, E, [], T.toList, rfl, T.nodup_toList, fun l => Finset.mem_toList, by
      simp [Seen.answers], by simp⟩
  | cons x xs ih =>
    intro pg Gs G E T h hc hQ
    have hc' : ∀ op, Act.call op ∈ xs → _ := fun op ho => hc op (List.mem_cons_of_mem _ ho)
    have hQ' : ∀ j, Act.call (.list j) ∈ xs → Q j := fun j ho => hQ j (List.mem_cons_of_mem _ ho)
    cases x with
    | next =>
      obtain ⟨pg1, G1, E1, c, T1, a1, a2, a3⟩ := h.next hQk
      obtain ⟨pg2, E2, ss, cs, b1, b2, b3, b4, b5⟩ := ih a2 hc' hQ'
      have hrun : acts (Act.next :: xs) pg E = .ok (pg2, E2, .next c :: ss) := by
        show ((pg.nextClique E >>= _) >>= _) = _
        rw [a1, ok_bind, ok_bind]
        show (acts xs pg1 E1 >>= _) = _
        rw [b1, ok_bind]
      have hcnt : (Act.next :: xs).countP Act.isNext = xs.countP Act.isNext + 1 := by
        rw [List.countP_cons]; rfl
      rcases a3 with ⟨l, rfl, hl, rfl⟩ | ⟨rfl, rfl, rfl, _⟩
      · refine ⟨pg2, E2, _, l :: cs, hrun, ?_, ?_, ?_, ?_⟩
        · rw [List.nodup_cons]
          exact ⟨fun hm => by simpa using (b3 l).1 hm, b2⟩
        · intro l'
          rw [List.mem_cons, b3, Finset.mem_erase]
          constructor
          · rintro (rfl | h)
            · exact hl
            · exact h.2
          · intro hl'
            by_cases he : l' = l
            · exact Or.inl he
            · exact Or.inr ⟨he, hl'⟩
        · rw [hcnt]
          show some l :: Seen.answers ss = _
          rw [b4]
          simp only [List.map_cons, List.cons_append, List.take_succ_cons]
          congr 1
          rw [List.take_append, List.take_append]
          congr 1
          rw [List.take_replicate, List.take_replicate]
          congr 1
          omega
        · intro s hs
          rcases List.mem_cons.1 hs with rfl | hs
          · trivial
          · exact b5 s hs
      · have hcs : cs = [] := by
          rw [List.eq_nil_iff_forall_not_mem]
          intro l hl
          simpa using (b3 l).1 hl
        subst hcs
        refine ⟨pg2, E2, _, [], hrun, b2, b3, ?_, ?_⟩
        · rw [hcnt]
          show none :: Seen.answers ss = _
          rw [b4]
          simp [List.replicate_succ]
        · intro s hs
          rcases List.mem_cons.1 hs with rfl | hs
          · trivial
          · exact b5 s hs
    | call op =>
      obtain ⟨h1, h2, h3, h4⟩ := hc op (List.mem_cons_self ..)
      obtain ⟨pg1, Gs1, G1, s, a1, a2, a3, a4, _⟩ := h.call h1 h2 h3 h4
        (fun j hj => hQ j (by rw [hj]; exact List.mem_cons_self ..))
      obtain ⟨pg2, E2, ss, cs, b1, b2, b3, b4, b5⟩ := ih a2 hc' hQ'
      have hcnt : (Act.call op :: xs).countP Act.isNext = xs.countP Act.isNext := by
        rw [List.countP_cons]; rfl
      refine ⟨pg2, E2, s :: ss, cs, ?_, b2, b3, ?_, ?_⟩
      · show ((Act.call op).run pg E >>= _) = _
        rw [a1, ok_bind]
        show (acts xs pg1 E >>= _) = _
        rw [b1, ok_bind]
      · rw [hcnt, ← b4]
        cases s with
        | next c => exact absurd rfl (a4 c)
        | found a r => rfl
        | reset => rfl
        | list j cs => rfl
      · intro s' hs
        rcases List.mem_cons.1 hs with rfl | hs
        · exact a3
        · exact b5 s' hs

end CM
