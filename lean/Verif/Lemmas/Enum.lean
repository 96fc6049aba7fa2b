import Verif.Lemmas.EnumFor
import Verif.Lemmas.Api

/-! # `CliqueEnumerator::process_graph` (enumerate.cpp:27-229) -/

namespace CM

namespace Graph

/-- Everything but the memory contents is the same. -/
structure Core (G G' : Graph) : Prop where
  frame : Frame G G'
  lim : G'.limit = G.limit
  vs : G'.vs = G.vs
  cm : G'.curMax = G.curMax
  loc : G'.curLoc = G.curLoc

theorem Core.refl (G : Graph) : Core G G := ⟨Frame.refl _, rfl, rfl, rfl, rfl⟩

theorem Core.trans {G1 G2 G3 : Graph} (h : Core G1 G2) (h' : Core G2 G3) : Core G1 G3 :=
  ⟨h.frame.trans h'.frame, h'.lim.trans h.lim, h'.vs.trans h.vs, h'.cm.trans h.cm,
    h'.loc.trans h.loc⟩

/-- `Core`; every stored clique is the old one or one of those `P` allows; and the
memory between the stored cliques and `b` is the same. -/
structure CoreS (P : Nat → Finset Nat → Prop) (b : Nat) (G G' : Graph) : Prop
    extends Core G G' where
  keep : ∀ v, v < G.nVert →
    bset G'.eb (G.vb v) = bset G.eb (G.vb v) ∨ P v (bset G'.eb (G.vb v))
  low : ∀ a, 64 * G.ebSize ≤ a → a < 64 * b → bitAt G'.eb a = bitAt G.eb a

/-- `CoreS`, where cliques of the sizes `Q` are allowed. -/
abbrev CoreAt (Q : Nat → Prop) (b : Nat) (G G' : Graph) : Prop := CoreS (sized Q) b G G'

theorem CoreS.refl (P : Nat → Finset Nat → Prop) (b : Nat) (G : Graph) : CoreS P b G G :=
  ⟨Core.refl _, fun _ _ => Or.inl rfl, fun _ _ _ => rfl⟩

theorem CoreAt.refl (Q : Nat → Prop) (b : Nat) (G : Graph) : CoreAt Q b G G := CoreS.refl _ b G

theorem CoreS.trans {P : Nat → Finset Nat → Prop} {b b' : Nat} {G1 G2 G3 : Graph} (hb : b ≤ b')
    (h : CoreS P b G1 G2) (h' : CoreS P b' G2 G3) : CoreS P b G1 G3 := by
  refine ⟨h.toCore.trans h'.toCore, fun v hv => ?_, fun a h1 h2 => ?_⟩
  · have h1 := h.keep v hv
    have h2 := h'.keep v (by rw [h.frame.nVert]; exact hv)
    rw [h.frame.vb] at h2
    rcases h2 with h2 | h2
    · rw [h2]; exact h1
    · exact Or.inr h2
  · rw [h'.low a (by rw [h.frame.ebSize]; exact h1) (by omega), h.low a h1 h2]

theorem CoreS.weaken {P P' : Nat → Finset Nat → Prop} {b : Nat} {G G' : Graph}
    (h : CoreS P b G G') (hP : ∀ v C, P v C → P' v C) : CoreS P' b G G' :=
  ⟨h.toCore, fun v hv => (h.keep v hv).imp_right (hP _ _), h.low⟩

theorem EUpd.core {r B : Nat} {G0 G : Graph} (h : EUpd r B G0 G) : Core G0 G :=
  ⟨h.frame, h.lim, h.vs, h.cm, h.loc⟩

theorem Core.V {G G' : Graph} (h : Core G G') (v : Nat) : G'.V v = G.V v := by
  unfold Graph.V; rw [h.vs]

theorem EUpdS.core {P : Nat → Finset Nat → Prop} {r b : Nat} {G0 G : Graph} (h : EUpdS P r b G0 G)
    (w : WF G0) (hr : r < G0.nVert) (hb : G0.ebSize < b) : CoreS P b G0 G := by
  have hEr := w.eboEnd r hr
  refine ⟨h.toEUpd.core, fun v hv => ?_, fun a h1 h2 => h.out a h2 (by omega)⟩
  by_cases hvr : v = r
  · subst hvr; exact h.keep
  · left
    have hE := w.eboEnd v hv
    apply bset_congr rfl
    intro i hi
    have := @dlen_le (G0.V v).N
    simp only [vb] at hi ⊢
    exact h.out _ (by omega) (vb_disj w hv hr hvr (by omega) (by omega))

/-- During an enumeration all stored cliques remain cliques. -/
theorem EUpdS.mid {P : Nat → Finset Nat → Prop} {r b : Nat} {G0 G : Graph} (h : EUpdS P r b G0 G)
    (ok : OkAt b G0) (hr : r < G0.nVert) :
    ∀ v, v < G0.nVert → PadZero G.eb (G.vb v) ∧ IsCl G v (bset G.eb (G.vb v)) := by
  have w := ok.wf
  have F := h.frame
  have hs := ok.bot
  intro v hv
  rw [F.isCl, F.vb]
  by_cases hvr : v = r
  · subst hvr; exact ⟨h.pad, h.cl⟩
  · have hE := w.eboEnd v hv
    have hwin : ∀ i, i < 64 * dlen (G0.V v).N →
        bitAt G.eb (64 * (G0.V v).ebo + i) = bitAt G0.eb (64 * (G0.V v).ebo + i) := by
      intro i hi
      exact h.out _ (by omega) (vb_disj w hv hr hvr (by omega) (by omega))
    have hset : bset G.eb (G0.vb v) = bset G0.eb (G0.vb v) := by
      apply bset_congr rfl
      intro i hi
      have := @dlen_le (G0.V v).N
      exact hwin i (by simp only [vb] at hi; omega)
    rw [hset]
    refine ⟨?_, ok.cliq v hv⟩
    intro i h1 h2
    simp only [vb] at h1 h2 ⊢
    rw [hwin i h2]
    exact ok.pad v hv i h1 h2

/-- Popping the rest of an enumeration's scratch memory restores the object invariant. -/
theorem EUpdS.pop {P : Nat → Finset Nat → Prop} {b r n : Nat} {G0 G : Graph} (h : EUpdS P r b G0 G)
    (ok : OkAt b G0) (hr : r < G0.nVert) (hn : G.searchCur = b + n)
    (hlen : G.searchCur ≤ G0.eb.length)
    (hz : ∀ a, 64 * G.searchCur ≤ a → bitAt G.eb a = false) :
    ∃ G', G.clearMemory n = .ok G' ∧ OkAt b G' ∧ CoreS P b G0 G' := by
  have w := ok.wf
  have hs := ok.bot
  have hebo := w.eboEnd r hr
  have hebl := h.frame.ebl
  have hebb := w.eblen
  obtain ⟨m1, d1, d2, d3⟩ := clearMemory_spec (G := G) n (by omega) (by omega) (by omega)
  have hb : G.searchCur - n = b := by omega
  rw [hb] at d1 d3
  have U : EUpdS P r b G0 { G with searchCur := b, eb := m1 } :=
    h.scratch (by omega) m1 _ d2 (fun a ha => by rw [d3, if_neg (by omega)])
  have F := U.frame
  obtain ⟨L, r1, r2⟩ := ok.room
  refine ⟨_, d1, ⟨F.wf w, rfl, by rw [F.ebSize]; exact hs, ⟨L, ?_, ?_⟩, ?_, ?_, ?_, ?_⟩,
    U.core w hr hs⟩
  · intro v hv
    rw [F.nVert] at hv
    rw [F.rootCand]; exact r1 v hv
  · rw [F.maxDeg, F.ebl]; exact r2
  · intro a ha
    show bitAt m1 a = false
    rw [d3]
    split
    · rfl
    · exact hz a (by omega)
  · intro v hv; rw [F.nVert] at hv; exact (U.mid ok hr v hv).1
  · intro v hv; rw [F.nVert] at hv; exact (U.mid ok hr v hv).2
  · rw [F.nVert, U.loc]; exact ok.loc

theorem pop_nothing_at {P : Nat → Finset Nat → Prop} {b : Nat} {G : Graph} (ok : OkAt b G) :
    ∃ G', G.clearMemory 0 = .ok G' ∧ OkAt b G' ∧ CoreS P b G G' := by
  have w := ok.wf
  obtain ⟨L, _, har⟩ := ok.room
  exact (⟨EUpd.refl (ok.pad 0 w.npos) (ok.cliq 0 w.npos), Or.inl rfl⟩ : EUpdS P 0 b G G).pop ok
    w.npos (n := 0) (by rw [ok.cur]; rfl) (by rw [ok.cur]; omega)
    (fun a ha => ok.zero a (by rw [ok.cur] at ha; exact ha))

/-- `PendC` depends only on the graph and the root. -/
theorem PendC_iff {G G' : Graph} (F : Frame G G') {p p' : SPar} (hp : p.r = p'.r) (m : Mem)
    (k : Nat) (C : Finset Nat) : ∀ states, PendC G' p' m k C states ↔ PendC G p m k C states := by
  intro states
  induction states with
  | nil => exact Iff.rfl
  | cons s rest ih =>
    unfold PendC
    rw [ih, hp]
    simp only [A, F.nadj, F.e]

/-- A canonical parameter for `PendC`. -/
def par (r : Nat) : SPar := ⟨r, 0, 0, 0, 0⟩

/-- The rooted cliques of size `k` an enumerator still has to report. -/
def Pnd (Gs : Graph) (k : Nat) (G : Graph) (E : Enum) (r : Nat) (C : Finset Nat) : Prop :=
  (r = E.cur ∧ PendC Gs (par E.cur) G.eb k C E.states) ∨
  (E.cur < r ∧ r < Gs.nVert ∧ k ≤ (Gs.V r).mcs ∧ Rooted Gs r C ∧ C.card = k)

/-- The state of an enumerator between iterations of its loop.  It uses the scratch space
from `b`. -/
def EInv (Q : Nat → Prop) (b : Nat) (Gs : Graph) (k : Nat) (G : Graph) (E : Enum) : Prop :=
  E.required = k ∧ CoreAt Q b Gs G ∧
  ((E.states = [] ∧ E.cur < Gs.nVert ∧
      ∃ G', G.clearMemory E.req = .ok G' ∧ OkAt b G' ∧ CoreAt Q b Gs G') ∨
   (E.states = [] ∧ E.cur = Gs.nVert ∧ OkAt b G) ∨
   (E.states ≠ [] ∧ E.cliqueSize = E.states.length ∧ E.states.length + 1 ≤ k ∧
    nodes G.eb E.states < 2 ^ (Gs.maxDeg + 1) ∧ k ≤ (Gs.rootCand E.cur).card + 1 ∧
    ∃ G0 p, OkAt b G0 ∧ CoreAt Q b Gs G0 ∧ p.r = E.cur ∧ p.B = b ∧ p.Good G0 ∧
      EI G0 p Q G E.states ∧ E.req = p.req G0 ∧ p.L ≤ (Gs.rootCand E.cur).card + 1))

/-- Bound on the remaining iterations. -/
def emu (Gs : Graph) (s : Graph × Enum) : Nat :=
  (Gs.nVert - s.2.cur) * 2 ^ (Gs.maxDeg + 2) + nodes s.1.eb s.2.states

/-- The start of a rooted enumeration: pending are the rooted cliques. -/
theorem root_pend {G : Graph} (w : WF G) {r k : Nat} (hr : r < G.nVert) {m : Mem} {x : SState}
    (hx : x.id = (G.V r).spos) (hc : bset m x.cand = G.rootCand r) (C : Finset Nat) :
    PendC G (par r) m k C [x] ↔ (Rooted G r C ∧ C.card = k) := by
  have hns : (G.V r).spos ∉ G.rootCand r := by rw [mem_rootCand]; omega
  have hsp := w.spos r hr
  simp only [PendC, List.length_nil, or_false, hc, List.map_cons, List.map_nil, hx, par,
    Nat.zero_add]
  constructor
  · rintro ⟨X, x1, x2, x3, x4⟩
    have hCe : C = insert (G.V r).spos X := by rw [x3]; ext y; simp
    have hnX : (G.V r).spos ∉ X := fun h => hns (x1 h)
    refine ⟨⟨⟨by rw [hCe]; simp, ?_, ?_⟩, ?_⟩, ?_⟩
    · intro i hi
      rw [hCe, Finset.mem_insert] at hi
      rcases hi with rfl | hi
      · exact hsp
      · exact (mem_rootCand.1 (x1 hi)).1
    · intro i hi j hj
      rw [hCe, Finset.mem_insert] at hi hj
      rcases hi with rfl | hi <;> rcases hj with rfl | hj
      · exact A_refl w hr hsp
      · exact A_spos w hr (mem_rootCand.1 (x1 hj)).1
      · exact A_symm w hr hsp (A_spos w hr (mem_rootCand.1 (x1 hi)).1)
      · exact x2 i hi j hj
    · intro i hi hne
      rw [hCe, Finset.mem_insert] at hi
      rcases hi with h | hi
      · exact absurd h hne
      · exact x1 hi
    · rw [hCe, Finset.card_insert_of_notMem hnX]; omega
  · rintro ⟨⟨h1, h2⟩, h3⟩
    refine ⟨C.erase (G.V r).spos, ?_, ?_, ?_, ?_⟩
    · intro i hi
      rw [Finset.mem_erase] at hi
      exact h2 i hi.2 hi.1
    · intro a ha b hb
      exact h1.2.2 a (Finset.mem_of_mem_erase ha) b (Finset.mem_of_mem_erase hb)
    · ext y
      simp only [List.toFinset_cons, List.toFinset_nil, Finset.mem_union, Finset.mem_insert,
        Finset.mem_erase, Finset.notMem_empty, or_false]
      constructor
      · intro hy
        by_cases hys : y = (G.V r).spos
        · exact Or.inl hys
        · exact Or.inr ⟨hys, hy⟩
      · rintro (h | h)
        · rw [h]; exact h1.1
        · exact h.2
    · rw [Finset.card_erase_of_mem h1.1]
      have := Finset.card_pos.2 ⟨_, h1.1⟩
      omega

/-- enumerate.cpp:39-84 -/
theorem enumLoad_spec {Gs G : Graph} {E : Enum} {Q : Nat → Prop} {b k : Nat} (hQ : Q k)
    (ok : OkAt b G) (hc : CoreAt Q b Gs G)
    (hcur : E.cur < Gs.nVert) (hst : E.states = []) (hk : E.required = k) (h2 : 2 ≤ k) :
    (∃ G' req, G.enumLoad E = .ok (G', { E with req := req }, false) ∧ OkAt b G' ∧ CoreAt Q b Gs G' ∧
      ∀ C, Rooted Gs E.cur C → C.card ≠ k) ∨
    (∃ G' E', G.enumLoad E = .ok (G', E', true) ∧ E'.cur = E.cur ∧ EInv Q b Gs k G' E' ∧
      E'.states ≠ [] ∧
      ∀ C, PendC Gs (par E.cur) G'.eb k C E'.states ↔ (Rooted Gs E.cur C ∧ C.card = k)) := by
  have w := ok.wf
  have hr : E.cur < G.nVert := by rw [hc.frame.nVert]; exact hcur
  obtain ⟨L, hL, hroom⟩ := ok.room
  have hmax := dlen_mono (w.maxd E.cur hr)
  have hL0 := hL E.cur hr
  have hrm : (L + 2) * dlen (G.V E.cur).N ≤ (L + 2) * dlen G.maxDeg :=
    Nat.mul_le_mul_left _ hmax
  have hrm' : ((G.rootCand E.cur).card + 1 + 2) * dlen (G.V E.cur).N ≤
      (L + 2) * dlen (G.V E.cur).N := Nat.mul_le_mul_right _ (by omega)
  obtain ⟨p, G1, G2, x, eb, p1, p2, p3, g, r1, r2, r3, I, r4, r5, r6, _, r7⟩ :=
    root_spec w hr (by rw [ok.cur]; exact ok.bot) (Nat.le_refl _) (by rw [ok.cur]; omega)
      (by rw [ok.cur]; exact ok.zero) (ok.pad E.cur hr)
  have hreqd : p.req G = dlen (G.V E.cur).N := by unfold SPar.req; rw [p1]
  have hU : EUpdK Q E.cur b G G2 := by
    have U := I.upd
    rw [p1, p2, ok.cur] at U
    have hsame : bset G2.eb (G.vb E.cur) = bset G.eb (G.vb E.cur) := by
      rcases U.res with ⟨h1, _⟩ | ⟨_, _, h1, _⟩
      · have hE := w.eboEnd E.cur hr
        have hs := ok.bot
        apply bset_congr rfl
        intro i hi
        have := @dlen_le (G.V E.cur).N
        simp only [vb] at hi ⊢
        exact h1 _ (by omega)
      · omega
    refine ⟨⟨U.frame, U.lim, by rw [r7], by rw [r7], by rw [r7], U.out, U.pad, ?_⟩, Or.inl hsame⟩
    rw [hsame]; exact ok.cliq _ hr
  have hid : x.id = (G.V E.cur).spos := by
    have h := I.lv
    unfold Lv at h
    rw [h.2.2.2.2.2.1 rfl, p1]
  have hcand : bset G2.eb x.cand = G.rootCand E.cur := by rw [r3]; exact r4
  unfold enumLoad
  rw [vtx_ok w hr, ok_bind]
  simp only
  rw [r1, ok_bind]
  simp only
  rw [r2, ok_bind]
  simp only
  rw [← r3, hk]
  by_cases hpot : 1 + (G.rootCand E.cur).card < k
  · left
    rw [if_pos hpot]
    have h2L : 2 * dlen (G.V E.cur).N ≤ (L + 2) * dlen (G.V E.cur).N :=
      Nat.mul_le_mul_right _ (by omega)
    obtain ⟨G', q1, q2, q3⟩ := hU.pop ok hr (n := 2 * dlen (G.V E.cur).N)
      (by rw [r6, ok.cur]) (by rw [r6, ok.cur]; omega) I.zero
    rw [q1, ok_bind]
    refine ⟨G', _, rfl, q2, hc.trans (Nat.le_refl _) q3, ?_⟩
    intro C hC hcard
    have hC' : Rooted G E.cur C := (hc.frame.rooted _ _).2 hC
    have hsub : C ⊆ insert (G.V E.cur).spos (G.rootCand E.cur) := by
      intro i hi
      rw [Finset.mem_insert]
      by_cases h : i = (G.V E.cur).spos
      · exact Or.inl h
      · exact Or.inr (hC'.2 i hi h)
    have h1 := Finset.card_le_card hsub
    have h2 := Finset.card_insert_le (G.V E.cur).spos (G.rootCand E.cur)
    omega
  · right
    rw [if_neg hpot]
    refine ⟨_, _, rfl, rfl, ⟨rfl, hc.trans (Nat.le_refl _) (hU.core w hr ok.bot),
      Or.inr (Or.inr ?_)⟩, by simp, ?_⟩
    · simp only [hst]
      refine ⟨by simp, by simp, by simp only [List.length_cons, List.length_nil]; omega, ?_,
        by rw [← hc.frame.rootCand]; omega, G, p, ok, hc, p1, by rw [p2, ok.cur], g, ?_, hreqd.symm,
        by rw [p3, ← hc.frame.rootCand]⟩
      · simp only [nodes]
        rw [hcand]
        have h1 := rootCand_card_lt w hr
        have h3 := w.maxd E.cur hr
        rw [hc.frame.maxDeg] at h3
        have h4 : 2 ^ ((G.rootCand E.cur).card + 1) ≤ 2 ^ (Gs.maxDeg + 1) :=
          Nat.pow_le_pow_right (by decide) (by omega)
        have h5 : 0 < 2 ^ ((G.rootCand E.cur).card + 1) := Nat.pos_of_ne_zero (by simp)
        clear * - h4 h5
        omega
      · refine ⟨?_, I.sc, I.lv, trivial, I.res, I.zero⟩
        rw [p1, p2, ok.cur]; exact hU
    · intro C
      simp only [hst]
      rw [← PendC_iff hc.frame (p := par E.cur) (p' := par E.cur) rfl]
      rw [root_pend w hr hid hcand, hc.frame.rooted]

/-- enumerate.cpp:27-36 -/
theorem enumVertex_spec {Gs G : Graph} {E : Enum} {Q : Nat → Prop} {b k : Nat} (hQ : Q k)
    (ok : OkAt b G) (hc : CoreAt Q b Gs G)
    (hcur : E.cur < Gs.nVert) (hst : E.states = []) (hk : E.required = k) (h2 : 2 ≤ k) :
    ∃ G' E', G.enumVertex E = .ok (G', E') ∧ EInv Q b Gs k G' E' ∧ E.cur < E'.cur ∧
      E'.cur ≤ Gs.nVert ∧
      ∀ r C, Pnd Gs k G' E' r C ↔ Pnd Gs k G E r C := by
  have w := ok.wf
  have hvl : G.vs.length = Gs.nVert := by rw [w.vlen, hc.frame.nVert]
  unfold enumVertex
  obtain ⟨⟨G', E'⟩, h1, h3⟩ := loop_rule (fuel := G.vs.length + 1)
    (s := (G, { E with cur := E.cur + 1 }))
    (body := fun (s : Graph × Enum) => do
      let (G, E) := s
      if E.cur < G.vs.length then do
        let V ← G.vtx E.cur
        if V.mcs < E.required then .ok (.inl (G, { E with cur := E.cur + 1 }))
        else do
          let (G, E, b) ← G.enumLoad E
          if b then .ok (.inr (G, E))
          else .ok (.inl (G, { E with cur := E.cur + 1 }))
      else .ok (.inr (G, E)))
    (fun s => OkAt b s.1 ∧ CoreAt Q b Gs s.1 ∧ s.2.states = [] ∧ s.2.required = k ∧ E.cur < s.2.cur ∧
      s.2.cur ≤ Gs.nVert ∧
      ∀ r C, (E.cur < r ∧ r < Gs.nVert ∧ k ≤ (Gs.V r).mcs ∧ Rooted Gs r C ∧ C.card = k) ↔
        (s.2.cur ≤ r ∧ r < Gs.nVert ∧ k ≤ (Gs.V r).mcs ∧ Rooted Gs r C ∧ C.card = k))
    (fun s => EInv Q b Gs k s.1 s.2 ∧ E.cur < s.2.cur ∧ s.2.cur ≤ Gs.nVert ∧
      ∀ r C, (E.cur < r ∧ r < Gs.nVert ∧ k ≤ (Gs.V r).mcs ∧ Rooted Gs r C ∧ C.card = k) ↔
        Pnd Gs k s.1 s.2 r C)
    (fun s => Gs.nVert - s.2.cur)
    (by
      rintro ⟨X, F⟩ ⟨a1, a2, a3, a4, a5, a6, a7⟩
      simp only at a1 a2 a3 a4 a5 a6 a7 ⊢
      have hvl' : X.vs.length = Gs.nVert := by rw [a1.wf.vlen, a2.frame.nVert]
      rw [hvl']
      by_cases hlt : F.cur < Gs.nVert
      · rw [if_pos hlt, vtx_ok a1.wf (by rw [a2.frame.nVert]; exact hlt), ok_bind, a2.V, a4]
        by_cases hm : (Gs.V F.cur).mcs < k
        · left
          rw [if_pos hm]
          refine ⟨_, rfl, ⟨a1, a2, a3, rfl, by simp only; omega, by simp only; omega, ?_⟩,
            by simp only; omega⟩
          intro r C
          rw [a7]
          constructor
          · rintro ⟨b1, b2, b3, b4⟩
            have : r ≠ F.cur := by rintro rfl; omega
            exact ⟨by simp only; omega, b2, b3, b4⟩
          · rintro ⟨b1, b2⟩
            exact ⟨by simp only at b1; omega, b2⟩
        · rw [if_neg hm]
          rcases enumLoad_spec hQ a1 a2 hlt a3 a4 h2 with
            ⟨G', req, b1, b2, b3, b4⟩ | ⟨G', E', b1, b2, b3, b4, b5⟩
          · left
            rw [b1, ok_bind]
            refine ⟨_, rfl, ⟨b2, b3, a3, a4, by simp only; omega, by simp only; omega, ?_⟩,
              by simp only; omega⟩
            intro r C
            rw [a7]
            constructor
            · rintro ⟨d1, d2, d3, d4, d5⟩
              have : r ≠ F.cur := by rintro rfl; exact b4 C d4 d5
              exact ⟨by simp only; omega, d2, d3, d4, d5⟩
            · rintro ⟨d1, d2⟩
              exact ⟨by simp only at d1; omega, d2⟩
          · right
            rw [b1, ok_bind]
            refine ⟨_, rfl, b3, by simp only; omega, by simp only; omega, ?_⟩
            intro r C
            rw [a7]
            unfold Pnd
            simp only
            rw [b2, b5]
            constructor
            · rintro ⟨d1, d2, d3, d4, d5⟩
              by_cases hrc : r = F.cur
              · left; exact ⟨hrc, by rw [← hrc]; exact ⟨d4, d5⟩⟩
              · right; exact ⟨by omega, d2, d3, d4, d5⟩
            · rintro (⟨d1, d2, d3⟩ | ⟨d1, d2⟩)
              · subst d1; exact ⟨Nat.le_refl _, hlt, by omega, d2, d3⟩
              · exact ⟨by omega, d2⟩
      · right
        rw [if_neg hlt]
        have hce : F.cur = Gs.nVert := by omega
        refine ⟨_, rfl, ⟨a4, a2, Or.inr (Or.inl ⟨a3, hce, a1⟩)⟩, a5, a6, ?_⟩
        intro r C
        rw [a7]
        unfold Pnd
        simp only [a3, PendC, and_false, false_or]
        rw [hce]
        constructor
        · rintro ⟨d1, d2, _⟩; omega
        · rintro ⟨d1, d2, _⟩; omega)
    (by
      refine ⟨ok, hc, hst, hk, by simp only; omega, by simp only; omega, ?_⟩
      intro r C
      exact Iff.rfl)
    (by simp only; omega)
  refine ⟨G', E', h1, h3.1, h3.2.1, h3.2.2.1, ?_⟩
  intro r C
  rw [← h3.2.2.2]
  unfold Pnd
  rw [hst]
  simp [PendC]

end Graph

end CM
