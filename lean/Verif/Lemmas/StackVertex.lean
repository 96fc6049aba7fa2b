import Verif.Lemmas.Stack

/-! # `StackDFS::process_vertex`, `StackDFS::process_graph` (dfs_stack.cpp:25-206) -/

namespace CM

theorem GBits.count_pad (b : GBits) (m : Mem) (hlen : 0 < b.len)
    (hin : b.off + dlen b.len ≤ m.length) (hp : PadZero m b) :
    b.count m = .ok (m, (bset m b).card) := by
  obtain ⟨m', h1, h2, h3⟩ := b.count_spec m hlen hin
  have : m' = m := by
    apply mem_ext h2
    intro a
    rw [h3]
    split
    · rename_i h
      have := hp (a - 64 * b.off) (by omega) (by omega)
      have he : 64 * b.off + (a - 64 * b.off) = a := by omega
      rw [he] at this
      exact this.symm
    · rfl
  rw [h1, this]

theorem ite_bind {α β : Type} (c : Prop) [Decidable c] (x y : M α) (f : α → M β) :
    ((if c then x else y) >>= f) = if c then x >>= f else y >>= f := by
  split <;> rfl

namespace Graph

variable {G0 : Graph} {p : SPar}

/-- The invariant of the `while` loop of `StackDFS::process_vertex`; `Q` says which
clique sizes were pending at the start. -/
def WInv (G0 : Graph) (p : SPar) (Q : Nat → Prop) (s : Graph × List SState × Nat) : Prop :=
  SInv G0 p s.1 s.2.1 ∧ s.2.2 = s.2.1.length ∧
    ∀ T, Q T → T ≤ s.1.curMax ∨ Pend G0 p s.1.eb T s.2.1

theorem stackBody_spec (g : p.Good G0) {Q : Nat → Prop} {s : Graph × List SState × Nat}
    (I : WInv G0 p Q s) :
    (∃ s', stackBody p.r (G0.V p.r) (p.req G0) s = .ok (.inl s') ∧ WInv G0 p Q s' ∧
      nodes s'.1.eb s'.2.1 < nodes s.1.eb s.2.1) ∨
    (∃ q, stackBody p.r (G0.V p.r) (p.req G0) s = .ok (.inr q) ∧ SInv G0 p q.1 q.2 ∧
      (q.2 = [] ∨ q.1.limit ≤ q.1.curMax) ∧
      ∀ T, Q T → T ≤ q.1.curMax ∨ Pend G0 p q.1.eb T q.2) := by
  obtain ⟨G, states, cs⟩ := s
  obtain ⟨I, hcs, hQ⟩ := I
  simp only at I hcs hQ
  unfold stackBody
  simp only
  cases states with
  | nil => exact Or.inr ⟨_, rfl, I, Or.inl rfl, hQ⟩
  | cons top rest =>
    simp only
    by_cases hlim : G.curMax ≥ G.limit
    · rw [if_pos hlim]
      exact Or.inr ⟨_, rfl, I, Or.inr hlim, hQ⟩
    left
    rw [if_neg hlim]
    have w := g.wf
    have hNpos := N_pos w g.hr
    have hlv := I.lv
    unfold Lv at hlv
    obtain ⟨l1, l2, l3, l4, l5, l6, l7, l8, l9, l10, l11⟩ := hlv
    have hreqd : p.req G0 = dlen (G0.V p.r).N := rfl
    have hoff : top.cand.off = candOff G0 p rest.length := by rw [l2]
    have hclen : top.cand.len = (G0.V p.r).N := by rw [l2]
    have hroff : top.res.off = p.ro := by rw [l1]
    have hce := candOff_end g rest.length
    have hlen1 : (rest.length + 2) * p.req G0 ≤ (p.L + 2) * p.req G0 :=
      Nat.mul_le_mul_right _ (by omega)
    have hroom := g.room
    have hebl := I.upd.frame.ebl
    have hin : top.cand.off + dlen top.cand.len ≤ G.eb.length := by
      rw [hoff, hclen]; omega
    rw [top.cand.count_pad G.eb (by omega) hin l8, ok_bind]
    simp only
    obtain ⟨sa, n1, n2, n3, n4, n5⟩ := top.cand.next_spec G.eb top.startAt hin l8
      (by rw [hclen]; exact l7)
    rw [n1, ok_bind]
    rw [hclen] at n3 n4
    have I1 : SInv G0 p G ({ top with startAt := sa } :: rest) := by
      refine ⟨I.upd, I.sc, ?_, I.res, I.zero, I.rt⟩
      unfold Lv
      refine ⟨l1, l2, l3, l4, l5, l6, n3, l8, ?_, l10, l11⟩
      intro c hc
      have h := l9 c hc
      refine ⟨n5 c hc h.1, h.2.1, ?_⟩
      intro t ht
      rcases List.mem_cons.1 ht with ht | ht
      · rw [ht]; exact h.2.2 top (by simp)
      · exact h.2.2 t (by simp [ht])
    have hcs' : cs = rest.length + 1 := by simpa using hcs
    subst hcs'
    have hcardN : (bset G.eb top.cand).card ≤ (G0.V p.r).N := by
      have : bset G.eb top.cand ⊆ Finset.range (G0.V p.r).N := by
        intro x hx; rw [Finset.mem_range, ← hclen]; exact (mem_bset.1 hx).1
      simpa using Finset.card_le_card this
    obtain ⟨q, hq1, hq2⟩ := loop_rule
      (body := stackFor p.r (G0.V p.r) (p.req G0) (rest.length + 1))
      (fun (s : Graph × SState × Nat) => SInv G0 p s.1 (s.2.1 :: rest) ∧
        s.2.2 = (bset s.1.eb s.2.1.cand).card ∧
        (s.2.1.startAt < (G0.V p.r).N → s.2.1.startAt ∈ bset s.1.eb s.2.1.cand) ∧
        nodes s.1.eb (s.2.1 :: rest) ≤ nodes G.eb (top :: rest) ∧
        ∀ T, Q T → T ≤ s.1.curMax ∨ Pend G0 p s.1.eb T (s.2.1 :: rest))
      (fun (q : ForExit) => match q with
        | .pushed G' top' new => SInv G0 p G' (new :: top' :: rest) ∧
            nodes G'.eb (new :: top' :: rest) < nodes G.eb (top :: rest) ∧
            ∀ T, Q T → T ≤ G'.curMax ∨ Pend G0 p G'.eb T (new :: top' :: rest)
        | .done G' top' j => j = (G0.V p.r).N ∧ SInv G0 p G' (top' :: rest) ∧
            bset G'.eb top'.cand = ∅ ∧ nodes G'.eb (top' :: rest) ≤ nodes G.eb (top :: rest) ∧
            ∀ T, Q T → T ≤ G'.curMax ∨ Pend G0 p G'.eb T (top' :: rest))
      (fun s => s.2.2)
      (by
        rintro ⟨G1, top1, left1⟩ ⟨a1, a2, a3, a4, a5⟩
        simp only at a1 a2 a3 a4 a5
        rcases stackFor_spec g a1 a2 a3 with
          ⟨G', top', left', b1, b2, b3, b4, b5, b6, b7, b8⟩ |
          ⟨G', top', new, b1, b2, b3, b4, b5⟩ | ⟨b1, b2⟩
        · left
          refine ⟨_, b1, ⟨b2, b3, b4, ?_, ?_⟩, b5⟩
          · simp only [nodes] at a4 ⊢
            rw [b6, ← b3]
            rw [← a2] at a4
            have : 2 ^ (left' + 1) ≤ 2 ^ (left1 + 1) := Nat.pow_le_pow_right (by decide) (by omega)
            omega
          · intro T hT
            simp only
            rcases a5 T hT with h | h
            · left; omega
            · exact b8 T h
        · right
          refine ⟨_, b1, b2, by omega, ?_⟩
          intro T hT
          rcases a5 T hT with h | h
          · left; omega
          · exact b5 T h
        · right
          exact ⟨_, b1, rfl, a1, b2, a4, a5⟩)
      (s := ({ G with eb := G.eb }, { top with startAt := sa }, (bset G.eb top.cand).card))
      (fuel := (G0.V p.r).N + 2)
      (by
        refine ⟨I1, rfl, n4, by simp [nodes], ?_⟩
        intro T hT
        rcases hQ T hT with h | h
        · exact Or.inl h
        · right; simpa only [Pend] using h)
      (by simp only; omega)
    rw [hq1, ok_bind]
    cases q with
    | pushed G' top' new =>
      obtain ⟨c1, c2, c3⟩ := hq2
      exact ⟨_, rfl, ⟨c1, by simp, c3⟩, c2⟩
    | done G' top' j =>
      obtain ⟨c1, I2, c3, c4, c5⟩ := hq2
      simp only
      rw [if_pos c1]
      clear l1 l2 l3 l4 l5 l6 l7 l8 l9 l10 l11 hlen1 hin hoff hclen hroff
      have hlv := I2.lv
      unfold Lv at hlv
      obtain ⟨l1, l2, l3, l4, l5, l6, l7, l8, l9, l10, l11⟩ := hlv
      have hroff : top'.res.off = p.ro := by rw [l1]
      have hebl := I2.upd.frame.ebl
      have hlen1 : (rest.length + 2) * p.req G0 ≤ (p.L + 2) * p.req G0 :=
        Nat.mul_le_mul_right _ (by omega)
      have hlen2 : (rest.length + 2) * p.req G0 = (rest.length + 1) * p.req G0 + p.req G0 :=
        Nat.succ_mul _ _
      have hlen3 : 1 * p.req G0 ≤ (rest.length + 1) * p.req G0 :=
        Nat.mul_le_mul_right _ (by omega)
      have hsc : G'.searchCur = p.B + (rest.length + 2) * p.req G0 := I2.sc
      have hebb := w.eblen
      obtain ⟨m1, d1, d2, d3⟩ := clearMemory_spec (G := G') (p.req G0) (by omega) (by omega)
        (by omega)
      rw [d1, ok_bind]
      simp only
      have hrc := g.hrc
      have hid := div_lt_dlen l3
      obtain ⟨m2, e1, e2, e3⟩ := top'.res.reset_spec m1 top'.id (by rw [hroff]; omega)
      rw [e1, ok_bind]
      rw [hroff] at e3
      have hsc' : G'.searchCur - p.req G0 = p.B + (rest.length + 1) * p.req G0 := by omega
      rw [hsc'] at d3
      have hbit : ∀ a, bitAt m2 a = (!decide (a = 64 * p.ro + top'.id) &&
          (if 64 * (p.B + (rest.length + 1) * p.req G0) ≤ a then false else bitAt G'.eb a)) := by
        intro a
        rw [e3, d3]
        by_cases h1 : 64 * (p.B + (rest.length + 1) * p.req G0) ≤ a
        · rw [if_pos h1]
          by_cases h2 : a < 64 * G'.searchCur
          · rw [if_pos ⟨h1, h2⟩]
          · rw [if_neg (by omega), I2.zero a (by omega)]
        · rw [if_neg h1, if_neg (by omega)]
      have hlow : ∀ l, l < rest.length → ∀ i, i < 64 * p.req G0 →
          bitAt m2 (64 * candOff G0 p l + i) = bitAt G'.eb (64 * candOff G0 p l + i) := by
        intro l hl i hi
        have h1 := candOff_end g l
        have h2 : (l + 2) * p.req G0 ≤ (rest.length + 1) * p.req G0 :=
          Nat.mul_le_mul_right _ (by omega)
        have h3 := ro_candOff g l
        have hdl := @dlen_le (G0.V p.r).N
        rw [hbit, if_neg (by omega)]
        have : ¬ (64 * candOff G0 p l + i = 64 * p.ro + top'.id) := by omega
        simp [this]
      obtain ⟨f1, f2, f3⟩ := Lv_congr G'.eb m2 rest hlow l11
      have hdl := @dlen_le (G0.V p.r).N
      have hebo := w.eboEnd p.r g.hr
      have hBB := g.hB
      have husub : usub (rest.length + 1) 1 = rest.length := by
        have : p.L + 2 ≤ (p.L + 2) * p.req G0 := Nat.le_mul_of_pos_right _ (dlen_pos hNpos)
        rw [usub_eq (by omega) (by omega)]; omega
      have hrt := I2.rt
      unfold Rt at hrt
      refine ⟨_, rfl, ⟨⟨?_, ?_, f1, ?_, ?_, Rt_congr G'.eb m2 rest hlow l11 hrt.2.2⟩,
        by simp only; exact husub, ?_⟩, ?_⟩
      · exact I2.upd.scratch (by omega) m2 _ (e2.trans d2) (fun a ha => by
          rw [hbit, if_neg (by omega)]
          have : ¬ (a = 64 * p.ro + top'.id) := by omega
          simp [this])
      · simp only; exact hsc'
      · intro i hi
        simp only
        rw [hbit]
        by_cases h1 : 64 * (p.B + (rest.length + 1) * p.req G0) ≤ 64 * p.ro + i
        · rw [if_pos h1, Bool.and_false]
          have h0 : rest = [] := by
            by_contra hne
            have : 1 ≤ rest.length := by
              cases rest with
              | nil => exact absurd rfl hne
              | cons _ _ => simp
            have : 2 * p.req G0 ≤ (rest.length + 1) * p.req G0 :=
              Nat.mul_le_mul_right _ (by omega)
            omega
          rw [h0]; simp
        · rw [if_neg h1, I2.res i hi]
          by_cases h2 : i = top'.id
          · subst h2
            simp [l4]
          · have h3 : ¬ (64 * p.ro + i = 64 * p.ro + top'.id) := by omega
            simp [h3, h2]
      · intro a ha
        simp only at ha ⊢
        rw [hsc'] at ha
        rw [hbit, if_pos ha]; simp
      · intro T hT
        simp only
        rcases c5 T hT with h | h
        · exact Or.inl h
        · right
          unfold Pend at h
          rcases h with ⟨X, x1, x2, _⟩ | h
          · rw [c3] at x1
            obtain ⟨x, hx⟩ := x2
            exact absurd (x1 hx) (by simp)
          · exact f2 T h
      · simp only
        refine Nat.lt_of_lt_of_le ?_ c4
        rw [f3]
        simp only [nodes, c3]
        simp

theorem Frame.rooted {G G' : Graph} (h : Frame G G') (r : Nat) (S : Finset Nat) :
    Rooted G' r S ↔ Rooted G r S := by
  unfold Rooted; rw [h.isCl, h.sp, h.rootCand]

/-- `rootState` followed by `fillCand`: the state in which a rooted search starts. -/
theorem root_spec {G : Graph} (w : WF G) {r L : Nat} (hr : r < G.nVert)
    (hB : G.ebSize < G.searchCur) (hL : (G.rootCand r).card + 1 ≤ L)
    (room : G.searchCur + (L + 2) * dlen (G.V r).N ≤ G.eb.length)
    (zero : ∀ a, 64 * G.searchCur ≤ a → bitAt G.eb a = false)
    (pad : PadZero G.eb (G.vb r)) :
    ∃ (p : SPar) (G1 G2 : Graph) (x : SState) (eb : Mem),
      p.r = r ∧ p.B = G.searchCur ∧ p.L = L ∧ p.Good G ∧
      G.rootState (G.V r) (dlen (G.V r).N) = .ok (G1, x) ∧
      G1.fillCand (G.V r) x.cand G1.eb = .ok (eb, 1 + (G.rootCand r).card) ∧
      G2 = { G1 with eb := eb } ∧ SInv G p G2 [x] ∧ bset eb x.cand = G.rootCand r ∧
      G2.curMax = G.curMax ∧ G2.searchCur = G.searchCur + 2 * dlen (G.V r).N ∧
      x.startAt = 0 ∧ G2 = { G with searchCur := G.searchCur + 2 * dlen (G.V r).N, eb := eb } := by
  have hebb := w.eblen
  have hNpos := N_pos w hr
  have hsp := w.spos r hr
  have hdp := dlen_pos hNpos
  have hdl := @dlen_le (G.V r).N
  have h2L : (1 + 2) * dlen (G.V r).N ≤ (L + 2) * dlen (G.V r).N :=
    Nat.mul_le_mul_right _ (by omega)
  let ro := if G.argLR then G.searchCur else G.searchCur + dlen (G.V r).N
  let co := if G.argLR then G.searchCur + dlen (G.V r).N else G.searchCur
  have hrc : (ro = G.searchCur ∧ co = G.searchCur + dlen (G.V r).N) ∨
      (ro = G.searchCur + dlen (G.V r).N ∧ co = G.searchCur) := by
    simp only [ro, co]
    cases G.argLR <;> simp
  have hgood : SPar.Good G ⟨r, G.searchCur, ro, co, L⟩ := ⟨w, hr, hB, hrc, room, pad⟩
  let Ga : Graph := { G with searchCur := G.searchCur + dlen (G.V r).N + dlen (G.V r).N }
  obtain ⟨m1, s1, s2, s3⟩ := GBits.set_spec ⟨ro, (G.V r).N⟩ G.eb (G.V r).spos
    (by have := div_lt_dlen hsp; simp only; omega)
  have hroot : G.rootState (G.V r) (dlen (G.V r).N) =
      .ok ({ Ga with eb := m1 }, ⟨(G.V r).spos, 0, ⟨ro, (G.V r).N⟩, ⟨co, (G.V r).N⟩⟩) := by
    unfold rootState
    rw [loadMemory_eq _ (by omega)]
    simp only
    rw [loadMemory_eq _ (by simp only; omega)]
    simp only
    have hpair : (if G.argLR = true then (G.searchCur, G.searchCur + dlen (G.V r).N)
        else (G.searchCur + dlen (G.V r).N, G.searchCur)) = (ro, co) := by
      simp only [ro, co]
      cases G.argLR <;> rfl
    rw [hpair]
    simp only
    rw [s1, ok_bind]
  have F1 : Frame G { Ga with eb := m1 } := Frame.mk' G m1 _ G.curMax G.curLoc s2
  have w1 := F1.wf w
  obtain ⟨m2, t1, t2, t3⟩ := fillCand_spec w1 (r := r) (by rw [F1.nVert]; exact hr)
    ⟨co, (G.V r).N⟩ m1 (by simp only; rw [F1.N, s2]; omega)
  have hV : ({ Ga with eb := m1 } : Graph).V r = G.V r := rfl
  rw [hV, F1.rootCand] at t1
  rw [F1.rootCand] at t3
  simp only at s3 t3
  have hb : ∀ a, bitAt m2 a = (decide (64 * co ≤ a ∧ a - 64 * co ∈ G.rootCand r) ||
      (decide (a = 64 * ro + (G.V r).spos) || bitAt G.eb a)) := by
    intro a; rw [t3, s3]
  have hz : ∀ i, i < 64 * dlen (G.V r).N → bitAt m2 (64 * ro + i) = decide (i = (G.V r).spos) := by
    intro i hi
    rw [hb, zero _ (by omega), Bool.or_false]
    have h1 : ¬ (64 * co ≤ 64 * ro + i ∧ 64 * ro + i - 64 * co ∈ G.rootCand r) := by
      rintro ⟨h1, h2⟩
      have := (mem_rootCand.1 h2).1
      omega
    rw [decide_eq_false h1, Bool.false_or]
    apply decide_eq_decide.2; omega
  have hzc : ∀ i, i < 64 * dlen (G.V r).N → bitAt m2 (64 * co + i) = decide (i ∈ G.rootCand r) := by
    intro i hi
    rw [hb, zero _ (by omega), Bool.or_false]
    have h1 : ¬ (64 * co + i = 64 * ro + (G.V r).spos) := by omega
    rw [decide_eq_false h1, Bool.or_false]
    apply decide_eq_decide.2
    have : 64 * co + i - 64 * co = i := by omega
    rw [this]
    exact ⟨fun h => h.2, fun h => ⟨by omega, h⟩⟩
  have hset : bset m2 ⟨co, (G.V r).N⟩ = G.rootCand r := by
    ext x
    rw [mem_bset]
    simp only
    constructor
    · rintro ⟨h1, h2⟩
      rw [hzc x (by omega)] at h2
      simpa using h2
    · intro h
      have := (mem_rootCand.1 h).1
      refine ⟨this, ?_⟩
      rw [hzc x (by omega)]
      simpa using h
  refine ⟨⟨r, G.searchCur, ro, co, L⟩, { Ga with eb := m1 }, { Ga with eb := m2 }, _, m2, rfl, rfl,
    rfl, hgood, hroot, t1, rfl, ?_, hset, rfl, by simp only [Ga]; omega, rfl, ?_⟩
  swap
  · simp only [Ga]; congr 1; omega
  have hebo := w.eboEnd r hr
  refine ⟨?_, ?_, ?_, ?_, ?_, ⟨by simp, by rw [hset]; exact fun _ h => h, trivial⟩⟩
  · exact (Upd.refl pad).scratch (by show _ ≤ G.searchCur; omega) m2 _ (t2.trans s2) (fun a ha => by
      have ha : a < 64 * G.searchCur := ha
      rw [hb]
      have h1 : ¬ (64 * co ≤ a ∧ a - 64 * co ∈ G.rootCand r) := by omega
      have h2 : ¬ (a = 64 * ro + (G.V r).spos) := by omega
      simp [h1, h2])
  · simp only [Ga, SPar.req, List.length_cons, List.length_nil]; omega
  · unfold Lv
    refine ⟨rfl, ?_, hsp, by simp, by simp, fun _ => rfl, Nat.zero_le _, ?_, ?_, ?_, trivial⟩
    · simp only [List.length_nil, candOff, if_true]
    · intro i h1 h2
      simp only at h1 h2 ⊢
      rw [hzc i h2]
      simp only [decide_eq_false_iff_not]
      intro h
      have := (mem_rootCand.1 h).1
      omega
    · rw [hset]
      intro c hc
      have hc' := mem_rootCand.1 hc
      refine ⟨Nat.zero_le _, ?_, ?_⟩
      · simp; omega
      · intro t ht
        simp only [List.mem_singleton] at ht
        rw [ht]
        exact A_spos w hr hc'.1
    · rw [hset]; simp only [List.length_nil]; omega
  · intro i hi
    simp only at hi ⊢
    rw [hz i hi]
    simp
  · intro a ha
    simp only [Ga] at ha ⊢
    rw [hb, zero a (by omega)]
    have h1 : ¬ (64 * co ≤ a ∧ a - 64 * co ∈ G.rootCand r) := by
      rintro ⟨h1, h2⟩
      have := (mem_rootCand.1 h2).1
      omega
    have h2 : ¬ (a = 64 * ro + (G.V r).spos) := by omega
    simp [h1, h2]

/-- Popping scratch memory down to the bottom of a search. -/
theorem Upd.pop {r B n : Nat} {G0 G : Graph} (h : Upd r B G0 G) (w : WF G0) (hr : r < G0.nVert)
    (hB : G0.ebSize < B)
    (hn : G.searchCur = B + n) (hlen : G.searchCur ≤ G0.eb.length) :
    ∃ G', G.clearMemory n = .ok G' ∧ Upd r B G0 G' ∧ G'.searchCur = B ∧ G'.curMax = G.curMax ∧
      G'.limit = G.limit ∧
      (∀ a, 64 * B ≤ a → a < 64 * G.searchCur → bitAt G'.eb a = false) ∧
      ∀ a, ¬ (64 * B ≤ a ∧ a < 64 * G.searchCur) → bitAt G'.eb a = bitAt G.eb a := by
  have hebl := h.frame.ebl
  have hebb := w.eblen
  have hebo := w.eboEnd r hr
  obtain ⟨m1, d1, d2, d3⟩ := clearMemory_spec (G := G) n (by omega) (by omega) (by omega)
  have : G.searchCur - n = B := by omega
  rw [this] at d1 d3
  refine ⟨_, d1, ?_, rfl, rfl, rfl, ?_, ?_⟩
  · exact h.scratch (by omega) m1 _ d2 (fun a ha => by rw [d3, if_neg (by omega)])
  · intro a h1 h2; simp only; rw [d3, if_pos ⟨h1, h2⟩]
  · intro a h1; simp only; rw [d3, if_neg h1]

/-- What a finished search of one root has achieved. -/
structure VDone (r : Nat) (G G' : Graph) : Prop where
  upd : Upd r G.searchCur G G'
  cur : G'.searchCur = G.searchCur
  zero : ∀ a, 64 * G.searchCur ≤ a → bitAt G'.eb a = false

/-- Hypotheses under which a rooted search may run. -/
structure Ready (G : Graph) : Prop where
  wf : WF G
  bot : G.ebSize < G.searchCur
  room : ∃ L, (∀ v, v < G.nVert → (G.rootCand v).card + 1 ≤ L) ∧
    G.searchCur + 2 * (L + 1) * dlen G.maxDeg ≤ G.eb.length
  zero : ∀ a, 64 * G.searchCur ≤ a → bitAt G.eb a = false
  pad : ∀ v, v < G.nVert → PadZero G.eb (G.vb v)

/-- Hypotheses under which a rooted search by `StackDFS` may run. -/
structure ReadyS (G : Graph) : Prop where
  wf : WF G
  bot : G.ebSize < G.searchCur
  room : ∃ L, (∀ v, v < G.nVert → (G.rootCand v).card + 1 ≤ L) ∧
    G.searchCur + (L + 2) * dlen G.maxDeg ≤ G.eb.length
  zero : ∀ a, 64 * G.searchCur ≤ a → bitAt G.eb a = false
  pad : ∀ v, v < G.nVert → PadZero G.eb (G.vb v)

theorem Ready.s {G : Graph} (h : Ready G) : ReadyS G := by
  obtain ⟨L, h1, h2⟩ := h.room
  have : (L + 2) * dlen G.maxDeg ≤ 2 * (L + 1) * dlen G.maxDeg :=
    Nat.mul_le_mul_right _ (by omega)
  exact ⟨h.wf, h.bot, ⟨L, h1, by omega⟩, h.zero, h.pad⟩

theorem stackVertex_at {G : Graph} (R : ReadyS G) {r : Nat} (hr : r < G.nVert) :
    ∃ G', G.stackVertex r = .ok G' ∧ VDone r G G' ∧
      ∀ S, Rooted G r S → 2 ≤ S.card → S.card ≤ G'.curMax ∨ G'.limit ≤ G'.curMax := by
  have w := R.wf
  obtain ⟨L, hL, hroom⟩ := R.room
  have hmax := dlen_mono (w.maxd r hr)
  have hL0 := hL r hr
  have hrm : (L + 2) * dlen (G.V r).N ≤ (L + 2) * dlen G.maxDeg := Nat.mul_le_mul_left _ hmax
  obtain ⟨p, G1, G2, x, eb, rfl, p2, p3, g, r1, r2, r3, I, r4, r5, r6, _, _⟩ :=
    root_spec w hr R.bot hL0 (by omega) R.zero (R.pad r hr)
  have hreqd : p.req G = dlen (G.V p.r).N := rfl
  unfold stackVertex
  rw [vtx_ok w hr, ok_bind]
  simp only
  rw [r1, ok_bind]
  simp only
  rw [r2, ok_bind]
  simp only
  rw [← r3]
  have hebb := w.eblen
  have hcardS : ∀ S, Rooted G p.r S → S.card ≤ 1 + (G.rootCand p.r).card := by
    intro S hS
    have : S ⊆ insert (G.V p.r).spos (G.rootCand p.r) := by
      intro i hi
      rw [Finset.mem_insert]
      by_cases h : i = (G.V p.r).spos
      · exact Or.inl h
      · exact Or.inr (hS.2 i hi h)
    have h1 := Finset.card_le_card this
    have h2 := Finset.card_insert_le (G.V p.r).spos (G.rootCand p.r)
    omega
  have h2L : 2 * dlen (G.V p.r).N ≤ (L + 2) * dlen (G.V p.r).N :=
    Nat.mul_le_mul_right _ (by omega)
  have hc1 : G1.curMax = G2.curMax := by rw [r3]
  rw [hc1]
  by_cases hpot : 1 + (G.rootCand p.r).card ≤ G2.curMax
  · rw [if_pos hpot]
    obtain ⟨G', q1, q2, q3, q4, q5, q6, q7⟩ := I.upd.pop w hr g.hB
      (n := 2 * dlen (G.V p.r).N) (by omega) (by omega)
    refine ⟨G', q1, ⟨p2 ▸ q2, q3.trans p2, ?_⟩, ?_⟩
    · intro a ha
      by_cases h : a < 64 * G2.searchCur
      · exact q6 a (by omega) h
      · rw [q7 a (by omega)]; exact I.zero a (by omega)
    · intro S hS _
      left
      have := hcardS S hS
      omega
  rw [if_neg hpot]
  let Q : Nat → Prop := fun T => Pend G p G2.eb T [x]
  obtain ⟨⟨G3, states⟩, l1, l2, l3, l4⟩ := loop_rule
    (body := stackBody p.r (G.V p.r) (dlen (G.V p.r).N))
    (WInv G p Q)
    (fun q => SInv G p q.1 q.2 ∧ (q.2 = [] ∨ q.1.limit ≤ q.1.curMax) ∧
      ∀ T, Q T → T ≤ q.1.curMax ∨ Pend G p q.1.eb T q.2)
    (fun s => nodes s.1.eb s.2.1)
    (fun s hs => stackBody_spec g hs)
    (s := (G2, [x], 1)) (fuel := 2 ^ ((G.V p.r).N + 1))
    ⟨I, rfl, fun T hT => Or.inr hT⟩
    (by
      simp only [nodes]
      have hE : bset G2.eb x.cand = G.rootCand p.r := by rw [r3]; exact r4
      rw [hE]
      have h1 := rootCand_card_lt w hr
      have h2 : 2 ^ ((G.rootCand p.r).card + 1) ≤ 2 ^ ((G.V p.r).N + 1) :=
        Nat.pow_le_pow_right (by decide) (by omega)
      have h3 : 0 < 2 ^ ((G.rootCand p.r).card + 1) := Nat.pos_of_ne_zero (by simp)
      omega)
  rw [l1, ok_bind]
  simp only at l2 l3 l4 ⊢
  have hsc : G3.searchCur = p.B + (states.length + 1) * dlen (G.V p.r).N := l2.sc
  have hlenL : states.length ≤ L := by
    cases states with
    | nil => simp
    | cons s rest =>
      have h := l2.lv
      unfold Lv at h
      have := h.2.2.2.2.2.2.2.2.2.1
      simp only [List.length_cons]; omega
  have hln : (states.length + 1) * dlen (G.V p.r).N ≤ (L + 2) * dlen (G.V p.r).N :=
    Nat.mul_le_mul_right _ (by omega)
  have hsm : (states.length + 1) * dlen (G.V p.r).N =
      states.length * dlen (G.V p.r).N + dlen (G.V p.r).N := Nat.succ_mul _ _
  have hexit : ∃ G4, (if states.isEmpty then (Except.ok G3 : M Graph)
        else G3.clearMemory (dlen (G.V p.r).N * states.length)) = .ok G4 ∧
      Upd p.r p.B G G4 ∧ G4.searchCur = p.B + dlen (G.V p.r).N ∧ G4.curMax = G3.curMax ∧
      G4.limit = G3.limit ∧
      ∀ a, 64 * (p.B + dlen (G.V p.r).N) ≤ a → bitAt G4.eb a = false := by
    cases states with
    | nil =>
      refine ⟨G3, rfl, l2.upd, ?_, rfl, rfl, ?_⟩
      · simp only [List.length_nil, Nat.zero_add, Nat.one_mul] at hsc; exact hsc
      · intro a ha; exact l2.zero a (by simp only [List.length_nil, Nat.zero_add, Nat.one_mul] at hsc; omega)
    | cons s rest =>
      simp only [List.isEmpty_cons, Bool.false_eq_true, if_false]
      have hebl := l2.upd.frame.ebl
      obtain ⟨m1, d1, d2, d3⟩ := clearMemory_spec (G := G3)
        (dlen (G.V p.r).N * (s :: rest).length)
        (by rw [Nat.mul_comm]; omega) (by omega) (by omega)
      have hbot : G3.searchCur - dlen (G.V p.r).N * (s :: rest).length
          = p.B + dlen (G.V p.r).N := by rw [Nat.mul_comm]; omega
      rw [hbot] at d1 d3
      refine ⟨_, d1, ?_, rfl, rfl, rfl, ?_⟩
      · have hebo := w.eboEnd p.r hr
        have := g.hB
        exact l2.upd.scratch (by omega) m1 _ d2 (fun a ha => by rw [d3, if_neg (by omega)])
      · intro a ha
        simp only
        rw [d3]
        split
        · rfl
        · exact l2.zero a (by omega)
  obtain ⟨G4, e1, e2, e3, e4, e5, e6⟩ := hexit
  rw [← ite_bind, e1, ok_bind]
  obtain ⟨G', q1, q2, q3, q4, q5, q6, q7⟩ := e2.pop w hr g.hB
    (n := dlen (G.V p.r).N) (by omega) (by omega)
  refine ⟨G', q1, ⟨p2 ▸ q2, q3.trans p2, ?_⟩, ?_⟩
  · intro a ha
    by_cases h : a < 64 * G4.searchCur
    · exact q6 a (by omega) h
    · rw [q7 a (by omega)]; exact e6 a (by omega)
  · intro S hS h2
    have hP : Q S.card := by
      simp only [Q, Pend, List.length_nil, or_false]
      refine ⟨S.erase (G.V p.r).spos, ?_, ?_, ?_, ?_⟩
      · intro i hi
        rw [Finset.mem_erase] at hi
        have : bset G2.eb x.cand = G.rootCand p.r := by rw [r3]; exact r4
        rw [this]
        exact hS.2 i hi.2 hi.1
      · rw [← Finset.card_pos, Finset.card_erase_of_mem hS.1.1]; omega
      · intro a ha b hb
        exact hS.1.2.2 a (Finset.mem_of_mem_erase ha) b (Finset.mem_of_mem_erase hb)
      · rw [Finset.card_erase_of_mem hS.1.1]; omega
    rcases l4 _ hP with h | h
    · left; omega
    · right
      rcases l3 with h' | h'
      · rw [h'] at h; exact absurd h (by simp [Pend])
      · omega

theorem stackVertex_spec {G : Graph} (R : Ready G) {r : Nat} (hr : r < G.nVert) :
    ∃ G', G.stackVertex r = .ok G' ∧ VDone r G G' ∧
      ∀ S, Rooted G r S → 2 ≤ S.card → S.card ≤ G'.curMax ∨ G'.limit ≤ G'.curMax :=
  stackVertex_at R.s hr

end Graph

end CM
