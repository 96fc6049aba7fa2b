import Verif.Lemmas.Held

/-! # Programs with nested loops -/

namespace CM

open Spec Graph

variable {pg : PyGraph} {n : Nat} {S : SimpleGraph Nat} {G : Graph}
  {Sd : Prop} {Q : Nat → Prop} {b k m : Nat}

theorem listed_iff {l : List Nat} : Listed S n k l ↔ Wanted S n k l := by
  unfold Listed Wanted; tauto

/-- The object between two steps: besides the memory for one call there is room for `m` sets. -/
structure Ready (Sd : Prop) (Q : Nat → Prop) (m : Nat) (pg : PyGraph) (n : Nat)
    (S : SimpleGraph Nat) (G : Graph) : Prop where
  py : PyAt G.searchCur pg n S G
  room : ∃ L, (∀ v, v < G.nVert → (G.rootCand v).card + 1 ≤ L) ∧
    G.searchCur + (m + L + 2) * dlen G.maxDeg ≤ G.eb.length
  mcs : McsOk G
  lim : ∀ l, IsCliqueList S n l → l.length ≤ G.limit
  hon : Sd → G.curLoc ≠ 0 ∧ HonestBut Q G

/-- What a part of a program leaves alone: the graph, and the scratch space below `b`. -/
structure Leaves (b : Nat) (G G' : Graph) : Prop where
  frame : Frame G G'
  low : ∀ a, 64 * G.ebSize ≤ a → a < 64 * b → bitAt G'.eb a = bitAt G.eb a

theorem Leaves.refl (b : Nat) (G : Graph) : Leaves b G G := ⟨Frame.refl G, fun _ _ _ => rfl⟩

theorem Leaves.trans {b c : Nat} {G G' G'' : Graph} (h : Leaves b G G') (h' : Leaves c G' G'')
    (hbc : b ≤ c) : Leaves b G G'' := by
  refine ⟨h.frame.trans h'.frame, fun a h1 h2 => ?_⟩
  rw [h'.low a (by rw [h.frame.ebSize]; exact h1) (by omega), h.low a h1 h2]

theorem Ready.less (h : Ready Sd Q m pg n S G) {m' : Nat} (hm : m' ≤ m) : Ready Sd Q m' pg n S G := by
  obtain ⟨L, h1, h2⟩ := h.room
  exact ⟨h.py, ⟨L, h1, Nat.le_trans (Nat.add_le_add_left (Nat.mul_le_mul_right _ (by omega)) _) h2⟩,
    h.mcs, h.lim, h.hon⟩

variable {Gs : Graph} {E : Enum} {T : Finset (List Nat)}

theorem Held.top (h : Held Sd Q b k pg n S Gs G E T) :
    G.searchCur ≤ b + kept k * dlen G.maxDeg := by
  rcases h.kind with ⟨k2, hI, hst, _⟩ | ⟨_, _, hc, _⟩ | ⟨_, hc, _⟩
  · rcases hst with hst | ⟨hc, _⟩
    · have := hI.top hst
      rw [kept, if_neg (by omega), h.core.frame.maxDeg]
      exact this
    · omega
  · omega
  · omega

/-- The object while an iterator is held. -/
theorem Held.ready (h : Held Sd Q b k pg n S Gs G E T) (hk : kept k ≤ m)
    (hr : ∃ L, (∀ v, v < G.nVert → (G.rootCand v).card + 1 ≤ L) ∧
      b + (m + L + 2) * dlen G.maxDeg ≤ G.eb.length) : Ready Sd Q (m - kept k) pg n S G := by
  refine ⟨h.py, ?_, h.mcs, h.lim, fun s => ⟨(h.hon s).1, h.honG s⟩⟩
  obtain ⟨L, h1, h2⟩ := hr
  refine ⟨L, h1, ?_⟩
  have := h.top
  have e : (m + L + 2) * dlen G.maxDeg =
      kept k * dlen G.maxDeg + (m - kept k + L + 2) * dlen G.maxDeg := by
    rw [← Nat.add_mul]; congr 1; omega
  omega

/-- The object when no scratch space is kept. -/
theorem Held.ready_base (h : Held Sd Q b k pg n S Gs G E T) (hb : G.searchCur = b)
    (hr : ∃ L, (∀ v, v < G.nVert → (G.rootCand v).card + 1 ≤ L) ∧
      b + (m + L + 2) * dlen G.maxDeg ≤ G.eb.length) : Ready Sd Q m pg n S G :=
  ⟨h.py, by rw [hb]; exact hr, h.mcs, h.lim, fun s => ⟨(h.hon s).1, h.honG s⟩⟩

theorem Ready.held (h : Ready Sd Q m pg n S G) (k : Nat) (hk : (∃ l, Wanted S n k l) → kept k ≤ m) :
    ∃ T, pg.allCliques k = .ok (Enum.new k) ∧
      Held Sd Q G.searchCur k pg n S G G (Enum.new k) T ∧ (∀ l, l ∈ T ↔ Wanted S n k l) ∧
      T.card ≤ G.nVert * 2 ^ G.maxDeg := by
  refine Held.newAt h.py h.mcs h.lim h.hon k fun hw => ?_
  obtain ⟨L, h1, h2⟩ := h.room
  have := hk hw
  exact ⟨L, h1, Or.inr (Nat.le_trans
    (Nat.add_le_add_left (Nat.mul_le_mul_right _ (by omega)) _) h2)⟩

theorem room_frame {G G' : Graph} (F : Frame G G') {b m : Nat}
    (hr : ∃ L, (∀ v, v < G.nVert → (G.rootCand v).card + 1 ≤ L) ∧
      b + (m + L + 2) * dlen G.maxDeg ≤ G.eb.length) :
    ∃ L, (∀ v, v < G'.nVert → (G'.rootCand v).card + 1 ≤ L) ∧
      b + (m + L + 2) * dlen G'.maxDeg ≤ G'.eb.length := by
  obtain ⟨L, h1, h2⟩ := hr
  refine ⟨L, fun v hv => ?_, by rw [F.maxDeg, F.ebl]; exact h2⟩
  rw [F.rootCand]; exact h1 v (by rw [← F.nVert]; exact hv)

theorem call_run (op : Op) (pg : PyGraph) (E : Enum) {r : PyGraph × Enum × Seen}
    (h : (Act.call op).run pg E = .ok r) :
    op.see pg = .ok (r.1, r.2.2) ∧ r.2.1 = E := by
  cases op with
  | search srt a =>
    obtain ⟨x, h1, h2⟩ := bind_eq_ok.1 h
    obtain ⟨p, q⟩ := x
    injection h2 with h2
    subst h2
    refine ⟨?_, rfl⟩
    show (pg.getMaxClique srt a >>= _) = _
    rw [h1, ok_bind]
  | reset =>
    obtain ⟨x, h1, h2⟩ := bind_eq_ok.1 h
    injection h2 with h2
    subst h2
    refine ⟨?_, rfl⟩
    show (pg.resetSearch >>= _) = _
    rw [h1, ok_bind]
  | list j =>
    obtain ⟨x, h1, h2⟩ := bind_eq_ok.1 h
    obtain ⟨p, q⟩ := x
    injection h2 with h2
    subst h2
    refine ⟨?_, rfl⟩
    show (pg.listCliques j >>= _) = _
    rw [h1, ok_bind]

/-- What is seen is of the kind of the call. -/
theorem see_kind {op : Op} {pg pg' : PyGraph} {s : Seen} (h : op.see pg = .ok (pg', s))
    (hs : SeenOk Sd Q S n s) : op.Reports S n Q Sd s := by
  cases op with
  | search srt a =>
    obtain ⟨⟨p, q⟩, _, h2⟩ := bind_eq_ok.1 h
    injection h2 with h2
    injection h2 with h2 h3
    subst h3
    exact ⟨q, rfl, hs⟩
  | reset =>
    obtain ⟨x, _, h2⟩ := bind_eq_ok.1 h
    injection h2 with h2
    injection h2 with h2 h3
    exact h3.symm
  | list j =>
    obtain ⟨⟨p, q⟩, _, h2⟩ := bind_eq_ok.1 h
    injection h2 with h2
    injection h2 with h2 h3
    subst h3
    exact ⟨q, rfl, hs.1, fun l => by rw [hs.2, listed_iff]⟩

/-- A complete call. -/
theorem Ready.call (h : Ready Sd Q m pg n S G) {op : Op} (ho : op.Fits S n Q Sd) :
    ∃ pg' G' s, op.see pg = .ok (pg', s) ∧ Ready Sd Q m pg' n S G' ∧
      G'.searchCur = G.searchCur ∧ Leaves G.searchCur G G' ∧ op.Reports S n Q Sd s := by
  obtain ⟨o1, o2, o3, o4, o5⟩ := ho
  obtain ⟨T, _, a2, _⟩ := h.held 0 (fun _ => by simp [kept])
  obtain ⟨pg', Gs', G', s, b1, b2, b3, _, b5, b6, b7⟩ := a2.call o1 o2 o3 o4 o5
  obtain ⟨c1, _⟩ := call_run op pg _ b1
  exact ⟨pg', G', s, c1, b2.ready_base b6 (room_frame b5 h.room), b6, ⟨b5, b7⟩, see_kind c1 b3⟩

theorem Held.leaves {pg' : PyGraph} {G' : Graph} {E' : Enum} {T' : Finset (List Nat)}
    (h : Held Sd Q b k pg n S Gs G E T) (h' : Held Sd Q b k pg' n S Gs G' E' T') :
    Leaves b G G' := by
  refine ⟨h.core.frame.symm.trans h'.core.frame, fun a h1 h2 => ?_⟩
  have e : G.ebSize = Gs.ebSize := h.core.frame.ebSize
  rw [h'.core.low a (by omega) h2, h.core.low a (by omega) h2]

/-- A loop. -/
theorem each_spec (hQ : Q k) {f : List Nat → PyGraph → M (PyGraph × List Seen)}
    {R : List Nat → List Seen → Prop}
    (hf : ∀ c, IsCliqueList S n c → c.length = k → kept k ≤ m ∧
      ∀ {pg : PyGraph} {G : Graph}, Ready Sd Q (m - kept k) pg n S G →
      ∃ pg' G' ss, f c pg = .ok (pg', ss) ∧ Ready Sd Q (m - kept k) pg' n S G' ∧
        G'.searchCur = G.searchCur ∧ Leaves G.searchCur G G' ∧ R c ss) :
    ∀ (fuel : Nat) {pg : PyGraph} {Gs G : Graph} {E : Enum} {T : Finset (List Nat)},
    Held Sd Q b k pg n S Gs G E T → T.card < fuel → (∀ l ∈ T, Wanted S n k l) →
    (∃ L, (∀ v, v < G.nVert → (G.rootCand v).card + 1 ≤ L) ∧
      b + (m + L + 2) * dlen G.maxDeg ≤ G.eb.length) →
    ∃ (pg' : PyGraph) (G' : Graph) (items : List (List Nat × List Seen)),
      eachClique f fuel pg E = .ok (pg', items.flatMap (fun p => .next (some p.1) :: p.2) ++
        [.next none]) ∧
      Ready Sd Q m pg' n S G' ∧ G'.searchCur = b ∧ Leaves b G G' ∧
      (items.map Prod.fst).Nodup ∧ (∀ l, l ∈ items.map Prod.fst ↔ l ∈ T) ∧
      ∀ p ∈ items, R p.1 p.2 := by
  intro fuel
  induction fuel with
  | zero => intro pg Gs G E T _ h; omega
  | succ fuel ih =>
    intro pg Gs G E T h hc hT hr
    obtain ⟨pg1, G1, E1, c, T1, a1, a2, a3⟩ := h.next hQ
    have hL := h.leaves a2
    have hr1 := room_frame hL.frame hr
    unfold eachClique
    rw [a1, ok_bind]
    rcases a3 with ⟨l, rfl, hl, rfl⟩ | ⟨rfl, rfl, rfl, hb⟩
    · simp only
      obtain ⟨w1, w2, _, _⟩ := hT l hl
      obtain ⟨hk, hbody⟩ := hf l w1 w2
      obtain ⟨pg2, G2, ss, b1, b2, b3, b4, b5⟩ := hbody (a2.ready hk hr1)
      rw [b1, ok_bind]
      obtain ⟨Gs2, c1⟩ := a2.resume (pg' := pg2) (G' := G2) (by rw [← b3]; exact b2.py) b4.frame
        b4.low b2.mcs b2.lim b2.hon
      obtain ⟨pg3, G3, items, d1, d2, d3, d4, d5, d6, d7⟩ := ih c1
        (by rw [Finset.card_erase_of_mem hl]; have := Finset.card_pos.2 ⟨_, hl⟩; omega)
        (fun l' hl' => hT l' (Finset.mem_of_mem_erase hl')) (room_frame b4.frame hr1)
      simp only
      rw [d1, ok_bind]
      refine ⟨pg3, G3, (l, ss) :: items, by simp, d2, d3,
        (hL.trans b4 a2.le).trans d4 (Nat.le_refl _), ?_, ?_, ?_⟩
      · rw [List.map_cons, List.nodup_cons]
        exact ⟨fun hm => by simpa using (d6 l).1 hm, d5⟩
      · intro l'
        rw [List.map_cons, List.mem_cons, d6, Finset.mem_erase]
        constructor
        · rintro (rfl | h)
          · exact hl
          · exact h.2
        · intro hl'
          by_cases he : l' = l
          · exact Or.inl he
          · exact Or.inr ⟨he, hl'⟩
      · intro p hp
        rcases List.mem_cons.1 hp with rfl | hp
        · exact b5
        · exact d7 p hp
    · exact ⟨pg1, G1, [], rfl, a2.ready_base hb hr1, hb, hL, by simp, by simp, by simp⟩

/-- Blocks. -/
theorem block_spec : ∀ (B : Block) {m : Nat} {pg : PyGraph} {G : Graph}, B.Fits S n Q Sd m →
    Ready Sd Q m pg n S G →
    ∃ pg' G' ss, B.run pg = .ok (pg', ss) ∧ Ready Sd Q m pg' n S G' ∧
      G'.searchCur = G.searchCur ∧ Leaves G.searchCur G G' ∧ B.Reports S n Q Sd ss := by
  intro B
  induction B with
  | done => intro m pg G _ h; exact ⟨pg, G, [], rfl, h, rfl, Leaves.refl _ _, rfl⟩
  | call op rest ih =>
    rintro m pg G ⟨f1, f2⟩ h
    obtain ⟨pg1, G1, s, a1, a2, a3, a4, a5⟩ := h.call f1
    obtain ⟨pg2, G2, ss, b1, b2, b3, b4, b5⟩ := ih s (f2 s) a2
    refine ⟨pg2, G2, s :: ss, ?_, b2, b3.trans a3, a4.trans b4 (Nat.le_of_eq a3.symm), s, ss, rfl,
      a5, b5⟩
    unfold Block.run
    rw [a1, ok_bind]
    simp only
    rw [b1, ok_bind]
  | each k body rest ihb ihr =>
    rintro m pg G ⟨f1, f2, f3⟩ h
    obtain ⟨T, a1, a2, a3, a4⟩ := h.held k
      (fun ⟨l, hl⟩ => (f3 l hl.1 hl.2.1).1)
    obtain ⟨pg1, G1, items, b1, b2, b3, b4, b5, b6, b7⟩ := each_spec (m := m) f1
      (f := fun c pg => (body c).run pg) (R := fun c ss => (body c).Reports S n Q Sd ss)
      (fun c h1 h2 => ⟨(f3 c h1 h2).1, fun hR => ihb c (f3 c h1 h2).2 hR⟩)
      (G.nVert * 2 ^ G.maxDeg + 1) a2 (by omega) (fun l hl => (a3 l).1 hl) h.room
    obtain ⟨pg2, G2, ss, c1, c2, c3, c4, c5⟩ := ihr _ (f2 _) b2
    refine ⟨pg2, G2, _, ?_, c2, c3.trans b3, b4.trans c4 (Nat.le_of_eq b3.symm), items, _, ss, rfl,
      rfl, b5, fun l => by rw [b6, a3, listed_iff], b7, c5⟩
    unfold Block.run
    rw [a1, ok_bind, h.py.g]
    simp only
    rw [b1, ok_bind]
    simp only
    rw [c1, ok_bind]

/-- Some answers of an iterator. -/
theorem nexts_spec (hQ : Q k) : ∀ (j : Nat) {pg : PyGraph} {G : Graph} {E : Enum}
    {T : Finset (List Nat)}, Held Sd Q b k pg n S Gs G E T →
    ∃ (pg' : PyGraph) (G' : Graph) (E' : Enum) (T' : Finset (List Nat))
      (cs : List (Option (List Nat))) (all : List (List Nat)),
      pg.nexts j E = .ok (pg', E', cs) ∧ Held Sd Q b k pg' n S Gs G' E' T' ∧
      cs = (all.map some ++ List.replicate j none).take j ∧ all.Nodup ∧ (∀ l, l ∈ all ↔ l ∈ T) ∧
      (cs.getLast? = some none → G'.searchCur = b) ∧ (cs = [] → G'.searchCur = G.searchCur) ∧
      ((∃ c, some c ∈ cs) → T ≠ ∅) := by
  intro j
  induction j with
  | zero =>
    intro pg G E T h
    exact ⟨pg, G, E, T, [], T.toList, rfl, h, by simp, T.nodup_toList, fun l => Finset.mem_toList,
      by simp, fun _ => rfl, by simp⟩
  | succ j ih =>
    intro pg G E T h
    obtain ⟨pg1, G1, E1, c, T1, a1, a2, a3⟩ := h.next hQ
    obtain ⟨pg2, G2, E2, T2, cs, all, b1, b2, b3, b4, b5, b6, b7, b8⟩ := ih a2
    have hrun : pg.nexts (j + 1) E = .ok (pg2, E2, c :: cs) := by
      unfold PyGraph.nexts
      rw [a1, ok_bind]
      simp only
      rw [b1, ok_bind]
    rcases a3 with ⟨l, rfl, hl, rfl⟩ | ⟨rfl, rfl, rfl, hb⟩
    · refine ⟨pg2, G2, E2, T2, _, l :: all, hrun, b2, ?_, ?_, ?_, ?_, by simp,
        fun _ => Finset.ne_empty_of_mem hl⟩
      · rw [b3]
        simp only [List.map_cons, List.cons_append, List.take_succ_cons]
        congr 1
        rw [List.take_append, List.take_append, List.take_replicate, List.take_replicate]
        congr 2
        omega
      · rw [List.nodup_cons]
        exact ⟨fun hm => by simpa using (b5 l).1 hm, b4⟩
      · intro l'
        rw [List.mem_cons, b5, Finset.mem_erase]
        constructor
        · rintro (rfl | h)
          · exact hl
          · exact h.2
        · intro hl'
          by_cases he : l' = l
          · exact Or.inl he
          · exact Or.inr ⟨he, hl'⟩
      · intro hlast
        cases cs with
        | nil => simp at hlast
        | cons y ys => exact b6 (by rw [← hlast, List.getLast?_cons_cons])
    · have hall : all = [] := by
        rw [List.eq_nil_iff_forall_not_mem]
        intro l hl
        simpa using (b5 l).1 hl
      subst hall
      have hcs : cs = List.replicate j none := by simpa using b3
      refine ⟨pg2, G2, E2, T2, _, [], hrun, b2, ?_, b4, b5, fun _ => ?_, by simp, ?_⟩
      · rw [hcs]; simp [List.replicate_succ]
      · cases j with
        | zero => rw [b7 (by rw [hcs]; rfl)]; exact hb
        | succ j => exact b6 (by rw [hcs, List.getLast?_replicate, if_neg (by omega)])
      · rintro ⟨c, hc⟩
        rw [hcs] at hc
        simp at hc

/-- Programs. -/
theorem prog_spec : ∀ (P : Prog) {m : Nat} {pg : PyGraph} {G : Graph}, P.Fits S n Q Sd m →
    Ready Sd Q m pg n S G →
    ∃ pg' ss, P.run pg = .ok (pg', ss) ∧ P.Reports S n Q Sd ss := by
  intro P
  induction P with
  | stop => intro m pg G _ h; exact ⟨pg, [], rfl, rfl⟩
  | block B rest ih =>
    rintro m pg G ⟨f1, f2⟩ h
    obtain ⟨pg1, G1, ls, a1, a2, _, _, a5⟩ := block_spec B f1 h
    obtain ⟨pg2, ss, b1, b2⟩ := ih ls (f2 ls) a2
    refine ⟨pg2, ls ++ ss, ?_, ls, ss, rfl, a5, b2⟩
    unfold Prog.run
    rw [a1, ok_bind]
    simp only
    rw [b1, ok_bind]
  | take k j rest ih =>
    rintro m pg G ⟨f1, f2⟩ h
    have hk : (∃ l, Wanted S n k l) → kept k ≤ m := fun ⟨l, hl⟩ => f2.1 l hl.1 hl.2.1
    obtain ⟨T, a1, a2, a3, _⟩ := h.held k hk
    obtain ⟨pg1, G1, E1, T1, cs, all, b1, b2, b3, b4, b5, b6, b7, b8⟩ := nexts_spec f1 j a2
    have hr := room_frame (a2.leaves b2).frame h.room
    have key : ∃ m', (rest cs).Fits S n Q Sd m' ∧ Ready Sd Q m' pg1 n S G1 := by
      have hf := f2.2 cs
      rcases hl : cs.getLast? with _ | _ | c
      · rw [hl] at hf
        refine ⟨_, hf, b2.ready_base (b7 ?_) hr⟩
        simpa using hl
      · rw [hl] at hf
        exact ⟨_, hf, b2.ready_base (b6 hl) hr⟩
      · rw [hl] at hf
        refine ⟨_, hf, b2.ready (hk ?_) hr⟩
        obtain ⟨l, hl'⟩ := Finset.nonempty_iff_ne_empty.2 (b8 ⟨c, List.mem_of_getLast? hl⟩)
        exact ⟨l, (a3 l).1 hl'⟩
    obtain ⟨m', c1, c2⟩ := key
    obtain ⟨pg2, ss, d1, d2⟩ := ih cs c1 c2
    refine ⟨pg2, cs.map .next ++ ss, ?_, all, cs, ss, rfl, b3, b4,
      fun l => by rw [b5, a3, listed_iff], d2⟩
    unfold Prog.run
    rw [a1, ok_bind, b1, ok_bind]
    simp only
    rw [d1, ok_bind]

end CM
