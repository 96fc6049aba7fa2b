import Verif.Lemmas.Moved
import Verif.Lemmas.Flip
import Verif.Lemmas.StackVertex

/-!
# The depth-first search with the arguments of `SearchState` evaluated in either order

The two runs use the two blocks of the root the other way round (`Rel`), until the root is popped
(`Weak`); once its memory is cleared the two buffers are equal.
-/

namespace CM

namespace Graph

/-- The graph with another buffer, in the other program. -/
def other (G : Graph) (eb : Mem) : Graph := { G with eb := eb, argLR := !G.argLR }

/-- `d` blocks are in use, the first two of which are exchanged. -/
def Rel (b r L d : Nat) (G G' : Graph) : Prop :=
  ∃ eb, G' = G.other eb ∧ Moved b r L G.eb eb ∧ G.searchCur = b + d * r ∧ b + d * r ≤ L

/-- One block is in use, in which the two buffers differ. -/
def Weak (b r L : Nat) (G G' : Graph) : Prop :=
  ∃ eb, G' = G.other eb ∧ G.eb.length = L ∧ eb.length = L ∧ G.searchCur = b + r ∧ b + r ≤ L ∧
    ∀ i, ¬ (b ≤ i ∧ i < b + r) → eb.getD i 0 = G.eb.getD i 0

/-- Related entries of the two stacks. -/
structure SRel (b r N : Nat) (s s' : SState) : Prop where
  id : s'.id = s.id
  sa : s'.startAt = s.startAt
  idN : s.id < N
  res : (s.res = ⟨b, N⟩ ∧ s'.res = ⟨b + r, N⟩) ∨ (s.res = ⟨b + r, N⟩ ∧ s'.res = ⟨b, N⟩)
  cand : Img b r s.cand s'.cand
  cN : s.cand.len = N

/-- `clear_memory` on the words. -/
theorem clear_words {n s : Nat} {m m1 : Mem}
    (h : forRange 0 n (fun i m => wr m (s + i) 0#64) m = .ok m1) :
    m1.length = m.length ∧
      ∀ i, m1.getD i 0 = if s ≤ i ∧ i < s + n then 0 else m.getD i 0 := by
  refine forRange_inv (P := fun k m1 => m1.length = m.length ∧
    ∀ i, m1.getD i 0 = if s ≤ i ∧ i < s + k then 0 else m.getD i 0) (Nat.zero_le _) ?_ ?_ h
  · refine ⟨rfl, fun i => ?_⟩
    rw [if_neg (by omega)]
  · rintro k m2 m3 _ hk ⟨h1, h2⟩ hw
    obtain ⟨l1, rfl⟩ := wr_eq_ok.1 hw
    refine ⟨by simpa using h1, fun i => ?_⟩
    have := h2 i
    simp only [List.getD_eq_getElem?_getD] at this ⊢
    by_cases hi : s + k = i
    · subst hi
      rw [if_pos (by omega)]
      simp [l1]
    · rw [List.getElem?_set_ne hi, this]
      by_cases hc : s ≤ i ∧ i < s + k
      · rw [if_pos hc, if_pos (by omega)]
      · rw [if_neg hc, if_neg (by omega)]

theorem mem_ext {m m' : Mem} (hl : m.length = m'.length) (h : ∀ i, m.getD i 0 = m'.getD i 0) :
    m = m' := by
  apply List.ext_getElem hl
  intro i h1 h2
  have := h i
  simpa [List.getD_eq_getElem?_getD, h1, h2] using this

theorem clearMemory_words {G G1 : Graph} {n : Nat} (h : G.clearMemory n = .ok G1)
    (h1 : n ≤ G.searchCur) (h2 : G.searchCur < 2 ^ 64) :
    ∃ eb, G1 = { G with searchCur := G.searchCur - n, eb := eb } ∧ eb.length = G.eb.length ∧
      ∀ i, eb.getD i 0 =
        if G.searchCur - n ≤ i ∧ i < G.searchCur then 0 else G.eb.getD i 0 := by
  unfold clearMemory at h
  obtain ⟨eb, he, h⟩ := bind_eq_ok.1 h
  cases h
  rw [usub_eq h1 h2] at he ⊢
  obtain ⟨l, g⟩ := clear_words he
  refine ⟨eb, rfl, l, fun i => ?_⟩
  rw [g i, Nat.sub_add_cancel h1]

variable {b r L d N : Nat} {G G' : Graph} {s s' : SState}

theorem SRel.resImg (h : SRel b r N s s') (hr : dlen N = r) : Img b r s.res s'.res := by
  rcases h.res with ⟨h1, h2⟩ | ⟨h1, h2⟩
  · rw [h1, h2]; exact Img.first hr
  · rw [h1, h2]; exact Img.second hr

theorem SRel.resN (h : SRel b r N s s') : s.res.len = N := by
  rcases h.res with ⟨h1, _⟩ | ⟨h1, _⟩ <;> rw [h1]

theorem Rel.clearHigh (h : Rel b r L d G G') (hd : 3 ≤ d) (hL : L < 2 ^ 64) :
    Both (Rel b r L (d - 1)) (G.clearMemory r) (G'.clearMemory r) := by
  obtain ⟨eb, rfl, hm, hc, hb⟩ := h
  have e1 : d * r = (d - 1) * r + r := by
    rw [← Nat.succ_mul]; congr 1; omega
  have e2 : 2 * r ≤ (d - 1) * r := Nat.mul_le_mul_right r (by omega)
  intro A B hA hB
  obtain ⟨ea, rfl, la, ga⟩ := clearMemory_words hA (by omega) (by omega)
  obtain ⟨eb', rfl, lb, gb⟩ := clearMemory_words hB (by show r ≤ G.searchCur; omega)
    (by show G.searchCur < _; omega)
  refine ⟨eb', rfl, ⟨la.trans hm.len, lb.trans hm.len', ?_⟩, ?_, by omega⟩
  · intro i h1 h2
    show _ = List.getD ea i 0
    rw [gb, ga]
    by_cases hi : b + 2 * r ≤ i
    · rw [sw_high hi]
      show (if G.searchCur - r ≤ i ∧ i < G.searchCur then _ else List.getD eb i 0) = _
      have := hm.get i h1 h2
      rw [sw_high hi] at this
      rw [this]
    · have hlt : sw b r i < b + 2 * r := by unfold sw; split <;> [skip; split] <;> omega
      rw [if_neg (by show ¬ (G.searchCur - r ≤ _ ∧ _); omega), if_neg (by omega)]
      exact hm.get i h1 h2
  · show G.searchCur - r = _
    omega

/-- All blocks but the first are cleared. -/
theorem Rel.clearTop (h : Rel b r L d G G') (hd : 2 ≤ d) (hL : L < 2 ^ 64) :
    Both (fun A B => Weak b r L A B ∧ ∀ i, b + r ≤ i → i < b + 2 * r →
      A.eb.getD i 0 = 0 ∧ B.eb.getD i 0 = 0)
      (G.clearMemory ((d - 1) * r)) (G'.clearMemory ((d - 1) * r)) := by
  obtain ⟨eb, rfl, hm, hc, hb⟩ := h
  have e1 : d * r = (d - 1) * r + r := by
    rw [← Nat.succ_mul]; congr 1; omega
  have e2 : 1 * r ≤ (d - 1) * r := Nat.mul_le_mul_right r (by omega)
  intro A B hA hB
  obtain ⟨ea, rfl, la, ga⟩ := clearMemory_words hA (by omega) (by omega)
  obtain ⟨eb', rfl, lb, gb⟩ := clearMemory_words hB (by show _ ≤ G.searchCur; omega)
    (by show G.searchCur < _; omega)
  have eo : (G.other eb).searchCur = G.searchCur := rfl
  have eoe : (G.other eb).eb = eb := rfl
  rw [eo, eoe] at gb
  have es : G.searchCur - (d - 1) * r = b + r := by omega
  rw [es] at ga gb
  refine ⟨⟨eb', rfl, la.trans hm.len, lb.trans hm.len', es, by omega, ?_⟩, ?_⟩
  · intro i hi
    show _ = List.getD ea i 0
    rw [gb, ga]
    by_cases hc' : b + r ≤ i ∧ i < G.searchCur
    · rw [if_pos hc', if_pos hc']
    · rw [if_neg hc', if_neg hc']
      by_cases hil : i < L
      · have hs : sw b r i = i := by unfold sw; rw [if_neg (by omega), if_neg (by omega)]
        have := hm.get i hil (by rw [hs]; exact hil)
        rwa [hs] at this
      · have h1 := hm.len
        have h2 := hm.len'
        rw [List.getD_eq_getElem?_getD, List.getD_eq_getElem?_getD,
          List.getElem?_eq_none (by omega), List.getElem?_eq_none (by omega)]
  · intro i h1 h2
    refine ⟨?_, ?_⟩
    · show List.getD ea i 0 = 0
      rw [ga, if_pos (by omega)]
    · show List.getD eb' i 0 = 0
      rw [gb, if_pos (by omega)]

theorem Weak.clear (h : Weak b r L G G') (hL : L < 2 ^ 64) :
    Both (fun A B => B = A.fl) (G.clearMemory r) (G'.clearMemory r) := by
  obtain ⟨eb, rfl, l1, l2, hc, hb, hg⟩ := h
  intro A B hA hB
  obtain ⟨ea, rfl, la, ga⟩ := clearMemory_words hA (by omega) (by omega)
  obtain ⟨eb', rfl, lb, gb⟩ := clearMemory_words hB (by show _ ≤ G.searchCur; omega)
    (by show G.searchCur < _; omega)
  have eo : (G.other eb).searchCur = G.searchCur := rfl
  have eoe : (G.other eb).eb = eb := rfl
  rw [eo, eoe] at gb
  rw [eoe] at lb
  have : eb' = ea := by
    refine mem_ext (by omega) fun i => ?_
    rw [gb, ga]
    by_cases hc' : G.searchCur - r ≤ i ∧ i < G.searchCur
    · rw [if_pos hc', if_pos hc']
    · rw [if_neg hc', if_neg hc']
      exact hg i (by omega)
  rw [this]
  rfl

theorem Rel.clearBoth (h : Rel b r L 2 G G') (hL : L < 2 ^ 64) :
    Both (fun A B => B = A.fl) (G.clearMemory (2 * r)) (G'.clearMemory (2 * r)) := by
  obtain ⟨eb, rfl, hm, hc, hb⟩ := h
  intro A B hA hB
  obtain ⟨ea, rfl, la, ga⟩ := clearMemory_words hA (by omega) (by omega)
  obtain ⟨eb', rfl, lb, gb⟩ := clearMemory_words hB (by show _ ≤ G.searchCur; omega)
    (by show G.searchCur < _; omega)
  have eo : (G.other eb).searchCur = G.searchCur := rfl
  have eoe : (G.other eb).eb = eb := rfl
  rw [eo, eoe] at gb
  rw [eoe] at lb
  have h1 := hm.len
  have h2 := hm.len'
  have : eb' = ea := by
    refine mem_ext (by omega) fun i => ?_
    rw [gb, ga]
    by_cases hc' : G.searchCur - 2 * r ≤ i ∧ i < G.searchCur
    · rw [if_pos hc', if_pos hc']
    · rw [if_neg hc', if_neg hc']
      by_cases hil : i < L
      · have hs : sw b r i = i := by unfold sw; rw [if_neg (by omega), if_neg (by omega)]
        have := hm.get i hil (by rw [hs]; exact hil)
        rwa [hs] at this
      · rw [List.getD_eq_getElem?_getD, List.getD_eq_getElem?_getD,
          List.getElem?_eq_none (by omega), List.getElem?_eq_none (by omega)]
  rw [this]
  rfl

/-- Resetting a bit in either of the two blocks, the second of which is empty. -/
theorem reset_weak {m m1 : Mem} {o i : Nat} (hr : dlen N = r) (hi : i < N)
    (ho : o = b ∨ o = b + r) (ht : ∀ i, b + r ≤ i → i < b + 2 * r → m.getD i 0 = 0)
    (h : GBits.reset ⟨o, N⟩ m i = .ok m1) :
    m1.length = m.length ∧ ∀ j, ¬ (b ≤ j ∧ j < b + r) → m1.getD j 0 = m.getD j 0 := by
  unfold GBits.reset at h
  obtain ⟨w, hw, h⟩ := bind_eq_ok.1 h
  obtain ⟨l1, rfl⟩ := wr_eq_ok.1 h
  have hq := div_lt_dlen hi
  refine ⟨by simp, fun j hj => ?_⟩
  by_cases hjo : o + i / 64 = j
  · subst hjo
    rcases ho with rfl | rfl
    · exfalso
      omega
    · have hz := ht (b + r + i / 64) (by omega) (by omega)
      dsimp only at hw l1 ⊢
      have hw' := rd_eq_ok.1 hw
      rw [List.getD_eq_getElem?_getD, hw'] at hz
      have : w = 0 := hz
      subst this
      rw [List.getD_eq_getElem?_getD, List.getD_eq_getElem?_getD, hw']
      simp [l1]
  · simp only [List.getD_eq_getElem?_getD]
    rw [List.getElem?_set_ne hjo]

/-- Popping the root. -/
theorem Weak.reset (h : Weak b r L G G') (hs : SRel b r N s s') (hr : dlen N = r)
    (ht : ∀ i, b + r ≤ i → i < b + 2 * r → G.eb.getD i 0 = 0 ∧ G'.eb.getD i 0 = 0) :
    Both (fun x y => Weak b r L { G with eb := x } { G' with eb := y })
      (s.res.reset G.eb s.id) (s'.res.reset G'.eb s'.id) := by
  intro x y hx hy
  obtain ⟨eb, rfl, l1, l2, hc, hb, hg⟩ := h
  have e0 : (G.other eb).eb = eb := rfl
  rw [e0] at hy ht
  rw [hs.id] at hy
  have key : x.length = G.eb.length ∧
      (∀ j, ¬ (b ≤ j ∧ j < b + r) → x.getD j 0 = G.eb.getD j 0) ∧ y.length = eb.length ∧
      ∀ j, ¬ (b ≤ j ∧ j < b + r) → y.getD j 0 = eb.getD j 0 := by
    rcases hs.res with ⟨h1, h2⟩ | ⟨h1, h2⟩
    · rw [h1] at hx
      rw [h2] at hy
      have k1 := reset_weak hr hs.idN (Or.inl rfl) (fun i h1 h2 => (ht i h1 h2).1) hx
      have k2 := reset_weak hr hs.idN (Or.inr rfl) (fun i h1 h2 => (ht i h1 h2).2) hy
      exact ⟨k1.1, k1.2, k2.1, k2.2⟩
    · rw [h1] at hx
      rw [h2] at hy
      have k1 := reset_weak hr hs.idN (Or.inr rfl) (fun i h1 h2 => (ht i h1 h2).1) hx
      have k2 := reset_weak hr hs.idN (Or.inl rfl) (fun i h1 h2 => (ht i h1 h2).2) hy
      exact ⟨k1.1, k1.2, k2.1, k2.2⟩
  obtain ⟨k1, k2, k3, k4⟩ := key
  refine ⟨y, rfl, k1.trans l1, k3.trans l2, hc, hb, fun i hi => ?_⟩
  show _ = List.getD x i 0
  rw [k4 i hi, k2 i hi, hg i hi]

theorem Rel.reset (h : Rel b r L d G G') (hs : SRel b r N s s') (hr : dlen N = r) {i : Nat}
    (hi : i < N) :
    Both (fun x y => Rel b r L d { G with eb := x } { G' with eb := y })
      (s.res.reset G.eb i) (s'.res.reset G'.eb i) := by
  obtain ⟨eb, rfl, hm, hc, hb⟩ := h
  refine Both.mono (hm.reset (hs.resImg hr) (by rw [hs.resN]; exact hi)) ?_
  intro x y _ _ hxy
  exact ⟨y, rfl, hxy, hc, hb⟩

/-- The root of the search. -/
theorem rootState_rel {G : Graph} {V : Vtx} (hr : dlen V.N = r) (hsp : V.spos < V.N)
    (hl : G.eb.length = L) (hc : G.searchCur = b) (hb : b + 2 * r ≤ L) (hL : L < 2 ^ 64)
    (hz : ∀ i, b ≤ i → i < b + 2 * r → G.eb.getD i 0 = 0) :
    Both (fun x y => Rel b r L 2 x.1 y.1 ∧ SRel b r V.N x.2 y.2)
      (G.rootState V r) (G.fl.rootState V r) := by
  have hm : Moved b r L G.eb G.eb := by
    refine ⟨hl, hl, fun i h1 h2 => ?_⟩
    by_cases hi : b ≤ i ∧ i < b + 2 * r
    · rw [hz i hi.1 hi.2, hz]
      · unfold sw; split <;> [skip; split] <;> omega
      · unfold sw; split <;> [skip; split] <;> omega
    · unfold sw
      rw [if_neg (by omega), if_neg (by omega)]
  have e1 : uadd b r = b + r := uadd_eq (by omega)
  have e2 : uadd (b + r) r = b + 2 * r := by rw [uadd_eq (by omega)]; omega
  unfold rootState
  cases ha : G.argLR with
  | true =>
    simp only [loadMemory, fl, ha, hc, e1, e2, if_true, Bool.not_true, Bool.false_eq_true, if_false]
    refine Both.bind (hm.set (c := ⟨b, V.N⟩) (c' := ⟨b + r, V.N⟩) (Img.first hr) hsp) ?_
    intro x y hxy
    refine Both.pure ⟨⟨y, ?_, hxy, rfl, hb⟩, rfl, rfl, hsp, Or.inl ⟨rfl, rfl⟩,
      Img.second hr, rfl⟩
    simp [other, ha]
  | false =>
    simp only [loadMemory, fl, ha, hc, e1, e2, if_true, Bool.not_false, Bool.false_eq_true, if_false]
    refine Both.bind (hm.set (c := ⟨b + r, V.N⟩) (c' := ⟨b, V.N⟩) (Img.second hr) hsp) ?_
    intro x y hxy
    refine Both.pure ⟨⟨y, ?_, hxy, rfl, hb⟩, rfl, rfl, hsp, Or.inr ⟨rfl, rfl⟩,
      Img.first hr, rfl⟩
    simp [other, ha]

theorem fillCand_rel {G : Graph} {V : Vtx} {m m' : Mem} {c c' : GBits} (hm : Moved b r L m m')
    (hi : Img b r c c') (hN : c.len = V.N) (hsp : V.spos < V.N) (e : Mem) :
    Both (fun x y => Moved b r L x.1 y.1 ∧ x.2 = y.2) (G.fillCand V c m)
      ((G.other e).fillCand V c' m') := by
  unfold fillCand
  refine Both.bind (Q := fun x y => Moved b r L x.1 y.1 ∧ x.2 = y.2) ?_ ?_
  · refine Both.forRangeIn ⟨hm, rfl⟩ ?_
    rintro k ⟨a, n⟩ ⟨a', _⟩ _ hk ⟨h, rfl⟩
    refine Both.same fun v => Both.same fun U => ?_
    refine Both.ite (Both.pure ⟨h, rfl⟩) ?_
    refine Both.bind (h.set hi (by omega)) ?_
    intro x y hxy
    exact Both.pure ⟨hxy, rfl⟩
  · rintro ⟨a, n⟩ ⟨a', _⟩ ⟨h, rfl⟩
    refine Both.forRangeIn ⟨h, rfl⟩ ?_
    rintro k ⟨a, n⟩ ⟨a', _⟩ _ hk ⟨h, rfl⟩
    refine Both.same fun v => Both.same fun U => ?_
    refine Both.ite (Both.pure ⟨h, rfl⟩) ?_
    refine Both.bind (h.set hi (by omega)) ?_
    intro x y hxy
    exact Both.pure ⟨hxy, rfl⟩

theorem stackScan_rel {G : Graph} {V U : Vtx} {m m' : Mem} {c c' : GBits}
    (hm : Moved b r L m m') (hi : Img b r c c') (e : Mem) (left cs k0 pot0 : Nat) :
    Both (fun x y => x = y ∧ ∀ k ∈ x.1, k < V.N) (G.stackScan V U c m left cs k0 pot0)
      ((G.other e).stackScan V U c' m' left cs k0 pot0) := by
  unfold stackScan
  refine Both.loop (P := fun x y => x = y ∧ ∀ k ∈ x.2.2.1, k < V.N) ?_ _
    ⟨rfl, fun k hk => by cases hk⟩
  rintro ⟨k, st, rm, pot⟩ _ ⟨rfl, hrm⟩
  refine Both.iteP (fun hc => ?_) fun hc => ?_
  · refine Both.same fun val => Both.same fun fa => ?_
    refine Both.bind (hm.next hi _) ?_
    rintro k' _ rfl
    refine Both.pure (Or.inl ⟨_, _, rfl, rfl, rfl, ?_⟩)
    dsimp only
    intro q hq
    split at hq
    · exact hrm q hq
    · rcases List.mem_append.1 hq with h | h
      · exact hrm q h
      · rw [List.mem_singleton.1 h]; exact hc.1
  · exact Both.pure (Or.inr ⟨_, _, rfl, rfl, rfl, hrm⟩)

/-- A new block at the top of the stack. -/
theorem push_rel {G : Graph} {eb : Mem} {c c' : GBits} (hm : Moved b r L G.eb eb)
    (hc : G.searchCur = b + d * r) (hd : 2 ≤ d) (hb : b + d * r ≤ L) (hL : L < 2 ^ 64)
    (hi : Img b r c c') (hN : dlen c.len = r) :
    Both (fun x y => Moved b r L x.2 y.2 ∧ x.1 = ⟨b + d * r, c.len⟩ ∧ y.1 = x.1 ∧
      uadd G.searchCur r = b + (d + 1) * r ∧ b + (d + 1) * r ≤ L)
      (GBits.copyFrom c G.searchCur G.eb) (GBits.copyFrom c' G.searchCur eb) := by
  have hdr : 2 * r ≤ d * r := Nat.mul_le_mul_right r hd
  have hs : (d + 1) * r = d * r + r := Nat.succ_mul d r
  rw [hc]
  refine Both.mono (hm.copyFrom hi (p := b + d * r) (by omega)) ?_
  rintro ⟨x1, x2⟩ ⟨y1, y2⟩ hx _ ⟨h1, h2, h3⟩
  dsimp only at h1 h2 h3
  have hroom : b + d * r + r ≤ L := by
    unfold GBits.copyFrom at hx
    obtain ⟨m1, hx, _⟩ := bind_eq_ok.1 hx
    have hr := copyData_room hx
    dsimp only at hr
    rw [hm.len, hN] at hr
    omega
  refine ⟨h1, h2, h3.trans h2.symm, ?_, by omega⟩
  rw [uadd_eq (by omega)]
  omega

def ForRel (b r L N d : Nat) : ForExit → ForExit → Prop
  | .pushed G t n, .pushed G' t' n' => Rel b r L (d + 1) G G' ∧ SRel b r N t t' ∧ SRel b r N n n'
  | .done G t j, .done G' t' j' => Rel b r L d G G' ∧ SRel b r N t t' ∧ j = j'
  | _, _ => False

theorem saveClique_rel {V : Vtx} {c c' : GBits} (h : Rel b r L d G G') (hi : Img b r c c')
    (hN : c.len = V.N) (hlow : V.ebo + dlen V.N ≤ b) (cur size : Nat) :
    Both (Rel b r L d) (G.saveClique cur V c size) (G'.saveClique cur V c' size) := by
  obtain ⟨eb, rfl, hm, hc, hb⟩ := h
  unfold saveClique
  refine Both.bind (Q := fun x y => x = y ∧ x = ⟨V.ebo, V.N⟩) ?_ ?_
  · intro x y hx hy
    unfold vbits at hx hy
    have : (G.other eb).dangling = G.dangling := rfl
    rw [this] at hy
    split at hx
    · cases hx
    · rename_i h
      rw [if_neg h] at hy
      cases hx; cases hy
      exact ⟨rfl, rfl⟩
  · rintro vb _ ⟨rfl, rfl⟩
    refine Both.bind (hm.copyData (c := ⟨V.ebo, V.N⟩) (c' := ⟨V.ebo, V.N⟩) (Img.low hlow)
      (by rw [← hN]; exact hi.off)) ?_
    intro x y hxy
    refine Both.bind (Q := Rel b r L d) ?_ ?_
    · unfold setMcs
      refine Both.same fun W => Both.same fun vs => ?_
      exact Both.pure ⟨y, rfl, hxy, hc, hb⟩
    · rintro A _ ⟨e, rfl, h1, h2, h3⟩
      exact Both.pure ⟨e, rfl, h1, h2, h3⟩

theorem stackFor_rel {V : Vtx} (cur cs left : Nat) (hr : dlen V.N = r)
    (hlow : V.ebo + dlen V.N ≤ b) (hL : L < 2 ^ 64) (hd : 2 ≤ d) (h : Rel b r L d G G')
    (hs : SRel b r V.N s s') :
    Both (fun x y => (∃ a' b', x = .inl a' ∧ y = .inl b' ∧
        (Rel b r L d a'.1 b'.1 ∧ SRel b r V.N a'.2.1 b'.2.1 ∧ a'.2.2 = b'.2.2)) ∨
      ∃ c e, x = .inr c ∧ y = .inr e ∧ ForRel b r L V.N d c e)
      (stackFor cur V r cs (G, s, left)) (stackFor cur V r cs (G', s', left)) := by
  obtain ⟨eb, rfl, hm, hc, hb⟩ := h
  unfold stackFor
  dsimp only
  rw [hs.sa]
  by_cases hj : s.startAt < V.N
  swap
  · rw [if_neg hj, if_neg hj]
    exact Both.pure (Or.inr ⟨_, _, rfl, rfl, ⟨eb, rfl, hm, hc, hb⟩, hs, rfl⟩)
  rw [if_pos hj, if_pos hj]
  refine Both.bind (hm.reset hs.cand (by rw [hs.cN]; exact hj)) ?_
  intro x y hxy
  refine Both.bind (hxy.next hs.cand _) ?_
  rintro sa _ rfl
  have hs' : SRel b r V.N { s with startAt := sa } { s' with startAt := sa } :=
    ⟨hs.id, rfl, hs.idN, hs.res, hs.cand, hs.cN⟩
  refine Both.same fun vert => Both.same fun U => ?_
  refine Both.bind (stackScan_rel (G := { G with eb := x }) hxy hs.cand y _ _ _ _) ?_
  rintro ⟨rm, pot⟩ _ ⟨rfl, hrm⟩
  dsimp only at hrm
  refine Both.ite ?_ (Both.pure (Or.inl ⟨_, _, rfl, rfl, ⟨y, rfl, hxy, hc, hb⟩, hs', rfl⟩))
  refine Both.ite ?_ ?_
  · refine Both.bind (hxy.set (hs.resImg hr) (by rw [hs.resN]; exact hj)) ?_
    intro x1 y1 h1
    refine Both.bind (saveClique_rel (G := { G with eb := x1 })
      (G' := { G.other eb with eb := y1 }) (c := s.res) (c' := s'.res) (d := d)
      ⟨y1, rfl, h1, hc, hb⟩ (hs.resImg hr) hs.resN hlow _ _) ?_
    · intro A B hAB
      refine Both.bind (hAB.reset hs hr hj) ?_
      intro x2 y2 h2
      exact Both.pure (Or.inl ⟨_, _, rfl, rfl, h2, hs', rfl⟩)
  · refine Both.bind (push_rel (G := { G with eb := x }) hxy hc hd hb hL hs.cand
      (by rw [hs.cN]; exact hr)) ?_
    rintro ⟨c1, x1⟩ ⟨c2, y1⟩ ⟨h1, h2, h3, h4, h5⟩
    dsimp only at h1 h2 h3 h4
    subst h3 h2
    refine Both.bind (h1.set (hs.resImg hr) (by rw [hs.resN]; exact hj)) ?_
    intro x2 y2 h6
    have hdr : 2 * r ≤ d * r := Nat.mul_le_mul_right r hd
    have hci : Img b r ⟨b + d * r, s.cand.len⟩ ⟨b + d * r, s.cand.len⟩ := Img.high (by omega)
    refine Both.bind (Both.foldlM (P := Moved b r L) h6 ?_) ?_
    · intro k hk x3 y3 h7
      exact h7.reset hci (by show k < s.cand.len; rw [hs.cN]; exact hrm k hk)
    · intro x3 y3 h7
      refine Both.pure (Or.inr ⟨_, _, rfl, rfl, ⟨y3, rfl, h7, h4, h5⟩, hs', ?_⟩)
      exact ⟨rfl, rfl, hj, hs.res, hci, hs.cN⟩

/-- The graph goes with a stack of `n` entries. -/
def GRel (b r L n : Nat) (G G' : Graph) : Prop :=
  (n = 0 → Weak b r L G G') ∧ (n ≠ 0 → Rel b r L (n + 1) G G')

theorem pop_clear {n : Nat} (h : Rel b r L (n + 2) G G') (hL : L < 2 ^ 64) :
    Both (fun A B => GRel b r L n A B ∧ (n = 0 → ∀ i, b + r ≤ i → i < b + 2 * r →
      A.eb.getD i 0 = 0 ∧ B.eb.getD i 0 = 0)) (G.clearMemory r) (G'.clearMemory r) := by
  rcases Nat.eq_zero_or_pos n with h0 | h0
  · subst h0
    have := h.clearTop (by omega) hL
    rw [show (0 + 2 - 1) * r = r by omega] at this
    exact Both.mono this fun A B _ _ hq => ⟨⟨fun _ => hq.1, fun h => absurd rfl h⟩, fun _ => hq.2⟩
  · refine Both.mono (h.clearHigh (by omega) hL) fun A B _ _ hq => ⟨⟨fun h => by omega, fun _ => hq⟩,
      fun h => by omega⟩

theorem pop_reset {n : Nat} (h : GRel b r L n G G') (hs : SRel b r N s s') (hr : dlen N = r)
    (ht : n = 0 → ∀ i, b + r ≤ i → i < b + 2 * r → G.eb.getD i 0 = 0 ∧ G'.eb.getD i 0 = 0) :
    Both (fun x y => GRel b r L n { G with eb := x } { G' with eb := y })
      (s.res.reset G.eb s.id) (s'.res.reset G'.eb s'.id) := by
  by_cases h0 : n = 0
  · refine Both.mono ((h.1 h0).reset hs hr (ht h0)) fun x y _ _ hq => ⟨fun _ => hq, fun h => ?_⟩
    exact absurd h0 h
  · rw [hs.id]
    refine Both.mono ((h.2 h0).reset hs hr hs.idN) fun x y _ _ hq => ⟨fun h => ?_, fun _ => hq⟩
    exact absurd h h0

theorem stackBody_rel {V : Vtx} (cur cs : Nat) (hr : dlen V.N = r) (hlow : V.ebo + dlen V.N ≤ b)
    (hL : L < 2 ^ 64) {st st' : List SState} (hst : List.Forall₂ (SRel b r V.N) st st')
    (h : GRel b r L st.length G G') :
    Both (fun x y => (∃ a' b', x = .inl a' ∧ y = .inl b' ∧ (List.Forall₂ (SRel b r V.N) a'.2.1 b'.2.1 ∧
        GRel b r L a'.2.1.length a'.1 b'.1 ∧ a'.2.2 = b'.2.2)) ∨
      ∃ c e, x = .inr c ∧ y = .inr e ∧ (List.Forall₂ (SRel b r V.N) c.2 e.2 ∧
        GRel b r L c.2.length c.1 e.1))
      (stackBody cur V r (G, st, cs)) (stackBody cur V r (G', st', cs)) := by
  cases hst with
  | nil =>
    exact Both.pure (Or.inr ⟨_, _, rfl, rfl, List.Forall₂.nil, h⟩)
  | @cons top top' rest rest' hs hrest =>
    have hR : Rel b r L (rest.length + 2) G G' := h.2 (by simp)
    obtain ⟨eb, rfl, hm, hc, hb⟩ := hR
    unfold stackBody
    dsimp only
    refine Both.ite (Both.pure (Or.inr ⟨_, _, rfl, rfl, List.Forall₂.cons hs hrest, h⟩)) ?_
    refine Both.bind (hm.count hs.cand) ?_
    rintro ⟨x, left⟩ ⟨y, _⟩ ⟨hxy, rfl⟩
    dsimp only at hxy ⊢
    rw [hs.sa]
    refine Both.bind (hxy.next hs.cand _) ?_
    rintro sa _ rfl
    have hs' : SRel b r V.N { top with startAt := sa } { top' with startAt := sa } :=
      ⟨hs.id, rfl, hs.idN, hs.res, hs.cand, hs.cN⟩
    refine Both.bind (Both.loop (P := fun a b' => Rel b r L (rest.length + 2) a.1 b'.1 ∧
      SRel b r V.N a.2.1 b'.2.1 ∧ a.2.2 = b'.2.2) (R := ForRel b r L V.N (rest.length + 2)) ?_ _
      ⟨⟨y, rfl, hxy, hc, hb⟩, hs', rfl⟩) ?_
    · rintro ⟨A, t, l⟩ ⟨B, t', _⟩ ⟨h1, h2, rfl⟩
      exact stackFor_rel cur cs l hr hlow hL (by omega) h1 h2
    · rintro (⟨A, t, n⟩ | ⟨A, t, j⟩) (⟨B, t', n'⟩ | ⟨B, t', j'⟩) hq
      · obtain ⟨h1, h2, h3⟩ := hq
        refine Both.pure (Or.inl ⟨_, _, rfl, rfl, .cons h3 (.cons h2 hrest), ?_, rfl⟩)
        exact ⟨fun h => by simp at h, fun _ => by simpa using h1⟩
      · exact hq.elim
      · exact hq.elim
      · obtain ⟨h1, h2, rfl⟩ := hq
        dsimp only
        refine Both.ite ?_ ?_
        · refine Both.bind (pop_clear h1 hL) ?_
          rintro A B ⟨h3, h4⟩
          refine Both.bind (pop_reset h3 h2 hr h4) ?_
          intro x2 y2 h5
          exact Both.pure (Or.inl ⟨_, _, rfl, rfl, hrest, h5, rfl⟩)
        · refine Both.pure (Or.inl ⟨_, _, rfl, rfl, .cons h2 hrest, ?_, rfl⟩)
          exact ⟨fun h => by simp at h, fun _ => by simpa using h1⟩

/-- What the two searches start from. -/
structure Start (b L : Nat) (G : Graph) : Prop where
  len : G.eb.length = L
  cur : G.searchCur = b
  lt : L < 2 ^ 64
  zero : ∀ i, b ≤ i → G.eb.getD i 0 = 0
  low : ∀ v V, G.vtx v = .ok V → V.ebo + dlen V.N ≤ b ∧ V.spos < V.N ∧ b + 2 * dlen V.N ≤ L

theorem stackVertex_rel {G : Graph} (h : Start b L G) (cur : Nat) :
    Both (fun A B => B = A.fl) (G.stackVertex cur) (G.fl.stackVertex cur) := by
  unfold stackVertex
  refine Both.bind (Q := fun x y => x = y ∧ G.vtx cur = .ok x)
    (fun x y hx hy => ⟨by have := hx.symm.trans hy; cases this; rfl, hx⟩) ?_
  rintro V _ ⟨rfl, hV⟩
  obtain ⟨hlow, hsp, hroom⟩ := h.low cur V hV
  refine Both.bind (rootState_rel rfl hsp h.len h.cur hroom h.lt fun i h1 _ => h.zero i h1) ?_
  rintro ⟨G1, x⟩ ⟨G2, x'⟩ ⟨⟨eb, hG2, hm, hc, hb⟩, hs⟩
  dsimp only at hG2 hm hc hs ⊢
  subst hG2
  refine Both.bind (fillCand_rel hm hs.cand hs.cN hsp eb) ?_
  rintro ⟨m1, pot⟩ ⟨m2, _⟩ ⟨hxy, rfl⟩
  dsimp only at hxy ⊢
  have hrel : Rel b (dlen V.N) L 2 { G1 with eb := m1 } { G1.other eb with eb := m2 } :=
    ⟨m2, rfl, hxy, hc, hb⟩
  refine Both.ite (hrel.clearBoth h.lt) ?_
  refine Both.bind (Both.loop (P := fun a b' => List.Forall₂ (SRel b (dlen V.N) V.N) a.2.1 b'.2.1 ∧
    GRel b (dlen V.N) L a.2.1.length a.1 b'.1 ∧ a.2.2 = b'.2.2)
    (R := fun c e => List.Forall₂ (SRel b (dlen V.N) V.N) c.2 e.2 ∧
      GRel b (dlen V.N) L c.2.length c.1 e.1) ?_ _
    ⟨.cons hs .nil, ⟨fun h => by simp at h, fun _ => hrel⟩, rfl⟩) ?_
  · rintro ⟨A, st, cs⟩ ⟨B, st', _⟩ ⟨h1, h2, rfl⟩
    exact stackBody_rel cur cs rfl hlow h.lt h1 h2
  · rintro ⟨A, st⟩ ⟨B, st'⟩ ⟨h1, h2⟩
    dsimp only at h1 h2 ⊢
    rw [← h1.length_eq]
    cases h1 with
    | nil =>
      exact (h2.1 rfl).clear h.lt
    | @cons t t' rest rest' _ _ =>
      dsimp only [List.isEmpty]
      have := (h2.2 (by simp)).clearTop (by simp) h.lt
      rw [Nat.add_sub_cancel, Nat.mul_comm (List.length _) (dlen V.N)] at this
      refine Both.bind this ?_
      rintro A B ⟨h3, _⟩
      exact h3.clear h.lt

end Graph

end CM
