import Verif.Lemmas.Mono
import Verif.Lemmas.SetOps
import Verif.Props.Sample

/-!
# C40, C41: packed sets and neighbour lookup

The set a `graphBits` object stands for is `members m b`: the positions below its length
whose bit is set, position `i` being bit `63 - i % 64` of word `i / 64`.
-/

namespace CM

open Spec Graph

/-- The bit of position `i` of the packed set `b` in the buffer `m`. -/
def isMember (m : Mem) (b : GBits) (i : Nat) : Bool :=
  (m.getD (b.off + i / 64) 0#64).getLsbD (63 - i % 64)

/-- The set a packed set stands for. -/
def members (m : Mem) (b : GBits) : Finset Nat :=
  (Finset.range b.len).filter fun i => isMember m b i = true

/-- The words of the packed set lie in the buffer. -/
def Inside (m : Mem) (b : GBits) : Prop := b.off + (b.len + 63) / 64 ≤ m.length

/-- Nothing is stored beyond the length of the set. -/
def Clean (m : Mem) (b : GBits) : Prop :=
  ∀ i, b.len ≤ i → i < 64 * ((b.len + 63) / 64) → isMember m b i = false

/-- The words outside the packed set are the same in both buffers. -/
def SameOutside (m m' : Mem) (b : GBits) : Prop :=
  m'.length = m.length ∧
    ∀ j, j < b.off ∨ b.off + (b.len + 63) / 64 ≤ j → m'.getD j 0#64 = m.getD j 0#64

theorem dlen_eq (n : Nat) : dlen n = (n + 63) / 64 := by
  unfold dlen; split <;> omega

theorem isMember_eq (m : Mem) (b : GBits) (i : Nat) :
    isMember m b i = bitAt m (64 * b.off + i) := by
  unfold isMember bitAt
  have e1 : (64 * b.off + i) / 64 = b.off + i / 64 := by omega
  have e2 : (64 * b.off + i) % 64 = i % 64 := by omega
  rw [e1, e2, BitVec.getMsbD_eq_getLsbD]
  have : i % 64 < 64 := Nat.mod_lt _ (by decide)
  simp [this]

theorem members_eq (m : Mem) (b : GBits) : members m b = bset m b := by
  unfold members bset
  simp only [isMember_eq]

theorem outside_words {m m' : Mem} {b : GBits} (hl : m'.length = m.length)
    (h : ∀ a, a < 64 * b.off ∨ 64 * (b.off + (b.len + 63) / 64) ≤ a → bitAt m' a = bitAt m a) :
    SameOutside m m' b := by
  refine ⟨hl, ?_⟩
  intro j hj
  apply BitVec.eq_of_getMsbD_eq
  intro k hk
  rw [← bitAt_word hk, ← bitAt_word hk]
  apply h; omega

/-- **C40**, insertion. -/
theorem C40_set {m : Mem} {b : GBits} (h : Inside m b) {i : Nat} (hi : i < b.len) :
    ∃ m', b.set m i = .ok m' ∧ members m' b = insert i (members m b) ∧ SameOutside m m' b ∧
      (Clean m b → Clean m' b) := by
  unfold Inside at h
  obtain ⟨m', h1, h2, h3⟩ := b.set_spec m i (by omega)
  refine ⟨m', h1, ?_, outside_words h2 ?_, ?_⟩
  · rw [members_eq, members_eq]
    ext k
    rw [Finset.mem_insert, mem_bset, mem_bset, h3]
    simp only [Nat.add_left_cancel_iff, Bool.or_eq_true, decide_eq_true_eq]
    constructor
    · rintro ⟨a, b | b⟩
      · exact Or.inl b
      · exact Or.inr ⟨a, b⟩
    · rintro (rfl | ⟨a, b⟩)
      · exact ⟨hi, Or.inl rfl⟩
      · exact ⟨a, Or.inr b⟩
  · intro a ha
    rw [h3]
    have : ¬ a = 64 * b.off + i := by omega
    simp [this]
  · intro hc k hk hk'
    have := hc k hk hk'
    rw [isMember_eq] at this ⊢
    rw [h3, this, Bool.or_false, decide_eq_false_iff_not]
    omega

/-- **C40**, removal. -/
theorem C40_reset {m : Mem} {b : GBits} (h : Inside m b) {i : Nat} (hi : i < b.len) :
    ∃ m', b.reset m i = .ok m' ∧ members m' b = (members m b).erase i ∧ SameOutside m m' b ∧
      (Clean m b → Clean m' b) := by
  unfold Inside at h
  obtain ⟨m', h1, h2, h3⟩ := b.reset_spec m i (by omega)
  refine ⟨m', h1, ?_, outside_words h2 ?_, ?_⟩
  · rw [members_eq, members_eq]
    ext k
    rw [Finset.mem_erase, mem_bset, mem_bset, h3]
    simp only [Nat.add_left_cancel_iff, Bool.and_eq_true, Bool.not_eq_true',
      decide_eq_false_iff_not]
    tauto
  · intro a ha
    rw [h3]
    have : ¬ a = 64 * b.off + i := by omega
    simp [this]
  · intro hc k hk hk'
    have := hc k hk hk'
    rw [isMember_eq] at this ⊢
    rw [h3, this]
    simp

/-- **C40**, membership. -/
theorem C40_test {m : Mem} {b : GBits} (h : Inside m b) {i : Nat} (hi : i < b.len) :
    b.test m i = .ok (decide (i ∈ members m b)) := by
  unfold Inside at h
  rw [b.test_spec m i (by omega), members_eq]
  congr 1
  simp only [mem_bset, hi, true_and, Bool.decide_eq_true]

/-- **C40**, cardinality.  `count` also cleans the last word, which changes no member. -/
theorem C40_count {m : Mem} {b : GBits} (h : Inside m b) (h0 : 0 < b.len) :
    ∃ m', b.count m = .ok (m', (members m b).card) ∧ members m' b = members m b ∧ Clean m' b ∧
      SameOutside m m' b := by
  unfold Inside at h
  obtain ⟨m', h1, h2, h3⟩ := b.count_spec m h0 (by rw [dlen_eq]; omega)
  rw [dlen_eq] at h3
  refine ⟨m', by rw [members_eq]; exact h1, ?_, ?_, outside_words h2 ?_⟩
  · rw [members_eq, members_eq]
    apply bset_congr rfl
    intro i hi
    rw [h3, if_neg (by omega)]
  · intro i hi hi'
    rw [isMember_eq, h3, if_pos (by omega)]
  · intro a ha
    rw [h3, if_neg (by omega)]

/-- **C40**, next member: the least member that is at least `i`, or the length if there is
none. -/
theorem C40_next {m : Mem} {b : GBits} (h : Inside m b) (hc : Clean m b) {i : Nat}
    (hi : i ≤ b.len) :
    ∃ r, b.next m i = .ok r ∧ i ≤ r ∧ (∀ k ∈ members m b, i ≤ k → r ≤ k) ∧
      (r ∈ members m b ∨ r = b.len) := by
  unfold Inside at h
  obtain ⟨r, h1, h2, h3, h4, h5⟩ := b.next_spec m i (by rw [dlen_eq]; omega)
    (fun k hk hk' => by rw [← isMember_eq]; exact hc k hk (by rw [← dlen_eq]; exact hk')) hi
  rw [members_eq]
  refine ⟨r, h1, h2, h5, ?_⟩
  rcases Nat.lt_or_ge r b.len with h6 | h6
  · exact Or.inl (h4 h6)
  · exact Or.inr (by omega)

/-- **C40**, copying to a place that does not overlap. -/
theorem C40_copy {m : Mem} {b c : GBits} (hb : Inside m b) (hc : Inside m c)
    (hlen : c.len = b.len)
    (hd : b.off + (b.len + 63) / 64 ≤ c.off ∨ c.off + (c.len + 63) / 64 ≤ b.off) :
    ∃ m', b.copyData c.off m = .ok m' ∧ members m' b = members m c ∧ members m' c = members m c ∧
      (Clean m c → Clean m' b) ∧ SameOutside m m' b := by
  unfold Inside at hb hc
  rw [hlen] at hd hc
  obtain ⟨m', h1, h2, h3⟩ := b.copyData_spec c.off m (by rw [dlen_eq]; exact hb)
    (by rw [dlen_eq]; exact hc) (by rw [dlen_eq]; exact hd)
  rw [dlen_eq] at h3
  have key : ∀ i, i < 64 * ((b.len + 63) / 64) →
      bitAt m' (64 * b.off + i) = bitAt m (64 * c.off + i) := by
    intro i hi
    rw [h3, if_pos (by omega)]
    congr 1; omega
  refine ⟨m', h1, ?_, ?_, ?_, outside_words h2 ?_⟩
  · rw [members_eq, members_eq]
    ext i
    rw [mem_bset, mem_bset, hlen]
    constructor
    · rintro ⟨a, b⟩; exact ⟨a, by rw [← key i (by omega)]; exact b⟩
    · rintro ⟨a, b⟩; exact ⟨a, by rw [key i (by omega)]; exact b⟩
  · rw [members_eq, members_eq]
    apply bset_congr rfl
    intro i hi
    rw [h3, if_neg (by omega)]
  · intro hcl i hi hi'
    rw [isMember_eq, key i hi', ← isMember_eq]
    exact hcl i (by omega) (by rw [hlen]; exact hi')
  · intro a ha
    rw [h3, if_neg (by omega)]

/-- **C40**, a copy in other memory (`copy_from`): the new set is at `ptr`, has the same members, and
the old one keeps its own. -/
theorem C40_copy_from {m : Mem} {c : GBits} {ptr : Nat} (hb : Inside m ⟨ptr, c.len⟩)
    (hc : Inside m c)
    (hd : ptr + (c.len + 63) / 64 ≤ c.off ∨ c.off + (c.len + 63) / 64 ≤ ptr) :
    ∃ b m', GBits.copyFrom c ptr m = .ok (b, m') ∧ b.off = ptr ∧ b.len = c.len ∧
      members m' b = members m c ∧ members m' c = members m c ∧ (Clean m c → Clean m' b) ∧
      SameOutside m m' b := by
  obtain ⟨m', h1, h2⟩ := C40_copy hb hc rfl hd
  refine ⟨⟨ptr, c.len⟩, m', ?_, rfl, rfl, h2⟩
  change (GBits.copyData ⟨ptr, c.len⟩ c.off m >>= fun m => .ok (_, m)) = _
  rw [h1]
  rfl

/-- Two words, the first copied to the second. -/
example : GBits.copyFrom ⟨0, 3⟩ 1 [0xA000000000000000#64, 0#64] =
    .ok (⟨1, 3⟩, [0xA000000000000000#64, 0xA000000000000000#64]) ∧
    Inside [0xA000000000000000#64, 0#64] ⟨1, 3⟩ ∧ Inside [0xA000000000000000#64, 0#64] ⟨0, 3⟩ := by
  refine ⟨by decide +kernel, ?_, ?_⟩ <;> unfold Inside <;> decide

/-- **C40**, the elements at the member positions, in increasing order of position: this is
how a clique is read out. -/
theorem C40_elements {m : Mem} {b : GBits} (h : Inside m b) (h0 : 0 < b.len) (el : List Nat)
    (base : Nat) (hel : base + b.len ≤ el.length) :
    ∃ m', b.getSubset el base m =
      .ok (m', ((List.range b.len).filter (fun i => decide (i ∈ members m b))).map
        fun i => el.getD (base + i) 0) := by
  unfold Inside at h
  obtain ⟨m', h1, _⟩ := b.getSubset_spec el base m h0 (by rw [dlen_eq]; omega) hel
  refine ⟨m', ?_⟩
  rw [h1]
  unfold pick
  congr 3
  apply List.filter_congr
  intro i hi
  rw [List.mem_range] at hi
  rw [members_eq]
  simp only [mem_bset, hi, true_and, Bool.decide_eq_true]

/-- A set of 70 positions in two words, with a member in each: the operations cross the
word boundary. -/
example : Inside [0x4000000000000000#64, 0x0800000000000000#64] ⟨0, 70⟩ ∧
    Clean [0x4000000000000000#64, 0x0800000000000000#64] ⟨0, 70⟩ ∧
    GBits.next ⟨0, 70⟩ [0x4000000000000000#64, 0x0800000000000000#64] 2 = .ok 68 ∧
    members [0x4000000000000000#64, 0x0800000000000000#64] ⟨0, 70⟩ = {1, 68} := by
  refine ⟨by unfold Inside; decide, ?_, by decide +kernel, by decide +kernel⟩
  intro i h1 h2
  have h3 : i < 128 := h2
  have h4 : 70 ≤ i := h1
  have : ∀ j : Fin 128, 70 ≤ j.val →
      isMember [0x4000000000000000#64, 0x0800000000000000#64] ⟨0, 70⟩ j.val = false := by
    decide +kernel
  exact this ⟨i, h3⟩ h4

/-- **C40**, flipping a position. -/
theorem C40_toggle {m : Mem} {b : GBits} (h : Inside m b) {i : Nat} (hi : i < b.len) :
    ∃ m', b.toggle m i = .ok m' ∧
      members m' b =
        (if i ∈ members m b then (members m b).erase i else insert i (members m b)) ∧
      SameOutside m m' b ∧ (Clean m b → Clean m' b) := by
  unfold Inside at h
  obtain ⟨m', h1, h2, h3⟩ := b.toggle_spec m i (by omega)
  refine ⟨m', h1, ?_, outside_words h2 ?_, ?_⟩
  · rw [members_eq, members_eq]
    ext k
    by_cases hm : i ∈ bset m b
    · rw [if_pos hm, Finset.mem_erase, mem_bset, mem_bset, h3]
      rw [mem_bset] at hm
      by_cases hk : k = i
      · subst hk; simp [hm.2]
      · have : ¬ 64 * b.off + k = 64 * b.off + i := by omega
        simp [hk]
    · rw [if_neg hm, Finset.mem_insert, mem_bset, mem_bset, h3]
      rw [mem_bset] at hm
      have hm' : bitAt m (64 * b.off + i) = false := by
        rw [Bool.eq_false_iff]; exact fun h => hm ⟨hi, h⟩
      by_cases hk : k = i
      · subst hk; simp [hi, hm']
      · have : ¬ 64 * b.off + k = 64 * b.off + i := by omega
        simp [hk]
  · intro a ha
    rw [h3, if_neg (by omega)]
  · intro hc k hk hk'
    have := hc k hk hk'
    rw [isMember_eq] at this ⊢
    rw [h3, if_neg (by omega), this]

/-- **C40**, emptying: `clear()` removes every member. -/
theorem C40_clear {m : Mem} {b : GBits} (h : Inside m b) :
    ∃ m', b.clear m 0 = .ok m' ∧ members m' b = ∅ ∧ Clean m' b ∧ SameOutside m m' b := by
  unfold Inside at h
  obtain ⟨m', w, h1, h2, h3, h4, _, _, h5⟩ := b.clear_spec m 0 (by rw [dlen_eq]; exact h)
  have hw := h4 (Or.inl rfl)
  rw [dlen_eq] at hw
  subst hw
  refine ⟨m', h1, ?_, ?_, outside_words h2 ?_⟩
  · rw [members_eq]
    ext k
    rw [mem_bset, h5]
    simp only [Finset.notMem_empty, iff_false]
    rintro ⟨hk, hk2⟩
    rw [if_pos (by omega)] at hk2
    cases hk2
  · intro k hk hk'
    rw [isMember_eq, h5, if_pos (by omega)]
  · intro a ha
    rw [h5, if_neg (by omega)]

/-- **C40**, emptying a prefix: `clear(N)` with `0 < N` removes the members in the words up to
and including the one that holds position `N`, and no others. -/
theorem C40_clear_prefix {m : Mem} {b : GBits} (h : Inside m b) {N : Nat} (hN : 0 < N) :
    ∃ m', b.clear m N = .ok m' ∧
      members m' b = (members m b).filter (fun i => 64 * (N / 64 + 1) ≤ i) ∧
      SameOutside m m' b ∧ (Clean m b → Clean m' b) := by
  unfold Inside at h
  have key : ∃ m', b.clear m N = .ok m' ∧ m'.length = m.length ∧
      ∀ a, bitAt m' a = (if 64 * b.off ≤ a ∧
        a < 64 * (b.off + min (N / 64 + 1) ((b.len + 63) / 64)) then false else bitAt m a) := by
    have e : (if N = 0 ∨ 1 + N / 64 > dlen b.len then dlen b.len else 1 + N / 64) =
        min (N / 64 + 1) ((b.len + 63) / 64) := by
      rw [dlen_eq]; split <;> omega
    obtain ⟨m', h1, h2, h3⟩ := zeroRange_spec m b.off (min (N / 64 + 1) ((b.len + 63) / 64))
      (by omega)
    refine ⟨m', ?_, h2, h3⟩
    unfold GBits.clear
    simp only [e]; exact h1
  obtain ⟨m', h1, h2, h3⟩ := key
  refine ⟨m', h1, ?_, outside_words h2 ?_, ?_⟩
  · rw [members_eq, members_eq]
    ext k
    rw [Finset.mem_filter, mem_bset, mem_bset, h3]
    constructor
    · rintro ⟨hk, hb⟩
      split at hb
      · cases hb
      · exact ⟨⟨hk, hb⟩, by omega⟩
    · rintro ⟨⟨hk, hb⟩, h6⟩
      rw [if_neg (by omega)]
      exact ⟨hk, hb⟩
  · intro a ha
    rw [h3, if_neg (by omega)]
  · intro hc k hk hk'
    have := hc k hk hk'
    rw [isMember_eq] at this ⊢
    rw [h3, this]; simp

/-- Two packed sets of the same length do not partially overlap. -/
def NoPartialOverlap (b c : GBits) : Prop :=
  b.off + (b.len + 63) / 64 ≤ c.off ∨ c.off + (b.len + 63) / 64 ≤ b.off ∨ c.off = b.off

theorem zip_members {op : Word → Word → Word} {f : Bool → Bool → Bool}
    (hop : ∀ x y k, k < 64 → (op x y).getMsbD k = f (x.getMsbD k) (y.getMsbD k))
    {m : Mem} {b c : GBits} (hb : Inside m b) (hc : Inside m c) (hlen : c.len = b.len)
    (h0 : 0 < b.len) (hd : NoPartialOverlap b c) :
    ∃ m', GBits.zipOp op b c m = .ok m' ∧
      (∀ i, i ∈ members m' b ↔
        i < b.len ∧ f (decide (i ∈ members m b)) (decide (i ∈ members m c)) = true) ∧
      Clean m' b ∧ SameOutside m m' b := by
  unfold Inside at hb hc
  unfold NoPartialOverlap at hd
  rw [hlen] at hc
  obtain ⟨m', h1, h2, h3⟩ := GBits.zipOp_spec op f hop b c m h0 (by rw [dlen_eq]; exact hb)
    (by rw [dlen_eq]; exact hc) (by rw [dlen_eq]; exact hd)
  rw [dlen_eq] at h3
  refine ⟨m', h1, ?_, ?_, outside_words h2 ?_⟩
  · intro i
    rw [members_eq, members_eq, members_eq, mem_bset, h3]
    refine and_congr_right fun hi => ?_
    rw [if_pos (by omega), if_pos (by omega)]
    have e : 64 * b.off + i - 64 * b.off + 64 * c.off = 64 * c.off + i := by omega
    rw [e]
    simp only [mem_bset, hi, hlen, true_and, Bool.decide_eq_true]
  · intro k hk hk'
    rw [isMember_eq, h3, if_pos (by omega), if_neg (by omega)]
  · intro a ha
    rw [h3, if_neg (by omega)]

theorem members_lt {m : Mem} {b : GBits} {i : Nat} (h : i ∈ members m b) : i < b.len := by
  unfold members at h
  rw [Finset.mem_filter, Finset.mem_range] at h
  exact h.1

/-- **C40**, intersection in place (`&=`). -/
theorem C40_and {m : Mem} {b c : GBits} (hb : Inside m b) (hc : Inside m c)
    (hlen : c.len = b.len) (h0 : 0 < b.len) (hd : NoPartialOverlap b c) :
    ∃ m', b.andEq c m = .ok m' ∧ members m' b = members m b ∩ members m c ∧ Clean m' b ∧
      SameOutside m m' b := by
  obtain ⟨m', h1, h2, h3, h4⟩ := zip_members (op := fun x y => x &&& y) (f := fun x y => x && y)
    (fun x y k _ => BitVec.getMsbD_and) hb hc hlen h0 hd
  refine ⟨m', h1, ?_, h3, h4⟩
  ext i
  rw [h2, Finset.mem_inter]
  simp only [Bool.and_eq_true, decide_eq_true_eq]
  exact ⟨fun h => h.2, fun h => ⟨members_lt h.1, h⟩⟩

/-- **C40**, union in place (`|=`). -/
theorem C40_or {m : Mem} {b c : GBits} (hb : Inside m b) (hc : Inside m c)
    (hlen : c.len = b.len) (h0 : 0 < b.len) (hd : NoPartialOverlap b c) :
    ∃ m', b.orEq c m = .ok m' ∧ members m' b = members m b ∪ members m c ∧ Clean m' b ∧
      SameOutside m m' b := by
  obtain ⟨m', h1, h2, h3, h4⟩ := zip_members (op := fun x y => x ||| y) (f := fun x y => x || y)
    (fun x y k _ => BitVec.getMsbD_or) hb hc hlen h0 hd
  refine ⟨m', h1, ?_, h3, h4⟩
  ext i
  rw [h2, Finset.mem_union]
  simp only [Bool.or_eq_true, decide_eq_true_eq]
  refine ⟨fun h => h.2, fun h => ⟨?_, h⟩⟩
  rcases h with h | h
  · exact members_lt h
  · rw [← hlen]; exact members_lt h

/-- **C40**, symmetric difference in place (`^=`). -/
theorem C40_xor {m : Mem} {b c : GBits} (hb : Inside m b) (hc : Inside m c)
    (hlen : c.len = b.len) (h0 : 0 < b.len) (hd : NoPartialOverlap b c) :
    ∃ m', b.xorEq c m = .ok m' ∧
      members m' b = (members m b \ members m c) ∪ (members m c \ members m b) ∧ Clean m' b ∧
      SameOutside m m' b := by
  obtain ⟨m', h1, h2, h3, h4⟩ := zip_members (op := fun x y => x ^^^ y) (f := fun x y => x ^^ y)
    (fun x y k _ => BitVec.getMsbD_xor) hb hc hlen h0 hd
  refine ⟨m', h1, ?_, h3, h4⟩
  ext i
  rw [h2, Finset.mem_union, Finset.mem_sdiff, Finset.mem_sdiff]
  have hb' : i ∈ members m b → i < b.len := members_lt
  have hc' : i ∈ members m c → i < b.len := fun h => by rw [← hlen]; exact members_lt h
  by_cases h5 : i ∈ members m b <;> by_cases h6 : i ∈ members m c <;> simp [h5, h6] <;> tauto

/-- **C40**, difference in place (`-=`). -/
theorem C40_sub {m : Mem} {b c : GBits} (hb : Inside m b) (hc : Inside m c)
    (hlen : c.len = b.len) (h0 : 0 < b.len) (hd : NoPartialOverlap b c) :
    ∃ m', b.subEq c m = .ok m' ∧ members m' b = members m b \ members m c ∧ Clean m' b ∧
      SameOutside m m' b := by
  obtain ⟨m', h1, h2, h3, h4⟩ := zip_members (op := fun x y => x &&& ~~~ y)
    (f := fun x y => x && !y)
    (fun x y k hk => by rw [BitVec.getMsbD_and, BitVec.getMsbD_not]; simp [hk]) hb hc hlen h0 hd
  refine ⟨m', h1, ?_, h3, h4⟩
  ext i
  rw [h2, Finset.mem_sdiff]
  simp only [Bool.and_eq_true, decide_eq_true_eq, Bool.not_eq_true', decide_eq_false_iff_not]
  exact ⟨fun h => h.2, fun h => ⟨members_lt h.1, h⟩⟩

/-- **C40**, emptiness of a 64-position block. -/
theorem C40_block_empty {m : Mem} {b : GBits} (h : Inside m b) (hc : Clean m b) {i : Nat}
    (hi : i < b.len) :
    ∃ r, b.blockEmpty m i = .ok r ∧ (r = true ↔ ∀ k ∈ members m b, k / 64 ≠ i / 64) := by
  unfold Inside at h
  have hl : b.off + i / 64 < m.length := by omega
  refine ⟨_, by unfold GBits.blockEmpty; rw [rd_getD 0#64 hl, ok_bind], ?_⟩
  rw [beq_iff_eq]
  constructor
  · intro h0 k hk hki
    rw [members_eq, mem_bset] at hk
    unfold bitAt at hk
    have e : (64 * b.off + k) / 64 = b.off + i / 64 := by omega
    rw [e, h0] at hk
    simp at hk
  · intro hall
    apply BitVec.eq_of_getMsbD_eq
    intro k hk
    rw [← bitAt_word hk]
    simp only [BitVec.getMsbD_zero]
    have e : 64 * (b.off + i / 64) + k = 64 * b.off + (64 * (i / 64) + k) := by omega
    rw [e]
    by_cases hlt : 64 * (i / 64) + k < b.len
    · rw [Bool.eq_false_iff]
      intro hb
      refine hall (64 * (i / 64) + k) ?_ (by omega)
      rw [members_eq, mem_bset]
      exact ⟨hlt, hb⟩
    · rw [← isMember_eq]
      exact hc _ (by omega) (by omega)

/-- Two sets of 70 positions side by side: `{1, 68}` and `{1, 2}`. -/
example :
    let m : Mem := [0x4000000000000000#64, 0x0800000000000000#64, 0x6000000000000000#64, 0#64]
    Inside m ⟨0, 70⟩ ∧ Inside m ⟨2, 70⟩ ∧ NoPartialOverlap ⟨0, 70⟩ ⟨2, 70⟩ ∧
      (GBits.xorEq ⟨0, 70⟩ ⟨2, 70⟩ m >>= fun m' => .ok (members m' ⟨0, 70⟩)) = .ok {2, 68} ∧
      (GBits.clear ⟨0, 70⟩ m 5 >>= fun m' => .ok (members m' ⟨0, 70⟩)) = .ok {68} ∧
      (GBits.toggle ⟨0, 70⟩ m 69 >>= fun m' => .ok (members m' ⟨0, 70⟩)) = .ok {1, 68, 69} := by
  refine ⟨by unfold Inside; decide, by unfold Inside; decide, by unfold NoPartialOverlap; decide,
    by decide +kernel, by decide +kernel, by decide +kernel⟩

/-! ## C41 -/

/-- **C41**: looking up a value in a strictly increasing nonempty slice of a list answers
whether it is there; the reported location is within the slice, everything before it is
smaller, and it is the value's location if the value is there. -/
theorem C41_lookup {el : List Nat} {base N val : Nat} (hN : 0 < N)
    (hin : base + N ≤ el.length) (hlen : el.length < 2 ^ 63)
    (hsort : ∀ i j, i < j → j < N → el.getD (base + i) 0 < el.getD (base + j) 0) :
    ∃ f loc, binaryFind el base N val = .ok (f, loc) ∧ loc < N ∧
      (f = true ↔ ∃ i, i < N ∧ el.getD (base + i) 0 = val) ∧
      (f = true → el.getD (base + loc) 0 = val) ∧
      ∀ i, i < loc → el.getD (base + i) 0 < val :=
  binaryFind_spec hN hin hlen hsort

/-- **C41**: an incremental scan.  Resuming the lookup at offset `start` of the slice, where
everything before `start` is smaller than `val` (also at the very end of the slice, where
the code calls the lookup with length zero), answers whether `val` is in the whole slice, and
everything before the next resume offset is smaller than `val`, hence than every later
value. -/
theorem C41_resume {el : List Nat} {base N start val : Nat} (hN : 0 < N)
    (hin : base + N ≤ el.length) (hlen : el.length < 2 ^ 63) (hs : start ≤ N)
    (hsort : ∀ i j, i < j → j < N → el.getD (base + i) 0 < el.getD (base + j) 0)
    (hlt : ∀ i, i < start → el.getD (base + i) 0 < val) :
    ∃ f ans, binaryFind el (uadd base start) (usub N start) val = .ok (f, ans) ∧
      (f = true ↔ ∃ i, i < N ∧ el.getD (base + i) 0 = val) ∧ uadd start ans ≤ N ∧
      ∀ i, i < uadd start ans → el.getD (base + i) 0 < val := by
  have h1 : uadd base start = base + start := uadd_eq (by omega)
  have h2 : usub N start = N - start := usub_eq hs (by omega)
  rw [h1, h2]
  rcases Nat.lt_or_ge start N with hst | hst
  · obtain ⟨f, loc, hb, hl, hf, hfl, hbef⟩ := binaryFind_spec (el := el) (base := base + start)
      (N := N - start) (val := val) (by omega) (by omega) hlen
      (by
        intro i j hij hj
        have := hsort (start + i) (start + j) (by omega) (by omega)
        simpa [Nat.add_assoc] using this)
    have h3 : uadd start loc = start + loc := uadd_eq (by omega)
    refine ⟨f, loc, hb, ?_, by omega, ?_⟩
    · rw [hf]
      constructor
      · rintro ⟨i, hi, h⟩
        exact ⟨start + i, by omega, by rw [← Nat.add_assoc]; exact h⟩
      · rintro ⟨i, hi, h⟩
        by_cases hi2 : i < start
        · have := hlt i hi2; omega
        · refine ⟨i - start, by omega, ?_⟩
          have : base + start + (i - start) = base + i := by omega
          rw [this]; exact h
    · intro i hi
      rw [h3] at hi
      by_cases hi2 : i < start
      · exact hlt i hi2
      · have := hbef (i - start) (by omega)
        have e : base + start + (i - start) = base + i := by omega
        rwa [e] at this
  · have he : start = N := by omega
    subst he
    have h4 := hlt (start - 1) (by omega)
    rw [Nat.sub_self, binaryFind_zero (by omega) (by omega) hlen
      (by rw [show base + start - 1 = base + (start - 1) by omega]; exact h4)]
    have h5 : uadd start (2 ^ 64 - 1) = start - 1 := by
      unfold uadd
      have : start + (2 ^ 64 - 1) = (start - 1) + 2 ^ 64 := by omega
      rw [this, Nat.add_mod_right, Nat.mod_eq_of_lt (by omega)]
    refine ⟨false, _, rfl, ?_, by rw [h5]; omega, ?_⟩
    · simp only [Bool.false_eq_true, false_iff, not_exists, not_and]
      intro i hi h
      have := hlt i hi; omega
    · intro i hi
      rw [h5] at hi
      exact hlt i (by omega)

/-- **C41** on a graph object: after any history, `find_if_neighbors(u, v)` answers whether
the vertices are adjacent (or equal). -/
theorem C41_find_if_neighbors {pg : PyGraph} {n : Nat} {S : SimpleGraph Nat} (h : Usable pg n S)
    {ops : List Op} (hl : ∀ op ∈ ops, op.Legal) :
    ∃ pg1 G, runs ops pg = .ok pg1 ∧ pg1.G = some G ∧
      ∀ u v, u ≤ n → ∃ f loc, G.findIfNeighbors u v = .ok (f, loc) ∧
        (f = true ↔ v = u ∨ S.Adj u v) := by
  obtain ⟨G, hF⟩ := h.fresh
  obtain ⟨pg1, G1, a1, a2, _⟩ := runs_spec ops hF.pyok hl
  refine ⟨pg1, G1, a1, a2.g, ?_⟩
  intro u v hu
  have w := a2.ok.wf
  have hnv := a2.of.nv
  obtain ⟨f, loc, b1, b2, _⟩ := probe w (u := u) (start := 0) (val := v) (by omega)
    (Nat.zero_le _) (by intro i hi; omega)
  have e1 : uadd (G1.V u).elo 0 = (G1.V u).elo := by
    have := w.inEl u (by omega)
    have := w.ellen
    rw [uadd_eq (by omega)]; rfl
  have e2 : usub (G1.V u).N 0 = (G1.V u).N := by
    have := N_lt w (v := u) (by omega)
    rw [usub_eq (by omega) (by omega)]; rfl
  rw [e1, e2] at b1
  refine ⟨f, loc, ?_, ?_⟩
  · unfold findIfNeighbors
    rw [vtx_ok w (by omega), ok_bind]
    exact b1
  · rw [b2, a2.of.adj u v hu]

example : binaryFind [0, 1, 2, 5, 9] 1 4 5 = .ok (true, 2) ∧
    binaryFind [0, 1, 2, 5, 9] 5 0 11 = .ok (false, 2 ^ 64 - 1) := by decide +kernel

end CM
