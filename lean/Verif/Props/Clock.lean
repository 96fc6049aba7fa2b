import Verif.Lemmas.Longer
import Verif.Lemmas.AllCliques
import Verif.Props.MaxClique

/-!
# Time limits in seconds (C94, C95)

`getMaxCliqueC srt limit now` is `get_max_clique(time_limit=limit)` on a machine whose clock shows
`now k` microseconds since the start of the search when it is read for the `k`-th time.
`steady_clock` never goes back: `now` is monotone.
-/

namespace CM

open Spec Graph

variable {pg : PyGraph} {n : Nat} {S : SimpleGraph Nat} {G : Graph}

/-- The clock never goes back. -/
def Steady (now : Nat → Nat) : Prop := ∀ j k, j ≤ k → now j ≤ now k

/-- The time is over when the clock is read for the `k`-th time. -/
def Over (limit : Dbl) (now : Nat → Nat) (k : Nat) : Prop := limit < inSeconds (now k)

/-! ## C94 -/

/-- **C94** (precision): a time of up to 71 years that is said to be over is over, and a time that
has been over for a microsecond is said to be over.  The limit is a `double`. -/
theorem C94_precision {q : Rat} (hq : Binary64 q) {now : Nat → Nat} {k : Nat}
    (hk : now k < 2 ^ 51) :
    (Over (.fin q) now k → q < (now k : Rat) / 1000000) ∧
    (q + 1 / 1000000 ≤ (now k : Rat) / 1000000 → Over (.fin q) now k) := by
  constructor
  · intro h
    by_contra hc
    have h1 := Dbl.round_mono (not_lt.1 hc)
    rw [Dbl.round_fin64 hq, ← inSeconds_eq hk] at h1
    have h2 := dbl_lt_of_lt_of_le h h1
    change Dbl.lt _ _ = true at h2
    simp [Dbl.lt] at h2
  · intro h
    obtain ⟨r, h1, h2⟩ := inSeconds_near hk
    unfold Over
    rw [h1]
    have := (abs_lt.1 h2).1
    exact decide_eq_true (by linarith)

/-- **C94** (meaning of `time_limit`): the searches of `Verif.Model.Api`, which all other properties
are about, are the searches that read a clock.  A limit `≤ 0` is no limit, and the clock is not
read; otherwise (this includes NaN) the search is one that is told to stop when the clock is read
for the first time after the limit has passed, if that ever happens. -/
theorem C94_meaning (srt : List VData → List VData) (pg : PyGraph) (a : PyGraph.Args) (limit : Dbl)
    {now : Nat → Nat} (hs : Steady now) :
    (limit ≤ 0 → pg.getMaxClique srt { a with timeLimit := none } =
      (pg.getMaxCliqueC srt a limit now).map fun r => (r.1, r.2.1)) ∧
    (¬ limit ≤ 0 → (∀ k, ¬ Over limit now k) →
      pg.getMaxClique srt { a with timeLimit := some none } =
        (pg.getMaxCliqueC srt a limit now).map fun r => (r.1, r.2.1)) ∧
    (¬ limit ≤ 0 → ∀ first, Over limit now first → (∀ k, k < first → ¬ Over limit now k) →
      pg.getMaxClique srt { a with timeLimit := some (some first) } =
        (pg.getMaxCliqueC srt a limit now).map fun r => (r.1, r.2.1)) := by
  refine ⟨fun hl => ?_, fun hl hk => ?_, fun hl first h1 h2 => ?_⟩
  · obtain ⟨c, hc⟩ := late_answers limit hs
    have := getMaxClique_sim srt pg a hc
    rw [if_pos hl] at this
    exact this
  · have hc : late limit now = answers none := by
      funext k
      exact decide_eq_false (hk k)
    have := getMaxClique_sim srt pg a hc
    rw [if_neg hl] at this
    exact this
  · have hc : late limit now = answers (some first) := by
      funext k
      show decide _ = decide (first ≤ k)
      by_cases hk : first ≤ k
      · rw [decide_eq_true hk]
        exact decide_eq_true (dbl_lt_of_lt_of_le h1 (inSeconds_mono (hs _ _ hk)))
      · rw [decide_eq_false hk]
        exact decide_eq_false (h2 k (not_le.1 hk))
    have := getMaxClique_sim srt pg a hc
    rw [if_neg hl] at this
    exact this

/-- **C94** (limits that are none): on a fresh graph a search whose limit is not a positive number
(zero, negative, infinite, NaN) returns a maximum clique, whatever the clock shows. -/
theorem C94_no_limit (h : Usable pg n S) {srt : List VData → List VData}
    (hsrt : ∀ l, (srt l).Perm l) (a : PyGraph.Args) (hd : a.useDfs = true)
    (hu : ∀ l, IsCliqueList S n l → l.length ≤ a.upperBound) (hlb : a.lowerBound = 1)
    {limit : Dbl} (hlim : ∀ q, limit = .fin q → q ≤ 0) {now : Nat → Nat} (hs : Steady now) :
    ∃ pg' l k, pg.getMaxCliqueC srt a limit now = .ok (pg', .ret l, k) ∧ IsMaxCliqueList S n l := by
  obtain ⟨m1, m2, _⟩ := C94_meaning srt pg a limit hs
  have key : ∀ tl, (tl = none ∨ tl = some none) →
      pg.getMaxClique srt { a with timeLimit := tl } =
        ((pg.getMaxCliqueC srt a limit now).map fun r => (r.1, r.2.1)) →
      ∃ pg' l k, pg.getMaxCliqueC srt a limit now = .ok (pg', .ret l, k) ∧
        IsMaxCliqueList S n l := by
    intro tl htl he
    obtain ⟨G, hF⟩ := h.fresh
    obtain ⟨pg', l, h1, h2, _⟩ := search_honest hF.pyok
      (by unfold Honest; rw [hF.cm]; exact Nat.zero_le _) hsrt { a with timeLimit := tl } hF.mcs
      hF.lim hF.loc (by simp only; omega) hd htl (Or.inr (Or.inr hF.cv)) hu (Or.inl hlb)
    rw [h1] at he
    cases hr : pg.getMaxCliqueC srt a limit now with
    | error e => rw [hr] at he; cases he
    | ok r =>
      rw [hr] at he
      obtain ⟨r1, r2, r3⟩ := r
      have := Except.ok.inj he
      simp only [Prod.mk.injEq] at this
      obtain ⟨e1, e2⟩ := this
      subst e1 e2
      exact ⟨_, l, r3, rfl, h2⟩
  by_cases hl : limit ≤ 0
  · exact key none (Or.inl rfl) (m1 hl)
  · refine key (some none) (Or.inr rfl) (m2 hl fun k hk => ?_)
    rcases limit with q | s | _
    · exact hl (decide_eq_true (hlim q rfl))
    · cases s with
      | true => exact hl rfl
      | false =>
        change Dbl.lt _ _ = true at hk
        generalize inSeconds (now k) = y at hk
        rcases y with x | x | _ <;> simp [Dbl.lt] at hk
    · change Dbl.lt _ _ = true at hk
      simp [Dbl.lt] at hk

/-- **C94** (a search stops soon after its limit): in every state that calls can reach, for every
limit and clock, a search ends, and if its time is over when the clock is read for the `k`-th time it
reads the clock at most `(D + 1) * (D + 2) + 1` more times, where no vertex has more than `D`
neighbours. -/
theorem C94_soon (h : Usable pg n S) {ops : List Op} (hops : ∀ op ∈ ops, op.Legal)
    {srt : List VData → List VData} (hsrt : ∀ l, (srt l).Perm l) (a : PyGraph.Args) (limit : Dbl)
    {now : Nat → Nat} (hs : Steady now) {D : Nat} (hD : ∀ v, degree S n v ≤ D) :
    ∃ pg1 pg2 r reads, runs ops pg = .ok pg1 ∧
      pg1.getMaxCliqueC srt a limit now = .ok (pg2, r, reads) ∧
      ∀ k, Over limit now k → reads ≤ (k + 1) + ((D + 1) * (D + 2) + 1) := by
  obtain ⟨G0, hF⟩ := h.fresh
  obtain ⟨pg1, G1, h1, h2, _⟩ := runs_spec ops hF.pyok hops
  obtain ⟨c, hc⟩ := late_answers limit hs
  have hsim := getMaxClique_sim srt pg1 a hc
  obtain ⟨G2, i, e1, _⟩ := getMaxClique_spec h2 hsrt
    { a with timeLimit := if limit ≤ 0 then none else some c }
  rw [e1] at hsim
  cases hr : pg1.getMaxCliqueC srt a limit now with
  | error e => rw [hr] at hsim; cases hsim
  | ok r =>
    obtain ⟨r1, r2, r3⟩ := r
    refine ⟨pg1, r1, r2, r3, h1, hr, fun k hk => ?_⟩
    have hck : answers c k = true := by rw [← hc]; exact decide_eq_true hk
    obtain ⟨m, rfl, hm⟩ : ∃ m, c = some m ∧ m ≤ k := by
      cases c with
      | none => cases hck
      | some m => exact ⟨m, rfl, of_decide_eq_true hck⟩
    unfold PyGraph.getMaxCliqueC at hr
    have hl : PyGraph.checkLoaded { pg1 with
        currentVertex := if a.continueSearch = true then pg1.currentVertex else 0 } = some G1 :=
      h2.loaded
    dsimp only at hr
    rw [hl] at hr
    dsimp only at hr
    obtain ⟨q, hq, hr⟩ := bind_eq_ok.1 hr
    obtain ⟨w, hw, hr⟩ := bind_eq_ok.1 hr
    have hq3 : q.2.2 = r3 := by
      split at hr <;> cases hr <;> rfl
    rw [← hq3]
    change findMaxCliquesC srt (bounded G1 a) _ _ _ limit now = .ok q at hq
    have hb := bounded_ok h2.ok a
    have hbO := h2.of.frame (bounded_frame G1 a)
    generalize bounded G1 a = G at hq hb hbO
    generalize (if a.continueSearch = true ∧ pg1.currentVertex ≠ 0 then false
      else a.useHeuristic) = uh at hq
    obtain ⟨Gh, g1, g2, g3⟩ : ∃ Gh, (if uh = true then G.heurGraph srt else .ok G) = .ok Gh ∧
        Ok Gh ∧ Of Gh n S := by
      split
      · obtain ⟨Gh, g1, g2, g3, _⟩ := heurGraph_spec hsrt hb
        exact ⟨Gh, g1, g2, hbO.frame g3.frame⟩
      · exact ⟨G, rfl, hb, hbO⟩
    unfold findMaxCliquesC at hq
    dsimp only at hq
    rw [← ite_bind, g1, ok_bind] at hq
    split at hq
    · split at hq
      · obtain ⟨x, _, hq⟩ := bind_eq_ok.1 hq
        cases hq; exact Nat.zero_le _
      · cases hq; exact Nat.zero_le _
    · split at hq
      · rw [hc] at hq
        have := recGraphC_reads g2 (D := D + 1) (fun v hv => by
          rw [spec_degree g3 g2.wf.str (by rw [g3.nv] at hv; omega)]
          have := hD v
          omega) hq
        have hcomm : (D + 1 + 1) * (D + 1) = (D + 1) * (D + 2) := Nat.mul_comm _ _
        omega
      · cases hq; exact Nat.zero_le _

/-! ## C95 -/

/-- **C95**: more time never gives a smaller clique.  After any sequence of searches, a search that
has a later limit, on a machine that is at least as fast, returns a clique that is at least as large,
and raises only if the search with less time does. -/
theorem C95_longer (h : Usable pg n S) {ops : List Op}
    (hl : ∀ op ∈ ops, op.Legal) (hs : ∀ op ∈ ops, op.IsSearch) (hp : ∀ op ∈ ops, op.Positive)
    {srt : List VData → List VData} (hsrt : ∀ l, (srt l).Perm l) (a : PyGraph.Args)
    {limit limit' : Dbl} (hpos : ¬ limit ≤ 0) (hle : limit ≤ limit') {now now' : Nat → Nat}
    (hn : Steady now) (hn' : Steady now') (hfast : ∀ k, now' k ≤ now k) :
    ∃ pg1 pg2 r k pg2' r' k', runs ops pg = .ok pg1 ∧
      pg1.getMaxCliqueC srt a limit now = .ok (pg2, r, k) ∧
      pg1.getMaxCliqueC srt a limit' now' = .ok (pg2', r', k') ∧
      ∀ l, r = .ret l → ∃ l', r' = .ret l' ∧ l.length ≤ l'.length := by
  obtain ⟨G0, hF⟩ := h.fresh
  obtain ⟨pg1, G1, h1, h2, h3, h4, _⟩ := searches_mono ops hF.pyok hF.kept hl hs hp hF.loc
  have hpos' : ¬ limit' ≤ 0 := by
    intro hc
    apply hpos
    change Dbl.le _ _ = true at hle hc ⊢
    change Dbl.le limit' (Dbl.round 0) = true at hc
    change Dbl.le limit (Dbl.round 0) = true
    have h0 : Dbl.round 0 = .fin 0 := rfl
    rw [h0] at hc ⊢
    rcases limit with x | x | _ <;> rcases limit' with y | y | _ <;> simp_all [Dbl.le]
    exact le_trans hle hc
  obtain ⟨c, hc⟩ := late_answers limit hn
  obtain ⟨c', hc'⟩ := late_answers limit' hn'
  have hlong : Longer c c' := by
    have himp : ∀ k, answers c' k = true → answers c k = true := by
      intro k hk
      rw [← hc'] at hk
      rw [← hc]
      exact decide_eq_true (dbl_lt_of_le_of_lt hle
        (dbl_lt_of_lt_of_le (of_decide_eq_true hk) (inSeconds_mono (hfast k))))
    rcases c' with _ | b
    · rcases c with _ | a <;> trivial
    · have := himp b (decide_eq_true (Nat.le_refl b))
      rcases c with _ | a
      · cases this
      · exact of_decide_eq_true (p := a ≤ b) this
  have hsim := getMaxClique_sim srt pg1 a hc
  have hsim' := getMaxClique_sim srt pg1 a hc'
  rw [if_neg hpos] at hsim
  rw [if_neg hpos'] at hsim'
  obtain ⟨pg2, G2, a1, a2, _, _, _, a6⟩ := search_any h2 hsrt { a with timeLimit := some c }
  obtain ⟨pg2', G2', b1, b2, _, _, _, b6⟩ := search_any h2 hsrt { a with timeLimit := some c' }
  have hmax : G2.curMax ≤ G2'.curMax := by
    have q1 := a1
    have q2 := b1
    unfold PyGraph.getMaxClique at q1 q2
    have hl : PyGraph.checkLoaded { pg1 with
        currentVertex := if a.continueSearch = true then pg1.currentVertex else 0 } = some G1 :=
      h2.loaded
    dsimp only at q1 q2
    rw [hl] at q1 q2
    dsimp only at q1 q2
    obtain ⟨x, hx, q1⟩ := bind_eq_ok.1 q1
    obtain ⟨x', hx', q2⟩ := bind_eq_ok.1 q2
    have hm := findMaxCliques_ahead hlong hx hx'
    have hend : ∀ {x : Graph × Nat} {pg2 : PyGraph} {G2 : Graph} {r : PyRes (List Nat)} {lb : Nat}
        {p : Graph → PyGraph},
        (∀ G, (p G).G = some G) → pg2.G = some G2 →
        (x.1.getClique x.1.curLoc >>= fun w =>
          if lb > w.2.length then .ok (p w.1, .raise) else .ok (p w.1, .ret w.2)) =
            .ok (pg2, r) → G2.curMax = x.1.curMax := by
      intro x pg2 G2 r lb p hp hg h
      obtain ⟨w, hw, h⟩ := bind_eq_ok.1 h
      have hw1 : w.1.curMax = x.1.curMax := by
        unfold Graph.getClique at hw
        obtain ⟨V, _, hw⟩ := bind_eq_ok.1 hw
        obtain ⟨vb, _, hw⟩ := bind_eq_ok.1 hw
        obtain ⟨y, _, hw⟩ := bind_eq_ok.1 hw
        cases hw
        rfl
      have hpg : pg2 = p w.1 := by
        split at h <;> cases h <;> rfl
      rw [hpg, hp] at hg
      cases hg
      exact hw1
    have e1 := hend (p := fun G => { pg1 with
      G := some G, currentVertex := x.2, finishedAll := decide (x.2 ≥ pg1.nvert) })
      (fun _ => rfl) a2.g q1
    have e2 := hend (p := fun G => { pg1 with
      G := some G, currentVertex := x'.2, finishedAll := decide (x'.2 ≥ pg1.nvert) })
      (fun _ => rfl) b2.g q2
    omega
  have hlen : (stored G2).length ≤ (stored G2').length := by
    unfold Kept at h3
    simp only at a6 b6
    have := stored_pos h2
    rcases a6 with ⟨u1, u2⟩ | ⟨u1, u2⟩ <;> rcases b6 with ⟨w1, w2⟩ | ⟨w1, w2⟩
    · rw [u2, w2]
    · rw [u2]; omega
    · omega
    · omega
  rw [a1] at hsim
  rw [b1] at hsim'
  cases hr : pg1.getMaxCliqueC srt a limit now with
  | error e => rw [hr] at hsim; cases hsim
  | ok r =>
    cases hr' : pg1.getMaxCliqueC srt a limit' now' with
    | error e => rw [hr'] at hsim'; cases hsim'
    | ok r' =>
      rw [hr] at hsim
      rw [hr'] at hsim'
      refine ⟨pg1, r.1, r.2.1, r.2.2, r'.1, r'.2.1, r'.2.2, h1, hr, hr', ?_⟩
      have e1 := Except.ok.inj hsim
      have e2 := Except.ok.inj hsim'
      simp only [Prod.mk.injEq] at e1 e2
      intro l hl
      rw [← e1.2] at hl
      rw [← e2.2]
      split at hl
      · cases hl
      · cases hl
        rename_i hlb
        rw [if_neg (by omega)]
        exact ⟨_, rfl, hlen⟩

/-- A clock that shows `k` seconds when it is read for the `k`-th time: a search of the kite with a
limit of 2.5 seconds stops early and finds less than a search with 8.5 seconds. -/
example : Usable Sample.kite 5 (ofPairs Sample.rows) ∧ Steady (fun k => 1000000 * k) ∧
    (Sample.kite.getMaxCliqueC Sample.byDegree { useHeuristic := false } (.fin (5 / 2))
      (fun k => 1000000 * k) >>= fun x => .ok (x.2.1, x.2.2, x.1.finishedAll)) =
        .ok (.ret [1], 8, false) ∧
    (Sample.kite.getMaxCliqueC Sample.byDegree { useHeuristic := false } (.fin (17 / 2))
      (fun k => 1000000 * k) >>= fun x => .ok (x.2.1, x.2.2, x.1.finishedAll)) =
        .ok (.ret [1, 2, 3, 4], 7, true) := by
  refine ⟨Sample.kite_usable, fun j k h => Nat.mul_le_mul_left _ h, ?_, ?_⟩
  · decide +kernel
  · decide +kernel

end CM
