import Verif.Lemmas.Disk
import Verif.Props.CutFile

/-!
# C107: `to_file` on a disk that is full

If `G.to_file(name)` returns, the file holds the graph; if it raises an exception, the file is as it
was.  The second is true, the first is not.
-/

namespace CM

open Spec Graph Sample

variable {pg : PyGraph} {n : Nat} {S : SimpleGraph Nat}

/-- **C107**, exceptions: whenever `to_file` raises an exception, the file is as it was before, for
every object.  It does so exactly if no graph is loaded or the file cannot be opened. -/
theorem C107_raises (h : Reached pg n S) (d : Disk) :
    ∃ d' r, pg.toFileOn d = .ok (d', r) ∧ (r = .raise → d' = d) ∧
      (r = .raise ↔ n = 0 ∨ d.opens = false) := by
  obtain ⟨_, G, H⟩ := h.holds
  by_cases h0 : n = 0
  · refine ⟨d, .raise, ?_, fun _ => rfl, by simp [h0]⟩
    unfold PyGraph.toFileOn PyGraph.checkLoaded
    rw [H.nv, if_pos h0]
  · cases ho : d.opens with
    | false =>
      refine ⟨d, .raise, ?_, fun _ => rfl, by simp⟩
      unfold PyGraph.toFileOn
      rw [H.loaded h0]
      dsimp only
      rw [ho, if_pos rfl]
    | true =>
      obtain ⟨es, _, _, _, hw⟩ := C79_text h h0
      exact ⟨_, _, toFileOn_spec hw ho, fun h => (by cases h), by simp [h0]⟩

/-- **C107**, a new `Graph()`: nothing is opened. -/
theorem C107_new (d : Disk) : PyGraph.new.toFileOn d = .ok (d, .raise) := rfl

/-- **C107**, as far as it is true.  The full property: if `to_file` returns, `from_file` on the same
name loads a graph with the same number of vertices, `n_edges` and adjacency.  Proved: this is so if
there is room for all that `to_file` writes.  Missing, because false (`C107_refuted`): that `to_file`
raises an exception if there is not. -/
theorem C107_round_trip_partial (h : Reached pg n S) (h0 : n ≠ 0) (hm : pg.nedges = edgeCount S n)
    (hb : pg.nedges < 2 ^ 56) {d : Disk} (ho : d.opens = true)
    (hr : ∀ text, pg.toFile = .ok text → ∀ r, d.room = some r → text.length ≤ r)
    (argLR : Bool) (cap : Nat) (look : Bool) :
    ∃ d' pg', pg.toFileOn d = .ok (d', .ret ()) ∧
      PyGraph.fromFileOn argLR cap look d' = .ok pg' ∧ Loaded pg' n S ∧ pg'.nvert = pg.nvert ∧
      pg'.nedges = pg.nedges := by
  obtain ⟨text, pg', a1, a2, a3, a4, a5⟩ := C07_round_trip h h0 hm hb argLR cap look
  refine ⟨_, pg', toFileOn_spec a1 ho, ?_, a3, a4, a5⟩
  unfold PyGraph.fromFileOn
  dsimp only
  have : onDisk d.room text = text := by
    unfold onDisk
    cases hd : d.room with
    | none => rfl
    | some r => exact List.take_of_length_le (hr text a1 r hd)
  rw [this]
  exact a2

/-- **C107**, a disk that is full, for all graphs and histories: `to_file` returns as if nothing had
happened.  What was in the file before is lost, and the file ends where the room did. -/
theorem C107_full (h : Reached pg n S) (h0 : n ≠ 0) {d : Disk} (ho : d.opens = true) {r : Nat}
    (hr : d.room = some r) :
    ∃ text d', pg.toFile = .ok text ∧ pg.toFileOn d = .ok (d', .ret ()) ∧
      d'.content = some (text.take r) := by
  obtain ⟨es, _, _, _, hw⟩ := C79_text h h0
  refine ⟨_, _, hw, toFileOn_spec hw ho, ?_⟩
  dsimp only
  rw [hr]
  rfl

/-- **C107** is false for every graph with two or more edges, whatever was done with it and whatever
was in the file: there is an amount of room with which `to_file` returns, and `from_file` then loads,
without an exception, a graph in which an edge is missing. -/
theorem C107_refuted_every (h : Reached pg n S) (h0 : n ≠ 0) (hm : pg.nedges = edgeCount S n)
    (hb : pg.nedges < 2 ^ 56) (h2 : 2 ≤ edgeCount S n) (old : Option (List Char))
    (argLR : Bool) (cap : Nat) (look : Bool) :
    ∃ r d' pg' S' u v, pg.toFileOn ⟨old, true, some r⟩ = .ok (d', .ret ()) ∧
      PyGraph.fromFileOn argLR cap look d' = .ok pg' ∧ Loaded pg' n S' ∧
      pg'.nedges = pg.nedges ∧ S.Adj u v ∧ ¬ S'.Adj u v := by
  obtain ⟨es, hnd, hes, hlen, hw⟩ := C79_text h h0
  obtain ⟨pg', a1, a2, a3⟩ := C79_between_rows_partial h hes (by omega) hb (k := es.length - 2)
    (by omega) argLR cap look
  have hk : es.length - 2 + 1 = es.length - 1 := by omega
  rw [hk] at a1 a2
  have hlast : es.length - 1 < es.length := by omega
  have hmem := (hes _).1 (List.getElem_mem hlast)
  refine ⟨_, _, pg', _, _, _, toFileOn_spec (d := ⟨old, true, some (fileHead n pg.nedges ++
    (es.take (es.length - 1)).flatMap fileRow).length⟩) hw rfl, ?_, a2, a3, hmem.2, ?_⟩
  · unfold PyGraph.fromFileOn onDisk
    dsimp only
    have e : fileHead n pg.nedges ++ es.flatMap fileRow =
        (fileHead n pg.nedges ++ (es.take (es.length - 1)).flatMap fileRow) ++
          (es.drop (es.length - 1)).flatMap fileRow := by
      rw [List.append_assoc, ← List.flatMap_append, List.take_append_drop]
    rw [e, List.take_left]
    exact a1
  · rintro ⟨_, h1 | h1⟩
    · obtain ⟨i, hi, h3⟩ := List.mem_take_iff_getElem.1 h1
      have : i = es.length - 1 := (List.Nodup.getElem_inj_iff hnd).1 h3
      omega
    · have := (hes _).1 (List.mem_of_mem_take h1)
      dsimp only at this
      omega

/-- A case for `C107_round_trip_partial`, one in which the file cannot be opened, and one for
`C107_full`. -/
example : Reached apart 4 (ofPairs [(1, 2), (3, 4)]) ∧ apart.nedges = 2 ∧
    apart.toFile = .ok "%% generated by cliquematch\n4 4 2\n1 2\n3 4\n".toList ∧
    apart.toFileOn ⟨none, true, some 43⟩ = .ok
      (⟨some "%% generated by cliquematch\n4 4 2\n1 2\n3 4\n".toList, true, some 43⟩, .ret ()) ∧
    apart.toFileOn ⟨some "precious".toList, false, none⟩ =
      .ok (⟨some "precious".toList, false, none⟩, .raise) ∧
    apart.toFileOn ⟨some "precious".toList, true, some 5⟩ =
      .ok (⟨some "%% ge".toList, true, some 5⟩, .ret ()) :=
  ⟨Or.inl apart_loaded, by decide +kernel⟩

/-- **C107** is false: the graph has the edges `1 - 2` and `3 - 4`.  `to_file` returns although the
disk is full, and the file is read, without an exception, as a graph with the edges `1 - 2` and
`2 - 3`. -/
theorem C107_refuted : Reached apart 4 (ofPairs [(1, 2), (3, 4)]) ∧
    ∃ d pg, apart.toFileOn ⟨none, true, some 40⟩ = .ok (d, .ret ()) ∧
      PyGraph.fromFileOn true 64 true d = .ok pg ∧ pg.nedges = 2 ∧
      apart.getVertexData 3 = .ok [4] ∧ pg.getVertexData 3 = .ok [2] := by
  refine ⟨Or.inl apart_loaded, (get (⟨none, true, none⟩, .raise)
    (apart.toFileOn ⟨none, true, some 40⟩)).1, get PyGraph.new (PyGraph.fromFileOn true 64 true
    (get (⟨none, true, none⟩, .raise) (apart.toFileOn ⟨none, true, some 40⟩)).1), ?_⟩
  decide +kernel

end CM
