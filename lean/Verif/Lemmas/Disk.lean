import Verif.Lemmas.CutFile
import Verif.Model.Disk

/-! # Writing to a disk -/

namespace CM

open Spec Graph

/-- What of `text` is in a file with room for `room` characters. -/
def onDisk (room : Option Nat) (text : List Char) : List Char :=
  match room with
  | none => text
  | some r => text.take r

/-- A stream to which `text` was written, beginning with an empty file and `room`. -/
def Wrote (room : Option Nat) (text : List Char) (f : OStream) : Prop :=
  f.out = onDisk room text ∧
    match room with
    | none => f.room = none ∧ f.bad = false
    | some r => if text.length ≤ r then f.room = some (r - text.length) ∧ f.bad = false
      else f.bad = true

theorem Wrote.put {room : Option Nat} {text : List Char} {f : OStream} (h : Wrote room text f)
    (cs : List Char) : Wrote room (text ++ cs) (f.put cs) := by
  obtain ⟨h1, h2⟩ := h
  unfold OStream.put
  cases room with
  | none =>
    dsimp only at h2
    rw [h2.2, h2.1, h1]
    exact ⟨rfl, rfl, rfl⟩
  | some r =>
    dsimp only at h2
    by_cases hl : text.length ≤ r
    · rw [if_pos hl] at h2
      rw [h2.2, h2.1, h1]
      have ht : onDisk (some r) text = text := List.take_of_length_le hl
      by_cases hc : cs.length ≤ r - text.length
      · refine ⟨?_, ?_⟩
        · simp only [Bool.false_eq_true, if_false, if_pos hc]
          rw [ht]
          exact (List.take_of_length_le (by rw [List.length_append]; omega)).symm
        · simp only [Bool.false_eq_true, if_false, if_pos hc]
          rw [List.length_append, if_pos (by omega)]
          exact ⟨by rw [Nat.sub_sub], trivial⟩
      · refine ⟨?_, ?_⟩
        · simp only [Bool.false_eq_true, if_false, if_neg hc]
          rw [ht]
          unfold onDisk
          dsimp only
          rw [List.take_append, List.take_of_length_le hl]
        · simp only [Bool.false_eq_true, if_false, if_neg hc]
          rw [List.length_append, if_neg (by omega)]
          trivial
    · rw [if_neg hl] at h2
      rw [h2, if_pos rfl]
      refine ⟨?_, ?_⟩
      · rw [h1]
        unfold onDisk
        dsimp only
        rw [List.take_append_of_le_length (by omega)]
      · dsimp only
        rw [List.length_append, if_neg (by omega)]
        exact h2

theorem Wrote.rows {room : Option Nat} : ∀ (es : List (Nat × Nat)) {text : List Char} {f : OStream},
    Wrote room text f →
    Wrote room (text ++ es.flatMap fun e =>
        PyGraph.decimal e.1 ++ [' '] ++ PyGraph.decimal e.2 ++ ['\n'])
      (es.foldl (fun (f : OStream) e =>
        (((f.put (PyGraph.decimal e.1)).put [' ']).put (PyGraph.decimal e.2)).put ['\n']) f)
  | [], text, f, h => by simpa using h
  | e :: es, text, f, h => by
    have h1 := Wrote.rows es ((((h.put (PyGraph.decimal e.1)).put [' ']).put
      (PyGraph.decimal e.2)).put ['\n'])
    rw [List.flatMap_cons, List.foldl_cons]
    rw [show text ++ (PyGraph.decimal e.1 ++ [' '] ++ PyGraph.decimal e.2 ++ ['\n'] ++
        es.flatMap fun e => PyGraph.decimal e.1 ++ [' '] ++ PyGraph.decimal e.2 ++ ['\n']) =
      text ++ PyGraph.decimal e.1 ++ [' '] ++ PyGraph.decimal e.2 ++ ['\n'] ++
        es.flatMap fun e => PyGraph.decimal e.1 ++ [' '] ++ PyGraph.decimal e.2 ++ ['\n'] by
      simp only [List.append_assoc]]
    exact h1

/-- `to_file` on a file that can be opened. -/
theorem toFileOn_spec {pg : PyGraph} {d : Disk} {text : List Char} (h : pg.toFile = .ok text)
    (ho : d.opens = true) :
    pg.toFileOn d = .ok ({ d with content := some (onDisk d.room text) }, .ret ()) := by
  unfold PyGraph.toFile at h
  unfold PyGraph.toFileOn
  cases hc : pg.checkLoaded with
  | none => rw [hc] at h; cases h
  | some G =>
    rw [hc] at h
    dsimp only at h ⊢
    obtain ⟨es, h1, h2⟩ := bind_eq_ok.1 h
    cases h2
    rw [ho, if_neg (by decide), h1, ok_bind]
    have h0 : Wrote d.room [] { out := [], room := d.room, bad := false } := by
      unfold Wrote onDisk
      cases d.room <;> simp
    have h3 := (((((((h0.put "%% generated by cliquematch\n".toList).put
      (PyGraph.decimal pg.nvert)).put [' ']).put (PyGraph.decimal pg.nvert)).put [' ']).put
      (PyGraph.decimal pg.nedges)).put ['\n']).rows es
    rw [List.nil_append] at h3
    rw [h3.1]

end CM
