import Verif.Model.File

/-!
# `to_file` and `from_file` on a disk

`Model/File` has the characters that `to_file` writes; here they go to a disk on which the file may
not be opened, or on which there may be too little room.
-/

namespace CM

/-- A file name as a program finds it: what is in the file, if there is one; whether it can be opened
for writing; and how many characters can be stored in it (`none`: any number).  (The `ofstream` of
core/pygraph.cpp:256.) -/
structure Disk where
  content : Option (List Char)
  opens : Bool
  room : Option Nat
  deriving DecidableEq, Repr

/-- An output stream on a file: what is in the file, the room that is left, and `badbit`.  Simplified:
there is no buffer, and a disk that is full stays full. (The `ofstream` of core/pygraph.cpp:256.) -/
structure OStream where
  out : List Char
  room : Option Nat
  bad : Bool
  deriving DecidableEq, Repr

/-- `f << ...`: on a stream with `badbit` it does nothing; if the disk is full `badbit` is set, and no
exception is thrown, as `exceptions()` is never called. (core/pygraph.cpp:263-267.) -/
def OStream.put (f : OStream) (cs : List Char) : OStream :=
  if f.bad then f
  else match f.room with
    | none => { f with out := f.out ++ cs }
    | some r =>
      if cs.length ≤ r then { f with out := f.out ++ cs, room := some (r - cs.length) }
      else { out := f.out ++ cs.take r, room := some 0, bad := true }

namespace PyGraph

/-- pygraph.cpp:253-269 `to_file`.  The file is emptied when it is opened (`std::ios::out`); the state
of the stream is not looked at after that. -/
def toFileOn (pg : PyGraph) (d : Disk) : M (Disk × PyRes Unit) :=
  match pg.checkLoaded with
  | none => .ok (d, .raise)
  | some G =>
    if d.opens = false then .ok (d, .raise)
    else do
      let f : OStream := { out := [], room := d.room, bad := false }
      let f := f.put "%% generated by cliquematch\n".toList
      let f := (f.put (decimal pg.nvert)).put [' ']
      let f := (f.put (decimal pg.nvert)).put [' ']
      let f := (f.put (decimal pg.nedges)).put ['\n']
      let es ← G.sendData
      let f := es.foldl (fun (f : OStream) e =>
        (((f.put (decimal e.1)).put [' ']).put (decimal e.2)).put ['\n']) f
      .ok ({ d with content := some f.out }, .ret ())

/-- pygraph.cpp:113-124 `from_file`, with mmio.cpp:16-21: a file that is not there cannot be opened. -/
def fromFileOn (argLR : Bool) (cap : Nat) (look : Bool) (d : Disk) : M PyGraph :=
  match d.content with
  | none => .error .throw
  | some text => fromFile argLR cap look text

end PyGraph

end CM
