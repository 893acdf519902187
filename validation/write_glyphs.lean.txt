import Verif.Model.Command
open Ppocr
def main (a : List String) : IO Unit := do
  let jobs ← IO.FS.lines a[0]!
  let h ← IO.FS.Handle.mk a[1]! .write
  for j in jobs do
    match j.splitOn "\t" with
    | [p, l, f] =>
      let b ← IO.FS.readBinFile p
      let t ← IO.FS.readBinFile l
      let e : FileEnv := ⟨true, true, b.size, b.toList, []⟩
      let r := writeGlyphs 100 [⟨e, some (t.toList.map (·.toNat)), f.toUTF8.toList.map (·.toNat)⟩]
      h.write (ByteArray.mk (r.out.map (·.toUInt8)).toArray)
      h.flush
      match r.ended with
      | .ok _ => pure ()
      | .throw => IO.println s!"throw {p}" | .ub => IO.println s!"ub {p}" | .abort => IO.println s!"abort {p}" | .diverge => IO.println s!"diverge {p}"
    | _ => IO.println s!"bad {j}"
