import Verif.Model.Normalize
open Ppocr
def main (a : List String) : IO Unit := do
  let b ← IO.FS.readBinFile a[0]!
  match normalizeMain insertionSort [some (b.toList.map (·.toNat))] with
  | .ok r => IO.println s!"ok {r.1}"; IO.FS.writeBinFile a[1]! (ByteArray.mk (r.2.map (·.toUInt8)).toArray)
  | _ => IO.println "bad"
