import Verif.Model.Tools
open Ppocr
def main (a : List String) : IO Unit := do
  let b ← IO.FS.readBinFile a[0]!
  match writeDatas (some (b.toList.map (·.toNat))) with
  | .ok r => IO.println s!"ok {r.1}"; IO.FS.writeBinFile a[1]! (ByteArray.mk (r.2.map (·.toUInt8)).toArray)
  | .throw => IO.println "throw" | .ub => IO.println "ub" | .abort => IO.println "abort" | .diverge => IO.println "diverge"
