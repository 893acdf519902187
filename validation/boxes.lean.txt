import Verif.Model.Command
open Ppocr
def main (a : List String) : IO Unit := do
  let b ← IO.FS.readBinFile a[0]!
  match imageFromFile ⟨true, true, b.size, b.toList, []⟩ 128 with
  | .ok r => match r.image with
    | .ok i =>
      let mut x := 0
      for _ in [0:100] do
        match makeBox i x 0 i.bounds with
        | .ok bx =>
          if bx.truthy then
            match (do imageShow (← i.section bx.x bx.y bx.bounds)) with
            | .ok t => IO.print (String.fromUTF8! (ByteArray.mk (t.map (·.toUInt8)).toArray)); x := bx.x + bx.w
            | _ => IO.println "bad"; break
          else IO.println "end"; break
        | _ => IO.println "bad"; break
    | _ => IO.println "bad"
  | _ => IO.println "bad"
