import Verif.TsGen.Print
import Verif.Front.Loader
import Verif.Spec.Identifier
open Typical

/-- Normalise a list of components. -/
def normalise : List Str → List Str → List Str
  | acc, [] => acc.reverse
  | acc, p :: ps =>
    if p = ".".toList then normalise acc ps
    else if p = "..".toList then normalise (acc.drop 1) ps
    else normalise (p :: acc) ps

def main (a : List String) : IO Unit := do
  let root := a[0]!
  let names := a.drop 1
  let mut files : List (List Str × Str) := []
  for n in names do
    let t ← IO.FS.readFile (root ++ "/" ++ n)
    files := (("r".toList :: (n.splitOn "/").map String.toList), t.toList) :: files
  let fs : FileSystem := ⟨fun p => let q := normalise [] ("r".toList :: p.parts)
                            let q := if p.absolute then normalise [] p.parts else q
                            if files.any (fun f => f.1 = q) then some q else none,
    fun q => (files.find? (fun f => f.1 = q)).map (·.2)⟩
  match loadSchemas asciiTable fs 1000 (FPath.ofStr "types.t".toList) with
  | .ok l =>
    let S : Schemas := l.map (fun e => (e.1, e.2.schema))
    IO.print (String.ofList (TsGen.tsText asciiTable "0.0.0".toList S))
  | .err e => IO.eprintln s!"error {e.length}"
  | _ => IO.eprintln "other"
