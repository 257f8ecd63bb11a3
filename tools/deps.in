import Verif
import Lean
open Lean
partial def closure (env : Environment) (root : Name) : Id (NameSet) := do
  let mut seen : NameSet := {}
  let mut todo : Array Name := #[root]
  while !todo.isEmpty do
    let n := todo.back!
    todo := todo.pop
    if seen.contains n then continue
    if !(`Lair).isPrefixOf n then continue
    seen := seen.insert n
    match env.find? n with
    | some ci =>
      for c in ci.getUsedConstantsAsSet do
        unless seen.contains c do todo := todo.push c
    | none => pure ()
  return seen
run_cmd do
  let env ← getEnv
  let s ← IO.FS.readFile "/tmp/names.txt"
  let h ← IO.FS.Handle.mk "/tmp/deps.txt" .write
  for l in s.splitOn "\n" do
    if l.isEmpty then continue
    let c := closure env l.toName
    h.putStrLn (l ++ " " ++ " ".intercalate (c.toList.map toString))
