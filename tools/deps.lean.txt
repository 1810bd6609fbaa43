import Verif
open Lean
def isOurs (env : Environment) (n : Name) : Bool :=
  match env.getModuleIdxFor? n with
  | some i => (`Verif).isPrefixOf env.header.moduleNames[i.toNat]!
  | none => false
partial def go (env : Environment) (n : Name) : StateM (Std.HashMap Name NameSet) NameSet := do
  if let some s := (← get)[n]? then return s
  modify (·.insert n {})
  let some ci := env.find? n | return {}
  let mut r : NameSet := {}
  for m in ci.getUsedConstantsAsSet do
    if isOurs env m then
      r := r.insert m
      let s ← go env m
      for x in s do r := r.insert x
  modify (·.insert n r)
  return r
#eval show CoreM Unit from do
  let env ← getEnv
  let txt ← IO.FS.readFile "/verif/MANIFEST.json"
  let .ok j := Json.parse txt | throwError "json"
  let .ok (.arr cl) := j.getObjVal? "claims" | throwError "claims"
  let mut st : Std.HashMap Name NameSet := {}
  let mut out : Array (String × Json) := #[]
  for c in cl do
    let .ok (.arr ts) := c.getObjVal? "theorems" | throwError "ths"
    for t in ts do
      let .ok s := t.getStr? | throwError "s"
      let n := ((s.splitOn ".").foldl (fun (a : Name) b => Name.str a b) (if s.startsWith "Spiff." then Name.anonymous else `Spiff))
      let (r, st') := (go env n).run st
      st := st'
      out := out.push (s, Json.arr ((r.toList.map (fun x => Json.str x.toString)).toArray))
  IO.FS.writeFile "/tmp/mut/deps.json" (Json.mkObj out.toList).compress
