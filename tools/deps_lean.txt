import Verif
open Lean
partial def go (env : Environment) (todo : List Name) (seen : NameSet) : NameSet :=
  match todo with
  | [] => seen
  | n :: rest =>
    if seen.contains n then go env rest seen else
    if !(`PF).isPrefixOf n then go env rest seen else
    let seen := seen.insert n
    match env.find? n with
    | none => go env rest seen
    | some c =>
      let e1 := c.type.getUsedConstants.toList
      let e2 := match c.value? (allowOpaque := true) with | some v => v.getUsedConstants.toList | none => []
      go env (e1 ++ e2 ++ rest) seen
#eval show MetaM Unit from do
  let env ← getEnv
  let mut out := ""
  for (n, c) in env.constants.map₁.toList do
    if (`PF).isPrefixOf n then
      if let .thmInfo _ := c then
        let s := n.getString!
        if s.length > 4 && s.get 0 == 'C' && (s.get ⟨1⟩).isDigit && (s.get ⟨2⟩).isDigit then
          let ds := go env [n] {}
          out := out ++ s ++ "\t" ++ String.intercalate "," (ds.toList.map fun d => d.toString) ++ "\n"
  IO.FS.writeFile "/tmp/mt/deps.tsv" out
