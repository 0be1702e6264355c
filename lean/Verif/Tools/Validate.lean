import Verif.Model.Parser
import Verif.Model.Html
import Verif.Model.Json
import Verif.Model.Templates
/-!
Runs the model on AsciiDoc files and prints the JSON output of the model, on one line.
This only runs the Lean model. `tools/validate.py` compares the output with the expected graphs in
`/repo/tests/data`. It is a check of the model against the project's own fixtures, not a proof.

    lake env lean --run Verif/Tools/Validate.lean ROOT [html | tera] < jobs

With `html` it prints the HTML document as a JSON string instead; with `tera` it gets the document by running the templates.

Each line of `jobs` is `ORIGIN<TAB>SOURCE`: the path given to `Parser::new`, and the file to parse.
-/
open Adoc

def str (s : Str) : String :=
  match String.fromUTF8? ⟨s.toArray⟩ with
  | some x => x
  | none => "<invalid utf-8>"

def bytes (s : String) : Str := s.toUTF8.toList

def q (s : String) : String := Id.run do
  let mut o := "\""
  for c in s.toList do
    if c == '"' then o := o ++ "\\\""
    else if c == '\\' then o := o ++ "\\\\"
    else if c == '\n' then o := o ++ "\\n"
    else if c.toNat < 32 then
      let h := String.ofList (Nat.toDigits 16 c.toNat)
      o := o ++ "\\u" ++ ("".pushn '0' (4 - h.length)) ++ h
    else o := o.push c
  return o ++ "\""

def failed (e : Fail) : String := "{\"fail\":" ++ q (toString (repr e)) ++ "}"

/-- Join and normalise paths, without following links. -/
def normPath (s : String) : String := Id.run do
  let mut st : List String := []
  for c in s.splitOn "/" do
    if c == "" || c == "." then continue
    else if c == ".." then st := st.tail
    else st := c :: st
  return "/" ++ "/".intercalate st.reverse

def dirOf (s : String) : String := "/".intercalate (s.splitOn "/").dropLast

def world (files : List (String × Str)) (origin : String) : World where
  resolve fs target :=
    let dir := fs.foldl (fun d f => d ++ "/" ++ dirOf (str f)) (dirOf origin)
    let p := normPath (dir ++ "/" ++ str target)
    if files.any (·.1 == p) then some (bytes p) else none
  read p := (files.find? (fun f => bytes f.1 == p)).map (·.2)

partial def allFiles (d : System.FilePath) : IO (List (String × Str)) := do
  let mut out := []
  for e in ← d.readDir do
    if ← e.path.isDir then out := out ++ (← allFiles e.path)
    else out := (normPath e.path.toString, (← IO.FS.readBinFile e.path).toList) :: out
  return out

def main (args : List String) : IO Unit := do
  let files ← allFiles (args.headD "/repo/tests/data")
  let stdin ← IO.getStdin
  let mut line ← stdin.getLine
  while line ≠ "" do
    match (line.trimAscii.toString).splitOn "\t" with
    | [origin, source] =>
      let src := (← IO.FS.readBinFile source).toList
      match Parser.parse (world files origin) 20 (scan src) Parser.newNoTargets with
      | .ok p =>
        if args.contains "html" then
          match Html.render true p.asg with
          | .ok h => IO.println (q (str h))
          | .error e => IO.println (failed e)
        else if args.contains "tera" then
          match Tera.render (fun _ => 0) true 100 id p.asg with
          | .ok h => IO.println (q (str h))
          | .error e => IO.println (failed e)
        else IO.println (str ((jsonText id p.asg).filter (· ≠ 10)))
      | .error e => IO.println (failed e)
    | _ => IO.println "{}"
    line ← stdin.getLine
