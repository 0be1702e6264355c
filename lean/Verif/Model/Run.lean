import Verif.Model.Cli
import Verif.Model.Parser
import Verif.Model.Html
import Verif.Model.Json
import Verif.Model.Docx
/-!
# A run of the program (`src/bin/asciidocr/main.rs`)

What a run prints and writes, and how it ends. The log is left out: `simple_logger` prints warnings to standard output (the feature
that sends them to standard error is not enabled in `Cargo.toml`), before everything that is modelled here, since nothing is
logged after the document is parsed. The arguments that `clap` refuses are left out as well. Writing to standard output does not fail. `fs::write` and `File::create` either succeed or do nothing.
-/
namespace Adoc.Cli

/-- The surroundings of a run. -/
structure System where
  /-- files that are included, and how many inclusions can be nested -/
  world : World
  fuel : Nat
  /-- `fs::read_to_string` -/
  input : Str → Option Str
  /-- `io::read_to_string(io::stdin())` -/
  stdin : Option Str
  /-- can the file be created and written to? -/
  writable : Str → Bool
  /-- pictures that can be read -/
  pictures : Str → Option Unit
  /-- see `Html.render` -/
  sees : Bool
  /-- the order of hash maps -/
  ord : SMap Str → SMap Str

/-- The arguments (`cli.rs:9-31`). -/
structure Call extends Args where
  count : Bool := false
deriving DecidableEq, Repr

/-- What is in a file that was written. -/
inductive Content where
  | text (s : Str)
  | word (d : Docx.Doc)
  /-- created, with nothing in it -/
  | nothing
deriving DecidableEq, Repr

/-- How a run ends. -/
inductive Status where
  | success
  /-- status 1 -/
  | failure
  | panic
  | hang
deriving DecidableEq, Repr

/-- What a run leaves behind. -/
structure Effects where
  /-- standard output after the warnings of the log -/
  stdout : Str := []
  files : List (Str × Content) := []
  status : Status
deriving DecidableEq, Repr

/-- All of standard output, when the log has written `log`. -/
def printed (log : Str) (e : Effects) : Str := log ++ e.stdout

/-- How a failed call ends the run (`main.rs:29-32`). -/
def Fail.status : Fail → Status
  | .err _ => .failure
  | .exit => .failure
  | .panic _ => .panic
  | .hang => .hang

/-- `cli.rs:33-44`, `read_input`. -/
def readInput (s : System) (c : Call) : Except Status Str :=
  if c.file = b!"-" then
    match s.stdin with
    | some x => .ok x
    | none => .error .panic
  else match s.input c.file with
    | some x => .ok x
    | none => .error .failure

/-- `main.rs:36-42`: the graph. -/
def graphOf (s : System) (c : Call) (src : Str) : M Asg := do
  let p ← Parser.parse s.world s.fuel (scan src) (if c.noResolve then Parser.newNoTargets else Parser.new)
  return p.asg

/-- `main.rs:43-45`: the number of words. -/
def countLine (c : Call) (g : Asg) : Str :=
  if c.count then natToStr g.wordCount ++ b!" words in " ++ c.file ++ b!"\n" else []

/-- `main.rs:83-88`, `render_string`, after `out` was printed. -/
def renderString (s : System) (c : Call) (out text : Str) : Effects :=
  match readOutput c.toArgs with
  | some path => if s.writable path then { stdout := out, files := [(path, .text text)], status := .success }
      else { stdout := out, status := .panic }
  | none => { stdout := out ++ text ++ b!"\n", status := .success }

/-- `main.rs:47-80`: the output, after `out` was printed. For Word the file is created before the document is made
(`docx/mod.rs:18`). -/
def output (s : System) (c : Call) (out : Str) (g : Asg) : Effects :=
  match c.backend with
  | .htmlbook =>
    match Html.render s.sees g with
    | .ok page => renderString s c out page
    | .error _ => { stdout := out, status := .panic }
  | .json => renderString s c out (jsonText s.ord g)
  | .docx =>
    if c.noResolve then { stdout := out, status := .failure }
    else match readOutput c.toArgs with
      | none => { stdout := out, status := .failure }
      | some path =>
        if s.writable path then
          match Docx.render s.pictures g with
          | .ok d => { stdout := out, files := [(path, .word d)], status := .success }
          | .error _ => { stdout := out, files := [(path, .nothing)], status := .panic }
        else { stdout := out, status := .panic }

/-- `main.rs:22-81`, `main` and `run`. -/
def run (s : System) (c : Call) : Effects :=
  match readInput s c with
  | .error e => { status := e }
  | .ok src =>
    match graphOf s c src with
    | .error e => { status := Fail.status e }
    | .ok g => output s c (countLine c g) g

end Adoc.Cli
