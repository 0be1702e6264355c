import Verif.Model.Basic
/-!
# The command line (`src/bin/asciidocr/cli.rs`, `main.rs`)

Only the choice of the destination is modelled, not reading, rendering or writing. `std::path` is modelled on bytes
for Unix paths.
-/
namespace Adoc.Cli

/-- `src/backends/mod.rs`, `Backends` (with the `docx` feature). -/
inductive Backend where
  | htmlbook | json | docx
deriving DecidableEq, Repr

/-- The arguments that matter (`cli.rs:9-31`). -/
structure Args where
  file : Str
  output : Option Str
  backend : Backend
  noResolve : Bool
deriving DecidableEq, Repr

/-- A reversed path without trailing separators and trailing `/.` components, which `Path::components` skips. -/
def dropTrailing : Str → Str
  | 47 :: rest => dropTrailing rest
  | 46 :: 47 :: rest => dropTrailing (47 :: rest)
  | s => s
termination_by s => s.length

/-- The end of the file stem in a reversed file name (`Path::file_stem`): drop the part after the last dot together
with the dot, unless there is no dot or only a leading one. -/
def stemRev (name : Str) : Str :=
  match name.dropWhile (· ≠ 46) with
  | 46 :: before => if before.isEmpty then name else before
  | _ => name

/-- `PathBuf::set_extension` for a non-empty extension. -/
def setExtension (path ext : Str) : Str :=
  let r := dropTrailing path.reverse
  let name := r.takeWhile (· ≠ 47)
  let dir := r.dropWhile (· ≠ 47)
  if name = [] ∨ name = [46] ∨ name = [46, 46] then path
  else (stemRev name ++ dir).reverse ++ 46 :: ext

/-- The extension of a backend (`cli.rs:62-67`). -/
def Backend.ext : Backend → Str
  | .htmlbook => b!"html"
  | .json => b!"json"
  | .docx => b!"docx"

/-- `cli.rs:46-72`, `read_output`; `none` is standard output. -/
def readOutput (a : Args) : Option Str :=
  match a.output with
  | some o => if o = b!"-" then none else some o
  | none => if a.file = b!"-" then none else some (setExtension a.file a.backend.ext)

/-- What `main.rs:46-73` does with a parsed graph. -/
inductive Outcome where
  | stdout | file (path : Str) | refused
deriving DecidableEq, Repr

/-- `main.rs:46-81`: destination of the result; docx output refuses `-x` and standard output. -/
def destination (a : Args) : Outcome :=
  match a.backend with
  | .docx =>
    if a.noResolve then .refused
    else match readOutput a with
      | some p => .file p
      | none => .refused
  | _ => match readOutput a with
    | some p => .file p
    | none => .stdout

end Adoc.Cli
