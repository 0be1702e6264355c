import Verif.Spec.RichDoc
import Verif.Model.Parser
/-!
# Documents of several files: how they are written and what they mean

A document is a sequence of blocks and files that are included; a file consists of blocks and further files. What it means
is what its blocks mean when they are written one after the other.
-/
namespace Adoc.Spec

/-- A part of a document: a block, or a file that is included, with what is at its beginning, its parts, and what
is after the directive. -/
inductive Passage where
  | block (e : Tagged)
  | file (target : Str) (lead : Gap) (held : List Passage) (gap : Gap)

/-- How a part is written where it stands: of a file there is the directive only. -/
def Passage.signs : Passage → List Sign
  | .block e => e.signs
  | .file target _ _ gap => .mark .include (includeLine target) :: gap.signs

/-- How the parts of a file are written. -/
def fileSigns (lead : Gap) (ps : List Passage) : List Sign := lead.signs ++ ps.flatMap Passage.signs

mutual
/-- The blocks of a part, in reading order. -/
def Passage.blocks : Passage → List Tagged
  | .block e => [e]
  | .file _ _ held _ => blocksL held
/-- The blocks of several parts. -/
def blocksL : List Passage → List Tagged
  | [] => []
  | x :: xs => x.blocks ++ blocksL xs
end

mutual
/-- How deeply files are included in files. -/
def Passage.depth : Passage → Nat
  | .block _ => 0
  | .file _ _ held _ => depthL held + 1
/-- How deeply files are included. -/
def depthL : List Passage → Nat
  | [] => 0
  | x :: xs => max x.depth (depthL xs)
end

mutual
/-- A part follows, if it may; `last` says whether it is the last part of its file. -/
def Passage.flow : Passage → Flow → Bool → Option Flow
  | .block e, f, last => (f.next e.blk).map fun f' => if last && e.gap.newlines < 2 then f.stop e.blk else f'
  | .file _ _ held _, f, _ => (flowL held f).map fun f' => f'.leave (f.sec && !f.shut)
/-- Several parts follow. -/
def flowL : List Passage → Flow → Option Flow
  | [], f => some f
  | x :: xs, f => (x.flow f xs.isEmpty).bind fun f' => flowL xs f'
end

/-- The name of a file that is read as AsciiDoc. -/
def FileName (target : Str) : Prop :=
  c!"[" ∉ target ∧ (∀ b, target.head? = some b → isCont b = false)
    ∧ (b!".adoc" <:+ target ∨ b!".asciidoc" <:+ target ∨ b!".txt" <:+ target)

/-- What is at the beginning of a file is well formed: newlines and comments with blank lines after them. -/
def LeadOk (lead : Gap) : Prop := RemarksOk false lead.remarks ∧ ∀ s ∈ lead.signs, SignOk s

mutual
/-- The part is well formed: there is a blank line after it unless it is the last of its file, and files can be read on
their own. -/
def Passage.Ok : Passage → Bool → Prop
  | .block e, last => e.Ok ∧ (∀ s ∈ e.signs, SignOk s) ∧ e.gap.Ok (if last then e.blk.ending else 2) last
  | .file target lead held gap, last => FileName target ∧ LeadOk lead ∧ okL held ∧ Legible [] (fileSigns lead held) []
      ∧ (∃ cs : List Char, written (fileSigns lead held) = cs.flatMap String.utf8EncodeChar) 
      ∧ gap.Ok (if last then 0 else 2) last ∧ ∀ s ∈ gap.signs, SignOk s
/-- The parts are well formed. -/
def okL : List Passage → Prop
  | [] => True
  | x :: xs => x.Ok xs.isEmpty ∧ okL xs
end

mutual
/-- The files of a part are found: when the files `files` are being read, a file that is included is there, with what its
parts are written as. -/
def Passage.Found (w : World) : Passage → List Str → Prop
  | .block e, files => ∀ x ∈ e.blk.targets, There w files x
  | .file target lead held _, files =>
    (∃ path, w.resolve files target = some path ∧ w.read path = some (written (fileSigns lead held)))
      ∧ foundL w held (files ++ [target])
/-- The files of several parts are found. -/
def foundL (w : World) : List Passage → List Str → Prop
  | [], _ => True
  | x :: xs, files => x.Found w files ∧ foundL w xs files
end

/-- A document of several files: a header, newlines and comments at the beginning, and the parts. -/
structure Book where
  head : Option Head := none
  lead : Gap := 0
  parts : List Passage

/-- How the document is written; this is the file that includes the others. -/
def Book.signs (d : Book) : List Sign := headSigns d.head ++ fileSigns d.lead d.parts

/-- The document with all blocks written in place. -/
def Book.whole (d : Book) : RichDoc := ⟨d.head, d.lead, blocksL d.parts⟩

/-- The document is well formed. -/
structure Book.Ok (d : Book) : Prop where
  head : ∀ h, d.head = some h → h.Ok ∧ ∀ s ∈ h.signs, SignOk s
  lead : LeadOk d.lead
  parts : okL d.parts
  flow : (flowL d.parts {}).isSome = true
  ids : (((blocksL d.parts).flatMap Tagged.ids).map (·.1)).Nodup
  icons : (∃ e ∈ blocksL d.parts, e.blk.hasCallout = true) → NoIcons d.head

end Adoc.Spec
