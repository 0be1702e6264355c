import Verif.Model.Parser
import Verif.Spec.Lexical
import Verif.Spec.Places
/-!
# What an error says about the document (used in C98)

`Read` says which texts are read while a document is converted: the input, the files that are included, and the cells of
tables. `Fault` says for every error what must be wrong in one of these texts.
-/
namespace Adoc.Spec

/-- The file that an image or an include directive names: what stands between the name of the macro and the bracket. -/
def Names (t : Token) (target : Str) : Prop :=
  (∃ rest, t.text.drop (if t.ty = .include then 9 else 7) = target ++ c!"[" :: rest) ∧ c!"[" ∉ target

/-- A token of a cell, at its place in the file. -/
def inCell (c : Token) : Item → Item
  | .tok t => .tok { t with line := t.line + (c.line - 1), startcol := t.startcol + c.startcol, endcol := t.endcol + c.startcol }
  | it => it

/-- An item that is reached: only tokens come before it. -/
def Reached (items : List Item) (it : Item) : Prop := ∃ (toks : List Token) (rest : List Item), items = toks.map .tok ++ it :: rest

/-- What is read for the document `src`, inside the files `fs`. -/
inductive Read (w : World) (src : Str) : List Str → List Item → Prop
  | input : Read w src [] (scan src)
  | included {fs : List Str} {items : List Item} {t : Token} {target path text : Str} : Read w src fs items → Reached items (.tok t) →
      t.ty = .include → Names t target → w.resolve fs target = some path → w.read path = some text →
      Read w src (fs ++ [target]) (Scanner.newWithStack text (fs ++ [target])).run
  | cell {fs : List Str} {items : List Item} {t : Token} : Read w src fs items → Reached items (.tok t) → t.ty = .tableCell →
      Read w src fs ((scan (t.text.drop 1)).map (inCell t))

/-- The level of a heading. -/
def levelOf : TokenType → Option Int
  | .heading1 => some 0
  | .heading2 => some 1
  | .heading3 => some 2
  | .heading4 => some 3
  | .heading5 => some 4
  | _ => none

/-- Delimiters of blocks that contain text only. -/
def isLeafDelimiter : TokenType → Bool
  | .passthroughBlock | .literalBlock | .sourceBlock | .commentBlock | .quoteVerseBlock => true
  | _ => false

/-- Errors about a block, without a place. -/
def blockFault : BlockError → Bool
  | .danglingList | .tableCell | .notImplemented | .location => true
  | .incorrectCall | .invalidToken | .footnote => false

/-- Errors that do not say where they occur. -/
def nowhere : ParserError → Bool
  | .block e | .asg e => blockFault e
  | .delimitedBlock | .blockContinuation | .internal => true
  | _ => false

/-- What is wrong when the document `src` gives an error. -/
inductive Fault (w : World) (src : Str) : ParserError → Prop
  /-- an error of the scanner is one in a text that is read -/
  | scanner {fs : List Str} {items : List Item} {e : ScanError} : Read w src fs items → Reached items (.err e) → Fault w src (.scanner e)
  /-- a document title that is not at the beginning of the input -/
  | title {fs : List Str} {items : List Item} {t : Token} : Read w src fs items → Reached items (.tok t) → t.ty = .heading1 →
      t.firstLocation ≠ ⟨1, 1, []⟩ → Fault w src (.topLevelHeading t.line)
  /-- a heading whose level is not that of a section -/
  | level {fs : List Str} {items : List Item} {t : Token} {n o : Int} : Read w src fs items → Reached items (.tok t) → levelOf t.ty = some n →
      ¬(1 ≤ n + o ∧ n + o ≤ 4) → Fault w src (.headingOffset t.line o)
  /-- an image or an included file that is not there -/
  | target {fs : List Str} {items : List Item} {t : Token} {target : Str} : Read w src fs items → Reached items (.tok t) →
      t.ty = .include ∨ t.ty = .blockImageMacro → Names t target → w.resolve fs target = none →
      Fault w src (.targetResolution t.line target)
  /-- a closing delimiter -/
  | closing {fs : List Str} {items : List Item} {t : Token} : Read w src fs items → Reached items (.tok t) → isLeafDelimiter t.ty = true →
      Fault w src (.openParse t.line)
  /-- errors without a place -/
  | other {e : ParserError} : nowhere e = true → Fault w src e

/-! ## In terms of the texts alone -/

/-- A place where a block can begin: at the beginning of a line, or of a cell of a table. -/
def BlockStart (before : Str) : Prop := Lexical.LineStart before ∨ before.getLast? = some c!"|"

/-- On line `l` of the text, something begins with `rest`. -/
def Line (text : Str) (l : Nat) (rest : Str) : Prop := ∃ before, text = before ++ rest ∧ BlockStart before ∧ l = lineAfter before

/-- The input, and the files that are included, together with the files in which they are included. -/
inductive Text (w : World) (src : Str) : List Str → Str → Prop
  | input : Text w src [] src
  | included {fs : List Str} {text target rest path text' : Str} {l : Nat} : Text w src fs text →
      Line text l (b!"include::" ++ target ++ c!"[" :: rest) → c!"[" ∉ target → w.resolve fs target = some path → w.read path = some text' →
      Text w src (fs ++ [target]) text'

/-- What stands on the line that an error names. -/
inductive Cause (w : World) (src : Str) : ParserError → Prop
  /-- a document title -/
  | title {fs : List Str} {text rest : Str} {l : Nat} {x : UInt8} : Text w src fs text → Line text l (c!"=" :: x :: rest) → x ≠ c!"=" →
      Cause w src (.topLevelHeading l)
  /-- a heading with `n` equals signs, where the level with the offset is not that of a section -/
  | level {fs : List Str} {text rest : Str} {l n : Nat} {x : UInt8} {o : Int} : Text w src fs text →
      Line text l (List.replicate n c!"=" ++ x :: rest) → x ≠ c!"=" → ¬(2 ≤ n + o ∧ n + o ≤ 5) → Cause w src (.headingOffset l o)
  /-- an include directive or a block image that names a file that is not there -/
  | target {fs : List Str} {text name target rest : Str} {l : Nat} : Text w src fs text → name = b!"include::" ∨ name = b!"image::" →
      Line text l (name ++ target ++ c!"[" :: rest) → c!"[" ∉ target → w.resolve fs target = none → Cause w src (.targetResolution l target)
  /-- the delimiter of a block that contains text only -/
  | closing {fs : List Str} {text rest : Str} {l : Nat} {c : UInt8} : Text w src fs text → Line text l (c :: c :: c :: c :: 10 :: rest) →
      c ∈ b!"+.-/_" → Cause w src (.openParse l)
  /-- a heading with more than five equals signs at the beginning of a line -/
  | deep {fs : List Str} {text before rest : Str} : Text w src fs text → text = before ++ (List.replicate 6 c!"=" ++ rest) →
      Lexical.LineStart before → Cause w src (.scanner (.headingLevel (lineAfter before)))
  /-- a heading with more than five equals signs at the beginning of a cell: the error says line 1 -/
  | cell {fs : List Str} {text before rest : Str} : Text w src fs text → text = before ++ (List.replicate 6 c!"=" ++ rest) →
      before.getLast? = some c!"|" → Cause w src (.scanner (.headingLevel 1))
  /-- a tag that cannot be read -/
  | tag {fs : List Str} {text x : Str} : Text w src fs text → x <:+: text → Cause w src (.scanner (.tagError x))
  /-- errors without a place -/
  | other {e : ParserError} : nowhere e = true → Cause w src e

end Adoc.Spec
