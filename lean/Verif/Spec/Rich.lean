import Verif.Spec.Plain
import Verif.Spec.Lexical
import Verif.Spec.Closed
import Verif.Model.Inline
/-!
# Text with inline markup: how it is written and what it means

The text of a paragraph is described by its elements. `Elem.signs` is how an element is written and `Elem.inline` is what
it should be in the graph. Nothing here refers to how the code finds one from the other.
-/
namespace Adoc.Spec
open Lexical

/-- Characters before which a run of plain text ends. -/
def runEnds : Str := b!"\n*_`^~#]<&{+'-hfi"

/-- Sequences that have a meaning at the beginning of a run of plain text (inside of it they have none). -/
def runStarts : List Str := [b!"=>", b!"...", b!"(C)", b!"(R)", b!"(TM)"]

/-- Words that have a meaning before `::`. -/
def colonWords : List Str := [b!"tag", b!"end", b!"include", b!"image"]

/-- The text `l` between `before` and `after` is plain: it has no character or sequence with a meaning, and it ends
before a character that may begin markup or before the end of a term. -/
structure Run (before l after : Str) : Prop where
  first : ∃ b bs, l = b :: bs ∧ isCont b = false ∧ (LineStart before → b ∉ b!"=./|(:")
    ∧ (b = c!"|" → before.getLast? ≠ some c!" ")
  starts : ∀ w ∈ runStarts, ¬w <+: l
  chars : ∀ b ∈ l, b ∉ b!"\n*_`^~[]#&{+<"
  words : ∀ w ∈ markupWords, ¬w <:+: l ++ after.take 1
  ends : after = [] ∨ (∃ h r, after = h :: r ∧ h ∈ runEnds
      ∧ (h = c!"`" → l.getLast? ≠ some c!"'" ∧ l.getLast? ≠ some c!"\""))
    ∨ ∃ r, after = b!"::" ++ r ∧ ∀ w ∈ colonWords, ¬w <:+ l

/-- Text that looks like markup and is none: a piece of text up to the next character that may begin markup, where no rule
of the lexical grammar applies and no construct begins that is not closed. -/
structure Stray (before l after : Str) : Prop where
  first : ∀ b, l.head? = some b → isCont b = false
  piece : Piece l after
  other : ∀ ty l' after', l' ++ after' = l ++ after → ty ≠ .text → ¬Lexeme ty before l' after'
  blank : ∀ l' after', l' ++ after' = l ++ after → ¬Anchor before l' after' ∧ ¬Reference before l' after'
  safe : SafeAt (l ++ after)
  amp : ∀ q, l ++ after = c!"&" :: q → ∃ b ∈ q, b.toNat < 128 ∧ ¬Alnum b
  brace : ∀ q, l ++ after = c!"{" :: q → ∃ b ∈ q, b.toNat < 128 ∧ ¬(Alnum b ∨ b = c!"-")
  colon : LineStart before → ∀ q, l ++ after = c!":" :: q → 10 ∈ q
  level : ¬b!"======" <+: l ++ after

/-- What would be an anchor or a cross reference if it had no blank in it. -/
def Spaced (before l after : Str) : Prop :=
  Blank l ∧ (Anchor before l after ∨ Reference before l after) ∧ ∀ b ∈ l, b.toNat < 128

/-- Pieces of text, one after the other, each plain or not markup where it stands. -/
def Told (before : Str) : List Str → Str → Prop
  | [], _ => True
  | x :: xs, after => (Run before x (xs.flatten ++ after) ∨ Stray before x (xs.flatten ++ after)
      ∨ Spaced before x (xs.flatten ++ after)) ∧ Told (before ++ x) xs after

/-- The text `l` between `before` and `after` has no markup in it. -/
def Said (before l after : Str) : Prop := l ≠ [] ∧ ∃ xs, l = xs.flatten ∧ Told before xs after

/-- What a text is written with: plain text or something with a meaning, which the lexical grammar names. -/
inductive Sign where
  | text (l : Str)
  | mark (ty : TokenType) (l : Str)
deriving DecidableEq, Repr

/-- How a sign is written. -/
def Sign.str : Sign → Str
  | .text l => l
  | .mark _ l => l

/-- How some signs are written. -/
def written : List Sign → Str
  | [] => []
  | s :: ss => s.str ++ written ss

/-- The signs, written one after the other between `before` and `after`, can be told apart: text has no markup in it where it
stands, and everything else follows the lexical grammar there. -/
def Legible (before : Str) : List Sign → Str → Prop
  | [], _ => True
  | s :: ss, after => (match s with
      | .text l => Said before l (written ss ++ after)
      | .mark ty l => Lexeme ty before l (written ss ++ after)) ∧ Legible (before ++ s.str) ss after

/-- The markers of spans. -/
inductive Mark where
  | strong | emphasis | code | mark | strong2 | emphasis2 | code2 | mark2 | superscript | subscript
deriving DecidableEq, Repr

/-- How a marker is written. -/
def Mark.str : Mark → Str
  | .strong => b!"*"
  | .emphasis => b!"_"
  | .code => b!"`"
  | .mark => b!"#"
  | .strong2 => b!"**"
  | .emphasis2 => b!"__"
  | .code2 => b!"``"
  | .mark2 => b!"##"
  | .superscript => b!"^"
  | .subscript => b!"~"

/-- The name of a marker in the lexical grammar. -/
def Mark.type : Mark → TokenType
  | .strong => .strong
  | .emphasis => .emphasis
  | .code => .monospace
  | .mark => .mark
  | .strong2 => .unconstrainedStrong
  | .emphasis2 => .unconstrainedEmphasis
  | .code2 => .unconstrainedMonospace
  | .mark2 => .unconstrainedMark
  | .superscript => .superscript
  | .subscript => .subscript

/-- The kind of span a marker makes. -/
def Mark.kind : Mark → SpanVariant × SpanForm
  | .strong => (.strong, .constrained)
  | .emphasis => (.emphasis, .constrained)
  | .code => (.code, .constrained)
  | .mark => (.mark, .constrained)
  | .strong2 => (.strong, .unconstrained)
  | .emphasis2 => (.emphasis, .unconstrained)
  | .code2 => (.code, .unconstrained)
  | .mark2 => (.mark, .unconstrained)
  | .superscript => (.superscript, .constrained)
  | .subscript => (.subscript, .constrained)

/-! ## Attribute lists -/

/-- An entry of an attribute list. -/
inductive Arg where
  /-- `key=value` -/
  | named (k v : Str)
  /-- `value` -/
  | pos (v : Str)
deriving DecidableEq, Repr

/-- How an entry is written. -/
def Arg.str : Arg → Str
  | .named k v => k ++ c!"=" :: v
  | .pos v => v

/-- A key gets a value; for `role`, the value is a list of roles separated by blanks. -/
def assign (m : Meta) (k v : Str) : Meta :=
  if k = b!"role" then { m with roles := m.roles ++ splitOnB c!" " v } else { m with attributes := m.attributes.insert k v }

/-- The name of an entry without a name at a position (counted from 0), below a style. -/
def position : Option AttrType → Nat → Option Str
  | some .source, 1 => some b!"language"
  | some .source, _ => none
  | some .quote, 1 | some .verse, 1 => some b!"attribution"
  | some .quote, 2 | some .verse, 2 => some b!"citation"
  | some .quote, _ | some .verse, _ => none
  | _, i => some (b!"positional_" ++ natToStr (i + 1))

/-- What some entries say, from a position on. -/
def applyArgs (m : Meta) (i : Nat) : List Arg → Meta
  | [] => m
  | .named k v :: rest => applyArgs (assign m k v) (i + 1) rest
  | .pos v :: rest => applyArgs (match position m.declared i with
      | some k => assign m k v
      | none => m) (i + 1) rest

/-- Bytes that separate parts of an attribute list. -/
def separators : Str := b!"=|,\"\n"

/-- No separator in a name or value. -/
def Unseparated (s : Str) : Prop := ∀ b ∈ s, b ∉ separators

/-- Entries from a position on, below a style: entries without names are not empty; below a style they have no blanks
around them and a quotation has at most two of them. -/
def ArgsOk (st : Option AttrType) (i : Nat) : List Arg → Prop
  | [] => True
  | .named k v :: rest => Unseparated k ∧ Unseparated v ∧ ArgsOk st (i + 1) rest
  | .pos v :: rest => Unseparated v ∧ v ≠ []
      ∧ (st = none ∨ trim v = v ∧ 1 ≤ i ∧ (st = some .source ∨ i ≤ 2)) ∧ ArgsOk st (i + 1) rest

/-- A first entry without name begins with ASCII characters and does not begin with the first two letters of a style; a
first name does not begin in the middle of a character. -/
def FirstOk : List Arg → Prop
  | .named k _ :: _ => ∀ b, k.head? = some b → isCont b = false
  | .pos v :: _ => (∀ b ∈ v.take 3, b.toNat < 128) ∧ v.take 2 ≠ b!"so" ∧ v.take 2 ≠ b!"qu" ∧ v.take 2 ≠ b!"ve"
  | [] => True

/-! ## Elements -/

/-- What may be in a span, a link or a footnote: text, given by its lines, and spans with text. -/
inductive Part where
  | text (ls : List Str)
  | span (m : Mark) (ls : List Str)
deriving DecidableEq, Repr

/-- What a paragraph consists of: text, spans, links with a text, cross references, symbols, footnotes, images and hard
line breaks. -/
inductive Elem where
  | text (ls : List Str)
  | span (m : Mark) (ps : List Part)
  | link (url : Str) (ps : List Part)
  | xref (id : Str)
  | symbol (l : Str)
  | note (ps : List Part)
  | image (target : Str) (args : List Arg)
  | hard
deriving DecidableEq, Repr

/-- Plain text on one line, if there is any. -/
def lineSigns (l : Str) : List Sign := if l = [] then [] else [.text l]

/-- Lines of text and the newlines between them. -/
def textSigns : List Str → List Sign
  | [] => []
  | [l] => lineSigns l
  | l :: ls => lineSigns l ++ .mark .newLineChar b!"\n" :: textSigns ls

/-- How a part is written. -/
def Part.signs : Part → List Sign
  | .text ls => textSigns ls
  | .span m ls => .mark m.type m.str :: (textSigns ls ++ [.mark m.type m.str])

/-- How an element is written. -/
def Elem.signs : Elem → List Sign
  | .text ls => textSigns ls
  | .span m ps => .mark m.type m.str :: (ps.flatMap Part.signs ++ [.mark m.type m.str])
  | .link url ps => .mark .linkMacro (url ++ b!"[") :: (ps.flatMap Part.signs ++ [.mark .inlineMacroClose b!"]"])
  | .xref id => [.mark .crossReference (b!"<<" ++ id ++ b!">>")]
  | .symbol l => [.mark .charRef l]
  | .note ps => .mark .footnoteMacro b!"footnote:[" :: (ps.flatMap Part.signs ++ [.mark .inlineMacroClose b!"]"])
  | .image target args => [.mark .inlineImageMacro (b!"image:" ++ (target ++ (b!"[" ++ (joinB c!"," (args.map Arg.str) ++ b!"]"))))]
  | .hard => [.mark .lineContinuation b!"+"]

/-- Text in the graph. -/
def literal (v : Str) : Inline := .lit .text v []

/-- The characters that stand for some symbols. -/
def symbols : List (Str × Str) :=
  [(b!"(C)", b!"&#169;"), (b!"(R)", b!"&#174;"), (b!"(TM)", b!"&#8482;"), (b!"...", b!"&#8230;"),
   (b!"->", b!"&#8594;"), (b!"=>", b!"&#8658;"), (b!"<-", b!"&#8592;"), (b!"<=", b!"&#8656;"),
   (b!"--", b!"&#8212;"), (b!"'", b!"&#8217;")]

/-- What a part should be in the graph (without locations). -/
def Part.inline : Part → Inline
  | .text ls => literal (joinB 10 ls)
  | .span m ls => .span m.kind.1 m.kind.2 [literal (joinB 10 ls)] none [] false

/-- What the attribute list of an image says, if there is anything in it. -/
def imageMeta (args : List Arg) : Option Meta := if args = [] then none else some (applyArgs { inlineMeta := true } 0 args)

/-- What an element should be in the graph (without locations). -/
def Elem.inline : Elem → Inline
  | .text ls => literal (joinB 10 ls)
  | .span m ps => .span m.kind.1 m.kind.2 (ps.map Part.inline) none [] false
  | .link url ps => .ref .link url (ps.map Part.inline) none []
  | .xref id => .ref .xref id [] none []
  | .symbol l => .lit .charref ((symbols.lookup l).getD l) []
  | .note ps => .span .footnote .constrained (ps.map Part.inline) none [] true
  | .image target args => .ref .image target [] (imageMeta args) []
  | .hard => .brk []

mutual
/-- An inline without its locations. -/
def bare : Inline → Inline
  | .span v f is m _ o => .span v f (bareL is) m [] o
  | .ref v t is m _ => .ref v t (bareL is) m []
  | .lit n v _ => .lit n v []
  | .brk _ => .brk []
/-- Inlines without their locations. -/
def bareL : List Inline → List Inline
  | [] => []
  | x :: xs => bare x :: bareL xs
end

/-- A part is a span. -/
def Part.isSpan : Part → Bool
  | .span _ _ => true
  | _ => false

/-- There is a span in an element. -/
def Elem.hasSpan : Elem → Bool
  | .span _ _ => true
  | .link _ ps => ps.any Part.isSpan
  | .note ps => ps.any Part.isSpan
  | _ => false

/-- An element is a link, a cross reference, a footnote or an image. -/
def Elem.refers : Elem → Bool
  | .link _ _ => true
  | .xref _ => true
  | .note _ => true
  | .image _ _ => true
  | _ => false

/-- An element is a footnote. -/
def Elem.isNote : Elem → Bool
  | .note _ => true
  | _ => false

/-- What is around a part: a span, a link or a footnote. -/
inductive Around where
  | span (m : Mark)
  | link
  | note
deriving DecidableEq, Repr

/-- Lines of text: there is some text, and no line is empty except that the text may begin or end with a newline. -/
def TextLines (ls : List Str) : Prop := joinB 10 ls ≠ [] ∧ ∀ l ∈ ls.tail.dropLast, l ≠ []

/-- The text ends with a newline. -/
def EndsLine (ls : List Str) : Prop := ls.getLast? = some []

/-- The target of an image and its attribute list can be read. -/
def ImageOk (target : Str) (args : List Arg) : Prop :=
  c!"[" ∉ target ∧ (∀ b, target.head? = some b → isCont b = false) ∧ ArgsOk none 0 args ∧ FirstOk args

/-- Inside a span, a link or a footnote: text does not end with a newline and does not follow text, and spans are of
another kind than the span around them. They do not follow spans with the same marker, and in a link they do not follow
spans. -/
def PartsOk (around : Around) : Option Part → List Part → Prop
  | _, [] => True
  | prev, .text ls :: rest => TextLines ls ∧ ¬EndsLine ls ∧ (∀ ls', prev ≠ some (.text ls'))
      ∧ PartsOk around (some (.text ls)) rest
  | prev, .span m ls :: rest => TextLines ls ∧ ¬EndsLine ls ∧ around ≠ .span m
      ∧ (∀ m' ls', prev = some (.span m' ls') → around ≠ .link ∧ m' ≠ m) ∧ PartsOk around (some (.span m ls)) rest

/-- The elements of a paragraph: it does not begin or end with a newline, text does not follow text, spans do not
follow spans, not even after a single newline, and a newline is not directly before a link, a cross reference, a
footnote, an image or a hard line break. After a footnote there are no spans. -/
def ElemsOk : Option Elem → List Elem → Prop
  | prev, [] => ∀ ls, prev = some (.text ls) → ¬EndsLine ls
  | prev, .text ls :: rest => TextLines ls ∧ (prev = none → ls.head? ≠ some []) ∧ (∀ ls', prev ≠ some (.text ls'))
      ∧ ElemsOk (some (.text ls)) rest
  | prev, .span m ps :: rest => ps ≠ [] ∧ PartsOk (.span m) none ps ∧ (∀ m' ps', prev ≠ some (.span m' ps'))
      ∧ prev ≠ some (.text [[], []])
      ∧ ElemsOk (some (.span m ps)) rest
  | prev, .link url ps :: rest => PartsOk .link none ps ∧ (∀ ls, prev = some (.text ls) → ¬EndsLine ls)
      ∧ ElemsOk (some (.link url ps)) rest
  | prev, .xref id :: rest => (∀ b ∈ id, b.toNat < 128) ∧ (∀ ls, prev = some (.text ls) → ¬EndsLine ls)
      ∧ ElemsOk (some (.xref id)) rest
  | _, .symbol l :: rest => ElemsOk (some (.symbol l)) rest
  | prev, .note ps :: rest => PartsOk .note none ps ∧ (∀ ls, prev = some (.text ls) → ¬EndsLine ls)
      ∧ (∀ e ∈ rest, e.hasSpan = false) ∧ ElemsOk (some (.note ps)) rest
  | prev, .image target args :: rest => ImageOk target args ∧ (∀ ls, prev = some (.text ls) → ¬EndsLine ls)
      ∧ ElemsOk (some (.image target args)) rest
  | prev, .hard :: rest => (∀ ls, prev = some (.text ls) → ¬EndsLine ls) ∧ ElemsOk (some .hard) rest

/-- The sign of a newline. -/
def newline : Sign := .mark .newLineChar b!"\n"

end Adoc.Spec
