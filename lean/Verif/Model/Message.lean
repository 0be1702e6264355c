import Verif.Model.Run
/-!
# Error messages (`src/errors.rs`, `src/bin/asciidocr/main.rs`)

What a failed run prints to standard error. Errors of the model do not carry the texts that some errors of the program have
(`InternalError`, `AttributeError`, `NotImplemented`, `Footnote`); here they are the argument `detail`.
-/
namespace Adoc

/-- The digit of a number below 16. -/
def hexChar (n : Nat) : UInt8 := UInt8.ofNat (if n < 10 then 48 + n else 87 + n)

/-- A byte in a text that is printed with `{:?}` (`impl Debug for str`). Simplified: bytes of characters outside of ASCII are
printed as they are; the program escapes those of them that are not printable. -/
def debugByte (b : UInt8) : Str :=
  if b = 34 then b!"\\\""
  else if b = 92 then b!"\\\\"
  else if b = 0 then b!"\\0"
  else if b = 9 then b!"\\t"
  else if b = 10 then b!"\\n"
  else if b = 13 then b!"\\r"
  else if b < 16 then b!"\\u{" ++ [hexChar b.toNat] ++ b!"}"
  else if b < 32 ∨ b = 127 then b!"\\u{" ++ [hexChar (b.toNat / 16), hexChar (b.toNat % 16)] ++ b!"}"
  else [b]

/-- A text that is printed with `{:?}`. -/
def debugStr (s : Str) : Str := b!"\"" ++ s.flatMap debugByte ++ b!"\""

/-- A number with a sign. -/
def intToStr : Int → Str
  | .ofNat n => natToStr n
  | .negSucc n => b!"-" ++ natToStr (n + 1)

/-- `errors.rs:22-32`, `ScannerError`, and 101-105, `TokenError`. -/
def ScanError.message : ScanError → Str
  | .characterMatch => b!"Invalid character match to produce block TokenType"
  | .headingLevel n => b!"Invalid headling level at line " ++ natToStr n
  | .tagError x => b!"Invalid include tag pattern: " ++ x

/-- `errors.rs:83-99`, `BlockError`. -/
def BlockError.message (detail : Str) : BlockError → Str
  | .danglingList => b!"Attempted to push dangling ListItem to parent block"
  | .tableCell => b!"Attempted to add something other than a TableCell to a Table"
  | .notImplemented => b!"push_block not implemented for " ++ detail
  | .incorrectCall => b!"Incorrect function call: consolidate_table_info on non-table block"
  | .location => b!"Missing location information for block"
  | .invalidToken => b!"Tried to create a block from an invalid Token."
  | .footnote => b!"Footnote error: " ++ detail

/-- `errors.rs:34-63`, `ParserError`. -/
def ParserError.message (detail : Str) : ParserError → Str
  | .scanner e => e.message
  | .block e => e.message detail
  | .asg e => e.message detail
  | .topLevelHeading n =>
    b!"Parse error line " ++ natToStr n ++ b!": Level 0 headings are only allowed at the top of a document"
  | .openParse n => b!"Parse error line " ++ natToStr n ++ b!": Invalid open_parse_after_as_text_type occurance"
  | .delimitedBlock => b!"Parse error: Attempted to close a non-existent delimited block"
  | .parentBlock n => b!"Parse error line " ++ natToStr n ++ b!": Unexpected block in Block::ParentBlock"
  | .headingOffset n o =>
    b!"Parse error line " ++ natToStr n ++ b!": Invalid heading level; parser level offest at the time of error was: " ++ intToStr o
  | .targetResolution n target => b!"Parse error line " ++ natToStr n ++ b!": Unable to resolve target: " ++ debugStr target
  | .blockStack => b!"Parser error: Tried to add last block when block stack was empty."
  | .blockContinuation => b!"Parse error: invalid block continuation; no previous block"
  | .internal => b!"Parse error: " ++ detail
  | .attribute => b!"Attribute error: " ++ detail

namespace Cli

/-- What a run that ends with status 1 prints to standard error (`main.rs:28-31`, `56-71`). Nothing if the program ends where
it only writes to the log (`cli.rs:38-41`, `parser.rs:1545-1548`, `blocks.rs:255-258`). Not for panics. -/
def complaint (s : System) (c : Call) (detail : Str) : Str :=
  match readInput s c with
  | .error _ => []
  | .ok src =>
    match graphOf s c src with
    | .error (.err e) => b!"Error converting document: " ++ e.message detail ++ b!"\n"
    | .error _ => []
    | .ok _ =>
      match c.backend with
      | .docx =>
        if c.noResolve then b!"Error: the docx backend does not support parsing without target resolution.\n"
        else if readOutput c.toArgs = none then b!"Error: can't send docx backend to stdout\n"
        else []
      | _ => []

end Cli

end Adoc
