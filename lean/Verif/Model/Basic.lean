import Lean.Parser.Term
/-!
# Bytes, strings and outcomes

The Rust code works on `&str` by byte index, so the model's strings are lists of bytes.
-/
namespace Adoc

/-- A byte string; stands for Rust's `String`/`&str` (its UTF-8 bytes). -/
abbrev Str := List UInt8

open Lean in
/-- `b!"text"` is the list of UTF-8 bytes of a string literal. -/
macro:max "b!" s:str : term => do
  let elems ← s.getString.toUTF8.toList.toArray.mapM fun b =>
    `(term| ($(Syntax.mkNumLit (toString b.toNat)) : UInt8))
  `(term| ([$elems,*] : List UInt8))

open Lean in
/-- `c!"x"` is the byte of a one-character ASCII literal. -/
macro:max "c!" s:str : term => do
  match s.getString.toUTF8.toList with
  | [b] => `(term| ($(Syntax.mkNumLit (toString b.toNat)) : UInt8))
  | _ => Macro.throwError "c! expects one ASCII character"

/-- Places where the Rust code aborts the process with a panic. -/
inductive Site where
  | slice      -- string slice out of range or off a character boundary
  | index      -- `bytes[i]` with `i` out of range
  | todo       -- `todo!()`
  | invalid    -- explicit `panic!(..)`
  | unwrap     -- `unwrap()` on `None`
  | overflow   -- integer arithmetic that leaves its type (debug builds)
  | divZero    -- remainder by zero
deriving DecidableEq, Repr

/-- `errors.rs:24-34`, `ScannerError` (and `TokenError`). -/
inductive ScanError where
  | characterMatch
  | headingLevel (line : Nat)
  | tagError (text : Str)
deriving DecidableEq, Repr

/-- `errors.rs:84-100`, `BlockError`; the message of `NotImplemented`/`Footnote` is dropped. -/
inductive BlockError where
  | danglingList
  | tableCell
  | notImplemented
  | incorrectCall
  | location
  | invalidToken
  | footnote
deriving DecidableEq, Repr

/-- `errors.rs:36-66`, `ParserError`; messages are dropped, positions are kept. -/
inductive ParserError where
  | scanner (e : ScanError)
  | block (e : BlockError)
  | asg (e : BlockError)
  | topLevelHeading (line : Nat)
  | openParse (line : Nat)
  | delimitedBlock
  | parentBlock (line : Nat)
  | headingOffset (line : Nat) (offset : Int)
  | targetResolution (line : Nat) (target : Str)
  | blockStack
  | blockContinuation
  | internal
  | attribute
deriving DecidableEq, Repr

/-- Ways in which a modelled call can end other than by returning a value. -/
inductive Fail where
  /-- an `Err` value -/
  | err (e : ParserError)
  /-- a panic -/
  | panic (site : Site)
  /-- a loop or recursion that does not end -/
  | hang
  /-- `std::process::exit` -/
  | exit
deriving DecidableEq, Repr

/-- Result of a modelled call. -/
abbrev M (α : Type) := Except Fail α

/-- Continuation bytes of UTF-8 (`0b10xxxxxx`). -/
def isCont (b : UInt8) : Bool := 0x80 ≤ b && b < 0xC0

/-- `str::is_char_boundary` (Rust standard library): the test is on bytes. -/
def isBoundary (s : Str) (i : Nat) : Bool :=
  if i = 0 then true
  else match s[i]? with
    | some b => !isCont b
    | none => i = s.length

/-- `&s[i..j]`: `none` is the panic of a range that is out of order, out of range, or off a boundary. -/
def slice (s : Str) (i j : Nat) : Option Str :=
  if i ≤ j ∧ j ≤ s.length ∧ isBoundary s i = true ∧ isBoundary s j = true then
    some ((s.drop i).take (j - i))
  else none

/-- `slice` with the panic made explicit. -/
def sliceM (s : Str) (i j : Nat) : M Str :=
  match slice s i j with
  | some t => .ok t
  | none => .error (.panic .slice)

/-- `char::is_ascii_punctuation`. -/
def isAsciiPunct (b : UInt8) : Bool :=
  (0x21 ≤ b && b ≤ 0x2F) || (0x3A ≤ b && b ≤ 0x40) || (0x5B ≤ b && b ≤ 0x60) || (0x7B ≤ b && b ≤ 0x7E)

/-- `char::is_ascii_digit`. -/
def isDigit (b : UInt8) : Bool := 0x30 ≤ b && b ≤ 0x39

/-- `char::is_alphanumeric` of `byte as char`: ASCII letters and digits, and the Latin-1 letters and
numerals that a byte `≥ 0x80` denotes under `as char`. -/
def isAlnum (b : UInt8) : Bool :=
  isDigit b || (0x41 ≤ b && b ≤ 0x5A) || (0x61 ≤ b && b ≤ 0x7A)
  || b = 0xAA || b = 0xB2 || b = 0xB3 || b = 0xB5 || b = 0xB9 || b = 0xBA
  || (0xBC ≤ b && b ≤ 0xBE) || (0xC0 ≤ b && b ≤ 0xD6) || (0xD8 ≤ b && b ≤ 0xF6) || 0xF8 ≤ b

/-- `haystack.contains(needle)` for strings. -/
def containsStr (needle : Str) : Str → Bool
  | [] => needle.isEmpty
  | b :: bs => needle.isPrefixOf (b :: bs) || containsStr needle bs

/-- Number of bytes of the Unicode white-space character at the front of `s` (0 if there is none);
`char::is_whitespace` on the UTF-8 encoding. -/
def wsLen : Str → Nat
  | 0xC2 :: b :: _ => if b = 0x85 || b = 0xA0 then 2 else 0
  | 0xE1 :: 0x9A :: 0x80 :: _ => 3
  | 0xE2 :: 0x80 :: b :: _ =>
    if (0x80 ≤ b && b ≤ 0x8A) || b = 0xA8 || b = 0xA9 || b = 0xAF then 3 else 0
  | 0xE2 :: 0x81 :: 0x9F :: _ => 3
  | 0xE3 :: 0x80 :: 0x80 :: _ => 3
  | b :: _ => if (9 ≤ b && b ≤ 13) || b = 32 then 1 else 0
  | [] => 0

/-- `str::trim_start`; `fuel` bounds the number of characters removed. -/
def trimStartF : Nat → Str → Str
  | 0, s => s
  | n + 1, s => if wsLen s = 0 then s else trimStartF n (s.drop (wsLen s))

/-- `str::trim_start`. -/
def trimStart (s : Str) : Str := trimStartF s.length s

/-- Number of bytes of the white-space character at the end of a string given in reverse. -/
def wsLenRev : Str → Nat
  | b :: 0xC2 :: _ => if b = 0x85 || b = 0xA0 then 2 else if (9 ≤ b && b ≤ 13) || b = 32 then 1 else 0
  | 0x80 :: 0x9A :: 0xE1 :: _ => 3
  | 0x9F :: 0x81 :: 0xE2 :: _ => 3
  | 0x80 :: 0x80 :: 0xE3 :: _ => 3
  | b :: 0x80 :: 0xE2 :: _ =>
    if (0x80 ≤ b && b ≤ 0x8A) || b = 0xA8 || b = 0xA9 || b = 0xAF then 3
    else if (9 ≤ b && b ≤ 13) || b = 32 then 1 else 0
  | b :: _ => if (9 ≤ b && b ≤ 13) || b = 32 then 1 else 0
  | [] => 0

/-- `str::trim_end` on the reversed string. -/
def trimRevF : Nat → Str → Str
  | 0, s => s
  | n + 1, s => if wsLenRev s = 0 then s else trimRevF n (s.drop (wsLenRev s))

/-- `str::trim_end`. -/
def trimEnd (s : Str) : Str := (trimRevF s.length s.reverse).reverse

/-- `str::trim`. -/
def trim (s : Str) : Str := trimEnd (trimStart s)

/-- `str::split(c)` for a one-byte separator: always at least one piece. -/
def splitOnB (c : UInt8) : Str → List Str
  | [] => [[]]
  | b :: bs =>
    if b = c then [] :: splitOnB c bs
    else match splitOnB c bs with
      | [] => [[b]]
      | p :: ps => (b :: p) :: ps

/-- Decimal digits to a number; `none` on an empty string or a non-digit. -/
def parseDigits : Str → Option Nat
  | [] => none
  | s => s.foldl (fun acc b => acc.bind fun n =>
      if isDigit b then some (n * 10 + (b.toNat - 48)) else none) (some 0)

/-- `str::parse::<uN>` with maximum `max`: an optional `+`, digits, in range. -/
def parseUnsigned (max : Nat) (s : Str) : Option Nat :=
  let digits := match s with
    | b :: rest => if b = c!"+" then rest else s
    | [] => s
  match parseDigits digits with
  | some n => if n ≤ max then some n else none
  | none => none

/-- `str::parse::<iN>` with range `-(max+1) ..= max`: an optional sign, digits, in range. -/
def parseSigned (max : Nat) (s : Str) : Option Int :=
  match s with
  | b :: rest =>
    if b = c!"-" then
      match parseDigits rest with
      | some n => if n ≤ max + 1 then some (-(n : Int)) else none
      | none => none
    else
      match parseDigits (if b = c!"+" then rest else s) with
      | some n => if n ≤ max then some (n : Int) else none
      | none => none
  | [] => none

/-- Decimal representation (`format!("{}", n)`). -/
def natToStr (n : Nat) : Str := (Nat.toDigits 10 n).map fun c => UInt8.ofNat c.toNat

/-- A map with string keys (`HashMap<String, V>`): an association list, at most one entry per key. -/
abbrev SMap (V : Type) := List (Str × V)

/-- `HashMap::get`. -/
def SMap.get? {V : Type} (m : SMap V) (k : Str) : Option V :=
  match m with
  | [] => none
  | (k', v) :: rest => if k' = k then some v else SMap.get? rest k

/-- `HashMap::insert`. -/
def SMap.insert {V : Type} (m : SMap V) (k : Str) (v : V) : SMap V :=
  match m with
  | [] => [(k, v)]
  | (k', v') :: rest => if k' = k then (k, v) :: rest else (k', v') :: SMap.insert rest k v

/-- `HashMap::extend`. -/
def SMap.extend {V : Type} (m other : SMap V) : SMap V :=
  other.foldl (fun acc kv => acc.insert kv.1 kv.2) m

end Adoc
