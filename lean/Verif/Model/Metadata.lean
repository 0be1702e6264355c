import Verif.Model.Token
/-!
# Attribute lists and element metadata (`src/utils.rs`, `src/graph/metadata.rs`)

Simplifications:
* the regex class `\w` is modelled on bytes: ASCII letters, digits, `_`, and every byte `≥ 0x80`;
* `AttributeType::Lines` is never constructed in the code and is left out;
* `HashMap` is an association list (`SMap`), so iteration order is fixed; the code only iterates to merge.
-/
namespace Adoc

/-- `metadata.rs:16-22`, `AttributeType`. -/
inductive AttrType where
  | role | quote | verse | source
deriving DecidableEq, Repr

/-- `metadata.rs:24-34`, `AttributeType::from_str`. -/
def AttrType.ofStr (s : Str) : Option AttrType :=
  if s = b!"role" then some .role
  else if s = b!"quote" then some .quote
  else if s = b!"verse" then some .verse
  else if s = b!"source" then some .source
  else none

/-- `metadata.rs:37-47`, `ElementMetadata`. -/
structure Meta where
  attributes : SMap Str := []
  options : List Str := []
  roles : List Str := []
  inlineMeta : Bool := false
  declared : Option AttrType := none
  loc : List Location := []
deriving DecidableEq, Repr

/-- The bytes before and after the first delimiter `=`, `|` or `,` of a string without newlines. -/
def cutDelim : Str → Option (Str × Str)
  | [] => none
  | b :: bs =>
    if b = c!"=" ∨ b = c!"|" ∨ b = c!"," then some ([], bs)
    else match cutDelim bs with
      | some (k, v) => some (b :: k, v)
      | none => none

/-- First line with a delimiter. -/
def cutLines : List Str → Option (Str × Str)
  | [] => none
  | l :: ls => match cutDelim l with
    | some r => some r
    | none => cutLines ls

/-- Captures of `RE_NAMED` (`metadata.rs:13`, `(.*?)[=|,](.*)`): `.` excludes the newline, so the match lies
in the first line that has a delimiter. -/
def reNamed (s : Str) : Option (Str × Str) := cutLines (splitOnB c!"\n" s)

/-- `utils.rs:12-32`, `key_values_from_named_attribute`: key and value (the value split at spaces in Rust;
the callers either join it with spaces again or iterate over the pieces). `none` is the `Err`. -/
def keyValues (attr : Str) : M (Option (Str × Str)) :=
  match reNamed attr with
  | none => .ok none
  | some (k, v) =>
    match v with
    | b :: _ =>
      if b = c!"\"" then do
        let v' ← sliceM v 1 (v.length - 1)
        return some (k, v')
      else .ok (some (k, v))
    | [] => .ok (some (k, v))

/-- The regex class `\w`, on bytes. -/
def isWordB (b : UInt8) : Bool :=
  isDigit b || (0x41 ≤ b && b ≤ 0x5A) || (0x61 ≤ b && b ≤ 0x7A) || b = c!"_" || 0x80 ≤ b

/-- The text up to the next double quote on the same line, and what follows the quote. -/
def cutQuote : Str → Option (Str × Str)
  | [] => none
  | b :: bs =>
    if b = c!"\"" then some ([], bs)
    else if b = c!"\n" then none
    else match cutQuote bs with
      | some (k, v) => some (b :: k, v)
      | none => none

/-- Matches of `RE_NAMED_QUOTED` (`metadata.rs:12`, `\w*=".*?"`), left to right; `word` is the run of word
bytes just read, in reverse. -/
def quotedF : Nat → Str → Str → List Str
  | 0, _, _ => []
  | _ + 1, _, [] => []
  | n + 1, word, b :: bs =>
    if b = c!"=" then
      match bs with
      | q :: rest =>
        if q = c!"\"" then
          match cutQuote rest with
          | some (body, after) => (word.reverse ++ b!"=\"" ++ body ++ b!"\"") :: quotedF n [] after
          | none => quotedF n [] bs
        else quotedF n [] bs
      | [] => []
    else quotedF n (if isWordB b then b :: word else []) bs

/-- Matches of `RE_NAMED_QUOTED` in a string. -/
def quoted (s : Str) : List Str := quotedF (s.length + 1) [] s

/-- `str::replace(needle, "")` for a non-empty needle. -/
def eraseF (needle : Str) : Nat → Str → Str
  | 0, s => s
  | _ + 1, [] => []
  | n + 1, b :: bs =>
    if needle.isPrefixOf (b :: bs) then eraseF needle n ((b :: bs).drop needle.length)
    else b :: eraseF needle n bs

/-- `str::replace(needle, "")` for a non-empty needle. -/
def erase (needle s : Str) : Str := eraseF needle (s.length + 1) s

/-- `utils.rs:101-112`, `extract_attributes`. -/
def extractAttributes (list : Str) : List Str :=
  let q := quoted list
  q ++ splitOnB c!"," (q.foldl (fun acc total => erase total acc) list)

namespace Meta

/-- `metadata.rs:52-54`, `is_empty`. -/
def isEmpty (m : Meta) : Bool := m.attributes.isEmpty && m.options.isEmpty && m.roles.isEmpty

/-- `metadata.rs:56-65`. -/
def withRole (r : Str) : Meta := { roles := [r] }
/-- `metadata.rs:67-78`. -/
def withId (id : Str) : Meta := { attributes := [(b!"id", id)] }
/-- `metadata.rs:80-91`. -/
def withIdAndRoles (id : Str) (roles : List Str) : Meta := { attributes := [(b!"id", id)], roles }
/-- `metadata.rs:94-98`. -/
def inlineWithId (id : Str) : Meta := { withId id with inlineMeta := true }

/-- `metadata.rs:100-102`, `element_id`. -/
def elementId (m : Meta) : Option Str := m.attributes.get? b!"id"

/-- Set one attribute. -/
def setAttr (m : Meta) (k v : Str) : Meta := { m with attributes := m.attributes.insert k v }

/-- `metadata.rs:202-233`, `process_attribute`. -/
def processAttribute (m : Meta) (idx : Nat) (attr : Str) : M Meta :=
  match m.declared with
  | some .source => .ok (if idx = 1 then m.setAttr b!"language" (trim attr) else m)
  | some .quote | some .verse =>
    if idx = 1 then .ok (m.setAttr b!"attribution" (trim attr))
    else if idx = 2 then .ok (m.setAttr b!"citation" (trim attr))
    else .error (.panic .todo)
  | _ => do
    let v ← if attr.head? = some c!"\"" then sliceM attr 1 (attr.length - 1) else .ok attr
    return m.setAttr (b!"positional_" ++ natToStr (idx + 1)) v

/-- One iteration of `process_attributes`. -/
def processOne (m : Meta) (idx : Nat) (attr : Str) : M Meta := do
  match ← keyValues attr with
  | some (k, v) =>
    if k = b!"role" then return { m with roles := m.roles ++ splitOnB c!" " v }
    else return m.setAttr k v
  | none =>
    if idx = 0 ∧ 2 ≤ attr.length then
      let two ← sliceM attr 0 2
      if two = b!"so" ∨ two = b!"qu" ∨ two = b!"ve" then return { m with declared := AttrType.ofStr attr }
      else m.processAttribute idx attr
    else if attr.isEmpty then return m
    else m.processAttribute idx attr

/-- `metadata.rs:173-200`, `process_attributes`, from index `idx`. -/
def processFrom (m : Meta) (idx : Nat) : List Str → M Meta
  | [] => .ok m
  | a :: rest => do
    let m' ← m.processOne idx a
    m'.processFrom (idx + 1) rest

/-- `metadata.rs:173-200`, `process_attributes`. -/
def processAttributes (m : Meta) (l : List Str) : M Meta := m.processFrom 0 l

/-- `metadata.rs:105-126`, `new_inline_meta_from_token`. -/
def inlineFromToken (t : Token) : M Meta := do
  let classes ← sliceM t.lexeme 1 (t.lexeme.length - 1)
  return { roles := (splitOnB c!"." classes).filter (fun s => !s.isEmpty), inlineMeta := true, loc := t.locations }

/-- `metadata.rs:127-145`, `new_block_meta_from_token`. -/
def blockFromToken (t : Token) : M Meta := do
  let m : Meta := { loc := t.locations }
  if t.ty = .blockAnchor then
    let id ← sliceM t.lexeme 2 (t.lexeme.length - 2)
    return m.setAttr b!"id" id
  else
    let l ← sliceM t.lexeme 1 (t.lexeme.length - 1)
    m.processAttributes (extractAttributes l)

/-- `metadata.rs:147-157`, `add_metadata_from_token`. -/
def addFromToken (m : Meta) (t : Token) : M Meta := do
  if t.ty = .blockAnchor then
    let id ← sliceM t.lexeme 2 (t.lexeme.length - 2)
    match m.attributes.get? b!"id" with
    | some _ => return m
    | none => return m.setAttr b!"id" id
  else
    let l ← sliceM t.lexeme 1 (t.lexeme.length - 1)
    m.processAttributes (extractAttributes l)

/-- `metadata.rs:159-171`, `add_metadata_from_other`; the last line of the Rust function extends the roles
with the incoming *options*. -/
def addFromOther (m incoming : Meta) : Meta :=
  { m with
    attributes := incoming.attributes.foldl (fun acc kv => acc.insert kv.1 kv.2) m.attributes
    options := m.options ++ incoming.options
    roles := m.roles ++ incoming.options }

/-- `metadata.rs:235-248`, `simplify_cols`. -/
def simplifyCols (m : Meta) : M Meta :=
  match m.attributes.get? b!"cols" with
  | none => .ok m
  | some v =>
    if v.contains c!"," then .ok (m.setAttr b!"cols" (natToStr (splitOnB c!"," v).length))
    else if v.length = 2 then do
      let t ← sliceM v 1 2
      if t = b!"*" then
        let h ← sliceM v 0 1
        return m.setAttr b!"cols" h
      else return m
    else .ok m

end Meta

/-- Length of the macro prefix that `target_and_attrs_from_token` skips (`utils.rs:36-47`). -/
def macroPrefix : TokenType → Option Nat
  | .blockImageMacro => some 7
  | .inlineImageMacro => some 6
  | .include => some 9
  | _ => none

/-- `utils.rs:35-66`, `target_and_attrs_from_token`. -/
def targetAndAttrs (t : Token) : M (Str × Option Meta) := do
  match macroPrefix t.ty with
  | none => .error (.panic .invalid)
  | some n =>
    let rest ← sliceM t.text n t.text.length
    let target := rest.takeWhile (· != c!"[")
    let attributes ← sliceM rest (target.length + 1) (rest.length - 1)
    if attributes.isEmpty then return (target, none)
    else
      let m ← Meta.processAttributes { inlineMeta := true } (extractAttributes attributes)
      return (target, some m)

/-- `str::split("..")`, as a function of the pieces found so far in the current part (in reverse). -/
def splitDotsF : Nat → Str → Str → List Str
  | 0, cur, _ => [cur.reverse]
  | _ + 1, cur, [] => [cur.reverse]
  | n + 1, cur, b :: bs =>
    if b = c!"." then
      match bs with
      | b' :: rest => if b' = c!"." then cur.reverse :: splitDotsF n [] rest else splitDotsF n (b :: cur) bs
      | [] => splitDotsF n (b :: cur) bs
    else splitDotsF n (b :: cur) bs

/-- `str::split("..")`. -/
def splitDots (s : Str) : List Str := splitDotsF (s.length + 1) [] s

/-- Pieces between `,` and `;`: the matches of `RE_LINE_RANGES` (`utils.rs:10`, `[^,;]*`; the regex iterator
does not report an empty match that ends where the previous match ended). -/
def rangePieces : Str → List Str
  | [] => [[]]
  | b :: bs =>
    if b = c!"," ∨ b = c!";" then [] :: rangePieces bs
    else match rangePieces bs with
      | [] => [[b]]
      | p :: ps => (b :: p) :: ps

/-- The integers `a, a+1, …` up to but not including `b` (`a..b`). -/
def intRange (a b : Int) : List Int := (List.range (b - a).toNat).map fun (i : Nat) => a + (i : Int)

/-- Largest `i32`. -/
def i32Max : Nat := 2147483647

/-- One piece of a range specification (`utils.rs:73-97`); `last` says that no piece follows. -/
def rangePiece (piece : Str) (last : Bool) : M (List Int) :=
  match splitDots piece with
  | [s] => .ok [(parseSigned i32Max s).getD 0]
  | [s, e] =>
    let start := (parseSigned i32Max s).getD 0
    match parseSigned i32Max e with
    | some n =>
      if n = -1 then .ok [start, -1]
      else if n = i32Max then .error (.panic .overflow)
      else .ok (intRange start (n + 1))
    | none => if last then .ok [start, -1] else .ok []
  | s :: _ => .ok [(parseSigned i32Max s).getD 0]
  | [] => .ok []

/-- `utils.rs:69-99`, `extract_page_ranges`, piece by piece. -/
def rangesOf : List Str → M (List Int)
  | [] => .ok []
  | p :: ps => do
    let a ← rangePiece p ps.isEmpty
    let b ← rangesOf ps
    return a ++ b

/-- `utils.rs:69-99`, `extract_page_ranges`. -/
def pageRanges (s : Str) : M (List Int) := rangesOf (rangePieces s)

end Adoc
