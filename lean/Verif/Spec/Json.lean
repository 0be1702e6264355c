import Verif.Model.Json
/-!
# Reading JSON

A reader for JSON texts after RFC 8259, for values without negative numbers, fractions, exponents, `true`, `false`, `null`
and surrogate pairs. It knows nothing of how the text was written: white space may be anywhere between the tokens, and all
escapes are understood.
-/
namespace Adoc.Spec.JsonText
open Adoc

/-- White space in JSON. -/
def isWs (b : UInt8) : Bool := b = 0x20 || b = 0x09 || b = 0x0A || b = 0x0D

/-- Skip white space. -/
def skip : Str → Str
  | [] => []
  | b :: r => if isWs b then skip r else b :: r

/-- The value of a hexadecimal digit. -/
def hexValue (b : UInt8) : Option Nat :=
  if 0x30 ≤ b && b ≤ 0x39 then some (b.toNat - 48)
  else if 0x61 ≤ b && b ≤ 0x66 then some (b.toNat - 87)
  else if 0x41 ≤ b && b ≤ 0x46 then some (b.toNat - 55)
  else none

/-- The number of four hexadecimal digits. -/
def hex4 (a b c d : UInt8) : Option Nat := do
  let a ← hexValue a
  let b ← hexValue b
  let c ← hexValue c
  let d ← hexValue d
  return ((a * 16 + b) * 16 + c) * 16 + d

/-- UTF-8 of a character up to U+FFFF that is not a surrogate. -/
def utf8 (n : Nat) : Option Str :=
  if n < 0x80 then some [UInt8.ofNat n]
  else if n < 0x800 then some [UInt8.ofNat (0xC0 + n / 64), UInt8.ofNat (0x80 + n % 64)]
  else if 0xD800 ≤ n ∧ n < 0xE000 then none
  else some [UInt8.ofNat (0xE0 + n / 4096), UInt8.ofNat (0x80 + n / 64 % 64), UInt8.ofNat (0x80 + n % 64)]

/-- What a one-letter escape stands for. -/
def short (b : UInt8) : Option UInt8 :=
  if b = c!"\"" || b = c!"\\" || b = c!"/" then some b
  else if b = c!"b" then some 0x08
  else if b = c!"f" then some 0x0C
  else if b = c!"n" then some 0x0A
  else if b = c!"r" then some 0x0D
  else if b = c!"t" then some 0x09
  else none

/-- The rest of a string after the opening quote: what it stands for, and what follows. -/
def readStr : Str → Option (Str × Str)
  | [] => none
  | 0x22 :: r => some ([], r)
  | 0x5C :: 0x75 :: a :: b :: c :: d :: r => do
    let u ← utf8 (← hex4 a b c d)
    let (s, r) ← readStr r
    return (u ++ s, r)
  | 0x5C :: e :: r => do
    let x ← short e
    let (s, r) ← readStr r
    return (x :: s, r)
  | b :: r => if b < 0x20 || b = 0x5C then none else do
    let (s, r) ← readStr r
    return (b :: s, r)

/-- More digits of a number. -/
def readDigits (n : Nat) : Str → Nat × Str
  | [] => (n, [])
  | b :: r => if 0x30 ≤ b && b ≤ 0x39 then readDigits (n * 10 + (b.toNat - 48)) r else (n, b :: r)

/-- The key of a member, with the colon. -/
def readKey (s : Str) : Option (Str × Str) :=
  match skip s with
  | [] => none
  | q :: r =>
    if q = c!"\"" then match readStr r with
      | none => none
      | some (k, r) => match skip r with
        | [] => none
        | d :: r => if d = c!":" then some (k, r) else none
    else none

mutual
/-- A value and what follows, with at most `fuel` steps. -/
def readValue : Nat → Str → Option (Json × Str)
  | 0, _ => none
  | fuel + 1, s => match skip s with
    | [] => none
    | b :: r =>
      if b = c!"\"" then (readStr r).map fun (x, r) => (.str x, r)
      else if b = c!"[" then match skip r with
        | [] => none
        | d :: r' => if d = c!"]" then some (.arr [], r') else (readElems fuel (d :: r')).map fun (x, r) => (.arr x, r)
      else if b = c!"{" then match skip r with
        | [] => none
        | d :: r' => if d = c!"}" then some (.obj [], r') else (readMembers fuel (d :: r')).map fun (x, r) => (.obj x, r)
      else if b = c!"0" then some (.num 0, r)
      else if 0x31 ≤ b && b ≤ 0x39 then some (.num (readDigits 0 (b :: r)).1, (readDigits 0 (b :: r)).2)
      else none
/-- One or more elements up to the closing bracket. -/
def readElems : Nat → Str → Option (List Json × Str)
  | 0, _ => none
  | fuel + 1, s => match readValue fuel s with
    | none => none
    | some (x, r) => match skip r with
      | [] => none
      | d :: r =>
        if d = c!"]" then some ([x], r)
        else if d = c!"," then (readElems fuel r).map fun (xs, r) => (x :: xs, r)
        else none
/-- One or more members up to the closing brace. -/
def readMembers : Nat → Str → Option (List (Str × Json) × Str)
  | 0, _ => none
  | fuel + 1, s => match readKey s with
    | none => none
    | some (k, r) => match readValue fuel r with
      | none => none
      | some (x, r) => match skip r with
        | [] => none
        | d :: r =>
          if d = c!"}" then some ([(k, x)], r)
          else if d = c!"," then (readMembers fuel r).map fun (xs, r) => ((k, x) :: xs, r)
          else none
end

/-- The value of a JSON text. -/
def readText (s : Str) : Option Json := do
  let (x, r) ← readValue (s.length + 1) s
  if skip r = [] then some x else none

example : (match readText b!" {\"a\" :[1,\"\\u00e4\\n\\/\"] } " with
    | some (.obj [(k, .arr [.num 1, .str s])]) => k = b!"a" && s = b!"ä\n/"
    | _ => false) = true := by decide +kernel

example : (readText b!"[1,]").isNone = true ∧ (readText b!"[01]").isNone = true ∧ (readText b!"{\"a\" 1}").isNone = true
    ∧ (readText b!"\"a\nb\"").isNone = true ∧ (readText b!"[1] 2").isNone = true := by decide +kernel

end Adoc.Spec.JsonText

namespace Adoc.Spec
open Adoc

/-! ## What the JSON output shows of a graph -/

/-- Metadata as shown: the attributes in the order of iteration, without the flags. -/
def shownMeta (ord : SMap Str → SMap Str) (m : Meta) : Meta :=
  { m with attributes := ord m.attributes, inlineMeta := false, declared := none }

mutual
/-- An inline as shown: not whether a span was left open. -/
def shownInline (ord : SMap Str → SMap Str) : Inline → Inline
  | .span v f is m l _ => .span v f (shownInlines ord is) (m.map (shownMeta ord)) l false
  | .ref v t is m l => .ref v t (shownInlines ord is) (m.map (shownMeta ord)) l
  | .lit n v l => .lit n v l
  | .brk l => .brk l
/-- Inlines as shown. -/
def shownInlines (ord : SMap Str → SMap Str) : List Inline → List Inline
  | [] => []
  | x :: xs => shownInline ord x :: shownInlines ord xs
end

mutual
/-- A block as shown. -/
def shownBlock (ord : SMap Str → SMap Str) : Block → Block
  | .section t m v bs l => .section (shownInlines ord t) (m.map (shownMeta ord)) v (shownBlocks ord bs) l
  | .list v bs m l => .list v (shownBlocks ord bs) (m.map (shownMeta ord)) l
  | .listItem k p bs m l => .listItem k (shownInlines ord p) (shownBlocks ord bs) (m.map (shownMeta ord)) l
  | .dlist bs m l => .dlist (shownBlocks ord bs) (m.map (shownMeta ord)) l
  | .dlistItem t p bs m l =>
    .dlistItem (shownInlines ord t) (shownInlines ord p) (shownBlocks ord bs) (m.map (shownMeta ord)) l
  | .brk v l => .brk v l
  | .image t c m l => .image t (shownInlines ord c) (m.map (shownMeta ord)) l
  | .leaf n f d is m l => .leaf n f d (shownInlines ord is) (m.map (shownMeta ord)) l
  | .parent n v d bs t m l => .parent n v d (shownBlocks ord bs) (shownInlines ord t) (m.map (shownMeta ord)) l
  | .tableCell is m l => .tableCell (shownInlines ord is) (m.map (shownMeta ord)) l
/-- Blocks as shown. -/
def shownBlocks (ord : SMap Str → SMap Str) : List Block → List Block
  | [] => []
  | b :: bs => shownBlock ord b :: shownBlocks ord bs
end

/-- A header as shown. -/
def shownHeader (ord : SMap Str → SMap Str) (h : Header) : Header := { h with title := shownInlines ord h.title }

/-- A graph as shown: without the document id and the table of ids. -/
def shown (ord : SMap Str → SMap Str) (g : Asg) : Asg where
  attributes := g.attributes.map ord
  header := g.header.map (shownHeader ord)
  documentId := []
  idHash := []
  blocks := shownBlocks ord g.blocks
  loc := g.loc

/-! ## Values that differ only in the order of members -/

mutual
/-- The values are the same, except for the order of members. -/
inductive Same : Json → Json → Prop where
  | num (n : Nat) : Same (.num n) (.num n)
  | str (s : Str) : Same (.str s) (.str s)
  | arr {xs ys : List Json} (h : SameL xs ys) : Same (.arr xs) (.arr ys)
  | obj {xs ys zs : List (Str × Json)} (h : SameM xs ys) (p : ys.Perm zs) : Same (.obj xs) (.obj zs)
/-- The same for elements. -/
inductive SameL : List Json → List Json → Prop where
  | nil : SameL [] []
  | cons {x y : Json} {xs ys : List Json} (h : Same x y) (t : SameL xs ys) : SameL (x :: xs) (y :: ys)
/-- The same for members. -/
inductive SameM : List (Str × Json) → List (Str × Json) → Prop where
  | nil : SameM [] []
  | cons (k : Str) {x y : Json} {xs ys : List (Str × Json)} (h : Same x y) (t : SameM xs ys) :
      SameM ((k, x) :: xs) ((k, y) :: ys)
end

/-- A map that has only one order. -/
def smallMap (m : SMap Str) : Bool := m.length ≤ 1

/-- No attributes, or one. -/
def smallMeta : Option Meta → Bool
  | none => true
  | some m => smallMap m.attributes

mutual
/-- No two attributes in the inline. -/
def smallInline : Inline → Bool
  | .span _ _ is m _ _ => smallInlines is && smallMeta m
  | .ref _ _ is m _ => smallInlines is && smallMeta m
  | .lit _ _ _ => true
  | .brk _ => true
/-- No two attributes in the inlines. -/
def smallInlines : List Inline → Bool
  | [] => true
  | x :: xs => smallInline x && smallInlines xs
end

mutual
/-- No two attributes in the block. -/
def smallBlock : Block → Bool
  | .section t m _ bs _ => smallInlines t && smallMeta m && smallBlocks bs
  | .list _ bs m _ => smallMeta m && smallBlocks bs
  | .listItem _ p bs m _ => smallInlines p && smallMeta m && smallBlocks bs
  | .dlist bs m _ => smallMeta m && smallBlocks bs
  | .dlistItem t p bs m _ => smallInlines t && smallInlines p && smallMeta m && smallBlocks bs
  | .brk _ _ => true
  | .image _ c m _ => smallInlines c && smallMeta m
  | .leaf _ _ _ is m _ => smallInlines is && smallMeta m
  | .parent _ _ _ bs t m _ => smallInlines t && smallMeta m && smallBlocks bs
  | .tableCell is m _ => smallInlines is && smallMeta m
/-- No two attributes in the blocks. -/
def smallBlocks : List Block → Bool
  | [] => true
  | b :: bs => smallBlock b && smallBlocks bs
end

/-- No block, inline or document has two attributes. -/
def small (g : Asg) : Bool :=
  (match g.attributes with
    | none => true
    | some m => smallMap m)
  && (match g.header with
    | none => true
    | some h => smallInlines h.title)
  && smallBlocks g.blocks

/-! ## Names of members -/

/-- No text is in the list twice. -/
def distinct : List Str → Bool
  | [] => true
  | k :: ks => !ks.contains k && distinct ks

mutual
/-- No object in a value has two members with the same name. -/
def once : Json → Bool
  | .num _ => true
  | .str _ => true
  | .arr xs => onceL xs
  | .obj ms => distinct (ms.map (·.1)) && onceM ms
/-- The same for some values. -/
def onceL : List Json → Bool
  | [] => true
  | x :: xs => once x && onceL xs
/-- The same for the values of members. -/
def onceM : List (Str × Json) → Bool
  | [] => true
  | m :: ms => once m.2 && onceM ms
end

/-! ## Nodes in the JSON output -/

/-- The keys whose values are lists of nodes. -/
def childKeys : List Str :=
  [b!"blocks", b!"items", b!"inlines", b!"title", b!"principal", b!"terms", b!"caption"]

/-- A member of an object. -/
def member (k : Str) (ms : List (Str × Json)) : Option Json := (ms.find? fun m => m.1 = k).map (·.2)

/-- A position in a file. -/
def isPosition : Json → Bool
  | .obj ms => (match member b!"line" ms, member b!"col" ms with
    | some (.num _), some (.num _) => true
    | _, _ => false)
  | _ => false

/-- The object has a name, a type (`block`, `inline` or `string`) and a list of positions. -/
def isNode (ms : List (Str × Json)) : Bool :=
  (match member b!"name" ms with
    | some (.str _) => true
    | _ => false)
  && (match member b!"type" ms with
    | some (.str t) => t = b!"block" || t = b!"inline" || t = b!"string"
    | _ => false)
  && (match member b!"location" ms with
    | some (.arr ps) => ps.all isPosition
    | _ => false)

mutual
/-- The value is a node, and so are all nodes in it. -/
def allNodes : Json → Bool
  | .obj ms => isNode ms && allNodesM ms
  | _ => false
/-- The values are nodes. -/
def allNodesL : List Json → Bool
  | [] => true
  | x :: xs => allNodes x && allNodesL xs
/-- The members with nodes have nodes. -/
def allNodesM : List (Str × Json) → Bool
  | [] => true
  | (k, .arr xs) :: ms => (!childKeys.contains k || allNodesL xs) && allNodesM ms
  | (k, .obj hs) :: ms => (k != b!"header" || allNodesM hs) && allNodesM ms
  | _ :: ms => allNodesM ms
end

mutual
/-- There is no table cell in the block. -/
def cellFree : Block → Bool
  | .section _ _ _ bs _ => cellFreeL bs
  | .list _ bs _ _ => cellFreeL bs
  | .listItem _ _ bs _ _ => cellFreeL bs
  | .dlist bs _ _ => cellFreeL bs
  | .dlistItem _ _ bs _ _ => cellFreeL bs
  | .brk _ _ => true
  | .image _ _ _ _ => true
  | .leaf _ _ _ _ _ _ => true
  | .parent _ _ _ bs _ _ _ => cellFreeL bs
  | .tableCell _ _ _ => false
/-- There is no table cell in the blocks. -/
def cellFreeL : List Block → Bool
  | [] => true
  | b :: bs => cellFree b && cellFreeL bs
end

end Adoc.Spec
