import Verif.Model.Json
/-!
# A small Tera (`tera = "1.20"` in `Cargo.toml`, used by `src/backends/htmls.rs`)

`htmls.rs` gives the texts in `templates/htmlbook` and the JSON form of the graph to the template engine Tera, which is not
part of the repository. This file is an engine for the part of the language that the templates use, after Tera's
documentation: it reads template texts and runs them. `Model/Templates.lean` has the texts, `Model/Html.lean` has a
translation of them to functions on graphs, and `Props/Tera.lean` relates the two.

What is taken for granted of Tera:
* `-` at the beginning or end of a tag drops the white space next to it;
* conditions take missing variables, `false`, 0 and empty texts, lists and objects as false; everywhere else a missing
  variable is an error;
* `set` holds for the rest of the macro or of the round of the loop;
* a macro sees its arguments and what it sets; the parameter `sees` says whether it also sees the values that were given to
  the engine (in some versions of Tera it does);
* values are written without escapes, because the names of the templates end in `.tera`;
* filters: `join`, `nth` (an empty text beyond the end), `length`, `int` (0 if the text is no number; the parameter `frac`
  stands for what it makes of a text with a point); function: `range` (an error if the start is greater than the end);
* `%` by zero is an error;
* an error ends the program with a panic (`htmls.rs:27`).

Simplifications: filters bind tighter than operators (no template has both without parentheses); `%`, `+` and `~` group
to the right; lists and objects are not compared and not written (both are errors here).
-/
namespace Adoc.Tera

/-- Values: JSON values from outside, truth values and numbers. -/
inductive Val where
  | data (j : Json)
  | bool (b : Bool)
  | int (n : Int)

/-- Variables with their values, the latest first. -/
abbrev Env := List (Str × Val)

/-! ## Programs -/

/-- Expressions. -/
inductive Ex where
  | str (s : Str)
  | int (n : Nat)
  | bool (b : Bool)
  /-- `a.b.c` -/
  | path (root : Str) (keys : List Str)
  /-- `["a", "b"]` -/
  | strs (l : List Str)
  /-- `e | name` or `e | name(key=arg)` -/
  | filter (e : Ex) (name : Str)
  | filter1 (e : Ex) (name key : Str) (arg : Ex)
  /-- `name(key1=arg1, key2=arg2)` -/
  | fn2 (name key1 : Str) (arg1 : Ex) (key2 : Str) (arg2 : Ex)
  | not (e : Ex)
  /-- an operator between two expressions -/
  | op (o : Str) (a b : Ex)
deriving DecidableEq, Repr

/-- Programs: steps, each with what comes after it. -/
inductive Prog where
  | done
  | text (s : Str) (next : Prog)
  /-- `{{ e }}` -/
  | out (e : Ex) (next : Prog)
  /-- `{{ ns::macro(key=arg, …) }}` -/
  | call (macroName : Str) (args : List (Str × Ex)) (next : Prog)
  /-- `{% set x = e %}` -/
  | set (x : Str) (e : Ex) (next : Prog)
  /-- `{% if e %}a{% else %}b{% endif %}` -/
  | cond (e : Ex) (a b next : Prog)
  /-- `{% for x in e %}body{% endfor %}` -/
  | loop (x : Str) (e : Ex) (body next : Prog)
deriving DecidableEq, Repr

/-- A macro: its name, its parameters and what it does. -/
structure Macro where
  name : Str
  params : List Str
  body : Prog
deriving DecidableEq, Repr

/-- A template: the files it imports with the names it gives them, its macros, and what it does itself. -/
structure Template where
  imports : List (Str × Str)
  macros : List Macro
  body : Prog
deriving DecidableEq, Repr

/-! ## Reading templates -/

/-- A piece of a template: text or a tag, with the kind of the tag and what is between its braces. -/
inductive Seg where
  | text (s : Str)
  | tag (kind : UInt8) (inside : Str)
deriving DecidableEq, Repr

/-- The kinds of tags. -/
def kinds : Str := b!"%{#"

/-- The last byte but one of a tag. -/
def closer (kind : UInt8) : UInt8 := if kind = c!"{" then c!"}" else kind

/-- Cut a text into pieces; `mode` is the kind of the tag that is open and `acc` the current piece, backwards. -/
def cut (mode : Option UInt8) (acc : Str) : Str → List Seg
  | [] => [.text acc.reverse]
  | [a] => [.text (a :: acc).reverse]
  | a :: b :: rest =>
    match mode with
    | none => if a = c!"{" ∧ kinds.contains b then .text acc.reverse :: cut (some b) [] rest else cut none (a :: acc) (b :: rest)
    | some k => if a = closer k ∧ b = c!"}" then .tag k acc.reverse :: cut none [] rest else cut (some k) (a :: acc) (b :: rest)

/-- The tag drops the white space before it. -/
def dropsBefore : Seg → Bool
  | .tag _ inside => inside.head? = some c!"-"
  | _ => false

/-- The tag drops the white space after it. -/
def dropsAfter : Seg → Bool
  | .tag _ inside => inside.getLast? = some c!"-"
  | _ => false

/-- Drop white space next to tags; `after` says that the tag before does so. -/
def tidy (after : Bool) : List Seg → List Seg
  | [] => []
  | .text s :: rest =>
    let s := if after then trimStart s else s
    let s := if (rest.head?.map dropsBefore).getD false then trimEnd s else s
    .text s :: tidy false rest
  | t :: rest => t :: tidy (dropsAfter t) rest

/-- A word, a text in quotes or a symbol. -/
inductive Tok where
  | word (s : Str)
  | quote (s : Str)
  | sym (s : Str)
deriving DecidableEq, Repr

/-- A byte of a word: `a.b`, `ns::name` and numbers are words. -/
def wordByte (b : UInt8) : Bool := isAlnum b || b = c!"_" || b = c!"." || b = c!":"

/-- The word that ends here, if there is one. -/
def flush (acc : Str) : List Tok := if acc.isEmpty then [] else [.word acc.reverse]

/-- The words, texts and symbols of a tag; `q` is the quotation mark that is open. -/
def lex (q : Option UInt8) (acc : Str) : Str → List Tok
  | [] => flush acc
  | b :: rest =>
    match q with
    | some m => if b = m then .quote acc.reverse :: lex none [] rest else lex (some m) (b :: acc) rest
    | none =>
      if wordByte b then lex none (b :: acc) rest
      else if b = c!"\"" ∨ b = c!"'" then flush acc ++ lex (some b) [] rest
      else if b = c!" " ∨ b = c!"\n" ∨ b = c!"-" then flush acc ++ lex none [] rest
      else flush acc ++ .sym [b] :: lex none [] rest

/-- `==` and `!=` are one symbol. -/
def join2 : List Tok → List Tok
  | .sym a :: .sym b :: rest => if b = b!"=" ∧ (a = b!"=" ∨ a = b!"!") then .sym (a ++ b) :: join2 rest
      else .sym a :: join2 (.sym b :: rest)
  | t :: rest => t :: join2 rest
  | [] => []

/-- The value of a word: a truth value, a number or a path. -/
def wordEx (s : Str) : Ex :=
  if s = b!"true" ∨ s = b!"True" then .bool true
  else if s = b!"false" ∨ s = b!"False" then .bool false
  else match parseDigits s with
    | some n => .int n
    | none => match splitOnB c!"." s with
      | root :: keys => .path root keys
      | [] => .path [] []

/-- The texts of a list in brackets. -/
def readStrs : List Tok → Option (List Str × List Tok)
  | .quote s :: .sym y :: rest => if y = b!"," then (readStrs rest).map fun x => (s :: x.1, x.2)
      else if y = b!"]" then some ([s], rest) else none
  | _ => none

mutual
/-- Expressions at a level of binding: 0 `or`, 1 `and`, 2 `not`, 3 comparisons, 4 `~`, 5 `+`, 6 `%`, 7 filters. -/
def readEx : Nat → Nat → List Tok → Option (Ex × List Tok)
  | 0, _, _ => none
  | n + 1, 7, ts => (readAtom n ts).bind fun x => readFilters n x.1 x.2
  | n + 1, 2, .word w :: ts => if w = b!"not" then (readEx n 3 ts).map fun x => (.not x.1, x.2) else readEx n 3 (.word w :: ts)
  | n + 1, 2, ts => readEx n 3 ts
  | n + 1, level, ts => (readEx n (level + 1) ts).bind fun x =>
    match x.2 with
    | .word o :: rest => if level = 0 ∧ o = b!"or" ∨ level = 1 ∧ o = b!"and" ∨ level = 3 ∧ o = b!"in" then
        (readEx n (if level = 3 then 4 else level) rest).map fun y => (.op o x.1 y.1, y.2) else some x
    | .sym o :: rest => if level = 3 ∧ (o = b!"==" ∨ o = b!"!=" ∨ o = b!">") ∨ level = 4 ∧ o = b!"~" ∨ level = 5 ∧ o = b!"+"
          ∨ level = 6 ∧ o = b!"%" then
        (readEx n (if level = 3 then 4 else level) rest).map fun y => (.op o x.1 y.1, y.2) else some x
    | _ => some x
/-- A word, a text, a list, a call of a function or an expression in parentheses. -/
def readAtom : Nat → List Tok → Option (Ex × List Tok)
  | 0, _ => none
  | n + 1, .quote s :: ts => some (.str s, ts)
  | n + 1, .word w :: .sym y :: ts => if y = b!"(" then
      (match ts with
      | .word k1 :: .sym _ :: ts => (readEx n 0 ts).bind fun x =>
        match x.2 with
        | .sym _ :: .word k2 :: .sym _ :: ts => (readEx n 0 ts).bind fun z =>
          match z.2 with
          | .sym _ :: ts => some (.fn2 w k1 x.1 k2 z.1, ts)
          | _ => none
        | _ => none
      | _ => none)
    else some (wordEx w, .sym y :: ts)
  | n + 1, .word w :: ts => some (wordEx w, ts)
  | n + 1, .sym y :: ts => if y = b!"[" then (readStrs ts).map fun x => (.strs x.1, x.2)
    else if y = b!"(" then (readEx n 0 ts).bind fun x =>
      match x.2 with
      | .sym z :: rest => if z = b!")" then some (x.1, rest) else none
      | _ => none
    else none
  | _ + 1, [] => none
/-- The filters after an expression. -/
def readFilters : Nat → Ex → List Tok → Option (Ex × List Tok)
  | 0, _, _ => none
  | n + 1, e, .sym y :: .word f :: ts => if y = b!"|" then
      (match ts with
      | .sym p :: .word k :: .sym _ :: ts => if p = b!"(" then (readEx n 0 ts).bind fun x =>
          match x.2 with
          | .sym _ :: ts => readFilters n (.filter1 e f k x.1) ts
          | _ => none
        else readFilters n (.filter e f) (.sym p :: .word k :: ts)
      | ts => readFilters n (.filter e f) ts)
    else some (e, .sym y :: .word f :: ts)
  | _ + 1, e, ts => some (e, ts)
end

/-- An expression and nothing else. -/
def readWhole (ts : List Tok) : Option Ex :=
  match readEx 40 0 ts with
  | some (e, []) => some e
  | _ => none

/-- The arguments of a call. -/
def readArgs : Nat → List Tok → Option (List (Str × Ex))
  | 0, _ => none
  | n + 1, .word k :: .sym _ :: ts => (readEx 40 0 ts).bind fun x =>
    match x.2 with
    | .sym y :: rest => if y = b!"," then (readArgs n rest).map fun l => (k, x.1) :: l
        else if y = b!")" ∧ rest = [] then some [(k, x.1)] else none
    | _ => none
  | _, _ => none

/-- The parameters of a macro. -/
def readParams : List Tok → List Str
  | .word w :: ts => w :: readParams ts
  | _ :: ts => readParams ts
  | [] => []

/-- A piece of a template, read: text, an output or a command. -/
inductive Item where
  | text (s : Str)
  | out (ts : List Tok)
  | cmd (name : Str) (ts : List Tok)
deriving DecidableEq, Repr

/-- The pieces of a template, without comments and empty texts. -/
def items : List Seg → List Item
  | [] => []
  | .text s :: rest => if s.isEmpty then items rest else .text s :: items rest
  | .tag k inside :: rest =>
    if k = c!"#" then items rest
    else
      let ts := join2 (lex none [] inside)
      if k = c!"{" then .out ts :: items rest
      else match ts with
        | .word w :: ts => .cmd w ts :: items rest
        | _ => items rest

/-- A call of a macro: a name with colons and a parenthesis. -/
def isCall : List Tok → Bool
  | .word w :: .sym y :: _ => containsStr b!"::" w && y = b!"("
  | _ => false

/-- A condition without what comes after it. -/
def noNext : Prog → Prog
  | .cond e a b _ => .cond e a b .done
  | p => p
/-- What comes after a condition. -/
def nextOf : Prog → Prog
  | .cond _ _ _ next => next
  | p => p

mutual
/-- A program up to a command that ends it; the command is the first of the items that are left. -/
def readProg : Nat → List Item → Option (Prog × List Item)
  | 0, _ => none
  | _ + 1, [] => some (.done, [])
  | n + 1, .text s :: is => (readProg n is).map fun x => (.text s x.1, x.2)
  | n + 1, .out ts :: is =>
    if isCall ts then
      match ts with
      | .word w :: _ :: ts => (readArgs 9 ts).bind fun args => (readProg n is).map fun x => (.call w args x.1, x.2)
      | _ => none
    else (readWhole ts).bind fun e => (readProg n is).map fun x => (.out e x.1, x.2)
  | n + 1, .cmd w ts :: is =>
    if w = b!"set" then
      match ts with
      | .word x :: _ :: ts => (readWhole ts).bind fun e => (readProg n is).map fun y => (.set x e y.1, y.2)
      | _ => none
    else if w = b!"if" then readCond n ts is
    else if w = b!"for" then
      match ts with
      | .word x :: _ :: ts => (readWhole ts).bind fun e => (readProg n is).bind fun body =>
        match body.2 with
        | .cmd _ _ :: is => (readProg n is).map fun next => (.loop x e body.1 next.1, next.2)
        | _ => none
      | _ => none
    else if w = b!"import" then readProg n is
    else some (.done, .cmd w ts :: is)
/-- The rest of an `if` or `elif`, when its condition has not been read. -/
def readCond : Nat → List Tok → List Item → Option (Prog × List Item)
  | 0, _, _ => none
  | n + 1, ts, is => (readWhole ts).bind fun e => (readProg n is).bind fun a =>
    match a.2 with
    | .cmd w ts :: is =>
      if w = b!"elif" then (readCond n ts is).bind fun b => some (.cond e a.1 (noNext b.1) (nextOf b.1), b.2)
      else if w = b!"else" then (readProg n is).bind fun b =>
        match b.2 with
        | .cmd _ _ :: is => (readProg n is).map fun next => (.cond e a.1 b.1 next.1, next.2)
        | _ => none
      else (readProg n is).map fun next => (.cond e a.1 .done next.1, next.2)
    | _ => none
end

/-- The imports of a template. -/
def readImports : List Item → List (Str × Str)
  | .cmd w [.quote file, .word _, .word alias] :: is =>
    if w = b!"import" then (alias, file) :: readImports is else readImports is
  | _ :: is => readImports is
  | [] => []

/-- The macros of a template. -/
def readMacros : Nat → List Item → List Macro
  | 0, _ => []
  | _ + 1, [] => []
  | n + 1, .cmd w ts :: is =>
    if w = b!"macro" then
      match ts, readProg (n + 1) is with
      | .word name :: ts, some (body, is) => ⟨name, readParams ts, body⟩ :: readMacros n is
      | _, _ => []
    else readMacros n is
  | n + 1, _ :: is => readMacros n is

/-- A template from its text. -/
def readTemplate (text : Str) : Option Template :=
  let is := items (tidy false (cut none [] text))
  (readProg is.length.succ is).map fun body => ⟨readImports is, readMacros is.length.succ is, body.1⟩

/-! ## Running programs -/

/-- An error. -/
def stop {α : Type} : M α := .error (.panic .unwrap)

/-- The member of an object. -/
def get (k : Str) : Json → Option Json
  | .obj ms => (ms.find? fun m => m.1 = k).map (·.2)
  | _ => none

/-- A member of a member of an object, and so on. -/
def dig : List Str → Json → Option Json
  | [], j => some j
  | k :: ks, j => (get k j).bind (dig ks)

/-- The value of a variable. -/
def var (x : Str) (env : Env) : Option Val := (env.find? fun b => b.1 = x).map (·.2)

/-- The value at a path. -/
def walk (root : Str) (keys : List Str) (env : Env) : Option Val :=
  match var root env with
  | some (.data j) => (dig keys j).map .data
  | some v => if keys.isEmpty then some v else none
  | none => none

/-- A value counts as true. -/
def truthy : Val → Bool
  | .bool b => b
  | .int n => n ≠ 0
  | .data (.num n) => n ≠ 0
  | .data (.str s) => !s.isEmpty
  | .data (.arr l) => !l.isEmpty
  | .data (.obj ms) => !ms.isEmpty

/-- A number as it is written. -/
def intText (n : Int) : Str := if n < 0 then b!"-" ++ natToStr n.natAbs else natToStr n.natAbs

/-- A value as it is written. -/
def show1 : Val → M Str
  | .data (.str s) => .ok s
  | .data (.num n) => .ok (natToStr n)
  | .int n => .ok (intText n)
  | .bool b => .ok (if b then b!"true" else b!"false")
  | _ => stop

/-- A number. -/
def number : Val → Option Int
  | .int n => some n
  | .data (.num n) => some n
  | _ => none

/-- Two values are the same. -/
def same : Val → Val → M Bool
  | .data (.str a), .data (.str b) => .ok (a = b)
  | .bool a, .bool b => .ok (a = b)
  | a, b => match number a, number b with
    | some x, some y => .ok (x = y)
    | none, some _ | some _, none => .ok false
    | none, none => stop

/-- The texts of a list. -/
def texts : List Json → M (List Str)
  | [] => .ok []
  | .str s :: rest => (texts rest).map (s :: ·)
  | _ => stop

/-- Texts with a separator between them. -/
def glue (sep : Str) : List Str → Str
  | [] => []
  | [s] => s
  | s :: ss => s ++ sep ++ glue sep ss

/-- `int` of a text; `frac` is used for texts with a point. -/
def toInt (frac : Str → Int) (s : Str) : Int :=
  match parseSigned 9223372036854775807 (trim s) with
  | some n => n
  | none => if (trim s).contains c!"." then frac (trim s) else 0

/-- A number from zero on. -/
def index (v : Val) : M Nat :=
  match number v with
  | some n => if n < 0 then stop else .ok n.toNat
  | none => stop

/-- Filters without arguments. -/
def filter0 (frac : Str → Int) (name : Str) (v : Val) : M Val :=
  if name = b!"int" then
    match v with
    | .data (.str s) => .ok (.int (toInt frac s))
    | .data (.num n) => .ok (.int n)
    | .int n => .ok (.int n)
    | _ => stop
  else if name = b!"length" then
    match v with
    | .data (.arr l) => .ok (.int l.length)
    | _ => stop
  else stop

/-- Filters with an argument. -/
def filter1 (name key : Str) (v a : Val) : M Val :=
  if name = b!"join" ∧ key = b!"sep" then
    match v, a with
    | .data (.arr l), .data (.str sep) => (texts l).map fun ss => .data (.str (glue sep ss))
    | _, _ => stop
  else if name = b!"nth" ∧ key = b!"n" then
    match v with
    | .data (.arr l) => (index a).map fun n => .data (l[n]?.getD (.str []))
    | _ => stop
  else stop

/-- `range(start=a, end=b)`. -/
def range (a b : Nat) : M Val :=
  if b < a then stop else .ok (.data (.arr ((List.range' a (b - a)).map .num)))

/-- The elements of a list. -/
def elems : Val → M (List Json)
  | .data (.arr l) => .ok l
  | _ => stop

/-- An operator on values. -/
def operate (o : Str) (a b : Val) : M Val :=
  if o = b!"==" then (same a b).map .bool
  else if o = b!"!=" then (same a b).map fun x => .bool (!x)
  else if o = b!"in" then
    match a, b with
    | .data (.str s), .data (.arr l) => (texts l).map fun ss => .bool (ss.contains s)
    | _, _ => stop
  else if o = b!"~" then (show1 a).bind fun x => (show1 b).map fun y => .data (.str (x ++ y))
  else
    match number a, number b with
    | some x, some y =>
      if o = b!"+" then .ok (.int (x + y))
      else if o = b!"%" then if y = 0 then stop else .ok (.int (x.tmod y))
      else if o = b!">" then .ok (.bool (y < x))
      else stop
    | _, _ => stop

variable (frac : Str → Int)

mutual
/-- The value of an expression. -/
def eval (env : Env) : Ex → M Val
  | .str s => .ok (.data (.str s))
  | .int n => .ok (.int n)
  | .bool b => .ok (.bool b)
  | .path r ks => match walk r ks env with
    | some v => .ok v
    | none => stop
  | .strs l => .ok (.data (.arr (l.map .str)))
  | .filter e name => (eval env e).bind (filter0 frac name)
  | .filter1 e name key arg => (eval env e).bind fun v => (eval env arg).bind (filter1 name key v)
  | .fn2 name k1 a k2 b => if name = b!"range" ∧ k1 = b!"start" ∧ k2 = b!"end" then
      (eval env a).bind fun x => (index x).bind fun m => (eval env b).bind fun y => (index y).bind (range m)
    else stop
  | .not e => (holds env e).map fun b => .bool (!b)
  | .op o a b =>
    if o = b!"and" then (holds env a).bind fun x => if x then (holds env b).map .bool else .ok (.bool false)
    else if o = b!"or" then (holds env a).bind fun x => if x then .ok (.bool true) else (holds env b).map .bool
    else (eval env a).bind fun x => (eval env b).bind (operate o x)
/-- A condition: a missing variable is false. -/
def holds (env : Env) : Ex → M Bool
  | .path r ks => match walk r ks env with
    | some v => .ok (truthy v)
    | none => .ok false
  | .not e => (holds env e).map (!·)
  | .op o a b =>
    if o = b!"and" then (holds env a).bind fun x => if x then holds env b else .ok false
    else if o = b!"or" then (holds env a).bind fun x => if x then .ok true else holds env b
    else ((eval env a).bind fun x => (eval env b).bind (operate o x)).map truthy
  | e => (eval env e).map truthy
end

/-- The arguments of a call. -/
def evalArgs (env : Env) : List (Str × Ex) → M Env
  | [] => .ok []
  | (k, e) :: rest => (eval frac env e).bind fun v => (evalArgs env rest).map fun l => (k, v) :: l

/-- Do something for each element of a list. -/
def each (f : Json → M Str) : List Json → M Str
  | [] => .ok []
  | j :: js => (f j).bind fun x => (each f js).map (x ++ ·)

/-- What is written, and then what is written by what comes next with the variables that are left. -/
def andThen (r : M (Str × Env)) (next : Env → M (Str × Env)) : M (Str × Env) :=
  r.bind fun x => (next x.2).map fun y => (x.1 ++ y.1, y.2)

/-- Run a program: what it writes, and the variables after it. `invoke` runs a macro. -/
def exec (invoke : Str → Env → M Str) : Prog → Env → M (Str × Env)
  | .done, env => .ok ([], env)
  | .text s next, env => andThen (.ok (s, env)) (exec invoke next)
  | .out e next, env => andThen (((eval frac env e).bind show1).map fun s => (s, env)) (exec invoke next)
  | .call f args next, env => andThen (((evalArgs frac env args).bind (invoke f)).map fun s => (s, env)) (exec invoke next)
  | .set x e next, env => (eval frac env e).bind fun v => exec invoke next ((x, v) :: env)
  | .cond e a b next, env => (holds frac env e).bind fun c =>
      andThen (if c then exec invoke a env else exec invoke b env) (exec invoke next)
  | .loop x e body next, env => andThen
      (((eval frac env e).bind elems).bind fun l =>
        (each (fun j => (exec invoke body ((x, .data j) :: env)).map (·.1)) l).map fun s => (s, env))
      (exec invoke next)

/-- Templates with their names. -/
abbrev Files := List (Str × Template)

/-- The part of a name before the colons and the part after them. -/
def splitName : Str → Str × Str
  | 58 :: 58 :: rest => ([], rest)
  | b :: rest => (b :: (splitName rest).1, (splitName rest).2)
  | [] => ([], [])

/-- The file that a prefix stands for in a file. -/
def fileOf (files : Files) (file pre : Str) : Option Str :=
  if pre = b!"self" then some file else (files.lookup file).bind fun t => t.imports.lookup pre

/-- Run a macro that is called in a file; `globals` are the values it sees besides its arguments. `fuel` bounds the depth of
calls. -/
def invoke (files : Files) (globals : Env) : Nat → Str → Str → Env → M Str
  | 0, _, _, _ => .error .hang
  | n + 1, file, name, args =>
    match fileOf files file (splitName name).1 with
    | none => stop
    | some file =>
      match (files.lookup file).bind fun t => t.macros.find? fun m => m.name = (splitName name).2 with
      | none => stop
      | some m =>
        if args.map (·.1) = m.params then (exec frac (invoke files globals n file) m.body (args ++ globals)).map (·.1) else stop

/-- Run a template. `sees` says whether macros see the values that are given to it. -/
def run (files : Files) (sees : Bool) (fuel : Nat) (file : Str) (context : Env) : M Str :=
  match files.lookup file with
  | none => stop
  | some t => (exec frac (invoke frac files (if sees then context else []) fuel file) t.body context).map (·.1)

end Adoc.Tera
