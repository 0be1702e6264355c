import Verif.Model.Metadata
/-!
# Inlines (`src/graph/inlines.rs`)

Line references are to `src/graph/inlines.rs`. The constant fields `name` and `node_type` are left out.
-/
namespace Adoc

/-- L493-503. -/
inductive SpanVariant where
  | strong | emphasis | code | mark | superscript | subscript | footnote
deriving DecidableEq, Repr

/-- L505-510. -/
inductive SpanForm where
  | constrained | unconstrained
deriving DecidableEq, Repr

/-- L626-632. -/
inductive RefVariant where
  | link | xref | image
deriving DecidableEq, Repr

/-- L729-735; `Raw` is never constructed. -/
inductive LitName where
  | text | charref
deriving DecidableEq, Repr

/-- L17-25, `Inline`; the fields of `InlineSpan`, `InlineRef`, `InlineLiteral` and `LineBreak`. -/
inductive Inline where
  | span (variant : SpanVariant) (form : SpanForm) (inlines : List Inline) (data : Option Meta)
      (loc : List Location) (opened : Bool)
  | ref (variant : RefVariant) (target : Str) (inlines : List Inline) (data : Option Meta)
      (loc : List Location)
  | lit (name : LitName) (value : Str) (loc : List Location)
  | brk (loc : List Location)
deriving Repr

namespace Inline

/-- L38-52, `PartialEq`: spans by variant and form, the rest by kind. -/
def sameKind : Inline → Inline → Bool
  | .span v f _ _ _ _, .span v' f' _ _ _ _ => v = v' && f = f'
  | .ref .., .ref .. => true
  | .lit .., .lit .. => true
  | .brk _, .brk _ => true
  | _, _ => false

/-- L55-61, `push_inline`. -/
def pushInline (x child : Inline) : M Inline :=
  match x with
  | .span v f is m l o => .ok (.span v f (is ++ [child]) m l o)
  | .ref v t is m l => .ok (.ref v t (is ++ [child]) m l)
  | _ => .error (.panic .invalid)

/-- L62-69, `locations`. -/
def locations : Inline → List Location
  | .span _ _ _ _ l _ => l
  | .ref _ _ _ _ l => l
  | .lit _ _ l => l
  | .brk l => l

/-- L71-86, `reconcile_locations`. -/
def reconcileLocations (x : Inline) (other : List Location) : Inline :=
  match x with
  | .span v f is m l o => .span v f is m (reconcile l other) o
  | .ref v t is m l => .ref v t is m (reconcile l other)
  | .lit n v l => .lit n v (reconcile l other)
  | .brk l => .brk (reconcile l other)

/-- L88-90. -/
def isLiteral : Inline → Bool
  | .lit .. => true
  | _ => false

/-- L92-98, `is_macro`. -/
def isMacro : Inline → Bool
  | .ref v _ _ _ _ => v = .link
  | .span v _ _ _ _ _ => v = .footnote
  | _ => false

/-- L107-112, `is_open`. -/
def isOpen : Inline → Bool
  | .span _ _ _ _ _ o => o
  | _ => false

/-- L115-120, `is_newline`. -/
def isNewline : Inline → Bool
  | .lit _ v _ => v = b!"\n"
  | _ => false

/-- L122-127, `is_footnote`. -/
def isFootnote : Inline → Bool
  | .span v _ _ _ _ _ => v = .footnote
  | _ => false

mutual
/-- L129-148, `extract_values_to_string`. -/
def text : Inline → Str
  | .lit _ v _ => v
  | .span _ _ is _ _ _ => textL is
  | .ref _ _ is _ _ => textL is
  | .brk _ => []
/-- `extract_values_to_string` of a sequence. -/
def textL : List Inline → Str
  | [] => []
  | x :: xs => text x ++ textL xs
end

/-- The markup character of a span (L167-175); `none` is the `todo!()` for footnotes. -/
def variantChar : SpanVariant → Option UInt8
  | .strong => some c!"*"
  | .emphasis => some c!"_"
  | .mark => some c!"#"
  | .code => some c!"`"
  | .superscript => some c!"^"
  | .subscript => some c!"~"
  | .footnote => none

/-- L164-186, `produce_literal_from_self`. -/
def markupLiteral : Inline → M Str
  | .span v f _ _ _ _ =>
    match variantChar v with
    | some c => .ok (if f = .unconstrained then [c, c] else [c])
    | none => .error (.panic .todo)
  | _ => .error (.panic .todo)

/-- L703-708, `prepend_to_value`. -/
def prependToValue (name : LitName) (value : Str) (loc : List Location) (pre : Str) (other : List Location) :
    Inline := .lit name (pre ++ value) (reconcile loc other)

/-- L427-436 and `parser.rs:1298-1304`: prepend text to the first of some inlines, which must be a literal. -/
def prependFirst (pre : Str) (locs : Option (List Location)) : List Inline → M (List Inline)
  | .lit n v l :: rest => .ok (prependToValue n v l pre (locs.getD l) :: rest)
  | _ => .error (.panic .todo)

mutual
/-- L423-440: what `extract_span_inlines` puts in place of one of the inlines. -/
def flatten : Inline → M (List Inline)
  | .span v f is m l true => do
    let pre ← markupLiteral (.span v f is m l true)
    let kids ← spanInlines is
    prependFirst pre none kids
  | x => .ok [x]
/-- L419-443, `extract_span_inlines`, on the inlines of the span. -/
def spanInlines : List Inline → M (List Inline)
  | [] => .ok []
  | x :: rest => do
    let kids ← flatten x
    let more ← spanInlines rest
    return kids ++ more
end

/-- L157-162, `extract_child_inlines`. -/
def childInlines : Inline → M (List Inline)
  | .span _ _ is _ _ _ => spanInlines is
  | _ => .error (.panic .todo)

/-- L385-404, `InlineSpan::add_inline`, the effect on the inlines of the span: descend into an open last span,
merge a literal into a last literal, otherwise append. -/
def addLast : List Inline → Inline → List Inline
  | [], x => [x]
  | [.span v f is m l o], x =>
    if o then [.span v f (addLast is x) m (reconcile l x.locations) o] else [.span v f is m l o, x]
  | [.lit n v l], x =>
    match x with
    | .lit _ v' l' => [.lit n (v ++ v') (reconcile l l')]
    | _ => [.lit n v l, x]
  | y :: ys, x => y :: addLast ys x

/-- L385-404, `InlineSpan::add_inline`; callers have checked that the receiver is a span. -/
def addInline (s x : Inline) : Inline :=
  match s with
  | .span v f is m l o => .span v f (addLast is x) m (reconcile l x.locations) o
  | y => y

/-- L233-238, `add_metadata`. -/
def addMeta (x : Inline) (m : Meta) : M Inline :=
  match x with
  | .span v f is _ l o => .ok (.span v f is (some m) l o)
  | _ => .error (.panic .invalid)

/-- L240-245, `close`. -/
def close (x : Inline) : M Inline :=
  match x with
  | .span v f is m l _ => .ok (.span v f is m l false)
  | _ => .error (.panic .invalid)

/-- L220-231, `consolidate_locations_from_token`. -/
def consolidateFromToken (x : Inline) (t : Token) : M Inline :=
  match x with
  | .span v f is m l o => .ok (.span v f is m (reconcile l t.locations) o)
  | .ref v g is m l => .ok (.ref v g is m (reconcile l t.locations))
  | _ => .error (.panic .todo)

/-- L247-257, `attempt_xref_standardization`. -/
def resolveXref (h : SMap (List Inline)) : Inline → Inline
  | .ref .xref t is m l => .ref .xref t ((h.get? t).getD is) m l
  | x => x

/-- L653-655, `new_text_from_token`. -/
def textFromToken (t : Token) : Inline := .lit .text t.text t.locations
/-- L657-659, `new_charref_from_token`. -/
def charrefFromToken (t : Token) : Inline := .lit .charref t.text t.locations
/-- L662-668, `new_text_from_token_pass`. -/
def passFromToken (t : Token) : Inline := .lit .text t.lexeme t.locations

/-- Variant and form of the span that a token opens (L295-361). -/
def spanKind : TokenType → Option (SpanVariant × SpanForm)
  | .strong => some (.strong, .constrained)
  | .emphasis => some (.emphasis, .constrained)
  | .monospace => some (.code, .constrained)
  | .literal => some (.code, .constrained)
  | .mark => some (.mark, .constrained)
  | .superscript => some (.superscript, .constrained)
  | .subscript => some (.subscript, .constrained)
  | .unconstrainedStrong => some (.strong, .unconstrained)
  | .unconstrainedEmphasis => some (.emphasis, .unconstrained)
  | .unconstrainedMonospace => some (.code, .unconstrained)
  | .unconstrainedLiteral => some (.code, .unconstrained)
  | .unconstrainedMark => some (.mark, .unconstrained)
  | .footnoteMacro => some (.footnote, .constrained)
  | _ => none

/-- L294-383, `inline_span_from_token`. -/
def spanFromToken (t : Token) : M Inline :=
  match spanKind t.ty with
  | some (v, f) => .ok (.span v f [] none t.locations true)
  | none =>
    if t.ty = .codeCallout then do
      let n ← sliceM t.text 1 (t.text.length - 1)
      return .span .strong .constrained [.lit .text (b!"(" ++ n ++ b!")") t.locations]
        (some (Meta.withRole b!"conum")) t.locations true
    else .error (.panic .invalid)

/-- Number of bytes of the last character of a string given in reverse (0 if empty). -/
def lastCharLen : Str → Nat
  | [] => 0
  | b :: bs => if isCont b then 1 + lastCharLen bs else 1

/-- `String::pop`: drop the last character. -/
def popChar (s : Str) : Str := s.take (s.length - lastCharLen s.reverse)

/-- L561-564, `new_xref_from_token`. -/
def xrefFromToken (t : Token) : M Inline := do
  let target ← sliceM t.text 2 (t.text.length - 2)
  return .ref .xref target [] none t.locations

/-- L566-570, `new_link_from_macro_token`. -/
def linkFromMacroToken (t : Token) : Inline := .ref .link (popChar t.text) [] none t.locations
/-- L572-575, `new_link_from_token`. -/
def linkFromToken (t : Token) : Inline := .ref .link t.text [] none t.locations
/-- L577-595, `new_inline_image`. -/
def imageRef (target : Str) (m : Option Meta) (loc : List Location) : Inline := .ref .image target [] m loc

/-- L681-687, `InlineLiteral::text_from_token`, with the text to be added given. -/
def litAdd (name : LitName) (value : Str) (loc : List Location) (add : Str) (t : Token) : Inline :=
  .lit name (value ++ add) (reconcile loc t.locations)

/-- L609-623, `InlineRef::text_from_token`, on the inlines of the reference. A span and an empty reference take
the *lexeme* of the token whatever `pass` says. -/
def refAddText (is : List Inline) (t : Token) (pass : Bool) : M (List Inline) :=
  match is with
  | [] => .ok [passFromToken t]
  | [.span v f js m l o] => .ok [addInline (.span v f js m l o) (passFromToken t)]
  | [.lit n v l] => .ok [litAdd n v l (if pass then t.lexeme else t.text) t]
  | [_] => .error (.panic .invalid)
  | y :: ys => do
    let r ← refAddText ys t pass
    return y :: r

/-- L406-415, `new_footnote_ref` of `InlineSpan`. -/
def footnoteRefSpan (r : Inline) : Inline :=
  .span .superscript .constrained [r] (some (Meta.withRole b!"footnote")) r.locations true

/-- L538-559, `new_footnote_ref` of `InlineRef`. -/
def footnoteRef (target : Str) (id : Option Str) (numbering : Inline) (loc : List Location) : Inline :=
  .ref .xref target [numbering] (id.map Meta.inlineWithId) loc

/-- L449-490, `deconstruct_footnote` of a footnote with inlines `is` at `loc`: definition id, replacement,
contents of the definition. -/
def deconstructFootnote (is : List Inline) (loc : List Location) (count : Nat) (docId : Str) :
    Str × Inline × List Inline :=
  let defId := docId ++ b!"_footnotedef_" ++ natToStr count
  let refId := docId ++ b!"_footnoteref_" ++ natToStr count
  let numbering := Inline.lit .text (natToStr count) loc
  (defId, footnoteRefSpan (footnoteRef defId (some refId) numbering loc),
    footnoteRef refId none numbering loc :: is)

end Inline
end Adoc
