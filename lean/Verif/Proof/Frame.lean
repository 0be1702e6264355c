import Verif.Proof.ParserInv
/-!
# A graph that has more in it

The handlers look at the graph only when they put something into it. One pass over them: with another graph they do the same,
if putting something into that graph is the same as putting it into the first one.
-/
namespace Adoc.Parser.Framing
open Block (liftB)

set_option linter.unusedSectionVars false

/-- Putting something into a graph, and making the graph another one, may be done in either order. -/
class Frame (φ : Asg → Asg) : Prop where
  push : ∀ g b, (φ g).pushBlock b = (g.pushBlock b).map φ
  header : ∀ g h a, (φ g).addHeader h a = φ (g.addHeader h a)

/-- The parser with another graph. -/
def fr (φ : Asg → Asg) (p : Parser) : Parser := { p with asg := φ p.asg }

/-- The second outcome is that of the first, with another graph. -/
def Same (φ : Asg → Asg) (x y : M Parser) : Prop := y = x.map (fr φ)

variable {φ : Asg → Asg}

theorem Same.rfl' {p : Parser} : Same φ (.ok p) (.ok (fr φ p)) := rfl

theorem Same.error (e : Fail) : Same φ (.error e) (.error e) := rfl

theorem Same.bind {x y : M Parser} {f g : Parser → M Parser} (h : Same φ x y) (hf : ∀ q, Same φ (f q) (g (fr φ q))) :
    Same φ (x >>= f) (y >>= g) := by
  unfold Same at h; subst h
  cases x with
  | error e => rfl
  | ok q => exact hf q

theorem Same.use {α : Type} {f g : α → M Parser} (x : M α) (hf : ∀ a, Same φ (f a) (g a)) : Same φ (x >>= f) (x >>= g) := by
  cases x with
  | error e => rfl
  | ok a => exact hf a

theorem Same.ite {c : Prop} [Decidable c] {x y x' y' : M Parser} (h1 : Same φ x x') (h2 : Same φ y y') :
    Same φ (if c then x else y) (if c then x' else y') := by
  by_cases h : c
  · rw [if_pos h, if_pos h]; exact h1
  · rw [if_neg h, if_neg h]; exact h2

set_option hygiene false in
/-- Take a parser apart. -/
local macro "des " p:ident : tactic =>
  `(tactic| obtain ⟨lastTy, header, attrs, blocks, inlines, files, title, data, openLines, openText, offset, inBlockLine,
    inSpan, inCont, forceNew, preserveNl, closeParent, dangling, resolveTargets, asg⟩ := $p)

variable [Frame φ]

theorem fr_graphPush (p : Parser) (x : Block) : Same φ (p.graphPush x) ((fr φ p).graphPush x) := by
  unfold graphPush
  show Same φ _ (match (φ p.asg).pushBlock x with | .ok g => _ | .error e => _)
  rw [Frame.push]
  cases p.asg.pushBlock x <;> rfl

theorem fr_addText (p : Parser) (t : Token) (pass : Bool) : Same φ (p.addText t pass) ((fr φ p).addText t pass) := by
  des p
  unfold addText
  dsimp only [fr]
  cases inlines with
  | nil => rfl
  | cons i rest =>
    cases i with
    | span v f is m l o => exact .ite rfl rfl
    | lit n v l => exact .ite rfl rfl
    | brk l => rfl
    | ref v g is m l => exact .ite rfl (.use _ fun _ => rfl)

theorem fr_danglingSpans (p : Parser) : Same φ p.danglingSpans (fr φ p).danglingSpans := by
  des p
  unfold danglingSpans
  dsimp only [fr]
  cases splitFirst Inline.isOpen inlines with
  | none => rfl
  | some x =>
    obtain ⟨above, span, below⟩ := x
    refine .use _ fun pre => .use _ fun kids => ?_
    cases kids with
    | nil => exact fr_addText ⟨_, _, _, _, _, _, _, _, _, _, _, _, _, _, _, _, _, _, _, _⟩ _ _
    | cons i is => exact .use _ fun _ => rfl

theorem fr_pushToStack (p : Parser) (x : Block) : Same φ (p.pushToStack x) ((fr φ p).pushToStack x) := by
  des p
  unfold pushToStack
  dsimp only [fr]
  refine .ite ?_ ?_
  · cases blocks with
    | nil => rfl
    | cons l r => exact .use _ fun _ => rfl
  · cases data with
    | none => rfl
    | some m => exact .use _ fun _ => rfl

theorem fr_newParagraph (p : Parser) : Same φ p.newParagraph (fr φ p).newParagraph := by
  des p
  unfold newParagraph
  dsimp only [fr]
  generalize inlines.reverse = is
  refine .ite ?_ ?_
  · cases blocks with
    | nil => rfl
    | cons l r => exact .use _ fun _ => rfl
  · cases data with
    | none => exact fr_pushToStack ⟨_, _, _, _, _, _, _, _, _, _, _, _, _, _, _, _, _, _, _, _⟩ _
    | some m =>
      dsimp only
      have pick : ∀ (loc : List Location) (F G : Location → M Parser), (∀ l, Same φ (F l) (G l)) →
          Same φ (match loc with | [] => .error (.panic .unwrap) | l0 :: _ => F l0) (match loc with | [] => .error (.panic .unwrap) | l0 :: _ => G l0) := by
        intro loc F G h
        cases loc with
        | nil => rfl
        | cons l ls => exact h l
      refine pick _ _ _ fun l0 => ?_
      · refine .ite (.use _ fun q => ?_) ?_ <;>
        exact fr_pushToStack ⟨_, _, _, _, _, _, _, _, _, _, _, _, _, _, _, _, _, _, _, _⟩ _

theorem fr_addInlines (p : Parser) : Same φ p.addInlines (fr φ p).addInlines := by
  unfold addInlines
  refine .ite rfl (.bind (.ite (fr_danglingSpans p) rfl) fun q => ?_)
  des q
  dsimp only [fr]
  cases header with
  | some h => rfl
  | none =>
    cases blocks with
    | nil => exact fr_newParagraph ⟨_, _, _, _, _, _, _, _, _, _, _, _, _, _, _, _, _, _, _, _⟩
    | cons l r =>
      refine .ite (.use _ fun _ => rfl) ?_
      exact fr_newParagraph ⟨_, _, _, _, _, _, _, _, _, _, _, _, _, _, _, _, _, _, _, _⟩

theorem fr_addLastItem (p : Parser) : Same φ p.addLastItem (fr φ p).addLastItem := by
  unfold addLastItem
  refine .bind (fr_addInlines { p with forceNew := false }) fun q => ?_
  des q
  dsimp only [fr]
  cases blocks with
  | nil => rfl
  | cons item rest =>
    refine .ite ?_ ?_
    · cases rest with
      | nil => rfl
      | cons l r => exact .use _ fun _ => rfl
    · exact fr_pushToStack ⟨_, _, _, _, _, _, _, _, _, _, _, _, _, _, _, _, _, _, _, _⟩ _

theorem fr_addToStackOrGraph (p : Parser) (x : Block) : Same φ (p.addToStackOrGraph x) ((fr φ p).addToStackOrGraph x) := by
  des p
  unfold addToStackOrGraph
  dsimp only [fr]
  have hg : Same φ (match data with
      | some m => (x.addMeta m >>= fun b' => graphPush ⟨lastTy, header, attrs, blocks, inlines, files, title, none, openLines, openText, offset, inBlockLine, inSpan, inCont, forceNew, preserveNl, closeParent, dangling, resolveTargets, asg⟩ b' : M Parser)
      | none => graphPush ⟨lastTy, header, attrs, blocks, inlines, files, title, data, openLines, openText, offset, inBlockLine, inSpan, inCont, forceNew, preserveNl, closeParent, dangling, resolveTargets, asg⟩ x)
    (match data with
      | some m => (x.addMeta m >>= fun b' => graphPush ⟨lastTy, header, attrs, blocks, inlines, files, title, none, openLines, openText, offset, inBlockLine, inSpan, inCont, forceNew, preserveNl, closeParent, dangling, resolveTargets, φ asg⟩ b' : M Parser)
      | none => graphPush ⟨lastTy, header, attrs, blocks, inlines, files, title, data, openLines, openText, offset, inBlockLine, inSpan, inCont, forceNew, preserveNl, closeParent, dangling, resolveTargets, φ asg⟩ x) := by
    cases data with
    | none => exact fr_graphPush ⟨_, _, _, _, _, _, _, _, _, _, _, _, _, _, _, _, _, _, _, _⟩ _
    | some m => exact .use _ fun _ => fr_graphPush ⟨_, _, _, _, _, _, _, _, _, _, _, _, _, _, _, _, _, _, _, _⟩ _
  cases blocks with
  | nil => exact hg
  | cons l r => exact .ite (.use _ fun _ => rfl) hg

theorem fr_addLastToStackOrGraph (p : Parser) : Same φ p.addLastToStackOrGraph (fr φ p).addLastToStackOrGraph := by
  des p
  unfold addLastToStackOrGraph
  dsimp only [fr]
  cases blocks with
  | nil => rfl
  | cons x r =>
    cases r with
    | nil => exact fr_graphPush ⟨_, _, _, _, _, _, _, _, _, _, _, _, _, _, _, _, _, _, _, _⟩ _
    | cons y r => exact .ite (.use _ fun _ => rfl) (fr_graphPush ⟨_, _, _, _, _, _, _, _, _, _, _, _, _, _, _, _, _, _, _, _⟩ _)

theorem fr_addLastToGraph (p : Parser) : Same φ p.addLastToGraph (fr φ p).addLastToGraph := by
  des p
  unfold addLastToGraph
  dsimp only [fr]
  cases blocks with
  | nil => rfl
  | cons x r =>
    refine .use _ fun x' => ?_
    cases r with
    | nil => exact fr_graphPush ⟨_, _, _, _, _, _, _, _, _, _, _, _, _, _, _, _, _, _, _, _⟩ _
    | cons y r => exact .ite (.use _ fun _ => rfl) (fr_graphPush ⟨_, _, _, _, _, _, _, _, _, _, _, _, _, _, _, _, _, _, _, _⟩ _)

theorem fr_drain (n : Nat) : ∀ (m : Nat) (p : Parser), Same φ (drain n m p) (drain n m (fr φ p))
  | 0, p => rfl
  | m + 1, p => .ite (.bind (fr_addLastToGraph p) fun q => fr_drain n m q) rfl

theorem fr_moveHeader (p : Parser) : Same φ p.moveHeader (fr φ p).moveHeader := by
  unfold moveHeader
  refine .bind (fr_addInlines p) fun q => ?_
  des q
  dsimp only [fr]
  cases header with
  | none => rfl
  | some h =>
    refine .ite rfl ?_
    rw [Frame.header]
    rfl

theorem fr_levelOffset (p : Parser) (v : Str) : Same φ (p.levelOffset v) ((fr φ p).levelOffset v) := by
  unfold levelOffset
  cases parseUnsigned 18446744073709551615 v with
  | some n => rfl
  | none =>
    dsimp only
    cases parseSigned 127 v with
    | none => rfl
    | some d => exact .ite rfl rfl

theorem fr_parseAttribute (p : Parser) (t : Token) : Same φ (p.parseAttribute t) ((fr φ p).parseAttribute t) := by
  unfold parseAttribute
  cases splitTerminatorB c!":" t.text with
  | nil => rfl
  | cons x r =>
    cases r with
    | nil => rfl
    | cons y r => exact .ite (fr_levelOffset p _) rfl

theorem fr_parseBlockMeta (p : Parser) (t : Token) : Same φ (p.parseBlockMeta t) ((fr φ p).parseBlockMeta t) :=
  .use _ fun _ => rfl

theorem fr_parseInlineMeta (p : Parser) (t : Token) : Same φ (p.parseInlineMeta t) ((fr φ p).parseInlineMeta t) :=
  .use _ fun _ => rfl

theorem fr_blankLine (p : Parser) : Same φ p.blankLine (fr φ p).blankLine := by
  unfold blankLine
  des p
  dsimp only [fr]
  cases header with
  | some h => exact fr_moveHeader ⟨_, _, _, _, _, _, _, _, _, _, _, _, _, _, _, _, _, _, _, _⟩
  | none =>
    dsimp only
    refine .bind ?_ fun q => .bind (fr_addInlines { q with inSpan := false }) fun q => ?_
    · cases blocks with
      | nil => rfl
      | cons x r => exact .ite (fr_addLastItem ⟨_, _, _, _, _, _, _, _, _, _, _, _, _, _, _, _, _, _, _, _⟩) rfl
    · des q
      dsimp only [fr]
      cases blocks with
      | nil => rfl
      | cons x r =>
        refine .ite (.bind (fr_addToStackOrGraph ⟨_, _, _, _, _, _, _, _, _, _, _, _, _, _, _, _, _, _, _, _⟩ _) fun q => ?_)
          (fr_pushToStack ⟨_, _, _, _, _, _, _, _, _, _, _, _, _, _, _, _, _, _, _, _⟩ _)
        exact .ite (.bind (fr_addLastToStackOrGraph q) fun _ => rfl) rfl

theorem fr_parseNewLine (p : Parser) (t : Token) : Same φ (p.parseNewLine t) ((fr φ p).parseNewLine t) := by
  unfold parseNewLine
  des p
  dsimp only [fr]
  cases title <;>
  exact .ite (fr_blankLine ⟨_, _, _, _, _, _, _, _, _, _, _, _, _, _, _, _, _, _, _, _⟩) (.ite rfl rfl)

theorem fr_parseDlistTerm (p : Parser) (t : Token) : Same φ (p.parseDlistTerm t) ((fr φ p).parseDlistTerm t) := by
  unfold parseDlistTerm
  refine .bind (x := match splitFirst Inline.isNewline p.inlines.reverse with
    | some (before, _, after) => do
      let p ← addInlines { p with forceNew := false, inlines := before.reverse }
      .ok { p with inlines := after.reverse ++ p.inlines }
    | none => .ok { p with forceNew := false }) ?_ fun q => ?_
  · show Same φ _ (match splitFirst Inline.isNewline p.inlines.reverse with | some (before, _, after) => _ | none => _)
    cases splitFirst Inline.isNewline p.inlines.reverse with
    | none => rfl
    | some x =>
      obtain ⟨x, y, z⟩ := x
      exact .bind (fr_addInlines { p with forceNew := false, inlines := x.reverse }) fun q => rfl
  · des q
    dsimp only [fr]
    refine .bind ?_ fun q => .bind (fr_pushToStack q _) fun _ => rfl
    cases blocks with
    | nil => exact fr_pushToStack ⟨_, _, _, _, _, _, _, _, _, _, _, _, _, _, _, _, _, _, _, _⟩ _
    | cons x r => exact .ite (fr_addLastItem ⟨_, _, _, _, _, _, _, _, _, _, _, _, _, _, _, _, _, _, _, _⟩) (fr_pushToStack ⟨_, _, _, _, _, _, _, _, _, _, _, _, _, _, _, _, _, _, _, _⟩ _)

theorem fr_parseOrdered (p : Parser) (t : Token) : Same φ (p.parseOrdered t) ((fr φ p).parseOrdered t) := by
  unfold parseOrdered
  des p
  dsimp only [fr]
  refine .bind ?_ fun q => fr_pushToStack q _
  have hn : Same φ (if t.ty = .codeCalloutListItem then (do
      let p ← (match blocks with
        | x :: _ => if x.isSourceBlock then addLastToStackOrGraph ⟨lastTy, header, attrs, blocks, inlines, files, title, data, openLines, openText, offset, inBlockLine, inSpan, inCont, forceNew, preserveNl, closeParent, none, resolveTargets, asg⟩ else .ok ⟨lastTy, header, attrs, blocks, inlines, files, title, data, openLines, openText, offset, inBlockLine, inSpan, inCont, forceNew, preserveNl, closeParent, none, resolveTargets, asg⟩
        | [] => .ok ⟨lastTy, header, attrs, blocks, inlines, files, title, data, openLines, openText, offset, inBlockLine, inSpan, inCont, forceNew, preserveNl, closeParent, none, resolveTargets, asg⟩)
      p.pushToStack (.list .ordered [] (some (Meta.withRole b!"colist")) t.locations))
    else pushToStack ⟨lastTy, header, attrs, blocks, inlines, files, title, data, openLines, openText, offset, inBlockLine, inSpan, inCont, forceNew, preserveNl, closeParent, none, resolveTargets, asg⟩ (.list .ordered [] none t.locations))
    (if t.ty = .codeCalloutListItem then (do
      let p ← (match blocks with
        | x :: _ => if x.isSourceBlock then addLastToStackOrGraph ⟨lastTy, header, attrs, blocks, inlines, files, title, data, openLines, openText, offset, inBlockLine, inSpan, inCont, forceNew, preserveNl, closeParent, none, resolveTargets, φ asg⟩ else .ok ⟨lastTy, header, attrs, blocks, inlines, files, title, data, openLines, openText, offset, inBlockLine, inSpan, inCont, forceNew, preserveNl, closeParent, none, resolveTargets, φ asg⟩
        | [] => .ok ⟨lastTy, header, attrs, blocks, inlines, files, title, data, openLines, openText, offset, inBlockLine, inSpan, inCont, forceNew, preserveNl, closeParent, none, resolveTargets, φ asg⟩)
      p.pushToStack (.list .ordered [] (some (Meta.withRole b!"colist")) t.locations))
    else pushToStack ⟨lastTy, header, attrs, blocks, inlines, files, title, data, openLines, openText, offset, inBlockLine, inSpan, inCont, forceNew, preserveNl, closeParent, none, resolveTargets, φ asg⟩ (.list .ordered [] none t.locations)) := by
    refine .ite (.bind ?_ fun q => fr_pushToStack q _) (fr_pushToStack ⟨_, _, _, _, _, _, _, _, _, _, _, _, _, _, _, _, _, _, _, _⟩ _)
    cases blocks with
    | nil => rfl
    | cons x r => exact .ite (fr_addLastToStackOrGraph ⟨_, _, _, _, _, _, _, _, _, _, _, _, _, _, _, _, _, _, _, _⟩) rfl
  cases blocks with
  | nil => exact hn
  | cons x r => exact .ite (fr_addLastItem ⟨_, _, _, _, _, _, _, _, _, _, _, _, _, _, _, _, _, _, _, _⟩) hn

theorem fr_parseUnordered (p : Parser) (t : Token) : Same φ (p.parseUnordered t) ((fr φ p).parseUnordered t) := by
  unfold parseUnordered
  des p
  dsimp only [fr]
  refine .bind ?_ fun q => fr_pushToStack q _
  cases blocks with
  | nil => exact fr_pushToStack ⟨_, _, _, _, _, _, _, _, _, _, _, _, _, _, _, _, _, _, _, _⟩ _
  | cons x r => exact .ite (fr_addLastItem ⟨_, _, _, _, _, _, _, _, _, _, _, _, _, _, _, _, _, _, _, _⟩) (fr_pushToStack ⟨_, _, _, _, _, _, _, _, _, _, _, _, _, _, _, _, _, _, _, _⟩ _)

theorem fr_parseSection (p : Parser) (t : Token) : Same φ (p.parseSection t) ((fr φ p).parseSection t) := by
  unfold parseSection
  show Same φ (p.headingLevel t >>= _) (p.headingLevel t >>= _)
  refine .use _ fun n => .bind ?_ fun q => .bind (fr_pushToStack q _) fun _ => rfl
  show Same φ _ (match p.blocks with | x :: _ => _ | [] => _)
  cases p.blocks with
  | nil => rfl
  | cons x r => exact .ite (fr_addLastToStackOrGraph p) rfl

theorem fr_parseTitle (p : Parser) (t : Token) : Same φ (p.parseTitle t) ((fr φ p).parseTitle t) :=
  .ite (fr_parseSection p t) (.ite rfl rfl)

theorem fr_parseAdmonition (p : Parser) (t : Token) : Same φ (p.parseAdmonition t) ((fr φ p).parseAdmonition t) :=
  .use _ fun _ => rfl

theorem fr_parseContinuation (p : Parser) : Same φ p.parseContinuation (fr φ p).parseContinuation :=
  .bind (fr_addInlines p) fun _ => rfl

theorem fr_openSpan (p : Parser) (x : Inline) : Same φ (p.openSpan x) ((fr φ p).openSpan x) := by
  unfold openSpan
  refine .bind ?_ fun q => .bind (fr_danglingSpans q) fun q => ?_
  · des p
    dsimp only [fr]
    cases dangling with
    | none => rfl
    | some t => exact .bind (fr_addText ⟨_, _, _, _, _, _, _, _, _, _, _, _, _, _, _, _, _, _, _, _⟩ _ _) fun _ => rfl
  · des q
    dsimp only [fr]
    cases data with
    | none => rfl
    | some m => exact .use _ fun _ => rfl

theorem fr_parseSpan (p : Parser) (x : Inline) : Same φ (p.parseSpan x) ((fr φ p).parseSpan x) := by
  have ho := fr_openSpan (φ := φ) p x
  des p
  unfold parseSpan
  dsimp only [fr] at ho ⊢
  cases inlines with
  | nil => exact ho
  | cons l r =>
    refine .ite (.use _ fun _ => rfl) ?_
    cases l with
    | span v f is m l o =>
      dsimp only
      cases closeOrAdd x is with
      | none => rfl
      | some r => exact .use _ fun _ => rfl
    | _ => exact ho

theorem fr_parseInlineImage (p : Parser) (t : Token) : Same φ (p.parseInlineImage t) ((fr φ p).parseInlineImage t) :=
  .use _ fun _ => rfl

theorem fr_parseFootnote (p : Parser) (t : Token) : Same φ (p.parseFootnote t) ((fr φ p).parseFootnote t) :=
  .use _ fun _ => rfl

theorem fr_parseMacroClose (p : Parser) (t : Token) : Same φ (p.parseMacroClose t) ((fr φ p).parseMacroClose t) := by
  unfold parseMacroClose
  refine .ite rfl ?_
  show Same φ _ (match splitFirst Inline.isMacro p.inlines with | some (a, x, y) => _ | none => _)
  cases splitFirst Inline.isMacro p.inlines with
  | none => exact fr_addText p t _
  | some x => exact .use _ fun _ => .use _ fun _ => rfl

theorem fr_parseText (p : Parser) (t : Token) (pass : Bool) : Same φ (p.parseText t pass) ((fr φ p).parseText t pass) := by
  unfold parseText
  show Same φ _ (match p.dangling with | some nl => _ | none => _)
  cases p.dangling with
  | none => exact fr_addText p t _
  | some nl => exact .ite rfl (.bind (fr_addText p _ _) fun q => fr_addText { q with dangling := none } _ _)

theorem fr_parseAttrRef (p : Parser) (t : Token) : Same φ (p.parseAttrRef t) ((fr φ p).parseAttrRef t) := by
  unfold parseAttrRef
  refine .use _ fun x => ?_
  show Same φ _ (match p.attrs.get? x with | some nl => _ | none => _)
  cases p.attrs.get? x with
  | none => exact fr_parseText p t _
  | some v => exact .ite rfl (fr_parseText p _ _)

theorem fr_parseXref (p : Parser) (t : Token) : Same φ (p.parseXref t) ((fr φ p).parseXref t) :=
  .use _ fun _ => rfl

theorem fr_parseCallout (p : Parser) (t : Token) : Same φ (p.parseCallout t) ((fr φ p).parseCallout t) :=
  .ite rfl (.use _ fun _ => rfl)

theorem fr_addCharref (p : Parser) (x : Inline) : Same φ (p.addCharref x) ((fr φ p).addCharref x) := by
  des p
  unfold addCharref
  dsimp only [fr]
  cases inlines with
  | nil => rfl
  | cons i rest =>
    cases i with
    | span v f is m l o => exact .ite rfl rfl
    | lit n v l => rfl
    | brk l => rfl
    | ref v g is m l => exact .ite rfl rfl

theorem fr_parseCharref (p : Parser) (t : Token) : Same φ (p.parseCharref t) ((fr φ p).parseCharref t) := by
  unfold parseCharref
  show Same φ _ (match p.dangling with | some nl => _ | none => _)
  cases p.dangling with
  | none => exact fr_addCharref p _
  | some nl => exact .ite rfl (.bind (fr_addText p _ _) fun q => fr_addCharref { q with dangling := none } _)

theorem fr_parseLeaf (p : Parser) (t : Token) : Same φ (p.parseLeaf t) ((fr φ p).parseLeaf t) := by
  unfold parseLeaf
  show Same φ _ (match p.openText with | some nl => _ | none => _)
  cases p.openText with
  | none => exact .use _ fun x => .bind (fr_pushToStack { p with openText := some t.ty } x) fun _ => rfl
  | some ty =>
    refine .bind (fr_addInlines p) fun q => ?_
    des q
    dsimp only [fr]
    cases blocks with
    | nil => rfl
    | cons x r =>
      exact .use _ fun _ => .bind (fr_pushToStack ⟨_, _, _, _, _, _, _, _, _, _, _, _, _, _, _, _, _, _, _, _⟩ _) fun _ => rfl

theorem fr_openParent (p : Parser) (n : Nat) (x : Block) : Same φ (p.openParent n x) ((fr φ p).openParent n x) :=
  fr_pushToStack { p with openLines := n :: p.openLines } x

theorem fr_closeParentBlock (p : Parser) (above below : List Block) (n : ParentName) (v : Option ParentVariant)
    (d : Str) (bs : List Block) (ti : List Inline) (m : Option Meta) (l loc : List Location) :
    Same φ (p.closeParentBlock above below n v d bs ti m l loc) ((fr φ p).closeParentBlock above below n v d bs ti m l loc) := by
  unfold closeParentBlock
  refine .bind (fr_addInlines { p with blocks := above ++ below }) fun q => ?_
  des q
  dsimp only [fr]
  cases openLines with
  | nil => rfl
  | cons x r =>
    refine .ite rfl (.use _ fun _ => .use _ fun _ => .bind (fr_pushToStack ⟨_, _, _, _, _, _, _, _, _, _, _, _, _, _, _, _, _, _, _, _⟩ _) fun _ => rfl)

theorem fr_parseParent (p : Parser) (t : Token) : Same φ (p.parseParent t) ((fr φ p).parseParent t) := by
  unfold parseParent
  cases Block.parentKind t.ty with
  | none => rfl
  | some nv =>
    obtain ⟨n', v'⟩ := nv
    show Same φ _ (match splitFirst Block.isParent p.blocks with | some (a, .parent n v d bs ti m l, c) => _ | _ => _)
    dsimp only
    cases splitFirst Block.isParent p.blocks with
    | none => exact fr_openParent { p with dangling := none, title := none } _ _
    | some x =>
      obtain ⟨x, y, z⟩ := x
      cases y with
      | parent n v d bs ti m l =>
        exact .ite (fr_closeParentBlock { p with dangling := none, title := none } ..) (fr_openParent { p with dangling := none, title := none } _ _)
      | _ => exact fr_openParent { p with dangling := none, title := none } _ _

theorem fr_parseCommentBlock (p : Parser) (t : Token) : Same φ (p.parseCommentBlock t) ((fr φ p).parseCommentBlock t) := by
  unfold parseCommentBlock
  show Same φ _ (match p.openText with | some nl => _ | none => _)
  cases p.openText with
  | none => exact fr_parseLeaf p t
  | some ty => exact .ite rfl rfl

theorem fr_parseQuoteVerse (p : Parser) (t : Token) : Same φ (p.parseQuoteVerse t) ((fr φ p).parseQuoteVerse t) := by
  unfold parseQuoteVerse
  show Same φ _ (match p.data with | some m => _ | none => match p.openText with | some nl => _ | none => _)
  cases p.data with
  | some m => exact .ite (fr_parseLeaf p t) (fr_parseParent p t)
  | none =>
    dsimp only
    cases p.openText with
    | none => exact fr_parseParent p t
    | some _ => exact fr_parseLeaf p t

/-! ## What depends on files -/

/-- A function for the recursive calls. -/
def Calls (φ : Asg → Asg) (f : Token → Parser → M Parser) : Prop := ∀ t p, Same φ (f t p) (f t (fr φ p))

variable {w : World} {f : Token → Parser → M Parser}

theorem fr_parseBlockImage (p : Parser) (t : Token) : Same φ (parseBlockImage w p t) (parseBlockImage w (fr φ p) t) := by
  unfold parseBlockImage
  refine .use _ fun x => ?_
  obtain ⟨target, m⟩ := x
  exact .use _ fun _ => fr_addToStackOrGraph { p with data := none, title := none } _

theorem fr_feed (hf : Calls φ f) (sl : Bool) : ∀ (is : List Item) (p : Parser),
    Same φ (feed f sl is p) (feed f sl is (fr φ p))
  | [], p => rfl
  | .tok t :: is, p => by
    refine .bind (hf t p) fun q => ?_
    cases sl
    · exact fr_feed hf false is q
    · exact fr_feed hf true is { q with lastTy := t.ty }
  | .err e :: _, _ => rfl
  | .panic s :: _, _ => rfl
  | .hang :: _, _ => rfl

theorem fr_parseTableCell (hf : Calls φ f) (p : Parser) (t : Token) :
    Same φ (parseTableCell f p t) (parseTableCell f (fr φ p) t) := by
  unfold parseTableCell
  refine .use _ fun x => .bind ((fr_pushToStack p _)) fun q => ?_
  refine .bind (fr_feed (fun u p => ?_) false _ { q with dangling := none }) fun q => (fr_addInlines { q with inBlockLine := false, forceNew := false })
  exact .use _ fun u' => hf u' p

theorem fr_includeToken (hf : Calls φ f) (a : Bool) (t : Token) (p : Parser) :
    Same φ (includeToken f a t p) (includeToken f a t (fr φ p)) :=
  .ite (.bind (hf t p) fun _ => rfl) ((fr_parseText { p with lastTy := if t.ty = .eof then .eof else .text } t false))

theorem fr_includeLoop (hf : Calls φ f) (a te : Bool) (tags : List Str) :
    ∀ (is : List Item) (ls : List Int) (cur : Option Str) (p : Parser),
    Same φ (includeLoop f a te tags is ls cur p) (includeLoop f a te tags is ls cur (fr φ p))
  | [], _, _, p => rfl
  | .tok t :: is, ls, cur, p => by
    unfold includeLoop
    cases lineFilter ls te t.line with
    | none => exact fr_includeLoop hf a te tags is ls cur p
    | some ls' =>
      refine .use _ fun x => ?_
      obtain ⟨cur', keep⟩ := x
      exact .bind (.ite (fr_includeToken hf a t p) (rfl)) fun q => fr_includeLoop hf a te tags is ls' cur' q
  | .err e :: _, _, _, _ => rfl
  | .panic s :: _, _, _, _ => rfl
  | .hang :: _, _, _, _ => rfl

theorem fr_selection (p : Parser) (m : Option Meta) : (fr φ p).selection m = (p.selection m).map fun x => (fr φ x.1, x.2) := by
  unfold selection
  cases m with
  | none => rfl
  | some m =>
    dsimp only
    generalize m.attributes.get? b!"leveloffset" = lo
    generalize m.attributes.get? b!"lines" = li
    cases lo with
    | none =>
      cases li with
      | none => rfl
      | some v => show (Except.bind (selectLines v) _ : M _) = (Except.bind (selectLines v) _ : M _).map _; cases selectLines v <;> rfl
    | some o =>
      show (Except.bind ((fr φ p).levelOffset o) _ : M _) = (Except.bind (p.levelOffset o) _ : M _).map _
      rw [show (fr φ p).levelOffset o = (p.levelOffset o).map (fr φ) from fr_levelOffset p o]
      cases p.levelOffset o with
      | error e => rfl
      | ok q =>
        cases li with
        | none => rfl
        | some v => show (Except.bind (selectLines v) _ : M _) = (Except.bind (selectLines v) _ : M _).map _; cases selectLines v <;> rfl

theorem fr_parseInclude (hf : Calls φ f) (p : Parser) (t : Token) :
    Same φ (parseInclude w f p t) (parseInclude w f (fr φ p) t) := by
  unfold parseInclude
  refine .use _ fun x => ?_
  obtain ⟨target, m⟩ := x
  dsimp only
  rw [fr_selection]
  cases p.selection m with
  | error e => exact rfl
  | ok x =>
    obtain ⟨q, sel⟩ := x
    show Same φ (match w.resolve q.files target with | none => _ | some path => _)
      (match w.resolve q.files target with | none => _ | some path => _)
    cases w.resolve q.files target with
    | none => rfl
    | some path =>
      dsimp only
      cases w.read path with
      | none => rfl
      | some src =>
        dsimp only
        refine .bind (fr_includeLoop hf _ _ _ _ _ _ { q with files := q.files ++ [target] }) fun r => ?_
        exact .bind (fr_addInlines r) fun r => .bind (fr_drain _ _ r) fun _ => rfl

theorem fr_dispatch (hf : Calls φ f) (p : Parser) (t : Token) :
    Same φ (p.dispatchToken w f t) ((fr φ p).dispatchToken w f t) := by
  unfold dispatchToken
  cases t.ty
  all_goals dsimp only
  all_goals first
    | with_reducible exact fr_parseTitle p t
    | with_reducible exact fr_parseSection p t
    | with_reducible exact fr_parseAttribute p t
    | with_reducible exact fr_parseBlockMeta p t
    | with_reducible exact fr_parseInlineMeta p t
    | with_reducible exact fr_parseNewLine p t
    | with_reducible exact fr_parseText p t _
    | with_reducible exact fr_parseCharref p t
    | with_reducible exact (.use _ fun x => fr_parseSpan p x)
    | with_reducible exact fr_parseAttrRef p t
    | with_reducible exact fr_parseXref p t
    | with_reducible exact fr_parseFootnote p t
    | with_reducible exact fr_parseInlineImage p t
    | with_reducible exact fr_parseMacroClose p t
    | with_reducible exact fr_addToStackOrGraph p _
    | with_reducible exact fr_parseParent p t
    | with_reducible exact fr_parseQuoteVerse p t
    | with_reducible exact fr_parseLeaf p t
    | with_reducible exact fr_parseCallout p t
    | with_reducible exact fr_parseUnordered p t
    | with_reducible exact fr_parseOrdered p t
    | with_reducible exact fr_parseDlistTerm p t
    | with_reducible exact fr_parseAdmonition p t
    | with_reducible exact fr_parseContinuation p
    | with_reducible exact fr_parseCommentBlock p t
    | exact .ite (fr_moveHeader p) rfl
    | with_reducible exact fr_parseTableCell hf p t
    | with_reducible exact fr_parseBlockImage p t
    | with_reducible exact fr_parseInclude hf p t
    | exact rfl

theorem fr_step (hf : Calls φ f) : Calls φ (step w f) := by
  intro t p
  unfold step
  refine .bind (.ite (fr_moveHeader p) rfl) fun q => ?_
  show Same φ _ (match q.verbatim t with | some pass => _ | none => _)
  cases q.verbatim t with
  | some pass => exact fr_parseText q t pass
  | none => exact fr_dispatch hf q t

theorem fr_tokenInto : ∀ k : Nat, Calls φ (tokenInto w k)
  | 0 => fun _ _ => rfl
  | k + 1 => fr_step (fr_tokenInto k)

/-- What `parse` does before the graph is completed. -/
def upToEnd (w : World) (k : Nat) (items : List Item) (p : Parser) : M Parser := do
  let p ← feed (tokenInto w k) true items p
  let p ← p.addInlines
  drain 0 p.blocks.length p

theorem fr_upToEnd (k : Nat) (items : List Item) (p : Parser) : Same φ (upToEnd w k items p) (upToEnd w k items (fr φ p)) :=
  .bind (fr_feed (fr_tokenInto k) true items p) fun q => .bind (fr_addInlines q) fun q => fr_drain _ _ q

end Adoc.Parser.Framing
