import Verif.Proof.ParserInv
/-!
# More files, fewer checks, more fuel

The flag for the resolution of targets is looked at in one place only. One pass over the handlers: with another flag, with more
files and with more fuel they do the same, unless they fail for lack of a file or of fuel.
-/
namespace Adoc.Parser
open Block (liftB)

/-- The parser with targets resolved only where `b` allows it. -/
def rt (b : Bool) (p : Parser) : Parser := { p with resolveTargets := p.resolveTargets && b }

/-- The second outcome is that of the first, with the flag. -/
def Same (b : Bool) (x y : M Parser) : Prop := y = x.map (rt b)

variable {b : Bool}

theorem Same.rfl' {p : Parser} : Same b (.ok p) (.ok (rt b p)) := rfl

theorem Same.error (e : Fail) : Same b (.error e) (.error e) := rfl

theorem Same.bind {x y : M Parser} {f g : Parser → M Parser} (h : Same b x y) (hf : ∀ q, Same b (f q) (g (rt b q))) :
    Same b (x >>= f) (y >>= g) := by
  unfold Same at h; subst h
  cases x with
  | error e => rfl
  | ok q => exact hf q

theorem Same.use {α : Type} {f g : α → M Parser} (x : M α) (hf : ∀ a, Same b (f a) (g a)) : Same b (x >>= f) (x >>= g) := by
  cases x with
  | error e => rfl
  | ok a => exact hf a

theorem Same.ite {c : Prop} [Decidable c] {x y x' y' : M Parser} (h1 : Same b x x') (h2 : Same b y y') :
    Same b (if c then x else y) (if c then x' else y') := by
  by_cases h : c
  · rw [if_pos h, if_pos h]; exact h1
  · rw [if_neg h, if_neg h]; exact h2

set_option hygiene false in
/-- Take a parser apart. -/
local macro "des " p:ident : tactic =>
  `(tactic| obtain ⟨lastTy, header, attrs, blocks, inlines, files, title, data, openLines, openText, offset, inBlockLine,
    inSpan, inCont, forceNew, preserveNl, closeParent, dangling, resolveTargets, asg⟩ := $p)

theorem rt_graphPush (p : Parser) (x : Block) : Same b (p.graphPush x) ((rt b p).graphPush x) := by
  unfold graphPush
  show Same b _ (match p.asg.pushBlock x with | .ok g => _ | .error e => _)
  cases p.asg.pushBlock x <;> rfl

theorem rt_addText (p : Parser) (t : Token) (pass : Bool) : Same b (p.addText t pass) ((rt b p).addText t pass) := by
  des p
  unfold addText
  dsimp only [rt]
  cases inlines with
  | nil => rfl
  | cons i rest =>
    cases i with
    | span v f is m l o => exact .ite rfl rfl
    | lit n v l => exact .ite rfl rfl
    | brk l => rfl
    | ref v g is m l => exact .ite rfl (.use _ fun _ => rfl)

theorem rt_danglingSpans (p : Parser) : Same b p.danglingSpans (rt b p).danglingSpans := by
  des p
  unfold danglingSpans
  dsimp only [rt]
  cases splitFirst Inline.isOpen inlines with
  | none => rfl
  | some x =>
    obtain ⟨above, span, below⟩ := x
    refine .use _ fun pre => .use _ fun kids => ?_
    cases kids with
    | nil => exact rt_addText (b := b) ⟨_, _, _, _, _, _, _, _, _, _, _, _, _, _, _, _, _, _, _, _⟩ _ _
    | cons i is => exact .use _ fun _ => rfl

theorem rt_pushToStack (p : Parser) (x : Block) : Same b (p.pushToStack x) ((rt b p).pushToStack x) := by
  des p
  unfold pushToStack
  dsimp only [rt]
  refine .ite ?_ ?_
  · cases blocks with
    | nil => rfl
    | cons l r => exact .use _ fun _ => rfl
  · cases data with
    | none => rfl
    | some m => exact .use _ fun _ => rfl

theorem rt_newParagraph (p : Parser) : Same b p.newParagraph (rt b p).newParagraph := by
  des p
  unfold newParagraph
  dsimp only [rt]
  generalize inlines.reverse = is
  refine .ite ?_ ?_
  · cases blocks with
    | nil => rfl
    | cons l r => exact .use _ fun _ => rfl
  · cases data with
    | none => exact rt_pushToStack (b := b) ⟨_, _, _, _, _, _, _, _, _, _, _, _, _, _, _, _, _, _, _, _⟩ _
    | some m =>
      dsimp only
      have pick : ∀ (loc : List Location) (F G : Location → M Parser), (∀ l, Same b (F l) (G l)) →
          Same b (match loc with | [] => .error (.panic .unwrap) | l0 :: _ => F l0) (match loc with | [] => .error (.panic .unwrap) | l0 :: _ => G l0) := by
        intro loc F G h
        cases loc with
        | nil => rfl
        | cons l ls => exact h l
      refine pick _ _ _ fun l0 => ?_
      · refine .ite (.use _ fun q => ?_) ?_ <;>
        exact rt_pushToStack (b := b) ⟨_, _, _, _, _, _, _, _, _, _, _, _, _, _, _, _, _, _, _, _⟩ _

theorem rt_addInlines (p : Parser) : Same b p.addInlines (rt b p).addInlines := by
  unfold addInlines
  refine .ite rfl (.bind (.ite (rt_danglingSpans p) rfl) fun q => ?_)
  des q
  dsimp only [rt]
  cases header with
  | some h => rfl
  | none =>
    cases blocks with
    | nil => exact rt_newParagraph (b := b) ⟨_, _, _, _, _, _, _, _, _, _, _, _, _, _, _, _, _, _, _, _⟩
    | cons l r =>
      refine .ite (.use _ fun _ => rfl) ?_
      exact rt_newParagraph (b := b) ⟨_, _, _, _, _, _, _, _, _, _, _, _, _, _, _, _, _, _, _, _⟩

theorem rt_addLastItem (p : Parser) : Same b p.addLastItem (rt b p).addLastItem := by
  unfold addLastItem
  refine .bind (rt_addInlines { p with forceNew := false }) fun q => ?_
  des q
  dsimp only [rt]
  cases blocks with
  | nil => rfl
  | cons item rest =>
    refine .ite ?_ ?_
    · cases rest with
      | nil => rfl
      | cons l r => exact .use _ fun _ => rfl
    · exact rt_pushToStack (b := b) ⟨_, _, _, _, _, _, _, _, _, _, _, _, _, _, _, _, _, _, _, _⟩ _

theorem rt_addToStackOrGraph (p : Parser) (x : Block) : Same b (p.addToStackOrGraph x) ((rt b p).addToStackOrGraph x) := by
  des p
  unfold addToStackOrGraph
  dsimp only [rt]
  have hg : Same b (match data with
      | some m => (x.addMeta m >>= fun b' => graphPush ⟨lastTy, header, attrs, blocks, inlines, files, title, none, openLines, openText, offset, inBlockLine, inSpan, inCont, forceNew, preserveNl, closeParent, dangling, resolveTargets, asg⟩ b' : M Parser)
      | none => graphPush ⟨lastTy, header, attrs, blocks, inlines, files, title, data, openLines, openText, offset, inBlockLine, inSpan, inCont, forceNew, preserveNl, closeParent, dangling, resolveTargets, asg⟩ x)
    (match data with
      | some m => (x.addMeta m >>= fun b' => graphPush ⟨lastTy, header, attrs, blocks, inlines, files, title, none, openLines, openText, offset, inBlockLine, inSpan, inCont, forceNew, preserveNl, closeParent, dangling, resolveTargets && b, asg⟩ b' : M Parser)
      | none => graphPush ⟨lastTy, header, attrs, blocks, inlines, files, title, data, openLines, openText, offset, inBlockLine, inSpan, inCont, forceNew, preserveNl, closeParent, dangling, resolveTargets && b, asg⟩ x) := by
    cases data with
    | none => exact rt_graphPush (b := b) ⟨_, _, _, _, _, _, _, _, _, _, _, _, _, _, _, _, _, _, _, _⟩ _
    | some m => exact .use _ fun _ => rt_graphPush (b := b) ⟨_, _, _, _, _, _, _, _, _, _, _, _, _, _, _, _, _, _, _, _⟩ _
  cases blocks with
  | nil => exact hg
  | cons l r => exact .ite (.use _ fun _ => rfl) hg

theorem rt_addLastToStackOrGraph (p : Parser) : Same b p.addLastToStackOrGraph (rt b p).addLastToStackOrGraph := by
  des p
  unfold addLastToStackOrGraph
  dsimp only [rt]
  cases blocks with
  | nil => rfl
  | cons x r =>
    cases r with
    | nil => exact rt_graphPush (b := b) ⟨_, _, _, _, _, _, _, _, _, _, _, _, _, _, _, _, _, _, _, _⟩ _
    | cons y r => exact .ite (.use _ fun _ => rfl) (rt_graphPush (b := b) ⟨_, _, _, _, _, _, _, _, _, _, _, _, _, _, _, _, _, _, _, _⟩ _)

theorem rt_addLastToGraph (p : Parser) : Same b p.addLastToGraph (rt b p).addLastToGraph := by
  des p
  unfold addLastToGraph
  dsimp only [rt]
  cases blocks with
  | nil => rfl
  | cons x r =>
    refine .use _ fun x' => ?_
    cases r with
    | nil => exact rt_graphPush (b := b) ⟨_, _, _, _, _, _, _, _, _, _, _, _, _, _, _, _, _, _, _, _⟩ _
    | cons y r => exact .ite (.use _ fun _ => rfl) (rt_graphPush (b := b) ⟨_, _, _, _, _, _, _, _, _, _, _, _, _, _, _, _, _, _, _, _⟩ _)

theorem rt_drain (n : Nat) : ∀ (m : Nat) (p : Parser), Same b (drain n m p) (drain n m (rt b p))
  | 0, p => rfl
  | m + 1, p => .ite (.bind (rt_addLastToGraph p) fun q => rt_drain n m q) rfl

theorem rt_moveHeader (p : Parser) : Same b p.moveHeader (rt b p).moveHeader := by
  unfold moveHeader
  refine .bind (rt_addInlines p) fun q => ?_
  des q
  dsimp only [rt]
  cases header with
  | none => rfl
  | some h => exact .ite rfl rfl

theorem rt_levelOffset (p : Parser) (v : Str) : Same b (p.levelOffset v) ((rt b p).levelOffset v) := by
  unfold levelOffset
  cases parseUnsigned 18446744073709551615 v with
  | some n => rfl
  | none =>
    dsimp only
    cases parseSigned 127 v with
    | none => rfl
    | some d => exact .ite rfl rfl

theorem rt_parseAttribute (p : Parser) (t : Token) : Same b (p.parseAttribute t) ((rt b p).parseAttribute t) := by
  unfold parseAttribute
  cases splitTerminatorB c!":" t.text with
  | nil => rfl
  | cons x r =>
    cases r with
    | nil => rfl
    | cons y r => exact .ite (rt_levelOffset p _) rfl

theorem rt_parseBlockMeta (p : Parser) (t : Token) : Same b (p.parseBlockMeta t) ((rt b p).parseBlockMeta t) :=
  .use _ fun _ => rfl

theorem rt_parseInlineMeta (p : Parser) (t : Token) : Same b (p.parseInlineMeta t) ((rt b p).parseInlineMeta t) :=
  .use _ fun _ => rfl

theorem rt_blankLine (p : Parser) : Same b p.blankLine (rt b p).blankLine := by
  unfold blankLine
  des p
  dsimp only [rt]
  cases header with
  | some h => exact rt_moveHeader (b := b) ⟨_, _, _, _, _, _, _, _, _, _, _, _, _, _, _, _, _, _, _, _⟩
  | none =>
    dsimp only
    refine .bind ?_ fun q => .bind (rt_addInlines { q with inSpan := false }) fun q => ?_
    · cases blocks with
      | nil => rfl
      | cons x r => exact .ite (rt_addLastItem (b := b) ⟨_, _, _, _, _, _, _, _, _, _, _, _, _, _, _, _, _, _, _, _⟩) rfl
    · des q
      dsimp only [rt]
      cases blocks with
      | nil => rfl
      | cons x r =>
        refine .ite (.bind (rt_addToStackOrGraph (b := b) ⟨_, _, _, _, _, _, _, _, _, _, _, _, _, _, _, _, _, _, _, _⟩ _) fun q => ?_)
          (rt_pushToStack (b := b) ⟨_, _, _, _, _, _, _, _, _, _, _, _, _, _, _, _, _, _, _, _⟩ _)
        exact .ite (.bind (rt_addLastToStackOrGraph q) fun _ => rfl) rfl

theorem rt_parseNewLine (p : Parser) (t : Token) : Same b (p.parseNewLine t) ((rt b p).parseNewLine t) := by
  unfold parseNewLine
  des p
  dsimp only [rt]
  cases title <;>
  exact .ite (rt_blankLine (b := b) ⟨_, _, _, _, _, _, _, _, _, _, _, _, _, _, _, _, _, _, _, _⟩) (.ite rfl rfl)

theorem rt_parseDlistTerm (p : Parser) (t : Token) : Same b (p.parseDlistTerm t) ((rt b p).parseDlistTerm t) := by
  unfold parseDlistTerm
  refine .bind (x := match splitFirst Inline.isNewline p.inlines.reverse with
    | some (before, _, after) => do
      let p ← addInlines { p with forceNew := false, inlines := before.reverse }
      .ok { p with inlines := after.reverse ++ p.inlines }
    | none => .ok { p with forceNew := false }) ?_ fun q => ?_
  · show Same b _ (match splitFirst Inline.isNewline p.inlines.reverse with | some (before, _, after) => _ | none => _)
    cases splitFirst Inline.isNewline p.inlines.reverse with
    | none => rfl
    | some x =>
      obtain ⟨x, y, z⟩ := x
      exact .bind (rt_addInlines { p with forceNew := false, inlines := x.reverse }) fun q => rfl
  · des q
    dsimp only [rt]
    refine .bind ?_ fun q => .bind (rt_pushToStack q _) fun _ => rfl
    cases blocks with
    | nil => exact rt_pushToStack (b := b) ⟨_, _, _, _, _, _, _, _, _, _, _, _, _, _, _, _, _, _, _, _⟩ _
    | cons x r => exact .ite (rt_addLastItem (b := b) ⟨_, _, _, _, _, _, _, _, _, _, _, _, _, _, _, _, _, _, _, _⟩) (rt_pushToStack (b := b) ⟨_, _, _, _, _, _, _, _, _, _, _, _, _, _, _, _, _, _, _, _⟩ _)

theorem rt_parseOrdered (p : Parser) (t : Token) : Same b (p.parseOrdered t) ((rt b p).parseOrdered t) := by
  unfold parseOrdered
  des p
  dsimp only [rt]
  refine .bind ?_ fun q => rt_pushToStack q _
  have hn : Same b (if t.ty = .codeCalloutListItem then (do
      let p ← (match blocks with
        | x :: _ => if x.isSourceBlock then addLastToStackOrGraph ⟨lastTy, header, attrs, blocks, inlines, files, title, data, openLines, openText, offset, inBlockLine, inSpan, inCont, forceNew, preserveNl, closeParent, none, resolveTargets, asg⟩ else .ok ⟨lastTy, header, attrs, blocks, inlines, files, title, data, openLines, openText, offset, inBlockLine, inSpan, inCont, forceNew, preserveNl, closeParent, none, resolveTargets, asg⟩
        | [] => .ok ⟨lastTy, header, attrs, blocks, inlines, files, title, data, openLines, openText, offset, inBlockLine, inSpan, inCont, forceNew, preserveNl, closeParent, none, resolveTargets, asg⟩)
      p.pushToStack (.list .ordered [] (some (Meta.withRole b!"colist")) t.locations))
    else pushToStack ⟨lastTy, header, attrs, blocks, inlines, files, title, data, openLines, openText, offset, inBlockLine, inSpan, inCont, forceNew, preserveNl, closeParent, none, resolveTargets, asg⟩ (.list .ordered [] none t.locations))
    (if t.ty = .codeCalloutListItem then (do
      let p ← (match blocks with
        | x :: _ => if x.isSourceBlock then addLastToStackOrGraph ⟨lastTy, header, attrs, blocks, inlines, files, title, data, openLines, openText, offset, inBlockLine, inSpan, inCont, forceNew, preserveNl, closeParent, none, resolveTargets && b, asg⟩ else .ok ⟨lastTy, header, attrs, blocks, inlines, files, title, data, openLines, openText, offset, inBlockLine, inSpan, inCont, forceNew, preserveNl, closeParent, none, resolveTargets && b, asg⟩
        | [] => .ok ⟨lastTy, header, attrs, blocks, inlines, files, title, data, openLines, openText, offset, inBlockLine, inSpan, inCont, forceNew, preserveNl, closeParent, none, resolveTargets && b, asg⟩)
      p.pushToStack (.list .ordered [] (some (Meta.withRole b!"colist")) t.locations))
    else pushToStack ⟨lastTy, header, attrs, blocks, inlines, files, title, data, openLines, openText, offset, inBlockLine, inSpan, inCont, forceNew, preserveNl, closeParent, none, resolveTargets && b, asg⟩ (.list .ordered [] none t.locations)) := by
    refine .ite (.bind ?_ fun q => rt_pushToStack q _) (rt_pushToStack (b := b) ⟨_, _, _, _, _, _, _, _, _, _, _, _, _, _, _, _, _, _, _, _⟩ _)
    cases blocks with
    | nil => rfl
    | cons x r => exact .ite (rt_addLastToStackOrGraph (b := b) ⟨_, _, _, _, _, _, _, _, _, _, _, _, _, _, _, _, _, _, _, _⟩) rfl
  cases blocks with
  | nil => exact hn
  | cons x r => exact .ite (rt_addLastItem (b := b) ⟨_, _, _, _, _, _, _, _, _, _, _, _, _, _, _, _, _, _, _, _⟩) hn

theorem rt_parseUnordered (p : Parser) (t : Token) : Same b (p.parseUnordered t) ((rt b p).parseUnordered t) := by
  unfold parseUnordered
  des p
  dsimp only [rt]
  refine .bind ?_ fun q => rt_pushToStack q _
  cases blocks with
  | nil => exact rt_pushToStack (b := b) ⟨_, _, _, _, _, _, _, _, _, _, _, _, _, _, _, _, _, _, _, _⟩ _
  | cons x r => exact .ite (rt_addLastItem (b := b) ⟨_, _, _, _, _, _, _, _, _, _, _, _, _, _, _, _, _, _, _, _⟩) (rt_pushToStack (b := b) ⟨_, _, _, _, _, _, _, _, _, _, _, _, _, _, _, _, _, _, _, _⟩ _)

theorem rt_parseSection (p : Parser) (t : Token) : Same b (p.parseSection t) ((rt b p).parseSection t) := by
  unfold parseSection
  show Same b (p.headingLevel t >>= _) (p.headingLevel t >>= _)
  refine .use _ fun n => .bind ?_ fun q => .bind (rt_pushToStack q _) fun _ => rfl
  show Same b _ (match p.blocks with | x :: _ => _ | [] => _)
  cases p.blocks with
  | nil => rfl
  | cons x r => exact .ite (rt_addLastToStackOrGraph p) rfl

theorem rt_parseTitle (p : Parser) (t : Token) : Same b (p.parseTitle t) ((rt b p).parseTitle t) :=
  .ite (rt_parseSection p t) (.ite rfl rfl)

theorem rt_parseAdmonition (p : Parser) (t : Token) : Same b (p.parseAdmonition t) ((rt b p).parseAdmonition t) :=
  .use _ fun _ => rfl

theorem rt_parseContinuation (p : Parser) : Same b p.parseContinuation (rt b p).parseContinuation :=
  .bind (rt_addInlines p) fun _ => rfl

theorem rt_openSpan (p : Parser) (x : Inline) : Same b (p.openSpan x) ((rt b p).openSpan x) := by
  unfold openSpan
  refine .bind ?_ fun q => .bind (rt_danglingSpans q) fun q => ?_
  · des p
    dsimp only [rt]
    cases dangling with
    | none => rfl
    | some t => exact .bind (rt_addText (b := b) ⟨_, _, _, _, _, _, _, _, _, _, _, _, _, _, _, _, _, _, _, _⟩ _ _) fun _ => rfl
  · des q
    dsimp only [rt]
    cases data with
    | none => rfl
    | some m => exact .use _ fun _ => rfl

theorem rt_parseSpan (p : Parser) (x : Inline) : Same b (p.parseSpan x) ((rt b p).parseSpan x) := by
  have ho := rt_openSpan (b := b) p x
  des p
  unfold parseSpan
  dsimp only [rt] at ho ⊢
  cases inlines with
  | nil => exact ho
  | cons l r =>
    refine .ite (.use _ fun _ => rfl) ?_
    cases l with
    | span v f is m l o =>
      dsimp only
      cases closeOrAdd x is with
      | none => rfl
      | some r => exact .use _ fun _ => rfl
    | _ => exact ho

theorem rt_parseInlineImage (p : Parser) (t : Token) : Same b (p.parseInlineImage t) ((rt b p).parseInlineImage t) :=
  .use _ fun _ => rfl

theorem rt_parseFootnote (p : Parser) (t : Token) : Same b (p.parseFootnote t) ((rt b p).parseFootnote t) :=
  .use _ fun _ => rfl

theorem rt_parseMacroClose (p : Parser) (t : Token) : Same b (p.parseMacroClose t) ((rt b p).parseMacroClose t) := by
  unfold parseMacroClose
  refine .ite rfl ?_
  show Same b _ (match splitFirst Inline.isMacro p.inlines with | some (a, x, y) => _ | none => _)
  cases splitFirst Inline.isMacro p.inlines with
  | none => exact rt_addText p t _
  | some x => exact .use _ fun _ => .use _ fun _ => rfl

theorem rt_parseText (p : Parser) (t : Token) (pass : Bool) : Same b (p.parseText t pass) ((rt b p).parseText t pass) := by
  unfold parseText
  show Same b _ (match p.dangling with | some nl => _ | none => _)
  cases p.dangling with
  | none => exact rt_addText p t _
  | some nl => exact .ite rfl (.bind (rt_addText p _ _) fun q => rt_addText { q with dangling := none } _ _)

theorem rt_parseAttrRef (p : Parser) (t : Token) : Same b (p.parseAttrRef t) ((rt b p).parseAttrRef t) := by
  unfold parseAttrRef
  refine .use _ fun x => ?_
  show Same b _ (match p.attrs.get? x with | some nl => _ | none => _)
  cases p.attrs.get? x with
  | none => exact rt_parseText p t _
  | some v => exact .ite rfl (rt_parseText p _ _)

theorem rt_parseXref (p : Parser) (t : Token) : Same b (p.parseXref t) ((rt b p).parseXref t) :=
  .use _ fun _ => rfl

theorem rt_parseCallout (p : Parser) (t : Token) : Same b (p.parseCallout t) ((rt b p).parseCallout t) :=
  .ite rfl (.use _ fun _ => rfl)

theorem rt_addCharref (p : Parser) (x : Inline) : Same b (p.addCharref x) ((rt b p).addCharref x) := by
  des p
  unfold addCharref
  dsimp only [rt]
  cases inlines with
  | nil => rfl
  | cons i rest =>
    cases i with
    | span v f is m l o => exact .ite rfl rfl
    | lit n v l => rfl
    | brk l => rfl
    | ref v g is m l => exact .ite rfl rfl

theorem rt_parseCharref (p : Parser) (t : Token) : Same b (p.parseCharref t) ((rt b p).parseCharref t) := by
  unfold parseCharref
  show Same b _ (match p.dangling with | some nl => _ | none => _)
  cases p.dangling with
  | none => exact rt_addCharref p _
  | some nl => exact .ite rfl (.bind (rt_addText p _ _) fun q => rt_addCharref { q with dangling := none } _)

theorem rt_parseLeaf (p : Parser) (t : Token) : Same b (p.parseLeaf t) ((rt b p).parseLeaf t) := by
  unfold parseLeaf
  show Same b _ (match p.openText with | some nl => _ | none => _)
  cases p.openText with
  | none => exact .use _ fun x => .bind (rt_pushToStack { p with openText := some t.ty } x) fun _ => rfl
  | some ty =>
    refine .bind (rt_addInlines p) fun q => ?_
    des q
    dsimp only [rt]
    cases blocks with
    | nil => rfl
    | cons x r =>
      exact .use _ fun _ => .bind (rt_pushToStack (b := b) ⟨_, _, _, _, _, _, _, _, _, _, _, _, _, _, _, _, _, _, _, _⟩ _) fun _ => rfl

theorem rt_openParent (p : Parser) (n : Nat) (x : Block) : Same b (p.openParent n x) ((rt b p).openParent n x) :=
  rt_pushToStack { p with openLines := n :: p.openLines } x

theorem rt_closeParentBlock (p : Parser) (above below : List Block) (n : ParentName) (v : Option ParentVariant)
    (d : Str) (bs : List Block) (ti : List Inline) (m : Option Meta) (l loc : List Location) :
    Same b (p.closeParentBlock above below n v d bs ti m l loc) ((rt b p).closeParentBlock above below n v d bs ti m l loc) := by
  unfold closeParentBlock
  refine .bind (rt_addInlines { p with blocks := above ++ below }) fun q => ?_
  des q
  dsimp only [rt]
  cases openLines with
  | nil => rfl
  | cons x r =>
    refine .ite rfl (.use _ fun _ => .use _ fun _ => .bind (rt_pushToStack (b := b) ⟨_, _, _, _, _, _, _, _, _, _, _, _, _, _, _, _, _, _, _, _⟩ _) fun _ => rfl)

theorem rt_parseParent (p : Parser) (t : Token) : Same b (p.parseParent t) ((rt b p).parseParent t) := by
  unfold parseParent
  cases Block.parentKind t.ty with
  | none => rfl
  | some nv =>
    obtain ⟨n', v'⟩ := nv
    show Same b _ (match splitFirst Block.isParent p.blocks with | some (a, .parent n v d bs ti m l, c) => _ | _ => _)
    dsimp only
    cases splitFirst Block.isParent p.blocks with
    | none => exact rt_openParent { p with dangling := none, title := none } _ _
    | some x =>
      obtain ⟨x, y, z⟩ := x
      cases y with
      | parent n v d bs ti m l =>
        exact .ite (rt_closeParentBlock { p with dangling := none, title := none } ..) (rt_openParent { p with dangling := none, title := none } _ _)
      | _ => exact rt_openParent { p with dangling := none, title := none } _ _

theorem rt_parseCommentBlock (p : Parser) (t : Token) : Same b (p.parseCommentBlock t) ((rt b p).parseCommentBlock t) := by
  unfold parseCommentBlock
  show Same b _ (match p.openText with | some nl => _ | none => _)
  cases p.openText with
  | none => exact rt_parseLeaf p t
  | some ty => exact .ite rfl rfl

theorem rt_parseQuoteVerse (p : Parser) (t : Token) : Same b (p.parseQuoteVerse t) ((rt b p).parseQuoteVerse t) := by
  unfold parseQuoteVerse
  show Same b _ (match p.data with | some m => _ | none => match p.openText with | some nl => _ | none => _)
  cases p.data with
  | some m => exact .ite (rt_parseLeaf p t) (rt_parseParent p t)
  | none =>
    dsimp only
    cases p.openText with
    | none => exact rt_parseParent p t
    | some _ => exact rt_parseLeaf p t

/-! ## What depends on files -/

/-- The same outcome, or a failure of the first for lack of something. -/
def Rel (E : Fail → Prop) (b : Bool) (x y : M Parser) : Prop := Same b x y ∨ ∃ e, x = .error e ∧ E e

/-- The second world has what the first one has; failures of the first for lack of something are in `E`. -/
structure Wider (E : Fail → Prop) (b : Bool) (w w' : World) : Prop where
  resolve : ∀ fs t, w'.resolve fs t = w.resolve fs t ∨ (w.resolve fs t = none ∧ ∀ l, E (.err (.targetResolution l t)))
  read : ∀ path, w'.read path = w.read path ∨ (w.read path = none ∧ E .exit)
  flag : b = true ∨ ∀ l t, E (.err (.targetResolution l t))

variable {E : Fail → Prop} {w w' : World}

theorem Rel.of {x y : M Parser} (h : Same b x y) : Rel E b x y := .inl h

theorem Rel.bind {x y : M Parser} {f g : Parser → M Parser} (h : Rel E b x y) (hf : ∀ q, Rel E b (f q) (g (rt b q))) :
    Rel E b (x >>= f) (y >>= g) := by
  rcases h with h | ⟨e, rfl, he⟩
  · unfold Same at h; subst h
    cases x with
    | error e => exact .inl rfl
    | ok q => exact hf q
  · exact .inr ⟨e, rfl, he⟩

theorem Rel.use {α : Type} {f g : α → M Parser} (x : M α) (hf : ∀ a, Rel E b (f a) (g a)) : Rel E b (x >>= f) (x >>= g) := by
  cases x with
  | error e => exact .inl rfl
  | ok a => exact hf a

theorem Rel.ite {c : Prop} [Decidable c] {x y x' y' : M Parser} (h1 : Rel E b x x') (h2 : Rel E b y y') :
    Rel E b (if c then x else y) (if c then x' else y') := by
  by_cases h : c
  · rw [if_pos h, if_pos h]; exact h1
  · rw [if_neg h, if_neg h]; exact h2

/-- Two functions for the recursive calls. -/
def Calls (E : Fail → Prop) (b : Bool) (f f' : Token → Parser → M Parser) : Prop := ∀ t p, Rel E b (f t p) (f' t (rt b p))

theorem rt_parseBlockImage (hw : Wider E b w w') (p : Parser) (t : Token) :
    Rel E b (parseBlockImage w p t) (parseBlockImage w' (rt b p) t) := by
  unfold parseBlockImage
  refine .use _ fun x => ?_
  obtain ⟨target, m⟩ := x
  have hc : checkTarget w' (rt b p) t.line target = checkTarget w p t.line target
      ∨ ∃ e, checkTarget w p t.line target = .error e ∧ E e := by
    unfold checkTarget
    rw [show (rt b p).files = p.files from rfl, show (rt b p).resolveTargets = (p.resolveTargets && b) from rfl]
    cases hr : p.resolveTargets with
    | false => exact .inl rfl
    | true =>
      rw [Bool.true_and]
      cases hb : b with
      | true =>
        rcases hw.resolve p.files target with h | ⟨h, he⟩
        · rw [h]; exact .inl rfl
        · right; rw [h]; exact ⟨_, rfl, he _⟩
      | false =>
        have he := hw.flag.resolve_left (by rw [hb]; decide)
        cases hx : w.resolve p.files target with
        | some x => exact .inl rfl
        | none => exact .inr ⟨_, rfl, he _ _⟩
  rcases hc with hc | ⟨e, hc, he⟩
  · dsimp only
    rw [hc]
    exact .use _ fun _ => .inl (rt_addToStackOrGraph { p with data := none, title := none } _)
  · right
    refine ⟨e, ?_, he⟩
    dsimp only
    rw [hc]; rfl

theorem rt_feed {f f' : Token → Parser → M Parser} (hf : Calls E b f f') (sl : Bool) : ∀ (is : List Item) (p : Parser),
    Rel E b (feed f sl is p) (feed f' sl is (rt b p))
  | [], p => .inl rfl
  | .tok t :: is, p => by
    refine .bind (hf t p) fun q => ?_
    cases sl
    · exact rt_feed hf false is q
    · exact rt_feed hf true is { q with lastTy := t.ty }
  | .err e :: _, _ => .inl rfl
  | .panic s :: _, _ => .inl rfl
  | .hang :: _, _ => .inl rfl

theorem rt_parseTableCell {f f' : Token → Parser → M Parser} (hf : Calls E b f f') (p : Parser) (t : Token) :
    Rel E b (parseTableCell f p t) (parseTableCell f' (rt b p) t) := by
  unfold parseTableCell
  refine .use _ fun x => .bind (.inl (rt_pushToStack p _)) fun q => ?_
  refine .bind (rt_feed (fun u p => ?_) false _ { q with dangling := none }) fun q => .inl (rt_addInlines { q with inBlockLine := false, forceNew := false })
  exact .use _ fun u' => hf u' p

theorem rt_includeToken {f f' : Token → Parser → M Parser} (hf : Calls E b f f') (a : Bool) (t : Token) (p : Parser) :
    Rel E b (includeToken f a t p) (includeToken f' a t (rt b p)) :=
  .ite (.bind (hf t p) fun _ => .inl rfl) (.inl (rt_parseText { p with lastTy := if t.ty = .eof then .eof else .text } t false))

theorem rt_includeLoop {f f' : Token → Parser → M Parser} (hf : Calls E b f f') (a te : Bool) (tags : List Str) :
    ∀ (is : List Item) (ls : List Int) (cur : Option Str) (p : Parser),
    Rel E b (includeLoop f a te tags is ls cur p) (includeLoop f' a te tags is ls cur (rt b p))
  | [], _, _, p => .inl rfl
  | .tok t :: is, ls, cur, p => by
    unfold includeLoop
    cases lineFilter ls te t.line with
    | none => exact rt_includeLoop hf a te tags is ls cur p
    | some ls' =>
      refine .use _ fun x => ?_
      obtain ⟨cur', keep⟩ := x
      exact .bind (.ite (rt_includeToken hf a t p) (.inl rfl)) fun q => rt_includeLoop hf a te tags is ls' cur' q
  | .err e :: _, _, _, _ => .inl rfl
  | .panic s :: _, _, _, _ => .inl rfl
  | .hang :: _, _, _, _ => .inl rfl

theorem rt_selection (p : Parser) (m : Option Meta) : (rt b p).selection m = (p.selection m).map fun x => (rt b x.1, x.2) := by
  unfold selection
  cases m with
  | none => rfl
  | some m =>
    dsimp only
    generalize m.attributes.get? b!"leveloffset" = lo
    generalize m.attributes.get? b!"lines" = li
    cases lo with
    | none =>
      cases li with
      | none => rfl
      | some v => show (Except.bind (selectLines v) _ : M _) = (Except.bind (selectLines v) _ : M _).map _; cases selectLines v <;> rfl
    | some o =>
      show (Except.bind ((rt b p).levelOffset o) _ : M _) = (Except.bind (p.levelOffset o) _ : M _).map _
      rw [show (rt b p).levelOffset o = (p.levelOffset o).map (rt b) from rt_levelOffset p o]
      cases p.levelOffset o with
      | error e => rfl
      | ok q =>
        cases li with
        | none => rfl
        | some v => show (Except.bind (selectLines v) _ : M _) = (Except.bind (selectLines v) _ : M _).map _; cases selectLines v <;> rfl

theorem rt_parseInclude (hw : Wider E b w w') {f f' : Token → Parser → M Parser} (hf : Calls E b f f') (p : Parser) (t : Token) :
    Rel E b (parseInclude w f p t) (parseInclude w' f' (rt b p) t) := by
  unfold parseInclude
  refine .use _ fun x => ?_
  obtain ⟨target, m⟩ := x
  dsimp only
  rw [rt_selection]
  cases p.selection m with
  | error e => exact .inl rfl
  | ok x =>
    obtain ⟨q, sel⟩ := x
    show Rel E b (match w.resolve q.files target with | none => _ | some path => _)
      (match w'.resolve q.files target with | none => _ | some path => _)
    rcases hw.resolve q.files target with h | ⟨h, he⟩
    · rw [h]
      cases w.resolve q.files target with
      | none => exact .inl rfl
      | some path =>
        dsimp only
        rcases hw.read path with h | ⟨h, he⟩
        · rw [h]
          cases w.read path with
          | none => exact .inl rfl
          | some src =>
            dsimp only
            refine .bind (rt_includeLoop hf _ _ _ _ _ _ { q with files := q.files ++ [target] }) fun r => ?_
            exact .bind (.inl (rt_addInlines r)) fun r => .bind (.inl (rt_drain _ _ r)) fun _ => .inl rfl
        · rw [h]
          exact .inr ⟨_, rfl, he⟩
    · rw [h]
      exact .inr ⟨_, rfl, he _⟩

theorem rt_dispatch (hw : Wider E b w w') {f f' : Token → Parser → M Parser} (hf : Calls E b f f') (p : Parser) (t : Token) :
    Rel E b (p.dispatchToken w f t) ((rt b p).dispatchToken w' f' t) := by
  unfold dispatchToken
  cases t.ty
  all_goals dsimp only
  all_goals first
    | with_reducible exact .of (rt_parseTitle p t)
    | with_reducible exact .of (rt_parseSection p t)
    | with_reducible exact .of (rt_parseAttribute p t)
    | with_reducible exact .of (rt_parseBlockMeta p t)
    | with_reducible exact .of (rt_parseInlineMeta p t)
    | with_reducible exact .of (rt_parseNewLine p t)
    | with_reducible exact .of (rt_parseText p t _)
    | with_reducible exact .of (rt_parseCharref p t)
    | with_reducible exact .of (.use _ fun x => rt_parseSpan p x)
    | with_reducible exact .of (rt_parseAttrRef p t)
    | with_reducible exact .of (rt_parseXref p t)
    | with_reducible exact .of (rt_parseFootnote p t)
    | with_reducible exact .of (rt_parseInlineImage p t)
    | with_reducible exact .of (rt_parseMacroClose p t)
    | with_reducible exact .of (rt_addToStackOrGraph p _)
    | with_reducible exact .of (rt_parseParent p t)
    | with_reducible exact .of (rt_parseQuoteVerse p t)
    | with_reducible exact .of (rt_parseLeaf p t)
    | with_reducible exact .of (rt_parseCallout p t)
    | with_reducible exact .of (rt_parseUnordered p t)
    | with_reducible exact .of (rt_parseOrdered p t)
    | with_reducible exact .of (rt_parseDlistTerm p t)
    | with_reducible exact .of (rt_parseAdmonition p t)
    | with_reducible exact .of (rt_parseContinuation p)
    | with_reducible exact .of (rt_parseCommentBlock p t)
    | exact .ite (.inl (rt_moveHeader p)) (.inl rfl)
    | with_reducible exact rt_parseTableCell hf p t
    | with_reducible exact rt_parseBlockImage hw p t
    | with_reducible exact rt_parseInclude hw hf p t
    | exact .inl rfl

theorem rt_step (hw : Wider E b w w') {f f' : Token → Parser → M Parser} (hf : Calls E b f f') : Calls E b (step w f) (step w' f') := by
  intro t p
  unfold step
  refine .bind (.ite (.inl (rt_moveHeader p)) (.inl rfl)) fun q => ?_
  show Rel E b _ (match q.verbatim t with | some pass => _ | none => _)
  cases q.verbatim t with
  | some pass => exact .inl (rt_parseText q t pass)
  | none => exact rt_dispatch hw hf q t

theorem rt_tokenInto (hw : Wider E b w w') : ∀ (k k' : Nat), k ≤ k' → (k = k' ∨ E .hang) → Calls E b (tokenInto w k) (tokenInto w' k')
  | 0, 0, _, _ => fun _ _ => .inl rfl
  | 0, _ + 1, _, h => fun _ _ => .inr ⟨_, rfl, h.resolve_left (by omega)⟩
  | k + 1, 0, h, _ => absurd h (by omega)
  | k + 1, k' + 1, h, h' => rt_step hw (rt_tokenInto hw k k' (by omega) (h'.imp_left (by omega)))

theorem rt_parse (hw : Wider E b w w') {k k' : Nat} (hk : k ≤ k') (hk' : k = k' ∨ E .hang) (items : List Item) (p : Parser) :
    Rel E b (Parser.parse w k items p) (Parser.parse w' k' items (rt b p)) := by
  unfold Parser.parse
  refine .bind (rt_feed (rt_tokenInto hw k k' hk hk') true items p) fun q => .inl ?_
  unfold finish
  exact .bind (rt_addInlines q) fun q => .bind (rt_drain _ _ q) fun _ => rfl

end Adoc.Parser
