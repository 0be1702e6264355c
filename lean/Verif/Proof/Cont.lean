import Verif.Proof.ParserInv
/-!
# In a box that is attached to a list item

While a block with delimiters is open, the flag that says that a block is attached to a list item is looked at in one place
only: newlines are not kept. One pass over the handlers of what can be in such a block: as long as no newline is pending when
text comes, they do with the flag what they do without it.
-/
namespace Adoc.Parser
open Block (liftB)

/-- The parser with the flag. -/
def ic (p : Parser) : Parser := { p with inCont := true, dangling := none }

/-- In a block with delimiters that is not attached. -/
structure In (p : Parser) : Prop where
  lines : ∃ l r, p.openLines = l :: r
  header : p.header = none
  cont : p.inCont = false

/-- What stays the same. -/
structure Stays (p q : Parser) : Prop where
  lines : q.openLines = p.openLines
  header : q.header = p.header
  cont : q.inCont = p.inCont
  text : q.openText = p.openText
  dangling : p.dangling = none → q.dangling = none

theorem Stays.rfl' {p : Parser} : Stays p p := ⟨rfl, rfl, rfl, rfl, id⟩

theorem Stays.trans {p q r : Parser} (h : Stays p q) (h' : Stays q r) : Stays p r :=
  ⟨h'.lines.trans h.lines, h'.header.trans h.header, h'.cont.trans h.cont, h'.text.trans h.text, fun x => h'.dangling (h.dangling x)⟩

theorem In.keep {p q : Parser} (h : In p) (hk : Stays p q) : In q :=
  ⟨by rw [hk.lines]; exact h.lines, hk.header.trans h.header, hk.cont.trans h.cont⟩

/-- The second outcome is that of the first, with the flag. -/
def Sim (p : Parser) (x y : M Parser) : Prop := y = x.map ic ∧ ∀ q, x = .ok q → Stays p q

theorem Sim.ok {p q : Parser} (h : Stays p q) : Sim p (.ok q) (.ok (ic q)) := ⟨rfl, fun _ e => by cases e; exact h⟩

theorem Sim.error {p : Parser} (e : Fail) : Sim p (.error e) (.error e) := ⟨rfl, fun _ e => by cases e⟩

theorem Sim.bind {p : Parser} {x y : M Parser} {f g : Parser → M Parser} (h : Sim p x y)
    (hf : ∀ q, Stays p q → Sim q (f q) (g (ic q))) : Sim p (x >>= f) (y >>= g) := by
  obtain ⟨rfl, h⟩ := h
  cases x with
  | error e => exact .error e
  | ok q =>
    have hk := h q rfl
    obtain ⟨h1, h2⟩ := hf q hk
    exact ⟨h1, fun r e => hk.trans (h2 r e)⟩

theorem Sim.use {α : Type} {p : Parser} {f g : α → M Parser} (x : M α) (hf : ∀ a, Sim p (f a) (g a)) : Sim p (x >>= f) (x >>= g) := by
  cases x with
  | error e => exact .error e
  | ok a => exact hf a

theorem Sim.ite {p : Parser} {c : Prop} [Decidable c] {x y x' y' : M Parser} (h1 : Sim p x x') (h2 : Sim p y y') :
    Sim p (if c then x else y) (if c then x' else y') := by
  by_cases h : c
  · rw [if_pos h, if_pos h]; exact h1
  · rw [if_neg h, if_neg h]; exact h2

theorem Sim.from {p p' : Parser} {x y : M Parser} (hk : Stays p p') (h : Sim p' x y) : Sim p x y :=
  ⟨h.1, fun q e => hk.trans (h.2 q e)⟩

theorem Sim.at {p p' : Parser} {x y : M Parser} (h : Sim p' x y) (hk : Stays p p') : Sim p x y := .from hk h

set_option hygiene false in
/-- Take a parser apart. -/
local macro "des " p:ident h:ident : tactic =>
  `(tactic| (
    obtain ⟨lastTy, header, attrs, blocks, inlines, files, title, data, openLines, openText, offset, inBlockLine,
      inSpan, inCont, forceNew, preserveNl, closeParent, dangling, resolveTargets, asg⟩ := $p
    obtain ⟨⟨line, lines, hlines⟩, hheader, hcont⟩ := $h
    dsimp only at hlines hheader hcont
    subst hlines hheader hcont))

/-- Everything that has to stay the same does so by computation. -/
local macro "kp" : term => `(⟨rfl, rfl, rfl, rfl, id⟩)

theorem ic_addText (p : Parser) (t : Token) (pass : Bool) : Sim p (p.addText t pass) ((ic p).addText t pass) := by
  obtain ⟨lastTy, header, attrs, blocks, inlines, files, title, data, openLines, openText, offset, inBlockLine,
    inSpan, inCont, forceNew, preserveNl, closeParent, dangling, resolveTargets, asg⟩ := p
  unfold addText
  dsimp only [ic]
  cases inlines with
  | nil => exact .ok kp
  | cons i rest =>
    cases i with
    | span v f is m l o => exact .ite (.ok kp) (.ok kp)
    | lit n v l => exact .ite (.ok kp) (.ok kp)
    | brk l => exact .ok kp
    | ref v g is m l => exact .ite (.ok kp) (.use _ fun _ => .ok kp)

theorem ic_danglingSpans (p : Parser) : Sim p p.danglingSpans (ic p).danglingSpans := by
  obtain ⟨lastTy, header, attrs, blocks, inlines, files, title, data, openLines, openText, offset, inBlockLine,
    inSpan, inCont, forceNew, preserveNl, closeParent, dangling, resolveTargets, asg⟩ := p
  unfold danglingSpans
  dsimp only [ic]
  cases splitFirst Inline.isOpen inlines with
  | none => exact .ok kp
  | some x =>
    obtain ⟨above, span, below⟩ := x
    refine .use _ fun pre => .use _ fun kids => ?_
    cases kids with
    | nil =>
      refine .from (p' := ⟨lastTy, header, attrs, blocks, above ++ below, files, title, data, openLines, openText, offset, inBlockLine,
        inSpan, inCont, forceNew, preserveNl, closeParent, dangling, resolveTargets, asg⟩) kp ?_
      exact ic_addText ⟨lastTy, header, attrs, blocks, above ++ below, files, title, data, openLines, openText, offset, inBlockLine,
        inSpan, inCont, forceNew, preserveNl, closeParent, dangling, resolveTargets, asg⟩ _ _
    | cons i is => exact .use _ fun _ => .ok kp

theorem ic_pushToStack (p : Parser) (h : In p) (x : Block) : Sim p (p.pushToStack x) ((ic p).pushToStack x) := by
  des p h
  unfold pushToStack
  dsimp only [ic]
  cases data with
  | none => exact .ok kp
  | some m => exact .use _ fun _ => .ok kp

theorem ic_newParagraph (p : Parser) (h : In p) : Sim p p.newParagraph (ic p).newParagraph := by
  des p h
  unfold newParagraph
  dsimp only [ic]
  generalize inlines.reverse = is
  have push : ∀ x, Sim ⟨lastTy, none, attrs, blocks, inlines, files, title, data, line :: lines, openText, offset, inBlockLine,
      inSpan, false, forceNew, preserveNl, closeParent, dangling, resolveTargets, asg⟩
      (pushToStack ⟨lastTy, none, attrs, blocks, [], files, title, data, line :: lines, openText, offset, inBlockLine,
      inSpan, false, forceNew, preserveNl, closeParent, dangling, resolveTargets, asg⟩ x)
      (pushToStack ⟨lastTy, none, attrs, blocks, [], files, title, data, line :: lines, openText, offset, inBlockLine,
      inSpan, true, forceNew, preserveNl, closeParent, none, resolveTargets, asg⟩ x) := fun x =>
    .at (ic_pushToStack ⟨lastTy, none, attrs, blocks, [], files, title, data, line :: lines, openText, offset, inBlockLine,
      inSpan, false, forceNew, preserveNl, closeParent, dangling, resolveTargets, asg⟩ ⟨⟨_, _, rfl⟩, rfl, rfl⟩ x) kp
  cases data with
  | none => exact push _
  | some m =>
    dsimp only
    have pick : ∀ (p : Parser) (loc : List Location) (F G : Location → M Parser), (∀ l, Sim p (F l) (G l)) →
        Sim p (match loc with | [] => .error (.panic .unwrap) | l0 :: _ => F l0) (match loc with | [] => .error (.panic .unwrap) | l0 :: _ => G l0) := by
      intro p loc F G h
      cases loc with
      | nil => exact .error _
      | cons l ls => exact h l
    refine pick _ _ _ _ fun l0 => ?_
    exact .ite (.use _ fun q => push _) (push _)

theorem ic_addInlines (p : Parser) (h : In p) : Sim p p.addInlines (ic p).addInlines := by
  unfold addInlines
  refine .ite (.ok .rfl') (.bind (.ite (ic_danglingSpans p) (.ok .rfl')) fun q hq => ?_)
  have hq' := h.keep hq
  have hn := ic_newParagraph q hq'
  des q hq'
  dsimp only [ic] at hn ⊢
  cases blocks with
  | nil => exact hn
  | cons l r => exact .ite (.use _ fun _ => .ok kp) hn

theorem ic_addLastItem (p : Parser) (h : In p) : Sim p p.addLastItem (ic p).addLastItem := by
  unfold addLastItem
  refine .from (p' := { p with forceNew := false }) kp (.bind (ic_addInlines { p with forceNew := false } ⟨h.1, h.2, h.3⟩) fun q hq => ?_)
  have hq' : In q := In.keep (p := { p with forceNew := false }) ⟨h.1, h.2, h.3⟩ hq
  clear hq
  des q hq'
  dsimp only [ic]
  cases blocks with
  | nil => exact .error _
  | cons item rest =>
    refine .ite ?_ ?_
    · cases rest with
      | nil => exact .ok kp
      | cons l r => exact .use _ fun _ => .ok kp
    · exact .at (ic_pushToStack ⟨lastTy, none, attrs, rest, inlines, files, title, data, line :: lines, openText, offset, inBlockLine,
        inSpan, false, forceNew, preserveNl, closeParent, dangling, resolveTargets, asg⟩ ⟨⟨_, _, rfl⟩, rfl, rfl⟩ _) kp

theorem ic_parseBlockMeta (p : Parser) (t : Token) : Sim p (p.parseBlockMeta t) ((ic p).parseBlockMeta t) :=
  .use _ fun _ => .ok kp

/-- Nothing is pending after a blank line. -/
theorem ic_blankLine (p : Parser) (h : In p) : Sim p p.blankLine (ic p).blankLine := by
  unfold blankLine
  des p h
  dsimp only [ic]
  refine .from (p' := ⟨lastTy, none, attrs, blocks, inlines, files, title, data, line :: lines, openText, offset, inBlockLine,
      inSpan, false, forceNew, preserveNl, closeParent, none, resolveTargets, asg⟩) ⟨rfl, rfl, rfl, rfl, fun _ => rfl⟩ ?_
  refine .bind (x := match blocks with
      | b :: _ => if b.isAnyItem then _ else _
      | [] => _) ?_ fun q hq => ?_
  · cases blocks with
    | nil => exact .ok .rfl'
    | cons x r => exact .ite (ic_addLastItem _ ⟨⟨_, _, rfl⟩, rfl, rfl⟩) (.ok .rfl')
  · have hq' : In q := In.keep ⟨⟨_, _, rfl⟩, rfl, rfl⟩ hq
    refine .from (p' := { q with inSpan := false }) kp (.bind (ic_addInlines { q with inSpan := false } ⟨hq'.1, hq'.2, hq'.3⟩) fun r hr => ?_)
    have hr' : In r := In.keep (p := { q with inSpan := false }) ⟨hq'.1, hq'.2, hq'.3⟩ hr
    clear hq hq' hr
    des r hr'
    dsimp only [ic]
    cases blocks with
    | nil => exact .ok kp
    | cons x r =>
      dsimp only
      simp only [List.isEmpty_cons, Bool.and_false, Bool.false_eq_true, if_false]
      exact .at (ic_pushToStack ⟨lastTy, none, attrs, r, inlines, files, title, data, line :: lines, openText, offset, inBlockLine,
        inSpan, false, true, preserveNl, closeParent, dangling, resolveTargets, asg⟩ ⟨⟨_, _, rfl⟩, rfl, rfl⟩ _) kp

/-- A newline. The flag has its effect, but what is pending does not matter. -/
theorem ic_parseNewLine (p : Parser) (h : In p) (t : Token) : (ic p).parseNewLine t = (p.parseNewLine t).map ic
    ∧ ∀ q, p.parseNewLine t = .ok q → In q ∧ q.openText = p.openText
      ∧ (p.lastTy = .newLineChar ∨ p.lastTy = .eof ∨ p.lastTy.clearsNewlineAfter = true → q.dangling = none) := by
  unfold parseNewLine
  des p h
  dsimp only [ic]
  have key : ∀ (title : Option (List Inline)) (inlines : List Inline), (if lastTy = .newLineChar ∨ lastTy = .eof then
        blankLine ⟨lastTy, none, attrs, blocks, inlines, files, title, data, line :: lines, openText, offset, false,
          inSpan, true, forceNew, preserveNl, closeParent, none, resolveTargets, asg⟩
      else if (true || lastTy.clearsNewlineAfter) = true then .ok ⟨lastTy, none, attrs, blocks, inlines, files, title, data, line :: lines, openText, offset, false,
          inSpan, true, forceNew, preserveNl, closeParent, none, resolveTargets, asg⟩
      else .ok ⟨lastTy, none, attrs, blocks, inlines, files, title, data, line :: lines, openText, offset, false,
          inSpan, true, forceNew, preserveNl, closeParent, some t, resolveTargets, asg⟩)
      = ((if lastTy = .newLineChar ∨ lastTy = .eof then
        blankLine ⟨lastTy, none, attrs, blocks, inlines, files, title, data, line :: lines, openText, offset, false,
          inSpan, false, forceNew, preserveNl, closeParent, dangling, resolveTargets, asg⟩
      else if (false || lastTy.clearsNewlineAfter) = true then .ok ⟨lastTy, none, attrs, blocks, inlines, files, title, data, line :: lines, openText, offset, false,
          inSpan, false, forceNew, preserveNl, closeParent, none, resolveTargets, asg⟩
      else .ok ⟨lastTy, none, attrs, blocks, inlines, files, title, data, line :: lines, openText, offset, false,
          inSpan, false, forceNew, preserveNl, closeParent, some t, resolveTargets, asg⟩ : M Parser)).map ic
      ∧ ∀ q, (if lastTy = .newLineChar ∨ lastTy = .eof then
        blankLine ⟨lastTy, none, attrs, blocks, inlines, files, title, data, line :: lines, openText, offset, false,
          inSpan, false, forceNew, preserveNl, closeParent, dangling, resolveTargets, asg⟩
      else if (false || lastTy.clearsNewlineAfter) = true then .ok ⟨lastTy, none, attrs, blocks, inlines, files, title, data, line :: lines, openText, offset, false,
          inSpan, false, forceNew, preserveNl, closeParent, none, resolveTargets, asg⟩
      else .ok ⟨lastTy, none, attrs, blocks, inlines, files, title, data, line :: lines, openText, offset, false,
          inSpan, false, forceNew, preserveNl, closeParent, some t, resolveTargets, asg⟩ : M Parser) = .ok q → In q ∧ q.openText = openText
        ∧ (lastTy = .newLineChar ∨ lastTy = .eof ∨ lastTy.clearsNewlineAfter = true → q.dangling = none) := by
    intro title inlines
    by_cases hl : lastTy = .newLineChar ∨ lastTy = .eof
    · simp only [if_pos hl]
      have hb := ic_blankLine ⟨lastTy, none, attrs, blocks, inlines, files, title, data, line :: lines, openText, offset, false,
          inSpan, false, forceNew, preserveNl, closeParent, dangling, resolveTargets, asg⟩ ⟨⟨_, _, rfl⟩, rfl, rfl⟩
      have hc := ic_blankLine ⟨lastTy, none, attrs, blocks, inlines, files, title, data, line :: lines, openText, offset, false,
          inSpan, false, forceNew, preserveNl, closeParent, none, resolveTargets, asg⟩ ⟨⟨_, _, rfl⟩, rfl, rfl⟩
      refine ⟨hb.1, fun q hq => ?_⟩
      have hk := hb.2 q hq
      exact ⟨In.keep ⟨⟨_, _, rfl⟩, rfl, rfl⟩ hk, hk.text, fun _ => (hc.2 q hq).dangling rfl⟩
    · simp only [if_neg hl]
      cases hcl : lastTy.clearsNewlineAfter with
      | true => exact ⟨rfl, fun q hq => by cases hq; exact ⟨⟨⟨_, _, rfl⟩, rfl, rfl⟩, rfl, fun _ => rfl⟩⟩
      | false =>
        refine ⟨rfl, fun q hq => by
          cases hq
          exact ⟨⟨⟨_, _, rfl⟩, rfl, rfl⟩, rfl, fun h => by
            rcases h with h | h | h
            · exact absurd (.inl h) hl
            · exact absurd (.inr h) hl
            · cases h⟩⟩
  cases title <;> exact key _ _

theorem ic_parseOrdered (p : Parser) (h : In p) (t : Token) (ht : t.ty ≠ .codeCalloutListItem) :
    Sim p (p.parseOrdered t) ((ic p).parseOrdered t) := by
  unfold parseOrdered
  des p h
  dsimp only [ic]
  simp only [if_neg ht]
  refine .from (p' := ⟨lastTy, none, attrs, blocks, inlines, files, title, data, line :: lines, openText, offset, inBlockLine,
      inSpan, false, forceNew, preserveNl, closeParent, none, resolveTargets, asg⟩) ⟨rfl, rfl, rfl, rfl, fun _ => rfl⟩ ?_
  refine .bind ?_ fun q hq => ic_pushToStack q (In.keep ⟨⟨_, _, rfl⟩, rfl, rfl⟩ hq) _
  cases blocks with
  | nil => exact ic_pushToStack ⟨lastTy, none, attrs, [], inlines, files, title, data, line :: lines, openText, offset, inBlockLine,
      inSpan, false, forceNew, preserveNl, closeParent, none, resolveTargets, asg⟩ ⟨⟨_, _, rfl⟩, rfl, rfl⟩ _
  | cons x r =>
    exact .ite (ic_addLastItem ⟨lastTy, none, attrs, x :: r, inlines, files, title, data, line :: lines, openText, offset, inBlockLine,
      inSpan, false, forceNew, preserveNl, closeParent, none, resolveTargets, asg⟩ ⟨⟨_, _, rfl⟩, rfl, rfl⟩)
      (ic_pushToStack ⟨lastTy, none, attrs, x :: r, inlines, files, title, data, line :: lines, openText, offset, inBlockLine,
      inSpan, false, forceNew, preserveNl, closeParent, none, resolveTargets, asg⟩ ⟨⟨_, _, rfl⟩, rfl, rfl⟩ _)

theorem ic_parseUnordered (p : Parser) (h : In p) (t : Token) : Sim p (p.parseUnordered t) ((ic p).parseUnordered t) := by
  unfold parseUnordered
  des p h
  dsimp only [ic]
  refine .from (p' := ⟨lastTy, none, attrs, blocks, inlines, files, title, data, line :: lines, openText, offset, inBlockLine,
      inSpan, false, forceNew, preserveNl, closeParent, none, resolveTargets, asg⟩) ⟨rfl, rfl, rfl, rfl, fun _ => rfl⟩ ?_
  refine .bind ?_ fun q hq => ic_pushToStack q (In.keep ⟨⟨_, _, rfl⟩, rfl, rfl⟩ hq) _
  cases blocks with
  | nil => exact ic_pushToStack ⟨lastTy, none, attrs, [], inlines, files, title, data, line :: lines, openText, offset, inBlockLine,
      inSpan, false, forceNew, preserveNl, closeParent, none, resolveTargets, asg⟩ ⟨⟨_, _, rfl⟩, rfl, rfl⟩ _
  | cons x r =>
    exact .ite (ic_addLastItem ⟨lastTy, none, attrs, x :: r, inlines, files, title, data, line :: lines, openText, offset, inBlockLine,
      inSpan, false, forceNew, preserveNl, closeParent, none, resolveTargets, asg⟩ ⟨⟨_, _, rfl⟩, rfl, rfl⟩)
      (ic_pushToStack ⟨lastTy, none, attrs, x :: r, inlines, files, title, data, line :: lines, openText, offset, inBlockLine,
      inSpan, false, forceNew, preserveNl, closeParent, none, resolveTargets, asg⟩ ⟨⟨_, _, rfl⟩, rfl, rfl⟩ _)

theorem ic_openSpan (p : Parser) (hd : p.dangling = none) (x : Inline) : Sim p (p.openSpan x) ((ic p).openSpan x) := by
  unfold openSpan
  rw [hd]
  refine .bind (.ok .rfl') fun q _ => .bind (ic_danglingSpans q) fun q _ => ?_
  obtain ⟨lastTy, header, attrs, blocks, inlines, files, title, data, openLines, openText, offset, inBlockLine,
    inSpan, inCont, forceNew, preserveNl, closeParent, dangling, resolveTargets, asg⟩ := q
  dsimp only [ic]
  cases data with
  | none => exact .ok kp
  | some m => exact .use _ fun _ => .ok kp

theorem ic_parseSpan (p : Parser) (hd : p.dangling = none) (x : Inline) : Sim p (p.parseSpan x) ((ic p).parseSpan x) := by
  have ho := ic_openSpan p hd x
  obtain ⟨lastTy, header, attrs, blocks, inlines, files, title, data, openLines, openText, offset, inBlockLine,
    inSpan, inCont, forceNew, preserveNl, closeParent, dangling, resolveTargets, asg⟩ := p
  unfold parseSpan
  dsimp only [ic] at ho ⊢
  cases inlines with
  | nil => exact ho
  | cons l r =>
    refine .ite (.use _ fun _ => .ok kp) ?_
    cases l with
    | span v f is m l o =>
      dsimp only
      cases closeOrAdd x is with
      | none => exact .ok kp
      | some r => exact .use _ fun _ => .ok kp
    | _ => exact ho

theorem ic_parseInlineImage (p : Parser) (t : Token) : Sim p (p.parseInlineImage t) ((ic p).parseInlineImage t) :=
  .use _ fun _ => .ok kp

theorem ic_parseFootnote (p : Parser) (t : Token) : Sim p (p.parseFootnote t) ((ic p).parseFootnote t) :=
  .use _ fun _ => .ok kp

theorem ic_parseXref (p : Parser) (t : Token) : Sim p (p.parseXref t) ((ic p).parseXref t) :=
  .use _ fun _ => .ok kp

theorem ic_parseMacroClose (p : Parser) (ho : p.openText = none) (t : Token) : Sim p (p.parseMacroClose t) ((ic p).parseMacroClose t) := by
  unfold parseMacroClose
  rw [if_neg (by rw [ho]; decide), if_neg (by rw [show (ic p).openText = p.openText from rfl, ho]; decide)]
  show Sim p _ (match splitFirst Inline.isMacro p.inlines with | some (a, x, y) => _ | none => _)
  cases splitFirst Inline.isMacro p.inlines with
  | none => exact ic_addText p t _
  | some x => exact .use _ fun _ => .use _ fun _ => .ok kp

theorem ic_parseText (p : Parser) (hd : p.dangling = none) (t : Token) (pass : Bool) : Sim p (p.parseText t pass) ((ic p).parseText t pass) := by
  unfold parseText
  rw [hd]
  exact ic_addText p t _

theorem ic_addCharref (p : Parser) (x : Inline) : Sim p (p.addCharref x) ((ic p).addCharref x) := by
  obtain ⟨lastTy, header, attrs, blocks, inlines, files, title, data, openLines, openText, offset, inBlockLine,
    inSpan, inCont, forceNew, preserveNl, closeParent, dangling, resolveTargets, asg⟩ := p
  unfold addCharref
  dsimp only [ic]
  cases inlines with
  | nil => exact .ok kp
  | cons i rest =>
    cases i with
    | span v f is m l o => exact .ite (.ok kp) (.ok kp)
    | lit n v l => exact .ok kp
    | brk l => exact .ok kp
    | ref v g is m l => exact .ite (.ok kp) (.ok kp)

theorem ic_parseCharref (p : Parser) (hd : p.dangling = none) (t : Token) : Sim p (p.parseCharref t) ((ic p).parseCharref t) := by
  unfold parseCharref
  rw [hd]
  exact ic_addCharref p _

/-- A delimiter of a verbatim block. -/
theorem ic_parseLeaf (p : Parser) (h : In p) (t : Token) : (ic p).parseLeaf t = (p.parseLeaf t).map ic
    ∧ ∀ q, p.parseLeaf t = .ok q → In q ∧ q.openText = (if p.openText.isSome then none else some t.ty)
      ∧ (p.dangling = none → q.dangling = none) := by
  have fin : ∀ (p' : Parser) (x : M Parser) (f : Parser → Parser) (y : M Parser), In p' → Sim p' x y → 
      (∀ q, ic (f q) = f (ic q)) → (∀ q, (f q).openLines = q.openLines ∧ (f q).header = q.header ∧ (f q).inCont = q.inCont ∧ (f q).dangling = q.dangling) →
      (y >>= fun q => .ok (f q)) = (x >>= fun q => .ok (f q)).map ic ∧ ∀ q, (x >>= fun q => .ok (f q)) = .ok q →
        ∃ r, q = f r ∧ Stays p' r ∧ In q ∧ (p'.dangling = none → q.dangling = none) := by
    intro p' x f y hp' hs hf hg
    obtain ⟨rfl, hs⟩ := hs
    cases x with
    | error e => exact ⟨rfl, fun q e => by cases e⟩
    | ok r =>
      have hk := hs r rfl
      refine ⟨by show (Except.ok (f (ic r)) : M Parser) = .ok (ic (f r)); rw [hf], fun q e => ?_⟩
      cases e
      have hi := hp'.keep hk
      obtain ⟨a1, a2, a3, a4⟩ := hg r
      exact ⟨r, rfl, hk, ⟨by rw [a1]; exact hi.1, a2.trans hi.2, a3.trans hi.3⟩, fun hd => a4.trans (hk.dangling hd)⟩
  unfold parseLeaf
  rw [show (ic p).openText = p.openText from rfl]
  cases ho : p.openText with
  | none =>
    dsimp only
    cases liftB (Block.leafFromToken t) with
    | error e => exact ⟨rfl, fun q e => by cases e⟩
    | ok b =>
      have hi : In { p with openText := some t.ty } := ⟨h.1, h.2, h.3⟩
      obtain ⟨f1, f2⟩ := fin { p with openText := some t.ty } _ (fun q => { q with forceNew := false }) _ hi
        (ic_pushToStack { p with openText := some t.ty } hi b) (fun _ => rfl) (fun _ => ⟨rfl, rfl, rfl, rfl⟩)
      refine ⟨f1, fun q hq => ?_⟩
      obtain ⟨r, rfl, g1, g2, g3⟩ := f2 q hq
      exact ⟨g2, g1.text, g3⟩
  | some ty =>
    dsimp only
    obtain ⟨a1, a2⟩ := ic_addInlines p h
    rw [a1]
    cases ha : p.addInlines with
    | error e => exact ⟨rfl, fun q e => by cases e⟩
    | ok p1 =>
      have hk := a2 p1 ha
      have hi := h.keep hk
      show ((match p1.blocks with | [] => _ | b :: rest => _ : M Parser)) = (match p1.blocks with | [] => _ | b :: rest => _ : M Parser).map ic
        ∧ ∀ q, (match p1.blocks with | [] => _ | b :: rest => _ : M Parser) = .ok q → _
      cases p1.blocks with
      | nil => exact ⟨rfl, fun q e => by cases e⟩
      | cons b rest =>
        dsimp only
        cases b.addLocations t.locations with
        | error e => exact ⟨rfl, fun q e => by cases e⟩
        | ok b' =>
          have hi' : In { p1 with blocks := rest } := ⟨hi.1, hi.2, hi.3⟩
          obtain ⟨f1, f2⟩ := fin { p1 with blocks := rest } _ (fun q => { q with openText := none }) _ hi'
            (ic_pushToStack { p1 with blocks := rest } hi' b') (fun _ => rfl) (fun _ => ⟨rfl, rfl, rfl, rfl⟩)
          refine ⟨f1, fun q hq => ?_⟩
          obtain ⟨r, rfl, g1, g2, g3⟩ := f2 q hq
          exact ⟨g2, rfl, fun hd => g3 (hk.dangling hd)⟩

end Adoc.Parser
