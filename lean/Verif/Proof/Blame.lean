import Verif.Spec.Blame
import Verif.Proof.ParserInv
/-!
# Which errors the parser returns
-/
namespace Adoc

/-- `P` holds of the error that `x` returns, if it returns one. -/
def Er {α : Type} (x : M α) (P : ParserError → Prop) : Prop := ∀ e, x = .error (.err e) → P e

namespace Er
variable {α β : Type} {P : ParserError → Prop}

theorem ok {a : α} : Er (.ok a) P := by intro e h; cases h
theorem pure {a : α} : Er (Pure.pure a : M α) P := by intro e h; cases h
theorem panic {s : Site} : Er (.error (.panic s) : M α) P := by intro e h; cases h
theorem hang : Er (.error .hang : M α) P := by intro e h; cases h
theorem exit : Er (.error .exit : M α) P := by intro e h; cases h
theorem err {e : ParserError} (h : P e) : Er (.error (.err e) : M α) P := by intro e' h'; cases h'; exact h
theorem bind {x : M α} {f : α → M β} (hx : Er x P) (hf : ∀ a, x = .ok a → Er (f a) P) : Er (x >>= f) P := by
  intro e h
  cases x with
  | error e' => cases h; exact hx e rfl
  | ok a => exact hf a rfl e h
theorem mono {x : M α} {R : ParserError → Prop} (h : Er x P) (hPR : ∀ e, P e → R e) : Er x R := fun e he => hPR e (h e he)
theorem ite {c : Prop} [Decidable c] {x y : M α} (hx : c → Er x P) (hy : ¬ c → Er y P) : Er (if c then x else y) P := by
  split
  · exact hx ‹_›
  · exact hy ‹_›
end Er

namespace Blame
open Spec Block Parser

/-- Errors without a place. -/
def U (e : ParserError) : Prop := nowhere e = true

/-- Errors about blocks. -/
def Be {α : Type} (x : Except BlockError α) : Prop := ∀ e, x = .error e → blockFault e = true

theorem Be.ok {α : Type} {a : α} : Be (.ok a) := by intro e h; cases h
theorem Be.err {α : Type} {e : BlockError} (h : blockFault e = true) : Be (.error e : Except BlockError α) := by
  intro e' h'; cases h'; exact h
theorem Be.bind {α β : Type} {x : Except BlockError α} {f : α → Except BlockError β} (hx : Be x) (hf : ∀ a, Be (f a)) : Be (x >>= f) := by
  intro e h
  cases x with
  | error e' => cases h; exact hx e rfl
  | ok a => exact hf a e h

theorem pushInline_be (b : Block) (i : Inline) : Be (b.pushInline i) := by
  unfold Block.pushInline
  split <;> first | exact .ok | exact .err rfl

theorem pushIntoLastList_be (item : Block) : ∀ bs, Be (pushIntoLastList item bs)
  | [] => .err rfl
  | [b] => by cases b <;> first | exact .ok | exact .err rfl
  | b :: c :: bs => by
    have ih := pushIntoLastList_be item (c :: bs)
    cases b <;> exact .bind ih fun _ => .ok

mutual
theorem pushBlock_be (x : Block) : ∀ b, Be (Block.pushBlock b x)
  | .section t m v bs l => by
    unfold Block.pushBlock
    split
    · exact .bind (pushSectionL_be x bs) fun _ => .ok
    · exact .ok
  | .list .. => by unfold Block.pushBlock; exact .ok
  | .dlist .. => by unfold Block.pushBlock; exact .ok
  | .listItem .. => by unfold Block.pushBlock; exact .ok
  | .dlistItem .. => by unfold Block.pushBlock; exact .ok
  | .parent .. => by
    unfold Block.pushBlock
    split
    · exact .bind (pushIntoLastList_be _ _) fun _ => .ok
    · split
      · exact .err rfl
      · exact .ok
  | .image .. => by unfold Block.pushBlock; exact .err rfl
  | .leaf .. => by unfold Block.pushBlock; exact .err rfl
  | .tableCell .. => by unfold Block.pushBlock; exact .err rfl
  | .brk .. => by unfold Block.pushBlock; exact .err rfl
theorem pushSectionL_be (x : Block) : ∀ bs, Be (Block.pushSectionL bs x)
  | [] => by unfold pushSectionL; exact .ok
  | [b] => by
    unfold pushSectionL
    split
    · exact .bind (pushBlock_be x b) fun _ => .ok
    · exact .ok
  | b :: c :: bs => by
    unfold pushSectionL
    exact .bind (pushSectionL_be x (c :: bs)) fun _ => .ok
end

theorem graph_be (g : Asg) (b : Block) : Be (g.pushBlock b) := by
  unfold Asg.pushBlock
  dsimp only
  split
  · exact .bind (pushSectionL_be _ _) fun _ => .ok
  · exact .ok

theorem lift_er {α : Type} {x : Except BlockError α} (h : Be x) : Er (liftB x) U := by
  intro e he
  cases x with
  | ok a => cases he
  | error b => cases he; exact h b rfl

theorem pushB_er (b x : Block) : Er (liftB (b.pushBlock x)) U := lift_er (pushBlock_be x b)
theorem pushI_er (b : Block) (i : Inline) : Er (liftB (b.pushInline i)) U := lift_er (pushInline_be b i)
theorem line_er (b : Block) : Er (liftB b.line) U := by
  unfold Block.line
  split
  · exact .ok
  · exact .err rfl

variable {P : ParserError → Prop}

theorem slice_er (s : Str) (i j : Nat) : Er (sliceM s i j) P := by
  unfold sliceM
  split
  · exact .ok
  · exact .panic

theorem addMetaB_er (b : Block) (m : Meta) : Er (b.addMeta m) U := by
  unfold Block.addMeta
  repeat' split
  all_goals first | exact .ok | exact .panic | exact .err rfl

theorem addLocations_er (b : Block) (l : List Location) : Er (b.addLocations l) P := by
  unfold Block.addLocations
  split <;> first | exact .ok | exact .panic

theorem pushInlineI_er (x y : Inline) : Er (x.pushInline y) P := by
  unfold Inline.pushInline
  split <;> first | exact .ok | exact .panic

theorem markup_er (x : Inline) : Er x.markupLiteral P := by
  unfold Inline.markupLiteral
  repeat' split
  all_goals first | exact .ok | exact .panic

theorem prepend_er (s : Str) (l : Option (List Location)) (is : List Inline) : Er (Inline.prependFirst s l is) P := by
  unfold Inline.prependFirst
  split <;> first | exact .ok | exact .panic

mutual
theorem flatten_er : ∀ x : Inline, Er x.flatten P
  | .span v f is m l true => by
    unfold Inline.flatten
    exact .bind (markup_er _) fun _ _ => .bind (spanInlines_er is) fun _ _ => prepend_er _ _ _
  | .span v f is m l false => by unfold Inline.flatten; exact .ok
  | .ref .. => by unfold Inline.flatten; exact .ok
  | .lit .. => by unfold Inline.flatten; exact .ok
  | .brk .. => by unfold Inline.flatten; exact .ok
theorem spanInlines_er : ∀ is : List Inline, Er (Inline.spanInlines is) P
  | [] => by unfold Inline.spanInlines; exact .ok
  | x :: r => by
    unfold Inline.spanInlines
    exact .bind (flatten_er x) fun _ _ => .bind (spanInlines_er r) fun _ _ => .ok
end

theorem children_er (x : Inline) : Er x.childInlines P := by
  unfold Inline.childInlines
  split
  · exact spanInlines_er _
  · exact .panic

theorem addMetaI_er (x : Inline) (m : Meta) : Er (x.addMeta m) P := by
  unfold Inline.addMeta
  split <;> first | exact .ok | exact .panic

theorem close_er (x : Inline) : Er x.close P := by
  unfold Inline.close
  split <;> first | exact .ok | exact .panic

theorem consolidateT_er (x : Inline) (t : Token) : Er (x.consolidateFromToken t) P := by
  unfold Inline.consolidateFromToken
  split <;> first | exact .ok | exact .panic

theorem span_er (t : Token) : Er (Inline.spanFromToken t) P := by
  unfold Inline.spanFromToken
  repeat' split
  all_goals first | exact .ok | exact .panic | exact .bind (slice_er _ _ _) fun _ _ => .ok

theorem xrefTok_er (t : Token) : Er (Inline.xrefFromToken t) P := .bind (slice_er _ _ _) fun _ _ => .ok

theorem refAdd_er (t : Token) (pass : Bool) : ∀ is : List Inline, Er (Inline.refAddText is t pass) P
  | [] => .ok
  | [.span ..] => .ok
  | [.lit ..] => .ok
  | [.ref ..] => .panic
  | [.brk ..] => .panic
  | x :: y :: r => by
    have ih := refAdd_er t pass (y :: r)
    cases x <;> exact .bind ih fun _ _ => .ok

theorem keyValues_er (s : Str) : Er (keyValues s) P := by
  unfold keyValues
  repeat' first | split | exact .ok | exact .panic | exact slice_er _ _ _ | refine .bind ?_ fun _ _ => ?_

theorem processAttribute_er (m : Meta) (i : Nat) (s : Str) : Er (m.processAttribute i s) P := by
  unfold Meta.processAttribute
  repeat' first | split | exact .ok | exact .panic | exact slice_er _ _ _ | refine .bind ?_ fun _ _ => ?_

theorem processOne_er (m : Meta) (i : Nat) (s : Str) : Er (m.processOne i s) P := by
  unfold Meta.processOne
  repeat' first | split | exact .ok | exact .panic | exact keyValues_er _ | exact processAttribute_er _ _ _ | exact slice_er _ _ _ | refine .bind ?_ fun _ _ => ?_

theorem processFrom_er : ∀ (l : List Str) (m : Meta) (i : Nat), Er (m.processFrom i l) P
  | [], _, _ => .ok
  | s :: l, m, i => .bind (processOne_er m i s) fun m' _ => processFrom_er l m' (i + 1)

theorem inlineTok_er (t : Token) : Er (Meta.inlineFromToken t) P := by
  unfold Meta.inlineFromToken
  repeat' first | split | exact .ok | exact .panic | exact slice_er _ _ _ | exact processFrom_er _ _ _ | refine .bind ?_ fun _ _ => ?_

theorem blockTok_er (t : Token) : Er (Meta.blockFromToken t) P := by
  unfold Meta.blockFromToken
  repeat' first | split | exact .ok | exact .panic | exact slice_er _ _ _ | exact processFrom_er _ _ _ | refine .bind ?_ fun _ _ => ?_

theorem addTok_er (m : Meta) (t : Token) : Er (m.addFromToken t) P := by
  unfold Meta.addFromToken
  repeat' first | split | exact .ok | exact .panic | exact blockTok_er _ | exact slice_er _ _ _ | exact processFrom_er _ _ _ | refine .bind ?_ fun _ _ => ?_

theorem simplify_er (m : Meta) : Er m.simplifyCols P := by
  unfold Meta.simplifyCols
  repeat' first | split | exact .ok | exact .panic | exact slice_er _ _ _ | refine .bind ?_ fun _ _ => ?_

theorem target_er (t : Token) : Er (targetAndAttrs t) P := by
  unfold targetAndAttrs
  repeat' first | split | exact .ok | exact .panic | exact slice_er _ _ _ | exact processFrom_er _ _ _ | refine .bind ?_ fun _ _ => ?_

theorem tag_er (t : Token) : Er t.tag P := by
  unfold Token.tag
  repeat' first | split | exact .ok | exact .panic | exact slice_er _ _ _ | refine .bind ?_ fun _ _ => ?_

theorem ranges_er : ∀ l : List Str, Er (rangesOf l) P
  | [] => .ok
  | s :: l => by
    refine .bind ?_ fun _ _ => .bind (ranges_er l) fun _ _ => .ok
    unfold rangePiece
    dsimp only
    repeat' split
    all_goals first | exact .ok | exact .panic

theorem selectLines_er (s : Str) : Er (selectLines s) P := by
  unfold selectLines
  refine .bind (ranges_er _) fun _ _ => ?_
  split <;> exact .ok

theorem tableInfo_er {b : Block} (h : b.isTable = true) : Er b.tableInfo U := by
  unfold Block.tableInfo
  split
  · repeat' first | split | exact .ok | exact .panic | exact .exit | exact line_er _ | exact simplify_er _ | refine .bind ?_ fun _ _ => ?_ | dsimp only
  · cases b <;> first | cases h; done | (rename_i h'; exact absurd rfl (h' _ _ _ _ _ _ _))

/-! ## The parser -/

section
variable (p : Parser)

theorem graphPush_er (b : Block) : Er (p.graphPush b) U := by
  unfold Parser.graphPush
  intro e he
  split at he
  · cases he
  · rename_i e' h'; cases he; exact graph_be _ _ e' h'

theorem addText_er (t : Token) (pass : Bool) : Er (p.addText t pass) P := by
  unfold Parser.addText
  dsimp only
  repeat' first | split | exact .ok | exact refAdd_er _ _ _ | refine .bind ?_ fun _ _ => ?_

theorem dangling_er : Er p.danglingSpans P := by
  unfold Parser.danglingSpans
  repeat' first | split | exact .ok | exact markup_er _ | exact children_er _ | exact prepend_er _ _ _ | exact addText_er _ _ _ | refine .bind ?_ fun _ _ => ?_

theorem pushToStack_er (b : Block) : Er (p.pushToStack b) U := by
  unfold Parser.pushToStack
  repeat' first | split | exact .ok | exact .err rfl | exact pushB_er _ _ | exact addMetaB_er _ _ | refine .bind ?_ fun _ _ => ?_

theorem pushInlines_er : ∀ (is : List Inline) (b : Block), Er (pushInlines b is) U
  | [], _ => .ok
  | i :: is, b => .bind (pushI_er b i) fun b' _ => pushInlines_er is b'

theorem newParagraph_er : Er p.newParagraph U := by
  unfold Parser.newParagraph
  dsimp only
  repeat' first | split | exact .ok | exact .panic | exact .err rfl | exact pushB_er _ _ | exact pushToStack_er _ _ | refine .bind ?_ fun _ _ => ?_

theorem addInlines_er : Er p.addInlines U := by
  unfold Parser.addInlines
  repeat' first | split | exact .ok | exact dangling_er _ | exact pushInlines_er _ _ | exact newParagraph_er _ | refine .bind ?_ fun _ _ => ?_

theorem addLastItem_er : Er p.addLastItem U := by
  unfold Parser.addLastItem
  repeat' first | split | exact .ok | exact .panic | exact addInlines_er _ | exact pushB_er _ _ | exact pushToStack_er _ _ | refine .bind ?_ fun _ _ => ?_

theorem addTo_er (b : Block) : Er (p.addToStackOrGraph b) U := by
  unfold Parser.addToStackOrGraph
  dsimp only
  repeat' first | split | exact .ok | exact graphPush_er _ _ | exact addMetaB_er _ _ | exact pushB_er _ _ | refine .bind ?_ fun _ _ => ?_

theorem addLastTo_er (h : p.blocks ≠ []) : Er p.addLastToStackOrGraph U := by
  unfold Parser.addLastToStackOrGraph
  repeat' first | split | exact .ok | exact graphPush_er _ _ | exact pushB_er _ _ | refine .bind ?_ fun _ _ => ?_
  all_goals exact absurd ‹_› h

theorem addLastToGraph_er : Er p.addLastToGraph U := by
  unfold Parser.addLastToGraph
  repeat' first | split | exact .ok | exact graphPush_er _ _ | exact addMetaB_er _ _ | exact pushB_er _ _ | refine .bind ?_ fun _ _ => ?_

theorem drain_er (n : Nat) : ∀ (k : Nat) (p : Parser), Er (drain n k p) U
  | 0, _ => .ok
  | k + 1, p => by
    unfold drain
    split
    · exact .bind (addLastToGraph_er _) fun q _ => drain_er n k q
    · exact .ok

theorem moveHeader_er : Er p.moveHeader U := by
  unfold Parser.moveHeader
  repeat' first | split | exact .ok | exact addInlines_er _ | refine .bind ?_ fun _ _ => ?_

theorem levelOffset_er (v : Str) : Er (p.levelOffset v) U := by
  unfold Parser.levelOffset
  dsimp only
  repeat' split
  all_goals first | exact .ok | exact .panic | exact .err rfl

theorem parseAttribute_er (t : Token) : Er (p.parseAttribute t) U := by
  unfold Parser.parseAttribute
  dsimp only
  repeat' first | split | exact .ok | exact .panic | exact levelOffset_er _ _

theorem blockMeta_er (t : Token) : Er (p.parseBlockMeta t) U := by
  unfold Parser.parseBlockMeta
  repeat' first | split | exact .ok | exact addTok_er _ _ | exact blockTok_er _ | refine .bind ?_ fun _ _ => ?_

theorem inlineMeta_er (t : Token) : Er (p.parseInlineMeta t) U := .bind (inlineTok_er _) fun _ _ => .ok

theorem blankLine_er : Er p.blankLine U := by
  unfold Parser.blankLine
  dsimp only
  split
  · exact moveHeader_er _
  · refine .bind ?_ fun q _ => .bind (addInlines_er _) fun q' _ => ?_
    · repeat' first | split | exact .ok | exact addLastItem_er _
    · repeat' split
      · exact .ok
      · refine .bind (addTo_er _ _) fun r _ => ?_
        split
        · rename_i h
          exact .bind (addLastTo_er _ (by intro h'; rw [h'] at h; simp at h)) fun _ _ => .ok
        · exact .ok
      · exact pushToStack_er _ _

theorem newLine_er (t : Token) : Er (p.parseNewLine t) U := by
  unfold Parser.parseNewLine
  dsimp only
  repeat' first | split | exact .ok | exact blankLine_er _

theorem dlist_er (t : Token) : Er (p.parseDlistTerm t) U := by
  unfold Parser.parseDlistTerm
  dsimp only
  repeat' first | split | exact .ok | exact addInlines_er _ | exact addLastItem_er _ | exact pushToStack_er _ _ | refine .bind ?_ fun _ _ => ?_

theorem ordered_er (t : Token) : Er (p.parseOrdered t) U := by
  unfold Parser.parseOrdered
  dsimp only
  repeat' first | split | exact .ok | exact addLastItem_er _ | exact pushToStack_er _ _ | refine .bind ?_ fun _ _ => ?_
  all_goals exact addLastTo_er _ (by intro h'; simp_all)

theorem unordered_er (t : Token) : Er (p.parseUnordered t) U := by
  unfold Parser.parseUnordered
  dsimp only
  repeat' first | split | exact .ok | exact addLastItem_er _ | exact pushToStack_er _ _ | refine .bind ?_ fun _ _ => ?_

/-- Errors at a heading. -/
def HeadingFault (t : Token) (e : ParserError) : Prop :=
  nowhere e = true ∨ (∃ n o, levelOf t.ty = some n ∧ ¬(1 ≤ n + o ∧ n + o ≤ 4) ∧ e = .headingOffset t.line o)
  ∨ t.ty = .heading1 ∧ t.firstLocation ≠ ⟨1, 1, []⟩ ∧ e = .topLevelHeading t.line

theorem level_er (t : Token) (h : levelOf t.ty ≠ none) : Er (p.headingLevel t) (HeadingFault t) := by
  have he : baseLevel t.ty = levelOf t.ty := by cases t.ty <;> rfl
  unfold Parser.headingLevel
  rw [he]
  split
  · exact absurd ‹_› h
  · dsimp only
    repeat' split
    · exact .panic
    · exact .ok
    · rename_i n hn _ hc
      exact .err (.inr (.inl ⟨n, p.offset, hn, hc, rfl⟩))

theorem section_er (t : Token) (h : levelOf t.ty ≠ none) : Er (p.parseSection t) (HeadingFault t) := by
  unfold Parser.parseSection
  refine .bind (level_er p t h) fun v _ => ?_
  refine Er.mono (P := U) ?_ fun e he => .inl he
  repeat' first | split | exact .ok | exact pushToStack_er _ _ | refine .bind ?_ fun _ _ => ?_
  all_goals exact addLastTo_er _ (by intro h'; simp_all)

theorem title_er (t : Token) (h : t.ty = .heading1) : Er (p.parseTitle t) (HeadingFault t) := by
  unfold Parser.parseTitle
  repeat' split
  · exact section_er p t (by rw [h]; simp [levelOf])
  · exact .ok
  · exact .err (.inr (.inr ⟨h, ‹_›, rfl⟩))

theorem admonition_er (t : Token) (h : ∃ k, parentKind t.ty = some k) : Er (p.parseAdmonition t) U := by
  unfold Parser.parseAdmonition
  refine .bind ?_ fun _ _ => .ok
  unfold Block.parentFromToken
  obtain ⟨⟨n, v⟩, hk⟩ := h
  rw [hk]
  exact .ok

theorem continuation_er : Er p.parseContinuation U := .bind (addInlines_er _) fun _ _ => .ok

theorem closeOrAdd_er (i : Inline) : ∀ (is : List Inline) (r : M (List Inline)), closeOrAdd i is = some r → Er r U
  | [], _, h => by cases h
  | [y], r, h => by
    unfold closeOrAdd at h
    split at h
    · cases h; exact .bind (close_er _) fun _ _ => .ok
    · cases h
  | y :: z :: ys, r, h => by
    unfold closeOrAdd at h
    cases hr : closeOrAdd i (z :: ys) with
    | none => rw [hr] at h; cases h
    | some r' =>
      rw [hr] at h
      cases h
      exact .bind (closeOrAdd_er i (z :: ys) r' hr) fun _ _ => .ok

theorem openSpan_er (i : Inline) : Er (p.openSpan i) U := by
  unfold Parser.openSpan
  repeat' first | split | exact .ok | exact addText_er _ _ _ | exact dangling_er _ | exact addMetaI_er _ _ | refine .bind ?_ fun _ _ => ?_

theorem spanP_er (i : Inline) : Er (p.parseSpan i) U := by
  unfold Parser.parseSpan
  repeat' first | split | exact .ok | exact close_er _ | exact openSpan_er _ _ | exact closeOrAdd_er _ _ _ ‹_› | refine .bind ?_ fun _ _ => ?_

theorem names_of {t : Token} {r : Str × Option Meta} (h : targetAndAttrs t = .ok r) (hty : t.ty = .include ∨ t.ty = .blockImageMacro) : Names t r.1 := by
  unfold targetAndAttrs at h
  have hn : macroPrefix t.ty = some (if t.ty = .include then 9 else 7) := by
    rcases hty with h | h <;> rw [h] <;> rfl
  rw [hn] at h
  dsimp only at h
  generalize hk : (if t.ty = .include then 9 else 7) = k at *
  cases hs : sliceM t.text k t.text.length with
  | error e => rw [hs] at h; cases h
  | ok rest =>
    rw [hs] at h
    have hrest : rest = t.text.drop k := by
      unfold sliceM at hs
      split at hs
      · rename_i x hx
        cases hs
        unfold slice at hx
        split at hx
        · cases hx
          exact List.take_of_length_le (by simp)
        · cases hx
      · cases hs
    have hb : ∀ m, sliceM rest ((rest.takeWhile (· != c!"[")).length + 1) (rest.length - 1) = .ok m → r.1 = rest.takeWhile (· != c!"[") →
        Names t r.1 := by
      intro m hm hr
      rw [hr]
      have hlen : (rest.takeWhile (· != c!"[")).length < rest.length := by
        unfold sliceM at hm
        split at hm
        · rename_i x hx
          unfold slice at hx
          split at hx
          · rename_i hc; omega
          · cases hx
        · cases hm
      refine ⟨?_, fun hmem => ?_⟩
      · rw [hk, ← hrest]
        have hd := List.takeWhile_append_dropWhile (p := (· != c!"[")) (l := rest)
        cases hdw : rest.dropWhile (· != c!"[") with
        | nil => rw [hdw, List.append_nil] at hd; rw [hd] at hlen; omega
        | cons b bs =>
          have hb := List.head_dropWhile_not (p := (· != c!"[")) (l := rest) (by rw [hdw]; simp)
          simp only [hdw, List.head_cons, bne_eq_false_iff_eq] at hb
          rw [hdw, hb] at hd
          exact ⟨bs, hd.symm⟩
      · have : ∀ l : Str, c!"[" ∉ l.takeWhile (· != c!"[") := by
          intro l
          induction l with
          | nil => simp
          | cons b l ih =>
            rw [List.takeWhile_cons]
            split
            · rename_i hb
              simp only [List.mem_cons, not_or]
              exact ⟨fun h => by simp [← h] at hb, ih⟩
            · simp
        exact this _ hmem
    change (sliceM rest _ _ >>= _) = _ at h
    cases hm : sliceM rest ((rest.takeWhile (· != c!"[")).length + 1) (rest.length - 1) with
    | error e => rw [hm] at h; cases h
    | ok m =>
      rw [hm] at h
      refine hb m hm ?_
      change (if m.isEmpty = true then _ else _) = _ at h
      split at h
      · cases h; rfl
      · cases hp : Meta.processAttributes { inlineMeta := true } (extractAttributes m) with
        | error e => rw [hp] at h; cases h
        | ok mm => rw [hp] at h; cases h; rfl

variable (w : World)

/-- Errors at an image or an include directive. -/
def TargetFault (w : World) (fs : List Str) (t : Token) (e : ParserError) : Prop :=
  nowhere e = true ∨ ∃ target, Names t target ∧ w.resolve fs target = none ∧ e = .targetResolution t.line target

theorem image_er (t : Token) (h : t.ty = .blockImageMacro) : Er (p.parseBlockImage w t) (TargetFault w p.files t) := by
  unfold Parser.parseBlockImage
  refine .bind (target_er t) fun r hr => ?_
  obtain ⟨target, m⟩ := r
  refine .bind ?_ fun _ _ => (addTo_er _ _).mono fun e he => .inl he
  unfold checkTarget
  repeat' split
  · exact .ok
  · exact .err (.inr ⟨target, names_of hr (.inr h), ‹_›, rfl⟩)
  · exact .ok

theorem inlineImage_er (t : Token) : Er (p.parseInlineImage t) U := .bind (target_er t) fun _ _ => .ok
theorem footnote_er (t : Token) : Er (p.parseFootnote t) U := .bind (span_er t) fun _ _ => .ok

theorem absorb_er : ∀ (is : List Inline) (x : Inline), Er (absorb x is) U
  | [], _ => .ok
  | i :: is, x => .bind (pushInlineI_er x i) fun y _ => absorb_er is y

theorem macroClose_er (t : Token) : Er (p.parseMacroClose t) U := by
  unfold Parser.parseMacroClose
  repeat' first | split | exact .ok | exact absorb_er _ _ | exact consolidateT_er _ _ | exact addText_er _ _ _ | refine .bind ?_ fun _ _ => ?_

theorem text_er (t : Token) (pass : Bool) : Er (p.parseText t pass) U := by
  unfold Parser.parseText
  repeat' first | split | exact .ok | exact addText_er _ _ _ | refine .bind ?_ fun _ _ => ?_

theorem attrRef_er (t : Token) : Er (p.parseAttrRef t) U := by
  unfold Parser.parseAttrRef
  repeat' first | split | exact .panic | exact slice_er _ _ _ | exact text_er _ _ _ | refine .bind ?_ fun _ _ => ?_

theorem xref_er (t : Token) : Er (p.parseXref t) U := .bind (xrefTok_er t) fun _ _ => .ok

theorem callout_er (t : Token) : Er (p.parseCallout t) U := by
  unfold Parser.parseCallout
  repeat' first | split | exact .ok | exact .panic | exact span_er _ | refine .bind ?_ fun _ _ => ?_

theorem addCharref_er (x : Inline) : Er (p.addCharref x) U := by
  unfold Parser.addCharref
  repeat' first | split | exact .ok

theorem charref_er (t : Token) : Er (p.parseCharref t) U := by
  unfold Parser.parseCharref
  dsimp only
  repeat' first | split | exact .ok | exact addText_er _ _ _ | exact addCharref_er _ _ | refine .bind ?_ fun _ _ => ?_

/-- Errors at the delimiter of a block of text. -/
def LeafFault (t : Token) (e : ParserError) : Prop := nowhere e = true ∨ isLeafDelimiter t.ty = true ∧ e = .openParse t.line

theorem leaf_er (t : Token) (h : isLeafDelimiter t.ty = true) : Er (p.parseLeaf t) (LeafFault t) := by
  have hu : ∀ {α : Type} {x : M α}, Er x U → Er x (LeafFault t) := fun h => h.mono fun e he => .inl he
  have hl : ∃ n, leafName t.ty = some n := by
    generalize t.ty = ty at h
    cases ty <;> first | cases h; done | exact ⟨_, rfl⟩
  obtain ⟨n, hn⟩ := hl
  unfold Parser.parseLeaf
  split
  · refine .bind (hu (addInlines_er _)) fun q _ => ?_
    split
    · exact .err (.inr ⟨h, rfl⟩)
    · refine .bind (addLocations_er _ _) fun _ _ => .bind (hu (pushToStack_er _ _)) fun _ _ => .ok
  · refine .bind ?_ fun _ _ => .bind (hu (pushToStack_er _ _)) fun _ _ => .ok
    unfold Block.leafFromToken
    rw [hn]
    exact .ok

theorem pushBlocks_er : ∀ (l : List Block) (b : Block), Er (pushBlocks b l) U
  | [], _ => .ok
  | x :: xs, b => .bind (pushB_er b x) fun c _ => pushBlocks_er xs c

theorem closeParent_er (a b : List Block) (n : ParentName) (v : Option ParentVariant) (d : Str) (bs : List Block) (ti : List Inline)
    (m : Option Meta) (l loc : List Location) : Er (p.closeParentBlock a b n v d bs ti m l loc) U := by
  unfold Parser.closeParentBlock
  refine .bind (addInlines_er _) fun q _ => ?_
  split
  · exact .err rfl
  · split
    · exact .err rfl
    · dsimp only
      refine .bind (pushBlocks_er _ _) fun c _ => .bind ?_ fun c' _ => .bind (pushToStack_er _ _) fun _ _ => .ok
      split
      · exact tableInfo_er ‹_›
      · exact .ok

theorem parent_er (t : Token) (h : ∃ k, parentKind t.ty = some k) : Er (p.parseParent t) U := by
  obtain ⟨⟨n, v⟩, hk⟩ := h
  unfold Parser.parseParent
  rw [hk]
  dsimp only
  repeat' first | split | exact closeParent_er _ _ _ _ _ _ _ _ _ _ _ | exact pushToStack_er _ _

theorem comment_er (t : Token) (h : t.ty = .commentBlock) : Er (p.parseCommentBlock t) (LeafFault t) := by
  unfold Parser.parseCommentBlock
  repeat' split
  · exact .ok
  · exact .ok
  · exact leaf_er p t (by rw [h]; rfl)

theorem quote_er (t : Token) (h : t.ty = .quoteVerseBlock) : Er (p.parseQuoteVerse t) (LeafFault t) := by
  have h1 := leaf_er p t (by rw [h]; rfl)
  have h2 : Er (p.parseParent t) (LeafFault t) := (parent_er p t (by rw [h]; exact ⟨_, rfl⟩)).mono fun e he => .inl he
  unfold Parser.parseQuoteVerse
  repeat' split
  all_goals first | exact h1 | exact h2

theorem selection_er (m : Option Meta) : Er (p.selection m) U := by
  unfold Parser.selection
  repeat' first | split | exact .ok | exact levelOffset_er _ _ | exact selectLines_er _ | refine .bind ?_ fun _ _ => ?_

theorem tagFilter_er (tags : List Str) (cur : Option Str) (t : Token) : Er (tagFilter tags cur t) U := by
  unfold tagFilter
  repeat' first | split | exact .ok | exact tag_er _ | refine .bind ?_ fun _ _ => ?_

end

/-! ## Texts that are read -/

section
variable {w : World} {src : Str}

theorem good : Good (fun _ => True) where
  nonsec _ _ _ := trivial
  sec _ _ _ _ := trivial
  same _ _ _ _ _ := trivial
  push _ _ _ _ _ _ _ := trivial

/-- Every stack that occurs. -/
abbrev S (p : Parser) : Prop := StackOk (fun _ => True) p.blocks

/-- The errors of `f` on tokens that are read are explained. -/
structure Call (w : World) (src : Str) (f : Token → Parser → M Parser) : Prop where
  rel : CallOk (fun _ => True) f
  er : ∀ {items : List Item} {t : Token} {p : Parser}, Read w src p.files items → Reached items (.tok t) → S p → Er (f t p) (Fault w src)

theorem Fault.u {e : ParserError} (h : U e) : Fault w src e := .other h

theorem _root_.Adoc.Spec.Reached.head {it : Item} {rest : List Item} : Reached (it :: rest) it := ⟨[], rest, rfl⟩

theorem _root_.Adoc.Spec.Reached.cons {t : Token} {it : Item} {rest : List Item} (h : Reached rest it) : Reached (.tok t :: rest) it := by
  obtain ⟨toks, r, rfl⟩ := h
  exact ⟨t :: toks, r, rfl⟩

theorem _root_.Adoc.Spec.Reached.inCell {c : Token} {it : Item} {items : List Item} (h : Reached items it) : Reached (items.map (inCell c)) (inCell c it) := by
  obtain ⟨toks, r, rfl⟩ := h
  refine ⟨toks.map fun t => { t with line := t.line + (c.line - 1), startcol := t.startcol + c.startcol, endcol := t.endcol + c.startcol },
    r.map (Spec.inCell c), ?_⟩
  simp [Spec.inCell]

theorem _root_.Adoc.Spec.Reached.append {pre : List Token} {it : Item} {rest : List Item} (h : Reached rest it) : Reached (pre.map .tok ++ rest) it := by
  obtain ⟨toks, r, rfl⟩ := h
  exact ⟨pre ++ toks, r, by simp⟩

theorem feed_er {f : Token → Parser → M Parser} (b : Bool) {fs : List Str} {F : ParserError → Prop} (hrel : CallOk (fun _ => True) f) :
    ∀ (items : List Item) (p : Parser), (∀ {t : Token} {p : Parser}, Reached items (.tok t) → p.files = fs → S p → Er (f t p) F) →
      (∀ {e}, Reached items (.err e) → F (.scanner e)) → p.files = fs → S p → Er (feed f b items p) F
  | [], _, _, _, _, _ => .ok
  | .tok t :: rest, p, hf, he, hfs, hp => by
    unfold feed
    refine .bind (hf .head hfs hp) fun q hq => ?_
    have h := hrel t p q hq hp
    have hq' : q.files = fs := (congrArg (·.1) h.2.2).trans hfs
    refine feed_er b hrel rest _ (fun hx => hf hx.cons) (fun hx => he hx.cons) ?_ ?_
    · split <;> exact hq'
    · split <;> exact h.1
  | .err e :: _, _, _, he, _, _ => .err (he .head)
  | .panic s :: _, _, _, _, _, _ => .panic
  | .hang :: _, _, _, _, _, _ => .hang

theorem slice_drop {s r : Str} {k : Nat} (h : sliceM s k s.length = .ok r) : r = s.drop k := by
  unfold sliceM at h
  split at h
  · rename_i x hx
    cases h
    unfold slice at hx
    split at hx
    · cases hx
      exact List.take_of_length_le (by simp)
    · cases hx
  · cases h

theorem cell_er {f : Token → Parser → M Parser} (hf : Call w src f)
    {items : List Item} {t : Token} {p : Parser} (hr : Read w src p.files items) (ht : Reached items (.tok t)) (hty : t.ty = .tableCell) (hp : S p) :
    Er (p.parseTableCell f t) (Fault w src) := by
  unfold Parser.parseTableCell
  refine .bind (slice_er _ _ _) fun c hc => ?_
  refine .bind ((pushToStack_er p _).mono fun _ => Fault.u) fun q hq => ?_
  have hrel := pushToStack_rel (Q := fun _ => True) good (p := p) (b := .tableCell [] none t.locations) trivial (fun h => by cases h) q hq hp
  have hfs : q.files = p.files := congrArg (·.1) hrel.2.2
  refine .bind ?_ fun _ _ => (addInlines_er _).mono fun _ => Fault.u
  have hread := Read.cell hr ht hty
  have hd := slice_drop hc
  rw [← hd] at hread
  refine feed_er false (fs := p.files) (fun u p => .bind' fun _ _ => hf.rel _ _) (scan c) { q with dangling := none } ?_ ?_ hfs hrel.1
  · intro u r hu hr' hs
    refine .bind ?_ fun u' hu' => ?_
    · unfold Token.offsetBy
      split
      · exact .panic
      · exact .ok
    · unfold Token.offsetBy at hu'
      split at hu'
      · cases hu'
      · cases hu'
        exact hf.er (by rw [hr']; exact hread) hu.inCell hs
  · intro e he
    exact .scanner hread he.inCell

theorem includeLoop_er {f : Token → Parser → M Parser} (hf : Call w src f) (a e : Bool) (tags : List Str) {fs : List Str} {all : List Item}
    (hr : Read w src fs all) : ∀ (items : List Item) (lines : List Int) (cur : Option Str) (p : Parser), (∃ pre : List Token, all = pre.map .tok ++ items) → p.files = fs → S p →
      Er (includeLoop f a e tags items lines cur p) (Fault w src)
  | [], _, _, _, _, _, _ => .ok
  | .tok t :: rest, lines, cur, p, hs, hfs, hp => by
    obtain ⟨pre, rfl⟩ := hs
    have hrest : ∃ pre' : List Token, pre.map Item.tok ++ .tok t :: rest = pre'.map .tok ++ rest := ⟨pre ++ [t], by simp⟩
    unfold includeLoop
    split
    · exact includeLoop_er hf a e tags hr rest _ _ _ hrest hfs hp
    · refine .bind ((tagFilter_er _ _ _).mono fun _ => Fault.u) fun ck _ => ?_
      obtain ⟨cur', keep⟩ := ck
      dsimp only
      refine .bind ?_ fun q hq => ?_
      · split
        · unfold includeToken
          split
          · exact .bind (hf.er (by rw [hfs]; exact hr) (Reached.append .head) hp) fun _ _ => .ok
          · exact (text_er _ _ _).mono fun _ => Fault.u
        · exact .ok
      · have hrel : Rel (fun _ => True) p q := by
          split at hq
          · exact includeToken_rel hf.rel a t p q hq
          · cases hq; exact Rel.refl p
        have hrel := hrel hp
        exact includeLoop_er hf a e tags hr rest _ _ q hrest ((congrArg (·.1) hrel.2.2).trans hfs) hrel.1
  | .err e :: _, _, _, _, ⟨_, h⟩, _, _ => .err (.scanner hr (h ▸ Reached.append .head))
  | .panic s :: _, _, _, _, _, _, _ => .panic
  | .hang :: _, _, _, _, _, _, _ => .hang

theorem include_er {f : Token → Parser → M Parser} (hf : Call w src f) {items : List Item} {t : Token} {p : Parser}
    (hr : Read w src p.files items) (ht : Reached items (.tok t)) (hty : t.ty = .include) (hp : S p) : Er (p.parseInclude w f t) (Fault w src) := by
  unfold Parser.parseInclude
  refine .bind (target_er t) fun r hr' => ?_
  obtain ⟨target, m⟩ := r
  have hn : Names t target := names_of hr' (.inl hty)
  refine .bind ((selection_er p m).mono fun _ => Fault.u) fun ps hps => ?_
  have hsame := selection_same p m ps hps
  obtain ⟨q, sel⟩ := ps
  dsimp only at hsame ⊢
  have hfs : q.files = p.files := congrArg (·.1) hsame.2.2
  split
  · rename_i hw
    exact .err (.target hr ht (.inl hty) hn (by rw [← hfs]; exact hw))
  · rename_i path hw
    split
    · exact .exit
    · rename_i text htext
      rw [hfs] at hw
      have hread := Read.included hr ht hty hn hw htext
      refine .bind (includeLoop_er hf _ _ _ (fs := p.files ++ [target]) hread _ _ _ _ ?_ (by show q.files ++ [target] = _; rw [hfs]) ?_) fun q' _ =>
        .bind ((addInlines_er _).mono fun _ => Fault.u) fun q'' _ => .bind ((drain_er _ _ _).mono fun _ => Fault.u) fun _ _ => .ok
      · refine ⟨[], ?_⟩
        show _ = (Scanner.newWithStack text (q.files ++ [target])).run
        rw [hfs]
      · show S q
        unfold S
        rw [hsame.1]; exact hp

theorem dispatch_er {f : Token → Parser → M Parser} (hf : Call w src f) {items : List Item} {t : Token} {p : Parser}
    (hr : Read w src p.files items) (ht : Reached items (.tok t)) (hp : S p) : Er (p.dispatchToken w f t) (Fault w src) := by
  have hu : ∀ {α : Type} {x : M α}, Er x U → Er x (Fault w src) := fun h => h.mono fun _ => Fault.u
  have hh : ∀ {α : Type} {x : M α}, Er x (HeadingFault t) → Er x (Fault w src) := fun h => h.mono fun e he => by
    rcases he with he | ⟨n, o, h1, h2, rfl⟩ | ⟨h1, h2, rfl⟩
    · exact .other he
    · exact .level hr ht h1 h2
    · exact .title hr ht h1 h2
  have hl : ∀ {α : Type} {x : M α}, Er x (LeafFault t) → Er x (Fault w src) := fun h => h.mono fun e he => by
    rcases he with he | ⟨h1, rfl⟩
    · exact .other he
    · exact .closing hr ht h1
  have hi : t.ty = .blockImageMacro → Er (p.parseBlockImage w t) (Fault w src) := fun h => (image_er p w t h).mono fun e he => by
    rcases he with he | ⟨target, h1, h2, rfl⟩
    · exact .other he
    · exact .target hr ht (.inr h) h1 h2
  have hspan : Er (do
      let s ← Inline.spanFromToken t
      p.parseSpan s : M Parser) U := .bind (span_er t) fun _ _ => spanP_er _ _
  unfold Parser.dispatchToken
  split
  all_goals
    rename_i hty
    first
    | exact .ok
    | exact .panic
    | exact hh (title_er p t hty)
    | exact hh (section_er p t (by rw [hty]; simp [levelOf]))
    | exact hu (parseAttribute_er p t)
    | exact hu (blockMeta_er p t)
    | exact hu (inlineMeta_er p t)
    | exact hu (newLine_er p t)
    | exact hu (text_er p t false)
    | exact hu (charref_er p t)
    | exact hu hspan
    | exact hu (attrRef_er p t)
    | exact hu (xref_er p t)
    | exact include_er hf hr ht hty hp
    | exact hu (footnote_er p t)
    | exact hu (inlineImage_er p t)
    | exact hu (macroClose_er p t)
    | exact hu (addTo_er p _)
    | exact hu (parent_er p t (by rw [hty]; exact ⟨_, rfl⟩))
    | exact cell_er hf hr ht hty hp
    | exact hl (quote_er p t hty)
    | exact hl (leaf_er p t (by rw [hty]; rfl))
    | exact hu (callout_er p t)
    | exact hi hty
    | exact hu (unordered_er p t)
    | exact hu (ordered_er p t)
    | exact hu (dlist_er p t)
    | exact hu (admonition_er p t (by rw [hty]; exact ⟨_, rfl⟩))
    | exact hu (continuation_er p)
    | exact hl (comment_er p t hty)
    | exact .ite (fun _ => hu (moveHeader_er p)) (fun _ => .ok)

theorem step_call {f : Token → Parser → M Parser} (hf : Call w src f) : Call w src (step w f) where
  rel := fun t p => step_rel good hf.rel w t p
  er := by
    intro items t p hr ht hp
    unfold Parser.step
    refine .bind ?_ fun q hq => ?_
    · split
      · exact (moveHeader_er p).mono fun _ => Fault.u
      · exact .ok
    · have hrel : Rel (fun _ => True) p q := by
        split at hq
        · exact moveHeader_rel good p q hq
        · cases hq; exact Rel.refl p
      have hrel := hrel hp
      have hfs : q.files = p.files := congrArg (·.1) hrel.2.2
      split
      · exact (text_er _ _ _).mono fun _ => Fault.u
      · exact dispatch_er hf (by rw [hfs]; exact hr) ht hrel.1

theorem call_tokenInto (fuel : Nat) : Call w src (tokenInto w fuel) := by
  induction fuel with
  | zero => exact ⟨tokenInto_rel good w 0, fun _ _ _ => .hang⟩
  | succ n ih => exact step_call ih

/-- Every error of a document is explained. -/
theorem parse_er {fuel : Nat} {p : Parser} (h1 : p.files = []) (h2 : p.blocks = []) : Er (Parser.parse w fuel (scan src) p) (Fault w src) := by
  unfold Parser.parse
  have hc := call_tokenInto (w := w) (src := src) fuel
  refine .bind (feed_er true (fs := []) hc.rel (scan src) p (fun ht hfs hs => hc.er (by rw [hfs]; exact .input) ht hs)
    (fun he => .scanner .input he) h1 (by unfold S; rw [h2]; exact StackOk.nil)) fun q _ => ?_
  unfold Parser.finish
  refine Er.mono (P := U) ?_ fun _ => Fault.u
  exact .bind (addInlines_er _) fun _ _ => .bind (drain_er _ _ _) fun _ _ => .ok

end
end Blame
end Adoc
