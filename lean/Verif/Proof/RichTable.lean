import Verif.Proof.RichBox
/-!
# Feeding tables to the parser

The text of a cell is scanned on its own, and its tokens are read without remembering the last of them.
-/
namespace Adoc.Parser
open Spec Scanner

/-! ## Text is read the same way after any token -/

/-- The parser with another last token. -/
def past (x : TokenType) (p : Parser) : Parser := { p with lastTy := x }

theorem past_addText (x : TokenType) (p : Parser) (t : Token) (b : Bool) :
    (past x p).addText t b = (p.addText t b).map (past x) := by
  unfold addText
  rw [show (past x p).inlines = p.inlines from rfl]
  dsimp only
  cases p.inlines with
  | nil => rfl
  | cons i R =>
    cases i with
    | span v f is m l o =>
      dsimp only
      rw [show (past x p).inSpan = p.inSpan from rfl]
      split <;> rfl
    | lit n v l => dsimp only; split <;> rfl
    | brk l => rfl
    | ref v g is m l =>
      dsimp only
      rw [show (past x p).closeParent = p.closeParent from rfl]
      split
      · rfl
      · cases Inline.refAddText is t b <;> rfl

theorem past_parseText (x : TokenType) (p : Parser) (t : Token) (b : Bool) :
    (past x p).parseText t b = (p.parseText t b).map (past x) := by
  unfold Parser.parseText
  rw [show (past x p).dangling = p.dangling from rfl, show (past x p).preserveNl = p.preserveNl from rfl]
  cases p.dangling with
  | none => exact past_addText ..
  | some nl =>
    dsimp only
    split
    · rfl
    · rw [past_addText]
      cases p.addText nl false with
      | error e => rfl
      | ok q => exact past_addText x { q with dangling := none } t b

theorem past_addCharref (x : TokenType) (p : Parser) (i : Inline) :
    (past x p).addCharref i = (p.addCharref i).map (past x) := by
  unfold addCharref
  rw [show (past x p).inlines = p.inlines from rfl]
  cases p.inlines with
  | nil => rfl
  | cons i R =>
    cases i with
    | span v f is m l o =>
      dsimp only
      rw [show (past x p).inSpan = p.inSpan from rfl]
      split <;> rfl
    | lit n v l => rfl
    | brk l => rfl
    | ref v g is m l =>
      dsimp only
      rw [show (past x p).closeParent = p.closeParent from rfl]
      split <;> rfl

theorem past_charref (x : TokenType) (p : Parser) (t : Token) :
    (past x p).parseCharref t = (p.parseCharref t).map (past x) := by
  unfold parseCharref
  rw [show (past x p).dangling = p.dangling from rfl, show (past x p).preserveNl = p.preserveNl from rfl]
  dsimp only
  cases p.dangling with
  | none => exact past_addCharref ..
  | some nl =>
    dsimp only
    split
    · rfl
    · rw [past_addText]
      cases p.addText nl false with
      | error e => rfl
      | ok q => exact past_addCharref x { q with dangling := none } _

theorem past_dangling (x : TokenType) (p : Parser) :
    (past x p).danglingSpans = p.danglingSpans.map (past x) := by
  unfold danglingSpans
  rw [show (past x p).inlines = p.inlines from rfl]
  cases splitFirst Inline.isOpen p.inlines with
  | none => rfl
  | some y =>
    obtain ⟨above, span, below⟩ := y
    simp only [bind, Except.bind]
    cases span.markupLiteral with
    | error e => rfl
    | ok pre =>
      dsimp only
      cases span.childInlines with
      | error e => rfl
      | ok kids =>
        cases kids with
        | nil => exact past_addText x { p with inlines := above ++ below } _ _
        | cons i is =>
          dsimp only
          cases Inline.prependFirst pre (some span.locations) (i :: is) <;> rfl

theorem past_openSpan (x : TokenType) (p : Parser) (i : Inline) :
    (past x p).openSpan i = (p.openSpan i).map (past x) := by
  have key : ∀ q : Parser,
      (do let p ← (past x q).danglingSpans
          match p.data with
          | some m => do
            let i ← i.addMeta m
            return { p with data := none, inlines := i :: p.inlines, inSpan := true }
          | none => return { p with inlines := i :: p.inlines, inSpan := true } : M Parser)
      = (do let p ← q.danglingSpans
            match p.data with
            | some m => do
              let i ← i.addMeta m
              return { p with data := none, inlines := i :: p.inlines, inSpan := true }
            | none => return { p with inlines := i :: p.inlines, inSpan := true } : M Parser).map (past x) := by
    intro q
    rw [past_dangling]
    cases hr : q.danglingSpans with
    | error e => rfl
    | ok r =>
      simp only [bind, Except.bind, Except.map]
      rw [show (past x r).data = r.data from rfl]
      cases r.data with
      | none => rfl
      | some m =>
        dsimp only
        cases i.addMeta m <;> rfl
  unfold openSpan
  rw [show (past x p).dangling = p.dangling from rfl]
  cases p.dangling with
  | none => exact key p
  | some t =>
    dsimp only
    rw [past_addText]
    cases hr : p.addText t false with
    | error e => rfl
    | ok r => exact key { r with dangling := none }

theorem past_span (x : TokenType) (p : Parser) (i : Inline) :
    (past x p).parseSpan i = (p.parseSpan i).map (past x) := by
  unfold parseSpan
  rw [show (past x p).inlines = p.inlines from rfl]
  cases p.inlines with
  | nil => exact past_openSpan x p i
  | cons j R =>
    dsimp only
    by_cases hs : i.sameKind j = true
    · simp only [hs, if_true]
      cases (j.reconcileLocations i.locations).close <;> rfl
    · simp only [hs]
      cases j with
      | span v f is m l o =>
        dsimp only
        cases closeOrAdd i is with
        | none => rfl
        | some r => dsimp only; cases r <;> rfl
      | lit => exact past_openSpan x p i
      | ref => exact past_openSpan x p i
      | brk => exact past_openSpan x p i

theorem past_dispatch (w : World) (g : Token → Parser → M Parser) (x : TokenType) (p : Parser) (t : Token)
    (hc : InText none (some []) t.ty) :
    (past x p).dispatchToken w g t = (p.dispatchToken w g t).map (past x) := by
  unfold dispatchToken
  rcases hc with hc | ⟨_, hc⟩ | ⟨⟨m, hc⟩, _⟩
  · simp only [textTypes, List.mem_cons, List.not_mem_nil, or_false] at hc
    rcases hc with hc | hc | hc | hc | hc | hc | hc | hc
    · rw [hc]; exact past_parseText ..
    · rw [hc]; exact past_charref ..
    · rw [hc]
      simp only [parseXref]
      cases Inline.xrefFromToken t <;> rfl
    · rw [hc]; rfl
    · rw [hc]
      simp only [parseMacroClose]
      rw [show (past x p).openText = p.openText from rfl, show (past x p).inlines = p.inlines from rfl]
      split
      · rfl
      · cases splitFirst Inline.isMacro p.inlines with
        | none => exact past_addText ..
        | some y =>
          obtain ⟨above, i, below⟩ := y
          simp only [bind, Except.bind]
          cases absorb i above.reverse with
          | error e => rfl
          | ok y =>
            dsimp only
            cases y.consolidateFromToken t <;> rfl
    · rw [hc]
      simp only [parseFootnote]
      cases Inline.spanFromToken t <;> rfl
    · rw [hc]
      simp only [parseInlineImage]
      cases targetAndAttrs t <;> rfl
    · rw [hc]; rfl
  · cases hc
  · have hs := spanFromToken_mark m t hc
    rw [hc]
    cases m <;> (simp only [Mark.type]; rw [hs]; exact past_span x p _)

/-- Tokens of a text are read the same way if the last token is not remembered. -/
theorem Feeds.quiet {w : World} {k : Nat} {ts : List Token} {p q : Parser} (hf : Feeds w k ts p q) (x : TokenType)
    (hd : p.data = none) (hti : p.title = none) (ho : p.openText = none) (hh : p.header = none)
    (hc : ∀ t ∈ ts, InText none (some []) t.ty) :
    feed (tokenInto w (k + 1)) false (ts.map .tok) (past x p) = .ok (past x q) := by
  induction ts generalizing p with
  | nil => cases hf; rfl
  | cons t ts ih =>
    have hcl := hc t (by simp)
    have hnl : t.ty = .newLineChar → p.lastTy ≠ .newLineChar ∧ p.lastTy ≠ .eof := by
      intro e
      rcases hcl with h | ⟨_, h⟩ | ⟨⟨m, h⟩, _⟩
      · rw [e] at h; exact absurd h (by decide)
      · cases h
      · rw [e] at h; cases m <;> cases h
    cases hq : tokenInto w (k + 1) t p with
    | error e => unfold Feeds at hf; simp [feed, hq, bind, Except.bind] at hf
    | ok r =>
      have hf' : Feeds w k ts { r with lastTy := t.ty } q := by
        unfold Feeds at hf ⊢
        rw [List.map_cons, feed_cons _ _ _ _ _ hq] at hf
        exact hf
      rw [tokenInto_plain w k t p hh ho] at hq
      have hk := frame_keeps (x := fun p => p.dispatchToken w (tokenInto w k) t) ho hq
        (frame_dispatch w (tokenInto w k) p.header p.data p.title p t hd hti ho (by rw [hd, hti]; exact hcl.weaken) hnl)
      have h2 : tokenInto w (k + 1) t (past x p) = .ok (past x r) := by
        rw [tokenInto_plain w k t (past x p) hh ho, past_dispatch w (tokenInto w k) x p t hcl, hq]
        rfl
      have h3 := ih (p := { r with lastTy := t.ty }) hf' (hk.2.1.trans hd) (hk.2.2.1.trans hti) hk.2.2.2
        (hk.1.trans hh) (fun u hu => hc u (by simp [hu]))
      rw [List.map_cons]
      simp only [feed, h2, bind, Except.bind, Bool.false_eq_true, if_false]
      exact h3

/-- A token of a cell, at its place in the document. -/
def moved (l c : Nat) (t : Token) : Token :=
  { t with line := t.line + (l - 1), startcol := t.startcol + c, endcol := t.endcol + c }

theorem feed_moved (f : Token → Parser → M Parser) (l c : Nat) (hl : l ≠ 0) (ts : List Token) (p : Parser) :
    feed (fun u p => do
      let u' ← u.offsetBy l c
      f u' p) false (ts.map .tok) p = feed f false ((ts.map (moved l c)).map .tok) p := by
  induction ts generalizing p with
  | nil => rfl
  | cons t ts ih =>
    have h : t.offsetBy l c = .ok (moved l c t) := by unfold Token.offsetBy; rw [if_neg hl]; rfl
    simp only [List.map_cons, feed, h, bind, Except.bind, Bool.false_eq_true, if_false] at ih ⊢
    cases f (moved l c t) p with
    | error e => rfl
    | ok q => exact ih q

theorem isMark_moved {ty : TokenType} {s : Str} {t : Token} (h : IsMark ty s t) (l c : Nat) : IsMark ty s (moved l c t) :=
  ⟨h.ty, h.lexeme, by
    have := h.text
    unfold Token.text at this ⊢
    exact this⟩

theorem pieces_moved {s : Str} {ts : List Token} (h : Pieces' s ts) (l c : Nat) : Pieces' s (ts.map (moved l c)) := by
  induction h with
  | nil => exact .nil
  | cons x rest t ts hx ht _ ih => exact .cons x rest _ _ hx (isMark_moved ht l c) ih

theorem matches_moved {ss : List Sign} {ts : List Token} (h : Matches ss ts) (l c : Nat) : Matches ss (ts.map (moved l c)) := by
  induction h with
  | nil => exact .nil
  | text s ss ts us hs hp _ ih => rw [List.map_append]; exact .text s ss _ _ hs (pieces_moved hp l c) ih
  | mark ty s ss t us ht _ ih => exact .mark ty s ss _ _ (isMark_moved ht l c) ih

end Adoc.Parser

namespace Adoc.Rich
open Spec Block Parser Scanner Props

theorem ascii_enc (s : Str) (h : ∀ b ∈ s, b.toNat < 128) : ∃ cs, s = enc cs := by
  have key : ∀ n < 128, String.utf8EncodeChar (Char.ofNat n) = [UInt8.ofNat n] := by decide
  induction s with
  | nil => exact ⟨[], rfl⟩
  | cons b s ih =>
    obtain ⟨cs, hcs⟩ := ih (fun x hx => h x (by simp [hx]))
    refine ⟨Char.ofNat b.toNat :: cs, ?_⟩
    rw [enc_cons, key _ (h b (by simp)), ← hcs]
    simp

theorem ascii_starts {s : Str} (h : ∀ b ∈ s, b.toNat < 128) : Starts s := by
  intro b hb
  have := h b (List.mem_of_mem_head? hb)
  simp only [isCont, Bool.and_eq_false_iff]
  left
  simp only [decide_eq_false_iff_not, UInt8.le_iff_toNat_le]
  have e : (0x80 : UInt8).toNat = 128 := rfl
  omega

theorem pushInlines_cell (is js : List Inline) (l : List Location) :
    pushInlines (.tableCell is none l) js = .ok (.tableCell (is ++ js) none l) := by
  induction js generalizing is with
  | nil => simp [pushInlines]
  | cons j js ih =>
    simp only [pushInlines, Block.pushInline, liftB, bind, Except.bind]
    rw [ih]; simp

/-! ## Inside a table -/

/-- A table whose end has not been read. -/
structure TCtx where
  title : List Inline
  data : Option Meta
  loc : List Location
  below : List Block
  asg : Asg
  line : Nat
  kept : Bool

/-- The table on the stack. -/
def TCtx.top (c : TCtx) : Block := .parent .table none b!"|===" [] c.title c.data c.loc

/-- In a table, after some cells. -/
structure InTable (p : Parser) (c : TCtx) (cells : List Block) (r : Bool) : Prop extends Base p where
  openLines : p.openLines = [c.line]
  steady : Steady p.offset p.attrs p.asg
  asg : p.asg = c.asg
  ref : p.closeParent = r
  inlines : p.inlines = []
  span : p.inSpan = false
  kept : p.preserveNl = c.kept
  blocks : p.blocks = cells.reverse ++ c.top :: c.below
  cells : ∀ b ∈ cells, b.isTableCell = true

theorem InTable.first {p : Parser} {c : TCtx} {cells : List Block} {r : Bool} (h : InTable p c cells r) :
    ∃ b rest, p.blocks = b :: rest ∧ b.isAnyItem = false := by
  have hb := h.blocks
  cases hc : cells.reverse with
  | nil => rw [hc] at hb; exact ⟨_, _, hb, rfl⟩
  | cons x xs =>
    rw [hc] at hb
    refine ⟨x, _, hb, ?_⟩
    have := h.cells x (by rw [← List.mem_reverse, hc]; simp)
    cases x <;> first | rfl | cases this

/-- Newlines in a table. -/
theorem InTable.newline {p : Parser} {c : TCtx} {cells : List Block} {r : Bool} (h : InTable p c cells r) (w : World) (k : Nat)
    (t : Token) (ht : IsNewline t) : ∃ q, Feeds w k [t] p q ∧ InTable q c cells r := by
  by_cases hl : p.lastTy = .newLineChar ∨ p.lastTy = .eof
  · obtain ⟨x, xs, hx, hi⟩ := h.first
    have g := newLine_second w k p t ht.ty h.header h.openText h.title hl
    rw [blank_eq { p with inBlockLine := false } h.header (by
      intro b hb
      replace hb : p.blocks.head? = some b := hb
      rw [hx] at hb
      simp only [List.head?_cons, Option.some.injEq] at hb
      rw [← hb]; exact hi), addInlines_nil _ (by exact h.inlines)] at g
    replace g := g.trans (settle_in { p with inBlockLine := false, dangling := none, inSpan := false } x xs hx c.line h.openLines
      h.inCont h.data)
    exact ⟨_, Feeds.one g, ⟨base_same h.toBase rfl, h.openLines, h.steady, h.asg, h.ref, h.inlines, rfl, h.kept, h.blocks, h.cells⟩⟩
  · obtain ⟨d, hd⟩ := one_newline w k p (base_data h.toBase) ⟨fun e => hl (.inl e), fun e => hl (.inr e)⟩ t ht
    exact ⟨_, hd, ⟨base_same h.toBase rfl, h.openLines, h.steady, h.asg, h.ref, h.inlines, h.span, h.kept, h.blocks, h.cells⟩⟩

theorem InTable.newlines {p : Parser} {c : TCtx} {cells : List Block} {r : Bool} (h : InTable p c cells r) (w : World) (k : Nat)
    (ts : List Token) (ht : ∀ t ∈ ts, IsNewline t) : ∃ q, Feeds w k ts p q ∧ InTable q c cells r := by
  induction ts generalizing p with
  | nil => exact ⟨p, Feeds.nil .., h⟩
  | cons t ts ih =>
    obtain ⟨q, h1, h2⟩ := h.newline w k t (ht t (by simp))
    obtain ⟨r, h3, h4⟩ := ih h2 (fun u hu => ht u (by simp [hu]))
    exact ⟨r, Feeds.append (a := [t]) h1 h3, h4⟩

/-- A cell. -/
theorem feed_cell (w : World) (k : Nat) (p : Parser) (c : TCtx) (cells : List Block) (r : Bool) (h : InTable p c cells r)
    (es : List Elem) (ho : CellOk es) (t : Token) (ht : IsMark .tableCell (c!"|" :: written (es.flatMap Elem.signs)) t)
    (hl : t.line ≠ 0) :
    ∃ q is, Feeds w (k + 1) [t] p q ∧ InTable q c (cells ++ [.tableCell is none t.locations]) (r || es.any Elem.refers)
      ∧ bareL is = shownL [] es := by
  have hb := h.toBase
  obtain ⟨ts, n, m1, m2, _⟩ := scan_signs (es.flatMap Elem.signs) (ascii_enc _ ho.ascii) (fun s hs => by
    have := ho.signs s hs
    cases s with
    | text => trivial
    | mark ty l => exact this) ho.legible
  have hslice : sliceM t.text 1 t.text.length = .ok (written (es.flatMap Elem.signs)) := by
    have e : t.text = [c!"|"] ++ (written (es.flatMap Elem.signs) ++ []) := by rw [ht.text]; simp [signText]
    rw [e]
    exact sliceM_mid _ _ [] (by rw [List.append_nil]; exact ascii_starts ho.ascii) (by intro b hb; cases hb) _ _ rfl
      (by simp; omega)
  let p1 : Parser := { p with dangling := none, blocks := .tableCell [] none t.locations :: p.blocks }
  have m1' := matches_moved m1 t.line t.startcol
  have hb1 : Base p1 := base_same hb rfl
  obtain ⟨q, f1, f2, f3, f4⟩ : ∃ q, Feeds w k (ts.map (moved t.line t.startcol)) p1 q
      ∧ q = { p1 with
          inlines := q.inlines, closeParent := p1.closeParent || es.any Elem.refers, inBlockLine := q.inBlockLine, lastTy := q.lastTy }
      ∧ bareL q.inlines.reverse = shownL [] es ∧ (es ≠ [] → q.inlines ≠ []) := by
    by_cases he : es = []
    · subst he
      cases m1
      refine ⟨p1, Feeds.nil .., ?_, ?_, fun h => absurd rfl h⟩
      · simp only [List.any_nil, Bool.or_false]
      · show bareL p.inlines.reverse = _
        rw [h.inlines]; rfl
    · obtain ⟨q, hq, hp⟩ := feed_prose w k p1 hb1 h.inlines rfl h.span es ⟨he, ho.elems⟩ (fun _ => ho.line) _ m1'
      exact ⟨q, hq, hp.eq, hp.text, fun _ => hp.ne⟩
  have f5 := f1.quiet p1.lastTy hb1.data hb1.title hb1.openText hb1.header
    (fun u hu => (title_tokens none es (.inl rfl) ho.line m1' u hu).1)
  let q' : Parser := past p1.lastTy q
  have hq' : q' = { p1 with
      inlines := q.inlines, closeParent := p1.closeParent || es.any Elem.refers, inBlockLine := q.inBlockLine } := by
    show past p1.lastTy q = _
    rw [f2]; rfl
  have heof : tokenInto w (k + 1) (moved t.line t.startcol (Token.final n [])) q' = .ok q' := by
    have e1 : q'.header = none := by rw [hq']; exact hb1.header
    rw [tokenInto_plain w k _ q' e1 (by rw [hq']; exact hb1.openText)]
    unfold dispatchToken
    simp only [moved, Token.final, e1, Option.isSome_none, Bool.false_eq_true, if_false]
  have hfeed : feed (fun u p => do
      let u' ← u.offsetBy t.line t.startcol
      tokenInto w (k + 1) u' p) false (scan (written (es.flatMap Elem.signs))) p1 = .ok q' := by
    have e : ts.map Item.tok ++ [.tok (Token.final n [])] = (ts ++ [Token.final n []]).map Item.tok := by simp
    rw [m2, e, feed_moved _ _ _ hl, List.map_append, List.map_append]
    rw [feed_append _ _ _ _ p1 q' f5]
    simp only [List.map_cons, List.map_nil, feed, heof, bind, Except.bind, Bool.false_eq_true, if_false]
  have hadd : addInlines { q' with inBlockLine := false, forceNew := false } = .ok { p1 with
      inlines := [], closeParent := p1.closeParent || es.any Elem.refers, inBlockLine := false, forceNew := false
      blocks := .tableCell q.inlines.reverse none t.locations :: p.blocks } := by
    rw [hq']
    by_cases he : q.inlines = []
    · rw [addInlines_nil _ (by exact he), he]
      rfl
    · exact addInlines_take { p1 with
          inlines := q.inlines, closeParent := p1.closeParent || es.any Elem.refers, inBlockLine := false, forceNew := false }
        hb1.header h.span he (.tableCell [] none t.locations) _ p.blocks rfl rfl rfl rfl (by rw [pushInlines_cell]; rfl)
  refine ⟨_, q.inlines.reverse, Feeds.one (p' := { p1 with
      inlines := [], closeParent := p1.closeParent || es.any Elem.refers, inBlockLine := false, forceNew := false
      blocks := .tableCell q.inlines.reverse none t.locations :: p.blocks }) ?_, ?_, f3⟩
  · rw [tokenInto_plain w (k + 1) t p hb.header hb.openText]
    unfold dispatchToken
    rw [ht.ty]
    simp only [parseTableCell]
    rw [hslice]
    have hpush : p.pushToStack (.tableCell [] none t.locations) = .ok { p with blocks := .tableCell [] none t.locations :: p.blocks } := by
      have hd := hb.data
      have hc := hb.inCont
      simp only [pushToStack, hd, hc, Bool.false_and, Bool.false_eq_true, if_false]
    simp only [bind, Except.bind] at hfeed ⊢
    rw [hpush]
    dsimp only
    rw [show ({ p with blocks := .tableCell [] none t.locations :: p.blocks, dangling := none } : Parser) = p1 from rfl]
    rw [hfeed]
    exact hadd
  · refine ⟨base_same hb rfl, h.openLines, h.steady, h.asg, ?_, rfl, h.span, h.kept, ?_, ?_⟩
    · show (p.closeParent || _) = _
      rw [h.ref]
    · show _ :: p.blocks = _
      rw [h.blocks]; simp
    · intro b hb
      rcases List.mem_append.1 hb with hb | hb
      · exact h.cells b hb
      · simp only [List.mem_singleton] at hb; rw [hb]; rfl

variable {fs : List Str}

/-- A block that is a cell with a text and begins on line `n` of a file. -/
structure CellAt (fs : List Str) (n : Nat) (es : List Elem) (b : Block) : Prop where
  cell : ∃ is l, b = .tableCell is none l ∧ bareL is = shownL [] es
  line : b.line = .ok n
  locs : ∀ x ∈ b.locations, x.file = fs ∧ n ≤ x.line

/-- Cells on one line. -/
inductive CellsAt (fs : List Str) (n : Nat) : List (List Elem) → List Block → Prop where
  | nil : CellsAt fs n [] []
  | cons (es : List Elem) (b : Block) (ess : List (List Elem)) (bs : List Block) (h : CellAt fs n es b) (hs : CellsAt fs n ess bs) :
      CellsAt fs n (es :: ess) (b :: bs)

/-- Lines of cells, the first of them on line `n`. -/
inductive RowsAt (fs : List Str) : Nat → List TableRow → List Block → Prop where
  | nil (n : Nat) : RowsAt fs n [] []
  | cons (n : Nat) (row : TableRow) (rows : List TableRow) (as bs : List Block) (h : CellsAt fs n row.cells as)
      (hs : RowsAt fs (n + row.gap) rows bs) : RowsAt fs n (row :: rows) (as ++ bs)

theorem lineAfter_append (n : Nat) (a b : List Token) : lineAfter n (a ++ b) = lineAfter (lineAfter n a) b := by
  induction a generalizing n with
  | nil => rfl
  | cons t a ih => rw [List.cons_append, lineAfter, ih]; rfl

theorem lineAfter_newlines (n : Nat) (ts : List Token) (h : ∀ t ∈ ts, IsNewline t) : lineAfter n ts = n + ts.length := by
  induction ts generalizing n with
  | nil => rfl
  | cons t ts ih =>
    rw [lineAfter, if_pos (h t (by simp)).ty, ih _ (fun u hu => h u (by simp [hu])), List.length_cons]
    omega

theorem feed_cells (w : World) (k : Nat) (c : TCtx) (n : Nat) (hn : 1 ≤ n) (ess : List (List Elem)) (p : Parser) (cells : List Block)
    (r : Bool) (h : InTable p c cells r) (ho : ∀ es ∈ ess, CellOk es) (ts : List Token) (hm : Matches (ess.map cellSign) ts)
    (hl : Lined fs n ts) :
    ∃ q bs, Feeds w (k + 1) ts p q ∧ InTable q c (cells ++ bs) (r || ess.any fun es => es.any Elem.refers) ∧ CellsAt fs n ess bs
      ∧ lineAfter n ts = n := by
  induction ess generalizing p cells r ts with
  | nil =>
    cases hm
    exact ⟨p, [], Feeds.nil .., by simpa using h, .nil, rfl⟩
  | cons es ess ih =>
    rw [List.map_cons] at hm
    unfold cellSign at hm
    cases hm with
    | mark _ _ _ t us ht hm =>
    obtain ⟨⟨l1, l0⟩, l2⟩ := hl
    have hne : t.ty ≠ .newLineChar := by rw [ht.ty]; simp
    rw [if_neg hne] at l2
    obtain ⟨q, is, h1, h2, h3⟩ := feed_cell w k p c cells r h es (ho es (by simp)) t ht (by omega)
    obtain ⟨q', bs, h4, h5, h6, h7⟩ := ih q _ _ h2 (fun x hx => ho x (by simp [hx])) us hm l2
    refine ⟨q', .tableCell is none t.locations :: bs, Feeds.append (a := [t]) h1 h4, ?_,
      .cons es _ ess bs ⟨⟨is, _, rfl, h3⟩, ?_, ?_⟩ h6, ?_⟩
    · simpa [Bool.or_assoc] using h5
    · simp only [Block.line, Block.locations, Token.locations, Token.firstLocation, l1]
    · intro x hx
      simp only [Block.locations, Token.locations, List.mem_cons, List.not_mem_nil, or_false] at hx
      rcases hx with rfl | rfl
      · exact ⟨l0, by simp only [Token.firstLocation, l1]; omega⟩
      · exact ⟨l0, by simp only [Token.lastLocation, l1]; omega⟩
    · rw [lineAfter, if_neg hne, h7]

theorem feed_rows (w : World) (k : Nat) (c : TCtx) (rows : List TableRow) (n : Nat) (hn : 1 ≤ n) (p : Parser) (cells : List Block)
    (r : Bool) (h : InTable p c cells r) (ho : ∀ row ∈ rows, row.Ok) (ts : List Token)
    (hm : Matches (rows.flatMap TableRow.signs) ts) (hl : Lined fs n ts) :
    ∃ q bs, Feeds w (k + 1) ts p q
      ∧ InTable q c (cells ++ bs) (r || (rows.flatMap TableRow.cells).any fun es => es.any Elem.refers) ∧ RowsAt fs n rows bs := by
  induction rows generalizing n p cells r ts with
  | nil =>
    cases hm
    exact ⟨p, [], Feeds.nil .., by simpa using h, .nil n⟩
  | cons row rows ih =>
    rw [List.flatMap_cons, TableRow.signs, List.append_assoc] at hm
    obtain ⟨as, vs, rfl, m1, hm⟩ := hm.split
    obtain ⟨ns, vs, rfl, m2, m3⟩ := hm.split
    obtain ⟨l1, l2⟩ := hl.split
    obtain ⟨n1, n2⟩ := matches_newlines m2
    obtain ⟨q, bs, h1, h2, h3, h4⟩ := feed_cells w k c n hn row.cells p cells r h (ho row (by simp)).cells.2 as m1 l1
    rw [h4] at l2
    obtain ⟨q1, h5, h6⟩ := h2.newlines w (k + 1) ns n2
    have l3 := l2.split.2
    rw [lineAfter_newlines n ns n2, n1] at l3
    obtain ⟨q2, bs', h7, h8, h9⟩ := ih (n + row.gap) (by omega) q1 _ _ h6 (fun x hx => ho x (by simp [hx])) vs m3 l3
    refine ⟨q2, bs ++ bs', h1.append (h5.append h7), ?_, .cons n row rows bs bs' h3 h9⟩
    simpa [Bool.or_assoc] using h8

/-! ## What the lines of a table are -/

theorem CellsAt.bare {n : Nat} {ess : List (List Elem)} {bs : List Block} (h : CellsAt fs n ess bs) :
    bareBs bs = ess.map fun es => .tableCell (shownL [] es) none [] := by
  induction h with
  | nil => rfl
  | cons es b ess bs hc _ ih =>
    obtain ⟨is, l, rfl, he⟩ := hc.cell
    simp only [bareBs, bareB, he, ih, List.map_cons, Option.map_none]

theorem RowsAt.bare {n : Nat} {rows : List TableRow} {bs : List Block} (h : RowsAt fs n rows bs) :
    bareBs bs = (rows.flatMap TableRow.cells).map fun es => .tableCell (shownL [] es) none [] := by
  induction h with
  | nil => rfl
  | cons n row rows as bs hc _ ih => rw [bareBs_append, hc.bare, ih, List.flatMap_cons, List.map_append]

theorem CellsAt.all {n : Nat} {ess : List (List Elem)} {bs : List Block} (h : CellsAt fs n ess bs) :
    bs.length = ess.length ∧ ∀ b ∈ bs, b.line = .ok n ∧ ∀ x ∈ b.locations, x.file = fs ∧ n ≤ x.line := by
  induction h with
  | nil => exact ⟨rfl, by simp⟩
  | cons es b ess bs hc _ ih =>
    refine ⟨by simp [ih.1], ?_⟩
    intro b' hb'
    rcases List.mem_cons.1 hb' with rfl | hb'
    · exact ⟨hc.line, hc.locs⟩
    · exact ih.2 b' hb'

theorem RowsAt.all {n : Nat} {rows : List TableRow} {bs : List Block} (h : RowsAt fs n rows bs) :
    bs.length = (rows.flatMap TableRow.cells).length
      ∧ ∀ b ∈ bs, ∃ m, n ≤ m ∧ b.line = .ok m ∧ ∀ x ∈ b.locations, x.file = fs ∧ n ≤ x.line := by
  induction h with
  | nil => exact ⟨rfl, by simp⟩
  | cons n row rows as bs hc _ ih =>
    obtain ⟨h1, h2⟩ := hc.all
    refine ⟨by simp [h1, ih.1], ?_⟩
    intro b hb
    rcases List.mem_append.1 hb with hb | hb
    · exact ⟨n, Nat.le_refl n, (h2 b hb).1, (h2 b hb).2⟩
    · obtain ⟨m, a1, a2, a3⟩ := ih.2 b hb
      exact ⟨m, by omega, a2, fun x hx => ⟨(a3 x hx).1, by have := (a3 x hx).2; omega⟩⟩

/-- The cells on the first line, and the others. -/
theorem RowsAt.first {n : Nat} {rows : List TableRow} {bs : List Block} (h : RowsAt fs n rows bs) (hg : ∀ row ∈ rows, 1 ≤ row.gap) :
    ∃ as cs, bs = as ++ cs ∧ as.length = firstCells rows ∧ (∀ b ∈ as, b.line = .ok n)
      ∧ ∀ b ∈ cs, ∃ m, n < m ∧ b.line = .ok m := by
  cases h with
  | nil => exact ⟨[], [], rfl, rfl, by simp, by simp⟩
  | cons _ row rows as bs hc hr =>
    refine ⟨as, bs, rfl, by simp [firstCells, hc.all.1], fun b hb => (hc.all.2 b hb).1, ?_⟩
    intro b hb
    obtain ⟨m, a1, a2, _⟩ := hr.all.2 b hb
    have := hg row (by simp)
    exact ⟨m, by omega, a2⟩

theorem cellsOnLine_first {n : Nat} {as cs : List Block} (h1 : ∀ b ∈ as, b.line = .ok n)
    (h2 : ∀ b ∈ cs, ∃ m, n < m ∧ b.line = .ok m) : cellsOnLine n (as ++ cs) = as.length := by
  unfold cellsOnLine
  rw [List.filter_append, List.length_append, List.filter_eq_self.2, List.filter_eq_nil_iff.2]
  · simp
  · intro b hb
    obtain ⟨m, a1, a2⟩ := h2 b hb
    rw [a2]; simp; omega
  · intro b hb
    rw [h1 b hb]; simp

/-! ## The metadata of a table -/

theorem insert_same {V : Type} {m : SMap V} {k : Str} {v : V} (h : m.get? k = some v) : m.insert k v = m := by
  induction m with
  | nil => cases h
  | cons x xs ih =>
    obtain ⟨j, u⟩ := x
    rw [SMap.get?] at h
    rw [SMap.insert]
    by_cases hj : j = k
    · rw [if_pos hj] at h ⊢; cases h; rw [hj]
    · rw [if_neg hj] at h ⊢; rw [ih h]

theorem split_count (c : UInt8) (s : Str) : (splitOnB c s).length = s.count c + 1 := by
  induction s with
  | nil => rfl
  | cons b s ih =>
    rw [splitOnB, List.count_cons]
    by_cases hb : b = c
    · rw [if_pos hb, List.length_cons, ih]; simp [hb]
    · rw [if_neg hb]
      have hb' : (b == c) = false := by simpa using hb
      rw [hb']
      cases hs : splitOnB c s with
      | nil => exact absurd hs (splitOnB_ne_nil c s)
      | cons p ps => rw [hs] at ih; simpa using ih

/-- The number of columns instead of the column list. -/
def withColumns (m : Meta) : Meta :=
  match m.attributes.get? b!"cols" with
  | some v => { m with attributes := m.attributes.insert b!"cols" (columns v) }
  | none => m

theorem simplify_columns (m : Meta) (h : ∀ x y, m.attributes.get? b!"cols" = some [x, y] → isCont y = false) :
    m.simplifyCols = .ok (withColumns m) := by
  unfold Meta.simplifyCols withColumns
  cases hg : m.attributes.get? b!"cols" with
  | none => rfl
  | some v =>
    rw [hg] at h
    dsimp only
    by_cases hc : c!"," ∈ v
    · rw [if_pos (List.contains_iff_mem.2 hc), split_count]
      unfold columns
      rw [if_pos hc]; rfl
    · have hcc : v.contains c!"," = false := by rw [← Bool.not_eq_true, List.contains_iff_mem]; exact hc
      rw [hcc]
      unfold columns
      rw [if_neg hc]
      simp only [Bool.false_eq_true, if_false]
      by_cases h3 : v.length = 2
      · rw [if_pos h3]
        match v, h3, h with
        | [x, y], _, h =>
          have hy := h x y rfl
          by_cases hs : y = 42
          · subst hs
            simp [sliceM, slice, isBoundary, isCont, bind, Except.bind, pure, Except.pure, Meta.setAttr]
          · have e : (match ([x, y] : Str) with | [n, 42] => [n] | v => v) = [x, y] := by
              split
              · rename_i heq; simp at heq; exact absurd heq.2 hs
              · rfl
            simp [sliceM, slice, isBoundary, hy, hs, bind, Except.bind, pure, Except.pure]
            rw [insert_same hg]
      · rw [if_neg h3]
        match v, h3 with
        | [], _ => rw [insert_same hg]
        | [_], _ => rw [insert_same hg]
        | [_, _], h3 => exact absurd rfl h3
        | x :: y :: z :: v, _ =>
          have e : (match (x :: y :: z :: v : Str) with | [n, 42] => [n] | v => v) = x :: y :: z :: v := by
            split
            · rename_i heq; simp at heq
            · rfl
          simp only [insert_same hg]

/-- The metadata of a table before its column list is simplified. -/
def rowMeta (lead : Nat) (rows : List TableRow) (m : Option Meta) : Option Meta :=
  if 2 ≤ firstCells rows then
    let m := m.getD {}
    let m := if lead = 1 then { m with options := m.options ++ [b!"header"] } else m
    some (if (m.attributes.get? b!"cols").isSome then m
      else { m with attributes := m.attributes.insert b!"cols" (natToStr (firstCells rows)) })
  else m

theorem tableMeta_eq (lead : Nat) (rows : List TableRow) (m : Option Meta) (h : 2 ≤ (rows.flatMap TableRow.cells).length) :
    tableMeta lead rows m = (rowMeta lead rows m).map withColumns := by
  unfold tableMeta rowMeta
  rw [if_neg (by omega)]
  rfl

theorem withColumns_bare (m : Meta) : bareM (withColumns m) = withColumns (bareM m) := by
  unfold withColumns
  rw [show (bareM m).attributes = m.attributes from rfl]
  cases m.attributes.get? b!"cols" <;> rfl

theorem rowMeta_bare (lead : Nat) (rows : List TableRow) (m : Option Meta) :
    (rowMeta lead rows m).map bareM = rowMeta lead rows (m.map bareM) := by
  unfold rowMeta
  by_cases h : 2 ≤ firstCells rows
  · rw [if_pos h, if_pos h]
    cases m with
    | none =>
      by_cases hl : lead = 1
      · simp only [hl]; rfl
      · simp only [hl]; rfl
    | some m =>
      simp only [Option.getD_some, Option.map_some]
      by_cases hl : lead = 1
      · simp only [hl, if_true, bareM]
        split <;> rfl
      · simp only [hl, if_false]
        rw [show (bareM m).attributes = m.attributes from rfl]
        split <;> rfl
  · rw [if_neg h, if_neg h]

theorem tableMeta_bare (lead : Nat) (rows : List TableRow) (m : Option Meta) :
    (tableMeta lead rows m).map bareM = tableMeta lead rows (m.map bareM) := by
  by_cases h : 2 ≤ (rows.flatMap TableRow.cells).length
  · rw [tableMeta_eq _ _ _ h, tableMeta_eq _ _ _ h, ← rowMeta_bare]
    cases rowMeta lead rows m with
    | none => rfl
    | some m => simp only [Option.map_some, withColumns_bare]
  · unfold tableMeta
    rw [if_pos (by omega), if_pos (by omega)]

theorem natToStr_cont (n : Nat) (x y : UInt8) (h : natToStr n = [x, y]) : isCont y = false := by
  have := natToStr_digits n y (by simp [h])
  simp only [isDigit, Bool.and_eq_true, decide_eq_true_eq] at this
  simp only [isCont, Bool.and_eq_false_iff]
  left
  simp only [decide_eq_false_iff_not, UInt8.le_iff_toNat_le]
  have h2 := UInt8.le_iff_toNat_le.1 this.2
  have e1 : (0x80 : UInt8).toNat = 128 := rfl
  have e2 : (0x39 : UInt8).toNat = 57 := rfl
  omega

theorem rowMeta_cols (lead : Nat) (rows : List TableRow) (m : Option Meta) (mm : Meta) (h : rowMeta lead rows m = some mm)
    (hm : ∀ m', m = some m' → ∀ x y, m'.attributes.get? b!"cols" = some [x, y] → isCont y = false) :
    ∀ x y, mm.attributes.get? b!"cols" = some [x, y] → isCont y = false := by
  unfold rowMeta at h
  by_cases hf : 2 ≤ firstCells rows
  · rw [if_pos hf] at h
    simp only [Option.some.injEq] at h
    have ha : (if lead = 1 then { (m.getD {}) with options := (m.getD {}).options ++ [b!"header"] } else m.getD {}).attributes
        = (m.getD {}).attributes := by split <;> rfl
    rw [ha] at h
    intro x y hg
    rw [← h] at hg
    cases hs : (m.getD {}).attributes.get? b!"cols" with
    | some v =>
      rw [hs] at hg
      simp only [Option.isSome_some, if_true, ha, hs] at hg
      cases m with
      | none => cases hs
      | some m => exact hm m rfl x y (by rw [← hg]; exact hs)
    | none =>
      rw [hs] at hg
      simp [SMap.get?_insert] at hg
      exact natToStr_cont _ x y hg
  · rw [if_neg hf] at h
    exact hm mm h

/-- The metadata of a table whose cells are on the lines written. -/
theorem table_info (n lead : Nat) (rows : List TableRow) (hg : ∀ row ∈ rows, 1 ≤ row.gap)
    (hne : ∀ row ∈ rows, row.cells ≠ []) (bs : List Block)
    (hr : RowsAt fs (n + lead) rows bs) (d : Str) (ti : List Inline) (m : Option Meta) (l0 : Location) (ls : List Location)
    (hl : l0.line = n) (h1 : firstCells rows < 2 → 2 ≤ (rows.flatMap TableRow.cells).length → m.isSome)
    (h2 : ∀ m', m = some m' → ∀ x y, m'.attributes.get? b!"cols" = some [x, y] → isCont y = false) :
    tableInfo (.parent .table none d bs ti m (l0 :: ls)) = .ok (.parent .table none d bs ti (tableMeta lead rows m) (l0 :: ls)) := by
  have hlen := hr.all.1
  obtain ⟨as, cs, rfl, f1, f2, f3⟩ := hr.first hg
  by_cases h : 2 ≤ (rows.flatMap TableRow.cells).length
  · rw [tableMeta_eq _ _ _ h]
    have hon := cellsOnLine_first f2 f3
    have hcols := fun mm => rowMeta_cols lead rows m mm (hm := h2)
    obtain ⟨b0, b1, rest, hbs⟩ : ∃ b0 b1 rest, as ++ cs = b0 :: b1 :: rest := by
      match hb : as ++ cs with
      | [] => rw [hb, List.length_nil] at hlen; omega
      | [_] => rw [hb] at hlen; simp only [List.length_singleton] at hlen; omega
      | b0 :: b1 :: rest => exact ⟨b0, b1, rest, rfl⟩
    rw [hbs] at hon ⊢
    by_cases hf : 2 ≤ firstCells rows
    · have e0 : b0.line = .ok (n + lead) ∧ b1.line = .ok (n + lead) := by
        match as, f1, f2, hbs with
        | [], f1, _, _ => simp only [List.length_nil] at f1; omega
        | [_], f1, _, _ => simp only [List.length_singleton] at f1; omega
        | a0 :: a1 :: as, _, f2, hbs =>
          simp only [List.cons_append, List.cons.injEq] at hbs
          rw [← hbs.1, ← hbs.2.1]
          exact ⟨f2 a0 (by simp), f2 a1 (by simp)⟩
      rw [f1] at hon
      simp only [tableInfo, e0.1, e0.2, liftB, bind, Except.bind, if_true, hon, hl]
      unfold rowMeta at hcols ⊢
      rw [if_pos hf] at hcols ⊢
      have hlead : (n + lead = n + 1) = (lead = 1) := by simp only [eq_iff_iff]; omega
      simp only [hlead]
      cases m with
      | none =>
        by_cases hl1 : lead = 1
        · have e := simplify_columns _ (hcols _ rfl)
          simp only [hl1, if_true, Option.getD_none, SMap.get?, Option.isSome_none, Bool.false_eq_true, if_false, Meta.setAttr] at e ⊢
          rw [e]; rfl
        · have e := simplify_columns _ (hcols _ rfl)
          simp only [hl1, Option.getD_none, SMap.get?, Option.isSome_none, Bool.false_eq_true, if_false, Meta.setAttr] at e ⊢
          rw [e]; rfl
      | some m0 =>
        have e := simplify_columns _ (hcols _ rfl)
        by_cases hl1 : lead = 1 <;> cases hc : m0.attributes.get? b!"cols" <;>
          simp only [hl1, if_true, Option.getD_some, hc, Option.isSome_none, Option.isSome_some, Bool.false_eq_true, if_false,
            Meta.setAttr] at e ⊢ <;>
          rw [e] <;> rfl
    · have e0 : ∃ x y, b0.line = .ok x ∧ b1.line = .ok y ∧ x ≠ y := by
        have f4 : 1 ≤ firstCells rows := by
          match rows, hne, h with
          | [], _, h => simp at h
          | row :: _, hne, _ =>
            have := List.length_pos_iff.2 (hne row (by simp))
            simp only [firstCells, List.head?_cons, Option.map_some, Option.getD_some]
            omega
        match as, f1, f2, hbs with
        | [], f1, _, _ => simp at f1; omega
        | [a0], _, f2, hbs =>
          simp only [List.cons_append, List.nil_append, List.cons.injEq] at hbs
          obtain ⟨m1, a1, a2⟩ := f3 b1 (by rw [hbs.2]; simp)
          exact ⟨n + lead, m1, by rw [← hbs.1]; exact f2 a0 (by simp), a2, by omega⟩
        | _ :: _ :: _, f1, _, _ => simp at f1; omega
      obtain ⟨x, y, e0, e1, hxy⟩ := e0
      obtain ⟨mm, rfl⟩ := Option.isSome_iff_exists.1 (h1 (by omega) h)
      simp only [tableInfo, e0, e1, liftB, bind, Except.bind, if_neg hxy]
      unfold rowMeta at hcols ⊢
      rw [if_neg hf] at hcols ⊢
      rw [simplify_columns mm (hcols mm rfl)]; rfl
  · unfold tableMeta
    rw [if_pos (by omega)]
    match hb : as ++ cs with
    | [] => rfl
    | [_] => rfl
    | b0 :: b1 :: rest => rw [hb, List.length_cons, List.length_cons] at hlen; omega

/-! ## The delimiters of a table -/

/-- Locations of the source that begin on line `n`. -/
def From (fs : List Str) (n : Nat) (l : List Location) : Prop := (∃ x xs, l = x :: xs ∧ x.line = n) ∧ ∀ x ∈ l, x.file = fs ∧ n ≤ x.line

theorem From.reconcile {n : Nat} {a b : List Location} (h : From fs n a) (hb : ∀ x ∈ b, x.file = fs ∧ n ≤ x.line) :
    From fs n (Adoc.reconcile a b) := by
  by_cases hb0 : b = []
  · subst hb0; simpa [Adoc.reconcile] using h
  · obtain ⟨⟨x, xs, rfl, hx⟩, ha⟩ := h
    obtain ⟨u, v, e, h1, h2, h3⟩ := Props.C12_bounds (x :: xs) b hb0 (by
      have := List.length_pos_iff.2 hb0
      simp only [List.length_cons]; omega)
    have hall : ∀ z ∈ x :: xs ++ b, z.file = fs ∧ n ≤ z.line := by
      intro z hz
      rcases List.mem_append.1 hz with hz | hz
      · exact ha z hz
      · exact hb z hz
    rw [e]
    refine ⟨⟨u, [v], rfl, ?_⟩, ?_⟩
    · have hu := hall u h1
      have := (h3 x (by simp)).1
      unfold Props.before at this
      rw [hu.1, (ha x (by simp)).1] at this
      simp only [List.length_nil, Nat.lt_irrefl, false_or, true_and] at this
      omega
    · intro z hz
      simp only [List.mem_cons, List.not_mem_nil, or_false] at hz
      rcases hz with rfl | rfl
      · exact hall z h1
      · exact hall z h2

theorem pushBlocks_table (n : Nat) (d : Str) (ti : List Inline) (m : Option Meta) (xs : List Block)
    (hx : ∀ b ∈ xs, b.isTableCell = true ∧ ∀ x ∈ b.locations, x.file = fs ∧ n ≤ x.line) (bs : List Block) (l : List Location)
    (hl : From fs n l) : ∃ l', pushBlocks (.parent .table none d bs ti m l) xs = .ok (.parent .table none d (bs ++ xs) ti m l')
      ∧ From fs n l' := by
  induction xs generalizing bs l with
  | nil => exact ⟨l, by simp [pushBlocks], hl⟩
  | cons x xs ih =>
    have h1 := hx x (by simp)
    have hli : x.isListItem = false := by cases x <;> first | rfl | cases h1.1
    have hl1 : Block.consolidate (.parent .table none d (bs ++ [x]) ti m l)
        = .parent .table none d (bs ++ [x]) ti m (reconcile l x.locations) := by
      simp only [Block.consolidate, recBlocks, List.getLast?_append, List.getLast?_singleton, Option.some_or]
    obtain ⟨l', h, h2⟩ := ih (fun b hb => hx b (by simp [hb])) (bs ++ [x]) _ (hl.reconcile h1.2)
    refine ⟨l', ?_, h2⟩
    simp only [pushBlocks, Block.pushBlock, hli, h1.1, Bool.true_eq_false, Bool.false_eq_true, and_false, if_false, liftB, bind, Except.bind, hl1]
    rw [h]
    simp

theorem table_step (w : World) (k : Nat) (p : Parser) (t : Token) (ht : t.ty = .table) (hh : p.header = none)
    (ho : p.openText = none) : tokenInto w (k + 1) t p = p.parseParent t := by
  rw [tokenInto_plain w k t p hh ho]
  unfold dispatchToken
  rw [ht]

theorem token_from {fs : List Str} (t : Token) (h : t.fileStack = fs) (n : Nat) (hn : t.line = n) : From fs n t.locations := by
  refine ⟨⟨t.firstLocation, [t.lastLocation], rfl, hn⟩, ?_⟩
  intro x hx
  simp only [Token.locations, List.mem_cons, List.not_mem_nil, or_false] at hx
  rcases hx with rfl | rfl
  · exact ⟨h, Nat.le_of_eq hn.symm⟩
  · exact ⟨h, Nat.le_of_eq hn.symm⟩

/-- The first delimiter. -/
theorem open_table (w : World) (k : Nat) (p : Parser) (hh : p.header = none) (ho : p.openText = none) (hic : p.inCont = false)
    (hi : p.inlines = []) (hsp : p.inSpan = false) (hol : p.openLines = []) (hof : Steady p.offset p.attrs p.asg)
    (hbl : ∀ b ∈ p.blocks, b.isParent = false) (t : Token) (ht : IsMark .table b!"|===" t) :
    ∃ q, Feeds w k [t] p q ∧ InTable q ⟨p.title.getD [], metaOf p.data, t.locations, p.blocks, p.asg, t.line, p.preserveNl⟩ [] p.closeParent := by
  have hstep : tokenInto w (k + 1) t p = .ok { p with
      dangling := none, title := none, openLines := [t.line], data := none
      blocks := .parent .table none b!"|===" [] (p.title.getD []) (metaOf p.data) t.locations :: p.blocks } := by
    rw [table_step w k p t ht.ty hh ho]
    unfold parseParent
    rw [ht.ty]
    simp only [Block.parentKind, splitFirst_none hbl, openParent, pushToStack, hic, Bool.false_and, Bool.false_eq_true, if_false, hol]
    have htx : t.text = b!"|===" := by rw [ht.text]; rfl
    rw [htx]
    cases hd : p.data with
    | none => simp only [metaOf]
    | some m =>
      simp only [metaOf, addMeta]
      cases m.isEmpty <;> rfl
  exact ⟨_, Feeds.one hstep, ⟨⟨hh, ho, rfl, hic, rfl⟩, rfl, hof, rfl, rfl, hi, hsp, rfl, rfl, by simp⟩⟩

/-- The last delimiter. -/
theorem close_table (w : World) (k : Nat) (p : Parser) (c : TCtx) (cells : List Block) (r : Bool) (h : InTable p c cells r)
    (n lead : Nat) (rows : List TableRow) (ho : ∀ row ∈ rows, row.Ok) (hr : RowsAt fs (n + lead) rows cells) (hl : From fs n c.loc)
    (h1 : firstCells rows < 2 → 2 ≤ (rows.flatMap TableRow.cells).length → c.data.isSome)
    (h2 : ∀ m', c.data = some m' → ∀ x y, m'.attributes.get? b!"cols" = some [x, y] → isCont y = false)
    (t : Token) (ht : t.ty = .table) (hfs : t.fileStack = fs) (hn : n ≤ t.line) :
    ∃ l', Feeds w k [t] p { p with
        dangling := none, inlines := [], openLines := [], lastTy := .table
        blocks := .parent .table none b!"|===" cells c.title (tableMeta lead rows c.data) l' :: c.below } := by
  have hti := h.title
  have hdt := h.data
  have hic := h.inCont
  have hin := h.inlines
  have htl : ∀ x ∈ t.locations, x.file = fs ∧ n ≤ x.line := by
    intro x hx
    obtain ⟨e1, e2⟩ := (token_from t hfs t.line rfl).2 x hx
    exact ⟨e1, by omega⟩
  obtain ⟨l', hp, hl'⟩ := pushBlocks_table n b!"|===" c.title c.data cells (fun b hb => ⟨h.cells b hb, by
    obtain ⟨m, a1, a2, a3⟩ := hr.all.2 b hb
    exact fun x hx => ⟨(a3 x hx).1, by have := (a3 x hx).2; omega⟩⟩) [] _ (hl.reconcile htl)
  obtain ⟨⟨l0, ls, rfl, hl0⟩, _⟩ := hl'
  have hinfo := table_info n lead rows (fun row hrow => (ho row hrow).gap) (fun row hrow => (ho row hrow).cells.1) cells hr b!"|===" c.title
    c.data l0 ls hl0 h1 h2
  refine ⟨l0 :: ls, ?_⟩
  have hstep : tokenInto w (k + 1) t p = .ok { p with
      dangling := none, inlines := [], openLines := []
      blocks := .parent .table none b!"|===" cells c.title (tableMeta lead rows c.data) (l0 :: ls) :: c.below } := by
    rw [table_step w k p t ht h.header h.openText]
    unfold parseParent
    rw [ht]
    have hsp : splitFirst Block.isParent p.blocks = some (cells.reverse, c.top, c.below) := by
      rw [h.blocks]
      exact splitFirst_at (by
        intro b hb
        have := h.cells b (by simpa using hb)
        cases b <;> first | rfl | cases this) rfl _
    have hpe : Block.parentEq .table none .table none = true := rfl
    simp only [Block.parentKind, hsp, TCtx.top, hpe, if_true, closeParentBlock]
    rw [addInlines_nil _ (by exact hin)]
    have hle : c.loc.isEmpty = false := by
      obtain ⟨⟨x, xs, hx, _⟩, _⟩ := hl
      rw [hx]; rfl
    have e1 : (cells.reverse ++ c.below).length - c.below.length = cells.reverse.length := by simp
    simp only [bind, Except.bind, h.openLines, hle, Bool.false_eq_true, if_false, e1, List.take_left, List.drop_left, List.reverse_reverse]
    rw [hp]
    simp only [List.nil_append]
    have hit : Block.isTable (.parent .table none b!"|===" cells c.title c.data (l0 :: ls)) = true := rfl
    simp only [hit, if_true]
    rw [hinfo]
    simp only [pushToStack, hic, Bool.false_and, Bool.false_eq_true, if_false, hdt, pure, Except.pure, hti, hin]
  have := Feeds.one hstep
  rw [ht] at this
  exact this

theorem feed_table (w : World) (k : Nat) (p : Parser) (tags : List Tag) (m : Option Meta) (f : Front) (hs : List Title)
    (E : List (List Title × Block)) (fl fl' : Flow) (h : Waits p m f hs E fl) (hm0 : tags = [] → m = none)
    (hmeta : (metaOf m).map bareM = tagsMeta tags) (title : Option (List Elem)) (lead : Nat)
    (rows : List TableRow) (ho : (Blk.table title lead rows).Ok) (hpl : TagsFor tags (.table title lead rows))
    (hn : fl.step (.table title lead rows) = some fl') (n : Nat) (hn1 : 1 ≤ n) (ts : List Token)
    (hma : Matches (Blk.table title lead rows).signs ts) (hli : Lined fs n ts) :
    ∃ q, Feeds w (k + 1) ts p q ∧ Ready w (k + 1) q f hs
      (E ++ [(parents hs 5, (Blk.table title lead rows).block [] ((metaOf m).map bareM))]) fl' (fl.stop (.table title lead rows)) 0 := by
  obtain ⟨o1, o2, o3⟩ := ho
  obtain ⟨y1, y2, y3⟩ := hpl
  simp only [Blk.signs] at hma
  obtain ⟨as, vs, rfl, m1, hma⟩ := hma.split
  cases hma with
  | mark _ _ _ t us ht hma' =>
  replace hma := hma'
  obtain ⟨ns, us, rfl, m2, hma⟩ := hma.split
  obtain ⟨is, us, rfl, m3, hma⟩ := hma.split
  obtain ⟨e, rfl, he⟩ := matches_one hma
  obtain ⟨_, l2⟩ := hli.split
  have hn2 := lineAfter_le n as
  generalize hN : lineAfter n as = N at l2 hn2
  obtain ⟨⟨l3, l3'⟩, l4⟩ := l2
  rw [if_neg (by rw [ht.ty]; simp)] at l4
  obtain ⟨n1, n2⟩ := matches_newlines m2
  obtain ⟨_, l4⟩ := l4.split
  rw [lineAfter_newlines N ns n2, n1] at l4
  obtain ⟨l5, l6⟩ := l4.split
  have hst := h.still
  have hb := hst.base
  have hq := h.quiet
  obtain ⟨pend, c1, c2, c3⟩ := hq.content
  obtain ⟨p1, ti, t1, t2, t3⟩ := feed_caption w (k + 1) p m hst title o1 (y1.imp hm0 id) as m1
  have hdat : p1.data = m := by rw [t2]; exact h.data
  have hblk : p1.blocks = pend.toList := by rw [t2]; exact c1
  obtain ⟨q, g1, g2⟩ := open_table w (k + 1) p1 (by rw [t2]; exact hb.header) (by rw [t2]; exact hb.openText)
    (by rw [t2]; exact hb.inCont) (by rw [t2]; exact hst.inlines) (by rw [t2]; exact hst.span)
    (by rw [t2]; exact hq.openLines) (by rw [t2]; exact hq.steady)
    (by
      rw [hblk]
      intro b hb'
      cases c3 with
      | flat => cases hb'
      | under => simp only [Option.toList_some, List.mem_singleton] at hb'; rw [hb']; rfl) t ht
  obtain ⟨q1, j1, j2⟩ := g2.newlines w (k + 1) ns n2
  obtain ⟨q2, cells, i1, i2, i3⟩ := feed_rows w k _ rows (N + lead) (by omega) q1 [] _ j2 o3 is m3 l5
  rw [List.nil_append] at i2
  have hmd : ∀ m', metaOf p1.data = some m' → tagsMeta tags = some (bareM m') := by
    intro m' hm'
    rw [← hmeta, ← hdat, hm']; rfl
  obtain ⟨l', k1⟩ := close_table w (k + 1) q2 _ _ _ i2 N lead rows o3 i3 (token_from t l3' N l3) (by
      intro a1 a2
      have := y2 a1 a2
      rw [← hmeta] at this
      show (metaOf p1.data).isSome
      rw [hdat]
      simpa using this) (by
      intro m' hm' x y hxy
      exact y3 _ (hmd m' hm') x y hxy) e he.ty l6.1.2 (by
      have := l6.1.1
      have := lineAfter_le (N + lead) is
      omega)
  have hfeeds := t1.append (g1.append (j1.append (i1.append k1)))
  refine ⟨_, by simpa using hfeeds, ?_⟩
  simp only [Flow.step] at hn
  obtain ⟨hsh, hn⟩ := Flow.open hn
  have hasg : q2.asg = p.asg := i2.asg.trans (by show p1.asg = _; rw [t2])
  have hcp : q2.closeParent = (fl.ref || (Blk.table title lead rows).refers) := by
    rw [i2.ref]
    have e1 : p1.closeParent = (fl.ref || (title.getD []).any Elem.refers) := by
      rw [t2, ← hq.ref]
    rw [e1, Blk.refers, Bool.or_assoc]
  have := ready_block w (k + 1) { q2 with
      dangling := none, inlines := [], openLines := [], lastTy := .table
      blocks := .parent .table none b!"|===" cells (p1.title.getD []) (tableMeta lead rows (metaOf p1.data)) l' :: p1.blocks } f hs E fl pend
    (.parent .table none b!"|===" cells (p1.title.getD []) (tableMeta lead rows (metaOf p1.data)) l') ⟨base_same i2.toBase rfl, rfl, i2.steady⟩
    rfl ⟨by simp, by simp⟩ rfl rfl true
    (by simp) (by rw [hblk]) (by show Content q2.asg.blocks _ _ _ _; rw [hasg]; exact c3) hsh
    (by show q2.asg.front = _; rw [hasg]; exact hq.front) (by show Built q2.asg; rw [hasg]; exact hq.built)
    (by show q2.preserveNl = true → _; rw [i2.kept]; show p1.preserveNl = true → _; rw [t2]; exact hq.kept)
  have hti : p1.title = ti := by rw [t2]
  have hfl : fl' = if (fl.sec && (fl.ref || (Blk.table title lead rows).refers)) = true then { fl with ref := false, shut := true, box := true }
      else { fl with ref := fl.ref || (Blk.table title lead rows).refers, box := true } := by
    split at hn <;> rename_i hx <;> simp only [Option.some.injEq] at hn <;> simp only [hx] <;> exact hn.symm
  rw [hfl]
  simp only [hti, hdat] at this ⊢
  simp only [bareB, i3.bare, t3, tableMeta_bare] at this
  simp only [Flow.stop]
  rw [← hcp]
  exact this

end Adoc.Rich
