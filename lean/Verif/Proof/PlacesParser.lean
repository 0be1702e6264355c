import Verif.Proof.Places
import Verif.Proof.OriginParser
/-!
# Locations: the parser

One pass over all handlers: if every token that is parsed begins and ends where it may, so does every node.
-/
namespace Adoc.Spec.Places
open Block Parser
open Origin (noToken noHeader)

/-- The location of an open span with nothing in it is that of its token. -/
def OpenOk (P : Places) (x : Inline) : Prop :=
  ∀ v f m l, x = .span v f [] m l true → v ≠ .footnote → ∃ t, P.Tok t ∧ l = t.locations

/-- An inline of the inline stack. -/
def Li (P : Places) (x : Inline) : Prop := P.Inl x ∧ P.OpenOk x

/-- The inline stack. -/
def Lis (P : Places) (is : List Inline) : Prop := ∀ x ∈ is, P.Li x

/-- What is asked of a set of tokens: they are at proper places, and so are the tokens of table cells and included files.
There are no attribute entries or no attribute references. -/
structure Ctx (P : Places) (w : World) (T : Token → Prop) : Prop where
  one : P.start 1 1
  tok : ∀ t, T t → P.Tok t
  attr : (∀ t, T t → t.ty ≠ .attribute) ∨ (∀ t, T t → t.ty ≠ .attributeReference)
  cell : ∀ (t : Token) (c : Str) (pre : List Token) (u : Token) (rest : List Item) (v : Token), T t → t.ty = .tableCell → sliceM t.text 1 t.text.length = .ok c →
    scan c = pre.map .tok ++ .tok u :: rest → u.offsetBy t.line t.startcol = .ok v → T v
  incl : ∀ t path s fs u, T t → t.ty = .include → w.read path = some s →
    .tok u ∈ (Scanner.newWithStack s fs).run → T u

/-- All parts of a parser state are at proper places. -/
structure Inv (P : Places) (T : Token → Prop) (p : Parser) : Prop where
  header : ∀ h ∈ p.header, P.Range h.loc ∧ P.Inls h.title
  attrs : (∀ t, T t → t.ty ≠ .attribute) → p.attrs = []
  blocks : P.Blks p.blocks
  inlines : P.Lis p.inlines
  title : P.Inls (p.title.getD [])
  dangling : ∀ t ∈ p.dangling, T t
  asg : P.Graph p.asg

variable {P : Places} {T : Token → Prop} {w : World}

theorem splitFirst_sat {α : Type} {f : α → Bool} {l a b : List α} {x : α} (h : splitFirst f l = some (a, x, b)) : f x = true := by
  induction l generalizing a with
  | nil => cases h
  | cons y l ih =>
    unfold splitFirst at h
    split at h
    · cases h; assumption
    · split at h
      · cases h
        exact ih ‹_›
      · cases h

theorem Closed.openOk {x : Inline} (h : Closed x) : P.OpenOk x := by
  rintro v f m l rfl _
  cases h

theorem Tok.openOk {t : Token} (h : P.Tok t) (v : SpanVariant) (f : SpanForm) (m : Option Meta) (o : Bool) :
    P.OpenOk (.span v f [] m t.locations o) := by
  rintro v f m l ⟨⟩ _
  exact ⟨t, h, rfl⟩

theorem full_openOk {v : SpanVariant} {f : SpanForm} {is : List Inline} {m : Option Meta} {l : List Location} {o : Bool} (h : is ≠ []) :
    P.OpenOk (.span v f is m l o) := by
  rintro v f m l ⟨⟩ _
  exact absurd rfl h

theorem lis_nil : P.Lis [] := fun _ h => by cases h
theorem lis_cons {i : Inline} {is : List Inline} : P.Lis (i :: is) ↔ P.Li i ∧ P.Lis is := by simp [Lis]
theorem lis_one {i : Inline} : P.Lis [i] ↔ P.Li i := by simp [Lis]
theorem lis_append {a b : List Inline} : P.Lis (a ++ b) ↔ P.Lis a ∧ P.Lis b := by
  simp only [Lis, List.mem_append]
  exact ⟨fun h => ⟨fun i hi => h i (.inl hi), fun i hi => h i (.inr hi)⟩, fun h i hi => hi.elim (h.1 i) (h.2 i)⟩
theorem lis_reverse {a : List Inline} : P.Lis a.reverse ↔ P.Lis a := by simp [Lis]
theorem Lis.inls {a : List Inline} (h : P.Lis a) : P.Inls a := inls_mem.2 fun i hi => (h i hi).1
theorem Lis.inlsR {a : List Inline} (h : P.Lis a) : P.Inls a.reverse := (lis_reverse.2 h).inls
theorem Range.lit {l : List Location} (h : P.Range l) (n : LitName) (s : Str) : P.Li (.lit n s l) := ⟨h, by simp [OpenOk]⟩

theorem Li.addInline {s x : Inline} (h : P.Li s) (hx : P.Inl x) : P.Li (Inline.addInline s x) := by
  refine ⟨h.1.addInline hx, ?_⟩
  cases s <;> simp only [Inline.addInline]
  · apply full_openOk
    unfold Inline.addLast
    repeat' split
    all_goals simp
  all_goals exact h.2

theorem Inv.graphPush {p : Parser} (h : Inv P T p) {b : Block} (hb : P.Blk b) : Ok (p.graphPush b) (Inv P T) := by
  unfold Parser.graphPush
  split
  · exact .pure { h with asg := h.asg.push hb ‹_› }
  · exact .error

theorem Inv.addText {p : Parser} (h : Inv P T p) {t : Token} (ht : P.Tok t) (pass : Bool) : Ok (p.addText t pass) (Inv P T) := by
  unfold Parser.addText
  dsimp only
  have hi := h.inlines
  have hl := ht.range.lit .text (if pass then t.lexeme else t.text)
  split
  · exact .pure { h with inlines := lis_one.2 hl }
  · rename_i heq
    rw [heq, lis_cons] at hi
    exact .ite (fun _ => .pure { h with inlines := lis_cons.2 ⟨hi.1.addInline hl.1, hi.2⟩ })
      (fun _ => .pure { h with inlines := lis_cons.2 ⟨hl, lis_cons.2 hi⟩ })
  · rename_i heq
    rw [heq, lis_cons] at hi
    refine .ite (fun _ => .pure { h with inlines := lis_cons.2 ⟨hl, lis_cons.2 hi⟩ }) fun _ => ?_
    exact .pure { h with inlines := lis_cons.2 ⟨(hi.1.1.range.merge ht.range).lit _ _, hi.2⟩ }
  · rename_i heq
    rw [heq, lis_cons] at hi
    refine .ite (fun _ => .pure { h with inlines := lis_cons.2 ⟨hl, lis_cons.2 hi⟩ }) fun _ => ?_
    exact .bind (refText_ok hi.1.1.2 ht) fun r hr => .pure { h with inlines := lis_cons.2 ⟨⟨⟨hi.1.1.1, hr⟩, by simp [OpenOk]⟩, hi.2⟩ }
  · rename_i heq
    rw [heq] at hi
    exact .pure { h with inlines := lis_cons.2 ⟨hl, hi⟩ }

theorem addText_ne {p : Parser} {t : Token} {pass : Bool} : Ok (p.addText t pass) fun q => q.inlines ≠ [] := by
  unfold Parser.addText
  dsimp only
  split
  · exact .pure (by simp)
  · exact .ite (fun _ => .pure (by simp)) (fun _ => .pure (by simp))
  · exact .ite (fun _ => .pure (by simp)) (fun _ => .pure (by simp))
  · exact .ite (fun _ => .pure (by simp)) (fun _ => .bind' fun _ _ => .pure (by simp))
  · exact .pure (by simp)

theorem mergeStep_ok {acc : List Inline} {x : Inline} (h : P.Lis acc) (hx : P.Li x) : P.Lis (mergeStep acc x) := by
  unfold mergeStep
  split
  · rw [lis_cons] at h
    exact lis_cons.2 ⟨(h.1.1.range.merge hx.1.range).lit _ _, h.2⟩
  · exact lis_cons.2 ⟨hx, h⟩

theorem merge_ok {l acc : List Inline} (h : P.Lis acc) (hl : P.Lis l) : P.Lis (l.foldl mergeStep acc) := by
  induction l generalizing acc with
  | nil => exact h
  | cons x l ih =>
    rw [lis_cons] at hl
    exact ih (mergeStep_ok h hl.1) hl.2

theorem mergeStep_ne (acc : List Inline) (x : Inline) : mergeStep acc x ≠ [] := by
  unfold mergeStep
  split <;> simp

theorem merge_ne {l acc : List Inline} (h : l ≠ [] ∨ acc ≠ []) : l.foldl mergeStep acc ≠ [] := by
  induction l generalizing acc with
  | nil => simpa using h
  | cons x l ih => exact ih (.inr (mergeStep_ne _ _))

theorem danglingSpans_ne {p : Parser} (h : p.inlines ≠ []) : Ok p.danglingSpans fun q => q.inlines ≠ [] := by
  unfold Parser.danglingSpans
  split
  · exact .pure h
  · refine .bind' fun pre hp => .bind' fun kids _ => ?_
    split
    · exact addText_ne
    · refine .bind' fun kids' hk => .pure (merge_ne (.inl ?_))
      unfold Inline.prependFirst at hk
      split at hk <;> cases hk
      simp

theorem destructure_tok {t : Token} (h : P.Tok t) {s : Str} {l : Option Str} {fs : List Str} :
    P.Tok ⟨.text, s, l, (destructureLocs t.locations).1, (destructureLocs t.locations).2.1, (destructureLocs t.locations).2.2, fs⟩ :=
  ⟨h.start, h.stop, h.le⟩

theorem Inv.danglingSpans {p : Parser} (h : Inv P T p) : Ok p.danglingSpans (Inv P T) := by
  unfold Parser.danglingSpans
  split
  · exact .pure h
  · rename_i above span below heq
    have hi := h.inlines
    have hopen := splitFirst_sat heq
    rw [splitFirst_eq heq, lis_append, lis_cons] at hi
    refine .bind' fun pre hp => ?_
    cases span <;> simp only [Inline.isOpen, Bool.false_eq_true] at hopen
    rename_i v f is m l o
    subst hopen
    refine .bind (P := fun r => (P.Inls r ∧ ∀ y ∈ r, Closed y) ∧ (r = [] → is = [])) ?_ fun kids hk => ?_
    · intro r hr
      exact ⟨spanInlines_ok is hi.2.1.1.2 r hr, fun he => spanInlines_nil (he ▸ hr)⟩
    split
    · have hnil := hk.2 rfl
      subst hnil
      have hv : v ≠ .footnote := by
        rintro rfl
        cases hp
      obtain ⟨t, ht, rfl⟩ := hi.2.1.2 v f m l rfl hv
      exact Inv.addText (p := { p with inlines := above ++ below }) { h with inlines := lis_append.2 ⟨hi.1, hi.2.2⟩ }
        (destructure_tok ht) false
    · refine .bind (P := P.Lis) ?_ fun kids' hk' => .pure { h with inlines := merge_ok lis_nil ?_ }
      · intro r hr
        have h1 := prepend_ok (P := P) (fun l hl => (by cases hl; exact hi.2.1.1.1)) hk.1.1 r hr
        unfold Inline.prependFirst at hr
        split at hr <;> cases hr
        rename_i n v l rest he
        rw [inls_cons] at h1
        refine lis_cons.2 ⟨⟨h1.1, by simp [OpenOk, Inline.prependToValue]⟩, fun x hx => ⟨inls_mem.1 h1.2 x hx, (hk.1.2 x ?_).openOk⟩⟩
        rw [he]; exact List.mem_cons_of_mem _ hx
      · exact lis_append.2 ⟨lis_append.2 ⟨lis_reverse.2 hi.2.2, hk'⟩, lis_reverse.2 hi.1⟩

theorem Inv.pushToStack {p : Parser} (h : Inv P T p) {b : Block} (hb : P.Blk b) : Ok (p.pushToStack b) (Inv P T) := by
  unfold Parser.pushToStack
  have hbs := h.blocks
  refine .ite (fun _ => ?_) fun _ => ?_
  · split
    · exact .error
    · rename_i last rest heq
      rw [heq, blks_cons] at hbs
      exact .bind' fun last' hl => .pure { h with blocks := blks_cons.2 ⟨pushBlock_ok hb hbs.1 (liftB_ok hl), hbs.2⟩ }
  · split
    · exact .bind (addMeta_ok hb) fun b' hb' => .pure { h with blocks := blks_cons.2 ⟨hb', hbs⟩ }
    · exact .pure { h with blocks := blks_cons.2 ⟨hb, hbs⟩ }

theorem pushInlines_ok {b : Block} {is : List Inline} (hb : P.Blk b) (hi : P.Inls is) : Ok (pushInlines b is) P.Blk := by
  induction is generalizing b with
  | nil => exact .pure hb
  | cons i is ih =>
    rw [inls_cons] at hi
    exact .bind' fun b' hb' => ih (pushInline_ok hb hi.1 (liftB_ok hb')) hi.2

theorem Range.empty {l : List Location} (h : P.Range l) : P.Range (reconcile [] l) := by
  have := h
  obtain ⟨a, ha, rfl | ⟨b, rfl, hb, hab⟩⟩ := this
  · exact ⟨a, ha, .inl rfl⟩
  · have hm := h.merge h
    have e : reconcile [] [a, b] = reconcile [a] [b] := rfl
    obtain ⟨x, y, h1, hx, hy, hz⟩ := Props.C12_bounds [a] [b] (by simp) (by simp)
    rw [e, h1]
    simp only [List.mem_append, List.mem_singleton] at hx hy hz
    refine ⟨x, ?_, .inr ⟨y, rfl, ?_, (hz y hy).1⟩⟩
    · rcases hx with rfl | rfl
      · exact ha
      · exact start_congr ha hab (hz a (.inl rfl)).1
    · rcases hy with rfl | rfl
      · exact .inl ha
      · exact hb

theorem Inv.newParagraph {p : Parser} (h : Inv P T p) (hne : p.inlines ≠ []) : Ok p.newParagraph (Inv P T) := by
  unfold Parser.newParagraph
  have hpara : P.Blk (.leaf .paragraph .paragraph none p.inlines.reverse none (match p.inlines.reverse with
      | i :: _ => i.locations
      | [] => [])) := by
    refine ⟨?_, h.inlines.inlsR⟩
    have := h.inlines.inlsR
    split
    · rename_i heq
      rw [heq, inls_cons] at this
      exact this.1.range
    · rename_i heq
      exact absurd (List.reverse_eq_nil_iff.1 heq) hne
  have h0 : Inv P T { p with inlines := [] } := { h with inlines := lis_nil }
  have hbs := h.blocks
  dsimp only
  refine .ite (fun _ => ?_) (fun _ => ?_)
  · split
    · exact .error
    · rename_i last rest heq
      rw [show p.blocks = last :: rest from heq, blks_cons] at hbs
      exact .bind' fun last' hl => .pure { h0 with blocks := blks_cons.2 ⟨pushBlock_ok hpara hbs.1 (liftB_ok hl), hbs.2⟩ }
  · split
    · split
      · exact .error
      · refine .ite (fun hc => ?_) (fun _ => h0.pushToStack hpara)
        refine .bind' fun q hq => h0.pushToStack ?_
        cases liftB_ok hq
        refine ⟨?_, inls_nil, blks_one.2 hpara⟩
        exact hpara.1.empty
    · exact h0.pushToStack hpara

theorem Inv.addInlines {p : Parser} (h : Inv P T p) : Ok p.addInlines (Inv P T) := by
  unfold Parser.addInlines
  refine .ite (fun _ => .pure h) (fun hne => ?_)
  have hne : p.inlines ≠ [] := by simpa using hne
  have h1 : Ok (if p.inSpan = true then p.danglingSpans else .ok p) fun q => Inv P T q ∧ q.inlines ≠ [] :=
    .ite (fun _ q hq => ⟨h.danglingSpans q hq, danglingSpans_ne hne q hq⟩) (fun _ => .pure ⟨h, hne⟩)
  refine .bind h1 fun p1 h1 => ?_
  obtain ⟨h1, hne⟩ := h1
  split
  · rename_i hd heq
    have := h1.header hd heq
    refine .pure { h1 with inlines := lis_nil, header := ?_ }
    rintro _ ⟨⟩
    exact ⟨this.1, inls_append.2 ⟨this.2, h1.inlines.inlsR⟩⟩
  · split
    · rename_i last rest heq
      have hbs := h1.blocks
      rw [heq, blks_cons] at hbs
      refine .ite (fun _ => ?_) (fun _ => h1.newParagraph hne)
      exact .bind (pushInlines_ok hbs.1 h1.inlines.inlsR) fun b hb =>
        .pure { h1 with inlines := lis_nil, blocks := blks_cons.2 ⟨hb, hbs.2⟩ }
    · exact h1.newParagraph hne

theorem Inv.addLastItem {p : Parser} (h : Inv P T p) : Ok p.addLastItem (Inv P T) := by
  unfold Parser.addLastItem
  refine .bind (Inv.addInlines (p := { p with forceNew := false }) { h with }) fun p1 h1 => ?_
  have hbs := h1.blocks
  split
  · exact .error
  · rename_i item rest heq
    rw [heq, blks_cons] at hbs
    refine .ite (fun hi => ?_) (fun _ => Inv.pushToStack (p := { p1 with blocks := rest }) { h1 with blocks := hbs.2 } hbs.1)
    split
    · exact .pure { h1 with blocks := blks_nil }
    · have h2 := blks_cons.1 hbs.2
      exact .bind' fun list' hl => .pure { h1 with blocks := blks_cons.2 ⟨pushBlock_ok hbs.1 h2.1 (liftB_ok hl), h2.2⟩ }

theorem Inv.addToStackOrGraph {p : Parser} (h : Inv P T p) {b : Block} (hb : P.Blk b) : Ok (p.addToStackOrGraph b) (Inv P T) := by
  unfold Parser.addToStackOrGraph
  have hg : Ok (match p.data with
    | some m => do
      let b' ← b.addMeta m
      Parser.graphPush { p with data := none } b'
    | none => p.graphPush b) (Inv P T) := by
    split
    · exact .bind (addMeta_ok hb) fun b' hb' => Inv.graphPush (p := { p with data := none }) { h with } hb'
    · exact h.graphPush hb
  dsimp only
  split
  · rename_i last rest heq
    refine .ite (fun ht => ?_) (fun _ => hg)
    have hbs := h.blocks
    rw [heq, blks_cons] at hbs
    exact .bind' fun last' hl => .pure { h with blocks := blks_cons.2 ⟨pushBlock_ok hb hbs.1 (liftB_ok hl), hbs.2⟩ }
  · exact hg

theorem Inv.addLastToStackOrGraph {p : Parser} (h : Inv P T p) : Ok p.addLastToStackOrGraph (Inv P T) := by
  unfold Parser.addLastToStackOrGraph
  have hbs := h.blocks
  split
  · exact .error
  · rename_i b heq
    rw [heq, blks_one] at hbs
    exact Inv.graphPush (p := { p with blocks := [] }) { h with blocks := blks_nil } hbs
  · rename_i b prior rest heq
    rw [heq, blks_cons] at hbs
    refine .ite (fun ht => ?_) (fun _ => Inv.graphPush (p := { p with blocks := prior :: rest }) { h with blocks := hbs.2 } hbs.1)
    have h2 := blks_cons.1 hbs.2
    exact .bind' fun list' hl => .pure { h with blocks := blks_cons.2 ⟨pushBlock_ok hbs.1 h2.1 (liftB_ok hl), h2.2⟩ }

theorem Inv.addLastToGraph {p : Parser} (h : Inv P T p) : Ok p.addLastToGraph (Inv P T) := by
  unfold Parser.addLastToGraph
  have hbs := h.blocks
  split
  · exact .pure h
  · rename_i b rest heq
    rw [heq, blks_cons] at hbs
    have h1 : Ok (match p.data with
      | some m => b.addMeta m
      | none => .ok b) P.Blk := by
      split
      · exact addMeta_ok hbs.1
      · exact .pure hbs.1
    refine .bind h1 fun c hc => ?_
    dsimp only
    have h2 : Inv P T { p with data := none, blocks := rest } := { h with blocks := hbs.2 }
    split
    · refine .ite (fun htk => ?_) (fun _ => h2.graphPush hc)
      have h3 := blks_cons.1 hbs.2
      exact .bind' fun list' hl => .pure { h2 with blocks := blks_cons.2 ⟨pushBlock_ok hc h3.1 (liftB_ok hl), h3.2⟩ }
    · exact h2.graphPush hc

theorem Inv.drain {p : Parser} (h : Inv P T p) (n fuel : Nat) : Ok (drain n fuel p) (Inv P T) := by
  induction fuel generalizing p with
  | zero => exact .pure h
  | succ k ih =>
    unfold Parser.drain
    exact .ite (fun _ => .bind h.addLastToGraph fun q hq => ih hq) (fun _ => .pure h)

theorem Inv.moveHeader {p : Parser} (h : Inv P T p) : Ok p.moveHeader (Inv P T) := by
  unfold Parser.moveHeader
  refine .bind h.addInlines fun p1 h1 => ?_
  split
  · rename_i hd heq
    have := h1.header hd heq
    refine .ite (fun _ => .pure { h1 with header := noHeader _ }) (fun _ => .pure { h1 with header := noHeader _, asg := ?_ })
    refine { h1.asg with header := ?_ }
    rintro _ ⟨⟩
    exact ⟨this.1.inlines this.2, this.2⟩
  · exact .pure h1

theorem Inv.levelOffset {p : Parser} (h : Inv P T p) (v : Str) : Ok (p.levelOffset v) (Inv P T) := by
  unfold Parser.levelOffset
  split
  · exact .pure { h with }
  · split
    · exact .ite (fun _ => .pure { h with }) (fun _ => .error)
    · exact .error

theorem Inv.parseAttribute {p : Parser} (h : Inv P T p) {t : Token} (ht : T t) (hty : t.ty = .attribute) :
    Ok (p.parseAttribute t) (Inv P T) := by
  unfold Parser.parseAttribute
  split
  · exact .error
  · exact .pure h
  · exact .ite (fun _ => h.levelOffset _) (fun _ => .pure { h with attrs := fun hn => absurd hty (hn t ht) })

theorem Inv.parseBlockMeta {p : Parser} (h : Inv P T p) (t : Token) : Ok (p.parseBlockMeta t) (Inv P T) := by
  unfold Parser.parseBlockMeta
  exact .bind' fun m _ => .pure { h with }

theorem Inv.parseInlineMeta {p : Parser} (h : Inv P T p) (t : Token) : Ok (p.parseInlineMeta t) (Inv P T) := by
  unfold Parser.parseInlineMeta
  exact .bind' fun m _ => .pure { h with }

theorem Inv.blankLine {p : Parser} (h : Inv P T p) : Ok p.blankLine (Inv P T) := by
  unfold Parser.blankLine
  dsimp only
  have h0 : Inv P T { p with dangling := none } := { h with dangling := noToken _ }
  split
  · exact h0.moveHeader
  · have h1 : Ok (match p.blocks with
      | b :: _ => if b.isAnyItem then Parser.addLastItem { p with dangling := none } else .ok { p with dangling := none }
      | [] => .ok { p with dangling := none }) (Inv P T) := by
      split
      · exact .ite (fun _ => h0.addLastItem) (fun _ => .pure h0)
      · exact .pure h0
    refine .bind h1 fun p1 h1 => .bind (Inv.addInlines (p := { p1 with inSpan := false }) { h1 with }) fun p2 h2 => ?_
    have hbs := h2.blocks
    split
    · exact .pure { h2 with }
    · rename_i b rest heq
      rw [show p2.blocks = b :: rest from heq, blks_cons] at hbs
      have h3 : Inv P T { p2 with forceNew := true, blocks := rest } := { h2 with blocks := hbs.2 }
      refine .ite (fun _ => ?_) (fun _ => h3.pushToStack hbs.1)
      refine .bind (h3.addToStackOrGraph hbs.1) fun p4 h4 => .ite (fun _ => ?_) (fun _ => .pure h4)
      exact .bind h4.addLastToStackOrGraph fun p5 h5 => .pure { h5 with }

theorem Inv.parseNewLine {p : Parser} (h : Inv P T p) {t : Token} (ht : T t) : Ok (p.parseNewLine t) (Inv P T) := by
  unfold Parser.parseNewLine
  extract_lets p0 p1
  have h1 : Inv P T p1 := by
    simp only [p1, p0]
    split
    · rename_i ti heq
      have hti := h.title
      rw [show p.title = some ti from heq] at hti
      exact { h with inlines := lis_nil, title := inls_append.2 ⟨hti, h.inlines.inlsR⟩ }
    · exact { h with }
  refine .ite (fun _ => h1.blankLine) (fun _ => .ite (fun _ => ?_) (fun _ => ?_))
  · exact .pure { h1 with dangling := noToken _ }
  · refine .pure { h1 with dangling := ?_ }
    rintro _ ⟨⟩
    exact ht

theorem foldl_range {is : List Inline} (hi : P.Inls is) {l : List Location} (hl : P.Range l) :
    P.Range (is.foldl (fun l i => reconcile l i.locations) l) := by
  induction is generalizing l with
  | nil => exact hl
  | cons i is ih =>
    rw [inls_cons] at hi
    exact ih hi.2 (hl.merge hi.1.range)

theorem Inv.parseDlistTerm {p : Parser} (h : Inv P T p) {t : Token} (ht : P.Tok t) : Ok (p.parseDlistTerm t) (Inv P T) := by
  unfold Parser.parseDlistTerm
  dsimp only
  have h1 : Ok (match splitFirst Inline.isNewline p.inlines.reverse with
    | some (before, _, after) => do
      let p ← Parser.addInlines { p with forceNew := false, inlines := before.reverse }
      .ok { p with inlines := after.reverse ++ p.inlines }
    | none => .ok { p with forceNew := false }) (Inv P T) := by
    split
    · rename_i before x after heq
      have hi := lis_reverse.2 h.inlines
      rw [splitFirst_eq heq, lis_append, lis_cons] at hi
      refine .bind (Inv.addInlines (p := { p with forceNew := false, inlines := before.reverse }) { h with inlines := lis_reverse.2 hi.1 })
        fun q hq => .pure { hq with inlines := lis_append.2 ⟨lis_reverse.2 hi.2.2, hq.inlines⟩ }
    · exact .pure { h with }
  refine .bind h1 fun p1 h1 => ?_
  have h2 : Inv P T { p1 with inlines := [] } := { h1 with inlines := lis_nil }
  have hl := foldl_range h1.inlines.inlsR ht.range
  have hd : P.Blk (.dlist [] none (p1.inlines.reverse.foldl (fun l i => reconcile l i.locations) t.locations)) := ⟨hl, blks_nil⟩
  refine .bind (P := Inv P T) ?_ fun p2 h3 => .bind (h3.pushToStack ?_) fun p3 h4 => .pure { h4 with }
  · split
    · exact .ite (fun _ => h2.addLastItem) (fun _ => h2.pushToStack hd)
    · exact h2.pushToStack hd
  · exact ⟨hl, h1.inlines.inlsR, inls_nil, blks_nil⟩

theorem item_ok {t : Token} (ht : P.Tok t) : P.Blk (Block.newListItem t) := ⟨ht.range, inls_nil, blks_nil⟩

theorem Inv.parseOrdered {p : Parser} (h : Inv P T p) {t : Token} (ht : P.Tok t) : Ok (p.parseOrdered t) (Inv P T) := by
  unfold Parser.parseOrdered
  extract_lets p0 newList
  have hn : ∀ p1, Inv P T p1 → Ok (newList p1) (Inv P T) := by
    intro p1 h1
    refine .ite (fun hc => ?_) (fun _ => h1.pushToStack ⟨ht.range, blks_nil⟩)
    refine .bind (P := Inv P T) ?_ fun q hq => hq.pushToStack ⟨ht.range, blks_nil⟩
    split
    · exact .ite (fun _ => h1.addLastToStackOrGraph) (fun _ => .pure h1)
    · exact .pure h1
  clear_value newList
  have h0 : Inv P T p0 := { h with dangling := noToken _ }
  refine .bind (P := Inv P T) ?_ fun q hq => hq.pushToStack (item_ok ht)
  split
  · exact .ite (fun _ => h0.addLastItem) (fun _ => hn _ h0)
  · exact hn _ h0

theorem Inv.parseUnordered {p : Parser} (h : Inv P T p) {t : Token} (ht : P.Tok t) : Ok (p.parseUnordered t) (Inv P T) := by
  have h0 : Inv P T { p with dangling := none } := { h with dangling := noToken _ }
  have h1 := h0.pushToStack (b := .list .unordered [] none t.locations) ⟨ht.range, blks_nil⟩
  unfold Parser.parseUnordered
  dsimp only
  refine .bind (P := Inv P T) ?_ fun q hq => hq.pushToStack (item_ok ht)
  split
  · exact .ite (fun _ => h0.addLastItem) (fun _ => h1)
  · exact h1

theorem Inv.parseSection {p : Parser} (h : Inv P T p) {t : Token} (ht : P.Tok t) : Ok (p.parseSection t) (Inv P T) := by
  unfold Parser.parseSection
  refine .bind' fun v _ => ?_
  have h1 : Ok (match p.blocks with
    | b :: _ => if b.isSection then p.addLastToStackOrGraph else .ok p
    | [] => .ok p) (Inv P T) := by
    split
    · exact .ite (fun _ => h.addLastToStackOrGraph) (fun _ => .pure h)
    · exact .pure h
  refine .bind h1 fun p1 h1 => .bind (h1.pushToStack ⟨ht.first, inls_nil, blks_nil⟩) fun p2 h2 => ?_
  exact .pure { h2 with dangling := noToken _ }

theorem Inv.parseTitle {p : Parser} (h : Inv P T p) {t : Token} (ht : P.Tok t) : Ok (p.parseTitle t) (Inv P T) := by
  unfold Parser.parseTitle
  refine .ite (fun _ => h.parseSection ht) (fun _ => .ite (fun _ => .pure { h with header := ?_ }) (fun _ => .error))
  rintro _ ⟨⟩
  exact ⟨ht.range, inls_nil⟩

theorem Inv.parseAdmonition {p : Parser} (h : Inv P T p) {t : Token} (ht : P.Tok t) : Ok (p.parseAdmonition t) (Inv P T) := by
  unfold Parser.parseAdmonition
  refine .bind (P := P.Blk) (Ok.liftB fun b hb => ?_) fun b hb => .pure { h with blocks := blks_cons.2 ⟨hb, h.blocks⟩ }
  unfold Block.parentFromToken at hb
  split at hb <;> cases hb
  exact ⟨ht.range, inls_nil, blks_nil⟩

theorem Inv.parseContinuation {p : Parser} (h : Inv P T p) : Ok p.parseContinuation (Inv P T) := by
  unfold Parser.parseContinuation
  exact .bind h.addInlines fun q hq => .pure { hq with }

theorem closeOrAdd_ok {i : Inline} (hi' : P.Range i.locations) : ∀ {is : List Inline} {r : M (List Inline)}, P.Inls is → closeOrAdd i is = some r →
    Ok r fun l => P.Inls l ∧ l ≠ []
  | [], r, _, h => by cases h
  | [y], r, hi, h => by
    unfold closeOrAdd at h
    split at h
    · cases h
      rw [inls_cons] at hi
      exact .bind (hi.1.reconcile hi').close fun y' hy => .pure ⟨inls_one.2 hy, by simp⟩
    · cases h
  | y :: y' :: ys, r, hi, h => by
    rw [inls_cons] at hi
    unfold closeOrAdd at h
    cases hc : closeOrAdd i (y' :: ys) with
    | none => rw [hc] at h; cases h
    | some r' =>
      rw [hc] at h
      cases h
      exact .bind (closeOrAdd_ok hi' hi.2 hc) fun l hl => .pure ⟨inls_cons.2 ⟨hi.1, hl.1⟩, by simp⟩

theorem Li.close {x : Inline} {l : List Location} (h : P.Li x) (hl : P.Range l) : Ok (x.reconcileLocations l).close P.Li := by
  intro r hr
  refine ⟨(h.1.reconcile hl).close r hr, ?_⟩
  unfold Inline.close at hr
  split at hr <;> cases hr
  simp [OpenOk]

theorem Li.addMeta {x : Inline} (h : P.Li x) (m : Meta) : Ok (x.addMeta m) P.Li := by
  intro r hr
  refine ⟨h.1.addMeta m r hr, ?_⟩
  unfold Inline.addMeta at hr
  split at hr <;> cases hr
  rintro v f m' l ⟨⟩ hv
  exact h.2 _ _ _ _ rfl hv

theorem spanFromToken_ok {t : Token} (ht : P.Tok t) : Ok (Inline.spanFromToken t) P.Li := by
  unfold Inline.spanFromToken
  split
  · exact .pure ⟨⟨ht.range, inls_nil⟩, ht.openOk _ _ _ _⟩
  · refine .ite (fun _ => .bind' fun n _ => .pure ⟨⟨ht.range, inls_one.2 ?_⟩, full_openOk (by simp)⟩) fun _ => .error
    exact ht.range

theorem Inv.openSpan (c : Ctx P w T) {p : Parser} (h : Inv P T p) {i : Inline} (hi : P.Li i) : Ok (p.openSpan i) (Inv P T) := by
  unfold Parser.openSpan
  refine .bind (P := Inv P T) ?_ fun p1 h1 => .bind h1.danglingSpans fun p2 h2 => ?_
  · split
    · rename_i t ht
      exact .bind (h.addText (c.tok t (h.dangling t ht)) _) fun q hq => .pure { hq with dangling := noToken _ }
    · exact .pure h
  · split
    · exact .bind (hi.addMeta _) fun j hj => .pure { h2 with inlines := lis_cons.2 ⟨hj, h2.inlines⟩ }
    · exact .pure { h2 with inlines := lis_cons.2 ⟨hi, h2.inlines⟩ }

theorem Inv.parseSpan (c : Ctx P w T) {p : Parser} (h : Inv P T p) {i : Inline} (hi : P.Li i) : Ok (p.parseSpan i) (Inv P T) := by
  unfold Parser.parseSpan
  have his := h.inlines
  split
  · rename_i last rest heq
    rw [heq, lis_cons] at his
    refine .ite (fun _ => ?_) (fun _ => ?_)
    · exact .bind (his.1.close hi.1.range) fun y hy => .pure { h with inlines := lis_cons.2 ⟨hy, his.2⟩ }
    · split
      · split
        · rename_i r hr
          exact .bind (closeOrAdd_ok hi.1.range his.1.1.2 hr) fun l hl =>
            .pure { h with inlines := lis_cons.2 ⟨⟨⟨his.1.1.1, hl.1⟩, full_openOk hl.2⟩, his.2⟩ }
        · exact .pure { h with inlines := lis_cons.2 ⟨his.1.addInline hi.1, his.2⟩ }
      · exact h.openSpan c hi
  · exact h.openSpan c hi

theorem Inv.parseBlockImage {p : Parser} (h : Inv P T p) {t : Token} (ht : P.Tok t) : Ok (p.parseBlockImage w t) (Inv P T) := by
  unfold Parser.parseBlockImage
  refine .bind' fun tm _ => ?_
  obtain ⟨target, m⟩ := tm
  dsimp only
  refine .bind' fun _ _ => ?_
  exact Inv.addToStackOrGraph (p := { p with data := none, title := none }) { h with title := inls_nil } ⟨ht.range, h.title⟩

theorem Inv.pushI {p : Parser} (h : Inv P T p) {i : Inline} (hi : P.Li i) : P.Lis (i :: p.inlines) :=
  lis_cons.2 ⟨hi, h.inlines⟩

theorem Tok.ref {t : Token} (ht : P.Tok t) (v : RefVariant) (s : Str) (m : Option Meta) : P.Li (.ref v s [] m t.locations) :=
  ⟨⟨ht.range, inls_nil⟩, by simp [OpenOk]⟩

theorem Inv.parseInlineImage {p : Parser} (h : Inv P T p) {t : Token} (ht : P.Tok t) : Ok (p.parseInlineImage t) (Inv P T) := by
  unfold Parser.parseInlineImage
  exact .bind' fun tm htm => .pure { h with inlines := h.pushI (ht.ref _ _ _) }

theorem Inv.parseFootnote {p : Parser} (h : Inv P T p) {t : Token} (ht : P.Tok t) : Ok (p.parseFootnote t) (Inv P T) := by
  unfold Parser.parseFootnote
  exact .bind (spanFromToken_ok ht) fun s hs => .pure { h with inlines := h.pushI hs }

theorem absorb_ok {x : Inline} {is : List Inline} (hx : P.Inl x) (hm : x.isMacro = true) (hi : P.Inls is) :
    Ok (absorb x is) fun y => P.Inl y ∧ y.isMacro = true := by
  induction is generalizing x with
  | nil => exact .pure ⟨hx, hm⟩
  | cons i is ih =>
    rw [inls_cons] at hi
    refine .bind (P := fun y => P.Inl y ∧ y.isMacro = true) ?_ fun y hy => ih hy.1 hy.2 hi.2
    intro r hr
    refine ⟨hx.push hi.1 r hr, ?_⟩
    unfold Inline.pushInline at hr
    split at hr <;> cases hr <;> exact hm

theorem macro_openOk {x : Inline} (h : x.isMacro = true) : P.OpenOk x := by
  rintro v f m l rfl hv
  simp [Inline.isMacro, hv] at h

theorem Inv.parseMacroClose {p : Parser} (h : Inv P T p) {t : Token} (ht : P.Tok t) : Ok (p.parseMacroClose t) (Inv P T) := by
  unfold Parser.parseMacroClose
  refine .ite (fun _ => .pure { h with }) (fun _ => ?_)
  split
  · rename_i above x below heq
    have hi := h.inlines
    have hm := splitFirst_sat heq
    rw [splitFirst_eq heq, lis_append, lis_cons] at hi
    refine .bind (absorb_ok hi.2.1.1 hm hi.1.inlsR) fun y hy => .bind (P := P.Li) ?_ fun z hz =>
      .pure { h with inlines := lis_cons.2 ⟨hz, hi.2.2⟩ }
    intro r hr
    refine ⟨hy.1.fromToken ht r hr, macro_openOk ?_⟩
    unfold Inline.consolidateFromToken at hr
    split at hr <;> cases hr <;> exact hy.2
  · exact h.addText ht _

theorem Inv.parseText (c : Ctx P w T) {p : Parser} (h : Inv P T p) {t : Token} (ht : P.Tok t) (pass : Bool) : Ok (p.parseText t pass) (Inv P T) := by
  unfold Parser.parseText
  split
  · rename_i nl hnl
    have hn := c.tok nl (h.dangling nl hnl)
    refine .ite (fun _ => .pure { h with dangling := noToken _, inlines := lis_cons.2 ⟨?_, h.pushI (hn.range.lit _ _)⟩ }) (fun _ => ?_)
    · split <;> exact ht.range.lit _ _
    · exact .bind (h.addText hn _) fun q hq => Inv.addText (p := { q with dangling := none }) { hq with dangling := noToken _ } ht _
  · exact h.addText ht _

theorem Inv.parseAttrRef (c : Ctx P w T) {p : Parser} (h : Inv P T p) {t : Token} (ht : T t) (hty : t.ty = .attributeReference) :
    Ok (p.parseAttrRef t) (Inv P T) := by
  unfold Parser.parseAttrRef
  refine .bind' fun a _ => ?_
  split
  · rename_i v hv
    rcases c.attr with ha | ha
    · rw [h.attrs ha] at hv
      cases hv
    · exact absurd hty (ha t ht)
  · exact h.parseText c (c.tok t ht) _

theorem Inv.parseXref {p : Parser} (h : Inv P T p) {t : Token} (ht : P.Tok t) : Ok (p.parseXref t) (Inv P T) := by
  unfold Parser.parseXref
  refine .bind (P := P.Li) ?_ fun x hx => .pure { h with inlines := h.pushI hx }
  unfold Inline.xrefFromToken
  exact .bind' fun _ _ => .pure (ht.ref _ _ _)

theorem Inv.parseCallout {p : Parser} (h : Inv P T p) {t : Token} (ht : P.Tok t) : Ok (p.parseCallout t) (Inv P T) := by
  unfold Parser.parseCallout
  exact .ite (fun _ => .error) (fun _ => .bind (spanFromToken_ok ht) fun x hx => .pure { h with inlines := h.pushI hx })

theorem Inv.addCharref {p : Parser} (h : Inv P T p) {x : Inline} (hx : P.Li x) : Ok (p.addCharref x) (Inv P T) := by
  unfold Parser.addCharref
  have hi := h.inlines
  split
  · rename_i heq
    rw [heq, lis_cons] at hi
    exact .ite (fun _ => .pure { h with inlines := lis_cons.2 ⟨hi.1.addInline hx.1, hi.2⟩ })
      (fun _ => .pure { h with inlines := lis_cons.2 ⟨hx, lis_cons.2 hi⟩ })
  · rename_i heq
    rw [heq, lis_cons] at hi
    exact .ite (fun _ => .pure { h with inlines := lis_cons.2 ⟨hx, lis_cons.2 hi⟩ })
      (fun _ => .pure { h with inlines := lis_cons.2 ⟨⟨⟨hi.1.1.1, inls_append.2 ⟨hi.1.1.2, inls_one.2 hx.1⟩⟩, by simp [OpenOk]⟩, hi.2⟩ })
  · exact .pure { h with inlines := h.pushI hx }

theorem Inv.parseCharref (c : Ctx P w T) {p : Parser} (h : Inv P T p) {t : Token} (ht : P.Tok t) : Ok (p.parseCharref t) (Inv P T) := by
  have hx : P.Li (Inline.charrefFromToken t) := ht.range.lit _ _
  unfold Parser.parseCharref
  dsimp only
  split
  · rename_i nl hnl
    have hn := c.tok nl (h.dangling nl hnl)
    refine .ite (fun _ => .pure { h with dangling := noToken _, inlines := lis_cons.2 ⟨hx, h.pushI (hn.range.lit _ _)⟩ }) (fun _ => ?_)
    exact .bind (h.addText hn _) fun q hq => Inv.addCharref (p := { q with dangling := none }) { hq with dangling := noToken _ } hx
  · exact h.addCharref hx

theorem Inv.parseLeaf {p : Parser} (h : Inv P T p) {t : Token} (ht : P.Tok t) : Ok (p.parseLeaf t) (Inv P T) := by
  unfold Parser.parseLeaf
  split
  · refine .bind h.addInlines fun p1 h1 => ?_
    have hbs := h1.blocks
    split
    · exact .error
    · rename_i b rest heq
      rw [heq, blks_cons] at hbs
      refine .bind (addLocations_ok hbs.1 ht.range) fun b' hb => ?_
      exact .bind (Inv.pushToStack (p := { p1 with blocks := rest }) { h1 with blocks := hbs.2 } hb) fun q hq => .pure { hq with }
  · refine .bind (P := P.Blk) (Ok.liftB fun b hb => ?_) fun b hb => ?_
    · unfold Block.leafFromToken at hb
      split at hb <;> cases hb
      exact ⟨ht.range, inls_nil⟩
    · exact .bind (Inv.pushToStack (p := { p with openText := some t.ty }) { h with } hb) fun q hq => .pure { hq with }

theorem pushBlocks_ok {b : Block} {l : List Block} (hb : P.Blk b) (hl : P.Blks l) : Ok (pushBlocks b l) P.Blk := by
  induction l generalizing b with
  | nil => exact .pure hb
  | cons x l ih =>
    rw [blks_cons] at hl
    exact .bind' fun b' hb' => ih (pushBlock_ok hl.1 hb (liftB_ok hb')) hl.2

theorem Inv.closeParentBlock {p : Parser} (h : Inv P T p) {above below : List Block} {n : ParentName} {v : Option ParentVariant}
    {d : Str} {bs : List Block} {ti : List Inline} {m : Option Meta} {l loc : List Location} (hloc : P.Range loc)
    (heq : p.blocks = above ++ .parent n v d bs ti m l :: below) :
    Ok (p.closeParentBlock above below n v d bs ti m l loc) (Inv P T) := by
  have hbs := h.blocks
  rw [heq, blks_append, blks_cons] at hbs
  unfold Parser.closeParentBlock
  refine .bind (Inv.addInlines (p := { p with blocks := above ++ below }) { h with blocks := blks_append.2 ⟨hbs.1, hbs.2.2⟩ }) fun p1 h1 => ?_
  split
  · exact .error
  · rename_i x lines hlines
    refine .ite (fun _ => .error) (fun _ => ?_)
    have hp := hbs.2.1
    simp only [Blk] at hp
    refine .bind (pushBlocks_ok (P := P) (b := .parent n v d bs ti m (reconcile l loc)) ⟨hp.1.merge hloc, hp.2⟩
      (blks_reverse.2 (blks_sub h1.blocks (List.take_subset _ _)))) fun b hb => ?_
    have ht : Ok (if b.isTable = true then b.tableInfo else .ok b) P.Blk :=
      .ite (fun ht => tableInfo_ok hb) (fun _ => .pure hb)
    refine .bind ht fun c hc => .bind (Inv.pushToStack ?_ hc) fun q hq => .pure { hq with }
    exact { h1 with blocks := blks_sub h1.blocks (List.drop_subset _ _) }

theorem Inv.parseParent {p : Parser} (h : Inv P T p) {t : Token} (ht : P.Tok t) : Ok (p.parseParent t) (Inv P T) := by
  unfold Parser.parseParent
  split
  · exact .error
  · rename_i n v hk
    dsimp only
    have h0 : Inv P T { p with dangling := none, title := none } := { h with dangling := noToken _, title := inls_nil }
    have hb : P.Blk (.parent n v t.text [] (p.title.getD []) none t.locations) := ⟨ht.range, h.title, blks_nil⟩
    have hopen : Ok (openParent { p with dangling := none, title := none } t.line (.parent n v t.text [] (p.title.getD []) none t.locations)) (Inv P T) := by
      unfold Parser.openParent
      have h1 : Inv P T { p with dangling := none, title := none, openLines := t.line :: p.openLines } := { h0 with }
      exact h1.pushToStack hb
    split
    · rename_i heq
      exact .ite (fun _ => h0.closeParentBlock ht.range (splitFirst_eq heq)) (fun _ => hopen)
    · exact hopen

theorem Inv.parseCommentBlock {p : Parser} (h : Inv P T p) {t : Token} (ht : P.Tok t) : Ok (p.parseCommentBlock t) (Inv P T) := by
  unfold Parser.parseCommentBlock
  split
  · exact .ite (fun _ => .pure { h with inlines := lis_nil, blocks := blks_sub h.blocks (fun _ h => List.mem_of_mem_tail h) }) (fun _ => .pure h)
  · exact h.parseLeaf ht

theorem Inv.parseQuoteVerse {p : Parser} (h : Inv P T p) {t : Token} (ht : P.Tok t) : Ok (p.parseQuoteVerse t) (Inv P T) := by
  unfold Parser.parseQuoteVerse
  split
  · exact .ite (fun _ => h.parseLeaf ht) (fun _ => h.parseParent ht)
  · split
    · exact h.parseLeaf ht
    · exact h.parseParent ht

/-- The recursive calls keep the invariant. -/
def CallOk (P : Places) (T : Token → Prop) (f : Token → Parser → M Parser) : Prop := ∀ t p, T t → Inv P T p → Ok (f t p) (Inv P T)

theorem feed_ok {f : Token → Parser → M Parser} (b : Bool) {items : List Item} {p : Parser}
    (hf : ∀ (pre : List Token) t rest p, items = pre.map .tok ++ .tok t :: rest → Inv P T p → Ok (f t p) (Inv P T)) (h : Inv P T p) :
    Ok (feed f b items p) (Inv P T) := by
  induction items generalizing p with
  | nil => exact .pure h
  | cons i items ih =>
    cases i with
    | tok t =>
      unfold feed
      refine .bind (hf [] t items p rfl h) fun q hq => ih (fun pre u rest p hu => hf (t :: pre) u rest p (by rw [hu]; rfl)) ?_
      cases b with
      | true => exact { hq with }
      | false => exact hq
    | _ => exact .error

theorem Inv.parseTableCell (c : Ctx P w T) {f : Token → Parser → M Parser} (hf : CallOk P T f) {p : Parser} (h : Inv P T p) {t : Token} (ht : T t)
    (hty : t.ty = .tableCell) : Ok (p.parseTableCell f t) (Inv P T) := by
  unfold Parser.parseTableCell
  refine .bind' fun s hs => .bind (h.pushToStack ⟨(c.tok t ht).range, inls_nil⟩) fun p1 h1 => ?_
  refine .bind (feed_ok (T := T) (P := P) false (p := { p1 with dangling := none }) (fun pre u rest p hu hp => ?_)
    { h1 with dangling := noToken _ }) fun p2 h2 => ?_
  · exact .bind' fun v hv => hf _ _ (c.cell t s pre u rest v ht hty hs hu hv) hp
  exact Inv.addInlines (p := { p2 with inBlockLine := false, forceNew := false }) { h2 with }

theorem Inv.selection {p : Parser} (h : Inv P T p) (m : Option Meta) : Ok (p.selection m) fun r => Inv P T r.1 := by
  unfold Parser.selection
  split
  · exact .pure h
  · refine .bind (P := Inv P T) ?_ fun q hq => ?_
    · split
      · exact h.levelOffset _
      · exact .pure h
    · refine .bind' fun lt _ => ?_
      obtain ⟨lines, toEnd⟩ := lt
      exact .pure hq

theorem includeToken_ok (c : Ctx P w T) {f : Token → Parser → M Parser} (hf : CallOk P T f) (a : Bool) {t : Token} {p : Parser} (ht : T t) (h : Inv P T p) :
    Ok (includeToken f a t p) (Inv P T) := by
  unfold Parser.includeToken
  refine .ite (fun _ => ?_) (fun _ => ?_)
  · exact .bind (hf t p ht h) fun q hq => .pure { hq with }
  · exact Inv.parseText (p := { p with lastTy := if t.ty = .eof then .eof else .text }) c { h with } (c.tok t ht) false

theorem includeLoop_ok (c : Ctx P w T) {f : Token → Parser → M Parser} (hf : CallOk P T f) (a e : Bool) (tags : List Str)
    {items : List Item} (hi : ∀ t, .tok t ∈ items → T t) (lines : List Int) (cur : Option Str) {p : Parser} (h : Inv P T p) :
    Ok (includeLoop f a e tags items lines cur p) (Inv P T) := by
  induction items generalizing lines cur p with
  | nil => exact .pure h
  | cons i items ih =>
    have hi' := fun u (hu : Item.tok u ∈ items) => hi u (by simp [hu])
    cases i with
    | tok t =>
      unfold includeLoop
      split
      · exact ih hi' _ _ h
      · refine .bind' fun ck _ => ?_
        obtain ⟨cur', keep⟩ := ck
        dsimp only
        refine .bind (P := Inv P T) ?_ fun q hq => ih hi' _ _ hq
        exact .ite (fun _ => includeToken_ok c hf _ (hi t (by simp)) h) (fun _ => .pure h)
    | _ => exact .error

theorem Inv.parseInclude (c : Ctx P w T) {f : Token → Parser → M Parser} (hf : CallOk P T f) {p : Parser} (h : Inv P T p) {t : Token} (ht : T t)
    (hty : t.ty = .include) : Ok (p.parseInclude w f t) (Inv P T) := by
  unfold Parser.parseInclude
  refine .bind' fun tm _ => ?_
  obtain ⟨target, m⟩ := tm
  dsimp only
  refine .bind (h.selection m) fun ps hps => ?_
  obtain ⟨p1, sel⟩ := ps
  dsimp only at hps ⊢
  split
  · exact .error
  · split
    · exact .error
    · rename_i src hsrc
      refine .bind (includeLoop_ok c hf _ _ _ (fun u hu => c.incl t _ _ _ u ht hty hsrc hu) _ _ { hps with }) fun p2 h2 => ?_
      exact .bind h2.addInlines fun p3 h3 => .bind (h3.drain _ _) fun p4 h4 => .pure { h4 with }

theorem Inv.dispatchToken (c : Ctx P w T) {f : Token → Parser → M Parser} (hf : CallOk P T f) {p : Parser} (h : Inv P T p) {t : Token} (hT : T t) :
    Ok (p.dispatchToken w f t) (Inv P T) := by
  have ht := c.tok t hT
  unfold Parser.dispatchToken
  have hspan : Ok (do
      let s ← Inline.spanFromToken t
      p.parseSpan s : M Parser) (Inv P T) := .bind (spanFromToken_ok ht) fun s hs => h.parseSpan c hs
  split
  all_goals rename_i hty
  all_goals first
    | exact .error
    | exact h.parseTitle ht
    | exact h.parseSection ht
    | exact h.parseAttribute hT hty
    | exact h.parseBlockMeta _
    | exact h.parseInlineMeta _
    | exact h.parseNewLine hT
    | exact h.parseText c ht false
    | exact h.parseCharref c ht
    | exact hspan
    | exact h.parseAttrRef c hT hty
    | exact h.parseXref ht
    | exact h.parseInclude c hf hT hty
    | exact h.parseFootnote ht
    | exact h.parseInlineImage ht
    | exact h.parseMacroClose ht
    | exact h.addToStackOrGraph ht.range
    | exact h.parseParent ht
    | exact h.parseTableCell c hf hT hty
    | exact h.parseQuoteVerse ht
    | exact h.parseLeaf ht
    | exact h.parseCallout ht
    | exact h.parseBlockImage ht
    | exact h.parseUnordered ht
    | exact h.parseOrdered ht
    | exact h.parseDlistTerm ht
    | exact h.parseAdmonition ht
    | exact h.parseContinuation
    | exact h.parseCommentBlock ht
    | exact .ite (fun _ => h.moveHeader) (fun _ => .pure h)
    | exact .pure h
    | exact .pure { h with inlines := h.pushI (ht.ref _ _ _) }
    | exact .pure { h with inlines := h.pushI ⟨ht.range, by simp [OpenOk]⟩ }
    | exact .pure { h with title := inls_nil, dangling := noToken _ }
    | exact .pure { h with }

theorem Inv.step (c : Ctx P w T) {f : Token → Parser → M Parser} (hf : CallOk P T f) {p : Parser} (h : Inv P T p) {t : Token} (ht : T t) :
    Ok (step w f t p) (Inv P T) := by
  unfold Parser.step
  refine .bind (P := Inv P T) (.ite (fun _ => h.moveHeader) (fun _ => .pure h)) fun q hq => ?_
  split
  · exact hq.parseText c (c.tok t ht) _
  · exact hq.dispatchToken c hf ht

theorem tokenInto_ok (c : Ctx P w T) (fuel : Nat) : CallOk P T (tokenInto w fuel) := by
  induction fuel with
  | zero => exact fun _ _ _ _ => .error
  | succ n ih => exact fun t p ht hp => hp.step c ih ht

theorem Inv.finish {p : Parser} (h : Inv P T p) : Ok p.finish (Inv P T) := by
  unfold Parser.finish
  exact .bind h.addInlines fun p1 h1 => .bind (h1.drain _ _) fun p2 h2 => .pure { h2 with asg := h2.asg.consolidate }

theorem Inv.start (c : Ctx P w T) {p : Parser} (h1 : p = Parser.new ∨ p = Parser.newNoTargets) : Inv P T p := by
  rcases h1 with rfl | rfl <;>
  exact ⟨noHeader _, fun _ => rfl, blks_nil, lis_nil, inls_nil, noToken _,
    ⟨noHeader _, fun _ h => (by cases h), blks_nil, ⟨Location.default, c.one, .inl rfl⟩⟩⟩

/-- Whatever is parsed is at the places of its tokens. -/
theorem parse_places (c : Ctx P w T) {fuel : Nat} {items : List Item} (hi : ∀ (pre : List Token) t rest, items = pre.map .tok ++ .tok t :: rest → T t)
    {p q : Parser} (hp : p = Parser.new ∨ p = Parser.newNoTargets) (h : Parser.parse w fuel items p = .ok q) : P.Graph q.asg := by
  have : Ok (Parser.parse w fuel items p) (Inv P T) := by
    unfold Parser.parse
    exact .bind (feed_ok true (fun pre t rest p ht hp => tokenInto_ok c fuel t p (hi pre t rest ht) hp) (Inv.start c hp)) fun p1 h1 => h1.finish
  exact (this q h).asg

end Adoc.Spec.Places
