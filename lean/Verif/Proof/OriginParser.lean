import Verif.Proof.OriginBlock
/-!
# Origins: the parser

One pass over all handlers with an invariant of the state: all its parts are made of what is available.
-/
namespace Adoc.Origin

open Block Parser

/-- What must be written for a delimited block that contains blocks. -/
def delimiterMarks : List Str := [b!"*\n", b!"-\n", b!"=\n", b!"_\n", b!"|="]

/-- All parts of a parser state have their origin in `av`. -/
structure Inv (av : UInt8 → Prop) (p : Parser) : Prop where
  header : ∀ h ∈ p.header, AvS av b!"=" ∧ EveryIs av h.title
  attrs : ∀ kv ∈ p.attrs, AvS av b!":" ∧ AvS av kv.1 ∧ AvS av kv.2
  once : (p.attrs.map (·.1)).Nodup
  blocks : EveryBs av p.blocks
  inlines : EveryIs av p.inlines
  title : EveryIs av (p.title.getD [])
  data : ∀ m ∈ p.data, MetaI av m ∧ AvS av b!"[]"
  lines : p.openLines ≠ [] → Alt av delimiterMarks
  dangling : ∀ t ∈ p.dangling, TokOk av t
  asg : EveryG av p.asg

section
variable {av : UInt8 → Prop}

theorem noMeta (P : Meta → Prop) : ∀ m ∈ (none : Option Meta), P m := fun _ h => by cases h
theorem noToken (P : Token → Prop) : ∀ m ∈ (none : Option Token), P m := fun _ h => by cases h
theorem noHeader (P : Header → Prop) : ∀ m ∈ (none : Option Header), P m := fun _ h => by cases h

theorem alt_of {l l' : List Str} (h : Alt av l) (hl : ∀ a ∈ l, ∃ b ∈ l', b ⊆ a) : Alt av l' := by
  obtain ⟨a, ha, h⟩ := h
  obtain ⟨b, hb, hs⟩ := hl a ha
  exact ⟨b, hb, h.sub hs⟩

theorem Inv.graphPush {p : Parser} (h : Inv av p) {b : Block} (hb : EveryB av b) : Ok (p.graphPush b) (Inv av) := by
  unfold Parser.graphPush
  split
  · exact .pure { h with asg := graphPush_ok h.asg hb ‹_› }
  · exact .error

theorem Inv.addText {p : Parser} (h : Inv av p) {t : Token} (h1 : OkS av t.lexeme) (h2 : OkS av t.text) (pass : Bool) :
    Ok (p.addText t pass) (Inv av) := by
  have hadd : OkS av (if pass then t.lexeme else t.text) := by
    split
    · exact h1
    · exact h2
  unfold Parser.addText
  dsimp only
  have hi := h.inlines
  have hl : EveryI av (.lit .text (if pass then t.lexeme else t.text) t.locations) := everyI_text hadd
  split
  · exact .pure { h with inlines := everyIs_cons.2 ⟨hl, everyIs_nil⟩ }
  · rename_i heq
    rw [heq, everyIs_cons] at hi
    exact .ite (fun _ => .pure { h with inlines := everyIs_cons.2 ⟨everyI_addInline hi.1 hl, hi.2⟩ })
      (fun _ => .pure { h with inlines := everyIs_cons.2 ⟨hl, everyIs_cons.2 hi⟩ })
  · rename_i heq
    rw [heq, everyIs_cons] at hi
    refine .ite (fun _ => .pure { h with inlines := everyIs_cons.2 ⟨hl, everyIs_cons.2 hi⟩ }) fun _ => ?_
    have := everyI_lit.1 hi.1
    exact .pure { h with inlines := everyIs_cons.2 ⟨everyI_lit.2 ⟨this.1, this.2.append hadd⟩, hi.2⟩ }
  · rename_i heq
    rw [heq, everyIs_cons] at hi
    refine .ite (fun _ => .pure { h with inlines := everyIs_cons.2 ⟨hl, everyIs_cons.2 hi⟩ }) fun _ => ?_
    have := everyI_ref.1 hi.1
    exact .bind (refAddText_ok this.2 h1 h2) fun r hr => .pure { h with inlines := everyIs_cons.2 ⟨everyI_ref.2 ⟨this.1, hr⟩, hi.2⟩ }
  · rename_i heq
    rw [heq] at hi
    exact .pure { h with inlines := everyIs_cons.2 ⟨hl, hi⟩ }

theorem Inv.addTok {p : Parser} (h : Inv av p) {t : Token} (ht : TokOk av t) (pass : Bool) : Ok (p.addText t pass) (Inv av) :=
  h.addText (okS_of_av ht.lexeme) ht.text pass

theorem mergeStep_ok {acc : List Inline} {x : Inline} (h : EveryIs av acc) (hx : EveryI av x) : EveryIs av (mergeStep acc x) := by
  unfold mergeStep
  split
  · rw [everyIs_cons] at h
    have := everyI_lit.1 h.1
    exact everyIs_cons.2 ⟨everyI_lit.2 ⟨this.1, this.2.append (everyI_lit.1 hx).2⟩, h.2⟩
  · exact everyIs_cons.2 ⟨hx, h⟩

theorem merge_ok {l acc : List Inline} (h : EveryIs av acc) (hl : EveryIs av l) : EveryIs av (l.foldl mergeStep acc) := by
  induction l generalizing acc with
  | nil => exact h
  | cons x l ih =>
    rw [everyIs_cons] at hl
    exact ih (mergeStep_ok h hl.1) hl.2

theorem Inv.danglingSpans {p : Parser} (h : Inv av p) : Ok p.danglingSpans (Inv av) := by
  unfold Parser.danglingSpans
  split
  · exact .pure h
  · rename_i above span below heq
    have hi := h.inlines
    rw [splitFirst_eq heq, everyIs_append, everyIs_cons] at hi
    refine .bind (markup_ok hi.2.1) fun pre hp => .bind (childInlines_ok hi.2.1) fun kids hk => ?_
    split
    · exact Inv.addText (p := { p with inlines := above ++ below }) { h with inlines := everyIs_append.2 ⟨hi.1, hi.2.2⟩ }
        (t := ⟨.text, pre, some pre, _, _, _, _⟩) hp hp false
    · refine .bind (prependFirst_ok hp hk) fun kids' hk' => .pure { h with inlines := merge_ok everyIs_nil ?_ }
      exact everyIs_append.2 ⟨everyIs_append.2 ⟨everyIs_reverse.2 hi.2.2, hk'⟩, everyIs_reverse.2 hi.1⟩

theorem Inv.pushToStack {p : Parser} (h : Inv av p) {b : Block} (hb : EveryB av b) : Ok (p.pushToStack b) (Inv av) := by
  unfold Parser.pushToStack
  have hbs := h.blocks
  refine .ite (fun _ => ?_) fun _ => ?_
  · split
    · exact .error
    · rename_i last rest heq
      rw [heq, everyBs_cons] at hbs
      exact .bind' fun last' hl => .pure { h with blocks := everyBs_cons.2 ⟨pushBlock_ok hb hbs.1 (liftB_ok hl), hbs.2⟩ }
  · split
    · rename_i m heq
      have hm := h.data m heq
      exact .bind (addMeta_ok hb hm.1.1) fun b' hb' => .pure { h with data := noMeta _, blocks := everyBs_cons.2 ⟨hb', hbs⟩ }
    · exact .pure { h with blocks := everyBs_cons.2 ⟨hb, hbs⟩ }

theorem pushInlines_ok {b : Block} {is : List Inline} (hb : EveryB av b) (hi : EveryIs av is) : Ok (pushInlines b is) (EveryB av) := by
  induction is generalizing b with
  | nil => exact .pure hb
  | cons i is ih =>
    rw [everyIs_cons] at hi
    exact .bind' fun b' hb' => ih (pushInline_ok hb hi.1 (liftB_ok hb')) hi.2

theorem quote_delim (h : Alt av delimiterMarks) (hb : AvS av b!"[]") : Alt av (parentMarks .quote none) := by
  obtain ⟨a, ha, h⟩ := h
  simp only [delimiterMarks, List.mem_cons, List.not_mem_nil, or_false] at ha
  have key : AvS av (a ++ b!"[]") := avS_append h hb
  rcases ha with rfl | rfl | rfl | rfl | rfl
  · exact ⟨_, by simp [parentMarks], key⟩
  · exact ⟨_, by simp [parentMarks], key⟩
  · exact ⟨_, by simp [parentMarks], key⟩
  · exact ⟨_, by simp [parentMarks], h⟩
  · exact ⟨_, by simp [parentMarks], key⟩

theorem Inv.newParagraph {p : Parser} (h : Inv av p) : Ok p.newParagraph (Inv av) := by
  unfold Parser.newParagraph
  have hpara : ∀ l, EveryB av (.leaf .paragraph .paragraph none p.inlines.reverse none l) := fun l =>
    ⟨⟨[], by simp [leafMarks], avS_nil⟩, everyIs_reverse.2 h.inlines, trivial⟩
  have h0 : Inv av { p with inlines := [] } := { h with inlines := everyIs_nil }
  have hbs := h.blocks
  dsimp only
  refine .ite (fun _ => ?_) (fun _ => ?_)
  · split
    · exact .error
    · rename_i last rest heq
      rw [show p.blocks = last :: rest from heq, everyBs_cons] at hbs
      exact .bind' fun last' hl => .pure { h0 with blocks := everyBs_cons.2 ⟨pushBlock_ok (hpara _) hbs.1 (liftB_ok hl), hbs.2⟩ }
  · split
    · rename_i m heq
      have hm := h.data m heq
      split
      · exact .error
      · refine .ite (fun hc => ?_) (fun _ => h0.pushToStack (hpara _))
        refine .bind' fun q hq => h0.pushToStack (pushBlock_ok (hpara _) ?_ (liftB_ok hq))
        refine ⟨⟨?_, everyIs_nil, trivial⟩, everyBs_nil⟩
        rcases hc with hc | hc
        · exact quote_delim (h.lines fun hn => by
            have : p.openLines.head? = some _ := hc
            rw [hn] at this
            cases this) hm.2
        · exact ⟨_, by simp [parentMarks], hm.1.1.quote hc.2⟩
    · exact h0.pushToStack (hpara _)

theorem Inv.addInlines {p : Parser} (h : Inv av p) : Ok p.addInlines (Inv av) := by
  unfold Parser.addInlines
  refine .ite (fun _ => .pure h) (fun _ => ?_)
  have h1 : Ok (if p.inSpan = true then p.danglingSpans else .ok p) (Inv av) :=
    .ite (fun _ => h.danglingSpans) (fun _ => .pure h)
  refine .bind h1 fun p1 h1 => ?_
  split
  · rename_i hd heq
    have := h1.header hd heq
    refine .pure { h1 with inlines := everyIs_nil, header := ?_ }
    rintro _ ⟨⟩
    exact ⟨this.1, everyIs_append.2 ⟨this.2, everyIs_reverse.2 h1.inlines⟩⟩
  · split
    · rename_i last rest heq
      have hbs := h1.blocks
      rw [heq, everyBs_cons] at hbs
      refine .ite (fun _ => ?_) (fun _ => h1.newParagraph)
      exact .bind (pushInlines_ok hbs.1 (everyIs_reverse.2 h1.inlines)) fun b hb =>
        .pure { h1 with inlines := everyIs_nil, blocks := everyBs_cons.2 ⟨hb, hbs.2⟩ }
    · exact h1.newParagraph

theorem Inv.addLastItem {p : Parser} (h : Inv av p) : Ok p.addLastItem (Inv av) := by
  unfold Parser.addLastItem
  refine .bind (Inv.addInlines (p := { p with forceNew := false }) { h with }) fun p1 h1 => ?_
  have hbs := h1.blocks
  split
  · exact .error
  · rename_i item rest heq
    rw [heq, everyBs_cons] at hbs
    refine .ite (fun hi => ?_) (fun _ => Inv.pushToStack (p := { p1 with blocks := rest }) { h1 with blocks := hbs.2 } hbs.1)
    split
    · exact .pure { h1 with blocks := everyBs_nil }
    · rename_i list rest'
      have h2 := everyBs_cons.1 hbs.2
      exact .bind' fun list' hl => .pure { h1 with blocks := everyBs_cons.2 ⟨pushBlock_ok hbs.1 h2.1 (liftB_ok hl), h2.2⟩ }

theorem Inv.addToStackOrGraph {p : Parser} (h : Inv av p) {b : Block} (hb : EveryB av b) : Ok (p.addToStackOrGraph b) (Inv av) := by
  unfold Parser.addToStackOrGraph
  have hg : Ok (match p.data with
    | some m => do
      let b' ← b.addMeta m
      Parser.graphPush { p with data := none } b'
    | none => p.graphPush b) (Inv av) := by
    split
    · rename_i m heq
      have hm := h.data m heq
      exact .bind (addMeta_ok hb hm.1.1) fun b' hb' => Inv.graphPush (p := { p with data := none }) { h with data := noMeta _ } hb'
    · exact h.graphPush hb
  dsimp only
  split
  · rename_i last rest heq
    refine .ite (fun ht => ?_) (fun _ => hg)
    have hbs := h.blocks
    rw [heq, everyBs_cons] at hbs
    exact .bind' fun last' hl => .pure { h with blocks := everyBs_cons.2 ⟨pushBlock_ok hb hbs.1 (liftB_ok hl), hbs.2⟩ }
  · exact hg

theorem Inv.addLastToStackOrGraph {p : Parser} (h : Inv av p) : Ok p.addLastToStackOrGraph (Inv av) := by
  unfold Parser.addLastToStackOrGraph
  have hbs := h.blocks
  split
  · exact .error
  · rename_i b heq
    rw [heq, everyBs_one] at hbs
    exact Inv.graphPush (p := { p with blocks := [] }) { h with blocks := everyBs_nil } hbs
  · rename_i b prior rest heq
    rw [heq, everyBs_cons] at hbs
    refine .ite (fun ht => ?_) (fun _ => Inv.graphPush (p := { p with blocks := prior :: rest }) { h with blocks := hbs.2 } hbs.1)
    have h2 := everyBs_cons.1 hbs.2
    exact .bind' fun list' hl => .pure { h with blocks := everyBs_cons.2 ⟨pushBlock_ok hbs.1 h2.1 (liftB_ok hl), h2.2⟩ }

theorem Inv.addLastToGraph {p : Parser} (h : Inv av p) : Ok p.addLastToGraph (Inv av) := by
  unfold Parser.addLastToGraph
  have hbs := h.blocks
  split
  · exact .pure h
  · rename_i b rest heq
    rw [heq, everyBs_cons] at hbs
    have h1 : Ok (match p.data with
      | some m => b.addMeta m
      | none => .ok b) (EveryB av) := by
      split
      · rename_i m hm
        exact addMeta_ok hbs.1 (h.data m hm).1.1
      · exact .pure hbs.1
    refine .bind h1 fun c hc => ?_
    dsimp only
    have h2 : Inv av { p with data := none, blocks := rest } := { h with data := noMeta _, blocks := hbs.2 }
    split
    · refine .ite (fun htk => ?_) (fun _ => h2.graphPush hc)
      have h3 := everyBs_cons.1 hbs.2
      exact .bind' fun list' hl => .pure { h2 with blocks := everyBs_cons.2 ⟨pushBlock_ok hc h3.1 (liftB_ok hl), h3.2⟩ }
    · exact h2.graphPush hc

theorem Inv.drain {p : Parser} (h : Inv av p) (n fuel : Nat) : Ok (drain n fuel p) (Inv av) := by
  induction fuel generalizing p with
  | zero => exact .pure h
  | succ k ih =>
    unfold Parser.drain
    exact .ite (fun _ => .bind h.addLastToGraph fun q hq => ih hq) (fun _ => .pure h)

theorem Inv.moveHeader {p : Parser} (h : Inv av p) : Ok p.moveHeader (Inv av) := by
  unfold Parser.moveHeader
  refine .bind h.addInlines fun p1 h1 => ?_
  split
  · rename_i hd heq
    have := h1.header hd heq
    refine .ite (fun _ => .pure { h1 with header := noHeader _ }) (fun _ => .pure { h1 with header := noHeader _, asg := ?_ })
    refine { h1.asg with header := ?_, attributes := ?_, once := ?_ }
    · rintro _ ⟨⟩
      exact this
    · rintro _ ⟨⟩
      exact h1.attrs
    · rintro _ ⟨⟩
      exact h1.once
  · exact .pure h1

theorem Inv.levelOffset {p : Parser} (h : Inv av p) (v : Str) : Ok (p.levelOffset v) (Inv av) := by
  unfold Parser.levelOffset
  split
  · exact .pure { h with }
  · split
    · exact .ite (fun _ => .pure { h with }) (fun _ => .error)
    · exact .error

theorem Inv.parseAttribute {p : Parser} (h : Inv av p) {t : Token} (ht : TokOk av t) (hty : t.ty = .attribute) :
    Ok (p.parseAttribute t) (Inv av) := by
  have hm : AvS av b!":" := alt_single (by have := ht.marks; rwa [hty] at this)
  have htext : AvS av t.text := by apply ht.plain <;> rw [hty] <;> decide
  unfold Parser.parseAttribute
  split
  · exact .error
  · exact .pure h
  · rename_i x key more heq
    have hp : ∀ s ∈ key :: more, AvS av s := fun s hs =>
      htext.sub (splitTerminatorB_sub (c := c!":") (by rw [heq]; exact List.mem_cons_of_mem _ hs))
    refine .ite (fun _ => h.levelOffset _) (fun _ => .pure { h with attrs := ?_, once := SMap.Uniq.insert h.once _ _ })
    rintro ⟨a, b⟩ hab
    rcases insert_mem hab with hab | hab
    · exact h.attrs _ hab
    · rw [hab.1, hab.2]
      refine ⟨hm, hp key (by simp), ?_⟩
      split
      · exact avS_nil
      · exact (hp _ (List.getLast_mem _)).sub (trim_sub _)

theorem Inv.parseBlockMeta {p : Parser} (h : Inv av p) {t : Token} (ht : TokOk av t) (hty : tokMarks t.ty = [b!"[]"]) :
    Ok (p.parseBlockMeta t) (Inv av) := by
  have hb : AvS av b!"[]" := alt_single (hty ▸ ht.marks)
  unfold Parser.parseBlockMeta
  have h1 : Ok (match p.data with
    | some m => m.addFromToken t
    | none => Meta.blockFromToken t) (MetaI av) := by
    split
    · rename_i m hm
      exact (h.data m hm).1.addFromToken ht hty
    · exact blockFromToken_ok ht hty
  refine .bind h1 fun m hm => .pure { h with data := ?_ }
  rintro _ ⟨⟩
  exact ⟨hm, hb⟩

theorem Inv.parseInlineMeta {p : Parser} (h : Inv av p) {t : Token} (ht : TokOk av t) (hty : tokMarks t.ty = [b!"[]"]) :
    Ok (p.parseInlineMeta t) (Inv av) := by
  have hb : AvS av b!"[]" := alt_single (hty ▸ ht.marks)
  unfold Parser.parseInlineMeta
  refine .bind (inlineFromToken_ok ht hty) fun m hm => .pure { h with data := ?_ }
  rintro _ ⟨⟩
  exact ⟨hm, hb⟩

theorem Inv.blankLine {p : Parser} (h : Inv av p) : Ok p.blankLine (Inv av) := by
  unfold Parser.blankLine
  dsimp only
  have h0 : Inv av { p with dangling := none } := { h with dangling := noToken _ }
  split
  · exact h0.moveHeader
  · have h1 : Ok (match p.blocks with
      | b :: _ => if b.isAnyItem then Parser.addLastItem { p with dangling := none } else .ok { p with dangling := none }
      | [] => .ok { p with dangling := none }) (Inv av) := by
      split
      · exact .ite (fun _ => h0.addLastItem) (fun _ => .pure h0)
      · exact .pure h0
    refine .bind h1 fun p1 h1 => .bind (Inv.addInlines (p := { p1 with inSpan := false }) { h1 with }) fun p2 h2 => ?_
    have hbs := h2.blocks
    split
    · exact .pure { h2 with }
    · rename_i b rest heq
      rw [show p2.blocks = b :: rest from heq, everyBs_cons] at hbs
      have h3 : Inv av { p2 with forceNew := true, blocks := rest } := { h2 with blocks := hbs.2 }
      refine .ite (fun _ => ?_) (fun _ => h3.pushToStack hbs.1)
      refine .bind (h3.addToStackOrGraph hbs.1) fun p4 h4 => .ite (fun _ => ?_) (fun _ => .pure h4)
      exact .bind h4.addLastToStackOrGraph fun p5 h5 => .pure { h5 with }

theorem Inv.parseNewLine {p : Parser} (h : Inv av p) {t : Token} (ht : TokOk av t) : Ok (p.parseNewLine t) (Inv av) := by
  unfold Parser.parseNewLine
  extract_lets p0 p1
  have h1 : Inv av p1 := by
    simp only [p1, p0]
    split
    · rename_i ti heq
      have hti := h.title
      rw [show p.title = some ti from heq] at hti
      exact { h with inlines := everyIs_nil, title := everyIs_append.2 ⟨hti, everyIs_reverse.2 h.inlines⟩ }
    · exact { h with }
  refine .ite (fun _ => h1.blankLine) (fun _ => .ite (fun _ => ?_) (fun _ => ?_))
  · exact .pure { h1 with dangling := noToken _ }
  · refine .pure { h1 with dangling := ?_ }
    rintro _ ⟨⟩
    exact ht

theorem Inv.parseDlistTerm {p : Parser} (h : Inv av p) {t : Token} (ht : TokOk av t) (hty : t.ty = .descriptionListMarker) :
    Ok (p.parseDlistTerm t) (Inv av) := by
  have hm : AvS av b!":" := alt_single (by have := ht.marks; rwa [hty] at this)
  unfold Parser.parseDlistTerm
  dsimp only
  have h1 : Ok (match splitFirst Inline.isNewline p.inlines.reverse with
    | some (before, _, after) => do
      let p ← Parser.addInlines { p with forceNew := false, inlines := before.reverse }
      .ok { p with inlines := after.reverse ++ p.inlines }
    | none => .ok { p with forceNew := false }) (Inv av) := by
    split
    · rename_i before x after heq
      have hi := everyIs_reverse.2 h.inlines
      rw [splitFirst_eq heq, everyIs_append, everyIs_cons] at hi
      refine .bind (Inv.addInlines (p := { p with forceNew := false, inlines := before.reverse }) { h with inlines := everyIs_reverse.2 hi.1 })
        fun q hq => .pure { hq with inlines := everyIs_append.2 ⟨everyIs_reverse.2 hi.2.2, hq.inlines⟩ }
    · exact .pure { h with }
  refine .bind h1 fun p1 h1 => ?_
  have h2 : Inv av { p1 with inlines := [] } := { h1 with inlines := everyIs_nil }
  have hd : ∀ l, EveryB av (.dlist [] none l) := fun l => ⟨⟨hm, trivial⟩, everyBs_nil⟩
  have h3 : ∀ loc, Ok (match p1.blocks with
    | b :: _ => if b.isDlistItem then Parser.addLastItem { p1 with inlines := [] }
        else Parser.pushToStack { p1 with inlines := [] } (.dlist [] none loc)
    | [] => Parser.pushToStack { p1 with inlines := [] } (.dlist [] none loc)) (Inv av) := by
    intro loc
    split
    · exact .ite (fun _ => h2.addLastItem) (fun _ => h2.pushToStack (hd _))
    · exact h2.pushToStack (hd _)
  refine .bind (h3 _) fun p2 h3 => .bind (h3.pushToStack ?_) fun p3 h4 => .pure { h4 with }
  exact ⟨⟨hm, everyIs_reverse.2 h1.inlines, everyIs_nil, trivial⟩, everyBs_nil⟩

theorem item_ok {t : Token} (ht : TokOk av t) (hm : Alt av itemMarks) : EveryB av (Block.newListItem t) :=
  ⟨⟨hm, ht.lexeme.sub (trim_sub _), everyIs_nil, trivial⟩, everyBs_nil⟩

theorem Inv.parseOrdered {p : Parser} (h : Inv av p) {t : Token} (ht : TokOk av t)
    (hty : t.ty = .orderedListItem ∨ t.ty = .codeCalloutListItem) : Ok (p.parseOrdered t) (Inv av) := by
  have hl : Alt av (listMarks .ordered) := by
    have := ht.marks
    rcases hty with h | h <;> rw [h] at this <;> exact alt_of this (by simp [tokMarks, listMarks])
  have hi : Alt av itemMarks := alt_of hl (by simp [listMarks, itemMarks])
  unfold Parser.parseOrdered
  extract_lets p0 newList
  have hn : ∀ p1, Inv av p1 → Ok (newList p1) (Inv av) := by
    intro p1 h1
    refine .ite (fun hc => ?_) (fun _ => h1.pushToStack ⟨⟨hl, trivial⟩, everyBs_nil⟩)
    have hk : AvS av b!"<> " := by
      have := ht.marks
      rw [hc] at this
      exact alt_single this
    have hk' : AvS av b!"<>" := fun b hb => hk b (by revert hb; revert b; decide)
    refine .bind (P := Inv av) ?_ fun q hq => hq.pushToStack ⟨⟨hl, colist_ok hk'⟩, everyBs_nil⟩
    split
    · exact .ite (fun _ => h1.addLastToStackOrGraph) (fun _ => .pure h1)
    · exact .pure h1
  clear_value newList
  have h0 : Inv av p0 := { h with dangling := noToken _ }
  refine .bind (P := Inv av) ?_ fun q hq => hq.pushToStack (item_ok ht hi)
  split
  · exact .ite (fun _ => h0.addLastItem) (fun _ => hn _ h0)
  · exact hn _ h0

theorem Inv.parseUnordered {p : Parser} (h : Inv av p) {t : Token} (ht : TokOk av t)
    (hty : t.ty = .unorderedListItem) : Ok (p.parseUnordered t) (Inv av) := by
  have hl : Alt av (listMarks .unordered) := by have := ht.marks; rwa [hty] at this
  have hi : Alt av itemMarks := alt_of hl (by simp [listMarks, itemMarks])
  have h0 : Inv av { p with dangling := none } := { h with dangling := noToken _ }
  have h1 := h0.pushToStack (b := .list .unordered [] none t.locations) ⟨⟨hl, trivial⟩, everyBs_nil⟩
  unfold Parser.parseUnordered
  dsimp only
  refine .bind (P := Inv av) ?_ fun q hq => hq.pushToStack (item_ok ht hi)
  split
  · exact .ite (fun _ => h0.addLastItem) (fun _ => h1)
  · exact h1

theorem Inv.parseSection {p : Parser} (h : Inv av p) {t : Token} (hm : AvS av b!"=") : Ok (p.parseSection t) (Inv av) := by
  unfold Parser.parseSection
  refine .bind' fun v _ => ?_
  have h1 : Ok (match p.blocks with
    | b :: _ => if b.isSection then p.addLastToStackOrGraph else .ok p
    | [] => .ok p) (Inv av) := by
    split
    · exact .ite (fun _ => h.addLastToStackOrGraph) (fun _ => .pure h)
    · exact .pure h
  refine .bind h1 fun p1 h1 => .bind (h1.pushToStack ⟨⟨hm, everyIs_nil, trivial⟩, everyBs_nil⟩) fun p2 h2 => ?_
  exact .pure { h2 with dangling := noToken _ }

theorem Inv.parseTitle {p : Parser} (h : Inv av p) {t : Token} (hm : AvS av b!"=") : Ok (p.parseTitle t) (Inv av) := by
  unfold Parser.parseTitle
  refine .ite (fun _ => h.parseSection hm) (fun _ => .ite (fun _ => .pure { h with header := ?_ }) (fun _ => .error))
  rintro _ ⟨⟩
  exact ⟨hm, everyIs_nil⟩

theorem parentKind_marks {ty : TokenType} {n : ParentName} {v : Option ParentVariant} (hk : parentKind ty = some (n, v))
    (ha : Alt av (tokMarks ty)) : Alt av (parentMarks n v) := by
  refine alt_of ha ?_
  revert hk
  cases ty <;> simp only [parentKind, Option.some.injEq, Prod.mk.injEq, reduceCtorEq, false_implies, and_imp] <;>
    rintro rfl rfl <;> simp [tokMarks, parentMarks, admonitionMarks]

theorem Inv.parseAdmonition {p : Parser} (h : Inv av p) {t : Token} (ht : TokOk av t) : Ok (p.parseAdmonition t) (Inv av) := by
  unfold Parser.parseAdmonition
  refine .bind (P := EveryB av) (Ok.liftB fun b hb => ?_) fun b hb => .pure { h with blocks := everyBs_cons.2 ⟨hb, h.blocks⟩ }
  unfold Block.parentFromToken at hb
  split at hb <;> cases hb
  rename_i hk
  exact ⟨⟨parentKind_marks hk ht.marks, everyIs_nil, trivial⟩, everyBs_nil⟩

theorem Inv.parseContinuation {p : Parser} (h : Inv av p) : Ok p.parseContinuation (Inv av) := by
  unfold Parser.parseContinuation
  exact .bind h.addInlines fun q hq => .pure { hq with }

theorem closeOrAdd_ok {i : Inline} : ∀ {is : List Inline} {r : M (List Inline)}, EveryIs av is → closeOrAdd i is = some r → Ok r (EveryIs av)
  | [], r, _, h => by cases h
  | [y], r, hi, h => by
    unfold closeOrAdd at h
    split at h
    · cases h
      rw [everyIs_cons] at hi
      exact .bind (everyI_close (everyI_reconcile hi.1 _)) fun y' hy => .pure (everyIs_cons.2 ⟨hy, everyIs_nil⟩)
    · cases h
  | y :: y' :: ys, r, hi, h => by
    rw [everyIs_cons] at hi
    unfold closeOrAdd at h
    cases hc : closeOrAdd i (y' :: ys) with
    | none => rw [hc] at h; cases h
    | some r' =>
      rw [hc] at h
      cases h
      exact .bind (closeOrAdd_ok hi.2 hc) fun l hl => .pure (everyIs_cons.2 ⟨hi.1, hl⟩)

theorem Inv.openSpan {p : Parser} (h : Inv av p) {i : Inline} (hi : EveryI av i) : Ok (p.openSpan i) (Inv av) := by
  unfold Parser.openSpan
  refine .bind (P := Inv av) ?_ fun p1 h1 => .bind h1.danglingSpans fun p2 h2 => ?_
  · split
    · rename_i t ht
      exact .bind (h.addTok (h.dangling t ht) _) fun q hq => .pure { hq with dangling := noToken _ }
    · exact .pure h
  · split
    · rename_i m hm
      exact .bind (everyI_addMeta hi (h2.data m hm).1.1) fun j hj =>
        .pure { h2 with data := noMeta _, inlines := everyIs_cons.2 ⟨hj, h2.inlines⟩ }
    · exact .pure { h2 with inlines := everyIs_cons.2 ⟨hi, h2.inlines⟩ }

theorem Inv.parseSpan {p : Parser} (h : Inv av p) {i : Inline} (hi : EveryI av i) : Ok (p.parseSpan i) (Inv av) := by
  unfold Parser.parseSpan
  have his := h.inlines
  split
  · rename_i last rest heq
    rw [heq, everyIs_cons] at his
    refine .ite (fun _ => ?_) (fun _ => ?_)
    · exact .bind (everyI_close (everyI_reconcile his.1 _)) fun y hy => .pure { h with inlines := everyIs_cons.2 ⟨hy, his.2⟩ }
    · split
      · have h1 := everyI_span.1 his.1
        split
        · rename_i r hr
          exact .bind (closeOrAdd_ok h1.2 hr) fun l hl => .pure { h with inlines := everyIs_cons.2 ⟨everyI_span.2 ⟨h1.1, hl⟩, his.2⟩ }
        · exact .pure { h with inlines := everyIs_cons.2 ⟨everyI_addInline his.1 hi, his.2⟩ }
      · exact h.openSpan hi
  · exact h.openSpan hi

theorem Inv.parseBlockImage {p : Parser} (h : Inv av p) {t : Token} (ht : TokOk av t) (hty : t.ty = .blockImageMacro) (w : World) :
    Ok (p.parseBlockImage w t) (Inv av) := by
  have hm : AvS av b!"image:]" := alt_single (by have := ht.marks; rwa [hty] at this)
  unfold Parser.parseBlockImage
  refine .bind (targetAndAttrs_ok ht (.inl hty)) fun tm htm => ?_
  obtain ⟨target, m⟩ := tm
  dsimp only
  refine .bind' fun _ _ => ?_
  refine Inv.addToStackOrGraph (p := { p with data := none, title := none }) { h with data := noMeta _, title := everyIs_nil } ?_
  refine ⟨hm, okS_of_av htm.1, h.title, ?_⟩
  split
  · rename_i inc hinc
    have h1 := h.data inc hinc
    split
    · rename_i own
      exact ((htm.2 own rfl).addFromOther h1.1).1
    · exact h1.1.1
  · cases m with
    | none => trivial
    | some m => exact (htm.2 m rfl).1

theorem Inv.pushI {p : Parser} (h : Inv av p) {i : Inline} (hi : EveryI av i) : EveryIs av (i :: p.inlines) :=
  everyIs_cons.2 ⟨hi, h.inlines⟩

theorem Inv.parseInlineImage {p : Parser} (h : Inv av p) {t : Token} (ht : TokOk av t) (hty : t.ty = .inlineImageMacro) :
    Ok (p.parseInlineImage t) (Inv av) := by
  have hm : Alt av (refMarks .image) := by have := ht.marks; rwa [hty] at this
  unfold Parser.parseInlineImage
  refine .bind (targetAndAttrs_ok ht (.inr hty)) fun tm htm => .pure { h with inlines := h.pushI ?_ }
  refine everyI_ref.2 ⟨⟨hm, okS_of_av htm.1, ?_⟩, everyIs_nil⟩
  cases h2 : tm.2 with
  | none => trivial
  | some m => exact (htm.2 m h2).1

theorem Inv.parseFootnote {p : Parser} (h : Inv av p) {t : Token} (ht : TokOk av t) : Ok (p.parseFootnote t) (Inv av) := by
  unfold Parser.parseFootnote
  exact .bind (spanFromToken_ok ht) fun s hs => .pure { h with inlines := h.pushI hs }

theorem absorb_ok {x : Inline} {is : List Inline} (hx : EveryI av x) (hi : EveryIs av is) : Ok (absorb x is) (EveryI av) := by
  induction is generalizing x with
  | nil => exact .pure hx
  | cons i is ih =>
    rw [everyIs_cons] at hi
    exact .bind (everyI_pushInline hx hi.1) fun y hy => ih hy hi.2

theorem Inv.parseMacroClose {p : Parser} (h : Inv av p) {t : Token} (ht : TokOk av t) : Ok (p.parseMacroClose t) (Inv av) := by
  unfold Parser.parseMacroClose
  refine .ite (fun _ => .pure { h with }) (fun _ => ?_)
  split
  · rename_i above x below heq
    have hi := h.inlines
    rw [splitFirst_eq heq, everyIs_append, everyIs_cons] at hi
    exact .bind (absorb_ok hi.2.1 (everyIs_reverse.2 hi.1)) fun y hy => .bind (everyI_consolidate hy t) fun z hz =>
      .pure { h with inlines := everyIs_cons.2 ⟨hz, hi.2.2⟩ }
  · exact h.addTok ht _

theorem Inv.parseText {p : Parser} (h : Inv av p) {t : Token} (ht : TokOk av t) (pass : Bool) : Ok (p.parseText t pass) (Inv av) := by
  unfold Parser.parseText
  split
  · rename_i nl hnl
    have hn := h.dangling nl hnl
    refine .ite (fun _ => .pure { h with dangling := noToken _, inlines := everyIs_cons.2 ⟨?_, h.pushI hn.textI⟩ }) (fun _ => ?_)
    · split
      · exact ht.passI
      · exact ht.textI
    · exact .bind (h.addTok hn _) fun q hq => Inv.addTok (p := { q with dangling := none }) { hq with dangling := noToken _ } ht _
  · exact h.addTok ht _

theorem Inv.parseAttrRef {p : Parser} (h : Inv av p) {t : Token} (ht : TokOk av t) : Ok (p.parseAttrRef t) (Inv av) := by
  unfold Parser.parseAttrRef
  refine .bind' fun a _ => ?_
  split
  · rename_i v hv
    have ht' : TokOk av { t with lit := some v, endcol := t.startcol + v.length - 1 } := by
      refine ⟨ht.lexeme, ?_, ht.marks⟩
      rintro _ ⟨⟩
      exact .inl (h.attrs _ (SMap.get?_mem _ _ _ hv)).2.2
    exact .ite (fun _ => .error) (fun _ => h.parseText ht' _)
  · exact h.parseText ht _

theorem Inv.parseXref {p : Parser} (h : Inv av p) {t : Token} (ht : TokOk av t) (hty : t.ty = .crossReference) : Ok (p.parseXref t) (Inv av) := by
  unfold Parser.parseXref
  exact .bind (xrefFromToken_ok ht hty) fun x hx => .pure { h with inlines := h.pushI hx }

theorem Inv.parseCallout {p : Parser} (h : Inv av p) {t : Token} (ht : TokOk av t) : Ok (p.parseCallout t) (Inv av) := by
  unfold Parser.parseCallout
  exact .ite (fun _ => .error) (fun _ => .bind (spanFromToken_ok ht) fun x hx => .pure { h with inlines := h.pushI hx })

theorem Inv.addCharref {p : Parser} (h : Inv av p) {x : Inline} (hx : EveryI av x) : Ok (p.addCharref x) (Inv av) := by
  unfold Parser.addCharref
  have hi := h.inlines
  split
  · rename_i heq
    rw [heq, everyIs_cons] at hi
    exact .ite (fun _ => .pure { h with inlines := everyIs_cons.2 ⟨everyI_addInline hi.1 hx, hi.2⟩ })
      (fun _ => .pure { h with inlines := everyIs_cons.2 ⟨hx, everyIs_cons.2 hi⟩ })
  · rename_i heq
    rw [heq, everyIs_cons] at hi
    have := everyI_ref.1 hi.1
    exact .ite (fun _ => .pure { h with inlines := everyIs_cons.2 ⟨hx, everyIs_cons.2 hi⟩ })
      (fun _ => .pure { h with inlines := everyIs_cons.2 ⟨everyI_ref.2 ⟨this.1, everyIs_append.2 ⟨this.2, everyIs_cons.2 ⟨hx, everyIs_nil⟩⟩⟩, hi.2⟩ })
  · exact .pure { h with inlines := h.pushI hx }

theorem Inv.parseCharref {p : Parser} (h : Inv av p) {t : Token} (ht : TokOk av t) (hty : t.ty = .charRef) : Ok (p.parseCharref t) (Inv av) := by
  have hx : EveryI av (Inline.charrefFromToken t) := everyI_lit.2 ⟨by have := ht.marks; rwa [hty] at this, ht.text⟩
  unfold Parser.parseCharref
  dsimp only
  split
  · rename_i nl hnl
    have hn := h.dangling nl hnl
    refine .ite (fun _ => .pure { h with dangling := noToken _, inlines := everyIs_cons.2 ⟨hx, h.pushI hn.textI⟩ }) (fun _ => ?_)
    exact .bind (h.addTok hn _) fun q hq => Inv.addCharref (p := { q with dangling := none }) { hq with dangling := noToken _ } hx
  · exact h.addCharref hx

theorem leafName_marks {ty : TokenType} {n : LeafName} (hk : leafName ty = some n) (ha : Alt av (tokMarks ty)) : Alt av (leafMarks n) := by
  refine alt_of ha ?_
  revert hk
  cases ty <;> simp only [leafName, Option.some.injEq, reduceCtorEq, false_implies] <;>
    rintro rfl <;> simp [tokMarks, leafMarks]

theorem Inv.parseLeaf {p : Parser} (h : Inv av p) {t : Token} (ht : TokOk av t) : Ok (p.parseLeaf t) (Inv av) := by
  unfold Parser.parseLeaf
  split
  · refine .bind h.addInlines fun p1 h1 => ?_
    have hbs := h1.blocks
    split
    · exact .error
    · rename_i b rest heq
      rw [heq, everyBs_cons] at hbs
      refine .bind (addLocations_ok hbs.1) fun b' hb => ?_
      exact .bind (Inv.pushToStack (p := { p1 with blocks := rest }) { h1 with blocks := hbs.2 } hb) fun q hq => .pure { hq with }
  · refine .bind (P := EveryB av) (Ok.liftB fun b hb => ?_) fun b hb => ?_
    · unfold Block.leafFromToken at hb
      split at hb <;> cases hb
      rename_i hk
      exact ⟨leafName_marks hk ht.marks, everyIs_nil, trivial⟩
    · exact .bind (Inv.pushToStack (p := { p with openText := some t.ty }) { h with } hb) fun q hq => .pure { hq with }

theorem pushBlocks_ok {b : Block} {l : List Block} (hb : EveryB av b) (hl : EveryBs av l) : Ok (pushBlocks b l) (EveryB av) := by
  induction l generalizing b with
  | nil => exact .pure hb
  | cons x l ih =>
    rw [everyBs_cons] at hl
    exact .bind' fun b' hb' => ih (pushBlock_ok hl.1 hb (liftB_ok hb')) hl.2

theorem Inv.closeParentBlock {p : Parser} (h : Inv av p) {above below : List Block} {n : ParentName} {v : Option ParentVariant}
    {d : Str} {bs : List Block} {ti : List Inline} {m : Option Meta} {l : List Location} (loc : List Location)
    (heq : p.blocks = above ++ .parent n v d bs ti m l :: below) :
    Ok (p.closeParentBlock above below n v d bs ti m l loc) (Inv av) := by
  have hbs := h.blocks
  rw [heq, everyBs_append, everyBs_cons] at hbs
  unfold Parser.closeParentBlock
  refine .bind (Inv.addInlines (p := { p with blocks := above ++ below }) { h with blocks := everyBs_append.2 ⟨hbs.1, hbs.2.2⟩ }) fun p1 h1 => ?_
  split
  · exact .error
  · rename_i x lines hlines
    refine .ite (fun _ => .error) (fun _ => ?_)
    refine .bind (pushBlocks_ok (av := av) (b := .parent n v d bs ti m (reconcile l loc)) hbs.2.1
      (everyBs_reverse.2 (everyBs_sub h1.blocks (List.take_subset _ _)))) fun b hb => ?_
    have ht : Ok (if b.isTable = true then b.tableInfo else .ok b) (EveryB av) :=
      .ite (fun ht => tableInfo_ok hb ht) (fun _ => .pure hb)
    refine .bind ht fun c hc => .bind (Inv.pushToStack ?_ hc) fun q hq => .pure { hq with }
    exact { h1 with
      blocks := everyBs_sub h1.blocks (List.drop_subset _ _)
      lines := fun _ => h1.lines (by rw [hlines]; simp) }

theorem Inv.parseParent {p : Parser} (h : Inv av p) {t : Token} (ht : TokOk av t)
    (hty : ∀ a ∈ tokMarks t.ty, a ∈ delimiterMarks) : Ok (p.parseParent t) (Inv av) := by
  unfold Parser.parseParent
  split
  · exact .error
  · rename_i n v hk
    dsimp only
    have h0 : Inv av { p with dangling := none, title := none } := { h with dangling := noToken _, title := everyIs_nil }
    have hb : EveryB av (.parent n v t.text [] (p.title.getD []) none t.locations) :=
      ⟨⟨parentKind_marks hk ht.marks, h.title, trivial⟩, everyBs_nil⟩
    have hopen : Ok (openParent { p with dangling := none, title := none } t.line (.parent n v t.text [] (p.title.getD []) none t.locations)) (Inv av) := by
      unfold Parser.openParent
      have hl : Alt av delimiterMarks := by
        obtain ⟨a, ha, h⟩ := ht.marks
        exact ⟨a, hty a ha, h⟩
      have h1 : Inv av { p with dangling := none, title := none, openLines := t.line :: p.openLines } := { h0 with lines := fun _ => hl }
      exact h1.pushToStack hb
    split
    · rename_i heq
      exact .ite (fun _ => h0.closeParentBlock _ (splitFirst_eq heq)) (fun _ => hopen)
    · exact hopen

theorem Inv.parseCommentBlock {p : Parser} (h : Inv av p) {t : Token} (ht : TokOk av t) : Ok (p.parseCommentBlock t) (Inv av) := by
  unfold Parser.parseCommentBlock
  split
  · exact .ite (fun _ => .pure { h with inlines := everyIs_nil, blocks := everyBs_sub h.blocks (fun _ h => List.mem_of_mem_tail h) }) (fun _ => .pure h)
  · exact h.parseLeaf ht

theorem Inv.parseQuoteVerse {p : Parser} (h : Inv av p) {t : Token} (ht : TokOk av t) (hty : t.ty = .quoteVerseBlock) :
    Ok (p.parseQuoteVerse t) (Inv av) := by
  have hp : Ok (p.parseParent t) (Inv av) := h.parseParent ht (by rw [hty]; decide)
  unfold Parser.parseQuoteVerse
  split
  · exact .ite (fun _ => h.parseLeaf ht) (fun _ => hp)
  · split
    · exact h.parseLeaf ht
    · exact hp

/-- The recursive calls keep the invariant. -/
def CallOk (av : UInt8 → Prop) (f : Token → Parser → M Parser) : Prop := ∀ t p, TokOk av t → Inv av p → Ok (f t p) (Inv av)

theorem feed_ok {f : Token → Parser → M Parser} (hf : CallOk av f) (b : Bool) {items : List Item} {p : Parser}
    (hi : ∀ t, .tok t ∈ items → TokOk av t) (h : Inv av p) : Ok (feed f b items p) (Inv av) := by
  induction items generalizing p with
  | nil => exact .pure h
  | cons i items ih =>
    cases i with
    | tok t =>
      unfold feed
      refine .bind (hf t p (hi t (by simp)) h) fun q hq => ih (fun u hu => hi u (by simp [hu])) ?_
      cases b with
      | true => exact { hq with }
      | false => exact hq
    | _ => exact .error

theorem scan_ok {src : Str} {fs : List Str} (hs : AvS av src) : ∀ t, .tok t ∈ (Scanner.newWithStack src fs).run → TokOk av t :=
  fun _ ht => (run_origin ht).mono hs

theorem offsetBy_ok {t : Token} (ht : TokOk av t) (l c : Nat) : Ok (t.offsetBy l c) (TokOk av) := by
  unfold Token.offsetBy
  exact .ite (fun _ => .error) (fun _ => .pure ⟨ht.lexeme, ht.lit, ht.marks⟩)

theorem Inv.parseTableCell {f : Token → Parser → M Parser} (hf : CallOk av f) {p : Parser} (h : Inv av p) {t : Token} (ht : TokOk av t)
    (hty : t.ty = .tableCell) : Ok (p.parseTableCell f t) (Inv av) := by
  have hm : AvS av b!"|" := alt_single (by have := ht.marks; rwa [hty] at this)
  have htext : AvS av t.text := by apply ht.plain <;> rw [hty] <;> decide
  unfold Parser.parseTableCell
  refine .bind' fun c hc => .bind (h.pushToStack ⟨hm, everyIs_nil, trivial⟩) fun p1 h1 => ?_
  have hs : CallOk av (fun (u : Token) (p : Parser) => (do
      let u' ← u.offsetBy t.line t.startcol
      f u' p : M Parser)) := fun u p hu hp => .bind (offsetBy_ok hu _ _) fun v hv => hf _ _ hv hp
  refine .bind (feed_ok hs false (p := { p1 with dangling := none }) (scan_ok (htext.sub (sliceM_sub hc)))
    { h1 with dangling := noToken _ }) fun p2 h2 => ?_
  exact Inv.addInlines (p := { p2 with inBlockLine := false, forceNew := false }) { h2 with }

theorem Inv.selection {p : Parser} (h : Inv av p) (m : Option Meta) : Ok (p.selection m) fun r => Inv av r.1 := by
  unfold Parser.selection
  split
  · exact .pure h
  · refine .bind (P := Inv av) ?_ fun q hq => ?_
    · split
      · exact h.levelOffset _
      · exact .pure h
    · refine .bind' fun lt _ => ?_
      obtain ⟨lines, toEnd⟩ := lt
      exact .pure hq

theorem includeToken_ok {f : Token → Parser → M Parser} (hf : CallOk av f) (a : Bool) {t : Token} {p : Parser} (ht : TokOk av t) (h : Inv av p) :
    Ok (includeToken f a t p) (Inv av) := by
  unfold Parser.includeToken
  refine .ite (fun _ => ?_) (fun _ => ?_)
  · exact .bind (hf t p ht h) fun q hq => .pure { hq with }
  · exact Inv.parseText (p := { p with lastTy := if t.ty = .eof then .eof else .text }) { h with } ht false

theorem includeLoop_ok {f : Token → Parser → M Parser} (hf : CallOk av f) (a e : Bool) (tags : List Str)
    {items : List Item} (hi : ∀ t, .tok t ∈ items → TokOk av t) (lines : List Int) (cur : Option Str) {p : Parser} (h : Inv av p) :
    Ok (includeLoop f a e tags items lines cur p) (Inv av) := by
  induction items generalizing lines cur p with
  | nil => exact .pure h
  | cons i items ih =>
    have hi' := fun u (hu : Item.tok u ∈ items) => hi u (by simp [hu])
    cases i with
    | tok t =>
      unfold includeLoop
      split
      · exact ih hi' _ _ h
      · refine .bind' fun ck _ => ?_
        obtain ⟨cur', keep⟩ := ck
        dsimp only
        refine .bind (P := Inv av) ?_ fun q hq => ih hi' _ _ hq
        exact .ite (fun _ => includeToken_ok hf _ (hi t (by simp)) h) (fun _ => .pure h)
    | _ => exact .error

theorem Inv.parseInclude {f : Token → Parser → M Parser} (hf : CallOk av f) {w : World}
    (hw : ∀ path s, w.read path = some s → AvS av s) {p : Parser} (h : Inv av p) (t : Token) : Ok (p.parseInclude w f t) (Inv av) := by
  unfold Parser.parseInclude
  refine .bind' fun tm _ => ?_
  obtain ⟨target, m⟩ := tm
  dsimp only
  refine .bind (h.selection m) fun ps hps => ?_
  obtain ⟨p1, sel⟩ := ps
  dsimp only at hps ⊢
  split
  · exact .error
  · split
    · exact .error
    · rename_i src hsrc
      refine .bind (includeLoop_ok hf _ _ _ (scan_ok (hw _ _ hsrc)) _ _ { hps with }) fun p2 h2 => ?_
      exact .bind h2.addInlines fun p3 h3 => .bind (h3.drain _ _) fun p4 h4 => .pure { h4 with }

theorem Inv.dispatchToken {f : Token → Parser → M Parser} (hf : CallOk av f) {w : World}
    (hw : ∀ path s, w.read path = some s → AvS av s) {p : Parser} (h : Inv av p) {t : Token} (ht : TokOk av t) :
    Ok (p.dispatchToken w f t) (Inv av) := by
  have hm := ht.marks
  unfold Parser.dispatchToken
  have hspan : Ok (do
      let s ← Inline.spanFromToken t
      p.parseSpan s : M Parser) (Inv av) := .bind (spanFromToken_ok ht) fun s hs => h.parseSpan hs
  split
  all_goals rename_i hty
  all_goals first
    | exact .error
    | exact h.parseTitle (alt_single (by rwa [hty] at hm))
    | exact h.parseSection (alt_single (by rwa [hty] at hm))
    | exact h.parseAttribute ht hty
    | exact h.parseBlockMeta ht (by rw [hty]; rfl)
    | exact h.parseInlineMeta ht (by rw [hty]; rfl)
    | exact h.parseNewLine ht
    | exact h.parseText ht false
    | exact h.parseCharref ht hty
    | exact hspan
    | exact h.parseAttrRef ht
    | exact h.parseXref ht hty
    | exact h.parseInclude hf hw t
    | exact h.parseFootnote ht
    | exact h.parseInlineImage ht hty
    | exact h.parseMacroClose ht
    | exact h.addToStackOrGraph (show Alt av (breakMarks .page) by rwa [hty] at hm)
    | exact h.addToStackOrGraph (show Alt av (breakMarks .thematic) by rwa [hty] at hm)
    | exact h.parseParent ht (by rw [hty]; decide)
    | exact h.parseTableCell hf ht hty
    | exact h.parseQuoteVerse ht hty
    | exact h.parseLeaf ht
    | exact h.parseCallout ht
    | exact h.parseBlockImage ht hty w
    | exact h.parseUnordered ht hty
    | exact h.parseOrdered ht (.inl hty)
    | exact h.parseOrdered ht (.inr hty)
    | exact h.parseDlistTerm ht hty
    | exact h.parseAdmonition ht
    | exact h.parseContinuation
    | exact h.parseCommentBlock ht
    | exact .ite (fun _ => h.moveHeader) (fun _ => .pure h)
    | exact .pure h
    | exact .pure { h with inlines := h.pushI (link_ok ht (.inl hty) (popChar_sub _)) }
    | exact .pure { h with inlines := h.pushI (link_ok ht (.inr hty) (fun _ h => h)) }
    | exact .pure { h with inlines := h.pushI (everyI_brk.2 (alt_single (by rwa [hty] at hm))) }
    | exact .pure { h with title := everyIs_nil, dangling := noToken _ }
    | exact .pure { h with }

theorem Inv.step {f : Token → Parser → M Parser} (hf : CallOk av f) {w : World}
    (hw : ∀ path s, w.read path = some s → AvS av s) {p : Parser} (h : Inv av p) {t : Token} (ht : TokOk av t) :
    Ok (step w f t p) (Inv av) := by
  unfold Parser.step
  refine .bind (P := Inv av) (.ite (fun _ => h.moveHeader) (fun _ => .pure h)) fun q hq => ?_
  split
  · exact hq.parseText ht _
  · exact hq.dispatchToken hf hw ht

theorem tokenInto_ok {w : World} (hw : ∀ path s, w.read path = some s → AvS av s) (fuel : Nat) : CallOk av (tokenInto w fuel) := by
  induction fuel with
  | zero => exact fun _ _ _ _ => .error
  | succ n ih => exact fun t p ht hp => hp.step ih hw ht

theorem Inv.finish {p : Parser} (h : Inv av p) : Ok p.finish (Inv av) := by
  unfold Parser.finish
  exact .bind h.addInlines fun p1 h1 => .bind (h1.drain _ _) fun p2 h2 => .pure { h2 with asg := graphConsolidate_ok h2.asg }

theorem Inv.start {p : Parser} (h1 : p = Parser.new ∨ p = Parser.newNoTargets) : Inv av p := by
  rcases h1 with rfl | rfl <;>
  exact ⟨noHeader _, fun _ h => (by cases h), List.nodup_nil, everyBs_nil, everyIs_nil, everyIs_nil, noMeta _, fun h => absurd rfl h,
    noToken _, ⟨noHeader _, fun _ h => (by cases h), fun _ h => (by cases h), everyBs_nil, fun _ h => (by cases h)⟩⟩

/-- Whatever is parsed has its origin in the source and the files. -/
theorem parse_origin {w : World} {fuel : Nat} {src : Str} (hs : AvS av src) (hw : ∀ path s, w.read path = some s → AvS av s)
    {p q : Parser} (hp : p = Parser.new ∨ p = Parser.newNoTargets) (h : Parser.parse w fuel (scan src) p = .ok q) : EveryG av q.asg := by
  have : Ok (Parser.parse w fuel (scan src) p) (Inv av) := by
    unfold Parser.parse
    exact .bind (feed_ok (tokenInto_ok hw fuel) true (scan_ok (fs := []) hs) (Inv.start hp)) fun p1 h1 => h1.finish
  exact (this q h).asg

end
end Adoc.Origin
