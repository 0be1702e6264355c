import Verif.Spec.Form
import Verif.Proof.DocxOps
import Verif.Props.Edit
/-!
# C109: the layout of a Word document does not depend on its words
-/
namespace Adoc.Props
open Form Docx

/-- A step without its text. -/
def kind : Op → Op
  | .style s => .style s
  | .reset => .reset
  | .raw _ => .raw []
  | .para _ => .para []
  | .item _ => .item []
  | .list v => .list v
  | .page => .page
  | .table .. => .table [] none
  | .picture _ => .picture []

theorem hide_isEmpty (is : List Inline) : (hide is).isEmpty = is.isEmpty := by
  unfold hide
  cases is <;> rfl

theorem titleOps_form (s : Sty) (is : List Inline) : (titleOps s (hide is)).map kind = (titleOps s is).map kind := by
  simp only [titleOps, hide_isEmpty]
  split <;> rfl

theorem headOps_form (name : Str) (v : Option ParentVariant) (t : List Inline) :
    (headOps name v (hide t)).map kind = (headOps name v t).map kind := by
  simp only [headOps, List.map_append, titleOps_form]

theorem attached_form (bs : List Block) :
    ((formL bs).map fun b => Op.para b.inlines).map kind = (bs.map fun b => Op.para b.inlines).map kind := by
  induction bs with
  | nil => simp only [formL]
  | cons b bs ih => simp only [formL, List.map_cons, ih, kind]

theorem formL_isEmpty (bs : List Block) : (formL bs).isEmpty = bs.isEmpty := by cases bs <;> simp [formL]

mutual
theorem ops_form (b : Block) : (ops (form b)).map kind = (ops b).map kind := by
  match b with
  | .section t m v bs l =>
    simp only [form, ops, List.map_append, opsL_form bs, hide_isEmpty]
    split <;> rfl
  | .list v bs m l => simp only [form, ops, List.map_cons, opsL_form bs]
  | .listItem k p bs m l =>
    simp only [form, ops, formL_isEmpty]
    split
    · rfl
    · simp only [List.map_cons, List.map_append, List.cons_append, attached_form bs, kind]
  | .dlist bs m l => simp only [form, ops, opsL_form bs]
  | .dlistItem t p bs m l => simp only [form, ops, List.map_append, opsL_form bs, List.map_cons, kind]
  | .brk v l => cases v <;> simp only [form, ops]
  | .image t c m l => simp only [form, ops]
  | .leaf n f d is m l => cases n <;> simp only [form, ops, List.map_append, List.map_cons, kind]
  | .tableCell is m l => simp only [form, ops]
  | .parent n v d bs t m l =>
    cases n <;> simp only [form, ops, List.map_append, opsL_form bs, headOps_form, List.map_cons, List.cons_append, kind]
theorem opsL_form (bs : List Block) : (opsL (formL bs)).map kind = (opsL bs).map kind := by
  match bs with
  | [] => simp only [formL]
  | b :: bs => simp only [formL, opsL, List.map_append, ops_form b, opsL_form bs]
end

/-- Two states of the writer that differ in texts only. -/
structure Like (a b : St) : Prop where
  pageBreak : a.pageBreak = b.pageBreak
  abstractNum : a.abstractNum = b.abstractNum
  num : a.num = b.num
  style : a.style = b.style
  body : a.doc.body.map place = b.doc.body.map place
  styles : a.doc.styles = b.doc.styles
  abstractNums : a.doc.abstractNums = b.doc.abstractNums
  nums : a.doc.nums = b.doc.nums

theorem Like.setStyle {a b : St} (h : Like a b) (s : Sty) : Like (a.setStyle s) (b.setStyle s) := by
  obtain ⟨h1, h2, h3, h4, h5, h6, h7, h8⟩ := h
  unfold St.setStyle St.addStyle
  simp only [h6]
  split
  · exact ⟨h1, h2, h3, rfl, h5, h6, h7, h8⟩
  · exact ⟨h1, h2, h3, rfl, h5, rfl, h7, h8⟩

theorem Like.addPara {a b : St} (h : Like a b) (n : Option Nat) (r s : List Render.Run) : Like (a.addPara n r) (b.addPara n s) := by
  obtain ⟨h1, h2, h3, h4, h5, h6, h7, h8⟩ := h
  refine ⟨rfl, h2, h3, h4, ?_, h6, h7, h8⟩
  simp only [St.addPara, St.push, List.map_append, h5, List.map_cons, place, h4, h1]

theorem Like.line {a b : St} (h : Like a b) (x y : Bool) : Like { a with lineBreak := x } { b with lineBreak := y } :=
  ⟨h.1, h.2, h.3, h.4, h.5, h.6, h.7, h.8⟩

theorem Like.push {a b : St} (h : Like a b) {i j : Docx.Item} (hi : place i = place j) : Like (a.push i) (b.push j) :=
  ⟨h.1, h.2, h.3, h.4, by simp only [St.push, List.map_append, h.5, List.map_cons, hi], h.6, h.7, h.8⟩

theorem Like.cells {a b : St} (h : Like a b) (bs cs : List Block) : Like (a.cells bs).1 (b.cells cs).1 := by
  have one : ∀ (a b : St) (bs : List Block), Like a b → Like (a.cells bs).1 b := by
    intro a b bs
    induction bs generalizing a with
    | nil => exact id
    | cons x bs ih => exact fun h => ih { a with lineBreak := (runs x.inlines a.lineBreak).2 } (h.line _ b.lineBreak)
  have two : ∀ (a b : St) (bs : List Block), Like a b → Like a (b.cells bs).1 := by
    intro a b bs
    induction bs generalizing b with
    | nil => exact id
    | cons x bs ih => exact fun h => ih { b with lineBreak := (runs x.inlines b.lineBreak).2 } (h.line a.lineBreak _)
  exact one _ _ _ (two _ _ _ h)

theorem op_like (io : Str → Option Unit) (o p : Op) (hk : kind o = kind p) {a b a' b' : St} (h : Like a b)
    (ha : o.run io a = .ok a') (hb : p.run io b = .ok b') : Like a' b' := by
  cases o <;> cases p <;> simp only [kind, reduceCtorEq] at hk
  case style.style s t => cases hk; cases ha; cases hb; exact h.setStyle s
  case reset.reset => cases ha; cases hb; exact ⟨h.1, h.2, h.3, rfl, h.5, h.6, h.7, h.8⟩
  case raw.raw s t => cases ha; cases hb; exact h.addPara _ _ _
  case para.para s t => cases ha; cases hb; exact (h.line _ _).addPara _ _ _
  case item.item s t =>
    cases ha; cases hb
    rw [h.num]
    exact (h.line _ _).addPara _ _ _
  case page.page => cases ha; cases hb; exact ⟨rfl, h.2, h.3, h.4, h.5, h.6, h.7, h.8⟩
  case list.list v w =>
    cases hk; cases ha; cases hb
    have hn : Like { a with num := a.num + 1 } { b with num := b.num + 1 } :=
      ⟨h.1, h.2, by simp only [h.num], h.4, h.5, h.6, h.7, h.8⟩
    cases v with
    | ordered =>
      simp only [St.listHead]
      rw [h.num]
      have := hn.setStyle (.orderedList (b.num + 1))
      rw [h.num] at this
      exact this
    | unordered =>
      have hq := hn.setStyle .listParagraph
      simp only [St.listHead]
      generalize ({ a with num := a.num + 1 } : St).setStyle .listParagraph = q at hq
      generalize ({ b with num := b.num + 1 } : St).setStyle .listParagraph = r at hq
      rw [hq.abstractNum]
      split
      · exact ⟨hq.1, rfl, hq.3, hq.4, hq.5, hq.6, by simp only [hq.abstractNums], by simp only [hq.nums, hq.num]⟩
      · exact hq
  case table.table bs m cs n =>
    have go : ∀ {a a' : St} {bs m}, a.table bs m = .ok a' → ∃ rows, a' = ((a.setStyle .table).cells bs).1.push (.table rows) := by
      intro a a' bs m ha
      simp only [St.table] at ha
      cases hc : St.columns m with
      | error e => rw [hc] at ha; cases ha
      | ok cols =>
        rw [hc] at ha
        simp only [bind, Except.bind] at ha
        cases hr : Render.docxRows cols ((a.setStyle .table).cells bs).2 with
        | error e => rw [hr] at ha; cases ha
        | ok rows => rw [hr] at ha; cases ha; exact ⟨rows, rfl⟩
    obtain ⟨r, rfl⟩ := go ha
    obtain ⟨s, rfl⟩ := go hb
    exact ((h.setStyle .table).cells bs cs).push rfl
  case picture.picture s t =>
    simp only [Op.run, St.image] at ha hb
    cases hs : io s with
    | none => rw [hs] at ha; cases ha
    | some u =>
      cases ht : io t with
      | none => rw [ht] at hb; cases hb
      | some v =>
        rw [hs] at ha
        rw [ht] at hb
        cases ha; cases hb
        exact h.push rfl

theorem ops_like (io : Str → Option Unit) : ∀ (os ps : List Op), os.map kind = ps.map kind → ∀ {a b a' b' : St}, Like a b →
    runOps io os a = .ok a' → runOps io ps b = .ok b' → Like a' b'
  | [], [], _, _, _, _, _, h, ha, hb => by cases ha; cases hb; exact h
  | [], _ :: _, hk, _, _, _, _, _, _, _ => by simp at hk
  | _ :: _, [], hk, _, _, _, _, _, _, _ => by simp at hk
  | o :: os, p :: ps, hk, a, b, a', b', h, ha, hb => by
    simp only [List.map_cons, List.cons.injEq] at hk
    simp only [runOps] at ha hb
    cases ho : o.run io a with
    | error e => rw [ho] at ha; cases ha
    | ok c =>
      cases hp : p.run io b with
      | error e => rw [hp] at hb; cases hb
      | ok d =>
        rw [ho] at ha
        rw [hp] at hb
        exact ops_like io os ps hk.2 (op_like io o p hk.1 h ho hp) ha hb

theorem layout_of (io : Str → Option Unit) (g h : Asg) (hk : (opsL g.blocks).map kind = (opsL h.blocks).map kind)
    (hh : g.header.map (fun x => x.title.isEmpty) = h.header.map fun x => x.title.isEmpty)
    (d e : Doc) (hd : render io g = .ok d) (he : render io h = .ok e) : layout d = layout e := by
  have hs : Like (start g.header) (start h.header) := by
    cases hg : g.header with
    | none => cases hx : h.header with
      | none => exact ⟨rfl, rfl, rfl, rfl, rfl, rfl, rfl, rfl⟩
      | some y => rw [hg, hx] at hh; simp at hh
    | some x => cases hx : h.header with
      | none => rw [hg, hx] at hh; simp at hh
      | some y =>
        rw [hg, hx] at hh
        have hh : x.title.isEmpty = y.title.isEmpty := Option.some.inj hh
        simp only [start, hh]
        split <;> exact ⟨rfl, rfl, rfl, rfl, rfl, rfl, rfl, rfl⟩
  unfold render at hd he
  rw [addBlocks_ops] at hd he
  cases ha : runOps io (opsL g.blocks) (start g.header) with
  | error x => rw [ha] at hd; cases hd
  | ok a =>
    cases hb : runOps io (opsL h.blocks) (start h.header) with
    | error x => rw [hb] at he; cases he
    | ok b =>
      rw [ha] at hd
      rw [hb] at he
      cases hd; cases he
      have := ops_like io _ _ hk hs ha hb
      simp only [layout, this.body, this.styles, this.abstractNums, this.nums]

/-- **C109** (every graph): two documents that have the same blocks up to their texts have Word documents with the same layout: as many
paragraphs, with the same styles, page breaks and numbering, and tables and pictures at the same places. -/
theorem C109_layout (io : Str → Option Unit) (g h : Asg) (hf : formL g.blocks = formL h.blocks)
    (hh : g.header.map (fun x => x.title.isEmpty) = h.header.map fun x => x.title.isEmpty)
    (d e : Doc) (hd : render io g = .ok d) (he : render io h = .ok e) : layout d = layout e :=
  layout_of io g h (by rw [← opsL_form, hf, opsL_form]) hh d e hd he

open Spec Rich Parser in
/-- Two documents with other words and other markup, one of them with a title in italics. -/
example : formL [.section [literal b!"S"] none 1 [.leaf .paragraph .paragraph none [literal b!"a"] none [], .brk .page []] []]
    = formL [.section [.span .emphasis .constrained [literal b!"T"] none [] false] none 1
        [.leaf .paragraph .paragraph none [literal b!"b", .brk [], literal b!"c"] none [], .brk .page []] []] := rfl

open Spec Rich Parser in
theorem attached_kind (bs : List Block) :
    ((bareBs bs).map fun b => Op.para b.inlines).map kind = (bs.map fun b => Op.para b.inlines).map kind := by
  induction bs with
  | nil => simp only [bareBs]
  | cons b bs ih => simp only [bareBs, List.map_cons, ih, kind]

open Spec Rich Parser in
theorem headOps_kind (name : Str) (v : Option ParentVariant) (t : List Inline) :
    (headOps name v (bareL t)).map kind = (headOps name v t).map kind := by
  simp only [headOps, titleOps, List.map_append, bareL_isEmpty]
  cases t <;> rfl

open Spec Rich Parser in
mutual
theorem ops_bare (b : Block) : (ops (bareB b)).map kind = (ops b).map kind := by
  match b with
  | .section t m v bs l =>
    simp only [bareB, ops, List.map_append, opsL_bare bs, bareL_isEmpty]
    split <;> rfl
  | .list v bs m l => simp only [bareB, ops, List.map_cons, opsL_bare bs]
  | .listItem k p bs m l =>
    simp only [bareB, ops, bareBs_isEmpty]
    split
    · rfl
    · simp only [List.map_cons, List.map_append, List.cons_append, attached_kind bs, kind]
  | .dlist bs m l => simp only [bareB, ops, opsL_bare bs]
  | .dlistItem t p bs m l => simp only [bareB, ops, List.map_append, opsL_bare bs, List.map_cons, kind]
  | .brk v l => cases v <;> simp only [bareB, ops]
  | .image t c m l => simp only [bareB, ops]
  | .leaf n f d is m l => cases n <;> simp only [bareB, ops, List.map_append, List.map_cons, kind]
  | .tableCell is m l => simp only [bareB, ops]
  | .parent n v d bs t m l =>
    have ha : St.attribution (m.map bareM) = St.attribution m := by cases m <;> rfl
    cases n <;> simp only [bareB, ops, List.map_append, opsL_bare bs, headOps_kind, List.map_cons, List.cons_append, kind, ha]
theorem opsL_bare (bs : List Block) : (opsL (bareBs bs)).map kind = (opsL bs).map kind := by
  match bs with
  | [] => simp only [bareBs]
  | b :: bs => simp only [bareBs, opsL, List.map_append, ops_bare b, opsL_bare bs]
end

open Spec Rich Parser in
theorem opsL_listed (bs : List Block) (path : List Title) :
    (opsL bs).map kind = (listedL path bs).flatMap fun e => (ops e.2).map kind := by
  match bs with
  | [] => rfl
  | b :: bs =>
    simp only [opsL, listedL, List.map_append, List.flatMap_append]
    rw [opsL_listed bs path]
    congr 1
    cases hb : isSection b with
    | false => rw [listed_plain path b hb]; simp only [List.flatMap_cons, List.flatMap_nil, List.append_nil, ops_bare]
    | true =>
      cases b with
      | «section» t m v xs l =>
        simp only [listed, List.flatMap_cons, ops, opsL, List.append_nil, List.map_append, bareL_isEmpty]
        rw [opsL_listed xs]
        congr 1
        split <;> rfl
      | _ => cases hb
termination_by sizeOf bs

open Spec Rich Parser in
theorem contents_blocks (ids : Ids) (hs : List Title) (cs : List Tagged) : (contents ids hs cs).map (·.2) = cs.map fun c => c.block ids := by
  induction cs generalizing hs with
  | nil => rfl
  | cons c cs ih => simp only [contents, List.map_cons, ih]

open Spec Rich Parser in
theorem listing_kind (bs : List Block) (cs : List Tagged) (ids : Ids) (h : listedL [] bs = contents ids [] cs) :
    (opsL bs).map kind = (cs.map fun c => form (c.block ids)).flatMap fun b => (ops b).map kind := by
  rw [opsL_listed bs [], h]
  have := contents_blocks ids [] cs
  have e : (contents ids [] cs).flatMap (fun e => (ops e.2).map kind) = ((contents ids [] cs).map (·.2)).flatMap fun b => (ops b).map kind := by
    rw [List.flatMap_map]
  rw [e, this, List.flatMap_map, List.flatMap_map]
  simp only [ops_form]

open Spec Rich Parser in
/-- **C109, partial** (documents of several files): if two documents have the same blocks up to their texts, in whatever files they are,
and with any blank lines and comments, their Word documents have the same layout.

Missing: documents outside the class of `Spec/Book`. -/
theorem C109_book_partial (w w' : World) (k k' : Nat) (d d' : Book)
    (hf : ((blocksL d.parts).map fun c => form (c.block d.whole.ids)) = (blocksL d'.parts).map fun c => form (c.block d'.whole.ids))
    (ht : d.head.map (fun h => (shownL [] h.title).isEmpty) = d'.head.map fun h => (shownL [] h.title).isEmpty)
    (ho : d.Ok) (hl : Legible [] d.signs []) (hu : ∃ cs, written d.signs = enc cs) (hw : foundL w d.parts [])
    (ho' : d'.Ok) (hl' : Legible [] d'.signs []) (hu' : ∃ cs, written d'.signs = enc cs) (hw' : foundL w' d'.parts []) :
    ∃ g g', parseText w (k + depthL d.parts + 2) (written d.signs) = .ok g
      ∧ parseText w' (k' + depthL d'.parts + 2) (written d'.signs) = .ok g'
      ∧ ∀ io x y, Docx.render io g = .ok x → Docx.render io g' = .ok y → layout x = layout y := by
  obtain ⟨g, h1, h2, h3, _⟩ := parse_book w k d ho hl hu hw
  obtain ⟨g', h5, h6, h7, _⟩ := parse_book w' k' d' ho' hl' hu' hw'
  refine ⟨g, g', h1, h5, fun io x y hx hy => layout_of io g g' ?_ ?_ x y hx hy⟩
  · rw [listing_kind _ _ _ h2, listing_kind _ _ _ h6]
    exact congrArg _ hf
  · have e3 := congrArg (Option.map List.isEmpty) h3
    have e7 := congrArg (Option.map List.isEmpty) h7
    simp only [Option.map_map, Function.comp_def, bareL_isEmpty] at e3 e7
    rw [e3, e7]
    exact ht

open Spec Rich Parser in
/-- The documents of `Props/Edit` have the same layout. -/
example : ∃ g g', parseText bookWorld 4 (written bookDoc.signs) = .ok g ∧ parseText bookWorld 4 (written editedBook.signs) = .ok g'
    ∧ ∀ io x y, Docx.render io g = .ok x → Docx.render io g' = .ok y → layout x = layout y :=
  C109_book_partial bookWorld bookWorld 0 0 bookDoc editedBook rfl rfl
    bookSample_ok bookSample_legible (ascii_enc _ bookSample_ascii) bookSample_found
    editedBook_ok (Scanner.legible_of_legibleB (ascii_enc _ editedBook_ascii) (by decide +kernel)) (ascii_enc _ editedBook_ascii)
    editedBook_found

end Adoc.Props
