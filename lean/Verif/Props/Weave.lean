import Verif.Proof.Weave
import Verif.Props.Edit
/-!
# C110: the markup of a page around the texts does not depend on the words
-/
namespace Adoc.Props
open Form

/-- The texts of a document: the title, if there is one, and the texts of the blocks. -/
def allTexts (g : Asg) : List (List Inline) := (g.header.map fun x => x.title).toList ++ textsL g.blocks

theorem weave_title {g h : Asg} (hh : g.header.isSome = h.header.isSome) :
    Weave (g.header.map fun x => x.title).toList (h.header.map fun x => x.title).toList (Html.docTitle g.header) (Html.docTitle h.header) := by
  cases hg : g.header with
  | none => cases hx : h.header with
    | none => exact .fixed _
    | some y => rw [hg, hx] at hh; cases hh
  | some x => cases hx : h.header with
    | none => rw [hg, hx] at hh; cases hh
    | some y => exact .text _ _

/-- **C110** (every graph): if two documents have the same blocks up to their texts and one of them has a page, the other one has a page,
and both pages are put together in the same way from the same markup and the texts, each of which stands there once and in reading order. -/
theorem C110_page (sees : Bool) (g h : Asg) (hf : formL g.blocks = formL h.blocks) (hh : g.header.isSome = h.header.isSome)
    (page : Str) (hp : Html.render sees g = .ok page) :
    ∃ page', Html.render sees h = .ok page' ∧ Weave (allTexts g) (allTexts h) page page' := by
  obtain ⟨U, V, W, hr⟩ := page_frame
  rw [hr] at hp
  rw [hr, ← hh]
  cases hx : Html.body (sees && g.header.isSome) g.blocks with
  | error e => rw [hx] at hp; cases hp
  | ok x =>
    rw [hx] at hp
    obtain ⟨x', h1, h2⟩ := weave_body _ _ _ hf x hx
    have hp : U ++ Html.docTitle g.header ++ V ++ x ++ W = page := Except.ok.inj hp
    subst hp
    rw [h1]
    refine ⟨U ++ Html.docTitle h.header ++ V ++ x' ++ W, rfl, ?_⟩
    simpa only [allTexts, List.nil_append, List.append_nil] using
      ((((Weave.fixed U).app (weave_title hh)).app (.fixed V)).app h2).app (.fixed W)

theorem weave_same {a a' : List (List Inline)} {s s' : Str} (h : Weave a a' s s') :
    a.length = a'.length ∧ (a.map Html.inlines = a'.map Html.inlines → s = s') := by
  induction h with
  | fixed s => exact ⟨rfl, fun _ => rfl⟩
  | text is js => exact ⟨rfl, fun h => by simpa using h⟩
  | app _ _ ih1 ih2 =>
    refine ⟨by simp only [List.length_append, ih1.1, ih2.1], fun h => ?_⟩
    simp only [List.map_append] at h
    obtain ⟨e1, e2⟩ := List.append_inj h (by simp only [List.length_map, ih1.1])
    rw [ih1.2 e1, ih2.2 e2]

theorem weave_size {a a' : List (List Inline)} {s s' : Str} (h : Weave a a' s s') :
    s.length + (a'.map fun t => (Html.inlines t).length).sum = s'.length + (a.map fun t => (Html.inlines t).length).sum := by
  induction h with
  | fixed s => rfl
  | text is js => simp only [List.map_cons, List.map_nil, List.sum_cons, List.sum_nil]; omega
  | app _ _ ih1 ih2 => simp only [List.length_append, List.map_append, List.sum_append]; omega

/-- **C110** (every graph, the same texts): two documents with the same blocks up to their texts, and texts that are written in the same
way, have the same page. -/
theorem C110_same (sees : Bool) (g h : Asg) (hf : formL g.blocks = formL h.blocks) (hh : g.header.isSome = h.header.isSome)
    (ht : (allTexts g).map Html.inlines = (allTexts h).map Html.inlines) (page : Str) (hp : Html.render sees g = .ok page) :
    Html.render sees h = .ok page := by
  obtain ⟨page', h1, h2⟩ := C110_page sees g h hf hh page hp
  rw [h1, (weave_same h2).2 ht]

/-- **C110** (every graph, the size): two documents with the same blocks up to their texts have as many texts, and their pages have as
many bytes outside of the texts. -/
theorem C110_size (sees : Bool) (g h : Asg) (hf : formL g.blocks = formL h.blocks) (hh : g.header.isSome = h.header.isSome)
    (page page' : Str) (hp : Html.render sees g = .ok page) (hp' : Html.render sees h = .ok page') :
    (allTexts g).length = (allTexts h).length
    ∧ page.length + ((allTexts h).map fun t => (Html.inlines t).length).sum
      = page'.length + ((allTexts g).map fun t => (Html.inlines t).length).sum := by
  obtain ⟨p, h1, h2⟩ := C110_page sees g h hf hh page hp
  have : p = page' := Except.ok.inj (h1.symm.trans hp')
  subst this
  exact ⟨(weave_same h2).1, weave_size h2⟩

open Spec Rich Parser in
/-- A document with a title, a section, a paragraph and a listing. -/
def woven (t s a c : List Inline) : Asg := ⟨none, some { title := t, loc := [] }, [], [],
  [.section s none 1 [.leaf .paragraph .paragraph none a none [], .leaf .listing .delimited none c none []] []], []⟩

open Spec Rich Parser in
/-- Two documents with other words and other markup, and both have a page. -/
example : let g := woven [literal b!"T"] [literal b!"S"] [literal b!"a"] [literal b!"c"]
    let h := woven [literal b!"U"] [.span .emphasis .constrained [literal b!"V"] none [] false] [literal b!"b", .brk [], literal b!"d"] [literal b!"e"]
    formL g.blocks = formL h.blocks ∧ g.header.isSome = h.header.isSome
    ∧ (Html.render true g).toOption.isSome = true ∧ (Html.render true h).toOption.isSome = true ∧ (allTexts g).length = 4 :=
  ⟨rfl, rfl, by decide +kernel, by decide +kernel, rfl⟩

/-! ## Source texts -/

open Spec Rich Parser

/-- An entry of the list of blocks without the words. -/
def shape (e : List Title × Block) : Nat × Block := (e.1.length, form e.2)

theorem form_isSection (b : Block) : isSection (form b) = isSection b := by cases b <;> simp only [form, isSection]

theorem listedL_form (bs cs : List Block) (p q : List Title) (hl : p.length = q.length)
    (h : (listedL p bs).map shape = (listedL q cs).map shape) : formL (bareBs bs) = formL (bareBs cs) := by
  match bs with
  | [] =>
    match cs with
    | [] => rfl
    | c :: cs => cases c <;> simp [listedL, listed] at h
  | b :: bs =>
    match cs with
    | [] => cases b <;> simp [listedL, listed] at h
    | c :: cs =>
      cases hb : isSection b with
      | false =>
        simp only [listedL, listed_plain p b hb] at h
        cases hc : isSection c with
        | false =>
          simp only [listed_plain q c hc, List.cons_append, List.nil_append, List.map_cons, List.cons.injEq, shape, Prod.mk.injEq] at h
          simp only [bareBs, formL, h.1.2, listedL_form bs cs p q hl h.2]
        | true =>
          cases c <;> simp only [isSection, Bool.false_eq_true] at hc
          simp only [listed, List.cons_append, List.nil_append, List.map_cons, List.cons.injEq, shape, Prod.mk.injEq] at h
          have := congrArg isSection h.1.2
          rw [form_isSection, form_isSection, bareB_section, hb] at this
          cases this
      | true =>
        cases b with
        | «section» t m v xs l =>
          cases hc : isSection c with
          | false =>
            simp only [listedL, listed_plain q c hc, listed, List.cons_append, List.nil_append, List.map_cons, List.cons.injEq, shape,
              Prod.mk.injEq] at h
            have := congrArg isSection h.1.2
            rw [form_isSection, form_isSection, bareB_section, hc] at this
            cases this
          | true =>
            cases c with
            | «section» t' m' v' ys l' =>
              simp only [listedL, listed, List.cons_append, List.map_cons, List.map_append, List.cons.injEq] at h
              obtain ⟨h0, h⟩ := h
              simp only [shape, Prod.mk.injEq, form, Block.section.injEq, and_true] at h0
              obtain ⟨_, ht, hm, hv⟩ := h0
              have far : ∀ (r : List Title) (u : Title) (zs : List Block), r.length = p.length →
                  ∀ x ∈ (listedL (r ++ [u]) zs).map shape, decide (p.length < x.1) = true := by
                intro r u zs hr x hx
                obtain ⟨y, hy, rfl⟩ := List.mem_map.1 hx
                have := listedL_longer _ _ y hy
                simp only [List.length_append, List.length_cons, List.length_nil] at this
                exact decide_eq_true (show p.length < y.1.length by omega)
              have near : ∀ (r : List Title) (zs : List Block), r.length = p.length →
                  ∀ x ∈ ((listedL r zs).map shape).head?, decide (p.length < x.1) = false := by
                intro r zs hr x hx
                rw [List.head?_map] at hx
                obtain ⟨y, hy, rfl⟩ := Option.map_eq_some_iff.1 hx
                simp only [shape, listedL_first r zs y hy, hr]
                simp
              obtain ⟨h1, h2⟩ := split_longer (fun x => decide (p.length < x.1)) _ _ _ _ (far p _ xs rfl) (far q _ ys hl.symm)
                (near p bs rfl) (near q cs hl.symm) h
              have e1 := listedL_form xs ys _ _ (by simp only [List.length_append, hl, List.length_cons]) h1
              simp only [bareBs, bareB, formL, form, ht, hm, hv, e1, listedL_form bs cs p q hl h2]
            | _ => cases hc
        | _ => cases hb
termination_by sizeOf bs

/-- The level of a section; 5 for other blocks. -/
def levelOf : Block → Nat
  | .section _ _ v _ _ => v
  | _ => 5

theorem form_level (b : Block) : levelOf (form b) = levelOf b := by cases b <;> simp only [form, levelOf]

theorem block_level (ids : Ids) (c : Tagged) : c.blk.level = levelOf (c.block ids) := by
  unfold Tagged.block
  cases c.blk with
  | piece p => cases p <;> rfl
  | _ => rfl

theorem after_levels (ids : Ids) (c : Tagged) (hs : List Title) : (c.blk.after ids hs).map (·.1)
    = if isSection (c.block ids) then levelOf (c.block ids) :: hs.map (·.1) else hs.map (·.1) := by
  unfold Tagged.block
  cases c.blk with
  | piece p => cases p <;> rfl
  | _ => rfl

theorem parents_length (hs hs' : List Title) (h : hs.map (·.1) = hs'.map (·.1)) (n : Nat) :
    (parents hs n).length = (parents hs' n).length := by
  induction hs generalizing hs' n with
  | nil => cases hs' with
    | nil => rfl
    | cons => cases h
  | cons x hs ih => cases hs' with
    | nil => cases h
    | cons y hs' =>
      simp only [List.map_cons, List.cons.injEq] at h
      simp only [parents, h.1]
      split
      · simp only [List.length_append, ih hs' h.2, List.length_cons, List.length_nil]
      · exact ih hs' h.2 n

theorem contents_form (ids ids' : Ids) (cs cs' : List Tagged) (hs hs' : List Title) (hl : hs.map (·.1) = hs'.map (·.1))
    (h : (cs.map fun c => form (c.block ids)) = cs'.map fun c => form (c.block ids')) :
    (contents ids hs cs).map shape = (contents ids' hs' cs').map shape := by
  induction cs generalizing cs' hs hs' with
  | nil => cases cs' with
    | nil => rfl
    | cons => cases h
  | cons c cs ih => cases cs' with
    | nil => cases h
    | cons c' cs' =>
      simp only [List.map_cons, List.cons.injEq] at h
      have e1 : levelOf (c.block ids) = levelOf (c'.block ids') := by rw [← form_level, h.1, form_level]
      have e2 : isSection (c.block ids) = isSection (c'.block ids') := by rw [← form_isSection, h.1, form_isSection]
      simp only [contents, List.map_cons, shape, h.1, block_level ids c, block_level ids' c', e1, parents_length hs hs' hl]
      congr 1
      refine ih cs' _ _ ?_ h.2
      rw [after_levels, after_levels, e1, e2, hl]

theorem textsL_listed (bs : List Block) (path : List Title) : textsL (bareBs bs) = (listedL path bs).flatMap fun e => Form.texts e.2 := by
  match bs with
  | [] => rfl
  | b :: bs =>
    simp only [bareBs, textsL, listedL, List.flatMap_append]
    rw [textsL_listed bs path]
    congr 1
    cases hb : isSection b with
    | false => rw [listed_plain path b hb]; simp only [List.flatMap_cons, List.flatMap_nil, List.append_nil]
    | true =>
      cases b with
      | «section» t m v xs l =>
        simp only [listed, List.flatMap_cons, bareB, Form.texts, textsL, List.cons_append, List.nil_append]
        rw [textsL_listed xs]
      | _ => cases hb
termination_by sizeOf bs

theorem contents_texts (ids : Ids) (hs : List Title) (cs : List Tagged) :
    ((contents ids hs cs).flatMap fun e => Form.texts e.2) = cs.flatMap fun c => Form.texts (c.block ids) := by
  induction cs generalizing hs with
  | nil => rfl
  | cons c cs ih => simp only [contents, List.flatMap_cons, ih]

/-- The texts of a document of one or several files, from its description: the title and the texts of the blocks. -/
def bookTexts (d : Book) : List (List Inline) :=
  (d.head.map fun h => shownL [] h.title).toList ++ (blocksL d.parts).flatMap fun c => Form.texts (c.block d.whole.ids)

theorem weave_sources {g g' : Asg} {head head' : Option (List Inline)} {ids ids' : Ids} {cs cs' : List Tagged}
    (h1 : listedL [] g.blocks = contents ids [] cs) (h2 : listedL [] g'.blocks = contents ids' [] cs')
    (h3 : g.header.map (fun h => bareL h.title) = head) (h4 : g'.header.map (fun h => bareL h.title) = head')
    (hf : (cs.map fun c => form (c.block ids)) = cs'.map fun c => form (c.block ids')) (ht : head.isSome = head'.isSome)
    (sees : Bool) (page : Str) (hp : Html.render sees g = .ok page) :
    ∃ page', Html.render sees g' = .ok page'
      ∧ Weave (head.toList ++ cs.flatMap fun c => Form.texts (c.block ids)) (head'.toList ++ cs'.flatMap fun c => Form.texts (c.block ids')) page page' := by
  have hform : formL (bareBs g.blocks) = formL (bareBs g'.blocks) :=
    listedL_form _ _ [] [] rfl (by rw [h1, h2]; exact contents_form ids ids' cs cs' [] [] rfl hf)
  have clean : ∀ g : Asg, Html.render sees { g with
      header := g.header.map (fun x => { x with title := bareL x.title }), blocks := bareBs g.blocks } = Html.render sees g := by
    intro g
    obtain ⟨U, V, W, hr⟩ := page_frame
    rw [hr, hr]
    cases hg : g.header with
    | none => simp only [Option.map_none, htmlBody_bare]
    | some x => simp only [Option.map_some, Option.isSome_some, Html.docTitle, htmlInlines_bare, htmlBody_bare]
  have hh : g.header.isSome = g'.header.isSome := by
    rw [← h3, ← h4] at ht
    simpa only [Option.isSome_map] using ht
  rw [← clean g] at hp
  obtain ⟨page', e1, e2⟩ := C110_page sees _ { g' with
    header := g'.header.map (fun x => { x with title := bareL x.title }), blocks := bareBs g'.blocks } hform
    (by simpa only [Option.isSome_map] using hh) page hp
  rw [clean g'] at e1
  refine ⟨page', e1, ?_⟩
  simp only [allTexts, Option.map_map, Function.comp_def] at e2
  rw [h3, h4, textsL_listed _ [], textsL_listed _ [], h1, h2, contents_texts, contents_texts] at e2
  exact e2

/-- **C110, partial** (documents of several files): if two documents have the same blocks up to their texts, in whatever files they are,
and with any blank lines and comments, and one of them has a page, the other one has a page, and both pages are put together in the
same way from the same markup and the texts of the documents.

Missing: documents outside the class of `Spec/Book`. -/
theorem C110_book_partial (w w' : World) (k k' : Nat) (d d' : Book)
    (hf : ((blocksL d.parts).map fun c => form (c.block d.whole.ids)) = (blocksL d'.parts).map fun c => form (c.block d'.whole.ids))
    (ht : d.head.isSome = d'.head.isSome)
    (ho : d.Ok) (hl : Legible [] d.signs []) (hu : ∃ cs, written d.signs = enc cs) (hw : foundL w d.parts [])
    (ho' : d'.Ok) (hl' : Legible [] d'.signs []) (hu' : ∃ cs, written d'.signs = enc cs) (hw' : foundL w' d'.parts []) :
    ∃ g g', parseText w (k + depthL d.parts + 2) (written d.signs) = .ok g
      ∧ parseText w' (k' + depthL d'.parts + 2) (written d'.signs) = .ok g'
      ∧ ∀ sees page, Html.render sees g = .ok page →
        ∃ page', Html.render sees g' = .ok page' ∧ Weave (bookTexts d) (bookTexts d') page page' := by
  obtain ⟨g, h1, h2, h3, _⟩ := parse_book w k d ho hl hu hw
  obtain ⟨g', h5, h6, h7, _⟩ := parse_book w' k' d' ho' hl' hu' hw'
  exact ⟨g, g', h1, h5, fun sees page hp =>
    weave_sources h2 h6 h3 h7 hf (by simpa only [Option.isSome_map] using ht) sees page hp⟩

/-- The documents of `Props/Edit`. -/
example : ∃ g g', parseText bookWorld 4 (written bookDoc.signs) = .ok g ∧ parseText bookWorld 4 (written editedBook.signs) = .ok g'
    ∧ ∀ sees page, Html.render sees g = .ok page →
      ∃ page', Html.render sees g' = .ok page' ∧ Weave (bookTexts bookDoc) (bookTexts editedBook) page page' :=
  C110_book_partial bookWorld bookWorld 0 0 bookDoc editedBook rfl rfl
    bookSample_ok bookSample_legible (ascii_enc _ bookSample_ascii) bookSample_found
    editedBook_ok (Scanner.legible_of_legibleB (ascii_enc _ editedBook_ascii) (by decide +kernel)) (ascii_enc _ editedBook_ascii)
    editedBook_found

end Adoc.Props
