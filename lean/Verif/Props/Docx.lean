import Verif.Proof.DocxContent
import Verif.Props.Parser
/-!
# C52–C59: Word documents
-/
namespace Adoc.Props
open Docx Word

/-- A graph with the given blocks and nothing else. -/
def graphOf (bs : List Block) : Asg := { Asg.new with blocks := bs }

/-- All images can be read. -/
def allFiles : Str → Option Unit := fun _ => some ()

/-- A literal with the given text. -/
def word (s : Str) : Inline := .lit .text s []

/-- A plain paragraph. -/
def plainPara (s : Str) : Block := .leaf .paragraph .paragraph none [word s] none []

/-- A list item without attached blocks. -/
def plainItem (s : Str) : Block := .listItem b!"*" [word s] [] none []

/-- A document with a title, a page break, a section, a sidebar, lists and a thematic break. -/
def sampleGraph : Asg :=
  { Asg.new with
    header := some ⟨[word b!"Title"], []⟩
    blocks := [
      plainPara b!"one",
      .brk .page [],
      .section [word b!"Head"] none 1 [
        plainPara b!"two",
        .parent .sidebar none b!"****" [plainPara b!"three"] [word b!"Box"] none [],
        .list .ordered [plainItem b!"four", plainItem b!"five"] none [],
        .list .unordered [plainItem b!"six"] none []] [],
      .section [word b!"Next"] none 1 [plainPara b!"seven", .brk .thematic []] []] }

/-! ## C52: style references -/

private theorem sinv_of {io : Str → Option Unit} {g : Asg} {d : Doc} (h : render io g = .ok d) :
    ∃ st : St, st.doc = d ∧ SInv (thematicL g.blocks = true) st := by
  obtain ⟨st, hr, rfl⟩ := render_ok h
  refine ⟨st, rfl, ?_⟩
  refine keep (I := SInv (thematicL g.blocks = true)) _ ?_ _ _ (SInv.init _ g.header) hr
  intro o ho s s' hs hrun
  refine hs.op o ?_ hrun
  intro e
  subst e
  cases ht : thematicL g.blocks with
  | true => rfl
  | false => exact absurd ho (opsL_thematic g.blocks ht)

/-- Every paragraph refers to a style that the document defines, except for the style that thematic breaks ask for. -/
theorem C52_defined (io : Str → Option Unit) (g : Asg) (d : Doc) (h : render io g = .ok d) :
    ∀ p ∈ paragraphs d, p.style ∈ styleIds d ∨ p.style = b!"ThematicBreak" := by
  obtain ⟨st, rfl, hi⟩ := sinv_of h
  exact fun p hp => (hi.paras p hp).imp id And.right

/-- The styles that style definitions refer to are defined, and no style is defined twice. -/
theorem C52_style_references (io : Str → Option Unit) (g : Asg) (d : Doc) (h : render io g = .ok d) :
    (∀ s ∈ d.styles, ∀ x, s.basedOn = some x ∨ s.next = some x → x ∈ styleIds d) ∧ (styleIds d).Nodup := by
  obtain ⟨st, rfl, hi⟩ := sinv_of h
  exact ⟨hi.refs, hi.nodup⟩

private theorem body_grows {io : Str → Option Unit} (os : List Op) (st st' : St) (hr : runOps io os st = .ok st') :
    ∀ p ∈ paragraphs st.doc, p ∈ paragraphs st'.doc := by
  obtain ⟨new, e, -⟩ := ops_follows os st st' hr
  intro p hp
  simp only [paragraphs, e, List.flatMap_append, List.mem_append]
  exact .inl hp

/-- The property holds exactly for the graphs without thematic breaks. -/
theorem C52_exactly (io : Str → Option Unit) (g : Asg) (d : Doc) (h : render io g = .ok d) :
    (∀ p ∈ paragraphs d, p.style ∈ styleIds d) ↔ thematicL g.blocks = false := by
  obtain ⟨st, e, hi⟩ := sinv_of h
  constructor
  · intro hp
    cases ht : thematicL g.blocks with
    | false => rfl
    | true =>
      exfalso
      obtain ⟨a, c, ho⟩ := opsL_has g.blocks ht
      obtain ⟨st2, hr, e2⟩ := render_ok h
      rw [ho, runOps_append] at hr
      cases ha : runOps io a (start g.header) with
      | error x => rw [ha] at hr; cases hr
      | ok s =>
        rw [ha] at hr
        have hr' : runOps io c ((s.setStyle .thematicBreak).addPara none [.text b!"#" []]) = .ok st2 := hr
        have hm := body_grows c _ _ hr'
          { style := (s.setStyle .thematicBreak).style.id, pageBreak := (s.setStyle .thematicBreak).pageBreak,
            runs := [.text b!"#" []] }
          (by simp [paragraphs, St.addPara, St.push])
        rw [e2] at hm
        have := hp _ hm
        rw [(setStyle_same s .thematicBreak).2.2.1] at this
        rw [← e] at this
        exact hi.none this
  · intro ht p hp
    subst e
    rcases hi.paras p hp with hq | ⟨hq, _⟩
    · exact hq
    · rw [ht] at hq; cases hq

example : thematicL sampleGraph.blocks = true ∧ (render allFiles sampleGraph).isOk = true := by decide +kernel

/-- The property as stated is false: a thematic break. -/
theorem C52_thematic_break (io : Str → Option Unit) :
    ∃ d, render io (graphOf [.brk .thematic []]) = .ok d ∧ ∃ p ∈ paragraphs d, p.style ∉ styleIds d :=
  ⟨_, rfl, _, List.mem_cons_self .., by decide⟩

/-! ## C53: page breaks -/

/-- No paragraph among the events. -/
def noPar (es : List Ev) : Prop := ∀ t, Ev.par t ∉ es

private theorem follows_flag {p q : Bool} {es : List Ev} {is : List Docx.Item} (h : Follows p es is q) (a c : List Ev)
    (t : Str) (he : es = a ++ .par t :: c) :
    ∃ x, (bodyP is)[(parTexts a).length]? = some x ∧ SameWords t (paraText x) ∧
      (x.pageBreak = true ↔ (p = true ∧ noPar a) ∨ ∃ a1 a2, a = a1 ++ .page :: a2 ∧ noPar a2) := by
  induction h generalizing a with
  | nil p => simp at he
  | page h' ih =>
    rename_i p q es is
    cases a with
    | nil => simp at he
    | cons e a =>
      simp only [List.cons_append, List.cons.injEq] at he
      obtain ⟨rfl, he⟩ := he
      obtain ⟨x, h1, h2, h3⟩ := ih a he
      refine ⟨x, h1, h2, h3.trans ?_⟩
      constructor
      · rintro (⟨-, hn⟩ | ⟨a1, a2, rfl, hn⟩)
        · exact .inr ⟨[], a, rfl, hn⟩
        · exact .inr ⟨.page :: a1, a2, rfl, hn⟩
      · rintro (⟨-, hn⟩ | ⟨a1, a2, e, hn⟩)
        · exact .inl ⟨rfl, fun t ht => hn t (List.mem_cons_of_mem _ ht)⟩
        · cases a1 with
          | nil => simp at e; exact .inl ⟨rfl, e ▸ hn⟩
          | cons b a1 =>
            simp only [List.cons_append, List.cons.injEq] at e
            exact .inr ⟨a1, a2, e.2, hn⟩
  | par x hw h' ih =>
    rename_i q es is u
    cases a with
    | nil =>
      simp only [List.nil_append, List.cons.injEq, Ev.par.injEq] at he
      obtain ⟨rfl, rfl⟩ := he
      refine ⟨x, rfl, hw, ?_⟩
      constructor
      · exact fun hx => .inl ⟨hx, fun _ => by simp⟩
      · rintro (⟨hx, -⟩ | ⟨a1, a2, e, -⟩)
        · exact hx
        · simp at e
    | cons e a =>
      simp only [List.cons_append, List.cons.injEq] at he
      obtain ⟨rfl, he⟩ := he
      obtain ⟨y, h1, h2, h3⟩ := ih a he
      refine ⟨y, h1, h2, h3.trans ?_⟩
      constructor
      · rintro (⟨hf, -⟩ | ⟨a1, a2, rfl, hn⟩)
        · cases hf
        · exact .inr ⟨.par u :: a1, a2, rfl, hn⟩
      · rintro (⟨-, hn⟩ | ⟨a1, a2, e, hn⟩)
        · exact absurd (List.mem_cons_self ..) (hn u)
        · cases a1 with
          | nil => simp at e
          | cons b a1 =>
            simp only [List.cons_append, List.cons.injEq] at e
            exact .inr ⟨a1, a2, e.2, hn⟩
  | table rows h' ih =>
    rename_i p q es is
    cases a with
    | nil => simp at he
    | cons e a =>
      simp only [List.cons_append, List.cons.injEq] at he
      obtain ⟨rfl, he⟩ := he
      obtain ⟨x, h1, h2, h3⟩ := ih a he
      refine ⟨x, h1, h2, h3.trans ?_⟩
      constructor
      · rintro (⟨hp, hn⟩ | ⟨a1, a2, rfl, hn⟩)
        · exact .inl ⟨hp, fun t ht => (List.mem_cons.1 ht).elim nofun (hn t)⟩
        · exact .inr ⟨.table :: a1, a2, rfl, hn⟩
      · rintro (⟨hp, hn⟩ | ⟨a1, a2, e, hn⟩)
        · exact .inl ⟨hp, fun t ht => hn t (List.mem_cons_of_mem _ ht)⟩
        · cases a1 with
          | nil => simp at e
          | cons b a1 =>
            simp only [List.cons_append, List.cons.injEq] at e
            exact .inr ⟨a1, a2, e.2, hn⟩
  | picture target h' ih =>
    rename_i p q es is
    cases a with
    | nil => simp at he
    | cons e a =>
      simp only [List.cons_append, List.cons.injEq] at he
      obtain ⟨rfl, he⟩ := he
      obtain ⟨x, h1, h2, h3⟩ := ih a he
      refine ⟨x, h1, h2, h3.trans ?_⟩
      constructor
      · rintro (⟨hp, hn⟩ | ⟨a1, a2, rfl, hn⟩)
        · exact .inl ⟨hp, fun t ht => (List.mem_cons.1 ht).elim nofun (hn t)⟩
        · exact .inr ⟨.picture :: a1, a2, rfl, hn⟩
      · rintro (⟨hp, hn⟩ | ⟨a1, a2, e, hn⟩)
        · exact .inl ⟨hp, fun t ht => hn t (List.mem_cons_of_mem _ ht)⟩
        · cases a1 with
          | nil => simp at e
          | cons b a1 =>
            simp only [List.cons_append, List.cons.injEq] at e
            exact .inr ⟨a1, a2, e.2, hn⟩

/-- The paragraph for the `k`-th paragraph of the graph starts on a new page exactly if there is a page break between
the paragraph before it and itself. -/
theorem C53_page_breaks (io : Str → Option Unit) (g : Asg) (d : Doc) (h : render io g = .ok d) (before after : List Ev)
    (t : Str) (hf : flowDoc g = before ++ .par t :: after) :
    ∃ p, (bodyParas d)[(parTexts before).length]? = some p ∧
      (p.pageBreak = true ↔ ∃ a1 a2, before = a1 ++ .page :: a2 ∧ noPar a2) := by
  obtain ⟨q, hq⟩ := render_follows h
  obtain ⟨x, h1, -, h3⟩ := follows_flag hq before after t hf
  exact ⟨x, h1, h3.trans (by simp)⟩

example : flowDoc sampleGraph = [.par b!"Title", .par b!"one", .page] ++ .par b!"Head" ::
    [.par b!"two", .par b!"Box", .par b!"three", .par b!"four", .par b!"five", .par b!"six", .par b!"Next",
      .par b!"seven", .par b!"#"] := by decide +kernel

/-- For each item of the body whether it starts a page, or nothing for tables and pictures. -/
def pagesOf (bs : List Block) : List (Option Bool) :=
  match render allFiles (graphOf bs) with
  | .ok d => d.body.map fun | .para p => some p.pageBreak | _ => none
  | .error _ => []

/-- The property as stated is false: a picture after a page break stays on the old page, and the paragraph after the
picture is moved to the new one. -/
theorem C53_picture : pagesOf [plainPara b!"a", .brk .page [], .image b!"x.png" [] none [], plainPara b!"b"] =
    [some false, none, some true] := by decide +kernel

/-- The same for a table after a page break. -/
theorem C53_table : pagesOf [.brk .page [], .parent .table none b!"|===" [] [] none [], plainPara b!"b"] =
    [none, some true] := by decide +kernel

/-! ## C54: text -/

private theorem follows_texts {p q : Bool} {es : List Ev} {is : List Docx.Item} (h : Follows p es is q) :
    SameWords (parTexts es).flatten ((bodyP is).map paraText).flatten := by
  induction h with
  | nil p => exact .nil
  | page _ ih => exact ih
  | par x hw _ ih => exact hw.append ih
  | table rows _ ih => exact ih
  | picture t _ ih => exact ih

/-- The paragraphs have the texts of the graph's paragraphs, one by one and in order, up to white space. -/
theorem C54_order (io : Str → Option Unit) (g : Asg) (d : Doc) (h : render io g = .ok d) :
    (bodyParas d).length = (parTexts (flowDoc g)).length ∧
    ∀ (before after : List Ev) (t : Str), flowDoc g = before ++ .par t :: after →
      ∃ p, (bodyParas d)[(parTexts before).length]? = some p ∧ SameWords t (paraText p) := by
  obtain ⟨q, hq⟩ := render_follows h
  refine ⟨?_, fun before after t hf => ?_⟩
  · have len : ∀ {p q : Bool} {es : List Ev} {is : List Docx.Item}, Follows p es is q →
        (bodyP is).length = (parTexts es).length := by
      intro p q es is hh
      induction hh with
      | nil p => rfl
      | page _ ih => exact ih
      | par x hw _ ih => exact congrArg (· + 1) ih
      | table rows _ ih => exact ih
      | picture t _ ih => exact ih
    exact len hq
  · obtain ⟨x, h1, h2, -⟩ := follows_flag hq before after t hf
    exact ⟨x, h1, h2⟩

/-- All that there is to read is in the document, in order and nothing else, up to white space, for graphs without the
constructs that lose text. Missing for the full property: tables, captions, titles of quotations and open blocks, and
terms, captions, labels and attributions inside list items; the theorems below show that these are lost. -/
theorem C54_content_partial (io : Str → Option Unit) (g : Asg) (d : Doc) (h : render io g = .ok d)
    (hk : keptL g.blocks = true) : SameWords (contentDoc g) ((bodyParas d).map paraText).flatten := by
  obtain ⟨q, hq⟩ := render_follows h
  have := follows_texts hq
  have e : (parTexts (flowDoc g)).flatten = contentDoc g := by
    unfold flowDoc contentDoc
    rw [parTexts_append, List.flatten_append, keptL_content _ hk]
    cases g.header with
    | none => rfl
    | some hd => simp only [title_text]
  rwa [e] at this

example : keptL sampleGraph.blocks = true ∧ (render allFiles sampleGraph).isOk = true ∧
    contentDoc sampleGraph = b!"TitleoneHeadtwoBoxthreefourfivesixNextseven#" := by decide +kernel

/-- Captions of images do not matter for the document. -/
theorem C54_caption_lost (io : Str → Option Unit) (target : Str) (c c' : List Inline) (m : Option Meta)
    (l : List Location) (bs : List Block) :
    render io (graphOf (.image target c m l :: bs)) = render io (graphOf (.image target c' m l :: bs)) := rfl

/-- Titles of tables do not matter for the document. -/
theorem C54_table_title_lost (io : Str → Option Unit) (v : Option ParentVariant) (dl : Str) (cells : List Block)
    (t t' : List Inline) (m : Option Meta) (l : List Location) (bs : List Block) :
    render io (graphOf (.parent .table v dl cells t m l :: bs)) =
      render io (graphOf (.parent .table v dl cells t' m l :: bs)) := rfl

/-- Titles of quotations do not matter for the document. -/
theorem C54_quote_title_lost (io : Str → Option Unit) (v : Option ParentVariant) (dl : Str) (children : List Block)
    (t t' : List Inline) (m : Option Meta) (l : List Location) (bs : List Block) :
    render io (graphOf (.parent .quote v dl children t m l :: bs)) =
      render io (graphOf (.parent .quote v dl children t' m l :: bs)) := rfl

/-- Terms of a description list that is attached to a list item do not matter for the document. -/
theorem C54_attached_terms_lost (io : Str → Option Unit) (t t' p : List Inline) (x : Str) :
    let doc (terms : List Inline) := graphOf [.list .unordered [.listItem b!"*" [word x]
      [.dlist [.dlistItem terms p [] none []] none []] none []] none []]
    render io (doc t) = render io (doc t') := rfl

/-! ## C55: the style of a paragraph shows what it is -/

/-- Each paragraph of the body has the style for its role. Missing for the full property: graphs outside `calm`, for
which it is false; see the theorems below. -/
theorem C55_roles_partial (io : Str → Option Unit) (g : Asg) (d : Doc) (h : render io g = .ok d) (dirty : Bool)
    (hc : calmL false g.blocks = some dirty) (hh : g.header = none) :
    showRoles (rolesL .body g.blocks) (bodyParas d) := by
  obtain ⟨st, hr, rfl⟩ := render_ok h
  obtain ⟨r', h1, -⟩ := blocks_roles g.blocks false dirty (some .body) (fun _ => rfl) hc
  rw [hh] at hr
  obtain ⟨⟨new, n1, n2⟩, -⟩ := ops_roles _ _ _ hr (some .body) (fun x hx => by cases hx; rfl) _ h1
  have : bodyParas st.doc = new := by
    show bodyP st.doc.body = new
    rw [n1]
    rfl
  rw [this]
  exact n2

/-- The same for a document with a title, whose paragraph comes first. -/
theorem C55_roles_title_partial (io : Str → Option Unit) (g : Asg) (d : Doc) (h : render io g = .ok d) (dirty : Bool)
    (hc : calmL false g.blocks = some dirty) (hd : Header) (hh : g.header = some hd) (ht : hd.title ≠ []) :
    ∃ p ps, bodyParas d = p :: ps ∧ p.style = b!"Title" ∧ showRoles (rolesL .body g.blocks) ps := by
  obtain ⟨st, hr, rfl⟩ := render_ok h
  obtain ⟨r', h1, -⟩ := blocks_roles g.blocks false dirty (some .body) (fun _ => rfl) hc
  have hs : start (some hd) = { ({} : St) with lineBreak := (runs hd.title false).2 }.push
      (.para { style := b!"Title", runs := (runs hd.title false).1 }) := by
    unfold start
    simp only [List.isEmpty_iff, ht, if_false]
  rw [hh, hs] at hr
  obtain ⟨⟨new, n1, n2⟩, -⟩ := ops_roles _ _ _ hr (some .body) (fun x hx => by cases hx; rfl) _ h1
  exact ⟨_, new, n1, rfl, n2⟩

example : calmL false sampleGraph.blocks = some true ∧ (render allFiles sampleGraph).isOk = true ∧
    rolesL .body sampleGraph.blocks = [.body, .heading 1, .body, .boxTitle b!"Sidebar", .boxText b!"Sidebar", .numbered,
      .numbered, .bullet, .heading 1, .body, .rule] := by decide +kernel

/-- The styles of the body, or nothing if writing fails. -/
def stylesOf (bs : List Block) : List Str :=
  match render allFiles (graphOf bs) with
  | .ok d => (bodyParas d).map (·.style)
  | .error _ => []

/-- The property as stated is false: a plain paragraph takes on the style of the verse, listing or literal block
before it. -/
theorem C55_after_leaf (is : List Inline) (f : LeafForm) (dl : Option Str) (m : Option Meta) (l : List Location)
    (s : Str) :
    stylesOf [.leaf .verse f dl is m l, plainPara s] = [b!"Verse", b!"Verse"] ∧
    stylesOf [.leaf .listing f dl is m l, plainPara s] = [b!"Monospace", b!"Monospace"] ∧
    stylesOf [.leaf .literal f dl is m l, plainPara s] = [b!"Monospace", b!"Monospace"] := ⟨rfl, rfl, rfl⟩

/-- The same after lists, description lists, thematic breaks and tables. -/
theorem C55_after_block (s x t : Str) :
    stylesOf [.list .unordered [plainItem x] none [], plainPara s] = [b!"ListParagraph", b!"ListParagraph"] ∧
    stylesOf [.dlist [.dlistItem [word t] [word x] [] none []] none [], plainPara s] =
      [b!"Definition Term", b!"Definition", b!"Definition"] ∧
    stylesOf [.brk .thematic [], plainPara s] = [b!"ThematicBreak", b!"ThematicBreak"] ∧
    stylesOf [.parent .table none b!"|===" [] [] none [], plainPara s] = [b!"Table"] := ⟨rfl, rfl, rfl, rfl⟩

/-- An item after an item with an attached block is no longer styled as a list item. -/
theorem C55_after_attached (x y z : Str) :
    stylesOf [.list .unordered [.listItem b!"*" [word x] [plainPara y] none [], plainItem z] none []] =
      [b!"ListParagraph", b!"ListParagraphContinue", b!"Normal"] := rfl

/-- A paragraph after a box inside a box is no longer styled as part of the outer box. -/
theorem C55_after_inner_box (x y : Str) :
    stylesOf [.parent .sidebar none b!"****" [.parent .quote none b!"____" [plainPara x] [] none [], plainPara y] [] none
      []] = [b!"Quote", b!"Normal"] := rfl

/-! ## C56: list numbering -/

/-- The numbers of the list items: all items of a list have the same, and different lists have different ones. -/
theorem C56_numbers (io : Str → Option Unit) (g : Asg) (d : Doc) (h : render io g = .ok d)
    (hi : itemsInListsL g.blocks = true) :
    (bodyParas d).filterMap (·.num) = itemNumbers 0 (listsL g.blocks) := by
  obtain ⟨st, hr, rfl⟩ := render_ok h
  obtain ⟨h1, -⟩ := ops_nums _ _ _ hr
  have e0 : bodyNums (start g.header).doc.body = [] ∧ (start g.header).num = 0 := by
    unfold start
    split
    · split
      · exact ⟨rfl, rfl⟩
      · exact ⟨rfl, rfl⟩
    · exact ⟨rfl, rfl⟩
  rw [e0.1, e0.2, List.nil_append, blocks_nums 0 _ hi] at h1
  refine Eq.trans ?_ h1
  have : ∀ is : List Docx.Item, (bodyP is).filterMap (·.num) = bodyNums is := by
    intro is
    induction is with
    | nil => rfl
    | cons i is ih =>
      cases i with
      | para p =>
        simp only [bodyP, bodyNums] at ih
        cases hn : p.num <;> simp [bodyP, bodyNums, hn, ih]
      | table rows => exact ih
      | picture t => exact ih
  exact this _

/-- The numbering definitions: one, for the first unordered list, or none. -/
theorem C56_definitions (io : Str → Option Unit) (g : Asg) (d : Doc) (h : render io g = .ok d)
    (hi : itemsInListsL g.blocks = true) :
    d.nums = match (listsL g.blocks).findIdx? (·.1 = .unordered) with
      | some i => [(i + 1, 1)]
      | none => [] := by
  obtain ⟨st, hr, rfl⟩ := render_ok h
  obtain ⟨h1, -⟩ := ops_defs _ _ _ hr
  have e0 : (start g.header).doc.nums = [] ∧ (start g.header).num = 0 ∧ (start g.header).abstractNum = 0 := by
    unfold start
    split
    · split
      · exact ⟨rfl, rfl, rfl⟩
      · exact ⟨rfl, rfl, rfl⟩
    · exact ⟨rfl, rfl, rfl⟩
  have h2 := h1 e0.2.2
  rw [e0.1, e0.2.1, List.nil_append, blocks_kinds _ hi] at h2
  rw [h2]
  unfold defsAfter
  rw [List.findIdx?_map]
  simp only [Nat.zero_add]
  rfl

example : itemsInListsL sampleGraph.blocks = true ∧ listsL sampleGraph.blocks = [(.ordered, 2), (.unordered, 1)] ∧
    itemNumbers 0 (listsL sampleGraph.blocks) = [1, 1, 2] := by decide +kernel

/-- The property as stated is false: the number of an ordered list is not defined. -/
theorem C56_ordered_undefined (io : Str → Option Unit) (x : Str) :
    ∃ d, render io (graphOf [.list .ordered [plainItem x] none []]) = .ok d ∧
      (∃ p ∈ bodyParas d, p.num = some 1) ∧ d.nums = [] :=
  ⟨_, rfl, ⟨_, List.mem_cons_self .., rfl⟩, rfl⟩

/-- Nor is the number of a second unordered list. -/
theorem C56_second_undefined (io : Str → Option Unit) (x y : Str) :
    ∃ d, render io (graphOf [.list .unordered [plainItem x] none [], .list .unordered [plainItem y] none []]) = .ok d ∧
      (∃ p ∈ bodyParas d, p.num = some 2) ∧ d.nums = [(1, 1)] :=
  ⟨_, rfl, ⟨_, List.mem_cons_of_mem _ (List.mem_cons_self ..), rfl⟩, rfl⟩

/-! ## C57: character references -/

/-- UTF-8 encoding of a code point below `0x10000`. -/
def utf8 (n : Nat) : Str :=
  if n < 0x80 then [UInt8.ofNat n]
  else if n < 0x800 then [UInt8.ofNat (0xC0 + n / 64), UInt8.ofNat (0x80 + n % 64)]
  else [UInt8.ofNat (0xE0 + n / 4096), UInt8.ofNat (0x80 + n / 64 % 64), UInt8.ofNat (0x80 + n % 64)]

/-- The code points of the named references of HTML that the writer knows. -/
def named : List (Str × Nat) := [
  (b!"&nbsp;", 0xA0), (b!"&mdash;", 0x2014), (b!"&ndash;", 0x2013), (b!"&dollar;", 0x24), (b!"&amp;", 0x26),
  (b!"&gt;", 0x3E), (b!"&lt;", 0x3C), (b!"&equals;", 0x3D), (b!"&plus;", 0x2B), (b!"&copy;", 0xA9), (b!"&reg;", 0xAE),
  (b!"&trade;", 0x2122), (b!"&sect;", 0xA7), (b!"&euro;", 0x20AC), (b!"&yen;", 0xA5), (b!"&quot;", 0x22),
  (b!"&apos;", 0x27), (b!"&lsquo;", 0x2018), (b!"&rsquo;", 0x2019), (b!"&ldquo;", 0x201C), (b!"&rdquo;", 0x201D)]

/-- The code point that a reference denotes: a decimal number or a known name. -/
def denotes (s : Str) : Option Nat :=
  match named.lookup s with
  | some n => some n
  | none =>
    if s.take 2 = b!"&#" ∧ s.getLast? = some c!";" then parseDigits ((s.drop 2).dropLast) else none

private theorem get_mem {V : Type} (m : SMap V) (k : Str) (v : V) (h : m.get? k = some v) : (k, v) ∈ m := by
  induction m with
  | nil => cases h
  | cons e m ih =>
    obtain ⟨k', v'⟩ := e
    simp only [SMap.get?] at h
    split at h
    · rename_i hk; cases h; subst hk; exact List.mem_cons_self ..
    · exact List.mem_cons_of_mem _ (ih h)

/-- A reference that the writer replaces is replaced by the character it denotes, apart from the no-break space and the
en dash. Missing for the full property: those, and references that are left as they are. -/
theorem C57_replaced_partial (s t : Str) (h : charrefMap.get? s = some t)
    (hs : s ∉ [b!"&nbsp;", b!"&#160;", b!"&ndash;", b!"&#sect;"]) :
    ∃ n, denotes s = some n ∧ refdChar .charref s = utf8 n := by
  have hm := get_mem _ _ _ h
  have hr : refdChar .charref s = t := by simp only [refdChar, h, Option.getD_some]
  rw [hr]
  have key : ∀ e ∈ charrefMap, e.1 ∈ [b!"&nbsp;", b!"&#160;", b!"&ndash;", b!"&#sect;"] ∨
      (denotes e.1).map utf8 = some e.2 := by decide +kernel
  rcases key (s, t) hm with hk | hk
  · exact absurd hk hs
  · obtain ⟨n, h1, h2⟩ := Option.map_eq_some_iff.1 hk
    exact ⟨n, h1, h2.symm⟩

example : charrefMap.get? b!"&copy;" = some b!"©" := by decide

/-- The property as stated is false: an en dash becomes an em dash, a no-break space an ordinary space. -/
theorem C57_wrong_character :
    (denotes b!"&ndash;" = some 0x2013 ∧ refdChar .charref b!"&ndash;" = utf8 0x2014) ∧
    (denotes b!"&nbsp;" = some 0xA0 ∧ refdChar .charref b!"&nbsp;" = utf8 0x20) := by decide +kernel

/-- The section sign is not replaced: its entry in the table is misspelt. -/
theorem C57_section_sign : denotes b!"&sect;" = some 0xA7 ∧ refdChar .charref b!"&sect;" = b!"&sect;" := by
  decide +kernel

/-- From source text: the en dash. -/
theorem C57_source : returns ((parseText emptyWorld 5 b!"1&ndash;2\n").map fun g =>
    (render allFiles g).toOption.map fun d => (bodyParas d).map paraText) (some [b!"1—2"]) = true := by
  decide +kernel

/-! ## C58: writing returns -/

/-- Writing returns a document for every graph whose images can be read and whose tables give a number of columns. -/
theorem C58_returns (io : Str → Option Unit) (g : Asg) (h : fineL io g.blocks) : ∃ d, render io g = .ok d := by
  obtain ⟨st, hs⟩ := ops_total (opsL g.blocks) (blocks_fine io g.blocks h) (start g.header)
  unfold render
  rw [addBlocks_ops, hs]
  exact ⟨_, rfl⟩

example : fineL allFiles sampleGraph.blocks := by
  simp [fineL, fine, sampleGraph, plainPara, plainItem]

/-- The property as stated is false: a table with two cells and no `cols` attribute ends the program. -/
theorem C58_no_columns (io : Str → Option Unit) (a b : Str) :
    render io (graphOf [.parent .table none b!"|===" [.tableCell [word a] none [], .tableCell [word b] none []] [] none
      []]) = .error (.panic .divZero) := rfl

/-! ## C59: lines -/

/-- Whether a run is a line break. -/
def isBreak : Render.Run → Bool
  | .brk => true
  | _ => false

mutual
/-- The number of hard line breaks in an inline. -/
def breaks : Inline → Nat
  | .lit .. => 0
  | .span _ _ is _ _ _ => breaksL is
  | .ref _ _ is _ _ => breaksL is
  | .brk _ => 1
/-- The number of hard line breaks in inlines. -/
def breaksL : List Inline → Nat
  | [] => 0
  | i :: is => breaks i + breaksL is
end

private theorem spaces_nl : ∀ w ∈ spaces, w.head? ≠ some 10 → (10 : UInt8) ∉ w := by decide

private theorem joinF_nl (n : Nat) (pend s : Str) (hp : (10 : UInt8) ∉ pend) (hn : s.length ≤ n) :
    (10 : UInt8) ∉ joinF n pend s := by
  induction n generalizing pend s with
  | zero =>
    have : s = [] := List.length_eq_zero_iff.1 (by omega)
    subst this
    simpa [joinF] using hp
  | succ n ih =>
    cases s with
    | nil => simpa [joinF] using hp
    | cons b bs =>
      simp only [List.length_cons] at hn
      unfold joinF
      split
      · rename_i hw
        have hb : b ≠ 10 := by
          intro hb
          subst hb
          have := wsB [10] space_nl bs
          simp only [List.singleton_append, List.length_singleton] at this
          omega
        have := ih [] bs (by simp) (by omega)
        simp only [List.mem_append, List.mem_cons, not_or]
        exact ⟨hp, fun e => hb e.symm, this⟩
      · rename_i hw
        split
        · exact ih _ bs (by simp) (by omega)
        · rename_i hb
          have ht := wsLen_take (b :: bs) hw
          have hl : 1 ≤ wsLen (b :: bs) := by omega
          refine ih _ _ ?_ (by simp only [List.length_drop, List.length_cons]; omega)
          simp only [List.mem_append, not_or]
          refine ⟨hp, spaces_nl _ ht ?_⟩
          obtain ⟨k, hk⟩ := Nat.exists_eq_add_of_le hl
          rw [hk, Nat.add_comm]
          simpa using hb

private theorem trim_mem (s : Str) (x : UInt8) (h : x ∉ s) : x ∉ trimStart s := by
  have gen : ∀ (n : Nat) (t : Str), x ∉ t → x ∉ trimStartF n t := by
    intro n
    induction n with
    | zero => exact fun t h => h
    | succ n ih =>
      intro t ht
      unfold trimStartF
      split
      · exact ht
      · exact ih _ fun hc => ht (List.mem_of_mem_drop hc)
  exact gen _ _ h

private theorem flat_nl (s : Str) : (10 : UInt8) ∉ flatLines s := by
  unfold flatLines
  intro h
  obtain ⟨b, -, hb⟩ := List.mem_map.1 h
  split at hb
  · cases hb
  · rename_i hn; exact hn hb

mutual
private theorem runsWith_nl (i : Inline) (lb : Bool) (vs : List SpanVariant) :
    (∀ r ∈ (Docx.runsWith i lb vs).1, (10 : UInt8) ∉ runText r) ∧
    (Docx.runsWith i lb vs).1.countP isBreak = breaks i := by
  cases i with
  | lit n v l =>
    simp only [Docx.runsWith, breaks]
    refine ⟨?_, by simp [isBreak]⟩
    intro r hr
    rw [List.mem_singleton] at hr
    subst hr
    simp only [runText]
    split
    · exact trim_mem _ _ (flat_nl _)
    · exact flat_nl _
  | span v f is m l o => exact runsWithL_nl is lb (vs ++ [v])
  | brk l => exact ⟨by simp [Docx.runsWith, runText], by simp [Docx.runsWith, isBreak, breaks]⟩
  | ref v t is m l => exact runsWithL_nl is lb vs
private theorem runsWithL_nl (is : List Inline) (lb : Bool) (vs : List SpanVariant) :
    (∀ r ∈ (Docx.runsWithL is lb vs).1, (10 : UInt8) ∉ runText r) ∧
    (Docx.runsWithL is lb vs).1.countP isBreak = breaksL is := by
  cases is with
  | nil => exact ⟨by simp [Docx.runsWithL], rfl⟩
  | cons i is =>
    obtain ⟨a1, a2⟩ := runsWith_nl i lb vs
    obtain ⟨b1, b2⟩ := runsWithL_nl is (Docx.runsWith i lb vs).2.1 (Docx.runsWith i lb vs).2.2
    simp only [Docx.runsWithL, breaksL, List.countP_append, a2, b2, List.mem_append]
    exact ⟨fun r hr => hr.elim (a1 r) (b1 r), trivial⟩
end

/-- No newline of the text comes through into a paragraph: the only line breaks are the hard ones. So the lines of
listings, literal blocks and verses are joined; this is the opposite of what the property asks for. -/
theorem C59_lines_joined (is : List Inline) (lb : Bool) :
    (∀ r ∈ (Docx.runs is lb).1, (10 : UInt8) ∉ runText r) ∧ (Docx.runs is lb).1.countP isBreak = breaksL is := by
  induction is generalizing lb with
  | nil => exact ⟨by simp [Docx.runs], rfl⟩
  | cons i is ih =>
    have one : (∀ r ∈ (Docx.runsFrom i lb).1, (10 : UInt8) ∉ runText r) ∧
        (Docx.runsFrom i lb).1.countP isBreak = breaks i := by
      cases i with
      | lit n v l =>
        simp only [Docx.runsFrom, breaks]
        refine ⟨?_, by simp [isBreak]⟩
        intro r hr
        rw [List.mem_singleton] at hr
        subst hr
        exact joinF_nl _ _ _ (by simp) (Nat.le_refl _)
      | span v f is m l o => exact runsWithL_nl is lb [v]
      | brk l => exact ⟨by simp [Docx.runsFrom, runText], by simp [Docx.runsFrom, isBreak, breaks]⟩
      | ref v t is m l => exact runsWithL_nl is lb []
    obtain ⟨b1, b2⟩ := ih (Docx.runsFrom i lb).2
    simp only [Docx.runs, breaksL, List.countP_append, one.2, b2, List.mem_append]
    exact ⟨fun r hr => hr.elim (one.1 r) (b1 r), trivial⟩

/-- The property as stated is false: the two lines of a listing become one. -/
theorem C59_listing : returns ((parseText emptyWorld 5 b!"----\na\nb\n----\n").map fun g =>
    (render allFiles g).toOption.map fun d => (bodyParas d).map (·.runs)) (some [[.text b!" a b " []]]) = true := by
  decide +kernel

end Adoc.Props
