import Verif.Proof.RichInk
/-!
# The outputs do not depend on locations, and a graph is determined by the list of its blocks
-/
set_option linter.unusedSimpArgs false
namespace Adoc.Rich
open Spec

/-! ## Word -/

mutual
theorem runsWith_bare1 (i : Inline) (lb : Bool) (vs : List SpanVariant) : Docx.runsWith (bare i) lb vs = Docx.runsWith i lb vs := by
  match i with
  | .lit n v l => rfl
  | .brk l => rfl
  | .span v f is m l o => simp only [bare, Docx.runsWith, runsWith_bare is]
  | .ref v t is m l => simp only [bare, Docx.runsWith, runsWith_bare is]
theorem runsWith_bare (is : List Inline) (lb : Bool) (vs : List SpanVariant) :
    Docx.runsWithL (bareL is) lb vs = Docx.runsWithL is lb vs := by
  match is with
  | [] => rfl
  | i :: is => simp only [bareL, Docx.runsWithL, runsWith_bare1 i, runsWith_bare is]
end

theorem runs_bare (is : List Inline) (lb : Bool) : Docx.runs (bareL is) lb = Docx.runs is lb := by
  induction is generalizing lb with
  | nil => rfl
  | cons i is ih =>
    have e : Docx.runsFrom (bare i) lb = Docx.runsFrom i lb := by
      cases i <;> simp only [bare, Docx.runsFrom, runsWith_bare]
    simp only [bareL, Docx.runs, e, ih]

theorem addInlines_bare (st : Docx.St) (num : Option Nat) (is : List Inline) : st.addInlines num (bareL is) = st.addInlines num is := by
  simp only [Docx.St.addInlines, runs_bare]

theorem docxAttached_bare (st : Docx.St) (bs : List Block) : st.attached (bareBs bs) = st.attached bs := by
  induction bs generalizing st with
  | nil => rfl
  | cons b bs ih => simp only [bareBs, Docx.St.attached, inlines_bare1, addInlines_bare, ih]

theorem bareBs_isEmpty (bs : List Block) : (bareBs bs).isEmpty = bs.isEmpty := by cases bs <;> rfl

theorem docxCells_bare (st : Docx.St) (bs : List Block) : st.cells (bareBs bs) = st.cells bs := by
  induction bs generalizing st with
  | nil => rfl
  | cons b bs ih => simp only [bareBs, Docx.St.cells, inlines_bare1, runs_bare, ih]

theorem docxTable_bare (st : Docx.St) (bs : List Block) (m : Option Meta) : st.table (bareBs bs) (m.map bareM) = st.table bs m := by
  have e : Docx.St.columns (m.map bareM) = Docx.St.columns m := by cases m <;> rfl
  simp only [Docx.St.table, docxCells_bare, e]

theorem parentHead_bare (st : Docx.St) (name : Str) (v : Option ParentVariant) (t : List Inline) :
    st.parentHead name v (bareL t) = st.parentHead name v t := by
  simp only [Docx.St.parentHead, bareL_isEmpty, addInlines_bare]

theorem quoteTail_bare (st : Docx.St) (m : Option Meta) : st.quoteTail (m.map bareM) = st.quoteTail m := by
  cases m <;> rfl

mutual
theorem addBlock_bare (io : Str → Option Unit) (b : Block) (st : Docx.St) : Docx.addBlock io (bareB b) st = Docx.addBlock io b st := by
  match b with
  | .section t m v bs l => simp only [bareB, Docx.addBlock, addBlocks_bare io bs, Docx.St.sectionHead, bareL_isEmpty, addInlines_bare]
  | .list v bs m l => simp only [bareB, Docx.addBlock, addBlocks_bare io bs]
  | .listItem k p bs m l => simp only [bareB, Docx.addBlock, Docx.St.listItem, addInlines_bare, docxAttached_bare, bareBs_isEmpty]
  | .dlist bs m l => simp only [bareB, Docx.addBlock, addBlocks_bare io bs]
  | .dlistItem t p bs m l => simp only [bareB, Docx.addBlock, Docx.St.dlistHead, addInlines_bare, addBlocks_bare io bs]
  | .brk v l => cases v <;> rfl
  | .image t c m l => rfl
  | .leaf n f d is m l => cases n <;> simp only [bareB, Docx.addBlock, Docx.St.leaf, addInlines_bare]
  | .parent n v d bs t m l =>
    cases n <;> simp only [bareB, Docx.addBlock, parentHead_bare, addBlocks_bare io bs, quoteTail_bare, docxTable_bare]
  | .tableCell is m l => rfl
theorem addBlocks_bare (io : Str → Option Unit) (bs : List Block) (st : Docx.St) :
    Docx.addBlocks io (bareBs bs) st = Docx.addBlocks io bs st := by
  match bs with
  | [] => rfl
  | b :: bs =>
    simp only [bareBs, Docx.addBlocks, addBlock_bare io b]
    cases Docx.addBlock io b st with
    | error e => rfl
    | ok s => exact addBlocks_bare io bs s
end

/-! ## HTML -/

theorem htmlClass_bare (m : Option Meta) : Html.classAttr (m.map bareM) = Html.classAttr m := by cases m <;> rfl
theorem attrOf_bare (m : Option Meta) (k : Str) : Html.attrOf (m.map bareM) k = Html.attrOf m k := by cases m <;> rfl
theorem htmlAttribution_bare (m : Option Meta) : Html.attribution (m.map bareM) = Html.attribution m := by
  simp only [Html.attribution, attrOf_bare]
theorem openTag_bare (t : Str) (s : Bool) (m : Option Meta) (a b : Str) : Html.openTag t s (m.map bareM) a b = Html.openTag t s m a b := by
  simp only [Html.openTag, htmlClass_bare]

mutual
theorem htmlInline_bare (i : Inline) : Html.inline (bare i) = Html.inline i := by
  match i with
  | .lit n v l => rfl
  | .brk l => rfl
  | .span v f is m l o => simp only [bare, Html.inline, htmlInlines_bare is]
  | .ref v t is m l =>
    cases v with
    | image => rfl
    | link =>
      match is with
      | [] => rfl
      | i :: is => simp only [bare, bareL, Html.inline, htmlInline_bare i, htmlInlines_bare is]
    | xref =>
      match is with
      | [] => rfl
      | i :: is => simp only [bare, bareL, Html.inline, htmlInline_bare i, htmlInlines_bare is]
theorem htmlInlines_bare (is : List Inline) : Html.inlines (bareL is) = Html.inlines is := by
  match is with
  | [] => rfl
  | i :: is => simp only [bareL, Html.inlines, htmlInline_bare i, htmlInlines_bare is]
end

theorem htmlCell_bare (tag : Str) (c : Option Block) : Html.cell tag (c.map bareB) = Html.cell tag c := by
  cases c with
  | none => rfl
  | some b => cases b <;> simp only [Option.map, bareB, Html.cell, Html.cellInlines, htmlInlines_bare]

theorem cellLoop_bare (cols total : Nat) (cs : List Block) (i : Nat) :
    Html.cellLoop cols total (cs.map bareB) i = Html.cellLoop cols total cs i := by
  induction cs generalizing i with
  | nil => rfl
  | cons c cs ih =>
    have e : Html.cell b!"td" (some (bareB c)) = Html.cell b!"td" (some c) := htmlCell_bare _ (some c)
    simp only [List.map_cons, Html.cellLoop, ih, e]

theorem headCells_bare (cs : List Block) (is : List Nat) : Html.headCells (cs.map bareB) is = Html.headCells cs is := by
  induction is with
  | nil => rfl
  | cons i is ih => simp only [Html.headCells, ih, List.getElem?_map, htmlCell_bare]

theorem htmlTable_bare (titled : Bool) (cs : List Block) (m : Option Meta) :
    Html.table titled (bareBs cs) (m.map bareM) = Html.table titled cs m := by
  cases m with
  | none => rfl
  | some m =>
    simp only [Html.table, Option.map, bareM, bareBs_map', List.length_map, ← List.map_drop, cellLoop_bare, headCells_bare]

theorem htmlHeading_bare (l : Str) (t : List Inline) : Html.heading l (bareL t) = Html.heading l t := by
  simp only [Html.heading, bareL_isEmpty, htmlInlines_bare]

theorem principal_bare (p : List Inline) : Html.principal (bareL p) = Html.principal p := by
  simp only [Html.principal, bareL_isEmpty, htmlInlines_bare]

mutual
theorem htmlBlock_bare (titled skip : Bool) (b : Block) : Html.block titled skip (bareB b) = Html.block titled skip b := by
  match b with
  | .section t m v bs l =>
    simp only [bareB, Html.block, htmlBlocks_bare titled _ bs, htmlClass_bare, attrOf_bare, htmlHeading_bare, htmlAttribution_bare]
  | .list v bs m l => simp only [bareB, Html.block, htmlBlocks_bare titled _ bs, openTag_bare, htmlAttribution_bare]
  | .listItem k p bs m l =>
    simp only [bareB, Html.block, htmlBlocks_bare titled _ bs, openTag_bare, htmlAttribution_bare, principal_bare]
  | .dlist bs m l => simp only [bareB, Html.block, htmlBlocks_bare titled _ bs, openTag_bare, htmlAttribution_bare]
  | .dlistItem t p bs m l =>
    simp only [bareB, Html.block, htmlBlocks_bare titled _ bs, openTag_bare, htmlAttribution_bare, principal_bare, bareL_isEmpty,
      htmlInlines_bare]
  | .brk v l => cases v <;> rfl
  | .image t c m l => simp only [bareB, Html.block, openTag_bare, htmlAttribution_bare, attrOf_bare, bareL_isEmpty, htmlInlines_bare]
  | .leaf n f d is m l => cases n <;> simp only [bareB, Html.block, Html.leaf, htmlInlines_bare, htmlClass_bare, attrOf_bare]
  | .parent n v d bs t m l =>
    cases n <;> simp only [bareB, Html.block, htmlTable_bare, htmlBlocks_bare titled _ bs, openTag_bare, htmlAttribution_bare, htmlHeading_bare]
  | .tableCell is m l => simp only [bareB, Html.block, openTag_bare, htmlAttribution_bare, htmlInlines_bare]
theorem htmlBlocks_bare (titled skip : Bool) (bs : List Block) : Html.blocks titled skip (bareBs bs) = Html.blocks titled skip bs := by
  match bs with
  | [] => rfl
  | b :: bs => simp only [bareBs, Html.blocks, htmlBlock_bare titled skip b, htmlBlocks_bare titled skip bs]
end

theorem htmlBody_bare (titled : Bool) (bs : List Block) : Html.body titled (bareBs bs) = Html.body titled bs := by
  induction bs with
  | nil => rfl
  | cons b bs ih => simp only [bareBs, Html.body, htmlBlock_bare, ih]

/-! ## Graphs that differ in locations only -/

/-- Two graphs with the same title and blocks up to locations give the same page. -/
theorem page_same (sees : Bool) {g h : Asg} (hb : bareBs g.blocks = bareBs h.blocks)
    (hh : g.header.map (fun x => bareL x.title) = h.header.map fun x => bareL x.title) : Html.render sees g = Html.render sees h := by
  have e1 : g.header.isSome = h.header.isSome := by
    have := congrArg Option.isSome hh
    simpa using this
  have e2 : Html.docTitle g.header = Html.docTitle h.header := by
    cases hg : g.header with
    | none => cases hx : h.header with
      | none => rfl
      | some y => rw [hg, hx] at hh; simp at hh
    | some x => cases hx : h.header with
      | none => rw [hg, hx] at hh; simp at hh
      | some y =>
        rw [hg, hx] at hh
        have hh : bareL x.title = bareL y.title := Option.some.inj hh
        simp only [Html.docTitle]
        rw [← htmlInlines_bare x.title, hh, htmlInlines_bare]
  unfold Html.render
  rw [e1, e2, ← htmlBody_bare _ g.blocks, hb, htmlBody_bare]

/-- Two graphs with the same title and blocks up to locations give the same Word document. -/
theorem word_same (io : Str → Option Unit) {g h : Asg} (hb : bareBs g.blocks = bareBs h.blocks)
    (hh : g.header.map (fun x => bareL x.title) = h.header.map fun x => bareL x.title) : Docx.render io g = Docx.render io h := by
  have e : Docx.start g.header = Docx.start h.header := by
    cases hg : g.header with
    | none => cases hx : h.header with
      | none => rfl
      | some y => rw [hg, hx] at hh; simp at hh
    | some x => cases hx : h.header with
      | none => rw [hg, hx] at hh; simp at hh
      | some y =>
        rw [hg, hx] at hh
        have hh : bareL x.title = bareL y.title := Option.some.inj hh
        simp only [Docx.start]
        rw [← runs_bare x.title, ← bareL_isEmpty x.title, hh, runs_bare, bareL_isEmpty]
  unfold Docx.render
  rw [e, ← addBlocks_bare io g.blocks, hb, addBlocks_bare]

/-! ## The list of blocks determines the blocks -/

mutual
theorem listed_longer (path : List Title) (b : Block) : ∀ x ∈ listed path b, path.length ≤ x.1.length := by
  intro x hx
  cases b with
  | «section» t m v bs l =>
    simp only [listed, List.mem_cons] at hx
    rcases hx with rfl | hx
    · exact Nat.le_refl _
    · have := listedL_longer (path ++ [(v, bareL t)]) bs x hx
      simp only [List.length_append, List.length_cons, List.length_nil] at this
      omega
  | _ => simp only [listed, List.mem_singleton] at hx; subst hx; exact Nat.le_refl _
theorem listedL_longer (path : List Title) (bs : List Block) : ∀ x ∈ listedL path bs, path.length ≤ x.1.length := by
  intro x hx
  cases bs with
  | nil => simp [listedL] at hx
  | cons b bs =>
    simp only [listedL, List.mem_append] at hx
    rcases hx with hx | hx
    · exact listed_longer path b x hx
    · exact listedL_longer path bs x hx
end

theorem listedL_first (path : List Title) (bs : List Block) : ∀ x ∈ (listedL path bs).head?, x.1 = path := by
  intro x hx
  cases bs with
  | nil => simp [listedL] at hx
  | cons b bs =>
    cases b <;> simp [listedL, listed] at hx <;> subst hx <;> rfl

theorem split_longer {α : Type} (p : α → Bool) : ∀ (a b c d : List α), (∀ x ∈ a, p x = true) → (∀ x ∈ c, p x = true) →
    (∀ x ∈ b.head?, p x = false) → (∀ x ∈ d.head?, p x = false) → a ++ b = c ++ d → a = c ∧ b = d
  | [], b, [], d, _, _, _, _, h => ⟨rfl, h⟩
  | [], b, y :: c, d, _, hc, hb, _, h => by
    have : p y = false := hb y (by rw [show b = _ from h]; rfl)
    rw [hc y List.mem_cons_self] at this
    cases this
  | x :: a, b, [], d, ha, _, _, hd, h => by
    have : p x = false := hd x (by rw [show d = _ from h.symm]; rfl)
    rw [ha x List.mem_cons_self] at this
    cases this
  | x :: a, b, y :: c, d, ha, hc, hb, hd, h => by
    simp only [List.cons_append, List.cons.injEq] at h
    obtain ⟨h1, h2⟩ := split_longer p a b c d (fun z hz => ha z (List.mem_cons_of_mem _ hz))
      (fun z hz => hc z (List.mem_cons_of_mem _ hz)) hb hd h.2
    exact ⟨by rw [h.1, h1], h2⟩

/-- Whether a block is a section. -/
def isSection : Block → Bool
  | .section .. => true
  | _ => false

theorem bareB_section (b : Block) : isSection (bareB b) = isSection b := by cases b <;> rfl

theorem listed_plain (path : List Title) (b : Block) (h : isSection b = false) : listed path b = [(path, bareB b)] := by
  cases b <;> first | rfl | cases h

theorem listedL_bare (bs cs : List Block) (path : List Title) (h : listedL path bs = listedL path cs) : bareBs bs = bareBs cs := by
  match bs with
  | [] =>
    match cs with
    | [] => rfl
    | c :: cs => cases c <;> simp [listedL, listed] at h
  | b :: bs =>
    match cs with
    | [] => cases b <;> simp [listedL, listed] at h
    | c :: cs =>
      cases hb : isSection b with
      | false =>
        simp only [listedL, listed_plain path b hb] at h
        cases hc : isSection c with
        | false =>
          simp only [listed_plain path c hc, List.cons_append, List.nil_append, List.cons.injEq, Prod.mk.injEq, true_and] at h
          simp only [bareBs, h.1, listedL_bare bs cs path h.2]
        | true =>
          cases c <;> simp only [isSection, Bool.false_eq_true] at hc
          simp only [listed, List.cons_append, List.nil_append, List.cons.injEq, Prod.mk.injEq, true_and] at h
          have := congrArg isSection h.1
          rw [bareB_section, hb] at this
          cases this
      | true =>
        cases b with
        | «section» t m v xs l =>
          cases hc : isSection c with
          | false =>
            simp only [listedL, listed_plain path c hc, listed, List.cons_append, List.nil_append, List.cons.injEq, Prod.mk.injEq,
              true_and] at h
            have := congrArg isSection h.1
            rw [bareB_section, hc] at this
            cases this
          | true =>
            cases c with
            | «section» t' m' v' ys l' =>
              simp only [listedL, listed, List.cons_append, List.cons.injEq, Prod.mk.injEq, true_and, Block.section.injEq, and_true] at h
              obtain ⟨⟨ht, hm, hv⟩, h⟩ := h
              subst hv
              rw [← ht] at h
              have far : ∀ zs : List Block, ∀ x ∈ listedL (path ++ [(v, bareL t)]) zs, decide (path.length < x.1.length) = true := by
                intro zs x hx
                have := listedL_longer _ _ x hx
                simp only [List.length_append, List.length_cons, List.length_nil] at this
                simp only [decide_eq_true_eq]
                omega
              have near : ∀ zs : List Block, ∀ x ∈ (listedL path zs).head?, decide (path.length < x.1.length) = false := by
                intro zs x hx
                rw [listedL_first path zs x hx]
                simp
              obtain ⟨h1, h2⟩ := split_longer (fun x => decide (path.length < x.1.length)) _ _ _ _ (far xs) (far ys) (near bs) (near cs) h
              simp only [bareBs, bareB, ht, hm, listedL_bare xs ys _ h1, listedL_bare bs cs path h2]
            | _ => cases hc
        | _ => cases hb
termination_by sizeOf bs

end Adoc.Rich
