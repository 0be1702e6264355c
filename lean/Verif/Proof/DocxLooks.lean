import Verif.Proof.DocxFlow
import Verif.Spec.Looks
/-!
# The style definitions of the Word writer
-/
namespace Adoc.Docx

open Word

/-- The names of boxes. -/
def boxNames : List Str := [b!"Admonition", b!"Example", b!"Sidebar"]

/-- Styles of boxes have the name of a box. -/
def Sty.Known : Sty → Prop
  | .sectionTitle n => n ∈ boxNames
  | .sectionText n => n ∈ boxNames
  | _ => True

/-- Every definition is one that the writer generates, and every paragraph has a style of the writer. -/
structure Gen (st : St) : Prop where
  defs : ∀ e ∈ st.doc.styles, ∃ s : Sty, s.Known ∧ e = s.generate
  cur : st.style.Known
  paras : ∀ p ∈ paragraphs st.doc, ∃ s : Sty, s.Known ∧ p.style = s.id

theorem Gen.of_eq {st st' : St} (h : Gen st) (hs : st'.doc.styles = st.doc.styles)
    (hb : st'.doc.body = st.doc.body) (hc : st'.style = st.style) : Gen st' := by
  have e2 : paragraphs st'.doc = paragraphs st.doc := by simp only [paragraphs, hb]
  exact ⟨by rw [hs]; exact h.defs, by rw [hc]; exact h.cur, by rw [e2]; exact h.paras⟩

theorem Gen.setStyle {st : St} (h : Gen st) (s : Sty) (hs : s.Known) : Gen (st.setStyle s) := by
  unfold St.setStyle
  rcases addStyle_cases { st with style := s } s.generate with ⟨_, he⟩ | ⟨_, he⟩
  · rw [he]; exact ⟨h.defs, hs, h.paras⟩
  · rw [he]
    refine ⟨?_, hs, h.paras⟩
    intro e hm
    rcases List.mem_append.1 hm with hm | hm
    · exact h.defs e hm
    · exact ⟨s, hs, List.mem_singleton.1 hm⟩

theorem Gen.push {st : St} (h : Gen st) (i : Item)
    (hi : ∀ p ∈ paragraphs { st.doc with body := [i] }, ∃ s : Sty, s.Known ∧ p.style = s.id) : Gen (st.push i) := by
  refine ⟨h.defs, h.cur, ?_⟩
  intro p hp
  simp only [St.push, paragraphs, List.flatMap_append, List.mem_append] at hp
  exact hp.elim (h.paras p) (hi p)

theorem Gen.addPara {st : St} (h : Gen st) (num : Option Nat) (rs : List Render.Run) : Gen (st.addPara num rs) := by
  unfold St.addPara
  refine (h.push _ ?_).of_eq rfl rfl rfl
  intro p hp
  simp only [paragraphs, List.flatMap_cons, List.flatMap_nil, List.append_nil, List.mem_singleton] at hp
  subst hp
  exact ⟨st.style, h.cur, rfl⟩

theorem Gen.addInlines {st : St} (h : Gen st) (num : Option Nat) (is : List Inline) : Gen (st.addInlines num is) := by
  unfold St.addInlines
  refine Gen.addPara ?_ num _
  exact h.of_eq rfl rfl rfl

theorem Gen.listHead {st : St} (h : Gen st) (v : ListVariant) : Gen (st.listHead v) := by
  have h0 : Gen { st with num := st.num + 1 } := h.of_eq rfl rfl rfl
  unfold St.listHead
  cases v
  · exact Gen.setStyle h0 (.orderedList _) trivial
  · have h1 := Gen.setStyle h0 .listParagraph trivial
    dsimp only
    split
    · exact h1.of_eq rfl rfl rfl
    · exact h1

theorem Gen.op {io : Str → Option Unit} {st st' : St} (h : Gen st) (o : Op) (ho : ∀ s, o = .style s → s.Known)
    (hr : o.run io st = .ok st') : Gen st' := by
  cases o with
  | style s => cases hr; exact h.setStyle s (ho s rfl)
  | reset => cases hr; exact ⟨h.defs, trivial, h.paras⟩
  | raw t => cases hr; exact h.addPara _ _
  | para is => cases hr; exact h.addInlines _ _
  | item is => cases hr; exact h.addInlines _ _
  | list v => cases hr; exact h.listHead v
  | page => cases hr; exact h.of_eq rfl rfl rfl
  | table bs m =>
    obtain ⟨cols, rows, _, h2, rfl⟩ := table_ok st st' bs m hr
    have hc := cells_spec bs (st.setStyle .table)
    refine Gen.push ((h.setStyle .table trivial).of_eq (by rw [hc.2.1]) (by rw [hc.2.1]) hc.2.2.1) _ ?_
    intro p hp
    simp only [paragraphs, List.flatMap_cons, List.flatMap_nil, List.append_nil] at hp
    exact ⟨.table, trivial, hc.1 p (docxRows_mem _ _ _ h2 p hp)⟩
  | picture t =>
    obtain rfl := image_ok io st st' t hr
    exact h.push _ (by simp [paragraphs])

theorem Gen.init (hd : Option Header) : Gen (start hd) := by
  have h0 : Gen ({} : St) := by
    refine ⟨?_, trivial, by simp [paragraphs, defaultDoc]⟩
    intro e he
    simp only [defaultDoc, List.mem_cons, List.not_mem_nil, or_false] at he
    rcases he with rfl | rfl | rfl
    · exact ⟨.normal, trivial, rfl⟩
    · exact ⟨.noSpacing, trivial, rfl⟩
    · exact ⟨.title, trivial, rfl⟩
  unfold start
  split
  · split
    · exact h0
    · dsimp only
      refine Gen.push ?_ _ ?_
      · exact h0.of_eq rfl rfl rfl
      intro p hp
      simp only [paragraphs, List.flatMap_cons, List.flatMap_nil, List.append_nil, List.mem_singleton] at hp
      subst hp
      exact ⟨.title, trivial, rfl⟩
  · exact h0

/-- All styles that steps set are known. -/
def AllKnown (os : List Op) : Prop := ∀ s, Op.style s ∈ os → s.Known

theorem AllKnown.append {a b : List Op} (ha : AllKnown a) (hb : AllKnown b) : AllKnown (a ++ b) := by
  intro s hs
  rcases List.mem_append.1 hs with h | h
  · exact ha s h
  · exact hb s h

theorem headOps_known (name : Str) (v : Option ParentVariant) (t : List Inline) (h : name ∈ boxNames) :
    AllKnown (headOps name v t) := by
  intro s hs
  have : s = .sectionTitle name ∨ s = .sectionText name := by
    cases v <;> simp [headOps, titleOps] at hs <;> grind
  rcases this with rfl | rfl <;> exact h

mutual
theorem ops_known (b : Block) : AllKnown (ops b) := by
  cases b with
  | «section» t m level bs l =>
    simp only [ops]
    refine AllKnown.append ?_ (opsL_known bs)
    intro s hs
    split at hs
    · simp at hs
    · simp at hs; subst hs; trivial
  | list v items m l =>
    intro s hs
    simp only [ops, List.mem_cons, reduceCtorEq, false_or] at hs
    exact opsL_known items s hs
  | listItem k p bs m l =>
    intro s hs
    simp only [ops] at hs
    split at hs
    · simp at hs
    · simp at hs; subst hs; trivial
  | dlist items m l => exact opsL_known items
  | dlistItem t p bs m l =>
    simp only [ops]
    refine AllKnown.append ?_ (opsL_known bs)
    intro s hs
    simp at hs
    rcases hs with rfl | rfl <;> trivial
  | brk v l =>
    intro s hs
    cases v with
    | page => simp [ops] at hs
    | thematic => simp [ops] at hs; subst hs; trivial
  | image t c m l => intro s hs; simp [ops] at hs
  | leaf n f d is m l => intro s hs; cases n <;> simp [ops] at hs <;> subst hs <;> trivial
  | parent n v d bs t m l =>
    have ih := opsL_known bs
    have re : AllKnown [.reset] := by intro s hs; simp at hs
    cases n with
    | table => intro s hs; simp [ops] at hs
    | footnoteContainer => intro s hs; simp [ops] at hs
    | open_ => exact ih
    | quote =>
      intro s hs
      have : s = .quote ∨ Op.style s ∈ opsL bs := by
        cases hm : St.attribution m <;> simpa [ops, hm] using hs
      rcases this with rfl | h
      · trivial
      · exact ih s h
    | admonition => simp only [ops]; exact ((headOps_known _ v t (by decide)).append ih).append re
    | example_ => simp only [ops]; exact ((headOps_known _ v t (by decide)).append ih).append re
    | sidebar => simp only [ops]; exact ((headOps_known _ v t (by decide)).append ih).append re
  | tableCell is m l => intro s hs; simp [ops] at hs
theorem opsL_known (bs : List Block) : AllKnown (opsL bs) := by
  cases bs with
  | nil => intro s hs; simp [opsL] at hs
  | cons b bs => exact (ops_known b).append (opsL_known bs)
end

theorem gen_of {io : Str → Option Unit} {g : Asg} {d : Doc} (h : render io g = .ok d) :
    (∀ e ∈ d.styles, ∃ s : Sty, s.Known ∧ e = s.generate) ∧ (∀ p ∈ paragraphs d, ∃ s : Sty, s.Known ∧ p.style = s.id) := by
  obtain ⟨st, hr, rfl⟩ := render_ok h
  have : Gen st := by
    refine keep (I := Gen) _ ?_ _ _ (Gen.init g.header) hr
    intro o ho s s' hs hrun
    exact hs.op o (fun x hx => opsL_known g.blocks x (hx ▸ ho)) hrun
  exact ⟨this.defs, this.paras⟩

/-- No paragraph asks for the style that is defined for thematic breaks. -/
theorem id_ne (s : Sty) (hk : s.Known) : s.id ≠ b!"Thematic Break" := by
  cases s with
  | heading n => simp [Sty.id]
  | orderedList n => simp [Sty.id]
  | sectionTitle n =>
    simp only [Sty.Known, boxNames, List.mem_cons, List.not_mem_nil, or_false] at hk
    rcases hk with rfl | rfl | rfl <;> simp [Sty.id]
  | sectionText n =>
    simp only [Sty.Known, boxNames, List.mem_cons, List.not_mem_nil, or_false] at hk
    rcases hk with rfl | rfl | rfl <;> simp [Sty.id]
  | _ => simp [Sty.id]

/-! ## The look of the definitions -/

/-- Heading styles are not any of the other styles. -/
theorem expected_heading (n : Nat) : expected (b!"Heading " ++ natToStr n) =
    { font := some b!"Times New Roman", size := some 24, line := some 480, first := some 0, bold := true } := by
  simp [expected, boxTitles, boxTexts]

theorem expected_numbered (n : Nat) : expected (b!"NumberedListParagraph_" ++ natToStr n) =
    { font := some b!"Times New Roman", size := some 24, line := some 480, first := some 0 } := by
  simp [expected, boxTitles, boxTexts]
  rfl

/-- The definition of a style that is there and is known. -/
theorem found {d : Doc} (hg : ∀ e ∈ d.styles, ∃ s : Sty, s.Known ∧ e = s.generate) (id : Str) (h : id ∈ styleIds d) :
    ∃ s : Sty, s.Known ∧ s.generate.id = id ∧ d.styles.find? (fun e => e.id == id) = some s.generate := by
  cases hf : d.styles.find? (fun e => e.id == id) with
  | none =>
    obtain ⟨e, he, hid⟩ := List.mem_map.1 h
    have := List.find?_eq_none.1 hf e he
    simp [hid] at this
  | some e =>
    obtain ⟨s, hk, rfl⟩ := hg e (List.mem_of_find?_eq_some hf)
    have := List.find?_some hf
    exact ⟨s, hk, by simpa using this, rfl⟩

/-- Which style has one of the names that others are based on. -/
theorem base_of (s : Sty) (hk : s.Known) :
    (s.generate.id = b!"Normal" → s = .normal) ∧ (s.generate.id = b!"No Spacing" → s = .noSpacing) ∧
      (s.generate.id = b!"Title" → s = .title) := by
  cases s with
  | heading n => simp [Sty.generate]
  | orderedList n => simp [Sty.generate]
  | sectionTitle n =>
    simp only [Sty.Known, boxNames, List.mem_cons, List.not_mem_nil, or_false] at hk
    rcases hk with rfl | rfl | rfl <;> simp [Sty.generate]
  | sectionText n =>
    simp only [Sty.Known, boxNames, List.mem_cons, List.not_mem_nil, or_false] at hk
    rcases hk with rfl | rfl | rfl <;> simp [Sty.generate]
  | _ => simp [Sty.generate]

section
variable {d : Doc} (hg : ∀ e ∈ d.styles, ∃ s : Sty, s.Known ∧ e = s.generate)
  (hb : ∀ x ∈ [b!"Normal", b!"No Spacing", b!"Title"], x ∈ styleIds d)
include hg hb

theorem seen_normal (n : Nat) : seen d (n + 1) b!"Normal" = some Sty.normal.generate.look := by
  obtain ⟨s, hk, hid, hf⟩ := found hg b!"Normal" (hb _ (by simp))
  obtain rfl := (base_of s hk).1 hid
  simp only [seen, hf]
  rfl

theorem seen_noSpacing (n : Nat) : seen d (n + 1) b!"No Spacing" = some Sty.noSpacing.generate.look := by
  obtain ⟨s, hk, hid, hf⟩ := found hg b!"No Spacing" (hb _ (by simp))
  obtain rfl := (base_of s hk).2.1 hid
  simp only [seen, hf]
  rfl

theorem seen_title (n : Nat) :
    seen d (n + 2) b!"Title" = some (over Sty.title.generate.look Sty.normal.generate.look) := by
  obtain ⟨s, hk, hid, hf⟩ := found hg b!"Title" (hb _ (by simp))
  obtain rfl := (base_of s hk).2.2 hid
  rw [seen, hf]
  show (seen d (n + 1) b!"Normal").map _ = _
  rw [seen_normal hg hb]
  rfl

/-- A style that is defined looks as its name tells. -/
theorem seen_known (id : Str) (h : id ∈ styleIds d) (ht : id ≠ b!"Thematic Break") : seen d 3 id = some (expected id) := by
  obtain ⟨s, hk, rfl, hf⟩ := found hg id h
  rw [seen, hf]
  have n2 := seen_normal hg hb 1
  have s2 := seen_noSpacing hg hb 1
  have t2 := seen_title hg hb 0
  cases s with
  | heading n =>
    show (seen d 2 b!"Normal").map _ = some (expected (b!"Heading " ++ natToStr n))
    rw [n2, expected_heading]; rfl
  | orderedList n =>
    show (seen d 2 b!"Normal").map _ = some (expected (b!"NumberedListParagraph_" ++ natToStr n))
    rw [n2, expected_numbered]; rfl
  | sectionTitle n =>
    show (seen d 2 b!"Title").map _ = some (expected (n ++ b!" Title"))
    rw [t2]
    simp only [Sty.Known, boxNames, List.mem_cons, List.not_mem_nil, or_false] at hk
    rcases hk with rfl | rfl | rfl <;> decide
  | sectionText n =>
    show (seen d 2 b!"Normal").map _ = some (expected (n ++ b!" Text"))
    rw [n2]
    simp only [Sty.Known, boxNames, List.mem_cons, List.not_mem_nil, or_false] at hk
    rcases hk with rfl | rfl | rfl <;> decide
  | thematicBreak => exact absurd rfl ht
  | normal => show some (Sty.generate .normal).look = _; decide
  | noSpacing => show some (Sty.generate .noSpacing).look = _; decide
  | monospace => show some (Sty.generate .monospace).look = _; decide
  | quote => show (seen d 2 b!"No Spacing").map _ = _; rw [s2]; decide
  | verse => show (seen d 2 b!"No Spacing").map _ = _; rw [s2]; decide
  | listParagraph => show (seen d 2 b!"No Spacing").map _ = _; rw [s2]; decide
  | listParagraphContinue => show (seen d 2 b!"No Spacing").map _ = _; rw [s2]; decide
  | _ => show (seen d 2 b!"Normal").map _ = _; rw [n2]; decide

end

/-! ## The look of roles -/

/-- The roles of boxes have the name of a box. -/
def Role.Boxed : Role → Prop
  | .boxTitle n => n ∈ boxNames
  | .boxText n => n ∈ boxNames
  | _ => True

mutual
theorem roles_boxed (amb : Role) (ha : Role.Boxed amb) (b : Block) : ∀ r ∈ roles amb b, Role.Boxed r := by
  cases b with
  | «section» t m level bs l =>
    intro r hr
    simp only [roles, List.mem_append] at hr
    rcases hr with hr | hr
    · split at hr
      · simp at hr
      · simp only [List.mem_singleton] at hr; subst hr; trivial
    · exact rolesL_boxed .body trivial bs r hr
  | list v items m l =>
    intro r hr
    simp only [roles, List.mem_flatMap] at hr
    obtain ⟨x, _, hr⟩ := hr
    split at hr
    · simp only [List.mem_cons, List.mem_map] at hr
      rcases hr with rfl | ⟨_, _, rfl⟩
      · cases v <;> trivial
      · trivial
    · simp at hr
  | listItem k p bs m l => intro r hr; simp [roles] at hr
  | dlist items m l => simp only [roles]; exact rolesL_boxed amb ha items
  | dlistItem t p bs m l =>
    intro r hr
    simp only [roles, List.mem_cons] at hr
    rcases hr with rfl | rfl | hr
    · trivial
    · trivial
    · exact rolesL_boxed .definition trivial bs r hr
  | brk v l =>
    intro r hr
    cases v with
    | page => simp [roles] at hr
    | thematic => simp [roles] at hr; subst hr; trivial
  | image t c m l => intro r hr; simp [roles] at hr
  | leaf n f d is m l =>
    intro r hr
    cases n <;> simp [roles] at hr <;> subst hr <;> first | exact ha | trivial
  | parent n v d bs t m l =>
    intro r hr
    have box : ∀ name ∈ boxNames, r ∈ (label v).map (fun _ => Role.boxTitle name) ++ (title t).map (fun _ => Role.boxTitle name) ++
        rolesL (.boxText name) bs → Role.Boxed r := by
      intro name hn hr
      simp only [List.mem_append, List.mem_map] at hr
      rcases hr with (⟨_, _, rfl⟩ | ⟨_, _, rfl⟩) | hr
      · exact hn
      · exact hn
      · exact rolesL_boxed (.boxText name) hn bs r hr
    cases n with
    | table => simp [roles, boxName] at hr
    | footnoteContainer => simp [roles, boxName] at hr
    | open_ => simp only [roles] at hr; exact rolesL_boxed amb ha bs r hr
    | quote =>
      simp only [roles, List.mem_append, List.mem_map] at hr
      rcases hr with hr | ⟨_, _, rfl⟩
      · exact rolesL_boxed .quotation trivial bs r hr
      · trivial
    | admonition => exact box b!"Admonition" (by decide) (by simpa only [roles, boxName] using hr)
    | example_ => exact box b!"Example" (by decide) (by simpa only [roles, boxName] using hr)
    | sidebar => exact box b!"Sidebar" (by decide) (by simpa only [roles, boxName] using hr)
  | tableCell is m l => intro r hr; simp [roles] at hr
theorem rolesL_boxed (amb : Role) (ha : Role.Boxed amb) (bs : List Block) : ∀ r ∈ rolesL amb bs, Role.Boxed r := by
  cases bs with
  | nil => intro r hr; simp [rolesL] at hr
  | cons b bs =>
    intro r hr
    simp only [rolesL, List.mem_append] at hr
    rcases hr with hr | hr
    · exact roles_boxed amb ha b r hr
    · exact rolesL_boxed amb ha bs r hr
end

/-- The look of a style that shows a role is the look of the role. -/
theorem role_look (r : Role) (hb : Role.Boxed r) (x : Str) (h : r.style x) (hr : r ≠ .rule) : some (expected x) = r.look := by
  cases r with
  | rule => exact absurd rfl hr
  | heading n => obtain rfl : x = _ := h; rw [expected_heading]; rfl
  | numbered => obtain ⟨n, rfl⟩ := h; rw [expected_numbered]; rfl
  | boxTitle n =>
    obtain rfl : x = _ := h
    simp only [Role.Boxed, boxNames, List.mem_cons, List.not_mem_nil, or_false] at hb
    rcases hb with rfl | rfl | rfl <;> decide
  | boxText n =>
    obtain rfl : x = _ := h
    simp only [Role.Boxed, boxNames, List.mem_cons, List.not_mem_nil, or_false] at hb
    rcases hb with rfl | rfl | rfl <;> decide
  | _ => obtain rfl : x = _ := h; decide

end Adoc.Docx
