import Verif.Proof.DocxRoles
/-!
# The text of a Word document, and when writing returns
-/
namespace Adoc.Docx

open Word

theorem parTexts_append (a b : List Ev) : parTexts (a ++ b) = parTexts a ++ parTexts b := by simp [parTexts]

theorem shownL_append (a b : List Inline) : shownL (a ++ b) = shownL a ++ shownL b := by
  induction a with
  | nil => rfl
  | cons i a ih => simp [shownL, ih]

theorem title_text (t : List Inline) : (parTexts (Word.title t)).flatten = shownL t := by
  unfold Word.title
  cases t <;> simp [parTexts, shownL]

mutual
theorem fits_content (b : Block) (h : fitsItem b = true) : shownL b.inlines = content b := by
  cases b with
  | «section» t m level bs l =>
    simp only [fitsItem] at h
    simp only [Block.inlines, content, shownL_append, fitsL_content bs h]
  | list v items m l => exact fitsL_content items (by simpa [fitsItem] using h)
  | listItem k p bs m l =>
    simp only [fitsItem] at h
    simp only [Block.inlines, content, shownL_append, fitsL_content bs h]
  | dlist items m l => exact fitsL_content items (by simpa [fitsItem] using h)
  | dlistItem t p bs m l =>
    simp only [fitsItem, Bool.and_eq_true, List.isEmpty_iff] at h
    obtain ⟨rfl, h⟩ := h
    simp [Block.inlines, content, shownL_append, fitsL_content bs h, shownL]
  | brk v l =>
    cases v with
    | page => rfl
    | thematic => simp [fitsItem] at h
  | image t c m l =>
    simp only [fitsItem, List.isEmpty_iff] at h
    subst h
    rfl
  | leaf n f d is m l => rfl
  | parent n v d bs t m l =>
    simp only [fitsItem, Bool.and_eq_true, List.isEmpty_iff, Option.isNone_iff_eq_none] at h
    obtain ⟨⟨rfl, h1⟩, h2⟩ := h
    simp [Block.inlines, content, shownL_append, fitsL_content bs h2, h1, parTexts, Word.label]
  | tableCell is m l => rfl
theorem fitsL_content (bs : List Block) (h : fitsItemL bs = true) : shownL (Block.inlinesL bs) = contentL bs := by
  cases bs with
  | nil => rfl
  | cons b bs =>
    simp only [fitsItemL, Bool.and_eq_true] at h
    simp only [Block.inlinesL, contentL, shownL_append, fits_content b h.1, fitsL_content bs h.2]
end

theorem attached_content (bs : List Block) (h : fitsItemL bs = true) :
    (parTexts (bs.map fun b => .par (shownL b.inlines))).flatten = contentL bs := by
  induction bs with
  | nil => rfl
  | cons b bs ih =>
    simp only [fitsItemL, Bool.and_eq_true] at h
    have := ih h.2
    show shownL b.inlines ++ (parTexts (bs.map fun b => .par (shownL b.inlines))).flatten = _
    rw [this, fits_content b h.1]
    rfl

mutual
theorem kept_content (b : Block) (h : kept b = true) : (parTexts (flow b)).flatten = content b := by
  cases b with
  | «section» t m level bs l =>
    simp only [kept] at h
    simp only [flow, content, parTexts_append, List.flatten_append, title_text, keptL_content bs h]
  | list v items m l => exact keptL_content items (by simpa [kept] using h)
  | listItem k p bs m l =>
    simp only [kept] at h
    have := attached_content bs h
    simp only [flow, content]
    rw [← this]
    simp [parTexts]
  | dlist items m l => exact keptL_content items (by simpa [kept] using h)
  | dlistItem t p bs m l =>
    have := keptL_content bs (by simpa [kept] using h)
    simp only [flow, content]
    rw [← this]
    simp [parTexts]
  | brk v l => cases v <;> rfl
  | image t c m l =>
    simp only [kept, List.isEmpty_iff] at h
    subst h
    rfl
  | leaf n f d is m l => simp [flow, content, parTexts]
  | parent n v d bs t m l =>
    cases n with
    | table => simp [kept] at h
    | footnoteContainer => simp [kept] at h
    | quote =>
      simp only [kept, Bool.and_eq_true, List.isEmpty_iff, Option.isNone_iff_eq_none] at h
      obtain ⟨⟨rfl, rfl⟩, h⟩ := h
      simp only [flow, content, parTexts_append, List.flatten_append, keptL_content bs h]
      rfl
    | open_ =>
      simp only [kept, Bool.and_eq_true, List.isEmpty_iff, Option.isNone_iff_eq_none] at h
      obtain ⟨⟨⟨rfl, rfl⟩, h1⟩, h⟩ := h
      simp only [flow, content, h1, keptL_content bs h]
      simp [Word.label, shownL, parTexts]
    | admonition =>
      simp only [kept, Bool.and_eq_true, List.isEmpty_iff] at h
      obtain ⟨h1, h⟩ := h
      simp only [flow, content, parTexts_append, List.flatten_append, title_text, keptL_content bs h, h1]
      simp [parTexts]
    | example_ =>
      simp only [kept, Bool.and_eq_true, List.isEmpty_iff] at h
      obtain ⟨h1, h⟩ := h
      simp only [flow, content, parTexts_append, List.flatten_append, title_text, keptL_content bs h, h1]
      simp [parTexts]
    | sidebar =>
      simp only [kept, Bool.and_eq_true, List.isEmpty_iff] at h
      obtain ⟨h1, h⟩ := h
      simp only [flow, content, parTexts_append, List.flatten_append, title_text, keptL_content bs h, h1]
      simp [parTexts]
  | tableCell is m l => simp [kept] at h
theorem keptL_content (bs : List Block) (h : keptL bs = true) : (parTexts (flowL bs)).flatten = contentL bs := by
  cases bs with
  | nil => rfl
  | cons b bs =>
    simp only [keptL, Bool.and_eq_true] at h
    simp only [flowL, contentL, parTexts_append, List.flatten_append, kept_content b h.1, keptL_content bs h.2]
end

/-! ## Returning -/

theorem docxLoop_total {α : Type} (cols total : Nat) (hc : cols ≠ 0) (cs : List α) (idx : Nat) (cur : List α)
    (rows : List (List α)) : ∃ r, Render.docxLoop cols total cs idx cur rows = .ok r := by
  induction cs generalizing idx cur rows with
  | nil => exact ⟨_, rfl⟩
  | cons c cs ih =>
    simp only [Render.docxLoop, if_neg hc]
    split
    · split
      · exact ih _ _ _
      · exact ih _ _ _
    · exact ih _ _ _

theorem docxRows_total {α : Type} (cols : Nat) (cs : List α) (h : cols ≠ 0 ∨ cs.length ≤ 1) :
    ∃ rows, Render.docxRows cols cs = .ok rows := by
  unfold Render.docxRows
  rcases h with h | h
  · obtain ⟨r, e⟩ := docxLoop_total cols cs.length h cs 0 [] []
    rw [e]
    exact ⟨_, rfl⟩
  · match cs, h with
    | [], _ => exact ⟨_, rfl⟩
    | [c], _ => exact ⟨_, rfl⟩

theorem cells_length (bs : List Block) (st : St) : (st.cells bs).2.length = bs.length := by
  induction bs generalizing st with
  | nil => rfl
  | cons b bs ih => simp [St.cells, ih]

theorem table_total (st : St) (bs : List Block) (m : Option Meta) (h : tableFine bs m) :
    ∃ st', st.table bs m = .ok st' := by
  obtain ⟨n, h1, h2⟩ := h
  have hc : St.columns m = .ok n := by
    unfold St.columns
    cases m with
    | none => simp at h1; rw [h1]
    | some m =>
      simp only [Option.bind_some] at h1
      cases hg : m.attributes.get? b!"cols" with
      | none => rw [hg] at h1; simp only at h1; subst h1; simp only [hg]
      | some c => rw [hg] at h1; simp only at h1; simp only [hg, h1]
  have hl := cells_length bs (st.setStyle .table)
  obtain ⟨rows, hr⟩ := docxRows_total n ((st.setStyle .table).cells bs).2 (by rw [hl]; exact h2)
  unfold St.table
  rw [hc]
  simp only [bind, Except.bind, hr]
  exact ⟨_, rfl⟩

/-- What a step needs to return. -/
def Op.fine (io : Str → Option Unit) : Op → Prop
  | .table bs m => tableFine bs m
  | .picture t => io t = some ()
  | _ => True

theorem ops_total {io : Str → Option Unit} (os : List Op) (h : ∀ o ∈ os, o.fine io) (st : St) :
    ∃ st', runOps io os st = .ok st' := by
  induction os generalizing st with
  | nil => exact ⟨st, rfl⟩
  | cons o os ih =>
    have ho : ∃ s, o.run io st = .ok s := by
      have hf := h o (List.mem_cons_self ..)
      cases o with
      | table bs m => exact table_total st bs m hf
      | picture t => exact ⟨_, by simp only [Op.run, St.image]; rw [show io t = some () from hf]⟩
      | _ => exact ⟨_, rfl⟩
    obtain ⟨s, hs⟩ := ho
    simp only [runOps, hs, Except.bind]
    exact ih (fun o ho => h o (List.mem_cons_of_mem _ ho)) s

theorem headOps_fine (io : Str → Option Unit) (name : Str) (v : Option ParentVariant) (t : List Inline) :
    ∀ o ∈ headOps name v t, o.fine io := by
  intro o ho
  have : ∀ o ∈ titleOps (.sectionTitle name) t, o.fine io := by
    intro o ho
    unfold titleOps at ho
    split at ho
    · cases ho
    · simp only [List.mem_cons, List.not_mem_nil, or_false] at ho
      rcases ho with rfl | rfl <;> trivial
  unfold headOps at ho
  rcases List.mem_append.1 ho with ho | ho
  · rcases List.mem_append.1 ho with ho | ho
    · cases v with
      | none => cases ho
      | some v =>
        simp only [List.mem_cons, List.not_mem_nil, or_false] at ho
        rcases ho with rfl | rfl <;> trivial
    · exact this o ho
  · simp only [List.mem_cons, List.not_mem_nil, or_false] at ho
    subst ho
    trivial

mutual
theorem block_fine (io : Str → Option Unit) (b : Block) (h : fine io b) : ∀ o ∈ ops b, o.fine io := by
  intro o ho
  cases b with
  | «section» t m level bs l =>
    simp only [ops] at ho
    rcases List.mem_append.1 ho with ho | ho
    · split at ho
      · cases ho
      · simp only [List.mem_cons, List.not_mem_nil, or_false] at ho
        rcases ho with rfl | rfl | rfl <;> trivial
    · exact blocks_fine io bs (by simpa [fine] using h) o ho
  | list v items m l =>
    rcases List.mem_cons.1 ho with rfl | ho
    · trivial
    · exact blocks_fine io items (by simpa [fine] using h) o ho
  | listItem k p bs m l =>
    rcases List.mem_cons.1 ho with rfl | ho
    · trivial
    · split at ho
      · cases ho
      · simp only [List.cons_append, List.mem_cons, List.mem_append, List.mem_map, List.not_mem_nil, or_false] at ho
        rcases ho with rfl | ⟨_, _, rfl⟩ | rfl <;> trivial
  | dlist items m l => exact blocks_fine io items (by simpa [fine] using h) o ho
  | dlistItem t p bs m l =>
    simp only [ops, List.cons_append, List.nil_append, List.mem_cons] at ho
    rcases ho with rfl | rfl | rfl | rfl | ho
    · trivial
    · trivial
    · trivial
    · trivial
    · exact blocks_fine io bs (by simpa [fine] using h) o ho
  | brk v l =>
    cases v <;> simp only [ops, List.mem_cons, List.not_mem_nil, or_false] at ho
    · subst ho; trivial
    · rcases ho with rfl | rfl <;> trivial
  | image t c m l =>
    simp only [ops, List.mem_cons, List.not_mem_nil, or_false] at ho
    subst ho
    simpa [fine, Op.fine] using h
  | leaf n f d is m l =>
    cases n <;> simp only [ops, List.cons_append, List.nil_append, List.mem_cons, List.not_mem_nil, or_false] at ho
    · rcases ho with rfl | rfl <;> trivial
    · rcases ho with rfl | rfl <;> trivial
    · subst ho; trivial
    · subst ho; trivial
    · rcases ho with rfl | rfl <;> trivial
  | parent n v d bs t m l =>
    have box : ∀ name, fineL io bs → o ∈ headOps name v t ++ opsL bs ++ [.reset] → o.fine io := by
      intro name hf ho
      rcases List.mem_append.1 ho with ho | ho
      · rcases List.mem_append.1 ho with ho | ho
        · exact headOps_fine io name v t o ho
        · exact blocks_fine io bs hf o ho
      · simp only [List.mem_cons, List.not_mem_nil, or_false] at ho
        subst ho
        trivial
    cases n with
    | table =>
      simp only [ops, List.mem_cons, List.not_mem_nil, or_false] at ho
      subst ho
      simpa [fine, Op.fine] using h
    | footnoteContainer => cases ho
    | open_ => exact blocks_fine io bs (by simpa [fine] using h) o ho
    | quote =>
      have hf : fineL io bs := by simpa [fine] using h
      simp only [ops, List.cons_append, List.mem_cons, List.mem_append, List.not_mem_nil, or_false] at ho
      rcases ho with rfl | (ho | ho) | rfl
      · trivial
      · exact blocks_fine io bs hf o ho
      · split at ho
        · simp only [List.mem_cons, List.not_mem_nil, or_false] at ho
          subst ho
          trivial
        · cases ho
      · trivial
    | admonition => exact box _ (by simpa [fine] using h) ho
    | example_ => exact box _ (by simpa [fine] using h) ho
    | sidebar => exact box _ (by simpa [fine] using h) ho
  | tableCell is m l => cases ho
theorem blocks_fine (io : Str → Option Unit) (bs : List Block) (h : fineL io bs) : ∀ o ∈ opsL bs, o.fine io := by
  intro o ho
  cases bs with
  | nil => cases ho
  | cons b bs =>
    simp only [fineL] at h
    rcases List.mem_append.1 ho with ho | ho
    · exact block_fine io b h.1 o ho
    · exact blocks_fine io bs h.2 o ho
end

end Adoc.Docx
