import Verif.Proof.DocxOps
/-!
# Style references of the Word writer
-/
namespace Adoc.Docx

open Word

theorem gen_id (s : Sty) (h : s ≠ .thematicBreak) : s.generate.id = s.id := by
  cases s <;> first | rfl | exact absurd rfl h

theorem gen_ne (s : Sty) : s.generate.id ≠ b!"ThematicBreak" := by
  have last : ∀ (name suf : Str) (x : UInt8), suf.getLast? = some x → x ≠ 107 → name ++ suf ≠ b!"ThematicBreak" := by
    intro name suf x h1 h2 hc
    have := congrArg List.getLast? hc
    rw [List.getLast?_append, h1] at this
    have h3 : (b!"ThematicBreak").getLast? = some 107 := by decide
    rw [h3] at this
    exact h2 (Option.some.inj this)
  cases s with
  | heading n => exact fun hc => by simp [Sty.generate] at hc
  | sectionTitle name => exact last name _ 101 (by decide) (by decide)
  | sectionText name => exact last name _ 116 (by decide) (by decide)
  | orderedList n => exact fun hc => by simp [Sty.generate] at hc
  | _ => decide

/-- What a step does to the style definitions. -/
theorem addStyle_cases (st : St) (d : StyleDef) :
    (d.id ∈ styleIds st.doc ∧ st.addStyle d = st) ∨
    (d.id ∉ styleIds st.doc ∧ st.addStyle d = { st with doc := { st.doc with styles := st.doc.styles ++ [d] } }) := by
  unfold St.addStyle
  split
  · rename_i h
    simp only [List.any_eq_true, decide_eq_true_eq] at h
    obtain ⟨e, he, hid⟩ := h
    exact .inl ⟨List.mem_map.2 ⟨e, he, hid⟩, rfl⟩
  · rename_i h
    simp only [List.any_eq_true, decide_eq_true_eq] at h
    refine .inr ⟨fun hm => ?_, rfl⟩
    obtain ⟨e, he, hid⟩ := List.mem_map.1 hm
    exact h ⟨e, he, hid⟩

/-- References between styles and from paragraphs to styles; `T` tells whether thematic breaks are around. -/
structure SInv (T : Prop) (st : St) : Prop where
  base : ∀ x ∈ [b!"Normal", b!"No Spacing", b!"Title"], x ∈ styleIds st.doc
  cur : st.style.id ∈ styleIds st.doc ∨ (T ∧ st.style = .thematicBreak)
  paras : ∀ p ∈ paragraphs st.doc, p.style ∈ styleIds st.doc ∨ (T ∧ p.style = b!"ThematicBreak")
  refs : ∀ s ∈ st.doc.styles, ∀ x, s.basedOn = some x ∨ s.next = some x → x ∈ styleIds st.doc
  nodup : (styleIds st.doc).Nodup
  none : b!"ThematicBreak" ∉ styleIds st.doc

theorem gen_refs (s : Sty) (x : Str) (h : s.generate.basedOn = some x ∨ s.generate.next = some x) :
    x ∈ [b!"Normal", b!"No Spacing", b!"Title"] := by
  cases s <;> simp [Sty.generate] at h <;> first | (subst h; decide) | (rcases h with h | h <;> subst h <;> decide)

/-- Changes that leave styles and body alone. -/
theorem SInv.of_eq {T : Prop} {st st' : St} (h : SInv T st) (hs : st'.doc.styles = st.doc.styles)
    (hb : st'.doc.body = st.doc.body) (hc : st'.style = st.style) : SInv T st' := by
  have e1 : styleIds st'.doc = styleIds st.doc := by simp only [styleIds, hs]
  have e2 : paragraphs st'.doc = paragraphs st.doc := by simp only [paragraphs, hb]
  exact ⟨e1 ▸ h.base, by rw [e1, hc]; exact h.cur, by rw [e1, e2]; exact h.paras, by rw [e1, hs]; exact h.refs,
    e1 ▸ h.nodup, e1 ▸ h.none⟩

theorem SInv.setStyle {T : Prop} {st : St} (h : SInv T st) (s : Sty) (hs : s = .thematicBreak → T) :
    SInv T (st.setStyle s) := by
  unfold St.setStyle
  rcases addStyle_cases { st with style := s } s.generate with ⟨hm, he⟩ | ⟨hm, he⟩
  · rw [he]
    refine ⟨h.base, ?_, h.paras, h.refs, h.nodup, h.none⟩
    by_cases ht : s = .thematicBreak
    · exact .inr ⟨hs ht, ht⟩
    · exact .inl (gen_id s ht ▸ hm)
  · rw [he]
    have sub : ∀ x, x ∈ styleIds st.doc →
        x ∈ styleIds { st.doc with styles := st.doc.styles ++ [s.generate] } := by
      intro x hx
      simp only [styleIds, List.map_append, List.mem_append]
      exact .inl hx
    have new : s.generate.id ∈ styleIds { st.doc with styles := st.doc.styles ++ [s.generate] } := by
      simp [styleIds]
    refine ⟨fun x hx => sub x (h.base x hx), ?_, fun p hp => (h.paras p hp).imp (sub _) id, ?_, ?_, ?_⟩
    · by_cases ht : s = .thematicBreak
      · exact .inr ⟨hs ht, ht⟩
      · exact .inl (gen_id s ht ▸ new)
    · intro d hd x hx
      rcases List.mem_append.1 hd with hd | hd
      · exact sub _ (h.refs d hd x hx)
      · rw [List.mem_singleton] at hd
        subst hd
        exact sub _ (h.base x (gen_refs s x hx))
    · simp only [styleIds, List.map_append, List.map_cons, List.map_nil]
      refine List.nodup_append.2 ⟨h.nodup, by simp, ?_⟩
      intro a ha b hb
      rw [List.mem_singleton] at hb
      subst hb
      intro hc
      subst hc
      exact hm ha
    · simp only [styleIds, List.map_append, List.map_cons, List.map_nil, List.mem_append, List.mem_singleton]
      exact fun hc => hc.elim h.none (fun hc => gen_ne s hc.symm)

theorem SInv.push {T : Prop} {st : St} (h : SInv T st) (i : Item)
    (hi : ∀ p ∈ paragraphs { st.doc with body := [i] },
      p.style ∈ styleIds st.doc ∨ (T ∧ p.style = b!"ThematicBreak")) : SInv T (st.push i) := by
  refine ⟨h.base, h.cur, ?_, h.refs, h.nodup, h.none⟩
  intro p hp
  simp only [St.push, paragraphs, List.flatMap_append, List.mem_append] at hp
  exact hp.elim (h.paras p) (hi p)

theorem SInv.addPara {T : Prop} {st : St} (h : SInv T st) (num : Option Nat) (rs : List Render.Run) :
    SInv T (st.addPara num rs) := by
  unfold St.addPara
  refine (h.push _ ?_).of_eq rfl rfl rfl
  intro p hp
  simp only [paragraphs, List.flatMap_cons, List.flatMap_nil, List.append_nil, List.mem_singleton] at hp
  subst hp
  exact h.cur.imp id fun ⟨t, e⟩ => ⟨t, by rw [e]; rfl⟩

theorem SInv.addInlines {T : Prop} {st : St} (h : SInv T st) (num : Option Nat) (is : List Inline) :
    SInv T (st.addInlines num is) := by
  unfold St.addInlines
  refine SInv.addPara ?_ num _
  exact h.of_eq rfl rfl rfl

theorem SInv.reset {T : Prop} {st : St} (h : SInv T st) : SInv T st.reset :=
  ⟨h.base, .inl (h.base b!"Normal" (by decide)), h.paras, h.refs, h.nodup, h.none⟩

theorem SInv.listHead {T : Prop} {st : St} (h : SInv T st) (v : ListVariant) : SInv T (st.listHead v) := by
  have h0 : SInv T { st with num := st.num + 1 } := h.of_eq rfl rfl rfl
  unfold St.listHead
  cases v with
  | ordered => exact h0.setStyle _ (by simp)
  | unordered =>
    simp only
    split
    · exact (h0.setStyle .listParagraph (by simp)).of_eq rfl rfl rfl
    · exact h0.setStyle .listParagraph (by simp)

theorem cells_spec (bs : List Block) (st : St) :
    (∀ p ∈ (st.cells bs).2, p.style = Sty.table.id) ∧ (st.cells bs).1.doc = st.doc ∧
    (st.cells bs).1.style = st.style ∧ (st.cells bs).1.pageBreak = st.pageBreak ∧ (st.cells bs).1.num = st.num ∧
    (st.cells bs).1.abstractNum = st.abstractNum := by
  induction bs generalizing st with
  | nil => exact ⟨by simp [St.cells], rfl, rfl, rfl, rfl, rfl⟩
  | cons b bs ih =>
    obtain ⟨a, c⟩ := ih { st with lineBreak := (runs b.inlines st.lineBreak).2 }
    refine ⟨?_, c⟩
    intro p hp
    simp only [St.cells, List.mem_cons] at hp
    rcases hp with hp | hp
    · rw [hp]
    · exact a p hp

theorem docxLoop_mem {α : Type} (cols total : Nat) (cs : List α) (idx : Nat) (cur : List α) (rows : List (List α))
    (r : List (List α) × List α) (h : Render.docxLoop cols total cs idx cur rows = .ok r) :
    ∀ x ∈ r.1.flatten ++ r.2, x ∈ rows.flatten ++ cur ++ cs := by
  induction cs generalizing idx cur rows with
  | nil =>
    simp only [Render.docxLoop, Except.ok.injEq] at h
    subst h
    simp
  | cons c cs ih =>
    simp only [Render.docxLoop] at h
    split at h
    · split at h
      · cases h
      · split at h
        · intro x hx
          have := ih _ _ _ h x hx
          simpa using this
        · intro x hx
          have := ih _ _ _ h x hx
          simpa using this
    · intro x hx
      have := ih _ _ _ h x hx
      simpa using this

theorem docxRows_mem {α : Type} (cols : Nat) (cs : List α) (rows : List (List α))
    (h : Render.docxRows cols cs = .ok rows) : ∀ x ∈ rows.flatten, x ∈ cs := by
  unfold Render.docxRows at h
  cases hl : Render.docxLoop cols cs.length cs 0 [] [] with
  | error e => rw [hl] at h; cases h
  | ok r =>
    rw [hl] at h
    cases h
    intro x hx
    have := docxLoop_mem _ _ _ _ _ _ _ hl x (List.mem_append_left _ hx)
    simpa using this

/-- What `add_table` does when it returns. -/
theorem table_ok (st st' : St) (bs : List Block) (m : Option Meta) (h : st.table bs m = .ok st') :
    ∃ cols rows, St.columns m = .ok cols ∧ Render.docxRows cols ((st.setStyle .table).cells bs).2 = .ok rows ∧
      st' = ((st.setStyle .table).cells bs).1.push (.table rows) := by
  unfold St.table at h
  cases hc : St.columns m with
  | error e => rw [hc] at h; cases h
  | ok cols =>
    rw [hc] at h
    cases hr : Render.docxRows cols ((st.setStyle .table).cells bs).2 with
    | error e => simp only [bind, Except.bind, hr] at h; cases h
    | ok rows =>
      simp only [bind, Except.bind, hr] at h
      cases h
      exact ⟨cols, rows, rfl, hr, rfl⟩

theorem image_ok (io : Str → Option Unit) (st st' : St) (t : Str) (h : st.image io t = .ok st') :
    st' = st.push (.picture t) := by
  unfold St.image at h
  split at h
  · cases h; rfl
  · cases h

theorem SInv.op {T : Prop} {io : Str → Option Unit} {st st' : St} (h : SInv T st) (o : Op)
    (ho : o = .style .thematicBreak → T) (hr : o.run io st = .ok st') : SInv T st' := by
  cases o with
  | style s => cases hr; exact h.setStyle s (fun e => ho (by rw [e]))
  | reset => cases hr; exact h.reset
  | raw t => cases hr; exact h.addPara _ _
  | para is => cases hr; exact h.addInlines _ _
  | item is => cases hr; exact h.addInlines _ _
  | list v => cases hr; exact h.listHead v
  | page => cases hr; exact h.of_eq rfl rfl rfl
  | table bs m =>
    obtain ⟨cols, rows, _, h2, rfl⟩ := table_ok st st' bs m hr
    have h1 := h.setStyle .table (by simp)
    have hc := cells_spec bs (st.setStyle .table)
    have htab : Sty.table.id ∈ styleIds (st.setStyle .table).doc := by
      rcases h1.cur with hq | ⟨_, hq⟩
      · have : (st.setStyle .table).style = .table := by
          unfold St.setStyle
          rcases addStyle_cases { st with style := .table } Sty.table.generate with ⟨_, e⟩ | ⟨_, e⟩ <;> rw [e]
        rwa [this] at hq
      · have : (st.setStyle .table).style = .table := by
          unfold St.setStyle
          rcases addStyle_cases { st with style := .table } Sty.table.generate with ⟨_, e⟩ | ⟨_, e⟩ <;> rw [e]
        rw [this] at hq; cases hq
    refine SInv.push (h1.of_eq (by rw [hc.2.1]) (by rw [hc.2.1]) hc.2.2.1) _ ?_
    intro p hp
    simp only [paragraphs, List.flatMap_cons, List.flatMap_nil, List.append_nil] at hp
    have := hc.1 p (docxRows_mem _ _ _ h2 p hp)
    rw [this, hc.2.1]
    exact .inl htab
  | picture t =>
    obtain rfl := image_ok io st st' t hr
    exact h.push _ (by simp [paragraphs])

theorem SInv.init (T : Prop) (hd : Option Header) : SInv T (start hd) := by
  have h0 : SInv T ({} : St) := by
    refine ⟨by decide, .inl (by decide), by simp [paragraphs, defaultDoc], ?_, by decide, by decide⟩
    intro s hs x hx
    simp only [defaultDoc, List.mem_cons, List.not_mem_nil, or_false] at hs
    rcases hs with rfl | rfl | rfl
    · simp [Sty.generate] at hx
    · simp [Sty.generate] at hx
    · simp only [Sty.generate, Option.some.injEq, reduceCtorEq, or_false] at hx
      subst hx
      decide
  unfold start
  split
  · split
    · exact h0
    · dsimp only
      refine SInv.push ?_ _ ?_
      · exact h0.of_eq rfl rfl rfl
      intro p hp
      simp only [paragraphs, List.flatMap_cons, List.flatMap_nil, List.append_nil, List.mem_singleton] at hp
      subst hp
      exact .inl (h0.base b!"Title" (by decide))
  · exact h0

/-! ## Thematic breaks -/

theorem titleOps_no (s : Sty) (is : List Inline) (hs : s ≠ .thematicBreak) : Op.style .thematicBreak ∉ titleOps s is := by
  unfold titleOps
  split
  · simp
  · simp only [List.mem_cons, Op.style.injEq, List.not_mem_nil, or_false, not_or]
    exact ⟨fun e => hs e.symm, nofun⟩

theorem headOps_no (name : Str) (v : Option ParentVariant) (t : List Inline) :
    Op.style .thematicBreak ∉ headOps name v t := by
  have := titleOps_no (.sectionTitle name) t (by simp)
  cases v <;> simp [headOps, this]

mutual
theorem ops_thematic (b : Block) (h : thematic b = false) : Op.style .thematicBreak ∉ ops b := by
  cases b with
  | «section» t m level bs l =>
    have := opsL_thematic bs (by simpa [thematic] using h)
    simp only [ops, List.mem_append, not_or]
    refine ⟨?_, this⟩
    split <;> simp
  | list v items m l =>
    have := opsL_thematic items (by simpa [thematic] using h)
    simp [ops, this]
  | listItem k p bs m l =>
    simp only [ops]
    split <;> simp
  | dlist items m l => exact opsL_thematic items (by simpa [thematic] using h)
  | dlistItem t p bs m l =>
    have := opsL_thematic bs (by simpa [thematic] using h)
    simp [ops, this]
  | brk v l =>
    cases v with
    | page => simp [ops]
    | thematic => simp [thematic] at h
  | image t c m l => simp [ops]
  | leaf n f d is m l => cases n <;> simp [ops]
  | parent n v d bs t m l =>
    cases n with
    | table => simp [ops]
    | footnoteContainer => simp [ops]
    | open_ => exact opsL_thematic bs (by simpa [thematic] using h)
    | quote =>
      have := opsL_thematic bs (by simpa [thematic] using h)
      cases hm : St.attribution m <;> simp [ops, this, hm]
    | admonition =>
      have := opsL_thematic bs (by simpa [thematic] using h)
      simp [ops, this, headOps_no]
    | example_ =>
      have := opsL_thematic bs (by simpa [thematic] using h)
      simp [ops, this, headOps_no]
    | sidebar =>
      have := opsL_thematic bs (by simpa [thematic] using h)
      simp [ops, this, headOps_no]
  | tableCell is m l => simp [ops]
theorem opsL_thematic (bs : List Block) (h : thematicL bs = false) : Op.style .thematicBreak ∉ opsL bs := by
  cases bs with
  | nil => simp [opsL]
  | cons b bs =>
    simp only [thematicL, Bool.or_eq_false_iff] at h
    simp only [opsL, List.mem_append, not_or]
    exact ⟨ops_thematic b h.1, opsL_thematic bs h.2⟩
end

/-- The steps of a thematic break occur among the steps. -/
def Has (os : List Op) : Prop := ∃ a c, os = a ++ .style .thematicBreak :: .raw b!"#" :: c

theorem Has.right {os : List Op} (h : Has os) (pre : List Op) : Has (pre ++ os) := by
  obtain ⟨a, c, rfl⟩ := h
  exact ⟨pre ++ a, c, by simp⟩

theorem Has.left {os : List Op} (h : Has os) (post : List Op) : Has (os ++ post) := by
  obtain ⟨a, c, rfl⟩ := h
  exact ⟨a, c ++ post, by simp⟩

mutual
theorem ops_has (b : Block) (h : thematic b = true) : Has (ops b) := by
  cases b with
  | «section» t m level bs l => exact (opsL_has bs (by simpa [thematic] using h)).right _
  | list v items m l => exact (opsL_has items (by simpa [thematic] using h)).right [_]
  | listItem k p bs m l => simp [thematic] at h
  | dlist items m l => exact opsL_has items (by simpa [thematic] using h)
  | dlistItem t p bs m l => exact (opsL_has bs (by simpa [thematic] using h)).right [_, _, _, _]
  | brk v l =>
    cases v with
    | page => simp [thematic] at h
    | thematic => exact ⟨[], [], rfl⟩
  | image t c m l => simp [thematic] at h
  | leaf n f d is m l => simp [thematic] at h
  | parent n v d bs t m l =>
    cases n with
    | table => simp [thematic] at h
    | footnoteContainer => simp [thematic] at h
    | open_ => exact opsL_has bs (by simpa [thematic] using h)
    | quote => exact (((opsL_has bs (by simpa [thematic] using h)).right [_]).left _).left _
    | admonition => exact ((opsL_has bs (by simpa [thematic] using h)).right _).left _
    | example_ => exact ((opsL_has bs (by simpa [thematic] using h)).right _).left _
    | sidebar => exact ((opsL_has bs (by simpa [thematic] using h)).right _).left _
  | tableCell is m l => simp [thematic] at h
theorem opsL_has (bs : List Block) (h : thematicL bs = true) : Has (opsL bs) := by
  cases bs with
  | nil => simp [thematicL] at h
  | cons b bs =>
    simp only [thematicL, Bool.or_eq_true] at h
    rcases h with h | h
    · exact (ops_has b h).left _
    · exact (opsL_has bs h).right _
end

end Adoc.Docx
