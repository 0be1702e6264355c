import Verif.Proof.Markup
import Verif.Proof.Strings
/-!
# The output of the HTML writer reads as the graph
-/
namespace Adoc.Html
open Markup

variable {w : Prop}

/-! ## Attributes -/

theorem unquoted_append {a b : Str} (ha : unquoted a = true) (hb : unquoted b = true) : unquoted (a ++ b) = true := by
  simp only [unquoted, List.all_append, Bool.and_eq_true] at *
  exact ⟨ha, hb⟩

theorem joinSp_unquoted (rs : List Str) (h : rs.all unquoted = true) : unquoted (joinSp rs) = true := by
  induction rs with
  | nil => rfl
  | cons r rs ih =>
    simp only [List.all_cons, Bool.and_eq_true] at h
    cases rs with
    | nil => exact h.1
    | cons r' rs => exact unquoted_append (unquoted_append h.1 rfl) (ih h.2)

/-- The parts of `tidyMeta`. -/
theorem tidyMeta_parts {m : Option Meta} (h : tidyMeta balanced m = true) :
    (roles m).all unquoted = true ∧ unquoted (attrOf m b!"id") = true ∧ unquoted (attrOf m b!"positional_1") = true ∧
    unquoted (attrOf m b!"language") = true ∧ balanced (attrOf m b!"attribution") = true ∧
    balanced (attrOf m b!"citation") = true := by
  simp only [tidyMeta, Bool.and_eq_true] at h
  obtain ⟨⟨⟨⟨⟨h1, h2⟩, h3⟩, h4⟩, h5⟩, h6⟩ := h
  refine ⟨?_, h2, h3, h4, h5, h6⟩
  cases m with
  | none => rfl
  | some m => exact h1

theorem classAttr_ok {m : Option Meta} (h : tidyMeta balanced m = true) : Attrs (classAttr m) none := by
  unfold classAttr
  split
  · exact .nil
  · exact Attrs.one b!"class" _ (by decide) (joinSp_unquoted _ (tidyMeta_parts h).1) (by decide) (by decide)

theorem attr_ok (key v : Str) (hk : key.all nameByte = true) (hv : unquoted v = true) (hl : 4 ≤ key.length + 1)
    (hi : (key ++ b!"=").take 4 ≠ b!"id=\"") : Attrs (attr key v) none := by
  unfold attr
  split
  · exact .nil
  · exact Attrs.one key v hk hv hl hi

theorem id_ok {m : Option Meta} (h : tidyMeta balanced m = true) :
    ∃ i, Attrs (attr b!"id" (attrOf m b!"id")) i ∧ i.toList = given m := by
  unfold attr
  split
  · rename_i h0
    refine ⟨none, .nil, ?_⟩
    unfold given
    rw [if_pos (show value m b!"id" = [] from h0)]
    rfl
  · rename_i h0
    refine ⟨some (attrOf m b!"id"), ?_, ?_⟩
    · have := Attrs.id_one (attrOf m b!"id") (tidyMeta_parts h).2.1
      simpa using this
    · unfold given
      rw [if_neg (show ¬ value m b!"id" = [] from h0)]
      rfl

/-! ## Inlines -/

theorem spanTag_good (v : SpanVariant) : goodName (spanTag v) = true := by cases v <;> decide

theorem lex_slash (c rest : Str) : lex (.tag c) (b!" /" ++ b!">" ++ rest) = .tag (c ++ b!" /") :: lex .text rest := by
  show lex (.tag c) (c!" " :: c!"/" :: c!">" :: rest) = _
  have s1 : ∀ (c r : Str), lex (.tag c) (c!" " :: c!"/" :: c!">" :: r) = .tag (c ++ [c!" "] ++ [c!"/"]) :: lex .text r :=
    fun _ _ => rfl
  rw [s1]
  simp

theorem lex_slash' (c rest : Str) : lex (.tag c) (b!"/" ++ b!">" ++ rest) = .tag (c ++ b!"/") :: lex .text rest := rfl

/-- A constant tag without content. -/
theorem _root_.Adoc.Markup.Good.const (s c : Str) (h : ∀ rest, lex .text (s ++ rest) = .tag c :: lex .text rest) (hk : kind c = .empty) :
    Good w s [] [] := by
  refine ⟨[.tag c], fun rest => h rest, fun st rest => ?_, fun _ => rfl, nofun⟩
  simp only [List.singleton_append, nest, hk]

theorem refHref_unquoted (v : RefVariant) {t : Str} (h : unquoted t = true) : unquoted (refHref v t) = true := by
  cases v
  · exact h
  · exact unquoted_append (a := b!"#") rfl h
  · exact h

theorem refHref_good (v : RefVariant) {t : Str} (h : balanced t = true) :
    Good w (refHref v t) (seen (shownTarget v t)) [] := by
  cases v
  · exact .text w t h
  · refine (Good.text w _ ?_)
    show nest [] (lex .text (c!"#" :: t)) = true
    exact h
  · exact .text w t h

mutual
theorem inline_good (i : Inline) (h : tidyI balanced i = true) : Good (plainI i = true) (inline i) (readI i) [] := by
  cases i with
  | lit n v l => exact .text _ _ h
  | brk l => exact Good.const b!"<br />" b!"br /" (fun _ => rfl) (by decide)
  | span v f is m l o =>
    simp only [tidyI, Bool.and_eq_true] at h
    have ht : Attrs (classAttr m ++ if v = .footnote then b!" data-type=\"footnote\"" else []) none := by
      refine (classAttr_ok h.1).append (j := none) ?_
      split
      · exact Attrs.one b!"data-type" b!"footnote" (by decide) (by decide) (by decide) (by decide)
      · exact .nil
    have := Good.elem (spanTag v) _ (spanTag_good v) ht (inlines_good is h.2)
    simpa only [inline, plainI, readI, Option.toList_none, List.nil_append, List.append_assoc] using this
  | ref v t is m l =>
    simp only [tidyI, Bool.and_eq_true] at h
    obtain ⟨⟨⟨hm, hu⟩, hb⟩, his⟩ := h
    have link : ∀ v, v ≠ .image → Good (plainI (.ref v t is m l) = true) (inline (.ref v t is m l))
        (readI (.ref v t is m l)) [] := by
      intro v hv
      have ha : Attrs (classAttr m ++ (b!" href=\"" ++ refHref v t ++ b!"\"")) none :=
        (classAttr_ok hm).append (j := none)
          (Attrs.one b!"href" _ (by decide) (refHref_unquoted v hu) (by decide) (by decide))
      cases is with
      | nil =>
        have := Good.elem (w := plainI (.ref v t [] m l) = true) b!"a" _ (by decide) ha (refHref_good v hb)
        cases v
        · simpa [inline, readI, List.append_assoc] using this
        · simpa [inline, readI, List.append_assoc] using this
        · exact absurd rfl hv
      | cons i is =>
        have := Good.elem b!"a" _ (by decide) ha (inlines_good (i :: is) his)
        cases v
        · simpa [inline, inlines, readI, plainI, List.append_assoc] using this
        · simpa [inline, inlines, readI, plainI, List.append_assoc] using this
        · exact absurd rfl hv
    cases v with
    | link => exact link _ (by decide)
    | xref => exact link _ (by decide)
    | image =>
      have ha : Attrs (classAttr m ++ (b!" src=\"" ++ t ++ b!"\"")) none :=
        (classAttr_ok hm).append (j := none) (Attrs.one b!"src" _ (by decide) hu (by decide) (by decide))
      have hk : kind (b!"img" ++ (classAttr m ++ (b!" src=\"" ++ t ++ b!"\"")) ++ b!" /") = .empty := by
        have := kind_slash (b!"mg" ++ (classAttr m ++ (b!" src=\"" ++ t ++ b!"\"")) ++ b!" ") c!"i" (by decide)
        rw [← this]
        congr 1
        simp
      have := Good.void (w := plainI (.ref .image t is m l) = true) b!"img" _ b!" /" (by decide) ha lex_slash hk
      have e : inline (.ref .image t is m l) =
          b!"<" ++ b!"img" ++ (classAttr m ++ (b!" src=\"" ++ t ++ b!"\"")) ++ b!" /" ++ b!">" := by
        simp [inline]
      rw [e]
      refine this.mono id (fun hp => ?_) (fun _ hx => hx)
      simp only [plainI, List.isEmpty_iff] at hp
      subst hp
      rfl
theorem inlines_good (is : List Inline) (h : tidyIs balanced is = true) :
    Good (plainIs is = true) (inlines is) (readIs is) [] := by
  cases is with
  | nil => exact .nil _
  | cons i is =>
    simp only [tidyIs, Bool.and_eq_true] at h
    have a := inline_good i h.1
    have b := inlines_good is h.2
    have a' := a.mono (w' := plainIs (i :: is) = true) (fun hp => by simp only [plainIs, Bool.and_eq_true] at hp; exact hp.1)
      (fun _ => rfl) (fun _ hx => hx)
    have b' := b.mono (w' := plainIs (i :: is) = true) (fun hp => by simp only [plainIs, Bool.and_eq_true] at hp; exact hp.2)
      (fun _ => rfl) (fun _ hx => hx)
    exact a'.append b'
end

/-! ## Parts of blocks -/

/-- Narrowing the condition on the text. -/
theorem _root_.Adoc.Markup.Good.when {w w' : Prop} {s t : Str} {i : List Str} (h : Good w s t i) (hw : w' → w) : Good w' s t i :=
  h.mono hw (fun _ => rfl) (fun _ hx => hx)

theorem leaf_good (n : LeafName) (is : List Inline) (m : Option Meta) (h : tidyIs balanced is = true) (hm : tidyMeta balanced m = true) :
    Good (plainIs is = true) (leaf n is m) (readIs is) [] := by
  have ha : Attrs (classAttr m ++ ((if n = .listing then attr b!"data-code-language" (attrOf m b!"language") else [])
      ++ if n = .verse then b!" data-type=\"verse\"" else [])) none := by
    refine (classAttr_ok hm).append (j := none) (Attrs.append (i := none) (j := none) ?_ ?_)
    · split
      · exact attr_ok _ _ (by decide) (tidyMeta_parts hm).2.2.2.1 (by decide) (by decide)
      · exact .nil
    · split
      · exact Attrs.one b!"data-type" b!"verse" (by decide) (by decide) (by decide) (by decide)
      · exact .nil
  unfold leaf
  cases ht : leafTag n with
  | none => exact inlines_good is h
  | some tag =>
    have hg : goodName tag = true := by cases n <;> cases ht <;> decide
    have := Good.elem tag _ hg ha (inlines_good is h)
    simpa only [Option.toList_none, List.nil_append, List.append_assoc] using this

theorem heading_good (level : Str) (t : List Inline) (hl : goodName (b!"h" ++ level) = true) (h : tidyIs balanced t = true) :
    Good (plainIs t = true) (heading level t) (readIs t) [] := by
  unfold heading
  split
  · rename_i he
    rw [List.isEmpty_iff] at he
    subst he
    exact .nil _
  · have := ((Good.space _ b!"\n        " (by decide)).append
      (Good.elem (b!"h" ++ level) [] hl .nil (inlines_good t h))).append (Good.space _ b!"\n        " (by decide))
    simpa using this

theorem attribution_good (m : Option Meta) (h : tidyMeta balanced m = true) : Good w (attribution m) (credit m) [] := by
  obtain ⟨-, -, -, -, h5, h6⟩ := tidyMeta_parts h
  unfold attribution credit
  split
  · rename_i h0
    rw [if_pos (show value m b!"attribution" = [] from h0)]
    exact .nil _
  · rename_i h0
    rw [if_neg (show ¬ value m b!"attribution" = [] from h0)]
    have ha := Attrs.one b!"data-type" b!"attribution" (by decide) (by decide) (by decide) (by decide)
    have hc : Good w (if attrOf m b!"citation" = [] then [] else b!", " ++ attrOf m b!"citation")
        (if value m b!"citation" = [] then [] else b!"," ++ seen (value m b!"citation")) [] := by
      split
      · rename_i h1
        rw [if_pos (show value m b!"citation" = [] from h1)]
        exact .nil _
      · rename_i h1
        rw [if_neg (show ¬ value m b!"citation" = [] from h1)]
        have hcomma : Good w b!", " b!"," [] :=
          (Good.text w b!", " (by decide)).mono id (fun _ => by decide) (fun _ hx => hx)
        exact hcomma.append (Good.text w _ h6)
    have h5' : Good w (attrOf m b!"attribution") (seen (value m b!"attribution")) [] := Good.text w _ h5
    have := Good.elem b!"p" _ (by decide) ha (h5'.append hc)
    simpa [List.append_assoc] using this

theorem principal_good (is : List Inline) (h : tidyIs balanced is = true) :
    Good (plainIs is = true) (principal is) (readIs is) [] := by
  unfold principal
  split
  · rename_i he
    rw [List.isEmpty_iff] at he
    subst he
    exact .nil _
  · have := Good.elem b!"p" [] (by decide) .nil (inlines_good is h)
    simpa [List.append_assoc] using this

/-- Opening tag, content and closing tag, unless the tags are left out. -/
theorem tagged_good (tag : Str) (skip : Bool) (m : Option Meta) (id dt : Str) {i : Option Str} (ht : goodName tag = true)
    (hm : tidyMeta balanced m = true) (hid : Attrs (attr b!"id" id) i) (hd : unquoted dt = true) {c t : Str} {want : List Str}
    (h : Good w c t want) :
    Good w (openTag tag skip m id dt ++ c ++ closeTag tag skip) t ((if skip then [] else i.toList) ++ want) := by
  unfold openTag closeTag
  cases skip with
  | true => simpa using h
  | false =>
    have ha : Attrs (classAttr m ++ (attr b!"id" id ++ attr b!"data-type" dt)) (none.or (i.or none)) :=
      (classAttr_ok hm).append (hid.append (attr_ok _ _ (by decide) hd (by decide) (by decide)))
    have := Good.elem tag _ ht ha h
    simpa [List.append_assoc] using this

/-! ## Tables -/

theorem cellInlines_tidy (b : Block) (h : tidy balanced b = true) : tidyIs balanced (cellInlines b) = true := by
  cases b <;> simp only [cellInlines, tidy, Bool.and_eq_true, tidyIs] at * <;> simp only [h]

theorem cell_good (tag : Str) (ht : goodName tag = true) (b : Block) (h : tidy balanced b = true) :
    Good ((isCell b && written b) = true) (cell tag (some b)) (Markup.read b) [] := by
  have := Good.elem tag [] ht .nil (inlines_good _ (cellInlines_tidy b h))
  have e : cell tag (some b) = b!"<" ++ tag ++ [] ++ b!">" ++ inlines (cellInlines b) ++ b!"</" ++ tag ++ b!">" := by
    simp [cell]
  rw [e]
  refine this.mono ?_ ?_ (fun _ hx => hx)
  · intro hw
    cases b with
    | tableCell is m l => simp only [Bool.and_eq_true] at hw; exact hw.2
    | _ => simp [isCell] at hw
  · intro hw
    cases b with
    | tableCell is m l =>
      cases m with
      | none => simp [cellInlines, Markup.read, credit, value]
      | some m => simp [isCell] at hw
    | _ => simp [isCell] at hw

theorem cell_none (tag : Str) (ht : goodName tag = true) : Good w (cell tag none) [] [] := by
  have := Good.elem (w := w) tag [] ht .nil (.nil w)
  have e : cell tag none = b!"<" ++ tag ++ [] ++ b!">" ++ [] ++ b!"</" ++ tag ++ b!">" := by simp [cell]
  rw [e]
  exact this

/-- Cells of text in a table. -/
abbrev allCells (bs : List Block) : Prop := (bs.all isCell && writtenL bs) = true

theorem allCells_cons {b : Block} {bs : List Block} (h : allCells (b :: bs)) :
    (isCell b && written b) = true ∧ allCells bs := by
  simp only [allCells, List.all_cons, writtenL, Bool.and_eq_true] at *
  exact ⟨⟨h.1.1, h.2.1⟩, h.1.2, h.2.2⟩

theorem row_close {w : Prop} {p t : Str} (h : Good w p t []) : Good w (b!"<tr>" ++ p ++ b!"</tr>") t [] := by
  have := Good.elem b!"tr" [] (by decide) .nil h
  simpa using this

theorem cellLoop_good (cols total : Nat) (cs : List Block) (idx : Nat) (s p t : Str) (h : tidyL balanced cs = true)
    (hs : cellLoop cols total cs idx = .ok s) (hp : Good w p t []) (hw : w → allCells cs) :
    Good w (b!"<tr>" ++ p ++ s ++ b!"</tr>") (t ++ readL cs) [] := by
  induction cs generalizing idx s p t with
  | nil =>
    cases hs
    have := row_close hp
    simpa [readL] using this
  | cons c cs ih =>
    simp only [tidyL, Bool.and_eq_true] at h
    have hc : Good w (cell b!"td" (some c)) (Markup.read c) [] :=
      (cell_good _ (by decide) c h.1).when fun x => (allCells_cons (hw x)).1
    have hsp : Good w b!"\n        " [] [] := .space _ _ (by decide)
    have hw' : w → allCells cs := fun x => (allCells_cons (hw x)).2
    have go : ∀ rest br, cellLoop cols total cs (idx + 1) = .ok rest →
        (br = [] ∨ br = b!"\n        </tr>\n        <tr>") →
        Good w (b!"<tr>" ++ p ++ (cell b!"td" (some c) ++ br ++ b!"\n        " ++ rest) ++ b!"</tr>")
          (t ++ readL (c :: cs)) [] := by
      intro rest br hr hbr
      rcases hbr with rfl | rfl
      · have := ih (idx + 1) rest (p ++ (cell b!"td" (some c) ++ b!"\n        ")) (t ++ (Markup.read c ++ [])) h.2 hr
          (hp.append (hc.append hsp)) hw'
        simpa [readL] using this
      · have h1 := row_close (hp.append (hc.append hsp))
        have h2 := ih (idx + 1) rest b!"\n        " [] h.2 hr hsp hw'
        have := (h1.append hsp).append h2
        simpa [readL] using this
    simp only [cellLoop] at hs
    split at hs
    · split at hs
      · cases hs
      · cases hr : cellLoop cols total cs (idx + 1) with
        | error e => rw [hr] at hs; cases hs
        | ok rest =>
          rw [hr] at hs
          cases hs
          refine go rest _ hr ?_
          split
          · exact .inr rfl
          · exact .inl rfl
    · cases hr : cellLoop cols total cs (idx + 1) with
      | error e => rw [hr] at hs; cases hs
      | ok rest =>
        rw [hr] at hs
        cases hs
        have := go rest [] hr (.inl rfl)
        simpa using this

theorem tidyL_mem {bs : List Block} (h : tidyL balanced bs = true) : ∀ b ∈ bs, tidy balanced b = true := by
  induction bs with
  | nil => nofun
  | cons b bs ih =>
    simp only [tidyL, Bool.and_eq_true] at h
    intro x hx
    rcases List.mem_cons.1 hx with rfl | hx
    · exact h.1
    · exact ih h.2 x hx

theorem allCells_mem {bs : List Block} (h : allCells bs) : ∀ b ∈ bs, (isCell b && written b) = true := by
  induction bs with
  | nil => nofun
  | cons b bs ih =>
    intro x hx
    rcases List.mem_cons.1 hx with rfl | hx
    · exact (allCells_cons h).1
    · exact ih (allCells_cons h).2 x hx

theorem headCells_good (cells : List Block) (h : tidyL balanced cells = true) (n k : Nat) :
    Good (allCells cells) (headCells cells (List.range' k n)) (readL ((cells.drop k).take n)) [] := by
  induction n generalizing k with
  | zero => exact .nil _
  | succ n ih =>
    have hsp : Good (allCells cells) b!"\n    " [] [] := .space _ _ (by decide)
    rw [List.range'_succ]
    simp only [headCells]
    cases hk : cells[k]? with
    | none =>
      have hd : cells.drop k = [] := by
        rw [List.drop_eq_nil_iff]
        exact List.getElem?_eq_none_iff.1 hk
      have hd' : cells.drop (k + 1) = [] := by
        rw [List.drop_eq_nil_iff] at hd ⊢
        omega
      have := ((cell_none b!"th" (by decide)).append hsp).append (ih (k + 1))
      rw [hd'] at this
      rw [hd]
      simpa [readL] using this
    | some b =>
      obtain ⟨hlt, hb⟩ := List.getElem?_eq_some_iff.1 hk
      have hm : b ∈ cells := hb ▸ List.getElem_mem hlt
      have hc : Good (allCells cells) (cell b!"th" (some b)) (Markup.read b) [] :=
        (cell_good _ (by decide) b (tidyL_mem h b hm)).when fun x => allCells_mem x b hm
      have hd : cells.drop k = b :: cells.drop (k + 1) := by
        rw [List.drop_eq_getElem_cons hlt, hb]
      have := (hc.append hsp).append (ih (k + 1))
      rw [hd]
      simpa [readL] using this

theorem readL_append (a b : List Block) : readL (a ++ b) = readL a ++ readL b := by
  induction a with
  | nil => rfl
  | cons x a ih => simp [readL, ih]

theorem tidyL_drop {bs : List Block} (n : Nat) (h : tidyL balanced bs = true) : tidyL balanced (bs.drop n) = true := by
  induction n generalizing bs with
  | zero => exact h
  | succ n ih =>
    cases bs with
    | nil => rfl
    | cons b bs =>
      simp only [tidyL, Bool.and_eq_true] at h
      exact ih h.2

theorem allCells_drop {bs : List Block} (n : Nat) (h : allCells bs) : allCells (bs.drop n) := by
  induction n generalizing bs with
  | zero => exact h
  | succ n ih =>
    cases bs with
    | nil => rfl
    | cons b bs => exact ih (allCells_cons h).2

theorem table_good (titled : Bool) (cells : List Block) (m : Option Meta) (s : Str) (h : tidyL balanced cells = true)
    (hs : table titled cells m = .ok s) : Good (allCells cells) s (readL cells) [] := by
  unfold table at hs
  cases m with
  | none => cases hs
  | some m =>
    simp only at hs
    cases hc : m.attributes.get? b!"cols" with
    | none => rw [hc] at hs; cases hs
    | some c =>
      rw [hc] at hs
      simp only at hs
      have hsp : Good (allCells cells) b!"\n        " [] [] := .space _ _ (by decide)
      have hs4 : Good (allCells cells) b!"\n    " [] [] := .space _ _ (by decide)
      generalize hst : (if m.options.contains b!"header" = true then colsInt c else 0) = start at hs
      by_cases hlt : cells.length < start
      · rw [if_pos hlt] at hs; cases hs
      rw [if_neg hlt] at hs
      cases hr : cellLoop (colsInt c) cells.length (cells.drop start) start with
      | error e => rw [hr] at hs; cases hs
      | ok body =>
        rw [hr] at hs
        have hb := cellLoop_good (w := allCells cells) _ _ _ _ _ b!"\n        " [] (tidyL_drop start h) hr hsp
          (allCells_drop start)
        cases hh : m.options.contains b!"header" || titled with
        | true =>
          rw [hh] at hs
          cases hs
          have hhead := headCells_good cells h start 0
          have e0 : List.range' 0 start = List.range start := (List.range_eq_range' ..).symm
          rw [e0] at hhead
          have h1 := Good.elem b!"thead" [] (by decide) .nil (hsp.append hhead)
          have h2 := Good.elem b!"tbody" [] (by decide) .nil ((hsp.append hb).append hs4)
          have h3 := Good.elem b!"table" [] (by decide) .nil ((((hs4.append h1).append hs4).append h2).append hs4)
          have e1 : readL cells = readL (cells.take start) ++ readL (cells.drop start) := by
            rw [← readL_append, List.take_append_drop]
          rw [e1]
          simpa [hst] using h3
        | false =>
          rw [hh] at hs
          rw [(Bool.or_eq_false_iff.1 hh).1] at hst
          simp only [Bool.false_eq_true, if_false] at hst
          subst hst
          cases hs
          have h3 := Good.elem b!"table" [] (by decide) .nil (hb.append hs4)
          simpa using h3

/-! ## Blocks -/

theorem listTag_good (v : ListVariant) : goodName (listTag v) = true := by cases v <;> decide

theorem parentTag_good (n : ParentName) : goodName (parentTag n) = true := by cases n <;> decide

theorem parentType_unquoted (n : ParentName) (v : Option ParentVariant) : unquoted (parentType n v) = true := by
  cases n <;> (try rfl) <;> (cases v with
    | none => rfl
    | some v => cases v <;> rfl)

theorem parentLevel_good (n : ParentName) : goodName (b!"h" ++ parentLevel n) = true := by cases n <;> decide

theorem natToStr_unquoted (n : Nat) : unquoted (natToStr n) = true := by
  rw [unquoted, List.all_eq_true]
  intro b hb
  have := natToStr_digits n b hb
  rw [decide_eq_true_eq]
  rintro rfl
  revert this
  decide

theorem terms_good (ts : List Inline) (h : tidyIs balanced ts = true) :
    Good (plainIs ts = true) (if ts.isEmpty then [] else b!"\n        <dt>" ++ inlines ts ++ b!"</dt>\n        ")
      (readIs ts) [] := by
  split
  · rename_i he
    rw [List.isEmpty_iff] at he
    subst he
    exact .nil _
  · have := ((Good.space _ b!"\n        " (by decide)).append
      (Good.elem b!"dt" [] (by decide) .nil (inlines_good ts h))).append (Good.space _ b!"\n        " (by decide))
    simpa using this

theorem caption_good (is : List Inline) (h : tidyIs balanced is = true) :
    Good (plainIs is = true) (if is.isEmpty then [] else b!"\n        <figcaption>" ++ inlines is ++ b!"</figcaption>")
      (readIs is) [] := by
  split
  · rename_i he
    rw [List.isEmpty_iff] at he
    subst he
    exact .nil _
  · have := (Good.space _ b!"\n        " (by decide)).append
      (Good.elem b!"figcaption" [] (by decide) .nil (inlines_good is h))
    simpa using this

theorem image_good (target : Str) (m : Option Meta) (h : unquoted target = true) (hm : tidyMeta balanced m = true) :
    Good w (b!"\n        <img src=\"" ++ target ++ b!"\"" ++ attr b!"alt" (attrOf m b!"positional_1") ++ b!"/>") [] [] := by
  have ha : Attrs (b!" src=\"" ++ target ++ b!"\"" ++ attr b!"alt" (attrOf m b!"positional_1")) none :=
    Attrs.append (i := none) (j := none) (Attrs.one b!"src" _ (by decide) h (by decide) (by decide))
      (attr_ok _ _ (by decide) (tidyMeta_parts hm).2.2.1 (by decide) (by decide))
  have hk : kind (b!"img" ++ (b!" src=\"" ++ target ++ b!"\"" ++ attr b!"alt" (attrOf m b!"positional_1")) ++ b!"/") =
      .empty := by
    have := kind_slash (b!"mg" ++ (b!" src=\"" ++ target ++ b!"\"" ++ attr b!"alt" (attrOf m b!"positional_1"))) c!"i"
      (by decide)
    rw [← this]
    congr 1
  have := (Good.space w b!"\n        " (by decide)).append (Good.void b!"img" _ b!"/" (by decide) ha lex_slash' hk)
  simpa using this

theorem bind_ok {α β : Type} {x : M α} {f : α → M β} {b : β} (h : (do let a ← x; f a) = .ok b) :
    ∃ a, x = .ok a ∧ f a = .ok b := by
  cases x with
  | error e => cases h
  | ok a => exact ⟨a, rfl, h⟩

private theorem and1 {a b : Bool} (h : (a && b) = true) : a = true := (Bool.and_eq_true _ _ ▸ h).1
private theorem and2 {a b : Bool} (h : (a && b) = true) : b = true := (Bool.and_eq_true _ _ ▸ h).2

mutual
theorem block_good (titled skip : Bool) (b : Block) (s : Str) (h : tidy balanced b = true) (hs : block titled skip b = .ok s) :
    Good (written b = true) s (Markup.read b) (anchors skip b) := by
  have noid : Attrs (attr b!"id" []) none := .nil
  have sp4 : ∀ w, Good w b!"\n    " [] [] := fun w => .space _ _ (by decide)
  cases b with
  | leaf n f d is m l =>
    simp only [tidy, Bool.and_eq_true] at h
    cases hs
    have := (sp4 _).append (leaf_good n is m h.1 h.2)
    simpa only [List.nil_append, written, Markup.read, anchors] using this
  | brk v l =>
    cases v with
    | page =>
      cases hs
      have := ((sp4 (written (.brk .page l) = true)).append (Good.elem b!"div" _ (by decide)
        (Attrs.one b!"style" b!"page-break-after: always;" (by decide) (by decide) (by decide) (by decide)) (.nil _))).append
        (sp4 _)
      simpa [Markup.read, anchors] using this
    | thematic =>
      cases hs
      have hr : Good (written (.brk .thematic l) = true) b!"<hr />" [] [] :=
        Good.const b!"<hr />" b!"hr /" (fun _ => rfl) (by decide)
      have := (sp4 _).append hr
      simpa [Markup.read, anchors] using this
  | «section» t m level bs l =>
    simp only [tidy, Bool.and_eq_true] at h
    obtain ⟨children, hc, hs⟩ := bind_ok hs
    cases hs
    obtain ⟨i, hi, hg⟩ := id_ok h.1.2
    have ha : Attrs (b!" data-type=\"" ++ (b!"sect" ++ natToStr level) ++ b!"\"" ++ (classAttr m
        ++ attr b!"id" (attrOf m b!"id"))) (none.or (none.or i)) :=
      (Attrs.one b!"data-type" _ (by decide) (unquoted_append rfl (natToStr_unquoted level)) (by decide)
        (by decide)).append ((classAttr_ok h.1.2).append hi)
    have h1 := (heading_good b!"1" t (by decide) h.1.1).when (w' := written (.section t m level bs l) = true)
      fun x => and1 x
    have h2 := (blocks_good titled false bs children h.2 hc).when (w' := written (.section t m level bs l) = true)
      fun x => and2 x
    have := Good.elem b!"section" _ (by decide) ha (((h1.append (attribution_good m h.1.2)).append (sp4 _)).append h2)
    simpa [Markup.read, anchors, hg] using this
  | list v items m l =>
    simp only [tidy, Bool.and_eq_true] at h
    obtain ⟨children, hc, hs⟩ := bind_ok hs
    cases hs
    have h2 := (blocks_good titled false items children h.2 hc).when (w' := written (.list v items m l) = true) fun x => x
    have := tagged_good (listTag v) skip m [] [] (listTag_good v) h.1 noid rfl (h2.append (attribution_good m h.1))
    simpa [Markup.read, anchors] using this
  | dlist items m l =>
    simp only [tidy, Bool.and_eq_true] at h
    obtain ⟨children, hc, hs⟩ := bind_ok hs
    cases hs
    have h2 := (blocks_good titled false items children h.2 hc).when (w' := written (.dlist items m l) = true) fun x => x
    have := tagged_good b!"dl" skip m [] [] (by decide) h.1 noid rfl (h2.append (attribution_good m h.1))
    simpa [Markup.read, anchors] using this
  | listItem k p bs m l =>
    simp only [tidy, Bool.and_eq_true] at h
    obtain ⟨children, hc, hs⟩ := bind_ok hs
    cases hs
    have h1 := (principal_good p h.1.1).when (w' := written (.listItem k p bs m l) = true) fun x => and1 x
    have h2 := (blocks_good titled false bs children h.2 hc).when (w' := written (.listItem k p bs m l) = true) fun x => and2 x
    have := tagged_good b!"li" skip m [] [] (by decide) h.1.2 noid rfl
      ((h1.append h2).append (attribution_good m h.1.2))
    simpa [Markup.read, anchors] using this
  | dlistItem ts p bs m l =>
    simp only [tidy, Bool.and_eq_true] at h
    obtain ⟨children, hc, hs⟩ := bind_ok hs
    cases hs
    have h0 := (terms_good ts h.1.1.1).when (w' := written (.dlistItem ts p bs m l) = true) fun x => and1 (and1 x)
    have h1 := (principal_good p h.1.1.2).when (w' := written (.dlistItem ts p bs m l) = true) fun x => and2 (and1 x)
    have h2 := (blocks_good titled false bs children h.2 hc).when (w' := written (.dlistItem ts p bs m l) = true)
      fun x => and2 x
    have := h0.append (tagged_good b!"dd" skip m [] [] (by decide) h.1.2 noid rfl
      ((h1.append h2).append (attribution_good m h.1.2)))
    simpa only [Markup.read, anchors, Option.toList_none, ite_self, List.nil_append, List.append_nil, List.append_assoc]
      using this
  | image target c m l =>
    simp only [tidy, Bool.and_eq_true] at h
    cases hs
    obtain ⟨i, hi, hg⟩ := id_ok h.2
    have h1 := image_good (w := written (.image target c m l) = true) target m h.1.1 h.2
    have h2 := (caption_good c h.1.2).when (w' := written (.image target c m l) = true) fun x => x
    have := tagged_good b!"figure" skip m _ [] (by decide) h.2 hi rfl
      (((h1.append h2).append (sp4 _)).append (attribution_good m h.2))
    rw [hg] at this
    simpa only [Markup.read, anchors, List.nil_append, List.append_nil, List.append_assoc] using this
  | parent n v d bs t m l =>
    simp only [tidy, Bool.and_eq_true] at h
    by_cases hn : n = .table
    · subst hn
      refine (table_good titled bs m s h.2 hs).mono ?_ ?_ nofun
      · intro hw
        simp only [written, Bool.and_eq_true] at hw
        simp only [allCells, Bool.and_eq_true]
        exact ⟨hw.1.2, hw.2⟩
      · intro hw
        simp only [written, Bool.and_eq_true, List.isEmpty_iff] at hw
        simp [Markup.read, hw.1.1, readIs]
    · have hs' : (do
          let children ← blocks titled (n = .admonition) bs
          return openTag (parentTag n) skip m [] (parentType n v) ++ heading (parentLevel n) t ++ children ++ attribution m
            ++ closeTag (parentTag n) skip : M Str) = .ok s := by
        cases n <;> first | exact hs | exact absurd rfl hn
      have hr : Markup.read (.parent n v d bs t m l) = readIs t ++ readL bs ++ credit m := by
        cases n <;> first | rfl | exact absurd rfl hn
      have hwr : written (.parent n v d bs t m l) = (plainIs t && writtenL bs) := by
        cases n <;> first | rfl | exact absurd rfl hn
      have han : anchors skip (.parent n v d bs t m l) = anchorsL (n = .admonition) bs := by
        cases n <;> first | rfl | exact absurd rfl hn
      obtain ⟨children, hc, hs⟩ := bind_ok hs'
      cases hs
      rw [hr, hwr, han]
      have h1 := (heading_good (parentLevel n) t (parentLevel_good n) h.1.1).when
        (w' := (plainIs t && writtenL bs) = true) and1
      have h2 := (blocks_good titled _ bs children h.2 hc).when (w' := (plainIs t && writtenL bs) = true) and2
      have := tagged_good (parentTag n) skip m [] (parentType n v) (parentTag_good n) h.1.2 noid (parentType_unquoted n v)
        ((h1.append h2).append (attribution_good m h.1.2))
      simpa only [Option.toList_none, ite_self, List.nil_append, List.append_nil, List.append_assoc] using this
  | tableCell is m l =>
    simp only [tidy, Bool.and_eq_true] at h
    cases hs
    have h1 := (inlines_good is h.1).when (w' := written (.tableCell is m l) = true) fun x => x
    have := tagged_good b!"UNHANDLED" skip m [] [] (by decide) h.2 noid rfl (h1.append (attribution_good m h.2))
    simpa [Markup.read, anchors] using this
theorem blocks_good (titled skip : Bool) (bs : List Block) (s : Str) (h : tidyL balanced bs = true)
    (hs : blocks titled skip bs = .ok s) : Good (writtenL bs = true) s (readL bs) (anchorsL skip bs) := by
  cases bs with
  | nil => cases hs; exact .nil _
  | cons b bs =>
    simp only [tidyL, Bool.and_eq_true] at h
    obtain ⟨x, hx, hs⟩ := bind_ok hs
    obtain ⟨xs, hxs, hs⟩ := bind_ok hs
    cases hs
    exact ((block_good titled skip b x h.1 hx).when (w' := writtenL (b :: bs) = true) fun y => and1 y).append
      ((blocks_good titled skip bs xs h.2 hxs).when fun y => and2 y)
end

theorem body_good (titled : Bool) (bs : List Block) (s : Str) (h : tidyL balanced bs = true) (hs : body titled bs = .ok s) :
    Good (writtenL bs = true) s (readL bs) (anchorsL false bs) := by
  induction bs generalizing s with
  | nil => cases hs; exact .nil _
  | cons b bs ih =>
    simp only [tidyL, Bool.and_eq_true] at h
    obtain ⟨x, hx, hs⟩ := bind_ok hs
    obtain ⟨xs, hxs, hs⟩ := bind_ok hs
    cases hs
    have h1 := (block_good titled false b x h.1 hx).when (w' := writtenL (b :: bs) = true) fun y => and1 y
    have h2 := (ih xs h.2 hxs).when (w' := writtenL (b :: bs) = true) fun y => and2 y
    have := ((Good.space _ b!"\n    " (by decide)).append h1).append h2
    simpa only [readL, anchorsL, List.nil_append, List.append_assoc] using this

theorem docTitle_good (g : Asg) (h : tidyHeader balanced g.header = true) :
    Good (plainHeader g.header = true) (docTitle g.header) (readHeader g.header) [] := by
  cases hh : g.header with
  | none => exact .nil _
  | some hd =>
    rw [hh] at h
    exact inlines_good hd.title h

set_option maxRecDepth 20000 in
theorem render_good (sees : Bool) (g : Asg) (s : Str) (ht : tidyHeader balanced g.header = true)
    (h : tidyL balanced g.blocks = true) (hs : render sees g = .ok s) :
    Good ((plainHeader g.header && writtenL g.blocks) = true) s (readDoc g) (anchorsL false g.blocks) := by
  obtain ⟨x, hx, hs⟩ := bind_ok hs
  cases hs
  have sp : ∀ s : Str, s.all (fun b => b = c!" " || b = c!"\n") = true →
      Good ((plainHeader g.header && writtenL g.blocks) = true) s [] [] := fun s h => .space _ s h
  have htitle := Good.elem b!"title" [] (by decide) .nil ((docTitle_good g ht).when
    (w' := (plainHeader g.header && writtenL g.blocks) = true) and1)
  have hbody := Good.elem b!"body" [] (by decide) .nil ((((body_good _ g.blocks x h hx).when
    (w' := (plainHeader g.header && writtenL g.blocks) = true) and2)).append (sp b!"\n" (by decide)))
  have hm1 : Good ((plainHeader g.header && writtenL g.blocks) = true) b!"<meta charset=\"UTF-8\">" [] [] :=
    Good.const _ b!"meta charset=\"UTF-8\"" (fun _ => rfl) (by decide)
  have hm2 : Good ((plainHeader g.header && writtenL g.blocks) = true)
      b!"<meta name=\"viewport\" content=\"width=device-width, initial-scale=1\">" [] [] :=
    Good.const _ b!"meta name=\"viewport\" content=\"width=device-width, initial-scale=1\"" (fun _ => rfl) (by decide)
  have hdt : Good ((plainHeader g.header && writtenL g.blocks) = true) b!"<!DOCTYPE html>" [] [] :=
    Good.const _ b!"!DOCTYPE html" (fun _ => rfl) (by decide)
  have hhead := Good.elem b!"head" [] (by decide) .nil ((((((sp b!"\n    " (by decide)).append hm1).append
    (sp b!"\n    " (by decide))).append hm2).append (sp b!"\n    " (by decide))).append htitle |>.append
      (sp b!"\n" (by decide)))
  have hlang := Attrs.one b!"lang" b!"en" (by decide) (by decide) (by decide) (by decide)
  have hhtml := Good.elem b!"html" _ (by decide) hlang ((((sp b!"\n\n" (by decide)).append hhead).append
    (sp b!"\n\n" (by decide))).append hbody |>.append (sp b!"\n\n" (by decide)))
  have := ((((sp b!"\n\n" (by decide)).append hdt).append (sp b!"\n" (by decide))).append hhtml).append
    (sp b!"\n" (by decide))
  simpa only [readDoc, List.nil_append, List.append_nil, List.append_assoc, List.cons_append, Option.toList_none] using this

end Adoc.Html
