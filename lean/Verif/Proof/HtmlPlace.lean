import Verif.Proof.Html
/-!
# Where the elements of the output of the HTML writer stand
-/
namespace Adoc.Html
open Markup

/-- The piece `s` reads as whole tags and text, and its elements may stand in any element that satisfies `P`. -/
def Placed (lax : Bool) (P : Str → Prop) (s : Str) : Prop :=
  ∃ toks, (∀ rest, lex .text (s ++ rest) = toks ++ lex .text rest) ∧
    ∀ st rest, P (st.headD []) → placed lax st (toks ++ rest) = placed lax st rest

/-- Anywhere. -/
abbrev anyone : Str → Prop := fun _ => True

variable {lax : Bool} {P : Str → Prop}

theorem Placed.mono {Q : Str → Prop} {s : Str} (h : Placed lax P s) (hq : ∀ p, Q p → P p) : Placed lax Q s := by
  obtain ⟨toks, h1, h2⟩ := h
  exact ⟨toks, h1, fun st rest hp => h2 st rest (hq _ hp)⟩

theorem Placed.nil : Placed lax P [] := ⟨[], fun _ => rfl, fun _ _ _ => rfl⟩

theorem Placed.append {s t : Str} (h : Placed lax P s) (h' : Placed lax P t) : Placed lax P (s ++ t) := by
  obtain ⟨a, a1, a2⟩ := h
  obtain ⟨b, b1, b2⟩ := h'
  refine ⟨a ++ b, fun rest => ?_, fun st rest hp => ?_⟩
  · rw [List.append_assoc, a1, b1, List.append_assoc]
  · rw [List.append_assoc, a2 _ _ hp, b2 _ _ hp]

theorem Placed.text {s : Str} (h : noTag s = true) : Placed lax P s := by
  induction s with
  | nil => exact .nil
  | cons b s ih =>
    simp only [noTag, List.all_cons, Bool.and_eq_true, decide_eq_true_eq] at h
    have one : Placed lax P [b] := by
      refine ⟨[.char b], fun rest => ?_, fun st rest _ => rfl⟩
      simp only [List.cons_append, List.nil_append, lex, if_neg h.1]
    exact one.append (ih h.2)

theorem Placed.elem (n a : Str) {i : Option Str} (hn : goodName n = true) (ha : Attrs a i)
    (hp : ∀ p, P p → allowed lax p n = true) {c : Str} (h : Placed lax (· = n) c) :
    Placed lax P (b!"<" ++ n ++ a ++ b!">" ++ c ++ b!"</" ++ n ++ b!">") := by
  obtain ⟨toks, h1, h2⟩ := h
  have hall : n.all nameByte = true := by
    simp only [goodName, Bool.and_eq_true] at hn
    exact hn.1.2
  refine ⟨.tag (n ++ a) :: (toks ++ [.tag (c!"/" :: n)]), fun rest => ?_, fun st rest hst => ?_⟩
  · have e : b!"<" ++ n ++ a ++ b!">" ++ c ++ b!"</" ++ n ++ b!">" ++ rest =
        c!"<" :: (n ++ (a ++ (c!">" :: (c ++ (c!"<" :: c!"/" :: (n ++ (c!">" :: rest))))))) := by simp
    rw [e]
    have s1 : ∀ r : Str, lex .text (c!"<" :: r) = lex (.tag []) r := fun _ => rfl
    have s2 : ∀ (d r : Str), lex (.tag d) (c!">" :: r) = .tag d :: lex .text r := fun _ _ => rfl
    have s3 : ∀ r : Str, lex .text (c!"<" :: c!"/" :: r) = lex (.tag [c!"/"]) r := fun _ => rfl
    rw [s1, lex_name _ _ _ hall, ha.run, s2, h1, s3, lex_name _ _ _ hall, s2]
    simp
  · simp only [List.cons_append, List.append_assoc, placed, kind_opens n a hn ha, hp _ hst, Bool.true_and]
    rw [h2 _ _ rfl]
    rfl

theorem Placed.void (n a z : Str) {i : Option Str} (hn : n.all nameByte = true) (ha : Attrs a i)
    (hz : ∀ c rest, lex (.tag c) (z ++ b!">" ++ rest) = .tag (c ++ z) :: lex .text rest)
    (hk : kind (n ++ a ++ z) = .empty) : Placed lax P (b!"<" ++ n ++ a ++ z ++ b!">") := by
  refine ⟨[.tag (n ++ a ++ z)], fun rest => ?_, fun st rest _ => ?_⟩
  · have e : b!"<" ++ n ++ a ++ z ++ b!">" ++ rest = c!"<" :: (n ++ (a ++ (z ++ b!">" ++ rest))) := by simp
    rw [e]
    have s1 : ∀ r : Str, lex .text (c!"<" :: r) = lex (.tag []) r := fun _ => rfl
    rw [s1, lex_name _ _ _ hn, ha.run, hz]
    simp
  · simp only [List.singleton_append, placed, hk]

theorem Placed.const (s c : Str) (h : ∀ rest, lex .text (s ++ rest) = .tag c :: lex .text rest) (hk : kind c = .empty) :
    Placed lax P s := by
  refine ⟨[.tag c], fun rest => h rest, fun st rest _ => ?_⟩
  simp only [List.singleton_append, placed, hk]

/-! ## Texts without tags are balanced -/

theorem noTag_balanced {s : Str} (h : noTag s = true) : balanced s = true := by
  induction s with
  | nil => rfl
  | cons b s ih =>
    simp only [noTag, List.all_cons, Bool.and_eq_true, decide_eq_true_eq] at h
    show nest [] (lex .text (b :: s)) = true
    simp only [lex, if_neg h.1]
    exact ih h.2

theorem tidyMeta_balanced {m : Option Meta} (h : tidyMeta noTag m = true) : tidyMeta balanced m = true := by
  simp only [tidyMeta, Bool.and_eq_true] at h ⊢
  exact ⟨⟨h.1.1, noTag_balanced h.1.2⟩, noTag_balanced h.2⟩

theorem tidyMeta_texts {m : Option Meta} (h : tidyMeta noTag m = true) :
    noTag (attrOf m b!"attribution") = true ∧ noTag (attrOf m b!"citation") = true := by
  simp only [tidyMeta, Bool.and_eq_true] at h
  exact ⟨h.1.2, h.2⟩

/-! ## Inlines -/

theorem spanTag_free (v : SpanVariant) (p : Str) : allowed lax p (spanTag v) = true := by cases v <;> rfl

theorem refHref_placed (v : RefVariant) {t : Str} (h : noTag t = true) : Placed lax P (refHref v t) := by
  cases v
  · exact .text h
  · exact (Placed.text (s := b!"#") (by decide)).append (.text h)
  · exact .text h

mutual
theorem inline_placed {P : Str → Prop} (i : Inline) (h : tidyI noTag i = true) : Placed lax P (inline i) := by
  cases i with
  | lit n v l => exact .text h
  | brk l => exact Placed.const b!"<br />" b!"br /" (fun _ => rfl) (by decide)
  | span v f is m l o =>
    simp only [tidyI, Bool.and_eq_true] at h
    have ht : Attrs (classAttr m ++ if v = .footnote then b!" data-type=\"footnote\"" else []) none := by
      refine (classAttr_ok (tidyMeta_balanced h.1)).append (j := none) ?_
      split
      · exact Attrs.one b!"data-type" b!"footnote" (by decide) (by decide) (by decide) (by decide)
      · exact .nil
    have := Placed.elem (lax := lax) (P := P) (spanTag v) _ (spanTag_good v) ht (fun p _ => spanTag_free v p) (inlines_placed is h.2)
    simpa only [inline, List.nil_append, List.append_assoc] using this
  | ref v t is m l =>
    simp only [tidyI, Bool.and_eq_true] at h
    obtain ⟨⟨⟨hm, hu⟩, hb⟩, his⟩ := h
    replace hm := tidyMeta_balanced hm
    have link : ∀ v, v ≠ .image → Placed lax P (inline (.ref v t is m l)) := by
      intro v hv
      have ha : Attrs (classAttr m ++ (b!" href=\"" ++ refHref v t ++ b!"\"")) none :=
        (classAttr_ok hm).append (j := none)
          (Attrs.one b!"href" _ (by decide) (refHref_unquoted v hu) (by decide) (by decide))
      cases is with
      | nil =>
        have := Placed.elem (lax := lax) (P := P) b!"a" _ (by decide) ha (fun _ _ => rfl) (refHref_placed v hb)
        cases v
        · simpa [inline, List.append_assoc] using this
        · simpa [inline, List.append_assoc] using this
        · exact absurd rfl hv
      | cons i is =>
        have := Placed.elem (lax := lax) (P := P) b!"a" _ (by decide) ha (fun _ _ => rfl) (inlines_placed (i :: is) his)
        cases v
        · simpa [inline, inlines, List.append_assoc] using this
        · simpa [inline, inlines, List.append_assoc] using this
        · exact absurd rfl hv
    cases v with
    | link => exact link _ (by decide)
    | xref => exact link _ (by decide)
    | image =>
      have ha : Attrs (classAttr m ++ (b!" src=\"" ++ t ++ b!"\"")) none :=
        (classAttr_ok hm).append (j := none) (Attrs.one b!"src" _ (by decide) hu (by decide) (by decide))
      have hk : kind (b!"img" ++ (classAttr m ++ (b!" src=\"" ++ t ++ b!"\"")) ++ b!" /") = .empty := by
        have := kind_slash (b!"mg" ++ (classAttr m ++ (b!" src=\"" ++ t ++ b!"\"")) ++ b!" ") c!"i" (by decide)
        rw [← this]
        congr 1
        simp
      have := Placed.void (lax := lax) (P := P) b!"img" _ b!" /" (by decide) ha lex_slash hk
      simpa [inline] using this
theorem inlines_placed {P : Str → Prop} (is : List Inline) (h : tidyIs noTag is = true) : Placed lax P (inlines is) := by
  cases is with
  | nil => exact .nil
  | cons i is =>
    simp only [tidyIs, Bool.and_eq_true] at h
    exact (inline_placed i h.1).append (inlines_placed is h.2)
end

/-! ## Parts of blocks -/

theorem leaf_placed (n : LeafName) (is : List Inline) (m : Option Meta) (h : tidyIs noTag is = true)
    (hm : tidyMeta noTag m = true) : Placed lax P (leaf n is m) := by
  replace hm := tidyMeta_balanced hm
  have ha : Attrs (classAttr m ++ ((if n = .listing then attr b!"data-code-language" (attrOf m b!"language") else [])
      ++ if n = .verse then b!" data-type=\"verse\"" else [])) none := by
    refine (classAttr_ok hm).append (j := none) (Attrs.append (i := none) (j := none) ?_ ?_)
    · split
      · exact attr_ok _ _ (by decide) (tidyMeta_parts hm).2.2.2.1 (by decide) (by decide)
      · exact .nil
    · split
      · exact Attrs.one b!"data-type" b!"verse" (by decide) (by decide) (by decide) (by decide)
      · exact .nil
  unfold leaf
  cases ht : leafTag n with
  | none => exact inlines_placed is h
  | some tag =>
    have hg : goodName tag = true := by cases n <;> cases ht <;> decide
    have hf : ∀ p, P p → allowed lax p tag = true := fun p _ => by cases n <;> cases ht <;> rfl
    have := Placed.elem tag _ hg ha hf (inlines_placed is h)
    simpa only [List.nil_append, List.append_assoc] using this

theorem heading_placed (n : ParentName) (t : List Inline) (h : tidyIs noTag t = true) :
    Placed lax P (heading (parentLevel n) t) := by
  unfold heading
  split
  · exact .nil
  · have hf : ∀ p, P p → allowed lax p (b!"h" ++ parentLevel n) = true := fun p _ => by cases n <;> rfl
    have := ((Placed.text (lax := lax) (P := P) (s := b!"\n        ") (by decide)).append
      (Placed.elem (b!"h" ++ parentLevel n) [] (parentLevel_good n) .nil hf (inlines_placed t h))).append
      (Placed.text (s := b!"\n        ") (by decide))
    simpa using this

theorem attribution_placed (m : Option Meta) (h : tidyMeta noTag m = true) : Placed lax P (attribution m) := by
  obtain ⟨h5, h6⟩ := tidyMeta_texts h
  unfold attribution
  split
  · exact .nil
  · have ha := Attrs.one b!"data-type" b!"attribution" (by decide) (by decide) (by decide) (by decide)
    have hc : Placed lax (· = b!"p") (if attrOf m b!"citation" = [] then [] else b!", " ++ attrOf m b!"citation") := by
      split
      · exact .nil
      · exact (Placed.text (s := b!", ") (by decide)).append (.text h6)
    have := Placed.elem (lax := lax) (P := P) b!"p" _ (by decide) ha (fun _ _ => rfl) ((Placed.text h5).append hc)
    simpa [List.append_assoc] using this

theorem principal_placed (is : List Inline) (h : tidyIs noTag is = true) : Placed lax P (principal is) := by
  unfold principal
  split
  · exact .nil
  · have := Placed.elem (lax := lax) (P := P) b!"p" [] (by decide) .nil (fun _ _ => rfl) (inlines_placed is h)
    simpa [List.append_assoc] using this

theorem tagged_placed (tag : Str) (m : Option Meta) (id dt : Str) {i : Option Str} (ht : goodName tag = true)
    (hm : tidyMeta noTag m = true) (hid : Attrs (attr b!"id" id) i) (hd : unquoted dt = true)
    (hf : ∀ p, P p → allowed lax p tag = true) {c : Str} (h : Placed lax (· = tag) c) :
    Placed lax P (openTag tag false m id dt ++ c ++ closeTag tag false) := by
  unfold openTag closeTag
  have ha : Attrs (classAttr m ++ (attr b!"id" id ++ attr b!"data-type" dt)) (none.or (i.or none)) :=
    (classAttr_ok (tidyMeta_balanced hm)).append (hid.append (attr_ok _ _ (by decide) hd (by decide) (by decide)))
  have := Placed.elem tag _ ht ha hf h
  simpa [List.append_assoc] using this

theorem tagged_any (tag : Str) (skip : Bool) (m : Option Meta) (id dt : Str) {i : Option Str} (ht : goodName tag = true)
    (hm : tidyMeta noTag m = true) (hid : Attrs (attr b!"id" id) i) (hd : unquoted dt = true)
    (hf : ∀ p, P p → allowed lax p tag = true) {c : Str} (h : Placed lax anyone c) :
    Placed lax P (openTag tag skip m id dt ++ c ++ closeTag tag skip) := by
  cases skip with
  | true => simpa [openTag, closeTag] using h.mono fun _ _ => trivial
  | false => exact tagged_placed tag m id dt ht hm hid hd hf (h.mono fun _ _ => trivial)

/-! ## Tables -/

theorem cellInlines_noTag (b : Block) (h : tidy noTag b = true) : tidyIs noTag (cellInlines b) = true := by
  cases b <;> simp only [cellInlines, tidy, Bool.and_eq_true, tidyIs] at * <;> simp only [h]

theorem cell_placed (tag : Str) (b : Block) (h : tidy noTag b = true) (ht : goodName tag = true)
    (hp : ∀ p, P p → allowed lax p tag = true) : Placed lax P (cell tag (some b)) := by
  have := Placed.elem tag [] ht .nil hp (inlines_placed _ (cellInlines_noTag b h))
  have e : cell tag (some b) = b!"<" ++ tag ++ [] ++ b!">" ++ inlines (cellInlines b) ++ b!"</" ++ tag ++ b!">" := by
    simp [cell]
  rw [e]
  exact this

theorem cell_placed_none (tag : Str) (ht : goodName tag = true) (hp : ∀ p, P p → allowed lax p tag = true) :
    Placed lax P (cell tag none) := by
  have := Placed.elem tag [] ht .nil hp .nil
  have e : cell tag none = b!"<" ++ tag ++ [] ++ b!">" ++ [] ++ b!"</" ++ tag ++ b!">" := by simp [cell]
  rw [e]
  exact this

/-- Elements that rows stand in. -/
abbrev rowHome (p : Str) : Prop := p = b!"table" ∨ p = b!"tbody"

theorem row_placed {p : Str} (h : Placed lax (· = b!"tr") p) : Placed lax rowHome (b!"<tr>" ++ p ++ b!"</tr>") := by
  have := Placed.elem (lax := lax) (P := rowHome) b!"tr" [] (by decide) .nil (by rintro p (rfl | rfl) <;> rfl) h
  simpa using this

theorem cellLoop_placed (cols total : Nat) (cs : List Block) (idx : Nat) (s p : Str) (h : tidyL noTag cs = true)
    (hs : cellLoop cols total cs idx = .ok s) (hp : Placed lax (· = b!"tr") p) :
    Placed lax rowHome (b!"<tr>" ++ p ++ s ++ b!"</tr>") := by
  induction cs generalizing idx s p with
  | nil =>
    cases hs
    have := row_placed hp
    simpa using this
  | cons c cs ih =>
    simp only [tidyL, Bool.and_eq_true] at h
    have hc := cell_placed (lax := lax) (P := (· = b!"tr")) b!"td" c h.1 (by decide) (by rintro p rfl; rfl)
    have hsp : ∀ {P}, Placed lax P b!"\n        " := fun {P} => .text (by decide)
    have go : ∀ rest br, cellLoop cols total cs (idx + 1) = .ok rest →
        (br = [] ∨ br = b!"\n        </tr>\n        <tr>") →
        Placed lax rowHome (b!"<tr>" ++ p ++ (cell b!"td" (some c) ++ br ++ b!"\n        " ++ rest) ++ b!"</tr>") := by
      intro rest br hr hbr
      rcases hbr with rfl | rfl
      · have := ih (idx + 1) rest (p ++ (cell b!"td" (some c) ++ b!"\n        ")) h.2 hr (hp.append (hc.append hsp))
        simpa using this
      · have h1 := row_placed (hp.append (hc.append hsp))
        have h2 := ih (idx + 1) rest b!"\n        " h.2 hr hsp
        have := (h1.append hsp).append h2
        simpa using this
    simp only [cellLoop] at hs
    split at hs
    · split at hs
      · cases hs
      · obtain ⟨rest, hr, hs⟩ := bind_ok hs
        cases hs
        refine go rest _ hr ?_
        split
        · exact .inr rfl
        · exact .inl rfl
    · obtain ⟨rest, hr, hs⟩ := bind_ok hs
      cases hs
      have := go rest [] hr (.inl rfl)
      simpa using this

theorem tidyL_noTag_mem {bs : List Block} (h : tidyL noTag bs = true) : ∀ b ∈ bs, tidy noTag b = true := by
  induction bs with
  | nil => nofun
  | cons b bs ih =>
    simp only [tidyL, Bool.and_eq_true] at h
    intro x hx
    rcases List.mem_cons.1 hx with rfl | hx
    · exact h.1
    · exact ih h.2 x hx

theorem tidyL_noTag_drop {bs : List Block} (n : Nat) (h : tidyL noTag bs = true) : tidyL noTag (bs.drop n) = true := by
  induction n generalizing bs with
  | zero => exact h
  | succ n ih =>
    cases bs with
    | nil => rfl
    | cons b bs =>
      simp only [tidyL, Bool.and_eq_true] at h
      exact ih h.2

theorem headCells_placed (cells : List Block) (h : tidyL noTag cells = true) (is : List Nat) :
    Placed true (· = b!"thead") (headCells cells is) := by
  induction is with
  | nil => exact .nil
  | cons i is ih =>
    have hsp : Placed true (· = b!"thead") b!"\n    " := .text (by decide)
    simp only [headCells]
    refine Placed.append (Placed.append ?_ hsp) ih
    have hp : ∀ p, p = b!"thead" → allowed true p b!"th" = true := by rintro p rfl; rfl
    cases hk : cells[i]? with
    | none => exact cell_placed_none _ (by decide) hp
    | some b => exact cell_placed _ b (tidyL_noTag_mem h b (List.mem_of_getElem? hk)) (by decide) hp

theorem table_placed (titled : Bool) (cells : List Block) (m : Option Meta) (s : Str) (h : tidyL noTag cells = true)
    (hh : (lax || (match m with
      | some m => !m.options.contains b!"header"
      | none => true)) = true)
    (hs : table titled cells m = .ok s) : Placed lax anyone s := by
  unfold table at hs
  cases m with
  | none => cases hs
  | some m =>
    simp only at hs hh
    cases hc : m.attributes.get? b!"cols" with
    | none => rw [hc] at hs; cases hs
    | some c =>
      rw [hc] at hs
      simp only at hs
      generalize hst : (if m.options.contains b!"header" = true then colsInt c else 0) = start at hs
      by_cases hlt : cells.length < start
      · rw [if_pos hlt] at hs; cases hs
      rw [if_neg hlt] at hs
      obtain ⟨body, hr, hs⟩ := bind_ok hs
      have hb := cellLoop_placed (lax := lax) _ _ _ _ _ b!"\n        " (tidyL_noTag_drop start h) hr (.text (by decide))
      cases hd : m.options.contains b!"header" with
      | true =>
        rw [hd] at hs hh
        simp only [Bool.not_true, Bool.or_false] at hh
        subst hh
        cases hs
        have hsp : ∀ {P}, Placed true P b!"\n        " := fun {P} => .text (by decide)
        have hs4 : ∀ {P}, Placed true P b!"\n    " := fun {P} => .text (by decide)
        have h1 := Placed.elem (lax := true) (P := (· = b!"table")) b!"thead" [] (by decide) .nil (fun _ _ => rfl)
          (hsp.append (headCells_placed cells h (List.range start)))
        have h2 := Placed.elem (lax := true) (P := (· = b!"table")) b!"tbody" [] (by decide) .nil (fun _ _ => rfl)
          ((hsp.append (hb.mono fun _ x => .inr x)).append hs4)
        have h3 := Placed.elem (lax := true) (P := anyone) b!"table" [] (by decide) .nil (fun _ _ => rfl)
          ((((hs4.append h1).append hs4).append h2).append hs4)
        simpa [hst] using h3
      | false =>
        rw [hd] at hs hst
        simp only [Bool.false_eq_true, if_false] at hst
        subst hst
        cases titled with
        | true =>
          cases hs
          have hsp : ∀ {P}, Placed lax P b!"\n        " := fun {P} => .text (by decide)
          have hs4 : ∀ {P}, Placed lax P b!"\n    " := fun {P} => .text (by decide)
          have h1 := Placed.elem (lax := lax) (P := (· = b!"table")) b!"thead" [] (by decide) .nil (fun p x => by subst x; cases lax <;> rfl)
            hsp
          have h2 := Placed.elem (lax := lax) (P := (· = b!"table")) b!"tbody" [] (by decide) .nil (fun p x => by subst x; cases lax <;> rfl)
            ((hsp.append (hb.mono fun _ x => .inr x)).append hs4)
          have h3 := Placed.elem (lax := lax) (P := anyone) b!"table" [] (by decide) .nil (fun _ _ => rfl)
            ((((hs4.append h1).append hs4).append h2).append hs4)
          simpa [headCells] using h3
        | false =>
        cases hs
        have h3 := Placed.elem (lax := lax) (P := anyone) b!"table" [] (by decide) .nil (fun _ _ => rfl)
          ((hb.mono fun _ x => .inl x).append (Placed.text (s := b!"\n    ") (by decide)))
        simpa using h3

/-! ## Blocks -/

/-- The elements a block may stand in. -/
def homes : Home → Str → Prop
  | .list, p => p = b!"ul" ∨ p = b!"ol"
  | .dlist, p => p = b!"dl"
  | .other, _ => True

theorem anywhere {home : Home} {s : Str} (h : Placed lax anyone s) : Placed lax (homes home) s := h.mono fun _ _ => trivial

theorem terms_placed (ts : List Inline) (h : tidyIs noTag ts = true) :
    Placed lax (homes .dlist) (if ts.isEmpty then [] else b!"\n        <dt>" ++ inlines ts ++ b!"</dt>\n        ") := by
  split
  · exact .nil
  · have := ((Placed.text (lax := lax) (P := homes .dlist) (s := b!"\n        ") (by decide)).append
      (Placed.elem b!"dt" [] (by decide) .nil (by rintro p rfl; rfl) (inlines_placed ts h))).append
      (Placed.text (s := b!"\n        ") (by decide))
    simpa using this

theorem caption_placed (is : List Inline) (h : tidyIs noTag is = true) :
    Placed lax P (if is.isEmpty then [] else b!"\n        <figcaption>" ++ inlines is ++ b!"</figcaption>") := by
  split
  · exact .nil
  · have := (Placed.text (lax := lax) (P := P) (s := b!"\n        ") (by decide)).append
      (Placed.elem b!"figcaption" [] (by decide) .nil (fun _ _ => rfl) (inlines_placed is h))
    simpa using this

theorem image_placed (target : Str) (m : Option Meta) (h : unquoted target = true) (hm : tidyMeta balanced m = true) :
    Placed lax P (b!"\n        <img src=\"" ++ target ++ b!"\"" ++ attr b!"alt" (attrOf m b!"positional_1") ++ b!"/>") := by
  have ha : Attrs (b!" src=\"" ++ target ++ b!"\"" ++ attr b!"alt" (attrOf m b!"positional_1")) none :=
    Attrs.append (i := none) (j := none) (Attrs.one b!"src" _ (by decide) h (by decide) (by decide))
      (attr_ok _ _ (by decide) (tidyMeta_parts hm).2.2.1 (by decide) (by decide))
  have hk : kind (b!"img" ++ (b!" src=\"" ++ target ++ b!"\"" ++ attr b!"alt" (attrOf m b!"positional_1")) ++ b!"/") =
      .empty := by
    have := kind_slash (b!"mg" ++ (b!" src=\"" ++ target ++ b!"\"" ++ attr b!"alt" (attrOf m b!"positional_1"))) c!"i"
      (by decide)
    rw [← this]
    congr 1
  have := (Placed.text (lax := lax) (P := P) (s := b!"\n        ") (by decide)).append
    (Placed.void b!"img" _ b!"/" (by decide) ha lex_slash' hk)
  simpa using this

mutual
theorem block_placed (titled skip : Bool) (home : Home) (b : Block) (s : Str) (h : tidy noTag b = true)
    (ha : atHome lax skip home b = true) (hs : block titled skip b = .ok s) : Placed lax (homes home) s := by
  have noid : Attrs (attr b!"id" []) none := .nil
  have sp4 : ∀ {P}, Placed lax P b!"\n    " := fun {P} => .text (by decide)
  cases b with
  | leaf n f d is m l =>
    simp only [tidy, Bool.and_eq_true] at h
    cases hs
    exact sp4.append (leaf_placed n is m h.1 h.2)
  | brk v l =>
    cases v with
    | page =>
      cases hs
      have := (sp4.append (Placed.elem (lax := lax) (P := homes home) b!"div" _ (by decide)
        (Attrs.one b!"style" b!"page-break-after: always;" (by decide) (by decide) (by decide) (by decide))
        (fun _ _ => rfl) .nil)).append sp4
      simpa using this
    | thematic =>
      cases hs
      have hr : Placed lax (homes home) b!"<hr />" := Placed.const b!"<hr />" b!"hr /" (fun _ => rfl) (by decide)
      have := sp4.append hr
      simpa using this
  | «section» t m level bs l =>
    simp only [tidy, Bool.and_eq_true] at h
    simp only [atHome] at ha
    obtain ⟨children, hc, hs⟩ := bind_ok hs
    cases hs
    have hm := tidyMeta_balanced h.1.2
    obtain ⟨i, hi, -⟩ := id_ok hm
    have hat : Attrs (b!" data-type=\"" ++ (b!"sect" ++ natToStr level) ++ b!"\"" ++ (classAttr m
        ++ attr b!"id" (attrOf m b!"id"))) (none.or (none.or i)) :=
      (Attrs.one b!"data-type" _ (by decide) (unquoted_append rfl (natToStr_unquoted level)) (by decide)
        (by decide)).append ((classAttr_ok hm).append hi)
    have h2 := blocks_placed titled false .other bs children h.2 ha hc
    have := Placed.elem (lax := lax) (P := homes home) b!"section" _ (by decide) hat (fun _ _ => rfl)
      ((((heading_placed .quote t h.1.1).append (attribution_placed m h.1.2)).append sp4).append
        (h2.mono fun _ _ => trivial))
    simpa [parentLevel] using this
  | list v items m l =>
    simp only [tidy, Bool.and_eq_true] at h
    simp only [atHome, Bool.and_eq_true, Bool.not_eq_true'] at ha
    obtain ⟨rfl, ha⟩ := ha
    obtain ⟨children, hc, hs⟩ := bind_ok hs
    cases hs
    have h2 := blocks_placed titled false .list items children h.2 ha hc
    have := tagged_placed (lax := lax) (P := homes home) (listTag v) m [] [] (listTag_good v) h.1 noid rfl
      (fun _ _ => by cases v <;> rfl)
      ((h2.mono (by rintro p rfl; cases v <;> simp [homes, listTag])).append (attribution_placed m h.1))
    simpa using this
  | dlist items m l =>
    simp only [tidy, Bool.and_eq_true] at h
    simp only [atHome, Bool.and_eq_true, Bool.not_eq_true'] at ha
    obtain ⟨rfl, ha⟩ := ha
    obtain ⟨children, hc, hs⟩ := bind_ok hs
    cases hs
    have h2 := blocks_placed titled false .dlist items children h.2 ha hc
    have := tagged_placed (lax := lax) (P := homes home) b!"dl" m [] [] (by decide) h.1 noid rfl (fun _ _ => rfl)
      ((h2.mono (by rintro p rfl; rfl)).append (attribution_placed m h.1))
    simpa using this
  | listItem k p bs m l =>
    simp only [tidy, Bool.and_eq_true] at h
    simp only [atHome, Bool.and_eq_true, Bool.not_eq_true', decide_eq_true_eq] at ha
    obtain ⟨⟨rfl, rfl⟩, ha⟩ := ha
    obtain ⟨children, hc, hs⟩ := bind_ok hs
    cases hs
    have h2 := blocks_placed titled false .other bs children h.2 ha hc
    have := tagged_placed (lax := lax) (P := homes .list) b!"li" m [] [] (by decide) h.1.2 noid rfl
      (by rintro p (rfl | rfl) <;> rfl)
      (((principal_placed p h.1.1).append (h2.mono fun _ _ => trivial)).append (attribution_placed m h.1.2))
    simpa using this
  | dlistItem ts p bs m l =>
    simp only [tidy, Bool.and_eq_true] at h
    simp only [atHome, Bool.and_eq_true, Bool.not_eq_true', decide_eq_true_eq] at ha
    obtain ⟨⟨rfl, rfl⟩, ha⟩ := ha
    obtain ⟨children, hc, hs⟩ := bind_ok hs
    cases hs
    have h2 := blocks_placed titled false .other bs children h.2 ha hc
    have := (terms_placed ts h.1.1.1).append (tagged_placed (lax := lax) (P := homes .dlist) b!"dd" m [] [] (by decide) h.1.2 noid rfl
      (by rintro p rfl; rfl)
      (((principal_placed p h.1.1.2).append (h2.mono fun _ _ => trivial)).append (attribution_placed m h.1.2)))
    simpa only [List.append_assoc] using this
  | image target c m l =>
    simp only [tidy, Bool.and_eq_true] at h
    cases hs
    obtain ⟨i, hi, -⟩ := id_ok (tidyMeta_balanced h.2)
    have := tagged_any (lax := lax) (P := homes home) b!"figure" skip m _ [] (by decide) h.2 hi rfl (fun _ _ => rfl)
      ((((image_placed target m h.1.1 (tidyMeta_balanced h.2)).append (caption_placed c h.1.2)).append sp4).append
        (attribution_placed m h.2))
    simpa only [List.append_assoc] using this
  | parent n v d bs t m l =>
    simp only [tidy, Bool.and_eq_true] at h
    by_cases hn : n = .table
    · subst hn
      exact anywhere (table_placed titled bs m s h.2 ha hs)
    · have hs' : (do
          let children ← blocks titled (n = .admonition) bs
          return openTag (parentTag n) skip m [] (parentType n v) ++ heading (parentLevel n) t ++ children ++ attribution m
            ++ closeTag (parentTag n) skip : M Str) = .ok s := by
        cases n <;> first | exact hs | exact absurd rfl hn
      have ha' : atHomeL lax (n = .admonition) .other bs = true := by
        cases n <;> first | exact ha | exact absurd rfl hn
      obtain ⟨children, hc, hs⟩ := bind_ok hs'
      cases hs
      have h2 := blocks_placed titled _ .other bs children h.2 ha' hc
      have := tagged_any (lax := lax) (P := homes home) (parentTag n) skip m [] (parentType n v) (parentTag_good n) h.1.2 noid
        (parentType_unquoted n v) (fun _ _ => by cases n <;> rfl)
        (((heading_placed n t h.1.1).append (h2.mono fun _ _ => trivial)).append (attribution_placed m h.1.2))
      simpa only [List.append_assoc] using this
  | tableCell is m l =>
    simp only [tidy, Bool.and_eq_true] at h
    cases hs
    have := tagged_any (lax := lax) (P := homes home) b!"UNHANDLED" skip m [] [] (by decide) h.2 noid rfl (fun _ _ => rfl)
      ((inlines_placed is h.1).append (attribution_placed m h.2))
    simpa only [List.append_assoc] using this
theorem blocks_placed (titled skip : Bool) (home : Home) (bs : List Block) (s : Str) (h : tidyL noTag bs = true)
    (ha : atHomeL lax skip home bs = true) (hs : blocks titled skip bs = .ok s) : Placed lax (homes home) s := by
  cases bs with
  | nil => cases hs; exact .nil
  | cons b bs =>
    simp only [tidyL, atHomeL, Bool.and_eq_true] at h ha
    obtain ⟨x, hx, hs⟩ := bind_ok hs
    obtain ⟨xs, hxs, hs⟩ := bind_ok hs
    cases hs
    exact (block_placed titled skip home b x h.1 ha.1 hx).append (blocks_placed titled skip home bs xs h.2 ha.2 hxs)
end

theorem body_placed (titled : Bool) (bs : List Block) (s : Str) (h : tidyL noTag bs = true)
    (ha : atHomeL lax false .other bs = true) (hs : body titled bs = .ok s) : Placed lax anyone s := by
  induction bs generalizing s with
  | nil => cases hs; exact .nil
  | cons b bs ih =>
    simp only [tidyL, atHomeL, Bool.and_eq_true] at h ha
    obtain ⟨x, hx, hs⟩ := bind_ok hs
    obtain ⟨xs, hxs, hs⟩ := bind_ok hs
    cases hs
    exact ((Placed.text (s := b!"\n    ") (by decide)).append ((block_placed titled false .other b x h.1 ha.1 hx).mono
      fun _ _ => trivial)).append (ih xs h.2 ha.2 hxs)

set_option maxRecDepth 20000 in
theorem render_placed (sees : Bool) (g : Asg) (s : Str) (h : tidyDoc noTag g = true)
    (ha : atHomeL lax false .other g.blocks = true) (hs : render sees g = .ok s) : wellPlaced lax s = true := by
  simp only [tidyDoc, Bool.and_eq_true] at h
  obtain ⟨x, hx, hs⟩ := bind_ok hs
  cases hs
  have ht : Placed lax (· = b!"title") (docTitle g.header) := by
    have := h.1
    cases hh : g.header with
    | none => exact .nil
    | some hd =>
      rw [hh] at this
      exact inlines_placed hd.title this
  have sp : ∀ {P} (s : Str), noTag s = true → Placed lax P s := fun s h => .text h
  have htitle := Placed.elem (lax := lax) (P := (· = b!"head")) b!"title" [] (by decide) .nil (fun _ _ => rfl) ht
  have hbody := Placed.elem (lax := lax) (P := (· = b!"html")) b!"body" [] (by decide) .nil (fun _ _ => rfl)
    (((body_placed _ g.blocks x h.2 ha hx).mono fun _ _ => trivial).append (sp b!"\n" (by decide)))
  have hm1 : Placed lax (· = b!"head") b!"<meta charset=\"UTF-8\">" :=
    Placed.const _ b!"meta charset=\"UTF-8\"" (fun _ => rfl) (by decide)
  have hm2 : Placed lax (· = b!"head") b!"<meta name=\"viewport\" content=\"width=device-width, initial-scale=1\">" :=
    Placed.const _ b!"meta name=\"viewport\" content=\"width=device-width, initial-scale=1\"" (fun _ => rfl) (by decide)
  have hdt : Placed lax anyone b!"<!DOCTYPE html>" :=
    Placed.const _ b!"!DOCTYPE html" (fun _ => rfl) (by decide)
  have hhead := Placed.elem (lax := lax) (P := (· = b!"html")) b!"head" [] (by decide) .nil (fun _ _ => rfl)
    ((((((sp b!"\n    " (by decide)).append hm1).append
    (sp b!"\n    " (by decide))).append hm2).append (sp b!"\n    " (by decide))).append htitle |>.append
      (sp b!"\n" (by decide)))
  have hlang := Attrs.one b!"lang" b!"en" (by decide) (by decide) (by decide) (by decide)
  have hhtml := Placed.elem (lax := lax) (P := anyone) b!"html" _ (by decide) hlang (fun _ _ => rfl)
    ((((sp b!"\n\n" (by decide)).append hhead).append
    (sp b!"\n\n" (by decide))).append hbody |>.append (sp b!"\n\n" (by decide)))
  have all := ((((sp b!"\n\n" (by decide)).append hdt).append (sp b!"\n" (by decide))).append hhtml).append
    (sp b!"\n" (by decide))
  have fin : ∀ s : Str, Placed lax anyone s → wellPlaced lax s = true := by
    intro s hp
    obtain ⟨toks, h1, h2⟩ := hp
    have := h1 []
    simp only [List.append_nil, lex] at this
    rw [wellPlaced, this]
    have := h2 [] [] trivial
    rw [List.append_nil] at this
    rw [this]
    rfl
  refine fin _ ?_
  simpa only [List.nil_append, List.append_nil, List.append_assoc, List.cons_append] using all

end Adoc.Html
