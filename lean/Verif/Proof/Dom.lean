import Verif.Spec.Dom
import Verif.Proof.Html
/-!
# The output of the HTML writer reads as the tree of the graph
-/
namespace Adoc.Dom
open Markup Html

theorem events_append (a b : List Tok) : events (a ++ b) = events a ++ events b := by
  induction a with
  | nil => rfl
  | cons t a ih =>
    cases t with
    | char c =>
      simp only [List.cons_append, events]
      split
      · exact ih
      · simp [ih]
    | broken => simp [events, ih]
    | tag c =>
      simp only [List.cons_append, events]
      split <;> simp [ih]

theorem flatL_append (a b : List Node) : flatL (a ++ b) = flatL a ++ flatL b := by
  induction a with
  | nil => rfl
  | cons n a ih => simp [flatL, ih]

/-- The piece `s` reads as whole tags and text, and as the trees `ns`. -/
def Reads (s : Str) (ns : List Node) : Prop :=
  ∃ toks, (∀ rest, lex .text (s ++ rest) = toks ++ lex .text rest) ∧ events toks = flatL ns

theorem Reads.nil : Reads [] [] := ⟨[], fun _ => rfl, rfl⟩

theorem Reads.append {s t : Str} {a b : List Node} (h : Reads s a) (h' : Reads t b) : Reads (s ++ t) (a ++ b) := by
  obtain ⟨x, x1, x2⟩ := h
  obtain ⟨y, y1, y2⟩ := h'
  refine ⟨x ++ y, fun rest => ?_, ?_⟩
  · rw [List.append_assoc, x1, y1, List.append_assoc]
  · rw [events_append, flatL_append, x2, y2]

theorem Reads.space (s : Str) (h : s.all (fun b => b = c!" " || b = c!"\n") = true) : Reads s [] := by
  induction s with
  | nil => exact .nil
  | cons b s ih =>
    simp only [List.all_cons, Bool.and_eq_true] at h
    have one : Reads [b] [] := by
      refine ⟨[.char b], fun rest => ?_, ?_⟩
      · have : b ≠ c!"<" := by
          rintro rfl
          exact absurd h.1 (by decide)
        simp only [List.cons_append, List.nil_append, lex, if_neg this]
      · simp only [events, h.1, if_true, flatL]
    exact one.append (ih h.2)

theorem Reads.text (s : Str) (h : balanced s = true) : Reads s [.text s] := by
  refine ⟨lex .text s, fun rest => ?_, ?_⟩
  · refine lex_append .text s rest fun hb => ?_
    have := nest_broken [] _ hb
    rw [balanced] at h
    rw [this] at h
    cases h
  · simp [flatL, Node.flat, met]

/-! ## Tags -/

/-- Attributes as they are written in a tag. -/
structure Given (a : Str) (l : Pairs) : Prop where
  attrs : ∃ i, Attrs a i
  pairs : ∀ rest, Dom.pairs .gap (a ++ rest) = l ++ Dom.pairs .gap rest

theorem Given.nil : Given [] [] := ⟨⟨_, .nil⟩, fun _ => rfl⟩

theorem Given.append {a b : Str} {k l : Pairs} (ha : Given a k) (hb : Given b l) : Given (a ++ b) (k ++ l) := by
  obtain ⟨⟨i, h1⟩, h2⟩ := ha
  obtain ⟨⟨j, h3⟩, h4⟩ := hb
  exact ⟨⟨_, h1.append h3⟩, fun rest => by rw [List.append_assoc, h2, h4, List.append_assoc]⟩

/-- The bytes of the name of an attribute. -/
theorem nameByte_ne_eq {b : UInt8} (h : nameByte b = true) : b ≠ c!"=" ∧ b ≠ c!" " := by
  refine ⟨?_, ?_⟩ <;> (rintro rfl; revert h; decide)

theorem pairs_key (key k rest : Str) (h : key.all nameByte = true) :
    pairs (.key k) (key ++ rest) = pairs (.key (k ++ key)) rest := by
  induction key generalizing k with
  | nil => simp
  | cons b key ih =>
    simp only [List.all_cons, Bool.and_eq_true] at h
    obtain ⟨h1, h2⟩ := nameByte_ne_eq h.1
    simp only [List.cons_append, pairs, if_neg h1, if_neg h2]
    rw [ih _ h.2]
    simp

theorem pairs_val (k w v rest : Str) (h : unquoted v = true) :
    pairs (.val k w) (v ++ c!"\"" :: rest) = (k, w ++ v) :: pairs .gap rest := by
  induction v generalizing w with
  | nil => simp [pairs]
  | cons b v ih =>
    simp only [unquoted, List.all_cons, Bool.and_eq_true, decide_eq_true_eq] at h
    simp only [List.cons_append, pairs, if_neg h.1]
    rw [ih _ h.2]
    simp

theorem pairs_one (b : UInt8) (key v rest : Str) (hb : nameByte b = true) (hk : key.all nameByte = true) (hv : unquoted v = true) :
    pairs .gap (b!" " ++ (b :: key) ++ b!"=\"" ++ v ++ b!"\"" ++ rest) = (b :: key, v) :: pairs .gap rest := by
  have e : b!" " ++ (b :: key) ++ b!"=\"" ++ v ++ b!"\"" ++ rest =
      c!" " :: b :: (key ++ (c!"=" :: c!"\"" :: (v ++ c!"\"" :: rest))) := by simp
  rw [e]
  have s1 : ∀ r : Str, pairs .gap (c!" " :: b :: r) = pairs (.key [b]) r := by
    intro r
    show pairs .gap (b :: r) = _
    simp only [pairs, if_neg (nameByte_ne_eq hb).2]
  have s2 : ∀ (k r : Str), pairs (.key k) (c!"=" :: c!"\"" :: r) = pairs (.val k []) r := fun _ _ => rfl
  rw [s1, pairs_key _ _ _ hk, s2, pairs_val _ _ _ _ hv]
  simp

/-- ` key="value"`. -/
theorem Given.one (key v : Str) (hk : key.all nameByte = true) (hv : unquoted v = true) (hl : 3 ≤ key.length) :
    Given (b!" " ++ key ++ b!"=\"" ++ v ++ b!"\"") [(key, v)] := by
  refine ⟨⟨_, Attrs.one key v hk hv (by omega) fun h => ?_⟩, ?_⟩
  · have hm : c!"\"" ∈ key ++ b!"=" := by
      refine List.mem_of_mem_take (i := 4) ?_
      rw [h]
      decide
    rcases List.mem_append.1 hm with hm | hm
    · have := List.all_eq_true.1 hk _ hm
      exact absurd this (by decide)
    · exact absurd hm (by decide)
  · cases key with
    | nil => simp at hl
    | cons b key =>
      simp only [List.all_cons, Bool.and_eq_true] at hk
      exact fun rest => pairs_one b key v rest hk.1 hk.2 hv

theorem Given.opt (key v : Str) (hk : key.all nameByte = true) (hv : unquoted v = true) (hl : 3 ≤ key.length) :
    Given (attr key v) (unlessEmpty key v) := by
  unfold attr unlessEmpty
  split
  · exact .nil
  · exact .one key v hk hv hl

theorem Given.id {m : Option Meta} (h : tidyMeta balanced m = true) :
    Given (attr b!"id" (attrOf m b!"id")) (unlessEmpty b!"id" (value m b!"id")) := by
  obtain ⟨i, hi, -⟩ := id_ok h
  refine ⟨⟨i, hi⟩, ?_⟩
  show ∀ rest, Dom.pairs .gap (attr b!"id" (attrOf m b!"id") ++ rest) = unlessEmpty b!"id" (attrOf m b!"id") ++ _
  unfold attr unlessEmpty
  split
  · exact fun _ => rfl
  · exact fun rest => pairs_one c!"i" b!"d" _ rest (by decide) (by decide) (tidyMeta_parts h).2.1

theorem joinSp_spaced (ss : List Str) : joinSp ss = spaced ss := by
  induction ss with
  | nil => rfl
  | cons s ss ih =>
    cases ss with
    | nil => rfl
    | cons t ss =>
      simp only [joinSp, spaced, List.append_assoc] at ih ⊢
      rw [ih]
      rfl

theorem Given.classes {m : Option Meta} (h : tidyMeta balanced m = true) : Given (classAttr m) (classes m) := by
  cases m with
  | none => exact .nil
  | some m =>
    by_cases h0 : m.roles = []
    · rw [show classAttr (some m) = [] from if_pos h0, show Dom.classes (some m) = [] from if_pos h0]
      exact .nil
    · rw [show classAttr (some m) = _ from if_neg h0, show Dom.classes (some m) = _ from if_neg h0, ← joinSp_spaced]
      exact .one b!"class" _ (by decide) (joinSp_unquoted _ (tidyMeta_parts h).1) (by decide)

theorem drop_name (n a : Str) (hn : n.all nameByte = true) (ha : a = [] ∨ a.head? = some c!" ") :
    (n ++ a).dropWhile (fun b => decide (b ≠ c!" ")) = a := by
  induction n with
  | nil =>
    rcases ha with rfl | ha
    · rfl
    · cases a with
      | nil => rfl
      | cons b a =>
        simp only [List.head?_cons, Option.some.injEq] at ha
        subst ha
        rfl
  | cons b n ih =>
    simp only [List.all_cons, Bool.and_eq_true] at hn
    obtain ⟨-, -, h3, -⟩ := nameByte_ne hn.1
    simp only [List.cons_append, List.dropWhile_cons, ne_eq, h3, not_false_eq_true, decide_true, if_true]
    exact ih hn.2

theorem tagPairs_given (n a : Str) {l : Pairs} (hn : n.all nameByte = true) (ha : Given a l) : tagPairs (n ++ a) = l := by
  obtain ⟨⟨i, hi⟩, hp⟩ := ha
  rw [tagPairs, drop_name n a hn (hi.shape.imp id And.left)]
  have := hp []
  rw [List.append_nil] at this
  rw [this]
  simp [Dom.pairs]

/-- An element with content. -/
theorem Reads.elem (n a : Str) {l : Pairs} (hn : goodName n = true) (ha : Given a l) {c : Str} {ns : List Node}
    (h : Reads c ns) : Reads (b!"<" ++ n ++ a ++ b!">" ++ c ++ b!"</" ++ n ++ b!">") [.elem n l ns] := by
  obtain ⟨toks, h1, h2⟩ := h
  obtain ⟨i, hi⟩ := ha.attrs
  have hall : n.all nameByte = true := by
    simp only [goodName, Bool.and_eq_true] at hn
    exact hn.1.2
  have hv : n ∉ voids := by
    simp only [goodName, Bool.and_eq_true, decide_eq_true_eq] at hn
    exact hn.2
  refine ⟨.tag (n ++ a) :: (toks ++ [.tag (c!"/" :: n)]), fun rest => ?_, ?_⟩
  · have e : b!"<" ++ n ++ a ++ b!">" ++ c ++ b!"</" ++ n ++ b!">" ++ rest =
        c!"<" :: (n ++ (a ++ (c!">" :: (c ++ (c!"<" :: c!"/" :: (n ++ (c!">" :: rest))))))) := by simp
    rw [e]
    have s1 : ∀ r : Str, lex .text (c!"<" :: r) = lex (.tag []) r := fun _ => rfl
    have s2 : ∀ (d r : Str), lex (.tag d) (c!">" :: r) = .tag d :: lex .text r := fun _ _ => rfl
    have s3 : ∀ r : Str, lex .text (c!"<" :: c!"/" :: r) = lex (.tag [c!"/"]) r := fun _ => rfl
    rw [s1, lex_name _ _ _ hall, hi.run, s2, h1, s3, lex_name _ _ _ hall, s2]
    simp
  · simp only [events, kind_opens n a hn hi, events_append, kind_closes, h2, tagPairs_given n a hall ha, flatL,
      Node.flat, if_neg hv, List.append_nil]

/-- The end of a tag without content. -/
theorem pairs_end (a z : Str) {l : Pairs} (ha : Given a l) (hz : z = b!" /" ∨ z = b!"/") : pairs .gap (a ++ z) = l := by
  rw [ha.pairs]
  rcases hz with rfl | rfl <;> simp [pairs]

theorem tagName_name (n a : Str) (hn : n.all nameByte = true) (ha : a.head? = some c!" " ∨ a.head? = some c!"/") :
    tagName (n ++ a) = n := by
  induction n with
  | nil =>
    cases a with
    | nil => rfl
    | cons b a =>
      simp only [List.head?_cons, Option.some.injEq] at ha
      rcases ha with rfl | rfl <;> rfl
  | cons b n ih =>
    simp only [List.all_cons, Bool.and_eq_true] at hn
    obtain ⟨-, -, h3, h4, -⟩ := nameByte_ne hn.1
    have := ih hn.2
    simp only [tagName] at this ⊢
    simp only [List.cons_append, List.takeWhile_cons, ne_eq, h3, h4, not_false_eq_true, decide_true, Bool.and_self, if_true]
    rw [this]

/-- An element without content. -/
theorem Reads.void (n a z : Str) {l : Pairs} (hn : n.all nameByte = true) (hv : n ∈ voids) (ha : Given a l)
    (hn0 : a.head? = some c!" ") (hz : z = b!" /" ∨ z = b!"/")
    (hk : kind (n ++ a ++ z) = .empty) :
    Reads (b!"<" ++ n ++ a ++ z ++ b!">") [.elem n l []] := by
  obtain ⟨i, hi⟩ := ha.attrs
  have hz' : ∀ c rest, lex (.tag c) (z ++ b!">" ++ rest) = .tag (c ++ z) :: lex .text rest := by
    rcases hz with rfl | rfl
    · exact lex_slash
    · exact lex_slash'
  refine ⟨[.tag (n ++ a ++ z)], fun rest => ?_, ?_⟩
  · have e : b!"<" ++ n ++ a ++ z ++ b!">" ++ rest = c!"<" :: (n ++ (a ++ (z ++ b!">" ++ rest))) := by simp
    rw [e]
    have s1 : ∀ r : Str, lex .text (c!"<" :: r) = lex (.tag []) r := fun _ => rfl
    rw [s1, lex_name _ _ _ hn, hi.run, hz']
    simp
  · have h0 : (a ++ z).head? = some c!" " := by
      rw [List.head?_append, hn0]
      rfl
    have h1 : tagPairs (n ++ a ++ z) = l := by
      rw [List.append_assoc, tagPairs, drop_name n (a ++ z) hn (.inr h0), pairs_end a z ha hz]
    have h2 : tagName (n ++ a ++ z) = n := by
      rw [List.append_assoc]
      exact tagName_name n _ hn (.inl h0)
    simp only [events, hk, h1, h2, flatL, Node.flat, if_pos hv, List.append_nil]

/-- A constant tag without content. -/
theorem Reads.const (s c n : Str) (l : Pairs) (h : ∀ rest, lex .text (s ++ rest) = .tag c :: lex .text rest)
    (he : events [.tag c] = flatL [.elem n l []]) : Reads s [.elem n l []] := ⟨[.tag c], h, he⟩

/-! ## Inlines -/

theorem spanTag_name (v : SpanVariant) : spanTag v = spanName v := by cases v <;> rfl

theorem refHref_shown (v : RefVariant) (t : Str) : refHref v t = shownTarget v t := by cases v <;> rfl

theorem shown_balanced (v : RefVariant) {t : Str} (h : balanced t = true) : balanced (shownTarget v t) = true := by
  cases v <;> exact h

theorem shown_unquoted (v : RefVariant) {t : Str} (h : unquoted t = true) : unquoted (shownTarget v t) = true := by
  cases v <;> exact h

mutual
theorem reads_inline (i : Inline) (h : tidyI balanced i = true) : Reads (inline i) (ofInline i) := by
  cases i with
  | lit n v l => exact .text _ h
  | brk l => exact .const b!"<br />" b!"br /" b!"br" [] (fun _ => rfl) (by decide)
  | span v f is m l o =>
    simp only [tidyI, Bool.and_eq_true] at h
    have ht : Given (classAttr m ++ if v = .footnote then b!" data-type=\"footnote\"" else []) (classes m ++ spanType v) := by
      refine (Given.classes h.1).append ?_
      have hf : Given b!" data-type=\"footnote\"" [(b!"data-type", b!"footnote")] :=
        .one b!"data-type" b!"footnote" (by decide) (by decide) (by decide)
      cases v
      all_goals first | exact hf | exact .nil
    have := Reads.elem (spanTag v) _ (spanTag_good v) ht (reads_inlines is h.2)
    rw [spanTag_name] at this
    simpa only [Html.inline, ofInline, spanTag_name, List.append_assoc] using this
  | ref v t is m l =>
    simp only [tidyI, Bool.and_eq_true] at h
    obtain ⟨⟨⟨hm, hu⟩, hb⟩, his⟩ := h
    have link : ∀ v, v ≠ .image → Reads (inline (.ref v t is m l)) (ofInline (.ref v t is m l)) := by
      intro v hv
      have ha : Given (classAttr m ++ (b!" href=\"" ++ shownTarget v t ++ b!"\"")) (classes m ++ [(b!"href", shownTarget v t)]) :=
        (Given.classes hm).append (.one b!"href" _ (by decide) (shown_unquoted v hu) (by decide))
      cases is with
      | nil =>
        have := Reads.elem b!"a" _ (by decide) ha (.text _ (shown_balanced v hb))
        cases v
        · simpa [Html.inline, ofInline, refHref_shown, List.append_assoc] using this
        · simpa [Html.inline, ofInline, refHref_shown, List.append_assoc] using this
        · exact absurd rfl hv
      | cons i is =>
        have := Reads.elem b!"a" _ (by decide) ha (reads_inlines (i :: is) his)
        cases v
        · simpa [Html.inline, inlines, ofInline, refHref_shown, List.append_assoc] using this
        · simpa [Html.inline, inlines, ofInline, refHref_shown, List.append_assoc] using this
        · exact absurd rfl hv
    cases v with
    | link => exact link _ (by decide)
    | xref => exact link _ (by decide)
    | image =>
      have ha : Given (classAttr m ++ (b!" src=\"" ++ t ++ b!"\"")) (classes m ++ [(b!"src", t)]) :=
        (Given.classes hm).append (.one b!"src" _ (by decide) hu (by decide))
      have hk : kind (b!"img" ++ (classAttr m ++ (b!" src=\"" ++ t ++ b!"\"")) ++ b!" /") = .empty := by
        have := kind_slash (b!"mg" ++ (classAttr m ++ (b!" src=\"" ++ t ++ b!"\"")) ++ b!" ") c!"i" (by decide)
        rw [← this]
        congr 1
        simp
      have h0 : (classAttr m ++ (b!" src=\"" ++ t ++ b!"\"")).head? = some c!" " := by
        unfold classAttr
        split <;> simp
      have := Reads.void b!"img" _ b!" /" (by decide) (by decide) ha h0 (.inl rfl) hk
      simpa [Html.inline, ofInline] using this
theorem reads_inlines (is : List Inline) (h : tidyIs balanced is = true) : Reads (inlines is) (ofInlines is) := by
  cases is with
  | nil => exact .nil
  | cons i is =>
    simp only [tidyIs, Bool.and_eq_true] at h
    exact (reads_inline i h.1).append (reads_inlines is h.2)
end

/-! ## Parts of blocks -/

theorem value_attrOf (m : Option Meta) (key : Str) : value m key = attrOf m key := by cases m <;> rfl

theorem reads_leaf (n : LeafName) (is : List Inline) (m : Option Meta) (h : tidyIs balanced is = true)
    (hm : tidyMeta balanced m = true) : Reads (leaf n is m) (ofLeaf n is m) := by
  have hi := reads_inlines is h
  have hc := Given.classes hm
  cases n with
  | paragraph =>
    have := Reads.elem b!"p" _ (by decide) hc hi
    simpa [leaf, leafTag, ofLeaf] using this
  | literal =>
    have := Reads.elem b!"pre" _ (by decide) hc hi
    simpa [leaf, leafTag, ofLeaf] using this
  | listing =>
    have := Reads.elem b!"pre" _ (by decide)
      (hc.append (.opt b!"data-code-language" (attrOf m b!"language") (by decide) (tidyMeta_parts hm).2.2.2.1 (by decide))) hi
    simpa [leaf, leafTag, ofLeaf, value_attrOf] using this
  | verse =>
    have := Reads.elem b!"pre" _ (by decide)
      (hc.append (.one b!"data-type" b!"verse" (by decide) (by decide) (by decide))) hi
    simpa [leaf, leafTag, ofLeaf] using this
  | pass => exact hi

theorem reads_heading (n : ParentName) (t : List Inline) (h : tidyIs balanced t = true) :
    Reads (heading (parentLevel n) t) (unlessNone (boxHeading n) t) := by
  unfold heading unlessNone
  split
  · exact .nil
  · have := ((Reads.space b!"\n        " (by decide)).append
      (Reads.elem (b!"h" ++ parentLevel n) [] (parentLevel_good n) .nil (reads_inlines t h))).append
      (Reads.space b!"\n        " (by decide))
    have e : b!"h" ++ parentLevel n = boxHeading n := by cases n <;> rfl
    rw [← e]
    simpa using this

theorem reads_credit (m : Option Meta) (h : tidyMeta balanced m = true) : Reads (attribution m) (ofCredit m) := by
  obtain ⟨-, -, -, -, h5, h6⟩ := tidyMeta_parts h
  show Reads (attribution m) (if attrOf m b!"attribution" = [] then [] else [.elem b!"p" [(b!"data-type", b!"attribution")]
    (.text (attrOf m b!"attribution") :: if attrOf m b!"citation" = [] then [] else [.text b!",", .text (attrOf m b!"citation")])])
  unfold attribution
  split
  · exact .nil
  · have ha := Given.one b!"data-type" b!"attribution" (by decide) (by decide) (by decide)
    have hc : Reads (if attrOf m b!"citation" = [] then [] else b!", " ++ attrOf m b!"citation")
        (if attrOf m b!"citation" = [] then [] else [.text b!",", .text (attrOf m b!"citation")]) := by
      split
      · exact .nil
      · exact ((Reads.text b!"," (by decide)).append (Reads.space b!" " (by decide))).append (Reads.text _ h6)
    have := Reads.elem b!"p" _ (by decide) ha ((Reads.text _ h5).append hc)
    simpa [List.append_assoc] using this

theorem reads_principal (is : List Inline) (h : tidyIs balanced is = true) : Reads (principal is) (unlessNone b!"p" is) := by
  unfold principal unlessNone
  split
  · exact .nil
  · have := Reads.elem b!"p" [] (by decide) .nil (reads_inlines is h)
    simpa [List.append_assoc] using this

theorem reads_tagged (tag : Str) (skip : Bool) (m : Option Meta) (id dt : Str) {l : Pairs} (ht : goodName tag = true)
    (hm : tidyMeta balanced m = true) (ha : Given (attr b!"id" id ++ attr b!"data-type" dt) l)
    {c : Str} {ns : List Node} (h : Reads c ns) :
    Reads (openTag tag skip m id dt ++ c ++ closeTag tag skip) (wrap skip tag (classes m ++ l) ns) := by
  cases skip with
  | true => simpa [openTag, closeTag, wrap] using h
  | false =>
    have := Reads.elem tag _ ht ((Given.classes hm).append ha) h
    simpa [openTag, closeTag, wrap, List.append_assoc] using this

/-! ## Tables -/

theorem cellInlines_text (b : Block) : cellInlines b = cellText b := by cases b <;> rfl

theorem cellText_tidy (b : Block) (h : tidy balanced b = true) : tidyIs balanced (cellText b) = true := by
  cases b <;> simp only [cellText, tidy, Bool.and_eq_true, tidyIs] at * <;> simp only [h]

theorem reads_cell (tag : Str) (b : Block) (h : tidy balanced b = true) (ht : goodName tag = true) :
    Reads (cell tag (some b)) [.elem tag [] (ofInlines (cellText b))] := by
  have := Reads.elem tag [] ht .nil (reads_inlines _ (cellText_tidy b h))
  have e : cell tag (some b) = b!"<" ++ tag ++ [] ++ b!">" ++ inlines (cellText b) ++ b!"</" ++ tag ++ b!">" := by
    simp [cell, cellInlines_text]
  rw [e]
  exact this

/-- Rows. -/
def ofRows (rows : List (List Block)) : List Node := rows.map fun r => Node.elem b!"tr" [] (r.map ofCell)

theorem reads_cellLoop (cols total : Nat) (cs : List Block) (idx : Nat) (s p done : Str) (cur : List Block)
    (rows : List (List Block)) (h : tidyL balanced cs = true) (hs : cellLoop cols total cs idx = .ok s)
    (hp : Reads p (cur.map ofCell)) (hd : Reads done (ofRows rows)) :
    Reads (done ++ b!"<tr>" ++ p ++ s ++ b!"</tr>") (ofRows (Render.htmlLoop cols total cs idx cur rows)) := by
  have row : ∀ {p : Str} {cur : List Block}, Reads p (cur.map ofCell) →
      Reads (b!"<tr>" ++ p ++ b!"</tr>") (ofRows [cur]) := by
    intro p cur hp
    have := Reads.elem b!"tr" [] (by decide) .nil hp
    simpa [ofRows] using this
  induction cs generalizing idx s p done cur rows with
  | nil =>
    cases hs
    have := hd.append (row hp)
    simpa [Render.htmlLoop, ofRows] using this
  | cons c cs ih =>
    simp only [tidyL, Bool.and_eq_true] at h
    have hc : Reads (cell b!"td" (some c)) [ofCell c] := reads_cell b!"td" c h.1 (by decide)
    have hsp : Reads b!"\n        " [] := .space _ (by decide)
    have hp' : Reads (p ++ (cell b!"td" (some c) ++ b!"\n        ")) ((cur ++ [c]).map ofCell) := by
      have := hp.append (hc.append hsp)
      simpa using this
    simp only [cellLoop] at hs
    simp only [Render.htmlLoop]
    by_cases h0 : 0 < idx
    · rw [if_pos h0] at hs
      split at hs
      · cases hs
      · obtain ⟨rest, hr, hs⟩ := bind_ok hs
        cases hs
        by_cases hb : (idx + 1) % cols = 0 ∧ idx + 1 ≠ total
        · rw [if_pos hb, if_pos ⟨h0, hb⟩]
          have h1 := row hp'
          have h1' : Reads (done ++ (b!"<tr>" ++ (p ++ (cell b!"td" (some c) ++ b!"\n        ")) ++ b!"</tr>") ++ b!"\n        ")
              (ofRows (rows ++ [cur ++ [c]])) := by
            have := (hd.append h1).append hsp
            simpa [ofRows] using this
          have := ih (idx + 1) rest b!"\n        " _ [] (rows ++ [cur ++ [c]]) h.2 hr hsp h1'
          simpa using this
        · rw [if_neg hb, if_neg (fun x => hb x.2)]
          have := ih (idx + 1) rest _ done (cur ++ [c]) rows h.2 hr hp' hd
          simpa using this
    · rw [if_neg h0] at hs
      obtain ⟨rest, hr, hs⟩ := bind_ok hs
      cases hs
      rw [if_neg (fun x => h0 x.1)]
      have := ih (idx + 1) rest _ done (cur ++ [c]) rows h.2 hr hp' hd
      simpa using this

theorem tidyL_mem' {bs : List Block} (h : tidyL balanced bs = true) : ∀ b ∈ bs, tidy balanced b = true := by
  induction bs with
  | nil => nofun
  | cons b bs ih =>
    simp only [tidyL, Bool.and_eq_true] at h
    intro x hx
    rcases List.mem_cons.1 hx with rfl | hx
    · exact h.1
    · exact ih h.2 x hx

theorem tidyL_drop' {bs : List Block} (n : Nat) (h : tidyL balanced bs = true) : tidyL balanced (bs.drop n) = true := by
  induction n generalizing bs with
  | zero => exact h
  | succ n ih =>
    cases bs with
    | nil => rfl
    | cons b bs =>
      simp only [tidyL, Bool.and_eq_true] at h
      exact ih h.2

theorem reads_head (cells : List Block) (h : tidyL balanced cells = true) (is : List Nat) :
    Reads (headCells cells is) ((is.map fun i => cells[i]?).map ofHead) := by
  induction is with
  | nil => exact .nil
  | cons i is ih =>
    have hsp : Reads b!"\n    " [] := .space _ (by decide)
    have h1 : Reads (cell b!"th" cells[i]?) [ofHead cells[i]?] := by
      cases hk : cells[i]? with
      | none =>
        have := Reads.elem b!"th" [] (by decide) .nil .nil
        simpa [cell, ofHead] using this
      | some b => exact reads_cell b!"th" b (tidyL_mem' h b (List.mem_of_getElem? hk)) (by decide)
    have := (h1.append hsp).append ih
    simpa [headCells] using this

theorem reads_table (titled : Bool) (cells : List Block) (m : Option Meta) (s : Str) (h : tidyL balanced cells = true)
    (hs : table titled cells m = .ok s) : Reads s [ofTable titled cells m] := by
  unfold table at hs
  cases m with
  | none => cases hs
  | some m =>
    simp only at hs
    cases hc : m.attributes.get? b!"cols" with
    | none => rw [hc] at hs; cases hs
    | some c =>
      rw [hc] at hs
      simp only at hs
      have hcol : columns (some m) = colsInt c := by simp [columns, colsInt, value, hc]
      generalize hst : (if m.options.contains b!"header" = true then colsInt c else 0) = start at hs
      by_cases hlt : cells.length < start
      · rw [if_pos hlt] at hs; cases hs
      rw [if_neg hlt] at hs
      subst hst
      obtain ⟨body, hr, hs⟩ := bind_ok hs
      have hs8 : Reads b!"\n        " [] := .space _ (by decide)
      have hs4 : Reads b!"\n    " [] := .space _ (by decide)
      have hb := reads_cellLoop _ _ _ _ _ b!"\n        " [] [] [] (tidyL_drop' _ h) hr hs8 .nil
      have hhd : headed (some m) = m.options.contains b!"header" := rfl
      unfold ofTable
      rw [hcol]
      generalize headed (some m) = hd at hhd
      cases hd with
      | true =>
        rw [← hhd] at hs hb
        cases hs
        have h1 := Reads.elem b!"thead" [] (by decide) .nil (hs8.append (reads_head cells h (List.range (colsInt c))))
        have h2 := Reads.elem b!"tbody" [] (by decide) .nil ((hs8.append hb).append hs4)
        have h3 := Reads.elem b!"table" [] (by decide) .nil ((((hs4.append h1).append hs4).append h2).append hs4)
        simpa [ofRows, Render.htmlTable] using h3
      | false =>
        rw [← hhd] at hs hb
        cases titled with
        | false =>
          cases hs
          have h3 := Reads.elem b!"table" [] (by decide) .nil (hb.append hs4)
          simpa [ofRows, Render.htmlTable] using h3
        | true =>
          cases hs
          have h1 := Reads.elem b!"thead" [] (by decide) .nil hs8
          have h2 := Reads.elem b!"tbody" [] (by decide) .nil ((hs8.append hb).append hs4)
          have h3 := Reads.elem b!"table" [] (by decide) .nil ((((hs4.append h1).append hs4).append h2).append hs4)
          simpa [ofRows, Render.htmlTable, headCells] using h3

/-! ## Blocks -/

theorem reads_caption (is : List Inline) (h : tidyIs balanced is = true) :
    Reads (if is.isEmpty then [] else b!"\n        <figcaption>" ++ inlines is ++ b!"</figcaption>")
      (unlessNone b!"figcaption" is) := by
  unfold unlessNone
  split
  · exact .nil
  · have := (Reads.space b!"\n        " (by decide)).append
      (Reads.elem b!"figcaption" [] (by decide) .nil (reads_inlines is h))
    simpa using this

theorem reads_terms (is : List Inline) (h : tidyIs balanced is = true) :
    Reads (if is.isEmpty then [] else b!"\n        <dt>" ++ inlines is ++ b!"</dt>\n        ") (unlessNone b!"dt" is) := by
  unfold unlessNone
  split
  · exact .nil
  · have := ((Reads.space b!"\n        " (by decide)).append
      (Reads.elem b!"dt" [] (by decide) .nil (reads_inlines is h))).append (Reads.space b!"\n        " (by decide))
    simpa using this

theorem reads_image (target : Str) (m : Option Meta) (h : unquoted target = true) (hm : tidyMeta balanced m = true) :
    Reads (b!"\n        <img src=\"" ++ target ++ b!"\"" ++ attr b!"alt" (attrOf m b!"positional_1") ++ b!"/>")
      [.elem b!"img" ((b!"src", target) :: unlessEmpty b!"alt" (value m b!"positional_1")) []] := by
  have ha : Given (b!" src=\"" ++ target ++ b!"\"" ++ attr b!"alt" (attrOf m b!"positional_1"))
      ([(b!"src", target)] ++ unlessEmpty b!"alt" (attrOf m b!"positional_1")) :=
    (Given.one b!"src" _ (by decide) h (by decide)).append
      (.opt b!"alt" _ (by decide) (tidyMeta_parts hm).2.2.1 (by decide))
  have hk : kind (b!"img" ++ (b!" src=\"" ++ target ++ b!"\"" ++ attr b!"alt" (attrOf m b!"positional_1")) ++ b!"/") =
      .empty := by
    have := kind_slash (b!"mg" ++ (b!" src=\"" ++ target ++ b!"\"" ++ attr b!"alt" (attrOf m b!"positional_1"))) c!"i"
      (by decide)
    rw [← this]
    congr 1
  have := (Reads.space b!"\n        " (by decide)).append
    (Reads.void b!"img" _ b!"/" (by decide) (by decide) ha rfl (.inr rfl) hk)
  simpa [value_attrOf] using this

theorem parentTag_box (n : ParentName) (h : n ≠ .table) : parentTag n = boxName n := by
  cases n <;> first | rfl | exact absurd rfl h

theorem parentType_box (n : ParentName) (v : Option ParentVariant) :
    Given (attr b!"id" [] ++ attr b!"data-type" (parentType n v)) (boxType n v) := by
  have h : Given (attr b!"data-type" (parentType n v)) (unlessEmpty b!"data-type" (parentType n v)) :=
    .opt _ _ (by decide) (parentType_unquoted n v) (by decide)
  have e : unlessEmpty b!"data-type" (parentType n v) = boxType n v := by
    cases n <;> cases v <;> first | rfl | (rename_i v; cases v <;> rfl)
  rw [← e]
  exact h

mutual
theorem reads_block (titled skip : Bool) (b : Block) (s : Str) (h : tidy balanced b = true)
    (hs : block titled skip b = .ok s) : Reads s (ofBlock titled skip b) := by
  have none_ : Given (attr b!"id" [] ++ attr b!"data-type" []) [] := .nil
  have sp4 : Reads b!"\n    " [] := .space _ (by decide)
  cases b with
  | leaf n f d is m l =>
    simp only [tidy, Bool.and_eq_true] at h
    cases hs
    exact sp4.append (reads_leaf n is m h.1 h.2)
  | brk v l =>
    cases v with
    | page =>
      cases hs
      have := (sp4.append (Reads.elem b!"div" _ (by decide)
        (Given.one b!"style" b!"page-break-after: always;" (by decide) (by decide) (by decide)) .nil)).append sp4
      simpa [ofBlock] using this
    | thematic =>
      cases hs
      have hr : Reads b!"<hr />" [.elem b!"hr" [] []] := .const b!"<hr />" b!"hr /" b!"hr" [] (fun _ => rfl) (by decide)
      have := sp4.append hr
      simpa [ofBlock] using this
  | «section» t m level bs l =>
    simp only [tidy, Bool.and_eq_true] at h
    obtain ⟨children, hc, hs⟩ := bind_ok hs
    cases hs
    have hat : Given (b!" data-type=\"" ++ (b!"sect" ++ natToStr level) ++ b!"\"" ++ (classAttr m
        ++ attr b!"id" (attrOf m b!"id"))) ([(b!"data-type", b!"sect" ++ natToStr level)] ++ (classes m ++
          unlessEmpty b!"id" (value m b!"id"))) :=
      (Given.one b!"data-type" _ (by decide) (unquoted_append rfl (natToStr_unquoted level)) (by decide)).append
        ((Given.classes h.1.2).append (.id h.1.2))
    have h2 := reads_blocks titled false bs children h.2 hc
    have := Reads.elem b!"section" _ (by decide) hat
      ((((reads_heading .quote t h.1.1).append (reads_credit m h.1.2)).append sp4).append h2)
    simpa [parentLevel, ofBlock, boxHeading] using this
  | list v items m l =>
    simp only [tidy, Bool.and_eq_true] at h
    obtain ⟨children, hc, hs⟩ := bind_ok hs
    cases hs
    have h2 := reads_blocks titled false items children h.2 hc
    have := reads_tagged (listTag v) skip m [] [] (listTag_good v) h.1 none_ (h2.append (reads_credit m h.1))
    have e : listTag v = listName v := by cases v <;> rfl
    rw [e] at this
    simpa [ofBlock, e] using this
  | dlist items m l =>
    simp only [tidy, Bool.and_eq_true] at h
    obtain ⟨children, hc, hs⟩ := bind_ok hs
    cases hs
    have h2 := reads_blocks titled false items children h.2 hc
    have := reads_tagged b!"dl" skip m [] [] (by decide) h.1 none_ (h2.append (reads_credit m h.1))
    simpa [ofBlock] using this
  | listItem k p bs m l =>
    simp only [tidy, Bool.and_eq_true] at h
    obtain ⟨children, hc, hs⟩ := bind_ok hs
    cases hs
    have h2 := reads_blocks titled false bs children h.2 hc
    have := reads_tagged b!"li" skip m [] [] (by decide) h.1.2 none_
      (((reads_principal p h.1.1).append h2).append (reads_credit m h.1.2))
    simpa [ofBlock] using this
  | dlistItem ts p bs m l =>
    simp only [tidy, Bool.and_eq_true] at h
    obtain ⟨children, hc, hs⟩ := bind_ok hs
    cases hs
    have h2 := reads_blocks titled false bs children h.2 hc
    have := (reads_terms ts h.1.1.1).append (reads_tagged b!"dd" skip m [] [] (by decide) h.1.2 none_
      (((reads_principal p h.1.1.2).append h2).append (reads_credit m h.1.2)))
    simpa only [ofBlock, List.append_assoc, List.append_nil] using this
  | image target c m l =>
    simp only [tidy, Bool.and_eq_true] at h
    cases hs
    have hid : Given (attr b!"id" (attrOf m b!"id") ++ attr b!"data-type" []) (unlessEmpty b!"id" (value m b!"id")) := by
      have := (Given.id h.2).append .nil
      simpa [attr] using this
    have := reads_tagged b!"figure" skip m _ [] (by decide) h.2 hid
      ((((reads_image target m h.1.1 h.2).append (reads_caption c h.1.2)).append sp4).append (reads_credit m h.2))
    simpa only [ofBlock, List.append_assoc, List.append_nil, List.nil_append, List.cons_append] using this
  | parent n v d bs t m l =>
    simp only [tidy, Bool.and_eq_true] at h
    by_cases hn : n = .table
    · subst hn
      exact reads_table titled bs m s h.2 hs
    · have hs' : (do
          let children ← blocks titled (n = .admonition) bs
          return openTag (parentTag n) skip m [] (parentType n v) ++ heading (parentLevel n) t ++ children ++ attribution m
            ++ closeTag (parentTag n) skip : M Str) = .ok s := by
        cases n <;> first | exact hs | exact absurd rfl hn
      obtain ⟨children, hc, hs⟩ := bind_ok hs'
      cases hs
      have h2 := reads_blocks titled _ bs children h.2 hc
      have := reads_tagged (parentTag n) skip m [] (parentType n v) (parentTag_good n) h.1.2 (parentType_box n v)
        (((reads_heading n t h.1.1).append h2).append (reads_credit m h.1.2))
      rw [parentTag_box n hn] at this ⊢
      have e : ofBlock titled skip (.parent n v d bs t m l) = wrap skip (boxName n) (classes m ++ boxType n v)
          (unlessNone (boxHeading n) t ++ ofBlocks titled (n = .admonition) bs ++ ofCredit m) := by
        cases n <;> first | rfl | exact absurd rfl hn
      rw [e]
      simpa only [List.append_assoc] using this
  | tableCell is m l =>
    simp only [tidy, Bool.and_eq_true] at h
    cases hs
    have := reads_tagged b!"UNHANDLED" skip m [] [] (by decide) h.2 none_
      ((reads_inlines is h.1).append (reads_credit m h.2))
    simpa only [ofBlock, List.append_assoc, List.append_nil] using this
theorem reads_blocks (titled skip : Bool) (bs : List Block) (s : Str) (h : tidyL balanced bs = true)
    (hs : blocks titled skip bs = .ok s) : Reads s (ofBlocks titled skip bs) := by
  cases bs with
  | nil => cases hs; exact .nil
  | cons b bs =>
    simp only [tidyL, Bool.and_eq_true] at h
    obtain ⟨x, hx, hs⟩ := bind_ok hs
    obtain ⟨xs, hxs, hs⟩ := bind_ok hs
    cases hs
    exact (reads_block titled skip b x h.1 hx).append (reads_blocks titled skip bs xs h.2 hxs)
end

theorem reads_body (titled : Bool) (bs : List Block) (s : Str) (h : tidyL balanced bs = true)
    (hs : body titled bs = .ok s) : Reads s (ofBlocks titled false bs) := by
  induction bs generalizing s with
  | nil => cases hs; exact .nil
  | cons b bs ih =>
    simp only [tidyL, Bool.and_eq_true] at h
    obtain ⟨x, hx, hs⟩ := bind_ok hs
    obtain ⟨xs, hxs, hs⟩ := bind_ok hs
    cases hs
    exact ((Reads.space b!"\n    " (by decide)).append (reads_block titled false b x h.1 hx)).append (ih xs h.2 hxs)

set_option maxRecDepth 20000 in
/-- A page reads as a declaration and the tree of the graph. -/
theorem met_page (sees : Bool) (g : Asg) (s : Str) (h : tidyDoc balanced g = true) (hs : render sees g = .ok s) :
    met s = .alone b!"!DOCTYPE" [] :: flatL (page sees g) := by
  simp only [tidyDoc, Bool.and_eq_true] at h
  obtain ⟨x, hx, hs⟩ := bind_ok hs
  cases hs
  have ht : Reads (docTitle g.header) (ofTitle g.header) := by
    have := h.1
    cases hh : g.header with
    | none => exact .nil
    | some hd =>
      rw [hh] at this
      exact reads_inlines hd.title this
  have sp : ∀ (s : Str), s.all (fun b => b = c!" " || b = c!"\n") = true → Reads s [] := fun s h => .space s h
  have htitle := Reads.elem b!"title" [] (by decide) .nil ht
  have hbody := Reads.elem b!"body" [] (by decide) .nil ((reads_body _ g.blocks x h.2 hx).append (sp b!"\n" (by decide)))
  have hm1 : Reads b!"<meta charset=\"UTF-8\">" _ :=
    .const _ b!"meta charset=\"UTF-8\"" b!"meta" [(b!"charset", b!"UTF-8")] (fun _ => rfl) (by decide)
  have hm2 : Reads b!"<meta name=\"viewport\" content=\"width=device-width, initial-scale=1\">" _ :=
    .const _ b!"meta name=\"viewport\" content=\"width=device-width, initial-scale=1\"" b!"meta"
      [(b!"name", b!"viewport"), (b!"content", b!"width=device-width, initial-scale=1")] (fun _ => rfl) (by decide +kernel)
  have hhead := Reads.elem b!"head" [] (by decide) .nil
    ((((((sp b!"\n    " (by decide)).append hm1).append
    (sp b!"\n    " (by decide))).append hm2).append (sp b!"\n    " (by decide))).append htitle |>.append
      (sp b!"\n" (by decide)))
  have hlang := Given.one b!"lang" b!"en" (by decide) (by decide) (by decide)
  have hhtml := Reads.elem b!"html" _ (by decide) hlang
    ((((sp b!"\n\n" (by decide)).append hhead).append
    (sp b!"\n\n" (by decide))).append hbody |>.append (sp b!"\n\n" (by decide)))
  have all := ((sp b!"\n" (by decide)).append hhtml).append (sp b!"\n" (by decide))
  have fin : ∀ t s : Str, Reads t (page sees g) → s = b!"\n\n<!DOCTYPE html>" ++ t →
      met s = .alone b!"!DOCTYPE" [] :: flatL (page sees g) := by
    rintro t s ⟨toks, h1, h2⟩ rfl
    have e1 := h1 []
    simp only [List.append_nil, lex] at e1
    have e2 : ∀ r : Str, lex .text (b!"\n\n<!DOCTYPE html>" ++ r) =
        .char c!"\n" :: .char c!"\n" :: .tag b!"!DOCTYPE html" :: lex .text r := fun _ => rfl
    rw [met, e2, e1, ← h2]
    rfl
  simp only [List.nil_append, List.append_nil, List.cons_append] at all
  refine fin _ _ all ?_
  simp only [List.nil_append, List.append_nil, List.append_assoc, List.cons_append]

end Adoc.Dom
