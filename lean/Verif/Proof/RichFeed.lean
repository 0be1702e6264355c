import Verif.Proof.RichSteps
import Verif.Proof.RichFrame
/-!
# Feeding the tokens of a block with inline markup to the parser
-/
namespace Adoc.Rich
open Spec Block Parser Scanner Props

/-! ## Matching tokens -/

theorem pieces_lexemes {l : Str} {ts : List Token} (h : Pieces' l ts) : ts.flatMap Token.lexeme = l := by
  induction h with
  | nil => rfl
  | cons x rest t ts hx ht h ih => simp only [List.flatMap_cons, ht.lexeme, ih]

theorem pieces_types {l : Str} {ts : List Token} (h : Pieces' l ts) : ∀ t ∈ ts, t.ty = .text := by
  induction h with
  | nil => simp
  | cons x rest t ts hx ht h ih =>
    intro u hu
    rcases List.mem_cons.1 hu with rfl | hu
    · exact ht.ty
    · exact ih u hu

theorem matches_lexemes {ss : List Sign} {ts : List Token} (h : Matches ss ts) : ts.flatMap Token.lexeme = written ss := by
  induction h with
  | nil => rfl
  | text l ss ts us hl ht h ih =>
    rw [List.flatMap_append, pieces_lexemes ht, ih]; rfl
  | mark ty l ss t us ht h ih =>
    rw [List.flatMap_cons, ht.lexeme, ih]; rfl

theorem matches_types {ss : List Sign} {ts : List Token} (h : Matches ss ts) :
    ∀ t ∈ ts, t.ty = .text ∨ ∃ l, Sign.mark t.ty l ∈ ss := by
  induction h with
  | nil => simp
  | text l ss ts us hl ht h ih =>
    intro t hm
    rcases List.mem_append.1 hm with hm | hm
    · exact .inl (pieces_types ht t hm)
    · rcases ih t hm with h | ⟨l, h⟩
      · exact .inl h
      · exact .inr ⟨l, List.mem_cons_of_mem _ h⟩
  | mark ty l ss t us ht h ih =>
    intro u hm
    rcases List.mem_cons.1 hm with rfl | hm
    · exact .inr ⟨l, by rw [ht.ty]; simp⟩
    · rcases ih u hm with h | ⟨l, h⟩
      · exact .inl h
      · exact .inr ⟨l, List.mem_cons_of_mem _ h⟩

theorem matches_ne {ss : List Sign} {ts : List Token} (h : Matches ss ts) (hn : ss ≠ []) : ts ≠ [] := by
  cases h with
  | nil => exact absurd rfl hn
  | text l ss ts us hl ht h =>
    cases ht with
    | nil => exact absurd rfl hl
    | cons => simp
  | mark => simp

theorem matches_one {ty : TokenType} {l : Str} {ts : List Token} (h : Matches [.mark ty l] ts) : ∃ t, ts = [t] ∧ IsMark ty l t := by
  cases h with
  | mark _ _ _ t us ht h => cases h; exact ⟨t, rfl, ht⟩

/-! ## The signs of a text -/

theorem line_sign {l : Str} {s : Sign} (h : s ∈ lineSigns l) : ∃ x, s = .text x := by
  unfold lineSigns at h
  split at h
  · cases h
  · simp only [List.mem_singleton] at h
    exact ⟨_, h⟩

theorem text_sign {ls : List Str} {s : Sign} (h : s ∈ textSigns ls) : (∃ x, s = .text x) ∨ s = Spec.newline := by
  induction ls with
  | nil => cases h
  | cons l ls ih =>
    cases ls with
    | nil => exact .inl (line_sign h)
    | cons l' ls =>
      simp only [textSigns, List.mem_append, List.mem_cons] at h
      rcases h with h | h | h
      · exact .inl (line_sign h)
      · exact .inr h
      · exact ih h

/-- A sign that stands for text, a newline or a marker. -/
def PartSign (spans plain : Bool) (s : Sign) : Prop :=
  (∃ x, s = .text x) ∨ s = Spec.newline ∨ ∃ (m : Mark) (l : Str), s = .mark m.type l ∧ spans = true
    ∧ (plain = true → m ≠ .superscript ∧ m ≠ .subscript)

theorem part_sign {p : Part} {s : Sign} (h : s ∈ p.signs) : PartSign p.isSpan p.plain s := by
  cases p with
  | text ls => exact (text_sign h).imp id .inl
  | span m ls =>
    have hm : s = .mark m.type m.str → PartSign (Part.span m ls).isSpan (Part.span m ls).plain s := by
      rintro rfl
      exact .inr (.inr ⟨m, _, rfl, rfl, by simp [Part.plain]⟩)
    simp only [Part.signs, List.mem_cons, List.mem_append, List.mem_nil_iff, or_false] at h
    rcases h with h | h | h
    · exact hm h
    · exact (text_sign h).imp id .inl
    · exact hm h

theorem parts_sign {ps : List Part} {s : Sign} (h : s ∈ ps.flatMap Part.signs) :
    PartSign (ps.any Part.isSpan) (ps.all Part.plain) s := by
  obtain ⟨p, hp, h⟩ := List.mem_flatMap.1 h
  rcases part_sign h with h | h | ⟨m, l, h1, h2, h3⟩
  · exact .inl h
  · exact .inr (.inl h)
  · exact .inr (.inr ⟨m, l, h1, List.any_eq_true.2 ⟨p, hp, h2⟩, fun h => h3 (List.all_eq_true.1 h p hp)⟩)

theorem elem_sign {e : Elem} {s : Sign} (h : s ∈ e.signs) : PartSign e.hasSpan e.plain s ∨ (∃ l, s = .mark .charRef l)
    ∨ (∃ ty l, s = .mark ty l ∧ ty ∈ textTypes) ∧ e.plain = false := by
  cases e with
  | text ls => exact .inl ((text_sign h).imp id .inl)
  | span m ps =>
    have hm : s = .mark m.type m.str → PartSign (Elem.span m ps).hasSpan (Elem.span m ps).plain s := by
      rintro rfl
      refine .inr (.inr ⟨m, _, rfl, rfl, fun h => ?_⟩)
      simp only [Elem.plain, Bool.and_eq_true, ne_eq, decide_eq_true_eq] at h
      exact h.1
    simp only [Elem.signs, List.mem_cons, List.mem_append, List.mem_nil_iff, or_false] at h
    left
    rcases h with h | h | h
    · exact hm h
    · rcases parts_sign h with h | h | ⟨m', l, h1, h2, h3⟩
      · exact .inl h
      · exact .inr (.inl h)
      · refine .inr (.inr ⟨m', l, h1, rfl, fun h => h3 ?_⟩)
        simp only [Elem.plain, Bool.and_eq_true] at h
        exact h.2
    · exact hm h
  | link url ps =>
    simp only [Elem.signs, List.mem_cons, List.mem_append, List.mem_nil_iff, or_false] at h
    rcases h with h | h | h
    · exact .inr (.inr ⟨⟨_, _, h, by decide⟩, rfl⟩)
    · rcases parts_sign h with h | h | ⟨m', l, h1, h2, h3⟩
      · exact .inl (.inl h)
      · exact .inl (.inr (.inl h))
      · exact .inl (.inr (.inr ⟨m', l, h1, h2, by simp [Elem.plain]⟩))
    · exact .inr (.inr ⟨⟨_, _, h, by decide⟩, rfl⟩)
  | xref id =>
    simp only [Elem.signs, List.mem_singleton] at h
    exact .inr (.inr ⟨⟨_, _, h, by decide⟩, rfl⟩)
  | symbol l =>
    simp only [Elem.signs, List.mem_singleton] at h
    exact .inr (.inl ⟨_, h⟩)
  | note ps =>
    simp only [Elem.signs, List.mem_cons, List.mem_append, List.mem_nil_iff, or_false] at h
    rcases h with h | h | h
    · exact .inr (.inr ⟨⟨_, _, h, by decide⟩, rfl⟩)
    · rcases parts_sign h with h | h | ⟨m', l, h1, h2, h3⟩
      · exact .inl (.inl h)
      · exact .inl (.inr (.inl h))
      · exact .inl (.inr (.inr ⟨m', l, h1, h2, by simp [Elem.plain]⟩))
    · exact .inr (.inr ⟨⟨_, _, h, by decide⟩, rfl⟩)
  | image target args =>
    simp only [Elem.signs, List.mem_singleton] at h
    exact .inr (.inr ⟨⟨_, _, h, by decide⟩, rfl⟩)
  | hard =>
    simp only [Elem.signs, List.mem_singleton] at h
    exact .inr (.inr ⟨⟨_, _, h, by decide⟩, rfl⟩)

/-- The tokens of a text can be in a header and below metadata. -/
theorem text_tokens (h : Option Header) (d : Option Meta) (es : List Elem) (hd : d = none ∨ ∀ e ∈ es, e.hasSpan = false)
    (hh : h = none ∨ es.all Elem.plain = true) {ts : List Token} (hm : Matches (es.flatMap Elem.signs) ts) (t : Token)
    (ht : t ∈ ts) : InText d none t.ty ∧ InHeader h t := by
  have hin : ∀ x, t.ty = x → (∀ u : Token, u.ty = x → u.isInline = true) → InHeader h t := by
    intro x hx h1 _
    unfold Token.canBeInHeader
    split <;> first | rfl | exact h1 t hx
  have hout : ∀ e ∈ es, e.plain = false → InHeader h t := by
    intro e he hp hs
    rcases hh with rfl | hh
    · cases hs
    · rw [List.all_eq_true.1 hh e he] at hp; cases hp
  rcases matches_types hm t ht with h1 | ⟨l, h1⟩
  · exact ⟨.inl (by rw [h1]; decide), hin _ h1 (fun u hu => by simp [Token.isInline, hu])⟩
  · obtain ⟨e, he, h1⟩ := List.mem_flatMap.1 h1
    rcases elem_sign h1 with h2 | ⟨l, h2⟩ | ⟨⟨ty, l', h2, h3⟩, h4⟩
    · rcases h2 with ⟨x, h2⟩ | h2 | ⟨m, l', h2, h3, h4⟩
      · cases h2
      · simp only [Spec.newline, Sign.mark.injEq] at h2
        exact ⟨.inr (.inl ⟨h2.1, rfl⟩), hin _ h2.1 (fun u hu => by simp [Token.isInline, hu])⟩
      · simp only [Sign.mark.injEq] at h2
        constructor
        · rcases hd with rfl | hd
          · exact .inr (.inr ⟨⟨m, h2.1⟩, rfl⟩)
          · rw [hd e he] at h3; cases h3
        · rcases hh with rfl | hh
          · intro hs; cases hs
          · have := h4 (List.all_eq_true.1 hh e he)
            refine hin _ h2.1 (fun u hu => ?_)
            unfold Token.isInline
            rw [hu]
            cases m <;> first | rfl | exact absurd rfl this.1 | exact absurd rfl this.2
    · simp only [Sign.mark.injEq] at h2
      exact ⟨.inl (by rw [h2.1]; decide), hin _ h2.1 (fun u hu => by simp [Token.isInline, hu])⟩
    · simp only [Sign.mark.injEq] at h2
      rw [← h2.1] at h3
      exact ⟨.inl h3, hout e he h4⟩

/-! ## Texts -/

/-- After a text that began at `p0`. -/
structure Prose (p0 : Parser) (es : List Elem) (p : Parser) : Prop where
  eq : p = { p0 with inlines := p.inlines, closeParent := p0.closeParent || es.any Elem.refers, inBlockLine := p.inBlockLine
                     lastTy := p.lastTy }
  line : p.inBlockLine = true → p0.inBlockLine = true
  text : bareL p.inlines.reverse = shownL [] es
  ne : p.inlines ≠ []
  last : After p.lastTy
  locs : ∀ i ∈ p.inlines, i.locations ≠ []
  clear : p.lastTy.clearsNewlineAfter = false

theorem shownL_nil (es : List Elem) : shownL [] es = es.map Elem.inline := by
  unfold shownL
  apply List.map_congr_left
  intro e _
  cases e <;> rfl

theorem feed_prose (w : World) (k : Nat) (p : Parser) (hb : Base p) (hi : p.inlines = []) (hd : p.dangling = none)
    (hsp : p.inSpan = false) (es : List Elem) (ho : ProseOk es) (hk : p.preserveNl = true → OneLine es) (ts : List Token)
    (ht : Matches (es.flatMap Elem.signs) ts) :
    ∃ q, Feeds w k ts p q ∧ Prose p es q := by
  have h0 : St p (([] : List Elem).map Elem.inline).reverse false p.closeParent (pending ([] : List Elem).getLast?) false p := by
    refine ⟨by rw [← hsp], fun h => h, ?_, ?_, ?_, ?_, by simp, by rw [hi]; simp, by simp [pending]⟩
    · simp [pending, hi, bareL]
    · rw [hi]; trivial
    · rw [hd]; rfl
    · rw [hd]; simp
  obtain ⟨q, mid, h1, h2, h3⟩ := h0.elems es [] hb w k (by simp) (by simp) (by simp) ts ht ho.2 hk
  have h3 := h3 (by simpa using ho.1)
  have hdq : q.dangling = none := by
    have := h2.dang
    cases hq : q.dangling with
    | none => rfl
    | some t => rw [hq] at this; cases this
  have htx : bareL q.inlines.reverse = es.map Elem.inline := by
    have := h2.top
    simp only [Bool.false_eq_true, if_false, List.nil_append] at this
    rw [bareL_reverse, ← this, List.reverse_reverse]
  refine ⟨q, h1, ⟨?_, h2.line, by rw [shownL_nil, htx], ?_, ?_, h2.locs, (h2.quiet h3).2.2⟩⟩
  · have := h2.eq
    rw [hdq, ← hd, ← hsp] at this
    exact this
  · intro hn
    rw [hn] at htx
    simp only [List.reverse_nil, bareL] at htx
    exact ho.1 (List.map_eq_nil_iff.1 htx.symm)
  · have := h2.quiet h3
    exact ⟨this.1, this.2.1⟩

/-- The same in a header or below metadata. -/
theorem feed_prose_over (w : World) (k : Nat) (p : Parser) (hb : Base p) (hi : p.inlines = []) (hd : p.dangling = none)
    (hsp : p.inSpan = false) (es : List Elem) (ho : ProseOk es) (hk : p.preserveNl = true → OneLine es) (ts : List Token)
    (ht : Matches (es.flatMap Elem.signs) ts) (h : Option Header) (d : Option Meta) (hs : d = none ∨ ∀ e ∈ es, e.hasSpan = false)
    (hh : h = none ∨ es.all Elem.plain = true) :
    ∃ q, Feeds w k ts (over h d none p) (over h d none q) ∧ Prose p es q := by
  obtain ⟨q, h1, h2⟩ := feed_prose w k p hb hi hd hsp es ho hk ts ht
  refine ⟨q, h1.over h d none hb.data hb.title hb.openText hb.header (text_tokens h d es hs hh ht) true (fun _ => rfl) ?_, h2⟩
  rw [runT_matches ht]
  exact runS_elems es none ho.2

theorem Prose.calm {p q : Parser} {es : List Elem} (h : Prose p es q) (hc : Calm p) : Calm q := by
  rw [h.eq]; exact hc.same rfl

theorem Prose.fields {p q : Parser} {es : List Elem} (h : Prose p es q) : q.blocks = p.blocks ∧ q.asg = p.asg
    ∧ q.inSpan = p.inSpan ∧ q.closeParent = (p.closeParent || es.any Elem.refers) ∧ q.forceNew = p.forceNew
    ∧ q.dangling = p.dangling := by
  rw [h.eq]; exact ⟨rfl, rfl, rfl, rfl, rfl, rfl⟩

/-! ## Pending text -/

/-- Pending text that becomes a new paragraph with the metadata before it. -/
theorem addInlines_new (p : Parser) (hc : Base p) (hsp : p.inSpan = false) (hne : p.inlines ≠ []) (d : Option Meta)
    (hd : ∀ m, d = some m → m.declared ≠ some .quote ∧ p.openLines = [] ∧ ∀ i ∈ p.inlines, i.locations ≠ [])
    (hb : ∀ b rest, p.blocks = b :: rest → (b.takesInlines && !p.inBlockLine && !p.forceNew) = false) :
    ∃ l, addInlines (over none d none p) = .ok { p with
      inlines := [], blocks := .leaf .paragraph .paragraph none p.inlines.reverse (metaOf d) l :: p.blocks } := by
  have ho := hc.openText
  have hti := hc.title
  have hhe := hc.header
  have hnew : ∃ l, newParagraph (over none d none p) = .ok { p with
      inlines := [], blocks := .leaf .paragraph .paragraph none p.inlines.reverse (metaOf d) l :: p.blocks } := by
    have hda := hc.data
    cases d with
    | none =>
      have : over none none none p = p := by
        have := over_self p ho
        rw [hhe, hda, hti] at this
        exact this
      rw [this]
      unfold newParagraph
      simp only [hc.inCont, Bool.false_and, Bool.false_eq_true, if_false, hc.data, pushToStack]
      exact ⟨_, rfl⟩
    | some m =>
      obtain ⟨h1, h2, h3⟩ := hd m rfl
      cases hr : p.inlines.reverse with
      | nil => exact absurd (List.reverse_eq_nil_iff.1 hr) hne
      | cons i is =>
        have hi : i.locations ≠ [] := h3 i (by rw [← List.mem_reverse, hr]; simp)
        cases hl : i.locations with
        | nil => exact absurd hl hi
        | cons l0 ls =>
          refine ⟨l0 :: ls, ?_⟩
          have hcont : (over none (some m) none p).inCont = false := hc.inCont
          cases p
          simp only at *
          subst ho hti hhe hda h2 hcont
          by_cases he : m.isEmpty = true <;>
            simp [newParagraph, over, hr, hl, h1, pushToStack, Block.addMeta, metaOf, he, bind, Except.bind,
              pure, Except.pure]
  have he : p.inlines.isEmpty = false := by
    cases h : p.inlines with
    | nil => exact absurd h hne
    | cons => rfl
  have hi : addInlines (over none d none p) = newParagraph (over none d none p) := by
    unfold addInlines
    rw [show (over none d none p).inlines = p.inlines from rfl, show (over none d none p).inSpan = p.inSpan from rfl]
    simp only [he, Bool.false_eq_true, if_false, hsp, bind, Except.bind]
    rw [show (over none d none p).header = none from rfl, show (over none d none p).blocks = p.blocks from rfl,
      show (over none d none p).inBlockLine = p.inBlockLine from rfl, show (over none d none p).forceNew = p.forceNew from rfl]
    dsimp only
    cases hbl : p.blocks with
    | nil => rfl
    | cons b rest => simp only [hb b rest hbl, Bool.false_eq_true, if_false]
  rw [hi]; exact hnew

theorem over_base {p : Parser} (hc : Base p) : over none none none p = p := by
  have := over_self p hc.openText
  rw [hc.header, hc.data, hc.title] at this
  exact this

/-- Pending text that becomes a new paragraph. -/
theorem addInlines_plain (p : Parser) (hc : Base p) (hsp : p.inSpan = false) (hne : p.inlines ≠ [])
    (hb : ∀ b rest, p.blocks = b :: rest → (b.takesInlines && !p.inBlockLine && !p.forceNew) = false) :
    ∃ l, p.addInlines = .ok { p with
      inlines := [], blocks := .leaf .paragraph .paragraph none p.inlines.reverse none l :: p.blocks } := by
  have := addInlines_new p hc hsp hne none (by simp) hb
  rw [over_base hc] at this
  exact this

/-- A block that is put on the stack gets the metadata. -/
theorem push_section (p : Parser) (hc : p.inCont = false) (ti : List Inline) (v : Nat) (bs : List Block) (l : List Location) :
    p.pushToStack (.section ti none v bs l) = .ok { p with
      data := none, blocks := .section ti (metaOf p.data) v bs l :: p.blocks } := by
  unfold pushToStack
  simp only [hc, Bool.false_and, Bool.false_eq_true, if_false]
  cases hd : p.data with
  | none => simp only [metaOf]
  | some m =>
    by_cases he : m.isEmpty = true <;> simp [Block.addMeta, metaOf, he, bind, Except.bind, pure, Except.pure]

theorem push_list (p : Parser) (hc : p.inCont = false) (v : ListVariant) (bs : List Block) (l : List Location) :
    p.pushToStack (.list v bs none l) = .ok { p with
      data := none, blocks := .list v bs (metaOf p.data) l :: p.blocks } := by
  unfold pushToStack
  simp only [hc, Bool.false_and, Bool.false_eq_true, if_false]
  cases hd : p.data with
  | none => simp only [metaOf]
  | some m =>
    by_cases he : m.isEmpty = true <;> simp [Block.addMeta, metaOf, he, bind, Except.bind, pure, Except.pure]

/-- Pending text that is taken by the last block. -/
theorem addInlines_take (p : Parser) (hh : p.header = none) (hsp : p.inSpan = false) (hne : p.inlines ≠ []) (b b' : Block)
    (rest : List Block) (hb : p.blocks = b :: rest) (ht : b.takesInlines = true) (hl : p.inBlockLine = false)
    (hf : p.forceNew = false) (hp : pushInlines b p.inlines.reverse = .ok b') :
    p.addInlines = .ok { p with inlines := [], blocks := b' :: rest } := by
  have he : p.inlines.isEmpty = false := by
    cases h : p.inlines with
    | nil => exact absurd h hne
    | cons => rfl
  unfold addInlines
  simp only [he, Bool.false_eq_true, if_false, hsp, bind, Except.bind, hh, hb, ht, hl, hf, Bool.not_false, Bool.and_self,
    if_true, hp, pure, Except.pure]

theorem takes_pend {bs : List Block} {hs : List Title} {E : List (List Title × Block)} {fl : Flow} {pend : Option Block} {f : Bool}
    (_ : Content bs hs E fl pend) (hf : pend = none ∨ f = true) (i : Bool) :
    ∀ b rest, pend.toList = b :: rest → (b.takesInlines && !i && !f) = false := by
  intro b rest h
  rcases hf with rfl | rfl
  · cases h
  · simp

theorem Flow.then {fl fl' : Flow} {r : Bool} (h : (if (fl.sec && (fl.ref || r)) = true then some { fl with ref := false, shut := true, box := false }
    else some { fl with ref := fl.ref || r, box := false }) = some fl') :
    fl' = (if (fl.sec && (fl.ref || r)) = true then { fl with ref := false, shut := true, box := false }
      else { fl with ref := fl.ref || r, box := false }) := by
  split at h <;> rename_i hx <;> simp only [Option.some.injEq] at h <;> simp only [hx] <;> exact h.symm

theorem Flow.open {fl fl' : Flow} {x : Option Flow} (h : (if fl.shut = true then none else x) = some fl') :
    fl.shut = false ∧ x = some fl' := by
  cases hs : fl.shut with
  | false => simp only [hs, Bool.false_eq_true, if_false] at h; exact ⟨rfl, h⟩
  | true => simp [hs] at h

/-! ## Blocks with metadata -/

/-- Before a block, when the metadata before it are `d`. -/
structure Waits (p : Parser) (d : Option Meta) (f : Front) (hs : List Title) (E : List (List Title × Block)) (fl : Flow) : Prop where
  quiet : Between { p with data := none, dangling := none } f hs E fl
  data : p.data = d

theorem Waits.over {p : Parser} {d : Option Meta} {f : Front} {hs : List Title} {E : List (List Title × Block)} {fl : Flow}
    (h : Waits p d f hs E fl) (hd : p.dangling = none) : ∃ p0, p = Parser.over none d none p0 ∧ Between p0 f hs E fl := by
  refine ⟨_, ?_, h.quiet⟩
  obtain ⟨h1, h2⟩ := h
  have e1 := h1.header
  have e2 := h1.title
  have e3 := h1.openText
  cases p
  simp only at *
  subst e1 e2 e3 h2 hd
  rfl

theorem Waits.between {p : Parser} {f : Front} {hs : List Title} {E : List (List Title × Block)} {fl : Flow}
    (h : Waits p none f hs E fl) (hd : p.dangling = none) : Between p f hs E fl := by
  have e : p = { p with data := none, dangling := none } := by rw [← hd, ← h.data]
  rw [e]; exact h.quiet

/-- Before a block, anywhere: nothing is pending except the metadata `d`. -/
structure Still (p : Parser) (d : Option Meta) : Prop where
  base : Base { p with data := none }
  data : p.data = d
  inlines : p.inlines = []
  line : p.inBlockLine = false
  span : p.inSpan = false
  last : p.lastTy = .newLineChar ∨ p.lastTy = .eof
  top : ∀ b, p.blocks.head? = some b → b.isAnyItem = false

theorem Waits.still {p : Parser} {d : Option Meta} {f : Front} {hs : List Title} {E : List (List Title × Block)} {fl : Flow}
    (h : Waits p d f hs E fl) : Still p d := by
  obtain ⟨pend, h1, h2, h3⟩ := h.quiet.content
  refine ⟨base_same h.quiet.toBase rfl, h.data, h.quiet.inlines, h.quiet.line, h.quiet.span, h.quiet.last, ?_⟩
  intro b hb
  replace h1 : p.blocks = pend.toList := h1
  rw [h1] at hb
  cases h3 with
  | flat => cases hb
  | under => simp only [Option.toList_some, List.head?_cons, Option.some.injEq] at hb; rw [← hb]; rfl

/-! ## Paragraphs -/

theorem feed_para (w : World) (k : Nat) (p : Parser) (d : Option Meta) (f : Front) (hs : List Title) (E : List (List Title × Block))
    (fl fl' : Flow) (hw : Waits p d f hs E fl) (hdg : p.dangling = none) (es : List Elem) (ho : ProseOk es)
    (hds : d = none ∨ ∀ e ∈ es, e.hasSpan = false) (hdq : ∀ m, d = some m → m.declared ≠ some .quote)
    (hn : fl.step (.para es) = some fl') (hk : fl.kept = true → OneLine es) (ts : List Token) (ht : Matches (Blk.para es).signs ts) :
    ∃ q, Feeds w k ts p q ∧ Ready w k q f hs (E ++ [(parents hs 5, (Blk.para es).block [] ((metaOf d).map bareM))]) fl' (fl.stop (.para es)) 0 := by
  obtain ⟨p, rfl, h⟩ := hw.over hdg
  obtain ⟨q, hq, hp⟩ := feed_prose_over w k p h.toBase h.inlines h.dangling h.span es ho (fun x => hk (h.kept x)) ts ht none d hds (.inl rfl)
  have hc := hp.calm h.toCalm
  have hkq : q.preserveNl = true → fl.kept = true := by rw [hp.eq]; exact h.kept
  obtain ⟨pend, h1, h2, h3⟩ := h.content
  obtain ⟨e1, e2, e3, e4, e5, _⟩ := hp.fields
  rw [h1] at e1
  rw [h.span] at e3
  rw [h.ref] at e4
  rw [← e5] at h2
  replace e5 := h2
  rw [← e2] at h3
  simp only [Flow.step] at hn
  obtain ⟨hsh, hn⟩ := Flow.open hn
  have hbu : Built q.asg := by rw [e2]; exact h.built
  have hdd : ∀ m, d = some m → m.declared ≠ some .quote ∧ q.openLines = [] ∧ ∀ i ∈ q.inlines, i.locations ≠ [] :=
    fun m hm => ⟨hdq m hm, hc.openLines, hp.locs⟩
  have hfin : ∀ i dn ty, Ended { Parser.over none d none q with inBlockLine := i, dangling := dn, lastTy := ty } f hs
      (E ++ [(parents hs 5, (Blk.para es).block [] ((metaOf d).map bareM))]) (fl.stop (.para es)) := by
    intro i dn ty
    obtain ⟨l, ha⟩ := addInlines_new { q with inBlockLine := i, dangling := dn, lastTy := ty } (base_same hc.toBase rfl) e3 hp.ne
      d hdd (by rw [e1]; exact takes_pend h3 e5 i)
    have := finish_put (Parser.over none d none { q with inBlockLine := i, dangling := dn, lastTy := ty }) _ hs E fl pend
      (.leaf .paragraph .paragraph none q.inlines.reverse (metaOf d) l) rfl hsh ha
      (by simp only [e1]; exact fun _ _ => rfl) (hc.same rfl) h3 hbu rfl false (fun _ => rfl) hkq
    simp only [bareB, hp.text] at this
    have hfr : q.asg.front = f := by rw [e2]; exact h.front
    rw [← hfr, show fl.stop (.para es) = { fl with ref := q.closeParent, box := false } by rw [e4]; rfl]
    exact this
  refine ⟨_, hq, ⟨rfl, rfl, ?_, fun _ ty => hfin _ _ ty, ?_⟩⟩
  · intro t1 t2 ht1 ht2
    obtain ⟨l, ha⟩ := addInlines_new { q with inBlockLine := false, dangling := none, lastTy := .newLineChar, inSpan := false }
      (base_same hc.toBase rfl) rfl hp.ne d hdd (by rw [e1]; exact takes_pend h3 e5 false)
    obtain ⟨r, hr, hr2⟩ := settle_block { q with
        inBlockLine := false, dangling := none, lastTy := .newLineChar, inSpan := false, inlines := []
        blocks := .leaf .paragraph .paragraph none q.inlines.reverse (metaOf d) l :: q.blocks }
      (hc.same rfl) f hs E fl pend (.leaf .paragraph .paragraph none q.inlines.reverse (metaOf d) l) rfl false (fun _ => rfl) (by simp only [e1]) h3
      hsh rfl rfl rfl rfl
      (by show q.asg.front = f; rw [e2]; exact h.front) hbu hkq
    refine ⟨_, two_newlines w k (Parser.over none d none q)
      ⟨rfl, rfl, rfl, hc.inCont, rfl⟩ hp.last t1 t2 ht1 ht2 r ?_, ?_⟩
    · intro dn
      rw [blank_eq _ rfl (by
        intro b hb
        replace hb : q.blocks.head? = some b := hb
        rw [e1] at hb
        cases h3 with
        | flat => simp at hb
        | under => simp at hb; rw [← hb]; rfl)]
      refine Eq.trans (congrArg (fun x => Except.bind x settle) ha) ?_
      exact hr
    · simp only [bareB, hp.text, e4] at hr2
      have := Flow.then hn
      rw [this]
      exact hr2
  · intro _ t ht'
    obtain ⟨dn, hd⟩ := one_newline w k (Parser.over none d none q)
      ⟨rfl, rfl, rfl, hc.inCont, rfl⟩ hp.last t ht'
    exact ⟨_, hd, rfl, rfl, fun ty => hfin _ _ ty⟩

/-! ## Blocks that are complete -/

/-- A complete block on top of the stack. -/
theorem ready_block (w : World) (k : Nat) (q : Parser) (f : Front) (hs : List Title) (E : List (List Title × Block)) (fl : Flow)
    (pend : Option Block) (b : Block) (hc : Calm q) (hi : q.inlines = []) (hl : After q.lastTy) (hb : b.isSection = false)
    (hit : b.isAnyItem = false) (x : Bool) (he : x = false → edgeB b = true) (hbl : q.blocks = b :: pend.toList)
    (hcon : Content q.asg.blocks hs E fl pend) (hsh : fl.shut = false) (hf : q.asg.front = f) (hids : Built q.asg)
    (hk : q.preserveNl = true → fl.kept = true) :
    Ready w k q f hs (E ++ [(parents hs 5, bareB b)])
      (if fl.sec && q.closeParent then { fl with ref := false, shut := true, box := x } else { fl with ref := q.closeParent, box := x })
      { fl with ref := q.closeParent, box := x } 0 := by
  have hfin : ∀ i d ty, Ended { q with inBlockLine := i, dangling := d, lastTy := ty } f hs (E ++ [(parents hs 5, bareB b)])
      { fl with ref := q.closeParent, box := x } := by
    intro i d ty
    rw [← hf]
    have e : { q with inBlockLine := i, dangling := d, lastTy := ty }
        = { q with inBlockLine := i, dangling := d, lastTy := ty, blocks := b :: pend.toList } := by rw [← hbl]
    rw [e]
    exact finish_put { q with inBlockLine := i, dangling := d, lastTy := ty, blocks := b :: pend.toList }
      { q with inBlockLine := i, dangling := d, lastTy := ty, blocks := b :: pend.toList } hs E fl pend b hb hsh
      (addInlines_nil { q with inBlockLine := i, dangling := d, lastTy := ty, blocks := b :: pend.toList } hi) (fun _ _ => rfl)
      (hc.same rfl) hcon hids hi x he hk
  refine ⟨hc.header, hc.openText, ?_, fun _ ty => hfin _ _ ty, ?_⟩
  · intro t1 t2 ht1 ht2
    obtain ⟨r, hr, hr2⟩ := settle_block { q with
        inBlockLine := false, dangling := none, lastTy := .newLineChar, inSpan := false }
      (hc.same rfl) f hs E fl pend b hb x he hbl hcon hsh hi rfl rfl rfl hf hids hk
    refine ⟨_, two_newlines w k q (base_data hc.toBase) hl t1 t2 ht1 ht2 r ?_, hr2⟩
    intro d
    rw [blank_eq _ (by exact hc.header) (by
      intro b' hb'
      replace hb' : q.blocks.head? = some b' := hb'
      rw [hbl] at hb'
      simp only [List.head?_cons, Option.some.injEq] at hb'
      rw [← hb']; exact hit), addInlines_nil _ (by exact hi)]
    exact hr
  · intro _ t ht'
    obtain ⟨d, hd⟩ := one_newline w k q (base_data hc.toBase) hl t ht'
    exact ⟨_, hd, hc.header, hc.openText, fun ty => hfin _ _ ty⟩

/-! ## Verbatim blocks -/

theorem feed_verb (w : World) (k : Nat) (p : Parser) (m : Option Meta) (f : Front) (hs : List Title) (E : List (List Title × Block))
    (fl fl' : Flow) (hw : Waits p m f hs E fl) (hdg : p.dangling = none) (n : Verb) (d : Str) (body : List Sign) (ho : (Blk.verb n d body).Ok)
    (hn : fl.step (.verb n d body) = some fl') (ts : List Token) (ht : Matches (Blk.verb n d body).signs ts) :
    ∃ q, Feeds w k ts p q ∧ Ready w k q f hs (E ++ [(parents hs 5, (Blk.verb n d body).block [] ((metaOf m).map bareM))]) fl' (fl.stop (.verb n d body)) 0 := by
  obtain ⟨p, rfl, h⟩ := hw.over hdg
  simp only [Blk.signs] at ht
  cases ht with
  | mark _ _ _ t us ht h' =>
    obtain ⟨us, vs, rfl, g1, g2⟩ := h'.split
    obtain ⟨e, rfl, he⟩ := matches_one g2
    have hvn : verbatimName t.ty = some n.name := by rw [ht.ty]; cases n <;> rfl
    obtain ⟨q, l, l', q1, q2, q3, q4, q5, q6, q7, q8, q9, q10, q11, q12, q13, q14, q15, q16, q17, q18, q19⟩ :=
      C20_verbatim_partial w k (Parser.over none m none p) ⟨rfl, rfl, h.inlines, h.dangling, h.inCont, h.line⟩ t e n.name hvn
        (by rw [he.ty, ht.ty]) us (matches_ne g1 ho.1) (by
          intro u hu
          rcases matches_types g1 u hu with h2 | ⟨l, h2⟩
          · unfold Enclosed
            rw [h2, ht.ty]
            cases n <;> simp [Verb.type]
          · have := ho.2 _ h2
            unfold Enclosed
            rw [ht.ty]
            cases n <;> simp only [inVerb, Verb.type, Bool.and_eq_true, ne_eq] at this ⊢ <;> simp at this ⊢ <;>
              first | exact ⟨of_decide_eq_true this.1, this.2⟩ | exact of_decide_eq_true this)
    obtain ⟨pend, h1, h2, h3⟩ := h.content
    have hc : Calm q := ⟨⟨q7, q6, q12, q10, q9⟩, q11.trans h.openLines, h.steady.step (by rw [q18, q4]; rfl) q3⟩
    refine ⟨q, q1, ?_⟩
    simp only [Flow.step] at hn
    obtain ⟨hsh, hn⟩ := Flow.open hn
    have hfl := Flow.then hn
    simp only [Blk.refers, Piece.refers, Bool.or_false] at hfl
    have hcp : q.closeParent = fl.ref := q15.trans h.ref
    have := ready_block w k q f hs E fl pend (.leaf n.name .delimited (some t.text) [.lit .text (us.flatMap Token.lexeme) l] (metaOf m) l') hc q5 (by
        rw [After, q13, ht.ty]; cases n <;> simp [Verb.type]) rfl rfl false (fun _ => rfl) (by rw [← h1]; exact q2) (by rw [q3]; exact h3) hsh
      (by rw [q3]; exact h.front) (by rw [q3]; exact h.built) (by rw [q17]; exact h.kept)
    rw [hcp, ← hfl] at this
    have htx : t.text = d := by rw [ht.text]; cases n <;> rfl
    simp only [bareB, matches_lexemes g1, htx] at this
    simp only [Flow.stop, Blk.refers, Piece.refers, Bool.or_false]
    exact this

/-! ## Breaks -/

theorem add_put (p : Parser) (hd : p.data = none) (hs : List Title) (E : List (List Title × Block)) (fl : Flow)
    (pend : Option Block) (b : Block) (hb : b.isSection = false) (hbl : p.blocks = pend.toList)
    (hcon : Content p.asg.blocks hs E fl pend) : addToStackOrGraph p b = .ok (put p b pend) := by
  have hlev : b.levelCheck = none := by cases b <;> first | rfl | cases hb
  cases hcon with
  | flat =>
    simp only [addToStackOrGraph, hbl, Option.toList_none, hd, graphPush_leaf _ _ hb, put]
  | under =>
    simp only [addToStackOrGraph, hbl, Option.toList_some, Block.takesBlock, hlev, if_true, Block.pushBlock, hb,
      Bool.false_eq_true, if_false, liftB, pure, Except.pure, put, bind, Except.bind]

/-- A complete block that is not put on the stack. -/
theorem ready_put (w : World) (k : Nat) (p : Parser) (f : Front) (hs : List Title) (E : List (List Title × Block)) (fl : Flow)
    (pend : Option Block) (b : Block) (ty : TokenType) (hc : Calm p) (hi : p.inlines = []) (hl : After ty) (hb : b.isSection = false)
    (he : edgeB b = true) (hbl : p.blocks = pend.toList) (h3 : Content p.asg.blocks hs E fl pend) (hsh : fl.shut = false)
    (hf : p.asg.front = f) (hids : Built p.asg) (hk : p.preserveNl = true → fl.kept = true) :
    Ready w k { put p b pend with lastTy := ty } f hs (E ++ [(parents hs 5, bareB b)])
      { fl with ref := p.closeParent, box := false } { fl with ref := p.closeParent, box := false } 0 := by
  obtain ⟨pend', c1, c2, c3, c4⟩ := h3.put hsh b hb p.closeParent false (fun _ => he)
  obtain ⟨f1, f2, f3⟩ := put_fields p b hb hids pend
  generalize put p b pend = q at *
  have hc : Calm q := by rw [f1]; exact hc.front rfl f2
  have hi : q.inlines = [] := by rw [f1]; exact hi
  have hcp : q.closeParent = p.closeParent := by rw [f1]
  have hkq : q.preserveNl = true → fl.kept = true := by rw [f1]; exact hk
  have hfin : ∀ i d ty, Ended { q with inBlockLine := i, dangling := d, lastTy := ty } f hs (E ++ [(parents hs 5, bareB b)])
      { fl with ref := p.closeParent, box := false } := by
    intro i d ty
    rw [← hf, ← f2]
    exact finish_quiet { q with inBlockLine := i, dangling := d, lastTy := ty } (hc.same rfl) hs _ _ pend' hi c1 f3 c4 hcp hkq
  refine ⟨hc.header, hc.openText, ?_, fun _ ty => hfin _ _ ty, ?_⟩
  · intro t1 t2 ht1 ht2
    refine ⟨_, two_newlines w k { q with lastTy := ty } (base_data (base_same hc.toBase rfl)) hl t1 t2 ht1 ht2 { q with
        inBlockLine := false, dangling := none, inSpan := false, forceNew := true, lastTy := .newLineChar } ?_, ?_⟩
    · intro d
      exact blank_quiet { q with inBlockLine := false, dangling := d, lastTy := .newLineChar } (hc.same rfl) hs _ _ pend' hi c1 c4
    · refine ⟨hc.same rfl, hi, rfl, rfl, rfl, ?_, f2.trans hf, f3, .inl rfl, ?_, pend', c1, .inr rfl, c4⟩
      · show q.closeParent = _
        rw [f1]
      · show q.preserveNl = true → _
        rw [f1]; exact hk
  · intro _ t1 ht'
    obtain ⟨d, hd⟩ := one_newline w k { q with lastTy := ty } (base_data (base_same hc.toBase rfl)) hl t1 ht'
    exact ⟨_, hd, hc.header, hc.openText, fun ty => hfin _ _ ty⟩

theorem feed_brk (w : World) (k : Nat) (p : Parser) (f : Front) (hs : List Title) (E : List (List Title × Block))
    (fl fl' : Flow) (h : Between p f hs E fl) (v : BreakVariant) (hn : fl.step (.brk v) = some fl') (ts : List Token)
    (hm : Matches (Blk.brk v).signs ts) :
    ∃ q, Feeds w k ts p q ∧ Ready w k q f hs (E ++ [(parents hs 5, (Blk.brk v).block [] none)]) fl' (fl.stop (.brk v)) 0 := by
  obtain ⟨t, rfl, ht⟩ := matches_one hm
  obtain ⟨pend, h1, h2, h3⟩ := h.content
  simp only [Flow.step] at hn
  obtain ⟨hsh, hn⟩ := Flow.open hn
  simp only [Option.some.injEq] at hn
  have hstep : tokenInto w (k + 1) t p = .ok (put p (.brk v t.locations) pend) := by
    rw [tokenInto_plain w k t p h.header h.openText, ← add_put p h.data hs E fl pend (.brk v t.locations) rfl h1 h3]
    unfold dispatchToken
    rw [ht.ty]
    cases v <;> rfl
  have hl : After t.ty := by rw [ht.ty]; cases v <;> exact ⟨by simp [breakMark], by simp [breakMark]⟩
  refine ⟨_, Feeds.one hstep, ?_⟩
  have := ready_put w k p f hs E fl pend (.brk v t.locations) t.ty h.toCalm h.inlines hl rfl rfl h1 h3 hsh h.front h.built h.kept
  rw [h.ref] at this
  rw [← hn]
  exact this

/-! ## Admonitions -/

theorem addLast_put (p : Parser) (hs : List Title) (E : List (List Title × Block)) (fl : Flow)
    (pend : Option Block) (b : Block) (hb : b.isSection = false) (hbl : p.blocks = b :: pend.toList)
    (hcon : Content p.asg.blocks hs E fl pend) : addLastToStackOrGraph p = .ok (put p b pend) := by
  have hlev : b.levelCheck = none := by cases b <;> first | rfl | cases hb
  cases hcon with
  | flat =>
    simp only [addLastToStackOrGraph, hbl, Option.toList_none, graphPush_leaf _ _ hb, put]
  | under =>
    simp only [addLastToStackOrGraph, hbl, Option.toList_some, Block.takesBlock, hlev, if_true, Block.pushBlock, hb,
      Bool.false_eq_true, if_false, liftB, pure, Except.pure, put, bind, Except.bind]

/-- A block goes into the block below, and that is put. -/
theorem settle_into (p : Parser) (b a a' : Block) (rest : List Block) (hbl : p.blocks = b :: a :: rest) (hb : b.isSection = false)
    (ht : a.takesBlock b = true) (hp : Block.pushBlock a b = .ok a') (ho : p.openLines = []) (hcp : p.closeParent = true) :
    settle p = (addLastToStackOrGraph { p with forceNew := true, blocks := a' :: rest }).bind fun q =>
      .ok { q with closeParent := false } := by
  have h1 : addToStackOrGraph { p with forceNew := true, blocks := a :: rest } b
      = .ok { p with forceNew := true, blocks := a' :: rest } := by
    simp only [addToStackOrGraph, ht, if_true, hp, liftB, bind, Except.bind, pure, Except.pure]
  unfold settle
  simp only [hbl, hb, Bool.not_false, Bool.true_and]
  rw [if_pos (by rw [ho]; rfl), h1]
  simp only [bind, Except.bind, hcp, List.isEmpty_cons, Bool.not_false, Bool.and_self, if_true]
  rfl

theorem feed_note (w : World) (k : Nat) (p : Parser) (f : Front) (hs : List Title) (E : List (List Title × Block))
    (fl fl' : Flow) (h : Between p f hs E fl) (v : ParentVariant) (es : List Elem) (ho : ProseOk es)
    (hn : fl.step (.note v es) = some fl') (hk : fl.kept = true → OneLine es) (ts : List Token) (hm : Matches (Blk.note v es).signs ts) :
    ∃ q, Feeds w k ts p q ∧ Ready w k q f hs (E ++ [(parents hs 5, (Blk.note v es).block [] none)]) fl' (fl.stop (.note v es)) 0 := by
  simp only [Blk.signs] at hm
  cases hm with
  | mark _ _ _ t us ht hu =>
  obtain ⟨pend, h1, h2, h3⟩ := h.content
  simp only [Flow.step] at hn
  obtain ⟨hsh, hn⟩ := Flow.open hn
  simp only [Option.some.injEq] at hn
  have hstep : tokenInto w (k + 1) t p = .ok { p with
      blocks := .parent .admonition (some v) (admonitionStr v) [] [] none t.locations :: p.blocks, closeParent := true } := by
    rw [tokenInto_plain w k t p h.header h.openText]
    have htx : t.text = admonitionStr v := by rw [ht.text]; cases v <;> rfl
    have hk : parentKind t.ty = some (.admonition, some v) := by rw [ht.ty]; cases v <;> rfl
    have : dispatchToken w (tokenInto w k) p t = p.parseAdmonition t := by
      unfold dispatchToken
      rw [ht.ty]
      cases v <;> rfl
    rw [this]
    simp only [parseAdmonition, parentFromToken, hk, liftB, bind, Except.bind, pure, Except.pure, htx]
  obtain ⟨q, hq, hp⟩ := feed_prose w k { p with
      blocks := .parent .admonition (some v) (admonitionStr v) [] [] none t.locations :: p.blocks, closeParent := true
      lastTy := t.ty } (base_same h.toBase rfl) h.inlines h.dangling h.span es ho (fun x => hk (h.kept x)) us hu
  have hc := hp.calm (h.toCalm.same rfl)
  obtain ⟨e1, e2, e3, e4, e5, _⟩ := hp.fields
  simp only [h1, Bool.true_or] at e1 e4
  replace e3 := e3.trans h.span
  replace e2 : q.asg = p.asg := e2
  rw [← e2] at h3
  have hids : Built q.asg := by rw [e2]; exact h.built
  have hfr : q.asg.front = f := by rw [e2]; exact h.front
  have hnew : ∀ i d ty, ∃ l, addInlines { q with inBlockLine := i, dangling := d, lastTy := ty, inSpan := false } = .ok { q with
      inBlockLine := i, dangling := d, lastTy := ty, inSpan := false, inlines := []
      blocks := .leaf .paragraph .paragraph none q.inlines.reverse none l
        :: .parent .admonition (some v) (admonitionStr v) [] [] none t.locations :: pend.toList } := by
    intro i d ty
    obtain ⟨l, ha⟩ := addInlines_plain { q with inBlockLine := i, dangling := d, lastTy := ty, inSpan := false }
      (base_same hc.toBase rfl) rfl hp.ne (by
        simp only [e1]
        intro b rest hb
        simp only [List.cons.injEq] at hb
        rw [← hb.1]; rfl)
    exact ⟨l, ha.trans (by simp only [e1])⟩
  have hbare : ∀ l, bareB (Block.consolidate (.parent .admonition (some v) (admonitionStr v)
      ([] ++ [.leaf .paragraph .paragraph none q.inlines.reverse none l]) [] none t.locations)) = (Blk.note v es).block [] none := by
    intro l
    rw [bareB_consolidate]
    simp only [List.nil_append, bareB, bareBs, bareL, hp.text, Blk.block, Option.map_none]
  have hpush : ∀ l, Block.pushBlock (.parent .admonition (some v) (admonitionStr v) [] [] none t.locations)
      (.leaf .paragraph .paragraph none q.inlines.reverse none l) = .ok (Block.consolidate (.parent .admonition (some v) (admonitionStr v)
      ([] ++ [.leaf .paragraph .paragraph none q.inlines.reverse none l]) [] none t.locations)) := by
    intro l
    simp [Block.pushBlock, Block.isListItem]
  have hkq : q.preserveNl = true → fl.kept = true := by rw [hp.eq]; exact h.kept
  have hfin : ∀ i d ty, Ended { q with inBlockLine := i, dangling := d, lastTy := ty } f hs
      (E ++ [(parents hs 5, (Blk.note v es).block [] none)]) (fl.stop (.note v es)) := by
    intro i d ty
    obtain ⟨l, ha⟩ := hnew i d ty
    rw [← e3] at ha
    have := finish_put _ _ hs E fl pend (Block.consolidate (.parent .admonition (some v) (admonitionStr v)
      ([] ++ [.leaf .paragraph .paragraph none q.inlines.reverse none l]) [] none t.locations)) rfl hsh ha
      (by
        intro n hn
        simp only [List.length_cons]
        rw [drain]
        simp only [List.length_cons, show n < pend.toList.length + 1 + 1 by omega, if_true, addLastToGraph, hc.data, bind, Except.bind,
          Block.takesBlock, hpush l, liftB, pure, Except.pure]) (hc.same rfl) h3 hids rfl true (by simp) hkq
    rw [hbare] at this
    rw [← hfr, show fl.stop (.note v es) = { fl with ref := q.closeParent, box := true } by rw [e4]; rfl]
    exact this
  refine ⟨q, Feeds.cons hstep hq, ⟨hc.header, hc.openText, ?_, fun _ ty => hfin _ _ ty, ?_⟩⟩
  · intro t1 t2 ht1 ht2
    obtain ⟨l, ha⟩ := hnew false none .newLineChar
    obtain ⟨pend', c1, c2, c3, c4⟩ := h3.put (p := { q with
        inBlockLine := false, dangling := none, lastTy := .newLineChar, inSpan := false, inlines := [], forceNew := true })
      hsh (Block.consolidate (.parent .admonition (some v) (admonitionStr v)
        ([] ++ [.leaf .paragraph .paragraph none q.inlines.reverse none l]) [] none t.locations)) rfl false true (by simp)
    obtain ⟨f1, f2, f3⟩ := put_fields { q with
        inBlockLine := false, dangling := none, lastTy := .newLineChar, inSpan := false, inlines := [], forceNew := true }
      (Block.consolidate (.parent .admonition (some v) (admonitionStr v)
        ([] ++ [.leaf .paragraph .paragraph none q.inlines.reverse none l]) [] none t.locations)) rfl hids pend
    have hset : ∀ d, blankLine { q with inBlockLine := false, dangling := d, lastTy := .newLineChar } = .ok { put { q with
        inBlockLine := false, dangling := none, lastTy := .newLineChar, inSpan := false, inlines := [], forceNew := true }
      (Block.consolidate (.parent .admonition (some v) (admonitionStr v)
        ([] ++ [.leaf .paragraph .paragraph none q.inlines.reverse none l]) [] none t.locations)) pend with closeParent := false } := by
      intro d
      rw [blank_eq _ (by exact hc.header) (by
        intro b hb
        replace hb : q.blocks.head? = some b := hb
        rw [e1] at hb
        simp only [List.head?_cons, Option.some.injEq] at hb
        rw [← hb]; rfl), ha]
      refine Eq.trans (settle_into { q with
          inBlockLine := false, dangling := none, lastTy := .newLineChar, inSpan := false, inlines := []
          blocks := .leaf .paragraph .paragraph none q.inlines.reverse none l
            :: .parent .admonition (some v) (admonitionStr v) [] [] none t.locations :: pend.toList }
        _ _ _ _ rfl rfl rfl (hpush l) hc.openLines e4) ?_
      rw [addLast_put { q with
          inBlockLine := false, dangling := none, lastTy := .newLineChar, inSpan := false, inlines := [], forceNew := true
          blocks := (Block.consolidate (.parent .admonition (some v) (admonitionStr v)
            ([] ++ [.leaf .paragraph .paragraph none q.inlines.reverse none l]) [] none t.locations)) :: pend.toList }
        hs E fl pend _ rfl rfl h3]
      cases h3 <;> rfl
    refine ⟨_, two_newlines w k q (base_data hc.toBase) hp.last t1 t2 ht1 ht2 _ hset, ?_⟩
    rw [hbare] at c4
    generalize put _ _ _ = r at *
    refine ⟨?_, ?_, ?_, ?_, ?_, ?_, f2.trans hfr, f3, .inl rfl, ?_, pend', c1, .inr ?_, ?_⟩
    · rw [f1]; exact hc.front rfl f2
    · show r.inlines = []; rw [f1]
    · show r.dangling = none; rw [f1]
    · show r.inBlockLine = false; rw [f1]
    · show r.inSpan = false; rw [f1]
    · rw [← hn]
    · show r.preserveNl = true → _; rw [f1, ← hn]; show q.preserveNl = true → _; rw [hp.eq]; exact h.kept
    · show r.forceNew = true; rw [f1]
    · rw [← hn]; exact c4
  · intro _ t1 ht'
    obtain ⟨d, hd⟩ := one_newline w k q (base_data hc.toBase) hp.last t1 ht'
    exact ⟨_, hd, hc.header, hc.openText, fun ty => hfin _ _ ty⟩

/-! ## Headings -/

theorem heading_level (p : Parser) (ho : p.offset = 0) (n : Nat) (h1 : 1 ≤ n) (h2 : n ≤ 4) (t : Token) (ht : t.ty = headType n) :
    p.headingLevel t = .ok n := by
  unfold headingLevel
  rw [ht, ho]
  match n, h1, h2 with
  | 1, _, _ => rfl
  | 2, _, _ => rfl
  | 3, _, _ => rfl
  | 4, _, _ => rfl

theorem dispatch_heading (w : World) (g : Token → Parser → M Parser) (p : Parser) (n : Nat) (t : Token)
    (ht : t.ty = headType n) : p.dispatchToken w g t = p.parseSection t := by
  have : headType n = .heading2 ∨ headType n = .heading3 ∨ headType n = .heading4 ∨ headType n = .heading5 := by
    unfold headType; split <;> simp
  unfold dispatchToken
  rw [ht]
  rcases this with h | h | h | h <;> rw [h]

theorem feed_head (w : World) (k : Nat) (p : Parser) (m : Option Meta) (f : Front) (hs : List Title) (E : List (List Title × Block))
    (fl fl' : Flow) (hw : Waits p m f hs E fl) (n : Nat) (es : List Elem) (ho : (Blk.head n es).Ok)
    (hn : fl.step (.head n es) = some fl') (ts : List Token) (hm : Matches (Blk.head n es).signs ts) :
    ∃ q, Feeds w k ts p q ∧ Ready w k q f ((n, shownL [] es) :: hs)
      (E ++ [(parents hs n, (Blk.head n es).block [] ((metaOf m).map bareM))]) fl' (fl.stop (.head n es)) 1 := by
  have h := hw.quiet
  obtain ⟨ho1, ho2, ho3, ho4⟩ := ho
  simp only [Blk.signs] at hm
  cases hm with
  | mark _ _ _ t us ht hu =>
  obtain ⟨pend, h1, h2, h3⟩ := h.content
  have hbox : fl.box = false ∧ fl' = { fl with sec := true, ref := fl.ref || es.any Elem.refers, shut := false, box := false } := by
    simp only [Flow.step, Blk.refers] at hn
    cases hb : fl.box with
    | false => simp only [hb, Bool.false_eq_true, if_false, Option.some.injEq] at hn; exact ⟨rfl, hn.symm⟩
    | true => simp [hb] at hn
  obtain ⟨hbox, hfl⟩ := hbox
  -- the open section goes to the graph
  have hflush : ∃ g, (p.parseSection t = .ok { p with
        data := none, asg := g, blocks := [.section [] (metaOf m) n [] [t.firstLocation]], inBlockLine := true, dangling := none
        forceNew := false }) ∧ edgeL g.blocks = true ∧ listedL [] g.blocks = E ∧ parents hs 5 = spineL g.blocks
        ∧ (∀ h ∈ hs, h.1 < 5) ∧ g.front = p.asg.front ∧ Built g := by
    unfold parseSection
    rw [heading_level p h.steady.1 n ho1 ho2 t ht.ty]
    have hic : p.inCont = false := h.inCont
    have hbl : p.blocks = pend.toList := h1
    cases hpend : pend with
    | none =>
      subst hpend
      cases h3 with
      | flat b1 b2 b3 b4 =>
        refine ⟨p.asg, ?_, b1 hbox, b4, b2, b3, rfl, h.built⟩
        simp [hbl, bind, Except.bind, push_section _ hic, hw.data, pure, Except.pure]
    | some s =>
      subst hpend
      obtain ⟨g, a1, a2, a3, a4, a5, a6, a7, a8⟩ := Content.flush (p := p) h3 h.built []
      refine ⟨g, ?_, a2 hbox, a3, a4, a5, a6, a7⟩
      have hsec : s.isSection = true := by cases h3; rfl
      have hadd : p.addLastToStackOrGraph = .ok { p with blocks := [], asg := g } := by
        unfold addLastToStackOrGraph
        rw [hbl]
        exact a1
      simp only [hbl, Option.toList_some, hsec, if_true, hadd, bind, Except.bind]
      rw [push_section { p with blocks := [], asg := g } hic, show Parser.data { p with blocks := [], asg := g } = m from hw.data]
      rfl
  obtain ⟨g, f1, f2, f3, f4, f5, f6, f7⟩ := hflush
  have hstep : tokenInto w (k + 1) t p = .ok { p with
      data := none, asg := g, blocks := [.section [] (metaOf m) n [] [t.firstLocation]], inBlockLine := true, dangling := none
      forceNew := false } := by
    rw [tokenInto_plain w k _ p h.header h.openText, dispatch_heading w _ p n _ ht.ty, f1]
  obtain ⟨q, hq, hp⟩ := feed_prose w k { p with
      data := none, asg := g, blocks := [.section [] (metaOf m) n [] [t.firstLocation]], inBlockLine := true, dangling := none
      forceNew := false, lastTy := t.ty } (base_same h.toBase rfl) h.inlines rfl h.span es ho3 (fun _ => ho4) us hu
  have hc := hp.calm (h.toCalm.front rfl f6)
  obtain ⟨e1, e2, e3, e4, e5, _⟩ := hp.fields
  replace e1 : q.blocks = [.section [] (metaOf m) n [] [t.firstLocation]] := e1
  replace e2 : q.asg = g := e2
  replace e3 := e3.trans h.span
  replace e4 : q.closeParent = fl'.ref := by rw [hfl, e4, ← h.ref]
  replace e5 : q.forceNew = false := e5
  have htake : ∀ d ty sp, sp = false → addInlines { q with inBlockLine := false, dangling := d, lastTy := ty, inSpan := sp } = .ok { q with
      inBlockLine := false, dangling := d, lastTy := ty, inSpan := sp, inlines := []
      blocks := [.section q.inlines.reverse (metaOf m) n [] [t.firstLocation]] } := by
    intro d ty sp hsp
    exact addInlines_take { q with inBlockLine := false, dangling := d, lastTy := ty, inSpan := sp } hc.header hsp hp.ne
      _ _ [] e1 rfl rfl e5 (by rw [pushInlines_section]; rfl)
  have hpar : (spineL g.blocks).takeWhile (·.1 < n) = parents hs n := by
    rw [← f4, Proof.parents_take hs n 5 (by omega) f5]
  have hcon : Content q.asg.blocks ((n, shownL [] es) :: hs) (E ++ [(parents hs n, (Blk.head n es).block [] ((metaOf m).map bareM))]) fl'
      (some (.section q.inlines.reverse (metaOf m) n [] [t.firstLocation])) := by
    rw [e2]
    refine .under _ _ n [] _ f2 (fun _ => rfl) nofun ?_ ?_ ?_ (by rw [hfl]) (by rw [hfl])
    · intro x hx
      rcases List.mem_cons.1 hx with rfl | hx
      · show n < 5; omega
      · exact f5 x hx
    · rw [f3, hpar]
      simp only [listed, listedL, hp.text, Blk.block]
    · rw [hpar, hp.text]
      simp only [parents]
      rw [if_pos (by omega)]
  have hids : Built q.asg := by rw [e2]; exact f7
  have hfr : q.asg.front = f := by rw [e2]; exact f6.trans h.front
  refine ⟨q, Feeds.cons hstep hq, ⟨hc.header, hc.openText, ?_, by simp, ?_⟩⟩
  · intro t1 t2 ht1 ht2
    refine ⟨_, two_newlines w k q (base_data hc.toBase) hp.last t1 t2 ht1 ht2 { q with
        inBlockLine := false, dangling := none, lastTy := .newLineChar, inSpan := false, inlines := [], forceNew := true
        blocks := [.section q.inlines.reverse (metaOf m) n [] [t.firstLocation]] } ?_, ?_⟩
    · intro d
      rw [blank_eq _ (by exact hc.header) (by
        intro b hb
        replace hb : q.blocks.head? = some b := hb
        rw [e1] at hb
        simp only [List.head?_cons, Option.some.injEq] at hb
        rw [← hb]; rfl), htake none .newLineChar false rfl]
      simp only [Except.bind, settle, isSection, Bool.not_true, Bool.false_and, Bool.false_eq_true,
        if_false, pushToStack, hc.inCont, hc.data]
    · exact ⟨hc.same rfl, rfl, rfl, rfl, rfl, e4, hfr, hids, .inl rfl, by
        show q.preserveNl = true → _; rw [hp.eq, hfl]; exact h.kept, _, rfl, .inr rfl, hcon⟩
  · intro _ t1 ht1
    obtain ⟨d, hd⟩ := one_newline w k q (base_data hc.toBase) hp.last t1 ht1
    refine ⟨_, hd, hc.header, hc.openText, fun ty => ?_⟩
    have ha := htake d ty q.inSpan e3
    have hfe : fl.stop (.head n es) = fl' := hfl.symm
    rw [hfe]
    have hf' : f = ({ q with
        inBlockLine := false, dangling := d, lastTy := ty, inlines := []
        blocks := [.section q.inlines.reverse (metaOf m) n [] [t.firstLocation]] } : Parser).asg.front := hfr.symm
    rw [hf']
    exact ended_pend _ _ _ _ _ _ _ ha (fun _ _ => rfl) (hc.same rfl) rfl rfl hids hcon e4 (by
      show q.preserveNl = true → _; rw [hp.eq, hfl]; exact h.kept)

/-! ## Lists -/

/-- A list item: its marker in the lexical grammar, the marker and the text. -/
structure Bul where
  ty : TokenType
  mark : Str
  text : List Elem

/-- How an item is written. -/
def Bul.signs (b : Bul) : List Sign := .mark b.ty (b.mark ++ b!" ") :: b.text.flatMap Elem.signs

/-- How items are written. -/
def bulsSigns : List Bul → List Sign
  | [] => []
  | [b] => b.signs
  | b :: rest => b.signs ++ Spec.newline :: bulsSigns rest

/-- The marker is that of an item of a list. -/
structure Bul.Marks (v : ListVariant) (b : Bul) : Prop where
  trim : trim (b.mark ++ b!" ") = b.mark
  kind : match v with
    | .unordered => b.ty = .unorderedListItem ∧ b.mark = b!"*"
    | .ordered => (b.ty = .orderedListItem ∨ b.ty = .codeCalloutListItem) ∧ (decide (b.mark = b!".") || b.mark.contains c!"<") = true

/-- The metadata that a list has to begin with. -/
def firstMeta (ty : TokenType) : Option Meta := if ty = .codeCalloutListItem then some (Meta.withRole b!"colist") else none

/-- An item of a list. -/
def bulOf (v : ListVariant) (es : List Elem) : Bul := ⟨itemType v, bullet v, es⟩

theorem bulOf_marks (v : ListVariant) (es : List Elem) : (bulOf v es).Marks v := by
  cases v
  · exact ⟨by simp only [bulOf]; decide, .inl rfl, rfl⟩
  · exact ⟨by simp only [bulOf]; decide, rfl, rfl⟩

theorem firstMeta_bul (v : ListVariant) (es : List Elem) : firstMeta (bulOf v es).ty = none := by cases v <;> rfl

theorem bulsSigns_items (v : ListVariant) (items : List (List Elem)) : itemsSigns v items = bulsSigns (items.map (bulOf v)) := by
  induction items with
  | nil => rfl
  | cons es rest ih =>
    cases rest with
    | nil => rfl
    | cons x xs => simp only [itemsSigns, List.map_cons, bulsSigns, ih]; rfl

/-- A list item that should be in the graph. -/
def Bul.block (b : Bul) : Block := .listItem b.mark (shownL [] b.text) [] none []

/-- After the text of the list item `b`, when `done` are the items before and `p0` is the parser before the list. -/
structure InItems (p p0 : Parser) (v : ListVariant) (m : Option Meta) (done : List Bul) (b : Bul) : Prop
    extends Base p where
  asg : p.asg = p0.asg
  openLines : p.openLines = p0.openLines
  steady : (p.offset, p.attrs) = (p0.offset, p0.attrs)
  line : p.inBlockLine = false
  span : p.inSpan = false
  dangling : p.dangling = none
  last : After p.lastTy
  ref : p.closeParent = (p0.closeParent || (done ++ [b]).any fun x => x.text.any Elem.refers)
  force : done ≠ [] → p.forceNew = false
  kept : p.preserveNl = p0.preserveNl
  ne : p.inlines ≠ []
  text : bareL p.inlines.reverse = shownL [] b.text
  body : ∃ items l1 l2, p.blocks = .listItem b.mark [] [] none l1 :: .list v items m l2 :: p0.blocks
    ∧ bareBs items = done.map Bul.block

/-- The list with one more item. -/
def more (v : ListVariant) (s : Str) (m : Option Meta) (items : List Block) (l2 : List Location) (is : List Inline) (l1 : List Location) : Block :=
  Block.consolidate (.list v (items ++ [.listItem s is [] none l1]) m l2)

theorem more_bare (v : ListVariant) (m : Option Meta) (items : List Block) (l2 l1 : List Location) (is : List Inline) (done : List Bul)
    (b : Bul) (h1 : bareBs items = done.map Bul.block) (h2 : bareL is = shownL [] b.text) :
    bareB (more v b.mark m items l2 is l1) = .list v ((done ++ [b]).map Bul.block) (m.map bareM) [] := by
  rw [more, bareB_consolidate]
  simp only [bareB, bareBs_append, bareBs, h1, h2, List.map_append, List.map_cons, List.map_nil, Bul.block, Option.map_none]

theorem more_list (v : ListVariant) (m : Option Meta) (items : List Block) (l2 l1 : List Location) (is : List Inline) (done : List Bul)
    (b : Bul) (h1 : bareBs items = done.map Bul.block) (h2 : bareL is = shownL [] b.text) :
    ∃ items' l', more v b.mark m items l2 is l1 = .list v items' m l' ∧ bareBs items' = (done ++ [b]).map Bul.block := by
  have h := more_bare v m items l2 l1 is done b h1 h2
  refine ⟨_, _, rfl, ?_⟩
  rw [more, Block.consolidate] at h
  simp only [bareB, Block.list.injEq] at h
  exact h.2.1

theorem addLastItem_more (p : Parser) (hh : p.header = none) (hsp : p.inSpan = false) (hne : p.inlines ≠ []) (v : ListVariant)
    (s : Str) (m : Option Meta) (items : List Block) (l1 l2 : List Location) (rest : List Block)
    (hbl : p.blocks = .listItem s [] [] none l1 :: .list v items m l2 :: rest) (hl : p.inBlockLine = false) :
    p.addLastItem = .ok { p with
      inlines := [], forceNew := false, blocks := more v s m items l2 p.inlines.reverse l1 :: rest } := by
  unfold addLastItem
  rw [addInlines_take { p with forceNew := false } hh hsp hne _ _ _ hbl rfl hl rfl (pushInlines_item ..)]
  simp only [bind, Except.bind, Block.isAnyItem, if_true, Block.pushBlock, liftB, pure, Except.pure, more, List.nil_append]

theorem push_list_meta (p : Parser) (hc : p.inCont = false) (v : ListVariant) (bs : List Block) (m0 : Option Meta) (l : List Location) :
    p.pushToStack (.list v bs m0 l) = .ok { p with
      data := none, blocks := .list v bs ((metaOf p.data).or m0) l :: p.blocks } := by
  unfold pushToStack
  simp only [hc, Bool.false_and, Bool.false_eq_true, if_false]
  cases hd : p.data with
  | none => simp only [metaOf, Option.none_or]
  | some m =>
    by_cases he : m.isEmpty = true <;> simp [Block.addMeta, metaOf, he, bind, Except.bind, pure, Except.pure]

/-- The marker of the first item. -/
theorem marker_first (w : World) (k : Nat) (v : ListVariant) (x : Bul) (hv : x.Marks v) (p : Parser) (hh : p.header = none) (ho : p.openText = none)
    (hic : p.inCont = false) (htop : ∀ b, p.blocks.head? = some b → b.isAnyItem = false)
    (hsrc : x.ty = .codeCalloutListItem → ∀ b, p.blocks.head? = some b → b.isSourceBlock = false) (t : Token)
    (ht : IsMark x.ty (x.mark ++ b!" ") t) :
    tokenInto w (k + 1) t p = .ok { p with
      dangling := none, data := none
      blocks := .listItem x.mark [] [] none t.locations :: .list v [] ((metaOf p.data).or (firstMeta x.ty)) t.locations :: p.blocks } := by
  have hnew : newListItem t = .listItem x.mark [] [] none t.locations := by
    rw [newListItem, ht.lexeme, hv.trim]
  have hty := ht.ty
  have hpl : pushToStack { p with dangling := none } (.list v [] (firstMeta x.ty) t.locations) = .ok { p with
      dangling := none, data := none, blocks := .list v [] ((metaOf p.data).or (firstMeta x.ty)) t.locations :: p.blocks } :=
    push_list_meta { p with dangling := none } hic ..
  rw [tokenInto_plain w k _ p hh ho, ← hnew]
  have hitem : ∀ b, p.blocks.head? = some b → b.isOrderedItem = false ∧ b.isUnorderedItem = false := by
    intro b hb
    have := htop b hb
    cases b <;> first | exact ⟨rfl, rfl⟩ | cases this
  have hk := hv.kind
  cases hbl : p.blocks with
  | nil =>
    simp only [hbl] at hpl
    cases v with
    | unordered =>
      simp only [hk.1, firstMeta, reduceCtorEq, if_false] at hpl
      simp [dispatchToken, hty, hk.1, parseUnordered, hbl, bind, Except.bind]
      rw [hpl]
      simp [pushToStack, hic, firstMeta]
    | ordered =>
      rcases hk.1 with h1 | h1 <;> simp only [h1, firstMeta, reduceCtorEq, if_false, if_true] at hpl <;>
        simp [dispatchToken, hty, h1, parseOrdered, hbl, bind, Except.bind] <;>
        rw [hpl] <;>
        simp [pushToStack, hic, firstMeta]
  | cons b bs =>
    obtain ⟨h2, h3⟩ := hitem b (by rw [hbl]; rfl)
    simp only [hbl] at hpl
    cases v with
    | unordered =>
      simp only [hk.1, firstMeta, reduceCtorEq, if_false] at hpl
      simp [dispatchToken, hty, hk.1, parseUnordered, hbl, bind, Except.bind, h3]
      rw [hpl]
      simp [pushToStack, hic, firstMeta]
    | ordered =>
      rcases hk.1 with h1 | h1
      · simp only [h1, firstMeta, reduceCtorEq, if_false] at hpl
        simp [dispatchToken, hty, h1, parseOrdered, hbl, bind, Except.bind, h2]
        rw [hpl]
        simp [pushToStack, hic, firstMeta]
      · have h4 := hsrc h1 b (by rw [hbl]; rfl)
        simp only [h1, firstMeta, if_true] at hpl
        simp [dispatchToken, hty, h1, parseOrdered, hbl, bind, Except.bind, h2, h4]
        rw [hpl]
        simp [pushToStack, hic, firstMeta]

/-- The marker of another item. -/
theorem marker_next (w : World) (k : Nat) (v : ListVariant) (y x : Bul) (hy : y.Marks v) (hv : x.Marks v) (p : Parser) (hb : Base p) (hsp : p.inSpan = false)
    (hne : p.inlines ≠ []) (m : Option Meta) (items : List Block) (l1 l2 : List Location) (rest : List Block)
    (hbl : p.blocks = .listItem y.mark [] [] none l1 :: .list v items m l2 :: rest) (hl : p.inBlockLine = false)
    (t : Token) (ht : IsMark x.ty (x.mark ++ b!" ") t) :
    tokenInto w (k + 1) t p = .ok { p with
      dangling := none, inlines := [], forceNew := false
      blocks := .listItem x.mark [] [] none t.locations :: more v y.mark m items l2 p.inlines.reverse l1 :: rest } := by
  have hnew : newListItem t = .listItem x.mark [] [] none t.locations := by
    rw [newListItem, ht.lexeme, hv.trim]
  have hty := ht.ty
  rw [tokenInto_plain w k _ p hb.header hb.openText, ← hnew]
  have h := addLastItem_more { p with dangling := none } hb.header hsp hne v y.mark m items l1 l2 rest hbl hl
  have hk := hv.kind
  have hk' := hy.kind
  cases v with
  | unordered =>
    simp only [dispatchToken, hty, hk.1, parseUnordered, hbl, Block.isUnorderedItem, bind, Except.bind]
    rw [if_pos (by rw [hk'.2]; decide)]
    simp only [hbl] at h
    rw [h]
    simp [pushToStack, hb.inCont, hb.data]
  | ordered =>
    have : p.dispatchToken w (tokenInto w k) t = p.parseOrdered t := by
      unfold dispatchToken
      rw [hty]
      rcases hk.1 with h1 | h1 <;> rw [h1]
    rw [this]
    simp only [parseOrdered, hbl, Block.isOrderedItem, bind, Except.bind]
    rw [if_pos hk'.2]
    simp only [hbl] at h
    rw [h]
    simp [pushToStack, hb.inCont, hb.data]

/-- The last block is not a listing if a list of callouts follows. -/
def NoSource (p : Parser) (ty : TokenType) : Prop :=
  ty = .codeCalloutListItem → ∀ b, p.blocks.head? = some b → b.isSourceBlock = false

theorem feed_first (w : World) (k : Nat) (p : Parser) (m : Option Meta) (h : Still p m) (v : ListVariant) (x : Bul) (hv : x.Marks v)
    (hsrc : NoSource p x.ty) (ho : ProseOk x.text) (hk : p.preserveNl = true → OneLine x.text) (ts : List Token) (hm : Matches x.signs ts) :
    ∃ q, Feeds w k ts p q ∧ InItems q p v ((metaOf m).or (firstMeta x.ty)) [] x := by
  simp only [Bul.signs] at hm
  cases hm with
  | mark _ _ _ t us ht hu =>
  have hstep := marker_first w k v x hv p h.base.header h.base.openText h.base.inCont h.top hsrc t ht
  rw [h.data] at hstep
  obtain ⟨q, hq, hp⟩ := feed_prose w k { p with
      dangling := none, data := none
      blocks := .listItem x.mark [] [] none t.locations :: .list v [] ((metaOf m).or (firstMeta x.ty)) t.locations :: p.blocks
      lastTy := t.ty } (base_same h.base rfl) h.inlines rfl h.span x.text ho hk us hu
  obtain ⟨e1, e2, e3, e4, e5, e6⟩ := hp.fields
  refine ⟨q, Feeds.cons hstep hq, ⟨by rw [hp.eq]; exact base_same h.base rfl, e2, by rw [hp.eq], by rw [hp.eq], ?_,
    e3.trans h.span, e6, hp.last, ?_, by simp, by rw [hp.eq], hp.ne, hp.text, [], _, _, e1, rfl⟩⟩
  · cases hl : q.inBlockLine with
    | false => rfl
    | true =>
      have : p.inBlockLine = true := hp.line hl
      rw [h.line] at this; cases this
  · rw [e4]; simp

theorem feed_another (w : World) (k : Nat) (p p0 : Parser) (v : ListVariant) (m : Option Meta) (done : List Bul)
    (y x : Bul) (h : InItems p p0 v m done y) (hy : y.Marks v) (hv : x.Marks v)
    (ho : ProseOk x.text) (hk : p0.preserveNl = true → OneLine x.text) (n : Token) (hn : IsNewline n) (ts : List Token) (hm : Matches x.signs ts) :
    ∃ q, Feeds w k (n :: ts) p q ∧ InItems q p0 v m (done ++ [y]) x := by
  simp only [Bul.signs] at hm
  cases hm with
  | mark _ _ _ t us ht hu =>
  obtain ⟨items, l1, l2, h1, h3⟩ := h.body
  obtain ⟨d, hd⟩ := one_newline w k p (base_data h.toBase) h.last n hn
  obtain ⟨items', l', g1, g2⟩ := more_list v m items l2 l1 p.inlines.reverse done y h3 h.text
  have hstep := marker_next w k v y x hy hv { p with inBlockLine := false, dangling := d, lastTy := .newLineChar } (base_same h.toBase rfl)
    h.span h.ne m items l1 l2 p0.blocks h1 rfl t ht
  replace hstep := hstep.trans (by rw [g1])
  obtain ⟨q, hq, hp⟩ := feed_prose w k { p with
      inBlockLine := false, dangling := none, inlines := [], forceNew := false
      blocks := .listItem x.mark [] [] none t.locations :: .list v items' m l' :: p0.blocks
      lastTy := t.ty } (base_same h.toBase rfl) rfl rfl h.span x.text ho (fun x => hk (h.kept.symm.trans x)) us hu
  obtain ⟨e1, e2, e3, e4, e5, e6⟩ := hp.fields
  refine ⟨q, hd.append (Feeds.cons hstep hq), ⟨by rw [hp.eq]; exact base_same h.toBase rfl, e2.trans h.asg,
    by rw [hp.eq]; exact h.openLines, by rw [hp.eq]; exact h.steady, ?_, e3.trans h.span, e6, hp.last, ?_, fun _ => e5, by rw [hp.eq]; exact h.kept,
    hp.ne, hp.text, items', _, _, e1, g2⟩⟩
  · cases hl : q.inBlockLine with
    | false => rfl
    | true => exact absurd (hp.line hl) (by simp)
  · rw [e4, h.ref]; simp [Bool.or_assoc]

theorem feed_others (w : World) (k : Nat) (p0 : Parser)
    (v : ListVariant) (m : Option Meta) (rest : List Bul) (hr : ∀ x ∈ rest, x.Marks v ∧ ProseOk x.text)
    (hk : p0.preserveNl = true → ∀ x ∈ rest, OneLine x.text) (p : Parser) (done : List Bul)
    (y x : Bul) (h : InItems p p0 v m done y) (hy : y.Marks v) (ho : x.Marks v ∧ ProseOk x.text) (hk' : p0.preserveNl = true → OneLine x.text)
    (n : Token) (hn : IsNewline n) (ts : List Token) (hm : Matches (bulsSigns (x :: rest)) ts) :
    ∃ q init last, Feeds w k (n :: ts) p q ∧ InItems q p0 v m init last ∧ init ≠ []
      ∧ init ++ [last] = done ++ y :: x :: rest := by
  induction rest generalizing p done y x n ts with
  | nil =>
    obtain ⟨q, h1, h2⟩ := feed_another w k p p0 v m done y x h hy ho.1 ho.2 hk' n hn ts hm
    exact ⟨q, _, _, h1, h2, by simp, by simp⟩
  | cons z rest ih =>
    simp only [bulsSigns] at hm
    obtain ⟨us, vs, rfl, g1, g2⟩ := hm.split
    cases g2 with
    | mark _ _ _ nl ws gm g3 =>
    obtain ⟨q, h1, h2⟩ := feed_another w k p p0 v m done y x h hy ho.1 ho.2 hk' n hn us g1
    obtain ⟨q', init, last, i1, i2, i3, i4⟩ := ih (fun y hy => hr y (by simp [hy])) (fun hp y hy => hk hp y (by simp [hy])) q (done ++ [y]) x z h2
      ho.1 (hr z (by simp)) (fun hp => hk hp z (by simp)) nl gm ws g3
    exact ⟨q', init, last, h1.append i1, i2, i3, by simpa using i4⟩

/-- The items of a list are fed to the parser. -/
theorem feed_buls (w : World) (k : Nat) (p : Parser) (m : Option Meta) (h : Still p m) (v : ListVariant) (x : Bul) (rest : List Bul)
    (hok : ∀ y ∈ x :: rest, y.Marks v ∧ ProseOk y.text) (hsrc : NoSource p x.ty)
    (hk : p.preserveNl = true → ∀ y ∈ x :: rest, OneLine y.text) (ts : List Token) (hm : Matches (bulsSigns (x :: rest)) ts) :
    ∃ q init last, Feeds w k ts p q ∧ InItems q p v ((metaOf m).or (firstMeta x.ty)) init last ∧ init ++ [last] = x :: rest := by
  have hx := hok x (by simp)
  match rest with
  | [] =>
    obtain ⟨q, h1, h2⟩ := feed_first w k p m h v x hx.1 hsrc hx.2 (fun e => hk e x (by simp)) ts hm
    exact ⟨q, _, _, h1, h2, rfl⟩
  | z :: rest =>
    simp only [bulsSigns] at hm
    obtain ⟨us, vs, rfl, g1, g2⟩ := hm.split
    cases g2 with
    | mark _ _ _ nl ws gm g3 =>
    obtain ⟨q, h1, h2⟩ := feed_first w k p m h v x hx.1 hsrc hx.2 (fun e => hk e x (by simp)) us g1
    obtain ⟨q', init, last, i1, i2, i3, i4⟩ := feed_others w k p v _ rest (fun y hy => hok y (by simp [hy]))
      (fun hp y hy => hk hp y (by simp [hy])) q [] x z h2 hx.1 (hok z (by simp)) (fun e => hk e z (by simp)) nl gm ws g3
    exact ⟨q', init, last, h1.append i1, i2, by simpa using i4⟩

/-- The items of a list of one kind. -/
theorem feed_items (w : World) (k : Nat) (p : Parser) (m : Option Meta) (h : Still p m) (v : ListVariant) (items : List (List Elem))
    (ho : (Piece.list v items).Ok) (hk : p.preserveNl = true → ∀ es ∈ items, OneLine es) (ts : List Token) (hm : Matches (itemsSigns v items) ts) :
    ∃ q init last, Feeds w k ts p q ∧ InItems q p v (metaOf m) init last ∧ init ++ [last] = items.map (bulOf v) := by
  obtain ⟨hne, hok⟩ := ho
  rw [bulsSigns_items] at hm
  match items, hne with
  | es :: rest, _ =>
    obtain ⟨q, init, last, h1, h2, h3⟩ := feed_buls w k p m h v (bulOf v es) (rest.map (bulOf v)) (by
        intro y hy
        rw [← List.map_cons, List.mem_map] at hy
        obtain ⟨z, hz, rfl⟩ := hy
        exact ⟨bulOf_marks v z, hok z hz⟩) (by cases v <;> exact nofun) (by
        intro hp y hy
        rw [← List.map_cons, List.mem_map] at hy
        obtain ⟨z, hz, rfl⟩ := hy
        exact hk hp z hz) ts hm
    rw [firstMeta_bul, Option.or_none] at h2
    exact ⟨q, init, last, h1, h2, h3⟩

/-- A blank line after a list. -/
theorem items_blank (q p : Parser) (v : ListVariant) (m : Option Meta) (init : List Bul) (last : Bul)
    (hi : InItems q p v m init last) (its : List Block) (l1 l2 : List Location)
    (h1 : q.blocks = .listItem last.mark [] [] none l1 :: .list v its m l2 :: p.blocks) (d : Option Token) :
    blankLine { q with inBlockLine := false, dangling := d, lastTy := .newLineChar } = settle { q with
      inBlockLine := false, dangling := none, lastTy := .newLineChar, inSpan := false, inlines := [], forceNew := false
      blocks := more v last.mark m its l2 q.inlines.reverse l1 :: p.blocks } := by
  unfold blankLine
  simp only [hi.header, bind, Except.bind, h1, Block.isAnyItem, if_true]
  rw [← hi.header]
  rw [addLastItem_more _ (by exact hi.header) (by exact hi.span) (by exact hi.ne) v last.mark m its l1 l2 p.blocks (by rfl) rfl]
  dsimp only
  rw [addInlines_nil _ (by rfl)]
  rfl

/-- The number of newlines after items at the end of a document. -/
def bulsEnding : List Bul → Nat
  | [_] => 2
  | _ => 0

/-- Items are fed to the parser. -/
theorem feed_list_of (w : World) (k : Nat) (p : Parser) (m : Option Meta) (f : Front) (hs : List Title) (E : List (List Title × Block))
    (fl fl' : Flow) (h : Waits p m f hs E fl) (v : ListVariant) (x : Bul) (rest bs : List Bul) (hbs : bs = x :: rest)
    (hok : ∀ y ∈ bs, y.Marks v ∧ ProseOk y.text)
    (hn : (if fl.shut then none
      else if fl.sec && (fl.ref || bs.any fun y => y.text.any Elem.refers) then some { fl with ref := false, shut := true, box := false }
      else some { fl with ref := fl.ref || bs.any fun y => y.text.any Elem.refers, box := false }) = some fl')
    (hk : fl.kept = true → ∀ y ∈ bs, OneLine y.text) (ts : List Token) (hm : Matches (bulsSigns bs) ts) :
    ∃ q, Feeds w k ts p q ∧ Ready w k q f hs (E ++ [(parents hs 5,
        .list v (bs.map Bul.block) (((metaOf m).or (firstMeta x.ty)).map bareM) [])]) fl'
      { fl with ref := fl.ref || bs.any fun y => y.text.any Elem.refers, box := false } (bulsEnding bs) := by
  obtain ⟨q, init, last, hq, hi, hlast⟩ := feed_buls w k p m h.still v x rest (by rw [← hbs]; exact hok) (by
    intro _ b hb
    obtain ⟨pend, hp, -, h2⟩ := h.quiet.content
    replace hp : p.blocks = pend.toList := hp
    rw [hp] at hb
    cases pend with
    | none => cases hb
    | some s => cases hb; cases h2; rfl)
    (by rw [← hbs]; exact fun x => hk (h.quiet.kept x)) ts (by rw [← hbs]; exact hm)
  rw [← hbs] at hlast
  clear hbs
  subst hlast
  generalize (metaOf m).or (firstMeta x.ty) = m0 at hi ⊢
  refine ⟨q, hq, ?_⟩
  obtain ⟨its, l1, l2, h1, h3⟩ := hi.body
  obtain ⟨pend, hp, -, h2⟩ := h.quiet.content
  replace hp : p.blocks = pend.toList := hp
  replace h2 : Content p.asg.blocks hs E fl pend := h2
  rw [← hi.asg] at h2
  have h1' := h1
  rw [hp] at h1
  have hc : Calm q := ⟨hi.toBase, hi.openLines.trans h.quiet.openLines, h.quiet.steady.step hi.steady hi.asg⟩
  have hbu : Built q.asg := by rw [hi.asg]; exact h.quiet.built
  have hfr : q.asg.front = f := by rw [hi.asg]; exact h.quiet.front
  obtain ⟨hsh, hn⟩ := Flow.open hn
  have hfl := Flow.then hn
  have href : q.closeParent = (fl.ref || (init ++ [last]).any fun y => y.text.any Elem.refers) := by
    rw [hi.ref, ← h.quiet.ref]
  rw [← href] at hfl
  have hbare : bareB (more v last.mark m0 its l2 q.inlines.reverse l1) = .list v ((init ++ [last]).map Bul.block) (m0.map bareM) [] :=
    more_bare v m0 its l2 l1 q.inlines.reverse init last h3 hi.text
  have hkq : q.preserveNl = true → fl.kept = true := by rw [hi.kept]; exact h.quiet.kept
  have hfin : init ≠ [] → ∀ d ty, Ended { q with inBlockLine := false, dangling := d, lastTy := ty } f hs
      (E ++ [(parents hs 5, .list v ((init ++ [last]).map Bul.block) (m0.map bareM) [])]) { fl with ref := fl.ref || (init ++ [last]).any fun y => y.text.any Elem.refers, box := false } := by
    intro hin d ty
    have ha := addInlines_take { q with inBlockLine := false, dangling := d, lastTy := ty } hi.header hi.span hi.ne _ _ _ h1 rfl rfl
      (hi.force hin) (pushInlines_item ..)
    have := finish_put _ _ hs E fl pend (more v last.mark m0 its l2 q.inlines.reverse l1) rfl hsh ha (by
      intro n hn
      simp only [List.length_cons]
      rw [drain]
      simp only [List.length_cons, show n < pend.toList.length + 1 + 1 by omega, if_true, addLastToGraph, hi.data, bind, Except.bind,
        Block.takesBlock, Block.isListItem, Block.pushBlock, liftB, pure, Except.pure, List.nil_append]
      rfl) (hc.same rfl) h2 hbu rfl false (fun _ => rfl) hkq
    rw [hbare] at this
    rw [← hfr, ← href]
    exact this
  have hend : bulsEnding (init ++ [last]) ≤ 1 → init ≠ [] := by
    intro hle hnil
    subst hnil
    simp [bulsEnding] at hle
  refine ⟨hi.header, hi.openText, ?_, ?_, ?_⟩
  · intro t1 t2 ht1 ht2
    obtain ⟨r, hr, hr2⟩ := settle_block { q with
        inBlockLine := false, dangling := none, lastTy := .newLineChar, inSpan := false, inlines := [], forceNew := false
        blocks := more v last.mark m0 its l2 q.inlines.reverse l1 :: pend.toList }
      (hc.same rfl) f hs E fl pend (more v last.mark m0 its l2 q.inlines.reverse l1) rfl false (fun _ => rfl) rfl h2 hsh rfl rfl rfl rfl hfr hbu
      (by show q.preserveNl = true → _; rw [hi.kept]; exact h.quiet.kept)
    refine ⟨_, two_newlines w k q (base_data hi.toBase) hi.last t1 t2 ht1 ht2 r ?_, ?_⟩
    · intro d
      rw [items_blank q p v m0 init last hi its l1 l2 h1' d, hp]
      exact hr
    · rw [hbare] at hr2
      rw [hfl]; exact hr2
  · intro he ty
    have := hfin (hend (by omega)) q.dangling ty
    have e : { q with lastTy := ty } = { q with inBlockLine := false, lastTy := ty } := by rw [← hi.line]
    rw [e]; exact this
  · intro he t ht'
    obtain ⟨d, hd⟩ := one_newline w k q (base_data hi.toBase) hi.last t ht'
    exact ⟨_, hd, hi.header, hi.openText, fun ty => hfin (hend he) d ty⟩

/-- A list is fed to the parser. -/
theorem feed_list (w : World) (k : Nat) (p : Parser) (m : Option Meta) (f : Front) (hs : List Title) (E : List (List Title × Block))
    (fl fl' : Flow) (h : Waits p m f hs E fl) (v : ListVariant) (items : List (List Elem)) (ho : (Blk.list v items).Ok)
    (hn : fl.step (.list v items) = some fl') (hk : fl.kept = true → ∀ es ∈ items, OneLine es) (ts : List Token) (hm : Matches (Blk.list v items).signs ts) :
    ∃ q, Feeds w k ts p q ∧ Ready w k q f hs (E ++ [(parents hs 5, (Blk.list v items).block [] ((metaOf m).map bareM))]) fl' (fl.stop (.list v items))
      (Blk.list v items).ending := by
  obtain ⟨hne, hok⟩ := ho
  replace hm : Matches (itemsSigns v items) ts := hm
  rw [bulsSigns_items] at hm
  have hany : ((items.map (bulOf v)).any fun y => y.text.any Elem.refers) = (Blk.list v items).refers := by
    rw [List.any_map]; rfl
  match items, hne with
  | es :: rest, _ =>
    obtain ⟨q, h1, h2⟩ := feed_list_of w k p m f hs E fl fl' h v (bulOf v es) (rest.map (bulOf v)) ((es :: rest).map (bulOf v)) rfl (by
        intro y hy
        obtain ⟨z, hz, rfl⟩ := List.mem_map.1 hy
        exact ⟨bulOf_marks v z, hok z hz⟩) (by rw [hany]; exact hn) (by
        intro hp y hy
        obtain ⟨z, hz, rfl⟩ := List.mem_map.1 hy
        exact hk hp z hz) ts hm
    rw [firstMeta_bul, Option.or_none, hany, List.map_map] at h2
    refine ⟨q, h1, ?_⟩
    have he : bulsEnding ((es :: rest).map (bulOf v)) = (Blk.list v (es :: rest)).ending := by cases rest <;> rfl
    rw [he] at h2
    exact h2

end Adoc.Rich
