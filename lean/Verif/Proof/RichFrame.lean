import Verif.Proof.RichParse
/-!
# Text is read the same way in titles and below metadata

The tokens of a text do not look at the header, the title or (except for markers) the metadata.
-/
namespace Adoc.Parser
open Spec Scanner

/-- The parser with other metadata, in a header or a title. -/
def over (h : Option Header) (d : Option Meta) (ti : Option (List Inline)) (p : Parser) : Parser :=
  { p with header := h, data := d, title := ti, openText := none }

theorem over_self (p : Parser) (ho : p.openText = none) : over p.header p.data p.title p = p := by
  cases p; simp only at ho; subst ho; rfl

theorem frame_addText (h : Option Header) (d : Option Meta) (ti : Option (List Inline)) (p : Parser) (t : Token) (b : Bool) :
    (over h d ti p).addText t b = (p.addText t b).map (over h d ti) := by
  unfold addText
  rw [show (over h d ti p).inlines = p.inlines from rfl]
  dsimp only
  cases p.inlines with
  | nil => rfl
  | cons i R =>
    cases i with
    | span v f is m l o =>
      dsimp only
      rw [show (over h d ti p).inSpan = p.inSpan from rfl]
      split <;> rfl
    | lit n v l => dsimp only; split <;> rfl
    | brk l => rfl
    | ref v g is m l =>
      dsimp only
      rw [show (over h d ti p).closeParent = p.closeParent from rfl]
      split
      · rfl
      · cases Inline.refAddText is t b <;> rfl

theorem frame_parseText (h : Option Header) (d : Option Meta) (ti : Option (List Inline)) (p : Parser) (t : Token) (b : Bool) :
    (over h d ti p).parseText t b = (p.parseText t b).map (over h d ti) := by
  unfold Parser.parseText
  rw [show (over h d ti p).dangling = p.dangling from rfl, show (over h d ti p).preserveNl = p.preserveNl from rfl]
  cases p.dangling with
  | none => exact frame_addText ..
  | some nl =>
    dsimp only
    split
    · rfl
    · rw [frame_addText]
      cases p.addText nl false with
      | error e => rfl
      | ok q => exact frame_addText h d ti { q with dangling := none } t b

theorem frame_addCharref (h : Option Header) (d : Option Meta) (ti : Option (List Inline)) (p : Parser) (x : Inline) :
    (over h d ti p).addCharref x = (p.addCharref x).map (over h d ti) := by
  unfold addCharref
  rw [show (over h d ti p).inlines = p.inlines from rfl]
  cases p.inlines with
  | nil => rfl
  | cons i R =>
    cases i with
    | span v f is m l o =>
      dsimp only
      rw [show (over h d ti p).inSpan = p.inSpan from rfl]
      split <;> rfl
    | lit n v l => rfl
    | brk l => rfl
    | ref v g is m l =>
      dsimp only
      rw [show (over h d ti p).closeParent = p.closeParent from rfl]
      split <;> rfl

theorem frame_charref (h : Option Header) (d : Option Meta) (ti : Option (List Inline)) (p : Parser) (t : Token) :
    (over h d ti p).parseCharref t = (p.parseCharref t).map (over h d ti) := by
  unfold parseCharref
  rw [show (over h d ti p).dangling = p.dangling from rfl, show (over h d ti p).preserveNl = p.preserveNl from rfl]
  dsimp only
  cases p.dangling with
  | none => exact frame_addCharref ..
  | some nl =>
    dsimp only
    split
    · rfl
    · rw [frame_addText]
      cases p.addText nl false with
      | error e => rfl
      | ok q => exact frame_addCharref h d ti { q with dangling := none } _

theorem frame_dangling (h : Option Header) (d : Option Meta) (ti : Option (List Inline)) (p : Parser) :
    (over h d ti p).danglingSpans = p.danglingSpans.map (over h d ti) := by
  unfold danglingSpans
  rw [show (over h d ti p).inlines = p.inlines from rfl]
  cases splitFirst Inline.isOpen p.inlines with
  | none => rfl
  | some x =>
    obtain ⟨above, span, below⟩ := x
    simp only [bind, Except.bind]
    cases span.markupLiteral with
    | error e => rfl
    | ok pre =>
      dsimp only
      cases span.childInlines with
      | error e => rfl
      | ok kids =>
        cases kids with
        | nil => exact frame_addText h d ti { p with inlines := above ++ below } _ _
        | cons i is =>
          dsimp only
          cases Inline.prependFirst pre (some span.locations) (i :: is) <;> rfl

theorem frame_keeps {p q : Parser} (ho : p.openText = none) {x : Parser → M Parser} (hx : x p = .ok q)
    (hf : x (over p.header p.data p.title p) = (x p).map (over p.header p.data p.title)) :
    q.header = p.header ∧ q.data = p.data ∧ q.title = p.title ∧ q.openText = none := by
  rw [over_self p ho, hx] at hf
  have : q = over p.header p.data p.title q := by simpa [Except.map] using hf
  rw [this]
  exact ⟨rfl, rfl, rfl, rfl⟩

theorem frame_openSpan (h : Option Header) (ti : Option (List Inline)) (p : Parser) (hd : p.data = none)
    (ho : p.openText = none) (x : Inline) :
    (over h none ti p).openSpan x = (p.openSpan x).map (over h none ti) := by
  have key : ∀ q : Parser, q.data = none → q.openText = none →
      (do let p ← (over h none ti q).danglingSpans
          match p.data with
          | some m => do
            let i ← x.addMeta m
            return { p with data := none, inlines := i :: p.inlines, inSpan := true }
          | none => return { p with inlines := x :: p.inlines, inSpan := true } : M Parser)
      = (do let p ← q.danglingSpans
            match p.data with
            | some m => do
              let i ← x.addMeta m
              return { p with data := none, inlines := i :: p.inlines, inSpan := true }
            | none => return { p with inlines := x :: p.inlines, inSpan := true } : M Parser).map (over h none ti) := by
    intro q hq hoq
    rw [frame_dangling]
    cases hr : q.danglingSpans with
    | error e => rfl
    | ok r =>
      have := (frame_keeps hoq hr (frame_dangling ..)).2.1
      simp only [bind, Except.bind, Except.map]
      rw [show (over h none ti r).data = none from rfl, show r.data = none from this.trans hq]
      rfl
  unfold openSpan
  rw [show (over h none ti p).dangling = p.dangling from rfl]
  cases p.dangling with
  | none => exact key p hd ho
  | some t =>
    dsimp only
    rw [frame_addText]
    cases hr : p.addText t false with
    | error e => rfl
    | ok r =>
      have := frame_keeps (x := fun p => p.addText t false) ho hr (frame_addText ..)
      exact key { r with dangling := none } (this.2.1.trans hd) this.2.2.2

theorem frame_span (h : Option Header) (ti : Option (List Inline)) (p : Parser) (hd : p.data = none)
    (ho : p.openText = none) (x : Inline) :
    (over h none ti p).parseSpan x = (p.parseSpan x).map (over h none ti) := by
  unfold parseSpan
  rw [show (over h none ti p).inlines = p.inlines from rfl]
  cases p.inlines with
  | nil => exact frame_openSpan h ti p hd ho x
  | cons i R =>
    dsimp only
    by_cases hs : x.sameKind i = true
    · simp only [hs, if_true]
      cases (i.reconcileLocations x.locations).close <;> rfl
    · simp only [hs]
      cases i with
      | span v f is m l o =>
        dsimp only
        cases closeOrAdd x is with
        | none => rfl
        | some r => dsimp only; cases r <;> rfl
      | lit => exact frame_openSpan h ti p hd ho x
      | ref => exact frame_openSpan h ti p hd ho x
      | brk => exact frame_openSpan h ti p hd ho x

/-- Tokens of a text that are neither newlines nor markers. -/
def textTypes : List TokenType :=
  [.text, .charRef, .crossReference, .linkMacro, .inlineMacroClose, .footnoteMacro, .inlineImageMacro, .lineContinuation]

/-- The tokens that make up a text: newlines, except in titles, and markers, except below metadata. -/
def InText (d : Option Meta) (ti : Option (List Inline)) (ty : TokenType) : Prop :=
  ty ∈ textTypes ∨ ty = .newLineChar ∧ ti = none ∨ (∃ m : Mark, ty = m.type) ∧ d = none

theorem frame_dispatch (w : World) (g : Token → Parser → M Parser) (h : Option Header) (d : Option Meta)
    (ti : Option (List Inline)) (p : Parser) (t : Token) (hd : p.data = none) (hti : p.title = none) (ho : p.openText = none)
    (hc : InText d ti t.ty) (hl : t.ty = .newLineChar → p.lastTy ≠ .newLineChar ∧ p.lastTy ≠ .eof) :
    (over h d ti p).dispatchToken w g t = (p.dispatchToken w g t).map (over h d ti) := by
  unfold dispatchToken
  rcases hc with hc | ⟨hc, rfl⟩ | ⟨⟨m, hc⟩, rfl⟩
  · simp only [textTypes, List.mem_cons, List.not_mem_nil, or_false] at hc
    rcases hc with hc | hc | hc | hc | hc | hc | hc | hc
    · rw [hc]; exact frame_parseText ..
    · rw [hc]; exact frame_charref ..
    · rw [hc]
      simp only [parseXref]
      cases Inline.xrefFromToken t <;> rfl
    · rw [hc]; rfl
    · rw [hc]
      simp only [parseMacroClose]
      rw [show (over h d ti p).openText = none from rfl, show (over h d ti p).inlines = p.inlines from rfl, ho]
      simp only [reduceCtorEq, if_false]
      cases splitFirst Inline.isMacro p.inlines with
      | none => exact frame_addText ..
      | some x =>
        obtain ⟨above, x, below⟩ := x
        simp only [bind, Except.bind]
        cases absorb x above.reverse with
        | error e => rfl
        | ok y =>
          dsimp only
          cases y.consolidateFromToken t <;> rfl
    · rw [hc]
      simp only [parseFootnote]
      cases Inline.spanFromToken t <;> rfl
    · rw [hc]
      simp only [parseInlineImage]
      cases targetAndAttrs t <;> rfl
    · rw [hc]; rfl
  · rw [hc]
    obtain ⟨l1, l2⟩ := hl hc
    simp only [parseNewLine]
    rw [show (over h d none p).title = none from rfl, show (over h d none p).lastTy = p.lastTy from rfl,
      show (over h d none p).inCont = p.inCont from rfl, hti]
    simp only [l1, l2, or_self, if_false]
    split <;> rfl
  · have hs := spanFromToken_mark m t hc
    rw [hc]
    cases m <;> (simp only [Mark.type]; rw [hs]; exact frame_span h ti p hd ho _)

/-- Tokens that can be in a header. -/
def InHeader (h : Option Header) (t : Token) : Prop := h.isSome = true → t.canBeInHeader = true

theorem tokenInto_over (w : World) (k : Nat) (t : Token) (p : Parser) (ho : p.openText = none) (hh : InHeader p.header t) :
    tokenInto w (k + 1) t p = p.dispatchToken w (tokenInto w k) t := by
  simp only [tokenInto, step]
  have : (p.header.isSome && !t.canBeInHeader) = false := by
    cases hp : p.header.isSome with
    | false => rfl
    | true => rw [hh hp]; rfl
  rw [this]
  have hv : p.verbatim t = none := by unfold verbatim; rw [ho]
  simp only [Bool.false_eq_true, if_false, bind, Except.bind, hv]

/-- Reading tokens when a newline came last (`b`): there are no two newlines in a row, and the result says whether a
newline comes last. -/
def runT (b : Bool) : List Token → Option Bool
  | [] => some b
  | t :: ts => if t.ty = .newLineChar then (if b then none else runT true ts) else runT false ts

theorem InText.ne_eof {d : Option Meta} {ti : Option (List Inline)} {ty : TokenType} (h : InText d ti ty) : ty ≠ .eof := by
  rintro rfl
  rcases h with h | ⟨h, _⟩ | ⟨⟨m, h⟩, _⟩
  · exact absurd h (by decide)
  · cases h
  · cases m <;> cases h

theorem InText.weaken {d : Option Meta} {ti : Option (List Inline)} {ty : TokenType} (h : InText d ti ty) : InText none none ty := by
  rcases h with h | ⟨h, _⟩ | ⟨h, _⟩
  · exact .inl h
  · exact .inr (.inl ⟨h, rfl⟩)
  · exact .inr (.inr ⟨h, rfl⟩)

/-- What is fed to the parser outside of headers and titles and without metadata can also be fed to it there. -/
theorem Feeds.over {w : World} {k : Nat} {ts : List Token} {p q : Parser} (hf : Feeds w k ts p q) (h : Option Header)
    (d : Option Meta) (ti : Option (List Inline)) (hd : p.data = none) (hti : p.title = none) (ho : p.openText = none)
    (hh : p.header = none) (hc : ∀ t ∈ ts, InText d ti t.ty ∧ InHeader h t) (b : Bool)
    (hb : p.lastTy = .newLineChar ∨ p.lastTy = .eof → b = true) (hl : (runT b ts).isSome = true) :
    Feeds w k ts (Parser.over h d ti p) (Parser.over h d ti q) := by
  induction ts generalizing p b with
  | nil => cases hf; exact Feeds.nil ..
  | cons t ts ih =>
    have hcl := hc t (by simp)
    have hnl : t.ty = .newLineChar → p.lastTy ≠ .newLineChar ∧ p.lastTy ≠ .eof := by
      intro e
      constructor
      · intro h'
        simp [runT, e, hb (.inl h')] at hl
      · intro h'
        simp [runT, e, hb (.inr h')] at hl
    cases hq : tokenInto w (k + 1) t p with
    | error e => unfold Feeds at hf; simp [feed, hq, bind, Except.bind] at hf
    | ok r =>
      have hf' : Feeds w k ts { r with lastTy := t.ty } q := by
        unfold Feeds at hf ⊢
        rw [List.map_cons, feed_cons _ _ _ _ _ hq] at hf
        exact hf
      rw [tokenInto_plain w k t p hh ho] at hq
      have hk := frame_keeps (x := fun p => p.dispatchToken w (tokenInto w k) t) ho hq
        (frame_dispatch w (tokenInto w k) p.header p.data p.title p t hd hti ho (by rw [hd, hti]; exact hcl.1.weaken) hnl)
      have h2 : tokenInto w (k + 1) t (Parser.over h d ti p) = .ok (Parser.over h d ti r) := by
        rw [tokenInto_over w k t (Parser.over h d ti p) rfl hcl.2,
          frame_dispatch w (tokenInto w k) h d ti p t hd hti ho hcl.1 hnl, hq]
        rfl
      refine Feeds.cons h2 (ih (p := { r with lastTy := t.ty }) hf' (hk.2.1.trans hd) (hk.2.2.1.trans hti) hk.2.2.2
        (hk.1.trans hh) (fun u hu => hc u (by simp [hu])) (decide (t.ty = .newLineChar)) ?_ ?_)
      · rintro (h' | h')
        · simpa using h'
        · exact absurd h' hcl.1.ne_eof
      · unfold runT at hl
        by_cases hn : t.ty = .newLineChar
        · rw [if_pos hn] at hl
          cases b with
          | true => simp at hl
          | false => simpa [hn] using hl
        · rw [if_neg hn] at hl
          simpa [hn] using hl

/-! ## Texts have no blank lines -/

/-- A sign is a newline. -/
def isNl : Sign → Bool
  | .text _ => false
  | .mark ty _ => ty = .newLineChar

/-- Reading signs when a newline came last (`b`). -/
def runS (b : Bool) : List Sign → Option Bool
  | [] => some b
  | s :: ss => if isNl s then (if b then none else runS true ss) else runS false ss

theorem runS_append (b : Bool) (x y : List Sign) : runS b (x ++ y) = (runS b x).bind fun c => runS c y := by
  induction x generalizing b with
  | nil => rfl
  | cons s x ih =>
    simp only [List.cons_append, runS]
    split
    · split
      · rfl
      · exact ih true
    · exact ih false

theorem runS_line (b : Bool) (l : Str) (hl : l ≠ []) (ss : List Sign) : runS b (lineSigns l ++ ss) = runS false ss := by
  simp only [lineSigns, hl, if_false, List.cons_append, List.nil_append, runS, isNl, Bool.false_eq_true]

theorem runS_more (ls : List Str) (hn : ls ≠ []) (hi : ∀ l ∈ ls.dropLast, l ≠ []) :
    runS true (textSigns ls) = some (endsLine ls) := by
  induction ls with
  | nil => exact absurd rfl hn
  | cons l ls ih =>
    cases ls with
    | nil =>
      by_cases hl : l = []
      · subst hl; rfl
      · have := runS_line true l hl []
        simp only [List.append_nil] at this
        rw [textSigns, this]
        simp [runS, endsLine, hl]
    | cons l' ls =>
      have hl : l ≠ [] := hi l (by simp)
      rw [textSigns, runS_line true l hl]
      · simp only [runS, isNl, decide_true, if_true, Bool.false_eq_true, if_false]
        rw [ih (by simp) (fun x hx => hi x (by simp [hx]))]
        simp [endsLine]
      · simp

theorem runS_text (ls : List Str) (h : TextLines ls) (b : Bool) (hb : b = true → ls.head? ≠ some []) :
    runS b (textSigns ls) = some (endsLine ls) := by
  cases ls with
  | nil => exact absurd rfl h.1
  | cons l ls =>
    cases ls with
    | nil =>
      have hl : l ≠ [] := by simpa [joinB] using h.1
      have := runS_line b l hl []
      simp only [List.append_nil] at this
      rw [textSigns, this]
      simp [runS, endsLine, hl]
    | cons l' ls =>
      have hm := runS_more (l' :: ls) (by simp) h.2
      have he : endsLine (l :: l' :: ls) = endsLine (l' :: ls) := by simp [endsLine]
      rw [textSigns, he]
      · by_cases hl : l = []
        · subst hl
          have : b = false := by cases b <;> simp_all
          subst this
          simpa [lineSigns, runS, isNl] using hm
        · rw [runS_line b l hl]
          simpa [runS, isNl] using hm
      · simp

theorem runS_mark (m : Mark) (l : Str) (b : Bool) (ss : List Sign) : runS b (.mark m.type l :: ss) = runS false ss := by
  cases m <;> rfl

theorem runS_part (p : Part) (a : Around) (prev : Option Part) (rest : List Part) (h : PartsOk a prev (p :: rest)) :
    runS false p.signs = some false ∧ PartsOk a (some p) rest := by
  cases p with
  | text ls =>
    obtain ⟨h1, h2, _, h4⟩ := h
    exact ⟨by rw [Part.signs, runS_text ls h1 false (by simp), endsLine_false h2], h4⟩
  | span m ls =>
    obtain ⟨h1, h2, _, _, h4⟩ := h
    refine ⟨?_, h4⟩
    rw [Part.signs, runS_mark, runS_append, runS_text ls h1 false (by simp), endsLine_false h2]
    exact runS_mark m m.str false []

theorem runS_parts (ps : List Part) (a : Around) (prev : Option Part) (h : PartsOk a prev ps) :
    runS false (ps.flatMap Part.signs) = some false := by
  induction ps generalizing prev with
  | nil => rfl
  | cons p ps ih =>
    obtain ⟨h1, h2⟩ := runS_part p a prev ps h
    rw [List.flatMap_cons, runS_append, h1]
    exact ih _ h2

theorem runS_elems (es : List Elem) (prev : Option Elem) (h : ElemsOk prev es) :
    (runS (match prev with
      | none => true
      | some (.text ls) => endsLine ls
      | _ => false) (es.flatMap Elem.signs)).isSome = true := by
  induction es generalizing prev with
  | nil => rfl
  | cons e es ih =>
    rw [List.flatMap_cons, runS_append]
    cases e with
    | text ls =>
      obtain ⟨h1, h2, h3, h4⟩ := h
      rw [Elem.signs, runS_text ls h1]
      · exact ih _ h4
      · cases prev with
        | none => exact fun _ => h2 rfl
        | some e => cases e <;> first | exact absurd rfl (h3 _) | simp
    | span m ps =>
      obtain ⟨_, h2, _, _, h4⟩ := h
      rw [Elem.signs, runS_mark, runS_append, runS_parts ps _ _ h2]
      simp only [Option.bind_some, runS_mark]
      exact ih _ h4
    | link url ps =>
      obtain ⟨h2, _, h4⟩ := h
      rw [Elem.signs]
      simp only [runS, isNl, reduceCtorEq, decide_false, Bool.false_eq_true, if_false]
      rw [runS_append, runS_parts ps _ _ h2]
      exact ih _ h4
    | xref id =>
      obtain ⟨_, _, h4⟩ := h
      exact ih _ h4
    | symbol l => exact ih _ h
    | note ps =>
      obtain ⟨h2, _, _, h4⟩ := h
      rw [Elem.signs]
      simp only [runS, isNl, reduceCtorEq, decide_false, Bool.false_eq_true, if_false]
      rw [runS_append, runS_parts ps _ _ h2]
      exact ih _ h4
    | image target args =>
      obtain ⟨_, _, h4⟩ := h
      exact ih _ h4
    | hard => exact ih _ h.2

theorem runT_pieces {l : Str} {ts : List Token} (h : Pieces' l ts) (hl : l ≠ []) (b : Bool) (us : List Token) :
    runT b (ts ++ us) = runT false us := by
  induction h generalizing b with
  | nil => exact absurd rfl hl
  | cons x rest t ts hx ht h ih =>
    rw [List.cons_append, runT, if_neg (by rw [ht.ty]; simp)]
    by_cases hr : rest = []
    · subst hr
      generalize hz : ([] : Str) = z at h
      cases h with
      | nil => rfl
      | cons y r _ _ hy => simp at hz; exact absurd hz.1 hy
    · exact ih hr false

theorem runT_matches {ss : List Sign} {ts : List Token} (h : Matches ss ts) (b : Bool) : runT b ts = runS b ss := by
  induction h generalizing b with
  | nil => rfl
  | text l ss ts us hl ht h ih => rw [runT_pieces ht hl, ih]; rfl
  | mark ty l ss t us ht h ih => simp only [runT, runS, isNl, ht.ty, ih, decide_eq_true_eq]

end Adoc.Parser
