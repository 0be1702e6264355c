import Verif.Proof.FilledSteps
import Verif.Proof.RichDoc
/-!
# References and quotes are read as texts
-/
namespace Adoc.Filled
open Spec Block Parser Scanner Rich

theorem R.holds {ty : TokenType} {K : Parser → Prop} {x x' : M Parser} (h : R ty K x x') : Ok x K := by
  intro q hq
  subst hq
  exact h.2

/-- Where references do not take text, only the text and the place of a token matter. -/
theorem addText_same {p : Parser} {t u : Token} (h : C false p) (h1 : t.text = u.text) (h2 : t.locations = u.locations) :
    p.addText t false = p.addText u false := by
  unfold Parser.addText
  simp only [Bool.false_eq_true, if_false, h1, h2]
  cases hi : p.inlines with
  | nil => rfl
  | cons x rest =>
    cases x with
    | ref v g is m l =>
      rcases h with h | h
      · simp only [h, if_true]
      · rcases h (.ref v g is m l) (by rw [hi]; simp) with h | ⟨h, _⟩ <;> cases h
    | lit n v l => simp only [Inline.litAdd, h2]
    | _ => rfl

theorem parseText_same {p : Parser} {t u : Token} (h : C false p) (h1 : t.text = u.text) (h2 : t.locations = u.locations) :
    p.parseText t false = p.parseText u false := by
  unfold Parser.parseText
  cases p.dangling with
  | none => exact addText_same h h1 h2
  | some nl =>
    simp only [Bool.false_eq_true, if_false, Inline.textFromToken, h1, h2]
    split
    · rfl
    · have hq := (addText_R (ty := .text) p nl false).holds
      cases hx : p.addText nl false with
      | error e => rfl
      | ok q =>
        have := (hq q hx).refs false h
        exact addText_same (p := { q with dangling := none }) this h1 h2

/-- A text token has the effect of another token. -/
structure Fills (env : SMap Str) (t t' : Token) : Prop where
  ty : t'.ty = .text
  alike : Alike t.ty .text
  line : t'.line = t.line
  files : t'.fileStack = t.fileStack
  step : ∀ w f p, At env .text p → step w f t p = step w f t' p

/-- Tokens with text tokens in the places of references and quotes. -/
inductive Sim (env : SMap Str) : Place → List Token → List Token → Prop where
  | nil (pl : Place) : Sim env pl [] []
  | same (pl : Place) (t : Token) (ts us : List Token) (h : pl.allows t.ty t.lexeme) (hs : Sim env (pl.next t.ty) ts us) :
      Sim env pl (t :: ts) (t :: us)
  | text (pl : Place) (t : Token) (ts us : List Token) (h : t.ty = .text) (hs : Sim env pl ts us) : Sim env pl (t :: ts) (t :: us)
  | fill (t u : Token) (ts us : List Token) (h : Fills env t u) (hs : Sim env .text ts us) : Sim env .text (t :: ts) (u :: us)

theorem At.next_text {env : SMap Str} {pl : Place} {p : Parser} (h : At env pl p) : pl.next .text = pl := by
  cases pl with
  | text => rfl
  | link => rfl
  | verbatim d =>
    have := h.known d rfl
    simp only [Place.next]
    rw [if_neg]
    rintro (⟨h1, h2⟩ | ⟨h1, _⟩)
    · subst h1
      exact absurd this (by decide)
    · cases h1

theorem allows_text (pl : Place) (l : Str) : pl.allows .text l := by
  cases pl with
  | verbatim d => exact (by decide : TokenType.text ≠ .include)
  | text => exact ⟨by decide, nofun, nofun⟩
  | link => exact ⟨by decide, nofun, fun _ => by decide⟩

theorem Alike.refl (a : TokenType) : Alike a a := ⟨Iff.rfl, Iff.rfl, rfl⟩

/-- The end of the text. -/
theorem eof_R {env : SMap Str} {pl : Place} {p : Parser} {ty : TokenType} (w : World) (f : Token → Parser → M Parser) (m : Nat) (fs : List Str)
    (h : At env pl p) : R ty (fun _ => True) (step w f (Token.final m fs) p) (step w f (Token.final m fs) (setL ty p)) := by
  unfold Parser.step
  rw [show (setL ty p).header = p.header from rfl, h.header]
  show R ty _ (match p.verbatim (Token.final m fs) with
        | some pass => p.parseText (Token.final m fs) pass
        | none => p.dispatchToken w f (Token.final m fs))
      (match (setL ty p).verbatim (Token.final m fs) with
        | some pass => (setL ty p).parseText (Token.final m fs) pass
        | none => (setL ty p).dispatchToken w f (Token.final m fs))
  have eof : R ty (fun _ => True) (p.dispatchToken w f (Token.final m fs)) ((setL ty p).dispatchToken w f (Token.final m fs)) := by
    unfold Parser.dispatchToken
    dsimp only [Token.final]
    rw [show (setL ty p).header = p.header from rfl, h.header]
    exact .ok trivial
  cases pl with
  | verbatim d => exact (verbatim_R w f (Token.final m fs) h (by decide : TokenType.eof ≠ .include)).mono fun _ _ => trivial
  | text =>
    rw [verbatim_open (p := p) h.open_, verbatim_open (p := setL ty p) h.open_]
    exact eof
  | link =>
    rw [verbatim_open (p := p) h.open_, verbatim_open (p := setL ty p) h.open_]
    exact eof

/-- Both texts are parsed to the same. -/
theorem feed_sim {env : SMap Str} {pl : Place} {ts us : List Token} (hs : Sim env pl ts us) (w : World) (k m : Nat) (fs : List Str) (p : Parser)
    (ty : TokenType) (h : At env pl p) (ha : Alike p.lastTy ty) :
    feed (tokenInto w (k + 1)) true (ts.map .tok ++ [.tok (Token.final m fs)]) p
      = feed (tokenInto w (k + 1)) true (us.map .tok ++ [.tok (Token.final m fs)]) (setL ty p) := by
  have go : ∀ (t : Token) (A B : List Item) (pl' : Place) (p : Parser) (ty : TokenType),
      R ty (At env pl') (tokenInto w (k + 1) t p) (tokenInto w (k + 1) t (setL ty p)) →
      (∀ q, At env pl' q → feed (tokenInto w (k + 1)) true A { q with lastTy := t.ty } = feed (tokenInto w (k + 1)) true B { q with lastTy := t.ty }) →
      feed (tokenInto w (k + 1)) true (.tok t :: A) p = feed (tokenInto w (k + 1)) true (.tok t :: B) (setL ty p) := by
    intro t A B pl' p ty hr hq
    simp only [feed]
    cases hx : tokenInto w (k + 1) t p with
    | error e =>
      rw [hx] at hr
      rw [show tokenInto w (k + 1) t (setL ty p) = .error e from hr]
      rfl
    | ok q =>
      rw [hx] at hr
      rw [hr.1]
      exact hq q hr.2
  have at' : ∀ {pl : Place} {q : Parser} (t : TokenType), At env pl q → At env pl { q with lastTy := t } :=
    fun t h => ⟨h.attrs, h.header, h.verse, h.open_, h.refs, h.known⟩
  induction hs generalizing p ty with
  | nil pl =>
    simp only [List.map_nil, List.nil_append, feed]
    have := eof_R (ty := ty) w (tokenInto w k) m fs h
    show (tokenInto w (k + 1) (Token.final m fs) p >>= _) = (tokenInto w (k + 1) (Token.final m fs) (setL ty p) >>= _)
    cases hx : tokenInto w (k + 1) (Token.final m fs) p with
    | error e =>
      rw [show step w (tokenInto w k) (Token.final m fs) p = .error e from hx] at this
      rw [show tokenInto w (k + 1) (Token.final m fs) (setL ty p) = .error e from this]
    | ok q =>
      rw [show step w (tokenInto w k) (Token.final m fs) p = .ok q from hx] at this
      rw [show tokenInto w (k + 1) (Token.final m fs) (setL ty p) = .ok (setL ty q) from this.1]
      rfl
  | same pl t ts us hal hs ih =>
    refine go t _ _ (pl.next t.ty) p ty (step_R w _ t h ha hal) fun q hq => ?_
    exact ih _ _ (at' _ hq) (.refl _)
  | text pl t ts us hty hs ih =>
    have hr := step_R (ty := ty) w (tokenInto w k) t h ha (by rw [hty]; exact allows_text pl _)
    rw [hty, h.next_text] at hr
    refine go t _ _ pl p ty hr fun q hq => ?_
    exact ih _ _ (at' _ hq) (.refl _)
  | fill t u ts us hf hs ih =>
    have hr := step_R (ty := ty) w (tokenInto w k) u h ha (by rw [hf.ty]; exact allows_text .text _)
    rw [hf.ty] at hr
    simp only [List.map_cons, List.cons_append, feed]
    rw [show tokenInto w (k + 1) t p = tokenInto w (k + 1) u p from hf.step w _ p h]
    cases hx : tokenInto w (k + 1) u p with
    | error e =>
      rw [show step w (tokenInto w k) u p = .error e from hx] at hr
      rw [show tokenInto w (k + 1) u (setL ty p) = .error e from hr]
      rfl
    | ok q =>
      rw [show step w (tokenInto w k) u p = .ok q from hx] at hr
      rw [show tokenInto w (k + 1) u (setL ty p) = .ok (setL ty q) from hr.1]
      have := ih { q with lastTy := t.ty } .text (at' _ hr.2) hf.alike
      simp only [bind, Except.bind, if_true]
      rw [this, hf.ty]
      rfl

/-! ## The tokens -/

/-- A text token with a text, at the place of a token. -/
def textAt (t : Token) (v : Str) (e : Nat) : Token := ⟨.text, v, some v, t.line, t.startcol, e, t.fileStack⟩

theorem step_text {env : SMap Str} {p : Parser} (w : World) (f : Token → Parser → M Parser) (h : At env .text p) (t : Token) :
    step w f t p = p.dispatchToken w f t := by
  unfold Parser.step
  rw [h.header]
  show (match p.verbatim t with
        | some pass => p.parseText t pass
        | none => p.dispatchToken w f t) = _
  rw [verbatim_open h.open_]

theorem fills_of {env : SMap Str} {t : Token} (v : Str) (e : Nat) (ha : Alike t.ty .text)
    (hs : ∀ w f p, At env .text p → ∃ t' : Token, p.dispatchToken w f t = p.parseText t' false ∧ t'.text = v
      ∧ t'.locations = (textAt t v e).locations) : Fills env t (textAt t v e) := by
  refine ⟨rfl, ha, rfl, rfl, fun w f p h => ?_⟩
  obtain ⟨t', h1, h2, h3⟩ := hs w f p h
  rw [step_text w f h, step_text w f h, h1]
  exact parseText_same h.refs (by rw [h2]; rfl) h3

theorem text_at (t : Token) (v : Str) (e : Nat) : IsMark .text v (textAt t v e) := ⟨rfl, rfl, rfl⟩

/-- A sign that is read as a text. -/
theorem fills_mark {env : SMap Str} {ty : TokenType} {l v : Str} (h : ReadAs env (.mark ty l) v) (hl : ∃ x y, Lexical.Lexeme ty x l y) (t : Token)
    (ht : IsMark ty l t) : ∃ e, Fills env t (textAt t v e) ∧ v ≠ [] := by
  have slice : ∀ name, l = b!"{" ++ name ++ b!"}" → ty = .attributeReference → sliceM t.text 1 (t.text.length - 1) = .ok name := by
    intro name hn hty
    subst hty
    obtain ⟨x, y, hx⟩ := hl
    obtain ⟨w, hw, ha⟩ := hx
    have : name = w := by
      rw [hn] at hw
      simpa using hw
    subst this
    have hx : t.text = b!"{" ++ name ++ b!"}" := by rw [ht.text, ← hn]; rfl
    rw [hx]
    refine sliceM_mid b!"{" name b!"}" ?_ ?_ _ _ rfl (by simp; omega)
    · intro b hb
      cases name with
      | nil => cases hb; rfl
      | cons c name =>
        cases hb
        rcases ha b (by simp) with h | h
        · exact (isCont_false_iff b).2 (.inl (by unfold Lexical.Alnum at h; omega))
        · subst h; rfl
    · exact starts_ascii _ _ rfl
  cases h with
  | value name v hv hne =>
    have hty := ht.ty
    refine ⟨t.startcol + v.length - 1, fills_of v _ ?_ fun w f p hp => ⟨{ t with lit := some v, endcol := t.startcol + v.length - 1 }, ?_, ?_, rfl⟩, hne⟩
    · rw [hty]; exact ⟨by decide, by decide, rfl⟩
    · unfold Parser.dispatchToken
      rw [hty]
      show p.parseAttrRef t = _
      unfold Parser.parseAttrRef
      rw [slice name rfl rfl]
      show (match p.attrs.get? name with
        | some v => _
        | none => _) = _
      rw [hp.attrs, hv]
      have : ¬ (t.startcol + v.length = 0) := by
        cases v with
        | nil => exact absurd rfl hne
        | cons => simp
      simp only [if_neg this, hty]
    · unfold Token.text
      simp only [hty]
  | unknown name hv =>
    have hty := ht.ty
    refine ⟨t.endcol, fills_of _ _ ?_ fun w f p hp => ⟨t, ?_, ht.text, rfl⟩, by simp⟩
    · rw [hty]; exact ⟨by decide, by decide, rfl⟩
    · unfold Parser.dispatchToken
      rw [hty]
      show p.parseAttrRef t = _
      unfold Parser.parseAttrRef
      rw [slice name rfl rfl]
      show (match p.attrs.get? name with
        | some v => _
        | none => _) = _
      rw [hp.attrs, hv]
  | quote _ _ _ hq =>
    have hty := ht.ty
    unfold quoteSigns at hq
    simp only [List.mem_cons, Prod.mk.injEq, List.not_mem_nil, or_false] at hq
    rcases hq with ⟨rfl, rfl, rfl⟩ | ⟨rfl, rfl, rfl⟩ | ⟨rfl, rfl, rfl⟩ | ⟨rfl, rfl, rfl⟩
    all_goals
      refine ⟨t.endcol, fills_of _ _ (by rw [hty]; exact ⟨by decide, by decide, rfl⟩) fun w f p hp => ⟨t, ?_, ht.text, rfl⟩, by decide⟩
      unfold Parser.dispatchToken
      rw [hty]

theorem _root_.Adoc.Scanner.Lined.append {fs : List Str} {n : Nat} {a b : List Token} (h : Lined fs n a) (h' : Lined fs (lineAfter n a) b) :
    Lined fs n (a ++ b) := by
  induction a generalizing n with
  | nil => exact h'
  | cons t a ih => exact ⟨h.1, ih h.2 h'⟩

theorem pieces_append {a b : Str} {ts us : List Token} (h : Pieces' a ts) (h' : Pieces' b us) : Pieces' (a ++ b) (ts ++ us) := by
  induction h with
  | nil => exact h'
  | cons x rest t ts hx ht _ ih =>
    rw [List.append_assoc]
    exact .cons x _ t _ hx ht ih

theorem lined_text {n : Nat} {l : Str} {ts : List Token} (h : Pieces' l ts) : lineAfter n ts = n := by
  induction h with
  | nil => rfl
  | cons x rest t ts _ ht _ ih => simp only [lineAfter, ht.ty]; simpa using ih

theorem sim_pieces {env : SMap Str} {pl : Place} {l : Str} {ts : List Token} (h : Pieces' l ts) {us us' : List Token} (hs : Sim env pl us us') :
    Sim env pl (ts ++ us) (ts ++ us') := by
  induction h with
  | nil => exact hs
  | cons x rest t ts _ ht _ ih => exact .text pl t _ _ ht.ty ih

theorem reads_tokens {env : SMap Str} {cs : List Sign} {v : Str} (h : ReadsAs env cs v) (hl : ∀ ty l, .mark ty l ∈ cs → ∃ x y, Lexical.Lexeme ty x l y)
    {fs : List Str} {n : Nat} {ts : List Token} (hm : Matches cs ts) (hli : Lined fs n ts) :
    ∃ us, Pieces' v us ∧ Lined fs n us ∧ lineAfter n ts = n ∧ ∀ rs rs', Sim env .text rs rs' → Sim env .text (ts ++ rs) (us ++ rs') := by
  induction h generalizing ts with
  | nil =>
    cases hm
    exact ⟨[], .nil, trivial, rfl, fun _ _ h => h⟩
  | cons s ss v vs hr hs ih =>
    cases hm with
    | text l _ ts us hne hp hm =>
      obtain ⟨l1, l2⟩ := hli.split
      have hn := lined_text (n := n) hp
      rw [hn] at l2
      obtain ⟨us', h1, h2, h3, h4⟩ := ih (fun ty l h => hl ty l (by simp [h])) hm l2
      cases hr with
      | text _ h =>
      refine ⟨ts ++ us', pieces_append hp h1, l1.append (by rw [hn]; exact h2), ?_, fun rs rs' h => ?_⟩
      · rw [lineAfter_append, hn, h3]
      · rw [List.append_assoc, List.append_assoc]
        exact sim_pieces hp (h4 _ _ h)
    | mark ty l _ t us ht hm =>
      obtain ⟨e, hf, hne⟩ := fills_mark hr (hl ty l (by simp)) t ht
      have hnl : t.ty ≠ .newLineChar := fun h => by
        have := hf.alike.newline.1 h
        cases this
      obtain ⟨l1, l2⟩ := hli
      rw [if_neg hnl] at l2
      obtain ⟨us', h1, h2, h3, h4⟩ := ih (fun ty l h => hl ty l (by simp [h])) hm l2
      refine ⟨textAt t v e :: us', .cons v vs _ _ hne (text_at t v e) h1, ⟨⟨hf.line.trans l1.1, hf.files.trans l1.2⟩, ?_⟩, ?_, fun rs rs' h => ?_⟩
      · rw [if_neg (by rw [hf.ty]; decide)]; exact h2
      · simp only [lineAfter, if_neg hnl]; exact h3
      · exact .fill t _ _ _ hf (h4 _ _ h)

/-- The tokens of the text that is meant. -/
theorem filled_tokens {env : SMap Str} {pl : Place} {a b : List Sign} (h : Filled env pl a b) (hl : ∀ ty l, .mark ty l ∈ a → ∃ x y, Lexical.Lexeme ty x l y)
    {fs : List Str} {n : Nat} {ts : List Token} (hm : Matches a ts) (hli : Lined fs n ts) :
    ∃ us, Matches b us ∧ Lined fs n us ∧ Sim env pl ts us := by
  induction h generalizing ts n with
  | nil pl => cases hm; exact ⟨[], .nil, trivial, .nil pl⟩
  | mark pl ty l a b hal hs ih =>
    cases hm with
    | mark _ _ _ t us ht hm =>
    obtain ⟨l1, l2⟩ := hli
    obtain ⟨us', h1, h2, h3⟩ := ih (fun ty l h => hl ty l (by simp [h])) hm l2
    refine ⟨t :: us', .mark _ _ _ _ _ ht h1, ⟨l1, h2⟩, .same pl t _ _ (by rw [ht.ty, ht.lexeme]; exact hal) (by rw [ht.ty]; exact h3)⟩
  | text pl l a b hs ih =>
    cases hm with
    | text _ _ ts us hne hp hm =>
    obtain ⟨l1, l2⟩ := hli.split
    obtain ⟨us', h1, h2, h3⟩ := ih (fun ty l h => hl ty l (by simp [h])) hm l2
    exact ⟨ts ++ us', .text l _ ts us' hne hp h1, l1.append h2, sim_pieces hp h3⟩
  | fill cs v a b hr hv hs ih =>
    obtain ⟨ts, us, rfl, m1, m2⟩ := hm.split
    obtain ⟨l1, l2⟩ := hli.split
    obtain ⟨ts', h1, h2, h3, h4⟩ := reads_tokens hr (fun ty l h => hl ty l (by simp [h])) m1 l1
    rw [h3] at l2
    obtain ⟨us', h5, h6, h7⟩ := ih (fun ty l h => hl ty l (by simp [h])) m2 l2
    exact ⟨ts' ++ us', .text v _ ts' us' hv h1 h5, h2.append (by rw [lined_text h1]; exact h6), h4 _ _ h7⟩

theorem Between.at {p : Parser} {f : Front} {hs : List Title} {E : List (List Title × Block)} {fl : Flow} (h : Between p f hs E fl) :
    At (f.2.1.getD []) .text p := by
  have hst := h.steady
  have hf : p.asg.attributes = f.2.1 := congrArg (·.2.1) h.front
  refine ⟨?_, h.header, ?_, h.openText, .inr ?_, nofun⟩
  · rw [← hf]; exact hst.2
  · rw [h.data]; exact .none
  · rw [h.inlines]; simp

/-- A document with references and quotes in its texts is parsed to a graph with the values and the quotes in their places. -/
theorem parse_filled (w : World) (k : Nat) (d : RichDoc) (ho : d.Ok) (body : List Sign)
    (hf : Filled ((d.head.map Head.defs).getD []) .text body (d.blocks.flatMap Tagged.signs))
    (hs : ∀ s ∈ body, SignOk s) (hl : Legible [] (d.front ++ body) []) (hu : ∃ cs, written (d.front ++ body) = enc cs)
    (hw : ∀ x ∈ d.targets, There w [] x) :
    ∃ g, Adoc.parseText w (k + 2) (written (d.front ++ body)) = .ok g ∧ listedL [] g.blocks = contents d.ids [] d.blocks
      ∧ g.header.map (fun h => bareL h.title) = d.head.map (fun h => shownL [] h.title)
      ∧ g.attributes = d.head.map Head.defs := by
  have hfr : ∀ s ∈ d.front, SignOk s := fun s hs => ho.signs s (by
    unfold RichDoc.signs
    unfold RichDoc.front at hs
    simp only [List.mem_append] at hs ⊢
    rcases hs with hs | hs
    · exact .inl hs
    · exact .inr (.inl hs))
  obtain ⟨ts, m, h1, h2, hli⟩ := scan_signs (d.front ++ body) hu (fun s h => by
    have : SignOk s := (List.mem_append.1 h).elim (hfr s) (hs s)
    cases s with
    | text => trivial
    | mark ty l => exact this) hl
  unfold RichDoc.front at h1
  rw [List.append_assoc] at h1
  obtain ⟨p, f, us, vs, rfl, h3, h4, m2, hf1, hf2, i, hi, hli⟩ := feed_front w (k + 1) d.head d.lead _ ho.head ho.lead ts _ _ h1 h2 hli
  obtain ⟨vs', n1, n2, n3⟩ := filled_tokens hf (fun ty l h => legible_lexeme _ _ _ hl ty l (List.mem_append_right _ h)) m2 hli
  obtain ⟨q, hs', fe, h5, h6, h7, h8⟩ := feed_blocks w k _ d.blocks p [] [] {} h4 ho.blocks ho.gaps ho.flow
    (files_same h3 ⟨by simp [Parser.new], trivial⟩).1 (fun c hc x hx => by
      rw [(files_same h3 ⟨by simp [Parser.new], trivial⟩).2.1]; exact hw x (List.mem_flatMap.2 ⟨c, hc, hx⟩))
    (icons_head hf2 ho.icons)
    (fun s hs => ho.signs s (by unfold RichDoc.signs; simp only [List.mem_append]; exact .inr (.inr hs))) i hi vs' n1 n2
  obtain ⟨r, g1, g2, g3, g4⟩ := parse_tokens w k _ m q f hs' fe d.blocks (h3.append h5) h6 h7 h8
    (fun c hc => (ho.blocks c hc).place) ho.ids
  refine ⟨r.asg, ?_, g2, by rw [g3, hf1], by rw [g4, hf2]⟩
  have hat := Between.at h4
  rw [hf2] at hat
  have hsim := feed_sim n3 w (k + 1) m [] p p.lastTy hat (.refl _)
  have e : setL p.lastTy p = p := rfl
  rw [e] at hsim
  unfold Adoc.parseText
  rw [h2]
  have heq : Parser.parse w (k + 2) ((us ++ vs).map .tok ++ [.tok (Token.final m [])]) Parser.new
      = Parser.parse w (k + 2) ((us ++ vs').map .tok ++ [.tok (Token.final m [])]) Parser.new := by
    rw [List.map_append, List.map_append, List.append_assoc, List.append_assoc, parse_append w (k + 2) _ _ _ p h3, parse_append w (k + 2) _ _ _ p h3]
    unfold Parser.parse
    rw [hsim]
  rw [heq, g1]
  rfl

end Adoc.Filled
