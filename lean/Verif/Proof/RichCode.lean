import Verif.Proof.RichFeed
import Verif.Proof.RichArgs
import Verif.Props.Include
/-!
# Listings with callouts and included files, and lists that explain callouts
-/
namespace Adoc.Rich
open Spec Block Parser Scanner Props

/-! ## Lists that explain callouts -/

/-- An item that explains a callout. -/
def bulCallout (x : Str × List Elem) : Bul := ⟨.codeCalloutListItem, b!"<" ++ x.1 ++ b!">", x.2⟩

theorem wsLen_lt (s : Str) : wsLen (c!"<" :: s) = 0 := by
  unfold wsLen
  split <;> simp_all
  all_goals (rename_i h; simp [← h.1])

theorem wsLenRev_gt (s : Str) : wsLenRev (c!">" :: s) = 0 := by
  unfold wsLenRev
  split <;> simp_all
  all_goals (rename_i h; simp [← h.1])

theorem wsLenRev_blank (s : Str) : wsLenRev (c!" " :: c!">" :: s) = 1 := by
  unfold wsLenRev
  split <;> simp_all
  all_goals (rename_i h; simp [← h.1])

theorem bulCallout_marks (x : Str × List Elem) : (bulCallout x).Marks .ordered := by
  refine ⟨?_, .inr rfl, ?_⟩
  · show trim (b!"<" ++ x.1 ++ b!">" ++ b!" ") = b!"<" ++ x.1 ++ b!">"
    have h1 : trimStart (b!"<" ++ x.1 ++ b!">" ++ b!" ") = b!"<" ++ x.1 ++ b!">" ++ b!" " := by
      show trimStartF _ (c!"<" :: (x.1 ++ b!">" ++ b!" ")) = c!"<" :: (x.1 ++ b!">" ++ b!" ")
      simp only [List.length_append, List.cons_append, List.length_cons, trimStartF, wsLen_lt, if_true]
    rw [trim, h1, trimEnd]
    simp only [List.reverse_append, List.reverse_cons, List.reverse_nil, List.nil_append, List.cons_append, List.length_append,
      List.length_cons, List.length_nil, trimRevF, wsLenRev_blank, wsLenRev_gt, if_true, Nat.one_ne_zero, if_false, List.drop_succ_cons, List.drop_zero]
    simp
  · show (decide (b!"<" ++ x.1 ++ b!">" = b!".") || (b!"<" ++ x.1 ++ b!">").contains c!"<") = true
    simp

theorem bulsSigns_callouts (items : List (Str × List Elem)) : calloutsSigns items = bulsSigns (items.map bulCallout) := by
  induction items with
  | nil => rfl
  | cons x rest ih =>
    cases rest with
    | nil => simp [calloutsSigns, bulsSigns, calloutSigns, Bul.signs, bulCallout]
    | cons y ys => simp only [calloutsSigns, List.map_cons, bulsSigns] at ih ⊢; rw [ih]; simp [calloutSigns, Bul.signs, bulCallout]

/-- A list that explains callouts is fed to the parser. -/
theorem feed_colist (w : World) (k : Nat) (p : Parser) (m : Option Meta) (f : Front) (hs : List Title) (E : List (List Title × Block))
    (fl fl' : Flow) (h : Waits p m f hs E fl) (items : List (Str × List Elem)) (ho : (Blk.colist items).Ok)
    (hn : fl.step (.colist items) = some fl') (hk : fl.kept = true → ∀ x ∈ items, OneLine x.2) (ts : List Token)
    (hm : Matches (Blk.colist items).signs ts) :
    ∃ q, Feeds w k ts p q ∧ Ready w k q f hs (E ++ [(parents hs 5, (Blk.colist items).block [] ((metaOf m).map bareM))]) fl'
      (fl.stop (.colist items)) (Blk.colist items).ending := by
  obtain ⟨hne, hok⟩ := ho
  replace hm : Matches (calloutsSigns items) ts := hm
  rw [bulsSigns_callouts] at hm
  have hany : ((items.map bulCallout).any fun y => y.text.any Elem.refers) = (Blk.colist items).refers := by
    rw [List.any_map]; rfl
  match items, hne with
  | x :: rest, _ =>
    obtain ⟨q, h1, h2⟩ := feed_list_of w k p m f hs E fl fl' h .ordered (bulCallout x) (rest.map bulCallout) ((x :: rest).map bulCallout) rfl (by
        intro y hy
        obtain ⟨z, hz, rfl⟩ := List.mem_map.1 hy
        exact ⟨bulCallout_marks z, (hok z hz).2⟩) (by rw [hany]; exact hn) (by
        intro hp y hy
        obtain ⟨z, hz, rfl⟩ := List.mem_map.1 hy
        exact hk hp z hz) ts hm
    have hmt : ((metaOf m).or (firstMeta (bulCallout x).ty)).map bareM = colistMeta ((metaOf m).map bareM) := by
      cases metaOf m <;> rfl
    rw [hmt, hany, List.map_map] at h2
    refine ⟨q, h1, ?_⟩
    have he : bulsEnding ((x :: rest).map bulCallout) = (Blk.colist (x :: rest)).ending := by cases rest <;> rfl
    rw [he] at h2
    exact h2

/-! ## Names of files -/

theorem split_last (s : Str) : ∃ x xs, splitOnB c!"." s = x :: xs ∧ (xs = [] → s = x) ∧ ∀ e, xs.getLast? = some e → b!"." ++ e <:+ s := by
  induction s with
  | nil => exact ⟨[], [], rfl, fun _ => rfl, nofun⟩
  | cons b bs ih =>
    obtain ⟨x, xs, h1, h2, h3⟩ := ih
    rw [splitOnB, h1]
    split
    · rename_i hb
      refine ⟨[], x :: xs, rfl, nofun, fun e he => ?_⟩
      cases xs with
      | nil =>
        simp only [List.getLast?_singleton, Option.some.injEq] at he
        subst he
        exact ⟨[], by simp [hb, h2 rfl]⟩
      | cons y ys =>
        rw [List.getLast?_cons_cons] at he
        exact (h3 e he).trans (List.suffix_cons _ _)
    · exact ⟨b :: x, xs, rfl, fun h => by rw [h2 h], fun e he => (h3 e he).trans (List.suffix_cons _ _)⟩

/-- The name of a file that is not read as AsciiDoc. -/
theorem code_name (target : Str) (h : CodeName target) : isAsciidoc target = false := by
  obtain ⟨_, _, h⟩ := h
  obtain ⟨x, xs, h1, h2, h3⟩ := split_last target
  have hl : ∀ e, (x :: xs).getLast? = some e → target = e ∨ b!"." ++ e <:+ target := by
    intro e he
    cases xs with
    | nil =>
      simp only [List.getLast?_singleton, Option.some.injEq] at he
      exact .inl (by rw [h2 rfl, he])
    | cons y ys =>
      rw [List.getLast?_cons_cons] at he
      exact .inr (h3 e he)
  unfold isAsciidoc
  rw [h1]
  cases hx : (x :: xs).getLast? with
  | none => rfl
  | some e =>
    have := hl e hx
    have key : ∀ e' ∈ [b!"adoc", b!"asciidoc", b!"txt"], e ≠ e' := by
      rintro e' he' rfl
      rcases this with h4 | h4
      · exact (h e he').1 h4
      · exact (h e he').2 h4
    have k1 := key b!"adoc" (by simp)
    have k2 := key b!"asciidoc" (by simp)
    have k3 := key b!"txt" (by simp)
    simp only [k1, k2, k3, decide_false, Bool.or_self]

/-! ## Listings -/

/-- The inlines end with the text `cur`, after `rest`. -/
def Tail (is : List Inline) (cur : Option Str) (rest : List Inline) : Prop :=
  match cur with
  | some s => ∃ l, is = .lit .text s l :: rest
  | none => is = rest ∧ ∀ x, is.head? = some x → ∃ v f js m l o, x = .span v f js m l o

theorem tail_text (p : Parser) (cur : Option Str) (rest : List Inline) (h : Tail p.inlines cur rest) (hd : p.dangling = none)
    (hs : p.inSpan = false) (t : Token) (pass : Bool) : ∃ l, p.parseText t pass = .ok { p with
      inlines := .lit .text (cur.getD [] ++ if pass then t.lexeme else t.text) l :: rest } := by
  cases cur with
  | some s =>
    obtain ⟨l, h⟩ := h
    exact ⟨reconcile l t.locations, by simp only [Parser.parseText, hd, Parser.addText, h, reduceCtorEq, if_false, Inline.litAdd, Option.getD_some]⟩
  | none =>
    obtain ⟨rfl, h⟩ := h
    refine ⟨t.locations, ?_⟩
    simp only [Parser.parseText, hd, Parser.addText]
    cases hi : p.inlines with
    | nil => simp
    | cons x xs =>
      obtain ⟨v, f, js, m, l, o, rfl⟩ := h x (by rw [hi]; rfl)
      simp [hs]

/-- In a listing that begins after `p0`: `done` are the inlines before the text `cur`. -/
structure InCode (p p0 : Parser) (d : Str) (m : Option Meta) (done : List Inline) (cur : Option Str) : Prop where
  same : p = { p0 with lastTy := p.lastTy, inlines := p.inlines, blocks := p.blocks, openText := some .sourceBlock, forceNew := false, data := none }
  body : ∃ is l rest, p.blocks = .leaf .listing .delimited (some d) is m l :: p0.blocks ∧ Tail p.inlines cur rest
    ∧ bareL (is ++ rest.reverse) = done

/-- Where a listing begins. -/
structure CodeStart (p : Parser) : Prop extends AtBlockStart p where
  span : p.inSpan = false

theorem code_open (w : World) (k : Nat) (p : Parser) (hp : CodeStart p) (d : Str) (t : Token) (ht : IsMark .sourceBlock d t) :
    ∃ q, Feeds w k [t] p q ∧ InCode q p d (metaOf p.data) [] none := by
  have hx : t.text = d := ht.text
  have h1 : tokenInto w (k + 1) t p = .ok { p with
      openText := some .sourceBlock, forceNew := false, data := none,
      blocks := .leaf .listing .delimited (some d) [] (metaOf p.data) t.locations :: p.blocks } := by
    rw [tokenInto_plain w k t p hp.header hp.openText]
    unfold dispatchToken
    rw [ht.ty]
    simp only [parseLeaf, hp.openText, Block.leafFromToken, Block.leafName, ht.ty, Block.liftB, bind, Except.bind, pushToStack, hp.cont, Bool.false_and,
      Bool.false_eq_true, if_false, hx]
    cases hm : p.data with
    | none => simp [pure, Except.pure, metaOf]
    | some m =>
      by_cases he : m.isEmpty = true <;> simp [Block.addMeta, metaOf, he, pure, Except.pure]
  refine ⟨_, Feeds.one h1, rfl, [], t.locations, [], rfl, ⟨hp.inlines, ?_⟩, rfl⟩
  intro x hx
  simp [hp.inlines] at hx

theorem code_token (w : World) (k : Nat) (p p0 : Parser) (hp : CodeStart p0) (d : Str) (m : Option Meta) (done : List Inline) (cur : Option Str)
    (h : InCode p p0 d m done cur) (t : Token) (ht : Enclosed .sourceBlock t) :
    ∃ q, Feeds w k [t] p q ∧ InCode q p0 d m done (some (cur.getD [] ++ t.lexeme)) := by
  obtain ⟨h1, is, l, rest, h2, h3, h4⟩ := h
  have e1 : p.header = none := by rw [h1]; exact hp.header
  have e2 : p.dangling = none := by rw [h1]; exact hp.dangling
  have e3 : p.inSpan = false := by rw [h1]; exact hp.span
  have e4 : p.openText = some .sourceBlock := by rw [h1]
  obtain ⟨l', hx⟩ := tail_text p cur rest h3 e2 e3 t true
  have hv : p.verbatim t = some true := by
    unfold verbatim
    rw [e4]
    simp [ht.1, (ht.2 rfl).1, (ht.2 rfl).2]
  have hstep : tokenInto w (k + 1) t p = .ok { p with inlines := .lit .text (cur.getD [] ++ t.lexeme) l' :: rest } := by
    rw [tokenInto_noHeader w k t p e1, hv]; exact hx
  refine ⟨_, Feeds.one hstep, ?_, is, l, rest, h2, ⟨l', rfl⟩, h4⟩
  conv => lhs; rw [h1]

theorem code_tokens (w : World) (k : Nat) (p0 : Parser) (hp : CodeStart p0) (d : Str) (m : Option Meta) (done : List Inline)
    (ts : List Token) (ht : ∀ t ∈ ts, Enclosed .sourceBlock t) (hne : ts ≠ []) (p : Parser) (cur : Option Str)
    (h : InCode p p0 d m done cur) :
    ∃ q, Feeds w k ts p q ∧ InCode q p0 d m done (some (cur.getD [] ++ ts.flatMap Token.lexeme)) := by
  induction ts generalizing p cur with
  | nil => exact absurd rfl hne
  | cons t ts ih =>
    obtain ⟨q, h1, h2⟩ := code_token w k p p0 hp d m done cur h t (ht t (by simp))
    cases ts with
    | nil => exact ⟨q, h1, by simpa using h2⟩
    | cons u us =>
      obtain ⟨r, h3, h4⟩ := ih (fun x hx => ht x (by simp [hx])) (by simp) q _ h2
      refine ⟨r, Feeds.append (a := [t]) h1 h3, ?_⟩
      simpa using h4

theorem code_callout (w : World) (k : Nat) (p p0 : Parser) (hp : CodeStart p0) (d : Str) (m : Option Meta) (done : List Inline) (cur : Option Str)
    (h : InCode p p0 d m done cur) (n : Str) (hn : Lexical.Digits n) (hic : p0.attrs.get? b!"icons" ≠ some b!"true") (t : Token)
    (ht : IsMark .codeCallout (b!"<" ++ n ++ b!">") t) :
    ∃ q, Feeds w k [t] p q ∧ InCode q p0 d m (done ++ (cur.toList.map literal ++ [conum n])) none := by
  obtain ⟨h1, is, l, rest, h2, h3, h4⟩ := h
  have e1 : p.header = none := by rw [h1]; exact hp.header
  have e4 : p.openText = some .sourceBlock := by rw [h1]
  have e5 : p.attrs = p0.attrs := by rw [h1]
  have hv : p.verbatim t = none := by
    unfold verbatim
    rw [e4, ht.ty]
    simp
  have hsp : Inline.spanFromToken t = .ok (.span .strong .constrained [.lit .text (b!"(" ++ n ++ b!")") t.locations]
        (some (Meta.withRole b!"conum")) t.locations true) := by
    have htx : t.text = b!"<" ++ n ++ b!">" := ht.text
    have hst : ∀ b ∈ n, isCont b = false := by
      intro b hb
      have := (hn b hb).2
      have h' : ¬(0x80 ≤ b) := by rw [UInt8.le_iff_toNat_le]; simp; omega
      simp [isCont, h']
    have hsl : sliceM t.text 1 (t.text.length - 1) = .ok n := by
      rw [htx, List.append_assoc]
      refine sliceM_mid b!"<" n b!">" ?_ (by simp [Starts, isCont]) 1 _ rfl (by simp; omega)
      intro b hb
      cases n with
      | nil => simp at hb; subst hb; decide
      | cons x xs => simp at hb; subst hb; exact hst x (by simp)
    unfold Inline.spanFromToken
    rw [ht.ty]
    simp only [Inline.spanKind, if_true, hsl, bind, Except.bind, pure, Except.pure]
  have hstep : tokenInto w (k + 1) t p = .ok { p with
      inlines := (.span .strong .constrained [.lit .text (b!"(" ++ n ++ b!")") t.locations] (some (Meta.withRole b!"conum")) t.locations true) :: p.inlines } := by
    rw [tokenInto_noHeader w k t p e1, hv]
    show p.dispatchToken w (tokenInto w k) t = _
    unfold dispatchToken
    rw [ht.ty]
    simp only [parseCallout, e5, hic, false_and, if_false, hsp, bind, Except.bind, pure, Except.pure]
  refine ⟨_, Feeds.one hstep, ?_, is, l, _, h2, ⟨rfl, ?_⟩, ?_⟩
  · conv => lhs; rw [h1]
  · intro x hx
    simp only [List.head?_cons, Option.some.injEq] at hx
    exact ⟨_, _, _, _, _, _, hx.symm⟩
  · rw [List.reverse_cons, ← List.append_assoc, bareL_append]
    cases cur with
    | none =>
      obtain ⟨h3, -⟩ := h3
      rw [h3, h4]
      rfl
    | some s =>
      obtain ⟨l', h3⟩ := h3
      rw [h3, List.reverse_cons, ← List.append_assoc, bareL_append, h4]
      simp [bareL, bare, literal, conum, Meta.withRole]

theorem included_text (f : Token → Parser → M Parser) (rest : List Inline) (ts : List Token) (hne : ts ≠ []) (p : Parser) (cur : Option Str)
    (h : Tail p.inlines cur rest) (hd : p.dangling = none) (hs : p.inSpan = false) :
    ∃ l ty, included f false ts p = .ok { p with inlines := .lit .text (cur.getD [] ++ ts.flatMap Token.text) l :: rest, lastTy := ty } := by
  induction ts generalizing p cur with
  | nil => exact absurd rfl hne
  | cons t ts ih =>
    obtain ⟨l, h1⟩ := tail_text { p with lastTy := if t.ty = .eof then .eof else .text } cur rest h hd hs t false
    simp only [included, includeToken, Bool.false_eq_true, if_false, h1, bind, Except.bind]
    cases ts with
    | nil => exact ⟨l, if t.ty = .eof then .eof else .text, by simp only [List.flatMap_cons, List.flatMap_nil, List.append_nil]; rfl⟩
    | cons u us =>
      obtain ⟨l', ty, h2⟩ := ih (by simp) { p with
        lastTy := if t.ty = .eof then .eof else .text, inlines := .lit .text (cur.getD [] ++ if false then t.lexeme else t.text) l :: rest }
        (some (cur.getD [] ++ t.text)) ⟨l, rfl⟩ hd hs
      refine ⟨l', ty, h2.trans ?_⟩
      simp

theorem matches_texts {ss : List Sign} {ts : List Token} (h : Matches ss ts) (ha : ∀ s ∈ ss, asWritten s = true) :
    ts.flatMap Token.text = written ss := by
  induction h with
  | nil => rfl
  | text l ss ts us hl ht h ih =>
    rw [List.flatMap_append, ih (fun s hs => ha s (by simp [hs]))]
    have : ts.flatMap Token.text = l := by
      clear h ih ha hl
      induction ht with
      | nil => rfl
      | cons x rest t ts _ ht _ ih => rw [List.flatMap_cons, ht.text, ih]; rfl
    rw [this]; rfl
  | mark ty l ss t us ht h ih =>
    rw [List.flatMap_cons, ht.text, ih (fun s hs => ha s (by simp [hs]))]
    have := ha (.mark ty l) (by simp)
    have : signText ty l = l := by
      unfold signText
      split <;> simp_all [asWritten]
    rw [this]; rfl

theorem code_file (w : World) (k : Nat) (p p0 : Parser) (hp : CodeStart p0) (d : Str) (m : Option Meta) (done : List Inline) (cur : Option Str)
    (h : InCode p p0 d m done cur) (target : Str) (source : List Sign) (ho : (CodePart.file target source).Ok)
    (hw : There w p0.files (target, some (written source))) (t : Token) (ht : IsMark .include (includeLine target) t) :
    ∃ q, Feeds w k [t] p q ∧ InCode q p0 d m (done ++ [literal (cur.getD [] ++ written source)]) none := by
  obtain ⟨h1, is, l, rest, h2, h3, h4⟩ := h
  obtain ⟨o1, o2, o3, o4⟩ := ho
  obtain ⟨path, hr, hrd⟩ := hw
  replace hrd := hrd _ rfl
  have e1 : p.header = none := by rw [h1]; exact hp.header
  have e2 : p.dangling = none := by rw [h1]; exact hp.dangling
  have e3 : p.inSpan = false := by rw [h1]; exact hp.span
  have e4 : p.openText = some .sourceBlock := by rw [h1]
  have e5 : p.files = p0.files := by rw [h1]
  have e6 : p.inBlockLine = false := by rw [h1]; exact hp.line
  have e7 : p.forceNew = false := by rw [h1]
  have hv : p.verbatim t = none := by
    unfold verbatim
    rw [e4, ht.ty]
    simp
  have hta : targetAndAttrs t = .ok (target, none) := by
    have := image_read t b!"include::" target [] (by rw [ht.ty]; rfl) (by
      rw [ht.text]
      simp [signText, includeLine, joinB]) ⟨o1.1, o1.2.1, trivial, trivial⟩
    exact this
  obtain ⟨ts, n, g1, g2, -⟩ := run_signs source (p0.files ++ [target]) o3 (by
    intro s hs
    have := (o4 s hs).1
    cases s with
    | text => trivial
    | mark ty l => exact this) o2
  rw [show ts.map Item.tok ++ [.tok (Token.final n (p0.files ++ [target]))] = (ts ++ [Token.final n (p0.files ++ [target])]).map .tok by simp] at g2
  obtain ⟨l', ty, g3⟩ := included_text (tokenInto w k) rest (ts ++ [Token.final n (p0.files ++ [target])]) (by simp)
    { p with files := p0.files ++ [target] } cur h3 e2 e3
  have g4 : (ts ++ [Token.final n (p0.files ++ [target])]).flatMap Token.text = written source := by
    rw [List.flatMap_append, matches_texts g1 (fun s hs => (o4 s hs).2)]
    simp [Token.final, Token.text]
  rw [g4] at g3
  have hadd := addInlines_take { p with
      files := p0.files ++ [target], inlines := .lit .text (cur.getD [] ++ written source) l' :: rest, lastTy := ty } e1 e3 (by simp)
    (.leaf .listing .delimited (some d) is m l) _ p0.blocks h2 rfl e6 e7 (pushInlines_leaf ..)
  have hstep : tokenInto w (k + 1) t p = .ok { p with
      inlines := [], lastTy := ty, files := p0.files
      blocks := .leaf .listing .delimited (some d) (is ++ (Inline.lit .text (cur.getD [] ++ written source) l' :: rest).reverse) m l :: p0.blocks } := by
    rw [tokenInto_noHeader w k t p e1, hv]
    show p.dispatchToken w (tokenInto w k) t = _
    unfold dispatchToken
    rw [ht.ty]
    simp only [parseInclude, hta, bind, Except.bind, selection, e5, hr, hrd, g2, C25_everything, code_name target o1, g3, hadd]
    simp only [List.length_cons, drain, h2, Nat.lt_irrefl, if_false, List.dropLast_concat, pure, Except.pure]
  refine ⟨_, Feeds.one hstep, ?_, _, l, [], rfl, ⟨rfl, nofun⟩, ?_⟩
  · conv => lhs; rw [h1]
  · rw [List.reverse_cons, List.reverse_nil, List.append_nil, ← List.append_assoc, bareL_append, h4]
    rfl

theorem code_close (w : World) (k : Nat) (p p0 : Parser) (hp : CodeStart p0) (d : Str) (m : Option Meta) (done : List Inline) (cur : Option Str)
    (h : InCode p p0 d m done cur) (t : Token) (ht : t.ty = .sourceBlock) :
    ∃ is l, bareL is = done ++ cur.toList.map literal ∧ Feeds w k [t] p { p0 with
      lastTy := .sourceBlock, blocks := .leaf .listing .delimited (some d) is m l :: p0.blocks, forceNew := false, data := none } := by
  obtain ⟨h1, is, l, rest, h2, h3, h4⟩ := h
  have e1 : p.header = none := by rw [h1]; exact hp.header
  have e3 : p.inSpan = false := by rw [h1]; exact hp.span
  have e4 : p.openText = some .sourceBlock := by rw [h1]
  have e6 : p.inBlockLine = false := by rw [h1]; exact hp.line
  have e7 : p.forceNew = false := by rw [h1]
  have e8 : p.inCont = false := by rw [h1]; exact hp.cont
  have e9 : p.data = none := by rw [h1]
  have hv : p.verbatim t = none := by
    unfold verbatim
    rw [e4, ht]
    simp
  have hadd : p.addInlines = .ok { p with inlines := [], blocks := .leaf .listing .delimited (some d) (is ++ p.inlines.reverse) m l :: p0.blocks } := by
    by_cases hi : p.inlines = []
    · rw [addInlines_nil p hi]
      simp only [hi, List.reverse_nil, List.append_nil]
      congr 1
      cases p
      simp only at hi h2
      rw [hi, h2]
    · exact addInlines_take p e1 e3 hi _ _ p0.blocks h2 rfl e6 e7 (pushInlines_leaf ..)
  refine ⟨is ++ p.inlines.reverse, reconcile l t.locations, ?_, ?_⟩
  · cases cur with
    | none =>
      obtain ⟨rfl, -⟩ := h3
      simpa using h4
    | some s =>
      obtain ⟨l', h3⟩ := h3
      rw [h3, List.reverse_cons, ← List.append_assoc, bareL_append, h4]
      rfl
  · have hstep : tokenInto w (k + 1) t p = .ok { p with
        inlines := [], openText := none
        blocks := .leaf .listing .delimited (some d) (is ++ p.inlines.reverse) m (reconcile l t.locations) :: p0.blocks } := by
      rw [tokenInto_noHeader w k t p e1, hv]
      show p.dispatchToken w (tokenInto w k) t = _
      unfold dispatchToken
      rw [ht]
      simp only [parseLeaf, e4, hadd, bind, Except.bind, Block.addLocations, pushToStack, e8, e9, Bool.false_and, Bool.false_eq_true, if_false,
        pure, Except.pure]
    have := Feeds.one hstep
    rw [ht] at this
    refine cast ?_ this
    congr 1
    have g1 := hp.inlines
    have g2 := hp.openText
    generalize p.inlines = a at *
    rw [h1]
    cases p0
    simp only at g1 g2
    rw [g1, g2]

/-- A part of a listing is a file or a callout. -/
def CodePart.targets : CodePart → List (Str × Option Str)
  | .file target source => [(target, some (written source))]
  | _ => []

def CodePart.isCallout : CodePart → Bool
  | .callout _ => true
  | _ => false

theorem code_parts (w : World) (k : Nat) (p0 : Parser) (hp : CodeStart p0) (d : Str) (m : Option Meta)
    (parts : List CodePart) (ho : ∀ x ∈ parts, x.Ok) (hw : ∀ x ∈ parts.flatMap CodePart.targets, There w p0.files x)
    (hic : parts.any CodePart.isCallout = true → p0.attrs.get? b!"icons" ≠ some b!"true") (p : Parser) (done : List Inline)
    (cur : Option Str) (h : InCode p p0 d m done cur) (ts : List Token) (ht : Matches (parts.flatMap CodePart.signs) ts) :
    ∃ q done' cur', Feeds w k ts p q ∧ InCode q p0 d m done' cur' ∧ done' ++ cur'.toList.map literal = done ++ codeInlines cur parts := by
  induction parts generalizing p done cur ts with
  | nil =>
    cases ht
    exact ⟨p, done, cur, .nil _ _ _, h, rfl⟩
  | cons x rest ih =>
    rw [List.flatMap_cons] at ht hw
    obtain ⟨us, vs, rfl, g1, g2⟩ := ht.split
    have ho' : ∀ x ∈ rest, x.Ok := fun y hy => ho y (by simp [hy])
    have hw' : ∀ y ∈ rest.flatMap CodePart.targets, There w p0.files y := fun y hy => hw y (List.mem_append_right _ hy)
    have hic' : rest.any CodePart.isCallout = true → p0.attrs.get? b!"icons" ≠ some b!"true" := fun hy => hic (by simp [hy])
    cases x with
    | text ss =>
      obtain ⟨o1, o2⟩ := ho (.text ss) (by simp)
      replace g1 : Matches ss us := g1
      obtain ⟨q, h1, h2⟩ := code_tokens w k p0 hp d m done us (by
        intro u hu
        rcases matches_types g1 u hu with h2 | ⟨l, h2⟩
        · unfold Enclosed
          rw [h2]
          simp
        · have := o2 _ h2
          unfold Enclosed
          simp only [inVerb, Verb.type, Bool.and_eq_true, ne_eq] at this ⊢
          simp at this ⊢
          exact ⟨of_decide_eq_true this.1, this.2⟩) (matches_ne g1 o1) p cur h
      rw [matches_lexemes g1] at h2
      obtain ⟨q', done', cur', h3, h4, h5⟩ := ih ho' hw' hic' q _ _ h2 vs g2
      exact ⟨q', done', cur', Feeds.append h1 h3, h4, h5⟩
    | callout n =>
      clear ht
      obtain ⟨t, rfl, ht⟩ := matches_one g1
      obtain ⟨q, h1, h2⟩ := code_callout w k p p0 hp d m done cur h n (ho (.callout n) (by simp)) (hic (by simp [CodePart.isCallout])) t ht
      obtain ⟨q', done', cur', h3, h4, h5⟩ := ih ho' hw' hic' q _ _ h2 vs g2
      refine ⟨q', done', cur', Feeds.append h1 h3, h4, h5.trans ?_⟩
      simp [codeInlines]
    | file target source =>
      clear ht
      obtain ⟨t, rfl, ht⟩ := matches_one g1
      obtain ⟨q, h1, h2⟩ := code_file w k p p0 hp d m done cur h target source (ho (.file target source) (by simp))
        (hw _ (by simp [CodePart.targets])) t ht
      obtain ⟨q', done', cur', h3, h4, h5⟩ := ih ho' hw' hic' q _ _ h2 vs g2
      refine ⟨q', done', cur', Feeds.append h1 h3, h4, h5.trans ?_⟩
      simp [codeInlines]

/-- The attributes of the document leave callouts as numbers. -/
def IconsFor (f : Front) (c : Blk) : Prop := c.hasCallout = true → (f.2.1.getD []).get? b!"icons" ≠ some b!"true"

/-- A listing with callouts and included files is fed to the parser. -/
theorem feed_code (w : World) (k : Nat) (p : Parser) (m : Option Meta) (f : Front) (hs : List Title) (E : List (List Title × Block))
    (fl fl' : Flow) (hw : Waits p m f hs E fl) (hdg : p.dangling = none) (d : Str) (parts : List CodePart) (ho : (Blk.code d parts).Ok)
    (hn : fl.step (.code d parts) = some fl') (hf : ∀ x ∈ (Blk.code d parts).targets, There w p.files x)
    (hic : IconsFor f (.code d parts))
    (ts : List Token) (ht : Matches (Blk.code d parts).signs ts) :
    ∃ q, Feeds w k ts p q ∧ Ready w k q f hs (E ++ [(parents hs 5, (Blk.code d parts).block [] ((metaOf m).map bareM))]) fl'
      (fl.stop (.code d parts)) 0 := by
  obtain ⟨p, rfl, h⟩ := hw.over hdg
  simp only [Blk.signs] at ht
  have hp : CodeStart (Parser.over none m none p) := ⟨⟨rfl, rfl, h.inlines, h.dangling, h.inCont, h.line⟩, h.span⟩
  have hat : (Parser.over none m none p).attrs = f.2.1.getD [] := by
    have := h.steady.2
    rw [← h.front]
    exact this
  cases ht with
  | mark _ _ _ t us ht h' =>
    obtain ⟨us, vs, rfl, g1, g2⟩ := h'.split
    obtain ⟨e, rfl, he⟩ := matches_one g2
    obtain ⟨q0, h1, h2⟩ := code_open w k _ hp d t ht
    obtain ⟨q1, done, cur, h3, h4, h5⟩ := code_parts w k _ hp d _ parts ho.2 hf (by rw [hat]; exact hic) q0 [] none h2 us g1
    obtain ⟨is, l, h6, h7⟩ := code_close w k q1 _ hp d _ done cur h4 e he.ty
    refine ⟨_, Feeds.append (a := [t]) h1 (Feeds.append h3 h7), ?_⟩
    obtain ⟨pend, c1, c2, c3⟩ := h.content
    simp only [Flow.step] at hn
    obtain ⟨hsh, hn⟩ := Flow.open hn
    have hfl := Flow.then hn
    simp only [Blk.refers, Bool.or_false] at hfl
    obtain ⟨q, hq⟩ : ∃ q, q = { Parser.over none m none p with
        lastTy := .sourceBlock, blocks := .leaf .listing .delimited (some d) is (metaOf m) l :: p.blocks, forceNew := false, data := none } := ⟨_, rfl⟩
    have hcp : q.closeParent = fl.ref := by rw [hq]; exact h.ref
    have := ready_block w k q f hs E fl pend (.leaf .listing .delimited (some d) is (metaOf m) l) (by rw [hq]; exact ⟨⟨rfl, rfl, rfl, h.inCont, rfl⟩, h.openLines, h.steady⟩) (by rw [hq]; exact h.inlines)
      (by rw [hq, After]; simp) rfl rfl false (fun _ => rfl) (by rw [hq, ← c1]) (by rw [hq]; exact c3) hsh (by rw [hq]; exact h.front)
      (by rw [hq]; exact h.built) (by rw [hq]; exact h.kept)
    simp only [bareB] at this
    rw [hcp, ← hfl, h6, h5, hq] at this
    simp only [Flow.stop, Blk.refers, Bool.or_false]
    exact this

end Adoc.Rich
