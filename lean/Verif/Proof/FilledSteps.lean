import Verif.Proof.Origin
import Verif.Spec.Filled
import Verif.Proof.ParserInv
/-!
# What the handlers keep

One pass over the handlers: what they do does not depend on the kind of the last token (except for newlines), and they keep
the attributes, and references that can take text only stand where a link was opened.
-/
namespace Adoc.Filled
open Spec Block Parser

mutual
/-- There are no references in an inline. -/
def noRef : Inline → Bool
  | .span _ _ is _ _ _ => noRefL is
  | .ref .. => false
  | .lit .. => true
  | .brk _ => true
/-- There are no references in some inlines. -/
def noRefL : List Inline → Bool
  | [] => true
  | x :: xs => noRef x && noRefL xs
end

theorem noRefL_iff {l : List Inline} : noRefL l = true ↔ ∀ x ∈ l, noRef x = true := by
  induction l with
  | nil => simp [noRefL]
  | cons x xs ih => simp [noRefL, ih]

theorem noRefL_append {a b : List Inline} : noRefL (a ++ b) = true ↔ noRefL a = true ∧ noRefL b = true := by
  simp only [noRefL_iff, List.mem_append]
  exact ⟨fun h => ⟨fun x hx => h x (.inl hx), fun x hx => h x (.inr hx)⟩, fun h x hx => hx.elim (h.1 x) (h.2 x)⟩

theorem noRefL_addLast (is : List Inline) (x : Inline) (h : noRefL is = true) (hx : noRef x = true) :
    noRefL (Inline.addLast is x) = true := by
  fun_induction Inline.addLast is x with
  | case1 x => simp [noRefL, hx]
  | case2 x v f is m l ih => simp [noRefL, noRef] at h ⊢; exact ih h hx
  | case3 x v f is m l o ho => simp_all [noRefL, noRef]
  | case4 n v l n' v' l' => simp [noRefL, noRef]
  | case5 x n v l h1 => simp_all [noRefL]
  | case6 x y ys _ _ ih => simp [noRefL] at h ⊢; exact ⟨h.1, ih h.2 hx⟩

theorem noRef_addInline (s x : Inline) (h : noRef s = true) (hx : noRef x = true) : noRef (Inline.addInline s x) = true := by
  unfold Inline.addInline
  split
  · simp only [noRef] at h ⊢; exact noRefL_addLast _ _ h hx
  · exact h

theorem noRef_prependFirst {pre : Str} {ls : Option (List Location)} {is js : List Inline} (h : noRefL is = true)
    (hj : Inline.prependFirst pre ls is = .ok js) : noRefL js = true := by
  unfold Inline.prependFirst at hj
  split at hj
  · cases hj
    simp_all [noRefL, noRef, Inline.prependToValue]
  · cases hj

mutual
theorem noRef_flatten (x : Inline) (h : noRef x = true) : Ok x.flatten fun js => noRefL js = true := by
  match x, h with
  | .span v f is m l true, h =>
    unfold Inline.flatten
    simp only [noRef] at h
    exact .bind' fun _ _ => .bind (noRef_spanInlines is h) fun kids hk => fun a ha => noRef_prependFirst hk ha
  | .span v f is m l false, h => unfold Inline.flatten; exact .pure (by simp only [noRefL, h, Bool.and_self])
  | .lit n v l, h => unfold Inline.flatten; exact .pure (by simp only [noRefL, h, Bool.and_self])
  | .brk l, h => unfold Inline.flatten; exact .pure (by simp only [noRefL, h, Bool.and_self])
theorem noRef_spanInlines (is : List Inline) (h : noRefL is = true) : Ok (Inline.spanInlines is) fun js => noRefL js = true := by
  match is, h with
  | [], _ => unfold Inline.spanInlines; exact .pure rfl
  | x :: rest, h =>
    simp only [noRefL, Bool.and_eq_true] at h
    unfold Inline.spanInlines
    exact .bind (noRef_flatten x h.1) fun a ha => .bind (noRef_spanInlines rest h.2) fun b hb => .pure (noRefL_append.2 ⟨ha, hb⟩)
end

theorem noRef_refAddText (is : List Inline) (t : Token) (pass : Bool) (h : noRefL is = true) :
    Ok (Inline.refAddText is t pass) fun js => noRefL js = true := by
  fun_induction Inline.refAddText is t pass with
  | case1 => exact .pure rfl
  | case2 v f js m l o =>
    refine .pure ?_
    simp only [noRefL, Bool.and_true] at h ⊢
    exact noRef_addInline _ _ h rfl
  | case3 => exact .pure rfl
  | case4 => exact .error
  | case5 y ys _ _ _ ih =>
    simp only [noRefL, Bool.and_eq_true] at h
    exact .bind (ih h.2) fun js hj => .pure (by simp only [noRefL, h.1, hj, Bool.and_self])

/-- An inline without references, or (with `k`) a link without references in it. -/
def Okay (k : Bool) (x : Inline) : Prop :=
  noRef x = true ∨ k = true ∧ ∃ g is m l, x = .ref .link g is m l ∧ noRefL is = true

/-- References do not take text, or there are none (with `k`: except for links). -/
def C (k : Bool) (p : Parser) : Prop := p.closeParent = true ∨ ∀ x ∈ p.inlines, Okay k x

/-- No verse is announced. -/
def NoVerse (d : Option Meta) : Prop := ∀ m, d = some m → m.declared ≠ some .verse

theorem NoVerse.none : NoVerse none := fun _ h => by cases h

/-- What a handler keeps. -/
structure Kept (p q : Parser) : Prop where
  attrs : q.attrs = p.attrs
  header : p.header = none → q.header = none
  openText : q.openText = p.openText
  verse : NoVerse p.data → NoVerse q.data
  refs : ∀ k, C k p → C k q

theorem Kept.trans {p q r : Parser} (h : Kept p q) (h' : Kept q r) : Kept p r :=
  ⟨h'.attrs.trans h.attrs, fun x => h'.header (h.header x), h'.openText.trans h.openText, fun x => h'.verse (h.verse x),
    fun k x => h'.refs k (h.refs k x)⟩

theorem Kept.refl (p : Parser) : Kept p p := ⟨rfl, id, rfl, id, fun _ => id⟩

/-- What is kept where text is added. -/
structure Held (p q : Parser) : Prop where
  kept : Kept p q
  close : q.closeParent = p.closeParent

theorem Held.trans {p q r : Parser} (h : Held p q) (h' : Held q r) : Held p r := ⟨h.kept.trans h'.kept, h'.close.trans h.close⟩
theorem Held.refl (p : Parser) : Held p p := ⟨.refl p, rfl⟩

set_option hygiene false in
/-- Take a state apart. -/
macro "des " p:ident : tactic =>
  `(tactic| rcases $p:ident with ⟨lt, hd, av, bl, il, fi, ti, da, ol, ot, of, ib, is, ic, fn, pn, cp, dg, rt, g⟩)

/-- The parser with another kind of last token. -/
def setL (ty : TokenType) (p : Parser) : Parser := { p with lastTy := ty }

/-- Two results that agree except for the kind of the last token. -/
def R (ty : TokenType) (K : Parser → Prop) (x x' : M Parser) : Prop :=
  match x with
  | .ok q => x' = .ok (setL ty q) ∧ K q
  | .error e => x' = .error e

section
variable {ty : TokenType} {K K' : Parser → Prop} {α : Type}

theorem R.ok {q : Parser} (h : K q) : R ty K (.ok q) (.ok (setL ty q)) := ⟨rfl, h⟩
theorem R.pure {q : Parser} (h : K q) : R ty K (Pure.pure q) (Pure.pure (setL ty q)) := ⟨rfl, h⟩
theorem R.error {e : Fail} : R ty K (.error e) (.error e) := rfl

theorem R.bind {x x' : M Parser} {f : Parser → M Parser} (h : R ty K x x') (hf : ∀ q, K q → R ty K' (f q) (f (setL ty q))) :
    R ty K' (x >>= f) (x' >>= f) := by
  unfold R at h
  split at h
  · obtain ⟨rfl, h⟩ := h; exact hf _ h
  · subst h; exact rfl

theorem R.val {x : M α} {f f' : α → M Parser} (hf : ∀ a, x = .ok a → R ty K (f a) (f' a)) : R ty K (x >>= f) (x >>= f') := by
  cases x with
  | error e => exact rfl
  | ok a => exact hf a rfl

theorem R.ite {c : Prop} [Decidable c] {a a' b b' : M Parser} (h : c → R ty K a a') (h' : ¬c → R ty K b b') :
    R ty K (if c then a else b) (if c then a' else b') := by
  by_cases hc : c
  · rw [if_pos hc, if_pos hc]; exact h hc
  · rw [if_neg hc, if_neg hc]; exact h' hc

theorem R.mono {x x' : M Parser} (h : R ty K x x') (hk : ∀ q, K q → K' q) : R ty K' x x' := by
  unfold R at h ⊢
  split at h
  · exact ⟨h.1, hk _ h.2⟩
  · exact h

theorem R.from {p q : Parser} {x x' : M Parser} (h : R ty (Kept q) x x') (hq : Kept p q) : R ty (Kept p) x x' :=
  h.mono fun _ => hq.trans

theorem R.chain {p : Parser} {x x' : M Parser} {f : Parser → M Parser} (h : R ty (Kept p) x x')
    (hf : ∀ q, R ty (Kept q) (f q) (f (setL ty q))) : R ty (Kept p) (x >>= f) (x' >>= f) :=
  h.bind fun q hq => (hf q).from hq
end

section
variable {ty : TokenType}

theorem C.cons {k : Bool} {p q : Parser} {x : Inline} (h : C k p) (hx : noRef x = true) (h1 : q.inlines = x :: p.inlines)
    (h2 : q.closeParent = p.closeParent) : C k q := by
  rcases h with h | h
  · exact .inl (by rw [h2, h])
  · refine .inr fun y hy => ?_
    rw [h1] at hy
    rcases List.mem_cons.1 hy with rfl | hy
    · exact .inl hx
    · exact h y hy

theorem C.top {k : Bool} {p q : Parser} {x y : Inline} {R : List Inline} (h : C k p) (hi : p.inlines = x :: R)
    (hx : Okay k x → Okay k y) (h1 : q.inlines = y :: R) (h2 : q.closeParent = p.closeParent) : C k q := by
  rcases h with h | h
  · exact .inl (by rw [h2, h])
  · rw [hi] at h
    refine .inr fun z hz => ?_
    rw [h1] at hz
    rcases List.mem_cons.1 hz with rfl | hz
    · exact hx (h x (by simp))
    · exact h z (by simp [hz])

theorem okay_span {k : Bool} {v : SpanVariant} {f : SpanForm} {is : List Inline} {m : Option Meta} {l : List Location} {o : Bool}
    (h : Okay k (.span v f is m l o)) : noRefL is = true := by
  rcases h with h | ⟨_, _, _, _, _, h, _⟩
  · exact h
  · cases h

theorem addText_H (p : Parser) (t : Token) (pass : Bool) : R ty (Held p) (p.addText t pass) ((setL ty p).addText t pass) := by
  unfold Parser.addText
  rw [show (setL ty p).inlines = p.inlines from rfl, show (setL ty p).inSpan = p.inSpan from rfl,
    show (setL ty p).closeParent = p.closeParent from rfl]
  dsimp only
  generalize hadd : (if pass = true then t.lexeme else t.text) = add
  cases hi : p.inlines with
  | nil => exact .ok ⟨⟨rfl, id, rfl, id, fun k h => h.cons (q := { p with inlines := _ }) (x := .lit .text add t.locations) rfl (by rw [hi]) rfl⟩, rfl⟩
  | cons i rest =>
    have new : R ty (Held p) (.ok { p with inlines := .lit .text add t.locations :: i :: rest })
        (.ok (setL ty { p with inlines := .lit .text add t.locations :: i :: rest })) :=
      .ok ⟨⟨rfl, id, rfl, id, fun k h => h.cons (x := .lit .text add t.locations) rfl (by rw [hi]) rfl⟩, rfl⟩
    cases i with
    | span v f is m l o =>
      dsimp only
      refine .ite (fun _ => .ok ⟨⟨rfl, id, rfl, id, fun k h => h.top hi (fun hx => .inl ?_) rfl rfl⟩, rfl⟩) fun _ => new
      exact noRef_addInline _ _ (okay_span hx) rfl
    | lit n v l =>
      dsimp only
      exact .ite (fun _ => new) fun _ => .ok ⟨⟨rfl, id, rfl, id, fun k h => h.top hi (fun _ => .inl rfl) rfl rfl⟩, rfl⟩
    | brk l => exact new
    | ref v g is m l =>
      dsimp only
      refine .ite (fun _ => new) fun _ => .val fun js hj => .pure ⟨⟨rfl, id, rfl, id, fun k h => h.top hi (fun hx => ?_) rfl rfl⟩, rfl⟩
      rcases hx with hx | ⟨hk, g', is', m', l', hx, hn⟩
      · cases hx
      · cases hx
        exact .inr ⟨hk, _, _, _, _, rfl, noRef_refAddText _ _ _ hn _ hj⟩

theorem R.held {p : Parser} {x x' : M Parser} (h : R ty (Held p) x x') : R ty (Kept p) x x' := h.mono fun _ h => h.kept

theorem addText_R (p : Parser) (t : Token) (pass : Bool) : R ty (Kept p) (p.addText t pass) ((setL ty p).addText t pass) :=
  (addText_H p t pass).held

theorem okay_foldl (k : Bool) (l acc : List Inline) (hl : ∀ x ∈ l, Okay k x) (ha : ∀ x ∈ acc, Okay k x) :
    ∀ x ∈ l.foldl mergeStep acc, Okay k x := by
  induction l generalizing acc with
  | nil => exact ha
  | cons y ys ih =>
    refine ih _ (fun x hx => hl x (by simp [hx])) ?_
    intro x hx
    unfold mergeStep at hx
    split at hx
    · rcases List.mem_cons.1 hx with rfl | hx
      · exact .inl rfl
      · exact ha x (by simp [hx])
    · rcases List.mem_cons.1 hx with rfl | hx
      · exact hl _ (by simp)
      · exact ha x hx

theorem splitFirst_is {α : Type} {f : α → Bool} {l a b : List α} {x : α} (h : splitFirst f l = some (a, x, b)) :
    f x = true := by
  induction l generalizing a with
  | nil => cases h
  | cons y l ih =>
    simp only [splitFirst] at h
    split at h
    · cases h; assumption
    · cases hl : splitFirst f l with
      | none => rw [hl] at h; cases h
      | some z => rw [hl] at h; obtain ⟨a', x', b'⟩ := z; cases h; exact ih hl

theorem splitFirst_none' {α : Type} {f : α → Bool} {l : List α} (h : splitFirst f l = none) : ∀ x ∈ l, f x = false := by
  induction l with
  | nil => simp
  | cons y l ih =>
    simp only [splitFirst] at h
    split at h
    · cases h
    · cases hl : splitFirst f l with
      | some z => rw [hl] at h; obtain ⟨a', x', b'⟩ := z; cases h
      | none =>
        intro x hx
        rcases List.mem_cons.1 hx with rfl | hx
        · rename_i hx'; simpa using hx'
        · exact ih hl x hx

theorem danglingSpans_H (p : Parser) : R ty (Held p) p.danglingSpans (setL ty p).danglingSpans := by
  unfold Parser.danglingSpans
  rw [show (setL ty p).inlines = p.inlines from rfl]
  cases hs : splitFirst Inline.isOpen p.inlines with
  | none => exact .ok (.refl p)
  | some x =>
    obtain ⟨above, span, below⟩ := x
    have he := splitFirst_eq hs
    have ho := splitFirst_is hs
    dsimp only
    refine .val fun pre _ => .val fun kids hk => ?_
    have sub : ∀ k, C k p → C k { p with inlines := above ++ below } := by
      intro k h
      rcases h with h | h
      · exact .inl h
      · refine .inr fun x hx => h x ?_
        rw [he]
        rcases List.mem_append.1 hx with hx | hx <;> simp [hx]
    cases kids with
    | nil =>
      exact (addText_H { p with inlines := above ++ below } _ false).mono fun _ h =>
        Held.trans (q := { p with inlines := above ++ below }) ⟨⟨rfl, id, rfl, id, sub⟩, rfl⟩ h
    | cons y ys =>
      dsimp only
      refine .val fun kids' hk' => .pure ⟨⟨rfl, id, rfl, id, fun k h => ?_⟩, rfl⟩
      rcases h with h | h
      · exact .inl h
      · refine .inr (okay_foldl k _ _ ?_ (by simp))
        have hsp := h span (by rw [he]; simp)
        have hn : noRefL kids' = true := by
          cases span with
          | span v f is m l o => exact noRef_prependFirst (noRef_spanInlines is (okay_span hsp) _ hk) hk'
          | _ => cases ho
        intro x hx
        simp only [List.mem_append, List.mem_reverse] at hx
        rcases hx with (hx | hx) | hx
        · exact h x (by rw [he]; simp [hx])
        · exact .inl (noRefL_iff.1 hn x hx)
        · exact h x (by rw [he]; simp [hx])


theorem danglingSpans_R (p : Parser) : R ty (Kept p) p.danglingSpans (setL ty p).danglingSpans := (danglingSpans_H p).held

/-- The inlines and modes stay. -/
structure Calm (p q : Parser) : Prop where
  attrs : q.attrs = p.attrs
  header : q.header = p.header
  openText : q.openText = p.openText
  verse : NoVerse p.data → NoVerse q.data
  inlines : q.inlines = p.inlines
  closeParent : q.closeParent = p.closeParent

theorem Calm.refl (p : Parser) : Calm p p := ⟨rfl, rfl, rfl, id, rfl, rfl⟩

theorem Calm.trans {p q r : Parser} (h : Calm p q) (h' : Calm q r) : Calm p r :=
  ⟨h'.attrs.trans h.attrs, h'.header.trans h.header, h'.openText.trans h.openText, fun x => h'.verse (h.verse x),
    h'.inlines.trans h.inlines, h'.closeParent.trans h.closeParent⟩

theorem Calm.kept {p q : Parser} (h : Calm p q) : Kept p q :=
  ⟨h.attrs, fun x => h.header.trans x, h.openText, h.verse, fun k x => by
    unfold C at x ⊢
    rw [h.inlines, h.closeParent]
    exact x⟩

theorem R.calm {p : Parser} {x x' : M Parser} (h : R ty (Calm p) x x') : R ty (Kept p) x x' := h.mono fun _ => Calm.kept

theorem R.after {p q : Parser} {x x' : M Parser} (h : R ty (Calm q) x x') (hq : Calm p q) : R ty (Calm p) x x' :=
  h.mono fun _ => hq.trans

theorem graphPush_R (p : Parser) (b : Block) : R ty (Calm p) (p.graphPush b) ((setL ty p).graphPush b) := by
  unfold Parser.graphPush
  rw [show (setL ty p).asg = p.asg from rfl]
  cases p.asg.pushBlock b with
  | ok g => exact .ok ⟨rfl, rfl, rfl, id, rfl, rfl⟩
  | error e => exact .error

theorem pushToStack_R (p : Parser) (b : Block) : R ty (Calm p) (p.pushToStack b) ((setL ty p).pushToStack b) := by
  des p
  unfold Parser.pushToStack
  dsimp only [setL]
  refine .ite (fun _ => ?_) fun _ => ?_
  · cases bl with
    | nil => exact .error
    | cons last rest => exact .val fun _ _ => .pure ⟨rfl, rfl, rfl, id, rfl, rfl⟩
  · cases da with
    | some m => exact .val fun _ _ => .pure ⟨rfl, rfl, rfl, fun _ => .none, rfl, rfl⟩
    | none => exact .ok ⟨rfl, rfl, rfl, id, rfl, rfl⟩

theorem newParagraph_R (p : Parser) : R ty (Calm { p with inlines := [] }) p.newParagraph (setL ty p).newParagraph := by
  des p
  unfold Parser.newParagraph
  dsimp only [setL]
  refine .ite (fun _ => ?_) fun _ => ?_
  · cases bl with
    | nil => exact .error
    | cons last rest => exact .val fun _ _ => .pure ⟨rfl, rfl, rfl, id, rfl, rfl⟩
  · cases da with
    | some m =>
      dsimp only
      split
      · exact .error
      · exact .ite (fun _ => .val fun b _ => pushToStack_R _ b) fun _ => pushToStack_R _ _
    | none => exact pushToStack_R _ _

/-- After handing over the inlines. -/
structure Handed (p q : Parser) : Prop where
  held : Held p q
  empty : p.header = none → q.inlines = []

theorem Handed.calm {p q r : Parser} (h : Handed p q) (hr : Calm q r) : Handed p r :=
  ⟨h.held.trans ⟨hr.kept, hr.closeParent⟩, fun x => hr.inlines.trans (h.empty x)⟩

theorem Handed.kept {p q : Parser} (h : Handed p q) : Kept p q := h.held.kept

theorem Kept.clear {p : Parser} : Kept p { p with inlines := [] } := ⟨rfl, id, rfl, id, fun _ _ => .inr (by simp)⟩

theorem addInlines_R (p : Parser) : R ty (Handed p) p.addInlines (setL ty p).addInlines := by
  unfold Parser.addInlines
  rw [show (setL ty p).inlines = p.inlines from rfl, show (setL ty p).inSpan = p.inSpan from rfl]
  refine .ite (fun h => .ok ⟨.refl p, fun _ => by simpa using h⟩) fun _ => ?_
  have h1 : R ty (Held p) (if p.inSpan then p.danglingSpans else .ok p) (if p.inSpan then (setL ty p).danglingSpans else .ok (setL ty p)) :=
    .ite (fun _ => danglingSpans_H p) fun _ => .ok (.refl p)
  refine h1.bind fun q hq => ?_
  have hp : R ty (Handed p) q.newParagraph (setL ty q).newParagraph :=
    (newParagraph_R q).mono fun r hr => ⟨⟨hq.kept.trans (Kept.clear.trans hr.kept), hr.closeParent.trans hq.close⟩, fun _ => hr.inlines⟩
  des q
  dsimp only [setL] at hp ⊢
  cases hd with
  | some h =>
    refine .pure ⟨⟨⟨hq.kept.attrs, fun x => ?_, hq.kept.openText, hq.kept.verse, fun _ _ => .inr (by simp)⟩, hq.close⟩, fun _ => rfl⟩
    cases hq.kept.header x
  | none =>
    cases bl with
    | nil => exact hp
    | cons last rest =>
      exact .ite (fun _ => .val fun _ _ => .pure ⟨⟨⟨hq.kept.attrs, fun _ => rfl, hq.kept.openText, hq.kept.verse, fun _ _ => .inr (by simp)⟩, hq.close⟩, fun _ => rfl⟩) fun _ => hp

theorem addInlines_K (p : Parser) : R ty (Kept p) p.addInlines (setL ty p).addInlines := (addInlines_R p).mono fun _ h => h.kept

theorem addLastItem_R (p : Parser) : R ty (Handed p) p.addLastItem (setL ty p).addLastItem := by
  unfold Parser.addLastItem
  refine (addInlines_R { p with forceNew := false }).bind fun q hq => ?_
  have hq' : Handed p q := ⟨⟨⟨hq.kept.attrs, hq.kept.header, hq.kept.openText, hq.kept.verse, hq.kept.refs⟩, hq.held.close⟩, hq.empty⟩
  clear hq
  des q
  dsimp only [setL]
  cases bl with
  | nil => exact .error
  | cons item rest =>
    dsimp only
    refine .ite (fun _ => ?_) fun _ => ?_
    · cases rest with
      | nil => exact .pure (hq'.calm ⟨rfl, rfl, rfl, id, rfl, rfl⟩)
      | cons list rest' => exact .val fun _ _ => .pure (hq'.calm ⟨rfl, rfl, rfl, id, rfl, rfl⟩)
    · refine (pushToStack_R ⟨lt, hd, av, rest, il, fi, ti, da, ol, ot, of, ib, is, ic, fn, pn, cp, dg, rt, g⟩ item).mono fun r hr =>
        (hq'.calm (r := ⟨lt, hd, av, rest, il, fi, ti, da, ol, ot, of, ib, is, ic, fn, pn, cp, dg, rt, g⟩) ⟨rfl, rfl, rfl, id, rfl, rfl⟩).calm hr

theorem addToStackOrGraph_R (p : Parser) (b : Block) : R ty (Calm p) (p.addToStackOrGraph b) ((setL ty p).addToStackOrGraph b) := by
  des p
  unfold Parser.addToStackOrGraph
  dsimp only [setL]
  have tog : ∀ bl, R ty (Calm ⟨lt, hd, av, bl, il, fi, ti, da, ol, ot, of, ib, is, ic, fn, pn, cp, dg, rt, g⟩)
      (match da with
        | some m => do
          let b' ← b.addMeta m
          Parser.graphPush ⟨lt, hd, av, bl, il, fi, ti, none, ol, ot, of, ib, is, ic, fn, pn, cp, dg, rt, g⟩ b'
        | none => Parser.graphPush ⟨lt, hd, av, bl, il, fi, ti, da, ol, ot, of, ib, is, ic, fn, pn, cp, dg, rt, g⟩ b)
      (match da with
        | some m => do
          let b' ← b.addMeta m
          Parser.graphPush ⟨ty, hd, av, bl, il, fi, ti, none, ol, ot, of, ib, is, ic, fn, pn, cp, dg, rt, g⟩ b'
        | none => Parser.graphPush ⟨ty, hd, av, bl, il, fi, ti, da, ol, ot, of, ib, is, ic, fn, pn, cp, dg, rt, g⟩ b) := by
    intro bl
    cases da with
    | some m => exact .val fun b' _ => (graphPush_R _ b').after ⟨rfl, rfl, rfl, fun _ => .none, rfl, rfl⟩
    | none => exact graphPush_R _ b
  cases bl with
  | nil => exact tog _
  | cons last rest =>
    refine .ite (fun _ => .val fun _ _ => .pure ⟨rfl, rfl, rfl, id, rfl, rfl⟩) fun _ => tog _

theorem addLastToStackOrGraph_R (p : Parser) : R ty (Calm p) p.addLastToStackOrGraph (setL ty p).addLastToStackOrGraph := by
  des p
  unfold Parser.addLastToStackOrGraph
  dsimp only [setL]
  match bl with
  | [] => exact .error
  | [b] => exact (graphPush_R _ b).after ⟨rfl, rfl, rfl, id, rfl, rfl⟩
  | b :: prior :: rest =>
    dsimp only
    exact .ite (fun _ => .val fun _ _ => .pure ⟨rfl, rfl, rfl, id, rfl, rfl⟩) fun _ =>
      (graphPush_R _ b).after ⟨rfl, rfl, rfl, id, rfl, rfl⟩

theorem moveHeader_R (p : Parser) : R ty (Kept p) p.moveHeader (setL ty p).moveHeader := by
  unfold Parser.moveHeader
  refine (addInlines_K p).chain fun q => ?_
  rw [show (setL ty q).header = q.header from rfl]
  cases hh : q.header with
  | some h => exact .ite (fun _ => .pure ⟨rfl, fun _ => rfl, rfl, id, fun _ => id⟩) fun _ => .pure ⟨rfl, fun _ => rfl, rfl, id, fun _ => id⟩
  | none => exact .pure (.refl q)

/-- The inlines were handed over. -/
structure Gone (p q : Parser) : Prop where
  kept : Kept p q
  empty : q.inlines = []

theorem Kept.step {p q r : Parser} (h : Kept p q) (ha : r.attrs = q.attrs := by rfl) (hh : r.header = q.header := by rfl)
    (ho : r.openText = q.openText := by rfl) (hd : r.data = q.data := by rfl) (hi : r.inlines = q.inlines := by rfl)
    (hc : r.closeParent = q.closeParent := by rfl) : Kept p r :=
  ⟨ha.trans h.attrs, fun x => hh.trans (h.header x), ho.trans h.openText, fun x => by rw [hd]; exact h.verse x,
    fun k x => by have := h.refs k x; unfold C at this ⊢; rw [hi, hc]; exact this⟩

theorem blankLine_R (p : Parser) : R ty (Kept p) p.blankLine (setL ty p).blankLine := by
  des p
  unfold Parser.blankLine
  dsimp only [setL]
  cases hd with
  | some h => exact (moveHeader_R _).from (Kept.refl _).step
  | none =>
    dsimp only
    refine R.bind (K := Kept ⟨lt, none, av, bl, il, fi, ti, da, ol, ot, of, ib, is, ic, fn, pn, cp, dg, rt, g⟩) ?_ fun q hq => ?_
    · cases bl with
      | nil => exact .ok (Kept.refl _).step
      | cons b bs => exact .ite (fun _ => (addLastItem_R _).mono fun r hr => (Kept.refl _).step.trans hr.kept) fun _ => .ok (Kept.refl _).step
    refine ((addInlines_R { q with inSpan := false }).mono (K' := Gone ⟨lt, none, av, bl, il, fi, ti, da, ol, ot, of, ib, is, ic, fn, pn, cp, dg, rt, g⟩)
      fun r hr => ⟨hq.trans ((Kept.refl _).step.trans hr.kept), hr.empty (hq.header rfl)⟩).bind fun r hr => ?_
    obtain ⟨k1, he⟩ := hr
    clear hq q
    revert k1
    generalize (⟨lt, none, av, bl, il, fi, ti, da, ol, ot, of, ib, is, ic, fn, pn, cp, dg, rt, g⟩ : Parser) = p0
    clear lt av bl il fi ti da ol ot of ib is ic fn pn cp dg rt g
    intro k1
    des r
    dsimp only [setL]
    cases bl with
    | nil => exact .pure k1.step
    | cons b rest =>
      dsimp only
      refine .ite (fun _ => ?_) fun _ => ?_
      · refine (addToStackOrGraph_R _ b).bind fun s hs => ?_
        refine .ite (fun _ => ?_) fun _ => .pure (k1.step.trans hs.kept)
        refine (addLastToStackOrGraph_R s).bind fun u hu => .pure ?_
        have hk := (k1.step.trans hs.kept).trans hu.kept
        refine ⟨hk.attrs, hk.header, hk.openText, hk.verse, fun k _ => .inr ?_⟩
        show ∀ x ∈ u.inlines, Okay k x
        rw [hu.inlines, hs.inlines]
        dsimp only at he ⊢
        rw [he]
        simp
      · exact (pushToStack_R _ b).mono fun s hs => k1.step.trans hs.kept

/-- Newlines after these kinds of tokens are treated alike. -/
structure Alike (a b : TokenType) : Prop where
  newline : a = .newLineChar ↔ b = .newLineChar
  eof : a = .eof ↔ b = .eof
  clears : a.clearsNewlineAfter = b.clearsNewlineAfter

theorem parseNewLine_R (p : Parser) (t : Token) (ha : Alike p.lastTy ty) : R ty (Kept p) (p.parseNewLine t) ((setL ty p).parseNewLine t) := by
  des p
  unfold Parser.parseNewLine
  dsimp only [setL]
  have key : ∀ q q' p0 : Parser, q' = setL ty q → q.lastTy = lt → Kept p0 q →
      R ty (Kept p0) (if q.lastTy = .newLineChar ∨ q.lastTy = .eof then q.blankLine
          else if (q.inCont || q.lastTy.clearsNewlineAfter) = true then .ok { q with dangling := none } else .ok { q with dangling := some t })
        (if q'.lastTy = .newLineChar ∨ q'.lastTy = .eof then q'.blankLine
          else if (q'.inCont || q'.lastTy.clearsNewlineAfter) = true then .ok { q' with dangling := none } else .ok { q' with dangling := some t }) := by
    rintro q q' p0 rfl hl hk
    dsimp only at ha
    rw [← hl] at ha
    have h1 : ((setL ty q).lastTy = .newLineChar ∨ (setL ty q).lastTy = .eof) = (q.lastTy = .newLineChar ∨ q.lastTy = .eof) :=
      propext (or_congr ha.newline.symm ha.eof.symm)
    have h3 : (setL ty q).lastTy.clearsNewlineAfter = q.lastTy.clearsNewlineAfter := ha.clears.symm
    rw [h3, show (setL ty q).inCont = q.inCont from rfl]
    simp only [h1]
    exact .ite (fun _ => (blankLine_R q).from hk) fun _ => .ite (fun _ => .ok hk.step) fun _ => .ok hk.step
  cases ti with
  | some x => exact key _ _ _ rfl rfl ⟨rfl, id, rfl, id, fun _ _ => .inr (by simp)⟩
  | none => exact key _ _ _ rfl rfl (Kept.refl _).step

theorem parseText_R (p : Parser) (t : Token) (pass : Bool) : R ty (Kept p) (p.parseText t pass) ((setL ty p).parseText t pass) := by
  unfold Parser.parseText
  rw [show (setL ty p).dangling = p.dangling from rfl, show (setL ty p).preserveNl = p.preserveNl from rfl]
  cases p.dangling with
  | none => exact addText_R p t pass
  | some nl =>
    dsimp only
    refine .ite (fun _ => .ok ⟨rfl, id, rfl, id, fun k h => ?_⟩) fun _ => (addText_R p nl false).chain fun q => ?_
    · rcases h with h | h
      · exact .inl h
      · refine .inr fun x hx => ?_
        rcases List.mem_cons.1 hx with rfl | hx
        · exact .inl (by cases pass <;> rfl)
        · rcases List.mem_cons.1 hx with rfl | hx
          · exact .inl rfl
          · exact h x hx
    · exact (addText_R { q with dangling := none } t pass).from ⟨rfl, id, rfl, id, fun _ => id⟩

theorem addCharref_R (p : Parser) (n : LitName) (v : Str) (l : List Location) : R ty (Kept p) (p.addCharref (.lit n v l)) ((setL ty p).addCharref (.lit n v l)) := by
  unfold Parser.addCharref
  rw [show (setL ty p).inlines = p.inlines from rfl, show (setL ty p).inSpan = p.inSpan from rfl, show (setL ty p).closeParent = p.closeParent from rfl]
  have new : ∀ R, p.inlines = R → R.length = R.length → Filled.R ty (Kept p) (.ok { p with inlines := .lit n v l :: R }) (.ok { setL ty p with inlines := .lit n v l :: R }) :=
    fun R hR _ => .ok ⟨rfl, id, rfl, id, fun k h => h.cons (x := .lit n v l) rfl (by rw [hR]) rfl⟩
  cases hi : p.inlines with
  | nil => exact new _ hi rfl
  | cons i rest =>
    cases i with
    | lit n v l => exact new _ hi rfl
    | brk l => exact new _ hi rfl
    | span v f is m l o =>
      dsimp only
      refine .ite (fun _ => .ok ⟨rfl, id, rfl, id, fun k h => h.top hi (fun hx => .inl ?_) rfl rfl⟩) fun _ => new _ hi rfl
      exact noRef_addInline _ _ (okay_span hx) rfl
    | ref v g is m l =>
      dsimp only
      refine .ite (fun _ => new _ hi rfl) fun _ => .ok ⟨rfl, id, rfl, id, fun k h => h.top hi (fun hx => ?_) rfl rfl⟩
      rcases hx with hx | ⟨hk, g', is', m', l', hx, hn⟩
      · cases hx
      · cases hx
        exact .inr ⟨hk, _, _, _, _, rfl, noRefL_append.2 ⟨hn, rfl⟩⟩

theorem parseCharref_R (p : Parser) (t : Token) : R ty (Kept p) (p.parseCharref t) ((setL ty p).parseCharref t) := by
  unfold Parser.parseCharref
  rw [show (setL ty p).dangling = p.dangling from rfl, show (setL ty p).preserveNl = p.preserveNl from rfl]
  dsimp only
  cases p.dangling with
  | none => exact addCharref_R p ..
  | some nl =>
    dsimp only
    refine .ite (fun _ => .ok ⟨rfl, id, rfl, id, fun k h => ?_⟩) fun _ => (addText_R p nl false).chain fun q => ?_
    · rcases h with h | h
      · exact .inl h
      · refine .inr fun x hx => ?_
        rcases List.mem_cons.1 hx with rfl | hx
        · exact .inl rfl
        · rcases List.mem_cons.1 hx with rfl | hx
          · exact .inl rfl
          · exact h x hx
    · exact (addCharref_R { q with dangling := none } ..).from ⟨rfl, id, rfl, id, fun _ => id⟩

theorem parseDlistTerm_R (p : Parser) (t : Token) : R ty (Kept p) (p.parseDlistTerm t) ((setL ty p).parseDlistTerm t) := by
  des p
  unfold Parser.parseDlistTerm
  dsimp only [setL]
  refine R.chain ?_ fun q => ?_
  · cases hs : splitFirst Inline.isNewline il.reverse with
    | none => exact .ok (Kept.refl _).step
    | some z =>
      obtain ⟨a, y, b⟩ := z
      have he := congrArg List.reverse (splitFirst_eq hs)
      rw [List.reverse_reverse] at he
      refine (addInlines_R _).bind fun q hq => .ok ⟨hq.kept.attrs, hq.kept.header, hq.kept.openText, hq.kept.verse, fun k h => ?_⟩
      rcases h with h | h
      · exact .inl (hq.held.close.trans h)
      · have hq' := hq.kept.refs k (.inr fun x hx => h x (by dsimp only at hx ⊢; rw [he]; simp at hx ⊢; simp [hx]))
        refine hq'.imp id fun hq' x hx => ?_
        rcases List.mem_append.1 hx with hx | hx
        · exact h x (by dsimp only at hx ⊢; rw [he]; simp at hx ⊢; simp [hx])
        · exact hq' x hx
  · des q
    dsimp only [setL]
    refine R.chain ?_ fun q => ?_
    · have k0 : ∀ bl, Kept ⟨lt, hd, av, bl, il, fi, ti, da, ol, ot, of, ib, is, ic, fn, pn, cp, dg, rt, g⟩ ⟨lt, hd, av, bl, [], fi, ti, da, ol, ot, of, ib, is, ic, fn, pn, cp, dg, rt, g⟩ :=
        fun _ => .clear
      cases bl with
      | nil => exact (pushToStack_R _ _).calm.from (k0 _)
      | cons b bs => exact .ite (fun _ => (addLastItem_R _).mono fun r hr => (k0 _).trans hr.kept) fun _ => (pushToStack_R _ _).calm.from (k0 _)
    · exact (pushToStack_R q _).calm.bind fun r hr => .pure hr.step

theorem parseOrdered_R (p : Parser) (t : Token) : R ty (Kept p) (p.parseOrdered t) ((setL ty p).parseOrdered t) := by
  unfold Parser.parseOrdered
  have new : ∀ q q' : Parser, q' = setL ty q → R ty (Kept q)
      (if t.ty = .codeCalloutListItem then do
        let q ← (match q.blocks with
          | b :: _ => if b.isSourceBlock then q.addLastToStackOrGraph else .ok q
          | [] => .ok q)
        q.pushToStack (.list .ordered [] (some (Meta.withRole b!"colist")) t.locations)
      else q.pushToStack (.list .ordered [] none t.locations))
      (if t.ty = .codeCalloutListItem then do
        let q ← (match q'.blocks with
          | b :: _ => if b.isSourceBlock then q'.addLastToStackOrGraph else .ok q'
          | [] => .ok q')
        q.pushToStack (.list .ordered [] (some (Meta.withRole b!"colist")) t.locations)
      else q'.pushToStack (.list .ordered [] none t.locations)) := by
    rintro q q' rfl
    refine .ite (fun _ => R.chain ?_ fun q => (pushToStack_R q _).calm) fun _ => (pushToStack_R q _).calm
    des q
    dsimp only [setL]
    cases bl with
    | nil => exact .ok (.refl _)
    | cons b bs => exact .ite (fun _ => (addLastToStackOrGraph_R _).calm) fun _ => .ok (.refl _)
  des p
  dsimp only [setL]
  refine R.chain ?_ fun q => (pushToStack_R q _).calm
  cases bl with
  | nil => exact (new _ _ rfl).from (Kept.refl _).step
  | cons b bs => exact .ite (fun _ => (addLastItem_R _).mono fun r hr => (Kept.refl _).step.trans hr.kept) fun _ => (new _ _ rfl).from (Kept.refl _).step

theorem parseUnordered_R (p : Parser) (t : Token) : R ty (Kept p) (p.parseUnordered t) ((setL ty p).parseUnordered t) := by
  unfold Parser.parseUnordered
  des p
  dsimp only [setL]
  refine R.chain ?_ fun q => (pushToStack_R q _).calm
  cases bl with
  | nil => exact (pushToStack_R _ _).calm.from (Kept.refl _).step
  | cons b bs => exact .ite (fun _ => (addLastItem_R _).mono fun r hr => (Kept.refl _).step.trans hr.kept) fun _ => (pushToStack_R _ _).calm.from (Kept.refl _).step

theorem parseSection_R (p : Parser) (t : Token) : R ty (Kept p) (p.parseSection t) ((setL ty p).parseSection t) := by
  unfold Parser.parseSection
  refine .val fun level _ => R.chain ?_ fun q => (pushToStack_R q _).calm.bind fun r hr => .pure hr.step
  des p
  dsimp only [setL]
  cases bl with
  | nil => exact .ok (.refl _)
  | cons b bs => exact .ite (fun _ => (addLastToStackOrGraph_R _).calm) fun _ => .ok (.refl _)

theorem parseAdmonition_R (p : Parser) (t : Token) : R ty (Kept p) (p.parseAdmonition t) ((setL ty p).parseAdmonition t) := by
  unfold Parser.parseAdmonition
  exact .val fun b _ => .pure ⟨rfl, id, rfl, id, fun _ _ => .inl rfl⟩

theorem parseContinuation_R (p : Parser) : R ty (Kept p) p.parseContinuation (setL ty p).parseContinuation := by
  unfold Parser.parseContinuation
  exact (addInlines_K p).bind fun q hq => .pure hq.step

theorem parseInlineMeta_R (p : Parser) (t : Token) : R ty (Kept p) (p.parseInlineMeta t) ((setL ty p).parseInlineMeta t) := by
  unfold Parser.parseInlineMeta
  refine .val fun m hm => .pure ⟨rfl, id, rfl, fun _ m' hm' => ?_, fun _ => id⟩
  cases hm'
  unfold Meta.inlineFromToken at hm
  cases h : sliceM t.lexeme 1 (t.lexeme.length - 1) with
  | error e => rw [h] at hm; cases hm
  | ok c => rw [h] at hm; cases hm; simp

theorem okay_close {k : Bool} {x y : Inline} (h : Okay k x) (hy : x.close = .ok y) : Okay k y := by
  cases x with
  | span v f is m l o => cases hy; exact .inl (okay_span h)
  | _ => cases hy

theorem okay_reconcile {k : Bool} {x : Inline} {l : List Location} (h : Okay k x) : Okay k (x.reconcileLocations l) := by
  rcases h with h | ⟨hk, g, is, m, l, rfl, hn⟩
  · cases x <;> exact .inl h
  · exact .inr ⟨hk, _, _, _, _, rfl, hn⟩

theorem closeOrAdd_noRef (x : Inline) (is : List Inline) (h : noRefL is = true) (r : M (List Inline)) (hr : closeOrAdd x is = some r) :
    Ok r fun js => noRefL js = true := by
  induction is generalizing r with
  | nil => cases hr
  | cons y ys ih =>
    simp only [noRefL, Bool.and_eq_true] at h
    cases ys with
    | nil =>
      simp only [closeOrAdd] at hr
      split at hr
      · cases hr
        refine .bind' fun z hz => .pure ?_
        have := okay_close (k := false) (okay_reconcile (.inl h.1)) hz
        rcases this with this | ⟨h, _⟩
        · simp [noRefL, this]
        · cases h
      · cases hr
    | cons z zs =>
      simp only [closeOrAdd, Option.map_eq_some_iff] at hr
      obtain ⟨r', hr', rfl⟩ := hr
      exact .bind (ih h.2 r' hr') fun js hj => .pure (by simp [noRefL, h.1, hj])

theorem openSpan_R (p : Parser) (x : Inline) (hx : noRef x = true) : R ty (Kept p) (p.openSpan x) ((setL ty p).openSpan x) := by
  unfold Parser.openSpan
  refine R.chain (p := p) ?_ fun q => (danglingSpans_R q).chain fun q => ?_
  · rw [show (setL ty p).dangling = p.dangling from rfl]
    cases p.dangling with
    | none => exact .ok (.refl p)
    | some t => exact (addText_R p t false).bind fun q hq => .ok hq.step
  · rw [show (setL ty q).data = q.data from rfl]
    cases hd : q.data with
    | none => exact .pure ⟨rfl, id, rfl, fun _ => .none, fun k h => h.cons hx rfl rfl⟩
    | some m =>
      refine .val fun y hy => .pure ⟨rfl, id, rfl, fun _ => .none, fun k h => h.cons (x := y) ?_ rfl rfl⟩
      cases x with
      | span v f is m' l o => cases hy; exact hx
      | _ => cases hy

theorem parseSpan_R (p : Parser) (x : Inline) (hx : noRef x = true) : R ty (Kept p) (p.parseSpan x) ((setL ty p).parseSpan x) := by
  unfold Parser.parseSpan
  rw [show (setL ty p).inlines = p.inlines from rfl]
  have hop := openSpan_R (ty := ty) p x hx
  cases hi : p.inlines with
  | nil => exact hop
  | cons last rest =>
    dsimp only
    refine .ite (fun _ => .val fun y hy => .pure ⟨rfl, id, rfl, id, fun k h => h.top hi (fun hl => okay_close (okay_reconcile hl) hy) rfl rfl⟩) fun _ => ?_
    cases last with
    | span v f is m l o =>
      dsimp only
      cases hc : closeOrAdd x is with
      | none => exact .ok ⟨rfl, id, rfl, id, fun k h => h.top hi (fun hl => .inl (noRef_addInline (.span v f is m l o) _ (okay_span hl) hx)) rfl rfl⟩
      | some r => exact .val fun js hj => .pure ⟨rfl, id, rfl, id, fun k h => h.top (y := .span v f js m l o) hi (fun hl => .inl (show noRefL js = true from closeOrAdd_noRef x is (okay_span hl) r hc js hj)) rfl rfl⟩
    | _ => exact hop

theorem noRef_spanFromToken {t : Token} {x : Inline} (h : Inline.spanFromToken t = .ok x) : noRef x = true := by
  unfold Inline.spanFromToken at h
  split at h
  · cases h; rfl
  · split at h
    · cases hs : sliceM t.text 1 (t.text.length - 1) with
      | error e => rw [hs] at h; cases h
      | ok n => rw [hs] at h; cases h; rfl
    · cases h

theorem parseBlockImage_R (w : World) (p : Parser) (t : Token) : R ty (Kept p) (parseBlockImage w p t) (parseBlockImage w (setL ty p) t) := by
  unfold Parser.parseBlockImage
  refine .val fun tm _ => ?_
  obtain ⟨target, m⟩ := tm
  refine .val fun _ _ => ?_
  exact (addToStackOrGraph_R { p with data := none, title := none } _).calm.from ⟨rfl, id, rfl, fun _ => .none, fun _ => id⟩

theorem parseInlineImage_R (p : Parser) (t : Token) : R ty (Kept p) (p.parseInlineImage t) ((setL ty p).parseInlineImage t) := by
  unfold Parser.parseInlineImage
  refine .val fun tm _ => ?_
  obtain ⟨target, m⟩ := tm
  exact .pure ⟨rfl, id, rfl, id, fun _ _ => .inl rfl⟩

theorem parseFootnote_R (p : Parser) (t : Token) : R ty (Kept p) (p.parseFootnote t) ((setL ty p).parseFootnote t) := by
  unfold Parser.parseFootnote
  exact .val fun x hx => .pure ⟨rfl, id, rfl, id, fun k h => h.cons (noRef_spanFromToken hx) rfl rfl⟩

theorem parseXref_R (p : Parser) (t : Token) : R ty (Kept p) (p.parseXref t) ((setL ty p).parseXref t) := by
  unfold Parser.parseXref
  exact .val fun x hx => .pure ⟨rfl, id, rfl, id, fun _ _ => .inl rfl⟩

theorem parseCallout_R (p : Parser) (t : Token) : R ty (Kept p) (p.parseCallout t) ((setL ty p).parseCallout t) := by
  unfold Parser.parseCallout
  exact .ite (fun _ => .error) fun _ => .val fun x hx => .pure ⟨rfl, id, rfl, id, fun k h => h.cons (noRef_spanFromToken hx) rfl rfl⟩

theorem parseAttrRef_R (p : Parser) (t : Token) : R ty (Kept p) (p.parseAttrRef t) ((setL ty p).parseAttrRef t) := by
  unfold Parser.parseAttrRef
  refine .val fun target _ => ?_
  rw [show (setL ty p).attrs = p.attrs from rfl]
  cases p.attrs.get? target with
  | none => exact parseText_R p t false
  | some v => exact .ite (fun _ => .error) fun _ => parseText_R p _ false

theorem parseParent_R (p : Parser) (t : Token) : R ty (Kept p) (p.parseParent t) ((setL ty p).parseParent t) := by
  unfold Parser.parseParent
  cases Block.parentKind t.ty with
  | none => exact .error
  | some nv =>
    obtain ⟨n', v'⟩ := nv
    have hopen : ∀ (b : Block), R ty (Kept p) (Parser.openParent { p with dangling := none, title := none } t.line b)
        (Parser.openParent { setL ty p with dangling := none, title := none } t.line b) := by
      intro b
      unfold Parser.openParent
      exact (pushToStack_R _ b).calm.from (Kept.refl p).step
    dsimp only
    rw [show (setL ty p).blocks = p.blocks from rfl, show (setL ty p).title = p.title from rfl]
    cases hs : splitFirst Block.isParent p.blocks with
    | none => exact hopen _
    | some z =>
      obtain ⟨above, x, below⟩ := z
      cases x with
      | parent n v d bs ti m l =>
        dsimp only
        refine .ite (fun _ => ?_) fun _ => hopen _
        unfold Parser.closeParentBlock
        refine ((addInlines_K _).from (Kept.refl p).step).chain fun q => ?_
        des q
        dsimp only [setL]
        cases ol with
        | nil => exact .error
        | cons o lines =>
          dsimp only
          refine .ite (fun _ => .error) fun _ => .val fun b _ => .val fun b _ => ?_
          exact ((pushToStack_R _ b).calm.from (Kept.refl _).step).bind fun r hr => .pure hr.step
      | _ => exact hopen _

theorem parseMacroClose_R (p : Parser) (t : Token) (ho : p.openText = none) :
    R ty (fun q => Kept p q ∧ (C true p → C false q)) (p.parseMacroClose t) ((setL ty p).parseMacroClose t) := by
  unfold Parser.parseMacroClose
  rw [show (setL ty p).openText = p.openText from rfl, show (setL ty p).inlines = p.inlines from rfl, ho,
    if_neg (by simp), if_neg (by simp)]
  cases hs : splitFirst Inline.isMacro p.inlines with
  | some z =>
    obtain ⟨above, x, below⟩ := z
    exact .val fun y _ => .val fun y _ => .pure ⟨⟨rfl, id, ho.symm, id, fun _ _ => .inl rfl⟩, fun _ => .inl rfl⟩
  | none =>
    refine (addText_R p t false).mono fun q hq => ⟨hq, fun h => hq.refs false ?_⟩
    refine h.imp id fun h x hx => ?_
    rcases h x hx with h | ⟨_, g, is, m, l, rfl, hn⟩
    · exact .inl h
    · have := splitFirst_none' hs _ hx
      cases this

/-! ## Announced verses -/

theorem split_prefix (c : UInt8) (s x : Str) (xs : List Str) (h : splitOnB c s = x :: xs) : x <+: s := by
  induction s generalizing x xs with
  | nil => simp only [splitOnB] at h; cases h; exact List.prefix_refl _
  | cons b s ih =>
    simp only [splitOnB] at h
    split at h
    · cases h; exact List.nil_prefix
    · split at h
      · cases h; exact ⟨s, rfl⟩
      · rename_i p ps hp
        cases h
        obtain ⟨r, hr⟩ := ih _ _ hp
        exact ⟨r, by rw [← hr]; rfl⟩

theorem quoted_last (n : Nat) (word s e : Str) (h : e ∈ quotedF n word s) : e.getLast? = some c!"\"" := by
  induction n generalizing word s with
  | zero => cases h
  | succ n ih =>
    cases s with
    | nil => cases h
    | cons b bs =>
      simp only [quotedF] at h
      split at h
      · split at h
        · split at h
          · split at h
            · rcases List.mem_cons.1 h with rfl | h
              · exact List.getLast?_concat ..
              · exact ih _ _ h
            · exact ih _ _ h
          · exact ih _ _ h
        · cases h
      · exact ih _ _ h

theorem processOne_declared (m m' : Meta) (idx : Nat) (a : Str) (h : m.processOne idx a = .ok m') :
    m'.declared = m.declared ∨ idx = 0 ∧ m'.declared = AttrType.ofStr a := by
  have hattr : ∀ m', m.processAttribute idx a = .ok m' → m'.declared = m.declared := by
    intro m' h
    unfold Meta.processAttribute at h
    split at h
    · cases h; split <;> rfl
    · split at h
      · cases h; rfl
      · split at h
        · cases h; rfl
        · cases h
    · split at h
      · cases h; rfl
      · split at h
        · cases h; rfl
        · cases h
    · split at h
      · cases hs : sliceM a 1 (a.length - 1) with
        | error e => rw [hs] at h; cases h
        | ok v => rw [hs] at h; cases h; rfl
      · cases h; rfl
  unfold Meta.processOne at h
  cases hk : keyValues a with
  | error e => rw [hk] at h; cases h
  | ok o =>
    rw [hk] at h
    cases o with
    | some kv =>
      obtain ⟨k, v⟩ := kv
      simp only [bind, Except.bind] at h
      split at h
      · cases h; exact .inl rfl
      · cases h; exact .inl rfl
    | none =>
      simp only [bind, Except.bind] at h
      split at h
      · rename_i hi
        cases hs : sliceM a 0 2 with
        | error e => rw [hs] at h; cases h
        | ok two =>
          rw [hs] at h
          simp only at h
          split at h
          · cases h; exact .inr ⟨hi.1, rfl⟩
          · exact .inl (hattr _ h)
      · split at h
        · cases h; exact .inl rfl
        · exact .inl (hattr _ h)

theorem processFrom_declared (l : List Str) (m m' : Meta) (idx : Nat) (hi : idx ≠ 0) (h : m.processFrom idx l = .ok m') : m'.declared = m.declared := by
  induction l generalizing m idx with
  | nil => cases h; rfl
  | cons a l ih =>
    simp only [Meta.processFrom] at h
    cases ho : m.processOne idx a with
    | error e => rw [ho] at h; cases h
    | ok m1 =>
      rw [ho] at h
      have h1 := ih m1 (idx + 1) (by omega) h
      rcases processOne_declared m m1 idx a ho with h2 | h2
      · rw [h1, h2]
      · exact absurd h2.1 hi

theorem ofStr_verse {s : Str} (h : AttrType.ofStr s = some .verse) : s = b!"verse" := by
  unfold AttrType.ofStr at h
  split at h
  · cases h
  · split at h
    · cases h
    · split at h
      · assumption
      · split at h <;> cases h

/-- Attributes announce a verse only if they begin with it. -/
theorem process_verse (m m' : Meta) (s : Str) (h : m.processAttributes (extractAttributes s) = .ok m') (hm : m.declared ≠ some .verse)
    (hs : ¬b!"verse" <+: s) : m'.declared ≠ some .verse := by
  intro hv
  unfold Meta.processAttributes at h
  cases hx : extractAttributes s with
  | nil => rw [hx] at h; cases h; exact hm hv
  | cons a l =>
    rw [hx] at h
    simp only [Meta.processFrom] at h
    cases ho : m.processOne 0 a with
    | error e => rw [ho] at h; cases h
    | ok m1 =>
      rw [ho] at h
      rw [processFrom_declared l m1 m' (0 + 1) (by omega) h] at hv
      rcases processOne_declared m m1 0 a ho with h2 | h2
      · exact hm (h2 ▸ hv)
      · rw [hv] at h2
        have ha := ofStr_verse h2.2.symm
        subst ha
        unfold extractAttributes at hx
        simp only at hx
        cases hq : quoted s with
        | nil => rw [hq] at hx; exact hs (split_prefix _ _ _ _ hx)
        | cons e es =>
          rw [hq] at hx
          have := quoted_last _ _ _ e (by rw [← quoted, hq]; simp)
          cases hx
          exact absurd this (by decide)

theorem slice_drop {s x : Str} {i j : Nat} (h : sliceM s i j = .ok x) : x <+: s.drop i := by
  unfold sliceM slice at h
  split at h
  · rename_i hsl
    cases h
    split at hsl
    · cases hsl
      exact List.take_prefix ..
    · cases hsl
  · cases h

theorem parseBlockMeta_R (p : Parser) (t : Token) (ht : t.ty = .elementAttributes → ¬b!"verse" <+: t.lexeme.drop 1) (hty : t.ty = .blockAnchor ∨ t.ty = .elementAttributes) :
    R ty (Kept p) (p.parseBlockMeta t) ((setL ty p).parseBlockMeta t) := by
  unfold Parser.parseBlockMeta
  rw [show (setL ty p).data = p.data from rfl]
  refine .val fun m hm => .pure ⟨rfl, id, rfl, fun hn m' hm' => ?_, fun _ => id⟩
  cases hm'
  have hs : ∀ {x : Str}, t.ty ≠ .blockAnchor → sliceM t.lexeme 1 (t.lexeme.length - 1) = .ok x → ¬b!"verse" <+: x :=
    fun h hx hp => ht (hty.resolve_left h) (hp.trans (slice_drop hx))
  cases hd : p.data with
  | none =>
    rw [hd] at hm
    unfold Meta.blockFromToken at hm
    simp only at hm
    split at hm
    · cases hx : sliceM t.lexeme 2 (t.lexeme.length - 2) with
      | error e => rw [hx] at hm; cases hm
      | ok x => rw [hx] at hm; cases hm; simp [Meta.setAttr]
    · cases hx : sliceM t.lexeme 1 (t.lexeme.length - 1) with
      | error e => rw [hx] at hm; cases hm
      | ok x => rw [hx] at hm; exact process_verse _ _ x hm (by simp) (hs ‹_› hx)
  | some m0 =>
    rw [hd] at hm
    have h0 := hn m0 hd
    unfold Meta.addFromToken at hm
    simp only at hm
    split at hm
    · cases hx : sliceM t.lexeme 2 (t.lexeme.length - 2) with
      | error e => rw [hx] at hm; cases hm
      | ok x =>
        rw [hx] at hm
        simp only [bind, Except.bind] at hm
        split at hm
        · cases hm; exact h0
        · cases hm; exact h0
    · cases hx : sliceM t.lexeme 1 (t.lexeme.length - 1) with
      | error e => rw [hx] at hm; cases hm
      | ok x => rw [hx] at hm; exact process_verse _ _ x hm h0 (hs ‹_› hx)

/-! ## Places -/

/-- The state at a place. -/
structure At (env : SMap Str) (pl : Place) (p : Parser) : Prop where
  attrs : p.attrs = env
  header : p.header = none
  verse : NoVerse p.data
  open_ : p.openText = match pl with
    | .verbatim d => some d
    | _ => none
  refs : C (decide (pl = .link)) p
  known : ∀ d, pl = .verbatim d → d ∈ verbatimMarks

theorem At.kept {env : SMap Str} {pl : Place} {p q : Parser} (h : At env pl p) (hk : Kept p q) : At env pl q :=
  ⟨hk.attrs.trans h.attrs, hk.header h.header, hk.verse h.verse, hk.openText.trans h.open_, hk.refs _ h.refs, h.known⟩

theorem R.at {env : SMap Str} {pl : Place} {p : Parser} {x x' : M Parser} (h : At env pl p) (hx : R ty (Kept p) x x') : R ty (At env pl) x x' :=
  hx.mono fun _ => h.kept

theorem C.mono {p : Parser} (h : C false p) (k : Bool) : C k p := by
  refine h.imp id fun h x hx => ?_
  rcases h x hx with h | ⟨h, _⟩
  · exact .inl h
  · cases h

theorem openLeaf_R {env : SMap Str} {p : Parser} {t : Token} (h : At env .text p) (ht : t.ty ∈ verbatimMarks) :
    R ty (At env (.verbatim t.ty)) (p.parseLeaf t) ((setL ty p).parseLeaf t) := by
  have ho : p.openText = none := h.open_
  unfold Parser.parseLeaf
  rw [show (setL ty p).openText = p.openText from rfl, ho]
  refine .val fun b _ => ?_
  refine (pushToStack_R { p with openText := some t.ty } b).bind fun q hq => .pure ?_
  exact ⟨hq.attrs.trans h.attrs, hq.header.trans h.header, hq.verse h.verse, hq.openText, hq.kept.refs _ h.refs, fun d hd => by cases hd; exact ht⟩

theorem closeLeaf_R {env : SMap Str} {p : Parser} {t : Token} {d : TokenType} (h : At env (.verbatim d) p) :
    R ty (At env .text) (p.parseLeaf t) ((setL ty p).parseLeaf t) := by
  have ho : p.openText = some d := h.open_
  unfold Parser.parseLeaf
  rw [show (setL ty p).openText = p.openText from rfl, ho]
  refine ((addInlines_K p).mono fun q => h.kept).bind fun q hq => ?_
  des q
  dsimp only [setL]
  cases bl with
  | nil => exact .error
  | cons b rest =>
    refine .val fun b' _ => ((pushToStack_R _ b').mono fun r hr => (?_ : At env (.verbatim d) r)).bind fun r hr => .pure ?_
    · exact hq.kept ((Kept.refl _).step.trans hr.kept)
    · exact ⟨hr.attrs, hr.header, hr.verse, rfl, hr.refs, nofun⟩

theorem verbatim_open {p : Parser} {t : Token} (h : p.openText = none) : p.verbatim t = none := by
  unfold Parser.verbatim
  rw [h]

theorem linkPush_R {env : SMap Str} {pl : Place} {p : Parser} (x : Inline) (hp : pl ≠ .link → C false p) (h : At env pl p)
    (ho : p.openText = none) (hx : Okay true x) : R ty (At env .link) (.ok { p with inlines := x :: p.inlines }) (.ok (setL ty { p with inlines := x :: p.inlines })) := by
  have hc : C true p := by
    by_cases hl : pl = .link
    · have := h.refs; rw [hl] at this; exact this
    · exact (hp hl).mono true
  refine .ok ⟨h.attrs, h.header, h.verse, ho, ?_, nofun⟩
  exact hc.imp id fun hc y hy => by
    rcases List.mem_cons.1 hy with rfl | hy
    · exact hx
    · exact hc y hy

/-- A token in text or in a link. -/
theorem dispatch_R {env : SMap Str} {pl : Place} {p : Parser} (w : World) (f : Token → Parser → M Parser) (t : Token) (h : At env pl p)
    (hpl : pl = .text ∨ pl = .link) (ha : Alike p.lastTy ty) (hal : pl.allows t.ty t.lexeme) :
    R ty (At env (pl.next t.ty)) (p.dispatchToken w f t) ((setL ty p).dispatchToken w f t) := by
  have ho : p.openText = none := by rw [h.open_]; rcases hpl with rfl | rfl <;> rfl
  have hal' : t.ty ∉ [.attribute, .heading1, .tableCell, .include, .eof] ∧ (t.ty = .elementAttributes → ¬b!"verse" <+: t.lexeme.drop 1)
      ∧ (pl = .link → t.ty ∉ verbatimMarks) := by rcases hpl with rfl | rfl <;> exact hal
  obtain ⟨hno, hve, hli⟩ := hal'
  have keep : ∀ {x x' : M Parser}, R ty (Kept p) x x' → pl.next t.ty = pl → R ty (At env (pl.next t.ty)) x x' :=
    fun hx hn => by rw [hn]; exact R.at h hx
  have span : ∀ {g g' : Inline → M Parser}, (∀ s, noRef s = true → R ty (Kept p) (g s) (g' s)) →
      R ty (Kept p) (Inline.spanFromToken t >>= g) (Inline.spanFromToken t >>= g') :=
    fun hg => .val fun s hs => hg s (noRef_spanFromToken hs)
  have nx : t.ty ∉ verbatimMarks → t.ty ≠ .linkMacro → t.ty ≠ .hyperlink → t.ty ≠ .inlineMacroClose → pl.next t.ty = pl := by
    intro h1 h2 h3 h4
    rcases hpl with rfl | rfl
    · simp [Place.next, h1, h2, h3]
    · simp [Place.next, h4]
  have keep' : ∀ {x x' : M Parser}, R ty (Kept p) x x' → t.ty ∉ verbatimMarks → t.ty ≠ .linkMacro → t.ty ≠ .hyperlink → t.ty ≠ .inlineMacroClose →
      R ty (At env (pl.next t.ty)) x x' := fun hx h1 h2 h3 h4 => keep hx (nx h1 h2 h3 h4)
  have verb : t.ty ∈ verbatimMarks → At env .text p ∧ pl.next t.ty = .verbatim t.ty := by
    intro hv
    rcases hpl with rfl | rfl
    · exact ⟨h, by simp only [Place.next, if_pos hv]⟩
    · exact absurd hv (hli rfl)
  have link : t.ty = .linkMacro ∨ t.ty = .hyperlink → pl.next t.ty = .link := by
    intro hl
    rcases hpl with rfl | rfl
    · rcases hl with hl | hl <;> rw [hl] <;> rfl
    · rcases hl with hl | hl <;> rw [hl] <;> rfl
  have hp : pl ≠ .link → C false p := by
    intro hn
    rcases hpl with rfl | rfl
    · exact h.refs
    · exact absurd rfl hn
  unfold Parser.dispatchToken
  cases hty : t.ty with
  | heading1 | «attribute» | «include» | tableCell | eof => exact absurd hno (by rw [hty]; decide)
  | heading2 | heading3 | heading4 | heading5 =>
    rw [hty] at keep'; exact keep' (parseSection_R p t) (by decide) (by decide) (by decide) (by decide)
  | blockLabel | startTag | endTag | comment =>
    rw [hty] at keep'; exact keep' (.ok (Kept.refl p).step) (by decide) (by decide) (by decide) (by decide)
  | blockAnchor | elementAttributes =>
    rw [hty] at keep'; exact keep' (parseBlockMeta_R p t hve (by simp [hty])) (by decide) (by decide) (by decide) (by decide)
  | inlineStyle => rw [hty] at keep'; exact keep' (parseInlineMeta_R p t) (by decide) (by decide) (by decide) (by decide)
  | newLineChar => rw [hty] at keep'; exact keep' (parseNewLine_R p t ha) (by decide) (by decide) (by decide) (by decide)
  | text | openDoubleQuote | closeDoubleQuote | openSingleQuote | closeSingleQuote =>
    rw [hty] at keep'; exact keep' (parseText_R p t false) (by decide) (by decide) (by decide) (by decide)
  | charRef => rw [hty] at keep'; exact keep' (parseCharref_R p t) (by decide) (by decide) (by decide) (by decide)
  | strong | mark | monospace | literal | emphasis | superscript | subscript
  | unconstrainedStrong | unconstrainedMark | unconstrainedMonospace | unconstrainedLiteral | unconstrainedEmphasis =>
    rw [hty] at keep'; exact keep' (span fun s hs => parseSpan_R p s hs) (by decide) (by decide) (by decide) (by decide)
  | attributeReference => rw [hty] at keep'; exact keep' (parseAttrRef_R p t) (by decide) (by decide) (by decide) (by decide)
  | crossReference => rw [hty] at keep'; exact keep' (parseXref_R p t) (by decide) (by decide) (by decide) (by decide)
  | footnoteMacro => rw [hty] at keep'; exact keep' (parseFootnote_R p t) (by decide) (by decide) (by decide) (by decide)
  | linkMacro =>
    have hn := link (.inl hty)
    rw [hty] at hn
    rw [hn]
    exact linkPush_R _ hp h ho (.inr ⟨rfl, _, _, _, _, rfl, rfl⟩)
  | hyperlink =>
    have hn := link (.inr hty)
    rw [hty] at hn
    rw [hn]
    exact linkPush_R _ hp h ho (.inr ⟨rfl, _, _, _, _, rfl, rfl⟩)
  | inlineImageMacro => rw [hty] at keep'; exact keep' (parseInlineImage_R p t) (by decide) (by decide) (by decide) (by decide)
  | passthroughInlineMacro =>
    obtain ⟨h', hn⟩ := verb (by rw [hty]; decide)
    rw [hty] at hn
    rw [hn]
    exact .ok ⟨h'.attrs, h'.header, h'.verse, by simp [hty], h'.refs, fun d hd => by cases hd; decide⟩
  | inlineMacroClose =>
    refine (parseMacroClose_R p t ho).mono fun q hq => ?_
    have hc : C false q := by
      rcases hpl with rfl | rfl
      · exact hq.1.refs _ h.refs
      · exact hq.2 h.refs
    have hn : pl.next .inlineMacroClose = .text := by rcases hpl with rfl | rfl <;> rfl
    rw [hn]
    exact ⟨hq.1.attrs.trans h.attrs, hq.1.header h.header, hq.1.verse h.verse, hq.1.openText.trans ho, hc, nofun⟩
  | pageBreak => rw [hty] at keep'; exact keep' (addToStackOrGraph_R p _).calm (by decide) (by decide) (by decide) (by decide)
  | thematicBreak => rw [hty] at keep'; exact keep' (addToStackOrGraph_R p _).calm (by decide) (by decide) (by decide) (by decide)
  | lineContinuation =>
    rw [hty] at keep'
    exact keep' (.ok (q := { p with inlines := .brk t.locations :: p.inlines }) ⟨rfl, id, rfl, id, fun k h => h.cons (x := .brk t.locations) rfl rfl rfl⟩)
      (by decide) (by decide) (by decide) (by decide)
  | sidebarBlock | openBlock | exampleBlock | table =>
    rw [hty] at keep'; exact keep' (parseParent_R p t) (by decide) (by decide) (by decide) (by decide)
  | quoteVerseBlock =>
    rw [hty] at keep'
    refine keep' ?_ (by decide) (by decide) (by decide) (by decide)
    dsimp only
    unfold Parser.parseQuoteVerse
    rw [show (setL ty p).data = p.data from rfl, show (setL ty p).openText = p.openText from rfl, ho]
    cases hd : p.data with
    | none => exact parseParent_R p t
    | some m =>
      dsimp only
      rw [if_neg (h.verse m hd), if_neg (h.verse m hd)]
      exact parseParent_R p t
  | passthroughBlock | literalBlock | sourceBlock =>
    obtain ⟨h', hn⟩ := verb (by rw [hty]; decide)
    rw [hty] at hn
    rw [hn]
    have := openLeaf_R (ty := ty) h' (t := t) (by rw [hty]; decide)
    rw [hty] at this
    exact this
  | commentBlock =>
    obtain ⟨h', hn⟩ := verb (by rw [hty]; decide)
    rw [hty] at hn
    rw [hn]
    have := openLeaf_R (ty := ty) h' (t := t) (by rw [hty]; decide)
    rw [hty] at this
    dsimp only
    unfold Parser.parseCommentBlock
    rw [show (setL ty p).openText = p.openText from rfl, ho]
    exact this
  | codeCallout => rw [hty] at keep'; exact keep' (parseCallout_R p t) (by decide) (by decide) (by decide) (by decide)
  | blockImageMacro => rw [hty] at keep'; exact keep' (parseBlockImage_R w p t) (by decide) (by decide) (by decide) (by decide)
  | unorderedListItem => rw [hty] at keep'; exact keep' (parseUnordered_R p t) (by decide) (by decide) (by decide) (by decide)
  | codeCalloutListItem | orderedListItem => rw [hty] at keep'; exact keep' (parseOrdered_R p t) (by decide) (by decide) (by decide) (by decide)
  | descriptionListMarker => rw [hty] at keep'; exact keep' (parseDlistTerm_R p t) (by decide) (by decide) (by decide) (by decide)
  | notePara | tipPara | importantPara | cautionPara | warningPara =>
    rw [hty] at keep'; exact keep' (parseAdmonition_R p t) (by decide) (by decide) (by decide) (by decide)
  | blockContinuation => rw [hty] at keep'; exact keep' (parseContinuation_R p) (by decide) (by decide) (by decide) (by decide)
  | email => exact .error

/-- A token in verbatim text. -/
theorem verbatim_R {env : SMap Str} {d : TokenType} {p : Parser} (w : World) (f : Token → Parser → M Parser) (t : Token) (h : At env (.verbatim d) p)
    (hal : Place.allows (.verbatim d) t.ty t.lexeme) :
    R ty (At env (Place.next (.verbatim d) t.ty))
      (match p.verbatim t with
        | some pass => p.parseText t pass
        | none => p.dispatchToken w f t)
      (match (setL ty p).verbatim t with
        | some pass => (setL ty p).parseText t pass
        | none => (setL ty p).dispatchToken w f t) := by
  have ho : p.openText = some d := h.open_
  have hd := h.known d rfl
  have text : ∀ pass, Place.next (.verbatim d) t.ty = .verbatim d →
      R ty (At env (Place.next (.verbatim d) t.ty)) (p.parseText t pass) ((setL ty p).parseText t pass) := by
    intro pass hn
    rw [hn]
    exact R.at h (parseText_R p t pass)
  have hve : (setL ty p).verbatim t = p.verbatim t := rfl
  rw [hve]
  unfold Parser.verbatim
  rw [ho]
  have leaf : t.ty = d → d ≠ .passthroughInlineMacro → R ty (At env (Place.next (.verbatim d) t.ty)) (p.parseLeaf t) ((setL ty p).parseLeaf t) := by
    intro h1 h2
    have : Place.next (.verbatim d) t.ty = .text := by simp [Place.next, h1, h2]
    rw [this]
    exact closeLeaf_R h
  unfold verbatimMarks at hd
  simp only [List.mem_cons, List.not_mem_nil, or_false] at hd
  rcases hd with rfl | rfl | rfl | rfl | rfl
  · dsimp only
    by_cases h1 : t.ty = .sourceBlock
    · rw [if_pos (.inl h1)]
      have := leaf h1 (by decide)
      unfold Parser.dispatchToken
      rw [h1] at this ⊢
      exact this
    · by_cases h2 : t.ty = .codeCallout
      · rw [if_pos (.inr (.inl h2))]
        unfold Parser.dispatchToken
        rw [h2]
        exact R.at h (parseCallout_R p t)
      · rw [if_neg (by simp only [h1, h2, false_or]; exact hal)]
        exact text true (by simp [Place.next, h1])
  · dsimp only
    by_cases h1 : t.ty = .literalBlock
    · rw [if_pos h1]
      have := leaf h1 (by decide)
      unfold Parser.dispatchToken
      rw [h1] at this ⊢
      exact this
    · rw [if_neg h1]
      exact text true (by simp [Place.next, h1])
  · dsimp only
    by_cases h1 : t.ty = .passthroughBlock
    · rw [if_pos h1]
      have := leaf h1 (by decide)
      unfold Parser.dispatchToken
      rw [h1] at this ⊢
      exact this
    · rw [if_neg h1]
      exact text true (by simp [Place.next, h1])
  · dsimp only
    by_cases h1 : t.ty = .commentBlock
    · rw [if_pos h1]
      have hn : Place.next (.verbatim .commentBlock) t.ty = .text := by simp [Place.next, h1]
      rw [hn]
      unfold Parser.dispatchToken
      rw [h1]
      dsimp only
      unfold Parser.parseCommentBlock
      rw [show (setL ty p).openText = p.openText from rfl, ho]
      dsimp only
      rw [if_pos rfl, if_pos rfl]
      exact .ok ⟨h.attrs, h.header, h.verse, rfl, .inr (by simp), nofun⟩
    · rw [if_neg h1]
      exact text true (by simp [Place.next, h1])
  · dsimp only
    by_cases h1 : t.ty = .passthroughInlineMacro
    · rw [if_pos (.inl h1)]
      have hn : Place.next (.verbatim .passthroughInlineMacro) t.ty = .verbatim .passthroughInlineMacro := by rw [h1]; rfl
      rw [hn]
      unfold Parser.dispatchToken
      rw [h1]
      exact .ok ⟨h.attrs, h.header, h.verse, rfl, h.refs, h.known⟩
    · by_cases h2 : t.ty = .inlineMacroClose
      · rw [if_pos (.inr h2)]
        have hn : Place.next (.verbatim .passthroughInlineMacro) t.ty = .text := by rw [h2]; rfl
        rw [hn]
        unfold Parser.dispatchToken
        rw [h2]
        dsimp only
        unfold Parser.parseMacroClose
        rw [show (setL ty p).openText = p.openText from rfl, ho, if_pos rfl, if_pos rfl]
        exact .ok ⟨h.attrs, h.header, h.verse, rfl, h.refs, nofun⟩
      · rw [if_neg (by simp [h1, h2])]
        exact text true (by simp [Place.next, h2])

/-- A token of the text, at its place. -/
theorem step_R {env : SMap Str} {pl : Place} {p : Parser} (w : World) (f : Token → Parser → M Parser) (t : Token) (h : At env pl p)
    (ha : Alike p.lastTy ty) (hal : pl.allows t.ty t.lexeme) :
    R ty (At env (pl.next t.ty)) (step w f t p) (step w f t (setL ty p)) := by
  unfold Parser.step
  rw [show (setL ty p).header = p.header from rfl, h.header]
  show R ty _ (match p.verbatim t with
        | some pass => p.parseText t pass
        | none => p.dispatchToken w f t)
      (match (setL ty p).verbatim t with
        | some pass => (setL ty p).parseText t pass
        | none => (setL ty p).dispatchToken w f t)
  cases pl with
  | verbatim d => exact verbatim_R w f t h hal
  | text =>
    rw [verbatim_open (p := p) h.open_, verbatim_open (p := setL ty p) h.open_]
    exact dispatch_R w f t h (.inl rfl) ha hal
  | link =>
    rw [verbatim_open (p := p) h.open_, verbatim_open (p := setL ty p) h.open_]
    exact dispatch_R w f t h (.inr rfl) ha hal

end

end Adoc.Filled
