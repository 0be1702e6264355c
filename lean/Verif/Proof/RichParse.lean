import Verif.Proof.RichScan
import Verif.Proof.RichArgs
import Verif.Proof.TextSteps
/-!
# The parser on text with inline markup

The stack of inlines is followed up to locations.
-/
namespace Adoc.Parser
open Spec Scanner

theorem bareL_map (l : List Inline) : bareL l = l.map bare := by
  induction l with
  | nil => rfl
  | cons x xs ih => simp [bareL, ih]

theorem bareL_append (a b : List Inline) : bareL (a ++ b) = bareL a ++ bareL b := by simp [bareL_map]

theorem bareL_reverse (a : List Inline) : bareL a.reverse = (bareL a).reverse := by simp [bareL_map]

theorem bare_isOpen (x : Inline) : (bare x).isOpen = x.isOpen := by cases x <;> rfl
theorem bare_isMacro (x : Inline) : (bare x).isMacro = x.isMacro := by cases x <;> rfl
theorem bare_loc (x : Inline) : (bare x).locations = [] := by cases x <;> rfl

theorem reconcile_nil (l : List Location) : reconcile l [] = l := rfl

/-- Nothing is left to be erased. -/
theorem bareL_addLast (is : List Inline) (x : Inline) : bareL (Inline.addLast is x) = Inline.addLast (bareL is) (bare x) := by
  induction is, x using Inline.addLast.induct with
  | case1 x => simp [Inline.addLast, bareL]
  | case2 v f is m l x ih =>
    simp [Inline.addLast, bareL, bare, bare_loc, reconcile_nil, ih]
  | case3 v f is m l o x h =>
    simp [Inline.addLast, bareL, bare, h]
  | case4 n v l n' v' l' => simp [Inline.addLast, bareL, bare, reconcile_nil]
  | case5 n v l x h =>
    cases x <;> first | (exact absurd rfl (h _ _ _)) | simp [Inline.addLast, bareL, bare]
  | case6 y ys x h1 h2 ih =>
    cases ys with
    | nil =>
      cases y with
      | span v f is m l o => exact absurd rfl (h1 _ _ _ _ _ _ rfl)
      | lit n v l => exact absurd rfl (h2 _ _ _ rfl)
      | ref v t is m l => simp [Inline.addLast, bareL, bare]
      | brk l => simp [Inline.addLast, bareL, bare]
    | cons z zs =>
      simp only [Inline.addLast, bareL] at ih ⊢
      rw [ih]
      simp [Inline.addLast]

theorem addLast_twice (is : List Inline) (x y : Str) :
    Inline.addLast (Inline.addLast is (literal x)) (literal y) = Inline.addLast is (literal (x ++ y)) := by
  generalize hz : literal x = z
  induction is, z using Inline.addLast.induct with
  | case1 z => subst hz; simp [Inline.addLast, literal, reconcile_nil]
  | case2 v f is m l z ih =>
    subst hz
    simp [Inline.addLast, literal, Inline.locations, reconcile_nil] at ih ⊢
    exact ih
  | case3 v f is m l o z h =>
    subst hz
    have : o = false := by simpa using h
    subst this
    simp [Inline.addLast, literal, reconcile_nil]
  | case4 n v l n' v' l' => cases hz; simp [Inline.addLast, literal, reconcile_nil]
  | case5 n v l z h => subst hz; exact absurd rfl (h _ _ _)
  | case6 y' ys z h1 h2 ih =>
    subst hz
    cases ys with
    | nil =>
      cases y' with
      | span v f is m l o => exact absurd rfl (h1 _ _ _ _ _ _ rfl)
      | lit n v l => exact absurd rfl (h2 _ _ _ rfl)
      | ref v t is m l => simp [Inline.addLast, literal, reconcile_nil]
      | brk l => simp [Inline.addLast, literal, reconcile_nil]
    | cons w ws =>
      have ih := ih rfl
      have hne : Inline.addLast (w :: ws) (literal x) ≠ [] := by
        intro h
        have : ∀ (l : List Inline) (x : Inline), Inline.addLast l x ≠ [] := by
          intro l x
          unfold Inline.addLast
          repeat' split
          all_goals simp
        exact this _ _ h
      rw [show Inline.addLast (y' :: w :: ws) (literal (x ++ y)) = y' :: Inline.addLast (w :: ws) (literal (x ++ y)) by
        simp [Inline.addLast]]
      rw [show Inline.addLast (y' :: w :: ws) (literal x) = y' :: Inline.addLast (w :: ws) (literal x) by simp [Inline.addLast]]
      cases ha : Inline.addLast (w :: ws) (literal x) with
      | nil => exact absurd ha hne
      | cons u us =>
        rw [show Inline.addLast (y' :: u :: us) (literal y) = y' :: Inline.addLast (u :: us) (literal y) by simp [Inline.addLast]]
        rw [← ha, ih]

/-- Text added to the contents of a link. -/
def putRef (is : List Inline) (x : Str) : List Inline :=
  match is with
  | [.lit .text v l] => [.lit .text (v ++ x) l]
  | _ => [literal x]

/-- Text added to the stack of inlines; `sp`: inside a span, `cp`: references do not take text. -/
def putTextTop (sp cp : Bool) (V : List Inline) (x : Str) : List Inline :=
  match V with
  | .span v f is m l o :: R => if sp then .span v f (Inline.addLast is (literal x)) m l o :: R
      else literal x :: .span v f is m l o :: R
  | .lit n v l :: R => if n = .text then .lit n (v ++ x) l :: R else literal x :: .lit n v l :: R
  | .ref v g is m l :: R => if cp then literal x :: .ref v g is m l :: R else .ref v g (putRef is x) m l :: R
  | .brk l :: R => literal x :: .brk l :: R
  | [] => [literal x]

/-- Text, if there is any, added to the stack of inlines. -/
def putText (sp cp : Bool) (V : List Inline) (x : Str) : List Inline := if x = [] then V else putTextTop sp cp V x

/-- Text can be added. -/
def Takes (cp : Bool) (V : List Inline) : Prop :=
  match V with
  | .ref _ _ is _ _ :: _ => cp = true ∨ is = [] ∨ ∃ v l, is = [.lit .text v l]
  | _ => True

theorem Takes.putTextTop {sp cp : Bool} {V : List Inline} (h : Takes cp V) (x : Str) : Takes cp (putTextTop sp cp V x) := by
  cases V with
  | nil => trivial
  | cons i R =>
    cases i with
    | span v f is m l o => unfold Parser.putTextTop; dsimp only; split <;> trivial
    | lit n v l => unfold Parser.putTextTop; dsimp only; split <;> trivial
    | brk l => trivial
    | ref v g is m l =>
      unfold Parser.putTextTop; dsimp only; split
      · trivial
      · rename_i hc
        rcases h with h | rfl | ⟨v, l, rfl⟩
        · exact absurd h hc
        · exact .inr (.inr ⟨x, [], rfl⟩)
        · exact .inr (.inr ⟨v ++ x, l, rfl⟩)

theorem Takes.putText {sp cp : Bool} {V : List Inline} (h : Takes cp V) (x : Str) : Takes cp (putText sp cp V x) := by
  unfold Parser.putText; split
  · exact h
  · exact h.putTextTop x

theorem putTextTop_twice {sp cp : Bool} {V : List Inline} (h : Takes cp V) (x y : Str) :
    putTextTop sp cp (putTextTop sp cp V x) y = putTextTop sp cp V (x ++ y) := by
  cases V with
  | nil => simp [putTextTop, literal]
  | cons i R =>
    cases i with
    | span v f is m l o =>
      by_cases hs : sp = true
      · simp [putTextTop, hs, addLast_twice]
      · simp [putTextTop, hs, literal]
    | lit n v l => cases n <;> simp [putTextTop, literal]
    | brk l => simp [putTextTop, literal]
    | ref v g is m l =>
      by_cases hc : cp = true
      · simp [putTextTop, hc, literal]
      · rcases h with h | rfl | ⟨v, l, rfl⟩
        · exact absurd h hc
        · simp [putTextTop, hc, literal, putRef]
        · simp [putTextTop, hc, putRef]

theorem putText_twice {sp cp : Bool} {V : List Inline} (h : Takes cp V) (x y : Str) :
    putText sp cp (putText sp cp V x) y = putText sp cp V (x ++ y) := by
  unfold putText
  by_cases hx : x = [] <;> by_cases hy : y = [] <;> simp [hx, hy, putTextTop_twice h]

theorem located_head {i : Inline} {R : List Inline} (h : ∀ x ∈ i :: R, x.locations ≠ []) : i.locations ≠ [] := h i (by simp)

theorem located {i j : Inline} {R : List Inline} (h : ∀ x ∈ i :: R, x.locations ≠ []) (hj : j.locations ≠ []) :
    ∀ x ∈ j :: R, x.locations ≠ [] := by
  intro x hx
  rcases List.mem_cons.1 hx with rfl | hx
  · exact hj
  · exact h x (by simp [hx])

theorem located_new {j : Inline} {R : List Inline} (h : ∀ x ∈ R, x.locations ≠ []) (hj : j.locations ≠ []) :
    ∀ x ∈ j :: R, x.locations ≠ [] := by
  intro x hx
  rcases List.mem_cons.1 hx with rfl | hx
  · exact hj
  · exact h x hx

/-- The parser adds text to the stack. -/
theorem addText_putText (p : Parser) (t : Token) (ht : t.text = t.lexeme) (h : Takes p.closeParent (bareL p.inlines)) :
    ∃ J, p.addText t false = .ok { p with inlines := J }
      ∧ bareL J = putTextTop p.inSpan p.closeParent (bareL p.inlines) t.text
      ∧ ((∀ i ∈ p.inlines, i.locations ≠ []) → ∀ i ∈ J, i.locations ≠ []) := by
  unfold addText
  simp only [Bool.false_eq_true, if_false]
  have hloc := tokLoc_ne t
  cases hi : p.inlines with
  | nil => exact ⟨_, rfl, rfl, fun _ => by simpa [Inline.locations] using hloc⟩
  | cons i R =>
    rw [hi] at h
    cases i with
    | span v f is m l o =>
      dsimp only
      by_cases hs : p.inSpan = true
      · rw [if_pos hs]
        refine ⟨_, rfl, ?_, fun hl => located hl (by
          simpa [Inline.addInline, Inline.locations] using reconcile_ne _ _ (located_head hl))⟩
        simp [bareL, bare, Inline.addInline, bareL_addLast, putTextTop, hs, literal]
      · rw [if_neg hs]
        exact ⟨_, rfl, by simp [bareL, bare, putTextTop, hs, literal], fun hl => located_new hl hloc⟩
    | lit n v l =>
      dsimp only
      by_cases hn : n = .charref
      · subst hn
        exact ⟨_, rfl, by simp [bareL, bare, putTextTop, literal], fun hl => located_new hl hloc⟩
      · rw [if_neg hn]
        have : n = .text := by cases n <;> first | rfl | exact absurd rfl hn
        subst this
        exact ⟨_, rfl, by simp [bareL, bare, putTextTop, Inline.litAdd], fun hl => located hl (by
          simpa [Inline.litAdd, Inline.locations] using reconcile_ne _ _ (located_head hl))⟩
    | brk l => exact ⟨_, rfl, rfl, fun hl => located_new hl hloc⟩
    | ref v g is m l =>
      dsimp only
      by_cases hc : p.closeParent = true
      · rw [if_pos hc]
        exact ⟨_, rfl, by simp [bareL, bare, putTextTop, hc, literal], fun hl => located_new hl hloc⟩
      · rw [if_neg hc]
        rcases h with h | h | ⟨v', l', h⟩
        · exact absurd h hc
        · have : is = [] := by cases is <;> simp_all [bareL]
          subst this
          refine ⟨_, rfl, ?_, fun hl => located hl (located_head hl :)⟩
          simp [bareL, bare, putTextTop, hc, Inline.passFromToken, putRef, ht, literal]
        · match is, h with
          | [.lit n v2 l2], h =>
            simp only [bareL, bare, List.cons.injEq, Inline.lit.injEq, and_true] at h
            obtain ⟨rfl, rfl, rfl⟩ := h
            refine ⟨_, rfl, ?_, fun hl => located hl (located_head hl :)⟩
            simp [bareL, bare, putTextTop, hc, Inline.litAdd, putRef]
          | [.span ..], h => simp [bareL, bare] at h
          | [.ref ..], h => simp [bareL, bare] at h
          | [.brk ..], h => simp [bareL, bare] at h
          | _ :: _ :: _, h => simp [bareL] at h
          | [], h => simp [bareL] at h

/-- Nothing special is going on. -/
structure Base (p : Parser) : Prop where
  header : p.header = none
  openText : p.openText = none
  title : p.title = none
  inCont : p.inCont = false
  data : p.data = none

/-- The parser in the middle of a text that began at `p0`: `V` is the stack, with a pending newline (`d`) added. `mid`: a
newline may come next. -/
structure St (p0 : Parser) (V : List Inline) (sp cp d mid : Bool) (p : Parser) : Prop where
  eq : p = { p0 with inlines := p.inlines, inSpan := sp, closeParent := cp, dangling := p.dangling
                     inBlockLine := p.inBlockLine, lastTy := p.lastTy }
  line : p.inBlockLine = true → p0.inBlockLine = true
  top : V = if d then putText sp cp (bareL p.inlines) [10] else bareL p.inlines
  takes : Takes cp (bareL p.inlines)
  dang : d = p.dangling.isSome
  newline : ∀ t, p.dangling = some t → IsMark .newLineChar [10] t
  quiet : mid = true → p.lastTy ≠ .newLineChar ∧ p.lastTy ≠ .eof ∧ p.lastTy.clearsNewlineAfter = false
  locs : ∀ i ∈ p.inlines, i.locations ≠ []
  keep : d = true → p0.preserveNl = false

theorem St.taken {p0 p : Parser} {V : List Inline} {sp cp d mid : Bool} (h : St p0 V sp cp d mid p) : Takes cp V := by
  rw [h.top]; split
  · exact h.takes.putText _
  · exact h.takes

/-- A text token. -/
theorem St.text {p0 p : Parser} {V : List Inline} {sp cp d mid : Bool} (h : St p0 V sp cp d mid p) (hb : Base p0)
    (w : World) (k : Nat) (x : Str) (hx : x ≠ []) (t : Token) (ht : IsMark .text x t) :
    ∃ p', tokenInto w (k + 1) t p = .ok p' ∧ St p0 (putText sp cp V x) sp cp false true { p' with lastTy := t.ty } := by
  have e := h.eq
  have htl : t.text = t.lexeme := by rw [ht.text, ht.lexeme]; rfl
  have hp : tokenInto w (k + 1) t p = p.parseText t false := by
    rw [tokenInto_plain w k t p (by rw [e]; exact hb.header) (by rw [e]; exact hb.openText)]
    unfold dispatchToken; rw [ht.ty]
  have hty : true = true → t.ty ≠ .newLineChar ∧ t.ty ≠ .eof ∧ t.ty.clearsNewlineAfter = false := by
    intro _; rw [ht.ty]; decide
  have htx : t.text = x := ht.text
  have hsp : p.inSpan = sp := by rw [e]
  have hcp : p.closeParent = cp := by rw [e]
  rw [hp]
  unfold Parser.parseText
  cases hd : p.dangling with
  | none =>
    have hd' : d = false := by rw [h.dang, hd]; rfl
    subst hd'
    obtain ⟨J, h1, h2, hj⟩ := addText_putText p t htl (by rw [hcp]; exact h.takes)
    refine ⟨_, h1, ⟨?_, h.line, ?_, ?_, ?_, ?_, hty, hj h.locs, h.keep⟩⟩
    · rw [e]
    · have := h.top
      simp only [Bool.false_eq_true, if_false] at this ⊢
      rw [h2, this, hsp, hcp, htx]; simp [putText, hx]
    · show Takes cp (bareL J)
      rw [h2, hcp]; exact h.takes.putTextTop _
    · rw [← h.dang]
    · exact fun t ht => absurd (hd.symm.trans ht) (by simp)
  | some nlt =>
    have hd' : d = true := by rw [h.dang, hd]; rfl
    subst hd'
    have hn := h.newline nlt hd
    have hpr : p.preserveNl = false := by rw [e]; exact h.keep rfl
    have hnt : nlt.text = nlt.lexeme := by rw [hn.text, hn.lexeme]; rfl
    obtain ⟨J, h1, h2, hj⟩ := addText_putText p nlt hnt (by rw [hcp]; exact h.takes)
    have htk : Takes cp (bareL J) := by rw [h2, hcp]; exact h.takes.putTextTop _
    obtain ⟨J', h3, h4, hj'⟩ := addText_putText { p with inlines := J, dangling := none } t htl (by
      show Takes p.closeParent (bareL J); rw [hcp]; exact htk)
    dsimp only
    rw [hpr]
    simp only [Bool.false_eq_true, if_false, h1, bind, Except.bind]
    refine ⟨_, h3, ⟨?_, h.line, ?_, ?_, ?_, ?_, hty, hj' (hj h.locs), by simp⟩⟩
    · rw [e]
    · have := h.top
      simp only [Bool.false_eq_true, if_false, if_true] at this ⊢
      rw [h4, this]
      dsimp only
      rw [h2, hsp, hcp, htx, hn.text]
      simp [putText, hx, signText]
    · show Takes cp (bareL J')
      rw [h4]; dsimp only; rw [hcp]; exact htk.putTextTop _
    · rfl
    · exact fun t ht => by cases ht

/-- A newline. -/
theorem St.nl {p0 p : Parser} {V : List Inline} {sp cp : Bool} (h : St p0 V sp cp false true p) (hb : Base p0)
    (hk : p0.preserveNl = false)
    (w : World) (k : Nat) (t : Token) (ht : IsMark .newLineChar [10] t) :
    ∃ p', tokenInto w (k + 1) t p = .ok p' ∧ St p0 (putText sp cp V [10]) sp cp true false { p' with lastTy := t.ty } := by
  have e := h.eq
  obtain ⟨q1, q2, q3⟩ := h.quiet rfl
  refine ⟨_, newLine_first w k p t ht.ty (by rw [e]; exact hb.header) (by rw [e]; exact hb.openText)
    (by rw [e]; exact hb.title) q1 q2 (by rw [e]; exact hb.inCont) q3, ?_⟩
  refine ⟨?_, by simp, ?_, h.takes, rfl, ?_, by simp, h.locs, fun _ => hk⟩
  · rw [e]
  · have := h.top
    simp only [Bool.false_eq_true, if_false] at this
    simp [this]
  · intro t' h'; cases h'; exact ht

/-- Tokens are fed. -/
def Feeds (w : World) (k : Nat) (ts : List Token) (p p' : Parser) : Prop :=
  feed (tokenInto w (k + 1)) true (ts.map .tok) p = .ok p'

theorem Feeds.nil (w : World) (k : Nat) (p : Parser) : Feeds w k [] p p := rfl

theorem Feeds.one {w : World} {k : Nat} {t : Token} {p p' : Parser} (h : tokenInto w (k + 1) t p = .ok p') :
    Feeds w k [t] p { p' with lastTy := t.ty } := feed_cons _ t [] p p' h

theorem Feeds.append {w : World} {k : Nat} {a b : List Token} {p q r : Parser} (h1 : Feeds w k a p q) (h2 : Feeds w k b q r) :
    Feeds w k (a ++ b) p r := by
  unfold Feeds
  rw [List.map_append, feed_append _ _ _ _ _ _ h1]; exact h2

theorem Feeds.cons {w : World} {k : Nat} {t : Token} {b : List Token} {p q r : Parser} (h1 : tokenInto w (k + 1) t p = .ok q)
    (h2 : Feeds w k b { q with lastTy := t.ty } r) : Feeds w k (t :: b) p r := (Feeds.one h1).append h2

/-- Text tokens. -/
theorem St.pieces {p0 p : Parser} {V : List Inline} {sp cp d mid : Bool} (h : St p0 V sp cp d mid p) (hb : Base p0)
    (w : World) (k : Nat) (x : Str) (hx : x ≠ []) (ts : List Token) (ht : Pieces' x ts) :
    ∃ p', Feeds w k ts p p' ∧ St p0 (putText sp cp V x) sp cp false true p' := by
  induction ht generalizing p V d mid with
  | nil => exact absurd rfl hx
  | cons x rest t ts hx' ht hr ih =>
    obtain ⟨p1, h1, h2⟩ := h.text hb w k x hx' t ht
    by_cases hrest : rest = []
    · subst hrest
      have : ts = [] := by
        generalize hz : ([] : Str) = z at hr
        cases hr with
        | nil => rfl
        | cons y r _ _ hy => simp at hz; exact absurd hz.1 hy
      subst this
      exact ⟨_, Feeds.one h1, by simpa using h2⟩
    · obtain ⟨p2, h3, h4⟩ := ih h2 hrest
      refine ⟨p2, Feeds.cons h1 h3, ?_⟩
      rw [putText_twice h.taken] at h4
      exact h4

/-- Plain text on one line, if there is any. -/
theorem St.row {p0 p : Parser} {V : List Inline} {sp cp d mid : Bool} (h : St p0 V sp cp d mid p) (hb : Base p0)
    (w : World) (k : Nat) (l : Str) (ts : List Token) (ht : Matches (lineSigns l) ts) :
    ∃ p', Feeds w k ts p p' ∧ St p0 (putText sp cp V l) sp cp (d && l.isEmpty) (mid || !l.isEmpty) p' := by
  unfold lineSigns at ht
  by_cases hl : l = []
  · rw [if_pos hl] at ht
    cases ht
    subst hl
    exact ⟨p, Feeds.nil .., by simpa [putText] using h⟩
  · rw [if_neg hl] at ht
    cases ht with
    | text _ _ ts us _ ht hu =>
      cases hu
      obtain ⟨p', h1, h2⟩ := h.pieces hb w k l hl ts ht
      have : l.isEmpty = false := by simpa using hl
      exact ⟨p', by simpa using h1, by simpa [this] using h2⟩

/-- The text ends with a newline. -/
def endsLine (ls : List Str) : Bool := ls.getLast? = some []

/-- Lines of text after a newline. -/
theorem St.more {p0 p : Parser} {V : List Inline} {sp cp : Bool} (ls : List Str) (hn : ls ≠ []) (h : St p0 V sp cp true false p)
    (hb : Base p0) (w : World) (k : Nat) (ts : List Token) (ht : Matches (textSigns ls) ts) (hi : ∀ l ∈ ls.dropLast, l ≠ []) :
    ∃ p', Feeds w k ts p p' ∧ St p0 (putText sp cp V (joinB 10 ls)) sp cp (endsLine ls) (!endsLine ls) p' := by
  induction ls generalizing p V ts with
  | nil => exact absurd rfl hn
  | cons l ls ih =>
    cases ls with
    | nil =>
      obtain ⟨p', h1, h2⟩ := h.row hb w k l ts ht
      refine ⟨p', h1, ?_⟩
      have : endsLine [l] = l.isEmpty := by cases l <;> simp [endsLine]
      rw [this]
      simpa [joinB] using h2
    | cons l' ls =>
      obtain ⟨us, vs, rfl, hu, hv⟩ := Matches.split (a := lineSigns l) (show Matches (lineSigns l ++ _) ts from ht)
      have hl : l ≠ [] := hi l (by simp)
      have hl' : l.isEmpty = false := by simpa using hl
      obtain ⟨p1, h1, h2⟩ := h.row hb w k l us hu
      rw [hl'] at h2
      cases hv with
      | mark _ _ _ t vs htk hv =>
        obtain ⟨p2, h3, h4⟩ := St.nl h2 hb (h.keep rfl) w k t htk
        obtain ⟨p3, h5, h6⟩ := ih (by simp) h4 vs hv (fun x hx => hi x (by simp [hx]))
        refine ⟨p3, h1.append (Feeds.cons h3 h5), ?_⟩
        rw [putText_twice h.taken, putText_twice h.taken] at h6
        have e1 : endsLine (l :: l' :: ls) = endsLine (l' :: ls) := by simp [endsLine]
        have e2 : joinB 10 (l :: l' :: ls) = l ++ [10] ++ joinB 10 (l' :: ls) := by simp [joinB]
        rw [e1, e2]; exact h6

/-- Lines of text. -/
theorem St.lines {p0 p : Parser} {V : List Inline} {sp cp d mid : Bool} (ls : List Str) (h : St p0 V sp cp d mid p) (hb : Base p0)
    (w : World) (k : Nat) (ts : List Token) (ht : Matches (textSigns ls) ts) (hi : TextLines ls)
    (hf : ls.head? = some [] → mid = true ∧ d = false) (hk : p0.preserveNl = true → Spec.newline ∉ textSigns ls) :
    ∃ p', Feeds w k ts p p' ∧ St p0 (putText sp cp V (joinB 10 ls)) sp cp (endsLine ls) (!endsLine ls) p' := by
  cases ls with
  | nil => exact absurd rfl hi.1
  | cons l ls =>
    cases ls with
    | nil =>
      have hl : l ≠ [] := by simpa [joinB] using hi.1
      have hl' : l.isEmpty = false := by simpa using hl
      obtain ⟨p', h1, h2⟩ := h.row hb w k l ts ht
      refine ⟨p', h1, ?_⟩
      have : endsLine [l] = false := by simpa [endsLine] using hl
      rw [this]
      simpa [joinB, hl'] using h2
    | cons l' ls =>
      obtain ⟨us, vs, rfl, hu, hv⟩ := Matches.split (a := lineSigns l) (show Matches (lineSigns l ++ _) ts from ht)
      obtain ⟨p1, h1, h2⟩ := h.row hb w k l us hu
      have h2 : St p0 (putText sp cp V l) sp cp false true p1 := by
        by_cases hl : l = []
        · obtain ⟨rfl, rfl⟩ := hf (by simp [hl])
          simpa using h2
        · have hl' : l.isEmpty = false := by simpa using hl
          simpa [hl'] using h2
      have hk : p0.preserveNl = false := by
        cases hp : p0.preserveNl with
        | false => rfl
        | true => exact absurd (show Spec.newline ∈ textSigns (l :: l' :: ls) by simp [textSigns, Spec.newline]) (hk hp)
      cases hv with
      | mark _ _ _ t vs htk hv =>
        obtain ⟨p2, h3, h4⟩ := St.nl h2 hb hk w k t htk
        obtain ⟨p3, h5, h6⟩ := h4.more (l' :: ls) (by simp) hb w k vs hv (fun x hx => hi.2 x (by simpa using hx))
        refine ⟨p3, h1.append (Feeds.cons h3 h5), ?_⟩
        rw [putText_twice h.taken, putText_twice h.taken] at h6
        have e1 : endsLine (l :: l' :: ls) = endsLine (l' :: ls) := by simp [endsLine]
        have e2 : joinB 10 (l :: l' :: ls) = l ++ [10] ++ joinB 10 (l' :: ls) := by simp [joinB]
        rw [e1, e2]; exact h6

/-! ## Spans -/

/-- A span that has just been opened. -/
def openedAs (K : SpanVariant × SpanForm) (is : List Inline) : Inline := .span K.1 K.2 is none [] true
/-- A span with a marker that has just been opened. -/
abbrev opened (m : Mark) (is : List Inline) : Inline := openedAs m.kind is
/-- A span that has been closed. -/
def closed (m : Mark) (is : List Inline) : Inline := .span m.kind.1 m.kind.2 is none [] false

theorem kind_inj {m m' : Mark} (h1 : m.kind.1 = m'.kind.1) (h2 : m.kind.2 = m'.kind.2) : m = m' := by
  cases m <;> cases m' <;> first | rfl | (exfalso; revert h1 h2; decide)

theorem kind_ne {m m' : Mark} (hm : m ≠ m') (is is' : List Inline) (a a' : Option Meta) (l l' : List Location) (o o' : Bool) :
    (Inline.span m'.kind.1 m'.kind.2 is a l o).sameKind (.span m.kind.1 m.kind.2 is' a' l' o') = false := by
  simp only [Inline.sameKind, Bool.and_eq_false_iff, decide_eq_false_iff_not]
  by_cases h1 : m'.kind.1 = m.kind.1
  · exact .inr fun h2 => hm (kind_inj h1.symm h2.symm)
  · exact .inl h1

theorem kind_ne' {K : SpanVariant × SpanForm} {m' : Mark} (hm : K ≠ m'.kind) (is is' : List Inline) (a a' : Option Meta)
    (l l' : List Location) (o o' : Bool) :
    (Inline.span m'.kind.1 m'.kind.2 is a l o).sameKind (.span K.1 K.2 is' a' l' o') = false := by
  simp only [Inline.sameKind, Bool.and_eq_false_iff, decide_eq_false_iff_not]
  by_cases h1 : m'.kind.1 = K.1
  · exact .inr fun h2 => hm (Prod.ext h1.symm h2.symm)
  · exact .inl h1

theorem spanFromToken_mark (m : Mark) (t : Token) (ht : t.ty = m.type) :
    Inline.spanFromToken t = .ok (.span m.kind.1 m.kind.2 [] none t.locations true) := by
  unfold Inline.spanFromToken; rw [ht]; cases m <;> rfl

theorem quiet_mark (m : Mark) : m.type ≠ .newLineChar ∧ m.type ≠ .eof ∧ m.type.clearsNewlineAfter = false := by
  cases m <;> decide

theorem quiet_of {t : Token} {ty : TokenType} (h : t.ty = ty) (hq : ty ≠ .newLineChar ∧ ty ≠ .eof ∧ ty.clearsNewlineAfter = false) :
    t.ty ≠ .newLineChar ∧ t.ty ≠ .eof ∧ t.ty.clearsNewlineAfter = false := by rw [h]; exact hq

/-- A marker is a span that opens or closes. -/
theorem step_mark {p0 p : Parser} {V : List Inline} {sp cp d mid : Bool} (h : St p0 V sp cp d mid p) (hb : Base p0)
    (w : World) (k : Nat) (m : Mark) (t : Token) (ht : t.ty = m.type) :
    tokenInto w (k + 1) t p = p.parseSpan (.span m.kind.1 m.kind.2 [] none t.locations true) := by
  have e := h.eq
  rw [tokenInto_plain w k t p (by rw [e]; exact hb.header) (by rw [e]; exact hb.openText)]
  have hs := spanFromToken_mark m t ht
  unfold dispatchToken
  rw [ht]
  cases m <;> (simp only [Mark.type]; rw [hs]; rfl)

theorem bareL_open {J : List Inline} (h : ∀ x ∈ bareL J, x.isOpen = false) : ∀ x ∈ J, x.isOpen = false := by
  intro x hx
  rw [← bare_isOpen]
  exact h _ (by rw [bareL_map]; exact List.mem_map_of_mem hx)

/-- A span is opened. -/
theorem St.open {p0 p : Parser} {V : List Inline} {cp d mid : Bool} (h : St p0 V false cp d mid p) (hb : Base p0)
    (w : World) (k : Nat) (m : Mark) (t : Token) (ht : IsMark m.type m.str t) (hV : ∀ x ∈ V, x.isOpen = false)
    (hs : d = false → ∀ v f is m l o R, V ≠ .span v f is m l o :: R)
    (hd : d = true → ∃ v R, V = literal v :: R ∧ v ≠ [10]) :
    ∃ p', tokenInto w (k + 1) t p = .ok p' ∧ St p0 (opened m [] :: V) true cp false true { p' with lastTy := t.ty } := by
  have e := h.eq
  rw [step_mark h hb w k m t ht.ty]
  have hty : true = true → t.ty ≠ .newLineChar ∧ t.ty ≠ .eof ∧ t.ty.clearsNewlineAfter = false := by
    intro _; rw [ht.ty]; exact quiet_mark m
  have hcp : p.closeParent = cp := by rw [e]
  have hsp : p.inSpan = false := by rw [e]
  have hdt : p.data = none := by rw [e]; exact hb.data
  have hpar : p.parseSpan (.span m.kind.1 m.kind.2 [] none t.locations true)
      = p.openSpan (.span m.kind.1 m.kind.2 [] none t.locations true) := by
    unfold parseSpan
    cases hi : p.inlines with
    | nil => rfl
    | cons i R =>
      cases i with
      | span v f is m' l o =>
        exfalso
        have htop := h.top
        rw [hi] at htop
        cases d with
        | false => exact hs rfl _ _ _ _ _ _ _ (by simpa [bareL, bare] using htop)
        | true =>
          obtain ⟨v', R', h1, h2⟩ := hd rfl
          rw [h1] at htop
          simp [bareL, bare, putText, putTextTop, literal] at htop
          exact h2 htop.1
      | ref => rfl
      | lit => rfl
      | brk => rfl
  rw [hpar]
  unfold openSpan
  cases hdg : p.dangling with
  | none =>
    have hd' : d = false := by rw [h.dang, hdg]; rfl
    subst hd'
    have htop : V = bareL p.inlines := by simpa using h.top
    simp only [bind, Except.bind]
    rw [danglingSpans_closed p (bareL_open (by rw [← htop]; exact hV))]
    simp only [hdt]
    refine ⟨_, rfl, ⟨?_, h.line, ?_, trivial, ?_, ?_, hty, located_new h.locs (tokLoc_ne t), by simp⟩⟩
    · rw [e]; simp only [hb.data]
    · simp [bareL, bare, ← htop, openedAs]
    · simp [hdg]
    · exact fun t ht => absurd (hdg.symm.trans ht) (by simp)
  | some nlt =>
    have hd' : d = true := by rw [h.dang, hdg]; rfl
    subst hd'
    have hn := h.newline nlt hdg
    have hnt : nlt.text = nlt.lexeme := by rw [hn.text, hn.lexeme]; rfl
    obtain ⟨J, h1, h2, hj⟩ := addText_putText p nlt hnt (by rw [hcp]; exact h.takes)
    have htop : V = bareL J := by
      have := h.top
      simp only [if_true] at this
      rw [this, h2, hsp, hcp, hn.text]; simp [putText, signText]
    simp only [h1, bind, Except.bind]
    rw [danglingSpans_closed _ (bareL_open (by show ∀ x ∈ bareL J, _; rw [← htop]; exact hV))]
    simp only [hdt]
    refine ⟨_, rfl, ⟨?_, h.line, ?_, trivial, rfl, ?_, hty, located_new (hj h.locs) (tokLoc_ne t), by simp⟩⟩
    · rw [e]; simp only [hb.data]
    · simp [bareL, bare, ← htop, openedAs]
    · exact fun t ht => by cases ht

theorem bareL_span {J : List Inline} {v : SpanVariant} {f : SpanForm} {is : List Inline} {m : Option Meta} {o : Bool}
    {l : List Location} {R : List Inline} (h : .span v f is m l o :: R = bareL J) :
    ∃ is' l' R', J = .span v f is' m l' o :: R' ∧ is = bareL is' ∧ R = bareL R' := by
  match J, h with
  | .span v' f' is' m' l' o' :: R', h =>
    simp [bareL, bare] at h
    obtain ⟨⟨rfl, rfl, h1, rfl, _, rfl⟩, h2⟩ := h
    exact ⟨_, _, _, rfl, h1, h2⟩

/-- A span is closed. -/
theorem St.close {p0 p : Parser} {R is : List Inline} {m : Mark} {cp mid : Bool} (h : St p0 (opened m is :: R) true cp false mid p)
    (hb : Base p0) (w : World) (k : Nat) (t : Token) (ht : IsMark m.type m.str t) :
    ∃ p', tokenInto w (k + 1) t p = .ok p' ∧ St p0 (closed m is :: R) false cp false true { p' with lastTy := t.ty } := by
  have e := h.eq
  rw [step_mark h hb w k m t ht.ty]
  have htop : opened m is :: R = bareL p.inlines := by simpa using h.top
  obtain ⟨is', l', R', hi, h1, h2⟩ := bareL_span htop
  unfold parseSpan
  rw [hi]
  simp only [Inline.sameKind, decide_true, Bool.and_self, if_true, Inline.reconcileLocations, Inline.close, bind, Except.bind]
  have hlo := h.locs
  rw [hi] at hlo
  refine ⟨_, rfl, ⟨?_, h.line, ?_, trivial, h.dang, h.newline, ?_, located hlo (reconcile_ne _ _ (located_head hlo)), by simp⟩⟩
  · rw [e]
  · simp [bareL, bare, closed, h1, h2]
  · intro _; rw [ht.ty]; exact quiet_mark m

theorem addLast_append (is js : List Inline) (x : Inline) (hj : js ≠ []) :
    Inline.addLast (is ++ js) x = is ++ Inline.addLast js x := by
  induction is with
  | nil => rfl
  | cons i is ih =>
    have hne : is ++ js ≠ [] := by simp [hj]
    cases hc : is ++ js with
    | nil => exact absurd hc hne
    | cons u us =>
      rw [List.cons_append, List.cons_append, ← ih, hc]
      simp [Inline.addLast]

/-- Something is added after what does not take it. -/
theorem addLast_new (is : List Inline) (x : Inline) (h : ∀ y, is.getLast? = some y → y.isOpen = false ∧ (y.isLiteral = true → x.isLiteral = false)) :
    Inline.addLast is x = is ++ [x] := by
  rcases List.eq_nil_or_concat is with rfl | ⟨js, y, rfl⟩
  · rfl
  · have := h y (by simp)
    rw [List.concat_eq_append, addLast_append _ _ _ (by simp)]
    cases y with
    | span v f is m l o =>
      have : o = false := this.1
      simp [Inline.addLast, this]
    | lit n v l =>
      have := this.2 rfl
      cases x <;> simp_all [Inline.addLast, Inline.isLiteral]
    | ref => simp [Inline.addLast]
    | brk => simp [Inline.addLast]

theorem closeOrAdd_append (x y : Inline) (is : List Inline) :
    closeOrAdd x (is ++ [y]) = if x.sameKind y then some (do
        let y' ← (y.reconcileLocations x.locations).close
        return is ++ [y']) else none := by
  induction is with
  | nil => rfl
  | cons i is ih =>
    cases hc : is ++ [y] with
    | nil => simp at hc
    | cons u us =>
      rw [List.cons_append, hc]
      unfold closeOrAdd
      rw [← hc, ih]
      by_cases hs : x.sameKind y = true
      · simp only [hs, if_true, Option.map_some]
        cases (y.reconcileLocations x.locations).close <;> rfl
      · simp [hs]

/-- A span is opened in a span. -/
theorem St.openIn {p0 p : Parser} {R is : List Inline} {K : SpanVariant × SpanForm} {m' : Mark} {cp mid : Bool}
    (h : St p0 (openedAs K is :: R) true cp false mid p) (hb : Base p0) (w : World) (k : Nat) (t : Token) (ht : IsMark m'.type m'.str t)
    (hm : K ≠ m'.kind) (hl : ∀ y, is.getLast? = some y → y.isOpen = false ∧ y.sameKind (opened m' []) = false) :
    ∃ p', tokenInto w (k + 1) t p = .ok p' ∧ St p0 (openedAs K (is ++ [opened m' []]) :: R) true cp false true { p' with lastTy := t.ty } := by
  have e := h.eq
  rw [step_mark h hb w k m' t ht.ty]
  have htop : openedAs K is :: R = bareL p.inlines := by simpa using h.top
  obtain ⟨is', l', R', hi, h1, h2⟩ := bareL_span htop
  have hc : closeOrAdd (.span m'.kind.1 m'.kind.2 [] none t.locations true) is' = none := by
    rcases List.eq_nil_or_concat is' with rfl | ⟨js, y, rfl⟩
    · rfl
    · rw [List.concat_eq_append, closeOrAdd_append, if_neg]
      have := (hl (bare y) (by rw [h1]; simp [bareL_append, bareL])).2
      cases y with
      | span v f a b c d =>
        simp only [bare, openedAs, Inline.sameKind] at this ⊢
        simp only [Bool.and_eq_false_iff, decide_eq_false_iff_not, Bool.and_eq_true, decide_eq_true_eq] at this ⊢
        rintro ⟨rfl, rfl⟩
        simp at this
      | _ => simp [Inline.sameKind]
  unfold parseSpan
  rw [hi]
  dsimp only
  rw [if_neg (by rw [kind_ne' hm]; decide)]
  simp only [hc]
  have hlo := h.locs
  rw [hi] at hlo
  refine ⟨_, rfl, ⟨?_, h.line, ?_, trivial, h.dang, h.newline, ?_, located hlo (reconcile_ne _ _ (located_head hlo)), by simp⟩⟩
  · rw [e]
  · simp only [Inline.addInline, bareL, bare, Bool.false_eq_true, if_false, bareL_addLast, ← h1, ← h2]
    rw [addLast_new _ _ (fun y hy => ⟨(hl y hy).1, fun _ => rfl⟩)]
    rfl
  · intro _; rw [ht.ty]; exact quiet_mark m'

/-- A span in a span is closed. -/
theorem St.closeIn {p0 p : Parser} {R is js : List Inline} {K : SpanVariant × SpanForm} {m' : Mark} {cp mid : Bool}
    (h : St p0 (openedAs K (is ++ [opened m' js]) :: R) true cp false mid p) (hb : Base p0) (w : World) (k : Nat) (t : Token)
    (ht : IsMark m'.type m'.str t) (hm : K ≠ m'.kind) :
    ∃ p', tokenInto w (k + 1) t p = .ok p' ∧ St p0 (openedAs K (is ++ [closed m' js]) :: R) true cp false true { p' with lastTy := t.ty } := by
  have e := h.eq
  rw [step_mark h hb w k m' t ht.ty]
  have htop : openedAs K (is ++ [opened m' js]) :: R = bareL p.inlines := by simpa using h.top
  obtain ⟨is', l', R', hi, h1, h2⟩ := bareL_span htop
  obtain ⟨ks, y, rfl, h3, h4⟩ : ∃ ks y, is' = ks ++ [y] ∧ is = bareL ks ∧ opened m' js = bare y := by
    rcases List.eq_nil_or_concat is' with rfl | ⟨ks, y, rfl⟩
    · simp [bareL] at h1
    · rw [List.concat_eq_append] at h1 ⊢
      simp [bareL_append, bareL] at h1
      exact ⟨ks, y, rfl, h1.1, h1.2⟩
  obtain ⟨js', l2, rfl, h5⟩ : ∃ js' l2, y = .span m'.kind.1 m'.kind.2 js' none l2 true ∧ js = bareL js' := by
    cases y <;> simp [bare, openedAs] at h4
    obtain ⟨rfl, rfl, h5, rfl, rfl⟩ := h4
    exact ⟨_, _, rfl, h5⟩
  unfold parseSpan
  rw [hi]
  dsimp only
  rw [if_neg (by rw [kind_ne' hm]; decide)]
  rw [closeOrAdd_append]
  simp only [Inline.sameKind, decide_true, Bool.and_self, if_true, Inline.reconcileLocations, Inline.close, bind, Except.bind,
    pure, Except.pure]
  have hlo := h.locs
  rw [hi] at hlo
  refine ⟨_, rfl, ⟨?_, h.line, ?_, trivial, h.dang, h.newline, ?_, located hlo (located_head hlo :), by simp⟩⟩
  · rw [e]
  · simp [bareL, bare, bareL_append, closed, openedAs, h5, h2, h3]
  · intro _; rw [ht.ty]; exact quiet_mark m'

theorem endsLine_iff (ls : List Str) : endsLine ls = true ↔ EndsLine ls := by simp [endsLine, EndsLine]

theorem endsLine_false {ls : List Str} (h : ¬EndsLine ls) : endsLine ls = false := by
  cases he : endsLine ls with
  | false => rfl
  | true => exact absurd ((endsLine_iff ls).mp he) h

/-- The last of the parts. -/
def lastPart (done : List Part) (prev : Option Part) : Prop := done.getLast? = prev

theorem part_closed (p : Part) : p.inline.isOpen = false := by cases p <;> rfl

theorem last_inline {done : List Part} {y : Inline} (h : (done.map Part.inline).getLast? = some y) :
    ∃ q, done.getLast? = some q ∧ y = q.inline := by
  rw [List.getLast?_map] at h
  cases hd : done.getLast? with
  | none => simp [hd] at h
  | some q => simp [hd] at h; exact ⟨q, rfl, h.symm⟩

theorem putText_open {cp : Bool} {K : SpanVariant × SpanForm} {is R : List Inline} {x : Str} (hx : x ≠ []) :
    putText true cp (openedAs K is :: R) x = openedAs K (Inline.addLast is (literal x)) :: R := by
  simp [putText, putTextTop, openedAs, hx]

/-- The inside of a span. -/
theorem St.parts {p0 p : Parser} {R : List Inline} {K : SpanVariant × SpanForm} {a : Around} {cp : Bool} (ps done : List Part)
    (hK : ∀ m', a ≠ .span m' → K ≠ m'.kind)
    (h : St p0 (openedAs K (done.map Part.inline) :: R) true cp false true p) (hb : Base p0) (w : World) (k : Nat)
    (ts : List Token) (ht : Matches (ps.flatMap Part.signs) ts) (ho : PartsOk a done.getLast? ps)
    (hk : p0.preserveNl = true → Spec.newline ∉ ps.flatMap Part.signs) :
    ∃ p', Feeds w k ts p p' ∧ St p0 (openedAs K ((done ++ ps).map Part.inline) :: R) true cp false true p' := by
  induction ps generalizing p done ts with
  | nil => cases ht; exact ⟨p, Feeds.nil .., by simpa using h⟩
  | cons q ps ih =>
    rw [List.flatMap_cons] at ht
    have hks : p0.preserveNl = true → Spec.newline ∉ q.signs ∧ Spec.newline ∉ ps.flatMap Part.signs := by
      intro h; simpa using hk h
    obtain ⟨us, vs, rfl, hu, hv⟩ := ht.split
    cases q with
    | text ls =>
      obtain ⟨h1, h2, h3, h4⟩ := ho
      obtain ⟨p1, h5, h6⟩ := h.lines ls hb w k us hu h1 (fun _ => ⟨rfl, rfl⟩) (fun h => (hks h).1)
      rw [putText_open h1.1, endsLine_false h2, addLast_new] at h6
      · obtain ⟨p2, h7, h8⟩ := ih (done ++ [.text ls]) (by simpa [Part.inline] using h6) vs hv (by simpa using h4) (fun h => (hks h).2)
        exact ⟨p2, h5.append h7, by simpa using h8⟩
      · intro y hy
        obtain ⟨q, hq, rfl⟩ := last_inline hy
        refine ⟨part_closed q, fun hl => ?_⟩
        cases q with
        | text ls' => exact absurd hq (h3 ls')
        | span m' ls' => simp [Part.inline, Inline.isLiteral] at hl
    | span m' ls =>
      obtain ⟨h1, h2, h3, h4, h5⟩ := ho
      have hm : K ≠ m'.kind := hK m' h3
      cases hu with
      | mark _ _ _ t us htk hu =>
        obtain ⟨p1, g1, g2⟩ := h.openIn hb w k t htk hm (by
          intro y hy
          obtain ⟨q, hq, rfl⟩ := last_inline hy
          refine ⟨part_closed q, ?_⟩
          cases q with
          | text ls' => rfl
          | span m2 ls' =>
            have := (h4 m2 ls' hq).2
            exact kind_ne (fun hc => this hc.symm) ..)
        obtain ⟨us1, us2, rfl, hu1, hu2⟩ := hu.split
        obtain ⟨p2, g3, g4⟩ := g2.lines ls hb w k us1 hu1 h1 (fun _ => ⟨rfl, rfl⟩) (fun h hc => (hks h).1 (by simp [Part.signs, hc]))
        rw [putText_open h1.1, endsLine_false h2, addLast_append _ _ _ (by simp)] at g4
        cases hu2 with
        | mark _ _ _ t2 us2 htk2 hu2 =>
          cases hu2
          have g4 : St p0 (openedAs K (done.map Part.inline ++ [opened m' [literal (joinB 10 ls)]]) :: R) true cp false true p2 := by
            simpa [openedAs, Inline.addLast, literal, reconcile_nil, Inline.locations] using g4
          obtain ⟨p3, g5, g6⟩ := g4.closeIn hb w k t2 htk2 hm
          obtain ⟨p4, g7, g8⟩ := ih (done ++ [.span m' ls]) (by simpa [Part.inline, closed] using g6) vs hv (by simpa using h5) (fun h => (hks h).2)
          refine ⟨p4, ?_, by simpa using g8⟩
          have := (Feeds.cons g1 (g3.append (Feeds.one g5))).append g7
          simpa using this

/-! ## Links -/

theorem popChar_bracket (url : Str) : Inline.popChar (url ++ b!"[") = url := by
  unfold Inline.popChar
  have : (url ++ b!"[").reverse = c!"[" :: url.reverse := by simp
  rw [this]
  have h : Inline.lastCharLen (c!"[" :: url.reverse) = 1 := by unfold Inline.lastCharLen; rw [if_neg (by decide)]
  rw [h]
  simp

/-- A link begins. -/
theorem St.link {p0 p : Parser} {V : List Inline} {cp mid : Bool} (h : St p0 V false cp false mid p) (hb : Base p0)
    (w : World) (k : Nat) (url : Str) (t : Token) (ht : IsMark .linkMacro (url ++ b!"[") t) :
    ∃ p', tokenInto w (k + 1) t p = .ok p' ∧ St p0 (.ref .link url [] none [] :: V) false cp false true { p' with lastTy := t.ty } := by
  have e := h.eq
  have hstep : tokenInto w (k + 1) t p = .ok { p with inlines := Inline.linkFromMacroToken t :: p.inlines } := by
    rw [tokenInto_plain w k t p (by rw [e]; exact hb.header) (by rw [e]; exact hb.openText)]
    unfold dispatchToken
    rw [ht.ty]
  rw [hstep]
  refine ⟨_, rfl, ⟨?_, h.line, ?_, .inr (.inl rfl), h.dang, h.newline, ?_, located_new h.locs (tokLoc_ne t), by simp⟩⟩
  · rw [e]
  · have htop : V = bareL p.inlines := by simpa using h.top
    have : t.text = url ++ b!"[" := ht.text
    simp [bareL, bare, Inline.linkFromMacroToken, this, popChar_bracket, htop]
  · exact fun _ => quiet_of ht.ty (by decide)

/-- The stack inside a link: `A` is above the link, which already has `is0`. -/
structure InLink (cp : Bool) (A is0 : List Inline) (done : List Part) : Prop where
  same : is0 ++ A.reverse = done.map Part.inline
  none : cp = true → is0 = []

theorem InLink.closed {cp : Bool} {A is0 : List Inline} {done : List Part} (h : InLink cp A is0 done) :
    ∀ x ∈ A, x.isOpen = false ∧ x.isMacro = false := by
  intro x hx
  have : x ∈ done.map Part.inline := by rw [← h.same]; simp [hx]
  obtain ⟨q, _, rfl⟩ := List.mem_map.mp this
  exact ⟨part_closed q, by cases q with
    | text => rfl
    | span m ls => cases m <;> rfl⟩

theorem InLink.top {cp : Bool} {a : Inline} {A is0 : List Inline} {done : List Part} (h : InLink cp (a :: A) is0 done) :
    ∃ q, done.getLast? = some q ∧ a = q.inline := by
  apply last_inline
  rw [← h.same]; simp

/-- The text of a link. -/
theorem St.linkParts {p0 p : Parser} {A is0 R : List Inline} {url : Str} {cp : Bool} (ps done : List Part)
    (h : St p0 (A ++ .ref .link url is0 none [] :: R) false cp false true p) (hb : Base p0) (w : World) (k : Nat)
    (hA : InLink cp A is0 done) (hR : ps.any Part.isSpan = true → ∀ x ∈ R, x.isOpen = false)
    (ts : List Token) (ht : Matches (ps.flatMap Part.signs) ts) (ho : PartsOk .link done.getLast? ps)
    (hk : p0.preserveNl = true → Spec.newline ∉ ps.flatMap Part.signs) :
    ∃ p' A' is', Feeds w k ts p p' ∧ St p0 (A' ++ .ref .link url is' none [] :: R) false cp false true p'
      ∧ InLink cp A' is' (done ++ ps) := by
  induction ps generalizing p A is0 done ts with
  | nil => cases ht; exact ⟨p, A, is0, Feeds.nil .., by simpa using h, by simpa using hA⟩
  | cons q ps ih =>
    rw [List.flatMap_cons] at ht
    have hks : p0.preserveNl = true → Spec.newline ∉ q.signs ∧ Spec.newline ∉ ps.flatMap Part.signs := by
      intro h; simpa using hk h
    obtain ⟨us, vs, rfl, hu, hv⟩ := ht.split
    cases q with
    | text ls =>
      obtain ⟨h1, h2, h3, h4⟩ := ho
      obtain ⟨p1, h5, h6⟩ := h.lines ls hb w k us hu h1 (fun _ => ⟨rfl, rfl⟩) (fun h => (hks h).1)
      rw [endsLine_false h2] at h6
      obtain ⟨A', is', hp, hA'⟩ : ∃ A' is', putText false cp (A ++ .ref .link url is0 none [] :: R) (joinB 10 ls)
          = A' ++ .ref .link url is' none [] :: R ∧ InLink cp A' is' (done ++ [.text ls]) := by
        unfold putText
        rw [if_neg h1.1]
        cases A with
        | nil =>
          by_cases hc : cp = true
          · refine ⟨[literal (joinB 10 ls)], is0, by simp [putTextTop, hc], ⟨?_, hA.none⟩⟩
            have := hA.same
            simp at this
            simp [this, Part.inline]
          · have hi : is0 = [] := by
              have hs := hA.same
              simp only [List.reverse_nil, List.append_nil] at hs
              rcases List.eq_nil_or_concat done with rfl | ⟨d, x, rfl⟩
              · simpa using hs
              · exfalso
                have htk := h.taken
                simp only [List.nil_append] at htk
                rcases htk with hcc | hcc | ⟨v, l, hcc⟩
                · exact hc hcc
                · rw [hcc] at hs; simp at hs
                · rw [hcc] at hs
                  rw [List.concat_eq_append, List.map_append] at hs
                  have : d = [] := by
                    cases d with
                    | nil => rfl
                    | cons a d => simp at hs
                  subst this
                  cases x with
                  | text ls' => exact h3 ls' (by simp)
                  | span m' ls' => simp [Part.inline] at hs
            subst hi
            refine ⟨[], [literal (joinB 10 ls)], by simp [putTextTop, hc, putRef], ⟨?_, fun hcc => absurd hcc hc⟩⟩
            have := hA.same
            simp at this
            simp [this, Part.inline]
        | cons a A =>
          obtain ⟨q, hq, rfl⟩ := hA.top
          cases q with
          | text ls' => exact absurd hq (h3 ls')
          | span m' ls' =>
            refine ⟨literal (joinB 10 ls) :: (Part.span m' ls').inline :: A, is0, by simp [putTextTop, Part.inline], ⟨?_, hA.none⟩⟩
            have := hA.same
            rw [List.map_append, ← this]
            simp [Part.inline]
      rw [hp] at h6
      obtain ⟨p2, A2, is2, h7, h8, h9⟩ := ih (done ++ [.text ls]) h6 hA' (fun h => hR (by simp [h])) vs hv (by simpa using h4) (fun h => (hks h).2)
      exact ⟨p2, A2, is2, h5.append h7, h8, by simpa using h9⟩
    | span m' ls =>
      obtain ⟨h1, h2, _, h4, h5⟩ := ho
      have hsp : ∀ m ls', done.getLast? ≠ some (.span m ls') := fun m ls' hc => absurd rfl (h4 m ls' hc).1
      cases hu with
      | mark _ _ _ t us htk hu =>
        obtain ⟨p1, g1, g2⟩ := h.open hb w k m' t htk (by
            intro x hx
            simp only [List.mem_append, List.mem_cons] at hx
            rcases hx with hx | rfl | hx
            · exact (hA.closed x hx).1
            · rfl
            · exact hR (by simp [Part.isSpan]) x hx) (by
            intro _ v f is m l o R' hc
            cases A with
            | nil => simp at hc
            | cons a A =>
              obtain ⟨q, hq, rfl⟩ := hA.top
              cases q with
              | text ls' => simp [Part.inline, literal] at hc
              | span m2 ls' => exact hsp _ _ hq) (by simp)
        obtain ⟨us1, us2, rfl, hu1, hu2⟩ := hu.split
        obtain ⟨p2, g3, g4⟩ := g2.lines ls hb w k us1 hu1 h1 (fun _ => ⟨rfl, rfl⟩) (fun h hc => (hks h).1 (by simp [Part.signs, hc]))
        rw [putText_open h1.1, endsLine_false h2] at g4
        cases hu2 with
        | mark _ _ _ t2 us2 htk2 hu2 =>
          cases hu2
          obtain ⟨p3, g5, g6⟩ := St.close g4 hb w k t2 htk2
          obtain ⟨p4, A2, is2, g7, g8, g9⟩ := ih (A := (Part.span m' ls).inline :: A) (done ++ [.span m' ls]) g6 ⟨by
            rw [List.map_append, ← hA.same]; simp [Part.inline], hA.none⟩ (fun h => hR (by simp [h])) vs hv (by simpa using h5) (fun h => (hks h).2)
          refine ⟨p4, A2, is2, ?_, g8, by simpa using g9⟩
          have := (Feeds.cons g1 (g3.append (Feeds.one g5))).append g7
          simpa using this

theorem absorb_ref (v : RefVariant) (u : Str) (m : Option Meta) (l : List Location) (xs : List Inline) (is : List Inline) :
    absorb (.ref v u is m l) xs = .ok (.ref v u (is ++ xs) m l) := by
  induction xs generalizing is with
  | nil => simp [absorb]
  | cons x xs ih =>
    unfold absorb
    simp only [Inline.pushInline, bind, Except.bind]
    rw [ih]; simp

theorem splitFirst_bare (A : List Inline) (url : Str) (is0 R J : List Inline) (hA : ∀ x ∈ A, x.isMacro = false)
    (h : A ++ .ref .link url is0 none [] :: R = bareL J) :
    ∃ A' is' l R', splitFirst Inline.isMacro J = some (A', .ref .link url is' none l, R') ∧ A = bareL A' ∧ is0 = bareL is' ∧ R = bareL R' := by
  induction A generalizing J with
  | nil =>
    match J, h with
    | .ref v u is' m l :: R', h =>
      simp [bareL, bare] at h
      obtain ⟨⟨rfl, rfl, h1, rfl⟩, h2⟩ := h
      exact ⟨[], is', l, R', by simp [splitFirst, Inline.isMacro], rfl, h1, h2⟩
  | cons a A ih =>
    cases J with
    | nil => simp [bareL] at h
    | cons j J =>
      simp only [bareL, List.cons_append, List.cons.injEq] at h
      obtain ⟨A', is', l, R', h1, h2, h3, h4⟩ := ih J (fun x hx => hA x (by simp [hx])) h.2
      refine ⟨j :: A', is', l, R', ?_, by simp [bareL, h.1, h2], h3, h4⟩
      have : j.isMacro = false := by rw [← bare_isMacro, ← h.1]; exact hA a (by simp)
      simp [splitFirst, this, h1]

theorem splitFirst_parts {f : Inline → Bool} {l a b : List Inline} {x : Inline} (h : splitFirst f l = some (a, x, b)) :
    l = a ++ x :: b := by
  induction l generalizing a with
  | nil => cases h
  | cons y ys ih =>
    unfold splitFirst at h
    split at h
    · cases h; rfl
    · cases hs : splitFirst f ys with
      | none => rw [hs] at h; cases h
      | some r =>
        obtain ⟨a', x', b'⟩ := r
        rw [hs] at h
        cases h
        rw [ih hs]; rfl

/-- A link ends. -/
theorem St.linkEnd {p0 p : Parser} {A is0 R : List Inline} {url : Str} {cp mid : Bool} {done : List Part}
    (h : St p0 (A ++ .ref .link url is0 none [] :: R) false cp false mid p) (hb : Base p0) (w : World) (k : Nat)
    (hA : InLink cp A is0 done) (t : Token) (ht : IsMark .inlineMacroClose b!"]" t) :
    ∃ p', tokenInto w (k + 1) t p = .ok p'
      ∧ St p0 (.ref .link url (done.map Part.inline) none [] :: R) false true false true { p' with lastTy := t.ty } := by
  have e := h.eq
  have hstep : tokenInto w (k + 1) t p = p.parseMacroClose t := by
    rw [tokenInto_plain w k t p (by rw [e]; exact hb.header) (by rw [e]; exact hb.openText)]
    unfold dispatchToken
    rw [ht.ty]
  rw [hstep]
  have hot : p.openText = none := by rw [e]; exact hb.openText
  have htop : A ++ .ref .link url is0 none [] :: R = bareL p.inlines := by simpa using h.top
  obtain ⟨A', is', l, R', h1, h2, h3, h4⟩ := splitFirst_bare A url is0 R _ (fun x hx => (hA.closed x hx).2) htop
  unfold parseMacroClose
  rw [if_neg (by rw [hot]; simp), h1]
  dsimp only
  rw [absorb_ref]
  simp only [bind, Except.bind, Inline.consolidateFromToken]
  have hsub := splitFirst_parts h1
  refine ⟨_, rfl, ⟨?_, h.line, ?_, .inl rfl, h.dang, h.newline, ?_, located_new (fun i hi => h.locs i (by rw [hsub]; simp [hi]))
    (reconcile_ne _ _ (h.locs (.ref .link url is' none l) (by rw [hsub]; simp) :)), by simp⟩⟩
  · rw [e]
  · simp [bareL, bare, bareL_append, bareL_reverse, ← h2, ← h3, ← h4, hA.same]
  · exact fun _ => quiet_of ht.ty (by decide)

/-! ## References and symbols -/

/-- A cross reference. -/
theorem St.xref {p0 p : Parser} {V : List Inline} {cp mid : Bool} (h : St p0 V false cp false mid p) (hb : Base p0)
    (w : World) (k : Nat) (id : Str) (hid : ∀ b ∈ id, b.toNat < 128) (t : Token)
    (ht : IsMark .crossReference (b!"<<" ++ id ++ b!">>") t) :
    ∃ p', tokenInto w (k + 1) t p = .ok p' ∧ St p0 (.ref .xref id [] none [] :: V) false true false true { p' with lastTy := t.ty } := by
  have e := h.eq
  have hstep : tokenInto w (k + 1) t p = p.parseXref t := by
    rw [tokenInto_plain w k t p (by rw [e]; exact hb.header) (by rw [e]; exact hb.openText)]
    unfold dispatchToken
    rw [ht.ty]
  rw [hstep]
  have htx : t.text = b!"<<" ++ id ++ b!">>" := ht.text
  have hs : sliceM t.text 2 (t.text.length - 2) = .ok id := by
    rw [htx, List.append_assoc]
    refine sliceM_mid b!"<<" id b!">>" ?_ ?_ 2 _ rfl ?_
    · cases id with
      | nil => exact starts_ascii _ _ (by decide)
      | cons b r => exact starts_ascii b _ ((isCont_false_iff b).mpr (.inl (hid b (by simp))))
    · exact starts_ascii _ _ (by decide)
    · simp; omega
  unfold parseXref Inline.xrefFromToken
  rw [hs]
  refine ⟨_, rfl, ⟨?_, h.line, ?_, .inl rfl, h.dang, h.newline, ?_, located_new h.locs (tokLoc_ne t), by simp⟩⟩
  · rw [e]
  · have htop : V = bareL p.inlines := by simpa using h.top
    simp [bareL, bare, htop]
  · exact fun _ => quiet_of ht.ty (by decide)

/-- A symbol. -/
theorem St.symbol {p0 p : Parser} {V : List Inline} {cp d mid : Bool} (h : St p0 V false cp d mid p) (hb : Base p0)
    (w : World) (k : Nat) (l : Str) (t : Token) (ht : IsMark .charRef l t)
    (hc : ∀ v g is m l R, V = .ref v g is m l :: R → cp = true) :
    ∃ p', tokenInto w (k + 1) t p = .ok p' ∧ St p0 (.lit .charref ((symbols.lookup l).getD l) [] :: V) false cp false true { p' with lastTy := t.ty } := by
  have e := h.eq
  have hstep : tokenInto w (k + 1) t p = p.parseCharref t := by
    rw [tokenInto_plain w k t p (by rw [e]; exact hb.header) (by rw [e]; exact hb.openText)]
    unfold dispatchToken
    rw [ht.ty]
  rw [hstep]
  have hcp : p.closeParent = cp := by rw [e]
  have hsp : p.inSpan = false := by rw [e]
  have hpr : d = true → p.preserveNl = false := by rw [e]; exact h.keep
  have hty : true = true → t.ty ≠ .newLineChar ∧ t.ty ≠ .eof ∧ t.ty.clearsNewlineAfter = false := by
    intro _; rw [ht.ty]; decide
  have htx : t.text = (symbols.lookup l).getD l := ht.text
  have key : ∀ q : Parser, q.inSpan = false → q.closeParent = cp → bareL q.inlines = V →
      q.addCharref (Inline.charrefFromToken t) = .ok { q with inlines := Inline.charrefFromToken t :: q.inlines } := by
    intro q h1 h2 h3
    unfold addCharref
    cases hq : q.inlines with
    | nil => rfl
    | cons i R =>
      cases i with
      | span => simp [h1]
      | lit => rfl
      | brk => rfl
      | ref v g is m l =>
        have := hc v g (bareL is) m [] (bareL R) (by rw [← h3, hq]; rfl)
        simp [h2, this]
  unfold parseCharref
  cases hdg : p.dangling with
  | none =>
    have hd' : d = false := by rw [h.dang, hdg]; rfl
    subst hd'
    have htop : V = bareL p.inlines := by simpa using h.top
    dsimp only
    rw [key p hsp hcp htop.symm]
    refine ⟨_, rfl, ⟨?_, h.line, ?_, trivial, ?_, ?_, hty, located_new h.locs (tokLoc_ne t), by simp⟩⟩
    · rw [e]
    · simp [bareL, bare, ← htop, Inline.charrefFromToken, htx]
    · simp [hdg]
    · exact fun t ht => absurd (hdg.symm.trans ht) (by simp)
  | some nlt =>
    have hd' : d = true := by rw [h.dang, hdg]; rfl
    subst hd'
    have hn := h.newline nlt hdg
    have hnt : nlt.text = nlt.lexeme := by rw [hn.text, hn.lexeme]; rfl
    obtain ⟨J, h1, h2, hj⟩ := addText_putText p nlt hnt (by rw [hcp]; exact h.takes)
    have htop : V = bareL J := by
      have := h.top
      simp only [if_true] at this
      rw [this, h2, hsp, hcp, hn.text]; simp [putText, signText]
    dsimp only
    rw [hpr rfl]
    simp only [Bool.false_eq_true, if_false, h1, bind, Except.bind]
    rw [key { p with inlines := J, dangling := none } hsp hcp htop.symm]
    refine ⟨_, rfl, ⟨?_, h.line, ?_, trivial, rfl, ?_, hty, located_new (hj h.locs) (tokLoc_ne t), by simp⟩⟩
    · rw [e]
    · simp [bareL, bare, ← htop, Inline.charrefFromToken, htx]
    · exact fun t ht => by cases ht

/-! ## Footnotes, images and hard line breaks -/

/-- The kind of span that footnotes are. -/
abbrev noteKind : SpanVariant × SpanForm := (.footnote, .constrained)

theorem noteKind_ne (m : Mark) : noteKind ≠ m.kind := by cases m <;> decide

/-- A footnote begins. -/
theorem St.note {p0 p : Parser} {V : List Inline} {cp mid : Bool} (h : St p0 V false cp false mid p) (hb : Base p0)
    (w : World) (k : Nat) (t : Token) (ht : IsMark .footnoteMacro b!"footnote:[" t) :
    ∃ p', tokenInto w (k + 1) t p = .ok p' ∧ St p0 (openedAs noteKind [] :: V) true cp false true { p' with lastTy := t.ty } := by
  have e := h.eq
  have hstep : tokenInto w (k + 1) t p = p.parseFootnote t := by
    rw [tokenInto_plain w k t p (by rw [e]; exact hb.header) (by rw [e]; exact hb.openText)]
    unfold dispatchToken
    rw [ht.ty]
  have hs : Inline.spanFromToken t = .ok (.span .footnote .constrained [] none t.locations true) := by
    unfold Inline.spanFromToken; rw [ht.ty]; rfl
  rw [hstep]
  unfold parseFootnote
  rw [hs]
  refine ⟨_, rfl, ⟨?_, h.line, ?_, trivial, h.dang, h.newline, ?_, located_new h.locs (tokLoc_ne t), by simp⟩⟩
  · rw [e]
  · have htop : V = bareL p.inlines := by simpa using h.top
    simp [bareL, bare, openedAs, htop]
  · exact fun _ => quiet_of ht.ty (by decide)

/-- A footnote ends. -/
theorem St.noteEnd {p0 p : Parser} {R is : List Inline} {cp mid : Bool} (h : St p0 (openedAs noteKind is :: R) true cp false mid p)
    (hb : Base p0) (w : World) (k : Nat) (t : Token) (ht : IsMark .inlineMacroClose b!"]" t) :
    ∃ p', tokenInto w (k + 1) t p = .ok p'
      ∧ St p0 (openedAs noteKind is :: R) false true false true { p' with lastTy := t.ty } := by
  have e := h.eq
  have hstep : tokenInto w (k + 1) t p = p.parseMacroClose t := by
    rw [tokenInto_plain w k t p (by rw [e]; exact hb.header) (by rw [e]; exact hb.openText)]
    unfold dispatchToken
    rw [ht.ty]
  rw [hstep]
  have hot : p.openText = none := by rw [e]; exact hb.openText
  have htop : openedAs noteKind is :: R = bareL p.inlines := by simpa using h.top
  obtain ⟨is', l', R', hi, h1, h2⟩ := bareL_span htop
  have hlo := h.locs
  rw [hi] at hlo
  unfold parseMacroClose
  rw [if_neg (by rw [hot]; simp), hi]
  simp only [splitFirst, Inline.isMacro, decide_true, if_true, List.reverse_nil, absorb, Inline.consolidateFromToken, bind,
    Except.bind]
  refine ⟨_, rfl, ⟨?_, h.line, ?_, trivial, h.dang, h.newline, ?_, located hlo (reconcile_ne _ _ (located_head hlo)), by simp⟩⟩
  · rw [e]
  · simp [bareL, bare, openedAs, h1, h2]
  · exact fun _ => quiet_of ht.ty (by decide)

/-- An image. -/
theorem St.image {p0 p : Parser} {V : List Inline} {cp mid : Bool} (h : St p0 V false cp false mid p) (hb : Base p0)
    (w : World) (k : Nat) (target : Str) (args : List Arg) (ho : ImageOk target args) (t : Token)
    (ht : IsMark .inlineImageMacro (b!"image:" ++ (target ++ (b!"[" ++ (joinB c!"," (args.map Arg.str) ++ b!"]")))) t) :
    ∃ p', tokenInto w (k + 1) t p = .ok p'
      ∧ St p0 (.ref .image target [] (imageMeta args) [] :: V) false true false true { p' with lastTy := t.ty } := by
  have e := h.eq
  have hstep : tokenInto w (k + 1) t p = p.parseInlineImage t := by
    rw [tokenInto_plain w k t p (by rw [e]; exact hb.header) (by rw [e]; exact hb.openText)]
    unfold dispatchToken
    rw [ht.ty]
  rw [hstep]
  unfold parseInlineImage
  rw [Rich.image_read t b!"image:" target args (by rw [ht.ty]; rfl) ht.text ho]
  refine ⟨_, rfl, ⟨?_, h.line, ?_, .inl rfl, h.dang, h.newline, ?_, located_new h.locs (tokLoc_ne t), by simp⟩⟩
  · rw [e]
  · have htop : V = bareL p.inlines := by simpa using h.top
    simp [bareL, bare, htop, Inline.imageRef]
  · exact fun _ => quiet_of ht.ty (by decide)

/-- A hard line break. -/
theorem St.hard {p0 p : Parser} {V : List Inline} {cp mid : Bool} (h : St p0 V false cp false mid p) (hb : Base p0)
    (w : World) (k : Nat) (t : Token) (ht : IsMark .lineContinuation b!"+" t) :
    ∃ p', tokenInto w (k + 1) t p = .ok p' ∧ St p0 (.brk [] :: V) false cp false true { p' with lastTy := t.ty } := by
  have e := h.eq
  have hstep : tokenInto w (k + 1) t p = .ok { p with inlines := .brk t.locations :: p.inlines } := by
    rw [tokenInto_plain w k t p (by rw [e]; exact hb.header) (by rw [e]; exact hb.openText)]
    unfold dispatchToken
    rw [ht.ty]
  rw [hstep]
  refine ⟨_, rfl, ⟨?_, h.line, ?_, trivial, h.dang, h.newline, ?_, located_new h.locs (tokLoc_ne t), by simp⟩⟩
  · rw [e]
  · have htop : V = bareL p.inlines := by simpa using h.top
    simp [bareL, bare, htop]
  · exact fun _ => quiet_of ht.ty (by decide)

/-! ## Whole texts -/

/-- A newline is pending after the element. -/
def pending : Option Elem → Bool
  | some (.text ls) => endsLine ls
  | _ => false

theorem elem_closed (x : Elem) (h : x.isNote = false) : x.inline.isOpen = false := by cases x <;> first | rfl | cases h

theorem top_inline {done : List Elem} {i : Inline} {R : List Inline} (h : (done.map Elem.inline).reverse = i :: R) :
    ∃ q, done.getLast? = some q ∧ i = q.inline ∧ q ∈ done := by
  rcases List.eq_nil_or_concat done with rfl | ⟨d, x, rfl⟩
  · simp at h
  · rw [List.concat_eq_append] at h ⊢
    simp at h
    exact ⟨x, by simp, h.1.symm, by simp⟩

theorem ref_elem {q : Elem} {v : RefVariant} {g : Str} {is : List Inline} {m : Option Meta} {l : List Location}
    (h : q.inline = .ref v g is m l) : Elem.refers q = true := by
  cases q <;> simp [Elem.inline, literal] at h <;> rfl

theorem join_newline {ls : List Str} (h : joinB 10 ls = [10]) (he : EndsLine ls) : ls = [[], []] := by
  match ls, h, he with
  | [l], h, he => simp [EndsLine] at he; subst he; simp [joinB] at h
  | [a, b], h, he =>
    simp [EndsLine] at he; subst he
    simp [joinB] at h
    rw [h]
  | a :: b :: c :: r, h, he =>
    exfalso
    have := congrArg List.length h
    simp [joinB] at this
    omega

/-- The elements of a text. -/
theorem St.elems {p0 p : Parser} {cp mid : Bool} (es done : List Elem)
    (h : St p0 (done.map Elem.inline).reverse false cp (pending done.getLast?) mid p) (hb : Base p0) (w : World) (k : Nat)
    (hmid : done ≠ [] → pending done.getLast? = false → mid = true) (hcp : done.any Elem.refers = true → cp = true)
    (hnote : done.any Elem.isNote = true → ∀ e ∈ es, e.hasSpan = false)
    (ts : List Token) (ht : Matches (es.flatMap Elem.signs) ts) (ho : ElemsOk done.getLast? es)
    (hk : p0.preserveNl = true → Spec.newline ∉ es.flatMap Elem.signs) :
    ∃ p' mid', Feeds w k ts p p'
      ∧ St p0 ((done ++ es).map Elem.inline).reverse false (cp || es.any Elem.refers) false mid' p' ∧ (done ++ es ≠ [] → mid' = true) := by
  induction es generalizing p cp mid done ts with
  | nil =>
    cases ht
    have hp : pending done.getLast? = false := by
      cases hd : done.getLast? with
      | none => rfl
      | some x =>
        cases x with
        | text ls => exact endsLine_false (ho ls hd)
        | _ => rfl
    refine ⟨p, mid, Feeds.nil .., ?_, ?_⟩
    · rw [hp] at h; simpa using h
    · intro hn; exact hmid (by simpa using hn) hp
  | cons x es ih =>
    rw [List.flatMap_cons] at ht
    have hks : p0.preserveNl = true → Spec.newline ∉ x.signs ∧ Spec.newline ∉ es.flatMap Elem.signs := by
      intro h; simpa using hk h
    obtain ⟨us, vs, rfl, hu, hv⟩ := ht.split
    have next : ∀ {cp' mid' : Bool} {p1 : Parser}, Feeds w k us p p1 →
        St p0 ((done ++ [x]).map Elem.inline).reverse false cp' (pending (some x)) mid' p1 →
        (pending (some x) = false → mid' = true) → cp' = (cp || Elem.refers x) → ElemsOk (some x) es →
        (x.isNote = true → ∀ e ∈ es, e.hasSpan = false) →
        ∃ p' mid', Feeds w k (us ++ vs) p p'
          ∧ St p0 ((done ++ x :: es).map Elem.inline).reverse false (cp || (x :: es).any Elem.refers) false mid' p' ∧ (done ++ x :: es ≠ [] → mid' = true) := by
      intro cp' mid' p1 hf h1 h2 h3 h4 h5
      obtain ⟨p2, m2, g1, g2, g3⟩ := ih (done ++ [x]) (by simpa using h1) (fun _ => by simpa using h2) (by
        intro hh
        simp only [List.any_append, List.any_cons, List.any_nil, Bool.or_false, Bool.or_eq_true] at hh
        rw [h3]
        rcases hh with hh | hh
        · simp [hcp hh]
        · simp [hh]) (by
        intro hh e he
        simp only [List.any_append, List.any_cons, List.any_nil, Bool.or_false, Bool.or_eq_true] at hh
        rcases hh with hh | hh
        · exact hnote hh e (by simp [he])
        · exact h5 hh e he) vs hv (by simpa using h4) (fun h => (hks h).2)
      refine ⟨p2, m2, hf.append g1, ?_, fun _ => g3 (by simp)⟩
      rw [h3] at g2
      simpa [Bool.or_assoc] using g2
    have hno : x.hasSpan = true → ∀ q ∈ done, q.isNote = false := by
      intro hx q hq
      cases hn : q.isNote with
      | false => rfl
      | true => rw [hnote (List.any_eq_true.mpr ⟨q, hq, hn⟩) x (by simp)] at hx; cases hx
    have hopen : x.hasSpan = true → ∀ y ∈ (done.map Elem.inline).reverse, y.isOpen = false := by
      intro hx y hy
      simp only [List.mem_reverse, List.mem_map] at hy
      obtain ⟨q, hq, rfl⟩ := hy
      exact elem_closed q (hno hx q hq)
    have hrev : ((done ++ [x]).map Elem.inline).reverse = x.inline :: (done.map Elem.inline).reverse := by simp
    cases x with
    | text ls =>
      obtain ⟨h1, h2, h3, h4⟩ := ho
      have hpd : pending done.getLast? = false := by
        cases hd : done.getLast? with
        | none => rfl
        | some y =>
          cases y with
          | text ls' => exact absurd hd (h3 ls')
          | _ => rfl
      obtain ⟨p1, h5, h6⟩ := h.lines ls hb w k us hu h1 (by
        intro hh
        refine ⟨hmid ?_ hpd, hpd⟩
        rintro rfl
        exact h2 rfl hh) (fun h => (hks h).1)
      refine next h5 ?_ (mid' := !endsLine ls) (cp' := cp) (by simp [pending]) (by simp [Elem.refers]) h4 (by simp [Elem.isNote])
      have : putText false cp (done.map Elem.inline).reverse (joinB 10 ls) = ((done ++ [Elem.text ls]).map Elem.inline).reverse := by
        rw [hrev]
        unfold putText
        rw [if_neg h1.1]
        cases hV : (done.map Elem.inline).reverse with
        | nil => rfl
        | cons i R =>
          obtain ⟨q, hq, rfl, hm⟩ := top_inline hV
          cases q with
          | text ls' => exact absurd hq (h3 ls')
          | span m ps => simp [putTextTop, Elem.inline]
          | link u ps =>
            have := hcp (List.any_eq_true.mpr ⟨_, hm, rfl⟩)
            simp [putTextTop, Elem.inline, this]
          | xref id =>
            have := hcp (List.any_eq_true.mpr ⟨_, hm, rfl⟩)
            simp [putTextTop, Elem.inline, this]
          | symbol l => simp [putTextTop, Elem.inline]
          | note ps => simp [putTextTop, Elem.inline]
          | image u as =>
            have := hcp (List.any_eq_true.mpr ⟨_, hm, rfl⟩)
            simp [putTextTop, Elem.inline, this]
          | hard => simp [putTextTop, Elem.inline]
      rw [this] at h6
      exact h6
    | span m ps =>
      obtain ⟨_, h2, h3, h4, h5⟩ := ho
      cases hu with
      | mark _ _ _ t us htk hu =>
        obtain ⟨p1, g1, g2⟩ := h.open hb w k m t htk (hopen rfl) (by
          intro _ v f is m' l o R hc
          obtain ⟨q, hq, hi, hqm⟩ := top_inline hc
          cases q with
          | span m2 ps2 => exact h3 _ _ hq
          | note ps2 => exact absurd (hno rfl _ hqm) (by simp [Elem.isNote])
          | _ => simp [Elem.inline, literal] at hi) (by
          intro hp
          cases hd : done.getLast? with
          | none => simp [hd, pending] at hp
          | some q =>
            cases q with
            | text ls' =>
              obtain ⟨d, rfl⟩ : ∃ d, done = d ++ [.text ls'] := by
                rcases List.eq_nil_or_concat done with rfl | ⟨d, x, rfl⟩
                · simp at hd
                · simp at hd; exact ⟨d, by simp [hd]⟩
              refine ⟨joinB 10 ls', (d.map Elem.inline).reverse, by simp [Elem.inline], ?_⟩
              intro hj
              have he : EndsLine ls' := (endsLine_iff _).mp (by simpa [hd, pending] using hp)
              exact h4 (by rw [hd, join_newline hj he])
            | _ => simp [hd, pending] at hp)
        obtain ⟨us1, us2, rfl, hu1, hu2⟩ := hu.split
        obtain ⟨p2, g3, g4⟩ := St.parts (p := { p1 with lastTy := t.ty }) (a := .span m) ps []
          (fun m' hm he => hm (congrArg Around.span (kind_inj (congrArg Prod.fst he) (congrArg Prod.snd he)))) (by simpa using g2) hb w k us1 hu1 (by simpa using h2) (fun h hc => (hks h).1 (by simp only [Elem.signs, List.mem_cons, List.mem_append]; exact .inr (.inl hc)))
        cases hu2 with
        | mark _ _ _ t2 us2 htk2 hu2 =>
          cases hu2
          obtain ⟨p3, g5, g6⟩ := St.close g4 hb w k t2 htk2
          refine next (Feeds.cons g1 (g3.append (Feeds.one g5))) ?_ (mid' := true) (cp' := cp) (by simp) (by simp [Elem.refers]) h5 (by simp [Elem.isNote])
          rw [hrev]
          simpa [Elem.inline, closed, pending] using g6
    | link url ps =>
      obtain ⟨h2, h3, h5⟩ := ho
      have hpd : pending done.getLast? = false := by
        cases hd : done.getLast? with
        | none => rfl
        | some y =>
          cases y with
          | text ls' => exact endsLine_false (h3 ls' hd)
          | _ => rfl
      rw [hpd] at h
      cases hu with
      | mark _ _ _ t us htk hu =>
        obtain ⟨p1, g1, g2⟩ := St.link h hb w k url t htk
        obtain ⟨us1, us2, rfl, hu1, hu2⟩ := hu.split
        obtain ⟨p2, A, is, g3, g4, g4'⟩ := St.linkParts (p := { p1 with lastTy := t.ty }) (A := []) (is0 := []) ps [] (by simpa using g2) hb w k
          ⟨rfl, fun _ => rfl⟩ (fun h => hopen h) us1 hu1 (by simpa using h2) (fun h hc => (hks h).1 (by simp only [Elem.signs, List.mem_cons, List.mem_append]; exact .inr (.inl hc)))
        cases hu2 with
        | mark _ _ _ t2 us2 htk2 hu2 =>
          cases hu2
          obtain ⟨p3, g5, g6⟩ := St.linkEnd g4 hb w k g4' t2 htk2
          refine next (Feeds.cons g1 (g3.append (Feeds.one g5))) ?_ (mid' := true) (by simp) (cp' := true) (by simp [Elem.refers]) h5 (by simp [Elem.isNote])
          rw [hrev]
          simpa [Elem.inline, pending] using g6
    | xref id =>
      obtain ⟨h2, h3, h5⟩ := ho
      have hpd : pending done.getLast? = false := by
        cases hd : done.getLast? with
        | none => rfl
        | some y =>
          cases y with
          | text ls' => exact endsLine_false (h3 ls' hd)
          | _ => rfl
      rw [hpd] at h
      cases hu with
      | mark _ _ _ t us htk hu =>
        cases hu
        obtain ⟨p1, g1, g2⟩ := St.xref h hb w k id h2 t htk
        refine next (Feeds.one g1) ?_ (mid' := true) (by simp) (cp' := true) (by simp [Elem.refers]) h5 (by simp [Elem.isNote])
        rw [hrev]
        simpa [Elem.inline, pending] using g2
    | symbol l =>
      cases hu with
      | mark _ _ _ t us htk hu =>
        cases hu
        obtain ⟨p1, g1, g2⟩ := St.symbol h hb w k l t htk (by
          intro v g is m l R hc
          obtain ⟨q, hq, hi, hm⟩ := top_inline hc
          exact hcp (List.any_eq_true.mpr ⟨q, hm, ref_elem hi.symm⟩))
        refine next (Feeds.one g1) ?_ (mid' := true) (by simp) (cp' := cp) (by simp [Elem.refers]) ho (by simp [Elem.isNote])
        rw [hrev]
        simpa [Elem.inline, pending] using g2
    | note ps =>
      obtain ⟨h2, h3, h4, h5⟩ := ho
      have hpd : pending done.getLast? = false := by
        cases hd : done.getLast? with
        | none => rfl
        | some y =>
          cases y with
          | text ls' => exact endsLine_false (h3 ls' hd)
          | _ => rfl
      rw [hpd] at h
      cases hu with
      | mark _ _ _ t us htk hu =>
        obtain ⟨p1, g1, g2⟩ := St.note h hb w k t htk
        obtain ⟨us1, us2, rfl, hu1, hu2⟩ := hu.split
        obtain ⟨p2, g3, g4⟩ := St.parts (p := { p1 with lastTy := t.ty }) (a := .note) ps []
          (fun m' _ => noteKind_ne m') (by simpa using g2) hb w k us1 hu1 (by simpa using h2) (fun h hc => (hks h).1 (by simp only [Elem.signs, List.mem_cons, List.mem_append]; exact .inr (.inl hc)))
        cases hu2 with
        | mark _ _ _ t2 us2 htk2 hu2 =>
          cases hu2
          obtain ⟨p3, g5, g6⟩ := St.noteEnd g4 hb w k t2 htk2
          refine next (Feeds.cons g1 (g3.append (Feeds.one g5))) ?_ (mid' := true) (cp' := true) (by simp) (by simp [Elem.refers]) h5
            (fun _ => h4)
          rw [hrev]
          simpa [Elem.inline, openedAs, pending] using g6
    | image target args =>
      obtain ⟨h2, h3, h5⟩ := ho
      have hpd : pending done.getLast? = false := by
        cases hd : done.getLast? with
        | none => rfl
        | some y =>
          cases y with
          | text ls' => exact endsLine_false (h3 ls' hd)
          | _ => rfl
      rw [hpd] at h
      cases hu with
      | mark _ _ _ t us htk hu =>
        cases hu
        obtain ⟨p1, g1, g2⟩ := St.image h hb w k target args h2 t htk
        refine next (Feeds.one g1) ?_ (mid' := true) (by simp) (cp' := true) (by simp [Elem.refers]) h5 (by simp [Elem.isNote])
        rw [hrev]
        simpa [Elem.inline, pending] using g2
    | hard =>
      obtain ⟨h3, h5⟩ := ho
      have hpd : pending done.getLast? = false := by
        cases hd : done.getLast? with
        | none => rfl
        | some y =>
          cases y with
          | text ls' => exact endsLine_false (h3 ls' hd)
          | _ => rfl
      rw [hpd] at h
      cases hu with
      | mark _ _ _ t us htk hu =>
        cases hu
        obtain ⟨p1, g1, g2⟩ := St.hard h hb w k t htk
        refine next (Feeds.one g1) ?_ (mid' := true) (by simp) (cp' := cp) (by simp [Elem.refers]) h5 (by simp [Elem.isNote])
        rw [hrev]
        simpa [Elem.inline, pending] using g2

end Adoc.Parser
