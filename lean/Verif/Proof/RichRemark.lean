import Verif.Proof.RichDlist
import Verif.Proof.Layout
import Verif.Props.Attributes
/-!
# Newlines and comments between blocks
-/
namespace Adoc.Rich
open Spec Block Parser Scanner Props

theorem Between.newlines {p : Parser} {f : Front} {hs : List Title} {E : List (List Title × Block)} {fl : Flow}
    (h : Between p f hs E fl) (w : World) (k : Nat) (ts : List Token) (ht : ∀ t ∈ ts, IsNewline t) :
    ∃ q, Feeds w k ts p q ∧ Between q f hs E fl := by
  induction ts generalizing p with
  | nil => exact ⟨p, Feeds.nil .., h⟩
  | cons t ts ih =>
    obtain ⟨q, h1, h2⟩ := h.newline w k t (ht t (by simp))
    obtain ⟨r, h3, h4⟩ := ih h2 (fun u hu => ht u (by simp [hu]))
    exact ⟨r, Feeds.append (a := [t]) h1 h3, h4⟩

/-- Newlines after a block. -/
theorem Ready.newlines {p : Parser} {f : Front} {hs : List Title} {E : List (List Title × Block)} {fl fe : Flow} {w : World} {k n : Nat}
    (h : Ready w k p f hs E fl fe n) (ts : List Token) (ht : ∀ t ∈ ts, IsNewline t) (hn : 2 ≤ ts.length) :
    ∃ q, Feeds w k ts p q ∧ Between q f hs E fl := by
  match ts, hn with
  | t1 :: t2 :: ts, _ =>
    obtain ⟨q, h1, h2⟩ := h.blank t1 t2 (ht t1 (by simp)) (ht t2 (by simp))
    obtain ⟨r, h3, h4⟩ := h2.newlines w k ts (fun u hu => ht u (by simp [hu]))
    exact ⟨r, Feeds.append (a := [t1, t2]) h1 h3, h4⟩

/-- The end of the document after a block and newlines. -/
theorem Ready.finish {p : Parser} {f : Front} {hs : List Title} {E : List (List Title × Block)} {fl fe : Flow} {w : World} {k n : Nat}
    (h : Ready w k p f hs E fl fe n) (ts : List Token) (ht : ∀ t ∈ ts, IsNewline t) (hn : n ≤ ts.length) :
    ∃ q, Feeds w k ts p q ∧ q.header = none ∧ q.openText = none ∧ Finishes q f hs E (if ts.length < 2 then fe else fl) := by
  match ts, hn with
  | [], hn => exact ⟨p, Feeds.nil .., h.header, h.openText, h.end0 (Nat.le_zero.1 hn)⟩
  | [t], hn => exact h.end1 hn t (ht t (by simp))
  | t1 :: t2 :: ts, _ =>
    obtain ⟨q, h1, h2⟩ := h.newlines (t1 :: t2 :: ts) ht (by simp)
    exact ⟨q, h1, h2.header, h2.openText, by rw [if_neg (by simp)]; exact h2.finish⟩

theorem matches_mem {ss : List Sign} {ts : List Token} (h : Matches ss ts) (t : Token) (ht : t ∈ ts) :
    (∃ l, .mark t.ty l ∈ ss ∧ t.lexeme = l) ∨ t.ty = .text ∧ ∃ l a b, .text l ∈ ss ∧ l = a ++ t.lexeme ++ b := by
  have hp : ∀ l ts, Pieces' l ts → t ∈ ts → t.ty = .text ∧ ∃ a b, l = a ++ t.lexeme ++ b := by
    intro l ts h
    induction h with
    | nil => intro h; cases h
    | cons x rest u ts _ hu _ ih =>
      intro h
      rcases List.mem_cons.1 h with rfl | h
      · exact ⟨hu.ty, [], rest, by simp [hu.lexeme]⟩
      · obtain ⟨h1, a, b, h2⟩ := ih h
        exact ⟨h1, x ++ a, b, by rw [h2]; simp⟩
  induction h with
  | nil => cases ht
  | text l ss ts us _ hl _ ih =>
    rcases List.mem_append.1 ht with h | h
    · obtain ⟨h1, a, b, h2⟩ := hp l ts hl h
      exact .inr ⟨h1, l, a, b, by simp, h2⟩
    · rcases ih h with ⟨l', h1, h2⟩ | ⟨h1, l', a, b, h2, h3⟩
      · exact .inl ⟨l', by simp [h1], h2⟩
      · exact .inr ⟨h1, l', a, b, by simp [h2], h3⟩
  | mark ty l ss u us hu _ ih =>
    rcases List.mem_cons.1 ht with rfl | h
    · exact .inl ⟨l, by simp [hu.ty], hu.lexeme⟩
    · rcases ih h with ⟨l', h1, h2⟩ | ⟨h1, l', a, b, h2, h3⟩
      · exact .inl ⟨l', by simp [h1], h2⟩
      · exact .inr ⟨h1, l', a, b, by simp [h2], h3⟩

/-! ## Comments -/

/-- Near a place between two blocks: there may be a newline that has not been read yet. -/
def Near (p : Parser) (f : Front) (hs : List Title) (E : List (List Title × Block)) (fl : Flow) : Prop :=
  ∃ q d ty, Between q f hs E fl ∧ p = { q with dangling := d, lastTy := ty }

theorem Near.finish {p : Parser} {f : Front} {hs : List Title} {E : List (List Title × Block)} {fl : Flow} (h : Near p f hs E fl) :
    p.header = none ∧ p.openText = none ∧ Finishes p f hs E fl := by
  obtain ⟨q, d, ty, h, rfl⟩ := h
  refine ⟨h.header, h.openText, fun ty => ?_⟩
  obtain ⟨pend, h1, h2, h3⟩ := h.content
  rw [← h.front]
  exact finish_quiet { q with dangling := d, lastTy := ty } (h.toCalm.same rfl) hs E fl pend h.inlines h1 h.built h3 h.ref h.kept

theorem Between.near {p : Parser} {f : Front} {hs : List Title} {E : List (List Title × Block)} {fl : Flow} (h : Between p f hs E fl) :
    Near p f hs E fl := ⟨p, p.dangling, p.lastTy, h, rfl⟩

/-- A comment. -/
theorem feed_remark (w : World) (k : Nat) (r : Remark) (ho : r.Ok) (p : Parser) (f : Front) (hs : List Title)
    (E : List (List Title × Block)) (fl : Flow) (h : Between p f hs E fl) (ts : List Token) (hm : Matches r.own ts) :
    ∃ q ty, Feeds w k ts p { q with lastTy := ty } ∧ Between q f hs E fl ∧ (ty = .comment ∨ ty = .commentBlock) := by
  cases r with
  | line text n =>
    obtain ⟨t, rfl, ht⟩ := matches_one hm
    have h1 := C21_line_partial w k p t ht.ty (.inl h.openText)
    refine ⟨p, .comment, ?_, h, .inl rfl⟩
    have := Feeds.one h1
    rw [ht.ty] at this
    exact this
  | block delim body n =>
    simp only [Remark.own] at hm
    cases hm with
    | mark _ _ _ d us hd hm =>
    obtain ⟨bs, es, rfl, m1, m2⟩ := hm.split
    obtain ⟨e, rfl, he⟩ := matches_one m2
    have h1 := C21_block_partial w k p ⟨h.header, h.openText, h.inlines, h.dangling, h.inCont, h.line⟩ h.data d e hd.ty he.ty bs
      (fun t ht hc => by
        rcases matches_mem m1 t ht with ⟨l, a, -⟩ | ⟨a, -⟩
        · have := ho _ a
          rw [hc] at this
          cases this
        · rw [hc] at a; cases a)
    refine ⟨{ p with forceNew := true }, .commentBlock, ?_, ?_, .inr rfl⟩
    · have e' : d :: (bs ++ [e]) = d :: bs ++ [e] := by simp
      rw [e']
      exact h1
    · obtain ⟨pend, h1, h2, h3⟩ := h.content
      exact ⟨h.toCalm.same rfl, h.inlines, h.dangling, h.line, h.span, h.ref, h.front, h.built, h.last, h.kept, pend, h1, .inr rfl, h3⟩

/-- The newlines after a comment. -/
theorem remark_newlines (w : World) (k : Nat) (p : Parser) (f : Front) (hs : List Title)
    (E : List (List Title × Block)) (fl : Flow) (h : Between p f hs E fl) (ty : TokenType) (hty : ty = .comment ∨ ty = .commentBlock)
    (ts : List Token) (ht : ∀ t ∈ ts, IsNewline t) :
    ∃ q, Feeds w k ts { p with lastTy := ty } q ∧ Near q f hs E fl ∧ (2 ≤ ts.length → Between q f hs E fl) := by
  have first : ∀ t : Token, IsNewline t → Feeds w k [t] { p with lastTy := ty } { p with dangling := some t, lastTy := .newLineChar } := by
    intro t ht
    have g := newLine_first w k { p with lastTy := ty } t ht.ty h.header h.openText h.title
      (by rcases hty with rfl | rfl <;> nofun) (by rcases hty with rfl | rfl <;> nofun) h.inCont (by rcases hty with rfl | rfl <;> rfl)
    have := Feeds.one g
    rw [ht.ty] at this
    have e : ({ p with lastTy := .newLineChar, inBlockLine := false, dangling := some t } : Parser)
        = { p with dangling := some t, lastTy := .newLineChar } := by rw [← h.line]
    rw [← e]
    exact this
  match ts with
  | [] => exact ⟨_, Feeds.nil .., ⟨p, p.dangling, ty, h, rfl⟩, nofun⟩
  | [t] => exact ⟨_, first t (ht t (by simp)), ⟨p, some t, .newLineChar, h, rfl⟩, fun h => by simp at h⟩
  | t :: t2 :: ts =>
    have h1 := first t (ht t (by simp))
    have hb : Between { p with lastTy := .newLineChar } f hs E fl :=
      ⟨h.toCalm.same rfl, h.inlines, h.dangling, h.line, h.span, h.ref, h.front, h.built, .inl rfl, h.kept, h.content⟩
    obtain ⟨q, h2, h3⟩ := hb.newline w k t2 (ht t2 (by simp))
    have h2' : Feeds w k [t2] { p with dangling := some t, lastTy := .newLineChar } q := by
      have ht2 := ht t2 (by simp)
      have g := newLine_second w k { p with lastTy := .newLineChar } t2 ht2.ty h.header h.openText h.title (.inl rfl)
      have g' := newLine_second w k { p with dangling := some t, lastTy := .newLineChar } t2 ht2.ty h.header h.openText h.title (.inl rfl)
      have e : blankLine ({ p with dangling := some t, lastTy := .newLineChar, inBlockLine := false } : Parser)
        = blankLine { p with lastTy := .newLineChar, inBlockLine := false } := rfl
      unfold Feeds at h2 ⊢
      simp only [List.map_cons, List.map_nil, feed, g', e] 
      simp only [List.map_cons, List.map_nil, feed, g] at h2
      exact h2
    obtain ⟨r, h4, h5⟩ := h3.newlines w k ts (fun u hu => ht u (by simp [hu]))
    exact ⟨r, Feeds.append (a := [t]) h1 (Feeds.append (a := [t2]) h2' h4), h5.near, fun _ => h5⟩

/-- Comments between blocks. -/
theorem feed_remarks (w : World) (k : Nat) (last : Bool) (rs : List Remark) (ho : RemarksOk last rs) (p : Parser) (f : Front)
    (hs : List Title) (E : List (List Title × Block)) (fl : Flow) (h : Between p f hs E fl) (ts : List Token)
    (hm : Matches (rs.flatMap Remark.signs) ts) :
    ∃ q, Feeds w k ts p q ∧ Near q f hs E fl ∧ (last = false → Between q f hs E fl) := by
  induction rs generalizing p ts with
  | nil =>
    cases hm
    exact ⟨p, Feeds.nil .., h.near, fun _ => h⟩
  | cons r rs ih =>
    rw [List.flatMap_cons] at hm
    obtain ⟨us, vs, rfl, m1, m2⟩ := hm.split
    unfold Remark.signs at m1
    obtain ⟨us, ns, rfl, m1, m3⟩ := m1.split
    obtain ⟨n1, n2⟩ := matches_newlines m3
    have hok : r.Ok := by cases rs <;> exact ho.1
    obtain ⟨q, ty, h1, h2, hty⟩ := feed_remark w k r hok p f hs E fl h us m1
    obtain ⟨q2, h3, h4, h5⟩ := remark_newlines w k q f hs E fl h2 ty hty ns n2
    cases rs with
    | nil =>
      cases m2
      refine ⟨q2, by simpa using h1.append h3, h4, fun hl => h5 ?_⟩
      rcases ho.2 with h | h
      · rw [hl] at h; cases h
      · omega
    | cons r' rs =>
      obtain ⟨q3, h6, h7⟩ := ih ho.2.2 q2 (h5 (by have := ho.2.1; omega)) vs m2
      exact ⟨q3, (h1.append h3).append h6, h7⟩

/-- Newlines and comments at the beginning of a file. -/
theorem Between.gap {p : Parser} {f : Front} {hs : List Title} {E : List (List Title × Block)} {fl : Flow} (h : Between p f hs E fl)
    (w : World) (k : Nat) (g : Gap) (hg : RemarksOk false g.remarks) (ts : List Token) (hm : Matches g.signs ts) :
    ∃ q, Feeds w k ts p q ∧ Between q f hs E fl := by
  obtain ⟨ns, rs, rfl, m1, m2⟩ := Matches.split hm
  obtain ⟨q, h1, h2⟩ := h.newlines w k ns (matches_newlines m1).2
  obtain ⟨r, h3, -, h4⟩ := feed_remarks w k false g.remarks hg q f hs E fl h2 rs m2
  exact ⟨r, h1.append h3, h4 rfl⟩

/-- What is between two blocks. -/
theorem Ready.gap {p : Parser} {f : Front} {hs : List Title} {E : List (List Title × Block)} {fl fe : Flow} {w : World} {k n : Nat}
    (h : Ready w k p f hs E fl fe n) (g : Gap) (hg : g.Ok 2 false) (ts : List Token) (hm : Matches g.signs ts) :
    ∃ q, Feeds w k ts p q ∧ Between q f hs E fl := by
  obtain ⟨ns, rs, rfl, m1, m2⟩ := Matches.split hm
  obtain ⟨n1, n2⟩ := matches_newlines m1
  obtain ⟨q, h1, h2⟩ := h.newlines ns n2 (by rw [n1]; have := hg.1; simpa using this)
  obtain ⟨r, h3, -, h4⟩ := feed_remarks w k false g.remarks hg.2 q f hs E fl h2 rs m2
  exact ⟨r, h1.append h3, h4 rfl⟩

/-- What is after the last block of a file. -/
theorem Ready.gapEnd {p : Parser} {f : Front} {hs : List Title} {E : List (List Title × Block)} {fl fe : Flow} {w : World} {k n : Nat}
    (h : Ready w k p f hs E fl fe n) (g : Gap) (hg : g.Ok n true) (ts : List Token) (hm : Matches g.signs ts) :
    ∃ q, Feeds w k ts p q ∧ q.header = none ∧ q.openText = none ∧ Finishes q f hs E (if g.newlines < 2 then fe else fl) := by
  obtain ⟨ns, rs, rfl, m1, m2⟩ := Matches.split hm
  obtain ⟨n1, n2⟩ := matches_newlines m1
  obtain ⟨hg1, hg2⟩ := hg
  cases hr : g.remarks with
  | nil =>
    rw [hr] at m2 hg1
    cases m2
    obtain ⟨q, h1, h2, h3, h4⟩ := h.finish ns n2 (by rw [n1]; exact hg1)
    rw [n1] at h4
    exact ⟨q, by simpa using h1, h2, h3, h4⟩
  | cons x xs =>
    rw [hr] at hg1
    have hg1 : 2 ≤ g.newlines := hg1
    obtain ⟨q, h1, h2⟩ := h.newlines ns n2 (by rw [n1]; exact hg1)
    obtain ⟨r, h3, h4, -⟩ := feed_remarks w k true g.remarks hg2 q f hs E fl h2 rs m2
    refine ⟨r, h1.append h3, h4.finish.1, h4.finish.2.1, ?_⟩
    rw [if_neg (by omega)]
    exact h4.finish.2.2

end Adoc.Rich
