import Verif.Proof.OutlineFeed
import Verif.Props.Paragraphs
/-!
# Documents made of chunks: layout and parsing
-/
namespace Adoc.Parser
open Spec Proof Props Scanner
open Block (liftB)

/-- The lines of a document made of chunks. `fresh`: nothing comes before. -/
inductive Layout : Bool → List Ln → List Chunk → Prop where
  | done (fresh : Bool) : Layout fresh [.text []] []
  | last (fresh : Bool) (c : Chunk) (h : c.endsAtOnce = true ∨ fresh = true ∧ c.endsAfterNewline = false) :
      Layout fresh c.lns [c]
  | lastNl (fresh : Bool) (c : Chunk) (h : c.endsAfterNewline = true ∨ fresh = true) :
      Layout fresh (c.lns ++ [.text []]) [c]
  | blank (fresh : Bool) (lns : List Ln) (cs : List Chunk) (hne : lns ≠ []) (h : Layout false lns cs) :
      Layout fresh (.text [] :: lns) cs
  | cons (fresh : Bool) (c : Chunk) (lns : List Ln) (cs : List Chunk) (hne : lns ≠ []) (h : Layout false lns cs) :
      Layout fresh (c.lns ++ .text [] :: lns) (c :: cs)

/-! ## From runs of lines to a layout -/

theorem groups_split (n : Nat) (l : Str) (rest : List Str) (hl : l ≠ []) :
    ∃ g gs, groups n (l :: rest) = (n, l :: g) :: gs ∧ (∀ x ∈ g, x ≠ [])
      ∧ ((rest = g ∧ gs = []) ∨ ∃ ls m, rest = g ++ [] :: ls ∧ gs = groups m ls) := by
  induction rest generalizing n l with
  | nil =>
    cases l with
    | nil => exact absurd rfl hl
    | cons b bs => exact ⟨[], [], rfl, by simp, .inl ⟨rfl, rfl⟩⟩
  | cons l' rest ih =>
    cases l with
    | nil => exact absurd rfl hl
    | cons b bs =>
      have e : groups n ((b :: bs) :: l' :: rest) = attach n [b :: bs] (n + 1) (groups (n + 1) (l' :: rest)) := rfl
      cases l' with
      | nil =>
        refine ⟨[], groups (n + 2) rest, ?_, by simp, .inr ⟨rest, n + 2, rfl, rfl⟩⟩
        rw [e]
        show attach n [b :: bs] (n + 1) (groups (n + 1 + 1) rest) = _
        rw [attach_later]
        intro g hg
        have := groups_ge (n + 1 + 1) rest g hg
        omega
      | cons c cs =>
        obtain ⟨g, gs, h1, h2, h3⟩ := ih (n + 1) (c :: cs) (by simp)
        refine ⟨(c :: cs) :: g, gs, ?_, ?_, ?_⟩
        · rw [e, h1]; simp [attach]
        · intro x hx
          rcases List.mem_cons.1 hx with rfl | hx
          · simp
          · exact h2 x hx
        · rcases h3 with ⟨rfl, rfl⟩ | ⟨ls, m, rfl, rfl⟩
          · exact .inl ⟨rfl, rfl⟩
          · exact .inr ⟨ls, m, rfl, rfl⟩

theorem suffix_tail {α : Type} {s l : List α} {x : α} (h : s <:+ x :: l) (hl : s.length ≤ l.length) : s <:+ l := by
  rcases List.suffix_cons_iff.1 h with rfl | h
  · simp at hl; omega
  · exact h

theorem suffix_after {α : Type} {s a l : List α} (h : s <:+ a ++ l) (hl : s.length ≤ l.length) : s <:+ l := by
  induction a with
  | nil => exact h
  | cons x a ih => exact ih (suffix_tail h (by simp; omega))

theorem layout_of_runs (N : Nat) : ∀ (n : Nat) (ls : List Str) (fresh : Bool) (cs : List Chunk), ls.length ≤ N → ls ≠ [] →
    (groups n ls).map (·.2) = cs.map Chunk.lines →
    (match cs.getLast? with
      | some (.head _ _) => [[]] <:+ ls
      | some (.list _ [_]) => [[], []] <:+ ls ∨ fresh = true ∧ cs.length = 1 ∧ ls.head? ≠ some []
      | _ => True) →
    ∃ lns, lns.map Ln.str = ls ∧ lns ≠ [] ∧ Layout fresh lns cs
      ∧ ∀ l ∈ lns, l = .text [] ∨ ∃ c ∈ cs, l ∈ c.lns := by
  induction N with
  | zero => intro n ls fresh cs h1 h2; cases ls <;> simp_all
  | succ N ih =>
    intro n ls fresh cs hlen hne hruns hend
    cases ls with
    | nil => exact absurd rfl hne
    | cons l rest =>
      simp only [List.length_cons] at hlen
      cases l with
      | nil =>
        rw [show groups n ([] :: rest) = groups (n + 1) rest from rfl] at hruns
        by_cases hr : rest = []
        · subst hr
          have : cs = [] := by simpa [groups] using hruns.symm
          subst this
          exact ⟨[.text []], rfl, by simp, .done _, by simp⟩
        · obtain ⟨lns, a1, a2, a3, a4⟩ := ih (n + 1) rest false cs (by omega) hr hruns (by
            have hpos : 0 < rest.length := List.length_pos_iff.2 hr
            cases hc : cs.getLast? with
            | none => trivial
            | some c =>
              rw [hc] at hend
              match c, hend with
              | .para _, _ => trivial
              | .head _ _, hend => exact suffix_tail hend (by simp; omega)
              | .list _ [], _ => trivial
              | .list _ (_ :: _ :: _), _ => trivial
              | .list v [i], hend =>
                have h0 : [[], []] <:+ [] :: rest := by simpa using hend
                refine .inl (suffix_tail h0 ?_)
                match rest, hr with
                | [x], _ =>
                  rcases List.suffix_cons_iff.1 h0 with h1 | h1
                  · simp at h1
                    subst h1
                    simp [groups] at hruns
                    subst hruns; simp at hc
                  · have := h1.length_le; simp at this
                | _ :: _ :: _, _ => simp)
          exact ⟨.text [] :: lns, by simp [a1, Ln.str], by simp, .blank _ lns cs a2 a3, by
            intro x hx
            rcases List.mem_cons.1 hx with rfl | hx
            · exact .inl rfl
            · exact a4 x hx⟩
      | cons b bs =>
        obtain ⟨g, gs, g1, g2, g3⟩ := groups_split n (b :: bs) rest (by simp)
        rw [g1] at hruns
        cases cs with
        | nil => simp at hruns
        | cons c cs =>
          simp only [List.map_cons, List.cons.injEq] at hruns
          obtain ⟨h1, h2⟩ := hruns
          have hgl : ∀ x ∈ (b :: bs) :: g, x ≠ [] := by
            intro x hx
            rcases List.mem_cons.1 hx with rfl | hx
            · simp
            · exact g2 x hx
          rcases g3 with ⟨rfl, rfl⟩ | ⟨ls', m, rfl, rfl⟩
          · have : cs = [] := by simpa using h2.symm
            subst this
            refine ⟨c.lns, by rw [lns_str, h1], by intro h; have := lns_str c; rw [h, ← h1] at this; simp at this,
              .last _ c ?_, fun x hx => .inr ⟨c, by simp, hx⟩⟩
            simp only [List.getLast?_singleton] at hend
            match c, hend with
            | .para _, _ => simp [Chunk.endsAtOnce]
            | .head _ _, hend =>
              exact absurd rfl (hgl [] (hend.subset (by simp)))
            | .list _ [], _ => simp [Chunk.lines] at h1
            | .list _ (_ :: _ :: _), _ => simp [Chunk.endsAtOnce]
            | .list v [i], hend =>
              rcases hend with hend | hend
              · exact absurd rfl (hgl [] (hend.subset (by simp)))
              · simp [Chunk.endsAtOnce, Chunk.endsAfterNewline, hend.1]
          · have hcl : c.lines = (b :: bs) :: g := h1.symm
            by_cases hl' : ls' = []
            · subst hl'
              have : cs = [] := by simpa [groups] using h2.symm
              subst this
              refine ⟨c.lns ++ [.text []], by simp [lns_str, hcl, Ln.str], by simp, .lastNl _ c ?_, by
                intro x hx
                rcases List.mem_append.1 hx with hx | hx
                · exact .inr ⟨c, by simp, hx⟩
                · simp at hx; exact .inl hx⟩
              simp only [List.getLast?_singleton] at hend
              match c, hend with
              | .para _, _ => simp [Chunk.endsAfterNewline]
              | .head _ _, hend => simp [Chunk.endsAfterNewline]
              | .list _ [], _ => simp [Chunk.lines] at hcl
              | .list _ (_ :: _ :: _), _ => simp [Chunk.endsAfterNewline]
              | .list v [i], hend =>
                rcases hend with hend | hend
                · exfalso
                  simp [Chunk.lines] at hcl
                  obtain ⟨_, rfl⟩ := hcl
                  have h4 := hend.eq_of_length (by simp)
                  simp at h4
                · simp [hend.1]
            · obtain ⟨lns, a1, a2, a3, a4⟩ := ih m ls' false cs (by
                have := List.length_append (as := g) (bs := [] :: ls')
                simp only [List.length_cons] at this; omega) hl' h2 (by
                have hpos : 0 < ls'.length := List.length_pos_iff.2 hl'
                cases hc : cs.getLast? with
                | none => trivial
                | some d =>
                  have hcs : cs ≠ [] := by intro h; rw [h] at hc; simp at hc
                  have hlast : (c :: cs).getLast? = some d := by
                    rw [List.getLast?_cons]; simp [hc]
                  rw [hlast] at hend
                  have hcs' : 0 < cs.length := List.length_pos_iff.2 hcs
                  match d, hend with
                  | .para _, _ => trivial
                  | .head _ _, hend =>
                    have := suffix_after (a := (b :: bs) :: (g ++ [[]])) (l := ls') (by simpa using hend) (by simp; omega)
                    exact this
                  | .list _ [], _ => trivial
                  | .list _ (_ :: _ :: _), _ => trivial
                  | .list v [i], hend =>
                    have h0 : [[], []] <:+ (b :: bs) :: (g ++ [] :: ls') := by
                      rcases hend with h | h
                      · exact h
                      · have := h.2.1
                        simp only [List.length_cons] at this
                        omega
                    refine .inl (suffix_after (a := (b :: bs) :: (g ++ [[]])) (l := ls') (by simpa using h0) ?_)
                    match ls', hl' with
                    | [x], _ =>
                      have h3 := suffix_after (a := (b :: bs) :: g) (l := [[], x]) (by simpa using h0) (by simp)
                      have h4 := h3.eq_of_length (by simp)
                      simp at h4
                      subst h4
                      simp [groups] at h2
                      subst h2; simp at hc
                    | _ :: _ :: _, _ => simp)
              refine ⟨c.lns ++ .text [] :: lns, by simp [lns_str, hcl, a1, Ln.str], by simp, .cons _ c lns cs a2 a3, ?_⟩
              intro x hx
              rcases List.mem_append.1 hx with hx | hx
              · exact .inr ⟨c, by simp, hx⟩
              · rcases List.mem_cons.1 hx with rfl | hx
                · exact .inl rfl
                · rcases a4 x hx with h | ⟨d, h3, h4⟩
                  · exact .inl h
                  · exact .inr ⟨d, by simp [h3], h4⟩

/-! ## Parsing -/

theorem between_blank (p : Parser) (f : Option Header × Option (SMap Str) × Str) (hs : List Heading)
    (E : List (List Heading × Entry)) (h : Between p f hs E) : ∃ q, p.blankLine = .ok q ∧ Between q f hs E := by
  obtain ⟨pend, h1, h2, h3⟩ := h.content
  have hc := h.calm
  have hb : ∀ b, p.blocks.head? = some b → b.isAnyItem = false := by
    intro b hb
    rw [h1] at hb
    cases h3 with
    | flat => simp at hb
    | under => simp at hb; rw [← hb]; rfl
  rw [blank_eq p hc hb, addInlines_nil _ (by exact h.inlines)]
  cases h3 with
  | flat b1 b2 b3 b4 =>
    simp only [Except.bind, settle, h1, Option.toList_none]
    exact ⟨_, rfl, hc, h.inlines, rfl, h.line, h.front, none, rfl, .inl rfl, .flat b1 b2 b3 b4⟩
  | under ti v cs l b1 b2 b3 b4 b5 b6 =>
    simp only [Except.bind, settle, h1, Option.toList_some, Block.isSection, Bool.not_true, Bool.false_and, Bool.false_eq_true,
      if_false, pushToStack, hc.inCont, hc.data]
    refine ⟨_, rfl, ?_, h.inlines, rfl, h.line, h.front, some _, rfl, .inr rfl, .under ti v cs l b1 b2 b3 b4 b5 b6⟩
    simp only [Calm, hc.header, hc.openText, hc.title, hc.openLines, hc.preserveNl, hc.closeParent, hc.offset]

theorem Between.lastTy {p : Parser} {f : Option Header × Option (SMap Str) × Str} {hs : List Heading}
    {E : List (List Heading × Entry)} (h : Between p f hs E) (t : TokenType) : Between { p with lastTy := t } f hs E :=
  ⟨h.calm, h.inlines, h.dangling, h.line, h.front, h.content⟩

/-- Fields that do not matter once the text of a chunk is there. -/
theorem Open.update {p : Parser} {f : Option Header × Option (SMap Str) × Str} {hs : List Heading}
    {E : List (List Heading × Entry)} (h : Open p f hs E) (t : TokenType) (b : Bool) (d : Option Token) :
    Open { p with lastTy := t, inBlockLine := b, dangling := d } f hs E := by
  cases h with
  | para E pend t l calm front blocks force content inlines =>
    exact .para hs E pend t l calm front blocks force content inlines
  | head _ v t l l' calm front blocks force inlines content =>
    exact .head hs E v t l l' calm front blocks force inlines content
  | list E pend v t items ts l l1 l2 calm front blocks content inlines texts =>
    exact .list hs E pend v t items ts l l1 l2 calm front blocks content inlines texts

theorem parse_final (w : World) (k m : Nat) (p : Parser) (hh : p.header = none) (ho : p.openText = none) :
    parse w (k + 1) [.tok (Token.final m [])] p = finish { p with lastTy := .eof } := by
  unfold parse
  rw [feed_cons _ _ _ _ _ (eof_step w k m p hh ho)]
  rfl

theorem parse_append (w : World) (k : Nat) (a b : List Item) (p q : Parser)
    (h : feed (tokenInto w k) true a p = .ok q) : parse w k (a ++ b) p = parse w k b q := by
  unfold parse
  rw [feed_append _ _ _ _ _ _ h]

theorem toks_empty {n : Nat} {ts : List Token} (h : (Ln.text []).Toks n ts) : ts = [] := Pieces.nil_inv h

theorem allToks_docToks {n : Nat} {a : List Ln} {ts : List Token} (ha : a ≠ []) (h : AllToks n a ts) :
    ∃ us m c, ts = us ++ [newline m c []] ∧ DocToks n a us := by
  induction h with
  | nil => exact absurd rfl ha
  | cons n l rest ts us h hr ih =>
    cases rest with
    | nil =>
      cases hr
      exact ⟨ts, n, _, rfl, [], l, [], ts, rfl, rfl, .nil _, h⟩
    | cons x xs =>
      obtain ⟨vs, m, c, rfl, init, last, t1, t2, e1, rfl, e2, e3⟩ := ih (by simp)
      refine ⟨ts ++ newline n (1 + l.str.length) [] :: (t1 ++ t2), m, c, by simp, l :: init, last,
        ts ++ newline n (1 + l.str.length) [] :: t1, t2, by rw [e1]; rfl, by simp, .cons _ _ _ _ _ h e2, ?_⟩
      rw [List.length_cons, ← Nat.add_assoc, Nat.add_right_comm]
      exact e3

theorem parse_layout (w : World) (k m : Nat) (fresh : Bool) (lns : List Ln) (cs : List Chunk) (hl : Layout fresh lns cs)
    (hok : ∀ c ∈ cs, c.Ok) : ∀ (n : Nat) (ts : List Token), DocToks n lns ts → ∀ (p : Parser)
    (f : Option Header × Option (SMap Str) × Str) (hs : List Heading) (E : List (List Heading × Entry)),
    Between p f hs E → (p.lastTy = .newLineChar ∨ p.lastTy = .eof) → (fresh = true → p.forceNew = false) →
    ∃ q, parse w (k + 1) (ts.map .tok ++ [.tok (Token.final m [])]) p = .ok q
      ∧ readingL [] q.asg.blocks = E ++ outline hs cs ∧ q.asg.front = f := by
  induction hl with
  | done fresh =>
    intro n ts hts p f hs E h hlast _
    rw [toks_empty (docToks_one hts), List.map_nil, List.nil_append, parse_final w k m p h.calm.header h.calm.openText]
    obtain ⟨q, h1, h2, h3⟩ := between_finish _ f hs E (h.lastTy .eof)
    exact ⟨q, h1, by rw [h2]; simp [outline], h3⟩
  | last fresh c he =>
    intro n ts hts p f hs E h hlast hfr
    obtain ⟨q, h1, h2, h3, h4, h5⟩ := feed_chunk w k n f hs E c (hok c (by simp)) ts hts p h
    rw [parse_append _ _ _ _ _ _ h1, parse_final w k m q h2.calm.header h2.calm.openText]
    have hcan : CanEnd q := h4 (he.imp id (fun x => ⟨hfr x.1, x.2⟩))
    obtain ⟨q', g1, g2, g3⟩ := open_finish { q with lastTy := .eof } f _ _ (h2.update .eof q.inBlockLine q.dangling) hcan
    exact ⟨q', g1, by rw [g2]; simp [outline], g3⟩
  | lastNl fresh c he =>
    intro n ts hts p f hs E h hlast hfr
    obtain ⟨t1, t2, rfl, a1, a2⟩ := DocToks.append (by simp) hts
    obtain ⟨us, m1, c1, rfl, a3⟩ := allToks_docToks (lns_ok c (hok c (by simp))).1 a1
    rw [toks_empty (docToks_one a2)]
    obtain ⟨q, h1, h2, h3, h4, h5⟩ := feed_chunk w k n f hs E c (hok c (by simp)) us a3 p h
    rw [List.append_nil, List.map_append, List.append_assoc, parse_append _ _ _ _ _ _ h1, List.map_singleton]
    rw [parse_append _ _ [_] _ _ _ (feed_cons _ _ [] _ _ (newline_step w k q m1 c1 h2.calm h3))]
    rw [parse_final w k m _ (by exact h2.calm.header) (by exact h2.calm.openText)]
    have hcan := h5 (he.imp id hfr)
    obtain ⟨q', g1, g2, g3⟩ := open_finish _ f _ _ (h2.update .eof false (some (newline m1 c1 []))) hcan
    exact ⟨q', g1, by rw [g2]; simp [outline], g3⟩
  | blank fresh lns cs hne hl ih =>
    intro n ts hts p f hs E h hlast _
    obtain ⟨t1, t2, rfl, a1, a2⟩ := DocToks.append (a := [.text []]) hne hts
    obtain ⟨us, m1, c1, rfl, a3⟩ := allToks_docToks (by simp) a1
    rw [toks_empty (docToks_one a3)]
    obtain ⟨q, h1, h2⟩ := between_blank { p with inBlockLine := false } f hs E
      ⟨h.calm, h.inlines, h.dangling, rfl, h.front, h.content⟩
    have hn := newLine_second w k p (newline m1 c1 []) rfl h.calm.header h.calm.openText h.calm.title hlast
    rw [h1] at hn
    rw [List.nil_append, List.map_append, List.append_assoc, List.map_singleton]
    rw [parse_append _ _ [_] _ _ _ (feed_cons _ _ [] _ _ hn)]
    exact ih hok _ t2 a2 _ f hs E (h2.lastTy _) (.inl rfl) (by simp)
  | cons fresh c lns cs hne hl ih =>
    intro n ts hts p f hs E h hlast _
    obtain ⟨t1, t2, rfl, a1, a2⟩ := DocToks.append (a := c.lns) (by simp) hts
    obtain ⟨us, m1, c1, rfl, a3⟩ := allToks_docToks (lns_ok c (hok c (by simp))).1 a1
    obtain ⟨q, h1, h2, h3, h4, h5⟩ := feed_chunk w k n f hs E c (hok c (by simp)) us a3 p h
    rw [List.map_append, List.map_append, List.append_assoc, List.append_assoc, parse_append _ _ _ _ _ _ h1, List.map_singleton]
    rw [parse_append _ _ [_] _ _ _ (feed_cons _ _ [] _ _ (newline_step w k q m1 c1 h2.calm h3))]
    obtain ⟨t3, t4, rfl, b1, b2⟩ := DocToks.append (a := [.text []]) hne a2
    obtain ⟨us', m2, c2, rfl, b3⟩ := allToks_docToks (by simp) b1
    rw [toks_empty (docToks_one b3)]
    obtain ⟨q2, g1, g2⟩ := open_blank _ f _ _ (h2.update .newLineChar false (some (newline m1 c1 []))) rfl
    have hn := newLine_second w k { q with
      inBlockLine := false, dangling := some (newline m1 c1 []), lastTy := .newLineChar } (newline m2 c2 []) rfl
      h2.calm.header h2.calm.openText h2.calm.title (.inl rfl)
    have hn := hn.trans g1
    rw [List.nil_append, List.map_append, List.append_assoc, List.map_singleton]
    obtain ⟨q', i1, i2, i3⟩ := ih (fun c hc => hok c (by simp [hc])) _ t4 b2 { q2 with lastTy := .newLineChar } f _ _ (g2.lastTy _)
      (.inl rfl) (by simp)
    have := parse_append w (k + 1) [.tok (newline m2 c2 [])] (t4.map .tok ++ [.tok (Token.final m [])]) _ _ (feed_cons _ _ [] _ _ hn)
    refine ⟨q', ?_, by rw [i2]; simp [outline], i3⟩
    exact this.trans i1

end Adoc.Parser
