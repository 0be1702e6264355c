import Verif.Proof.RichScan
import Verif.Spec.RichDoc
/-!
# Every text whose constructs are closed can be written with signs
-/
namespace Adoc.Scanner
open Spec Props Lexical

/-- The first occurrence of a pattern is not after another one. -/
theorem first_le {pat body a p b : Str} (h : body ++ (pat ++ a) = p ++ (pat ++ b)) (hn : ¬pat <:+: body ++ pat.dropLast) :
    body <+: p := by
  have h1 : body <+: p ++ (pat ++ b) := ⟨_, h⟩
  apply Decidable.byContradiction
  intro hlt
  have hlt : ¬body.length ≤ p.length := fun hle => hlt (List.prefix_of_prefix_length_le h1 (List.prefix_append p (pat ++ b)) hle)
  obtain ⟨x, rfl⟩ := List.prefix_of_prefix_length_le (List.prefix_append p (pat ++ b)) h1 (by omega)
  rw [List.append_assoc] at h
  have h := List.append_cancel_left h
  have hx : 1 ≤ x.length := by rw [List.length_append] at hlt; omega
  refine hn (List.IsInfix.trans ?_ (⟨p, [], by simp⟩ : x ++ pat.dropLast <:+: p ++ x ++ pat.dropLast))
  refine List.IsPrefix.isInfix (List.prefix_of_prefix_length_le (l₃ := x ++ (pat ++ a)) ⟨b, h.symm⟩ ?_ (by simp; omega))
  rw [List.prefix_append_right_inj]
  exact (List.dropLast_prefix pat).trans (List.prefix_append ..)

/-- A closed construct is ASCII up to its end. -/
theorem closed_ascii {x y : UInt8} {pt body a : Str} (hxy : x ≠ y) (hc : Closed (y :: pt) ([x, x] ++ (body ++ (y :: pt ++ a))))
    (hn : ¬(y :: pt) <:+: body ++ (y :: pt).dropLast) : ∀ b ∈ body, b.toNat < 128 := by
  obtain ⟨p, q, h, hp⟩ := hc
  match p, h, hp with
  | [], h, _ => exact absurd (List.cons.inj h).1 hxy
  | [c], h, _ => exact absurd (List.cons.inj (List.cons.inj h).2).1 hxy
  | c :: d :: p, h, hp =>
    simp only [List.cons_append, List.nil_append, List.cons.injEq, List.append_assoc] at h
    have := first_le (pat := y :: pt) (a := a) (p := p) (b := q) (by simpa using h.2.2) hn
    intro b hb
    exact hp b (by simp [this.subset hb])

/-- A cross reference in a closed text is ASCII. -/
theorem reference_ascii {before l after : Str} (h : Reference before l after) (hs : SafeAt (l ++ after)) : ∀ b ∈ l, b.toNat < 128 := by
  obtain ⟨⟨body, rfl, hb⟩, _⟩ := h
  have := closed_ascii (x := c!"<") (y := c!">") (pt := b!">") (body := body) (a := after) (by decide)
    (by simpa using hs.xref ⟨body ++ b!">>" ++ after, by simp⟩) hb
  intro b hb
  simp only [List.mem_append, List.mem_cons, List.not_mem_nil, or_false] at hb
  rcases hb with ((rfl | rfl) | hb) | rfl | rfl
  any_goals decide
  exact this b hb

/-- An anchor in a closed text is ASCII. -/
theorem anchor_ascii {before l after : Str} (h : Anchor before l after) (hs : SafeAt (l ++ after)) : ∀ b ∈ l, b.toNat < 128 := by
  obtain ⟨_, ha, body, rfl, hb⟩ := h
  obtain ⟨r, rfl⟩ : ∃ r, after = 10 :: r := by
    cases after with
    | nil => cases ha
    | cons y r => cases ha; exact ⟨r, rfl⟩
  have := closed_ascii (x := c!"[") (y := c!"]") (pt := b!"]\n") (body := body) (a := r) (by decide)
    (by simpa using hs.anchor ⟨body ++ b!"]]" ++ 10 :: r, by simp⟩) hb
  intro b hb
  simp only [List.mem_append, List.mem_cons, List.not_mem_nil, or_false] at hb
  rcases hb with ((rfl | rfl) | hb) | rfl | rfl
  any_goals decide
  exact this b hb

/-- What the scanner reads as text is text. -/
theorem said_of_read {pre l post : Str} {c : UInt8} {r : Str} {s s' : Scanner} {t : Token} (H : Here pre c r s)
    (hc : l ++ post = c :: r) (hd : dispatch (at_ s (s.start + 1)) c = (.tok t, s')) (hty : t.ty = .text) (hlex : t.lexeme = l)
    (hl : Lexeme .text pre l post) (hfirst : isCont c = false) (hs : SafeAt (l ++ post)) (hnl : (l ++ post).getLast? = some 10)
    (hlev : ¬b!"======" <+: l ++ post) : Said pre l post := by
  have hne : l ≠ [] := lexeme_ne_nil hl
  refine ⟨hne, [l], by simp, .inr ?_, trivial⟩
  simp only [List.flatten_nil, List.nil_append]
  by_cases hsp : ∃ l' post', l' ++ post' = l ++ post ∧ (Anchor pre l' post' ∨ Reference pre l' post')
  · right
    obtain ⟨l', post', he, hl'⟩ := hsp
    have hgive : ∀ {ty : TokenType}, Gives ty l' (dispatch (at_ s (s.start + 1)) c) → ty = .text ∧ l' = l := by
      rintro ty ⟨t', s'', g1, g2, g3⟩
      rw [hd] at g1
      cases g1
      exact ⟨g2.symm.trans hty, g3.symm.trans hlex⟩
    have hb : Blank l' ∧ l' = l := by
      rcases hl' with hl' | hl'
      · rcases H.anchorC (hc.symm.trans he.symm) hl' with ⟨g1, g2⟩ | ⟨⟨s, g⟩, _⟩
        · by_cases hb : Blank l'
          · exact ⟨hb, (hgive (g2 hb)).2⟩
          · cases (hgive (g1 hb)).1
        · rw [hd] at g; cases g
      · rcases H.xrefC (hc.symm.trans he.symm) hl' with ⟨g1, g2⟩ | ⟨⟨s, g⟩, _⟩
        · by_cases hb : Blank l'
          · exact ⟨hb, (hgive (g2 hb)).2⟩
          · cases (hgive (g1 hb)).1
        · rw [hd] at g; cases g
    obtain ⟨hb, rfl⟩ := hb
    obtain rfl := List.append_cancel_left he
    refine ⟨hb, hl', ?_⟩
    rcases hl' with hl' | hl'
    · exact anchor_ascii hl' hs
    · exact reference_ascii hl' hs
  · left
    have hin : ∀ q d, l ++ post = d :: q → d ≠ 10 → 10 ∈ q := by
      intro q d hq hd
      rw [hq] at hnl
      cases q with
      | nil => simp at hnl; exact absurd hnl hd
      | cons x q =>
        rw [List.getLast?_cons_cons] at hnl
        exact List.mem_of_getLast? hnl
    refine ⟨?_, ?_, ?_, ?_, hs, ?_, ?_, ?_, hlev⟩
    · intro b hb
      cases l with
      | nil => exact absurd rfl hne
      | cons x l => cases hb; cases hc; exact hfirst
    · rcases hl with hl | ⟨_, hl⟩
      · exact hl
      · exact absurd ⟨l, post, rfl, hl⟩ hsp
    · intro ty l' post' he hty' hl'
      by_cases ha : ty = .blockAnchor
      · subst ha; exact hsp ⟨l', post', he, .inl hl'.1⟩
      by_cases hx : ty = .crossReference
      · subst hx; exact hsp ⟨l', post', he, .inr hl'.1⟩
      obtain ⟨t', s'', g1, g2, g3⟩ := H.complete ty ⟨ha, hx, hty'⟩ (hc.symm.trans he.symm) hl'
      rw [hd] at g1
      cases g1
      exact hty' (g2.symm.trans hty)
    · intro l' post' he
      exact ⟨fun h => hsp ⟨l', post', he, .inl h⟩, fun h => hsp ⟨l', post', he, .inr h⟩⟩
    · intro q hq
      exact ⟨10, hin q _ hq (by decide), by decide, by unfold Alnum; decide⟩
    · intro q hq
      exact ⟨10, hin q _ hq (by decide), by decide, by unfold Alnum; decide⟩
    · intro _ q hq
      exact hin q _ hq (by decide)

/-- Somewhere in the text there is a character that is not part of a URL. -/
def UrlShut (r : Str) : Prop := b!"http" <+: r → ∃ b ∈ r, ¬(b ≠ 0 ∧ b ≠ c!" " ∧ b.toNat < 128 ∧ (Punct b → b ∈ urlPunct))

/-- What begins in a closed text ends in it. -/
theorem lexeme_fits {ty : TokenType} {pre l after rest post : Str} (hl : Lexeme ty pre l after) (he : l ++ after = rest ++ post)
    (hnl : rest.getLast? = some 10) (hs : SafeAt rest) (hurl : UrlShut rest) (ht : ty = .text → l.head? ≠ some 10) :
    l.length ≤ rest.length := by
  apply Decidable.byContradiction
  intro hlt
  have hpre : rest <+: l := List.prefix_of_prefix_length_le (l₃ := l ++ after) ⟨post, he.symm⟩ (List.prefix_append ..) (by omega)
  have hmem : 10 ∈ rest := List.mem_of_getLast? hnl
  have hproper : ∀ v y, l = v ++ [y] → rest <+: v := by
    intro v y hv
    refine List.prefix_of_prefix_length_le hpre (by rw [hv]; exact List.prefix_append ..) ?_
    rw [hv] at hlt; simp at hlt; omega
  have no : 10 ∉ l → False := fun h => h (hpre.subset hmem)
  have no' : ∀ v y, l = v ++ [y] → 10 ∉ v → False := fun v y hv h => h ((hproper v y hv).subset hmem)
  have word : ∀ (v x : Str), l = v ++ x → 10 ∉ v → v <+: rest := by
    intro v x hv h
    rcases Nat.le_total v.length rest.length with h' | h'
    · exact List.prefix_of_prefix_length_le (l₃ := l) (by rw [hv]; exact List.prefix_append ..) hpre h'
    · exact absurd ((List.prefix_of_prefix_length_le hpre (l₃ := l) (by rw [hv]; exact List.prefix_append ..) h').subset hmem) h
  have bracket : ∀ w : Str, Bracketed w l → c!"]" ∉ w → c!"]" ∈ rest → False := by
    rintro w ⟨body, hb, hn⟩ hw hr
    have := (hproper (w ++ body) _ hb).subset hr
    rcases List.mem_append.1 this with h | h
    · exact hw h
    · exact hn h
  have anchor : Anchor pre l after → False := by
    rintro ⟨_, ha, body, hb, hn⟩
    obtain ⟨p, q, hp, _⟩ := hs.anchor (word b!"[[" (body ++ b!"]]") (by rw [hb]; simp) (by decide))
    obtain ⟨r, rfl⟩ : ∃ r, after = 10 :: r := by
      cases after with
      | nil => cases ha
      | cons y r => cases ha; exact ⟨r, rfl⟩
    have h1 : b!"[[" ++ (body ++ (b!"]]\n" ++ r)) = p ++ (b!"]]\n" ++ (q ++ post)) := by
      have := he
      rw [hb, hp] at this
      simpa using this
    match p, h1 with
    | [], h => exact absurd (List.cons.inj h).1 (by decide)
    | [c], h => exact absurd (List.cons.inj (List.cons.inj h).2).1 (by decide)
    | c :: d :: p, h =>
      simp only [List.cons_append, List.nil_append, List.cons.injEq] at h
      have := (first_le (pat := b!"]]\n") (a := r) (p := p) (b := q ++ post) (by simpa using h.2.2) hn).length_le
      have h2 := congrArg List.length hp
      have h3 := congrArg List.length hb
      simp at h2 h3
      omega
  have reference : Reference pre l after → False := by
    rintro ⟨⟨body, hb, hn⟩, _⟩
    obtain ⟨p, q, hp, _⟩ := hs.xref (word b!"<<" (body ++ b!">>") (by rw [hb]; simp) (by decide))
    have h1 : b!"<<" ++ (body ++ (b!">>" ++ after)) = p ++ (b!">>" ++ (q ++ post)) := by
      have := he
      rw [hb, hp] at this
      simpa using this
    match p, h1 with
    | [], h => exact absurd (List.cons.inj h).1 (by decide)
    | [c], h => exact absurd (List.cons.inj (List.cons.inj h).2).1 (by decide)
    | c :: d :: p, h =>
      simp only [List.cons_append, List.nil_append, List.cons.injEq] at h
      have := (first_le (pat := b!">>") (a := after) (p := p) (b := q ++ post) (by simpa using h.2.2) hn).length_le
      have h2 := congrArg List.length hp
      have h3 := congrArg List.length hb
      simp at h2 h3
      omega
  have url : ∀ u x, l = u ++ x → x ∈ [[], b!"["] → b!"http" <+: u → UrlText u → False := by
    intro u x hu hx hh ht
    have hru : rest <+: u := by
      simp only [List.mem_cons, List.not_mem_nil, or_false] at hx
      rcases hx with rfl | rfl
      · rw [List.append_nil] at hu; rw [← hu]; exact hpre
      · exact hproper u _ hu
    obtain ⟨t, rfl⟩ := hh
    obtain ⟨b, hb, hn⟩ := hurl (word b!"http" (t ++ x) (by rw [hu]; simp) (by decide))
    exact hn (ht b (hru.subset hb))
  have line : BracketLine pre l after → False := fun h => no h.2.2.1
  have digits : ∀ ds : Str, Digits ds → 10 ∉ ds := by
    intro ds h hm
    have := h 10 hm
    revert this; decide
  have alnum : ∀ ds : Str, (∀ b ∈ ds, Alnum b ∨ b = c!"-") → 10 ∉ ds := by
    intro ds h hm
    have := h 10 hm
    revert this; unfold Alnum; decide
  cases ty
  all_goals first
    | exact hl
    | exact no (by rw [hl]; decide)
    | exact no (by rw [hl.1]; decide)
    | exact no (by rw [hl.2.1]; decide)
    | exact no (by rw [hl.1.1]; decide)
    | exact line hl.1
    | exact anchor hl.1
    | exact reference hl.1
    | skip
  case newLineChar => exact no' [] 10 hl (by simp)
  case comment =>
    rcases hl.2.2.2 with ⟨rfl, _⟩ | ⟨h, _⟩
    · exact no (by decide)
    · exact no h
  case orderedListItem => exact no (by rw [hl.2]; decide)
  case unorderedListItem => exact no (by rw [hl.2]; decide)
  case descriptionListMarker =>
    rcases hl.2.2 with rfl | rfl
    · exact no (by decide)
    · exact no' b!"::" 10 rfl (by decide)
  case codeCallout =>
    rcases hl.2 with ⟨_, ds, h, rfl⟩ | ⟨_, ds, es, h, h', rfl⟩
    · exact no (by simp [digits ds h])
    · exact no (by simp [digits ds h, digits es h'])
  case codeCalloutListItem =>
    obtain ⟨_, ds, h, rfl⟩ := hl
    exact no (by simp [digits ds h])
  case tableCell =>
    obtain ⟨_, ⟨body, rfl, h⟩, _⟩ := hl
    refine no fun hm => ?_
    rcases List.mem_cons.1 hm with hm | hm
    · cases hm
    · exact (h 10 hm).1 rfl
  case blockImageMacro =>
    obtain ⟨_, h⟩ := hl
    have h' := h
    obtain ⟨body, hb, _⟩ := h
    exact bracket _ h' (by decide) (hs.image (word b!"image:" (b!":" ++ body ++ b!"]") (by rw [hb]; simp) (by decide)))
  case inlineImageMacro =>
    obtain ⟨h, _⟩ := hl
    have h' := h
    obtain ⟨body, hb, _⟩ := h
    exact bracket _ h' (by decide) (hs.image (word b!"image:" (body ++ b!"]") (by rw [hb]; simp) (by decide)))
  case linkMacro =>
    obtain ⟨u, h1, h2, h3⟩ := hl
    exact url u _ h1 (by simp) h2 h3
  case hyperlink => exact url l [] (by simp) (by simp) hl.1 hl.2.1
  case text =>
    rcases hl with ⟨_, h, _⟩ | ⟨_, h | h⟩
    · refine no fun hm => ?_
      cases l with
      | nil => cases hm
      | cons c tl =>
        rcases List.mem_cons.1 hm with rfl | hm
        · exact ht rfl rfl
        · exact h 10 hm (by decide)
    · exact anchor h
    · exact reference h
  case charRef =>
    rcases hl with hl | ⟨rfl, _⟩ | ⟨rfl, _⟩ | ⟨rfl, _⟩ | ⟨v, rfl, hv⟩
    · simp only [List.mem_cons, List.not_mem_nil, or_false] at hl
      rcases hl with rfl | rfl | rfl | rfl | rfl | rfl | rfl <;> exact no (by decide)
    · exact no (by decide)
    · exact no (by decide)
    · exact no (by decide)
    · exact no (by simp [alnum v fun b hb => .inl (hv b hb)])
  case inlineStyle =>
    obtain ⟨h, _⟩ := hl
    have h' := h
    obtain ⟨body, hb, _⟩ := h
    exact bracket _ h' (by decide) (hs.style (word b!"[." (body ++ b!"]") (by rw [hb]; simp) (by decide)))
  case «include» =>
    obtain ⟨_, h⟩ := hl
    have h' := h
    obtain ⟨body, hb, _⟩ := h
    exact bracket _ h' (by decide) (hs.incl (word b!"include::" (body ++ b!"]") (by rw [hb]; simp) (by decide)))
  case «attribute» =>
    obtain ⟨_, _, name, value, rfl, h1, h2⟩ := hl
    refine no fun hm => ?_
    simp only [List.mem_append, List.mem_cons, List.not_mem_nil, or_false] at hm
    rcases hm with ((hm | hm) | hm) | hm
    · cases hm
    · exact h1 10 hm (by decide)
    · cases hm
    · exact h2 hm
  case attributeReference =>
    obtain ⟨v, rfl, hv⟩ := hl
    exact no (by simp [alnum v hv])
  case heading1 | heading2 | heading3 | heading4 | heading5 =>
    obtain ⟨_, ⟨x, rfl, _⟩, _⟩ := hl
    exact no' _ x rfl (by decide)
  all_goals
    rcases hl with rfl | ⟨h, _⟩
    · exact no (by decide)
    · exact line h

/-- The rest of a closed text can be written with signs. -/
theorem closed_signs (pre rest post : Str) (hu : ∃ cs, pre ++ (rest ++ post) = enc cs)
    (hb : isBoundary (pre ++ (rest ++ post)) pre.length = true)
    (hc : WellClosed (pre ++ (rest ++ post))) (hlev : ¬b!"======" <:+: pre ++ (rest ++ post)) (hnl : rest ≠ [] → rest.getLast? = some 10)
    (hin : post ≠ [] → ∀ p r, rest = p ++ r → r ≠ [] → SafeAt r ∧ UrlShut r) :
    ∃ ss, written ss = rest ∧ Legible pre ss post ∧ ∀ s ∈ ss, SignOk s := by
  induction hk : rest.length using Nat.strongRecOn generalizing pre rest with
  | _ k ih =>
    cases rest with
    | nil => exact ⟨[], rfl, trivial, fun s hs => by cases hs⟩
    | cons c r' =>
      obtain ⟨r, hr⟩ : ∃ r, r' ++ post = r := ⟨_, rfl⟩
      rw [List.cons_append, hr] at hu hb hc hlev
      let s : Scanner := { cut pre (c :: r) 0 1 1 [] with start := pre.length }
      have H : Here pre c r s := ⟨rfl, rfl, rfl, hu⟩
      have hsafe : Safe s := .of_closed hu hb (by simp [s, cut]) rfl hc
      have hg := hsafe.dispatch (c := c) (by simp [s, cut])
      have ho := H.dispatch
      obtain ⟨it, s', hd⟩ : ∃ it s', dispatch (at_ s (s.start + 1)) c = (it, s') := ⟨_, _, rfl⟩
      rw [hd] at hg ho
      have hdrop : s.src.drop s.start = c :: r := by simp [s, cut]
      cases it with
      | panic p => exact absurd hg.ret (by simp [Item.returned])
      | hang => exact absurd hg.ret (by simp [Item.returned])
      | err e =>
        have := hg.err e rfl
        rw [hdrop] at this
        exact absurd (this.isInfix.trans (List.suffix_append pre (c :: r)).isInfix) hlev
      | tok t =>
        have htag := hg.tag t rfl
        obtain ⟨after, h1, h2⟩ : ∃ after, s.src = pre ++ t.lexeme ++ after ∧ Lexeme t.ty pre t.lexeme after := by
          rcases ho t s' rfl with h | h
          · rcases h with h | h
            · exact absurd h htag.1
            · exact absurd h htag.2
          · exact h
        have he : t.lexeme ++ after = c :: r := by
          have h1 : pre ++ c :: r = pre ++ t.lexeme ++ after := h1
          rw [List.append_assoc] at h1
          exact (List.append_cancel_left h1).symm
        have hne := lexeme_ne_nil h2
        have hst : SafeAt (t.lexeme ++ after) := by rw [he]; exact hc.2 pre _ rfl
        have hnext : Plain (cut pre (c :: r) 0 1 1 []) t s' := by
          have hn : (cut pre (c :: r) 0 1 1 []).next = some (.tok t, s') := by
            unfold next isAtEnd
            rw [if_neg (by simp [cut])]
            unfold scanToken
            have : (pre ++ c :: r).getD pre.length 0 = c := by simp
            simp only [cut, this]
            exact congrArg some hd
          cases next_spec hn with
          | eof => exact absurd h2 (by simp [Token.final, Lexeme])
          | plain _ _ _ h => exact h
          | tag _ _ _ h =>
            rcases h.ty with h | h
            · exact absurd h.1 htag.1
            · exact absurd h.1 htag.2
        have htext : t.ty = .text → t.lexeme.head? ≠ some 10 := by
          intro hty hh
          have hc10 : c = 10 := by
            cases hx : t.lexeme with
            | nil => exact absurd hx hne
            | cons y q => rw [hx] at he hh; cases he; cases hh; rfl
          obtain ⟨t', s'', g1, g2, _⟩ := H.complete .newLineChar ⟨by decide, by decide, by decide⟩ (l := [10]) (after := r)
            (by rw [hc10]; rfl) rfl
          rw [hd] at g1
          cases g1
          rw [hty] at g2; cases g2
        obtain ⟨after', rfl, hfit⟩ : ∃ after', after = after' ++ post ∧ t.lexeme ++ after' = c :: r' := by
          by_cases hp : post = []
          · subst hp
            exact ⟨after, by simp, by rw [he, ← hr]; simp⟩
          · have h9 := hin hp [] (c :: r') rfl (by simp)
            have := lexeme_fits (rest := c :: r') (post := post) h2 (by rw [he, ← hr]; rfl) (hnl (by simp)) h9.1 h9.2 htext
            obtain ⟨x, hx⟩ : t.lexeme <+: c :: r' :=
              List.prefix_of_prefix_length_le (l₃ := t.lexeme ++ after) (List.prefix_append ..) ⟨post, by rw [he, ← hr]; rfl⟩ this
            refine ⟨x, ?_, hx⟩
            have h8 : t.lexeme ++ after = t.lexeme ++ (x ++ post) := by rw [he, ← hr, ← List.append_assoc, hx]; rfl
            exact List.append_cancel_left h8
        have hlen : s'.current = (pre ++ t.lexeme).length := by
          have h5 := congrArg List.length hnext.lex
          rw [take_length hnext.le] at h5
          have h6 := hnext.lt
          have h7 : (cut pre (c :: r) 0 1 1 []).current = pre.length := rfl
          rw [h7] at h5 h6
          rw [List.length_append]; omega
        have hsrc : pre ++ t.lexeme ++ (after' ++ post) = pre ++ c :: r := by rw [List.append_assoc, he]
        obtain ⟨ss, e1, e2, e3⟩ := ih after'.length (by
            have := congrArg List.length hfit
            have hl := List.length_pos_iff.2 hne
            simp only [List.length_append] at this
            omega) (pre ++ t.lexeme) after' (by rw [hsrc]; exact hu)
          (by
            have := hnext.bend
            rw [hlen] at this
            rw [hsrc]; exact this) (by rw [hsrc]; exact hc) (by rw [hsrc]; exact hlev)
          (by
            intro hn
            have := hnl (by simp)
            rw [← hfit, List.getLast?_append] at this
            cases ha : after'.getLast? with
            | none => exact absurd (List.getLast?_eq_none_iff.1 ha) hn
            | some y => rw [ha] at this; simpa using this)
          (by
            intro hp p q hq hqn
            exact hin hp (t.lexeme ++ p) q (by rw [List.append_assoc, ← hq, hfit]) hqn) rfl
        by_cases hty : t.ty = .text
        · refine ⟨.text t.lexeme :: ss, by rw [written, Sign.str, e1, hfit], ⟨?_, e2⟩, ?_⟩
          · rw [e1]
            refine said_of_read H he hd hty rfl (hty ▸ h2) ?_ hst ?_ ?_
            · have h0 := hsafe.bnd
              have : (pre ++ c :: r)[pre.length]? = some c := by simp
              unfold isBoundary at hb
              split at hb
              · rename_i h0
                obtain ⟨cs, hcs⟩ := hu
                have : pre = [] := List.length_eq_zero_iff.1 h0
                subst this
                cases hr : isCont c with
                | false => rfl
                | true =>
                  exfalso
                  cases cs with
                  | nil => simp [enc] at hcs
                  | cons x cs =>
                    obtain ⟨b, bs, hx, hb', _⟩ := char_bytes x
                    rw [enc_cons, hx] at hcs
                    simp only [List.nil_append, List.cons_append, List.cons.injEq] at hcs
                    rw [hcs.1, hb'] at hr
                    cases hr
              · rw [this] at hb; simpa using hb
            · rw [he]
              have := hc.1
              rw [List.getLast?_append] at this
              simpa using this
            · rw [he]
              intro h
              exact hlev (h.isInfix.trans (List.suffix_append pre (c :: r)).isInfix)
          · intro x hx
            rcases List.mem_cons.1 hx with rfl | hx
            · trivial
            · exact e3 x hx
        · refine ⟨.mark t.ty t.lexeme :: ss, by rw [written, Sign.str, e1, hfit], ⟨?_, e2⟩, ?_⟩
          · rw [e1]; exact h2
          · intro x hx
            rcases List.mem_cons.1 hx with rfl | hx
            · refine ⟨hty, fun h => ?_⟩
              rcases h with h | h
              · rw [h] at h2; exact anchor_ascii h2.1 hst
              · rw [h] at h2; exact reference_ascii h2.1 hst
            · exact e3 x hx

/-- A mark among legible signs is a lexeme where it stands. -/
theorem legible_mark {pre : Str} {ss : List Sign} {post : Str} (h : Legible pre ss post) {ty : TokenType} {l : Str} (hm : .mark ty l ∈ ss) :
    ∃ a b, written ss = a ++ (l ++ b) ∧ Lexeme ty (pre ++ a) l (b ++ post) := by
  induction ss generalizing pre with
  | nil => cases hm
  | cons x ss ih =>
    rcases List.mem_cons.1 hm with rfl | hm
    · exact ⟨[], written ss, rfl, by rw [List.append_nil]; exact h.1⟩
    · obtain ⟨a, b, h1, h2⟩ := ih h.2 hm
      exact ⟨x.str ++ a, b, by rw [written, h1, List.append_assoc], by rw [← List.append_assoc]; exact h2⟩

theorem legible_join {pre : Str} {a b : List Sign} {post : Str} (ha : Legible pre a (written b ++ post))
    (hb : Legible (pre ++ written a) b post) : Legible pre (a ++ b) post := by
  have happ : ∀ a b : List Sign, written (a ++ b) = written a ++ written b := by
    intro a b
    induction a with
    | nil => rfl
    | cons x a ih => simp only [List.cons_append, written, ih, List.append_assoc]
  induction a generalizing pre with
  | nil => simpa [written] using hb
  | cons x a ih =>
    refine ⟨?_, ih ha.2 (by rw [List.append_assoc]; exact hb)⟩
    have h1 : written a ++ (written b ++ post) = written (a ++ b) ++ post := by rw [happ, List.append_assoc]
    cases x with
    | text l => exact h1 ▸ ha.1
    | mark ty l => exact h1 ▸ ha.1

/-- A text that does not begin like a construct that must be closed. -/
theorem safe_plain {r : Str} (h : ∀ b, r.head? = some b → b ∉ b!"[i<=|hte") : SafeAt r := by
  have no : ∀ (c : UInt8) (v : Str), c ∈ b!"[i<=|hte" → ¬(c :: v) <+: r := by
    rintro c v hc ⟨q, rfl⟩
    exact h c rfl hc
  exact ⟨fun h => absurd h (no _ _ (by decide)), fun h => absurd h (no _ _ (by decide)), fun h => absurd h (no _ _ (by decide)),
    fun h => absurd h (no _ _ (by decide)), fun h => absurd h (no _ _ (by decide)), fun h => absurd h (no _ _ (by decide)),
    fun h => absurd h (no _ _ (by decide)), fun h => absurd h (no _ _ (by decide)), no _ _ (by decide), no _ _ (by decide)⟩

/-- A word without a newline at the beginning of lines is in these lines. -/
theorem prefix_lines {v r post : Str} (h : v <+: r ++ post) (hv : 10 ∉ v) (hr : 10 ∈ r) : v <+: r := by
  rcases Nat.le_total v.length r.length with h' | h'
  · exact List.prefix_of_prefix_length_le h (List.prefix_append ..) h'
  · exact absurd ((List.prefix_of_prefix_length_le (List.prefix_append ..) h h').subset hr) hv

/-- Closed lines are closed before other lines. -/
theorem safe_append {r post : Str} (h : SafeAt r) (hr : 10 ∈ r) (hp : ∀ b ∈ post, b.toNat < 128) : SafeAt (r ++ post) := by
  have closed : ∀ pat, Closed pat r → Closed pat (r ++ post) := by
    rintro pat ⟨p, q, rfl, hp⟩
    exact ⟨p, q ++ post, by simp, hp⟩
  refine ⟨fun g => ?_, fun g => ?_, fun g => ?_, fun g => ?_, fun g => ?_, fun g => ?_, fun g => ?_, fun g => ?_, fun g => ?_, fun g => ?_⟩
  all_goals have g := prefix_lines g (by decide) hr
  · exact List.mem_append_left _ (h.style g)
  · exact List.mem_append_left _ (h.image g)
  · exact List.mem_append_left _ (h.incl g)
  · exact closed _ (h.anchor g)
  · exact closed _ (h.xref g)
  · obtain ⟨n, x, q, rfl, hx⟩ := h.heading g
    exact ⟨n, x, q ++ post, by simp, hx⟩
  · intro p x q he hn
    rcases List.append_eq_append_iff.1 he with ⟨a, rfl, _⟩ | ⟨a, ha, hb⟩
    · exact absurd (List.mem_append_left _ hr) hn
    · cases a with
      | nil =>
        rw [List.append_nil] at ha
        exact absurd (ha ▸ hr) hn
      | cons y a => cases hb; exact h.cell g p x a ha hn
  · intro p x q he hn
    rcases List.append_eq_append_iff.1 he with ⟨a, _, ha⟩ | ⟨a, ha, hb⟩
    · exact hp x (by rw [ha]; simp)
    · cases a with
      | nil => exact hp x (by rw [← List.nil_append post, ← hb]; simp)
      | cons y a => cases hb; exact h.link g p x a ha hn
  · exact h.tag g
  · exact h.endTag g

/-- Where a part of a text with lines around it begins. -/
theorem suffix_cases {pre mid post p r : Str} (h : pre ++ (mid ++ post) = p ++ r) :
    (∀ b, r.head? = some b → b ∈ pre ++ post) ∨ ∃ y, y ≠ [] ∧ y <:+ mid ∧ r = y ++ post := by
  rcases List.append_eq_append_iff.1 h with ⟨a, rfl, ha⟩ | ⟨a, rfl, ha⟩
  · rcases List.append_eq_append_iff.1 ha with ⟨a', rfl, hb⟩ | ⟨a', ha', hb⟩
    · left
      intro b hb'
      rw [hb]
      cases r with
      | nil => cases hb'
      | cons y r => cases hb'; simp
    · cases a' with
      | nil =>
        left
        intro b hb'
        rw [List.nil_append] at hb
        rw [← hb]
        cases r with
        | nil => cases hb'
        | cons y r => cases hb'; simp
      | cons y a' => exact .inr ⟨y :: a', by simp, ⟨a, ha'.symm⟩, hb⟩
  · cases a with
    | nil =>
      rw [List.nil_append] at ha
      cases mid with
      | nil =>
        left
        intro b hb
        rw [ha, List.nil_append] at hb
        exact List.mem_append_right _ (List.mem_of_mem_head? hb)
      | cons y mid => exact .inr ⟨y :: mid, by simp, List.suffix_refl _, ha⟩
    | cons y a =>
      left
      intro b hb
      rw [ha] at hb
      cases hb
      simp

theorem starts_enc (cs : List Char) : Starts (enc cs) := by
  intro b hb
  cases cs with
  | nil => cases hb
  | cons x cs =>
    obtain ⟨c, bs, hx, hb', _⟩ := char_bytes x
    rw [enc_cons, hx] at hb
    cases hb
    exact hb'

end Adoc.Scanner
