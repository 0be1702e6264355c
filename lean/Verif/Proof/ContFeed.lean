import Verif.Proof.Cont
import Verif.Proof.RichBox
/-!
# The lines of a box that is attached to a list item
-/
namespace Adoc.Rich
open Spec Block Parser Scanner Props

/-- A token of a text. -/
def inText : TokenType → Bool
  | .text | .charRef | .strong | .mark | .monospace | .emphasis | .superscript | .subscript | .unconstrainedStrong
  | .unconstrainedMark | .unconstrainedMonospace | .unconstrainedEmphasis | .crossReference | .footnoteMacro | .linkMacro
  | .inlineImageMacro | .inlineMacroClose | .lineContinuation => true
  | _ => false

/-- A delimiter of a verbatim block. -/
def isVerb : TokenType → Bool
  | .sourceBlock | .literalBlock | .passthroughBlock => true
  | _ => false

/-- Where the lines of a box are: the last token, the delimiter of the verbatim block, and whether a newline may be pending. -/
structure Spot where
  last : TokenType
  verb : Option TokenType
  pend : Bool

/-- The place after a token, if the token may stand there. -/
def Spot.next (s : Spot) (ty : TokenType) : Option Spot :=
  match s.verb with
  | some x =>
    if ty = x then some ⟨ty, none, s.pend⟩
    else if s.pend || (x = .sourceBlock && (ty = .codeCallout || ty = .include)) then none
    else some ⟨ty, some x, false⟩
  | none =>
    if ty = .newLineChar then some ⟨ty, none, !(s.last = .newLineChar || s.last = .eof || s.last.clearsNewlineAfter)⟩
    else if ty = .unorderedListItem || ty = .orderedListItem then some ⟨ty, none, false⟩
    else if ty = .blockAnchor || ty = .elementAttributes then some ⟨ty, none, s.pend⟩
    else if isVerb ty then some ⟨ty, some ty, s.pend⟩
    else if inText ty && !s.pend then some ⟨ty, none, false⟩
    else none

/-- The parser at a place. -/
structure At (s : Spot) (p : Parser) : Prop where
  inn : In p
  last : p.lastTy = s.last
  text : p.openText = s.verb
  verb : ∀ x, s.verb = some x → isVerb x = true
  pend : s.pend = false → p.dangling = none

theorem At.of_sim {p q : Parser} {w : World} {k : Nat} {t : Token} {y : M Parser} {s' : Spot} (hs : Sim p (tokenInto w (k + 1) t p) y)
    (hq : tokenInto w (k + 1) t p = .ok q) (hi : In p) (h1 : s'.last = t.ty) (h2 : s'.verb = p.openText) (h3 : ∀ x, s'.verb = some x → isVerb x = true)
    (h4 : s'.pend = false → p.dangling = none) : y = .ok (ic q) ∧ At s' { q with lastTy := t.ty } := by
  have hk := hs.2 q hq
  refine ⟨by rw [hs.1, hq]; rfl, ⟨?_, h1.symm, hk.text.trans h2.symm, h3, fun h => hk.dangling (h4 h)⟩⟩
  have := hi.keep hk
  exact ⟨this.1, this.2, this.3⟩

theorem verbatim_some {x : TokenType} (hx : isVerb x = true) (p : Parser) (ho : p.openText = some x) (t : Token) (h1 : t.ty ≠ x)
    (h2 : x = .sourceBlock → t.ty ≠ .codeCallout ∧ t.ty ≠ .include) : p.verbatim t = some true := by
  unfold verbatim
  rw [ho]
  cases x <;> first
    | (exfalso; revert hx; decide)
    | (obtain ⟨a, b⟩ := h2 rfl; simp [h1, a, b]; done)
    | (simp [h1]; done)

/-- A token in a box: the flag makes no difference. -/
theorem step_at (w : World) (k : Nat) (t : Token) (p q : Parser) (s s' : Spot) (h : At s p) (hn : s.next t.ty = some s')
    (hq : tokenInto w (k + 1) t p = .ok q) : tokenInto w (k + 1) t (ic p) = .ok (ic q) ∧ At s' { q with lastTy := t.ty } := by
  have hi := h.inn
  have ht := h.text
  obtain ⟨last, verb, pend⟩ := s
  dsimp only at ht
  cases verb with
  | some x =>
    have hx := h.verb x rfl
    by_cases he : t.ty = x
    · -- the last delimiter
      have e1 : ∀ p' : Parser, p'.header = none → p'.openText = some x → tokenInto w (k + 1) t p' = p'.parseLeaf t := by
        intro p' a b
        rw [tokenInto_noHeader w k t p' a]
        have hv : p'.verbatim t = none := by
          unfold verbatim; rw [b, he]
          cases x <;> first | (exfalso; revert hx; decide) | simp
        rw [hv]
        unfold dispatchToken
        rw [he]
        cases x <;> first | (exfalso; revert hx; decide) | rfl
      rw [e1 p hi.header ht] at hq
      rw [e1 (ic p) hi.header ht]
      obtain ⟨g1, g2⟩ := ic_parseLeaf p hi t
      obtain ⟨g3, g4, g5⟩ := g2 q hq
      simp only [Spot.next, he, if_true, Option.some.injEq] at hn
      subst hn
      refine ⟨by rw [g1, hq]; rfl, ⟨⟨g3.1, g3.2, g3.3⟩, he, ?_, nofun, fun hp => g5 (h.pend hp)⟩⟩
      show q.openText = none
      rw [g4, ht]; rfl
    · simp only [Spot.next, he, if_false] at hn
      split at hn
      · cases hn
      · rename_i hc
        simp only [Bool.or_eq_true, Bool.and_eq_true, decide_eq_true_eq, not_or, not_and] at hc
        obtain ⟨hp, hc⟩ := hc
        have hp : pend = false := by cases pend with | false => rfl | true => exact absurd rfl hp
        have hd := h.pend hp
        have e1 : ∀ p' : Parser, p'.header = none → p'.openText = some x → tokenInto w (k + 1) t p' = p'.parseText t true := by
          intro p' a b
          rw [tokenInto_noHeader w k t p' a, verbatim_some hx p' b t he (fun hs => hc hs)]
        simp only [Option.some.injEq] at hn
        subst hn
        have hs := ic_parseText p hd t true
        rw [← e1 p hi.header ht, ← e1 (ic p) hi.header ht] at hs
        exact At.of_sim hs hq hi rfl ht.symm (fun y hy => by cases hy; exact hx) (fun _ => hd)
  | none =>
    have e1 : ∀ p' : Parser, p'.header = none → p'.openText = none → tokenInto w (k + 1) t p' = p'.dispatchToken w (tokenInto w k) t :=
      fun p' a b => tokenInto_plain w k t p' a b
    have hs : ∀ (s' : Spot), Sim p (p.dispatchToken w (tokenInto w k) t) ((ic p).dispatchToken w (tokenInto w k) t) → s'.last = t.ty →
        s'.verb = none → (s'.pend = false → p.dangling = none) → tokenInto w (k + 1) t (ic p) = .ok (ic q) ∧ At s' { q with lastTy := t.ty } := by
      intro s' hs a b c
      rw [← e1 p hi.header ht, ← e1 (ic p) hi.header ht] at hs
      exact At.of_sim hs hq hi a (b.trans ht.symm) (fun y hy => by rw [b] at hy; cases hy) c
    simp only [Spot.next] at hn
    split at hn
    · -- a newline
      rename_i hty
      cases hn
      rw [e1 p hi.header ht] at hq
      rw [e1 (ic p) hi.header ht]
      have e2 : ∀ p' : Parser, p'.dispatchToken w (tokenInto w k) t = p'.parseNewLine t := by
        intro p'; unfold dispatchToken; rw [hty]
      rw [e2] at hq ⊢
      obtain ⟨g1, g2⟩ := ic_parseNewLine p hi t
      obtain ⟨g3, g4, g5⟩ := g2 q hq
      refine ⟨by rw [g1, hq]; rfl, ⟨⟨g3.1, g3.2, g3.3⟩, rfl, g4.trans ht, nofun, fun hp => g5 ?_⟩⟩
      rw [h.last]
      cases hl : (decide (last = TokenType.newLineChar) || decide (last = TokenType.eof) || last.clearsNewlineAfter) with
      | false => rw [hl] at hp; cases hp
      | true => simpa [or_assoc] using hl
    · rename_i hnl
      split at hn
      · -- a marker
        rename_i hty
        cases hn
        simp only [Bool.or_eq_true, decide_eq_true_eq] at hty
        have hi' : In { p with dangling := none } := ⟨hi.1, hi.2, hi.3⟩
        have key : ∀ (g : Parser → M Parser), (∀ p', g { p' with dangling := none } = g p') →
            (∀ p' : Parser, p'.dispatchToken w (tokenInto w k) t = g p') → Sim { p with dangling := none } (g { p with dangling := none }) (g (ic { p with dangling := none })) →
            tokenInto w (k + 1) t (ic p) = .ok (ic q) ∧ At ⟨t.ty, none, false⟩ { q with lastTy := t.ty } := by
          intro g a b hsim
          have b1 : tokenInto w (k + 1) t { p with dangling := none } = g { p with dangling := none } :=
            (e1 { p with dangling := none } hi.header ht).trans (b _)
          have b2 : tokenInto w (k + 1) t (ic p) = g (ic { p with dangling := none }) :=
            (e1 (ic p) hi.header ht).trans (b _)
          have b3 : tokenInto w (k + 1) t { p with dangling := none } = .ok q :=
            b1.trans ((a p).trans ((b p).symm.trans ((e1 p hi.header ht).symm.trans hq)))
          rw [← b1, ← b2] at hsim
          exact At.of_sim hsim b3 hi' rfl ht.symm nofun (fun _ => rfl)
        rcases hty with hty | hty
        · exact key (fun p' => p'.parseUnordered t) (fun _ => rfl) (fun p' => by unfold dispatchToken; rw [hty]) (ic_parseUnordered _ hi' t)
        · exact key (fun p' => p'.parseOrdered t) (fun _ => rfl) (fun p' => by unfold dispatchToken; rw [hty])
            (ic_parseOrdered _ hi' t (by rw [hty]; decide))
      · split at hn
        · -- a line about the next block
          rename_i hty
          cases hn
          simp only [Bool.or_eq_true, decide_eq_true_eq] at hty
          refine hs _ ?_ rfl rfl h.pend
          have e2 : ∀ p' : Parser, p'.dispatchToken w (tokenInto w k) t = p'.parseBlockMeta t := by
            intro p'; unfold dispatchToken; rcases hty with hty | hty <;> rw [hty]
          rw [e2, e2]
          exact ic_parseBlockMeta p t
        · split at hn
          · -- the first delimiter
            rename_i hty
            cases hn
            rw [e1 p hi.header ht] at hq
            rw [e1 (ic p) hi.header ht]
            have e2 : ∀ p' : Parser, p'.dispatchToken w (tokenInto w k) t = p'.parseLeaf t := by
              intro p'; unfold dispatchToken
              cases hx : t.ty <;> rw [hx] at hty <;> first | (exfalso; revert hty; decide) | rfl
            rw [e2] at hq ⊢
            obtain ⟨g1, g2⟩ := ic_parseLeaf p hi t
            obtain ⟨g3, g4, g5⟩ := g2 q hq
            refine ⟨by rw [g1, hq]; rfl, ⟨⟨g3.1, g3.2, g3.3⟩, rfl, ?_, fun x hx => ?_, fun hp => g5 (h.pend hp)⟩⟩
            · show q.openText = some t.ty
              rw [g4, ht]; rfl
            · cases hx; exact hty
          · split at hn
            · -- a text
              rename_i hty
              cases hn
              simp only [Bool.and_eq_true, Bool.not_eq_true'] at hty
              obtain ⟨hty, hp⟩ := hty
              have hd := h.pend hp
              refine hs _ ?_ rfl rfl (fun _ => hd)
              unfold dispatchToken
              cases hx : t.ty <;> rw [hx] at hty <;> first | (exfalso; revert hty; decide) | skip
              all_goals dsimp only
              all_goals first
                | exact ic_parseText p hd t _
                | exact ic_parseCharref p hd t
                | exact .use _ fun x => ic_parseSpan p hd x
                | exact ic_parseXref p t
                | exact ic_parseFootnote p t
                | exact ic_parseInlineImage p t
                | exact ic_parseMacroClose p ht t
                | exact .ok ⟨rfl, rfl, rfl, rfl, id⟩
            · cases hn

/-- The place after some tokens. -/
def Spot.after (s : Spot) : List TokenType → Option Spot
  | [] => some s
  | t :: ts => (s.next t).bind fun s' => s'.after ts

theorem feeds_at (w : World) (k : Nat) (ts : List Token) (p q : Parser) (s s' : Spot) (h : At s p)
    (hn : s.after (ts.map (·.ty)) = some s') (hq : Feeds w k ts p q) : Feeds w k ts (ic p) (ic q) ∧ At s' q := by
  induction ts generalizing p s with
  | nil => cases hq; cases hn; exact ⟨rfl, h⟩
  | cons t ts ih =>
    simp only [List.map_cons, Spot.after, Option.bind_eq_some_iff] at hn
    obtain ⟨s1, h1, h2⟩ := hn
    unfold Feeds at hq
    simp only [List.map_cons, feed, bind, Except.bind] at hq
    cases hx : tokenInto w (k + 1) t p with
    | error e => rw [hx] at hq; cases hq
    | ok r =>
      rw [hx] at hq
      obtain ⟨g1, g2⟩ := step_at w k t p r s s1 h h1 hx
      obtain ⟨g3, g4⟩ := ih _ _ g2 h2 hq
      exact ⟨Feeds.cons g1 g3, g4⟩

/-! ## What is written in a box -/

theorem Spot.after_append (s : Spot) (a b : List TokenType) : s.after (a ++ b) = (s.after a).bind fun s' => s'.after b := by
  induction a generalizing s with
  | nil => rfl
  | cons t ts ih =>
    simp only [List.cons_append, Spot.after]
    cases s.next t with
    | none => rfl
    | some s' => exact ih s'

theorem Spot.after_trans {s s' s'' : Spot} {a b : List TokenType} (h : s.after a = some s') (h' : s'.after b = some s'') :
    s.after (a ++ b) = some s'' := by rw [Spot.after_append, h]; exact h'

/-- The name of a sign in the lexical grammar. -/
def signType : Sign → TokenType
  | .text _ => .text
  | .mark ty _ => ty

theorem Spot.next_text {s s' : Spot} (hv : s.verb ≠ some .text) (h : s.next .text = some s') : s'.next .text = some s' := by
  obtain ⟨last, verb, pend⟩ := s
  cases verb with
  | none =>
    cases pend with
    | true => simp [Spot.next, inText, isVerb] at h
    | false =>
      simp [Spot.next, inText, isVerb] at h
      subst h; rfl
  | some x =>
    simp only [Spot.next] at h
    split at h
    · rename_i hx
      exact absurd (congrArg some hx.symm) hv
    · split at h
      · cases h
      · cases h
        rename_i h1 h2
        simp [Spot.next, h1]

theorem Spot.next_verb {s s' : Spot} {ty : TokenType} (hv : s.verb ≠ some .text) (h : s.next ty = some s') : s'.verb ≠ some .text := by
  unfold Spot.next at h
  split at h
  · rename_i x hx
    rw [hx] at hv
    split at h
    · cases h; nofun
    · split at h <;> cases h
      exact hv
  · split at h
    · cases h; nofun
    · split at h
      · cases h; nofun
      · split at h
        · cases h; nofun
        · split at h
          · cases h
            rename_i hty
            intro e
            simp only [Option.some.injEq] at e
            rw [e] at hty; cases hty
          · split at h <;> cases h
            nofun

theorem after_pieces {l : Str} {ts : List Token} (h : Pieces' l ts) (s : Spot) (hs : s.next .text = some s) :
    s.after (ts.map (·.ty)) = some s := by
  induction h with
  | nil => rfl
  | cons x rest t ts hx ht h ih => simp only [List.map_cons, Spot.after, ht.ty, hs, Option.bind_some, ih]

/-- The tokens of some signs. -/
theorem after_matches {ss : List Sign} {ts : List Token} (hm : Matches ss ts) (s s' : Spot) (hv : s.verb ≠ some .text)
    (h : s.after (ss.map signType) = some s') : s.after (ts.map (·.ty)) = some s' := by
  induction hm generalizing s with
  | nil => exact h
  | text l ss ts us hl ht hm ih =>
    simp only [List.map_cons, signType, Spot.after, Option.bind_eq_some_iff] at h
    obtain ⟨s1, h1, h2⟩ := h
    rw [List.map_append, Spot.after_append]
    cases ht with
    | nil => exact absurd rfl hl
    | cons x rest t ts hx ht ht' =>
      simp only [List.map_cons, Spot.after, ht.ty, h1, Option.bind_some]
      rw [after_pieces ht' s1 (Spot.next_text hv h1)]
      exact ih s1 (Spot.next_verb hv h1) h2
  | mark ty l ss t us ht hm ih =>
    simp only [List.map_cons, signType, Spot.after, Option.bind_eq_some_iff] at h ⊢
    obtain ⟨s1, h1, h2⟩ := h
    exact ⟨s1, by rw [ht.ty]; exact h1, ih s1 (Spot.next_verb hv h1) h2⟩

theorem after_text (tys : List TokenType) (h : ∀ ty ∈ tys, inText ty = true) (last : TokenType) :
    ∃ last', (⟨last, none, false⟩ : Spot).after tys = some ⟨last', none, false⟩ := by
  induction tys generalizing last with
  | nil => exact ⟨last, rfl⟩
  | cons ty tys ih =>
    obtain ⟨l', h'⟩ := ih (fun x hx => h x (by simp [hx])) ty
    refine ⟨l', ?_⟩
    have h1 := h ty (by simp)
    have : (⟨last, none, false⟩ : Spot).next ty = some ⟨ty, none, false⟩ := by
      cases ty <;> first | rfl | (exfalso; revert h1; decide)
    simp only [Spot.after, this, Option.bind_some, h']

theorem elems_text {es : List Elem} (ho : OneLine es) : ∀ ty ∈ (es.flatMap Elem.signs).map signType, inText ty = true := by
  intro ty hty
  obtain ⟨s, hs, rfl⟩ := List.mem_map.1 hty
  obtain ⟨e, he, h⟩ := List.mem_flatMap.1 hs
  rcases elem_sign h with (⟨x, h⟩ | h | ⟨m, l, h, _⟩) | ⟨l, h⟩ | ⟨⟨ty, l, h, h'⟩, _⟩
  · rw [h]; rfl
  · rw [h] at hs; exact absurd hs ho
  · rw [h]; cases m <;> rfl
  · rw [h]; rfl
  · rw [h]
    revert h'
    unfold textTypes
    simp only [List.mem_cons, List.mem_nil_iff, or_false, signType]
    intro h'
    revert h'
    cases ty <;> decide

theorem after_newlines (n : Nat) (last : TokenType) (pend : Bool) :
    ∃ last' pend', (⟨last, none, pend⟩ : Spot).after ((List.replicate n Spec.newline).map signType) = some ⟨last', none, pend'⟩
      ∧ (2 ≤ n → pend' = false) ∧ (last = .newLineChar → 1 ≤ n ∨ pend = false → pend' = false) := by
  induction n generalizing last pend with
  | zero => exact ⟨last, pend, rfl, fun h => absurd h (by decide), fun _ h => h.elim (fun h => absurd h (by decide)) id⟩
  | succ n ih =>
    obtain ⟨l', p', h1, h2, h3⟩ := ih .newLineChar (!(last = .newLineChar || last = .eof || last.clearsNewlineAfter))
    refine ⟨l', p', ?_, fun hn => h3 rfl (.inl (by omega)), fun hl _ => h3 rfl (.inr (by rw [hl]; rfl))⟩
    simp only [List.replicate_succ, List.map_cons, Spot.after]
    exact h1

theorem after_tags (tags : List Tag) (last : TokenType) (pend : Bool) :
    ∃ last' pend', (⟨last, none, pend⟩ : Spot).after ((tagsSigns tags).map signType) = some ⟨last', none, pend'⟩
      ∧ (tags = [] → pend' = pend) ∧ (tags ≠ [] → (∀ id, tags.getLast? ≠ some (.anchor id)) → pend' = false) := by
  induction tags generalizing last pend with
  | nil => exact ⟨last, pend, rfl, fun _ => rfl, fun h => absurd rfl h⟩
  | cons t ts ih =>
    obtain ⟨b, hb, hb'⟩ : ∃ b, (⟨last, none, pend⟩ : Spot).after ([t.sign, Spec.newline].map signType) = some ⟨.newLineChar, none, b⟩
        ∧ ((∀ id, t ≠ .anchor id) → b = false) := by
      cases t with
      | anchor id => exact ⟨true, rfl, fun h => absurd rfl (h id)⟩
      | list => exact ⟨false, rfl, fun _ => rfl⟩
      | quoted => exact ⟨false, rfl, fun _ => rfl⟩
    obtain ⟨l', p', h1, h2, h3⟩ := ih .newLineChar b
    refine ⟨l', p', ?_, nofun, fun _ h => ?_⟩
    · rw [tagsSigns, List.flatMap_cons, List.map_append]
      exact Spot.after_trans hb h1
    · cases ts with
      | nil => rw [h2 rfl]; exact hb' (fun id hid => h id (by rw [hid]; rfl))
      | cons x xs => exact h3 nofun (fun id => by rw [List.getLast?_cons_cons] at h; exact h id)

theorem after_item (v : ListVariant) (es : List Elem) (ho : OneLine es) (last : TokenType) (pend : Bool) :
    ∃ last', (⟨last, none, pend⟩ : Spot).after ((itemSigns v es).map signType) = some ⟨last', none, false⟩ := by
  obtain ⟨l', h⟩ := after_text _ (elems_text ho) (itemType v)
  refine ⟨l', ?_⟩
  rw [itemSigns, List.map_cons]
  exact Spot.after_trans (a := [itemType v]) (by cases v <;> rfl) h

theorem after_items (v : ListVariant) (items : List (List Elem)) (hne : items ≠ []) (ho : ∀ es ∈ items, OneLine es) (last : TokenType) (pend : Bool) :
    ∃ last', (⟨last, none, pend⟩ : Spot).after ((itemsSigns v items).map signType) = some ⟨last', none, false⟩ := by
  induction items generalizing last pend with
  | nil => exact absurd rfl hne
  | cons es rest ih =>
    obtain ⟨l1, h1⟩ := after_item v es (ho es (by simp)) last pend
    cases rest with
    | nil => exact ⟨l1, h1⟩
    | cons x xs =>
      obtain ⟨l2, h2⟩ := ih nofun (fun y hy => ho y (by simp [hy])) .newLineChar (!(l1 = .newLineChar || l1 = .eof || l1.clearsNewlineAfter))
      refine ⟨l2, ?_⟩
      simp only [itemsSigns, List.map_append, List.map_cons]
      exact Spot.after_trans h1 (Spot.after_trans (a := [.newLineChar]) rfl h2)

theorem after_body (n : Verb) (body : List Sign) (h : ∀ s ∈ body, inVerb n s = true) (last : TokenType) :
    ∃ last', (⟨last, some n.type, false⟩ : Spot).after (body.map signType) = some ⟨last', some n.type, false⟩ := by
  induction body generalizing last with
  | nil => exact ⟨last, rfl⟩
  | cons s ss ih =>
    obtain ⟨l', h'⟩ := ih (fun x hx => h x (by simp [hx])) (signType s)
    refine ⟨l', ?_⟩
    have h1 := h s (by simp)
    have : (⟨last, some n.type, false⟩ : Spot).next (signType s) = some ⟨signType s, some n.type, false⟩ := by
      cases s with
      | text l => cases n <;> rfl
      | mark ty l =>
        cases n <;> simp [inVerb, Verb.type] at h1 <;> simp [Spot.next, signType, Verb.type, h1] <;>
          first | exact of_decide_eq_true h1.1 | exact of_decide_eq_true h1
    simp only [List.map_cons, Spot.after, this, Option.bind_some, h']

theorem after_piece (e : Held) (ho : e.Ok) (hf : e.piece.folded = false) (last : TokenType) (pend : Bool)
    (hp : (∀ id, e.tags.getLast? ≠ some (.anchor id)) → pend = false) :
    ∃ last', (⟨last, none, pend⟩ : Spot).after (e.piece.signs.map signType) = some ⟨last', none, false⟩ := by
  obtain ⟨tags, piece, gap⟩ := e
  have hpl := ho.place
  have hok := ho.piece
  simp only [Held.place] at *
  cases piece with
  | para es =>
    obtain rfl := hpl
    obtain rfl := hp (by simp)
    exact after_text _ (elems_text (by simpa [Piece.folded, OneLine] using hf)) last
  | verb n d body =>
    obtain rfl := hp hpl
    obtain ⟨l', h⟩ := after_body n body hok.2 n.type
    refine ⟨n.type, ?_⟩
    simp only [Piece.signs, List.map_cons, List.map_append, List.map_nil, signType]
    refine Spot.after_trans (a := [n.type]) (s' := ⟨n.type, some n.type, false⟩) (by cases n <;> rfl) (Spot.after_trans h ?_)
    simp [Spot.after, Spot.next]
  | list v items => exact after_items v items hok.1 (by simpa [Piece.folded, OneLine] using hf) last pend

/-- The blocks in a box. -/
theorem after_held (held : List Held) (ho : ∀ e ∈ held, e.Ok) (hg : HeldGaps held) (hf : ∀ e ∈ held, e.piece.folded = false)
    (last : TokenType) : ∃ last' pend', (⟨last, none, false⟩ : Spot).after ((held.flatMap Held.signs).map signType) = some ⟨last', none, pend'⟩ := by
  induction held generalizing last with
  | nil => exact ⟨last, false, rfl⟩
  | cons e es ih =>
    obtain ⟨l1, p1, h1, h2, h3⟩ := after_tags e.tags last false
    obtain ⟨l2, h4⟩ := after_piece e (ho e (by simp)) (hf e (by simp)) l1 p1 (fun h => by
      by_cases ht : e.tags = []
      · exact h2 ht
      · exact h3 ht h)
    obtain ⟨l3, p3, h5, h6, _⟩ := after_newlines e.gap l2 false
    have h7 : (⟨last, none, false⟩ : Spot).after (e.signs.map signType) = some ⟨l3, none, p3⟩ := by
      rw [Held.signs, List.map_append, List.map_append]
      exact Spot.after_trans h1 (Spot.after_trans h4 h5)
    cases es with
    | nil => exact ⟨l3, p3, by simpa using h7⟩
    | cons e' es =>
      obtain rfl := h6 hg.1
      obtain ⟨l4, p4, h8⟩ := ih (fun x hx => ho x (by simp [hx])) hg.2 (fun x hx => hf x (by simp [hx])) l3
      exact ⟨l4, p4, by rw [List.flatMap_cons, List.map_append]; exact Spot.after_trans h7 h8⟩

/-- The blocks in a box are fed to the parser in the same way when the box is attached to a list item. -/
theorem held_attached (w : World) (k : Nat) (held : List Held) (ho : ∀ e ∈ held, e.Ok) (hg : HeldGaps held)
    (hf : ∀ e ∈ held, e.piece.folded = false) (p q : Parser) (hi : In p) (ht : p.openText = none) (hd : p.dangling = none)
    (ts : List Token) (hm : Matches (held.flatMap Held.signs) ts) (h : Feeds w k ts p q) : Feeds w k ts (ic p) (ic q) := by
  obtain ⟨l, b, h1⟩ := after_held held ho hg hf p.lastTy
  exact (feeds_at w k ts p q ⟨p.lastTy, none, false⟩ _ ⟨hi, rfl, ht, nofun, fun _ => hd⟩ (after_matches hm _ _ nofun h1) h).1

/-- The same for newlines. -/
theorem newlines_attached (w : World) (k : Nat) (p q : Parser) (hi : In p) (ht : p.openText = none) (hd : p.dangling = none) (n : Nat)
    (ts : List Token) (hm : Matches (List.replicate n Spec.newline) ts) (h : Feeds w k ts p q) : Feeds w k ts (ic p) (ic q) := by
  obtain ⟨l, b, h1, _⟩ := after_newlines n p.lastTy false
  exact (feeds_at w k ts p q ⟨p.lastTy, none, false⟩ _ ⟨hi, rfl, ht, nofun, fun _ => hd⟩ (after_matches hm _ _ nofun h1) h).1

end Adoc.Rich
