import Verif.Props.Rich
import Verif.Props.RichBooks
import Verif.Proof.RichClosed
/-!
# C71, byte by byte

A document that consists of one verbatim block, with any text in it whose constructs are closed.
-/
namespace Adoc.Props
open Spec Rich Scanner

/-- The delimiter of a verbatim block. -/
def Verb.delimiter : Verb → Str
  | .listing => b!"----"
  | .literal => b!"...."
  | .pass => b!"++++"

/-- A text for a verbatim block: its constructs are closed, every URL ends in it, there are no six equals signs in a row, and no
line of it is the delimiter. In a listing, no line ends with a callout or begins with an include directive. -/
structure VerbText (n : Verb) (content : Str) : Prop where
  utf8 : ∃ cs, content = enc cs
  closed : WellClosed content
  url : ∀ p r, content = p ++ r → b!"http" <+: r → ∃ b ∈ r, b = c!" " ∨ 128 ≤ b.toNat ∨ Lexical.Punct b ∧ b ∉ Lexical.urlPunct
  level : ¬b!"======" <:+: content
  inside : ∀ p q, content = p ++ (Verb.delimiter n ++ 10 :: q) → ¬Lexical.LineStart p
  callout : n = .listing → ∀ p v q, content = p ++ (c!"<" :: v ++ (b!">\n" ++ q)) → ∃ b ∈ v, b ≠ c!">" ∧ ¬(48 ≤ b.toNat ∧ b.toNat ≤ 57)
  directive : n = .listing → ∀ p q, content = p ++ (b!"include::" ++ q) → ¬Lexical.LineStart p

/-- The document that consists of a verbatim block. -/
def verbDoc (n : Verb) (body : List Sign) : RichDoc where
  blocks := [⟨[], .verb n (Verb.delimiter n) body, 1⟩]

/-- C71 for a document that consists of one listing, literal or passthrough block: its text is everything between the
delimiter lines, byte for byte, whatever it looks like.

Missing: texts with constructs that are not closed; for some of them the claim is false (`C71_url`, `C71_unclosed`). -/
theorem C71_text_partial (w : World) (k : Nat) (n : Verb) (content : Str) (h : VerbText n content) :
    ∃ g, parseText w (k + 2) (Verb.delimiter n ++ b!"\n" ++ content ++ Verb.delimiter n ++ b!"\n") = .ok g
      ∧ listedL [] g.blocks = [([], .leaf n.name .delimited (some (Verb.delimiter n)) [literal (b!"\n" ++ content)] none [])] := by
  obtain ⟨d, hd⟩ : ∃ d, Verb.delimiter n = d := ⟨_, rfl⟩
  have hdv : d = b!"----" ∨ d = b!"...." ∨ d = b!"++++" := by cases n <;> simp [← hd, Verb.delimiter]
  have hdc : ∀ b ∈ (d ++ b!"\n") ++ (d ++ b!"\n"), b ∉ b!"[i<=|hte" := by rcases hdv with rfl | rfl | rfl <;> decide
  have hda : ∀ b ∈ d ++ b!"\n", b.toNat < 128 := by rcases hdv with rfl | rfl | rfl <;> decide
  have hin : ∀ y, y ≠ [] → y <:+ content → 10 ∈ y := by
    rintro y hy ⟨p, rfl⟩
    have := h.closed.1
    rw [List.getLast?_append] at this
    cases hl : y.getLast? with
    | none => exact absurd (List.getLast?_eq_none_iff.1 hl) hy
    | some z =>
      rw [hl] at this
      cases this
      exact List.mem_of_getLast? hl
  have hne : content ≠ [] := by
    intro h'
    have := h.closed.1
    rw [h'] at this; cases this
  have hutf : ∃ cs, (d ++ b!"\n") ++ (content ++ (d ++ b!"\n")) = enc cs := by
    obtain ⟨cs, hcs⟩ := h.utf8
    obtain ⟨a, ha⟩ := ascii_enc _ hda
    exact ⟨a ++ (cs ++ a), by rw [enc_append, enc_append, ← ha, ← hcs]⟩
  obtain ⟨ss, h1, h2, h3⟩ := closed_signs (d ++ b!"\n") content (d ++ b!"\n") hutf
    (isBoundary_append _ _ (starts_append _ _ (by obtain ⟨cs, hcs⟩ := h.utf8; rw [hcs]; exact starts_enc cs)
      (by rcases hdv with rfl | rfl | rfl <;> (intro b hb; cases hb; decide))))
    (by
      refine ⟨by rw [← List.append_assoc, ← List.append_assoc, List.getLast?_append]; rfl, ?_⟩
      intro p r hp
      rcases suffix_cases hp with h' | ⟨y, hy, hs, rfl⟩
      · exact safe_plain fun b hb => hdc b (h' b hb)
      · obtain ⟨x, hx⟩ := hs
        exact safe_append (h.closed.2 x y hx.symm) (hin y hy ⟨x, hx⟩) hda)
    (by
      rintro ⟨p, q, hp⟩
      rw [List.append_assoc] at hp
      rcases suffix_cases hp.symm with h' | ⟨y, hy, hs, hq⟩
      · exact absurd (hdc _ (h' c!"=" rfl)) (by decide)
      · exact h.level ((prefix_lines (v := b!"======") ⟨q, hq⟩ (by decide) (hin y hy hs)).isInfix.trans hs.isInfix))
    (fun _ => h.closed.1)
    (by
      intro _ p r hp hr
      refine ⟨h.closed.2 p r hp, fun hh => ?_⟩
      obtain ⟨b, hb, hb'⟩ := h.url p r hp hh
      refine ⟨b, hb, fun ⟨_, g1, g2, g3⟩ => ?_⟩
      rcases hb' with g | g | ⟨g, g'⟩
      · exact g1 g
      · omega
      · exact g' (g3 g))
  have hsg : (verbDoc n (Spec.newline :: ss)).signs = .mark n.type d :: Spec.newline :: (ss ++ [.mark n.type d, Spec.newline]) := by
    simp [verbDoc, RichDoc.signs, headSigns, Tagged.signs, Gap.signs, Blk.signs, Piece.signs, tagsSigns, hd, Spec.newline]
  have hwr : written (verbDoc n (Spec.newline :: ss)).signs = (d ++ b!"\n") ++ (content ++ (d ++ b!"\n")) := by
    rw [hsg, written, written, written_append, h1]
    simp [written, Sign.str, Spec.newline]
  have hleg : Legible [] (verbDoc n (Spec.newline :: ss)).signs [] := by
    rw [hsg]
    have hdel : ∀ pre after, Lexical.LineStart pre → after.head? = some 10 → Lexical.Lexeme n.type pre d after := by
      intro pre after g1 g2
      rw [← hd]
      cases n <;> exact ⟨g1, rfl, g2⟩
    refine ⟨hdel _ _ (.inl rfl) rfl, rfl, legible_join (pre := d ++ b!"\n") (post := []) ?_ ?_⟩
    · simpa [written, Sign.str, Spec.newline] using h2
    · refine ⟨hdel _ _ (.inr ?_) rfl, rfl, trivial⟩
      rw [h1, List.getLast?_append, h.closed.1]; rfl
  have hverb : ∀ s ∈ ss, inVerb n s = true := by
    intro s hs
    cases s with
    | text l => rfl
    | mark ty l =>
      obtain ⟨a, b, g1, g2⟩ := legible_mark h2 hs
      rw [h1] at g1
      have hline : ∀ {a}, Lexical.LineStart (d ++ b!"\n" ++ a) → Lexical.LineStart a := by
        intro a h'
        cases a with
        | nil => exact .inl rfl
        | cons y a =>
          refine .inr ?_
          rcases h' with h' | h'
          · simp at h'
          · rw [List.getLast?_append, List.getLast?_eq_some_getLast (l := y :: a) (by simp)] at h'
            rw [List.getLast?_eq_some_getLast (l := y :: a) (by simp)]; exact h'
      have hlast : ∀ {b}, (b ++ (d ++ b!"\n")).head? = some 10 → ∃ q, b = 10 :: q := by
        intro b h'
        cases b with
        | nil => rcases hdv with rfl | rfl | rfl <;> cases h'
        | cons y b => cases h'; exact ⟨b, rfl⟩
      have f1 : ty ≠ n.type := by
        rintro rfl
        have : Lexical.LineStart (d ++ b!"\n" ++ a) ∧ l = Verb.delimiter n ∧ (b ++ (d ++ b!"\n")).head? = some 10 := by
          cases n <;> exact g2
        obtain ⟨e1, rfl, e3⟩ := this
        obtain ⟨q, rfl⟩ := hlast e3
        exact h.inside a q g1 (hline e1)
      have f2 : n = .listing → ty ≠ .codeCallout := by
        rintro hn rfl
        obtain ⟨e1, e2⟩ := g2
        obtain ⟨q, rfl⟩ := hlast e1
        have key : ∀ v, l = c!"<" :: v ++ b!">" → (∀ b ∈ v, b = c!">" ∨ 48 ≤ b.toNat ∧ b.toNat ≤ 57) → False := by
          rintro v rfl hv
          obtain ⟨x, x1, x2, x3⟩ := h.callout hn a v q (by rw [g1]; simp)
          rcases hv x x1 with h' | h'
          · exact x2 h'
          · exact x3 h'
        rcases e2 with ⟨_, ds, hds, rfl⟩ | ⟨_, ds, es, hds, hes, rfl⟩
        · exact key ds (by simp) fun b hb => .inr (hds b hb)
        · refine key (ds ++ c!">" :: es) (by simp) fun b hb => ?_
          rcases List.mem_append.1 hb with hb | hb
          · exact .inr (hds b hb)
          · rcases List.mem_cons.1 hb with hb | hb
            · exact .inl hb
            · exact .inr (hes b hb)
      have f3 : n = .listing → ty ≠ .include := by
        rintro hn rfl
        obtain ⟨e1, body, rfl, _⟩ := g2
        exact h.directive hn a (body ++ b!"]" ++ b) (by rw [g1]; simp) (hline e1)
      cases n <;> simp [inVerb, f1, f2, f3]
  have ho : (verbDoc n (Spec.newline :: ss)).Ok := {
    head := by intro h hh; cases hh
    blocks := by
      intro e he
      simp only [verbDoc, List.mem_cons, List.not_mem_nil, or_false] at he
      subst he
      refine ⟨by simp [TagsOk], ⟨by simp, ?_⟩, by simp [TagsFor]⟩
      intro x hx
      rcases List.mem_cons.1 hx with rfl | hx
      · cases n <;> rfl
      · exact hverb x hx
    gaps := by simp [verbDoc, GapsOk, Blk.ending]
    flow := rfl
    ids := List.nodup_nil
    icons := by rintro ⟨e, he, h⟩; simp [verbDoc] at he; subst he; cases h
    signs := by
      intro s hs
      rw [hsg] at hs
      simp only [List.mem_cons, List.mem_append, List.not_mem_nil, or_false] at hs
      rcases hs with rfl | rfl | hs | rfl | rfl
      · cases n <;> exact ⟨by simp [Verb.type], by simp [Verb.type]⟩
      · exact ⟨by simp, by simp⟩
      · exact h3 s hs
      · cases n <;> exact ⟨by simp [Verb.type], by simp [Verb.type]⟩
      · exact ⟨by simp, by simp⟩ }
  obtain ⟨g, e1, e2, _⟩ := C23_rich_partial w k _ ho hleg (by rw [hwr]; exact hutf) (fun x hx => by cases hx)
  rw [hwr] at e1
  refine ⟨g, by rw [hd]; simpa [List.append_assoc] using e1, ?_⟩
  rw [e2, ← h1, hd]
  have : contents (verbDoc n (Spec.newline :: ss)).ids [] (verbDoc n (Spec.newline :: ss)).blocks
      = [([], .leaf n.name .delimited (some (Verb.delimiter n)) [literal (written (Spec.newline :: ss))] none [])] := rfl
  rw [this, hd]
  rfl

/-! ### A text of the class -/

theorem all_splits {P : Str → Str → Prop} {c : Str} (h : ∀ k ∈ List.range (c.length + 1), P (c.take k) (c.drop k)) (p r : Str)
    (he : c = p ++ r) : P p r := by
  have := h p.length (by rw [List.mem_range, he, List.length_append]; omega)
  rwa [he, List.take_left, List.drop_left] at this

/-- A text with all sorts of markup. -/
def trickyText : Str := b!"== A *b*\n\n* c <1> [[d\n<<e>> ]]\n====\n|f http://g/h i\n include::j[]\n\n:k: {l}\n ----\n"

theorem trickyText_ok : VerbText .listing trickyText where
  utf8 := ascii_enc _ (by decide)
  closed := closed_of_safeB (by decide +kernel) (by decide)
  url := all_splits (P := fun _ r => b!"http" <+: r → ∃ b ∈ r, b = c!" " ∨ 128 ≤ b.toNat ∨ Lexical.Punct b ∧ b ∉ Lexical.urlPunct)
    (by unfold Lexical.Punct; decide +kernel)
  level := by decide +kernel
  inside := fun p q he => all_splits (P := fun p r => b!"----\n" <+: r → ¬(p = [] ∨ p.getLast? = some 10)) (by decide +kernel) p _ he
    ⟨q, by simp [Verb.delimiter]⟩
  callout := fun _ p v q he => by
    have h : b!">\n" <:+: trickyText := ⟨p ++ c!"<" :: v, q, by rw [he]; simp⟩
    exact absurd h (by decide +kernel)
  directive := fun _ p q he => all_splits (P := fun p r => b!"include::" <+: r → ¬(p = [] ∨ p.getLast? = some 10)) (by decide +kernel) p _ he
    ⟨q, rfl⟩

example : ∃ g, parseText emptyWorld 2 (b!"----\n" ++ trickyText ++ b!"----\n") = .ok g
    ∧ listedL [] g.blocks = [([], .leaf .listing .delimited (some b!"----") [literal (b!"\n" ++ trickyText)] none [])] :=
  C71_text_partial emptyWorld 0 .listing trickyText trickyText_ok

/-! ### Where the claim is false -/

/-- A URL goes on over the end of the line. At the end of a literal block it takes the delimiter with it, and so everything
after it is in the block. -/
theorem C71_url :
    returns ((parseText emptyWorld 5 b!"....\nhttp://x\n....\n\nb\n").map fun g => sketchBs g.blocks)
      b!"leaf(\nhttp://x\n....\n\nb\n)" = true := by
  decide +kernel

/-- A reference that is not closed in a listing is closed after it. -/
theorem C71_unclosed :
    returns ((parseText emptyWorld 5 b!"----\na << b\n----\n\nc >> d\n").map fun g => sketchBs g.blocks)
      b!"leaf(\na << b\n----\n\nc >> d\n)" = true := by
  decide +kernel
end Adoc.Props
