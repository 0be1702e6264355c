import Verif.Props.Spacing
import Verif.Props.Whole
/-!
# C107: runs of the program on two layouts of a document
-/
namespace Adoc.Rich
open Spec

mutual
theorem inlineText_bare1 (i : Inline) : Inline.text (bare i) = Inline.text i := by
  match i with
  | .lit .. | .brk _ => rfl
  | .span v f is m l o => simp only [bare, Inline.text, inlineText_bare is]
  | .ref v t is m l => simp only [bare, Inline.text, inlineText_bare is]
theorem inlineText_bare (is : List Inline) : Inline.textL (bareL is) = Inline.textL is := by
  match is with
  | [] => rfl
  | i :: is => simp only [bareL, Inline.textL, inlineText_bare1 i, inlineText_bare is]
end

mutual
theorem blockText_bare1 (b : Block) : Block.text (bareB b) = Block.text b := by
  match b with
  | .brk .. => rfl
  | .section t m v bs l => simp only [bareB, Block.text, inlineText_bare, blockText_bare bs]
  | .list v bs m l => simp only [bareB, Block.text, blockText_bare bs]
  | .listItem k p bs m l => simp only [bareB, Block.text, inlineText_bare, blockText_bare bs]
  | .dlist bs m l => simp only [bareB, Block.text, blockText_bare bs]
  | .dlistItem t p bs m l => simp only [bareB, Block.text, inlineText_bare, blockText_bare bs]
  | .image t c m l => simp only [bareB, Block.text, inlineText_bare]
  | .leaf n f d is m l => simp only [bareB, Block.text, inlineText_bare]
  | .parent n v d bs t m l => simp only [bareB, Block.text, blockText_bare bs]
  | .tableCell is m l => simp only [bareB, Block.text, inlineText_bare]
theorem blockText_bare (bs : List Block) : Block.textL (bareBs bs) = Block.textL bs := by
  match bs with
  | [] => rfl
  | b :: bs => simp only [bareBs, Block.textL, blockText_bare1 b, blockText_bare bs]
end
end Adoc.Rich

namespace Adoc.Props
open Spec Rich Cli

/-- The number of words of two graphs with the same blocks is the same, whatever their locations. -/
theorem C107_words {g h : Asg} (hb : listedL [] g.blocks = listedL [] h.blocks) : g.wordCount = h.wordCount := by
  unfold Asg.wordCount Asg.allText
  rw [← blockText_bare, listedL_bare _ _ _ hb, blockText_bare]

/-- **C107, partial** (runs): a run of the program with any arguments for HTML or Word, on either of two sources of the class
of `Spec/Book` with the same title and blocks, however they are laid out and divided into files: it prints the same, writes
the same files with the same contents, and ends in the same way.

Missing: documents outside the class. The JSON output has locations in it and is not the same. -/
theorem C107_runs_partial (s s' : System) (c : Call) (d d' : Book) (hc : c.backend ≠ .json)
    (hw : s.writable = s'.writable) (hpic : s.pictures = s'.pictures) (hsee : s.sees = s'.sees)
    (hs : SameSaid d.head d'.head (blocksL d.parts) (blocksL d'.parts))
    (ho : d.Ok) (hl : Legible [] d.signs []) (hu : ∃ cs, Spec.written d.signs = enc cs)
    (h1 : SourceOf s c (Spec.written d.signs)) (h2 : foundL s.world d.parts []) (h3 : depthL d.parts + 2 ≤ s.fuel)
    (ho' : d'.Ok) (hl' : Legible [] d'.signs []) (hu' : ∃ cs, Spec.written d'.signs = enc cs)
    (h1' : SourceOf s' c (Spec.written d'.signs)) (h2' : foundL s'.world d'.parts []) (h3' : depthL d'.parts + 2 ≤ s'.fuel) :
    run s c = run s' c := by
  obtain ⟨g, g1, g2, g3, _⟩ := parse_book s.world (s.fuel - (depthL d.parts + 2)) d ho hl hu h2
  obtain ⟨g', k1, k2, k3, _⟩ := parse_book s'.world (s'.fuel - (depthL d'.parts + 2)) d' ho' hl' hu' h2'
  rw [show s.fuel - (depthL d.parts + 2) + depthL d.parts + 2 = s.fuel by omega] at g1
  rw [show s'.fuel - (depthL d'.parts + 2) + depthL d'.parts + 2 = s'.fuel by omega] at k1
  have hout := sameSaid_outputs hs g2 k2 g3 k3
  have hlist : listedL [] g.blocks = listedL [] g'.blocks := by
    rw [g2, k2]
    show contents ((blocksL d.parts).flatMap Tagged.ids) [] _ = contents ((blocksL d'.parts).flatMap Tagged.ids) [] _
    rw [(contents_gaps [] [] _ _ hs.blocks).2]
    exact (contents_gaps _ _ _ _ hs.blocks).1
  have hcount : countLine c g = countLine c g' := by unfold countLine; rw [C107_words hlist]
  have runs : ∀ (s : System) (src : Str) (g : Asg), SourceOf s c src → parseText s.world s.fuel src = .ok g →
      run s c = output s c (countLine c g) g := by
    intro s src g ha hb
    have hg : Cli.graphOf s c src = .ok g := by
      unfold Cli.graphOf
      split
      · exact (C94_keeps (fun _ _ _ h => h) (fun _ _ h => h) (Nat.le_refl _) hb).2
      · exact hb
    unfold run
    rw [(source_iff s c src).2 ha]
    dsimp only
    rw [hg]
  rw [runs s _ g h1 g1, runs s' _ g' h1' k1, hcount]
  have ht : ∀ x t, renderString s c x t = renderString s' c x t := by intro x t; unfold renderString; rw [hw]
  unfold output
  cases hb : c.backend with
  | json => exact absurd hb hc
  | htmlbook => simp only [hsee, hout.1, ht]
  | docx => simp only [hpic, hout.2, hw]

/-- A system with the files of the book of `Props/RichBooks`, with an attribute and more blank lines after the title. -/
def moreDesk : System := { bookDesk with input := fun p => if p = b!"book.adoc" then some (Spec.written bookMore.signs) else none }

example (c : Call) (hf : c.file = b!"book.adoc") (hc : c.backend ≠ .json) : run bookDesk c = run moreDesk c :=
  C107_runs_partial bookDesk moreDesk c bookDoc bookMore hc rfl rfl rfl ⟨rfl, rfl⟩
    bookSample_ok bookSample_legible (ascii_enc _ bookSample_ascii)
    (by unfold SourceOf; rw [hf, bookSample_written]; rfl) bookSample_found (by decide)
    bookMore_ok (Scanner.legible_of_legibleB (ascii_enc _ bookMore_ascii) (by decide +kernel)) (ascii_enc _ bookMore_ascii)
    (by unfold SourceOf; rw [hf]; rfl) bookSample_found (by decide)

end Adoc.Props
