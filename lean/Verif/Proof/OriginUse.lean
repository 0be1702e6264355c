import Verif.Proof.OriginParser
import Verif.Proof.HtmlPlace
import Verif.Spec.Word
/-!
# Consequences of the origin of a graph (used in C58, C60, C62, C64, C65 and C67 to C68)
-/
namespace Adoc.Origin
open Markup

set_option linter.unusedSectionVars false

variable {av : UInt8 → Prop}

/-! ## Nodes -/

mutual
theorem innerI_node (i : Inline) (h : EveryI av i) : ∀ j ∈ innerI i, NodeI av j := by
  cases i with
  | span v f is m l o =>
    simp only [EveryI, innerI, List.mem_cons] at h ⊢
    rintro j (rfl | hj)
    · exact h.1
    · exact innerIs_node is h.2 j hj
  | ref v t is m l =>
    simp only [EveryI, innerI, List.mem_cons] at h ⊢
    rintro j (rfl | hj)
    · exact h.1
    · exact innerIs_node is h.2 j hj
  | lit n v l =>
    simp only [EveryI, innerI, List.mem_singleton] at h ⊢
    rintro j rfl; exact h
  | brk l =>
    simp only [EveryI, innerI, List.mem_singleton] at h ⊢
    rintro j rfl; exact h
theorem innerIs_node (is : List Inline) (h : EveryIs av is) : ∀ j ∈ innerIs is, NodeI av j := by
  cases is with
  | nil => intro j hj; simp [innerIs] at hj
  | cons i is =>
    simp only [EveryIs, innerIs, List.mem_append] at h ⊢
    rintro j (hj | hj)
    · exact innerI_node i h.1 j hj
    · exact innerIs_node is h.2 j hj
end

mutual
theorem inner_node (b : Block) (h : EveryB av b) : ∀ x ∈ inner b, NodeB av x := by
  cases b with
  | «section» t m v bs l =>
    simp only [EveryB, inner, List.mem_cons] at h ⊢
    rintro x (rfl | hx)
    · exact h.1
    · exact innerL_node bs h.2 x hx
  | list v bs m l =>
    simp only [EveryB, inner, List.mem_cons] at h ⊢
    rintro x (rfl | hx)
    · exact h.1
    · exact innerL_node bs h.2 x hx
  | listItem k p bs m l =>
    simp only [EveryB, inner, List.mem_cons] at h ⊢
    rintro x (rfl | hx)
    · exact h.1
    · exact innerL_node bs h.2 x hx
  | dlist bs m l =>
    simp only [EveryB, inner, List.mem_cons] at h ⊢
    rintro x (rfl | hx)
    · exact h.1
    · exact innerL_node bs h.2 x hx
  | dlistItem t p bs m l =>
    simp only [EveryB, inner, List.mem_cons] at h ⊢
    rintro x (rfl | hx)
    · exact h.1
    · exact innerL_node bs h.2 x hx
  | parent n v d bs t m l =>
    simp only [EveryB, inner, List.mem_cons] at h ⊢
    rintro x (rfl | hx)
    · exact h.1
    · exact innerL_node bs h.2 x hx
  | brk v l =>
    simp only [EveryB, inner, List.mem_singleton] at h ⊢
    rintro x rfl; exact h
  | image t c m l =>
    simp only [EveryB, inner, List.mem_singleton] at h ⊢
    rintro x rfl; exact h
  | leaf n f d is m l =>
    simp only [EveryB, inner, List.mem_singleton] at h ⊢
    rintro x rfl; exact h
  | tableCell is m l =>
    simp only [EveryB, inner, List.mem_singleton] at h ⊢
    rintro x rfl; exact h
theorem innerL_node (bs : List Block) (h : EveryBs av bs) : ∀ x ∈ innerL bs, NodeB av x := by
  cases bs with
  | nil => intro x hx; simp [innerL] at hx
  | cons b bs =>
    simp only [EveryBs, innerL, List.mem_append] at h ⊢
    rintro x (hx | hx)
    · exact inner_node b h.1 x hx
    · exact innerL_node bs h.2 x hx
end

theorem everyIs_app {a b : List Inline} (ha : EveryIs av a) (hb : EveryIs av b) : EveryIs av (a ++ b) := by
  induction a with
  | nil => exact hb
  | cons i a ih => exact ⟨ha.1, ih ha.2⟩

theorem own_every {b : Block} (h : NodeB av b) : EveryIs av (ownInlines b) := by
  cases b <;> simp only [NodeB, ownInlines] at h ⊢
  case «section» => exact h.2.1
  case list => trivial
  case listItem => exact h.2.2.1
  case dlist => trivial
  case dlistItem => exact everyIs_app h.2.1 h.2.2.1
  case brk => trivial
  case image => exact h.2.2.1
  case leaf => exact h.2.1
  case parent => exact h.2.1
  case tableCell => exact h.2.1

theorem all_block {g : Asg} (h : EveryG av g) : ∀ b ∈ allBlocks g, NodeB av b := innerL_node _ h.blocks

theorem title_every {g : Asg} (h : EveryG av g) : EveryIs av ((g.header.map (·.title)).getD []) := by
  have := h.header
  cases hh : g.header with
  | none => trivial
  | some x => exact (this x hh).2

theorem all_inline {g : Asg} (h : EveryG av g) : ∀ i ∈ allInlines g, NodeI av i := by
  intro i hi
  simp only [allInlines, List.mem_append, List.mem_flatMap] at hi
  rcases hi with hi | ⟨b, hb, hi⟩
  · exact innerIs_node _ (title_every h) i hi
  · exact innerIs_node _ (own_every (all_block h b hb)) i hi

theorem marks_of {b : Block} (h : NodeB av b) : Alt av (marks b) := by
  cases b <;> simp only [NodeB, marks] at h ⊢
  case «section» => exact ⟨_, by simp, h.1⟩
  case list => exact h.1
  case listItem => exact h.1
  case dlist => exact ⟨_, by simp, h.1⟩
  case dlistItem => exact ⟨_, by simp, h.1⟩
  case brk => exact h
  case image => exact ⟨_, by simp, h.1⟩
  case leaf => exact h.1
  case parent => exact h.1
  case tableCell => exact ⟨_, by simp, h.1⟩

theorem marksI_of {i : Inline} (h : NodeI av i) : Alt av (marksI i) := by
  cases i <;> simp only [NodeI, marksI] at h ⊢
  case span => exact h.1
  case ref => exact h.1
  case lit => exact h.1
  case brk => exact ⟨_, by simp, h⟩

theorem meta_of {b : Block} (h : NodeB av b) : MetaOk? av (metaOf b) := by
  cases b <;> simp only [NodeB, metaOf] at h ⊢
  case «section» => exact h.2.2
  case list => exact h.2
  case listItem => exact h.2.2.2
  case dlist => exact h.2
  case dlistItem => exact h.2.2.2
  case brk => trivial
  case image => exact h.2.2.2
  case leaf => exact h.2.2
  case parent => exact h.2.2
  case tableCell => exact h.2.2

theorem metaI_of {i : Inline} (h : NodeI av i) : MetaOk? av (metaOfI i) := by
  cases i <;> simp only [NodeI, metaOfI] at h ⊢
  case span => exact h.2
  case ref => exact h.2.2
  case lit => trivial
  case brk => trivial

theorem all_meta {g : Asg} (h : EveryG av g) : ∀ m ∈ allMeta g, MetaOk av m := by
  intro m hm
  simp only [allMeta, List.mem_append, List.mem_filterMap] at hm
  rcases hm with ⟨b, hb, hm⟩ | ⟨i, hi, hm⟩
  · have := meta_of (all_block h b hb)
    rw [hm] at this; exact this
  · have := metaI_of (all_inline h i hi)
    rw [hm] at this; exact this

theorem all_texts {g : Asg} (h : EveryG av g) : ∀ s ∈ allTexts g, OkS av s := by
  intro s hs
  simp only [allTexts, List.mem_append, List.mem_flatMap] at hs
  rcases hs with ⟨i, hi, hs⟩ | ⟨b, hb, hs⟩
  · have := all_inline h i hi
    cases i <;> simp only [textsI, List.mem_singleton, List.not_mem_nil] at hs
    · subst hs; exact this.2.1
    · subst hs; exact this.2
  · have := all_block h b hb
    cases b <;> simp only [textsB, List.mem_singleton, List.not_mem_nil] at hs
    · subst hs; exact okS_of_av this.2.1
    · subst hs; exact this.2.1

/-! ## The text of a graph -/

mutual
theorem textI_ok (i : Inline) (h : EveryI av i) : OkS av (Inline.text i) := by
  cases i with
  | span v f is m l o => exact textIs_ok is h.2
  | ref v t is m l => exact textIs_ok is h.2
  | lit n v l => exact h.2
  | brk l => intro b hb; simp [Inline.text] at hb
theorem textIs_ok (is : List Inline) (h : EveryIs av is) : OkS av (Inline.textL is) := by
  cases is with
  | nil => intro b hb; simp [Inline.textL] at hb
  | cons i is =>
    intro b hb
    simp only [Inline.textL, List.mem_append] at hb
    rcases hb with hb | hb
    · exact textI_ok i h.1 b hb
    · exact textIs_ok is h.2 b hb
end

theorem okS_app {a b : Str} (ha : OkS av a) (hb : OkS av b) : OkS av (a ++ b) := by
  intro x hx
  rcases List.mem_append.1 hx with hx | hx
  · exact ha x hx
  · exact hb x hx

mutual
theorem text_ok (b : Block) (h : EveryB av b) : OkS av (Block.text b) := by
  cases b with
  | «section» t m v bs l => exact okS_app (textIs_ok _ h.1.2.1) (textL_ok bs h.2)
  | list v bs m l => exact textL_ok bs h.2
  | listItem k p bs m l => exact okS_app (textIs_ok _ h.1.2.2.1) (textL_ok bs h.2)
  | dlist bs m l => exact textL_ok bs h.2
  | dlistItem t p bs m l => exact okS_app (textIs_ok _ h.1.2.2.1) (textL_ok bs h.2)
  | parent n v d bs t m l => exact textL_ok bs h.2
  | brk v l => intro b hb; simp [Block.text] at hb
  | image t c m l => exact textIs_ok _ h.2.2.1
  | leaf n f d is m l => exact textIs_ok _ h.2.1
  | tableCell is m l => exact textIs_ok _ h.2.1
theorem textL_ok (bs : List Block) (h : EveryBs av bs) : OkS av (Block.textL bs) := by
  cases bs with
  | nil => intro b hb; simp [Block.textL] at hb
  | cons b bs => exact okS_app (text_ok b h.1) (textL_ok bs h.2)
end

/-! ## Pages -/

/-- Texts that pass a test if they have an origin. -/
theorem okS_noTag {s : Str} (ht : ¬ av c!"<") (h : OkS av s) : noTag s = true := by
  simp only [noTag, List.all_eq_true, decide_eq_true_eq, ne_eq]
  rintro b hb rfl
  rcases h _ hb with h | h
  · exact ht h
  · revert h; decide

theorem okS_unquoted {s : Str} (hq : ¬ av c!"\"") (h : OkS av s) : unquoted s = true := by
  simp only [unquoted, List.all_eq_true, decide_eq_true_eq, ne_eq]
  rintro b hb rfl
  rcases h _ hb with h | h
  · exact hq h
  · revert h; decide

theorem value_ok {m : Option Meta} (h : MetaOk? av m) (k : Str) : OkS av (value m k) := by
  cases m with
  | none => intro b hb; simp [value] at hb
  | some m =>
    simp only [value]
    cases hk : m.attributes.get? k with
    | none => intro b hb; simp at hb
    | some v => exact h.values _ (SMap.get?_mem _ _ _ hk)

section
variable (ht : ¬ av c!"<") (hq : ¬ av c!"\"")
include ht hq

theorem tidyMeta_of {m : Option Meta} (h : MetaOk? av m) : tidyMeta noTag m = true := by
  simp only [tidyMeta, Bool.and_eq_true]
  refine ⟨⟨⟨⟨⟨?_, ?_⟩, ?_⟩, ?_⟩, ?_⟩, ?_⟩
  · cases m with
    | none => rfl
    | some m =>
      simp only [List.all_eq_true]
      intro r hr
      rcases h.roles r hr with h | rfl | rfl
      · exact okS_unquoted hq h
      · decide
      · decide
  · exact okS_unquoted hq (value_ok h _)
  · exact okS_unquoted hq (value_ok h _)
  · exact okS_unquoted hq (value_ok h _)
  · exact okS_noTag ht (value_ok h _)
  · exact okS_noTag ht (value_ok h _)

mutual
theorem tidyI_of (i : Inline) (h : EveryI av i) : tidyI noTag i = true := by
  cases i with
  | span v f is m l o =>
    simp only [tidyI, Bool.and_eq_true]
    exact ⟨tidyMeta_of ht hq h.1.2, tidyIs_of is h.2⟩
  | ref v t is m l =>
    simp only [tidyI, Bool.and_eq_true]
    exact ⟨⟨⟨tidyMeta_of ht hq h.1.2.2, okS_unquoted hq h.1.2.1⟩, okS_noTag ht h.1.2.1⟩, tidyIs_of is h.2⟩
  | lit n v l => exact okS_noTag ht h.2
  | brk l => rfl
theorem tidyIs_of (is : List Inline) (h : EveryIs av is) : tidyIs noTag is = true := by
  cases is with
  | nil => rfl
  | cons i is =>
    simp only [tidyIs, Bool.and_eq_true]
    exact ⟨tidyI_of i h.1, tidyIs_of is h.2⟩
end

mutual
theorem tidy_of (b : Block) (h : EveryB av b) : tidy noTag b = true := by
  cases b with
  | «section» t m v bs l =>
    simp only [tidy, Bool.and_eq_true]
    exact ⟨⟨tidyIs_of ht hq _ h.1.2.1, tidyMeta_of ht hq h.1.2.2⟩, tidyL_of bs h.2⟩
  | list v bs m l =>
    simp only [tidy, Bool.and_eq_true]
    exact ⟨tidyMeta_of ht hq h.1.2, tidyL_of bs h.2⟩
  | listItem k p bs m l =>
    simp only [tidy, Bool.and_eq_true]
    exact ⟨⟨tidyIs_of ht hq _ h.1.2.2.1, tidyMeta_of ht hq h.1.2.2.2⟩, tidyL_of bs h.2⟩
  | dlist bs m l =>
    simp only [tidy, Bool.and_eq_true]
    exact ⟨tidyMeta_of ht hq h.1.2, tidyL_of bs h.2⟩
  | dlistItem t p bs m l =>
    simp only [tidy, Bool.and_eq_true]
    exact ⟨⟨⟨tidyIs_of ht hq _ h.1.2.1, tidyIs_of ht hq _ h.1.2.2.1⟩, tidyMeta_of ht hq h.1.2.2.2⟩, tidyL_of bs h.2⟩
  | parent n v d bs t m l =>
    simp only [tidy, Bool.and_eq_true]
    exact ⟨⟨tidyIs_of ht hq _ h.1.2.1, tidyMeta_of ht hq h.1.2.2⟩, tidyL_of bs h.2⟩
  | brk v l => rfl
  | image t c m l =>
    simp only [tidy, Bool.and_eq_true]
    exact ⟨⟨okS_unquoted hq h.2.1, tidyIs_of ht hq _ h.2.2.1⟩, tidyMeta_of ht hq h.2.2.2⟩
  | leaf n f d is m l =>
    simp only [tidy, Bool.and_eq_true]
    exact ⟨tidyIs_of ht hq _ h.2.1, tidyMeta_of ht hq h.2.2⟩
  | tableCell is m l =>
    simp only [tidy, Bool.and_eq_true]
    exact ⟨tidyIs_of ht hq _ h.2.1, tidyMeta_of ht hq h.2.2⟩
theorem tidyL_of (bs : List Block) (h : EveryBs av bs) : tidyL noTag bs = true := by
  cases bs with
  | nil => rfl
  | cons b bs =>
    simp only [tidyL, Bool.and_eq_true]
    exact ⟨tidy_of b h.1, tidyL_of bs h.2⟩
end

/-- Without angle brackets and double quotes in the source, all texts are such as the templates can write. -/
theorem tidyDoc_of {g : Asg} (h : EveryG av g) : tidyDoc noTag g = true := by
  simp only [tidyDoc, Bool.and_eq_true]
  refine ⟨?_, tidyL_of ht hq _ h.blocks⟩
  have := h.header
  cases hh : g.header with
  | none => rfl
  | some x => exact tidyIs_of ht hq _ (this x hh).2
end

section
variable {ok ok' : Str → Bool} (hm : ∀ s, ok s = true → ok' s = true)
include hm

theorem tidyMeta_mono {m : Option Meta} (h : tidyMeta ok m = true) : tidyMeta ok' m = true := by
  simp only [tidyMeta, Bool.and_eq_true] at h ⊢
  exact ⟨⟨h.1.1, hm _ h.1.2⟩, hm _ h.2⟩

mutual
theorem tidyI_mono (i : Inline) (h : tidyI ok i = true) : tidyI ok' i = true := by
  cases i <;> simp only [tidyI, Bool.and_eq_true] at h ⊢
  case span => exact ⟨tidyMeta_mono hm h.1, tidyIs_mono _ h.2⟩
  case ref => exact ⟨⟨⟨tidyMeta_mono hm h.1.1.1, h.1.1.2⟩, hm _ h.1.2⟩, tidyIs_mono _ h.2⟩
  case lit => exact hm _ h
theorem tidyIs_mono (is : List Inline) (h : tidyIs ok is = true) : tidyIs ok' is = true := by
  cases is with
  | nil => rfl
  | cons i is =>
    simp only [tidyIs, Bool.and_eq_true] at h ⊢
    exact ⟨tidyI_mono i h.1, tidyIs_mono is h.2⟩
end

mutual
theorem tidy_mono (b : Block) (h : tidy ok b = true) : tidy ok' b = true := by
  cases b <;> simp only [tidy, Bool.and_eq_true] at h ⊢
  case «section» => exact ⟨⟨tidyIs_mono hm _ h.1.1, tidyMeta_mono hm h.1.2⟩, tidyL_mono _ h.2⟩
  case list => exact ⟨tidyMeta_mono hm h.1, tidyL_mono _ h.2⟩
  case listItem => exact ⟨⟨tidyIs_mono hm _ h.1.1, tidyMeta_mono hm h.1.2⟩, tidyL_mono _ h.2⟩
  case dlist => exact ⟨tidyMeta_mono hm h.1, tidyL_mono _ h.2⟩
  case dlistItem =>
    exact ⟨⟨⟨tidyIs_mono hm _ h.1.1.1, tidyIs_mono hm _ h.1.1.2⟩, tidyMeta_mono hm h.1.2⟩, tidyL_mono _ h.2⟩
  case image => exact ⟨⟨h.1.1, tidyIs_mono hm _ h.1.2⟩, tidyMeta_mono hm h.2⟩
  case leaf => exact ⟨tidyIs_mono hm _ h.1, tidyMeta_mono hm h.2⟩
  case parent => exact ⟨⟨tidyIs_mono hm _ h.1.1, tidyMeta_mono hm h.1.2⟩, tidyL_mono _ h.2⟩
  case tableCell => exact ⟨tidyIs_mono hm _ h.1, tidyMeta_mono hm h.2⟩
theorem tidyL_mono (bs : List Block) (h : tidyL ok bs = true) : tidyL ok' bs = true := by
  cases bs with
  | nil => rfl
  | cons b bs =>
    simp only [tidyL, Bool.and_eq_true] at h ⊢
    exact ⟨tidy_mono b h.1, tidyL_mono bs h.2⟩
end

theorem tidyDoc_mono {g : Asg} (h : tidyDoc ok g = true) : tidyDoc ok' g = true := by
  simp only [tidyDoc, Bool.and_eq_true] at h ⊢
  refine ⟨?_, tidyL_mono hm _ h.2⟩
  have h1 := h.1
  cases hh : g.header with
  | none => rfl
  | some x =>
    rw [hh] at h1
    exact tidyIs_mono hm _ h1
end

/-! ## Tables and images -/

mutual
theorem gridded_of (hp : ¬ av c!"|") (b : Block) (h : EveryB av b) : gridded b = true := by
  cases b with
  | «section» t m v bs l => exact griddedL_of hp bs h.2
  | list v bs m l => exact griddedL_of hp bs h.2
  | listItem k p bs m l => exact griddedL_of hp bs h.2
  | dlist bs m l => exact griddedL_of hp bs h.2
  | dlistItem t p bs m l => exact griddedL_of hp bs h.2
  | parent n v d bs t m l =>
    cases n
    case table =>
      obtain ⟨a, ha, h'⟩ := h.1.1
      simp only [parentMarks, List.mem_singleton] at ha
      subst ha
      exact absurd (h' _ (by decide)) hp
    all_goals exact griddedL_of hp bs h.2
  | brk v l => rfl
  | image t c m l => rfl
  | leaf n f d is m l => rfl
  | tableCell is m l => rfl
theorem griddedL_of (hp : ¬ av c!"|") (bs : List Block) (h : EveryBs av bs) : griddedL bs = true := by
  cases bs with
  | nil => rfl
  | cons b bs =>
    simp only [griddedL, Bool.and_eq_true]
    exact ⟨gridded_of hp b h.1, griddedL_of hp bs h.2⟩
end

mutual
theorem fine_of {io : Str → Option Unit} (hp : ¬ av c!"|") (hi : ¬ AvS av b!"image:]") (b : Block)
    (h : EveryB av b) : Word.fine io b := by
  cases b with
  | «section» t m v bs l => exact fineL_of hp hi bs h.2
  | list v bs m l => exact fineL_of hp hi bs h.2
  | listItem k p bs m l => exact trivial
  | dlist bs m l => exact fineL_of hp hi bs h.2
  | dlistItem t p bs m l => exact fineL_of hp hi bs h.2
  | parent n v d bs t m l =>
    cases n
    case table =>
      obtain ⟨a, ha, h'⟩ := h.1.1
      simp only [parentMarks, List.mem_singleton] at ha
      subst ha
      exact absurd (h' _ (by decide)) hp
    case footnoteContainer => trivial
    all_goals exact fineL_of hp hi bs h.2
  | brk v l => trivial
  | image t c m l => exact absurd h.1 hi
  | leaf n f d is m l => trivial
  | tableCell is m l => trivial
theorem fineL_of {io : Str → Option Unit} (hp : ¬ av c!"|") (hi : ¬ AvS av b!"image:]") (bs : List Block)
    (h : EveryBs av bs) : Word.fineL io bs := by
  cases bs with
  | nil => trivial
  | cons b bs => exact ⟨fine_of hp hi b h.1, fineL_of hp hi bs h.2⟩
end

mutual
theorem plainI_of (hi : ¬ AvS av b!"image:]") (i : Inline) (h : EveryI av i) : plainI i = true := by
  cases i with
  | span v f is m l o => exact plainIs_of hi is h.2
  | ref v t is m l =>
    cases v
    case image =>
      obtain ⟨a, ha, h'⟩ := h.1.1
      simp only [refMarks, List.mem_singleton] at ha
      subst ha
      exact absurd h' hi
    all_goals exact plainIs_of hi is h.2
  | lit n v l => rfl
  | brk l => rfl
theorem plainIs_of (hi : ¬ AvS av b!"image:]") (is : List Inline) (h : EveryIs av is) : plainIs is = true := by
  cases is with
  | nil => rfl
  | cons i is =>
    simp only [plainIs, Bool.and_eq_true]
    exact ⟨plainI_of hi i h.1, plainIs_of hi is h.2⟩
end

section
variable (hp : ¬ av c!"|") (hi : ¬ AvS av b!"image:]")
include hp hi

mutual
theorem written_of (b : Block) (h : EveryB av b) : written b = true := by
  cases b with
  | «section» t m v bs l =>
    simp only [written, Bool.and_eq_true]
    exact ⟨plainIs_of hi _ h.1.2.1, writtenL_of bs h.2⟩
  | list v bs m l => exact writtenL_of bs h.2
  | listItem k p bs m l =>
    simp only [written, Bool.and_eq_true]
    exact ⟨plainIs_of hi _ h.1.2.2.1, writtenL_of bs h.2⟩
  | dlist bs m l => exact writtenL_of bs h.2
  | dlistItem t p bs m l =>
    simp only [written, Bool.and_eq_true]
    exact ⟨⟨plainIs_of hi _ h.1.2.1, plainIs_of hi _ h.1.2.2.1⟩, writtenL_of bs h.2⟩
  | parent n v d bs t m l =>
    cases n
    case table =>
      obtain ⟨a, ha, h'⟩ := h.1.1
      simp only [parentMarks, List.mem_singleton] at ha
      subst ha
      exact absurd (h' _ (by decide)) hp
    all_goals
      simp only [written, Bool.and_eq_true]
      exact ⟨plainIs_of hi _ h.1.2.1, writtenL_of bs h.2⟩
  | brk v l => rfl
  | image t c m l => exact plainIs_of hi _ h.2.2.1
  | leaf n f d is m l => exact plainIs_of hi _ h.2.1
  | tableCell is m l => exact plainIs_of hi _ h.2.1
theorem writtenL_of (bs : List Block) (h : EveryBs av bs) : writtenL bs = true := by
  cases bs with
  | nil => rfl
  | cons b bs =>
    simp only [writtenL, Bool.and_eq_true]
    exact ⟨written_of b h.1, writtenL_of bs h.2⟩
end

/-- Without vertical bars and images in the source, there are no tables and no images in a text. -/
theorem writtenDoc_of {g : Asg} (h : EveryG av g) : writtenDoc g = true := by
  simp only [writtenDoc, Bool.and_eq_true]
  refine ⟨?_, writtenL_of hp hi _ h.blocks⟩
  have := h.header
  cases hh : g.header with
  | none => rfl
  | some x => exact plainIs_of hi _ (this x hh).2
end

end Adoc.Origin
