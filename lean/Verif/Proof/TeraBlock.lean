import Verif.Proof.TeraInline
/-!
# `leafblocks.html.tera` and `block.html.tera` do what `Html.leaf` and `Html.block` do
-/
namespace Adoc.Tera
open Adoc.Json (look member_fields fields unlessEmpty strs ofMap ofMeta ofInline ofInlines ofBlock ofBlocks)

variable {frac : Str → Int} {inv : Str → Env → M Str} {ord : SMap Str → SMap Str}

/-! ## Members of blocks -/

/-- The name of a block. -/
def bName : Block → Str
  | .section .. => b!"section"
  | .list .. => b!"list"
  | .listItem .. => b!"listItem"
  | .dlist .. => b!"dlist"
  | .dlistItem .. => b!"dlistItem"
  | .brk .. => b!"break"
  | .image .. => b!"image"
  | .leaf n .. => Json.leafName n
  | .parent n .. => Json.parentName n
  | .tableCell .. => b!"tableCell"

/-- The metadata of a block. -/
def bMeta : Block → Option Meta
  | .section _ m _ _ _ => m
  | .list _ _ m _ => m
  | .listItem _ _ _ m _ => m
  | .dlist _ m _ => m
  | .dlistItem _ _ _ m _ => m
  | .brk _ _ => none
  | .image _ _ m _ => m
  | .leaf _ _ _ _ m _ => m
  | .parent _ _ _ _ _ m _ => m
  | .tableCell _ m _ => m

/-- The title of a block. -/
def bTitle : Block → List Inline
  | .section t _ _ _ _ => t
  | .parent _ _ _ _ t _ _ => t
  | _ => []

/-- The caption of a block. -/
def bCaption : Block → List Inline
  | .image _ c _ _ => c
  | _ => []

/-- The principal text of a block. -/
def bPrincipal : Block → List Inline
  | .listItem _ p _ _ _ => p
  | .dlistItem _ p _ _ _ => p
  | _ => []

/-- The terms of a block. -/
def bTerms : Block → List Inline
  | .dlistItem t _ _ _ _ => t
  | _ => []

/-- The items of a block. -/
def bItems : Block → List Block
  | .list _ bs _ _ => bs
  | .dlist bs _ _ => bs
  | _ => []

/-- The blocks in a block. -/
def bBlocks : Block → List Block
  | .section _ _ _ bs _ => bs
  | .listItem _ _ bs _ _ => bs
  | .dlistItem _ _ bs _ _ => bs
  | .parent _ _ _ bs _ _ _ => bs
  | _ => []

/-- The text in a block. -/
abbrev bInlines : Block → List Inline := Html.cellInlines

theorem dig_name (b : Block) : dig [b!"name"] (ofBlock ord b) = some (.str (bName b)) := by
  cases b <;>
    simp (decide := true) only [ofBlock, dig_fields, look, ↓reduceIte, Option.some_or, Option.bind_some, dig_nil, bName]

theorem dig_meta (b : Block) (ks : List Str) :
    dig (b!"metadata" :: ks) (ofBlock ord b) = ((bMeta b).map (ofMeta ord)).bind (dig ks) := by
  cases b <;> simp (decide := true) only [ofBlock, dig_fields, look, ↓reduceIte, Option.or_none, bMeta, Option.map_none]

theorem dig_title (b : Block) : Lists (dig [b!"title"] (ofBlock ord b)) (ofInlines ord (bTitle b)) := by
  cases b <;> simp (decide := true) only [ofBlock, dig_fields, look, ↓reduceIte, Option.or_none, bTitle, Option.bind_none] <;>
    first
    | exact lists_none
    | exact lists_some _
    | (rw [show ∀ o : Option Json, o.bind (dig []) = o from fun o => by cases o <;> rfl]; exact lists_unless _)

theorem dig_caption (b : Block) : Lists (dig [b!"caption"] (ofBlock ord b)) (ofInlines ord (bCaption b)) := by
  cases b <;> simp (decide := true) only [ofBlock, dig_fields, look, ↓reduceIte, Option.or_none, bCaption, Option.bind_none] <;>
    first
    | exact lists_none
    | exact lists_some _
    | (rw [show ∀ o : Option Json, o.bind (dig []) = o from fun o => by cases o <;> rfl]; exact lists_unless _)

theorem dig_principal (b : Block) : Lists (dig [b!"principal"] (ofBlock ord b)) (ofInlines ord (bPrincipal b)) := by
  cases b <;> simp (decide := true) only [ofBlock, dig_fields, look, ↓reduceIte, Option.or_none, bPrincipal, Option.bind_none] <;>
    first
    | exact lists_none
    | exact lists_some _
    | (rw [show ∀ o : Option Json, o.bind (dig []) = o from fun o => by cases o <;> rfl]; exact lists_unless _)

theorem dig_inlines (b : Block) : Lists (dig [b!"inlines"] (ofBlock ord b)) (ofInlines ord (bInlines b)) := by
  cases b <;> simp (decide := true) only [ofBlock, dig_fields, look, ↓reduceIte, Option.or_none, bInlines, Html.cellInlines,
      Option.bind_none] <;>
    first
    | exact lists_none
    | exact lists_some _

theorem dig_blocks (b : Block) : Lists (dig [b!"blocks"] (ofBlock ord b)) (ofBlocks ord (bBlocks b)) := by
  cases b <;> simp (decide := true) only [ofBlock, dig_fields, look, ↓reduceIte, Option.or_none, bBlocks, Option.bind_none] <;>
    first
    | exact lists_none
    | exact lists_some _
    | (rw [show ∀ o : Option Json, o.bind (dig []) = o from fun o => by cases o <;> rfl]; exact lists_unless _)

theorem dig_terms (b : Block) : Lists (dig [b!"terms"] (ofBlock ord b)) (ofInlines ord (bTerms b)) := by
  cases b <;> simp (decide := true) only [ofBlock, dig_fields, look, ↓reduceIte, Option.or_none, bTerms, Option.bind_none] <;>
    first
    | exact lists_none
    | exact lists_some _

/-- The values of a block at its paths. -/
structure At (ord : SMap Str → SMap Str) (env : Env) (b : Block) : Prop where
  block : var b!"block" env = some (.data (ofBlock ord b))

namespace At
variable {env : Env} {b : Block} (h : At ord env b)
include h

theorem path (ks : List Str) : walk b!"block" ks env = (dig ks (ofBlock ord b)).map .data := walk_data h.block
theorem name : walk b!"block" [b!"name"] env = some (.data (.str (bName b))) := by rw [h.path, dig_name]; rfl
theorem roles : walk b!"block" [b!"metadata", b!"roles"] env = (bMeta b).map fun m => .data (strs m.roles) := by
  rw [h.path, dig_meta, dig_roles]
  cases bMeta b <;> rfl
theorem attr (ho : Keeps ord) (k : Str) :
    Shows (walk b!"block" [b!"metadata", b!"attributes", k] env) (Html.attrOf (bMeta b) k) := by
  rw [h.path, dig_meta, dig_attr]
  exact shows_attr ho _ k
theorem cons {x : Str} {v : Val} (hx : x ≠ b!"block") : At ord ((x, v) :: env) b :=
  ⟨(var_cons ..).trans ((if_neg hx).trans h.block)⟩
end At

/-! ## Tags -/

/-- An opening tag with its attributes. -/
def tagProg (c : Ex) : Prog :=
  .text b!"<" (.out (.path b!"tag" []) (rolesIf c b!"block"
    (attrIf b!" data-code-language=\"" (.path b!"code_language" [])
    (attrIf b!" id=\"" (.path b!"id" [])
    (attrIf b!" data-type=\"" (.path b!"data_type" []) (.text b!">" .done))))))

theorem exec_tagProg {c : Ex} {env : Env} {b : Block} {tag cl id dt : Str} (h : At ord env b)
    (ht : var b!"tag" env = some (.data (.str tag))) (hc : holds frac env c = .ok (!(Html.roles (bMeta b)).isEmpty))
    (hcl : Shows (var b!"code_language" env) cl) (hid : Shows (var b!"id" env) id) (hdt : Shows (var b!"data_type" env) dt) :
    exec frac inv (tagProg c) env = .ok (b!"<" ++ tag ++ Html.classAttr (bMeta b) ++ Html.attr b!"data-code-language" cl
      ++ Html.attr b!"id" id ++ Html.attr b!"data-type" dt ++ b!">", env) := by
  simp only [tagProg, exec_text, exec_out _ (eval_path (walk_var ht)) rfl, exec_rolesIf _ h.roles hc,
    exec_attrIf _ (shows_var hcl), exec_attrIf _ (shows_var hid), exec_attrIf _ (shows_var hdt), exec_done, pre_ok,
    List.append_assoc]
  rfl

/-! ## Leaf blocks -/

/-- The variables of a leaf block after the first part. -/
def leafEnv (n : LeafName) (m : Option Meta) (env : Env) : Env :=
  match n with
  | .paragraph => (b!"tag", .data (.str b!"p")) :: env
  | .listing => if Html.attrOf m b!"language" = [] then (b!"tag", .data (.str b!"pre")) :: env
      else (b!"code_language", .data (.str (Html.attrOf m b!"language"))) :: (b!"tag", .data (.str b!"pre")) :: env
  | .verse => (b!"data_type", .data (.str b!"verse")) :: (b!"tag", .data (.str b!"pre")) :: env
  | .literal => (b!"tag", .data (.str b!"pre")) :: env
  | .pass => env

theorem exec_keep {x y : Str} {ks : List Str} {s : Str} {env : Env} (k : Prog) (h : Shows (walk y ks env) s) :
    exec frac inv (.cond (.path y ks) (.set x (.path y ks) .done) .done k) env
      = exec frac inv k (if s = [] then env else (x, .data (.str s)) :: env) := by
  rw [exec_cond _ _ _ (holds_shows h), cond_empty]
  rcases h with h | ⟨rfl, h⟩
  · split
    · simp only [exec_done, andThen_ok, pre_nil]
    · simp only [exec_set _ (eval_path h), exec_done, andThen_ok, pre_nil]
  · simp only [if_true, exec_done, andThen_ok, pre_nil]

theorem exec_leafPart (ho : Keeps ord) {n : LeafName} {b : Block} {env : Env} (h : At ord env b) (hn : bName b = Json.leafName n) :
    exec frac inv leafPart env = .ok ([], leafEnv n (bMeta b) env) := by
  have hname := h.name
  rw [hn] at hname
  cases n <;> simp (decide := true) only [leafPart, exec_cond _ _ _ (holds_nameIs _ hname), ↓reduceIte, exec_set_str, exec_done,
    andThen_ok, pre_nil, leafEnv]
  · rw [attrPath, exec_keep _ ((h.cons (by decide)).attr ho _)]
    split <;> simp only [exec_done, andThen_ok, pre_nil]

theorem exec_leaf (ho : Keeps ord) {n : LeafName} {f : LeafForm} {d : Option Str} {is : List Inline} {m : Option Meta}
    {l : List Location} {G : Env} (hG : Clear G) (hi : Inlined ord inv b!"inline_macros::process_inline" is) :
    (exec frac inv leafBody ((b!"block", .data (ofBlock ord (.leaf n f d is m l))) :: G)).map (·.1) = .ok (Html.leaf n is m) := by
  have h0 : At ord ((b!"block", .data (ofBlock ord (.leaf n f d is m l))) :: G) (.leaf n f d is m l) :=
    ⟨(var_cons ..).trans (if_pos rfl)⟩
  generalize henv : (b!"block", Val.data (ofBlock ord (.leaf n f d is m l))) :: G = env at *
  have hG' : ∀ y ∈ ownNames, var y env = none := fun y hy => by
    rw [← henv, var_cons, if_neg, hG y hy]
    rintro rfl
    revert hy
    decide
  have h1 : At ord (leafEnv n m env) (.leaf n f d is m l) := by
    cases n <;> simp only [leafEnv]
    · split
      · exact h0.cons (by decide)
      · exact (h0.cons (by decide)).cons (by decide)
    · exact h0.cons (by decide)
    · exact h0.cons (by decide)
    · exact h0
    · exact (h0.cons (by decide)).cons (by decide)
  have hid : Shows (var b!"id" (leafEnv n m env)) [] := by
    refine .inr ⟨rfl, ?_⟩
    cases n <;> simp only [leafEnv]
    · split <;> simp (decide := true) only [var_cons, ↓reduceIte, hG' b!"id" (by decide)]
    all_goals simp (decide := true) only [var_cons, ↓reduceIte, hG' b!"id" (by decide)]
  have hdt : Shows (var b!"data_type" (leafEnv n m env)) (if n = .verse then b!"verse" else []) := by
    cases n <;> simp only [leafEnv]
    · refine .inr ⟨rfl, ?_⟩
      split <;> simp (decide := true) only [var_cons, ↓reduceIte, hG' b!"data_type" (by decide)]
    all_goals simp (decide := true) only [var_cons, ↓reduceIte, hG' b!"data_type" (by decide)]
    all_goals first | exact .inl rfl | exact .inr ⟨rfl, rfl⟩
  have hcl : Shows (var b!"code_language" (leafEnv n m env)) (if n = .listing then Html.attrOf m b!"language" else []) := by
    cases n <;> simp only [leafEnv]
    · split
      · next he => exact .inr ⟨he, by simp (decide := true) only [var_cons, ↓reduceIte, hG' b!"code_language" (by decide)]⟩
      · exact .inl (by simp (decide := true) only [var_cons, ↓reduceIte])
    all_goals
      refine .inr ⟨rfl, ?_⟩
      simp (decide := true) only [var_cons, ↓reduceIte, hG' b!"code_language" (by decide)]
  have htag : var b!"tag" (leafEnv n m env) = (Html.leafTag n).map fun t => .data (.str t) := by
    cases n <;> simp only [leafEnv]
    · split <;> simp (decide := true) only [var_cons, ↓reduceIte, Html.leafTag, Option.map_some]
    all_goals simp (decide := true) only [var_cons, ↓reduceIte, Html.leafTag, Option.map_some, Option.map_none, hG' b!"tag" (by decide)]
  have htext := exec_textPart (frac := frac) (inv := inv) ⟨_, h1.path [b!"inlines"], dig_inlines _⟩ hi
  rw [leafBody, exec_seq, exec_leafPart ho h0 rfl, andThen_ok, pre_nil, exec_seq]
  simp only [bMeta]
  cases ht : Html.leafTag n with
  | none =>
    have hh := holds_none (frac := frac) (walk_var (htag.trans (by rw [ht]; rfl)))
    simp only [leafOpen, exec_no _ _ _ hh, exec_done, andThen_ok, exec_seq, htext, leafClose, pre_ok, Except.map,
      Html.leaf, ht, List.append_nil, List.nil_append, bInlines, Html.cellInlines]
  | some t =>
    have htag' : var b!"tag" (leafEnv n m env) = some (.data (.str t)) := htag.trans (by rw [ht]; rfl)
    have hne : t ≠ [] := by
      revert ht
      cases n <;> simp only [Html.leafTag, Option.some.injEq] <;> intro ht <;> first | (subst ht; decide) | cases ht
    have hh : holds frac (leafEnv n m env) (.path b!"tag" []) = .ok true := by
      rw [holds_path (walk_var htag')]
      cases t with
      | nil => exact absurd rfl hne
      | cons b s => rfl
    have hopen := exec_tagProg (frac := frac) (inv := inv) h1 htag' (holds_roles h1.roles) hcl hid hdt
    have e : leafOpen = .cond (.path b!"tag" []) (tagProg (rolesOf b!"block")) .done .done := rfl
    simp only [e, exec_yes _ _ _ hh, hopen, exec_done, andThen_ok, pre_ok, exec_seq, htext, leafClose, exec_text,
      exec_out _ (eval_path (walk_var htag')) rfl, Except.map, Html.leaf, ht, List.append_nil, bInlines, Html.cellInlines, bMeta,
      List.append_assoc]
    revert ht
    cases n <;> simp [Html.leafTag, Html.attr]

/-! ## Blocks -/

/-- The tag of a block. -/
def bTag : Block → Option Str
  | .list v _ _ _ => some (Html.listTag v)
  | .dlist .. => some b!"dl"
  | .listItem .. => some b!"li"
  | .dlistItem .. => some b!"dd"
  | .image .. => some b!"figure"
  | .parent n .. => some (Html.parentTag n)
  | .tableCell .. => some b!"UNHANDLED"
  | _ => none

/-- The id that the tag of a block gets. -/
def bId : Block → Str
  | .image _ _ m _ => Html.attrOf m b!"id"
  | _ => []

/-- The text for an image. -/
def bAlt : Block → Str
  | .image _ _ m _ => Html.attrOf m b!"positional_1"
  | _ => []

/-- The type that the tag of a block gets. -/
def bType : Block → Str
  | .parent n v _ _ _ _ _ => Html.parentType n v
  | _ => []

/-- The children of a block do not get tags. -/
def bSkips : Block → Bool
  | .parent n _ _ _ _ _ _ => n = .admonition
  | _ => false

/-- The variables of a block after the first part. -/
structure Ready (ord : SMap Str → SMap Str) (env : Env) (b : Block) (skip : Bool) : Prop extends At ord env b where
  skip : var b!"skip_tag" env = some (.bool skip)
  own : var b!"local_skip_tag" env = some (.bool (bSkips b))
  tag : var b!"tag" env = (bTag b).map fun t => .data (.str t)
  code : Shows (var b!"code_language" env) []
  id : Shows (var b!"id" env) (bId b)
  dt : Shows (var b!"data_type" env) (bType b)
  alt : Shows (var b!"alt_text" env) (bAlt b)

theorem bTag_ne {b : Block} {t : Str} (h : bTag b = some t) : t ≠ [] ∧ bName b ≠ b!"section" := by
  cases b with
  | parent n v d bs t' m l => cases h; cases n <;> simp [bName, Html.parentTag, Json.parentName]
  | list v bs m l => cases h; cases v <;> simp [bName, Html.listTag]
  | listItem => cases h; simp [bName]
  | dlist => cases h; simp [bName]
  | dlistItem => cases h; simp [bName]
  | image => cases h; simp [bName]
  | tableCell => cases h; simp [bName]
  | _ => cases h

namespace Ready
variable {env : Env} {b : Block} {skip : Bool} (h : Ready ord env b skip)
include h

theorem tagged : holds frac env tagged = .ok ((bTag b).isSome && !skip) := by
  refine holds_and ?_ (holds_not (holds_path (walk_var h.skip)))
  cases ht : bTag b with
  | none => exact holds_none (walk_var (h.tag.trans (by rw [ht]; rfl)))
  | some t =>
    rw [holds_path (walk_var (h.tag.trans (by rw [ht]; rfl)))]
    cases t with
    | nil => exact absurd rfl (bTag_ne ht).1
    | cons b s => rfl

/-- The opening tag. -/
theorem openPart : exec frac inv openPart env = .ok (match bTag b with
    | some t => Html.openTag t skip (bMeta b) (bId b) (bType b)
    | none => [], env) := by
  have e : Tera.openPart = .cond Tera.tagged (tagProg (.op b!"and" (rolesOf b!"block") (.not (nameIs b!"block" b!"section"))))
    .done .done := rfl
  rw [e, exec_cond _ _ _ h.tagged]
  cases ht : bTag b with
  | none => simp only [Option.isSome_none, Bool.false_and, Bool.false_eq_true, if_false, exec_done, andThen_ok, pre_ok, List.append_nil]
  | some t =>
    cases skip with
    | true => simp only [Bool.not_true, Bool.and_false, Bool.false_eq_true, if_false, exec_done, andThen_ok, pre_ok, List.append_nil,
        Html.openTag, if_true]
    | false =>
      have hc : holds frac env (.op b!"and" (rolesOf b!"block") (.not (nameIs b!"block" b!"section")))
          = .ok (!(Html.roles (bMeta b)).isEmpty) := by
        rw [holds_and (holds_roles h.roles) (holds_not (holds_nameIs _ h.name)), decide_eq_false (bTag_ne ht).2, Bool.not_false,
          Bool.and_true]
      simp only [Option.isSome_some, Bool.not_false, Bool.and_true, if_true,
        exec_tagProg h.toAt (h.tag.trans (by rw [ht]; rfl)) hc h.code h.id h.dt, exec_done, andThen_ok, pre_ok, List.append_nil,
        Html.openTag, Bool.false_eq_true, if_false, Html.attr, List.append_assoc]

/-- The closing tag. -/
theorem closePart : exec frac inv closePart env = .ok (match bTag b with
    | some t => Html.closeTag t skip
    | none => [], env) := by
  rw [Tera.closePart, exec_cond _ _ _ h.tagged]
  cases ht : bTag b with
  | none => simp only [Option.isSome_none, Bool.false_and, Bool.false_eq_true, if_false, exec_done, andThen_ok, pre_ok, List.append_nil]
  | some t =>
    cases skip with
    | true => simp only [Bool.not_true, Bool.and_false, Bool.false_eq_true, if_false, exec_done, andThen_ok, pre_ok, List.append_nil,
        Html.closeTag, if_true]
    | false =>
      simp only [Option.isSome_some, Bool.not_false, Bool.and_true, if_true, exec_text,
        exec_out _ (eval_path (walk_var (h.tag.trans (by rw [ht]; rfl)))) (rfl : show1 (.data (.str t)) = .ok t), exec_done, andThen_ok, pre_ok,
        List.append_nil, Html.closeTag, Bool.false_eq_true, if_false, List.append_assoc]

/-- The rank of the title. -/
def rank (b : Block) : Nat := if [b!"example", b!"sidebar"].contains (bName b) then 5 else 1

omit h in
/-- The variables after the title. -/
def titleEnv (b : Block) (env : Env) : Env :=
  if (bTitle b).isEmpty then env else (b!"title_heading_level", .int (rank b)) :: env

theorem title_ready : Ready ord (titleEnv b env) b skip := by
  unfold titleEnv
  split
  · exact h
  · exact
      { block := (h.toAt.cons (by decide)).block
        skip := (var_cons ..).trans h.skip
        own := (var_cons ..).trans h.own
        tag := (var_cons ..).trans h.tag
        code := by rw [var_cons]; exact h.code
        id := by rw [var_cons]; exact h.id
        dt := by rw [var_cons]; exact h.dt
        alt := by rw [var_cons]; exact h.alt }

theorem titlePart (hi : Inlined ord inv b!"inline_macros::process_inline" (bTitle b)) :
    exec frac inv titlePart env = .ok (Html.heading (natToStr (rank b)) (bTitle b), titleEnv b env) := by
  have hl := dig_title (ord := ord) b
  rw [Tera.titlePart, exec_cond _ _ _ (holds_lists ⟨_, h.path _, hl⟩), ofInlines_isEmpty]
  unfold titleEnv Html.heading
  cases ht : bTitle b with
  | nil => rfl
  | cons i is =>
    rw [ht] at hl hi
    have hc := holds_in (frac := frac) [b!"example", b!"sidebar"] h.name
    have hset : exec frac inv (.cond (.op b!"in" (.path b!"block" [b!"name"]) (.strs [b!"example", b!"sidebar"]))
        (.set b!"title_heading_level" (.int 5) .done) (.set b!"title_heading_level" (.int 1) .done)
        .done) env = .ok ([], (b!"title_heading_level", .int (rank b)) :: env) := by
      rw [exec_cond _ _ _ hc]
      unfold rank
      cases [b!"example", b!"sidebar"].contains (bName b) <;>
        simp only [Bool.false_eq_true, if_false, if_true, exec_set_int, exec_done, andThen_ok, pre_nil] <;> rfl
    have h1 : At ord ((b!"title_heading_level", .int (rank b)) :: env) b := h.toAt.cons (by decide)
    have hj : walk b!"block" [b!"title"] ((b!"title_heading_level", .int (rank b)) :: env)
        = some (.data (.arr (ofInlines ord (i :: is)))) := by
      rw [h1.path]
      rcases hl with hl | ⟨hl, _⟩
      · rw [hl]; rfl
      · cases hl
    have hk : ∀ k : Prog, exec frac inv (.cond (.op b!"in" (.path b!"block" [b!"name"]) (.strs [b!"example", b!"sidebar"]))
        (.set b!"title_heading_level" (.int 5) .done) (.set b!"title_heading_level" (.int 1) .done)
        k) env = exec frac inv k ((b!"title_heading_level", .int (rank b)) :: env) := fun k => by
      have := exec_seq (frac := frac) (inv := inv) (.cond (.op b!"in" (.path b!"block" [b!"name"]) (.strs [b!"example", b!"sidebar"]))
        (.set b!"title_heading_level" (.int 5) .done) (.set b!"title_heading_level" (.int 1) .done) .done) k env
      rw [hset, andThen_ok, pre_nil] at this
      exact this
    have hr : show1 (.int (rank b)) = .ok (natToStr (rank b)) := by
      unfold rank
      split <;> rfl
    simp only [List.isEmpty_cons, Bool.not_false, if_true, hk, exec_text, exec_out _ (eval_path walk_cons_eq) hr, inlineLoop,
      exec_inlines _ (eval_path hj) hi, exec_done, andThen_ok, pre_ok, List.append_nil, Bool.false_eq_true, if_false,
      List.append_assoc]

omit h in
/-- The image. -/
def bImage : Block → Str
  | .image target caption m _ =>
    b!"\n        <img src=\"" ++ target ++ b!"\"" ++ Html.attr b!"alt" (Html.attrOf m b!"positional_1") ++ b!"/>"
      ++ (if caption.isEmpty then [] else b!"\n        <figcaption>" ++ Html.inlines caption ++ b!"</figcaption>")
      ++ b!"\n    "
  | _ => []

theorem imagePart (hi : Inlined ord inv b!"inline_macros::process_inline" (bCaption b)) :
    exec frac inv imagePart env = .ok (bImage b, env) := by
  rw [Tera.imagePart, exec_cond _ _ _ (holds_nameIs _ h.name)]
  by_cases hn : bName b = b!"image"
  · cases b with
    | image t c m l =>
      have ht := (h.path [b!"target"]).trans (congrArg _ (show dig [b!"target"] (ofBlock ord (.image t c m l)) = some (.str t) by
        simp (decide := true) only [ofBlock, dig_fields, look, ↓reduceIte, Option.some_or, Option.bind_some, dig_nil]))
      have hl := dig_caption (ord := ord) (.image t c m l)
      have hc : ∀ k : Prog, exec frac inv (.cond (.path b!"block" [b!"caption"])
          (.text b!"\n        <figcaption>" (inlineLoop (.path b!"block" [b!"caption"]) (.text b!"</figcaption>" .done))) .done k) env
          = pre (if c.isEmpty then [] else b!"\n        <figcaption>" ++ Html.inlines c ++ b!"</figcaption>") (exec frac inv k env) := fun k => by
        rw [exec_cond _ _ _ (holds_lists ⟨_, h.path _, hl⟩), ofInlines_isEmpty]
        cases c with
        | nil => rfl
        | cons i is =>
          have hj : walk b!"block" [b!"caption"] env = some (.data (.arr (ofInlines ord (i :: is)))) := by
            rw [h.path]
            rcases hl with hl | ⟨hl, _⟩
            · rw [hl]; rfl
            · cases hl
          simp only [bCaption, List.isEmpty_cons, Bool.not_false, if_true, exec_text, inlineLoop, exec_inlines _ (eval_path hj) hi, exec_done,
            andThen_ok, pre_ok, List.append_nil, Bool.false_eq_true, if_false, List.append_assoc]
      simp only [hn, decide_true, if_true, exec_text, exec_out _ (eval_path ht) rfl, exec_attrIf _ (shows_var h.alt), hc, exec_done, andThen_ok,
        pre_ok, List.append_nil, bImage, bAlt, Html.attr, List.append_assoc]
      rfl
    | leaf n => cases n <;> cases hn
    | parent n => cases n <;> cases hn
    | _ => cases hn
  · have : bImage b = [] := by
      cases b <;> first | rfl | exact absurd rfl hn
    simp only [hn, decide_false, Bool.false_eq_true, if_false, exec_done, andThen_ok, pre_ok, List.append_nil, this]

omit h in
/-- The text of a block. -/
def bText (b : Block) : Str := Html.principal (bPrincipal b) ++ Html.inlines (bInlines b)

theorem itemsPart {titled : Bool} (hp : Inlined ord inv b!"inline_macros::process_inline" (bPrincipal b))
    (hi : Inlined ord inv b!"inline_macros::process_inline" (bInlines b)) (hb : Blocked ord inv titled (bSkips b) (bItems b)) :
    exec frac inv itemsPart env = preM (Html.blocks titled (bSkips b) (bItems b)) (.ok (bText b, env)) := by
  have hc := holds_or (holds_nameIs (frac := frac) b!"list" h.name) (holds_nameIs b!"dlist" h.name)
  rw [Tera.itemsPart, exec_cond _ _ _ hc]
  by_cases hn : bName b = b!"list" ∨ bName b = b!"dlist"
  · have hd : (decide (bName b = b!"list") || decide (bName b = b!"dlist")) = true := by
      rw [← Bool.decide_or]; exact decide_eq_true hn
    have hj : walk b!"block" [b!"items"] env = some (.data (.arr (ofBlocks ord (bItems b)))) ∧ bText b = [] := by
      rw [h.path]
      cases b with
      | list => exact ⟨by simp (decide := true) only [ofBlock, dig_fields, look, ↓reduceIte, Option.some_or, Option.bind_some, dig_nil,
          Option.map_some, bItems], rfl⟩
      | dlist => exact ⟨by simp (decide := true) only [ofBlock, dig_fields, look, ↓reduceIte, Option.some_or, Option.bind_some, dig_nil,
          Option.map_some, bItems], rfl⟩
      | leaf n => exfalso; revert hn; cases n <;> simp [bName, Json.leafName]
      | parent n => exfalso; revert hn; cases n <;> simp [bName, Json.parentName]
      | _ => exfalso; revert hn; simp [bName]
    rw [hd, if_pos rfl, exec_blockLoop _ (eval_path hj.1) (by decide) h.own hb, andThen_preM, exec_done, andThen_ok, exec_done,
      pre_ok, hj.2, List.append_nil]
  · have hd : (decide (bName b = b!"list") || decide (bName b = b!"dlist")) = false := by
      rw [← Bool.decide_or]; exact decide_eq_false hn
    have hit : bItems b = [] := by
      cases b <;> first | rfl | exact absurd (.inl rfl) hn | exact absurd (.inr rfl) hn
    have hl := dig_principal (ord := ord) b
    rw [hd, if_neg Bool.false_ne_true, hit, Html.blocks, preM_ok, pre_nil, exec_cond _ _ _ (holds_lists ⟨_, h.path _, hl⟩),
      ofInlines_isEmpty]
    cases hpr : bPrincipal b with
    | nil =>
      rw [List.isEmpty_nil, Bool.not_true, if_neg Bool.false_ne_true, exec_textPart ⟨_, h.path _, dig_inlines b⟩ hi]
      simp only [exec_done, andThen_ok, pre_ok, List.append_nil, bText, hpr, Html.principal, List.isEmpty_nil, if_true,
        List.nil_append]
    | cons i is =>
      have hin : bInlines b = [] := by
        cases b <;> first | rfl | cases hpr
      rw [hpr] at hl hp
      have hj : walk b!"block" [b!"principal"] env = some (.data (.arr (ofInlines ord (i :: is)))) := by
        rw [h.path]
        rcases hl with hl | ⟨hl, _⟩
        · rw [hl]; rfl
        · cases hl
      simp only [List.isEmpty_cons, Bool.not_false, if_true, exec_text, inlineLoop, exec_inlines _ (eval_path hj) hp,
        exec_done, andThen_ok, pre_ok, List.append_nil, bText, hpr, hin, Html.principal, Html.inlines, Bool.false_eq_true, if_false,
        List.append_assoc]

omit h in
theorem blocks_path {env : Env} (h : At ord env b) {c : Block} {cs : List Block} (hb : bBlocks b = c :: cs) :
    walk b!"block" [b!"blocks"] env = some (.data (.arr (ofBlocks ord (c :: cs)))) := by
  rw [h.path]
  have hl := dig_blocks (ord := ord) b
  rw [hb] at hl
  rcases hl with hl | ⟨hl, _⟩
  · rw [hl]; rfl
  · cases hl

theorem blocksPart {titled : Bool} (hb : Blocked ord inv titled (bSkips b) (bBlocks b)) :
    exec frac inv blocksPart env
      = preM (if bName b = b!"section" then .ok [] else Html.blocks titled (bSkips b) (bBlocks b)) (.ok ([], env)) := by
  have hc := holds_and (holds_lists (frac := frac) ⟨_, h.path [b!"blocks"], dig_blocks b⟩) (holds_isnt (frac := frac) b!"section" h.name)
  rw [Tera.blocksPart, exec_cond _ _ _ hc, ofBlocks_isEmpty]
  by_cases hn : bName b = b!"section"
  · simp only [hn, decide_true, Bool.not_true, Bool.and_false, Bool.false_eq_true, if_false, exec_done, andThen_ok, if_true, preM_ok]
  · cases hbs : bBlocks b with
    | nil => simp only [hn, List.isEmpty_nil, Bool.not_true, Bool.false_and, Bool.false_eq_true, if_false, exec_done, andThen_ok, Html.blocks, preM_ok]
    | cons c cs =>
      rw [hbs] at hb
      simp only [hn, decide_false, List.isEmpty_cons, Bool.not_false, Bool.and_true, if_true, if_false,
        exec_blockLoop (x := b!"child_block") _ (eval_path (blocks_path h.toAt hbs)) (by decide) h.own hb, andThen_preM, exec_done, andThen_ok, pre_nil]

theorem creditPart (ho : Keeps ord) : exec frac inv creditPart env = .ok (Html.attribution (bMeta b), env) := by
  have ha := h.attr ho b!"attribution"
  have hc := h.attr ho b!"citation"
  have hcit : ∀ k : Prog, exec frac inv (.cond (attrPath b!"block" b!"citation") (.text b!", " (.out (attrPath b!"block" b!"citation") .done)) .done k) env
      = pre (if Html.attrOf (bMeta b) b!"citation" = [] then [] else b!", " ++ Html.attrOf (bMeta b) b!"citation") (exec frac inv k env) := fun k => by
    rw [attrPath, exec_cond _ _ _ (holds_shows hc), cond_empty]
    split
    · rfl
    · next hne =>
      rcases hc with hc | ⟨hc, _⟩
      · simp only [exec_text, exec_out _ (eval_path hc) rfl, exec_done, pre_ok, andThen_ok, List.append_nil]
      · exact absurd hc hne
  rw [Tera.creditPart, attrPath, exec_cond _ _ _ (holds_shows ha), cond_empty, Html.attribution]
  split
  · rfl
  · next hne =>
    rcases ha with ha | ⟨ha, _⟩
    · simp only [exec_text, exec_out _ (eval_path ha) rfl, hcit, exec_done, pre_ok, andThen_ok, List.append_nil, List.append_assoc]
    · exact absurd ha hne

theorem sectionPart {titled : Bool} (hb : Blocked ord inv titled (bSkips b) (bBlocks b)) :
    exec frac inv sectionPart env
      = preM (if bName b = b!"section" then (Html.blocks titled (bSkips b) (bBlocks b)).map fun c => b!"\n    " ++ c ++ b!"</section>"
          else .ok []) (.ok ([], env)) := by
  rw [Tera.sectionPart, exec_cond _ _ _ (holds_nameIs _ h.name)]
  by_cases hn : bName b = b!"section"
  · have hc := holds_lists (frac := frac) ⟨_, h.path [b!"blocks"], dig_blocks b⟩
    rw [ofBlocks_isEmpty] at hc
    simp only [hn, decide_true, if_true, exec_text, exec_cond _ _ _ hc]
    cases hbs : bBlocks b with
    | nil => rfl
    | cons c cs =>
      rw [hbs] at hb
      simp only [List.isEmpty_cons, Bool.not_false, if_true, exec_blockLoop (x := b!"child_block") _ (eval_path (blocks_path h.toAt hbs)) (by decide) h.own hb,
        andThen_preM, exec_done, andThen_ok, exec_text, pre_ok]
      cases Html.blocks titled (bSkips b) (c :: cs) with
      | error e => rfl
      | ok s => simp only [preM_ok, pre_ok, andThen_ok, exec_done, Except.map, List.append_nil, List.nil_append, List.append_assoc]
  · simp only [hn, decide_false, Bool.false_eq_true, if_false, exec_done, andThen_ok, preM_ok]

/-- Everything after the first part. -/
theorem restParts (ho : Keeps ord) {titled : Bool}
    (ht : Inlined ord inv b!"inline_macros::process_inline" (bTitle b))
    (hc : Inlined ord inv b!"inline_macros::process_inline" (bCaption b))
    (hp : Inlined ord inv b!"inline_macros::process_inline" (bPrincipal b))
    (hi : Inlined ord inv b!"inline_macros::process_inline" (bInlines b))
    (hit : Blocked ord inv titled (bSkips b) (bItems b)) (hb : Blocked ord inv titled (bSkips b) (bBlocks b)) :
    (exec frac inv restParts env).map (·.1) = (do
      let items ← Html.blocks titled (bSkips b) (bItems b)
      let inside ← (if bName b = b!"section" then .ok [] else Html.blocks titled (bSkips b) (bBlocks b))
      let after ← (if bName b = b!"section" then (Html.blocks titled (bSkips b) (bBlocks b)).map fun c => b!"\n    " ++ c ++ b!"</section>"
          else .ok [])
      return (match bTag b with
          | some t => Html.openTag t skip (bMeta b) (bId b) (bType b)
          | none => [])
        ++ Html.heading (natToStr (rank b)) (bTitle b) ++ bImage b ++ items ++ bText b ++ inside
        ++ Html.attribution (bMeta b) ++ (match bTag b with
          | some t => Html.closeTag t skip
          | none => []) ++ after) := by
  have h1 := h.title_ready
  rw [Tera.restParts]
  simp only [exec_seq, h.openPart, andThen_ok, h.titlePart ht, h1.imagePart hc, h1.itemsPart hp hi hit, andThen_preM]
  cases Html.blocks titled (bSkips b) (bItems b) with
  | error e => rfl
  | ok items =>
    simp only [preM_ok, andThen_ok, exec_seq, h1.blocksPart hb, andThen_preM]
    generalize (if bName b = b!"section" then Except.ok [] else Html.blocks titled (bSkips b) (bBlocks b)) = inside
    cases inside with
    | error e => rfl
    | ok inside =>
      simp only [preM_ok, andThen_ok, exec_seq, pre_nil, h1.creditPart ho, h1.closePart, h1.sectionPart hb]
      generalize (if bName b = b!"section" then (Html.blocks titled (bSkips b) (bBlocks b)).map fun c => b!"\n    " ++ c ++ b!"</section>"
          else .ok []) = after
      cases after with
      | error e => rfl
      | ok after =>
        simp only [preM_ok, pre_ok, Except.map, bind, Except.bind, pure, Except.pure, List.append_nil, List.append_assoc]

end Ready

/-! ## The first part -/

/-- What the first part writes. -/
def bBefore : Block → Str
  | .section _ m level _ _ =>
    b!"<section data-type=\"sect" ++ natToStr level ++ b!"\"" ++ Html.classAttr m ++ Html.attr b!"id" (Html.attrOf m b!"id") ++ b!">"
  | .dlistItem ts _ _ _ _ => if ts.isEmpty then [] else b!"\n        <dt>" ++ Html.inlines ts ++ b!"</dt>\n        "
  | _ => []

/-- The variables before the first part. -/
structure Fresh (ord : SMap Str → SMap Str) (env : Env) (b : Block) (skip : Bool) : Prop extends At ord env b where
  skip : var b!"skip_tag" env = some (.bool skip)
  own : var b!"local_skip_tag" env = some (.bool false)
  none : ∀ x ∈ ownNames, var x env = none

namespace Fresh
variable {env : Env} {b : Block} {skip : Bool} (h : Fresh ord env b skip)
include h

theorem ready_tag {t : Str} (ht : bTag b = some t) (hs : bSkips b = false) (hi : bId b = []) (hy : bType b = []) (ha : bAlt b = []) :
    Ready ord ((b!"tag", .data (.str t)) :: env) b skip where
  block := (h.toAt.cons (by decide)).block
  skip := (var_cons ..).trans h.skip
  own := (var_cons ..).trans (hs ▸ h.own)
  tag := (var_cons ..).trans (by rw [ht]; rfl)
  code := .inr ⟨rfl, (var_cons ..).trans (h.none _ (by decide))⟩
  id := .inr ⟨hi, (var_cons ..).trans (h.none _ (by decide))⟩
  dt := .inr ⟨hy, (var_cons ..).trans (h.none _ (by decide))⟩
  alt := .inr ⟨ha, (var_cons ..).trans (h.none _ (by decide))⟩

theorem tag_one {t : Str} (ht : bTag b = some t) (hs : bSkips b = false) (hi : bId b = []) (hy : bType b = []) (ha : bAlt b = [])
    (hb : bBefore b = []) (he : exec frac inv tagPart env = .ok ([], (b!"tag", .data (.str t)) :: env)) :
    ∃ env', exec frac inv tagPart env = .ok (bBefore b, env') ∧ Ready ord env' b skip :=
  ⟨_, hb ▸ he, h.ready_tag ht hs hi hy ha⟩

theorem variant {v : Str} (hv : dig [b!"variant"] (ofBlock ord b) = some (.str v)) :
    walk b!"block" [b!"variant"] env = some (.data (.str v)) := by rw [h.path, hv]; rfl

theorem tagPart (ho : Keeps ord) (hterms : Inlined ord inv b!"inline_macros::process_inline" (bTerms b))
    (hg : ∀ n f d is m l, b ≠ .leaf n f d is m l) (hg' : ∀ v l, b ≠ .brk v l) (hg'' : bName b ≠ b!"table")
    (hv : ∀ d bs t m l, b ≠ .parent .admonition Option.none d bs t m l) :
    ∃ env', exec frac inv tagPart env = .ok (bBefore b, env') ∧ Ready ord env' b skip := by
  have hname := h.name
  cases b with
  | leaf n f d is m l => exact absurd rfl (hg n f d is m l)
  | brk v l => exact absurd rfl (hg' v l)
  | «section» t m level bs l =>
    refine ⟨env, ?_, ?_⟩
    · have hl : walk b!"block" [b!"level"] env = some (.data (.num level)) := (h.path _).trans (congrArg _ (show
          dig [b!"level"] (ofBlock ord (.section t m level bs l)) = some (.num level) by
        simp (decide := true) only [ofBlock, dig_fields, look, ↓reduceIte, Option.some_or, Option.bind_some, dig_nil]))
      simp (decide := true) only [bName, Tera.tagPart, exec_cond _ _ _ (holds_nameIs _ hname), ↓reduceIte, sectionOpen, exec_text,
        exec_out _ (eval_path hl) rfl, exec_rolesIf _ h.roles (holds_roles h.roles), attrPath, exec_attrIf _ (h.attr ho _), exec_done,
        pre_ok, andThen_ok, List.append_nil, bBefore, bMeta, Html.attr, List.append_assoc]
      rfl
    · exact
        { block := h.block, skip := h.skip, own := h.own, tag := h.none _ (by decide), code := .inr ⟨rfl, h.none _ (by decide)⟩,
          id := .inr ⟨rfl, h.none _ (by decide)⟩, dt := .inr ⟨rfl, h.none _ (by decide)⟩, alt := .inr ⟨rfl, h.none _ (by decide)⟩ }
  | list v bs m l =>
    have hv := h.variant (v := Json.listVariant v) (by
      simp (decide := true) only [ofBlock, dig_fields, look, ↓reduceIte, Option.some_or, Option.bind_some, dig_nil])
    refine h.tag_one rfl rfl rfl rfl rfl rfl ?_
    cases v <;> simp (decide := true) only [bName, Tera.tagPart, exec_cond _ _ _ (holds_nameIs _ hname), ↓reduceIte,
      exec_cond _ _ _ (holds_variantIs _ hv), exec_set_str, exec_done, andThen_ok, pre_nil, Html.listTag]
  | listItem =>
    refine h.tag_one rfl rfl rfl rfl rfl rfl ?_
    simp (decide := true) only [bName, Tera.tagPart, exec_cond _ _ _ (holds_nameIs _ hname), ↓reduceIte, exec_set_str, exec_done,
      andThen_ok, pre_nil]
  | dlist =>
    refine h.tag_one rfl rfl rfl rfl rfl rfl ?_
    simp (decide := true) only [bName, Tera.tagPart, exec_cond _ _ _ (holds_nameIs _ hname), ↓reduceIte, exec_set_str, exec_done,
      andThen_ok, pre_nil]
  | tableCell =>
    refine h.tag_one rfl rfl rfl rfl rfl rfl ?_
    simp (decide := true) only [bName, Tera.tagPart, exec_cond _ _ _ (holds_nameIs _ hname), ↓reduceIte, exec_set_str, exec_done,
      andThen_ok, pre_nil]
  | dlistItem ts p bs m l =>
    refine ⟨_, ?_, h.ready_tag (t := b!"dd") rfl rfl rfl rfl rfl⟩
    have hl := dig_terms (ord := ord) (.dlistItem ts p bs m l)
    have hc : ∀ k : Prog, exec frac inv (.cond (.path b!"block" [b!"terms"])
        (.text b!"\n        <dt>" (inlineLoop (.path b!"block" [b!"terms"]) (.text b!"</dt>\n        " .done))) .done k) env
        = pre (if ts.isEmpty then [] else b!"\n        <dt>" ++ Html.inlines ts ++ b!"</dt>\n        ") (exec frac inv k env) := fun k => by
      rw [exec_cond _ _ _ (holds_lists ⟨_, h.path _, hl⟩), ofInlines_isEmpty]
      cases ts with
      | nil => rfl
      | cons i is =>
        have hj : walk b!"block" [b!"terms"] env = some (.data (.arr (ofInlines ord (i :: is)))) := by
          rw [h.path]
          rcases hl with hl | ⟨hl, _⟩
          · rw [hl]; rfl
          · cases hl
        simp only [bTerms, List.isEmpty_cons, Bool.not_false, if_true, exec_text, inlineLoop, exec_inlines _ (eval_path hj) hterms, exec_done,
          andThen_ok, pre_ok, List.append_nil, Bool.false_eq_true, if_false, List.append_assoc]
    simp (decide := true) only [bName, Tera.tagPart, exec_cond _ _ _ (holds_nameIs _ hname), ↓reduceIte, hc, exec_set_str, exec_done,
      andThen_ok, pre_ok, bBefore, List.append_nil]
  | image t c m l =>
    have ha := (h.toAt.cons (x := b!"tag") (v := .data (.str b!"figure")) (by decide)).attr ho b!"positional_1"
    let e1 : Env := if Html.attrOf m b!"positional_1" = [] then (b!"tag", .data (.str b!"figure")) :: env
      else (b!"alt_text", .data (.str (Html.attrOf m b!"positional_1"))) :: (b!"tag", .data (.str b!"figure")) :: env
    have h1 : At ord e1 (.image t c m l) := by
      show At ord (ite ..) _
      split
      · exact h.toAt.cons (by decide)
      · exact (h.toAt.cons (by decide)).cons (by decide)
    let e2 : Env := if Html.attrOf m b!"id" = [] then e1 else (b!"id", .data (.str (Html.attrOf m b!"id"))) :: e1
    have hv1 : ∀ x, x ≠ b!"tag" → x ≠ b!"alt_text" → var x e1 = var x env := fun x hx hy => by
      show var x (ite ..) = _
      split <;> simp only [var_cons, if_neg (Ne.symm hx), if_neg (Ne.symm hy)]
    have hv2 : ∀ x, x ≠ b!"id" → var x e2 = var x e1 := fun x hx => by
      show var x (ite ..) = _
      split
      · rfl
      · rw [var_cons, if_neg (Ne.symm hx)]
    refine ⟨e2, ?_, ?_⟩
    · simp (decide := true) only [bName, Tera.tagPart, exec_cond _ _ _ (holds_nameIs _ hname), ↓reduceIte, exec_set_str, bBefore, attrPath]
      rw [exec_keep _ ha]
      show andThen (andThen (andThen (andThen (andThen (andThen (andThen (andThen (andThen (andThen (exec frac inv _ e1) _) _) _) _) _) _) _) _) _) _ = _
      rw [exec_keep _ (h1.attr ho b!"id")]
      simp only [exec_done, andThen_ok, pre_nil]
      rfl
    · exact
        { block := by rw [hv2 _ (by decide)]; exact h1.block
          skip := by rw [hv2 _ (by decide), hv1 _ (by decide) (by decide)]; exact h.skip
          own := by rw [hv2 _ (by decide), hv1 _ (by decide) (by decide)]; exact h.own
          tag := by
            rw [hv2 _ (by decide)]
            show var b!"tag" (ite ..) = _
            split <;> rfl
          code := .inr ⟨rfl, by rw [hv2 _ (by decide), hv1 _ (by decide) (by decide)]; exact h.none _ (by decide)⟩
          id := by
            show Shows (var b!"id" (ite ..)) (Html.attrOf m b!"id")
            split
            · next he => exact .inr ⟨he, by rw [hv1 _ (by decide) (by decide)]; exact h.none _ (by decide)⟩
            · exact .inl rfl
          dt := .inr ⟨rfl, by rw [hv2 _ (by decide), hv1 _ (by decide) (by decide)]; exact h.none _ (by decide)⟩
          alt := by
            rw [hv2 _ (by decide)]
            show Shows (var b!"alt_text" (ite ..)) (Html.attrOf m b!"positional_1")
            split
            · next he => exact .inr ⟨he, (var_cons ..).trans (h.none _ (by decide))⟩
            · exact .inl rfl }
  | parent n v d bs t m l =>
    cases n with
    | table => exact absurd rfl hg''
    | admonition =>
      cases v with
      | none => exact absurd rfl (hv d bs t m l)
      | some v =>
        have hv := (h.toAt.cons (x := b!"tag") (v := .data (.str b!"div")) (by decide)).path [b!"variant"]
        rw [show dig [b!"variant"] (ofBlock ord (.parent .admonition (some v) d bs t m l)) = some (.str (Json.parentVariant v)) by
          simp (decide := true) only [ofBlock, dig_fields, look, ↓reduceIte, Option.some_or, Option.bind_some, dig_nil, Option.map_some]] at hv
        refine ⟨(b!"local_skip_tag", .bool true) :: (b!"data_type", .data (.str (Json.parentVariant v))) :: (b!"tag", .data (.str b!"div")) :: env,
          ?_, ?_⟩
        · simp (decide := true) only [bName, Json.parentName, Tera.tagPart, exec_cond _ _ _ (holds_nameIs _ hname), ↓reduceIte, exec_set_str, exec_set_bool,
            exec_set _ (eval_path hv), exec_done, andThen_ok, pre_nil, bBefore]
        · exact
            { block := (((h.toAt.cons (by decide)).cons (by decide)).cons (by decide)).block
              skip := by simp (decide := true) only [var_cons, ↓reduceIte, h.skip]
              own := by simp (decide := true) only [var_cons, ↓reduceIte, bSkips, decide_true]
              tag := by simp (decide := true) only [var_cons, ↓reduceIte, bTag, Html.parentTag, Option.map_some]
              code := .inr ⟨rfl, by simp (decide := true) only [var_cons, ↓reduceIte, h.none b!"code_language" (by decide)]⟩
              id := .inr ⟨rfl, by simp (decide := true) only [var_cons, ↓reduceIte, h.none b!"id" (by decide)]⟩
              dt := .inl (by
                simp (decide := true) only [var_cons, ↓reduceIte, bType]
                cases v <;> rfl)
              alt := .inr ⟨rfl, by simp (decide := true) only [var_cons, ↓reduceIte, h.none b!"alt_text" (by decide)]⟩ }
    | sidebar =>
      refine ⟨(b!"data_type", .data (.str b!"sidebar")) :: (b!"tag", .data (.str b!"aside")) :: env, ?_, ?_⟩
      · simp (decide := true) only [bName, Json.parentName, Tera.tagPart, exec_cond _ _ _ (holds_nameIs _ hname), ↓reduceIte, exec_set_str,
          exec_done, andThen_ok, pre_nil, bBefore]
      · exact
          { block := ((h.toAt.cons (by decide)).cons (by decide)).block
            skip := by simp (decide := true) only [var_cons, ↓reduceIte, h.skip]
            own := by simp (decide := true) only [var_cons, ↓reduceIte, h.own, bSkips, decide_false]
            tag := by simp (decide := true) only [var_cons, ↓reduceIte, bTag, Html.parentTag, Option.map_some]
            code := .inr ⟨rfl, by simp (decide := true) only [var_cons, ↓reduceIte, h.none b!"code_language" (by decide)]⟩
            id := .inr ⟨rfl, by simp (decide := true) only [var_cons, ↓reduceIte, h.none b!"id" (by decide)]⟩
            dt := .inl (by simp (decide := true) only [var_cons, ↓reduceIte, bType, Html.parentType])
            alt := .inr ⟨rfl, by simp (decide := true) only [var_cons, ↓reduceIte, h.none b!"alt_text" (by decide)]⟩ }
    | example_ =>
      refine h.tag_one rfl rfl rfl (by cases v <;> rfl) rfl rfl ?_
      simp (decide := true) only [bName, Json.parentName, Tera.tagPart, exec_cond _ _ _ (holds_nameIs _ hname), ↓reduceIte, exec_set_str, exec_done,
        andThen_ok, pre_nil, Html.parentTag]
    | open_ =>
      refine h.tag_one rfl rfl rfl (by cases v <;> rfl) rfl rfl ?_
      simp (decide := true) only [bName, Json.parentName, Tera.tagPart, exec_cond _ _ _ (holds_nameIs _ hname), ↓reduceIte, exec_set_str, exec_done,
        andThen_ok, pre_nil, Html.parentTag]
    | quote =>
      refine h.tag_one rfl rfl rfl (by cases v <;> rfl) rfl rfl ?_
      simp (decide := true) only [bName, Json.parentName, Tera.tagPart, exec_cond _ _ _ (holds_nameIs _ hname), ↓reduceIte, exec_set_str, exec_done,
        andThen_ok, pre_nil, Html.parentTag]
    | footnoteContainer =>
      refine h.tag_one rfl rfl rfl (by cases v <;> rfl) rfl rfl ?_
      simp (decide := true) only [bName, Json.parentName, Tera.tagPart, exec_cond _ _ _ (holds_nameIs _ hname), ↓reduceIte, exec_set_str, exec_done,
        andThen_ok, pre_nil, Html.parentTag]

end Fresh

/-- What `process_block` writes. -/
theorem exec_block (ho : Keeps ord) {G : Env} (hG : Clear G) {b : Block} {titled skip : Bool}
    (hleaf : ∀ n f d is m l, b = .leaf n f d is m l →
      inv b!"leaf_block_macros::process_leaf_block" [(b!"block", .data (ofBlock ord b))] = .ok (Html.leaf n is m))
    (htable : ∀ v d cells t m l, b = .parent .table v d cells t m l →
      inv b!"table_macros::process_table" [(b!"block", .data (ofBlock ord b))] = Html.table titled cells m)
    (hkind : ∀ d bs t m l, b ≠ .parent .admonition none d bs t m l)
    (hi : Inlined ord inv b!"inline_macros::process_inline" (bTitle b ++ bCaption b ++ bPrincipal b ++ bTerms b))
    (hi' : ∀ is m l, b = .tableCell is m l → Inlined ord inv b!"inline_macros::process_inline" is)
    (hb : bName b ≠ b!"table" → Blocked ord inv titled (bSkips b) (bItems b ++ bBlocks b)) :
    (exec frac inv blockBody ((b!"block", .data (ofBlock ord b)) :: (b!"skip_tag", .bool skip) :: G)).map (·.1)
      = Html.block titled skip b := by
  rw [blockBody, exec_set_bool]
  have h : Fresh ord ((b!"local_skip_tag", .bool false) :: (b!"block", .data (ofBlock ord b)) :: (b!"skip_tag", .bool skip) :: G) b skip :=
    { block := by simp (decide := true) only [var_cons, ↓reduceIte]
      skip := by simp (decide := true) only [var_cons, ↓reduceIte]
      own := by simp (decide := true) only [var_cons, ↓reduceIte]
      none := fun x hx => by
        rw [var_cons, if_neg, var_cons, if_neg, var_cons, if_neg, hG x hx]
        all_goals
          rintro rfl
          revert hx
          decide }
  generalize (b!"local_skip_tag", Val.bool false) :: (b!"block", Val.data (ofBlock ord b)) :: (b!"skip_tag", Val.bool skip) :: G = env at h ⊢
  have hargs : evalArgs frac env [(b!"block", .path b!"block" [])] = .ok [(b!"block", .data (ofBlock ord b))] := by
    simp only [evalArgs, eval_path (walk_var h.block), Except.bind, Except.map]
  rw [exec_cond _ _ _ (holds_in _ h.name)]
  by_cases hl : ∃ n f d is m l, b = .leaf n f d is m l
  · obtain ⟨n, f, d, is, m, l, rfl⟩ := hl
    have hin : [b!"paragraph", b!"listing", b!"verse", b!"pass", b!"literal"].contains (bName (.leaf n f d is m l)) = true := by
      cases n <;> simp [bName, Json.leafName]
    rw [hin, if_pos rfl, exec_text, exec_call _ hargs, hleaf n f d is m l rfl]
    simp only [preM_ok, exec_done, andThen_ok, pre_ok, List.append_nil, Except.map, Html.block]
  · have hin : [b!"paragraph", b!"listing", b!"verse", b!"pass", b!"literal"].contains (bName b) = false := by
      cases b with
      | leaf n f d is m l => exact absurd ⟨n, f, d, is, m, l, rfl⟩ hl
      | parent n => cases n <;> simp [bName, Json.parentName]
      | _ => simp [bName]
    rw [hin, if_neg Bool.false_ne_true, exec_cond _ _ _ (holds_nameIs _ h.name)]
    by_cases ht : bName b = b!"table"
    · obtain ⟨v, d, cells, t, m, l, rfl⟩ : ∃ v d cells t m l, b = .parent .table v d cells t m l := by
        cases b with
        | parent n v d bs t m l =>
          cases n <;> first | exact ⟨_, _, _, _, _, _, rfl⟩ | (exfalso; revert ht; simp [bName, Json.parentName])
        | leaf n f d is m l => exact absurd ⟨n, f, d, is, m, l, rfl⟩ hl
        | _ => exfalso; revert ht; simp [bName]
      rw [decide_eq_true ht, if_pos rfl, exec_call _ hargs, htable _ _ _ _ _ _ rfl, Html.block]
      cases Html.table titled cells m with
      | error e => rfl
      | ok s => simp only [preM_ok, exec_done, andThen_ok, pre_ok, List.append_nil, Except.map]
    · rw [decide_eq_false ht, if_neg Bool.false_ne_true, exec_cond _ _ _ (holds_nameIs _ h.name)]
      by_cases hbr : ∃ v l, b = .brk v l
      · obtain ⟨v, l, rfl⟩ := hbr
        have hv := h.variant (v := Json.breakVariant v) (by
          simp (decide := true) only [ofBlock, dig_fields, look, ↓reduceIte, Option.some_or, Option.bind_some, dig_nil])
        cases v <;> simp (decide := true) only [bName, ↓reduceIte, breakPart, exec_cond _ _ _ (holds_variantIs _ hv), exec_text,
          exec_done, andThen_ok, pre_ok, List.append_nil, Except.map, Html.block]
      · have hne : bName b ≠ b!"break" := by
          cases b with
          | brk v l => exact absurd ⟨v, l, rfl⟩ hbr
          | leaf n f d is m l => exact absurd ⟨n, f, d, is, m, l, rfl⟩ hl
          | parent n => cases n <;> simp [bName, Json.parentName]
          | _ => simp [bName]
        have hii : Inlined ord inv b!"inline_macros::process_inline" (bInlines b) := by
          cases b with
          | leaf n f d is m l => exact absurd ⟨n, f, d, is, m, l, rfl⟩ hl
          | tableCell is m l => exact hi' _ _ _ rfl
          | _ => exact fun i hi => by cases hi
        have hb := hb ht
        obtain ⟨env', he, hr⟩ := h.tagPart (frac := frac) (inv := inv) ho (fun i h => hi i (by simp [h]))
          (fun n f d is m l e => hl ⟨n, f, d, is, m, l, e⟩) (fun v l e => hbr ⟨v, l, e⟩) ht hkind
        have hrest := hr.restParts (frac := frac) (inv := inv) ho (titled := titled) (fun i h => hi i (by simp [h])) (fun i h => hi i (by simp [h]))
          (fun i h => hi i (by simp [h])) hii (fun i h => hb i (by simp [h])) (fun i h => hb i (by simp [h]))
        rw [decide_eq_false hne, if_neg Bool.false_ne_true, exec_seq, he, andThen_ok]
        have hpre : ∀ r : M (Str × Env), (andThen (andThen (andThen (pre (bBefore b) r) (exec frac inv .done)) (exec frac inv .done))
            (exec frac inv .done)).map (·.1) = (r.map (·.1)).map (bBefore b ++ ·) := fun r => by
          cases r with
          | error e => rfl
          | ok y => simp only [pre, Except.map, andThen, Except.bind, exec_done, List.append_nil]
        rw [hpre, hrest]
        cases b with
        | leaf n f d is m l => exact absurd ⟨n, f, d, is, m, l, rfl⟩ hl
        | brk v l => exact absurd ⟨v, l, rfl⟩ hbr
        | «section» t m level bs l =>
          simp only [bSkips, bItems, bName, bBlocks, if_true, Html.blocks, Html.block, bTag, bTitle, Ready.bImage, Ready.bText, bPrincipal,
            bInlines, Html.cellInlines, bMeta, bBefore]
          cases Html.blocks titled false bs with
          | error e => rfl
          | ok s => simp [Except.map, bind, Except.bind, pure, Except.pure, Html.principal, Html.inlines, Ready.rank, bName]; rfl
        | list v bs m l =>
          simp only [bSkips, bItems, bName, bBlocks, Html.blocks, Html.block, bTag, bTitle, Ready.bImage, Ready.bText, bPrincipal,
            bInlines, Html.cellInlines, bMeta, bBefore]
          cases Html.blocks titled false bs with
          | error e => rfl
          | ok s => simp [Except.map, bind, Except.bind, pure, Except.pure, Html.principal, Html.inlines, Html.heading, bId, bType]
        | dlist bs m l =>
          simp only [bSkips, bItems, bName, bBlocks, Html.blocks, Html.block, bTag, bTitle, Ready.bImage, Ready.bText, bPrincipal,
            bInlines, Html.cellInlines, bMeta, bBefore]
          cases Html.blocks titled false bs with
          | error e => rfl
          | ok s => simp [Except.map, bind, Except.bind, pure, Except.pure, Html.principal, Html.inlines, Html.heading, bId, bType]
        | listItem k p bs m l =>
          simp only [bSkips, bItems, bName, bBlocks, Html.blocks, Html.block, bTag, bTitle, Ready.bImage, Ready.bText, bPrincipal,
            bInlines, Html.cellInlines, bMeta, bBefore]
          cases Html.blocks titled false bs with
          | error e => rfl
          | ok s => simp [Except.map, bind, Except.bind, pure, Except.pure, Html.inlines, Html.heading, bId, bType]
        | dlistItem ts p bs m l =>
          simp only [bSkips, bItems, bName, bBlocks, Html.blocks, Html.block, bTag, bTitle, Ready.bImage, Ready.bText, bPrincipal,
            bInlines, Html.cellInlines, bMeta, bBefore]
          cases Html.blocks titled false bs with
          | error e => rfl
          | ok s => simp [Except.map, bind, Except.bind, pure, Except.pure, Html.inlines, Html.heading, bId, bType]
        | image t c m l =>
          simp [bSkips, bItems, bName, bBlocks, Html.blocks, Html.block, bTag, bTitle, Ready.bImage, Ready.bText, bPrincipal,
            bInlines, Html.cellInlines, bMeta, bBefore, Except.map, bind, Except.bind, pure, Except.pure, Html.principal, Html.inlines,
            Html.heading, bId, bType]
        | tableCell is m l =>
          simp [bSkips, bItems, bName, bBlocks, Html.blocks, Html.block, bTag, bTitle, Ready.bImage, Ready.bText, bPrincipal,
            bInlines, Html.cellInlines, bMeta, bBefore, Except.map, bind, Except.bind, pure, Except.pure, Html.principal,
            Html.heading, bId, bType]
        | parent n v d bs t m l =>
          have hs : bName (.parent n v d bs t m l) ≠ b!"section" := by cases n <;> simp [bName, Json.parentName]
          have hrk : natToStr (Ready.rank (.parent n v d bs t m l)) = Html.parentLevel n := by
            cases n <;> simp [Ready.rank, bName, Json.parentName, Html.parentLevel] <;> rfl
          have hbl : Html.block titled skip (.parent n v d bs t m l) = (do
              let children ← Html.blocks titled (n = .admonition) bs
              return Html.openTag (Html.parentTag n) skip m [] (Html.parentType n v) ++ Html.heading (Html.parentLevel n) t ++ children
                ++ Html.attribution m ++ Html.closeTag (Html.parentTag n) skip) := by
            cases n with
            | table => exact absurd rfl ht
            | _ => simp only [Html.block]
          simp only [hbl, bSkips, bItems, hs, bBlocks, if_false, Html.blocks, bTag, bTitle, Ready.bImage, Ready.bText, bPrincipal,
            bInlines, Html.cellInlines, bMeta, bBefore, hrk]
          cases Html.blocks titled (n = .admonition) bs with
          | error e => rfl
          | ok s => simp [Except.map, bind, Except.bind, pure, Except.pure, Html.principal, Html.inlines, bId, bType]

end Adoc.Tera
