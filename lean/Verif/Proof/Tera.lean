import Verif.Proof.TeraTable
import Verif.Spec.Origin
/-!
# Running the templates gives what `Html.render` gives

Calls of macros, by induction on the depth of calls.
-/
namespace Adoc.Tera
open Adoc.Json (look member_fields fields unlessEmpty strs ofMap ofMeta ofInline ofInlines ofBlock ofBlocks)
open Adoc.Origin (inner innerL)

variable {frac : Str → Int} {ord : SMap Str → SMap Str}

/-! ## Calls -/

section
variable (frac) (G : Env) (n : Nat)

theorem call_inline (v : Val) : invoke frac allFiles G (n + 1) b!"inline.html.tera" b!"self::process_inline" [(b!"inline", v)]
    = (exec frac (invoke frac allFiles G n b!"inline.html.tera") inlineBody ((b!"inline", v) :: G)).map (·.1) := rfl
theorem call_inline_leaf (v : Val) : invoke frac allFiles G (n + 1) b!"leafblocks.html.tera" b!"inline_macros::process_inline" [(b!"inline", v)]
    = (exec frac (invoke frac allFiles G n b!"inline.html.tera") inlineBody ((b!"inline", v) :: G)).map (·.1) := rfl
theorem call_inline_table (v : Val) : invoke frac allFiles G (n + 1) b!"tables.html.tera" b!"inline_macros::process_inline" [(b!"inline", v)]
    = (exec frac (invoke frac allFiles G n b!"inline.html.tera") inlineBody ((b!"inline", v) :: G)).map (·.1) := rfl
theorem call_inline_block (v : Val) : invoke frac allFiles G (n + 1) b!"block.html.tera" b!"inline_macros::process_inline" [(b!"inline", v)]
    = (exec frac (invoke frac allFiles G n b!"inline.html.tera") inlineBody ((b!"inline", v) :: G)).map (·.1) := rfl
theorem call_inline_page (v : Val) : invoke frac allFiles G (n + 1) b!"htmlbook.html.tera" b!"inline_macros::process_inline" [(b!"inline", v)]
    = (exec frac (invoke frac allFiles G n b!"inline.html.tera") inlineBody ((b!"inline", v) :: G)).map (·.1) := rfl
theorem call_leaf (v : Val) : invoke frac allFiles G (n + 1) b!"block.html.tera" b!"leaf_block_macros::process_leaf_block" [(b!"block", v)]
    = (exec frac (invoke frac allFiles G n b!"leafblocks.html.tera") leafBody ((b!"block", v) :: G)).map (·.1) := rfl
theorem call_table (v : Val) : invoke frac allFiles G (n + 1) b!"block.html.tera" b!"table_macros::process_table" [(b!"block", v)]
    = (exec frac (invoke frac allFiles G n b!"tables.html.tera") tableBody ((b!"block", v) :: G)).map (·.1) := rfl
theorem call_cell (v t : Val) : invoke frac allFiles G (n + 1) b!"tables.html.tera" b!"self::process_table_cell" [(b!"cell", v), (b!"tag", t)]
    = (exec frac (invoke frac allFiles G n b!"tables.html.tera") cellBody ((b!"cell", v) :: (b!"tag", t) :: G)).map (·.1) := rfl
theorem call_block (v s : Val) : invoke frac allFiles G (n + 1) b!"block.html.tera" b!"self::process_block" [(b!"block", v), (b!"skip_tag", s)]
    = (exec frac (invoke frac allFiles G n b!"block.html.tera") blockBody ((b!"block", v) :: (b!"skip_tag", s) :: G)).map (·.1) := rfl
theorem call_block_page (v s : Val) : invoke frac allFiles G (n + 1) b!"htmlbook.html.tera" b!"block_macros::process_block" [(b!"block", v), (b!"skip_tag", s)]
    = (exec frac (invoke frac allFiles G n b!"block.html.tera") blockBody ((b!"block", v) :: (b!"skip_tag", s) :: G)).map (·.1) := rfl
end

/-! ## Depth -/

mutual
/-- How deep the calls for an inline go. -/
def depthI : Inline → Nat
  | .span _ _ is _ _ _ => depthIs is + 1
  | .ref _ _ is _ _ => depthIs is + 1
  | _ => 1
/-- The same for a list. -/
def depthIs : List Inline → Nat
  | [] => 0
  | i :: is => depthI i + depthIs is
end

mutual
/-- How deep the calls for a block go. -/
def depth : Block → Nat
  | .section t _ _ bs _ => depthIs t + depthL bs + 3
  | .list _ bs _ _ => depthL bs + 3
  | .listItem _ p bs _ _ => depthIs p + depthL bs + 3
  | .dlist bs _ _ => depthL bs + 3
  | .dlistItem t p bs _ _ => depthIs t + depthIs p + depthL bs + 3
  | .parent _ _ _ bs t _ _ => depthIs t + depthL bs + 3
  | .brk _ _ => 3
  | .image _ c _ _ => depthIs c + 3
  | .leaf _ _ _ is _ _ => depthIs is + 3
  | .tableCell is _ _ => depthIs is + 3
/-- The same for a list. -/
def depthL : List Block → Nat
  | [] => 0
  | b :: bs => depth b + depthL bs
end

theorem depthI_mem : ∀ {is : List Inline} {i : Inline}, i ∈ is → depthI i ≤ depthIs is
  | j :: is, i, h => by
    rw [depthIs]
    rcases List.mem_cons.1 h with rfl | h
    · omega
    · have := depthI_mem h
      omega

theorem depth_mem : ∀ {bs : List Block} {b : Block}, b ∈ bs → depth b ≤ depthL bs
  | c :: bs, b, h => by
    rw [depthL]
    rcases List.mem_cons.1 h with rfl | h
    · omega
    · have := depth_mem h
      omega

theorem depthI_pos (i : Inline) : 1 ≤ depthI i := by cases i <;> simp [depthI]
theorem depth_pos (b : Block) : 3 ≤ depth b := by cases b <;> simp [depth] <;> omega
theorem depth_kids (i : Inline) : depthIs (kids i) + 1 ≤ depthI i := by cases i <;> simp [depthI, kids, depthIs]
theorem depth_inlines (b : Block) : depthIs (bInlines b) + 3 ≤ depth b := by
  cases b <;> simp [depth, bInlines, Html.cellInlines, depthIs] <;> omega
theorem depth_bTitle (b : Block) : depthIs (bTitle b) + 3 ≤ depth b := by
  cases b <;> simp [depth, bTitle, depthIs] <;> omega
theorem depth_bCaption (b : Block) : depthIs (bCaption b) + 3 ≤ depth b := by
  cases b <;> simp [depth, bCaption, depthIs] <;> omega
theorem depth_bPrincipal (b : Block) : depthIs (bPrincipal b) + 3 ≤ depth b := by
  cases b <;> simp [depth, bPrincipal, depthIs] <;> omega
theorem depth_bTerms (b : Block) : depthIs (bTerms b) + 3 ≤ depth b := by
  cases b <;> simp [depth, bTerms, depthIs] <;> omega
theorem depth_children (b : Block) : depthL (bItems b ++ bBlocks b) + 3 ≤ depth b := by
  cases b <;> simp [depth, bItems, bBlocks, depthL] <;> omega

/-! ## Inlines -/

theorem inline_exec {G : Env} (hG : Clear G) : ∀ n (i : Inline), depthI i ≤ n + 1 →
    (exec frac (invoke frac allFiles G n b!"inline.html.tera") inlineBody ((b!"inline", .data (ofInline ord i)) :: G)).map (·.1)
      = .ok (Html.inline i)
  | n, i, h => exec_inline hG i fun j hj => by
    have h1 := depthI_mem hj
    have h2 := depth_kids i
    have h3 := depthI_pos j
    cases n with
    | zero => omega
    | succ n =>
      rw [call_inline]
      exact inline_exec hG n j (by omega)

theorem inlined_block {G : Env} (hG : Clear G) {n : Nat} {is : List Inline} (h : depthIs is ≤ n) :
    Inlined ord (invoke frac allFiles G n b!"block.html.tera") b!"inline_macros::process_inline" is := fun i hi => by
  have h1 := depthI_mem hi
  have h2 := depthI_pos i
  cases n with
  | zero => omega
  | succ n => rw [call_inline_block]; exact inline_exec hG n i (by omega)
theorem inlined_leaf {G : Env} (hG : Clear G) {n : Nat} {is : List Inline} (h : depthIs is ≤ n) :
    Inlined ord (invoke frac allFiles G n b!"leafblocks.html.tera") b!"inline_macros::process_inline" is := fun i hi => by
  have h1 := depthI_mem hi
  have h2 := depthI_pos i
  cases n with
  | zero => omega
  | succ n => rw [call_inline_leaf]; exact inline_exec hG n i (by omega)
theorem inlined_table {G : Env} (hG : Clear G) {n : Nat} {is : List Inline} (h : depthIs is ≤ n) :
    Inlined ord (invoke frac allFiles G n b!"tables.html.tera") b!"inline_macros::process_inline" is := fun i hi => by
  have h1 := depthI_mem hi
  have h2 := depthI_pos i
  cases n with
  | zero => omega
  | succ n => rw [call_inline_table]; exact inline_exec hG n i (by omega)
theorem inlined_page {G : Env} (hG : Clear G) {n : Nat} {is : List Inline} (h : depthIs is ≤ n) :
    Inlined ord (invoke frac allFiles G n b!"htmlbook.html.tera") b!"inline_macros::process_inline" is := fun i hi => by
  have h1 := depthI_mem hi
  have h2 := depthI_pos i
  cases n with
  | zero => omega
  | succ n => rw [call_inline_page]; exact inline_exec hG n i (by omega)

/-! ## Blocks -/

/-- An admonition has a kind, and the number of columns of a table is read in the same way. -/
def Plain (frac : Str → Int) : Block → Prop
  | .parent .admonition v _ _ _ _ _ => v ≠ none
  | .parent .table _ _ _ _ (some m) _ => ∀ c, m.attributes.get? b!"cols" = some c → toInt frac c = Html.colsInt c
  | _ => True

theorem mem_inner (b : Block) : b ∈ inner b := by cases b <;> simp [inner]
theorem mem_innerL : ∀ {bs : List Block} {b c : Block}, b ∈ bs → c ∈ inner b → c ∈ innerL bs
  | d :: bs, b, c, h, hc => by
    rw [innerL]
    rcases List.mem_cons.1 h with rfl | h
    · exact List.mem_append_left _ hc
    · exact List.mem_append_right _ (mem_innerL h hc)
theorem mem_inner_child {b c d : Block} (h : c ∈ bItems b ++ bBlocks b) (hd : d ∈ inner c) : d ∈ inner b := by
  cases b <;> simp only [bItems, bBlocks, List.nil_append, List.append_nil] at h <;>
    first
    | (rw [inner]; exact List.mem_cons_of_mem _ (mem_innerL h hd))
    | cases h

theorem block_exec (ho : Keeps ord) {G : Env} (hG : Clear G) : ∀ n (b : Block) (skip : Bool), depth b ≤ n + 1 →
    (∀ c ∈ inner b, Plain frac c) →
    (exec frac (invoke frac allFiles G n b!"block.html.tera") blockBody
      ((b!"block", .data (ofBlock ord b)) :: (b!"skip_tag", .bool skip) :: G)).map (·.1) = Html.block (headed G) skip b
  | n, b, skip, h, hp => by
    have h3 := depth_pos b
    obtain ⟨n, rfl⟩ : ∃ k, n = k + 2 := ⟨n - 2, by omega⟩
    have hi := depth_inlines b
    have ht := depth_bTitle b
    have hc := depth_bCaption b
    have hpr := depth_bPrincipal b
    have hte := depth_bTerms b
    have hch := depth_children b
    refine exec_block ho hG ?_ ?_ ?_ ?_ ?_ ?_
    · rintro k f d is m l rfl
      rw [call_leaf]
      exact exec_leaf ho hG (inlined_leaf hG (by simp only [bInlines, Html.cellInlines] at hi; omega))
    · rintro v d cells t m l rfl
      rw [call_table]
      refine exec_table ho (fun t c hc => ?_) (fun m' c hm hcc => ?_)
      · rw [call_cell]
        refine exec_cell fun b hb => inlined_table hG ?_
        have hm := depth_mem (hc b hb)
        have hd := depth_inlines b
        simp only [bItems, bBlocks, List.nil_append] at hch
        omega
      · subst hm
        exact hp _ (mem_inner _) c hcc
    · rintro d bs t m l rfl
      exact hp _ (mem_inner _) rfl
    · intro i hmem
      simp only [List.mem_append] at hmem
      rcases hmem with ((hm | hm) | hm) | hm
      · exact inlined_block hG (by omega) i hm
      · exact inlined_block hG (by omega) i hm
      · exact inlined_block hG (by omega) i hm
      · exact inlined_block hG (by omega) i hm
    · rintro is m l rfl
      exact inlined_block hG (by simp only [bInlines, Html.cellInlines] at hi; omega)
    · intro _ c hc
      rw [call_block]
      have := depth_mem hc
      exact block_exec ho hG (n + 1) c _ (by omega) fun d hd => hp d (mem_inner_child hc hd)
  termination_by n => n

/-! ## The page -/

theorem var_context (g : Asg) (x : Str) : var x (context ord g) = (dig [x] (Json.ofAsg ord g)).map .data := by
  simp only [context, Json.ofAsg, fields, dig, get]
  generalize List.filterMap _ _ = ms
  induction ms with
  | nil => rfl
  | cons m ms ih =>
    simp only [List.map_cons, List.find?_cons, var_cons]
    by_cases hm : m.1 = x
    · simp [hm]
    · simp only [hm, if_false, decide_false, ih]

theorem clear_context (g : Asg) : Clear (context ord g) := fun x hx => by
  rw [var_context]
  simp only [ownNames, List.mem_cons, List.not_mem_nil, or_false] at hx
  rcases hx with rfl | rfl | rfl | rfl | rfl | rfl | rfl | rfl | rfl <;>
    simp (decide := true) only [Json.ofAsg, dig_fields, look, ↓reduceIte, Option.bind_none, Option.map_none]

theorem clear_nil : Clear [] := fun _ _ => rfl

theorem var_header (g : Asg) : var b!"header" (context ord g) = g.header.map fun h => .data (Json.ofHeader ord h) := by
  rw [var_context]
  simp (decide := true) only [Json.ofAsg, dig_fields, look, ↓reduceIte, Option.or_none]
  cases g.header <;> rfl

theorem headed_context (g : Asg) : headed (context ord g) = g.header.isSome := by
  rw [headed, var_header]
  cases g.header <;> rfl

theorem var_blocks (g : Asg) : var b!"blocks" (context ord g) = some (.data (.arr (ofBlocks ord g.blocks))) := by
  rw [var_context]
  simp (decide := true) only [Json.ofAsg, dig_fields, look, ↓reduceIte, Option.some_or, Option.bind_some, dig_nil, Option.map_some]

/-- How deep the calls for a document go. -/
def depthDoc (g : Asg) : Nat := depthIs ((g.header.map (·.title)).getD []) + depthL g.blocks

theorem each_page {inv : Str → Env → M Str} {titled : Bool} {env : Env} : ∀ bs : List Block,
    (∀ b ∈ bs, inv b!"block_macros::process_block" [(b!"block", .data (ofBlock ord b)), (b!"skip_tag", .bool false)]
      = Html.block titled false b) →
    each (fun j => (exec frac inv (.text b!"\n    " (.call b!"block_macros::process_block"
      [(b!"block", .path b!"block" []), (b!"skip_tag", .bool false)] .done)) ((b!"block", .data j) :: env)).map (·.1)) (ofBlocks ord bs)
      = Html.body titled bs
  | [], _ => by simp only [ofBlocks, each, Html.body]
  | b :: bs, h => by
    have hv : ∀ j, evalArgs frac ((b!"block", .data j) :: env) [(b!"block", .path b!"block" []), (b!"skip_tag", .bool false)]
        = .ok [(b!"block", .data j), (b!"skip_tag", .bool false)] := fun j => by
      simp only [evalArgs, eval_path (walk_var ((var_cons _ _ (.data j) env).trans (if_pos rfl))), Except.bind, Except.map, eval]
    simp only [ofBlocks, each]
    rw [each_page bs fun c hc => h c (List.mem_cons_of_mem _ hc)]
    simp only [exec_text, exec_call _ (hv _), h b (List.mem_cons_self ..), Html.body]
    cases Html.block titled false b with
    | error e => rfl
    | ok s =>
      simp only [preM_ok, exec_done, pre_ok, Except.map, Except.bind, List.append_nil]
      cases Html.body titled bs with
      | error e => rfl
      | ok t => simp [bind, Except.bind, pure, Except.pure]

theorem lookup_page : allFiles.lookup b!"htmlbook.html.tera" = some pageT := rfl

/-- Running the templates gives what `Html.render` gives. -/
theorem render_eq (ho : Keeps ord) (sees : Bool) (g : Asg) (hp : ∀ b ∈ innerL g.blocks, Plain frac b) {fuel : Nat}
    (hf : depthDoc g ≤ fuel) : render frac sees fuel ord g = Html.render sees g := by
  have hrun : render frac sees fuel ord g = (exec frac (invoke frac allFiles (if sees then context ord g else []) fuel
      b!"htmlbook.html.tera") pageBody (context ord g)).map (·.1) := by
    unfold render
    simp only [gathered_eq, run, lookup_page, pageT]
  rw [hrun]
  have hG : Clear (if sees then context ord g else []) := by
    cases sees
    · exact clear_nil
    · exact clear_context g
  have hh : headed (if sees then context ord g else []) = (sees && g.header.isSome) := by
    cases sees
    · rfl
    · exact headed_context g
  generalize (if sees then context ord g else []) = G at hG hh
  have ht := holds_header (frac := frac) (context ord g)
  rw [headed_context] at ht
  have hb : ∀ b ∈ g.blocks, invoke frac allFiles G fuel b!"htmlbook.html.tera" b!"block_macros::process_block"
      [(b!"block", .data (ofBlock ord b)), (b!"skip_tag", .bool false)] = Html.block (sees && g.header.isSome) false b := fun b hb => by
    have h1 := depth_mem hb
    have h2 := depth_pos b
    unfold depthDoc at hf
    obtain ⟨n, rfl⟩ : ∃ n, fuel = n + 1 := ⟨fuel - 1, by omega⟩
    rw [call_block_page, ← hh]
    exact block_exec ho hG n b false (by omega) fun c hc => hp c (mem_innerL hb hc)
  have htitle : exec frac (invoke frac allFiles G fuel b!"htmlbook.html.tera")
      (.cond (.path b!"header" []) (inlineLoop (.path b!"header" [b!"title"]) .done) .done .done) (context ord g)
      = .ok (Html.docTitle g.header, context ord g) := by
    rw [exec_cond _ _ _ ht]
    cases hd : g.header with
    | none => rfl
    | some h =>
      have hw : walk b!"header" [b!"title"] (context ord g) = some (.data (.arr (ofInlines ord h.title))) := by
        rw [walk_data (by rw [var_header, hd]; rfl)]
        simp (decide := true) only [Json.ofHeader, dig_fields, look, ↓reduceIte, Option.some_or, Option.bind_some, dig_nil, Option.map_some]
      simp only [Option.isSome_some, if_true, inlineLoop]
      rw [exec_inlines _ (eval_path hw) (inlined_page hG (by simp only [depthDoc, hd, Option.map_some, Option.getD_some] at hf; omega))]
      simp only [exec_done, pre_ok, andThen_ok, List.append_nil, Html.docTitle]
  have hsplit : ∀ (e : Ex) (a b k : Prog) (env : Env), exec frac (invoke frac allFiles G fuel b!"htmlbook.html.tera") (.cond e a b k) env
      = andThen (exec frac (invoke frac allFiles G fuel b!"htmlbook.html.tera") (.cond e a b .done) env)
        (exec frac (invoke frac allFiles G fuel b!"htmlbook.html.tera") k) := fun e a b k env => by
    rw [← exec_seq]; rfl
  have hloop := each_page (frac := frac) (ord := ord) (inv := invoke frac allFiles G fuel b!"htmlbook.html.tera") (env := context ord g)
    (titled := sees && g.header.isSome) g.blocks hb
  rw [pageBody, exec_text, exec_text, hsplit, htitle, andThen_ok, exec_text, exec_loop _ _ (eval_path (walk_var (var_blocks g))) hloop, Html.render]
  cases Html.body (sees && g.header.isSome) g.blocks with
  | error e => rfl
  | ok s =>
    simp only [preM_ok, exec_text, exec_done, pre_ok, Except.map, bind, Except.bind, pure, Except.pure, List.append_assoc, List.append_nil]
    rfl

end Adoc.Tera
