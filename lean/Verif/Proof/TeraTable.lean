import Verif.Proof.TeraBlock
/-!
# `tables.html.tera` does what `Html.table` does
-/
namespace Adoc.Tera
open Adoc.Json (look member_fields fields unlessEmpty strs ofMap ofMeta ofInline ofInlines ofBlock ofBlocks)

variable {frac : Str → Int} {inv : Str → Env → M Str} {ord : SMap Str → SMap Str}

/-- The value of a cell: an empty text if it is missing. -/
def cellValue (ord : SMap Str → SMap Str) (c : Option Block) : Json := (c.map (ofBlock ord)).getD (.str [])

theorem exec_cell {t : Str} {c : Option Block} {G : Env}
    (hi : ∀ b, c = some b → Inlined ord inv b!"inline_macros::process_inline" (bInlines b)) :
    (exec frac inv cellBody ((b!"cell", .data (cellValue ord c)) :: (b!"tag", .data (.str t)) :: G)).map (·.1)
      = .ok (Html.cell t c) := by
  have hc : var b!"cell" ((b!"cell", .data (cellValue ord c)) :: (b!"tag", .data (.str t)) :: G) = some (.data (cellValue ord c)) := by
    simp (decide := true) only [var_cons, ↓reduceIte]
  have ht : var b!"tag" ((b!"cell", .data (cellValue ord c)) :: (b!"tag", .data (.str t)) :: G) = some (.data (.str t)) := by
    simp (decide := true) only [var_cons, ↓reduceIte]
  generalize (b!"cell", Val.data (cellValue ord c)) :: (b!"tag", Val.data (.str t)) :: G = env at *
  have hp : exec frac inv (textPart (.path b!"cell" [b!"inlines"])) env = .ok (Html.inlines ((c.map Html.cellInlines).getD []), env) := by
    cases c with
    | none => exact exec_textPart (ord := ord) (is := []) ⟨none, (walk_data hc).trans rfl, lists_none⟩ (fun i hi => by cases hi)
    | some b => exact exec_textPart ⟨_, walk_data hc, dig_inlines b⟩ (hi b rfl)
  simp only [cellBody, exec_text, exec_out _ (eval_path (walk_var ht)) rfl, exec_seq, hp, exec_done, andThen_ok, pre_ok,
    List.append_nil, Except.map, Html.cell]
  cases c <;> simp [Html.inlines]

/-- The macro for cells does what it should. -/
def Celled (ord : SMap Str → SMap Str) (inv : Str → Env → M Str) (cells : List Block) : Prop :=
  ∀ t c, (∀ b, c = some b → b ∈ cells) →
    inv b!"self::process_table_cell" [(b!"cell", .data (cellValue ord c)), (b!"tag", .data (.str t))] = .ok (Html.cell t c)

theorem ofBlocks_length : ∀ bs : List Block, (ofBlocks ord bs).length = bs.length
  | [] => rfl
  | b :: bs => by simp only [ofBlocks, List.length_cons, ofBlocks_length bs]

theorem ofBlocks_get : ∀ (bs : List Block) (i : Nat), (ofBlocks ord bs)[i]? = bs[i]?.map (ofBlock ord)
  | [], _ => by simp [ofBlocks]
  | b :: bs, 0 => by simp [ofBlocks]
  | b :: bs, i + 1 => by simp only [ofBlocks, List.getElem?_cons_succ, ofBlocks_get bs i]

theorem exec_cellAt {tag : Str} {cells : List Block} {i : Nat} {env : Env} (k : Prog)
    (hb : walk b!"block" [b!"blocks"] env = some (.data (.arr (ofBlocks ord cells))))
    (hi : walk b!"idx" [] env = some (.data (.num i))) (hc : Celled ord inv cells) :
    exec frac inv (cellAt tag k) env = pre (Html.cell tag cells[i]?) (exec frac inv k ((b!"cell", .data (cellValue ord cells[i]?)) :: env)) := by
  have h1 : eval frac env (.filter1 (.path b!"block" [b!"blocks"]) b!"nth" b!"n" (.path b!"idx" [])) = .ok (.data (cellValue ord cells[i]?)) := by
    simp (decide := true) only [eval, hb, hi, Except.bind, filter1, ↓reduceIte, index, number, Except.map, ofBlocks_get]
    rw [if_neg (by omega)]
    simp [cellValue]
  have h2 : evalArgs frac ((b!"cell", .data (cellValue ord cells[i]?)) :: env) [(b!"cell", .path b!"cell" []), (b!"tag", .str tag)]
      = .ok [(b!"cell", .data (cellValue ord cells[i]?)), (b!"tag", .data (.str tag))] := by
    simp only [evalArgs, eval_path (walk_var ((var_cons ..).trans (if_pos rfl))), Except.bind, Except.map, eval]
  rw [cellAt, exec_set _ h1, exec_call _ h2, hc tag _ (fun b h => List.mem_of_getElem? h), preM_ok]

theorem each_head {cells : List Block} {env : Env}
    (hb : walk b!"block" [b!"blocks"] env = some (.data (.arr (ofBlocks ord cells)))) (hc : Celled ord inv cells) : ∀ l : List Nat,
    each (fun j => (exec frac inv (cellAt b!"th" (.text b!"\n    " .done)) ((b!"idx", .data j) :: env)).map (·.1)) (l.map .num)
      = .ok (Html.headCells cells l)
  | [] => rfl
  | i :: l => by
    have hb' : walk b!"block" [b!"blocks"] ((b!"idx", .data (.num i)) :: env) = some (.data (.arr (ofBlocks ord cells))) := by
      rw [walk_cons_ne (by decide), hb]
    rw [List.map_cons, each, each_head hb hc l, exec_cellAt _ hb' (walk_var ((var_cons ..).trans (if_pos rfl))) hc]
    simp only [exec_text, exec_done, pre_ok, Except.map, Except.bind, List.append_nil, Html.headCells, List.append_assoc]

theorem holds_newRow {i c n : Nat} {env : Env} (hi : walk b!"idx" [] env = some (.data (.num i)))
    (hc : walk b!"cols" [] env = some (.int c)) (hn : walk b!"num_cells" [] env = some (.int n)) :
    holds frac env newRow = if 0 < i then if c = 0 then stop else .ok (decide ((i + 1) % c = 0 ∧ i + 1 ≠ n)) else .ok false := by
  have h1 : holds frac env (.op b!">" (.path b!"idx" []) (.int 0)) = .ok (decide (0 < i)) := by
    simp (decide := true) only [holds, eval, hi, ↓reduceIte, Except.bind, operate, number, Except.map, truthy]
    simp
  have h2 : eval frac env (.op b!"%" (.op b!"+" (.path b!"idx" []) (.int 1)) (.path b!"cols" []))
      = if c = 0 then stop else .ok (.int (((i + 1) % c : Nat) : Int)) := by
    simp (decide := true) only [eval, hi, hc, ↓reduceIte, Except.bind, operate, number]
    by_cases h : c = 0
    · subst h; rfl
    · have h' : ¬ (c : Int) = 0 := by omega
      rw [if_neg h, if_neg h']
      rfl
  have h3 : holds frac env (.op b!"!=" (.op b!"+" (.path b!"idx" []) (.int 1)) (.path b!"num_cells" []))
      = .ok (decide (i + 1 ≠ n)) := by
    have hd : decide ((i : Int) + 1 = n) = decide (i + 1 = n) := by
      by_cases h : i + 1 = n
      · rw [decide_eq_true h, decide_eq_true (by omega)]
      · rw [decide_eq_false h, decide_eq_false (by omega)]
    simp (decide := true) only [holds, eval, hi, hn, ↓reduceIte, Except.bind, operate, number, Except.map, same, truthy]
    simp [hd]
  rw [newRow]
  rw [show ∀ a b, holds frac env (.op b!"and" a b) = (holds frac env a).bind fun x => if x then holds frac env b else .ok false from
    fun a b => by simp (decide := true) only [holds, ↓reduceIte], h1, Except.bind]
  by_cases h : 0 < i
  · simp only [h, decide_true, if_true]
    rw [show ∀ a b, holds frac env (.op b!"and" a b) = (holds frac env a).bind fun x => if x then holds frac env b else .ok false from
      fun a b => by simp (decide := true) only [holds, ↓reduceIte], h3]
    rw [show ∀ a b, holds frac env (.op b!"==" a b) = ((eval frac env a).bind fun x => (eval frac env b).bind (operate b!"==" x)).map truthy from
      fun a b => by simp (decide := true) only [holds, ↓reduceIte], h2]
    by_cases hz : c = 0
    · simp only [hz, if_true]; rfl
    · simp (decide := true) only [hz, Except.bind, eval, operate, ↓reduceIte, same, number, Except.map, truthy]
      have hd : decide ((((i + 1) % c : Nat) : Int) = 0) = decide ((i + 1) % c = 0) := by
        by_cases h : (i + 1) % c = 0
        · rw [decide_eq_true h, decide_eq_true (by omega)]
        · rw [decide_eq_false h, decide_eq_false (by omega)]
      have hd' := hd
      by_cases h : (i + 1) % c = 0
      · simp [h]
      · simp only [h, decide_false, false_and]
        rw [decide_eq_false h] at hd
        simp_all
  · simp [h]

/-- The rounds of the loop over the cells of the body. -/
theorem each_body {cells : List Block} {c : Nat} {env : Env}
    (hb : walk b!"block" [b!"blocks"] env = some (.data (.arr (ofBlocks ord cells)))) (hc : Celled ord inv cells)
    (hcols : walk b!"cols" [] env = some (.int c)) (hn : walk b!"num_cells" [] env = some (.int cells.length)) :
    ∀ k i, i + k = cells.length →
      each (fun j => (exec frac inv (cellAt b!"td" (.cond newRow (.text b!"\n        </tr>\n        <tr>" .done) .done
        (.text b!"\n        " .done))) ((b!"idx", .data j) :: env)).map (·.1)) ((List.range' i k).map .num)
        = Html.cellLoop c cells.length (cells.drop i) i
  | 0, i, h => by
    rw [List.drop_eq_nil_of_le (by omega)]
    rfl
  | k + 1, i, h => by
    have hlt : i < cells.length := by omega
    have hb' : walk b!"block" [b!"blocks"] ((b!"idx", .data (.num i)) :: env) = some (.data (.arr (ofBlocks ord cells))) := by
      rw [walk_cons_ne (by decide), hb]
    have hi' : walk b!"idx" [] ((b!"idx", .data (.num i)) :: env) = some (.data (.num i)) := walk_var ((var_cons ..).trans (if_pos rfl))
    rw [List.range'_succ, List.map_cons, each, each_body hb hc hcols hn k (i + 1) (by omega), exec_cellAt _ hb' hi' hc,
      List.drop_eq_getElem_cons hlt, Html.cellLoop]
    have hrow := holds_newRow (frac := frac) (i := i) (c := c) (n := cells.length)
      (env := (b!"cell", .data (cellValue ord cells[i]?)) :: (b!"idx", .data (.num i)) :: env)
      (by rw [walk_cons_ne (by decide), hi']) (by rw [walk_cons_ne (by decide), walk_cons_ne (by decide), hcols])
      (by rw [walk_cons_ne (by decide), walk_cons_ne (by decide), hn])
    rw [List.getElem?_eq_getElem hlt] at hrow ⊢
    by_cases h0 : 0 < i
    · by_cases hz : c = 0
      · simp only [h0, hz, if_true] at hrow ⊢
        rw [exec, hrow]
        rfl
      · simp only [h0, hz, if_true, if_false] at hrow ⊢
        rw [exec_cond _ _ _ hrow]
        cases Html.cellLoop c cells.length (cells.drop (i + 1)) (i + 1) with
        | error e => by_cases hr : (i + 1) % c = 0 ∧ i + 1 ≠ cells.length <;> simp [hr, exec_text, exec_done, pre_ok, andThen_ok, Except.map, Except.bind, bind]
        | ok s =>
          by_cases hr : (i + 1) % c = 0 ∧ i + 1 ≠ cells.length <;>
            simp [hr, exec_text, exec_done, pre_ok, andThen_ok, Except.map, Except.bind, bind, pure, Except.pure]
    · simp only [h0, if_false] at hrow ⊢
      rw [exec_cond _ _ _ hrow]
      cases Html.cellLoop c cells.length (cells.drop (i + 1)) (i + 1) with
      | error e => simp [exec_text, exec_done, pre_ok, andThen_ok, Except.map, Except.bind, bind]
      | ok s => simp [exec_text, exec_done, pre_ok, andThen_ok, Except.map, Except.bind, bind, pure, Except.pure]

/-- The variable `header` counts as true. -/
def headed (env : Env) : Bool := ((var b!"header" env).map truthy).getD false

theorem holds_header (env : Env) : holds frac env (.path b!"header" []) = .ok (headed env) := by
  unfold headed
  cases h : var b!"header" env with
  | none => exact holds_none (walk_var h)
  | some v => exact holds_path (walk_var h)

/-- What the macro knows after its first part. -/
structure Laid (ord : SMap Str → SMap Str) (env : Env) (cells : List Block) (c start : Nat) (h : Bool) : Prop where
  blocks : walk b!"block" [b!"blocks"] env = some (.data (.arr (ofBlocks ord cells)))
  cols : walk b!"cols" [] env = some (.int c)
  start : walk b!"body_start" [] env = some (.int start)
  header : headed env = h

theorem exec_tableHead {env : Env} {cells : List Block} {c start : Nat} {h : Bool} (hl : Laid ord env cells c start h)
    (hc : Celled ord inv cells) :
    exec frac inv tableHead env = .ok (b!"<table>" ++ (if h then b!"\n    <thead>\n        " ++ Html.headCells cells (List.range start)
              ++ b!"</thead>\n    <tbody>\n        <tr>" else b!"<tr>"), env) := by
  have hh := holds_header (frac := frac) env
  rw [hl.header] at hh
  have hr : eval frac env (.fn2 b!"range" b!"start" (.int 0) b!"end" (.path b!"body_start" []))
      = .ok (.data (.arr ((List.range' 0 start).map .num))) := by
    simp (decide := true) only [eval, hl.start, ↓reduceIte, Except.bind, index, number]
    rw [if_neg (by omega)]
    rfl
  rw [tableHead, exec_text, exec_cond _ _ _ hh]
  cases h with
  | false => simp only [Bool.false_eq_true, if_false, exec_text, exec_done, pre_ok, andThen_ok, List.append_nil]
  | true =>
    simp only [if_true, exec_text, exec_loop _ _ hr (each_head hl.blocks hc _), preM_ok, exec_done, pre_ok, andThen_ok,
      List.append_nil, List.append_assoc, List.range_eq_range']

theorem exec_tableRows {env : Env} {cells : List Block} {c start : Nat} {h : Bool} (hl : Laid ord env cells c start h)
    (hc : Celled ord inv cells) :
    exec frac inv tableRows env = if cells.length < start then stop else
      preM (Html.cellLoop c cells.length (cells.drop start) start) (.ok ([], (b!"num_cells", .int cells.length) :: env))
        |> pre b!"\n        " := by
  have hn : eval frac env (.filter (.path b!"block" [b!"blocks"]) b!"length") = .ok (.int cells.length) := by
    simp (decide := true) only [eval, hl.blocks, Except.bind, filter0, ↓reduceIte, ofBlocks_length]
  have hnum : walk b!"num_cells" [] ((b!"num_cells", .int cells.length) :: env) = some (.int cells.length) :=
    walk_var ((var_cons ..).trans (if_pos rfl))
  have hs : walk b!"body_start" [] ((b!"num_cells", .int cells.length) :: env) = some (.int start) := by
    rw [walk_cons_ne (by decide), hl.start]
  have hr : eval frac ((b!"num_cells", .int cells.length) :: env) (.fn2 b!"range" b!"start" (.path b!"body_start" []) b!"end" (.path b!"num_cells" []))
      = if cells.length < start then stop else .ok (.data (.arr ((List.range' start (cells.length - start)).map .num))) := by
    simp (decide := true) only [eval, hs, hnum, ↓reduceIte, Except.bind, index, number]
    rw [if_neg (by omega), if_neg (by omega)]
    simp only [range, Int.toNat_natCast]
  rw [tableRows, exec_text, exec_set _ hn]
  by_cases hlt : cells.length < start
  · rw [if_pos hlt] at hr ⊢
    simp only [exec, hr]
    rfl
  · rw [if_neg hlt] at hr ⊢
    rw [exec_loop _ _ hr (each_body (by rw [walk_cons_ne (by decide), hl.blocks]) hc (by rw [walk_cons_ne (by decide), hl.cols]) hnum _ _ (by omega)),
      exec_done]

/-- What `process_table` writes. -/
theorem exec_table (ho : Keeps ord) {G : Env} {v : Option ParentVariant} {d : Str} {cells : List Block} {t : List Inline}
    {m : Option Meta} {l : List Location} (hc : Celled ord inv cells)
    (hcols : ∀ m' c, m = some m' → m'.attributes.get? b!"cols" = some c → toInt frac c = Html.colsInt c) :
    (exec frac inv tableBody ((b!"block", .data (ofBlock ord (.parent .table v d cells t m l))) :: G)).map (·.1)
      = Html.table (headed G) cells m := by
  have h0 : At ord ((b!"block", .data (ofBlock ord (.parent .table v d cells t m l))) :: G) (.parent .table v d cells t m l) :=
    ⟨(var_cons ..).trans (if_pos rfl)⟩
  have hh0 : headed ((b!"block", .data (ofBlock ord (.parent .table v d cells t m l))) :: G) = headed G := by
    simp (decide := true) only [headed, var_cons, ↓reduceIte]
  generalize (b!"block", Val.data (ofBlock ord (.parent .table v d cells t m l))) :: G = env at *
  have ha : walk b!"block" [b!"metadata", b!"attributes", b!"cols"] env = (m.bind fun m => (m.attributes.get? b!"cols").map .str).map .data := by
    rw [h0.path, dig_meta, dig_attr]
    cases m with
    | none => rfl
    | some m => simp only [bMeta, Option.bind_some, ho m.attributes]
  have hbs : walk b!"block" [b!"blocks"] env = some (.data (.arr (ofBlocks ord cells))) := by
    rw [h0.path]
    simp (decide := true) only [ofBlock, dig_fields, look, ↓reduceIte, Option.some_or, Option.bind_some, dig_nil, Option.map_some]
  cases m with
  | none =>
    rw [tableBody, exec_seq]
    simp only [tableStart, attrPath, exec, eval, ha, Option.bind_none, Option.map_none, Html.table]
    rfl
  | some m =>
    cases hcc : m.attributes.get? b!"cols" with
    | none =>
      rw [tableBody, exec_seq]
      simp only [tableStart, attrPath, exec, eval, ha, Option.bind_some, hcc, Option.map_none, Html.table]
      rfl
    | some c =>
      have hi := hcols m c rfl hcc
      have he : eval frac env (.filter (attrPath b!"block" b!"cols") b!"int") = .ok (.int (Html.colsInt c)) := by
        simp (decide := true) only [attrPath, eval, ha, Option.bind_some, hcc, Option.map_some, Except.bind, filter0, ↓reduceIte, hi]
      have hop : walk b!"block" [b!"metadata", b!"options"] env = some (.data (strs m.options)) := by
        rw [h0.path, dig_meta, dig_options]
        rfl
      have hin : holds frac ((b!"body_start", .int 0) :: (b!"cols", .int (Html.colsInt c)) :: env)
          (.op b!"in" (.str b!"header") (.path b!"block" [b!"metadata", b!"options"])) = .ok (m.options.contains b!"header") := by
        have hw : walk b!"block" [b!"metadata", b!"options"] ((b!"body_start", .int 0) :: (b!"cols", .int (Html.colsInt c)) :: env)
            = some (.data (strs m.options)) := by
          rw [walk_cons_ne (by decide), walk_cons_ne (by decide), hop]
        simp (decide := true) only [holds, eval, hw, ↓reduceIte, Except.bind, operate, strs, texts_strs, Except.map, truthy]
      obtain ⟨env', he', hl⟩ : ∃ env', exec frac inv tableStart env = .ok ([], env') ∧
          Laid ord env' cells (Html.colsInt c) (if m.options.contains b!"header" then Html.colsInt c else 0)
            (m.options.contains b!"header" || headed G) := by
        rw [tableStart, exec_set _ he, exec_set_int]
        rw [show ((0 : Nat) : Int) = 0 from rfl, exec_cond _ _ _ hin]
        cases m.options.contains b!"header" with
        | false =>
          refine ⟨_, by simp only [Bool.false_eq_true, if_false, exec_done, andThen_ok, pre_nil]; rfl, ?_, ?_, ?_, ?_⟩
          · rw [walk_cons_ne (by decide), walk_cons_ne (by decide), hbs]
          · exact walk_var (by simp (decide := true) only [var_cons, ↓reduceIte])
          · exact walk_var (by simp (decide := true) only [var_cons, ↓reduceIte]; rfl)
          · simp (decide := true) only [headed, var_cons, ↓reduceIte, Bool.false_or]
            simpa only [headed] using hh0
        | true =>
          have hcw : walk b!"cols" [] ((b!"header", .bool true) :: (b!"body_start", .int 0) :: (b!"cols", .int (Html.colsInt c)) :: env)
              = some (.int (Html.colsInt c)) := walk_var (by simp (decide := true) only [var_cons, ↓reduceIte])
          refine ⟨_, by simp only [if_true, exec_set_bool, exec_set _ (eval_path hcw), exec_done, andThen_ok, pre_nil]; rfl, ?_, ?_, ?_, ?_⟩
          · rw [walk_cons_ne (by decide), walk_cons_ne (by decide), walk_cons_ne (by decide), walk_cons_ne (by decide), hbs]
          · exact walk_var (by simp (decide := true) only [var_cons, ↓reduceIte])
          · exact walk_var (by simp (decide := true) only [var_cons, ↓reduceIte])
          · simp (decide := true) only [headed, var_cons, ↓reduceIte, Bool.true_or, Option.map_some, Option.getD_some, truthy]
      simp only [tableBody, exec_seq, he', andThen_ok, pre_nil, exec_tableHead hl hc, exec_tableRows hl hc, Html.table, hcc]
      by_cases hlt : cells.length < (if m.options.contains b!"header" = true then Html.colsInt c else 0)
      · rw [if_pos hlt, if_pos hlt]
        rfl
      · rw [if_neg hlt, if_neg hlt]
        have hh : headed ((b!"num_cells", .int cells.length) :: env') = (m.options.contains b!"header" || headed G) := by
          rw [← hl.header]
          simp (decide := true) only [headed, var_cons, ↓reduceIte]
        cases Html.cellLoop (Html.colsInt c) cells.length (cells.drop (if m.options.contains b!"header" then Html.colsInt c else 0))
            (if m.options.contains b!"header" then Html.colsInt c else 0) with
        | error e => rfl
        | ok s =>
          have hd := holds_header (frac := frac) ((b!"num_cells", .int cells.length) :: env')
          rw [hh] at hd
          simp only [preM_ok, pre_ok, andThen_ok, List.append_nil, tableEnd, exec_text, exec_cond _ _ _ hd]
          cases (m.options.contains b!"header" || headed G) <;>
            simp [exec_text, exec_done, pre_ok, andThen_ok, Except.map, bind, Except.bind, pure, Except.pure]

end Adoc.Tera
