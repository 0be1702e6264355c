import Verif.Proof.TeraProgs
import Verif.Proof.JsonRead
import Verif.Model.Html
/-!
# Running pieces of the templates

Steps of programs, values of paths in the JSON form of a block, and the pieces that several macros share.
-/
namespace Adoc.Tera
open Adoc.Json (look member_fields fields unlessEmpty strs ofMap ofMeta ofInline ofInlines ofBlock ofBlocks)

/-! ## Steps -/

/-- What is written, put before the rest. -/
def pre (s : Str) (r : M (Str × Env)) : M (Str × Env) := r.map fun y => (s ++ y.1, y.2)
/-- The same with something that may fail. -/
def preM (x : M Str) (r : M (Str × Env)) : M (Str × Env) := x.bind fun s => pre s r

theorem pre_ok (s t : Str) (env : Env) : pre s (.ok (t, env)) = .ok (s ++ t, env) := rfl
theorem pre_error (s : Str) (e : Fail) : pre s (.error e) = .error e := rfl
theorem pre_nil (r : M (Str × Env)) : pre [] r = r := by cases r <;> rfl
theorem pre_pre (s t : Str) (r : M (Str × Env)) : pre s (pre t r) = pre (s ++ t) r := by
  cases r with
  | error e => rfl
  | ok y => simp [pre, Except.map, List.append_assoc]
theorem preM_ok (s : Str) (r : M (Str × Env)) : preM (.ok s) r = pre s r := rfl
theorem preM_error (e : Fail) (r : M (Str × Env)) : preM (.error e) r = .error e := rfl

theorem andThen_ok (s : Str) (env : Env) (f : Env → M (Str × Env)) : andThen (.ok (s, env)) f = pre s (f env) := rfl
theorem andThen_error (e : Fail) (f : Env → M (Str × Env)) : andThen (.error e) f = .error e := rfl
theorem andThen_pre (s : Str) (r : M (Str × Env)) (f : Env → M (Str × Env)) : andThen (pre s r) f = pre s (andThen r f) := by
  cases r with
  | error e => rfl
  | ok y =>
    simp only [pre, andThen, Except.map, Except.bind]
    cases f y.2 <;> simp [List.append_assoc]
theorem andThen_preM (x : M Str) (r : M (Str × Env)) (f : Env → M (Str × Env)) :
    andThen (preM x r) f = preM x (andThen r f) := by
  cases x with
  | error e => rfl
  | ok s => exact andThen_pre s r f
theorem andThen_assoc (r : M (Str × Env)) (f g : Env → M (Str × Env)) :
    andThen (andThen r f) g = andThen r fun env => andThen (f env) g := by
  cases r with
  | error e => rfl
  | ok y =>
    obtain ⟨s, env⟩ := y
    simp only [andThen_ok, andThen_pre]

variable {frac : Str → Int} {inv : Str → Env → M Str}

theorem exec_done (env : Env) : exec frac inv .done env = .ok ([], env) := rfl
theorem exec_text (s : Str) (k : Prog) (env : Env) : exec frac inv (.text s k) env = pre s (exec frac inv k env) := rfl
theorem exec_out {e : Ex} {v : Val} {s : Str} {env : Env} (k : Prog) (h : eval frac env e = .ok v) (hs : show1 v = .ok s) :
    exec frac inv (.out e k) env = pre s (exec frac inv k env) := by
  simp only [exec, h, Except.bind, hs, Except.map, andThen_ok]
theorem exec_call {f : Str} {args : List (Str × Ex)} {vs : Env} {env : Env} (k : Prog) (h : evalArgs frac env args = .ok vs) :
    exec frac inv (.call f args k) env = preM (inv f vs) (exec frac inv k env) := by
  simp only [exec, h, Except.bind]
  cases inv f vs <;> rfl
theorem exec_set {x : Str} {e : Ex} {v : Val} {env : Env} (k : Prog) (h : eval frac env e = .ok v) :
    exec frac inv (.set x e k) env = exec frac inv k ((x, v) :: env) := by
  simp only [exec, h, Except.bind]
theorem exec_cond {e : Ex} {c : Bool} {env : Env} (a b k : Prog) (h : holds frac env e = .ok c) :
    exec frac inv (.cond e a b k) env = andThen (if c then exec frac inv a env else exec frac inv b env) (exec frac inv k) := by
  simp only [exec, h, Except.bind]

theorem exec_yes {e : Ex} {env : Env} (a b k : Prog) (h : holds frac env e = .ok true) :
    exec frac inv (.cond e a b k) env = andThen (exec frac inv a env) (exec frac inv k) := exec_cond a b k h
theorem exec_no {e : Ex} {env : Env} (a b k : Prog) (h : holds frac env e = .ok false) :
    exec frac inv (.cond e a b k) env = andThen (exec frac inv b env) (exec frac inv k) := exec_cond a b k h

theorem exec_loop {x : Str} {e : Ex} {l : List Json} {r : M Str} {env : Env} (body k : Prog)
    (h : eval frac env e = .ok (.data (.arr l)))
    (hl : each (fun j => (exec frac inv body ((x, .data j) :: env)).map (·.1)) l = r) :
    exec frac inv (.loop x e body k) env = preM r (exec frac inv k env) := by
  simp only [exec, h, Except.bind, elems, hl]
  cases r <;> rfl

theorem exec_seq (p q : Prog) (env : Env) :
    exec frac inv (seq p q) env = andThen (exec frac inv p env) (exec frac inv q) := by
  induction p generalizing env with
  | done => simp only [seq, exec_done, andThen_ok, pre_nil]
  | text s k ih => simp only [seq, exec_text, ih, andThen_pre]
  | out e k ih =>
    simp only [seq, exec, andThen_assoc]
    congr 1; funext env; exact ih env
  | call f args k ih =>
    simp only [seq, exec, andThen_assoc]
    congr 1; funext env; exact ih env
  | set x e k ih =>
    simp only [seq, exec]
    cases eval frac env e with
    | error e => rfl
    | ok v => exact ih _
  | cond e a b k _ _ ih =>
    simp only [seq, exec]
    cases holds frac env e with
    | error e => rfl
    | ok c =>
      simp only [Except.bind, andThen_assoc]
      congr 1; funext env; exact ih env
  | loop x e body k _ ih =>
    simp only [seq, exec, andThen_assoc]
    congr 1; funext env; exact ih env

/-! ## Values -/

theorem var_cons (x y : Str) (v : Val) (env : Env) : var x ((y, v) :: env) = if y = x then some v else var x env := by
  simp only [var, List.find?_cons]
  by_cases h : y = x <;> simp [h]

/-- A text that may be missing if it is empty. -/
def Shows (o : Option Val) (s : Str) : Prop := o = some (.data (.str s)) ∨ (s = [] ∧ o = none)
/-- A list that may be missing if it is empty. -/
def Lists (o : Option Json) (l : List Json) : Prop := o = some (.arr l) ∨ (l = [] ∧ o = none)

theorem eval_path {r : Str} {ks : List Str} {env : Env} {v : Val} (h : walk r ks env = some v) :
    eval frac env (.path r ks) = .ok v := by simp only [eval, h]
theorem holds_path {r : Str} {ks : List Str} {env : Env} {v : Val} (h : walk r ks env = some v) :
    holds frac env (.path r ks) = .ok (truthy v) := by simp only [holds, h]
theorem holds_none {r : Str} {ks : List Str} {env : Env} (h : walk r ks env = none) :
    holds frac env (.path r ks) = .ok false := by simp only [holds, h]
theorem walk_var {x : Str} {env : Env} {o : Option Val} (h : var x env = o) : walk x [] env = o := by
  simp only [walk, h]
  cases o with
  | none => rfl
  | some v => cases v <;> rfl
theorem walk_data {x : Str} {ks : List Str} {env : Env} {j : Json} (h : var x env = some (.data j)) :
    walk x ks env = (dig ks j).map .data := by simp only [walk, h]

theorem holds_shows {r : Str} {ks : List Str} {env : Env} {s : Str} (h : Shows (walk r ks env) s) :
    holds frac env (.path r ks) = .ok (!s.isEmpty) := by
  rcases h with h | ⟨rfl, h⟩
  · exact holds_path h
  · exact holds_none h

/-- A list at a path of a block is there or not. -/
theorem holds_lists {r : Str} {ks : List Str} {env : Env} {l : List Json}
    (h : ∃ o, walk r ks env = o.map .data ∧ Lists o l) : holds frac env (.path r ks) = .ok (!l.isEmpty) := by
  obtain ⟨o, hw, h | ⟨rfl, h⟩⟩ := h
  · exact holds_path (hw.trans (by rw [h]; rfl))
  · exact holds_none (hw.trans (by rw [h]; rfl))

theorem holds_is {r : Str} {ks : List Str} {env : Env} {a : Str} (b : Str) (h : walk r ks env = some (.data (.str a))) :
    holds frac env (.op b!"==" (.path r ks) (.str b)) = .ok (decide (a = b)) := by
  simp (decide := true) only [holds, eval, h, ↓reduceIte, Except.bind, operate, same, Except.map, truthy]

theorem holds_isnt {r : Str} {ks : List Str} {env : Env} {a : Str} (b : Str) (h : walk r ks env = some (.data (.str a))) :
    holds frac env (.op b!"!=" (.path r ks) (.str b)) = .ok (!decide (a = b)) := by
  simp (decide := true) only [holds, eval, h, ↓reduceIte, Except.bind, operate, same, Except.map, truthy]

theorem texts_strs (l : List Str) : texts (l.map .str) = .ok l := by
  induction l with
  | nil => rfl
  | cons s ss ih => simp only [List.map_cons, texts, ih, Except.map]

theorem holds_in {r : Str} {ks : List Str} {env : Env} {a : Str} (l : List Str)
    (h : walk r ks env = some (.data (.str a))) :
    holds frac env (.op b!"in" (.path r ks) (.strs l)) = .ok (l.contains a) := by
  simp (decide := true) only [holds, eval, h, ↓reduceIte, Except.bind, operate, texts_strs, Except.map, truthy]

theorem holds_and {a b : Ex} {env : Env} {x y : Bool} (ha : holds frac env a = .ok x) (hb : holds frac env b = .ok y) :
    holds frac env (.op b!"and" a b) = .ok (x && y) := by
  simp (decide := true) only [holds, ↓reduceIte, ha, hb, Except.bind]
  cases x <;> rfl
theorem holds_or {a b : Ex} {env : Env} {x y : Bool} (ha : holds frac env a = .ok x) (hb : holds frac env b = .ok y) :
    holds frac env (.op b!"or" a b) = .ok (x || y) := by
  simp (decide := true) only [holds, ↓reduceIte, ha, hb, Except.bind]
  cases x <;> rfl
theorem holds_not {a : Ex} {env : Env} {x : Bool} (ha : holds frac env a = .ok x) :
    holds frac env (.not a) = .ok (!x) := by
  simp only [holds, ha, Except.map]

theorem glue_join : ∀ l : List Str, glue b!" " l = Html.joinSp l
  | [] => rfl
  | [_] => rfl
  | s :: t :: l => by rw [glue, Html.joinSp, glue_join (t :: l)] <;> simp

/-! ## The JSON form -/

theorem dig_fields (k : Str) (ks : List Str) (fs : List (Str × Option Json)) :
    dig (k :: ks) (fields fs) = (look k fs).bind (dig ks) :=
  congrArg (fun o : Option Json => o.bind (dig ks)) (member_fields k fs)

theorem dig_nil (j : Json) : dig [] j = some j := rfl

variable {ord : SMap Str → SMap Str}

theorem dig_map (k : Str) (m : SMap Str) : dig [k] (ofMap ord m) = ((ord m).get? k).map .str := by
  simp only [dig, ofMap, get]
  induction ord m with
  | nil => rfl
  | cons kv m ih =>
    simp only [List.map_cons, List.find?_cons]
    by_cases h : kv.1 = k
    · simp [h, SMap.get?]
    · have hg : SMap.get? (kv :: m) k = SMap.get? m k := by simp [SMap.get?, h]
      simp only [h, decide_false, hg]
      simpa using ih

theorem dig_roles (m : Option Meta) :
    (m.map (ofMeta ord)).bind (dig [b!"roles"]) = m.map fun m => strs m.roles := by
  cases m with
  | none => rfl
  | some m => simp (decide := true) only [Option.map_some, Option.bind_some, ofMeta, dig_fields, look, ↓reduceIte, Option.some_or, dig_nil]

theorem dig_options (m : Option Meta) :
    (m.map (ofMeta ord)).bind (dig [b!"options"]) = m.map fun m => strs m.options := by
  cases m with
  | none => rfl
  | some m => simp (decide := true) only [Option.map_some, Option.bind_some, ofMeta, dig_fields, look, ↓reduceIte, Option.some_or, dig_nil]

theorem dig_attr (m : Option Meta) (k : Str) :
    (m.map (ofMeta ord)).bind (dig [b!"attributes", k]) = m.bind fun m => ((ord m.attributes).get? k).map .str := by
  cases m with
  | none => rfl
  | some m => simp (decide := true) only [Option.map_some, Option.bind_some, ofMeta, dig_fields, look, ↓reduceIte, Option.some_or, dig_map]

/-- The order of maps does not matter for looking things up. -/
def Keeps (ord : SMap Str → SMap Str) : Prop := ∀ m k, (ord m).get? k = m.get? k

theorem shows_attr (ho : Keeps ord) (m : Option Meta) (k : Str) :
    Shows ((m.bind fun m => ((ord m.attributes).get? k).map .str).map .data) (Html.attrOf m k) := by
  cases m with
  | none => exact .inr ⟨rfl, rfl⟩
  | some m =>
    simp only [Option.bind_some, ho m.attributes k, Html.attrOf]
    cases m.attributes.get? k with
    | none => exact .inr ⟨rfl, rfl⟩
    | some v => exact .inl rfl

theorem lists_unless (l : List Json) : Lists (unlessEmpty l) l := by
  cases l with
  | nil => exact .inr ⟨rfl, rfl⟩
  | cons j l => exact .inl rfl
theorem lists_some (l : List Json) : Lists (some (.arr l)) l := .inl rfl
theorem lists_none : Lists none [] := .inr ⟨rfl, rfl⟩

theorem ofInlines_isEmpty (is : List Inline) : (ofInlines ord is).isEmpty = is.isEmpty := by cases is <;> rfl
theorem ofBlocks_isEmpty (bs : List Block) : (ofBlocks ord bs).isEmpty = bs.isEmpty := by cases bs <;> rfl

/-! ## Shared pieces -/

theorem exec_attrIf {t r : Str} {ks : List Str} {s : Str} {env : Env} (k : Prog) (h : Shows (walk r ks env) s) :
    exec frac inv (attrIf t (.path r ks) k) env = pre (if s = [] then [] else t ++ s ++ b!"\"") (exec frac inv k env) := by
  rw [attrIf, exec_cond _ _ _ (holds_shows h)]
  rcases h with h | ⟨rfl, h⟩
  · cases s with
    | nil => rfl
    | cons b s =>
      simp only [List.isEmpty_cons, Bool.not_false, if_true, exec_text, exec_out _ (eval_path h) rfl, exec_done, pre_ok,
        andThen_ok, reduceCtorEq, if_false, List.append_nil, List.append_assoc]
  · rfl

theorem holds_roles {x : Str} {m : Option Meta} {env : Env}
    (h : walk x [b!"metadata", b!"roles"] env = m.map fun m => .data (strs m.roles)) :
    holds frac env (rolesOf x) = .ok (!(Html.roles m).isEmpty) := by
  cases m with
  | none => exact holds_none h
  | some m =>
    refine (holds_path h).trans ?_
    cases hr : m.roles <;> simp [truthy, strs, Html.roles, hr]

theorem exec_rolesIf {c : Ex} {x : Str} {m : Option Meta} {env : Env} (k : Prog)
    (h : walk x [b!"metadata", b!"roles"] env = m.map fun m => .data (strs m.roles))
    (hc : holds frac env c = .ok (!(Html.roles m).isEmpty)) :
    exec frac inv (rolesIf c x k) env = pre (Html.classAttr m) (exec frac inv k env) := by
  rw [rolesIf, exec_cond _ _ _ hc]
  cases m with
  | none => rfl
  | some m =>
    by_cases hr : m.roles = []
    · simp [Html.classAttr, Html.roles, hr, exec_done, andThen_ok]
    · obtain ⟨s, ss, hr⟩ := List.exists_cons_of_ne_nil hr
      have he : eval frac env (.filter1 (rolesOf x) b!"join" b!"sep" (.str b!" ")) = .ok (.data (.str (Html.joinSp (s :: ss)))) := by
        have hp : eval frac env (rolesOf x) = .ok (.data (strs (s :: ss))) := eval_path (h.trans (by rw [Option.map_some, hr]))
        simp (decide := true) only [eval, hp, Except.bind, filter1, ↓reduceIte, strs, texts_strs, Except.map, glue_join]
      simp only [Html.classAttr, Html.roles, hr, List.isEmpty_cons, Bool.not_false, if_true, exec_text, exec_out _ he rfl,
        exec_done, pre_ok, andThen_ok, reduceCtorEq, if_false, List.append_nil, List.append_assoc]

/-- The macro for inlines does what it should. -/
def Inlined (ord : SMap Str → SMap Str) (inv : Str → Env → M Str) (name : Str) (is : List Inline) : Prop :=
  ∀ i ∈ is, inv name [(b!"inline", .data (ofInline ord i))] = .ok (Html.inline i)

theorem exec_inlines {x f : Str} {ex : Ex} {is : List Inline} {env : Env} (k : Prog)
    (h : eval frac env ex = .ok (.data (.arr (ofInlines ord is)))) (hi : Inlined ord inv f is) :
    exec frac inv (.loop x ex (.call f [(b!"inline", .path x [])] .done) k) env
      = pre (Html.inlines is) (exec frac inv k env) := by
  rw [exec_loop _ _ h (r := .ok (Html.inlines is)) ?_, preM_ok]
  clear h
  induction is with
  | nil => rfl
  | cons i is ih =>
    have hv : ∀ j, evalArgs frac ((x, .data j) :: env) [(b!"inline", .path x [])] = .ok [(b!"inline", .data j)] := fun j => by
      simp only [evalArgs, eval_path (walk_var ((var_cons x x (.data j) env).trans (if_pos rfl))), Except.bind, Except.map]
    simp only [ofInlines, each]
    rw [ih fun i h => hi i (List.mem_cons_of_mem _ h)]
    simp only [exec_call _ (hv _), hi i (List.mem_cons_self ..),
      preM_ok, exec_done, pre_ok, Except.map, Except.bind, List.append_nil, Html.inlines]

theorem exec_textPart {r : Str} {ks : List Str} {is : List Inline} {env : Env}
    (h : ∃ o, walk r ks env = o.map .data ∧ Lists o (ofInlines ord is)) (hi : Inlined ord inv b!"inline_macros::process_inline" is) :
    exec frac inv (textPart (.path r ks)) env = .ok (Html.inlines is, env) := by
  rw [textPart, exec_cond _ _ _ (holds_lists h), ofInlines_isEmpty]
  cases is with
  | nil => rfl
  | cons i is =>
    obtain ⟨o, hw, ho⟩ := h
    rcases ho with rfl | ⟨h, _⟩
    · simp only [List.isEmpty_cons, Bool.not_false, if_true, inlineLoop, exec_inlines _ (eval_path hw) hi, exec_done, pre_ok,
        andThen_ok, List.append_nil]
    · cases h

/-- The macro for blocks does what it should. -/
def Blocked (ord : SMap Str → SMap Str) (inv : Str → Env → M Str) (titled skip : Bool) (bs : List Block) : Prop :=
  ∀ b ∈ bs, inv b!"self::process_block" [(b!"block", .data (ofBlock ord b)), (b!"skip_tag", .bool skip)]
    = Html.block titled skip b

theorem exec_blockLoop {x : Str} {ex : Ex} {bs : List Block} {titled ls : Bool} {env : Env} (k : Prog)
    (h : eval frac env ex = .ok (.data (.arr (ofBlocks ord bs)))) (hx : x ≠ b!"local_skip_tag")
    (hs : var b!"local_skip_tag" env = some (.bool ls)) (hb : Blocked ord inv titled ls bs) :
    exec frac inv (blockLoop x ex k) env = preM (Html.blocks titled ls bs) (exec frac inv k env) := by
  refine exec_loop _ _ h ?_
  clear h
  induction bs with
  | nil => simp only [ofBlocks, each, Html.blocks]
  | cons b bs ih =>
    have hv : ∀ j, evalArgs frac ((x, .data j) :: env) [(b!"block", .path x []), (b!"skip_tag", .path b!"local_skip_tag" [])]
        = .ok [(b!"block", .data j), (b!"skip_tag", .bool ls)] := fun j => by
      simp only [evalArgs, eval_path (walk_var ((var_cons x x (.data j) env).trans (if_pos rfl))),
        eval_path (walk_var ((var_cons _ x (.data j) env).trans ((if_neg hx).trans hs))), Except.bind, Except.map]
    simp only [ofBlocks, each]
    rw [ih fun i h => hb i (List.mem_cons_of_mem _ h)]
    simp only [exec_call _ (hv _), hb b (List.mem_cons_self ..),
      Html.blocks]
    cases Html.block titled ls b with
    | error e => rfl
    | ok s =>
      simp only [preM_ok, exec_done, pre_ok, Except.map, Except.bind, List.append_nil]
      cases Html.blocks titled ls bs <;> rfl

end Adoc.Tera
