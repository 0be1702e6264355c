import Verif.Proof.TeraKit
/-!
# `inline.html.tera` does what `Html.inline` does
-/
namespace Adoc.Tera
open Adoc.Json (look member_fields fields unlessEmpty strs ofMap ofMeta ofInline ofInlines ofBlock ofBlocks)

variable {frac : Str → Int} {inv : Str → Env → M Str} {ord : SMap Str → SMap Str}

theorem holds_nameIs {x a : Str} {env : Env} (n : Str) (h : walk x [b!"name"] env = some (.data (.str a))) :
    holds frac env (nameIs x n) = .ok (decide (a = n)) := holds_is n h
theorem holds_variantIs {x a : Str} {env : Env} (n : Str) (h : walk x [b!"variant"] env = some (.data (.str a))) :
    holds frac env (variantIs x n) = .ok (decide (a = n)) := holds_is n h
theorem exec_set_str (x s : Str) (k : Prog) (env : Env) :
    exec frac inv (.set x (.str s) k) env = exec frac inv k ((x, .data (.str s)) :: env) := exec_set k (by simp only [eval])
theorem exec_set_bool (x : Str) (b : Bool) (k : Prog) (env : Env) :
    exec frac inv (.set x (.bool b) k) env = exec frac inv k ((x, .bool b) :: env) := exec_set k (by simp only [eval])
theorem exec_set_int (x : Str) (n : Nat) (k : Prog) (env : Env) :
    exec frac inv (.set x (.int n) k) env = exec frac inv k ((x, .int n) :: env) := exec_set k (by simp only [eval])

theorem shows_var {x : Str} {env : Env} {s : Str} (h : Shows (var x env) s) : Shows (walk x [] env) s := by
  rwa [walk_var rfl]

/-- A condition on a text, with the rest. -/
theorem cond_empty (s : Str) (a b : M (Str × Env)) : (if (!s.isEmpty) = true then a else b) = if s = [] then b else a := by
  cases s <;> rfl

theorem exec_inlineOpen {env : Env} {tag dt target : Str} {m : Option Meta} {close : Bool}
    (ht : var b!"inline_tag" env = some (.data (.str tag))) (hn : tag ≠ [])
    (hr : walk b!"inline" [b!"metadata", b!"roles"] env = m.map fun m => .data (strs m.roles))
    (hd : Shows (var b!"data_type" env) dt) (hg : Shows (var b!"target" env) target)
    (hc : var b!"self_close" env = if close then some (.bool true) else none) :
    exec frac inv inlineOpen env = .ok (b!"<" ++ tag ++ Html.classAttr m
      ++ (if dt = [] then [] else b!" data-type=\"" ++ dt ++ b!"\"") ++ (if target = [] then [] else b!" " ++ target)
      ++ (if close then b!" /" else []) ++ b!">", env) := by
  have h1 : holds frac env (.path b!"inline_tag" []) = .ok true := by
    rw [holds_path (walk_var ht)]
    cases tag with
    | nil => exact absurd rfl hn
    | cons b s => rfl
  have h2 : holds frac env (.path b!"self_close" []) = .ok close := by
    cases close
    · exact holds_none (walk_var hc)
    · exact holds_path (walk_var hc)
  have h3 : ∀ k : Prog, exec frac inv (.cond (.path b!"target" []) (.text b!" " (.out (.path b!"target" []) .done)) .done k) env
      = pre (if target = [] then [] else b!" " ++ target) (exec frac inv k env) := fun k => by
    rw [exec_cond _ _ _ (holds_shows (shows_var hg)), cond_empty]
    rcases hg with hg | ⟨rfl, hg⟩
    · split
      · rfl
      · simp only [exec_text, exec_out _ (eval_path (walk_var hg)) rfl, exec_done, pre_ok, andThen_ok, List.append_nil]
    · rfl
  have h4 : ∀ k : Prog, exec frac inv (.cond (.path b!"self_close" []) (.text b!" /" .done) .done k) env
      = pre (if close then b!" /" else []) (exec frac inv k env) := fun k => by
    rw [exec_cond _ _ _ h2]
    cases close <;> rfl
  simp only [inlineOpen, exec_yes _ _ _ h1, exec_text, exec_out _ (eval_path (walk_var ht)) rfl,
    exec_rolesIf _ hr (holds_roles hr), exec_attrIf _ (shows_var hd), h3, h4, exec_done, pre_ok, andThen_ok, List.append_nil,
    List.append_assoc]

theorem exec_inlineClose {env : Env} {tag : Str} (ht : var b!"inline_tag" env = some (.data (.str tag))) (hn : tag ≠ []) :
    exec frac inv inlineClose env = .ok (b!"</" ++ tag ++ b!">", env) := by
  have h1 : holds frac env (.path b!"inline_tag" []) = .ok true := by
    rw [holds_path (walk_var ht)]
    cases tag with
    | nil => exact absurd rfl hn
    | cons b s => rfl
  simp only [inlineClose, exec_yes _ _ _ h1, exec_text, exec_out _ (eval_path (walk_var ht)) rfl, exec_done, pre_ok,
    andThen_ok, List.append_nil, List.append_assoc]

/-- The inlines inside an inline. -/
def kids : Inline → List Inline
  | .span _ _ is _ _ _ => is
  | .ref _ _ is _ _ => is
  | _ => []

theorem exec_inside_kids {env : Env} {is : List Inline} {i : Inline}
    (h : walk b!"inline" [b!"inlines"] env = some (.data (.arr (ofInlines ord (i :: is)))))
    (hi : Inlined ord inv b!"self::process_inline" (i :: is)) :
    exec frac inv inlineInside env = .ok (Html.inlines (i :: is), env) := by
  have h1 : holds frac env (.path b!"inline" [b!"inlines"]) = .ok true := holds_path h
  simp only [inlineInside, exec_yes _ _ _ h1, exec_inlines _ (eval_path h) hi, exec_done, pre_ok, andThen_ok, List.append_nil]

theorem exec_inside_none {env : Env} {v : Str} {r : Option Str}
    (h : walk b!"inline" [b!"inlines"] env = some (.data (.arr [])))
    (hv : walk b!"inline" [b!"variant"] env = some (.data (.str v))) (hn : v ≠ [])
    (hr : (v = b!"xref" ∨ v = b!"link") → r = none → False)
    (hrn : ¬ (v = b!"xref" ∨ v = b!"link") → r = none)
    (hw : ∀ s, r = some s → var b!"ref" env = some (.data (.str s))) :
    exec frac inv inlineInside env = .ok (r.getD [], env) := by
  have h1 : holds frac env (.path b!"inline" [b!"inlines"]) = .ok false := holds_path h
  have h2 : holds frac env (.path b!"inline" [b!"variant"]) = .ok true := by
    rw [holds_path hv]
    cases v with
    | nil => exact absurd rfl hn
    | cons b s => rfl
  have h3 := holds_or (frac := frac) (holds_variantIs (frac := frac) b!"xref" hv) (holds_variantIs b!"link" hv)
  cases r with
  | none =>
    have hne : ¬ (v = b!"xref" ∨ v = b!"link") := fun e => hr e rfl
    have h4 : (decide (v = b!"xref") || decide (v = b!"link")) = false := by
      rw [← Bool.decide_or]
      exact decide_eq_false hne
    rw [h4] at h3
    simp only [inlineInside, exec_no _ _ _ h1, exec_yes _ _ _ h2, exec_no _ _ _ h3, exec_done, andThen_ok, pre_ok,
      List.append_nil, Option.getD_none]
  | some s =>
    have he : v = b!"xref" ∨ v = b!"link" := by
      by_cases he : v = b!"xref" ∨ v = b!"link"
      · exact he
      · cases hrn he
    have h4 : (decide (v = b!"xref") || decide (v = b!"link")) = true := by
      rw [← Bool.decide_or]
      exact decide_eq_true he
    rw [h4] at h3
    simp only [inlineInside, exec_no _ _ _ h1, exec_yes _ _ _ h2, exec_yes _ _ _ h3,
      exec_out _ (eval_path (walk_var (hw s rfl))) rfl, exec_done, andThen_ok, pre_ok,
      List.append_nil, Option.getD_some]

/-- Names that the templates use for variables of their own. -/
def ownNames : List Str :=
  [b!"inline_tag", b!"data_type", b!"target", b!"self_close", b!"ref", b!"tag", b!"code_language", b!"id", b!"alt_text"]

/-- The values that macros see do not use these names. -/
def Clear (G : Env) : Prop := ∀ x ∈ ownNames, var x G = none

/-- The variables of a span after the first part. -/
def spanEnv (v : SpanVariant) (env : Env) : Env :=
  match v with
  | .footnote => (b!"data_type", .data (.str b!"footnote")) :: (b!"inline_tag", .data (.str b!"span")) :: env
  | v => (b!"inline_tag", .data (.str (Html.spanTag v))) :: env

theorem exec_spanPart {v : SpanVariant} {env : Env}
    (hv : walk b!"inline" [b!"variant"] env = some (.data (.str (Json.spanVariant v)))) :
    exec frac inv spanPart env = .ok ([], spanEnv v env) := by
  have hs : ∀ k : Prog, exec frac inv (.set b!"inline_tag" (.path b!"inline" [b!"variant"]) k) env
      = exec frac inv k ((b!"inline_tag", .data (.str (Json.spanVariant v))) :: env) := fun k => exec_set k (eval_path hv)
  cases v <;> simp (decide := true) only [spanPart, exec_cond _ _ _ (holds_variantIs _ hv), Json.spanVariant, ↓reduceIte, exec_set_str,
    exec_done, andThen_ok, pre_ok, List.append_nil, spanEnv, Html.spanTag, hs]

/-- The variables of a reference after the first part. -/
def refEnv (v : RefVariant) (t : Str) (env : Env) : Env :=
  match v with
  | .link => (b!"target", .data (.str (b!"href=\"" ++ t ++ b!"\""))) :: (b!"target_attr", .data (.str b!"href")) ::
      (b!"ref", .data (.str t)) :: (b!"inline_tag", .data (.str b!"a")) :: env
  | .xref => (b!"target", .data (.str (b!"href=\"#" ++ t ++ b!"\""))) :: (b!"target_attr", .data (.str b!"href")) ::
      (b!"ref", .data (.str (b!"#" ++ t))) :: (b!"inline_tag", .data (.str b!"a")) :: env
  | .image => (b!"target", .data (.str (b!"src=\"" ++ t ++ b!"\""))) :: (b!"target_attr", .data (.str b!"src")) ::
      (b!"self_close", .bool true) :: (b!"ref", .data (.str t)) :: (b!"inline_tag", .data (.str b!"img")) ::
      (b!"inline_tag", .data (.str b!"a")) :: env

theorem walk_cons_ne {x y : Str} {ks : List Str} {v : Val} {env : Env} (h : y ≠ x) : walk x ks ((y, v) :: env) = walk x ks env := by
  simp only [walk, var_cons, if_neg h]
theorem walk_cons_eq {x : Str} {v : Val} {env : Env} : walk x [] ((x, v) :: env) = some v :=
  walk_var ((var_cons x x v env).trans (if_pos rfl))

theorem eval_str (env : Env) (s : Str) : eval frac env (.str s) = .ok (.data (.str s)) := by simp only [eval]
theorem eval_tilde {env : Env} {a b : Ex} {x y : Str} (ha : eval frac env a = .ok (.data (.str x)))
    (hb : eval frac env b = .ok (.data (.str y))) : eval frac env (.op b!"~" a b) = .ok (.data (.str (x ++ y))) := by
  simp (decide := true) only [eval, ha, hb, Except.bind, operate, ↓reduceIte, show1, Except.map]

theorem exec_refPart {v : RefVariant} {t : Str} {env : Env}
    (hv : walk b!"inline" [b!"variant"] env = some (.data (.str (Json.refVariant v))))
    (ht : walk b!"inline" [b!"target"] env = some (.data (.str t))) :
    exec frac inv refPart env = .ok ([], refEnv v t env) := by
  have h1 : ∀ w : Val, walk b!"inline" [b!"variant"] ((b!"inline_tag", w) :: env) = some (.data (.str (Json.refVariant v))) :=
    fun w => (walk_cons_ne (by decide)).trans hv
  have ht1 : ∀ w : Val, walk b!"inline" [b!"target"] ((b!"inline_tag", w) :: env) = some (.data (.str t)) :=
    fun w => (walk_cons_ne (by decide)).trans ht
  have ht3 : ∀ w u : Val, walk b!"inline" [b!"target"] ((b!"inline_tag", w) :: (b!"inline_tag", u) :: env) = some (.data (.str t)) :=
    fun w u => (walk_cons_ne (by decide)).trans (ht1 u)
  have hset : ∀ (a r : Str) (env : Env) (k : Prog), walk b!"target_attr" [] env = some (.data (.str a)) →
      walk b!"ref" [] env = some (.data (.str r)) →
      exec frac inv (.set b!"target" (.op b!"~" (.path b!"target_attr" []) (.op b!"~" (.str b!"=\"") (.op b!"~" (.path b!"ref" [])
        (.str b!"\"")))) k) env = exec frac inv k ((b!"target", .data (.str (a ++ (b!"=\"" ++ (r ++ b!"\""))))) :: env) :=
    fun a r env k ha hr => exec_set k (eval_tilde (eval_path ha) (eval_tilde (eval_str ..) (eval_tilde (eval_path hr) (eval_str ..))))
  cases v
  · simp (decide := true) only [refPart, exec_set_str, exec_cond _ _ _ (holds_variantIs _ (h1 _)),
      ↓reduceIte, exec_set _ (eval_path (ht1 _)), exec_done, andThen_ok, pre_nil]
    rw [hset b!"href" t _ _ walk_cons_eq ((walk_cons_ne (by decide)).trans walk_cons_eq)]
    rfl
  · simp (decide := true) only [refPart, exec_set_str, exec_cond _ _ _ (holds_variantIs _ (h1 _)),
      ↓reduceIte, exec_set _ (eval_tilde (eval_str ..) (eval_path (ht1 _))), exec_done, andThen_ok, pre_nil]
    rw [hset b!"href" (b!"#" ++ t) _ _ walk_cons_eq ((walk_cons_ne (by decide)).trans walk_cons_eq)]
    rfl
  · simp (decide := true) only [refPart, exec_set_str, exec_set_bool, exec_cond _ _ _ (holds_variantIs _ (h1 _)),
      ↓reduceIte, exec_set _ (eval_path (ht3 _ _)), exec_done, andThen_ok, pre_nil]
    rw [hset b!"src" t _ _ walk_cons_eq ((walk_cons_ne (by decide)).trans ((walk_cons_ne (by decide)).trans walk_cons_eq))]
    rfl

/-- What `process_inline` writes. -/
theorem exec_inline {G : Env} (hG : Clear G) (i : Inline) (hi : Inlined ord inv b!"self::process_inline" (kids i)) :
    (exec frac inv inlineBody ((b!"inline", .data (ofInline ord i)) :: G)).map (·.1) = .ok (Html.inline i) := by
  have hw : ∀ ks, walk b!"inline" ks ((b!"inline", .data (ofInline ord i)) :: G) = (dig ks (ofInline ord i)).map .data :=
    fun ks => walk_data ((var_cons ..).trans (if_pos rfl))
  cases i with
  | brk l =>
    have hn := (hw [b!"name"]).trans (congrArg _ (show dig [b!"name"] (ofInline ord (.brk l)) = some (.str b!"linebreak") by
      simp (decide := true) only [ofInline, dig_fields, look, ↓reduceIte, Option.some_or, Option.bind_some, dig_nil]))
    simp (decide := true) only [inlineBody, exec_cond _ _ _ (holds_nameIs _ hn), ↓reduceIte, exec_text, exec_done, pre_ok,
      andThen_ok, Except.map, Html.inline, List.append_nil]
  | lit n v l =>
    have hn := (hw [b!"name"]).trans (congrArg _ (show dig [b!"name"] (ofInline ord (.lit n v l)) = some (.str (Json.litName n)) by
      simp (decide := true) only [ofInline, dig_fields, look, ↓reduceIte, Option.some_or, Option.bind_some, dig_nil]))
    have hv := (hw [b!"value"]).trans (congrArg _ (show dig [b!"value"] (ofInline ord (.lit n v l)) = some (.str v) by
      simp (decide := true) only [ofInline, dig_fields, look, ↓reduceIte, Option.some_or, Option.bind_some, dig_nil]))
    have h1 := holds_none (frac := frac) ((hw [b!"inlines"]).trans (congrArg _ (show dig [b!"inlines"] (ofInline ord (.lit n v l)) = none by
      simp (decide := true) only [ofInline, dig_fields, look, ↓reduceIte, Option.bind_none])))
    have h2 := holds_none (frac := frac) ((hw [b!"variant"]).trans (congrArg _ (show dig [b!"variant"] (ofInline ord (.lit n v l)) = none by
      simp (decide := true) only [ofInline, dig_fields, look, ↓reduceIte, Option.bind_none])))
    have hvar : ∀ x ∈ ownNames, walk x [] ((b!"inline", .data (ofInline ord (.lit n v l))) :: G) = none := fun x hx => by
      rw [walk_cons_ne, walk_var (hG x hx)]
      rintro rfl
      revert hx
      decide
    have ht := holds_none (frac := frac) (hvar b!"inline_tag" (by decide))
    have hc := holds_not (holds_none (frac := frac) (hvar b!"self_close" (by decide)))
    have ha : Json.litName n ≠ b!"linebreak" ∧ Json.litName n ≠ b!"span" ∧ Json.litName n ≠ b!"ref" := by cases n <;> decide
    simp only [inlineBody, exec_cond _ _ _ (holds_nameIs _ hn), ha, decide_false, Bool.false_eq_true, if_false, exec_done,
      andThen_ok, pre_nil, exec_seq, inlineOpen, exec_no _ _ _ ht, exec_yes _ _ _ hc, inlineInside, exec_no _ _ _ h1,
      exec_no _ _ _ h2, inlineClose, exec_cond _ _ _ (holds_path hv), Option.map_some]
    cases v with
    | nil =>
      simp only [truthy, List.isEmpty_nil, Bool.not_true, Bool.false_eq_true, if_false, exec_done, pre_ok, andThen_ok,
        exec_no _ _ _ ht, Except.map, Html.inline, List.append_nil]
    | cons b v =>
      simp only [truthy, List.isEmpty_cons, Bool.not_false, if_true, exec_out _ (eval_path hv) rfl, exec_done, pre_ok,
        andThen_ok, exec_no _ _ _ ht, Except.map, Html.inline, List.append_nil]
  | span v f is m l x =>
    have hn := (hw [b!"name"]).trans (congrArg _ (show dig [b!"name"] (ofInline ord (.span v f is m l x)) = some (.str b!"span") by
      simp (decide := true) only [ofInline, dig_fields, look, ↓reduceIte, Option.some_or, Option.bind_some, dig_nil]))
    have hv := (hw [b!"variant"]).trans (congrArg _ (show dig [b!"variant"] (ofInline ord (.span v f is m l x)) = some (.str (Json.spanVariant v)) by
      simp (decide := true) only [ofInline, dig_fields, look, ↓reduceIte, Option.some_or, Option.bind_some, dig_nil]))
    have hk := (hw [b!"inlines"]).trans (congrArg _ (show dig [b!"inlines"] (ofInline ord (.span v f is m l x)) = some (.arr (ofInlines ord is)) by
      simp (decide := true) only [ofInline, dig_fields, look, ↓reduceIte, Option.some_or, Option.bind_some, dig_nil]))
    have hr := (hw [b!"metadata", b!"roles"]).trans (congrArg _ (show dig [b!"metadata", b!"roles"] (ofInline ord (.span v f is m l x)) = m.map fun m => strs m.roles by
      simp (decide := true) only [ofInline, dig_fields, look, ↓reduceIte, Option.or_none, dig_roles]))
    simp (decide := true) only [inlineBody, exec_cond _ _ _ (holds_nameIs _ hn), ↓reduceIte, exec_spanPart hv, andThen_ok, pre_nil, exec_seq]
    generalize henv : (b!"inline", Val.data (ofInline ord (.span v f is m l x))) :: G = env at *
    have hG' : ∀ y ∈ ownNames, var y env = none := fun y hy => by
      rw [← henv, var_cons, if_neg, hG y hy]
      rintro rfl
      revert hy
      decide
    have hin : ∀ ks, walk b!"inline" ks (spanEnv v env) = walk b!"inline" ks env := fun ks => by
      cases v <;> simp (decide := true) only [spanEnv, walk, var_cons, ↓reduceIte]
    have htag : var b!"inline_tag" (spanEnv v env) = some (.data (.str (Html.spanTag v))) := by
      cases v <;> simp (decide := true) only [spanEnv, var_cons, ↓reduceIte, Html.spanTag]
    have hother : ∀ y ∈ ownNames, y ≠ b!"inline_tag" → y ≠ b!"data_type" → var y (spanEnv v env) = none := fun y hy h1 h2 => by
      cases v <;> simp only [spanEnv, var_cons, if_neg (Ne.symm h1), if_neg (Ne.symm h2), hG' y hy]
    have hdt : Shows (var b!"data_type" (spanEnv v env)) (if v = .footnote then b!"footnote" else []) := by
      cases v <;> simp (decide := true) only [spanEnv, var_cons, ↓reduceIte, hG' b!"data_type" (by decide)] <;>
        first | exact .inl rfl | exact .inr ⟨rfl, rfl⟩
    have hne : Html.spanTag v ≠ [] := by cases v <;> decide
    have hopen := exec_inlineOpen (frac := frac) (inv := inv) (m := m) (target := []) (close := false) htag hne
      ((hin _).trans (hr.trans (by cases m <;> rfl))) hdt (.inr ⟨rfl, hother b!"target" (by decide) (by decide) (by decide)⟩)
      (hother b!"self_close" (by decide) (by decide) (by decide))
    have hc := holds_not (holds_none (frac := frac) (walk_var (hother b!"self_close" (by decide) (by decide) (by decide))))
    have hins : exec frac inv inlineInside (spanEnv v env) = .ok (Html.inlines is, spanEnv v env) := by
      cases is with
      | nil =>
        exact exec_inside_none (r := none) ((hin _).trans hk) ((hin _).trans hv) (by cases v <;> decide)
          (fun h => by revert h; cases v <;> decide) (fun _ => rfl) (fun s h => by cases h)
      | cons i is => exact exec_inside_kids ((hin _).trans hk) hi
    simp only [hopen, andThen_ok, exec_yes _ _ _ hc, exec_seq, hins, exec_inlineClose htag hne, pre_ok, exec_done, Except.map,
      Html.inline, List.append_nil, if_true, Bool.false_eq_true, if_false, List.append_assoc]
    cases v <;> rfl
  | ref v t is m l =>
    have hn := (hw [b!"name"]).trans (congrArg _ (show dig [b!"name"] (ofInline ord (.ref v t is m l)) = some (.str b!"ref") by
      simp (decide := true) only [ofInline, dig_fields, look, ↓reduceIte, Option.some_or, Option.bind_some, dig_nil]))
    have hv := (hw [b!"variant"]).trans (congrArg _ (show dig [b!"variant"] (ofInline ord (.ref v t is m l)) = some (.str (Json.refVariant v)) by
      simp (decide := true) only [ofInline, dig_fields, look, ↓reduceIte, Option.some_or, Option.bind_some, dig_nil]))
    have ht := (hw [b!"target"]).trans (congrArg _ (show dig [b!"target"] (ofInline ord (.ref v t is m l)) = some (.str t) by
      simp (decide := true) only [ofInline, dig_fields, look, ↓reduceIte, Option.some_or, Option.bind_some, dig_nil]))
    have hk := (hw [b!"inlines"]).trans (congrArg _ (show dig [b!"inlines"] (ofInline ord (.ref v t is m l)) = some (.arr (ofInlines ord is)) by
      simp (decide := true) only [ofInline, dig_fields, look, ↓reduceIte, Option.some_or, Option.bind_some, dig_nil]))
    have hr := (hw [b!"metadata", b!"roles"]).trans (congrArg _ (show dig [b!"metadata", b!"roles"] (ofInline ord (.ref v t is m l)) = m.map fun m => strs m.roles by
      simp (decide := true) only [ofInline, dig_fields, look, ↓reduceIte, Option.or_none, dig_roles]))
    simp (decide := true) only [inlineBody, exec_cond _ _ _ (holds_nameIs _ hn), ↓reduceIte, exec_refPart hv ht, andThen_ok, pre_nil, exec_seq]
    generalize henv : (b!"inline", Val.data (ofInline ord (.ref v t is m l))) :: G = env at *
    have hG' : ∀ y ∈ ownNames, var y env = none := fun y hy => by
      rw [← henv, var_cons, if_neg, hG y hy]
      rintro rfl
      revert hy
      decide
    have hin : ∀ ks, walk b!"inline" ks (refEnv v t env) = walk b!"inline" ks env := fun ks => by
      cases v <;> simp (decide := true) only [refEnv, walk, var_cons, ↓reduceIte]
    cases v with
    | image =>
      have hopen := exec_inlineOpen (frac := frac) (inv := inv) (m := m) (target := b!"src=\"" ++ t ++ b!"\"") (close := true)
        (tag := b!"img") (dt := []) (env := refEnv .image t env)
        (by simp (decide := true) only [refEnv, var_cons, ↓reduceIte]) (by decide)
        ((hin _).trans (hr.trans (by cases m <;> rfl)))
        (.inr ⟨rfl, by simp (decide := true) only [refEnv, var_cons, ↓reduceIte, hG' b!"data_type" (by decide)]⟩)
        (.inl (by simp (decide := true) only [refEnv, var_cons, ↓reduceIte]))
        (by simp (decide := true) only [refEnv, var_cons, ↓reduceIte])
      have hc := holds_not (holds_path (frac := frac) (walk_var (show var b!"self_close" (refEnv .image t env) = some (.bool true) by
        simp (decide := true) only [refEnv, var_cons, ↓reduceIte])))
      simp only [hopen, andThen_ok, exec_no _ _ _ hc, exec_seq, pre_ok, exec_done, Except.map, Html.inline, List.append_nil]
      simp [List.append_assoc]
    | link =>
      have htag : var b!"inline_tag" (refEnv .link t env) = some (.data (.str b!"a")) := by
        simp (decide := true) only [refEnv, var_cons, ↓reduceIte]
      have hself : var b!"self_close" (refEnv .link t env) = none := by
        simp (decide := true) only [refEnv, var_cons, ↓reduceIte, hG' b!"self_close" (by decide)]
      have hopen := exec_inlineOpen (frac := frac) (inv := inv) (m := m) (target := b!"href=\"" ++ t ++ b!"\"") (close := false)
        (dt := []) htag (by decide)
        ((hin _).trans (hr.trans (by cases m <;> rfl)))
        (.inr ⟨rfl, by simp (decide := true) only [refEnv, var_cons, ↓reduceIte, hG' b!"data_type" (by decide)]⟩)
        (.inl (by simp (decide := true) only [refEnv, var_cons, ↓reduceIte])) hself
      have hc := holds_not (holds_none (frac := frac) (walk_var hself))
      have hins : exec frac inv inlineInside (refEnv .link t env) = .ok (if is.isEmpty then t else Html.inlines is, refEnv .link t env) := by
        cases is with
        | nil =>
          exact exec_inside_none (r := some t) ((hin _).trans hk) ((hin _).trans hv) (by decide)
            (fun _ h => by cases h) (fun h => absurd (.inr rfl) h) (fun s h => by
              cases h
              simp (decide := true) only [refEnv, var_cons, ↓reduceIte])
        | cons i is => exact exec_inside_kids ((hin _).trans hk) hi
      simp only [hopen, andThen_ok, exec_yes _ _ _ hc, exec_seq, hins, exec_inlineClose htag (by decide), pre_ok, exec_done, Except.map,
        Html.inline, List.append_nil, if_true, Bool.false_eq_true, if_false, List.append_assoc]
      cases is <;> simp [Html.inline, Html.refHref, Html.inlines]
    | xref =>
      have htag : var b!"inline_tag" (refEnv .xref t env) = some (.data (.str b!"a")) := by
        simp (decide := true) only [refEnv, var_cons, ↓reduceIte]
      have hself : var b!"self_close" (refEnv .xref t env) = none := by
        simp (decide := true) only [refEnv, var_cons, ↓reduceIte, hG' b!"self_close" (by decide)]
      have hopen := exec_inlineOpen (frac := frac) (inv := inv) (m := m) (target := b!"href=\"#" ++ t ++ b!"\"") (close := false)
        (dt := []) htag (by decide)
        ((hin _).trans (hr.trans (by cases m <;> rfl)))
        (.inr ⟨rfl, by simp (decide := true) only [refEnv, var_cons, ↓reduceIte, hG' b!"data_type" (by decide)]⟩)
        (.inl (by simp (decide := true) only [refEnv, var_cons, ↓reduceIte])) hself
      have hc := holds_not (holds_none (frac := frac) (walk_var hself))
      have hins : exec frac inv inlineInside (refEnv .xref t env) = .ok (if is.isEmpty then b!"#" ++ t else Html.inlines is, refEnv .xref t env) := by
        cases is with
        | nil =>
          exact exec_inside_none (r := some (b!"#" ++ t)) ((hin _).trans hk) ((hin _).trans hv) (by decide)
            (fun _ h => by cases h) (fun h => absurd (.inl rfl) h) (fun s h => by
              cases h
              simp (decide := true) only [refEnv, var_cons, ↓reduceIte])
        | cons i is => exact exec_inside_kids ((hin _).trans hk) hi
      simp only [hopen, andThen_ok, exec_yes _ _ _ hc, exec_seq, hins, exec_inlineClose htag (by decide), pre_ok, exec_done, Except.map,
        Html.inline, List.append_nil, if_true, Bool.false_eq_true, if_false, List.append_assoc]
      cases is <;> simp [Html.inline, Html.refHref, Html.inlines]

end Adoc.Tera
