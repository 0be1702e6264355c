import Verif.Proof.Strings
import Verif.Props.Parser
/-!
# C18, C19, C48 and link targets (C46): level offsets, document attributes, the document title
-/
namespace Adoc.Props
open Parser

/-! ## Single steps -/

/-- The token of an attribute line with the given text. -/
def attrToken (text : Str) (line : Nat) (files : List Str) : Token :=
  ⟨.attribute, text, none, line, 1, text.length, files⟩

/-- Outside verbatim blocks an attribute line is handed to the attribute handler. -/
theorem attr_step (w : World) (n : Nat) (p : Parser) (text : Str) (line : Nat) (files : List Str)
    (ho : p.openText = none) :
    tokenInto w (n + 1) (attrToken text line files) p = p.parseAttribute (attrToken text line files) := by
  have h1 : (attrToken text line files).canBeInHeader = true := rfl
  have h2 : p.verbatim (attrToken text line files) = none := by unfold verbatim; rw [ho]
  simp only [tokenInto, step, h1, Bool.not_true, Bool.and_false, Bool.false_eq_true, if_false]
  show (match p.verbatim (attrToken text line files) with
    | some pass => p.parseText (attrToken text line files) pass
    | none => p.dispatchToken w (tokenInto w n) (attrToken text line files)) = _
  rw [h2]; rfl

theorem trim_space (v : Str) : trim (c!" " :: v) = trim v := by
  unfold trim
  congr 1

/-- The parts of an attribute line. -/
theorem split_attr (name r : Str) (hn : c!":" ∉ name) (hr : c!":" ∉ r) :
    splitTerminatorB c!":" (c!":" :: name ++ c!":" :: r) = if r = [] then [[], name] else [[], name, r] := by
  have e : splitOnB c!":" (c!":" :: name ++ c!":" :: r) = [[], name, r] := by
    have := splitOnB_sep c!":" [] (name ++ c!":" :: r) (by simp)
    simp only [List.nil_append] at this
    rw [List.cons_append, this, splitOnB_sep _ name r hn, splitOnB_plain _ r hr]
  unfold splitTerminatorB
  rw [e]
  by_cases h : r = [] <;> simp [h]

/-- The value that the handler of an attribute line sees. -/
private theorem parseAttribute_eq (p : Parser) (name r : Str) (line : Nat) (files : List Str)
    (hn : c!":" ∉ name) (hr : c!":" ∉ r) (hne : trim r ≠ name) (ht : trim name = name) :
    p.parseAttribute (attrToken (c!":" :: name ++ c!":" :: r) line files) =
      if name = b!"leveloffset" then p.levelOffset (trim r) else .ok { p with attrs := p.attrs.insert name (trim r) } := by
  unfold parseAttribute
  rw [show (attrToken (c!":" :: name ++ c!":" :: r) line files).text = c!":" :: name ++ c!":" :: r from rfl,
    split_attr name r hn hr]
  by_cases h : r = []
  · subst h
    have e : trim ([] : Str) = [] := rfl
    simp [ht, e]
  · have h' : name ≠ trim r := fun h => hne h.symm
    simp [h, h']

/-! ## C18 -/

/-- The line that sets the level offset to the text `v`. -/
def offsetLine (v : Str) : Str := b!":leveloffset: " ++ v

private theorem offset_step (w : World) (n : Nat) (p : Parser) (v : Str) (line : Nat) (files : List Str)
    (ho : p.openText = none) (hv : c!":" ∉ v) (ht : trim v = v) (hne : v ≠ b!"leveloffset") :
    tokenInto w (n + 1) (attrToken (offsetLine v) line files) p = p.levelOffset v := by
  rw [attr_step w n p _ line files ho]
  have e : offsetLine v = c!":" :: b!"leveloffset" ++ c!":" :: (c!" " :: v) := rfl
  rw [e, parseAttribute_eq p _ _ line files (by decide) (by simpa using hv) (by rw [trim_space, ht]; exact hne) (by decide)]
  rw [trim_space, ht]; rfl

private theorem digit_plain (b : UInt8) (h : isDigit b = true) :
    b ≠ c!":" ∧ b ≠ c!"-" ∧ b ≠ c!"+" ∧ b ≠ c!"l" ∧ 48 ≤ b ∧ b ≤ 57 := by
  simp only [isDigit, Bool.and_eq_true, decide_eq_true_eq] at h
  refine ⟨?_, ?_, ?_, ?_, h.1, h.2⟩ <;> (rintro rfl; revert h; decide)

theorem wsLen_plain (b : UInt8) (bs : Str) (h : 33 ≤ b) (h' : b < 0x80) : wsLen (b :: bs) = 0 := by
  unfold wsLen
  split <;> simp_all <;> grind

theorem wsLenRev_plain (b : UInt8) (bs : Str) (h : 33 ≤ b) (h' : b < 0x80) : wsLenRev (b :: bs) = 0 := by
  unfold wsLenRev
  split <;> simp_all <;> grind

/-- Text that begins and ends with visible ASCII characters is not changed by `trim`. -/
theorem trim_id (s : Str) (h : ∀ b ∈ s, 33 ≤ b ∧ b < 0x80) : trim s = s := by
  have h1 : trimStart s = s := by
    unfold trimStart
    cases s with
    | nil => rfl
    | cons b bs =>
      simp only [List.length_cons, trimStartF]
      rw [if_pos (wsLen_plain b bs (h b (by simp)).1 (h b (by simp)).2)]
  unfold trim
  rw [h1]
  unfold trimEnd
  cases hr : s.reverse with
  | nil => simp at hr; subst hr; rfl
  | cons b bs =>
    have hb := h b (by rw [← List.mem_reverse, hr]; simp)
    have hl : s.length = bs.length + 1 := by rw [← List.length_reverse, hr]; rfl
    rw [hl, trimRevF, if_pos (wsLenRev_plain b bs hb.1 hb.2), ← hr, List.reverse_reverse]

private theorem digits_ok (n : Nat) : ∀ b ∈ natToStr n, 33 ≤ b ∧ b < 0x80 := fun b hb => by
  have := digit_plain b (natToStr_digits n b hb)
  have := this.2.2.2.2
  constructor <;> grind

private theorem digits_colon (n : Nat) : c!":" ∉ natToStr n := fun h => (digit_plain _ (natToStr_digits n _ h)).1 rfl

/-- **C18, partial** (no sign): the offset is set to the number. -/
theorem C18_absolute_partial (w : World) (k : Nat) (p : Parser) (n line : Nat) (files : List Str)
    (ho : p.openText = none) (hn : n ≤ 127) :
    tokenInto w (k + 1) (attrToken (offsetLine (natToStr n)) line files) p = .ok { p with offset := n } := by
  rw [offset_step w k p _ line files ho (digits_colon n) (trim_id _ (digits_ok n))
    (fun h => (digit_plain _ (natToStr_digits n c!"l" (by rw [h]; simp))).2.2.2.1 rfl)]
  unfold levelOffset
  rw [parseUnsigned_natToStr _ n (by omega)]
  have h1 : n % 256 = n := Nat.mod_eq_of_lt (by omega)
  simp only [h1, if_pos (show n < 128 by omega)]

/-- **C18, partial** (minus sign): the number is subtracted from the offset. -/
theorem C18_minus_partial (w : World) (k : Nat) (p : Parser) (n line : Nat) (files : List Str)
    (ho : p.openText = none) (hn : n ≤ 128) (hp : -128 ≤ p.offset - n) (hp' : p.offset ≤ 127) :
    tokenInto w (k + 1) (attrToken (offsetLine (c!"-" :: natToStr n)) line files) p
      = .ok { p with offset := p.offset - n } := by
  have hall : ∀ b ∈ c!"-" :: natToStr n, 33 ≤ b ∧ b < 0x80 := by
    intro b hb
    rcases List.mem_cons.1 hb with rfl | hb
    · decide
    · exact digits_ok n b hb
  rw [offset_step w k p _ line files ho (by simp [digits_colon n]) (trim_id _ hall) (by intro h; simp at h)]
  have h1 : parseUnsigned 18446744073709551615 (c!"-" :: natToStr n) = none := by
    have : parseDigits (c!"-" :: natToStr n) = none := by
      have key : ∀ s : Str, s.foldl (fun (acc : Option Nat) b => acc.bind fun n =>
          if isDigit b then some (n * 10 + (b.toNat - 48)) else none) none = none := by
        intro s; induction s with
        | nil => rfl
        | cons b bs ih => simpa using ih
      simp only [parseDigits, List.foldl_cons]
      exact key _
    simp [parseUnsigned, this]
  have h2 : parseSigned 127 (c!"-" :: natToStr n) = some (-(n : Int)) := by
    simp [parseSigned, parseDigits_natToStr, hn]
  unfold levelOffset
  rw [h1, h2]
  have h3 : p.offset + -(n : Int) = p.offset - n := by omega
  simp only [h3]
  rw [if_pos (by omega)]

/-- **C18** is false with a plus sign: the offset is replaced, not added to. -/
theorem C18_plus (w : World) (k : Nat) (p : Parser) (n line : Nat) (files : List Str)
    (ho : p.openText = none) (hn : n ≤ 127) :
    tokenInto w (k + 1) (attrToken (offsetLine (c!"+" :: natToStr n)) line files) p = .ok { p with offset := n } := by
  have hall : ∀ b ∈ c!"+" :: natToStr n, 33 ≤ b ∧ b < 0x80 := by
    intro b hb
    rcases List.mem_cons.1 hb with rfl | hb
    · decide
    · exact digits_ok n b hb
  rw [offset_step w k p _ line files ho (by simp [digits_colon n]) (trim_id _ hall) (by intro h; simp at h)]
  have h1 : parseUnsigned 18446744073709551615 (c!"+" :: natToStr n) = some n := by
    simp [parseUnsigned, parseDigits_natToStr]; omega
  unfold levelOffset
  rw [h1]
  have h2 : n % 256 = n := Nat.mod_eq_of_lt (by omega)
  simp only [h2, if_pos (show n < 128 by omega)]

/-- An offset of 200 is silently taken as −56. -/
theorem C18_wraps (w : World) (k : Nat) (p : Parser) (line : Nat) (files : List Str) (ho : p.openText = none) :
    tokenInto w (k + 1) (attrToken b!":leveloffset: 200" line files) p = .ok { p with offset := -56 } := by
  rw [attr_step w k p _ line files ho]; rfl

/-- Adding to the offset can leave the range of its type; the arithmetic then panics (in a debug build). -/
theorem C18_overflow (w : World) (k : Nat) (p : Parser) (line : Nat) (files : List Str) (ho : p.openText = none)
    (h : p.offset = -128) :
    tokenInto w (k + 1) (attrToken b!":leveloffset: -1" line files) p = .error (.panic .overflow) := by
  rw [attr_step w k p _ line files ho]
  have : p.parseAttribute (attrToken b!":leveloffset: -1" line files) = p.levelOffset b!"-1" := rfl
  rw [this]
  unfold levelOffset
  have h1 : parseUnsigned 18446744073709551615 b!"-1" = none := rfl
  have h2 : parseSigned 127 b!"-1" = some (-1) := rfl
  rw [h1, h2]
  simp [h]

/-- The level a heading marker of `n` equals signs stands for. -/
def markerLevel : TokenType → Option Nat
  | .heading2 => some 1
  | .heading3 => some 2
  | .heading4 => some 3
  | .heading5 => some 4
  | _ => none

/-- **C18, partial** (headings): a section heading opens a section whose level is that of its marker plus the offset in
force, or is reported as an error if this is not between 1 and 4. The state before it has no open block. -/
theorem C18_heading_partial (w : World) (k : Nat) (p : Parser) (t : Token) (lvl : Nat)
    (ht : markerLevel t.ty = some lvl) (hh : p.header = none) (ho : p.openText = none)
    (hb : p.blocks = []) (hd : p.data = none) (hc : p.inCont = false) (hoff : p.offset ≤ 123) :
    (1 ≤ lvl + p.offset ∧ lvl + p.offset ≤ 4 → ∃ q, tokenInto w (k + 1) t p = .ok q
      ∧ q.blocks = [.section [] none (lvl + p.offset).toNat [] [t.firstLocation]] ∧ q.asg = p.asg)
    ∧ (¬ (1 ≤ lvl + p.offset ∧ lvl + p.offset ≤ 4) →
      tokenInto w (k + 1) t p = .error (.err (.headingOffset t.line p.offset))) := by
  have hbase : baseLevel t.ty = some (lvl : Int) := by
    unfold markerLevel at ht
    split at ht <;> simp_all [baseLevel] <;> omega
  have hlvl : lvl ≤ 4 := by
    unfold markerLevel at ht
    split at ht <;> simp_all <;> omega
  have hv : p.verbatim t = none := by unfold verbatim; rw [ho]
  have hs : tokenInto w (k + 1) t p = p.parseSection t := by
    simp only [tokenInto, step, hh, Option.isSome_none, Bool.false_and, Bool.false_eq_true, if_false]
    show (match p.verbatim t with
      | some pass => p.parseText t pass
      | none => p.dispatchToken w (tokenInto w k) t) = _
    rw [hv]
    unfold markerLevel at ht
    unfold dispatchToken
    split at ht <;> simp_all
  have hl : p.headingLevel t = if 1 ≤ (lvl : Int) + p.offset ∧ (lvl : Int) + p.offset ≤ 4
      then .ok ((lvl : Int) + p.offset).toNat else .error (.err (.headingOffset t.line p.offset)) := by
    unfold headingLevel
    rw [hbase]
    simp only
    rw [if_neg (by omega)]
  rw [hs]
  constructor
  · intro h
    simp only [parseSection, hl, if_pos h, hb, bind, Except.bind]
    simp only [pushToStack, hc, Bool.false_and, Bool.false_eq_true, if_false, hd, hb]
    exact ⟨_, rfl, rfl, rfl⟩
  · intro h
    simp only [parseSection, hl, if_neg h, bind, Except.bind]

/-- An offset of 124 or more makes the deepest heading overflow instead of reporting an error. -/
theorem C18_heading_overflow (p : Parser) (t : Token) (ht : t.ty = .heading5) (h : 124 ≤ p.offset) :
    p.headingLevel t = .error (.panic .overflow) := by
  unfold headingLevel
  rw [ht]
  simp only [baseLevel]
  rw [if_pos (by omega)]

example : returns ((parseText emptyWorld 5 b!":leveloffset: 2\n\n== A\n\n").map (fun g => outlineOf 9 g.blocks))
    [(3, 8)] = true := by decide +kernel

/-! ## C19 -/

/-- **C19, partial** (definition): the attribute gets the text after the second colon, trimmed, and nothing else
changes. Not covered: values that contain a colon (`C19_colon`) or are equal to the name (`C19_same`). -/
theorem C19_define_partial (w : World) (k : Nat) (p : Parser) (name r : Str) (line : Nat) (files : List Str)
    (ho : p.openText = none) (hn : c!":" ∉ name) (hr : c!":" ∉ r) (ht : trim name = name)
    (hl : name ≠ b!"leveloffset") (hne : trim r ≠ name) :
    ∃ q, tokenInto w (k + 1) (attrToken (c!":" :: name ++ c!":" :: r) line files) p = .ok q
      ∧ q.attrs.get? name = some (trim r) ∧ (∀ other, other ≠ name → q.attrs.get? other = p.attrs.get? other)
      ∧ q = { p with attrs := q.attrs } := by
  rw [attr_step w k p _ line files ho, parseAttribute_eq p name r line files hn hr hne ht, if_neg hl]
  refine ⟨_, rfl, ?_, ?_, rfl⟩
  · show (p.attrs.insert name (trim r)).get? name = _
    rw [SMap.get?_insert]; simp
  · intro other ho
    show (p.attrs.insert name (trim r)).get? other = _
    rw [SMap.get?_insert]; simp [Ne.symm ho]

/-- A definition that `C19_define_partial` covers. -/
structure Definition where
  name : Str
  value : Str
  line : Nat

namespace Definition
/-- The conditions of `C19_define_partial`. -/
def Plain (d : Definition) : Prop := c!":" ∉ d.name ∧ c!":" ∉ d.value ∧ trim d.name = d.name
  ∧ d.name ≠ b!"leveloffset" ∧ trim d.value ≠ d.name
/-- The token of the line. -/
def token (d : Definition) (files : List Str) : Token := attrToken (c!":" :: d.name ++ c!":" :: d.value) d.line files
end Definition

/-- **C19, partial** (last definition): after a sequence of definitions, a name has the value of its last definition,
or the value from before if it is not defined in the sequence. -/
theorem C19_last_partial (w : World) (k : Nat) (ds : List Definition) (files : List Str) (p : Parser)
    (ho : p.openText = none) (hd : ∀ d ∈ ds, d.Plain) (name : Str) :
    ∃ q, feed (tokenInto w (k + 1)) true (ds.map fun d => .tok (d.token files)) p = .ok q ∧ q.openText = none
      ∧ q.attrs.get? name = match (ds.filter (·.name = name)).getLast? with
        | some d => some (trim d.value)
        | none => p.attrs.get? name := by
  induction ds generalizing p with
  | nil => exact ⟨p, rfl, ho, rfl⟩
  | cons d ds ih =>
    obtain ⟨h1, h2, h3, h4, h5⟩ := hd d (by simp)
    obtain ⟨q, hq, ha, hb, hc⟩ := C19_define_partial w k p d.name d.value d.line files ho h1 h2 h3 h4 h5
    obtain ⟨r, hr, hro, hra⟩ := ih { q with lastTy := .attribute } (by rw [hc]; exact ho) (fun d hd' => hd d (by simp [hd']))
    refine ⟨r, ?_, hro, ?_⟩
    · simp only [List.map_cons, feed, Definition.token, bind, Except.bind]
      rw [hq]
      exact hr
    · rw [hra]
      by_cases hn : d.name = name
      · rw [List.filter_cons_of_pos (by simp [hn]), List.getLast?_cons]
        cases hl : (ds.filter (·.name = name)).getLast? with
        | some x => simp
        | none => simp [← hn, ha]
      · rw [List.filter_cons_of_neg (by simp [hn])]
        cases hl : (ds.filter (·.name = name)).getLast? with
        | some x => rfl
        | none => exact hb name (fun h => hn h.symm)

/-- **C19** is false for a value with a colon: only the text after the last colon is kept. -/
theorem C19_colon (w : World) (k : Nat) (p : Parser) (ho : p.openText = none) :
    ∃ q, tokenInto w (k + 1) (attrToken b!":url: https://example.org" 1 []) p = .ok q
      ∧ q.attrs.get? b!"url" = some b!"//example.org" := by
  rw [attr_step w k p _ 1 [] ho]
  refine ⟨_, rfl, ?_⟩
  show (p.attrs.insert b!"url" b!"//example.org").get? b!"url" = _
  rw [SMap.get?_insert]; simp

/-- **C19** is false for a value equal to the name: it is recorded as empty. -/
theorem C19_same (w : World) (k : Nat) (p : Parser) (ho : p.openText = none) :
    ∃ q, tokenInto w (k + 1) (attrToken b!":icons: icons" 1 []) p = .ok q
      ∧ q.attrs.get? b!"icons" = some [] := by
  rw [attr_step w k p _ 1 [] ho]
  refine ⟨_, rfl, ?_⟩
  show (p.attrs.insert b!"icons" []).get? b!"icons" = _
  rw [SMap.get?_insert]; simp

/-- The token of a reference to an attribute. -/
def refToken (name : Str) (line col : Nat) (files : List Str) : Token :=
  ⟨.attributeReference, c!"{" :: name ++ [c!"}"], none, line, col, col + name.length + 1, files⟩
/-- The token of a piece of text. -/
def textToken (s : Str) (line col : Nat) (files : List Str) : Token :=
  ⟨.text, s, none, line, col, col + s.length - 1, files⟩

/-- The innermost inline that takes text is not a link or other reference. -/
def NotInLink (p : Parser) : Prop := ∀ v g is m l rest, p.inlines = .ref v g is m l :: rest → p.closeParent = true

private theorem addText_congr (p : Parser) (t u : Token) (ht : t.text = u.text) (hl : t.locations = u.locations)
    (hp : NotInLink p) : p.addText t false = p.addText u false := by
  unfold addText
  simp only [Bool.false_eq_true, if_false, ht, hl]
  split
  · rfl
  · rfl
  · simp only [Inline.litAdd, hl]
  · rename_i v g is m l rest heq
    rw [if_pos (hp v g is m l rest heq), if_pos (hp v g is m l rest heq)]
  · rfl

private theorem addText_notInLink (p q : Parser) (t : Token) (hp : NotInLink p) (h : p.addText t false = .ok q) :
    NotInLink q := by
  intro v g is m l rest hq
  unfold addText at h
  simp only [Bool.false_eq_true, if_false] at h
  split at h
  · cases h; cases hq
  · split at h <;> cases h <;> cases hq
  · split at h <;> cases h <;> cases hq
  · rename_i heq
    rw [if_pos (hp _ _ _ _ _ _ heq)] at h
    cases h; cases hq
  · cases h; cases hq

/-- **C19, partial** (reference): a reference to a defined attribute has the effect of its value as a piece of text.
Not covered: references in the text of a link (`C19_in_link`) and in the document title. -/
theorem C19_reference_partial (w : World) (k : Nat) (p : Parser) (name v : Str) (line col : Nat) (files : List Str)
    (ho : p.openText = none) (hh : p.header = none) (hs : Starts name) (hv : p.attrs.get? name = some v)
    (hcol : 1 ≤ col) (hp : NotInLink p) :
    tokenInto w (k + 1) (refToken name line col files) p = tokenInto w (k + 1) (textToken v line col files) p := by
  have hvb : ∀ t, p.verbatim t = none := fun t => by unfold verbatim; rw [ho]
  simp only [tokenInto, step, hh, Option.isSome_none, Bool.false_and, Bool.false_eq_true, if_false]
  show (match p.verbatim (refToken name line col files) with
      | some pass => p.parseText (refToken name line col files) pass
      | none => p.dispatchToken w (tokenInto w k) (refToken name line col files)) =
    (match p.verbatim (textToken v line col files) with
      | some pass => p.parseText (textToken v line col files) pass
      | none => p.dispatchToken w (tokenInto w k) (textToken v line col files))
  rw [hvb, hvb]
  show p.parseAttrRef (refToken name line col files) = p.parseText (textToken v line col files) false
  have hsl : sliceM (refToken name line col files).text 1 ((refToken name line col files).text.length - 1) = .ok name := by
    show sliceM (c!"{" :: name ++ [c!"}"]) 1 _ = _
    have := sliceM_mid [c!"{"] name [c!"}"] (starts_append _ _ hs (starts_ascii _ _ (by decide))) (starts_ascii _ _ (by decide))
      1 (name.length + 1) rfl (by simp; omega)
    simpa [refToken, Token.text] using this
  unfold parseAttrRef
  rw [hsl]
  simp only [bind, Except.bind, hv]
  rw [if_neg (by simp [refToken]; omega)]
  generalize hu : ({ refToken name line col files with lit := some v, endcol := (refToken name line col files).startcol + v.length - 1 } : Token) = u
  have htext : u.text = (textToken v line col files).text := by subst hu; rfl
  have hloc : u.locations = (textToken v line col files).locations := by subst hu; rfl
  unfold Parser.parseText
  split
  · rename_i nl hnl
    split
    · simp only [Inline.textFromToken, htext, hloc, Bool.false_eq_true, if_false]
    · cases ha : p.addText nl false with
      | error e => rfl
      | ok q =>
        have hq := addText_notInLink p q nl hp ha
        show addText { q with dangling := none } u false = addText { q with dangling := none } _ false
        exact addText_congr _ _ _ htext hloc (fun v g is m l rest h => hq v g is m l rest h)
  · exact addText_congr p _ _ htext hloc hp

/-- **C19** is false in the text of a link: `https://a.b[{x}]` shows the reference as written. -/
theorem C19_in_link : returns ((parseText emptyWorld 5 b!":x: value\n\nhttps://a.b[{x}]\n\n").map Asg.allText)
    b!"{x}" = true := by decide +kernel

example : returns ((parseText emptyWorld 5 b!":x: value\n\na {x} b\n\n").map Asg.allText) b!"a value b" = true := by
  decide +kernel

/-! ## C46 for link macros -/

/-- **C46, partial** (link macros): the target is the text before the bracket. -/
theorem C46_link_partial (t : Token) (target : Str) (ht : t.text = target ++ [c!"["]) :
    Inline.linkFromMacroToken t = .ref .link target [] none t.locations := by
  unfold Inline.linkFromMacroToken Inline.popChar
  rw [ht]
  have h : isCont c!"[" = false := by decide
  simp [Inline.lastCharLen, h]

/-! ## C48 -/

/-- **C48** (place): with no level offset, a title marker is accepted exactly at the first position of the outermost
file, where it opens the header; anywhere else it is an error. -/
theorem C48_place (w : World) (k : Nat) (p : Parser) (t : Token) (ht : t.ty = .heading1) (ho : p.openText = none)
    (hoff : p.offset = 0) :
    tokenInto w (k + 1) t p =
      if t.line = 1 ∧ t.startcol = 1 ∧ t.fileStack = [] then
        .ok { p with inBlockLine := true, header := some ⟨[], t.locations⟩ }
      else .error (.err (.topLevelHeading t.line)) := by
  have hv : p.verbatim t = none := by unfold verbatim; rw [ho]
  have hh : t.canBeInHeader = true := by unfold Token.canBeInHeader; rw [ht]
  simp only [tokenInto, step, hh, Bool.not_true, Bool.and_false, Bool.false_eq_true, if_false]
  show (match p.verbatim t with
    | some pass => p.parseText t pass
    | none => p.dispatchToken w (tokenInto w k) t) = _
  rw [hv]
  show p.dispatchToken w (tokenInto w k) t = _
  unfold dispatchToken
  rw [ht]
  show p.parseTitle t = _
  unfold parseTitle
  rw [if_neg (by simp [hoff])]
  have e : t.firstLocation = Location.default ↔ t.line = 1 ∧ t.startcol = 1 ∧ t.fileStack = [] := by
    simp [Token.firstLocation, Location.default]
  by_cases h : t.firstLocation = Location.default
  · rw [if_pos h, if_pos (e.1 h)]
  · rw [if_neg h, if_neg (fun h' => h (e.2 h'))]

/-- **C48** (offset): with a level offset a title marker is treated as a section heading. -/
theorem C48_demoted (w : World) (k : Nat) (p : Parser) (t : Token) (ht : t.ty = .heading1) (ho : p.openText = none)
    (hoff : p.offset ≠ 0) : tokenInto w (k + 1) t p = p.parseSection t := by
  have hv : p.verbatim t = none := by unfold verbatim; rw [ho]
  have hh : t.canBeInHeader = true := by unfold Token.canBeInHeader; rw [ht]
  simp only [tokenInto, step, hh, Bool.not_true, Bool.and_false, Bool.false_eq_true, if_false]
  show (match p.verbatim t with
    | some pass => p.parseText t pass
    | none => p.dispatchToken w (tokenInto w k) t) = _
  rw [hv]
  show p.dispatchToken w (tokenInto w k) t = _
  unfold dispatchToken
  rw [ht]
  show p.parseTitle t = _
  unfold parseTitle
  rw [if_pos hoff]

end Adoc.Props
