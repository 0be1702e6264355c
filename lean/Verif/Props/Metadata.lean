import Verif.Proof.Strings
/-!
# C29, C30, C46, C47: metadata, attribute lists, macro targets, column shorthand
-/
namespace Adoc.Props
open Meta

/-! ## C29: merging -/

/-- **C29, partial** (attributes, including the id): the newer set overrides, other attributes are kept. -/
theorem C29_attributes_partial (old new : Meta) (h : new.attributes.Uniq) (k : Str) :
    (old.addFromOther new).attributes.get? k = (new.attributes.get? k).or (old.attributes.get? k) := by
  show (SMap.extend old.attributes new.attributes).get? k = _
  rw [SMap.get?_extend, SMap.last?_eq_get? _ h]

/-- **C29, partial** (options): an option is kept whichever set it comes from. -/
theorem C29_options_partial (old new : Meta) (o : Str) :
    o ∈ (old.addFromOther new).options ↔ o ∈ old.options ∨ o ∈ new.options := by
  simp [addFromOther]

/-- **C29, partial** (roles): the older roles are kept. -/
theorem C29_roles_partial (old new : Meta) (r : Str) (h : r ∈ old.roles) : r ∈ (old.addFromOther new).roles := by
  simp [addFromOther, h]

/-- The roles of the newer set are lost, and its options become roles. -/
theorem C29_roles_lost : ∃ old new : Meta, b!"wide" ∈ new.roles ∧ b!"wide" ∉ (old.addFromOther new).roles
    ∧ b!"header" ∉ old.roles ∧ b!"header" ∉ new.roles ∧ b!"header" ∈ (old.addFromOther new).roles :=
  ⟨{}, { roles := [b!"wide"], options := [b!"header"] }, by decide⟩

/-- A block anchor token for an id. -/
def anchor (id : Str) (line col : Nat) : Token :=
  ⟨.blockAnchor, b!"[[" ++ id ++ b!"]]", none, line, col, col + id.length + 3, []⟩

/-- **C29, partial** (ids on the same block): the first anchor wins, and nothing else changes. -/
theorem C29_first_id_partial (m : Meta) (id : Str) (line col : Nat) (hid : Starts id) :
    ∃ m', m.addFromToken (anchor id line col) = .ok m'
      ∧ m'.elementId = (m.elementId).or (some id)
      ∧ (∀ k, k ≠ b!"id" → m'.attributes.get? k = m.attributes.get? k)
      ∧ m'.roles = m.roles ∧ m'.options = m.options := by
  have hs : sliceM (anchor id line col).lexeme 2 ((anchor id line col).lexeme.length - 2) = .ok id := by
    have e : (anchor id line col).lexeme = b!"[[" ++ (id ++ b!"]]") := by simp [anchor]
    rw [e]
    exact sliceM_mid b!"[[" id b!"]]" (starts_append _ _ hid (starts_ascii _ _ (by decide)))
      (starts_ascii _ _ (by decide)) _ _ rfl (by simp; omega)
  unfold addFromToken
  rw [if_pos (show (anchor id line col).ty = .blockAnchor from rfl)]
  simp only [hs, bind, Except.bind, elementId]
  cases hg : m.attributes.get? b!"id" with
  | some x => exact ⟨m, rfl, by simp [hg], fun _ _ => rfl, rfl, rfl⟩
  | none =>
    refine ⟨m.setAttr b!"id" id, rfl, ?_, ?_, rfl, rfl⟩
    · simp [setAttr, SMap.get?_insert]
    · intro k hk; simp [setAttr, SMap.get?_insert, Ne.symm hk]

example : Starts b!"intro" := starts_ascii _ _ (by decide)

private theorem processAttribute_frame (m m' : Meta) (i : Nat) (a : Str) (h : m.processAttribute i a = .ok m') :
    m'.roles = m.roles ∧ m'.options = m.options := by
  unfold processAttribute at h
  split at h
  · split at h <;> (cases h; exact ⟨rfl, rfl⟩)
  · split at h
    · cases h; exact ⟨rfl, rfl⟩
    · split at h <;> cases h; exact ⟨rfl, rfl⟩
  · split at h
    · cases h; exact ⟨rfl, rfl⟩
    · split at h <;> cases h; exact ⟨rfl, rfl⟩
  · simp only [bind, Except.bind] at h
    split at h
    · split at h
      · cases h
      · cases h; exact ⟨rfl, rfl⟩
    · cases h; exact ⟨rfl, rfl⟩

private theorem processOne_frame (m m' : Meta) (i : Nat) (a : Str) (h : m.processOne i a = .ok m') :
    m.roles <+: m'.roles ∧ m'.options = m.options := by
  unfold processOne at h
  simp only [bind, Except.bind] at h
  split at h
  · cases h
  split at h
  · split at h <;> cases h
    · exact ⟨⟨_, rfl⟩, rfl⟩
    · exact ⟨List.prefix_refl _, rfl⟩
  · split at h
    · split at h
      · cases h
      split at h
      · cases h; exact ⟨List.prefix_refl _, rfl⟩
      · have := processAttribute_frame _ _ _ _ h; rw [this.1, this.2]; exact ⟨List.prefix_refl _, rfl⟩
    · split at h
      · cases h; exact ⟨List.prefix_refl _, rfl⟩
      · have := processAttribute_frame _ _ _ _ h; rw [this.1, this.2]; exact ⟨List.prefix_refl _, rfl⟩

private theorem processFrom_frame (m m' : Meta) (i : Nat) (l : List Str) (h : m.processFrom i l = .ok m') :
    m.roles <+: m'.roles ∧ m'.options = m.options := by
  induction l generalizing m i with
  | nil => cases h; exact ⟨List.prefix_refl _, rfl⟩
  | cons a l ih =>
    simp only [processFrom, bind, Except.bind] at h
    split at h
    · cases h
    · rename_i m1 h1
      have a1 := processOne_frame _ _ _ _ h1
      have a2 := ih _ _ h
      exact ⟨a1.1.trans a2.1, a2.2.trans a1.2⟩

/-- **C29, partial**: a further attribute list for the same block keeps all roles and options given before. -/
theorem C29_token_keeps_partial (m m' : Meta) (t : Token) (h : m.addFromToken t = .ok m') :
    m.roles <+: m'.roles ∧ m'.options = m.options := by
  unfold addFromToken at h
  simp only [bind, Except.bind] at h
  split at h
  · split at h
    · cases h
    · split at h <;> (cases h; exact ⟨List.prefix_refl _, rfl⟩)
  · split at h
    · cases h
    · exact processFrom_frame _ _ _ _ h

/-! ## C30: attribute lists -/

/-- An entry of an attribute list. -/
inductive Entry where
  /-- `key=value` -/
  | named (key value : Str)
  /-- `value` -/
  | pos (value : Str)

/-- Bytes that separate parts of an attribute list. -/
def AttrDelim (b : UInt8) : Prop := b = c!"=" ∨ b = c!"|" ∨ b = c!"," ∨ b = c!"\"" ∨ b = c!"\n"

/-- No delimiter in a name or value. -/
def Clean (s : Str) : Prop := ∀ b ∈ s, ¬ AttrDelim b

namespace Entry
/-- How an entry is written. -/
def text : Entry → Str
  | named k v => k ++ c!"=" :: v
  | pos v => v
/-- Names and values are free of delimiters; unnamed entries are not empty; roles are treated separately. -/
def Ok : Entry → Prop
  | named k v => Clean k ∧ Clean v ∧ k ≠ b!"role"
  | pos v => Clean v ∧ v ≠ []
/-- Name and value of the entry at a position (counted from 1): unnamed entries are called `positional_n`. -/
def meaning (n : Nat) : Entry → Str × Str
  | named k v => (k, v)
  | pos v => (b!"positional_" ++ natToStr n, v)
end Entry

/-- Names and values of a list of entries, from a position on. -/
def meanings (n : Nat) : List Entry → SMap Str
  | [] => []
  | e :: es => e.meaning n :: meanings (n + 1) es

/-- The first entry is not one of the words that declare a block type (in the code: any unnamed entry starting with
`so`, `qu` or `ve`), and its second byte ends a character. -/
def PlainFirst : List Entry → Prop
  | .pos v :: _ => 2 ≤ v.length →
      isBoundary v 2 = true ∧ v.take 2 ≠ b!"so" ∧ v.take 2 ≠ b!"qu" ∧ v.take 2 ≠ b!"ve"
  | _ => True

theorem quotedF_none (n : Nat) (w s : Str) (h : c!"\"" ∉ s) : quotedF n w s = [] := by
  induction n generalizing w s with
  | zero => rfl
  | succ n ih =>
    match s with
    | [] => rfl
    | b :: bs =>
      simp only [List.mem_cons, not_or] at h
      simp only [quotedF]
      split
      · match bs with
        | [] => rfl
        | q :: r =>
          simp only [List.mem_cons, not_or] at h
          simp only [Ne.symm h.2.1, if_false]
          exact ih _ _ (by simp only [List.mem_cons, not_or]; exact h.2)
      · exact ih _ _ h.2

theorem cutDelim_key (k v : Str) (d : UInt8) (h : Clean k) (hd : d = c!"=" ∨ d = c!"|" ∨ d = c!",") :
    cutDelim (k ++ d :: v) = some (k, v) := by
  induction k with
  | nil => simp [cutDelim, hd]
  | cons b bs ih =>
    have hb : ¬ (b = 61 ∨ b = 124 ∨ b = 44) := by
      have := h b (by simp)
      simp only [AttrDelim, not_or] at this ⊢
      exact ⟨this.1, this.2.1, this.2.2.1⟩
    simp only [List.cons_append, cutDelim, hb, if_false]
    rw [ih (fun x hx => h x (by simp [hx]))]

theorem cutDelim_none (k : Str) (h : Clean k) : cutDelim k = none := by
  induction k with
  | nil => rfl
  | cons b bs ih =>
    have hb : ¬ (b = 61 ∨ b = 124 ∨ b = 44) := by
      have := h b (by simp)
      simp only [AttrDelim, not_or] at this ⊢
      exact ⟨this.1, this.2.1, this.2.2.1⟩
    simp only [cutDelim, hb, if_false]
    rw [ih (fun x hx => h x (by simp [hx]))]

theorem clean_not (s : Str) (h : Clean s) (b : UInt8) (hb : AttrDelim b) : b ∉ s := fun hm => h b hm hb

theorem keyValues_named (k v : Str) (hk : Clean k) (hv : Clean v) :
    keyValues (k ++ c!"=" :: v) = .ok (some (k, v)) := by
  have hn : (10 : UInt8) ∉ k ++ 61 :: v := by
    simp [clean_not k hk 10 (by simp [AttrDelim]), clean_not v hv 10 (by simp [AttrDelim])]
  unfold keyValues reNamed
  rw [splitOnB_plain _ _ hn, cutLines, cutDelim_key k v _ hk (by simp)]
  match v with
  | [] => rfl
  | b :: bs =>
    have : b ≠ 34 := by rintro rfl; exact hv 34 (by simp) (by simp [AttrDelim])
    simp [this]

theorem keyValues_none (v : Str) (hv : Clean v) : keyValues v = .ok none := by
  have hn : (10 : UInt8) ∉ v := clean_not v hv 10 (by simp [AttrDelim])
  unfold keyValues reNamed
  rw [splitOnB_plain _ _ hn, cutLines, cutDelim_none v hv]
  rfl

private theorem one_entry (m : Meta) (i : Nat) (e : Entry) (he : e.Ok) (hd : m.declared = none)
    (hf : i = 0 → PlainFirst [e]) :
    m.processOne i e.text = .ok (m.setAttr (e.meaning (i + 1)).1 (e.meaning (i + 1)).2) := by
  cases e with
  | named k v =>
    unfold processOne Entry.text
    simp only [keyValues_named k v he.1 he.2.1, bind, Except.bind, he.2.2, if_false]
    rfl
  | pos v =>
    have hq : v.head? ≠ some 34 := by
      intro h
      exact clean_not v he.1 34 (by simp [AttrDelim]) (List.mem_of_mem_head? h)
    have hp : m.processAttribute i v = .ok (m.setAttr (b!"positional_" ++ natToStr (i + 1)) v) := by
      unfold processAttribute
      simp only [hd, hq, if_false]
      rfl
    have hne : v.isEmpty = false := by simp [he.2]
    unfold processOne Entry.text
    simp only [keyValues_none v he.1, bind, Except.bind]
    by_cases h : i = 0 ∧ 2 ≤ v.length
    · rw [if_pos h]
      obtain ⟨h1, h2, h3, h4⟩ := hf h.1 h.2
      have hs : sliceM v 0 2 = .ok (v.take 2) := by
        unfold sliceM slice
        rw [if_pos ⟨by omega, h.2, by simp [isBoundary], h1⟩]
        simp
      simp only [hs, h2, h3, h4, or_self, if_false]
      exact hp
    · rw [if_neg h]
      simp only [hne, Bool.false_eq_true, if_false]
      exact hp

private theorem entries (m : Meta) (i : Nat) (es : List Entry) (he : ∀ e ∈ es, e.Ok) (hd : m.declared = none)
    (hf : i = 0 → PlainFirst es) :
    m.processFrom i (es.map Entry.text) = .ok { m with attributes := m.attributes.extend (meanings (i + 1) es) } := by
  induction es generalizing m i with
  | nil => rfl
  | cons e es ih =>
    have h1 := one_entry m i e (he e (by simp)) hd (by
      intro h0; have := hf h0
      cases e with
      | named => trivial
      | pos => exact this)
    have h2 := ih (m.setAttr (e.meaning (i + 1)).1 (e.meaning (i + 1)).2) (i + 1)
      (fun x hx => he x (by simp [hx])) hd (by omega)
    simp only [List.map_cons, processFrom, h1, bind, Except.bind, h2]
    simp [setAttr, meanings, SMap.extend]

/-- The text of an attribute list. -/
def listText (es : List Entry) : Str := joinB c!"," (es.map Entry.text)

private theorem text_no (e : Entry) (h : e.Ok) (b : UInt8) (hb : AttrDelim b) (hne : b ≠ c!"=") : b ∉ e.text := by
  cases e with
  | named k v => simp [Entry.text, clean_not k h.1 b hb, clean_not v h.2.1 b hb, hne]
  | pos v => exact clean_not v h.1 b hb

theorem mem_joinB (c b : UInt8) (l : List Str) (hb : b ∈ joinB c l) : b = c ∨ ∃ p ∈ l, b ∈ p := by
  match l with
  | [] => simp [joinB] at hb
  | [p] => exact .inr ⟨p, by simp, hb⟩
  | p :: q :: r =>
    simp only [joinB, List.mem_append, List.mem_cons] at hb
    rcases hb with h | h | h
    · exact .inr ⟨p, by simp, h⟩
    · exact .inl h
    · rcases mem_joinB c b (q :: r) h with h | ⟨x, hx, h⟩
      · exact .inl h
      · exact .inr ⟨x, List.mem_cons_of_mem _ hx, h⟩

private theorem extract_plain (es : List Entry) (hne : es ≠ []) (he : ∀ e ∈ es, e.Ok) :
    extractAttributes (listText es) = es.map Entry.text := by
  have hq : (34 : UInt8) ∉ listText es := by
    intro h
    rcases mem_joinB _ _ _ h with h | ⟨p, hp, h⟩
    · cases h
    · obtain ⟨e, hee, rfl⟩ := List.mem_map.1 hp
      exact text_no e (he e hee) 34 (by simp [AttrDelim]) (by decide) h
  unfold extractAttributes quoted
  rw [quotedF_none _ _ _ hq]
  simp only [List.foldl_nil, List.nil_append]
  apply splitOnB_join
  · simpa using hne
  · intro p hp
    obtain ⟨e, hee, rfl⟩ := List.mem_map.1 hp
    exact text_no e (he e hee) 44 (by simp [AttrDelim]) (by decide)

/-- **C30, partial**: in a list without quotes, a name has the value of its last entry, an unnamed entry has its
position as name, and nothing else is added. -/
theorem C30_unquoted_partial (es : List Entry) (hne : es ≠ []) (he : ∀ e ∈ es, e.Ok) (hf : PlainFirst es) :
    ∃ m, processAttributes {} (extractAttributes (listText es)) = .ok m
      ∧ (∀ k, m.attributes.get? k = (meanings 1 es).last? k) ∧ m.roles = [] ∧ m.options = [] := by
  rw [extract_plain es hne he]
  refine ⟨_, entries {} 0 es he rfl (fun _ => hf), ?_, rfl, rfl⟩
  intro k
  rw [SMap.get?_extend]
  simp [SMap.get?]

/-- Non-vacuity: `left,width=40` -/
example : ∃ m, processAttributes {} (extractAttributes b!"left,width=40") = .ok m
    ∧ m.attributes.get? b!"width" = some b!"40" ∧ m.attributes.get? b!"positional_1" = some b!"left" := by
  obtain ⟨m, h, hk, _⟩ := C30_unquoted_partial [.pos b!"left", .named b!"width" b!"40"] (by simp)
    (by simp [Entry.Ok, Clean, AttrDelim]) (by simp [PlainFirst]; decide)
  exact ⟨m, h, by rw [hk]; decide, by rw [hk]; decide⟩

/-- **C30, partial** (roles): an unquoted `role=a b` gives the roles separated by spaces. -/
theorem C30_roles_partial (v : Str) (hv : Clean v) :
    ∃ m, processAttributes {} (extractAttributes (b!"role=" ++ v)) = .ok m
      ∧ m.roles = splitOnB c!" " v ∧ m.attributes = [] := by
  have hk : Clean b!"role" := by simp [Clean, AttrDelim]
  have hq : (34 : UInt8) ∉ b!"role=" ++ v := by simp [clean_not v hv 34 (by simp [AttrDelim])]
  have hc : (44 : UInt8) ∉ b!"role=" ++ v := by simp [clean_not v hv 44 (by simp [AttrDelim])]
  have hx : extractAttributes (b!"role=" ++ v) = [b!"role=" ++ v] := by
    unfold extractAttributes quoted
    rw [quotedF_none _ _ _ hq]
    simp only [List.foldl_nil, List.nil_append]
    exact splitOnB_plain _ _ hc
  rw [hx]
  have := keyValues_named b!"role" v hk hv
  refine ⟨{ roles := splitOnB c!" " v }, ?_, rfl, rfl⟩
  unfold processAttributes
  simp only [processFrom, processOne, bind, Except.bind]
  rw [show b!"role=" ++ v = b!"role" ++ c!"=" :: v by simp, this]
  rfl

theorem cutQuote_body (v rest : Str) (h1 : c!"\"" ∉ v) (h2 : c!"\n" ∉ v) :
    cutQuote (v ++ c!"\"" :: rest) = some (v, rest) := by
  induction v with
  | nil => simp [cutQuote]
  | cons b bs ih =>
    simp only [List.mem_cons, not_or] at h1 h2
    simp [cutQuote, Ne.symm h1.1, Ne.symm h2.1, ih h1.2 h2.2]

private theorem word_not_eq {b : UInt8} (h : isWordB b = true) : b ≠ c!"=" := by rintro rfl; revert h; decide

private theorem quotedF_word (k rest : Str) (hk : ∀ b ∈ k, isWordB b = true) (n : Nat) (w : Str) :
    quotedF (k.length + n) w (k ++ rest) = quotedF n (k.reverse ++ w) rest := by
  induction k generalizing w with
  | nil => simp
  | cons b bs ih =>
    have hb := hk b (by simp)
    rw [show (b :: bs).length + n = (bs.length + n) + 1 by simp; omega]
    simp only [List.cons_append, quotedF, word_not_eq hb, if_false, hb, if_true]
    rw [ih (fun x hx => hk x (by simp [hx]))]; simp

theorem word_clean (k : Str) (hk : ∀ b ∈ k, isWordB b = true) : Clean k := by
  intro b hb hd
  have := hk b hb
  rcases hd with rfl | rfl | rfl | rfl | rfl <;> revert this <;> decide

/-- A quoted entry: `key="value"`. -/
def quotedText (k v : Str) : Str := k ++ b!"=\"" ++ v ++ b!"\""

theorem quoted_one (k v : Str) (hk : ∀ b ∈ k, isWordB b = true) (h1 : c!"\"" ∉ v) (h2 : c!"\n" ∉ v) :
    quoted (quotedText k v) = [quotedText k v] := by
  have e : quotedText k v = k ++ (61 :: 34 :: (v ++ [34])) := by simp [quotedText]
  have hl : (quotedText k v).length + 1 = k.length + ((v.length + 3) + 1) := by rw [e]; simp; omega
  unfold quoted
  rw [hl, e, quotedF_word k _ hk, quotedF]
  simp only [if_true, List.append_nil, List.reverse_reverse, cutQuote_body v [] h1 h2]
  simp [quotedF]

theorem erase_self (s : Str) (h : s ≠ []) : erase s s = [] := by
  unfold erase
  match s, h with
  | b :: bs, _ =>
    have hp : (b :: bs).isPrefixOf (b :: bs) = true := by
      rw [List.isPrefixOf_iff_prefix]; exact List.prefix_refl _
    simp only [eraseF, hp, if_true]
    rw [List.drop_eq_nil_of_le (by simp)]
    cases bs <;> rfl

/-- The bytes of names of quoted entries: letters, digits, underscores, and everything outside of ASCII. -/
def NameByte (b : UInt8) : Prop := (48 ≤ b ∧ b ≤ 57) ∨ (65 ≤ b ∧ b ≤ 90) ∨ (97 ≤ b ∧ b ≤ 122) ∨ b = 95 ∨ 128 ≤ b

theorem nameByte_iff (b : UInt8) : NameByte b ↔ isWordB b = true := by
  simp [NameByte, isWordB, isDigit, or_assoc]

/-- **C30, partial** (quotes): the value of a quoted entry may contain delimiters, and is reported without the quotes
and with nothing else. -/
theorem C30_quoted_partial (k v : Str) (hk : ∀ b ∈ k, NameByte b) (hr : k ≠ b!"role")
    (h1 : c!"\"" ∉ v) (h2 : c!"\n" ∉ v) (hs : Starts v) :
    processAttributes {} (extractAttributes (quotedText k v)) = .ok { attributes := [(k, v)] } := by
  have hk : ∀ b ∈ k, isWordB b = true := fun b hb => (nameByte_iff b).1 (hk b hb)
  have hne : quotedText k v ≠ [] := by simp [quotedText]
  have hx : extractAttributes (quotedText k v) = [quotedText k v, []] := by
    unfold extractAttributes
    rw [quoted_one k v hk h1 h2]
    simp only [List.foldl_cons, List.foldl_nil, erase_self _ hne]
    rfl
  have hkn : (10 : UInt8) ∉ k := clean_not k (word_clean k hk) 10 (by simp [AttrDelim])
  have hkv : keyValues (quotedText k v) = .ok (some (k, v)) := by
    have e : quotedText k v = k ++ (61 :: 34 :: (v ++ [34])) := by simp [quotedText]
    have hn : (10 : UInt8) ∉ quotedText k v := by simp [quotedText, hkn, h2]
    unfold keyValues reNamed
    rw [splitOnB_plain _ _ hn, cutLines, e, cutDelim_key k _ _ (word_clean k hk) (by simp)]
    have := sliceM_mid [34] v [34] (starts_append _ _ hs (starts_ascii _ _ (by decide)))
      (starts_ascii _ _ (by decide)) 1 ((34 :: (v ++ [34])).length - 1) rfl (by simp; omega)
    simp only [List.cons_append, List.nil_append] at this
    simp only [if_true, this, bind, Except.bind]
    rfl
  rw [hx]
  unfold processAttributes
  simp only [processFrom, processOne, bind, Except.bind, hkv, hr, if_false]
  rfl

example : processAttributes {} (extractAttributes b!"alt=\"a, b = c\"")
    = .ok { attributes := [(b!"alt", b!"a, b = c")] } :=
  C30_quoted_partial b!"alt" b!"a, b = c" (by intro b hb; rw [nameByte_iff]; revert b; decide) (by decide) (by decide) (by decide) (starts_ascii _ _ (by decide))

/-- A hyphen ends the name of a quoted entry: `x-y="a"` is an entry `y` and an unnamed entry `x-`. -/
theorem C30_hyphen : processAttributes {} (extractAttributes b!"x-y=\"a\"") = .ok { attributes := [(b!"y", b!"a"), (b!"positional_2", b!"x-")] } := rfl

/-- A quoted entry shifts the unnamed ones: in `alt="x",left` the entry `left` is second, but reported as third. -/
theorem C30_position_shift : ∃ m, processAttributes {} (extractAttributes b!"alt=\"x\",left") = .ok m
    ∧ m.attributes.get? b!"positional_2" = none ∧ m.attributes.get? b!"positional_3" = some b!"left" :=
  ⟨_, rfl, by decide, by decide⟩

/-- Two quoted entries where one is the end of the other: `a="x",ba="x"` invents a third, unnamed entry `b`. -/
theorem C30_invented : ∃ m, processAttributes {} (extractAttributes b!"a=\"x\",ba=\"x\"") = .ok m
    ∧ m.attributes.get? b!"positional_4" = some b!"b" :=
  ⟨_, rfl, by decide⟩

/-- An unnamed first entry whose second character is not ASCII panics: `[aé]`. -/
theorem C30_panics : processAttributes {} (extractAttributes b!"aé") = .error (.panic .slice) := rfl

/-- A quote block with a fourth entry panics: `[quote,a,b,c]`. -/
theorem C30_quote_panics : processAttributes {} (extractAttributes b!"quote,a,b,c") = .error (.panic .todo) := rfl

/-! ## C46: macro targets -/

/-- A macro as it is written: name and colon(s), target, attributes in brackets. -/
def macroText (name target attrs : Str) : Str := name ++ (target ++ (b!"[" ++ (attrs ++ b!"]")))

/-- The macros with a target, and how they begin. -/
def macroName : TokenType → Option Str
  | .blockImageMacro => some b!"image::"
  | .inlineImageMacro => some b!"image:"
  | .include => some b!"include::"
  | _ => none

/-- **C46, partial** (image and include macros; link macros are not covered). The target is the text between the name and the bracket. Without attribute text there is no metadata;
otherwise it is that of the text between the brackets. -/
theorem C46_target_partial (t : Token) (name target attrs : Str) (hn : macroName t.ty = some name)
    (ht : t.text = macroText name target attrs) (hb : c!"[" ∉ target) (hst : Starts target) (hsa : Starts attrs) :
    targetAndAttrs t =
      if attrs = [] then .ok (target, none)
      else (processAttributes { inlineMeta := true } (extractAttributes attrs)).map (fun m => (target, some m)) := by
  have hp : macroPrefix t.ty = some name.length := by
    unfold macroName at hn
    split at hn <;> simp_all [macroPrefix] <;> subst hn <;> rfl
  have hs1 : sliceM t.text name.length t.text.length = .ok (target ++ (b!"[" ++ (attrs ++ b!"]"))) := by
    have := sliceM_mid name (target ++ (b!"[" ++ (attrs ++ b!"]"))) []
      (by rw [List.append_nil]; exact starts_append _ _ hst (starts_ascii _ _ (by decide)))
      (by intro b hb; cases hb) name.length t.text.length rfl (by rw [ht]; simp [macroText])
    rw [List.append_nil] at this
    rw [← this, ht, macroText]
  have htw : (target ++ (b!"[" ++ (attrs ++ b!"]"))).takeWhile (· != c!"[") = target := by
    rw [List.takeWhile_append_of_pos]
    · simp
    · intro x hx
      simp only [bne_iff_ne, ne_eq]
      rintro rfl; exact hb hx
  have hs2 : sliceM (target ++ (b!"[" ++ (attrs ++ b!"]"))) (target.length + 1)
      ((target ++ (b!"[" ++ (attrs ++ b!"]"))).length - 1) = .ok attrs := by
    have := sliceM_mid (target ++ b!"[") attrs b!"]" (starts_append _ _ hsa (starts_ascii _ _ (by decide)))
      (starts_ascii _ _ (by decide)) (target.length + 1) ((target ++ (b!"[" ++ (attrs ++ b!"]"))).length - 1)
      (by simp) (by simp; omega)
    rw [List.append_assoc] at this
    exact this
  unfold targetAndAttrs
  simp only [hp, hs1, htw, hs2, bind, Except.bind]
  by_cases he : attrs = []
  · simp [he]; rfl
  · simp only [he, if_false, List.isEmpty_iff]
    cases processAttributes { inlineMeta := true } (extractAttributes attrs) <;> rfl

example : targetAndAttrs ⟨.blockImageMacro, b!"image::cat.png[Tom,width=40]", none, 1, 1, 28, []⟩
    = .ok (b!"cat.png", some { inlineMeta := true, attributes := [(b!"positional_1", b!"Tom"), (b!"width", b!"40")] }) := by
  rw [C46_target_partial _ b!"image::" b!"cat.png" b!"Tom,width=40" rfl rfl (by decide)
    (starts_ascii _ _ (by decide)) (starts_ascii _ _ (by decide))]
  rfl

/-! ## C47: column shorthand -/

/-- **C47, partial** (comma list): as many columns as entries. -/
theorem C47_list_partial (m : Meta) (entries : List Str) (h2 : 2 ≤ entries.length)
    (hc : ∀ e ∈ entries, c!"," ∉ e) (hm : m.attributes.get? b!"cols" = some (joinB c!"," entries)) :
    ∃ m', m.simplifyCols = .ok m' ∧ m'.attributes.get? b!"cols" = some (natToStr entries.length) := by
  have hs := splitOnB_join c!"," entries (by intro h; simp [h] at h2) hc
  have hcomma : (joinB c!"," entries).contains c!"," = true := by
    match entries, h2 with
    | p :: q :: r, _ => simp [joinB]
  unfold simplifyCols
  simp only [hm, hcomma, if_true, hs]
  exact ⟨_, rfl, by simp [setAttr, SMap.get?_insert]⟩

/-- **C47, partial** (`n*` for one digit): n columns. -/
theorem C47_star_partial (m : Meta) (n : Nat) (hn : n < 10)
    (hm : m.attributes.get? b!"cols" = some (natToStr n ++ b!"*")) :
    ∃ m', m.simplifyCols = .ok m' ∧ m'.attributes.get? b!"cols" = some (natToStr n) := by
  have key : ∀ k, k < 10 → ∃ d : UInt8, natToStr k = [d] ∧ d ≠ 44 ∧ isCont d = false := by
    intro k hk
    have : ∀ k : Fin 10, ∃ d : UInt8, natToStr k.1 = [d] ∧ d ≠ 44 ∧ isCont d = false := by
      intro k
      refine ⟨UInt8.ofNat (48 + k.1), ?_, ?_, ?_⟩
      · revert k; decide
      · revert k; decide
      · revert k; decide
    exact this ⟨k, hk⟩
  obtain ⟨d, hd, hd1, hd2⟩ := key n hn
  rw [hd] at hm ⊢
  unfold simplifyCols
  have hc : (([d] : Str) ++ b!"*").contains c!"," = false := by simp [Ne.symm hd1]
  have hs1 : sliceM ([d] ++ b!"*") 1 2 = .ok b!"*" := by
    simp [sliceM, slice, isBoundary, isCont]
  have hs2 : sliceM ([d] ++ b!"*") 0 1 = .ok [d] := by
    simp [sliceM, slice, isBoundary, isCont]
  simp only [hm, hc, Bool.false_eq_true, if_false]
  simp only [List.length_append, List.length_cons, List.length_nil, hs1, hs2, bind, Except.bind,
    if_true]
  exact ⟨_, rfl, by simp [setAttr, SMap.get?_insert]⟩

example : ∃ m : Meta, m.attributes.get? b!"cols" = some (natToStr 3 ++ b!"*") :=
  ⟨{ attributes := [(b!"cols", b!"3*")] }, by decide⟩

/-- With two digits the shorthand is left as it is. -/
theorem C47_two_digits (m : Meta) (n : Nat) (h10 : 10 ≤ n)
    (hm : m.attributes.get? b!"cols" = some (natToStr n ++ b!"*")) : m.simplifyCols = .ok m := by
  have hl : 2 ≤ (natToStr n).length := by
    have : 2 ≤ (Nat.toDigits 10 n).length := by
      rw [Nat.toDigits_of_base_le (by omega) h10]
      have := Nat.toDigits_ne_nil (b := 10) (n := n / 10)
      have := List.length_pos_iff.2 this
      simp; omega
    simpa [natToStr] using this
  have hc : (natToStr n ++ b!"*").contains c!"," = false := by
    rw [← Bool.not_eq_true]
    simp only [List.contains_iff_mem, List.mem_append, not_or]
    refine ⟨fun h => ?_, by decide⟩
    have := natToStr_digits n _ h
    revert this; decide
  unfold simplifyCols
  have h2 : ¬ ((natToStr n ++ b!"*").length = 2) := by simp; omega
  simp only [hm, hc, h2, Bool.false_eq_true, if_false]

/-- A `cols` value of one two-byte character panics. -/
theorem C47_panics : simplifyCols { attributes := [(b!"cols", b!"é")] } = .error (.panic .slice) := rfl

end Adoc.Props
