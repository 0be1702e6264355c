import Verif.Proof.OriginScan
import Verif.Proof.ParserInv
import Verif.Proof.Strings
/-!
# Origins: strings, metadata, inlines and blocks
-/
namespace Adoc.Origin

/-! ## Parts of strings -/

theorem sliceM_sub {s t : Str} {i j : Nat} (h : sliceM s i j = .ok t) : t ⊆ s := by
  unfold sliceM at h
  split at h
  · rename_i u hu
    cases h
    rw [(Scanner.slice_some hu).2.2.2.2]
    exact fun b hb => List.mem_of_mem_drop (List.mem_of_mem_take hb)
  · cases h

theorem trimStartF_sub : ∀ (n : Nat) (s : Str), trimStartF n s ⊆ s
  | 0, s => fun _ h => h
  | n + 1, s => by
    unfold trimStartF
    split
    · exact fun _ h => h
    · exact fun b hb => List.mem_of_mem_drop (trimStartF_sub n _ hb)

theorem trimRevF_sub : ∀ (n : Nat) (s : Str), trimRevF n s ⊆ s
  | 0, s => fun _ h => h
  | n + 1, s => by
    unfold trimRevF
    split
    · exact fun _ h => h
    · exact fun b hb => List.mem_of_mem_drop (trimRevF_sub n _ hb)

theorem trim_sub (s : Str) : trim s ⊆ s := by
  intro b hb
  unfold trim trimEnd at hb
  have h1 := trimRevF_sub _ _ (List.mem_reverse.1 hb)
  exact trimStartF_sub _ _ (List.mem_reverse.1 h1)

theorem splitOnB_sub {c : UInt8} : ∀ {s p : Str}, p ∈ splitOnB c s → p ⊆ s
  | [], p, h => by simp [splitOnB] at h; subst h; exact fun _ h => h
  | b :: bs, p, h => by
    unfold splitOnB at h
    split at h
    · rcases List.mem_cons.1 h with rfl | h
      · exact fun _ h => by cases h
      · exact fun x hx => List.mem_cons_of_mem _ (splitOnB_sub h hx)
    · split at h
      · simp at h; subst h; simp
      · rename_i q qs hq
        rcases List.mem_cons.1 h with rfl | h
        · intro x hx
          rcases List.mem_cons.1 hx with rfl | hx
          · simp
          · exact List.mem_cons_of_mem _ (splitOnB_sub (p := q) (by rw [hq]; simp) hx)
        · exact fun x hx => List.mem_cons_of_mem _ (splitOnB_sub (p := p) (by rw [hq]; simp [h]) hx)

theorem cutDelim_sub : ∀ {s k v : Str}, cutDelim s = some (k, v) → k ⊆ s ∧ v ⊆ s
  | [], _, _, h => by cases h
  | b :: bs, k, v, h => by
    unfold cutDelim at h
    split at h
    · cases h; exact ⟨List.nil_subset _, fun x hx => List.mem_cons_of_mem _ hx⟩
    · split at h
      · rename_i k' v' hr
        cases h
        obtain ⟨h1, h2⟩ := cutDelim_sub hr
        refine ⟨fun x hx => ?_, fun x hx => List.mem_cons_of_mem _ (h2 hx)⟩
        rcases List.mem_cons.1 hx with rfl | hx
        · simp
        · exact List.mem_cons_of_mem _ (h1 hx)
      · cases h

theorem cutLines_sub : ∀ {ls : List Str} {k v : Str}, cutLines ls = some (k, v) → ∃ l ∈ ls, k ⊆ l ∧ v ⊆ l
  | [], _, _, h => by cases h
  | l :: ls, k, v, h => by
    unfold cutLines at h
    split at h
    · rename_i r hr
      cases h
      exact ⟨l, by simp, cutDelim_sub hr⟩
    · obtain ⟨l', h1, h2⟩ := cutLines_sub h
      exact ⟨l', by simp [h1], h2⟩

theorem reNamed_sub {s k v : Str} (h : reNamed s = some (k, v)) : k ⊆ s ∧ v ⊆ s := by
  obtain ⟨l, h1, h2, h3⟩ := cutLines_sub h
  exact ⟨fun x hx => splitOnB_sub h1 (h2 hx), fun x hx => splitOnB_sub h1 (h3 hx)⟩

theorem keyValues_sub {s k v : Str} (h : keyValues s = .ok (some (k, v))) : k ⊆ s ∧ v ⊆ s := by
  unfold keyValues at h
  split at h
  · cases h
  · rename_i k' v' hr
    obtain ⟨h1, h2⟩ := reNamed_sub hr
    split at h
    · split at h
      · simp only [bind, Except.bind] at h
        split at h
        · cases h
        · rename_i v'' hv
          cases h
          exact ⟨h1, fun x hx => h2 (sliceM_sub hv hx)⟩
      · cases h; exact ⟨h1, h2⟩
    · cases h; exact ⟨h1, h2⟩

theorem cutQuote_sub : ∀ {s k v : Str}, cutQuote s = some (k, v) → k ⊆ s ∧ v ⊆ s
  | [], _, _, h => by cases h
  | b :: bs, k, v, h => by
    unfold cutQuote at h
    split at h
    · cases h; exact ⟨List.nil_subset _, fun x hx => List.mem_cons_of_mem _ hx⟩
    · split at h
      · cases h
      · split at h
        · rename_i k' v' hr
          cases h
          obtain ⟨h1, h2⟩ := cutQuote_sub hr
          refine ⟨fun x hx => ?_, fun x hx => List.mem_cons_of_mem _ (h2 hx)⟩
          rcases List.mem_cons.1 hx with rfl | hx
          · simp
          · exact List.mem_cons_of_mem _ (h1 hx)
        · cases h

theorem quotedF_sub {w : Str} : ∀ (n : Nat) (word s : Str), word ⊆ w → s ⊆ w → ∀ p ∈ quotedF n word s, p ⊆ w
  | 0, _, _, _, _ => by intro p hp; cases hp
  | _ + 1, _, [], _, _ => by intro p hp; cases hp
  | n + 1, word, b :: bs, h1, h2 => by
    have hbs : bs ⊆ w := fun x hx => h2 (List.mem_cons_of_mem _ hx)
    unfold quotedF
    split
    · rename_i hb
      split
      · rename_i q rest
        split
        · rename_i hq
          split
          · rename_i body after hc
            obtain ⟨h3, h4⟩ := cutQuote_sub hc
            have hr : rest ⊆ w := fun x hx => hbs (List.mem_cons_of_mem _ hx)
            intro p hp
            rcases List.mem_cons.1 hp with rfl | hp
            · intro x hx
              simp only [List.mem_append, List.mem_reverse] at hx
              rcases hx with ((hx | hx) | hx) | hx
              · exact h1 hx
              · rcases (by simpa using hx : x = 61 ∨ x = 34) with rfl | rfl
                · exact h2 (by rw [hb]; simp)
                · exact hbs (by rw [hq]; simp)
              · exact hr (h3 hx)
              · rcases (by simpa using hx : x = 34) with rfl
                exact hbs (by rw [hq]; simp)
            · exact quotedF_sub n [] after (fun _ h => by cases h) (fun x hx => hr (h4 hx)) p hp
          · exact quotedF_sub n [] _ (fun _ h => by cases h) hbs
        · exact quotedF_sub n [] _ (fun _ h => by cases h) hbs
      · intro p hp; cases hp
    · refine quotedF_sub n _ _ ?_ hbs
      split
      · intro x hx
        rcases List.mem_cons.1 hx with rfl | hx
        · exact h2 (by simp)
        · exact h1 hx
      · exact fun _ h => by cases h

theorem eraseF_sub {needle : Str} : ∀ (n : Nat) (s : Str), eraseF needle n s ⊆ s
  | 0, s => fun _ h => h
  | _ + 1, [] => by unfold eraseF; exact fun _ h => h
  | n + 1, b :: bs => by
    unfold eraseF
    split
    · exact fun x hx => List.mem_of_mem_drop (eraseF_sub n _ hx)
    · intro x hx
      rcases List.mem_cons.1 hx with rfl | hx
      · simp
      · exact List.mem_cons_of_mem _ (eraseF_sub n _ hx)

theorem foldErase_sub (qs : List Str) (s : Str) : qs.foldl (fun acc total => erase total acc) s ⊆ s := by
  induction qs generalizing s with
  | nil => exact fun _ h => h
  | cons q qs ih => exact fun x hx => eraseF_sub _ _ (ih _ hx)

theorem extract_sub {s p : Str} (h : p ∈ extractAttributes s) : p ⊆ s := by
  unfold extractAttributes at h
  rcases List.mem_append.1 h with h | h
  · exact quotedF_sub _ _ _ (fun _ h => by cases h) (fun _ h => h) p h
  · exact fun x hx => foldErase_sub _ _ (splitOnB_sub h hx)

theorem insert_mem {V : Type} {k k' : Str} {v v' : V} : ∀ {m : SMap V}, (k, v) ∈ SMap.insert m k' v' → (k, v) ∈ m ∨ k = k' ∧ v = v'
  | [], h => by simp [SMap.insert] at h; exact .inr h
  | (a, b) :: rest, h => by
    unfold SMap.insert at h
    split at h
    · rcases List.mem_cons.1 h with h | h
      · cases h; exact .inr ⟨rfl, rfl⟩
      · exact .inl (by simp [h])
    · rcases List.mem_cons.1 h with h | h
      · exact .inl (by simp [h])
      · exact (insert_mem h).imp_left (by intro h; simp [h])

theorem insert_val {V : Type} {P : V → Prop} {m : SMap V} {k : Str} {v : V} (h : ∀ kv ∈ m, P kv.2) (hv : P v) :
    ∀ kv ∈ SMap.insert m k v, P kv.2 := by
  rintro ⟨a, b⟩ hab
  rcases insert_mem hab with h' | h'
  · exact h _ h'
  · rw [h'.2]; exact hv

theorem extend_val {V : Type} {P : V → Prop} {m o : SMap V} (h : ∀ kv ∈ m, P kv.2) (ho : ∀ kv ∈ o, P kv.2) :
    ∀ kv ∈ SMap.extend m o, P kv.2 := by
  unfold SMap.extend
  induction o generalizing m with
  | nil => exact h
  | cons x o ih => exact ih (insert_val h (ho x (by simp))) fun kv hkv => ho kv (by simp [hkv])

theorem natToStr_added (n : Nat) : ∀ b ∈ natToStr n, b ∈ added := by
  intro b hb
  have h := natToStr_digits n b hb
  have key : ∀ k : Fin 256, isDigit (UInt8.ofNat k.val) = true → UInt8.ofNat k.val ∈ added := by decide +kernel
  have := key ⟨b.toNat, b.toNat_lt⟩
  simpa [h] using this

theorem popChar_sub (s : Str) : Inline.popChar s ⊆ s := fun _ h => List.mem_of_mem_take h

theorem splitTerminatorB_sub {c : UInt8} {s p : Str} (h : p ∈ splitTerminatorB c s) : p ⊆ s := by
  unfold splitTerminatorB at h
  dsimp only at h
  split at h
  · exact splitOnB_sub (List.dropLast_subset _ h)
  · exact splitOnB_sub h

section
variable {av : UInt8 → Prop}

theorem AvS.sub {s t : Str} (h : AvS av s) (ht : t ⊆ s) : AvS av t := fun b hb => h b (ht hb)
theorem OkS.sub {s t : Str} (h : OkS av s) (ht : t ⊆ s) : OkS av t := fun b hb => h b (ht hb)
theorem OkS.append {s t : Str} (h : OkS av s) (ht : OkS av t) : OkS av (s ++ t) := by
  intro b hb
  rcases List.mem_append.1 hb with hb | hb
  · exact h b hb
  · exact ht b hb

/-! ## Tokens -/

theorem TokOk.text {t : Token} (h : TokOk av t) : OkS av t.text := by
  have key : OkS av (match t.lit with | some s => s | none => t.lexeme) := by
    split
    · rename_i s hs
      rcases h.lit s hs with h' | h'
      · exact okS_of_av h'
      · exact h'.2
    · exact okS_of_av h.lexeme
  unfold Token.text
  split
  · exact okS_const (by decide)
  · exact okS_const (by decide)
  · exact okS_const (by decide)
  · exact okS_const (by decide)
  · exact key

/-- The text of a token that is neither a quotation mark nor a character reference. -/
theorem TokOk.plain {t : Token} (h : TokOk av t) (hc : t.ty ≠ .charRef) (h1 : t.ty ≠ .openDoubleQuote) (h2 : t.ty ≠ .closeDoubleQuote)
    (h3 : t.ty ≠ .openSingleQuote) (h4 : t.ty ≠ .closeSingleQuote) : AvS av t.text := by
  have key : AvS av (match t.lit with | some s => s | none => t.lexeme) := by
    split
    · rename_i s hs
      rcases h.lit s hs with h' | h'
      · exact h'
      · exact absurd h'.1 hc
    · exact h.lexeme
  unfold Token.text
  split
  · exact absurd ‹_› h1
  · exact absurd ‹_› h2
  · exact absurd ‹_› h3
  · exact absurd ‹_› h4
  · exact key

theorem alt_single {a : Str} (h : Alt av [a]) : AvS av a := by
  obtain ⟨x, hx, h⟩ := h
  simp only [List.mem_cons, List.not_mem_nil, or_false] at hx
  rwa [← hx]

/-! ## Metadata -/

theorem MetaOk.setAttr {m : Meta} (h : MetaOk av m) (k : Str) {v : Str} (hv : OkS av v) : MetaOk av (m.setAttr k v) where
  values := insert_val h.values hv
  roles := h.roles
  options := h.options
  quote := h.quote
  marks := h.marks
  once := SMap.Uniq.insert h.once k v

theorem MetaOk.simplifyCols {m : Meta} (h : MetaOk av m) : Ok m.simplifyCols (MetaOk av) := by
  unfold Meta.simplifyCols
  split
  · exact .pure h
  · rename_i v hv
    have hvo : OkS av v := h.values _ (SMap.get?_mem _ _ _ hv)
    refine .ite (fun _ => .pure (h.setAttr _ (okS_const (natToStr_added _)))) fun _ => .ite (fun _ => ?_) fun _ => .pure h
    refine .bind' fun a _ => .ite (fun _ => .bind' fun b hb => .pure (h.setAttr _ (hvo.sub (sliceM_sub hb)))) fun _ => .pure h

/-- Metadata that is written, which has no options. -/
def MetaI (av : UInt8 → Prop) (m : Meta) : Prop := MetaOk av m ∧ m.options = []

theorem MetaI.new {m : Meta} (h1 : m.attributes = []) (h2 : m.options = []) (h3 : m.roles = []) (h4 : m.declared = none)
    (h : Alt av metaMarks) : MetaI av m where
  left.values := by rw [h1]; intro _ h; cases h
  left.roles := by rw [h3]; intro _ h; cases h
  left.options := by rw [h2]; intro _ h; cases h
  left.quote := by rw [h4]; intro h; cases h
  left.marks := h
  left.once := by rw [h1]; exact List.nodup_nil
  right := h2

theorem MetaI.setAttr {m : Meta} (h : MetaI av m) (k : Str) {v : Str} (hv : OkS av v) : MetaI av (m.setAttr k v) :=
  ⟨h.1.setAttr k hv, h.2⟩

theorem MetaI.processAttribute {m : Meta} (h : MetaI av m) (idx : Nat) {a : Str} (ha : AvS av a) :
    Ok (m.processAttribute idx a) (MetaI av) := by
  have ht : OkS av (trim a) := okS_of_av (ha.sub (trim_sub a))
  unfold Meta.processAttribute
  split
  · refine .pure ?_
    split
    · exact h.setAttr _ ht
    · exact h
  · exact .ite (fun _ => .pure (h.setAttr _ ht)) fun _ => .ite (fun _ => .pure (h.setAttr _ ht)) fun _ => .error
  · exact .ite (fun _ => .pure (h.setAttr _ ht)) fun _ => .ite (fun _ => .pure (h.setAttr _ ht)) fun _ => .error
  · exact .ite (fun _ => .bind' fun v hv => .pure (h.setAttr _ (okS_of_av (ha.sub (sliceM_sub hv)))))
      fun _ => .pure (h.setAttr _ (okS_of_av ha))

theorem quote_marks : ∀ b ∈ b!"[quote]", b ∈ b!"[]" ∨ b ∈ b!"quote" := by decide

theorem MetaI.processOne {m : Meta} (h : MetaI av m) (hb : AvS av b!"[]") (idx : Nat) {a : Str} (ha : AvS av a) :
    Ok (m.processOne idx a) (MetaI av) := by
  unfold Meta.processOne
  refine .bind' fun r hr => ?_
  split
  · rename_i k v
    obtain ⟨_, hv⟩ := keyValues_sub hr
    refine .ite (fun _ => .pure ⟨⟨h.1.values, ?_, h.1.options, h.1.quote, h.1.marks, h.1.once⟩, h.2⟩) fun _ => .pure (h.setAttr _ (okS_of_av (ha.sub hv)))
    intro r hr
    rcases List.mem_append.1 hr with hr | hr
    · exact h.1.roles r hr
    · exact .inl (okS_of_av ((ha.sub hv).sub (splitOnB_sub hr)))
  · refine .ite (fun _ => ?_) fun _ => .ite (fun _ => .pure h) fun _ => h.processAttribute _ ha
    refine .bind' fun two _ => .ite (fun _ => .pure ⟨⟨h.1.values, h.1.roles, h.1.options, ?_, h.1.marks, h.1.once⟩, h.2⟩) fun _ => h.processAttribute _ ha
    intro hd
    have : a = b!"quote" := by
      unfold AttrType.ofStr at hd
      dsimp only at hd
      repeat' split at hd
      all_goals first | assumption | cases hd
    rw [this] at ha
    intro b hb'
    rcases quote_marks b hb' with h' | h'
    · exact hb b h'
    · exact ha b h'

theorem MetaI.processFrom {m : Meta} (h : MetaI av m) (hb : AvS av b!"[]") (idx : Nat) {l : List Str} (hl : ∀ a ∈ l, AvS av a) :
    Ok (m.processFrom idx l) (MetaI av) := by
  induction l generalizing m idx with
  | nil => exact .pure h
  | cons a l ih =>
    exact .bind (h.processOne hb idx (hl a (by simp))) fun m' hm' => ih hm' (idx + 1) fun a ha => hl a (by simp [ha])

theorem MetaI.ofList {m : Meta} (h : MetaI av m) (hb : AvS av b!"[]") {s : Str} (hs : AvS av s) :
    Ok (m.processAttributes (extractAttributes s)) (MetaI av) :=
  h.processFrom hb 0 fun _ ha => hs.sub (extract_sub ha)

theorem alt_brackets (h : AvS av b!"[]") : Alt av metaMarks := ⟨b!"[]", by simp [metaMarks], h⟩

theorem inlineFromToken_ok {t : Token} (ht : TokOk av t) (hty : tokMarks t.ty = [b!"[]"]) :
    Ok (Meta.inlineFromToken t) (MetaI av) := by
  have hb : AvS av b!"[]" := alt_single (hty ▸ ht.marks)
  unfold Meta.inlineFromToken
  refine .bind' fun s hs => .pure ⟨⟨fun _ h => (by cases h), ?_, fun _ h => (by cases h), fun h => (by cases h), alt_brackets hb, List.nodup_nil⟩, rfl⟩
  intro r hr
  exact .inl (okS_of_av ((ht.lexeme.sub (sliceM_sub hs)).sub (splitOnB_sub (List.mem_filter.1 hr).1)))

theorem blockFromToken_ok {t : Token} (ht : TokOk av t) (hty : tokMarks t.ty = [b!"[]"]) :
    Ok (Meta.blockFromToken t) (MetaI av) := by
  have hb : AvS av b!"[]" := alt_single (hty ▸ ht.marks)
  have h0 : MetaI av { loc := t.locations } := .new rfl rfl rfl rfl (alt_brackets hb)
  unfold Meta.blockFromToken
  dsimp only
  refine .ite (fun _ => .bind' fun s hs => .pure (h0.setAttr _ (okS_of_av (ht.lexeme.sub (sliceM_sub hs))))) fun _ => ?_
  exact .bind' fun s hs => h0.ofList hb (ht.lexeme.sub (sliceM_sub hs))

theorem MetaI.addFromToken {m : Meta} (h : MetaI av m) {t : Token} (ht : TokOk av t) (hty : tokMarks t.ty = [b!"[]"]) :
    Ok (m.addFromToken t) (MetaI av) := by
  have hb : AvS av b!"[]" := alt_single (hty ▸ ht.marks)
  unfold Meta.addFromToken
  refine .ite (fun _ => .bind' fun s hs => ?_) fun _ => .bind' fun s hs => h.ofList hb (ht.lexeme.sub (sliceM_sub hs))
  split
  · exact .pure h
  · exact .pure (h.setAttr _ (okS_of_av (ht.lexeme.sub (sliceM_sub hs))))

theorem MetaI.addFromOther {m o : Meta} (h : MetaI av m) (ho : MetaI av o) : MetaI av (m.addFromOther o) := by
  refine ⟨⟨extend_val h.1.values ho.1.values, ?_, ?_, h.1.quote, h.1.marks, SMap.Uniq.extend h.1.once _⟩, ?_⟩
  · simp only [Meta.addFromOther, ho.2, List.append_nil]
    exact h.1.roles
  · simp only [Meta.addFromOther, ho.2, List.append_nil]
    exact h.1.options
  · simp only [Meta.addFromOther, ho.2, List.append_nil]
    exact h.2

theorem takeWhile_lt {s : Str} {c : UInt8} (h : (s.takeWhile (· != c)).length < s.length) : c ∈ s := by
  induction s with
  | nil => simp at h
  | cons b s ih =>
    simp only [List.takeWhile_cons] at h
    split at h
    · exact List.mem_cons_of_mem _ (ih (by simpa using h))
    · rename_i hb
      have : b = c := by simpa using hb
      simp [this]

/-- Target and metadata of an image. -/
theorem targetAndAttrs_ok {t : Token} (ht : TokOk av t) (hty : t.ty = .blockImageMacro ∨ t.ty = .inlineImageMacro) :
    Ok (targetAndAttrs t) fun r => AvS av r.1 ∧ ∀ m ∈ r.2, MetaI av m := by
  have hp : AvS av t.text := by
    apply ht.plain <;> rcases hty with h | h <;> rw [h] <;> decide
  have hm : AvS av b!"image:]" := by
    have := ht.marks
    rcases hty with h | h <;> rw [h] at this <;> exact alt_single this
  unfold targetAndAttrs
  split
  · exact .error
  · refine .bind' fun rest hr => .bind' fun a ha => ?_
    have hrest := hp.sub (sliceM_sub hr)
    have ht1 : AvS av (rest.takeWhile (· != c!"[")) := hrest.sub (List.takeWhile_subset _)
    refine .ite (fun _ => .pure ⟨ht1, fun m h => by cases h⟩) fun _ => ?_
    have hopen : av c!"[" := by
      apply hrest
      apply takeWhile_lt
      unfold sliceM at ha
      split at ha
      · rename_i u hu
        have := (Scanner.slice_some hu).1
        omega
      · cases ha
    have hb : AvS av b!"[]" := avS_cons hopen (avS_cons (hm _ (by decide)) avS_nil)
    refine .bind (MetaI.ofList (.new rfl rfl rfl rfl (alt_brackets hb)) hb (hrest.sub (sliceM_sub ha))) fun m hm => .pure ⟨ht1, ?_⟩
    rintro _ ⟨⟩
    exact hm

/-! ## Inlines -/

theorem everyIs_mem {is : List Inline} : EveryIs av is ↔ ∀ i ∈ is, EveryI av i := by
  induction is with
  | nil => simp [EveryIs]
  | cons i is ih => simp [EveryIs, ih]

theorem everyIs_nil : EveryIs av [] := by simp [EveryIs]
theorem everyIs_cons {i : Inline} {is : List Inline} : EveryIs av (i :: is) ↔ EveryI av i ∧ EveryIs av is := by simp [EveryIs]
theorem everyIs_append {a b : List Inline} : EveryIs av (a ++ b) ↔ EveryIs av a ∧ EveryIs av b := by
  simp only [everyIs_mem, List.mem_append]
  exact ⟨fun h => ⟨fun i hi => h i (.inl hi), fun i hi => h i (.inr hi)⟩, fun h i hi => hi.elim (h.1 i) (h.2 i)⟩
theorem everyIs_reverse {a : List Inline} : EveryIs av a.reverse ↔ EveryIs av a := by simp [everyIs_mem]
theorem everyIs_sub {a b : List Inline} (h : EveryIs av b) (hs : a ⊆ b) : EveryIs av a :=
  everyIs_mem.2 fun i hi => everyIs_mem.1 h i (hs hi)

theorem everyI_span {v : SpanVariant} {f : SpanForm} {is : List Inline} {m : Option Meta} {l : List Location} {o : Bool} :
    EveryI av (.span v f is m l o) ↔ (Alt av (spanMarks v) ∧ MetaOk? av m) ∧ EveryIs av is := by simp [EveryI, NodeI]
theorem everyI_ref {v : RefVariant} {t : Str} {is : List Inline} {m : Option Meta} {l : List Location} :
    EveryI av (.ref v t is m l) ↔ (Alt av (refMarks v) ∧ OkS av t ∧ MetaOk? av m) ∧ EveryIs av is := by simp [EveryI, NodeI]
theorem everyI_lit {n : LitName} {v : Str} {l : List Location} :
    EveryI av (.lit n v l) ↔ Alt av (litMarks n) ∧ OkS av v := by simp [EveryI, NodeI]
theorem everyI_brk {l : List Location} : EveryI av (.brk l) ↔ AvS av b!"+\n" := by simp [EveryI, NodeI]

theorem everyI_text {v : Str} {l : List Location} (h : OkS av v) : EveryI av (.lit .text v l) :=
  everyI_lit.2 ⟨⟨[], by simp [litMarks], avS_nil⟩, h⟩

theorem TokOk.textI {t : Token} (h : TokOk av t) : EveryI av (Inline.textFromToken t) := everyI_text h.text
theorem TokOk.passI {t : Token} (h : TokOk av t) : EveryI av (Inline.passFromToken t) := everyI_text (okS_of_av h.lexeme)

theorem everyI_pushInline {x c : Inline} (hx : EveryI av x) (hc : EveryI av c) : Ok (x.pushInline c) (EveryI av) := by
  unfold Inline.pushInline
  split
  · rw [everyI_span] at hx
    exact .pure (everyI_span.2 ⟨hx.1, everyIs_append.2 ⟨hx.2, everyIs_cons.2 ⟨hc, everyIs_nil⟩⟩⟩)
  · rw [everyI_ref] at hx
    exact .pure (everyI_ref.2 ⟨hx.1, everyIs_append.2 ⟨hx.2, everyIs_cons.2 ⟨hc, everyIs_nil⟩⟩⟩)
  · exact .error

theorem everyI_reconcile {x : Inline} (hx : EveryI av x) (l : List Location) : EveryI av (x.reconcileLocations l) := by
  cases x <;> simp only [Inline.reconcileLocations] <;> simp only [everyI_span, everyI_ref, everyI_lit, everyI_brk] at hx ⊢ <;> exact hx

theorem everyI_close {x : Inline} (hx : EveryI av x) : Ok x.close (EveryI av) := by
  unfold Inline.close
  split
  · exact .pure (everyI_span.2 (everyI_span.1 hx))
  · exact .error

theorem everyI_addMeta {x : Inline} (hx : EveryI av x) {m : Meta} (hm : MetaOk av m) : Ok (x.addMeta m) (EveryI av) := by
  unfold Inline.addMeta
  split
  · rw [everyI_span] at hx
    exact .pure (everyI_span.2 ⟨⟨hx.1.1, hm⟩, hx.2⟩)
  · exact .error

theorem everyI_consolidate {x : Inline} (hx : EveryI av x) (t : Token) : Ok (x.consolidateFromToken t) (EveryI av) := by
  unfold Inline.consolidateFromToken
  split
  · exact .pure (everyI_span.2 (everyI_span.1 hx))
  · exact .pure (everyI_ref.2 (everyI_ref.1 hx))
  · exact .error

theorem everyIs_addLast {is : List Inline} {x : Inline} (h : EveryIs av is) (hx : EveryI av x) : EveryIs av (Inline.addLast is x) := by
  fun_induction Inline.addLast is x with
  | case1 => exact everyIs_cons.2 ⟨hx, everyIs_nil⟩
  | case2 v f is m l _ ih =>
    rw [everyIs_cons, everyI_span] at h
    exact everyIs_cons.2 ⟨everyI_span.2 ⟨h.1.1, ih h.1.2 hx⟩, everyIs_nil⟩
  | case3 => exact everyIs_cons.2 ⟨(everyIs_cons.1 h).1, everyIs_cons.2 ⟨hx, everyIs_nil⟩⟩
  | case4 n v l n' v' l' =>
    rw [everyIs_cons, everyI_lit] at h
    exact everyIs_cons.2 ⟨everyI_lit.2 ⟨h.1.1, h.1.2.append (everyI_lit.1 hx).2⟩, everyIs_nil⟩
  | case5 => exact everyIs_cons.2 ⟨(everyIs_cons.1 h).1, everyIs_cons.2 ⟨hx, everyIs_nil⟩⟩
  | case6 y ys _ _ _ ih => exact everyIs_cons.2 ⟨(everyIs_cons.1 h).1, ih (everyIs_cons.1 h).2 hx⟩

theorem everyI_addInline {s x : Inline} (h : EveryI av s) (hx : EveryI av x) : EveryI av (Inline.addInline s x) := by
  unfold Inline.addInline
  split
  · rw [everyI_span] at h
    exact everyI_span.2 ⟨h.1, everyIs_addLast h.2 hx⟩
  · exact h

/-- The marker of a span is available, or one of the two that stand for other markup. -/
theorem markup_ok {x : Inline} (hx : EveryI av x) : Ok x.markupLiteral (OkS av) := by
  unfold Inline.markupLiteral
  split
  · rename_i v f _ _ _ _
    rw [everyI_span] at hx
    split
    · rename_i c hc
      have : av c ∨ c ∈ added := by
        cases v <;> simp only [Inline.variantChar, Option.some.injEq, reduceCtorEq] at hc <;> subst hc
        all_goals first
          | exact .inr (by decide)
          | exact .inl (alt_single hx.1.1 _ (by decide))
      apply Ok.pure
      intro b hb
      split at hb <;> simp at hb <;> subst hb <;> exact this
    · exact .error
  · exact .error

theorem prependFirst_ok {pre : Str} {locs : Option (List Location)} {is : List Inline} (hp : OkS av pre) (h : EveryIs av is) :
    Ok (Inline.prependFirst pre locs is) (EveryIs av) := by
  unfold Inline.prependFirst
  split
  · rw [everyIs_cons, everyI_lit] at h
    exact .pure (everyIs_cons.2 ⟨everyI_lit.2 ⟨h.1.1, hp.append h.1.2⟩, h.2⟩)
  · exact .error

mutual
theorem flatten_ok : ∀ (x : Inline), EveryI av x → Ok x.flatten (EveryIs av)
  | .span v f is m l true, h => by
    unfold Inline.flatten
    refine .bind (markup_ok h) fun pre hp => .bind (spanInlines_ok is (everyI_span.1 h).2) fun kids hk => prependFirst_ok hp hk
  | .span v f is m l false, h => by
    unfold Inline.flatten
    exact .pure (everyIs_cons.2 ⟨h, everyIs_nil⟩)
  | .ref .., h => by
    unfold Inline.flatten
    exact .pure (everyIs_cons.2 ⟨h, everyIs_nil⟩)
  | .lit .., h => by
    unfold Inline.flatten
    exact .pure (everyIs_cons.2 ⟨h, everyIs_nil⟩)
  | .brk .., h => by
    unfold Inline.flatten
    exact .pure (everyIs_cons.2 ⟨h, everyIs_nil⟩)
theorem spanInlines_ok : ∀ (is : List Inline), EveryIs av is → Ok (Inline.spanInlines is) (EveryIs av)
  | [], _ => by
    unfold Inline.spanInlines
    exact .pure everyIs_nil
  | x :: rest, h => by
    rw [everyIs_cons] at h
    unfold Inline.spanInlines
    exact .bind (flatten_ok x h.1) fun a ha => .bind (spanInlines_ok rest h.2) fun b hb => .pure (everyIs_append.2 ⟨ha, hb⟩)
end

theorem childInlines_ok {x : Inline} (h : EveryI av x) : Ok x.childInlines (EveryIs av) := by
  unfold Inline.childInlines
  split
  · exact spanInlines_ok _ (everyI_span.1 h).2
  · exact .error

theorem refAddText_ok {is : List Inline} {t : Token} {pass : Bool} (h : EveryIs av is) (h1 : OkS av t.lexeme) (h2 : OkS av t.text) :
    Ok (Inline.refAddText is t pass) (EveryIs av) := by
  induction is with
  | nil =>
    unfold Inline.refAddText
    exact .pure (everyIs_cons.2 ⟨everyI_text h1, everyIs_nil⟩)
  | cons y ys ih =>
    rw [everyIs_cons] at h
    unfold Inline.refAddText
    split
    · exact .pure (everyIs_cons.2 ⟨everyI_text h1, everyIs_nil⟩)
    · rename_i he
      cases he
      exact .pure (everyIs_cons.2 ⟨everyI_addInline h.1 (everyI_text h1), everyIs_nil⟩)
    · rename_i he
      cases he
      rw [everyI_lit] at h
      refine .pure (everyIs_cons.2 ⟨everyI_lit.2 ⟨h.1.1, h.1.2.append ?_⟩, everyIs_nil⟩)
      split
      · exact h1
      · exact h2
    · exact .error
    · rename_i he
      cases he
      exact .bind (ih h.2) fun r hr => .pure (everyIs_cons.2 ⟨h.1, hr⟩)

theorem resolveXref_ok {h : SMap (List Inline)} (hh : ∀ kv ∈ h, EveryIs av kv.2) {x : Inline} (hx : EveryI av x) :
    EveryI av (x.resolveXref h) := by
  unfold Inline.resolveXref
  split
  · rename_i t is m l
    rw [everyI_ref] at hx ⊢
    refine ⟨hx.1, ?_⟩
    cases hg : h.get? t with
    | none => exact hx.2
    | some v => exact hh _ (SMap.get?_mem _ _ _ hg)
  · exact hx

theorem spanKind_marks {ty : TokenType} {v : SpanVariant} {f : SpanForm} (h : Inline.spanKind ty = some (v, f)) (ha : Alt av (tokMarks ty)) :
    Alt av (spanMarks v) := by
  obtain ⟨a, h1, h2⟩ := ha
  refine ⟨a, ?_, h2⟩
  revert h h1
  cases ty <;> simp only [Inline.spanKind, Option.some.injEq, Prod.mk.injEq, reduceCtorEq, false_implies, and_imp] <;>
    rintro rfl rfl h1 <;> simp [tokMarks] at h1 <;> simp [spanMarks, h1]

theorem conum_ok (h : AvS av b!"<>") : MetaOk av (Meta.withRole b!"conum") where
  values := fun _ h => by cases h
  roles := by intro r hr; simp [Meta.withRole] at hr; exact .inr (.inr hr)
  options := fun _ h => by cases h
  quote := fun h => by cases h
  marks := ⟨b!"<>", by simp [metaMarks], h⟩
  once := List.nodup_nil

theorem colist_ok (h : AvS av b!"<>") : MetaOk av (Meta.withRole b!"colist") where
  values := fun _ h => by cases h
  roles := by intro r hr; simp [Meta.withRole] at hr; exact .inr (.inl hr)
  options := fun _ h => by cases h
  quote := fun h => by cases h
  marks := ⟨b!"<>", by simp [metaMarks], h⟩
  once := List.nodup_nil

theorem spanFromToken_ok {t : Token} (ht : TokOk av t) : Ok (Inline.spanFromToken t) (EveryI av) := by
  unfold Inline.spanFromToken
  split
  · rename_i v f hk
    exact .pure (everyI_span.2 ⟨⟨spanKind_marks hk ht.marks, trivial⟩, everyIs_nil⟩)
  · refine .ite (fun hty => .bind' fun n hn => .pure ?_) fun _ => .error
    have hm : AvS av b!"<>\n" := alt_single (by have := ht.marks; rwa [hty] at this)
    have h1 : Alt av (spanMarks .strong) := ⟨_, by simp [spanMarks], hm⟩
    refine everyI_span.2 ⟨⟨h1, conum_ok fun b hb => hm b (by revert hb; revert b; decide)⟩, everyIs_cons.2 ⟨everyI_text ?_, everyIs_nil⟩⟩
    exact ((okS_const (by decide)).append (ht.text.sub (sliceM_sub hn))).append (okS_const (by decide))

theorem xrefFromToken_ok {t : Token} (ht : TokOk av t) (hty : t.ty = .crossReference) : Ok (Inline.xrefFromToken t) (EveryI av) := by
  unfold Inline.xrefFromToken
  refine .bind' fun n hn => .pure (everyI_ref.2 ⟨⟨?_, ht.text.sub (sliceM_sub hn), trivial⟩, everyIs_nil⟩)
  have := ht.marks
  rw [hty] at this
  exact this

theorem link_ok {t : Token} (ht : TokOk av t) (hty : t.ty = .linkMacro ∨ t.ty = .hyperlink) {s : Str} (hs : s ⊆ t.text) :
    EveryI av (.ref .link s [] none t.locations) := by
  refine everyI_ref.2 ⟨⟨?_, ht.text.sub hs, trivial⟩, everyIs_nil⟩
  have := ht.marks
  rcases hty with h | h <;> rw [h] at this <;> exact this

end
end Adoc.Origin
