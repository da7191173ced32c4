import Verif.TextOctets
/-!
# Properties: texts that are not UTF-8 (C84)
-/

namespace Ics.Props

/-- The octets are the encodings of runes, one after the other. -/
def IsUtf8 (t : Bytes) : Prop := ∃ s : Str, t = utf8 s

/-- The texts that a Go string may be taken for: runes are kept where the octets encode one, every other octet is replaced by U+FFFD. -/
inductive Replaced : Bytes → Str → Prop
  | nil : Replaced [] []
  | rune (c : Char) {t : Bytes} {s : Str} : Replaced t s → Replaced (encodeChar c ++ t) (c :: s)
  | bad (b : UInt8) {t : Bytes} {s : Str} : (∀ c r, b :: t ≠ encodeChar c ++ r) → Replaced t s → Replaced (b :: t) ('�' :: s)

theorem not_encoded {b : UInt8} {r : Bytes} (h : decodeRune (b :: r) = (0xFFFD, 1)) (c : Char) (q : Bytes) : b :: r ≠ encodeChar c ++ q := by
  intro e
  rw [e, decodeRune_encodeChar] at h
  injection h with h1 h2
  have : c = '�' := by rw [← Char_ofNat_toNat c, h1]
  subst this
  exact absurd h2 (by decide)

/-- What is put for the octets is settled. -/
theorem replaced_iff (t : Bytes) : ∀ s, Replaced t s ↔ s = runes t := by
  induction t using runes_induction with
  | nil =>
    intro s
    refine ⟨fun h => ?_, fun h => h ▸ .nil⟩
    generalize ht : ([] : Bytes) = t at h
    cases h with
    | nil => rfl
    | rune c h => exact absurd (List.append_eq_nil_iff.1 ht.symm).1 (encodeChar_ne_nil c)
    | bad b h1 h2 => cases ht
  | bad b r h1 h2 ih =>
    intro s
    rw [runes_bad h2]
    constructor
    · intro h
      generalize ht : b :: r = t at h
      cases h with
      | nil => cases ht
      | rune c h => exact absurd ht (not_encoded h2 c _)
      | bad b' h3 h4 =>
        cases ht
        rw [(ih _).1 h4]
    · rintro rfl
      exact .bad b (not_encoded h2) ((ih _).2 rfl)
  | good c r ih =>
    intro s
    rw [runes_good]
    constructor
    · intro h
      generalize ht : encodeChar c ++ r = t at h
      cases h with
      | nil => exact absurd (List.append_eq_nil_iff.1 ht).1 (encodeChar_ne_nil c)
      | @rune c' t' s' h =>
        have e := congrArg runes ht
        rw [runes_good, runes_good] at e
        injection e with e1 e2
        subst e1
        have e3 := List.append_cancel_left ht
        subst e3
        rw [(ih _).1 h]
      | bad b' h3 h4 => exact absurd ht.symm (h3 c r)
    · rintro rfl
      exact .rune c ((ih _).2 rfl)

theorem isUtf8_iff (t : Bytes) : IsUtf8 t ↔ utf8 (runes t) = t := by
  constructor
  · rintro ⟨s, rfl⟩
    rw [runes_utf8]
  · intro h
    exact ⟨_, h.symm⟩

/-! ## C84 -/

/-- C84.  Whatever octets a text has, what is written for it is the escaped form of the text with U+FFFD for each octet that is not part of the encoding of a rune.
So it is always UTF-8. -/
theorem C84_written (t : Bytes) : ∃ s, Replaced t s ∧ Text.encodeB t = utf8 (Text.encode s) :=
  ⟨runes t, (replaced_iff t _).2 rfl, Text.encodeB_eq t⟩

/-- C84.  The same for lists of texts. -/
theorem C84_list_written (ts : List Bytes) : ∃ ss, ss.length = ts.length ∧ (∀ x ∈ ts.zip ss, Replaced x.1 x.2) ∧ MText.encodeB ts = utf8 (MText.encode ss) := by
  refine ⟨ts.map runes, by simp, ?_, MText.encodeB_eq ts⟩
  induction ts with
  | nil => simp
  | cons t ts ih =>
    intro x hx
    simp only [List.map_cons, List.zip_cons_cons, List.mem_cons] at hx
    rcases hx with rfl | hx
    · exact (replaced_iff _ _).2 rfl
    · exact ih x hx

/-- C84.  Reading what was written gives the octets back exactly if they are UTF-8. -/
theorem C84_kept_exactly (t : Bytes) : (Text.decode (runes (Text.encodeB t))).map utf8 = .ok t ↔ IsUtf8 t := by
  rw [Text.encodeB_eq, runes_utf8, Text.decode_encode, isUtf8_iff]
  exact ⟨fun h => Res.ok.inj h, fun h => congrArg Res.ok h⟩

/-- C84.  A list of texts is read back exactly if there is at least one and each is UTF-8. -/
theorem C84_list_kept_exactly (ts : List Bytes) :
    (MText.decode (runes (MText.encodeB ts))).map (List.map utf8) = .ok ts ↔ ts ≠ [] ∧ ∀ t ∈ ts, IsUtf8 t := by
  by_cases h0 : ts = []
  · subst h0
    exact ⟨fun h => absurd h (by decide), fun h => absurd rfl h.1⟩
  · rw [MText.encodeB_eq, runes_utf8, MText.decode_encode _ (by simpa using h0)]
    have : (Res.ok (ts.map runes)).map (List.map utf8) = .ok ((ts.map runes).map utf8) := rfl
    rw [this, List.map_map]
    constructor
    · intro h
      refine ⟨h0, fun t ht => (isUtf8_iff t).2 ?_⟩
      have e := Res.ok.inj h
      have : ts.map (utf8 ∘ runes) = ts.map id := by rw [e, List.map_id]
      exact List.map_inj_left.1 this t ht
    · rintro ⟨_, h⟩
      have : ts.map (utf8 ∘ runes) = ts.map id := List.map_inj_left.2 fun t ht => (isUtf8_iff t).1 (h t ht)
      rw [this, List.map_id]

/-- C84.  Validation looks at control characters only, and sees the same in the octets as in the text that is written. -/
theorem C84_validation (t : Bytes) (s : Str) (h : Replaced t s) : Text.validB t = Text.valid s := by
  rw [(replaced_iff t s).1 h, Text.validB_eq]

/-- C84.  The same for lists, text by text. -/
theorem C84_list_validation (ts : List Bytes) (ss : List Str) (hl : ss.length = ts.length) (h : ∀ x ∈ ts.zip ss, Replaced x.1 x.2) : MText.validB ts = MText.valid ss := by
  rw [MText.validB_eq]
  congr 1
  induction ts generalizing ss with
  | nil => cases ss with
    | nil => rfl
    | cons => cases hl
  | cons t ts ih => cases ss with
    | nil => cases hl
    | cons s ss =>
      have h1 := h (t, s) (by simp)
      rw [List.map_cons, ih ss (by simpa using hl) (fun x hx => h x (by simp [hx])), ← (replaced_iff t s).1 h1]

example : MText.validB [[0x61], [0xff, 0x01]] = .err .invalidText ∧ MText.validB [[0x61], [0xff]] = .ok () := by decide

/-- C84.  So validation accepts texts that are not UTF-8, and different texts are written alike. -/
theorem C84_not_utf8_accepted : Text.validB [0xff] = .ok () ∧ ¬ IsUtf8 [0xff] ∧ Text.encodeB [0xff] = Text.encodeB [0xfe] ∧
    Text.encodeB [0x61, 0xff, 0x62, 0xe2, 0x82] = utf8 c!"a�b��" := by
  refine ⟨by decide, ?_, by decide, by decide⟩
  rw [isUtf8_iff]
  decide

/-- The stronger claim, that every text that passes validation is kept, is false. -/
def C84_claim : Prop := ∀ t : Bytes, Text.validB t = .ok () → (Text.decode (runes (Text.encodeB t))).map utf8 = .ok t

/-- C84.  The claim as stated in full is false: a counterexample. -/
theorem C84_full_claim_is_false : ¬ C84_claim := fun h =>
  C84_not_utf8_accepted.2.1 ((C84_kept_exactly _).1 (h _ C84_not_utf8_accepted.1))

/-- Samples for the hypotheses. -/
example : IsUtf8 (utf8 c!"Zürich; 5 €") := ⟨_, rfl⟩
example : Replaced [0x61, 0xff] c!"a�" := (replaced_iff _ _).2 (by decide)
example : Text.encodeB (utf8 c!"ü;\n") = utf8 c!"ü\\;\\n" := by decide

end Ics.Props
