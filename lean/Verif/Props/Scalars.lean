import Verif.ScalarLemmas
/-!
# Properties C16 - C20, C25, C26: text, durations, offsets, binary data, integers, booleans
-/

namespace Ics.Props

open Ics Spec

/-! ## C16, C17 Text -/

/-- C16.  Decoding the encoding of a text gives the text back. -/
theorem C16_text_round_trip (t : Str) : Text.decode (Text.encode t) = .ok t := Text.decode_encode t

/-- C16.  The encoding is an RFC 5545 TEXT denoting the text: comma, semicolon, backslash and newline occur only escaped. -/
theorem C16_encoding_is_rfc_text (t : Str) : Escaped (Text.encode t) t := escaped_encode t

/-- C16.  Every RFC 5545 TEXT is decoded to what it denotes, not just the encoder's own output. -/
theorem C16_rfc_text_decodes {s t : Str} (h : Escaped s t) : Text.decode s = .ok t := by
  have := decodeText_escaped h [] (by simp)
  rw [List.append_nil] at this
  rw [Text.decode, this]

/-- C16.  Besides RFC 5545 TEXTs, only texts with stray backslashes are accepted; no comma or semicolon may be left unescaped. -/
theorem C16_decoding_exact (s t : Str) : Text.decode s = .ok t ↔ LooseText s t := Text.decode_iff

example : Text.encode c!"a,b;c\\d\ne" = c!"a\\,b\\;c\\\\d\\ne" := by decide
example : Text.decode c!"a\\,b\\Nc" = .ok c!"a,b\nc" := by decide
example : Text.decode c!"a,b" = .err .invalidText := by decide

/-- C17.  Decoding the encoding of a non-empty list of texts gives the list back. -/
theorem C17_mtext_round_trip (ts : List Str) (h : ts ≠ []) : MText.decode (MText.encode ts) = .ok ts :=
  MText.decode_encode ts h

/-- C17.  The encoding is a comma separated list of RFC 5545 TEXTs, and every such list is decoded to what it denotes. -/
theorem C17_encoding_is_rfc_list (ts : List Str) (h : ts ≠ []) : EscapedList (MText.encode ts) ts :=
  escapedList_encode ts h

/-- C17.  A list of texts written as RFC 5545 says is read as these texts. -/
theorem C17_rfc_list_decodes {s : Str} {ts : List Str} (h : EscapedList s ts) : MText.decode s = .ok ts :=
  mtext_escapedList h _ (by omega)

/-- C17.  Exactly the texts that are read, and as what. -/
theorem C17_decoding_exact (s : Str) (ts : List Str) : MText.decode s = .ok ts ↔ LooseList s ts := MText.decodeF_iff _ _ _ (by omega)

example : MText.encode [c!"a,b", c!"", c!"c"] = c!"a\\,b,,c" := by decide
example : MText.decode c!"a\\,b,,c" = .ok [c!"a,b", c!"", c!"c"] := by decide
/-- The restriction to non-empty lists is needed. -/
example : MText.decode (MText.encode []) = .ok [c!""] := by decide

/-! ## C18, C19 Durations -/

/-- The full claim C18. -/
def C18_claim : Prop := ∀ d : Duration, d.WF → Duration.decode (Duration.encode d) = .ok d

/-- C18, the part that holds: durations that do not mix weeks with other units.  Missing: durations with weeks and another
component, where the claim is false. -/
theorem C18_duration_round_trip_partial (d : Duration) (h : d.WF)
    (hw : d.weeks = 0 ∨ (d.days = 0 ∧ d.hours = 0 ∧ d.minutes = 0 ∧ d.seconds = 0)) :
    Duration.decode (Duration.encode d) = .ok d := by
  rw [Duration.decode_encode d h]
  unfold Duration.kept
  split
  · next h0 =>
    obtain ⟨neg, w, dd, hh, m, s⟩ := d
    simp_all
  · rfl

/-- C18.  With weeks present everything else is lost: exactly sign and weeks survive. -/
theorem C18_weeks_drop_the_rest (d : Duration) (h : d.WF) (hw : d.weeks ≠ 0) :
    Duration.decode (Duration.encode d) = .ok { neg := d.neg, weeks := d.weeks } := by
  rw [Duration.decode_encode d h, Duration.kept, if_pos hw]

/-- C18.  The claim as stated in full is false: a counterexample. -/
theorem C18_full_claim_is_false : ¬ C18_claim := by
  intro h
  have := h { weeks := 1, days := 1 } ⟨by decide, by decide, by decide, by decide, by decide⟩
  exact absurd this (by decide)

/-- Sample for the hypotheses. -/
example : Duration.encode { neg := true, days := 15, hours := 5, seconds := 20 } = c!"-P15DT5H0M20S" := by decide
example : Duration.decode c!"-P15DT5H0M20S" = .ok { neg := true, days := 15, hours := 5, seconds := 20 } := by decide

/-- The full claim C19: exactly the RFC 5545 durations with 64-bit numbers are accepted. -/
def C19_claim : Prop := ∀ s d, Duration.decode s = .ok d ↔ RfcDuration s d ∧ d.WF

/-- C19, first half: every RFC 5545 duration is accepted, with the numbers written in it.  Missing: the converse, which is false. -/
theorem C19_rfc_durations_accepted_partial {s : Str} {d : Duration} (h : RfcDuration s d) (hd : d.WF) :
    Duration.decode s = .ok d := Duration.decode_rfc h hd

/-- C19.  What the encoder writes is an RFC 5545 duration. -/
theorem C19_encoding_is_rfc (d : Duration) (h : d.weeks = 0 ∨ (d.days = 0 ∧ d.hours = 0 ∧ d.minutes = 0 ∧ d.seconds = 0)) :
    RfcDuration (Duration.encode d) d := by
  have := Duration.encode_rfc d
  rwa [show d.kept = d from by
    unfold Duration.kept
    split
    · obtain ⟨neg, w, dd, hh, m, s⟩ := d
      simp_all
    · rfl] at this

/-- C19, what is accepted at all: an optional sign, "P" and a non-empty sequence of items, each an optional "T", a number below
2^64 and one of the letters W D H M S; each field is the last number written with its letter, and 0 without one. -/
theorem C19_accepted_are_items_partial {s : Str} {d : Duration} (h : Duration.decode s = .ok d) :
    ∃ (sign : Str) (is : List DurItem), s = sign ++ 'P' :: is.flatMap DurItem.print ∧ is ≠ [] ∧
      (∀ i ∈ is, i.unit ∈ ['W', 'D', 'H', 'M', 'S'] ∧ i.n < 2 ^ 64) ∧
      ((sign = ['-'] ∧ d.neg = true) ∨ ((sign = [] ∨ sign = ['+']) ∧ d.neg = false)) ∧
      d.weeks = lastOf 'W' 0 is ∧ d.days = lastOf 'D' 0 is ∧ d.hours = lastOf 'H' 0 is ∧
      d.minutes = lastOf 'M' 0 is ∧ d.seconds = lastOf 'S' 0 is := by
  obtain ⟨sign, is, h1, h2, h3, h4⟩ := Duration.decode_items h
  exact ⟨sign, is, h1, h2, fun i hi => ⟨h3.units i hi, h3.range i hi⟩, h4, h3.weeks, h3.days, h3.hours, h3.minutes, h3.seconds⟩

/-- A decoded duration has 64-bit fields. -/
theorem C19_decoded_in_range {s : Str} {d : Duration} (h : Duration.decode s = .ok d) : d.WF := by
  obtain ⟨_, is, _, _, h1, _, h2, h3, h4, h5, h6⟩ := C19_accepted_are_items_partial h
  have key : ∀ (u : Char) (is : List DurItem) (k : Nat), k < 2 ^ 64 → (∀ i ∈ is, i.n < 2 ^ 64) → lastOf u k is < 2 ^ 64 := by
    intro u is
    induction is with
    | nil => intro k hk _; exact hk
    | cons i is ih =>
      intro k hk hi
      rw [lastOf]
      refine ih _ ?_ (fun j hj => hi j (by simp [hj]))
      split
      · exact hi i (by simp)
      · exact hk
  have hr : ∀ i ∈ is, i.n < 2 ^ 64 := fun i hi => (h1 i hi).2
  exact ⟨h2 ▸ key _ _ _ (by decide) hr, h3 ▸ key _ _ _ (by decide) hr, h4 ▸ key _ _ _ (by decide) hr,
    h5 ▸ key _ _ _ (by decide) hr, h6 ▸ key _ _ _ (by decide) hr⟩

/-- C19 is false: "P1M" (no such RFC 5545 duration: minutes need a "T") is accepted as one minute. -/
theorem C19_full_claim_is_false : ¬ C19_claim := by
  intro h
  have hd : Duration.decode c!"P1M" = .ok { minutes := 1 } := by decide
  obtain ⟨⟨t, hb, hs⟩, _⟩ := (h _ _).1 hd
  have ht : t = c!"1M" := by
    rcases hs with ⟨hn, _⟩ | ⟨_, hs | hs⟩
    · cases hn
    · injection hs with _ hs; exact hs.symm
    · injection hs with hs _; exact absurd hs (by decide)
  subst ht
  have nou : ∀ u n, u ≠ 'M' → ¬ Spec.Unit u c!"1M" n := by
    rintro u n hu ⟨ds, _, he⟩
    have := congrArg List.getLast? he
    simp at this
    exact hu this.symm
  have noT : ∀ h m s, ¬ DurTime c!"1M" h m s := by
    rintro h m s ⟨t, ht, _⟩
    injection ht with ht _
    exact absurd ht (by decide)
  have notail : ∀ a b u n h m s, c!"1M" = a ++ b → Spec.Unit u a n → ¬ DurTime b h m s := by
    rintro a b u n h m s he _ ⟨t, rfl, _⟩
    have : 'T' ∈ c!"1M" := by rw [he]; simp
    exact absurd this (by decide)
  rcases hb with ⟨⟨hu, _⟩ | ⟨a, b, he, hu, ht⟩, _⟩ | ⟨ht, _⟩ | ⟨hu, _⟩
  · exact nou _ _ (by decide) hu
  · exact notail _ _ _ _ _ _ _ he hu ht
  · exact noT _ _ _ ht
  · exact nou _ _ (by decide) hu

/-- More accepted strings that are not RFC 5545 durations, and a legal-looking one that is refused. -/
example : Duration.decode c!"PT1HT2H" = .ok { hours := 2 } := by decide
example : Duration.decode c!"P1D2H" = .ok { days := 1, hours := 2 } := by decide
example : Duration.decode c!"P1S" = .err .invalidDuration := by decide
example : Duration.decode c!"P1DT" = .err .ext := by decide

/-! ## C20 UTC offsets -/

/-- The full claim C20. -/
def C20_claim : Prop := ∀ u : Int, UTCOffset.decode (UTCOffset.encode u) = .ok u ∧ RfcOffset (UTCOffset.encode u) u

/-- C20, round trip for offsets below 100 hours.  Missing: larger offsets, where it is false. -/
theorem C20_offset_round_trip_partial (u : Int) (h : u.natAbs < 360000) :
    UTCOffset.decode (UTCOffset.encode u) = .ok u := UTCOffset.decode_encode u h

/-- C20, grammar: negative offsets of less than a day are encoded as RFC 5545 utc-offsets.  Missing: offsets that are not negative, which are
written without the mandatory sign. -/
theorem C20_negative_offset_is_rfc_partial (u : Int) (h : -86400 < u) (h0 : u < 0) : RfcOffset (UTCOffset.encode u) u := by
  obtain ⟨t, ht, he⟩ := offset_encode_spec u (by omega)
  rw [if_pos h0] at he
  exact ⟨t, _, ht, Or.inr ⟨he, by omega, by omega⟩⟩

/-- C20.  No offset that is not negative is encoded as an RFC 5545 utc-offset: the sign is missing. -/
theorem C20_nonnegative_offset_is_not_rfc (u v : Int) (h0 : 0 ≤ u) (h : u < 86400) : ¬ RfcOffset (UTCOffset.encode u) v := by
  obtain ⟨t, ht, he⟩ := offset_encode_spec u (by omega)
  rw [if_neg (by omega), List.nil_append] at he
  obtain ⟨h1, h2⟩ := HourMinute_head ht
  rw [he]
  rintro ⟨t', v', _, ⟨rfl, _⟩ | ⟨rfl, _⟩⟩
  · exact h2 rfl
  · exact h1 rfl

/-- C20.  Adding the sign the encoder forgets gives the RFC 5545 utc-offset. -/
theorem C20_nonnegative_offset_with_sign_is_rfc (u : Int) (h0 : 0 ≤ u) (h : u < 86400) :
    RfcOffset ('+' :: UTCOffset.encode u) u := by
  obtain ⟨t, ht, he⟩ := offset_encode_spec u (by omega)
  rw [if_neg (by omega), List.nil_append] at he
  rw [he]
  exact ⟨t, _, ht, Or.inl ⟨rfl, by omega⟩⟩

/-- C20.  Every RFC 5545 utc-offset is decoded to what it denotes. -/
theorem C20_rfc_offset_decodes {s : Str} {u : Int} (h : RfcOffset s u) : UTCOffset.decode s = .ok u := by
  rw [offset_decode_iff]
  obtain ⟨t, v, hv, h⟩ := h
  have hv' : HourMinute 99 t v := by
    cases hv with
    | hm a b c d => exact .hm a b (by omega) d
    | hms a b c d e f => exact .hms a b c (by omega) e f
  rcases h with ⟨h1, h2⟩ | h
  · exact ⟨t, v, hv', Or.inl ⟨Or.inr h1, h2⟩⟩
  · exact ⟨t, v, hv', Or.inr h⟩

/-- C20.  Exactly which strings are accepted, and with which value. -/
theorem C20_accepted_offsets (s : Str) (u : Int) : UTCOffset.decode s = .ok u ↔ LooseOffset s u := offset_decode_iff s u

/-- C20.  The claim as stated in full is false: a counterexample. -/
theorem C20_full_claim_is_false : ¬ C20_claim := by
  intro h
  exact absurd (h 360000).1 (by decide)

example : UTCOffset.encode (-18000) = c!"-0500" := by decide
example : UTCOffset.encode 3661 = c!"010101" := by decide
example : UTCOffset.encode 360000 = c!"0000" := by decide

/-- The least offset is not even written with digits only. -/
example : UTCOffset.encode (-(2 ^ 63)) = c!"-00F6H8" := UTCOffset.encode_least
example : UTCOffset.decode c!"-0000" = .err .invalidOffset := by decide
example : UTCOffset.decode c!"+1060" = .err .invalidOffset := by decide

/-! ## C25 Binary -/

/-- C25.  Decoding the base64 encoding of any octets gives those octets. -/
theorem C25_binary_round_trip (bs : Bytes) : Binary.decode c!"BASE64" (Binary.encode bs) = .ok bs := Binary.decode_encode bs

/-- C25.  Binary data is accepted only with ENCODING=BASE64. -/
theorem C25_only_with_encoding (enc s : Str) (bs : Bytes) (h : Binary.decode enc s = .ok bs) : enc = c!"BASE64" := by
  unfold Binary.decode at h
  split at h
  · cases h
  · next he => simpa using he

/-- C25.  The encoding is that of RFC 4648, with padding and without bits added that are not zero. -/
theorem C25_encoding_is_base64 (bs : Bytes) : Base64 0 (Binary.encode bs) bs := base64_encode _ bs (Nat.le_refl _)

/-- C25.  A text is accepted exactly if it is base 64 when line ends are left out (whatever bits are added at the end), and the octets are those it stands
for. -/
theorem C25_decoding_exact (s : Str) (bs : Bytes) :
    Binary.decode c!"BASE64" s = .ok bs ↔ ∃ pad, Base64 pad (s.filter fun c => c ≠ '\r' ∧ c ≠ '\n') bs := by
  rw [Binary.decode, if_neg (by simp), Res.ofOption_eq_ok, b64Decode, b64Groups_iff]
  simp only [ne_eq, decide_not, Bool.decide_and]

example : Binary.encode [77, 97, 110, 255] = c!"TWFu/w==" := by decide
example : Binary.decode c!"BASE64" c!"TWFu/w==" = .ok [77, 97, 110, 255] := by decide
example : Binary.decode c!"BASE64" c!"TWFu/w" = .err .ext := by decide
example : Binary.decode c!"8BIT" c!"TWFu" = .err .invalidEncoding := by decide

/-! ## C26 Integers and booleans -/

/-- C26.  Every integer that is written is read as the same integer. -/
theorem C26_integer_round_trip (i : Int) (h1 : -(2 ^ 31 : Int) ≤ i) (h2 : i < 2 ^ 31) :
    Integer.decode (Integer.encode i) = .ok i := Integer.decode_encode i h1 h2

/-- C26.  A string is accepted as an integer exactly if it is an optionally signed decimal number in the 32-bit range, and the result is that
number: nothing is wrapped. -/
theorem C26_integer_exact (s : Str) (i : Int) :
    Integer.decode s = .ok i ↔ IntLit s i ∧ -(2 ^ 31 : Int) ≤ i ∧ i < 2 ^ 31 := by
  rw [Integer.decode, Res.ofOption_eq_ok, parseInt_iff]
  simp

/-- C26.  Every boolean that is written is read as the same boolean. -/
theorem C26_boolean_round_trip (b : Bool) : Boolean.decode (Boolean.encode b) = .ok b := Boolean.decode_encode b

/-- C26.  The encoder writes the two RFC 5545 spellings, and they are decoded to what they say. -/
theorem C26_boolean_rfc (b : Bool) : (Boolean.encode b = c!"TRUE" ↔ b = true) ∧ (Boolean.encode b = c!"FALSE" ↔ b = false) := by
  cases b <;> decide

example : Integer.decode c!"2147483648" = .err .ext := by decide
example : Integer.decode c!"-2147483648" = .ok (-2147483648) := by decide
example : Boolean.decode c!"yes" = .err .invalidBoolean := by decide

end Ics.Props
