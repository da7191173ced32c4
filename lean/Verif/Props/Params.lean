import Verif.ParamLemmas
import Verif.Tables
import Verif.Props.Time
/-!
# C29 RFC 6868, C31 parameters
-/

namespace Ics.Props

open Spec

/-! ## C29 -/

/-- The full claim: the encoder returns for every string and the decoder restores it, and the decoder is that of RFC 6868. -/
def C29_claim : Prop := (∀ s : Str, ∃ e, encode6868 s = some e ∧ decode6868 e = s) ∧ ∀ s : Str, decode6868 s = rfcDec6868 s

/-- C29.  The encoder returns exactly for the strings without newline, caret and quote, writes them unchanged (which is their RFC
6868 encoding), and the decoder restores them. -/
theorem C29_round_trip_partial (s e : Str) :
    encode6868 s = some e ↔ (∀ c ∈ s, c ≠ '\n' ∧ c ≠ '^' ∧ c ≠ '"') ∧ e = rfcEnc6868 s ∧ e = s ∧ decode6868 e = s := by
  have key : (∀ c ∈ s, c ≠ '\n' ∧ c ≠ '^' ∧ c ≠ '"') → (∀ c ∈ s, isEsc6868 c = false) ∧ rfcEnc6868 s = s ∧ decode6868 s = s := by
    intro h
    refine ⟨?_, ?_, decode6868_plain s (fun hm => (h _ hm).2.1 rfl)⟩
    · intro c hc
      cases he : isEsc6868 c
      · rfl
      · obtain ⟨h1, h2, h3⟩ := h c hc
        rcases (isEsc6868_iff c).1 he with r | r | r
        · exact absurd r h1
        · exact absurd r h2
        · exact absurd r h3
    · clear e
      induction s with
      | nil => rfl
      | cons c s ih =>
        obtain ⟨h1, h2, h3⟩ := h c List.mem_cons_self
        show escape6868 c ++ rfcEnc6868 s = _
        rw [ih (fun x hx => h x (List.mem_cons_of_mem _ hx))]
        simp [escape6868, h1, h2, h3]
  constructor
  · intro h
    have hp : ∀ c ∈ s, c ≠ '\n' ∧ c ≠ '^' ∧ c ≠ '"' := by
      intro c hc
      refine ⟨?_, ?_, ?_⟩
      all_goals
        rintro rfl
        rw [encode6868_esc s ⟨_, hc, by decide⟩] at h
        cases h
    obtain ⟨k1, k2, k3⟩ := key hp
    rw [encode6868_plain s k1] at h
    injection h with h
    subst h
    exact ⟨hp, k2.symm, rfl, k3⟩
  · rintro ⟨hp, _, rfl, _⟩
    exact encode6868_plain _ (key hp).1

example : encode6868 c!"O'Neil; Ann" = some c!"O'Neil; Ann" := by decide

/-- C29, C30.  On a string with a newline, caret or quote the encoder's loop never ends: after any number of rounds it is still
running, and its output has grown by at least that many characters. -/
theorem C29_encoder_diverges (s : Str) (c : Char) (hc : c ∈ s) (h : c = '\n' ∨ c = '^' ∨ c = '"') (n : Nat) :
    ∃ rest out, (Enc6868.run s []).rounds n = .run rest out ∧ n ≤ out.length := by
  obtain ⟨r, o, h1, h2⟩ := enc6868_diverges n s [] ⟨c, hc, (isEsc6868_iff c).2 h⟩
  exact ⟨r, o, h1, by simpa using h2⟩

example : ∃ rest out, (Enc6868.run c!"say \"hi\"" []).rounds 1000000 = .run rest out ∧ 1000000 ≤ out.length :=
  C29_encoder_diverges _ '"' (by decide) (by decide) _

/-- C29, C30.  What the loop has in memory after any number of rounds: the text in front of the first such character, and the escape of that character again and again, two
characters more in each round; it never gets past it. -/
theorem C29_encoder_rounds (a r : Str) (c : Char) (ha : ∀ x ∈ a, ¬ (x = '\n' ∨ x = '^' ∨ x = '"')) (e : Str) (he : (c, e) ∈ [('\n', c!"^n"), ('^', c!"^^"), ('"', c!"^'")]) (n : Nat) :
    (Enc6868.run (a ++ c :: r) []).rounds (n + 1) = .run (c :: r) (a ++ (List.replicate (n + 1) e).flatten) := by
  have hc : isEsc6868 c = true := by
    simp only [List.mem_cons, List.not_mem_nil, or_false, Prod.mk.injEq] at he
    rcases he with ⟨rfl, _⟩ | ⟨rfl, _⟩ | ⟨rfl, _⟩ <;> decide
  have hrun : ∀ (a d : Str), (∀ x ∈ a, isEsc6868 x = false) → (Enc6868.run (a ++ c :: r) d).step = .run (c :: r) (d ++ a ++ e) := by
    intro a d ha
    have h1 : (a ++ c :: r).takeWhile (fun c => !isEsc6868 c) = a := by
      rw [List.takeWhile_append_of_pos (fun x hx => by simp [ha x hx]), List.takeWhile_cons_of_neg (by simp [hc]), List.append_nil]
    have h2 : (a ++ c :: r).dropWhile (fun c => !isEsc6868 c) = c :: r := by
      rw [List.dropWhile_append_of_pos (fun x hx => by simp [ha x hx]), List.dropWhile_cons_of_neg (by simp [hc])]
    unfold Enc6868.step
    simp only [h1, h2]
    simp only [List.mem_cons, List.not_mem_nil, or_false, Prod.mk.injEq] at he
    rcases he with ⟨rfl, rfl⟩ | ⟨rfl, rfl⟩ | ⟨rfl, rfl⟩ <;> rfl
  have hloop : ∀ (n : Nat) (d : Str), (Enc6868.run (c :: r) d).rounds n = .run (c :: r) (d ++ (List.replicate n e).flatten) := by
    intro n
    induction n with
    | zero => intro d; simp [Enc6868.rounds]
    | succ n ih =>
      intro d
      have := hrun [] d (by simp)
      rw [Enc6868.rounds, show c :: r = [] ++ c :: r from rfl, this, ih]
      simp [List.replicate_succ]
  have ha' : ∀ x ∈ a, isEsc6868 x = false := fun x hx => by
    cases h : isEsc6868 x with
    | false => rfl
    | true => exact absurd ((isEsc6868_iff x).1 h) (ha x hx)
  rw [Enc6868.rounds, hrun a [] ha', hloop]
  simp [List.replicate_succ]

example : (Enc6868.run c!"a^b" []).rounds 3 = .run c!"^b" c!"a^^^^^^" := C29_encoder_rounds ['a'] ['b'] '^' (by decide) c!"^^" (by decide) 2

/-- C29.  The decoder is that of RFC 6868 exactly on the strings where no caret is followed by a character. -/
theorem C29_decoding_exact_partial (s : Str) : decode6868 s = rfcDec6868 s ↔ ∀ a c b, s ≠ a ++ '^' :: c :: b := by
  rcases caret_cases s with h | ⟨a, ha, rfl⟩ | ⟨a, c, r, ha, rfl⟩
  · have := rfcDec_plain s [] h
    rw [List.append_nil] at this
    rw [decode6868_plain s h, this]
    simp only [rfcDec6868, List.append_nil, true_iff]
    rintro a c b rfl
    exact h (by simp)
  · rw [decode6868_last a ha, rfcDec_plain a _ ha]
    simp only [rfcDec6868, true_iff]
    intro x c b e
    have hm : '^' ∈ a := by
      have h2 := congrArg List.dropLast e
      rw [List.dropLast_concat] at h2
      rw [h2, List.dropLast_append_of_ne_nil (by simp)]
      simp
    exact ha hm
  · constructor
    · intro h
      have := decode6868_longer a ha c r
      rw [h] at this
      omega
    · intro h
      exact absurd rfl (h a c r)

/-- C29.  Escape sequences are decoded, but also kept. -/
theorem C29_escapes_kept (a : Str) (ha : '^' ∉ a) (r : Str) :
    decode6868 (a ++ '^' :: 'n' :: r) = a ++ '\n' :: '^' :: 'n' :: decode6868 r ∧
    decode6868 (a ++ '^' :: '\'' :: r) = a ++ '"' :: '^' :: '\'' :: decode6868 r ∧
    decode6868 (a ++ '^' :: '^' :: r) = a ++ '^' :: '^' :: '^' :: decode6868 r := by
  refine ⟨?_, ?_, ?_⟩ <;> rw [decode6868_esc a ha] <;> simp

example : decode6868 c!"a^nb" = c!"a\n^nb" ∧ rfcDec6868 c!"a^nb" = c!"a\nb" := by decide

/-- C29.  The claim as stated in full is false: a counterexample. -/
theorem C29_full_claim_is_false : ¬ C29_claim := by
  intro h
  obtain ⟨e, h1, _⟩ := h.1 c!"^"
  rw [show encode6868 c!"^" = none by decide] at h1
  cases h1

/-! ## C31 -/

/-- All parameters of the tables. -/
def allParams : List PDef :=
  [paramAlternativeRepresentation, paramLanguage, paramCommonName, paramDirectoryEntry, paramSentBy, paramRange, paramFormatType,
   paramCalendarUserType, paramMember, paramParticipationRole, paramParticipationStatus, paramRSVP, paramDelagatee, paramDelegator,
   paramRelationshipType, paramFreeBusyType, paramURI, paramID, paramAgentID]

/-- `enc` stands for one parameter `name` with the values `toks`: in every content line the tokeniser finds just that. -/
def ReadsAs (enc name : Str) (toks : List PVal) : Prop :=
  ∀ nm value rest : Str, nm ≠ [] → (∀ c ∈ nm, IanaChar c) → (∀ c ∈ value, NoCtl c) →
    tokenise (nm ++ enc ++ ':' :: value ++ crlf ++ rest) =
      ⟨⟨nm, [(name, toks)], value⟩ :: (tokenise rest).lines, (tokenise rest).term⟩

/-- The full claim. -/
def C31_claim : Prop :=
  ∀ (E : Env) (d : PDef) (v : ParamVal), d ∈ allParams → d.kind.typed v = true → d.kind.valid v = .ok () →
    ∃ enc toks, d.kind.encode E d.name v = some enc ∧ ReadsAs enc d.name toks ∧ d.kind.decode E toks = .ok v

theorem allParams_wf : ∀ d ∈ allParams, d.kind.wf = true ∧ (∀ c ∈ d.name, isIana c = true) := by decide

theorem fmtMatch_append (x : Str) : ∀ r, fmtMatch r = true → fmtMatch (x ++ r) = true := by
  induction x with
  | nil => intro r h; exact h
  | cons c x ih =>
    intro r h
    have h2 := ih r h
    rw [List.cons_append]
    unfold fmtMatch
    split
    · next e => injection e with e1 e2; rw [← e2, h2, Bool.or_true]
    · next e => injection e with e1 e2; rw [← e2, h2]
    · next e => cases e

theorem isFmtChar_iff (c : Char) : isFmtChar c = true ↔ FormatChar c := by
  unfold isFmtChar FormatChar
  simp only [Bool.or_eq_true, Bool.and_eq_true, decide_eq_true_eq, beq_iff_eq, char_le_iff, or_assoc]
  have e : ∀ d : Char, c = d ↔ c.toNat = d.toNat := fun d => ⟨fun h => by rw [h], char_toNat_inj⟩
  rw [e '!', e '#', e '$', e '&', e '_']
  exact Iff.rfl

theorem fmtMatch_of {s : Str} (h : FormatType s) : fmtMatch s = true := by
  obtain ⟨x, a, b, y, rfl, h1, h2⟩ := h
  apply fmtMatch_append
  simp only [fmtMatch, (isFmtChar_iff a).2 h1, (isFmtChar_iff b).2 h2, Bool.and_self, Bool.true_or]

theorem plain_chars {s : Str} (h : PlainText s) : ∀ c ∈ s, ParamChar c := by
  intro c hc
  obtain ⟨h1, h2, h3⟩ := h c hc
  exact ⟨h1, fun e => h2 (by subst e; rfl), fun e => h3 (by subst e; rfl)⟩

theorem goodParam_ok {E : Env} {k : PKind} {v : ParamVal} (h : GoodParam k v) : ParamOk E k v ∧ vanishes E k v = false := by
  cases h with
  | str q s h1 h2 => exact ⟨⟨plain_chars h2, fun _ => trivial⟩, by simp [vanishes, h1]⟩
  | fmt s h1 h2 =>
    refine ⟨⟨plain_chars h1, fun _ => fmtMatch_of h2⟩, ?_⟩
    obtain ⟨x, a, b, y, rfl, _⟩ := h2
    simp [vanishes]
  | names l n h1 => exact ⟨⟨trivial, fun _ => h1⟩, rfl⟩
  | strs l h1 h2 => exact ⟨⟨fun s hs => plain_chars (h2 s hs), fun _ => trivial⟩, by simp [vanishes, h1]⟩
  | range => exact ⟨⟨trivial, fun _ => trivial⟩, rfl⟩
  | bool => exact ⟨⟨trivial, fun _ => trivial⟩, rfl⟩

theorem readsAs_of {name : Str} {toks : List PVal} (hn : ∀ c ∈ name, isIana c = true) (h1 : toks ≠ [])
    (h2 : ∀ t ∈ toks, ParamValOk t) : ReadsAs (';' :: name ++ '=' :: printVals toks) name toks := by
  intro nm value rest hnm hc hv
  rw [← tokenise_print ⟨nm, [(name, toks)], value⟩ ⟨hnm, hc, ?_, ?_, ?_, hv⟩ rest]
  · congr 1
    simp [printLine, printBare, printParams, crlf]
  · intro p hp c hcp
    simp only [List.mem_singleton] at hp
    subst hp
    exact (isIana_iff c).1 (hn c hcp)
  · intro p hp
    simp only [List.mem_singleton] at hp
    subst hp
    exact h1
  · intro p hp
    simp only [List.mem_singleton] at hp
    subst hp
    exact h2

/-- C31.  Good parameter values of every parameter are written, read and decoded back.  Missing from the full claim: URIs, empty texts
and lists, RSVP=FALSE, unnamed enumeration values, and texts with quotes, carets or newlines, for which it is false (below). -/
theorem C31_round_trip_partial (E : Env) (d : PDef) (v : ParamVal) (hd : d ∈ allParams) (h : GoodParam d.kind v) :
    ∃ enc toks, d.kind.encode E d.name v = some enc ∧ ReadsAs enc d.name toks ∧ d.kind.decode E toks = .ok v := by
  obtain ⟨hw, hn⟩ := allParams_wf d hd
  obtain ⟨h1, h2⟩ := goodParam_ok (E := E) h
  obtain ⟨e1, e2, e3⟩ := PKind.encode_safe E d.name d.kind v hw h1.1
  rw [h2] at e1
  exact ⟨_, ptokens E d.kind v, e1, readsAs_of hn (e2 h2) e3, PKind.decode_tokens E d.kind v hw h1 h2⟩

example : GoodParam paramCommonName.kind (.str c!"Smith, John") :=
  .str false _ (by decide) (by intro c hc; unfold NoCtl; revert c; decide)

example : paramCommonName.kind.encode sampleEnv paramCommonName.name (.str c!"Smith, John") = some c!";CN=\"Smith, John\"" := by decide

example : GoodParam paramMember.kind (.strs [c!"mailto:a@b", []]) :=
  .strs _ (by decide) (by intro s hs c hc; unfold NoCtl; revert c; revert s; decide)

example : FormatType c!"text/plain" := ⟨c!"tex", 't', 'p', c!"lain", rfl, by unfold FormatChar; decide, by unfold FormatChar; decide⟩

/-- C31.  A URI parameter (ALTREP, URI, DELEGATED-TO, DELEGATED-FROM) whose text has no character that needs quotes is written without
quotes, read back as written, and then rejected because it has no quotes. -/
theorem C31_uris_rejected (E : Env) (d : PDef) (hd : d ∈ allParams) (u : Url) (hu : E.urlString u ≠ [])
    (hc : ∀ c ∈ E.urlString u, NoCtl c ∧ c ≠ '"' ∧ c ≠ ';' ∧ c ≠ ':' ∧ c ≠ ',') (v : ParamVal)
    (h : (d.kind = .url ∧ v = .url u) ∨ (d.kind = .urls ∧ v = .urls [u])) :
    ∃ enc toks, d.kind.valid v = .ok () ∧ d.kind.encode E d.name v = some enc ∧ ReadsAs enc d.name toks ∧
      d.kind.decode E toks = .err .invalidParam := by
  obtain ⟨hw, hn⟩ := allParams_wf d hd
  rcases h with ⟨hk, rfl⟩ | ⟨hk, rfl⟩
  · rw [hk]
    obtain ⟨e1, e2, e3⟩ := PKind.encode_safe E d.name .url (.url u) rfl hc
    rw [if_neg (by simp [vanishes, hu])] at e1
    exact ⟨_, _, rfl, e1, readsAs_of hn (e2 (by simp [vanishes, hu])) e3, rfl⟩
  · rw [hk]
    obtain ⟨e1, e2, e3⟩ := PKind.encode_safe E d.name .urls (.urls [u]) rfl (by
      intro x hx; simp only [List.mem_singleton] at hx; subst hx; exact hc)
    rw [if_neg (by simp [vanishes])] at e1
    exact ⟨_, _, rfl, e1, readsAs_of hn (e2 (by simp [vanishes])) e3, rfl⟩

/-- C31.  No unquoted value of a URI parameter is ever decoded. -/
theorem C31_unquoted_uri_rejected (E : Env) (s : Str) (vs : List PVal) :
    PKind.decode E .url [⟨false, s⟩] = .err .invalidParam ∧ PKind.decode E .urls (⟨false, s⟩ :: vs) = .err .invalidParam :=
  ⟨rfl, rfl⟩

/-- C31.  With a colon in the URI the rest of the line is misread as the value. -/
theorem C31_uri_splits_line :
    (paramAlternativeRepresentation.kind.encode sampleEnv paramAlternativeRepresentation.name (.url ⟨c!"http://x"⟩)).map
      (fun e => (tokenise (c!"SUMMARY" ++ e ++ c!":Lunch" ++ crlf)).lines) =
      some [⟨c!"SUMMARY", [(c!"ALTREP", [⟨false, c!"http"⟩])], c!"//x:Lunch"⟩] := by decide

/-- C31.  Empty texts and lists and RSVP=FALSE are not written. -/
theorem C31_empty_vanishes (E : Env) (name : Str) (q : Bool) :
    PKind.encode E name (.str q) (.str []) = some [] ∧ PKind.encode E name .strs (.strs []) = some [] ∧
    PKind.encode E name .urls (.urls []) = some [] ∧ PKind.encode E name .bool (.bool false) = some [] :=
  ⟨rfl, rfl, rfl, rfl⟩

/-- C31.  Every enumeration value beyond the names passes validation and comes back as the unknown value. -/
theorem C31_unnamed_values_collapse (E : Env) (d : PDef) (names : List Str) (hk : d.kind = .enum names) (n : Nat)
    (hn : names.length < n) :
    d.kind.valid (.enum n) = .ok () ∧ d.kind.encode E d.name (.enum n) = d.kind.encode E d.name (.enum 0) := by
  rw [hk]
  refine ⟨rfl, ?_⟩
  simp only [PKind.encode]
  rw [if_neg (by omega), List.getD_eq_getElem?_getD, List.getElem?_eq_none (by omega)]
  simp

/-- C31.  The claim as stated in full is false: a counterexample. -/
theorem C31_full_claim_is_false : ¬ C31_claim := by
  intro h
  obtain ⟨enc, toks, h1, _, _⟩ := h sampleEnv paramCommonName (.str c!"\"") (by decide) rfl (by decide)
  rw [show paramCommonName.kind.encode sampleEnv paramCommonName.name (.str c!"\"") = none by decide] at h1
  cases h1

end Ics.Props
