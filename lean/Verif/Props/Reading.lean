import Verif.ReadingLemmas
/-!
# Theorems about reading documents larger than the buffer, and about folds made by others: C63, C64

`fullReader doc fin` is a reader like `bytes.Reader` or a file: it delivers as many octets as are asked for; `decodeReader E R fuel ks` is `Decode` whose parser
reads with buffers of the sizes `ks`.
-/

namespace Ics.Props

open Spec

/-! ## C63 documents and buffers of any size -/

/-- A calendar of C44: it has good parameters and values and keeps the rules between its properties. -/
structure GoodCalendar (E : Env) (c : Cal) : Prop where
  typed : c.typed = true
  valid : c.valid = .ok ()
  rules : CalRules c
  params : ∀ x ∈ calProps c, ∀ y ∈ propParams x.1.spec x.2, GoodParam y.1.kind y.2
  vals : ∀ x ∈ calProps c, ∀ v ∈ propVals x.2, GoodVal E v

/-- The full claim: what `Encode` writes for such a calendar is decoded to that calendar from a file or from memory, whatever the size of the parser's buffer. -/
def C63_claim : Prop := ∀ (E : Env) (c : Cal), GoodCalendar E c → ∀ (cut : Str → List Str), (∀ s, (cut s).flatten = s) →
  ∃ o c', encode E okSink cut c = .done o ∧ o.err = none ∧ SameCal c' (Cal.dropField c!"LAST-MOD" c) ∧
    ∀ fin k, 0 < k → ∃ fuel n, decodeReader E (fullReader o.f.out fin) fuel (List.replicate n k) = .done (.ok c')

/-- What `Encode` writes, and what it means. -/
theorem written {E : Env} {c : Cal} (h : GoodCalendar E c) {cut : Str → List Str} (hcut : ∀ s, (cut s).flatten = s) :
    ∃ o c' s, encode E okSink cut c = .done o ∧ o.err = none ∧ SameCal c' (Cal.dropField c!"LAST-MOD" c) ∧ o.f.out = utf8 (foldStr 0 s) ∧
      removeFolds o.f.out = utf8 s ∧ ¬ badEnd o.f.out ∧ o.f.out ≠ [] ∧ decodeDoc E s = .ok c' ∧ encodeDoc E c = some s := by
  obtain ⟨s, c', e1, e2, e3⟩ := C44_round_trip_partial E c h.typed h.valid h.rules h.params h.vals
  have hb := good_build h.typed h.valid h.params h.vals
  obtain ⟨l1, l2⟩ := encodeDoc_lines E c (GoodCal.safe (hb.imp fun _ _ h => PropOk.safe h.1))
  have hs : s = (calLines E c).flatMap printLine := by rw [l1] at e1; cases e1; rfl
  obtain ⟨k, hk⟩ := writes_ok (cut s) {} rfl
  have hout : (({} : Folder).writes okSink ((cut s).map utf8)).out = utf8 (foldStr 0 s) := by
    rw [hk, hcut]
    simp
  obtain ⟨a, ha⟩ := calLines_end E c
  have he : (cut s).flatten = a ++ ['R', '\r', '\n'] := by rw [hcut, hs]; exact ha
  have hn : ¬ ['\r', '\n', ' '] <:+: (cut s).flatten := by rw [hcut, hs]; exact noFold_lines _ l2
  obtain ⟨t, h1, h2⟩ := C02_fold_never_splits_characters (cut s)
  have hr : removeFolds (({} : Folder).writes okSink ((cut s).map utf8)).out = utf8 s := by
    rw [h1, removeFolds_utf8 _ _ (Nat.le_refl _), removeFoldsC_FoldOf h2 hn, hcut]
  obtain ⟨b, hb'⟩ := FoldOf.tail h2 a 'R' he
  have hend : (({} : Folder).writes okSink ((cut s).map utf8)).out = utf8 b ++ [82, 13, 10] := by
    rw [h1, hb', utf8_append]
    rfl
  refine ⟨⟨none, ({} : Folder).writes okSink ((cut s).map utf8)⟩, c', s, ?_, rfl, e3, hout, hr, ?_, ?_, e2, e1⟩
  · unfold encode
    rw [h.valid, e1]
    simp [hk]
  · show ¬ badEnd (({} : Folder).writes okSink ((cut s).map utf8)).out
    rw [hend]
    exact not_badEnd _ _ (by decide)
  · show (({} : Folder).writes okSink ((cut s).map utf8)).out ≠ []
    rw [hend]
    simp

/-- C63 for a document that fits the buffer. -/
theorem C63_fits_partial (E : Env) (c : Cal) (h : GoodCalendar E c) (cut : Str → List Str) (hcut : ∀ s, (cut s).flatten = s) :
    ∃ o c', encode E okSink cut c = .done o ∧ o.err = none ∧ SameCal c' (Cal.dropField c!"LAST-MOD" c) ∧
      ∀ fin k, o.f.out.length ≤ k → ∀ fuel, k + 4 ≤ fuel → decodeReader E (fullReader o.f.out fin) fuel [k, k] = .done (.ok c') := by
  obtain ⟨o, c', s, h1, h2, h3, _, h5, h6, h7, h8, _⟩ := written h hcut
  refine ⟨o, c', h1, h2, h3, fun fin k hk fuel hf => ?_⟩
  obtain ⟨u, hu⟩ := fullReader_single o.f.out fin k (fun _ => h6) h7 hk fuel hf
  unfold decodeReader
  rw [hu, h5]
  show Run.done (decodeDoc E (runes (utf8 s))) = _
  rw [runes_utf8, h8]

/-- C63 for a document in which no line had to be folded: buffers of any sizes, from two octets up. -/
theorem C63_unfolded_partial (E : Env) (c : Cal) (h : GoodCalendar E c) (cut : Str → List Str) (hcut : ∀ s, (cut s).flatten = s) :
    ∃ o c', encode E okSink cut c = .done o ∧ o.err = none ∧ SameCal c' (Cal.dropField c!"LAST-MOD" c) ∧
      (¬ hasFold o.f.out → ∀ fin ks, (∀ k ∈ ks, 2 ≤ k) → o.f.out.length < ks.length → ∀ fuel, 4 ≤ fuel →
        decodeReader E (fullReader o.f.out fin) fuel ks = .done (.ok c')) := by
  obtain ⟨o, c', s, h1, h2, h3, _, h5, h6, h7, h8, _⟩ := written h hcut
  refine ⟨o, c', h1, h2, h3, fun hn fin ks hks hl fuel hf => ?_⟩
  obtain ⟨out, e, u, g1, g2, g3, g4, g5, g6⟩ :=
    readAll_noFold (fullReader_ok o.f.out fin) (fullReader_noFolds fin hn) (fullReader_lazy o.f.out fin) fuel hf ks {} [] hks (by simp) rfl
  rw [fullReader_delivered] at g2
  have hlen : out.length ≤ o.f.out.length := by
    have := congrArg List.length g2
    simp at this
    omega
  have he : e ≠ none := by
    intro he
    have := g6 (fullReader_eager _ _) he
    simp at this
    omega
  have hout : out = o.f.out := by
    rw [g3 he, List.append_nil] at g2
    rw [← g2]
    apply List.take_of_length_le
    have h5' := g5 he
    cases hh : u.hist with
    | nil => rw [hh] at h5'; exact absurd h5'.symm he
    | cons j t =>
      rw [hh, fullReader] at h5'
      split at h5'
      · simp; omega
      · exact absurd h5'.symm he
  unfold decodeReader
  rw [g1]
  show Run.done (decodeDoc E (runes out)) = _
  have h9 := removeFolds_of_none (w := o.f.out) ((findFold_none_iff _).2 hn)
  rw [hout, ← h9, h5, runes_utf8, h8]

/-- C63 fails by hanging: for every buffer size from 109 octets up there is a calendar that `Encode` writes, and that `Decode` reading it from a file or from memory
with buffers of that size never finishes: the first piece read has a fold, and ends in a line's final space and its end. -/
theorem C63_hangs (E : Env) (k : Nat) (hk : 109 ≤ k) (cut : Str → List Str) (hcut : ∀ s, (cut s).flatten = s) :
    ∃ c o, GoodCalendar E c ∧ encode E okSink cut c = .done o ∧ o.err = none ∧
      ∀ fin ks fuel, decodeReader E (fullReader o.f.out fin) fuel (k :: ks) = .running := by
  have e : ∀ t : Str, (∀ c ∈ t, c = 'a' ∨ c = 'b' ∨ c = ' ') → Text.encode t = t := by
    intro t ht
    induction t with
    | nil => rfl
    | cons c t ih =>
      have h1 := ih (fun x hx => ht x (by simp [hx]))
      have h2 : escapeC c = [c] := by rcases ht c (by simp) with rfl | rfl | rfl <;> decide
      unfold Text.encode at h1 ⊢
      rw [List.flatMap_cons, h1, h2]
      rfl
  obtain ⟨v, n, hv, hp⟩ := pad_piece k hk
  have hg : GoodCalendar E (twoCal (List.replicate v 'b') (List.replicate n 'a' ++ [' '])) := by
    refine ⟨two_typed _ _, two_valid _ _ ?_ ?_, two_rules _ _, (two_good E _ _).1, (two_good E _ _).2⟩
    · simp [Text.valid, Res.guard, containsAny, isCtl31]
    · simp [Text.valid, Res.guard, containsAny, isCtl31]
  obtain ⟨o, c', s, h1, h2, h3, h4, _, _, _, _, h9⟩ := written hg hcut
  refine ⟨_, o, hg, h1, h2, fun fin ks fuel => ?_⟩
  rw [encodeDoc_two] at h9
  have hs : s = padFront v n ++ c!"END:VCALENDAR\r\n" := by
    cases h9
    rw [e _ (by simp), e _ (by simp; intro c hc; rcases hc with ⟨_, rfl⟩ | rfl <;> simp)]
    simp [padFront]
  obtain ⟨r, p1, p2, p3, p4⟩ := hp c!"END:VCALENDAR\r\n"
  have hR : (fullReader o.f.out fin [k]).1 = utf8 (foldStr 0 (padFront v n)) := by
    rw [h4, hs, p1, fullReader, if_neg]
    · simp [← p2]
    · simp only [List.sum_nil, List.length_append]
      omega
  unfold decodeReader
  rw [readAll, C08_read_can_hang _ k (by omega) (by rw [hR]; exact p3) (by rw [hR]; exact p4)]
  rfl

/-- A calendar whose PRODID has 80 letters. -/
def longCal : Cal := twoCal c!"2.0" (List.replicate 80 'a')

theorem longCal_good (E : Env) : GoodCalendar E longCal := by
  refine ⟨two_typed _ _, two_valid _ _ (by decide) (by decide), two_rules _ _, (two_good E _ _).1, (two_good E _ _).2⟩

/-- C63 fails by changing the text: with a buffer of 107 octets, which ends between the CR LF and the SPACE of the fold, a space is found in the PRODID that is not
there. -/
theorem C63_corrupts : ∃ o, encode sampleEnv okSink (fun s => [s]) longCal = .done o ∧ o.err = none ∧
    decodeReader sampleEnv (fullReader o.f.out 0) 200 [107, 107] = .done (.ok (twoCal c!"2.0" (List.replicate 68 'a' ++ ' ' :: List.replicate 12 'a'))) := by
  refine ⟨_, rfl, ?_, ?_⟩ <;> decide +kernel

/-- With a larger buffer the text comes back. -/
example : ∃ o, encode sampleEnv okSink (fun s => [s]) longCal = .done o ∧
    decodeReader sampleEnv (fullReader o.f.out 0) 300 [200, 200] = .done (.ok longCal) := by
  refine ⟨_, rfl, ?_⟩; decide +kernel

/-- C63.  The claim as stated in full is false: a counterexample. -/
theorem C63_full_claim_is_false : ¬ C63_claim := by
  intro h
  obtain ⟨c, o, h1, h2, h3, h4⟩ := C63_hangs sampleEnv 4096 (by decide) (fun s => [s]) (by simp)
  obtain ⟨o', c', g1, _, _, g2⟩ := h sampleEnv c h1 (fun s => [s]) (by simp)
  rw [h2] at g1
  cases g1
  obtain ⟨fuel, n, e⟩ := g2 0 4096 (by decide)
  cases n with
  | zero => cases e
  | succ n => rw [List.replicate_succ, h4] at e; cases e

/-! The sample calendar has folds, this one has none. -/

theorem sampleCal_goodCalendar : GoodCalendar sampleEnv sampleCal :=
  ⟨sampleCal_typed, sampleCal_valid, sampleCal_rules, sampleCal_params, sampleCal_good⟩

example : ∃ o, encode sampleEnv okSink (fun s => [s]) (twoCal c!"2.0" c!"-//x") = .done o ∧ ¬ hasFold o.f.out ∧ o.f.out.length = 58 := by
  refine ⟨_, rfl, ?_, ?_⟩
  · rw [← findFold_none_iff]; decide +kernel
  · decide +kernel

example : GoodCalendar sampleEnv (twoCal c!"2.0" c!"-//x") :=
  ⟨two_typed _ _, two_valid _ _ (by decide) (by decide), two_rules _ _, (two_good sampleEnv _ _).1, (two_good sampleEnv _ _).2⟩

/-! ## C64 folds made by others -/

/-- The full claim: a document that is accepted is accepted, with the same calendar, when its lines are folded in any of the ways of RFC 5545 section 3.1. -/
def C64_claim : Prop := ∀ (E : Env) (s t : Bytes) (c : Cal), ¬ hasFold s → Folded White s t → decodeDoc E (runes s) = .ok c →
  ∀ fin k, t.length ≤ k → ∃ N, ∀ fuel, N ≤ fuel → decodeReader E (fullReader t fin) fuel [k, k] = .done (.ok c)

/-- C64 for folds with a SPACE, anywhere, also inside of a character, one behind the other and next to the line ends; the document is read at once and does not end in
CR LF SPACE, SPACE CR LF or LF SPACE CR.  Whatever `Decode` makes of the document, it makes of the folded document. -/
theorem C64_space_partial (E : Env) (s t : Bytes) (hs : ¬ hasFold s) (h : Folded Space s t) (hb : ¬ badEnd t) (hne : t ≠ []) (fin k : Nat) (hk : t.length ≤ k)
    (fuel : Nat) (hf : k + 4 ≤ fuel) : decodeReader E (fullReader t fin) fuel [k, k] = .done (decodeDoc E (runes s)) := by
  obtain ⟨u, hu⟩ := fullReader_single t fin k (fun _ => hb) hne hk fuel hf
  unfold decodeReader
  rw [hu, removeFolds_Folded h hs]
  rfl

/-- C64 for folds with a SPACE, read in pieces of any size that end outside of fold markers and line ends, with buffers of any size. -/
theorem C64_space_pieces_partial (E : Env) (s t : Bytes) (hs : ¬ hasFold s) (h : Folded Space s t) (R : Reader) (hR : WellCut R) (ks : List Nat) (fuel : Nat)
    (hf : ∀ k ∈ ks, k + 3 ≤ fuel) :
    ∃ out e u, readAll R fuel ks {} [] = .done (out, e, u) ∧ (delivered R u.hist = t → decodeReader E R fuel ks = .done (decodeDoc E (runes s))) := by
  obtain ⟨out, e, u, h1, h2, _⟩ := C07_unfolding_partial R hR ks fuel hf
  refine ⟨out, e, u, h1, fun hd => ?_⟩
  unfold decodeReader
  rw [h1, h2, hd, removeFolds_Folded h hs]
  rfl

/-- C64 fails for folds with a HTAB: wherever inside of the calendar CR LF HTAB stands, the document is rejected; if such a document is accepted, then the calendar
was complete before.  (This is about the document that `Decode`'s unfolding hands on; it removes CR LF SPACE only.) -/
theorem C64_tab (E : Env) (pre post : Str) (c : Cal) (h : decodeDoc E (pre ++ '\r' :: '\n' :: '\t' :: post) = .ok c) :
    decodeDoc E (pre ++ crlf) = .ok c := by
  obtain ⟨b, k, e, r, h1, h2, h3, h4, h5, h6⟩ := decodeStream_local h
  have h1' : (tokenise (pre ++ '\r' :: '\n' :: '\t' :: post)).lines = (b :: k ++ [e]) ++ r := by rw [h1]; simp
  obtain ⟨h7, h8⟩ := tokenise_front h1'
  have h9 : ∀ q, decodeDoc E ((b :: k ++ [e]).flatMap printLine ++ q) = .ok c := fun q => by
    unfold decodeDoc
    rw [tokenise_prints _ h7 q]
    have := h6 (tokenise q).term (tokenise q).lines
    simpa using this
  have hno := noTab_lines _ h7
  generalize hP : (b :: k ++ [e]).flatMap printLine = P at *
  have key : P <+: pre ++ crlf := by
    rcases h8 with ⟨q, hq⟩ | hq
    · have h10 : P <+: (pre ++ crlf) ++ '\t' :: post := ⟨q, by rw [← hq]; simp [crlf]⟩
      by_cases hl : P.length ≤ (pre ++ crlf).length
      · exact List.prefix_of_prefix_length_le h10 (List.prefix_append _ _) hl
      · have h11 : pre ++ '\r' :: '\n' :: '\t' :: [] <+: P := by
          refine List.prefix_of_prefix_length_le ⟨post, ?_⟩ h10 ?_
          · simp [crlf]
          · simp [crlf] at hl ⊢
            exact hl
        obtain ⟨z, hz⟩ := h11
        exact absurd ⟨pre, z, by rw [← hz]⟩ hno
    · exact absurd ⟨pre, post ++ crlf, by rw [← hq]; simp⟩ hno
  obtain ⟨q, hq⟩ := key
  rw [← hq]
  exact h9 q

/-- A calendar whose PRODID line is folded with a HTAB. -/
def tabbed : Bytes := utf8 c!"BEGIN:VCALENDAR\r\nVERSION:2.0\r\nPRODID:-/\r\n\t/x\r\nEND:VCALENDAR\r\n"

/-- The same without fold. -/
def untabbed : Bytes := utf8 c!"BEGIN:VCALENDAR\r\nVERSION:2.0\r\nPRODID:-//x\r\nEND:VCALENDAR\r\n"

theorem folded_refl {ws : UInt8 → Prop} : ∀ s : Bytes, Folded ws s s
  | [] => .nil
  | b :: s => .keep b (folded_refl s)

theorem folded_app {ws : UInt8 → Prop} {s t : Bytes} (h : Folded ws s t) : ∀ p : Bytes, Folded ws (p ++ s) (p ++ t)
  | [] => h
  | b :: p => .keep b (folded_app h p)

theorem tabbed_folded : Folded White untabbed tabbed := by
  have : Folded White (utf8 c!"/x\r\nEND:VCALENDAR\r\n") (13 :: 10 :: 9 :: utf8 c!"/x\r\nEND:VCALENDAR\r\n") := .fold (Or.inr rfl) (folded_refl _)
  exact folded_app this (utf8 c!"BEGIN:VCALENDAR\r\nVERSION:2.0\r\nPRODID:-/")

/-- C64.  The claim as stated in full is false: a counterexample. -/
theorem C64_full_claim_is_false : ¬ C64_claim := by
  intro h
  obtain ⟨N, hf⟩ := h sampleEnv untabbed tabbed (twoCal c!"2.0" c!"-//x") (by rw [← findFold_none_iff]; decide +kernel) tabbed_folded (by decide +kernel) 0 100
    (by decide +kernel)
  have hn : findFold tabbed = none := by decide +kernel
  obtain ⟨u, hu⟩ := fullReader_single tabbed 0 100 (fun hb => absurd hb ((findFold_none_iff _).1 hn)) (by decide) (by decide +kernel) (N + 104) (by omega)
  have := hf (N + 104) (by omega)
  unfold decodeReader at this
  rw [hu, removeFolds_of_none hn] at this
  have h2 : decodeDoc sampleEnv (runes tabbed) ≠ .ok (twoCal c!"2.0" c!"-//x") := by decide +kernel
  exact h2 (Run.done.inj this)

/-- The same folded with a SPACE is read. -/
example : decodeReader sampleEnv (fullReader (utf8 c!"BEGIN:VCALENDAR\r\nVERSION:2.0\r\nPRODID:-/\r\n /x\r\nEND:VCA\r\n LENDAR\r\n") 0) 200 [100, 100] =
    .done (.ok (twoCal c!"2.0" c!"-//x")) := by decide +kernel

end Ics.Props
