import Verif.DemandLemmas
import Verif.Props.Waiting
import Verif.Props.Decode
import Verif.RawLemmas
/-!
# Theorems about Decode while the input is still coming in: C109, C110
-/

namespace Ics.Props

open Spec

/-! ## C109 As soon as it can, and not before -/

/-- C109.  What `Decode` returns when a part of the text has arrived is what it returns whatever comes next. -/
theorem C109_settled (E : Env) (s : Str) (x : Res Cal) : decodeOpen E s = some x ↔ ∀ q, decodeDoc E (s ++ q) = x := by
  constructor
  · exact fun h q => decodeOpen_sound h q
  · intro h
    cases hd : decodeOpen E s with
    | none =>
      obtain ⟨q1, q2, hq⟩ := decodeOpen_asks hd
      exact absurd ((h q1).trans (h q2).symm) hq
    | some y =>
      have := decodeOpen_sound hd []
      rw [h] at this
      rw [this]

/-- C109.  It asks for more exactly if there are two ways to go on for which it has to return different things. -/
theorem C109_asks (E : Env) (s : Str) : decodeOpen E s = none ↔ ∃ q1 q2, decodeDoc E (s ++ q1) ≠ decodeDoc E (s ++ q2) := by
  constructor
  · exact decodeOpen_asks
  · rintro ⟨q1, q2, hq⟩
    cases hd : decodeOpen E s with
    | none => rfl
    | some y => exact absurd ((decodeOpen_sound hd q1).trans (decodeOpen_sound hd q2).symm) hq

/-- C109.  More input does not change a result. -/
theorem C109_stays (E : Env) (s q : Str) (x : Res Cal) (h : decodeOpen E s = some x) : decodeOpen E (s ++ q) = some x := by
  rw [C109_settled] at h ⊢
  intro q'
  rw [List.append_assoc]
  exact h _

/-- C109.  A calendar is returned when the line end of its last line has arrived. -/
theorem C109_calendar (E : Env) (s : Str) (c : Cal) (h : decodeDoc E s = .ok c) : decodeOpen E (s ++ crlf) = some (.ok c) := by
  rw [C109_settled]
  intro q
  obtain ⟨b, k, e, _, _, _, _, h5, h6⟩ := C14_rest_ignored E s c h
  rcases h5 with ⟨q', h5⟩ | h5
  · rw [h5, List.append_assoc, List.append_assoc]
    exact h6 _
  · rw [h5]
    exact h6 q

/-- C109.  `Decode` reads one buffer at a time from the unfolding reader; if reading everything comes to an end, so does this, with the same result, and the caller's reader is
called no more often. -/
theorem C109_same (E : Env) (R : Reader) (fuel : Nat) (ks : List Nat) (out : Bytes) (e : Nat) (u : Unfolder) (h : readAll R fuel ks {} [] = .done (out, some e, u)) :
    decodeReader E R fuel ks = .done (decodeDoc E (runes out)) ∧
      ∃ u', decodeDemand E R fuel ks {} [] = .done (decodeDoc E (runes out), u') ∧ u'.hist <:+ u.hist := by
  refine ⟨?_, decodeDemand_readAll h⟩
  unfold decodeReader
  rw [h]
  rfl

/-- C109.  When it returns it has read some buffers `ks1`.  Unless the input has come to its end, what follows does not matter; and each time it read a buffer, what it had read before did not
decide the result, or ended in the middle of a character. -/
theorem C109_returns (E : Env) (R : Reader) (fuel : Nat) (ks : List Nat) (x : Res Cal) (u : Unfolder) (h : decodeDemand E R fuel ks {} [] = .done (x, u)) :
    ∃ ks1 ks2 out e, ks = ks1 ++ ks2 ∧ readAll R fuel ks1 {} [] = .done (out, e, u) ∧ decodeDoc E (runes out) = x ∧ (e = none → ∀ q, decodeDoc E (runes (out ++ q)) = x) ∧
      ∀ ks0 k r out0 u0, ks1 = ks0 ++ k :: r → readAll R fuel ks0 {} [] = .done (out0, none, u0) → Unsettled E out0 ∨ CutShort out0 :=
  decodeDemand_done h

/-- A calendar is returned with the LF behind END:VCALENDAR, and not with the CR. -/
example : decodeOpen sampleEnv sampleDoc = some (decodeDoc sampleEnv sampleDoc) ∧ decodeOpen sampleEnv (sampleDoc.take (sampleDoc.length - 1)) = none ∧
    decodeOpen sampleEnv (sampleDoc.take (sampleDoc.length - 2)) = none ∧ decodeDoc sampleEnv sampleDoc ≠ .panic := by
  decide +kernel

/-- Errors are returned when the line is complete, or with the character that cannot be there. -/
example : decodeOpen sampleEnv c!"BEGIN:VEVENT\r\n" = some (.err .invalidCalendar) ∧ decodeOpen sampleEnv c!"BEGIN:VEVENT\r" = none ∧
    decodeOpen sampleEnv c!"BEGIN:VCALENDAR\r\nVERSION " = some (.err .invalidContentLineName) ∧ decodeOpen sampleEnv c!"BEGIN:VCALENDAR\r\nVERSION" = none ∧
    decodeOpen sampleEnv c!"BEGIN:VCALENDAR\r\nA;B=\"" = none ∧ decodeOpen sampleEnv c!"BEGIN:VCALENDAR\r\nA;B=\"c\"\"" = some (.err .invalidContentLineParamValue) := by
  decide +kernel

/-- Three octets at a time, and only as many as are needed: it returns with the fifth buffer, and 11 octets are left in the connection. -/
example : decodeDemand sampleEnv (connection [utf8 c!"BEGIN:VEVENT\r\nEND:VEVENT\r\n"]) 9 (List.replicate 20 3) {} [] = .done (.err .invalidCalendar, ⟨[], [3, 3, 3, 3, 3]⟩) := by
  decide +kernel

/-- Where only a character is not complete: the result is settled, but it reads on. -/
example : (∀ q, decodeDoc sampleEnv (runes (0xC3 :: q)) = .err .invalidContentLine) ∧ decodeOpen sampleEnv (runesOpen [0xC3]) = none ∧ CutShort [0xC3] := by
  refine ⟨fun q => ?_, by decide +kernel, [], [0xC3], 'é', [0xA9], rfl, nofun, nofun, by decide +kernel⟩
  have key : ∀ (ch : Char) (s : Str), ¬ ch.toNat < 128 → decodeDoc sampleEnv (ch :: s) = .err .invalidContentLine := by
    intro ch s hc
    have hi : isIana ch = false := by
      cases hi : isIana ch with
      | false => rfl
      | true => have := (isIana_iff ch).1 hi; unfold IanaChar at this; omega
    unfold decodeDoc
    rw [tokenise_fails (e := .invalidContentLine)]
    · rfl
    · unfold parseLine
      dsimp only
      rw [List.takeWhile_cons, List.dropWhile_cons, hi]
      rfl
  rcases decodeRune_step 0xC3 q with ⟨h1, _⟩ | ⟨ch, h1, rest, h2⟩
  · rw [runes_bad h1]
    exact key _ _ (by decide)
  · rw [h2, runes_good]
    refine key _ _ fun hc => ?_
    unfold encodeChar at h2
    dsimp only at h2
    rw [if_pos hc] at h2
    have := congrArg UInt8.toNat (List.cons.inj h2).1
    rw [byte_toNat (by omega)] at this
    simp at this
    omega

/-! ## C110 Two calendars on one connection -/

/-- C110, the full claim: two calendars that come one after the other on a connection are returned by two calls of `Decode`. -/
def C110_claim : Prop := ∀ (E : Env) (d1 d2 : Bytes) (c1 c2 : Cal), (∀ q, decodeDoc E (runes (d1 ++ q)) = .ok c1) → (∀ q, decodeDoc E (runes (d2 ++ q)) = .ok c2) → ¬ hasFold d1 → ¬ hasFold d2 →
  EndsInCRLF d1 → EndsInCRLF d2 → ∀ k, d1.length ≤ k → d2.length ≤ k → ∀ fuel, 4 ≤ fuel →
    ∃ u, decodeDemand E (connection [d1, d2]) fuel [k] {} [] = .done (.ok c1, u) ∧
      ∃ u', decodeDemand E (afterCalls (connection [d1, d2]) u.hist) fuel [k] {} [] = .done (.ok c2, u')

/-- What `Decode` says when the first character of a calendar is missing. -/
theorem beheaded {E : Env} {a : Char} {s : Str} {c : Cal} (h : decodeDoc E (a :: s) = .ok c) : IanaChar a ∧ decodeDoc E s = .err .invalidCalendar := by
  unfold decodeDoc at h ⊢
  cases hp : parseLine (a :: s) with
  | done =>
    unfold tokenise at h
    rw [streamF, hp] at h
    cases h
  | error e => rw [tokenise_fails hp] at h; cases h
  | line l r =>
    obtain ⟨hl, hs⟩ := parseLine_inv hp
    rw [tokenise_line hp] at h
    unfold decodeStream at h
    dsimp only at h
    split at h
    · next hb =>
      cases hn : l.name with
      | nil => exact absurd hn hl.name_ne
      | cons x n =>
        have hn2 : upper n = c!"EGIN" := by
          have := hb.1
          rw [hn] at this
          exact (List.cons.inj this).2
        have hne : n ≠ [] := by rintro rfl; cases hn2
        have hl' : LineOk { l with name := n } := { hl with name_ne := hne, name := fun c hc => hl.name c (by rw [hn]; exact List.mem_cons_of_mem _ hc) }
        have hax : a = x := by
          rcases hs with hs | ⟨hs, _⟩
          · rw [printLine, printBare, hn] at hs
            exact (List.cons.inj hs).1
          · rw [printBare, hn] at hs
            exact (List.cons.inj hs).1
        have hp' : parseLine s = .line { l with name := n } r := by
          rcases hs with hs | ⟨hs, hr⟩
          · rw [printLine, printBare, hn] at hs
            rw [(List.cons.inj hs).2]
            have := parseLine_print_aux { l with name := n } hl' (['\r', '\n'] ++ r) r (parseValue_print l.value r hl.value)
            simpa [printBare] using this
          · rw [printBare, hn] at hs
            rw [(List.cons.inj hs).2, hr]
            have := parseLine_print_aux { l with name := n } hl' [] [] (by rw [List.append_nil]; exact parseValue_print_end l.value hl.value)
            simpa [printBare] using this
        refine ⟨?_, ?_⟩
        · rw [hax]
          exact hl.name x (by rw [hn]; exact List.mem_cons_self)
        · rw [tokenise_line hp']
          unfold decodeStream
          dsimp only
          rw [if_neg]
          intro h
          rw [hn2] at h
          exact absurd h.1 (by decide)
    · cases h

/-- What `Decode` says when the first octet of a calendar is missing. -/
theorem beheaded_octets {E : Env} {b : UInt8} {r : Bytes} {c : Cal} (h : decodeDoc E (runes (b :: r)) = .ok c) : b ≠ 32 ∧ decodeDoc E (runes r) = .err .invalidCalendar := by
  have hb : b.toNat < 128 := by
    rcases decodeRune_step b r with ⟨h1, _⟩ | ⟨ch, h1, rest, h2⟩
    · rw [runes_bad h1] at h
      exact absurd (beheaded h).1 (by unfold IanaChar; decide)
    · have h' := h
      rw [h2, runes_good] at h'
      have hc := (beheaded h').1
      have hc2 : ch.toNat < 128 := by unfold IanaChar at hc; omega
      unfold encodeChar at h2
      dsimp only at h2
      rw [if_pos hc2] at h2
      rw [(List.cons.inj h2).1, byte_toNat (by omega)]
      exact hc2
  rw [runes_ascii hb] at h
  obtain ⟨h1, h2⟩ := beheaded h
  refine ⟨?_, h2⟩
  rintro rfl
  revert h1
  unfold IanaChar
  decide

/-- Text that ends in CR LF does not end in the middle of a character. -/
theorem not_cutShort {b : Bytes} (h : EndsInCRLF b) : ¬ CutShort b := by
  rintro ⟨a, p, c, t, rfl, hp, ht, hc⟩
  obtain ⟨x, hx⟩ : ∃ x, p = p.dropLast ++ [x] := ⟨_, (List.dropLast_concat_getLast hp).symm⟩
  have h10 : x = 10 := by
    have := h.2.2
    rw [hx, ← List.append_assoc, List.length_append, List.length_singleton, Nat.add_sub_cancel, List.getElem?_append_right (by omega), Nat.sub_self] at this
    simpa using this
  have hm : x ∈ encodeChar c := by rw [hc, hx]; simp
  have hv := char_range c
  unfold encodeChar at hc hm
  dsimp only at hc hm
  split at hm
  · next h1 =>
    rw [if_pos h1] at hc
    have := congrArg List.length hc
    have h3 := List.length_pos_iff.2 hp
    have h4 := List.length_pos_iff.2 ht
    simp at this
    omega
  · have key : ∀ n, 128 ≤ n → n < 256 → x ≠ byte n := by
      intro n h1 h2 h3
      rw [h10] at h3
      have := congrArg UInt8.toNat h3
      rw [byte_toNat h2] at this
      simp at this
      omega
    split at hm
    · simp only [List.mem_cons, List.not_mem_nil, or_false] at hm
      rcases hm with hm | hm <;> exact key _ (by omega) (by omega) hm
    split at hm
    · simp only [List.mem_cons, List.not_mem_nil, or_false] at hm
      rcases hm with hm | hm | hm <;> exact key _ (by omega) (by omega) hm
    · simp only [List.mem_cons, List.not_mem_nil, or_false] at hm
      rcases hm with hm | hm | hm | hm <;> exact key _ (by omega) (by omega) hm

/-- With one buffer that settles the result, it returns. -/
theorem one_buffer {E : Env} {R : Reader} {fuel k : Nat} {out : Bytes} {e : Option Nat} {u : Unfolder} {x : Res Cal} (h : readAll R fuel [k] {} [] = .done (out, e, u))
    (hx : ∀ q, decodeDoc E (runes (out ++ q)) = x) (hc : ¬ CutShort out) : decodeDemand E R fuel [k] {} [] = .done (x, u) := by
  rw [decodeDemand_none (show decodeOpen E (runesOpen []) = none from rfl)]
  rw [readAll] at h
  obtain ⟨r, h1, h2⟩ := Run.bind_eq_done h
  rw [h1, Run.bind_done]
  have hd : ∃ y, decodeOpen E (runesOpen out) = some y := by
    cases hd : decodeOpen E (runesOpen out) with
    | some y => exact ⟨y, rfl⟩
    | none =>
      rcases decodeOpen_open hd with ⟨q1, q2, hq⟩ | hq
      · exact absurd ((hx q1).trans (hx q2).symm) hq
      · exact absurd hq hc
  obtain ⟨y, hd⟩ := hd
  have hy : y = x := by rw [← decodeOpen_octets hd [], hx]
  subst hy
  by_cases he : r.err.isSome = true
  · rw [if_pos he] at h2 ⊢
    simp only [Run.done.injEq, Prod.mk.injEq] at h2
    rw [h2.1, h2.2.2, ← hx [], List.append_nil]
  · rw [if_neg he, readAll] at h2
    simp only [Run.done.injEq, Prod.mk.injEq] at h2
    rw [if_neg he, h2.1, h2.2.2, decodeDemand_some hd]

theorem crlf_not_cr {b : Bytes} (h : EndsInCRLF b) : ¬ EndsInCR b := by
  intro h2
  have := h.2.2.symm.trans h2.2
  cases this

theorem endsInCRLF_tail {b : UInt8} {r : Bytes} (h : EndsInCRLF (b :: r)) (hb : b ≠ 13) : EndsInCRLF r := by
  obtain ⟨h1, h2, h3⟩ := h
  match r with
  | [] => simp at h1
  | [x] => simp at h2; exact absurd h2 hb
  | x :: y :: r =>
    refine ⟨by simp, ?_, ?_⟩
    · rw [show (b :: x :: y :: r).length - 2 = ((x :: y :: r).length - 2) + 1 by simp, List.getElem?_cons_succ] at h2
      exact h2
    · rw [show (b :: x :: y :: r).length - 1 = ((x :: y :: r).length - 1) + 1 by simp, List.getElem?_cons_succ] at h3
      exact h3

/-- C110.  The first calendar is returned, and the reader has been asked for one octet more: the first one of the second calendar.  It is kept for the unfolding reader of the first call, and the
second call does not get it; so it says that this is not a calendar, for all calendars. -/
theorem C110_second_fails (E : Env) (d1 d2 : Bytes) (c1 c2 : Cal) (h1 : ∀ q, decodeDoc E (runes (d1 ++ q)) = .ok c1) (h2 : ∀ q, decodeDoc E (runes (d2 ++ q)) = .ok c2) (f1 : ¬ hasFold d1) (f2 : ¬ hasFold d2)
    (e1 : EndsInCRLF d1) (e2 : EndsInCRLF d2) (k : Nat) (l1 : d1.length ≤ k) (l2 : d2.length ≤ k) (fuel : Nat) (hf : 4 ≤ fuel) :
    decodeDemand E (connection [d1, d2]) fuel [k] {} [] = .done (.ok c1, ⟨d2.take 1, [1, k]⟩) ∧
      ∃ u, decodeDemand E (afterCalls (connection [d1, d2]) [1, k]) fuel [k] {} [] = .done (.err .invalidCalendar, u) := by
  match d2 with
  | [] => exact absurd e2.1 (by simp)
  | [b] => exact absurd e2.1 (by simp)
  | b :: b' :: r' =>
    generalize hr : b' :: r' = r at *
    have hrl : 1 ≤ r.length := by rw [← hr]; simp
    have h2' := h2 []
    rw [List.append_nil] at h2'
    obtain ⟨hb, ht⟩ := beheaded_octets h2'
    have hb13 : b ≠ 13 := by
      rintro rfl
      rw [runes_ascii (by decide)] at h2'
      have := (beheaded h2').1
      revert this
      unfold IanaChar
      decide
    have hR1 : connection [d1, b :: r] [k] = (d1, none) := by
      simp [connection, piecesReader, piecesState, piecesStep, l1]
    have hR2 : connection [d1, b :: r] [1, k] = ([b], none) := by
      have : ¬ r = [] := by rintro rfl; simp at hrl
      simp [connection, piecesReader, piecesState, piecesStep, l1, this]
    have hR3 : connection [d1, b :: r] [k, 1, k] = (r, none) := by
      have : ¬ r = [] := by rintro rfl; simp at hrl
      have l3 : r.length ≤ k := by simp at l2; omega
      simp [connection, piecesReader, piecesState, piecesStep, l1, this, l3]
    have hR4 : connection [d1, b :: r] [1, k, 1, k] = ([], some 0) := by
      have : ¬ r = [] := by rintro rfl; simp at hrl
      have l3 : r.length ≤ k := by simp at l2; omega
      simp [connection, piecesReader, piecesState, piecesStep, l1, this, l3]
    have hk : 0 < k := by have := e1.1; omega
    refine ⟨?_, ?_⟩
    · have := readAll_one_more hk hR1 f1 (crlf_not_cr e1) e1 (by rw [hR2]; simpa using hb) hf
      rw [hR2] at this
      exact one_buffer this h1 (not_cutShort e1)
    · have := readAll_one_more (R := afterCalls (connection [d1, b :: r]) [1, k]) hk (doc := r) hR3 (fun h => f2 (h.trans (List.suffix_cons b r).isInfix))
        (crlf_not_cr (endsInCRLF_tail e2 hb13)) (endsInCRLF_tail e2 hb13) (by show (connection [d1, b :: r] [1, k, 1, k]).1 ≠ _; rw [hR4]; nofun) hf
      have h4 : (afterCalls (connection [d1, b :: r]) [1, k] [1, k]).2 = some 0 := by show (connection [d1, b :: r] [1, k, 1, k]).2 = _; rw [hR4]
      rw [h4] at this
      obtain ⟨u, g, _⟩ := decodeDemand_readAll (E := E) this
      exact ⟨u, by rw [g, ht]⟩

/-- C110.  If the connection delivers an octet other than SPACE between them, on its own, both are returned. -/
theorem C110_octet_between_partial (E : Env) (d1 d2 : Bytes) (x : UInt8) (c1 c2 : Cal) (hx : x ≠ 32) (h1 : ∀ q, decodeDoc E (runes (d1 ++ q)) = .ok c1) (h2 : ∀ q, decodeDoc E (runes (d2 ++ q)) = .ok c2)
    (f1 : ¬ hasFold d1) (f2 : ¬ hasFold d2) (e1 : EndsInCRLF d1) (e2 : EndsInCRLF d2) (k : Nat) (l1 : d1.length ≤ k) (l2 : d2.length ≤ k) (fuel : Nat) (hf : 4 ≤ fuel) :
    decodeDemand E (connection [d1, [x], d2]) fuel [k] {} [] = .done (.ok c1, ⟨[x], [1, k]⟩) ∧
      ∃ u, decodeDemand E (afterCalls (connection [d1, [x], d2]) [1, k]) fuel [k] {} [] = .done (.ok c2, u) := by
  have hR1 : connection [d1, [x], d2] [k] = (d1, none) := by
    simp [connection, piecesReader, piecesState, piecesStep, l1]
  have hR2 : connection [d1, [x], d2] [1, k] = ([x], none) := by
    simp [connection, piecesReader, piecesState, piecesStep, l1]
  have hR3 : connection [d1, [x], d2] [k, 1, k] = (d2, none) := by
    simp [connection, piecesReader, piecesState, piecesStep, l1, l2]
  have hR4 : connection [d1, [x], d2] [1, k, 1, k] = ([], some 0) := by
    simp [connection, piecesReader, piecesState, piecesStep, l1, l2]
  have hk : 0 < k := by have := e1.1; omega
  refine ⟨?_, ?_⟩
  · have := readAll_one_more hk hR1 f1 (crlf_not_cr e1) e1 (by rw [hR2]; simpa using hx) hf
    rw [hR2] at this
    exact one_buffer this h1 (not_cutShort e1)
  · have := readAll_one_more (R := afterCalls (connection [d1, [x], d2]) [1, k]) hk (doc := d2) hR3 f2 (crlf_not_cr e2) e2
      (by show (connection [d1, [x], d2] [1, k, 1, k]).1 ≠ _; rw [hR4]; nofun) hf
    exact ⟨_, one_buffer this h2 (not_cutShort e2)⟩

/-- Two calendars that meet the hypotheses. -/
def firstOnLine : Bytes := utf8 c!"BEGIN:VCALENDAR\r\nVERSION:2.0\r\nPRODID:a\r\nEND:VCALENDAR\r\n"
def secondOnLine : Bytes := utf8 c!"BEGIN:VCALENDAR\r\nVERSION:2.0\r\nPRODID:b\r\nEND:VCALENDAR\r\n"

theorem onLine_meets : (∀ q, decodeDoc sampleEnv (runes (firstOnLine ++ q)) = .ok (twoCal c!"2.0" c!"a")) ∧ (∀ q, decodeDoc sampleEnv (runes (secondOnLine ++ q)) = .ok (twoCal c!"2.0" c!"b")) ∧
    ¬ hasFold firstOnLine ∧ ¬ hasFold secondOnLine ∧ EndsInCRLF firstOnLine ∧ EndsInCRLF secondOnLine := by
  refine ⟨fun q => decodeOpen_octets (by decide +kernel) q, fun q => decodeOpen_octets (by decide +kernel) q, (findFold_none_iff _).1 (by decide +kernel), (findFold_none_iff _).1 (by decide +kernel), ?_, ?_⟩ <;>
  · unfold EndsInCRLF
    decide +kernel

/-- C110.  The claim as stated in full is false: a counterexample. -/
theorem C110_full_claim_is_false : ¬ C110_claim := by
  intro h
  obtain ⟨h1, h2, f1, f2, e1, e2⟩ := onLine_meets
  obtain ⟨u, g1, u', g2⟩ := h sampleEnv _ _ _ _ h1 h2 f1 f2 e1 e2 100 (by decide +kernel) (by decide +kernel) 4 (by decide)
  obtain ⟨k1, u2, k2⟩ := C110_second_fails sampleEnv _ _ _ _ h1 h2 f1 f2 e1 e2 100 (by decide +kernel) (by decide +kernel) 4 (by decide)
  rw [k1] at g1
  cases g1
  rw [k2] at g2
  cases g2

end Ics.Props
