import Verif.FailingLemmas
import Verif.Props.Demand
import Verif.Props.Unbroken
import Verif.Props.MoreCases
/-!
# Theorems about Decode with a reader that fails: C113
-/

namespace Ics.Props

open Spec

/-! ## C113 A reader that fails -/

/-- C113.  An accepted text that goes on: the same calendar, or one of two errors; never another calendar, and no panic. -/
theorem C113_never_another (E : Env) (p t : Str) (c : Cal) (h : decodeDoc E p = .ok c) :
    decodeDoc E (p ++ t) = .ok c ∨ decodeDoc E (p ++ t) = .err .invalidEnd ∨ decodeDoc E (p ++ t) = .err .invalidContentLineValue := by
  rcases decodeDoc_goes_on h with h | h
  · exact Or.inl (h t)
  · rcases h t with h | h
    · exact Or.inl h.2
    · exact Or.inr h.2

/-- C113.  Exactly which texts that begin with an accepted one are accepted: all of them if they are settled by it, and otherwise those that go on with a line end. -/
theorem C113_goes_on (E : Env) (p : Str) (c : Cal) (h : decodeDoc E p = .ok c) : (∀ t, decodeDoc E (p ++ t) = .ok c) ∨
    ∀ t c', decodeDoc E (p ++ t) = .ok c' ↔ c' = c ∧ (t = [] ∨ crlf <+: t) := by
  rcases decodeDoc_goes_on h with h | h
  · exact Or.inl h
  · refine Or.inr fun t c' => ?_
    rcases h t with ⟨h1, h2⟩ | ⟨h1, h2 | h2⟩
    · rw [h2]
      exact ⟨fun e => by cases e; exact ⟨rfl, h1⟩, fun e => by rw [e.1]⟩
    · rw [h2]
      exact ⟨nofun, fun e => absurd e.2 h1⟩
    · rw [h2]
      exact ⟨nofun, fun e => absurd e.2 h1⟩

/-- C113.  A calendar is returned only if all of it has been read, but perhaps for the line end of its last line; and if that is missing, then only if the library takes an error of the reader for the end of the text. -/
theorem C113_returned (E : Env) (P : OnFail) (R : Reader) (fuel : Nat) (ks : List Nat) (c : Cal) (u : Unfolder) (h : decodeFailing E P R fuel ks {} [] = .done (.ok c, u)) :
    ∃ ks1 ks2 out e, ks = ks1 ++ ks2 ∧ readAll R fuel ks1 {} [] = .done (out, e, u) ∧ decodeDoc E (runes out) = .ok c ∧
      (∀ q, decodeDoc E (runes out ++ crlf ++ q) = .ok c) ∧
      ((∃ q, decodeDoc E (runes out ++ q) ≠ .ok c) → ∃ n, e = some n ∧ P n = none) := by
  obtain ⟨ks1, ks2, out, h1, h2⟩ := decodeFailing_done h
  rcases h2 with ⟨h2, h3⟩ | ⟨e, h2, h3⟩
  · have h0 : decodeDoc E (runes out) = .ok c := by have := h3 []; rwa [List.append_nil] at this
    refine ⟨ks1, ks2, out, none, h1, h2, h0, fun q => ?_, ?_⟩
    · exact decodeOpen_sound (C109_calendar E _ c h0) q
    · rintro ⟨q, hq⟩
      exact absurd (h3 q) hq
  · unfold decodeBroken at h3
    cases hd : decodeOpen E (runes out) with
    | some x =>
      rw [hd] at h3
      cases h3
      have h4 := decodeOpen_sound hd
      exact ⟨ks1, ks2, out, some e, h1, h2, by have := h4 []; rwa [List.append_nil] at this, fun q => by rw [List.append_assoc]; exact h4 _, fun ⟨q, hq⟩ => absurd (h4 q) hq⟩
    | none =>
      rw [hd] at h3
      cases hp : P e with
      | some y => rw [hp] at h3; cases h3
      | none =>
        rw [hp] at h3
        exact ⟨ks1, ks2, out, some e, h1, h2, h3.symm, fun q => decodeOpen_sound (C109_calendar E _ c h3.symm) q, fun _ => ⟨e, rfl, hp⟩⟩

/-- C113.  A failure behind text that decides the result is not noticed, whatever the library makes of failures. -/
theorem C113_unnoticed (E : Env) (P : OnFail) (R : Reader) (fuel : Nat) (ks : List Nat) (out : Bytes) (e : Nat) (u : Unfolder) (x : Res Cal)
    (h : readAll R fuel ks {} [] = .done (out, some e, u)) (hx : ∀ q, decodeDoc E (runes out ++ q) = x) : ∃ u', decodeFailing E P R fuel ks {} [] = .done (x, u') ∧ u'.hist <:+ u.hist := by
  obtain ⟨u', h1, h2⟩ := decodeFailing_readAll (E := E) (P := P) h
  refine ⟨u', ?_, h2⟩
  rw [h1]
  unfold decodeBroken
  rw [(C109_settled E _ _).2 hx]

/-- C113.  If the text does not decide the result, an error that the library returns is what `Decode` returns. -/
theorem C113_reported (E : Env) (P : OnFail) (R : Reader) (fuel : Nat) (ks : List Nat) (out : Bytes) (e : Nat) (u : Unfolder) (x : Err) (hp : P e = some x)
    (h : readAll R fuel ks {} [] = .done (out, some e, u)) (hx : ∃ q1 q2, decodeDoc E (runes out ++ q1) ≠ decodeDoc E (runes out ++ q2)) :
    ∃ u', decodeFailing E P R fuel ks {} [] = .done (.err x, u') := by
  obtain ⟨u', h1, _⟩ := decodeFailing_readAll (E := E) (P := P) h
  refine ⟨u', ?_⟩
  rw [h1]
  unfold decodeBroken
  rw [(C109_asks E _).2 hx, hp]

/-- C113.  If the library takes the error for the end of the text, the result is that of the text up to there. -/
theorem C113_as_end (E : Env) (P : OnFail) (R : Reader) (fuel : Nat) (ks : List Nat) (out : Bytes) (e : Nat) (u : Unfolder) (hp : P e = none)
    (h : readAll R fuel ks {} [] = .done (out, some e, u)) : ∃ u', decodeFailing E P R fuel ks {} [] = .done (decodeDoc E (runes out), u') := by
  obtain ⟨u', h1, _⟩ := decodeFailing_readAll (E := E) (P := P) h
  refine ⟨u', ?_⟩
  rw [h1]
  unfold decodeBroken
  cases hd : decodeOpen E (runes out) with
  | some x => have := decodeOpen_sound hd []; rw [List.append_nil] at this; rw [this]
  | none => rw [hp]

/-- C113.  What `Encode` has written breaks off, before the text of its last line is complete, in a connection that delivers it in pieces which do not cut fold markers: no calendar is returned, whatever the library
makes of the failure. -/
theorem C113_broken_off (E E' : Env) (P : OnFail) (c : Cal) (ht : c.typed = true) (hv : c.valid = .ok ()) (hu : Unbroken E c) (cut : Str → List Str)
    (hcut : ∀ s, (cut s).flatten = s) (o : EncOut) (ho : encode E okSink cut c = .done o) (R : Reader) (hR : WellCut R)
    (hd : ∀ h, delivered R h <+: o.f.out ∧ (delivered R h).length + 2 < o.f.out.length) (ks : List Nat) (fuel : Nat)
    (hf : ∀ k ∈ ks, k + 3 ≤ fuel) (c' : Cal) (u : Unfolder) : decodeFailing E' P R fuel ks {} [] ≠ .done (.ok c', u) := by
  intro h
  obtain ⟨ks1, ks2, out, e, h1, h2, h3, _⟩ := C113_returned E' P R fuel ks c' u h
  obtain ⟨out', e', u', g1, g2, _⟩ := C07_unfolding_partial R hR ks1 fuel (fun k hk => hf k (by rw [h1]; exact List.mem_append_left _ hk))
  rw [h2] at g1
  cases g1
  rw [g2] at h3
  exact any_cut_octets ht hv hu hcut ho (hd u.hist).1 (hd u.hist).2 h3

/-- A library that returns this error for every failure but the end of the file. -/
def reportsFail : OnFail := fun e => if e = 0 then none else some .invalidCalendar

/-- A connection that fails behind the sample, in front of its last line end, and in front of its last letter: only where the last line end is missing does it depend on the library what is returned. -/
theorem C113_cases :
    (∃ c, ∀ P ∈ [reportsFail, fun _ => none], ((decodeFailing sampleEnv P (piecesReader 7 [utf8 sampleDoc]) 5000 [4000, 4000] {} []).bind fun x => .done x.1) = .done (.ok c)) ∧
    (∃ c, decodeBroken sampleEnv (fun _ => none) (utf8 (sampleDoc.take (sampleDoc.length - 2))) 7 = .ok c ∧
      decodeBroken sampleEnv reportsFail (utf8 (sampleDoc.take (sampleDoc.length - 2))) 7 = .err .invalidCalendar ∧
      decodeBroken sampleEnv reportsFail (utf8 (sampleDoc.take (sampleDoc.length - 2))) 0 = .ok c) ∧
    (∀ P ∈ [reportsFail, fun _ => none], ∃ e, decodeBroken sampleEnv P (utf8 (sampleDoc.take (sampleDoc.length - 3))) 7 = .err e) ∧
    decodeDoc sampleEnv (sampleDoc.take (sampleDoc.length - 2) ++ c!"S\r\n") = .err .invalidEnd ∧
    decodeDoc sampleEnv (sampleDoc.take (sampleDoc.length - 2) ++ c!"\r") = .err .invalidContentLineValue := by
  have h1 : (match decodeDoc sampleEnv sampleDoc with | .ok _ => true | _ => false) = true := by decide +kernel
  have h2 : (match decodeBroken sampleEnv (fun _ => none) (utf8 (sampleDoc.take (sampleDoc.length - 2))) 7 with | .ok _ => true | _ => false) = true := by decide +kernel
  refine ⟨?_, ?_, ?_, by decide +kernel, by decide +kernel⟩
  · cases hd : decodeDoc sampleEnv sampleDoc with
    | ok c =>
      have hr : readAll (piecesReader 7 [utf8 sampleDoc]) 5000 [4000, 4000] {} [] = .done (utf8 sampleDoc, some 7, ⟨[], [1, 4000]⟩) := by decide +kernel
      have hs : ∀ q, decodeDoc sampleEnv (runes (utf8 sampleDoc) ++ q) = .ok c := by
        rw [← C109_settled, runes_utf8, ← hd]
        decide +kernel
      refine ⟨c, fun P _ => ?_⟩
      obtain ⟨u', h3, _⟩ := C113_unnoticed sampleEnv P _ _ _ _ _ _ _ hr hs
      rw [h3]
      rfl
    | err e => rw [hd] at h1; cases h1
    | panic => rw [hd] at h1; cases h1
  · cases hd : decodeBroken sampleEnv (fun _ => none) (utf8 (sampleDoc.take (sampleDoc.length - 2))) 7 with
    | ok c =>
      refine ⟨c, rfl, by decide +kernel, ?_⟩
      rw [← hd]
      decide +kernel
    | err e => rw [hd] at h2; cases h2
    | panic => rw [hd] at h2; cases h2
  · intro P hP
    simp only [List.mem_cons, List.not_mem_nil, or_false] at hP
    rcases hP with rfl | rfl
    · exact ⟨.invalidCalendar, by decide +kernel⟩
    · exact ⟨.invalidEnd, by decide +kernel⟩

/-- The sample breaks off behind its first 20 octets. -/
example := C113_broken_off sampleEnv sampleEnv reportsFail sampleCal sampleCal_typed sampleCal_valid sampleCal_unbroken (fun s => [s]) (by simp) _ sampleCal_encoded
  (listReader [utf8 (sampleDoc.take 20)]) beginPiece_wellCut
  (fun h =>
    have h1 : utf8 (sampleDoc.take 20) <+: (({} : Folder).writes okSink ([sampleDoc].map utf8)).out := by decide +kernel
    have h2 : (utf8 (sampleDoc.take 20)).length + 2 < (({} : Folder).writes okSink ([sampleDoc].map utf8)).out.length := by decide +kernel
    have h3 := (beginPiece_delivered h).length_le
    ⟨(beginPiece_delivered h).trans h1, Nat.lt_of_le_of_lt (Nat.add_le_add_right h3 2) h2⟩) [16, 30] 40 (by decide)

end Ics.Props
