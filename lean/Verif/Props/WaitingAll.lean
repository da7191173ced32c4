import Verif.WaitingAll
import Verif.Props.Unbroken
import Verif.Props.Demand
import Verif.RawUtf8
/-!
# C69 for calendars that come in any pieces
-/

namespace Ics.Props

open Spec

/-- Behind any part of what was written, but all of it, there may be something that makes it no calendar. -/
theorem part_open {E : Env} (E' : Env) {c : Cal} (ht : c.typed = true) (hv : c.valid = .ok ()) (hu : Unbroken E c) {s p : Str} (hs : encodeDoc E c = some s) (hp : p <+: s) (hne : p ≠ s) :
    ∃ q, ∀ c', decodeDoc E' (p ++ q) ≠ .ok c' := by
  by_cases hlen : p.length + 2 < s.length
  · exact ⟨[], fun c' => by rw [List.append_nil]; exact C15_any_part_partial E E' c c' ht hv hu s p hs hp hlen⟩
  · obtain ⟨e1, _, _⟩ := written_lines ht hv hs
    obtain ⟨a, ha, _⟩ := calLines_ends E c
    have hT : s = a.flatMap printLine ++ c!"END:VCALENDAR" ++ ['\r', '\n'] := by
      rw [e1, ha, List.flatMap_append]
      simp [printLine, printBare, plainLine, printParams, kEND]
    generalize a.flatMap printLine = T at hT
    -- the line goes on
    have hd : ∃ q, p ++ q = T ++ c!"END:VCALENDAR" ++ ['\r', 'X'] := by
      obtain ⟨t, ht⟩ := hp
      have hl := congrArg List.length ht
      rw [List.length_append] at hl
      match t, hl with
      | [], _ => exact absurd (by simpa using ht) hne
      | [x], _ =>
        rw [hT] at ht
        have h2 : p ++ [x] = (T ++ c!"END:VCALENDAR" ++ ['\r']) ++ ['\n'] := by rw [ht]; simp
        have h3 := (List.append_inj' h2 rfl).1
        exact ⟨['X'], by rw [h3]; simp⟩
      | [x, y], _ =>
        rw [hT] at ht
        have h3 := (List.append_inj' ht rfl).1
        exact ⟨['\r', 'X'], by rw [h3]⟩
      | _ :: _ :: _ :: _, hl => simp only [List.length_cons] at hl; omega
    obtain ⟨q, hq⟩ := hd
    refine ⟨q, fun c' hok => ?_⟩
    rw [hq] at hok
    obtain ⟨b, k, e, _, _, _, he, h5, h6⟩ := C14_rest_ignored E' _ c' hok
    have hend : ∃ z, (b :: k ++ [e]).flatMap printLine = z ++ ['R', '\r', '\n'] := by
      refine ⟨(b :: k).flatMap printLine ++ (e.name ++ printParams e.params ++ ':' :: c!"VCALENDA"), ?_⟩
      rw [List.flatMap_append]
      simp [printLine, printBare, he]
    obtain ⟨z, hz⟩ := hend
    rw [hz] at h5 h6
    rcases h5 with ⟨q', h5⟩ | h5
    · -- the lines end before the last one begins
      have hpre : z ++ ['R', '\r', '\n'] <+: T := by
        rcases List.append_eq_append_iff.1 ((List.append_assoc _ _ _).symm.trans h5 : T ++ (c!"END:VCALENDAR" ++ ['\r', 'X']) = _) with ⟨x, h7, h8⟩ | ⟨x, h7, _⟩
        · rcases x.eq_nil_or_concat with rfl | ⟨x', y, rfl⟩
          · rw [List.append_nil] at h7
            exact ⟨[], by rw [h7, List.append_nil]⟩
          · exfalso
            rw [List.concat_eq_append] at h7 h8
            have h9 := congrArg List.getLast? h7
            have e9 : z ++ ['R', '\r', '\n'] = (z ++ ['R', '\r']) ++ ['\n'] := by simp
            rw [e9, List.getLast?_concat, ← List.append_assoc, List.getLast?_concat] at h9
            injection h9 with h9
            have hm : y ∈ c!"END:VCALENDAR" ++ ['\r', 'X'] := by rw [h8]; simp
            rw [← h9] at hm
            revert hm
            decide
        · exact ⟨x, h7.symm⟩
      have h10 := h6 []
      rw [List.append_nil] at h10
      have hlt := hpre.length_le
      refine C15_any_part_partial E E' c c' ht hv hu s _ hs (hpre.trans ⟨c!"END:VCALENDAR" ++ ['\r', '\n'], by rw [hT, List.append_assoc]⟩) ?_ h10
      rw [hT]
      simp only [List.length_append, List.length_cons, List.length_nil] at hlt ⊢
      omega
    · -- the last line does not end in X
      have e1 : T ++ c!"END:VCALENDAR" ++ ['\r', 'X'] ++ crlf = (T ++ c!"END:VCALENDAR" ++ ['\r']) ++ ['X', '\r', '\n'] := by simp [crlf]
      rw [e1] at h5
      have := (List.append_inj' h5 rfl).2
      revert this
      decide

/-- The same in octets. -/
theorem part_open_octets {E : Env} (E' : Env) {c : Cal} (ht : c.typed = true) (hv : c.valid = .ok ()) (hu : Unbroken E c) {s : Str} (hs : encodeDoc E c = some s) {p : Bytes} (hp : p <+: utf8 s) (hne : p ≠ utf8 s) :
    ∃ q, ∀ c', decodeDoc E' (runes (p ++ q)) ≠ .ok c' := by
  obtain ⟨e1, _, _⟩ := written_lines ht hv hs
  obtain ⟨a, ha⟩ := calLines_end E c
  have hT : s = a ++ ['R', '\r', '\n'] := by rw [e1, ha]
  have hu8 : utf8 s = utf8 a ++ [82, 13, 10] := by rw [hT, utf8_append]; rfl
  by_cases hlen : p.length + 2 < (utf8 s).length
  · -- no more than the part of the characters that are there
    refine ⟨[], fun c' h => ?_⟩
    rw [List.append_nil] at h
    have hw := unbroken_lines ht hv hs hu
    have hnf : findFold p = none := (findFold_none_iff _).2 fun ⟨x, y, hxy⟩ => by
      obtain ⟨t, ht'⟩ := hp
      have h2 := hasFold_runes (b := utf8 s) ⟨x, y ++ t, by rw [← ht', ← hxy]; simp⟩
      rw [runes_utf8, e1] at h2
      exact noFold_whole _ hw h2
    have hfo : ∀ s : Str, FoldOf s s := fun s => by
      induction s with
      | nil => exact .nil
      | cons c s ih => exact .keep c ih
    rw [e1] at hp hlen
    obtain ⟨p', x, k1, k2, k3, k4⟩ := unfold_cut (hfo _) (noFold_whole _ hw) (by decide) ha hp hlen
    rw [removeFolds_of_none hnf] at k1
    rw [k1] at h
    exact decode_cut' hw k3 k4 k2 h
  · have hd : ∃ p', p = utf8 p' ∧ p' <+: s ∧ p' ≠ s := by
      obtain ⟨t, ht⟩ := hp
      have hl := congrArg List.length ht
      rw [List.length_append] at hl
      match t, hl with
      | [], _ => exact absurd (by simpa using ht) hne
      | [x], _ =>
        rw [hu8] at ht
        have h2 : p ++ [x] = (utf8 a ++ [82, 13]) ++ [10] := by rw [ht]; simp
        refine ⟨a ++ ['R', '\r'], by rw [(List.append_inj' h2 rfl).1, utf8_append]; rfl, ⟨['\n'], by rw [hT]; simp⟩, fun h => ?_⟩
        rw [hT] at h
        have := congrArg List.length h
        simp at this
      | [x, y], _ =>
        rw [hu8] at ht
        have h2 : p ++ [x, y] = (utf8 a ++ [82]) ++ [13, 10] := by rw [ht]; simp
        refine ⟨a ++ ['R'], by rw [(List.append_inj' h2 rfl).1, utf8_append]; rfl, ⟨['\r', '\n'], by rw [hT]; simp⟩, fun h => ?_⟩
        rw [hT] at h
        have := congrArg List.length h
        simp at this
      | _ :: _ :: _ :: _, hl => simp only [List.length_cons] at hl; omega
    obtain ⟨p', rfl, h1, h2⟩ := hd
    obtain ⟨q, hq⟩ := part_open E' ht hv hu hs h1 h2
    exact ⟨utf8 q, fun c' => by rw [← utf8_append, runes_utf8]; exact hq c'⟩

/-- C69, in any pieces.  However what `Encode` wrote comes in, and with buffers of any sizes from two octets up: `Decode` returns no calendar while exactly this has come in and nothing says that
it is the end.  If it has returned one, the reader had to deliver more, or to say that there is no more.  (For readers that deliver something with every call, and no folds.) -/
theorem C69_any_pieces (E E' : Env) (c : Cal) (ht : c.typed = true) (hv : c.valid = .ok ()) (hu : Unbroken E c) (cut : Str → List Str) (hcut : ∀ s, (cut s).flatten = s) (o : EncOut)
    (ho : encode E okSink cut c = .done o) (R : Reader) (hok : ReaderOk R) (hN : NoFolds R) (hL : LazyErr R) (hE : Eager R) (ks : List Nat) (hks : ∀ k ∈ ks, 2 ≤ k) (fuel : Nat) (hf : 4 ≤ fuel)
    (c' : Cal) (u : Unfolder) (hd : decodeDemand E' R fuel ks {} [] = .done (.ok c', u)) : delivered R u.hist = o.f.out → (R u.hist).2 ≠ none := by
  intro hdel hnone
  cases hs : encodeDoc E c with
  | none => unfold encode at ho; rw [hv, hs] at ho; cases ho
  | some s =>
    obtain ⟨o', h1, _, _, h4⟩ := C01_any_lines_partial E c s ht hv hs hu cut hcut
    rw [ho] at h1
    injection h1 with h1
    subst h1
    have hout : o.f.out = utf8 s := by
      rw [← h4, removeFolds_of_none ((findFold_none_iff _).2 (hdel ▸ hN u.hist))]
    obtain ⟨ks1, ks2, out, e, rfl, g1, g2, g3, _⟩ := C109_returns E' R fuel ks _ u hd
    have hks1 : ∀ k ∈ ks1, 2 ≤ k := fun k hk => hks k (List.mem_append_left _ hk)
    obtain ⟨out', e', u', f1, f2, f3, f4, f5, _⟩ := readAll_noFold hok hN hL fuel hf ks1 {} [] hks1 (by simp) rfl
    rw [g1] at f1
    injection f1 with f1
    injection f1 with f1 f6
    injection f6 with f6 f7
    subst f1; subst f6; subst f7
    cases e with
    | some e => rw [f5 (by simp)] at hnone; cases hnone
    | none =>
      have hpre : out <+: utf8 s := ⟨u.pend, by rw [← f2, hdel, hout]⟩
      by_cases heq : out = utf8 s
      · have hend : [13, 10] <:+ out := by
          obtain ⟨e1, _, _⟩ := written_lines ht hv hs
          obtain ⟨a, ha⟩ := calLines_end E c
          rw [heq, e1, ha, utf8_append]
          exact ⟨utf8 a ++ [82], by rw [List.append_assoc]; rfl⟩
        refine readAll_pend hok hN hL hE fuel hf ks1 {} [] hks1 (by simp) rfl (by simp) out u g1 (.inr hend) ?_
        have := f2
        rw [hdel, hout, heq] at this
        exact List.append_right_eq_self.1 this.symm
      · obtain ⟨q, hq⟩ := part_open_octets E' ht hv hu hs hpre heq
        exact hq c' (g3 rfl q)

/-! ## Concrete cases -/

/-- A calendar that comes in two pieces, the first of which ends between CR and LF: `Decode` returns when the reader says that there is no more, and the reader was called for that. -/
example : ∃ o, encode sampleEnv okSink (fun s => [s]) (twoCal c!"2.0" c!"x") = .done o ∧ findFold o.f.out = none ∧
    (match decodeDemand sampleEnv (connection [o.f.out.take 16, o.f.out.drop 16]) 4 [500, 500, 500] {} [] with
    | .done (.ok c, u) => decide (c = twoCal c!"2.0" c!"x") && decide (u.hist = [1, 498, 2, 500]) && decide (delivered (connection [o.f.out.take 16, o.f.out.drop 16]) u.hist = o.f.out)
    | _ => false) = true := by
  refine ⟨_, rfl, ?_, ?_⟩ <;> decide +kernel

/-- The same calendar from a file, seven octets at a time: the reader meets the conditions, and its last call is the one that said that this is the end. -/
example : ∃ o, encode sampleEnv okSink (fun s => [s]) (twoCal c!"2.0" c!"x") = .done o ∧ ReaderOk (fullReader o.f.out 3) ∧ NoFolds (fullReader o.f.out 3) ∧ LazyErr (fullReader o.f.out 3) ∧
    Eager (fullReader o.f.out 3) ∧ (match decodeDemand sampleEnv (fullReader o.f.out 3) 4 (List.replicate 30 7) {} [] with
    | .done (.ok c, u) => decide (c = twoCal c!"2.0" c!"x") && decide (delivered (fullReader o.f.out 3) u.hist = o.f.out) && decide ((fullReader o.f.out 3 u.hist).2 = some 3)
    | _ => false) = true := by
  refine ⟨_, rfl, fullReader_ok _ _, fullReader_noFolds 3 ?_, fullReader_lazy _ _, fullReader_eager _ _, ?_⟩
  · rw [← findFold_none_iff]; decide +kernel
  · decide +kernel

end Ics.Props
