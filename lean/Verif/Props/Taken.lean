import Verif.Props.WaitingFolds
/-!
# C69 and C110: what a call of Decode has taken from the connection when it returns
-/

namespace Ics.Props

open Spec

/-- What was written ends with a line end that is not folded. -/
theorem written_tail {E : Env} {c : Cal} (ht : c.typed = true) (hv : c.valid = .ok ()) {cut : Str → List Str} (hcut : ∀ s, (cut s).flatten = s) {o : EncOut}
    (ho : encode E okSink cut c = .done o) : ∃ b, o.f.out = b ++ [82, 13, 10] := by
  cases hs : encodeDoc E c with
  | none => unfold encode at ho; rw [hv, hs] at ho; cases ho
  | some s =>
    obtain ⟨e1, _, _⟩ := written_lines ht hv hs
    obtain ⟨t, g1, g2⟩ := C02_fold_never_splits_characters (cut s)
    have hout : o.f.out = utf8 t := by
      unfold encode at ho
      rw [hv, hs] at ho
      simp only [Run.done.injEq] at ho
      rw [← ho]
      exact g1
    rw [hcut] at g2
    obtain ⟨a, ha⟩ := calLines_end E c
    obtain ⟨b, hb⟩ := FoldOf.tail g2 a 'R' (e1.trans ha)
    exact ⟨utf8 b, by rw [hout, hb, utf8_append]; rfl⟩

/-- C69.  However what `Encode` wrote comes in: `Decode` returns no calendar while no more than this, or a part of it, has come in and nothing says that it is the end. -/
theorem C69_never_less (E E' : Env) (c : Cal) (ht : c.typed = true) (hv : c.valid = .ok ()) (hu : Unbroken E c) (cut : Str → List Str) (hcut : ∀ s, (cut s).flatten = s) (o : EncOut)
    (ho : encode E okSink cut c = .done o) (R : Reader) (hok : ReaderOk R) (hL : LazyErr R) (hE : Eager R) (ks : List Nat) (hks : ∀ k ∈ ks, 5 ≤ k) (fuel : Nat)
    (c' : Cal) (u : Unfolder) (hd : decodeDemand E' R fuel ks {} [] = .done (.ok c', u)) (hc : ¬ MarkerSplit R u.hist) : delivered R u.hist <+: o.f.out → (R u.hist).2 ≠ none := by
  intro hpre hnone
  obtain ⟨r, hr⟩ := hpre
  cases hs : encodeDoc E c with
  | none => unfold encode at ho; rw [hv, hs] at ho; cases ho
  | some s =>
    obtain ⟨o', h1, _, _, h4⟩ := C01_any_lines_partial E c s ht hv hs hu cut hcut
    rw [ho] at h1
    injection h1 with h1
    subst h1
    obtain ⟨e1, _, _⟩ := written_lines ht hv hs
    have hnf : ¬ hasFold (utf8 s) := fun h => by
      have h2 := hasFold_runes h
      rw [runes_utf8, e1] at h2
      exact noFold_whole _ (unbroken_lines ht hv hs hu) h2
    by_cases hr0 : r = []
    · subst hr0
      rw [List.append_nil] at hr
      exact C69_any_pieces_folded E E' c ht hv hu cut hcut o ho R hok hL hE ks hks fuel c' u hd hc hr hnone
    · obtain ⟨ks1, ks2, out, e, rfl, g1, g2, g3, _⟩ := C109_returns E' R fuel ks _ u hd
      have hks1 : ∀ k ∈ ks1, 5 ≤ k := fun k hk => hks k (List.mem_append_left _ hk)
      cases e with
      | some e => rw [readAll_err _ _ _ _ _ _ _ g1] at hnone; cases hnone
      | none =>
        rcases readAll_verdict hok hL hE fuel ks1 {} [] out none u hks1 g1 (start_right R) with ⟨⟨_, f2, _⟩, _⟩ | ⟨f, _⟩ | ⟨a, ⟨t, f1⟩, f2⟩
        · by_cases hlen : (delivered R u.hist).length + 2 < o.f.out.length
          · have h := g3 rfl u.pend
            rw [f2] at h
            exact any_cut_octets ht hv hu hcut ho ⟨r, hr⟩ hlen h
          · -- all but the line end, or half of it
            obtain ⟨b, hb⟩ := written_tail ht hv hcut ho
            have hrr : removeFolds (delivered R u.hist ++ r) = removeFolds (delivered R u.hist) ++ r := by
              have hl := congrArg List.length hr
              rw [List.length_append] at hl
              rw [hb] at hr
              match r, hl, hr0 with
              | [], _, h => exact absurd rfl h
              | _ :: _ :: _ :: _, hl, _ => simp only [List.length_cons] at hl; omega
              | [x], _, _ =>
                have h2 : delivered R u.hist ++ [x] = (b ++ [82, 13]) ++ [10] := by rw [hr]; simp
                have h3 := (List.append_inj' h2 rfl).2
                injection h3 with h3
                subst h3
                exact removeFolds_snoc _ _ (by decide)
              | [x, y], _, _ =>
                have h2 : delivered R u.hist ++ [x, y] = (b ++ [82]) ++ [13, 10] := by rw [hr]; simp
                have h3 := (List.append_inj' h2 rfl).2
                injection h3 with h3 h5
                injection h5 with h5
                subst h3
                subst h5
                rw [show delivered R u.hist ++ [13, 10] = (delivered R u.hist ++ [13]) ++ [10] by simp, removeFolds_snoc _ _ (by decide), removeFolds_snoc _ _ (by decide)]
                simp
            rw [hr, h4, ← f2, List.append_assoc] at hrr
            obtain ⟨q, hq⟩ := part_open_octets E' ht hv hu hs ⟨_, hrr.symm⟩ (fun h => by
              rw [h] at hrr
              exact hr0 (List.append_eq_nil_iff.1 (List.append_right_eq_self.1 hrr.symm)).2)
            exact hq c' (g3 rfl q)
        · exact hc f
        · refine hnf ?_
          rw [← h4, ← hr, ← f1, List.append_assoc, removeFolds_append_space]
          obtain ⟨x, y, hxy⟩ := f2
          exact ⟨x, y ++ removeFolds (t ++ r), by rw [← hxy]; simp⟩

theorem delivered_after (R : Reader) (h : List Nat) : ∀ h', delivered R (h' ++ h) = delivered R h ++ delivered (afterCalls R h) h'
  | [] => by simp [delivered]
  | k :: h' => by
    rw [List.cons_append, delivered, delivered_after R h h', delivered, List.append_assoc]
    rfl

/-- C110, in any pieces.  A calendar that `Encode` wrote comes on a connection, and `rest` behind it, in pieces of any sizes.  When `Decode` has returned a calendar, and the connection has not ended, it has
taken some of `rest`: that is `x`.  All that later calls ever get is a part of what is behind `x`. -/
theorem C110_any_pieces (E E' : Env) (c : Cal) (ht : c.typed = true) (hv : c.valid = .ok ()) (hu : Unbroken E c) (cut : Str → List Str) (hcut : ∀ s, (cut s).flatten = s) (o : EncOut)
    (ho : encode E okSink cut c = .done o) (R : Reader) (hok : ReaderOk R) (hL : LazyErr R) (hE : Eager R) (rest : Bytes) (hR : ∀ h, delivered R h <+: o.f.out ++ rest) (ks : List Nat)
    (hks : ∀ k ∈ ks, 5 ≤ k) (fuel : Nat) (c' : Cal) (u : Unfolder) (hd : decodeDemand E' R fuel ks {} [] = .done (.ok c', u)) (hc : ¬ MarkerSplit R u.hist) (hopen : (R u.hist).2 = none) :
    ∃ x y, rest = x ++ y ∧ x ≠ [] ∧ delivered R u.hist = o.f.out ++ x ∧ ∀ h, delivered (afterCalls R u.hist) h <+: y := by
  have hnot := fun h => C69_never_less E E' c ht hv hu cut hcut o ho R hok hL hE ks hks fuel c' u hd hc h hopen
  obtain ⟨y, hy⟩ := hR u.hist
  rcases List.append_eq_append_iff.1 hy with ⟨x, h1, h2⟩ | ⟨x, h1, h2⟩
  · exact absurd ⟨x, h1.symm⟩ hnot
  · refine ⟨x, y, h2, ?_, h1, fun h => ?_⟩
    · rintro rfl
      exact hnot ⟨[], by rw [h1]; simp⟩
    · have h3 := hR (h ++ u.hist)
      rw [delivered_after, h1, h2, List.append_assoc] at h3
      exact (List.prefix_append_right_inj x).1 ((List.prefix_append_right_inj o.f.out).1 h3)

/-! ## A concrete case -/

/-- A calendar with a line that is folded, twice on one connection, in pieces: the reader meets the conditions, no piece ends inside a fold, the calendar is read, and the connection is still open.  The call
has taken the beginning of the second calendar as well. -/
example : ∃ o, encode sampleEnv okSink (fun s => [s]) longCal = .done o ∧ findFold o.f.out ≠ none ∧ ReaderOk (fullReader (o.f.out ++ o.f.out) 3) ∧ LazyErr (fullReader (o.f.out ++ o.f.out) 3) ∧
    Eager (fullReader (o.f.out ++ o.f.out) 3) ∧ (∀ h, delivered (fullReader (o.f.out ++ o.f.out) 3) h <+: o.f.out ++ o.f.out) ∧
    (match decodeDemand sampleEnv (fullReader (o.f.out ++ o.f.out) 3) 40 [60, 100, 60] {} [] with
    | .done (.ok c, u) => decide (c = longCal) && decide (u.hist = [3, 100, 60]) && decide (delivered (fullReader (o.f.out ++ o.f.out) 3) u.hist = o.f.out ++ o.f.out.take 26) &&
      decide ((fullReader (o.f.out ++ o.f.out) 3 u.hist).2 = none)
    | _ => false) = true ∧ ¬ MarkerSplit (fullReader (o.f.out ++ o.f.out) 3) [3, 100, 60] := by
  refine ⟨_, rfl, ?_, fullReader_ok _ _, fullReader_lazy _ _, fullReader_eager _ _, fun h => ?_, ?_, ?_⟩
  · decide +kernel
  · rw [fullReader_delivered]
    exact List.take_prefix _ _
  · decide +kernel
  · refine not_split_cons (not_split_cons (not_split_cons ?_ ?_) ?_) ?_
    · rintro ⟨k, h, h1, _⟩
      have := h1.length_le
      simp at this
    all_goals unfold Spec.Splits; decide +kernel

end Ics.Props
