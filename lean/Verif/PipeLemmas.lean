import Verif.CallSizeLemmas
import Verif.WaitingLemmas
import Verif.UnfolderCount
import Verif.DemandLemmas
import Verif.TightLemmas
/-!
# Lemmas: what Encode writes, read piece by piece
-/

namespace Ics

open Spec

/-! ## Where folds are among the calls -/

/-- A fold is not behind a line end, and not in front of one. -/
def Follows (log : List Bytes) : Prop :=
  (∀ a p b, log = a ++ p :: [13, 10, 32] :: b → p.getLast? ≠ some 10) ∧ (∀ a p b, log = a ++ [13, 10, 32] :: p :: b → p.head? ≠ some 13) ∧ (∀ b, log ≠ [13, 10, 32] :: b)

/-- The folder between two calls, or in one with `pre` still to be written. -/
structure Neat (g : WFolder) (pre : Bytes) : Prop where
  err : g.err = none
  line : g.line.toNat ≤ 75
  ends : NoEnds pre
  log : Follows g.log
  start : pre = [] → (g.log = [] ∨ ∃ p, g.log.getLast? = some p ∧ p.getLast? = some 10) → g.line = 0
  last : g.log.getLast? = some [13, 10, 32] → pre ≠ []

theorem append_two {l a b : List Bytes} {p x y : Bytes} (h : l ++ [p] = a ++ x :: y :: b) : (b = [] ∧ y = p ∧ l = a ++ [x]) ∨ ∃ b', b = b' ++ [p] ∧ l = a ++ x :: y :: b' := by
  rcases b.eq_nil_or_concat with rfl | ⟨b', z, rfl⟩
  · have : l ++ [p] = (a ++ [x]) ++ [y] := by rw [h]; simp
    obtain ⟨h1, h2⟩ := List.append_inj' this rfl
    exact .inl ⟨rfl, (List.cons.inj h2).1.symm, h1⟩
  · have : l ++ [p] = (a ++ x :: y :: b') ++ [z] := by rw [h]; simp
    obtain ⟨h1, h2⟩ := List.append_inj' this rfl
    exact .inr ⟨b', by rw [(List.cons.inj h2).1]; simp, h1⟩

/-- A piece more. -/
theorem Follows.piece {l : List Bytes} {p : Bytes} (h : Follows l) (hp : p ≠ [13, 10, 32]) (hh : l.getLast? = some [13, 10, 32] → p.head? ≠ some 13) : Follows (l ++ [p]) := by
  refine ⟨fun a x b e => ?_, fun a x b e => ?_, fun b e => ?_⟩
  · rcases append_two e with ⟨_, h1, _⟩ | ⟨b', _, h1⟩
    · exact absurd h1.symm hp
    · exact h.1 a x b' h1
  · rcases append_two e with ⟨_, rfl, h1⟩ | ⟨b', _, h1⟩
    · exact hh (by rw [h1]; simp)
    · exact h.2.1 a x b' h1
  · cases l with
    | nil => exact hp (List.cons.inj e).1
    | cons q l => exact h.2.2 l (by rw [(List.cons.inj e).1])

/-- A fold more. -/
theorem Follows.fold {l : List Bytes} (h : Follows l) {q : Bytes} (hq : l.getLast? = some q) (h1 : q.getLast? ≠ some 10) (h2 : q ≠ [13, 10, 32]) : Follows (l ++ [[13, 10, 32]]) := by
  refine ⟨fun a x b e => ?_, fun a x b e => ?_, fun b e => ?_⟩
  · rcases append_two e with ⟨_, _, h1'⟩ | ⟨b', _, h1'⟩
    · rw [h1'] at hq
      simp only [List.getLast?_concat, Option.some.injEq] at hq
      rw [hq]; exact h1
    · exact h.1 a x b' h1'
  · rcases append_two e with ⟨_, rfl, h1'⟩ | ⟨b', _, h1'⟩
    · rw [h1'] at hq
      simp only [List.getLast?_concat, Option.some.injEq] at hq
      exact absurd hq.symm h2
    · exact h.2.1 a x b' h1'
  · cases l with
    | nil => cases hq
    | cons q l => exact h.2.2 l (by rw [(List.cons.inj e).1])

theorem NoEnds.last {l : Bytes} (h : NoEnds l) : l.getLast? ≠ some 10 := fun e => (h 10 (List.mem_of_getLast? e)).2 rfl

theorem NoEnds.head {l : Bytes} (h : NoEnds l) : l.head? ≠ some 13 := fun e => (h 13 (List.mem_of_head? e)).1 rfl

theorem NoEnds.eol {l : Bytes} (h : NoEnds l) : l ≠ [13, 10, 32] := by
  rintro rfl
  exact (h 13 (by simp)).1 rfl

/-- What is left is written. -/
theorem Neat.finish {g : WFolder} {n : Nat} {pre : Bytes} (h : Neat g pre) : Neat (g.finish taker n pre).1 [] := by
  unfold WFolder.finish
  split
  · rename_i hne
    rw [taker_sink]
    refine ⟨rfl, h.line, by nofun, h.log.piece h.ends.eol fun _ => h.ends.head, fun _ hs => ?_, fun hs => ?_⟩
    · rcases hs with hs | ⟨p, h1, h2⟩
      · simp at hs
      · simp only [List.getLast?_concat, Option.some.injEq] at h1
        subst h1
        exact absurd h2 h.ends.last
    · simp only [List.getLast?_concat, Option.some.injEq] at hs
      exact absurd hs h.ends.eol
  · rename_i hne
    have : pre = [] := Classical.byContradiction hne
    subst this
    exact h

theorem neat_crlf (fuel : Nat) (g : WFolder) (n : Nat) (pre : Bytes) (hf : 2 ≤ fuel) (h : Neat g pre) : Neat (WFolder.loop taker fuel g n pre [13, 10]).1 [] := by
  obtain ⟨k, rfl⟩ : ∃ k, fuel = k + 2 := ⟨fuel - 2, by omega⟩
  have h1 : decodeRune [13, 10] = (13, 1) := by decide +kernel
  have h2 : decodeRune [10] = (10, 1) := by decide +kernel
  have hs : WFolder.loop taker (k + 2) g n pre [13, 10] = WFolder.finish taker { g with line := 0 } n (pre ++ [13] ++ [10]) := by
    unfold WFolder.loop
    simp only [h1]
    simp only [List.take_succ_cons, List.take_zero, List.drop_succ_cons, List.drop_zero]
    rw [if_neg (by decide), if_pos trivial]
    unfold WFolder.loop
    simp only [h2]
    rw [if_pos trivial]
    cases k <;> rfl
  rw [hs]
  unfold WFolder.finish
  rw [if_pos (by simp), taker_sink]
  have hl : (pre ++ [13] ++ [10]).getLast? = some 10 := by simp
  have he : pre ++ [13] ++ [10] ≠ [13, 10, 32] := by
    intro e
    rw [e] at hl
    cases hl
  refine ⟨rfl, Nat.zero_le _, by nofun, h.log.piece he fun hs => ?_, fun _ _ => rfl, fun hs => ?_⟩
  · have := h.last hs
    cases pre with
    | nil => exact absurd rfl this
    | cons b r => exact h.ends.head
  · simp only [List.getLast?_concat, Option.some.injEq] at hs
    exact absurd hs he

theorem neat_loop {cs : Str} (hcs : Shaped cs) : ∀ (fuel : Nat) (g : WFolder) (n : Nat) (pre : Bytes), (utf8 cs).length ≤ fuel → Neat g pre →
    Neat (WFolder.loop taker fuel g n pre (utf8 cs)).1 [] := by
  induction hcs with
  | nil =>
    intro fuel g n pre _ h
    have : WFolder.loop taker fuel g n pre (utf8 []) = g.finish taker n pre := by cases fuel <;> rfl
    rw [this]
    exact h.finish
  | crlf =>
    intro fuel g n pre hf h
    exact neat_crlf fuel g n pre hf h
  | @cons c cs hc1 hc2 _ ih =>
    intro fuel g n pre hf h
    rw [utf8_cons] at hf ⊢
    have hl' := encodeChar_length c
    rw [List.length_append] at hf
    rcases fuel with _ | fuel
    · omega
    rcases he : encodeChar c with _ | ⟨b, r⟩
    · exact absurd he (encodeChar_ne_nil c)
    have hce := noEnds_char hc1 hc2
    rw [he] at hce
    have hd := decodeRune_encodeChar c (utf8 cs)
    rw [he] at hd hl'
    have hf' : (utf8 cs).length ≤ fuel := by rw [he] at hf; omega
    have htake : (b :: (r ++ utf8 cs)).take (b :: r).length = b :: r := by rw [← List.cons_append, List.take_left]
    have hdrop : (b :: (r ++ utf8 cs)).drop (b :: r).length = utf8 cs := by rw [← List.cons_append, List.drop_left]
    simp only [List.cons_append] at hd ⊢
    unfold WFolder.loop
    simp only [hd, htake, hdrop]
    have hn1 : c.toNat ≠ 10 := fun e => hc2 (by rw [← Char.ofNat_toNat c, e])
    have hn2 : c.toNat ≠ 13 := fun e => hc1 (by rw [← Char.ofNat_toNat c, e])
    rw [if_neg hn1, if_neg hn2]
    have h75 := h.line
    have hb : (UInt8.ofNat (b :: r).length).toNat = (b :: r).length := by
      rw [UInt8.toNat_ofNat']
      omega
    have ha : (g.line + UInt8.ofNat (b :: r).length).toNat = g.line.toNat + (b :: r).length := by
      rw [UInt8.toNat_add, hb]
      omega
    split
    · rename_i hgt
      have hgt' : 75 < g.line.toNat + (b :: r).length := by
        have : maxLineLength < g.line + UInt8.ofNat (b :: r).length := hgt
        rw [UInt8.lt_iff_toNat_lt, ha] at this
        exact this
      have h1 : ∃ f' m, (if pre ≠ [] then g.sink taker pre else (g, 0)) = (f', m) ∧ f'.err = none ∧ Follows f'.log ∧
          ∃ q, f'.log.getLast? = some q ∧ q.getLast? ≠ some 10 ∧ q ≠ [13, 10, 32] := by
        split
        · rw [taker_sink]
          exact ⟨_, _, rfl, rfl, h.log.piece h.ends.eol fun _ => h.ends.head, pre, by simp, h.ends.last, h.ends.eol⟩
        · rename_i hne
          have hp : pre = [] := Classical.byContradiction hne
          refine ⟨_, _, rfl, h.err, h.log, ?_⟩
          have hs := h.start hp
          have hns : ¬ (g.log = [] ∨ ∃ p, g.log.getLast? = some p ∧ p.getLast? = some 10) := by
            intro hh
            have := hs hh
            rw [this] at hgt'
            have h0 : (0 : UInt8).toNat = 0 := rfl
            omega
          cases hq : g.log.getLast? with
          | none => exact absurd (.inl (List.getLast?_eq_none_iff.1 hq)) hns
          | some q => exact ⟨q, rfl, fun e => hns (.inr ⟨q, hq, e⟩), fun e => h.last (by rw [hq, e]) hp⟩
      obtain ⟨f', m, h1, h2, h3, q, h4, h5, h6⟩ := h1
      rw [h1]
      dsimp only
      simp only [h2, Option.isSome_none, Bool.false_eq_true, if_false, taker_sink]
      have hl : (UInt8.ofNat (b :: r).length + 1).toNat = (b :: r).length + 1 := by
        rw [UInt8.toNat_add, hb]
        show ((b :: r).length + 1) % 256 = _
        omega
      refine ih fuel _ _ _ hf' ⟨rfl, ?_, hce, h3.fold h4 h5 h6, by nofun, fun _ => by nofun⟩
      show (UInt8.ofNat (b :: r).length + 1).toNat ≤ 75
      omega
    · next hgt =>
      have hle : (g.line + UInt8.ofNat (b :: r).length).toNat ≤ 75 := by
        have : ¬ (maxLineLength < g.line + UInt8.ofNat (b :: r).length) := hgt
        rw [UInt8.lt_iff_toNat_lt] at this
        exact Nat.le_of_not_lt this
      exact ih fuel _ _ _ hf' ⟨h.err, hle, h.ends.append hce, h.log, fun e => by simp at e, fun _ e => by simp at e⟩

theorem neat_writes : ∀ (ss : List Str), (∀ s ∈ ss, Shaped s) → ∀ g : WFolder, Neat g [] → Neat (g.writes taker (ss.map utf8)) []
  | [], _, _, h => h
  | s :: ss, hs, g, h => by
    refine neat_writes ss (fun t ht => hs t (.tail _ ht)) (g.write taker (utf8 s)).1 ?_
    have hw : g.write taker (utf8 s) = WFolder.loop taker (utf8 s).length g 0 [] (utf8 s) := by
      unfold WFolder.write
      simp only [h.err, Option.isSome_none, Bool.false_eq_true, if_false]
    rw [hw]
    exact neat_loop (hs s (.head _)) _ g 0 [] (Nat.le_refl _) h

/-! ## Reading piece by piece -/

section
variable {R : Reader}

theorem read_front {u : Unfolder} {k : Nat} {p : Bytes} (hk : u.pend.length < k) (hR : R ((k - u.pend.length) :: u.hist) = (p, none)) (hn : ¬ hasFold p) (f : Nat) :
    u.read R (f + 3) k = settle R (f + 2) ⟨[], (k - u.pend.length) :: u.hist⟩ (u.pend ++ p) (u.pend ++ p).length := by
  rw [Unfolder.read]
  have h1 : u.pend.take k = u.pend := List.take_of_length_le (by omega)
  have h2 : u.pend.drop k = [] := List.drop_of_length_le (by omega)
  simp only [h1, h2]
  rw [fill, if_neg (by omega), hR]
  simp only
  rw [squeeze_noFold f p hn, Run.bind_done]
  simp only [Option.isSome_none, Bool.false_eq_true, if_false]
  rw [fill, if_pos rfl, Run.bind_done]
  simp only [Option.isSome_none, Bool.false_eq_true, if_false]

theorem read_short {u : Unfolder} {k : Nat} (hk : u.pend.length < k) {f : Nat} (hf : f ≤ 2) : u.read R f k = .running := by
  have h1 : u.pend.take k = u.pend := List.take_of_length_le (by omega)
  match f, hf with
  | 0, _ => rw [Unfolder.read]
  | 1, _ => rw [Unfolder.read]; simp only [fill, Run.bind]
  | 2, _ =>
    rw [Unfolder.read]
    simp only [h1]
    rw [fill, if_neg (by omega)]
    simp only [squeeze, Run.bind]

/-- A piece that does not end a line is passed on. -/
theorem read_plain {u : Unfolder} {k : Nat} {p : Bytes} (hk : u.pend.length < k) (hR : R ((k - u.pend.length) :: u.hist) = (p, none)) (hn : ¬ hasFold p)
    (h1 : ¬ EndsInCR (u.pend ++ p)) (h2 : ¬ EndsInCRLF (u.pend ++ p)) (f : Nat) :
    u.read R (f + 3) k = .done ⟨⟨[], (k - u.pend.length) :: u.hist⟩, u.pend ++ p, (u.pend ++ p).length, none⟩ := by
  rw [read_front hk hR hn, settle]
  generalize u.pend ++ p = q at *
  simp only [if_neg (show ¬ (q.length > 0 ∧ q[q.length - 1]? = some 13) from h1), if_neg (show ¬ (q.length > 1 ∧ q[q.length - 2]? = some 13 ∧ q[q.length - 1]? = some 10) from h2)]

/-- A piece that ends a line is passed on, and an octet more is read. -/
theorem read_peek {u : Unfolder} {k : Nat} {p : Bytes} (hk : u.pend.length < k) (hR : R ((k - u.pend.length) :: u.hist) = (p, none)) (hn : ¬ hasFold p)
    (h1 : ¬ EndsInCR (u.pend ++ p)) (h2 : EndsInCRLF (u.pend ++ p)) {b : Bytes} {e : Option Nat} (hR' : R (1 :: (k - u.pend.length) :: u.hist) = (b, e)) (hb : b ≠ [32]) (f : Nat) :
    u.read R (f + 3) k = .done ⟨⟨b, 1 :: (k - u.pend.length) :: u.hist⟩, u.pend ++ p, (u.pend ++ p).length, e⟩ := by
  rw [read_front hk hR hn, settle]
  generalize u.pend ++ p = q at *
  simp only [if_neg (show ¬ (q.length > 0 ∧ q[q.length - 1]? = some 13) from h1), if_pos (show q.length > 1 ∧ q[q.length - 2]? = some 13 ∧ q[q.length - 1]? = some 10 from h2), hR',
    if_neg hb, ite_self]

/-- A fold alone is never done with. -/
theorem read_fold {u : Unfolder} {k : Nat} {e : Option Nat} (hk : u.pend.length < k) (hR : R ((k - u.pend.length) :: u.hist) = ([13, 10, 32], e)) (f : Nat) : u.read R f k = .running := by
  have h1 : u.pend.take k = u.pend := List.take_of_length_le (by omega)
  match f with
  | 0 => rw [Unfolder.read]
  | 1 => rw [Unfolder.read]; simp only [fill, Run.bind]
  | f + 2 =>
    rw [Unfolder.read]
    simp only [h1]
    rw [fill, if_neg (by omega), hR]
    simp only
    rw [squeeze_bad f [13, 10, 32] [] 0 ⟨[], [], rfl⟩ ⟨[], _, rfl, by simp [isRot]⟩]
    rfl

/-- The end of the input. -/
theorem read_end {u : Unfolder} {k : Nat} {e : Nat} (hk : u.pend.length < k) (hR : R ((k - u.pend.length) :: u.hist) = ([], some e)) (f : Nat) :
    u.read R (f + 3) k = .done ⟨⟨[], (k - u.pend.length) :: u.hist⟩, u.pend, u.pend.length, some e⟩ := by
  have h1 : u.pend.take k = u.pend := List.take_of_length_le (by omega)
  have h2 : u.pend.drop k = [] := List.drop_of_length_le (by omega)
  rw [Unfolder.read]
  simp only [h1, h2]
  rw [fill, if_neg (by omega), hR]
  simp only
  rw [squeeze_noFold f [] (by rintro ⟨a, b, h⟩; simp at h), Run.bind_done]
  simp [Run.bind]

end

/-- Something of at most 77 octets that does not end in CR. -/
def Morsel (p : Bytes) : Prop := p ≠ [] ∧ p.length ≤ 77 ∧ p.getLast? ≠ some 13

theorem endsInCR_last {q : Bytes} (h : EndsInCR q) : q.getLast? = some 13 := by
  rw [List.getLast?_eq_getElem?]
  exact h.2

theorem endsInCRLF_last {q : Bytes} (h : EndsInCRLF q) : q.getLast? = some 10 := by
  rw [List.getLast?_eq_getElem?]
  exact h.2.2

theorem endsInCRLF_split {q : Bytes} (h : EndsInCRLF q) : ∃ a, q = a ++ [13, 10] := by
  obtain ⟨h1, h2, h3⟩ := h
  rcases q.eq_nil_or_concat with rfl | ⟨q, y, rfl⟩
  · simp at h1
  rcases q.eq_nil_or_concat with rfl | ⟨q, x, rfl⟩
  · simp at h1
  refine ⟨q, ?_⟩
  simp only [List.concat_eq_append, List.append_assoc, List.singleton_append, List.length_append, List.length_cons, List.length_nil] at h2 h3 ⊢
  rw [List.getElem?_append_right (by omega)] at h2 h3
  rw [show q.length + (0 + 1 + 1) - 2 - q.length = 0 by omega] at h2
  rw [show q.length + (0 + 1 + 1) - 1 - q.length = 1 by omega] at h3
  simp only [List.getElem?_cons_zero, Option.some.injEq, List.getElem?_cons_succ] at h2 h3
  rw [h2, h3]

theorem last_append_ne {a b : Bytes} (h : b ≠ []) : (a ++ b).getLast? = b.getLast? := by
  rw [List.getLast?_append]
  cases hb : b.getLast? with
  | none => exact absurd (List.getLast?_eq_none_iff.1 hb) h
  | some x => rfl

section
variable {fin : Nat} {ps : List Bytes}

theorem pieces_one {h : List Nat} {p : Bytes} {r : List Bytes} {k : Nat} (hs : piecesState fin ps h = p :: r) (hk : p.length ≤ k) :
    piecesReader fin ps (k :: h) = (p, none) ∧ piecesState fin ps (k :: h) = r := by
  simp only [piecesReader, piecesState, hs, piecesStep, if_pos hk, and_self]

theorem pieces_part {h : List Nat} {p : Bytes} {r : List Bytes} {k : Nat} (hs : piecesState fin ps h = p :: r) (hk : ¬ p.length ≤ k) :
    piecesReader fin ps (k :: h) = (p.take k, none) ∧ piecesState fin ps (k :: h) = p.drop k :: r := by
  simp only [piecesReader, piecesState, hs, piecesStep, if_neg hk, and_self]

theorem pieces_end {h : List Nat} {k : Nat} (hs : piecesState fin ps h = []) : piecesReader fin ps (k :: h) = ([], some fin) := by
  simp only [piecesReader, hs, piecesStep]

/-- One `Read`, of a piece behind which there is another. -/
theorem pieces_read {u : Unfolder} {acc p : Bytes} {a : List Bytes} {t : List Bytes} {k : Nat} (hk : 78 ≤ k) (hu : u.pend.length ≤ 1)
    (hs : piecesState fin ps u.hist = p :: (a ++ t)) (hp : Morsel p) (ha : ∀ q ∈ a, Morsel q) (hn : ¬ hasFold (acc ++ u.pend ++ (p :: a).flatten)) (hl : EndsInCRLF (u.pend ++ p) → a ≠ []) :
    ∃ (u' : Unfolder) (a' : List Bytes), a'.length ≤ a.length ∧ u'.pend.length ≤ 1 ∧ piecesState fin ps u'.hist = a' ++ t ∧ (∀ q ∈ a', Morsel q) ∧
      u'.pend ++ a'.flatten = a.flatten ∧ ∀ f, u.read (piecesReader fin ps) (f + 3) k = .done ⟨u', u.pend ++ p, (u.pend ++ p).length, none⟩ := by
  obtain ⟨h1, h2, h3⟩ := hp
  have hk' : u.pend.length < k := by omega
  obtain ⟨r1, r2⟩ := pieces_one (k := k - u.pend.length) hs (by omega)
  have hnp : ¬ hasFold p := by
    rintro ⟨x, y, e⟩
    exact hn ⟨acc ++ u.pend ++ x, y ++ a.flatten, by simp [← e]⟩
  have hcr : ¬ EndsInCR (u.pend ++ p) := fun h => h3 (by rw [← last_append_ne h1]; exact endsInCR_last h)
  by_cases hc : EndsInCRLF (u.pend ++ p)
  · cases a with
    | nil => exact absurd rfl (hl hc)
    | cons q a =>
      obtain ⟨q1, q2, q3⟩ := ha q (.head _)
      obtain ⟨x, hx⟩ := endsInCRLF_split hc
      have hq : q.take 1 ≠ [32] := by
        intro e
        refine hn ⟨acc ++ x, q.drop 1 ++ a.flatten, ?_⟩
        have : q = [32] ++ q.drop 1 := by rw [← e, List.take_append_drop]
        calc acc ++ x ++ [13, 10, 32] ++ (q.drop 1 ++ a.flatten) = acc ++ (x ++ [13, 10]) ++ ([32] ++ q.drop 1) ++ a.flatten := by simp
          _ = _ := by rw [← hx, ← this]; simp
      by_cases hq1 : q.length ≤ 1
      · obtain ⟨r3, r4⟩ := pieces_one (k := 1) r2 hq1
        refine ⟨⟨q, 1 :: (k - u.pend.length) :: u.hist⟩, a, by simp, hq1, r4, fun z hz => ha z (.tail _ hz), by simp, fun f => read_peek hk' r1 hnp hcr hc r3 ?_ f⟩
        rwa [List.take_of_length_le hq1] at hq
      · obtain ⟨r3, r4⟩ := pieces_part (k := 1) r2 hq1
        have hd : q.drop 1 ≠ [] := by
          intro e
          have := congrArg List.length e
          simp at this
          omega
        refine ⟨⟨q.take 1, 1 :: (k - u.pend.length) :: u.hist⟩, q.drop 1 :: a, by simp, by simp; omega, r4, fun z hz => ?_, ?_, fun f => read_peek hk' r1 hnp hcr hc r3 hq f⟩
        · rcases List.mem_cons.1 hz with rfl | hz
          · refine ⟨hd, by simp; omega, fun e => q3 ?_⟩
            rw [← List.take_append_drop 1 q, last_append_ne hd, e]
          · exact ha z (.tail _ hz)
        · simp only [List.flatten_cons, ← List.append_assoc, List.take_append_drop]
  · exact ⟨⟨[], (k - u.pend.length) :: u.hist⟩, a, Nat.le_refl _, Nat.zero_le _, r2, ha, rfl, fun f => read_plain hk' r1 hnp hcr hc f⟩

/-- If there is a fold on its own, reading never gets past it. -/
theorem pieces_hang (t : List Bytes) : ∀ (n : Nat) (a : List Bytes) (u : Unfolder) (acc : Bytes), a.length ≤ n → u.pend.length ≤ 1 →
    piecesState fin ps u.hist = a ++ [13, 10, 32] :: t → (∀ q ∈ a, Morsel q) → ¬ hasFold (acc ++ u.pend ++ a.flatten) → (acc ++ u.pend ++ a.flatten).getLast? ≠ some 10 →
    ∀ (ks : List Nat), (∀ k ∈ ks, 78 ≤ k) → ∀ fuel, readAll (piecesReader fin ps) fuel ks u acc = .running ∨
      (ks.length ≤ n ∧ ∃ out u', readAll (piecesReader fin ps) fuel ks u acc = .done (out, none, u') ∧ out <+: acc ++ u.pend ++ a.flatten) := by
  intro n
  induction n with
  | zero =>
    intro a u acc ha hu hs hm hn hl ks hks fuel
    have : a = [] := List.eq_nil_of_length_eq_zero (by omega)
    subst this
    cases ks with
    | nil => exact .inr ⟨Nat.le_refl _, acc, u, rfl, by rw [List.append_assoc]; exact List.prefix_append _ _⟩
    | cons k ks =>
      have hk := hks k (.head _)
      left
      rw [readAll, read_fold (by omega) (pieces_one (k := k - u.pend.length) hs (by simp; omega)).1]
      rfl
  | succ n ih =>
    intro a u acc ha hu hs hm hn hl ks hks fuel
    cases ks with
    | nil => exact .inr ⟨Nat.zero_le _, acc, u, rfl, by rw [List.append_assoc]; exact List.prefix_append _ _⟩
    | cons k ks =>
      have hk := hks k (.head _)
      cases a with
      | nil =>
        left
        rw [readAll, read_fold (by omega) (pieces_one (k := k - u.pend.length) hs (by simp; omega)).1]
        rfl
      | cons p a =>
        by_cases hf : fuel ≤ 2
        · left
          rw [readAll, read_short (by omega) hf]
          rfl
        obtain ⟨f, rfl⟩ : ∃ f, fuel = f + 3 := ⟨fuel - 3, by omega⟩
        obtain ⟨u', a', e1, e2, e3, e4, e5, e6⟩ := pieces_read (fin := fin) (ps := ps) (acc := acc) hk hu hs (hm p (.head _)) (fun q hq => hm q (.tail _ hq)) hn (by
          rintro hc rfl
          refine hl ?_
          have := endsInCRLF_last hc
          rw [List.append_assoc]
          simp only [List.flatten_cons, List.flatten_nil, List.append_nil]
          rw [last_append_ne (by intro e; rw [e] at this; cases this), this])
        have he : acc ++ (u.pend ++ p) ++ u'.pend ++ a'.flatten = acc ++ u.pend ++ (p :: a).flatten := by
          rw [List.append_assoc _ u'.pend, e5]
          simp
        have := ih a' u' (acc ++ (u.pend ++ p)) (by simp only [List.length_cons] at ha; omega) e2 e3 e4 (by rw [he]; exact hn) (by rw [he]; exact hl) ks (fun k hk => hks k (.tail _ hk)) (f + 3)
        rw [readAll, e6, Run.bind_done]
        simp only [Option.isSome_none, Bool.false_eq_true, if_false, Int.toNat_natCast, List.take_length]
        rw [he] at this
        rcases this with h | ⟨h1, h2⟩
        · exact .inl h
        · exact .inr ⟨by simp only [List.length_cons]; omega, h2⟩

/-- If there is no fold, reading comes to the end. -/
theorem pieces_through : ∀ (n : Nat) (a : List Bytes) (u : Unfolder) (acc : Bytes), a.length ≤ n → u.pend.length ≤ 1 →
    piecesState fin ps u.hist = a → (∀ q ∈ a, Morsel q) → ¬ hasFold (acc ++ u.pend ++ a.flatten) →
    ∀ (ks : List Nat), (∀ k ∈ ks, 78 ≤ k) → n < ks.length → ∀ fuel, 3 ≤ fuel →
      ∃ u', readAll (piecesReader fin ps) fuel ks u acc = .done (acc ++ u.pend ++ a.flatten, some fin, u') := by
  intro n
  induction n with
  | zero =>
    intro a u acc ha hu hs hm hn ks hks hlen fuel hf
    have : a = [] := List.eq_nil_of_length_eq_zero (by omega)
    subst this
    obtain ⟨f, rfl⟩ : ∃ f, fuel = f + 3 := ⟨fuel - 3, by omega⟩
    cases ks with
    | nil => simp at hlen
    | cons k ks =>
      have hk := hks k (.head _)
      rw [readAll, read_end (by omega) (pieces_end (k := k - u.pend.length) hs), Run.bind_done]
      exact ⟨⟨[], (k - u.pend.length) :: u.hist⟩, by simp⟩
  | succ n ih =>
    intro a u acc ha hu hs hm hn ks hks hlen fuel hf
    obtain ⟨f, rfl⟩ : ∃ f, fuel = f + 3 := ⟨fuel - 3, by omega⟩
    cases ks with
    | nil => simp at hlen
    | cons k ks =>
      have hk := hks k (.head _)
      cases a with
      | nil =>
        rw [readAll, read_end (by omega) (pieces_end (k := k - u.pend.length) hs), Run.bind_done]
        exact ⟨⟨[], (k - u.pend.length) :: u.hist⟩, by simp⟩
      | cons p a =>
        by_cases hc : EndsInCRLF (u.pend ++ p) ∧ a = []
        · obtain ⟨hc, rfl⟩ := hc
          obtain ⟨h1, h2, h3⟩ := hm p (.head _)
          obtain ⟨r1, r2⟩ := pieces_one (k := k - u.pend.length) hs (by omega)
          have hnp : ¬ hasFold p := by
            rintro ⟨x, y, e⟩
            exact hn ⟨acc ++ u.pend ++ x, y, by simp [← e]⟩
          have hcr : ¬ EndsInCR (u.pend ++ p) := fun h => h3 (by rw [← last_append_ne h1]; exact endsInCR_last h)
          rw [readAll, read_peek (by omega) r1 hnp hcr hc (pieces_end (k := 1) r2) (by nofun), Run.bind_done]
          exact ⟨⟨[], 1 :: (k - u.pend.length) :: u.hist⟩, by simp only [Option.isSome_some, if_true, Int.toNat_natCast, List.take_length]; simp⟩
        obtain ⟨u', a', e1, e2, e3, e4, e5, e6⟩ := pieces_read (fin := fin) (ps := ps) (acc := acc) (t := []) hk hu (by rw [List.append_nil]; exact hs) (hm p (.head _))
          (fun q hq => hm q (.tail _ hq)) hn (fun h e => hc ⟨h, e⟩)
        have he : acc ++ (u.pend ++ p) ++ u'.pend ++ a'.flatten = acc ++ u.pend ++ (p :: a).flatten := by
          rw [List.append_assoc _ u'.pend, e5]
          simp
        obtain ⟨u'', this⟩ := ih a' u' (acc ++ (u.pend ++ p)) (by simp only [List.length_cons] at ha; omega) e2 (by rw [e3, List.append_nil]) e4 (by rw [he]; exact hn) ks
          (fun k hk => hks k (.tail _ hk)) (by simp only [List.length_cons] at hlen; omega) (f + 3) (by omega)
        rw [readAll, e6, Run.bind_done]
        simp only [Option.isSome_none, Bool.false_eq_true, if_false, Int.toNat_natCast, List.take_length]
        rw [he] at this
        exact ⟨u'', this⟩

end

/-! ## The text and its pieces -/

/-- Up to the first fold the pieces are the text. -/
theorem handedOut_first {x : Bytes} {ps : List Bytes} (h : HandedOut x ps) : ∀ a b, ps = a ++ [13, 10, 32] :: b → [13, 10, 32] ∉ a → ¬ hasFold x →
    ∃ p b' r, b = p :: b' ∧ p ≠ [] ∧ x = a.flatten ++ p ++ r := by
  induction h with
  | nil => intro a b e; simp at e
  | @piece p q ps hp _ ih =>
    intro a b e ha hx
    cases a with
    | nil =>
      refine absurd ⟨[], q, ?_⟩ hx
      rw [(List.cons.inj e).1]
      rfl
    | cons z a =>
      obtain ⟨e1, e2⟩ := List.cons.inj e
      obtain ⟨p', b', r, h1, h2, h3⟩ := ih a b e2 (fun h => ha (.tail _ h)) (by rintro ⟨s, t, e⟩; exact hx ⟨p ++ s, t, by simp [← e]⟩)
      exact ⟨p', b', r, h1, h2, by rw [h3, e1]; simp⟩
  | @fold p q ps hp hq _ =>
    intro a b e ha hx
    cases a with
    | nil => exact ⟨p, ps, q, (List.cons.inj e).2.symm, hp, rfl⟩
    | cons z a => exact absurd (List.cons.inj e).1 (fun h => ha (by rw [h]; exact .head _))

/-- Without folds the pieces are the text. -/
theorem handedOut_none {x : Bytes} {ps : List Bytes} (h : HandedOut x ps) (hn : [13, 10, 32] ∉ ps) : ps.flatten = x := by
  induction h with
  | nil => rfl
  | piece _ _ ih => rw [List.flatten_cons, ih fun h => hn (.tail _ h)]
  | fold => exact absurd (.head _) hn

theorem exists_first {l : List Bytes} {x : Bytes} (h : x ∈ l) : ∃ a b, l = a ++ x :: b ∧ x ∉ a := by
  induction l with
  | nil => cases h
  | cons y l ih =>
    by_cases e : x = y
    · exact ⟨[], l, by rw [e]; rfl, by simp⟩
    · obtain ⟨a, b, h1, h2⟩ := ih ((List.mem_cons.1 h).resolve_left e)
      exact ⟨y :: a, b, by rw [h1]; rfl, by simp [e, h2]⟩

theorem morsel_of {p : Bytes} (h : OfOneLine p) (h0 : p ≠ []) : Morsel p := by
  refine ⟨h0, OfOneLine.length h, fun e => ?_⟩
  rcases h with rfl | ⟨l, _, h1, rfl | rfl⟩
  · cases e
  · exact (h1 13 (List.mem_of_getLast? e)).1 rfl
  · simp at e

/-- Octets of characters, put together. -/
theorem utf8_pieces {a : List Bytes} (h : ∀ p ∈ a, ∃ s : Str, p = utf8 s) : ∃ s, a.flatten = utf8 s := by
  induction a with
  | nil => exact ⟨[], rfl⟩
  | cons p a ih =>
    obtain ⟨s, rfl⟩ := h p (.head _)
    obtain ⟨t, ht⟩ := ih fun q hq => h q (.tail _ hq)
    exact ⟨s ++ t, by rw [List.flatten_cons, ht, utf8_append]⟩

theorem decodeDemand_not_panic {E : Env} {R : Reader} {fuel : Nat} : ∀ (ks : List Nat) (u : Unfolder) (acc : Bytes), decodeDemand E R fuel ks u acc ≠ .panic := by
  intro ks
  induction ks with
  | nil =>
    intro u acc h
    cases hd : decodeOpen E (runesOpen acc) with
    | some x => rw [decodeDemand_some hd] at h; cases h
    | none => rw [decodeDemand_nil hd] at h; cases h
  | cons k ks ih =>
    intro u acc h
    cases hd : decodeOpen E (runesOpen acc) with
    | some x => rw [decodeDemand_some hd] at h; cases h
    | none =>
      rw [decodeDemand_none hd] at h
      cases hr : u.read R fuel k with
      | panic => exact (read_settle_ne_panic fuel).1 _ _ hr
      | running => rw [hr] at h; cases h
      | done r =>
        rw [hr, Run.bind_done] at h
        split at h
        · cases h
        · exact ih _ _ h

end Ics
