import Verif.DemandLemmas
import Verif.UnfolderRuns
/-!
# Readers of connections: what has been asked for when a line end is passed on
-/

namespace Ics

open Spec

/-- When a piece that ends in CR or CR LF is passed on without an error, more has been asked for, and something has come. -/
theorem settle_pend {R : Reader} (hok : ReaderOk R) (hN : NoFolds R) (hL : LazyErr R) (hE : Eager R) (fuel : Nat) (h : List Nat) (q D : Bytes) (hD : delivered R h = D ++ q)
    (hq : [13] <:+ q ∨ [13, 10] <:+ q) (r : ReadRes) (hr : settle R (fuel + 1) ⟨[], h⟩ q q.length = .done r) (he : r.err = none) : r.u.pend ≠ [] := by
  obtain ⟨u, e, h1, h2, h3, h4, h5⟩ := settle_noFold hok hN hL fuel h q D hD
  rw [h1] at hr
  injection hr with hr
  subst hr
  simp only at he
  subst he
  intro hp
  simp only at hp
  rw [settle] at h1
  rcases hq with ⟨p, rfl⟩ | ⟨p, rfl⟩
  · rw [if_pos (by simp)] at h1
    have hE := hE 2 h (by omega)
    cases hb : R (2 :: h) with
    | mk b e =>
    rw [hb] at h1 hE
    simp only at h1 hE
    split at h1
    · injection h1 with h1
      injection h1 with a1 _ _ a4
      subst a4
      rw [← a1] at hp
      exact hE rfl hp
    · split at h1
      · next hb' =>
        exact hN (2 :: h) ⟨D ++ p, [], by rw [delivered, hD, hb, hb']; simp⟩
      · injection h1 with h1
        injection h1 with a1 _ _ a4
        subst a4
        rw [← a1] at hp
        exact hE rfl hp
  · rw [if_neg (by simp), if_pos (by simp)] at h1
    have hE := hE 1 h (by omega)
    cases hb : R (1 :: h) with
    | mk b e =>
    rw [hb] at h1 hE
    simp only at h1 hE
    split at h1
    · injection h1 with h1
      injection h1 with a1 _ _ a4
      subst a4
      rw [← a1] at hp
      exact hE rfl hp
    · split at h1
      · next hb' =>
        exact hN (1 :: h) ⟨D ++ p, [], by rw [delivered, hD, hb, hb']; simp⟩
      · injection h1 with h1
        injection h1 with a1 _ _ a4
        subst a4
        rw [← a1] at hp
        exact hE rfl hp

/-- The same for one `Read`; with octets kept from before, at least two octets are passed on. -/
theorem read_pend {R : Reader} (hok : ReaderOk R) (hN : NoFolds R) (hL : LazyErr R) (hE : Eager R) (fuel k : Nat) (hk : 2 ≤ k) (hf : 4 ≤ fuel) (u : Unfolder) (hu : u.pend.length ≤ 2) (D : Bytes)
    (hD : delivered R u.hist = D ++ u.pend) (r : ReadRes) (hr : Unfolder.read R fuel u k = .done r) (he : r.err = none) :
    (u.pend ≠ [] → 2 ≤ r.q.length) ∧ ([13] <:+ r.q ∨ [13, 10] <:+ r.q → r.u.pend ≠ []) := by
  obtain ⟨fuel, rfl⟩ : ∃ f, fuel = f + 4 := ⟨fuel - 4, by omega⟩
  rw [Unfolder.read] at hr
  have ht : u.pend.take k = u.pend := List.take_of_length_le (by omega)
  have hd : u.pend.drop k = [] := List.drop_of_length_le (by omega)
  simp only [ht, hd] at hr
  have hfill : ∃ h q' e, fill R (fuel + 3) u.hist u.pend (k - u.pend.length) = .done (h, u.pend ++ q', e) ∧ delivered R h = D ++ (u.pend ++ q') ∧
      (e = none → u.pend ≠ [] → 2 ≤ (u.pend ++ q').length) := by
    rw [fill]
    by_cases h0 : k - u.pend.length = 0
    · rw [if_pos h0]
      exact ⟨u.hist, [], none, by simp, by simpa using hD, fun _ _ => by simp; omega⟩
    · rw [if_neg h0]
      generalize k - u.pend.length = j at h0
      have hp := hN.piece j u.hist
      have hdel : delivered R (j :: u.hist) = D ++ (u.pend ++ (R (j :: u.hist)).1) := by
        rw [delivered, hD]; simp
      have hz := hE j u.hist (by omega)
      cases hr : R (j :: u.hist) with
      | mk b e =>
      rw [hr] at hp hdel hz
      simp only [squeeze_noFold _ _ hp, Run.bind_done]
      cases e with
      | some e =>
        simp only [Option.isSome_some, if_true]
        exact ⟨_, b, some e, rfl, hdel, by simp⟩
      | none =>
        simp only [Option.isSome_none, Bool.false_eq_true, if_false]
        rw [fill]
        simp only [if_true]
        refine ⟨_, b, none, rfl, hdel, fun _ h => ?_⟩
        have h1 := List.length_pos_iff.2 h
        have h2 := List.length_pos_iff.2 (hz rfl)
        simp only at h2
        rw [List.length_append]
        omega
  obtain ⟨h, q', e, h1, h2, h3⟩ := hfill
  rw [h1, Run.bind_done] at hr
  cases e with
  | some e =>
    simp only [Option.isSome_some, if_true] at hr
    injection hr with hr
    subst hr
    cases he
  | none =>
    simp only [Option.isSome_none, Bool.false_eq_true, if_false] at hr
    obtain ⟨u', e', hs1, _⟩ := settle_noFold hok hN hL (fuel + 2) h (u.pend ++ q') D h2
    have hrq : r.q = u.pend ++ q' := by rw [hs1] at hr; injection hr with hr; rw [← hr]
    refine ⟨fun hne => by rw [hrq]; exact h3 rfl hne, fun hq => ?_⟩
    rw [hrq] at hq
    exact settle_pend hok hN hL hE (fuel + 2) h _ D h2 hq r hr he

theorem suffix_crlf {a q : Bytes} (h : [13, 10] <:+ a ++ q) : (q = [] ∧ [13, 10] <:+ a) ∨ (q = [10] ∧ [13] <:+ a) ∨ [13, 10] <:+ q := by
  obtain ⟨p, hp⟩ := h
  rcases List.append_eq_append_iff.1 hp with ⟨x, h1, h2⟩ | ⟨x, h1, h2⟩
  · match x, h2 with
    | [], h2 => exact .inr (.inr ⟨[], h2⟩)
    | [y], h2 =>
      simp only [List.cons_append, List.nil_append, List.cons.injEq] at h2
      exact .inr (.inl ⟨h2.2.symm, p, by rw [h1, h2.1]⟩)
    | [y, z], h2 =>
      simp only [List.cons_append, List.nil_append, List.cons.injEq] at h2
      exact .inl ⟨h2.2.2.symm, p, by rw [h1, h2.1, h2.2.1]⟩
    | _ :: _ :: _ :: _, h2 => simp at h2
  · exact .inr (.inr ⟨x, h2.symm⟩)

theorem suffix_cr {a q : Bytes} (h : [13] <:+ a ++ q) : (q = [] ∧ [13] <:+ a) ∨ [13] <:+ q := by
  obtain ⟨p, hp⟩ := h
  rcases List.append_eq_append_iff.1 hp with ⟨x, h1, h2⟩ | ⟨x, h1, h2⟩
  · match x, h2 with
    | [], h2 => exact .inr ⟨[], h2⟩
    | [y], h2 =>
      simp only [List.cons_append, List.nil_append, List.cons.injEq] at h2
      exact .inl ⟨h2.2.symm, p, by rw [h1, h2.1]⟩
    | _ :: _ :: _, h2 => simp at h2
  · exact .inr ⟨x, h2.symm⟩

/-- However the octets come in: while no error has been seen, no line end has been passed on without the reader having delivered more. -/
theorem readAll_pend {R : Reader} (hok : ReaderOk R) (hN : NoFolds R) (hL : LazyErr R) (hE : Eager R) (fuel : Nat) (hf : 4 ≤ fuel) : ∀ (ks : List Nat) (u : Unfolder) (acc : Bytes), (∀ k ∈ ks, 2 ≤ k) →
    u.pend.length ≤ 2 → delivered R u.hist = acc ++ u.pend → ([13] <:+ acc ∨ [13, 10] <:+ acc → u.pend ≠ []) → ∀ out u', readAll R fuel ks u acc = .done (out, none, u') →
      [13] <:+ out ∨ [13, 10] <:+ out → u'.pend ≠ [] := by
  intro ks
  induction ks with
  | nil =>
    intro u acc _ _ _ hI out u' h
    rw [readAll] at h
    injection h with h
    injection h with h1 h
    injection h with _ h
    subst h1; subst h
    exact hI
  | cons k ks ih =>
    intro u acc hks hu hd hI out u' h
    have hk := hks k (by simp)
    obtain ⟨u1, q, e, h1, h2, h3, h4, h5, h6⟩ := read_noFold hok hN hL fuel k hk hf u hu acc hd
    rw [readAll, h1, Run.bind_done] at h
    simp only [Int.toNat_natCast, List.take_length] at h
    cases e with
    | some e =>
      simp only [Option.isSome_some, if_true] at h
      injection h with h
      injection h with _ h
      injection h with h _
      cases h
    | none =>
      simp only [Option.isSome_none, Bool.false_eq_true, if_false] at h
      obtain ⟨g1, g2⟩ := read_pend hok hN hL hE fuel k hk hf u hu acc hd _ h1 rfl
      simp only at g1 g2
      have hq := h6 hE rfl
      refine ih u1 (acc ++ q) (fun k hk => hks k (by simp [hk])) h4 h2 ?_ out u' h
      rintro (hs | hs)
      · rcases suffix_cr hs with ⟨h7, _⟩ | h7
        · exact absurd h7 hq
        · exact g2 (.inl h7)
      · rcases suffix_crlf hs with ⟨h7, _⟩ | ⟨h7, h8⟩ | h7
        · exact absurd h7 hq
        · have := g1 (hI (.inl h8))
          rw [h7] at this
          simp at this
        · exact g2 (.inr h7)

end Ics
