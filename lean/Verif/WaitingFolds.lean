import Verif.WaitingAll
import Verif.UnfolderCuts
/-!
# Readers of connections, with folds: what has been asked for when a line end is passed on
-/

namespace Ics

open Spec

/-! ## The error of a `Read` is the one of the last call -/

theorem fill_err {R : Reader} : ∀ (fuel : Nat) (h : List Nat) (q : Bytes) (k : Nat) (h' : List Nat) (q' : Bytes) (e : Nat),
    fill R fuel h q k = .done (h', q', some e) → (R h').2 = some e := by
  intro fuel
  induction fuel with
  | zero => intro h q k h' q' e hd; cases hd
  | succ fuel ih =>
    intro h q k h' q' e hd
    rw [fill] at hd
    split at hd
    · cases hd
    · cases hs : squeeze fuel [] (R (k :: h)).1 0 with
      | running => simp only [hs, Run.bind] at hd; cases hd
      | panic => simp only [hs, Run.bind] at hd; cases hd
      | done x =>
        simp only [hs, Run.bind] at hd
        split at hd
        · simp only [Run.done.injEq, Prod.mk.injEq] at hd
          rw [← hd.1]; exact hd.2.2
        · exact ih _ _ _ _ _ _ hd

theorem read_settle_err {R : Reader} : ∀ (fuel : Nat),
    (∀ (u : Unfolder) (k : Nat) (r : ReadRes), Unfolder.read R fuel u k = .done r → ∀ e, r.err = some e → (R r.u.hist).2 = some e) ∧
    (∀ (u : Unfolder) (q : Bytes) (m : Int) (r : ReadRes), settle R fuel u q m = .done r → ∀ e, r.err = some e → (R r.u.hist).2 = some e) := by
  intro fuel
  induction fuel with
  | zero => exact ⟨(fun _ _ _ h => nomatch h), (fun _ _ _ _ h => nomatch h)⟩
  | succ fuel ih =>
    constructor
    · intro u k r hd e he
      rw [Unfolder.read] at hd
      cases hf : fill R fuel u.hist (u.pend.take k) (k - (u.pend.take k).length) with
      | running => simp only [hf, Run.bind] at hd; cases hd
      | panic => simp only [hf, Run.bind] at hd; cases hd
      | done x =>
        obtain ⟨h', q', e'⟩ := x
        simp only [hf, Run.bind] at hd
        split at hd
        · cases hd
          simp only at he
          subst he
          exact fill_err _ _ _ _ _ _ _ hf
        · exact ih.2 _ _ _ _ hd e he
    · intro u q m r hd e he
      rw [settle] at hd
      simp only at hd
      split at hd
      · split at hd
        · cases hd; exact he
        · split at hd
          · split at hd
            · cases hd; exact he
            · split at hd
              · cases hd; exact he
              · exact ih.2 _ _ _ _ hd e he
          · cases hd; exact he
      · split at hd
        · split at hd
          · cases hd; exact he
          · split at hd
            · split at hd
              · cases hd; exact he
              · cases hr : Unfolder.read R fuel ⟨(R (1 :: u.hist)).1, 1 :: u.hist⟩ 2 with
                | running => simp only [hr, Run.bind] at hd; cases hd
                | panic => simp only [hr, Run.bind] at hd; cases hd
                | done x =>
                  simp only [hr, Run.bind] at hd
                  split at hd
                  · cases hd; exact ih.1 _ _ _ hr e he
                  · exact ih.2 ⟨[], x.u.hist⟩ _ _ _ hd e he
            · cases hd; exact he
        · cases hd; cases he

theorem readAll_err {R : Reader} (fuel : Nat) : ∀ (ks : List Nat) (u : Unfolder) (acc out : Bytes) (e : Nat) (u' : Unfolder),
    readAll R fuel ks u acc = .done (out, some e, u') → (R u'.hist).2 = some e := by
  intro ks
  induction ks with
  | nil => intro u acc out e u' h; cases h
  | cons k ks ih =>
    intro u acc out e u' h
    rw [readAll] at h
    cases hr : Unfolder.read R fuel u k with
    | running => simp only [hr, Run.bind] at h; cases h
    | panic => simp only [hr, Run.bind] at h; cases h
    | done r =>
      simp only [hr, Run.bind] at h
      split at h
      · simp only [Run.done.injEq, Prod.mk.injEq] at h
        rw [← h.2.2]
        exact (read_settle_err _).1 _ _ _ hr e h.2.1
      · exact ih _ _ _ _ _ h

/-! ## What has been asked for -/

theorem squeeze_read_again {fuel : Nat} : ∀ {kept win : Bytes} {n : Nat} {b : Bytes} {m : Nat}, squeeze fuel kept win n = .done (b, m) → n ≤ m ∧ (m = 0 → b = kept ++ win) := by
  induction fuel with
  | zero => intro kept win n b m h; cases h
  | succ fuel ih =>
    intro kept win n b m h
    rw [squeeze] at h
    split at h
    · split at h
      · cases h
      · simp only [Run.done.injEq, Prod.mk.injEq] at h
        obtain ⟨rfl, rfl⟩ := h
        refine ⟨Nat.le_refl _, ?_⟩
        rintro rfl
        rw [Nat.sub_zero, List.take_length]
    · have := ih h
      exact ⟨by omega, by omega⟩

/-- The filling loop ends, without an error, with more than it began with. -/
theorem fill_grows {R : Reader} (hE : Eager R) : ∀ (fuel : Nat) (h : List Nat) (q : Bytes) (k : Nat) (h' : List Nat) (q' : Bytes), 0 < k →
    fill R fuel h q k = .done (h', q', none) → q.length < q'.length := by
  intro fuel
  induction fuel with
  | zero => intro h q k h' q' _ hd; cases hd
  | succ fuel ih =>
    intro h q k h' q' hk hd
    have hz := hE k h hk
    rw [fill] at hd
    split at hd
    · omega
    · cases hs : squeeze fuel [] (R (k :: h)).1 0 with
      | running => simp only [hs, Run.bind] at hd; cases hd
      | panic => simp only [hs, Run.bind] at hd; cases hd
      | done x =>
        obtain ⟨b, m⟩ := x
        simp only [hs, Run.bind] at hd
        split at hd
        · next he =>
          simp only [Run.done.injEq, Prod.mk.injEq] at hd
          rw [hd.2.2] at he
          cases he
        · next he =>
          by_cases hm : m = 0
          · have hb := (squeeze_read_again hs).2 hm
            have hn : (R (k :: h)).2 = none := by
              cases hx : (R (k :: h)).2 with
              | none => rfl
              | some _ => rw [hx] at he; exact absurd rfl he
            have h1 := List.length_pos_iff.2 (hz hn)
            obtain ⟨t, ht⟩ := (fill_hist _ _ _ _ hd).2
            rw [← ht, hb]
            simp only [List.length_append, List.nil_append]
            omega
          · have := ih _ _ _ _ _ (by omega) hd
            rw [List.length_append] at this
            omega

/-- When a buffer that ends in CR or CR LF is passed on without an error, something has come behind it. -/
theorem settle_behind {R : Reader} (hok : ReaderOk R) (hL : LazyErr R) (hE : Eager R) : ∀ (fuel : Nat) (u : Unfolder) (q : Bytes) (r : ReadRes),
    settle R fuel u q q.length = .done r → r.err = none → [13] <:+ r.q ∨ [13, 10] <:+ r.q → r.u.pend ≠ [] := by
  intro fuel
  induction fuel with
  | zero => intro u q r h; cases h
  | succ fuel ih =>
    intro u q r hd hn
    have hkeep := settle_keeps hok hL hE
    rw [settle] at hd
    simp only at hd
    split at hd
    · next hq =>
      obtain ⟨p, rfl⟩ := snoc_of_getLast? (getLast?_of_getElem? hq.2)
      have he := hE 2 u.hist (by decide)
      split at hd
      · cases hd; exact fun _ => he hn
      · split at hd
        · next hb =>
          split at hd
          · next he => cases hd; simp only at hn; rw [hn] at he; cases he
          · have hl := hok 1 (2 :: u.hist)
            have he := hE 1 (2 :: u.hist) (by decide)
            cases hr : R (1 :: 2 :: u.hist) with
            | mk b2 e2 =>
            rw [hr] at hl he
            simp only [hr] at hd hl he
            cases e2 with
            | some e2 =>
              simp only [Option.isSome_some, if_true] at hd
              cases hd
              cases hn
            | none =>
              simp only [Option.isSome_none, Bool.false_eq_true, if_false] at hd
              have hb := List.length_pos_iff.2 (he rfl)
              have hb1 : b2.length = 1 := by omega
              have ho : overwrite (p ++ [13]) ((p ++ [13]).length - 1) b2 = p ++ b2 := by
                have := overwrite_end p [13] b2
                simp only [hb1, List.drop_succ_cons, List.drop_nil, List.append_nil] at this
                rw [← this]; simp
              rw [ho] at hd
              have hlen : ((p ++ [13]).length : Int) - 1 + b2.length = ((p ++ b2).length : Nat) := by
                simp only [List.length_append, List.length_cons, List.length_nil]; omega
              rw [hlen] at hd
              exact ih _ _ _ hd hn
        · cases hd; exact fun _ => he hn
    · next hq1 =>
      split at hd
      · next hq =>
        obtain ⟨p, rfl⟩ := endsCRLF hq
        have he := hE 1 u.hist (by decide)
        split at hd
        · cases hd; exact fun _ => he hn
        · split at hd
          · next hb =>
            split at hd
            · next he => cases hd; simp only at hn; rw [hn] at he; cases he
            · rw [hb] at hd
              cases hr : Unfolder.read R fuel ⟨[32], 1 :: u.hist⟩ 2 with
              | running => simp only [hr, Run.bind] at hd; cases hd
              | panic => simp only [hr, Run.bind] at hd; cases hd
              | done x =>
                obtain ⟨k1, k2, k3, k4, k5⟩ := inner_read hok hL hE fuel (fun f _ => hkeep f) _ _ hr
                simp only [hr, Run.bind] at hd
                have ho : overwrite (p ++ [13, 10]) ((p ++ [13, 10]).length - 2) x.q = p ++ (x.q ++ ([13, 10] : Bytes).drop x.q.length) := by
                  rw [← overwrite_end p [13, 10] x.q]; simp
                rw [ho] at hd
                split at hd
                · next he => cases hd; simp only at hn; rw [hn] at he; cases he
                · next he =>
                  have he' : x.err = none := by cases hx : x.err with
                    | none => rfl
                    | some _ => rw [hx] at he; exact absurd rfl he
                  obtain ⟨k6, k7⟩ := k4 he'
                  have hd0 : ([13, 10] : Bytes).drop x.q.length = [] := by rw [k6]; rfl
                  rw [hd0, List.append_nil] at hd
                  have hlen : ((p ++ [13, 10]).length : Int) - 2 + x.m = ((p ++ x.q).length : Nat) := by
                    simp only [List.length_append, List.length_cons, List.length_nil]; omega
                  rw [hlen] at hd
                  exact ih ⟨[], x.u.hist⟩ _ _ hd hn
          · cases hd; exact fun _ => he hn
      · next hq2 =>
        cases hd
        rintro (⟨p, rfl⟩ | ⟨p, rfl⟩)
        · exact absurd (by simp) hq1
        · exact absurd (by simp) hq2

theorem read_behind {R : Reader} (hok : ReaderOk R) (hL : LazyErr R) (hE : Eager R) (fuel k : Nat) (hk : 2 ≤ k) (u : Unfolder) (r : ReadRes)
    (hr : Unfolder.read R fuel u k = .done r) (he : r.err = none) :
    r.m = r.q.length ∧ r.q ≠ [] ∧ (u.pend ≠ [] → 2 ≤ r.q.length) ∧ ([13] <:+ r.q ∨ [13, 10] <:+ r.q → r.u.pend ≠ []) := by
  cases fuel with
  | zero => cases hr
  | succ fuel =>
    rw [Unfolder.read] at hr
    cases hf : fill R fuel u.hist (u.pend.take k) (k - (u.pend.take k).length) with
    | running => simp only [hf, Run.bind] at hr; cases hr
    | panic => simp only [hf, Run.bind] at hr; cases hr
    | done x =>
      obtain ⟨h', q', e⟩ := x
      simp only [hf, Run.bind] at hr
      cases e with
      | some e => simp only [Option.isSome_some, if_true] at hr; cases hr; cases he
      | none =>
        simp only [Option.isSome_none, Bool.false_eq_true, if_false] at hr
        obtain ⟨g1, _, _, g4, _⟩ := settle_keeps hok hL hE _ _ _ _ hr
        have hlen : 0 < q'.length ∧ (u.pend ≠ [] → 2 ≤ q'.length) := by
          by_cases h0 : k - (u.pend.take k).length = 0
          · obtain ⟨t, ht⟩ := (fill_hist _ _ _ _ hf).2
            have := congrArg List.length ht
            rw [List.length_append] at this
            exact ⟨by omega, fun _ => by omega⟩
          · have h1 := fill_grows hE _ _ _ _ _ _ (by omega) hf
            refine ⟨by omega, fun hp => ?_⟩
            have := List.length_pos_iff.2 hp
            rw [List.length_take] at h1
            omega
        refine ⟨by rw [g1]; exact g4 he, ?_, fun hp => by rw [g1]; exact hlen.2 hp, settle_behind hok hL hE _ _ _ _ hr he⟩
        intro h
        rw [h] at g1
        simp only [List.length_nil] at g1
        omega

/-- However the octets come in, folded or not: while no error has been seen, no line end has been passed on without the reader having delivered more. -/
theorem readAll_behind {R : Reader} (hok : ReaderOk R) (hL : LazyErr R) (hE : Eager R) (fuel : Nat) : ∀ (ks : List Nat) (u : Unfolder) (acc : Bytes), (∀ k ∈ ks, 2 ≤ k) →
    ([13] <:+ acc ∨ [13, 10] <:+ acc → u.pend ≠ []) → ∀ out u', readAll R fuel ks u acc = .done (out, none, u') → [13] <:+ out ∨ [13, 10] <:+ out → u'.pend ≠ [] := by
  intro ks
  induction ks with
  | nil => intro u acc _ hI out u' h; cases h; exact hI
  | cons k ks ih =>
    intro u acc hks hI out u' h
    rw [readAll] at h
    cases hr : Unfolder.read R fuel u k with
    | running => simp only [hr, Run.bind] at h; cases h
    | panic => simp only [hr, Run.bind] at h; cases h
    | done r =>
      simp only [hr, Run.bind] at h
      split at h
      · next he =>
        simp only [Run.done.injEq, Prod.mk.injEq] at h
        rw [h.2.1] at he
        cases he
      · next he =>
        have he' : r.err = none := by cases hx : r.err with
          | none => rfl
          | some _ => rw [hx] at he; exact absurd rfl he
        obtain ⟨g1, g2, g3, g4⟩ := read_behind hok hL hE fuel k (hks k (by simp)) u r hr he'
        rw [g1, Int.toNat_natCast, List.take_length] at h
        refine ih r.u (acc ++ r.q) (fun k hk => hks k (by simp [hk])) ?_ out u' h
        rintro (hs | hs)
        · rcases suffix_cr hs with ⟨h7, _⟩ | h7
          · exact absurd h7 g2
          · exact g4 (.inl h7)
        · rcases suffix_crlf hs with ⟨h7, _⟩ | ⟨h7, h8⟩ | h7
          · exact absurd h7 g2
          · have := g3 (hI (.inl h8))
            rw [h7] at this
            simp at this
          · exact g4 (.inr h7)

end Ics
