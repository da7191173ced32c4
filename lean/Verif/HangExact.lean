import Verif.Spec.Stuck
import Verif.HangLemmas
import Verif.DemandLemmas
/-!
# Exactly when reading does not return
-/

namespace Ics

open Spec

theorem stuck_iff {b : Bytes} : Stuck b ↔ ¬ squeezable b := by
  unfold Stuck squeezable badEnd isRot hasFold
  constructor
  · rintro ⟨h1, h2⟩ h
    refine h h1 ?_
    rcases h2 with ⟨X, h2⟩ | ⟨X, h2⟩ | ⟨X, h2⟩
    · exact ⟨X, _, h2.symm, .inl rfl⟩
    · exact ⟨X, _, h2.symm, .inr (.inl rfl)⟩
    · exact ⟨X, _, h2.symm, .inr (.inr rfl)⟩
  · intro h
    rw [Classical.not_imp, Classical.not_not] at h
    obtain ⟨h1, X, t, h2, h3⟩ := h
    refine ⟨h1, ?_⟩
    rcases h3 with rfl | rfl | rfl
    · exact .inl ⟨X, h2.symm⟩
    · exact .inr (.inl ⟨X, h2.symm⟩)
    · exact .inr (.inr ⟨X, h2.symm⟩)

/-- As soon as there is an error there are no more calls. -/
theorem Calls.only_last {R : Reader} {b : Nat} {h0 h1 : List Nat} {e : Option Nat} (c : Calls R b h0 h1 e) : ∀ k h, h0 <:+ h → k :: h <:+ h1 →
    ((R (k :: h)).2 = none ∨ (k :: h = h1 ∧ e = (R h1).2)) ∧ (e = none → (R (k :: h)).2 = none) := by
  induction c with
  | none =>
    intro k h g1 g2
    have h1 := g1.length_le
    have h2 := g2.length_le
    simp only [List.length_cons] at h2
    omega
  | @call h' k' c' _ _ ih =>
    intro k h g1 g2
    rcases List.suffix_cons_iff.1 g2 with g3 | g3
    · rw [g3]
      exact ⟨.inr ⟨rfl, rfl⟩, fun he => he⟩
    · have := (ih k h g1 g3).2 rfl
      exact ⟨.inl this, fun _ => this⟩

open Classical in
/-- The same reader, but where a piece would be one on which a `Read` does not return, it fails.  Not in /repo: an argument about unfolder.go:14-83. -/
noncomputable def stopStuck (R : Reader) : Reader := fun h => if Stuck (R h).1 then ([], some 0) else R h

theorem stopStuck_pos {R : Reader} {h : List Nat} (hs : Stuck (R h).1) : stopStuck R h = ([], some 0) := by unfold stopStuck; exact if_pos hs

theorem stopStuck_neg {R : Reader} {h : List Nat} (hs : ¬ Stuck (R h).1) : stopStuck R h = R h := by unfold stopStuck; exact if_neg hs

theorem stopStuck_ok {R : Reader} (hok : ReaderOk R) : ReaderOk (stopStuck R) := fun k h => by
  by_cases hs : Stuck (R (k :: h)).1
  · rw [stopStuck_pos hs]; simp
  · rw [stopStuck_neg hs]; exact hok k h

theorem stopStuck_squeezable (R : Reader) (k : Nat) (h : List Nat) : squeezable (stopStuck R (k :: h)).1 := by
  by_cases hs : Stuck (R (k :: h)).1
  · rw [stopStuck_pos hs]; exact small_squeezable (by simp)
  · rw [stopStuck_neg hs]
    rw [stuck_iff, Classical.not_not] at hs
    exact hs

theorem stopStuck_delivered (R : Reader) : ∀ h, (delivered (stopStuck R) h).length ≤ (delivered R h).length
  | [] => Nat.le_refl _
  | k :: h => by
    have ih := stopStuck_delivered R h
    rw [delivered, delivered, List.length_append, List.length_append]
    by_cases hs : Stuck (R (k :: h)).1
    · rw [stopStuck_pos hs]; simp only [List.length_nil]; omega
    · rw [stopStuck_neg hs]; omega

/-- Readers with finitely many octets none of whose pieces is such a piece: all of the reading returns. -/
theorem readAll_finishes {R : Reader} (hok : ReaderOk R) (hs : ∀ k h, squeezable (R (k :: h)).1) (N : Nat) (hN : ∀ h, (delivered R h).length ≤ N) : ∀ (ks : List Nat) (u : Unfolder) (acc : Bytes),
    ∃ fuel x, readAll R fuel ks u acc = .done x := by
  intro ks
  induction ks with
  | nil => intro u acc; exact ⟨0, _, rfl⟩
  | cons k ks ih =>
    intro u acc
    obtain ⟨r, hr, _⟩ := (read_settle_finish hok hs N hN (2 * N + 6 + k)).1 u k (by omega) (by omega)
    obtain ⟨f, x, hx⟩ := ih r.u (acc ++ r.q.take r.m.toNat)
    have hsame : ∀ a b, Answers R R a b := fun a b k h _ _ => rfl
    refine ⟨max f (2 * N + 6 + k), ?_⟩
    rw [readAll, (read_settle_same _).1 _ _ _ _ hr (hsame _ _) (Nat.le_max_right ..), Run.bind_done]
    split
    · exact ⟨_, rfl⟩
    · exact ⟨x, readAll_same (Nat.le_max_left ..) _ _ _ _ hx (hsame _ _)⟩

theorem readAll_ne_panic {R : Reader} {fuel : Nat} : ∀ (ks : List Nat) (u : Unfolder) (acc : Bytes), readAll R fuel ks u acc ≠ .panic := by
  intro ks
  induction ks with
  | nil => intro u acc h; cases h
  | cons k ks ih =>
    intro u acc h
    rw [readAll] at h
    cases hr : Unfolder.read R fuel u k with
    | running => simp only [hr, Run.bind] at h; cases h
    | panic => exact (read_settle_ne_panic _).1 _ _ hr
    | done r =>
      simp only [hr, Run.bind] at h
      split at h
      · cases h
      · exact ih _ _ h

theorem le_max_all (ks : List Nat) : 2 ≤ ks.foldr max 2 ∧ ∀ k ∈ ks, k ≤ ks.foldr max 2 := by
  induction ks with
  | nil => exact ⟨Nat.le_refl _, nofun⟩
  | cons a ks ih =>
    rw [List.foldr_cons]
    refine ⟨Nat.le_trans ih.1 (Nat.le_max_right ..), fun k hk => ?_⟩
    rcases List.mem_cons.1 hk with rfl | hk
    · exact Nat.le_max_left ..
    · exact Nat.le_trans (ih.2 k hk) (Nat.le_max_right ..)

/-- The calls of a run with `stopStuck`: either there is a call that would be answered with such a piece, and it is the last one, or the calls are answered as they are. -/
theorem stopStuck_cases {R : Reader} {b : Nat} {h0 h1 : List Nat} {e : Option Nat} (c : Calls (stopStuck R) b h0 h1 e) :
    (∃ k h, h0 <:+ h ∧ h1 = k :: h ∧ Stuck (R (k :: h)).1 ∧ e ≠ none ∧ Answers (stopStuck R) (failsAt R (k :: h)) h0 h1) ∨ Answers (stopStuck R) R h0 h1 := by
  by_cases hex : ∃ k h, h0 <:+ h ∧ k :: h <:+ h1 ∧ Stuck (R (k :: h)).1
  · left
    obtain ⟨k, h, g1, g2, g3⟩ := hex
    have hlast : ∀ k' h', h0 <:+ h' → k' :: h' <:+ h1 → Stuck (R (k' :: h')).1 → k' :: h' = h1 ∧ e ≠ none := fun k' h' a1 a2 a3 => by
      have h4 := Calls.only_last c k' h' a1 a2
      rw [stopStuck_pos a3] at h4
      rcases h4.1 with h5 | ⟨h5, h6⟩
      · cases h5
      · refine ⟨h5, fun hn => ?_⟩
        have := h4.2 hn
        cases this
    obtain ⟨g4, g5⟩ := hlast k h g1 g2 g3
    refine ⟨k, h, g1, g4.symm, g3, g5, fun k' h' a1 a2 => ?_⟩
    unfold failsAt
    by_cases heq : k' :: h' = k :: h
    · rw [if_pos heq, heq, stopStuck_pos g3]
    · rw [if_neg heq, stopStuck_neg]
      intro hs
      exact heq ((hlast k' h' a1 a2 hs).1.trans g4.symm)
  · right
    intro k h g1 g2
    exact stopStuck_neg fun hs => hex ⟨k, h, g1, g2, hs⟩

theorem readAll_hangs_iff {R : Reader} (hok : ReaderOk R) (hfin : ∃ N, ∀ h, (delivered R h).length ≤ N) (ks : List Nat) (u : Unfolder) (acc : Bytes) :
    (∀ fuel, readAll R fuel ks u acc = .running) ↔
      ∃ k h fuel out e u', u.hist <:+ h ∧ Stuck (R (k :: h)).1 ∧ readAll (failsAt R (k :: h)) fuel ks u acc = .done (out, e, u') ∧ u'.hist = k :: h := by
  obtain ⟨N, hN⟩ := hfin
  constructor
  · intro hh
    obtain ⟨fuel, ⟨out, e, u'⟩, hx⟩ := readAll_finishes (stopStuck_ok hok) (stopStuck_squeezable R) N (fun h => Nat.le_trans (stopStuck_delivered R h) (hN h)) ks u acc
    have c := readAll_calls (stopStuck_ok hok) fuel (le_max_all ks).1 ks u acc out e u' (le_max_all ks).2 hx
    rcases stopStuck_cases c with ⟨k, h, g1, g2, g3, _, g4⟩ | hs
    · exact ⟨k, h, fuel, out, e, u', g1, g3, readAll_same (Nat.le_refl _) _ _ _ _ hx g4, g2⟩
    · have := readAll_same (Nat.le_refl _) _ _ _ _ hx hs
      rw [hh fuel] at this
      cases this
  · rintro ⟨k, h, f, out, e, u', g1, g2, g3, g4⟩ fuel
    cases hr : readAll R fuel ks u acc with
    | running => rfl
    | panic => exact absurd hr (readAll_ne_panic _ _ _)
    | done x =>
      exfalso
      by_cases hb : k :: h <:+ x.2.2.hist
      · exact stuck_iff.1 g2 (readAll_squeezed hok _ _ _ _ hr k h g1 hb)
      · have hs : Answers R (failsAt R (k :: h)) u.hist x.2.2.hist := fun k' h' _ a2 => by
          unfold failsAt
          rw [if_neg]
          intro heq
          rw [heq] at a2
          exact hb a2
        have h1 := readAll_same (Nat.le_max_left fuel f) _ _ _ _ hr hs
        have h2 := readAll_same (R' := failsAt R (k :: h)) (Nat.le_max_right fuel f) _ _ _ _ g3 fun _ _ _ _ => rfl
        rw [h1] at h2
        injection h2 with h2
        subst h2
        exact hb (by rw [g4]; exact List.suffix_refl _)

/-! ## Decode -/

theorem decodeDemand_grows {E : Env} {R : Reader} {f : Nat} {ks : List Nat} {u : Unfolder} {acc : Bytes} {x : Res Cal × Unfolder} (h : decodeDemand E R f ks u acc = .done x) : u.hist <:+ x.2.hist := by
  obtain ⟨a, b⟩ := x
  obtain ⟨_, _, _, _, _, g, _⟩ := decodeDemand_done h
  exact (readAll_grows _ _ _ _ _ _ g).1

theorem decodeDemand_same {E : Env} {R R' : Reader} {f f' : Nat} (hf : f ≤ f') : ∀ (ks : List Nat) (u : Unfolder) (acc : Bytes) (x : Res Cal × Unfolder),
    decodeDemand E R f ks u acc = .done x → Answers R R' u.hist x.2.hist → decodeDemand E R' f' ks u acc = .done x := by
  intro ks
  induction ks with
  | nil =>
    intro u acc x h _
    cases hd : decodeOpen E (runesOpen acc) with
    | some y => rw [decodeDemand_some hd] at h ⊢; exact h
    | none => rw [decodeDemand_nil hd] at h; cases h
  | cons k ks ih =>
    intro u acc x h hs
    cases hd : decodeOpen E (runesOpen acc) with
    | some y => rw [decodeDemand_some hd] at h ⊢; exact h
    | none =>
      rw [decodeDemand_none hd] at h ⊢
      obtain ⟨r, h1, h2⟩ := Run.bind_eq_done h
      have h3 := (read_settle_hist _).1 _ _ _ h1
      have h4 : r.u.hist <:+ x.2.hist := by
        split at h2
        · cases h2; exact List.suffix_refl _
        · exact decodeDemand_grows h2
      rw [(read_settle_same f).1 f' _ _ _ h1 (hs.left h4) hf, Run.bind_done]
      split at h2
      · next he => rw [if_pos he]; exact h2
      · next he => rw [if_neg he]; exact ih _ _ _ h2 (hs.right h3)

theorem decodeDemand_of_readAll {E : Env} {R : Reader} {f : Nat} : ∀ (ks : List Nat) (u : Unfolder) (acc out : Bytes) (e : Option Nat) (u' : Unfolder), readAll R f ks u acc = .done (out, e, u') →
    (∃ x, decodeDemand E R f ks u acc = .done x) ∨ e = none := by
  intro ks u acc out e u' h
  cases e with
  | none => exact .inr rfl
  | some e => obtain ⟨u'', h1, _⟩ := decodeDemand_readAll (E := E) h; exact .inl ⟨_, h1⟩

theorem decodeDemand_ne_panic {E : Env} {R : Reader} {fuel : Nat} : ∀ (ks : List Nat) (u : Unfolder) (acc : Bytes), decodeDemand E R fuel ks u acc ≠ .panic := by
  intro ks
  induction ks with
  | nil =>
    intro u acc h
    cases hd : decodeOpen E (runesOpen acc) with
    | some y => rw [decodeDemand_some hd] at h; cases h
    | none => rw [decodeDemand_nil hd] at h; cases h
  | cons k ks ih =>
    intro u acc h
    cases hd : decodeOpen E (runesOpen acc) with
    | some y => rw [decodeDemand_some hd] at h; cases h
    | none =>
      rw [decodeDemand_none hd] at h
      cases hr : Unfolder.read R fuel u k with
      | running => simp only [hr, Run.bind] at h; cases h
      | panic => exact (read_settle_ne_panic _).1 _ _ hr
      | done r =>
        simp only [hr, Run.bind] at h
        split at h
        · cases h
        · exact ih _ _ h

theorem decodeDemand_hangs_iff {E : Env} {R : Reader} (hok : ReaderOk R) (hfin : ∃ N, ∀ h, (delivered R h).length ≤ N) (ks : List Nat)
    (hend : ∀ fuel out u, readAll R fuel ks {} [] ≠ .done (out, none, u)) :
    (∀ fuel, decodeDemand E R fuel ks {} [] = .running) ↔
      ∃ k h fuel x u', Stuck (R (k :: h)).1 ∧ decodeDemand E (failsAt R (k :: h)) fuel ks {} [] = .done (x, u') ∧ u'.hist = k :: h := by
  obtain ⟨N, hN⟩ := hfin
  constructor
  · intro hh
    obtain ⟨fuel, ⟨out, e, u'⟩, hx⟩ := readAll_finishes (stopStuck_ok hok) (stopStuck_squeezable R) N (fun h => Nat.le_trans (stopStuck_delivered R h) (hN h)) ks {} []
    rcases decodeDemand_of_readAll (E := E) _ _ _ _ _ _ hx with ⟨⟨x, u1⟩, hd⟩ | rfl
    · obtain ⟨ks1, ks2, out1, e1, _, g, _⟩ := decodeDemand_done hd
      have c := readAll_calls (stopStuck_ok hok) fuel (le_max_all ks1).1 ks1 {} [] out1 e1 u1 (le_max_all ks1).2 g
      rcases stopStuck_cases c with ⟨k, h, g1, g2, g3, _, g4⟩ | hs
      · exact ⟨k, h, fuel, x, u1, g3, decodeDemand_same (Nat.le_refl _) _ _ _ _ hd g4, g2⟩
      · have := decodeDemand_same (Nat.le_refl _) _ _ _ _ hd hs
        rw [hh fuel] at this
        cases this
    · have c := readAll_calls (stopStuck_ok hok) fuel (le_max_all ks).1 ks {} [] out none u' (le_max_all ks).2 hx
      rcases stopStuck_cases c with ⟨k, h, g1, g2, g3, g5, g4⟩ | hs
      · exact absurd rfl g5
      · exact absurd (readAll_same (Nat.le_refl _) _ _ _ _ hx hs) (hend _ _ _)
  · rintro ⟨k, h, f, x, u', g2, g3, g4⟩ fuel
    cases hr : decodeDemand E R fuel ks {} [] with
    | running => rfl
    | panic => exact absurd hr (decodeDemand_ne_panic _ _ _)
    | done y =>
      exfalso
      obtain ⟨y, u1⟩ := y
      obtain ⟨ks1, ks2, out1, e1, _, g, _⟩ := decodeDemand_done hr
      by_cases hb : k :: h <:+ u1.hist
      · exact stuck_iff.1 g2 (readAll_squeezed hok _ _ _ _ g k h (List.nil_suffix) hb)
      · have hs : Answers R (failsAt R (k :: h)) [] u1.hist := fun k' h' _ a2 => by
          unfold failsAt
          rw [if_neg]
          intro heq
          rw [heq] at a2
          exact hb a2
        have h1 := decodeDemand_same (Nat.le_max_left fuel f) _ _ _ _ hr hs
        have h2 := decodeDemand_same (R' := failsAt R (k :: h)) (Nat.le_max_right fuel f) _ _ _ _ g3 fun _ _ _ _ => rfl
        rw [h1] at h2
        injection h2 with h2
        injection h2 with _ h2
        subst h2
        exact hb (by rw [g4]; exact List.suffix_refl _)

end Ics
