import Verif.ReadingLemmas
import Verif.Spec.Waiting
/-!
# How often the unfolder asks the underlying reader
-/

namespace Ics

open Spec

theorem suffix_cons_trans {α : Type} {a : α} {l m : List α} (h : a :: l <:+ m) : l <:+ m := (List.suffix_cons a l).trans h

theorem Run.bind_eq_done {α β : Type} {x : Run α} {f : α → Run β} {b : β} (h : x.bind f = .done b) : ∃ a, x = .done a ∧ f a = .done b := by
  cases x with
  | done a => exact ⟨a, rfl, h⟩
  | panic => cases h
  | running => cases h

theorem fill_asks {R : Reader} : ∀ (fuel : Nat) (h : List Nat) (q : Bytes) (k : Nat) (h' : List Nat) (q' : Bytes) (e : Option Nat),
    fill R fuel h q k = .done (h', q', e) → h <:+ h' ∧ (0 < k → k :: h <:+ h') := by
  intro fuel
  induction fuel with
  | zero => intro h q k h' q' e x; cases x
  | succ fuel ih =>
    intro h q k h' q' e x
    rw [fill] at x
    split at x
    · next hk => cases x; exact ⟨List.suffix_refl _, fun h => by omega⟩
    · cases hR : R (k :: h) with
      | mk b er =>
        rw [hR] at x
        dsimp only at x
        obtain ⟨⟨b', m⟩, _, x⟩ := Run.bind_eq_done x
        dsimp only at x
        split at x
        · cases x; exact ⟨List.suffix_cons _ _, fun _ => List.suffix_refl _⟩
        · obtain ⟨h1, _⟩ := ih _ _ _ _ _ _ x
          exact ⟨suffix_cons_trans h1, fun _ => h1⟩

/-- The calls made so far stay recorded, and one is added if the buffer may end inside of a marker. -/
theorem settle_asks {R : Reader} : ∀ (fuel : Nat), (∀ u k r, Unfolder.read R fuel u k = .done r → u.hist <:+ r.u.hist) ∧
    (∀ u q m r, settle R fuel u q m = .done r → u.hist <:+ r.u.hist ∧ (EndsInCR q ∨ EndsInCRLF q → ∃ n, n :: u.hist <:+ r.u.hist)) := by
  intro fuel
  induction fuel with
  | zero => exact ⟨fun u k r h => by simp [Unfolder.read] at h, fun u q m r h => by simp [settle] at h⟩
  | succ fuel ih =>
    obtain ⟨ih1, ih2⟩ := ih
    refine ⟨fun u k r h => ?_, fun u q m r h => ?_⟩
    · rw [Unfolder.read] at h
      obtain ⟨⟨h', q', e⟩, h1, h2⟩ := Run.bind_eq_done h
      have g := (fill_asks _ _ _ _ _ _ _ h1).1
      simp only at h2
      split at h2
      · cases h2; exact g
      · exact g.trans (ih2 _ _ _ _ h2).1
    · rw [settle] at h
      have key : ∀ n : Nat, n :: u.hist <:+ r.u.hist → u.hist <:+ r.u.hist ∧ (EndsInCR q ∨ EndsInCRLF q → ∃ n, n :: u.hist <:+ r.u.hist) :=
        fun n h => ⟨suffix_cons_trans h, fun _ => ⟨n, h⟩⟩
      by_cases hb1 : EndsInCR q
      · simp only [if_pos (show q.length > 0 ∧ q[q.length - 1]? = some 13 from hb1)] at h
        apply key 2
        repeat' split at h
        all_goals first
          | (cases h; exact List.suffix_refl _)
          | (cases h; exact List.suffix_cons _ _)
          | exact suffix_cons_trans (ih2 _ _ _ _ h).1
      · by_cases hb2 : EndsInCRLF q
        · simp only [if_neg (show ¬ (q.length > 0 ∧ q[q.length - 1]? = some 13) from hb1),
            if_pos (show q.length > 1 ∧ q[q.length - 2]? = some 13 ∧ q[q.length - 1]? = some 10 from hb2)] at h
          apply key 1
          split at h
          · cases h; exact List.suffix_refl _
          · split at h
            · split at h
              · cases h; exact List.suffix_refl _
              · obtain ⟨r', h1, h2⟩ := Run.bind_eq_done h
                have g := ih1 _ _ _ h1
                split at h2
                · cases h2; exact g
                · exact g.trans (ih2 _ _ _ _ h2).1
            · cases h; exact List.suffix_refl _
        · simp only [if_neg (show ¬ (q.length > 0 ∧ q[q.length - 1]? = some 13) from hb1),
            if_neg (show ¬ (q.length > 1 ∧ q[q.length - 2]? = some 13 ∧ q[q.length - 1]? = some 10) from hb2)] at h
          cases h
          exact ⟨List.suffix_refl _, fun h => by rcases h with h | h <;> contradiction⟩

theorem squeeze_toRead : ∀ (fuel : Nat) (kept win : Bytes) (n : Nat) (b : Bytes) (m : Nat), squeeze fuel kept win n = .done (b, m) → n ≤ m ∧
    (hasFold win → n + 3 ≤ m) := by
  intro fuel
  induction fuel with
  | zero => intro kept win n b m h; cases h
  | succ fuel ih =>
    intro kept win n b m h
    rw [squeeze] at h
    cases hf : findFold win with
    | none =>
      simp only [hf] at h
      split at h
      · cases h
      · cases h; exact ⟨Nat.le_refl _, fun hw => absurd hw ((findFold_none_iff win).1 hf)⟩
    | some pos =>
      simp only [hf] at h
      have := (ih _ _ _ _ _ h).1
      exact ⟨by omega, fun _ => this⟩

/-- The piece ends in CR LF, and the next octet is not a SPACE: both are passed on. -/
theorem readAll_one_more {R : Reader} {doc : Bytes} {k : Nat} (hk : 0 < k) (hR : R [k] = (doc, none)) (h1 : ¬ hasFold doc) (h2 : ¬ EndsInCR doc)
    (h3 : EndsInCRLF doc) (hb : (R [1, k]).1 ≠ [32]) {fuel : Nat} (hf : 4 ≤ fuel) :
    readAll R fuel [k] {} [] = .done (doc, (R [1, k]).2, ⟨(R [1, k]).1, [1, k]⟩) := by
  obtain ⟨f, rfl⟩ : ∃ f, fuel = f + 4 := ⟨fuel - 4, by omega⟩
  have hs := squeeze_noFold (f + 1) doc h1
  rw [readAll, Unfolder.read]
  simp only [List.take_nil, List.length_nil, Nat.sub_zero, List.drop_nil]
  rw [fill, if_neg (by omega), hR]
  simp only
  rw [hs, Run.bind_done]
  simp only [Option.isSome_none, Bool.false_eq_true, if_false, List.nil_append]
  rw [fill, if_pos rfl, Run.bind_done]
  simp only [Option.isSome_none, Bool.false_eq_true, if_false]
  rw [settle]
  simp only [if_neg (show ¬ (doc.length > 0 ∧ doc[doc.length - 1]? = some 13) from h2),
    if_pos (show doc.length > 1 ∧ doc[doc.length - 2]? = some 13 ∧ doc[doc.length - 1]? = some 10 from h3), if_neg hb, ite_self, Run.bind_done]
  cases he : (R [1, k]).2 <;> simp [readAll]

end Ics
