import Verif.Spec.Calls
import Verif.UnfolderCount
/-!
# Lemmas about how the unfolding reader calls the caller's reader
-/

namespace Ics

open Spec

theorem Calls.trans {R : Reader} {b : Nat} {h0 h1 h2 : List Nat} {e : Option Nat} (a : Calls R b h0 h1 none) (c : Calls R b h1 h2 e) : Calls R b h0 h2 e := by
  induction c with
  | none => exact a
  | call _ h3 h4 ih => exact .call ih h3 h4

theorem Calls.mono {R : Reader} {b b' : Nat} {h0 h1 : List Nat} {e : Option Nat} (hb : b ≤ b') (c : Calls R b h0 h1 e) : Calls R b' h0 h1 e := by
  induction c with
  | none => exact .none
  | call _ h3 h4 ih => exact .call ih h3 (Nat.le_trans h4 hb)

theorem call_of {R : Reader} {b : Nat} {h0 h : List Nat} {k : Nat} {q : Bytes} {e : Option Nat} (c : Calls R b h0 h none) (hk : 0 < k) (hb : k ≤ b) (hr : R (k :: h) = (q, e)) :
    Calls R b h0 (k :: h) e := by
  have := Calls.call c hk hb
  rwa [hr] at this

theorem squeeze_again : ∀ (fuel : Nat) (kept win : Bytes) (t : Nat) (b : Bytes) (n : Nat), squeeze fuel kept win t = .done (b, n) → n ≤ win.length := by
  intro fuel
  induction fuel with
  | zero => intro kept win t b n h; cases h
  | succ fuel ih =>
    intro kept win t b n h
    rw [squeeze] at h
    split at h
    · split at h
      · cases h
      · cases h; omega
    · have := ih _ _ _ _ _ h
      simp only [List.length_append, List.length_drop] at this
      rename_i pos hp
      omega

theorem fill_calls {R : Reader} (hok : ReaderOk R) {b : Nat} : ∀ (fuel : Nat) (h q : _) (k : Nat) (h' : List Nat) (q' : Bytes) (e : Option Nat), k ≤ b →
    fill R fuel h q k = .done (h', q', e) → Calls R b h h' e := by
  intro fuel
  induction fuel with
  | zero => intro h q k h' q' e _ hf; cases hf
  | succ fuel ih =>
    intro h q k h' q' e hk hf
    rw [fill] at hf
    split at hf
    · cases hf; exact .none
    · rename_i hk0
      have ho := hok k h
      rcases hR : R (k :: h) with ⟨p, e1⟩
      rw [hR] at hf ho
      simp only at hf ho
      rcases hs : squeeze fuel [] p 0 with ⟨b', n⟩ | _ | _
      · rw [hs] at hf
        simp only [Run.bind] at hf
        have hn := squeeze_again _ _ _ _ _ _ hs
        have c := call_of (b := b) .none (by omega) hk hR
        cases e1 with
        | some e1 => simp only [Option.isSome_some, if_true] at hf; cases hf; exact c
        | none =>
          simp only [Option.isSome_none, Bool.false_eq_true, if_false] at hf
          exact Calls.trans c (ih _ _ _ _ _ _ (by omega) hf)
      · rw [hs] at hf; cases hf
      · rw [hs] at hf; cases hf

theorem read_settle_calls {R : Reader} (hok : ReaderOk R) : ∀ fuel : Nat,
    (∀ (b : Nat) (u : Unfolder) (k : Nat) (r : ReadRes), k ≤ b → 2 ≤ b → Unfolder.read R fuel u k = .done r → Calls R b u.hist r.u.hist r.err) ∧
    (∀ (b : Nat) (u : Unfolder) (q : Bytes) (m : Int) (r : ReadRes), 2 ≤ b → settle R fuel u q m = .done r → Calls R b u.hist r.u.hist r.err) := by
  intro fuel
  induction fuel with
  | zero =>
    constructor
    · intro b u k r _ _ h; rw [Unfolder.read] at h; cases h
    · intro b u q m r _ h; rw [settle] at h; cases h
  | succ fuel ih =>
    obtain ⟨ih1, ih2⟩ := ih
    constructor
    · intro b u k r hk hb h
      rw [Unfolder.read] at h
      simp only at h
      rcases hf : fill R fuel u.hist (u.pend.take k) (k - (u.pend.take k).length) with ⟨h', q', e⟩ | _ | _
      · rw [hf] at h
        simp only [Run.bind] at h
        have c := fill_calls hok (b := b) _ _ _ _ _ _ _ (by omega) hf
        cases e with
        | some e => simp only [Option.isSome_some, if_true] at h; cases h; exact c
        | none =>
          simp only [Option.isSome_none, Bool.false_eq_true, if_false] at h
          exact Calls.trans c (ih2 b _ _ _ _ hb h)
      · rw [hf] at h; cases h
      · rw [hf] at h; cases h
    · intro b u q m r hb h
      rw [settle] at h
      simp only at h
      split at h
      · rcases hR : R (2 :: u.hist) with ⟨p, e⟩
        rw [hR] at h
        simp only at h
        have c := call_of (b := b) .none (by omega) hb hR
        split at h
        · cases h; exact c
        · split at h
          · cases e with
            | some e => simp only [Option.isSome_some, if_true] at h; cases h; exact c
            | none =>
              simp only [Option.isSome_none, Bool.false_eq_true, if_false] at h
              rcases hR2 : R (1 :: 2 :: u.hist) with ⟨p2, e2⟩
              rw [hR2] at h
              simp only at h
              have c2 := call_of (b := b) c (by omega) (by omega) hR2
              cases e2 with
              | some e2 => simp only [Option.isSome_some, if_true] at h; cases h; exact c2
              | none =>
                simp only [Option.isSome_none, Bool.false_eq_true, if_false] at h
                exact Calls.trans c2 (ih2 b _ _ _ _ hb h)
          · cases h; exact c
      · split at h
        · rcases hR : R (1 :: u.hist) with ⟨p, e⟩
          rw [hR] at h
          simp only at h
          have c := call_of (b := b) .none (by omega) (by omega) hR
          split at h
          · cases h; exact c
          · split at h
            · cases e with
              | some e => simp only [Option.isSome_some, if_true] at h; cases h; exact c
              | none =>
                simp only [Option.isSome_none, Bool.false_eq_true, if_false] at h
                rcases hr : Unfolder.read R fuel ⟨p, 1 :: u.hist⟩ 2 with r2 | _ | _
                · rw [hr] at h
                  simp only [Run.bind] at h
                  have c2 := Calls.trans c (ih1 b _ _ _ hb hb hr)
                  cases he : r2.err with
                  | some e2 => rw [he] at h c2; simp only [Option.isSome_some, if_true] at h; cases h; exact c2
                  | none =>
                    rw [he] at h c2
                    simp only [Option.isSome_none, Bool.false_eq_true, if_false] at h
                    exact Calls.trans c2 (ih2 b ⟨[], r2.u.hist⟩ _ _ _ hb h)
                · rw [hr] at h; cases h
                · rw [hr] at h; cases h
            · cases h; exact c
        · cases h; exact .none

theorem readAll_calls {R : Reader} (hok : ReaderOk R) (fuel : Nat) {b : Nat} (hb : 2 ≤ b) : ∀ (ks : List Nat) (u : Unfolder) (acc out : Bytes) (e : Option Nat) (u' : Unfolder),
    (∀ k ∈ ks, k ≤ b) → readAll R fuel ks u acc = .done (out, e, u') → Calls R b u.hist u'.hist e := by
  intro ks
  induction ks with
  | nil => intro u acc out e u' _ h; cases h; exact .none
  | cons k ks ih =>
    intro u acc out e u' hk h
    rw [readAll] at h
    rcases hr : Unfolder.read R fuel u k with r | _ | _
    · rw [hr] at h
      simp only [Run.bind] at h
      have c := (read_settle_calls hok fuel).1 b u k r (hk k List.mem_cons_self) hb hr
      cases he : r.err with
      | some e2 => rw [he] at h c; simp only [Option.isSome_some, if_true] at h; cases h; exact c
      | none =>
        rw [he] at h c
        simp only [Option.isSome_none, Bool.false_eq_true, if_false] at h
        exact Calls.trans c (ih _ _ _ _ _ (fun k h => hk k (List.mem_cons_of_mem _ h)) h)
    · rw [hr] at h; cases h
    · rw [hr] at h; cases h

end Ics
