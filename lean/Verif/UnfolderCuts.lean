import Verif.UnfolderTerm
import Verif.Spec.Cuts
/-!
# Lemmas: the unfolding reader when markers are cut, and when not
-/

namespace Ics

open Spec

theorem removeFolds_uncut (a b : Bytes) (h1 : ¬ ([13, 10] <:+ a ∧ [32] <+: b)) (h2 : ¬ ([13] <:+ a ∧ [10, 32] <+: b)) :
    removeFolds (a ++ b) = removeFolds a ++ removeFolds b := by
  generalize hn : a.length = n
  induction n using Nat.strongRecOn generalizing a with
  | _ n ih =>
    rcases a with _ | ⟨x, a⟩
    · rfl
    have hs : ∀ r, r <:+ (x :: a) → ¬ ([13, 10] <:+ r ∧ [32] <+: b) ∧ ¬ ([13] <:+ r ∧ [10, 32] <+: b) := fun r hr =>
      ⟨fun h => h1 ⟨h.1.trans hr, h.2⟩, fun h => h2 ⟨h.1.trans hr, h.2⟩⟩
    by_cases hm : ∃ r, x :: a = 13 :: 10 :: 32 :: r
    · obtain ⟨r, hr⟩ := hm
      have hr' := hs r ⟨[13, 10, 32], by rw [hr]; rfl⟩
      rw [hr]
      simp only [List.cons_append]
      rw [removeFolds, if_pos ⟨rfl, rfl, rfl⟩, removeFolds, if_pos ⟨rfl, rfl, rfl⟩]
      refine ih r.length ?_ r hr'.1 hr'.2 rfl
      rw [← hn, hr]; simp only [List.length_cons]; omega
    · have hr' := hs a ⟨[x], rfl⟩
      rw [List.cons_append, removeFolds_ne, removeFolds_ne x a, ih a.length (by rw [← hn]; simp) a hr'.1 hr'.2 rfl, List.cons_append]
      · intro r hr; exact hm ⟨r, hr⟩
      · intro r hr
        rcases a with _ | ⟨y, _ | ⟨z, a⟩⟩
        · simp only [List.nil_append, List.cons.injEq] at hr
          obtain ⟨rfl, rfl⟩ := hr
          exact h2 ⟨⟨[], rfl⟩, ⟨r, rfl⟩⟩
        · simp only [List.cons_append, List.nil_append, List.cons.injEq] at hr
          obtain ⟨rfl, rfl, rfl⟩ := hr
          exact h1 ⟨⟨[], rfl⟩, ⟨r, rfl⟩⟩
        · simp only [List.cons_append, List.cons.injEq] at hr
          obtain ⟨rfl, rfl, rfl, _⟩ := hr
          exact hm ⟨_, rfl⟩

/-- The same when the first part ends in SPACE. -/
theorem removeFolds_append_space (a b : Bytes) : removeFolds (a ++ [32] ++ b) = removeFolds (a ++ [32]) ++ removeFolds b := by
  apply removeFolds_uncut
  · rintro ⟨⟨p, hp⟩, _⟩
    have := congrArg List.getLast? hp
    simp at this
  · rintro ⟨⟨p, hp⟩, _⟩
    have := congrArg List.getLast? hp
    simp at this

theorem removeFolds_snoc (a : Bytes) (x : UInt8) (h : x ≠ 32) : removeFolds (a ++ [x]) = removeFolds a ++ [x] := by
  refine removeFolds_uncut a [x] ?_ ?_
  · rintro ⟨_, p, hp⟩
    simp only [List.cons_append, List.nil_append, List.cons.injEq] at hp
    exact h hp.1.symm
  · rintro ⟨_, p, hp⟩
    simp at hp

theorem removeFolds_at_marker (a : Bytes) (r : Bytes) : removeFolds (a ++ [13, 10, 32] ++ r) = removeFolds a ++ removeFolds r := by
  rw [List.append_assoc]
  refine (removeFolds_uncut a ([13, 10, 32] ++ r) ?_ ?_).trans ?_
  · rintro ⟨_, p, hp⟩
    simp at hp
  · rintro ⟨_, p, hp⟩
    simp at hp
  · rfl

theorem removeFolds_head (a : UInt8) (r : Bytes) (h : a ≠ 13) : removeFolds (a :: r) = a :: removeFolds r := by
  apply removeFolds_ne
  intro r' hr'
  simp at hr'
  exact h hr'.1

/-! ## Histories only grow -/

theorem fill_hist {R : Reader} : ∀ (fuel : Nat) (h : List Nat) (q : Bytes) (k : Nat) {h' : List Nat} {q' : Bytes} {e : Option Nat},
    fill R fuel h q k = .done (h', q', e) → h <:+ h' ∧ q <+: q' := by
  intro fuel
  induction fuel with
  | zero => intro h q k h' q' e hd; cases hd
  | succ fuel ih =>
    intro h q k h' q' e hd
    rw [fill] at hd
    split at hd
    · cases hd; exact ⟨List.suffix_refl _, List.prefix_refl _⟩
    · cases hs : squeeze fuel [] (R (k :: h)).1 0 with
      | running => simp only [hs, Run.bind] at hd; cases hd
      | panic => simp only [hs, Run.bind] at hd; cases hd
      | done x =>
        simp only [hs, Run.bind] at hd
        split at hd
        · cases hd; exact ⟨List.suffix_cons _ _, List.prefix_append _ _⟩
        · obtain ⟨h1, h2⟩ := ih _ _ _ hd
          exact ⟨(List.suffix_cons _ _).trans h1, (List.prefix_append _ _).trans h2⟩

theorem read_settle_hist {R : Reader} : ∀ (fuel : Nat),
    (∀ (u : Unfolder) (k : Nat) (r : ReadRes), Unfolder.read R fuel u k = .done r → u.hist <:+ r.u.hist) ∧
    (∀ (u : Unfolder) (q : Bytes) (m : Int) (r : ReadRes), settle R fuel u q m = .done r → u.hist <:+ r.u.hist) := by
  intro fuel
  induction fuel with
  | zero => exact ⟨(fun _ _ _ h => nomatch h), (fun _ _ _ _ h => nomatch h)⟩
  | succ fuel ih =>
    constructor
    · intro u k r hd
      rw [Unfolder.read] at hd
      cases hf : fill R fuel u.hist (u.pend.take k) (k - (u.pend.take k).length) with
      | running => simp only [hf, Run.bind] at hd; cases hd
      | panic => simp only [hf, Run.bind] at hd; cases hd
      | done x =>
        obtain ⟨h', q', e⟩ := x
        simp only [hf, Run.bind] at hd
        have h1 := (fill_hist _ _ _ _ hf).1
        split at hd
        · cases hd; exact h1
        · exact h1.trans (ih.2 _ _ _ _ hd)
    · intro u q m r hd
      rw [settle] at hd
      simp only at hd
      split at hd
      · split at hd
        · cases hd; exact List.suffix_cons _ _
        · split at hd
          · split at hd
            · cases hd; exact List.suffix_cons _ _
            · split at hd
              · cases hd; exact (List.suffix_cons _ _).trans (List.suffix_cons _ _)
              · exact ((List.suffix_cons _ _).trans (List.suffix_cons _ _)).trans (ih.2 _ _ _ _ hd)
          · cases hd; exact List.suffix_cons _ _
      · split at hd
        · split at hd
          · cases hd; exact List.suffix_cons _ _
          · split at hd
            · split at hd
              · cases hd; exact List.suffix_cons _ _
              · cases hr : Unfolder.read R fuel ⟨(R (1 :: u.hist)).1, 1 :: u.hist⟩ 2 with
                | running => simp only [hr, Run.bind] at hd; cases hd
                | panic => simp only [hr, Run.bind] at hd; cases hd
                | done x =>
                  simp only [hr, Run.bind] at hd
                  have h1 := ih.1 _ _ _ hr
                  have h2 := (List.suffix_cons _ _).trans h1
                  split at hd
                  · cases hd; exact h2
                  · exact h2.trans (ih.2 ⟨[], x.u.hist⟩ _ _ _ hd)
            · cases hd; exact List.suffix_cons _ _
        · cases hd; exact List.suffix_refl _

/-! ## What is in front of a SPACE stays -/

/-- Not in /repo: what `settle` (unfolder.go:47-81) does to a buffer `q`. -/
def Keeps (q : Bytes) (r : ReadRes) : Prop :=
  r.q.length = q.length ∧ 0 ≤ r.m ∧ r.m ≤ q.length ∧ (r.err = none → r.m = q.length) ∧
    ∀ x, x <+: q → x.getLast? = some 32 → x <+: r.q.take r.m.toNat

theorem Keeps.refl (u : Unfolder) (q : Bytes) (e : Option Nat) : Keeps q ⟨u, q, q.length, e⟩ :=
  ⟨rfl, Int.natCast_nonneg _, Int.le_refl _, fun _ => rfl, fun x hx _ => by simpa using hx⟩

theorem small_noFold {b : Bytes} (h : b.length ≤ 2) : ¬ hasFold b := fun hb => by have := hasFold_length hb; omega

theorem inner_read {R : Reader} (hok : ReaderOk R) (hL : LazyErr R) (hE : Eager R) (fuel : Nat)
    (ih : ∀ f < fuel, ∀ (u : Unfolder) (q : Bytes) (r : ReadRes), settle R f u q q.length = .done r → Keeps q r)
    (h : List Nat) (r : ReadRes) (hd : Unfolder.read R fuel ⟨[32], h⟩ 2 = .done r) :
    r.q.length ≤ 2 ∧ 0 ≤ r.m ∧ r.m ≤ r.q.length ∧ (r.err = none → r.q.length = 2 ∧ r.m = 2) ∧ [32] <+: r.q.take r.m.toNat := by
  match fuel, hd with
  | 0, hd => cases hd
  | 1, hd =>
    rw [Unfolder.read] at hd
    cases hd
  | 2, hd =>
    rw [Unfolder.read] at hd
    simp only [List.take_succ_cons, List.take_nil, List.length_cons, List.length_nil] at hd
    rw [fill] at hd
    simp only [squeeze, Run.bind] at hd
    cases hd
  | fuel + 3, hd =>
    rw [Unfolder.read] at hd
    simp only [List.take_succ_cons, List.take_nil, List.length_cons, List.length_nil, List.drop_succ_cons, List.drop_nil] at hd
    rw [fill] at hd
    have hl := hok 1 h
    have hz := hL 1 h
    have he := hE 1 h (by decide)
    cases hr : R (1 :: h) with
    | mk b e =>
    simp only [Nat.reduceSub, Nat.reduceAdd, Nat.one_ne_zero, if_false, hr] at hd
    rw [hr] at hl hz he
    simp only at hl hz he
    rw [squeeze_noFold _ _ (small_noFold (by omega))] at hd
    simp only [Run.bind_done] at hd
    cases e with
    | some e =>
      obtain rfl := hz (by simp)
      simp only [Option.isSome_some, if_true, Run.bind_done] at hd
      cases hd
      simp
    | none =>
      simp only [Option.isSome_none, Bool.false_eq_true, if_false] at hd
      rw [fill] at hd
      simp only [if_true, Run.bind_done, Option.isSome_none, Bool.false_eq_true, if_false] at hd
      obtain ⟨g1, g2, g3, g4, g5⟩ := ih _ (by omega) _ _ _ hd
      have hb := List.length_pos_iff.2 (he rfl)
      have hb1 : b.length = 1 := by omega
      simp only [List.length_append, List.length_cons, List.length_nil, hb1] at g1 g3 g4
      exact ⟨by omega, g2, by omega, fun hn => ⟨by omega, g4 hn⟩, g5 [32] ⟨b, rfl⟩ rfl⟩

theorem overwrite_end (p t b : Bytes) : overwrite (p ++ t) p.length b = p ++ (b ++ t.drop b.length) := by
  unfold overwrite
  rw [List.take_left' rfl, List.drop_append, List.drop_eq_nil_of_le (by omega)]
  simp

theorem prefix_snoc {x p : Bytes} {y : UInt8} (h : x <+: p ++ [y]) (hx : x.getLast? = some 32) (hy : y ≠ 32) : x <+: p := by
  rcases List.prefix_concat_iff.1 h with rfl | h
  · simp at hx; exact absurd hx hy
  · exact h

theorem endsCRLF {q : Bytes} (h : q.length > 1 ∧ q[q.length - 2]? = some 13 ∧ q[q.length - 1]? = some 10) : ∃ p, q = p ++ [13, 10] := by
  obtain ⟨p, rfl⟩ := snoc_of_getLast? (getLast?_of_getElem? h.2.2)
  have h2 := h.2.1
  simp only [List.length_append, List.length_cons, List.length_nil] at h2 h
  rw [List.getElem?_append_left (by omega)] at h2
  have : p[p.length - 1]? = some 13 := by
    rw [← h2]; congr 1
  obtain ⟨p', rfl⟩ := snoc_of_getLast? (getLast?_of_getElem? this)
  exact ⟨p', by simp⟩

theorem settle_keeps {R : Reader} (hok : ReaderOk R) (hL : LazyErr R) (hE : Eager R) : ∀ (fuel : Nat) (u : Unfolder) (q : Bytes) (r : ReadRes),
    settle R fuel u q q.length = .done r → Keeps q r := by
  intro fuel
  induction fuel using Nat.strongRecOn with
  | _ fuel ih =>
  cases fuel with
  | zero => intro u q r h; cases h
  | succ fuel =>
    intro u q r hd
    rw [settle] at hd
    simp only at hd
    split at hd
    · next hq =>
      obtain ⟨p, rfl⟩ := snoc_of_getLast? (getLast?_of_getElem? hq.2)
      split at hd
      · cases hd; exact Keeps.refl _ _ _
      · split at hd
        · next hb =>
          split at hd
          · next he =>
            have := hL 2 u.hist (by rw [Option.isSome_iff_ne_none] at he; exact he)
            rw [hb] at this; cases this
          · have hl := hok 1 (2 :: u.hist)
            have hz := hL 1 (2 :: u.hist)
            have he := hE 1 (2 :: u.hist) (by decide)
            cases hr : R (1 :: 2 :: u.hist) with
            | mk b2 e2 =>
            rw [hr] at hl hz he
            simp only [hr] at hd hl hz he
            cases e2 with
            | some e2 =>
              obtain rfl := hz (by simp)
              simp only [Option.isSome_some, if_true] at hd
              cases hd
              refine ⟨?_, ?_, ?_, ?_, fun x hx hl => ?_⟩
              · simp [overwrite]
              · simp
              · simp; omega
              · simp
              · have := prefix_snoc hx hl (by decide)
                simp [overwrite]
                exact this
            | none =>
              simp only [Option.isSome_none, Bool.false_eq_true, if_false] at hd
              have hb := List.length_pos_iff.2 (he rfl)
              have hb1 : b2.length = 1 := by omega
              have ho : overwrite (p ++ [13]) ((p ++ [13]).length - 1) b2 = p ++ b2 := by
                have := overwrite_end p [13] b2
                simp only [hb1, List.drop_succ_cons, List.drop_nil, List.append_nil] at this
                rw [← this]; simp
              rw [ho] at hd
              have hlen : ((p ++ [13]).length : Int) - 1 + b2.length = ((p ++ b2).length : Nat) := by
                simp only [List.length_append, List.length_cons, List.length_nil]; omega
              rw [hlen] at hd
              obtain ⟨g1, g2, g3, g4, g5⟩ := ih _ (Nat.lt_succ_self _) _ _ _ hd
              have hsame : (p ++ b2).length = (p ++ [13]).length := by simp [hb1]
              rw [hsame] at g1 g3 g4
              exact ⟨g1, g2, g3, g4, fun x hx hl => g5 x ((prefix_snoc hx hl (by decide)).trans (List.prefix_append _ _)) hl⟩
        · cases hd; exact Keeps.refl _ _ _
    · split at hd
      · next hq =>
        obtain ⟨p, rfl⟩ := endsCRLF hq
        split at hd
        · cases hd; exact Keeps.refl _ _ _
        · split at hd
          · next hb =>
            split at hd
            · next he =>
              have := hL 1 u.hist (by rw [Option.isSome_iff_ne_none] at he; exact he)
              rw [hb] at this; cases this
            · rw [hb] at hd
              cases hr : Unfolder.read R fuel ⟨[32], 1 :: u.hist⟩ 2 with
              | running => simp only [hr, Run.bind] at hd; cases hd
              | panic => simp only [hr, Run.bind] at hd; cases hd
              | done x =>
                obtain ⟨k1, k2, k3, k4, k5⟩ := inner_read hok hL hE fuel (fun f hf => ih f (by omega)) _ _ hr
                simp only [hr, Run.bind] at hd
                have ho : overwrite (p ++ [13, 10]) ((p ++ [13, 10]).length - 2) x.q = p ++ (x.q ++ ([13, 10] : Bytes).drop x.q.length) := by
                  rw [← overwrite_end p [13, 10] x.q]; simp
                rw [ho] at hd
                have hpre : ∀ y, y <+: p ++ [13, 10] → y.getLast? = some 32 → y <+: p := fun y hy hl => by
                  have : y <+: (p ++ [13]) ++ [10] := by simpa using hy
                  exact prefix_snoc (prefix_snoc this hl (by decide)) hl (by decide)
                split at hd
                · next he =>
                  cases hd
                  refine ⟨?_, ?_, ?_, ?_, fun y hy hl => ?_⟩
                  · simp only [List.length_append, List.length_drop, List.length_cons, List.length_nil]; omega
                  · simp only [List.length_append, List.length_cons, List.length_nil]; omega
                  · simp only [List.length_append, List.length_cons, List.length_nil]; omega
                  · intro hn; simp only at hn; rw [hn] at he; cases he
                  · refine (hpre y hy hl).trans ?_
                    rw [List.prefix_take_iff]
                    refine ⟨List.prefix_append _ _, ?_⟩
                    simp only [List.length_append, List.length_cons, List.length_nil]; omega
                · next he =>
                  have he' : x.err = none := by cases hx : x.err with
                    | none => rfl
                    | some _ => rw [hx] at he; exact absurd rfl he
                  obtain ⟨k6, k7⟩ := k4 he'
                  have hd0 : ([13, 10] : Bytes).drop x.q.length = [] := by rw [k6]; rfl
                  rw [hd0, List.append_nil] at hd
                  have hlen : ((p ++ [13, 10]).length : Int) - 2 + x.m = ((p ++ x.q).length : Nat) := by
                    simp only [List.length_append, List.length_cons, List.length_nil]; omega
                  rw [hlen] at hd
                  obtain ⟨g1, g2, g3, g4, g5⟩ := ih _ (Nat.lt_succ_self _) ⟨[], x.u.hist⟩ _ _ hd
                  have hsame : (p ++ x.q).length = (p ++ [13, 10]).length := by simp [k6]
                  rw [hsame] at g1 g3 g4
                  exact ⟨g1, g2, g3, g4, fun y hy hl => g5 y ((hpre y hy hl).trans (List.prefix_append _ _)) hl⟩
          · cases hd; exact Keeps.refl _ _ _
      · cases hd; exact Keeps.refl _ _ _

/-- If a SPACE comes after a buffer that ends in CR LF, it is put in the place of CR LF. -/
theorem settle_space {R : Reader} (hok : ReaderOk R) (hL : LazyErr R) (hE : Eager R) (fuel : Nat) (u : Unfolder) (p : Bytes) (r : ReadRes)
    (hd : settle R fuel u (p ++ [13, 10]) (p ++ [13, 10]).length = .done r) (hb : (R (1 :: u.hist)).1 = [32]) : p ++ [32] <+: r.q.take r.m.toNat := by
  cases fuel with
  | zero => cases hd
  | succ fuel =>
    rw [settle] at hd
    have h1 : ¬ ((p ++ [13, 10]).length > 0 ∧ (p ++ [13, 10])[(p ++ [13, 10]).length - 1]? = some 13) := by
      rintro ⟨_, h⟩
      have := getLast?_of_getElem? h
      simp at this
    have h2 : (p ++ [13, 10]).length > 1 ∧ (p ++ [13, 10])[(p ++ [13, 10]).length - 2]? = some 13 ∧ (p ++ [13, 10])[(p ++ [13, 10]).length - 1]? = some 10 := by
      simp
    have he : (R (1 :: u.hist)).2 = none := by
      cases he : (R (1 :: u.hist)).2 with
      | none => rfl
      | some e =>
        have := hL 1 u.hist (by rw [he]; simp)
        rw [hb] at this; cases this
    simp only [if_neg h1, if_pos h2, hb, he, List.length_cons, List.length_nil, Nat.lt_irrefl, if_false, if_true, Option.isSome_none, Bool.false_eq_true, Nat.zero_add] at hd
    cases hr : Unfolder.read R fuel ⟨[32], 1 :: u.hist⟩ 2 with
    | running => simp only [hr, Run.bind] at hd; cases hd
    | panic => simp only [hr, Run.bind] at hd; cases hd
    | done x =>
      obtain ⟨k1, k2, k3, k4, k5⟩ := inner_read hok hL hE fuel (fun f _ => settle_keeps hok hL hE f) _ _ hr
      simp only [hr, Run.bind] at hd
      have ho : overwrite (p ++ [13, 10]) ((p ++ [13, 10]).length - 2) x.q = p ++ (x.q ++ ([13, 10] : Bytes).drop x.q.length) := by
        rw [← overwrite_end p [13, 10] x.q]; simp
      rw [ho] at hd
      rw [List.prefix_take_iff] at k5
      obtain ⟨⟨y, k5⟩, k6⟩ := k5
      split at hd
      · cases hd
        rw [List.prefix_take_iff]
        refine ⟨?_, ?_⟩
        · rw [← k5]; exact ⟨y ++ ([13, 10] : Bytes).drop ([32] ++ y).length, by simp⟩
        · simp only [List.length_append, List.length_cons, List.length_nil] at k6 ⊢; omega
      · next he =>
        have he' : x.err = none := by cases hx : x.err with
          | none => rfl
          | some _ => rw [hx] at he; exact absurd rfl he
        obtain ⟨k7, k8⟩ := k4 he'
        have hd0 : ([13, 10] : Bytes).drop x.q.length = [] := by rw [k7]; rfl
        rw [hd0, List.append_nil] at hd
        have hlen : ((p ++ [13, 10]).length : Int) - 2 + x.m = ((p ++ x.q).length : Nat) := by
          simp only [List.length_append, List.length_cons, List.length_nil]; omega
        rw [hlen] at hd
        refine (settle_keeps hok hL hE fuel ⟨[], x.u.hist⟩ _ _ hd).2.2.2.2 _ ?_ (by simp)
        rw [← k5]
        exact ⟨y, by simp⟩

/-! ## Right, or off for good -/

theorem delivered_mono {R : Reader} {h h' : List Nat} (hh : h <:+ h') : delivered R h <+: delivered R h' := by
  obtain ⟨t, rfl⟩ := hh
  induction t with
  | nil => exact List.prefix_refl _
  | cons k t ih => exact ih.trans (List.prefix_append _ _)

theorem split_mono {R : Reader} {h h' : List Nat} (hh : h <:+ h') (hs : MarkerSplit R h) : MarkerSplit R h' := by
  obtain ⟨k, t, h1, h2⟩ := hs
  exact ⟨k, t, h1.trans hh, h2⟩

theorem not_split_cons {R : Reader} {k : Nat} {h : List Nat} (hn : ¬ MarkerSplit R h) (hs : ¬ Splits (delivered R h) k (R (k :: h)).1) : ¬ MarkerSplit R (k :: h) := by
  rintro ⟨k', h', h1, h2⟩
  rcases List.suffix_cons_iff.1 h1 with h3 | h3
  · cases h3; exact hs h2
  · exact hn ⟨k', h', h3, h2⟩

/-- What was received so far differs from the unfolded document, whatever comes: a marker was left in, or a SPACE was put in, or the unfolded document has a marker.
Not in /repo: an invariant for unfolder.go:14-83. -/
def Off (R : Reader) (h : List Nat) (out : Bytes) : Prop :=
  (MarkerSplit R h ∧ ((∃ y, y ++ [13, 10, 32] <+: out) ∨ ∃ a, a ++ [13, 10, 32] <+: delivered R h ∧ removeFolds a ++ [32] <+: out)) ∨
  ∃ a, a ++ [32] <+: delivered R h ∧ hasFold (removeFolds (a ++ [32]))

theorem Off.mono {R : Reader} {h h' : List Nat} {out out' : Bytes} (ho : Off R h out) (hh : h <:+ h') (hp : out <+: out') : Off R h' out' := by
  rcases ho with ⟨h1, ⟨y, h2⟩ | ⟨a, h2, h3⟩⟩ | ⟨a, h2, h3⟩
  · exact .inl ⟨split_mono hh h1, .inl ⟨y, h2.trans hp⟩⟩
  · exact .inl ⟨split_mono hh h1, .inr ⟨a, h2.trans (delivered_mono hh), h3.trans hp⟩⟩
  · exact .inr ⟨a, h2.trans (delivered_mono hh), h3⟩

theorem keeps_prefix {acc q x : Bytes} {r : ReadRes} (hk : Keeps q r) (hx : x <+: acc ++ q) (hl : x.getLast? = some 32) : x <+: acc ++ r.q.take r.m.toNat := by
  obtain ⟨t, ht⟩ := hx
  rcases List.append_eq_append_iff.1 ht with ⟨a, rfl, h⟩ | ⟨a, rfl, h⟩
  · exact ⟨a ++ r.q.take r.m.toNat, by simp⟩
  · by_cases ha : a = []
    · subst ha; simp
    · obtain ⟨z, hz⟩ := hk.2.2.2.2 a ⟨t, h.symm⟩ (by rwa [getLast?_append_ne _ _ ha] at hl)
      exact ⟨z, by rw [List.append_assoc, hz]⟩

/-- `Off` survives the second loop. -/
theorem Off.keeps {R : Reader} {h h' : List Nat} {acc q : Bytes} {r : ReadRes} (ho : Off R h (acc ++ q)) (hk : Keeps q r) (hh : h <:+ h') :
    Off R h' (acc ++ r.q.take r.m.toNat) := by
  rcases ho with ⟨h1, ⟨y, h2⟩ | ⟨a, h2, h3⟩⟩ | ⟨a, h2, h3⟩
  · exact .inl ⟨split_mono hh h1, .inl ⟨y, keeps_prefix hk h2 (by simp)⟩⟩
  · exact .inl ⟨split_mono hh h1, .inr ⟨a, h2.trans (delivered_mono hh), keeps_prefix hk h3 (by simp)⟩⟩
  · exact .inr ⟨a, h2.trans (delivered_mono hh), h3⟩

theorem squeeze_more : ∀ (f : Nat) (kept win : Bytes) (n : Nat) (x : Bytes × Nat) (j : Nat), squeeze f kept win n = .done x → squeeze (f + j) kept win n = .done x := by
  intro f
  induction f with
  | zero => intro kept win n x j h; cases h
  | succ f ih =>
    intro kept win n x j h
    rw [show f + 1 + j = (f + j) + 1 by omega]
    rw [squeeze] at h ⊢
    cases hf : findFold win with
    | none => simp only [hf] at h ⊢; exact h
    | some p => simp only [hf] at h ⊢; exact ih _ _ _ _ _ h

theorem squeeze_done {f : Nat} {b : Bytes} {x : Bytes × Nat} (h : squeeze f [] b 0 = .done x) :
    squeezable b ∧ x = (removeFolds b, b.length - (removeFolds b).length) := by
  have hs : squeezable b := fun hb he => by rw [squeeze_bad f b [] 0 hb he] at h; cases h
  refine ⟨hs, ?_⟩
  have := squeeze_more f [] b 0 x (b.length + 1) h
  rw [squeeze_good _ b (by omega) hs] at this
  cases this; rfl

theorem removeFolds_length3 (b : Bytes) : ∃ n, b.length = (removeFolds b).length + 3 * n := by
  generalize hn : b.length = n
  induction n using Nat.strongRecOn generalizing b with
  | _ n ih =>
    rcases b with _ | ⟨x, b⟩
    · exact ⟨0, by subst hn; rfl⟩
    by_cases hm : ∃ r, x :: b = 13 :: 10 :: 32 :: r
    · obtain ⟨r, hr⟩ := hm
      rw [hr] at hn ⊢
      simp only [List.length_cons] at hn
      obtain ⟨m, h⟩ := ih r.length (by omega) r rfl
      rw [removeFolds, if_pos ⟨rfl, rfl, rfl⟩]
      exact ⟨m + 1, by omega⟩
    · simp only [List.length_cons] at hn
      obtain ⟨m, h⟩ := ih b.length (by omega) b rfl
      rw [removeFolds_ne x b (fun r hr => hm ⟨r, hr⟩)]
      exact ⟨m, by simp only [List.length_cons]; omega⟩

/-- A piece put behind CR or CR LF by the filling loop. -/
theorem split_left {D b out : Bytes} {k : Nat} (hs : Splits D k b) (ho : out = removeFolds D) : ∃ y, y ++ [13, 10, 32] <+: out ++ removeFolds b := by
  rcases hs with ⟨⟨a, rfl⟩, ⟨r, rfl⟩⟩ | ⟨_, ⟨a, rfl⟩, ⟨r, rfl⟩⟩
  · have h1 : removeFolds (a ++ [13, 10]) = removeFolds a ++ [13, 10] := by
      have := removeFolds_snoc (a ++ [13]) 10 (by decide)
      rw [removeFolds_snoc a 13 (by decide)] at this
      simpa using this
    have h2 : removeFolds ([32] ++ r) = 32 :: removeFolds r := removeFolds_head 32 r (by decide)
    exact ⟨removeFolds a, removeFolds r, by rw [ho, h1, h2]; simp⟩
  · have h1 := removeFolds_snoc a 13 (by decide)
    have h2 : removeFolds ([10, 32] ++ r) = 10 :: 32 :: removeFolds r := by
      show removeFolds (10 :: 32 :: r) = _
      rw [removeFolds_head 10 _ (by decide), removeFolds_head 32 _ (by decide)]
    exact ⟨removeFolds a, removeFolds r, by rw [ho, h1, h2]; simp⟩

theorem not_splits {D b : Bytes} {k : Nat} (hk : k ≠ 2) (h : ¬ Splits D k b) : removeFolds (D ++ b) = removeFolds D ++ removeFolds b :=
  removeFolds_uncut D b (fun h1 => h (.inl h1)) (fun h1 => h (.inr ⟨hk, h1⟩))

theorem fill_verdict {R : Reader} : ∀ (fuel : Nat) (h : List Nat) (acc q : Bytes) (k : Nat) (h' : List Nat) (q' : Bytes) (e : Option Nat),
    fill R fuel h q k = .done (h', q', e) → k ≠ 2 → ¬ MarkerSplit R h → acc ++ q = removeFolds (delivered R h) →
    (¬ MarkerSplit R h' ∧ acc ++ q' = removeFolds (delivered R h')) ∨ Off R h' (acc ++ q') := by
  intro fuel
  induction fuel with
  | zero => intro h acc q k h' q' e hd; cases hd
  | succ fuel ih =>
    intro h acc q k h' q' e hd hk hn hq
    have hd0 := hd
    rw [fill] at hd
    split at hd
    · cases hd; exact .inl ⟨hn, hq⟩
    · cases hs : squeeze fuel [] (R (k :: h)).1 0 with
      | running => simp only [hs, Run.bind] at hd; cases hd
      | panic => simp only [hs, Run.bind] at hd; cases hd
      | done x =>
        obtain ⟨_, rfl⟩ := squeeze_done hs
        simp only [hs, Run.bind] at hd
        by_cases hsp : Splits (delivered R h) k (R (k :: h)).1
        · right
          have hoff : Off R (k :: h) (acc ++ (q ++ removeFolds (R (k :: h)).1)) := by
            refine .inl ⟨⟨k, h, List.suffix_refl _, hsp⟩, .inl ?_⟩
            rw [← List.append_assoc]
            exact split_left hsp hq
          split at hd
          · cases hd; exact hoff
          · obtain ⟨h1, h2⟩ := fill_hist _ _ _ _ hd
            refine hoff.mono h1 ?_
            obtain ⟨t, rfl⟩ := h2
            exact ⟨t, by simp⟩
        · have hn' := not_split_cons hn hsp
          have hq' : acc ++ (q ++ removeFolds (R (k :: h)).1) = removeFolds (delivered R (k :: h)) := by
            rw [delivered, not_splits hk hsp, ← hq, List.append_assoc]
          split at hd
          · cases hd; exact .inl ⟨hn', hq'⟩
          · refine ih _ _ _ _ _ _ _ hd ?_ hn' hq'
            obtain ⟨n, hl⟩ := removeFolds_length3 (R (k :: h)).1
            omega

/-- Everything is right so far.  Not in /repo: an invariant for unfolder.go:14-83. -/
def RightSoFar (R : Reader) (u : Unfolder) (out : Bytes) : Prop :=
  ¬ MarkerSplit R u.hist ∧ out ++ u.pend = removeFolds (delivered R u.hist) ∧ u.pend.length ≤ 2

/-- A probe that delivers something other than the rest of a marker. -/
theorem probe_other {R : Reader} {h : List Nat} {out : Bytes} {k : Nat} (hk : (R (k :: h)).1.length ≤ 2) (hn : ¬ MarkerSplit R h) (hq : out = removeFolds (delivered R h))
    (h1 : ¬ ([13, 10] <:+ delivered R h ∧ [32] <+: (R (k :: h)).1)) (h2 : ¬ ([13] <:+ delivered R h ∧ [10, 32] <+: (R (k :: h)).1)) :
    RightSoFar R ⟨(R (k :: h)).1, k :: h⟩ out := by
  refine ⟨not_split_cons hn ?_, ?_, hk⟩
  · rintro (h | ⟨_, h⟩)
    · exact h1 h
    · exact h2 h
  · show out ++ (R (k :: h)).1 = removeFolds (delivered R h ++ (R (k :: h)).1)
    rw [removeFolds_uncut _ _ h1 h2, ← hq, removeFolds_of_none ((findFold_none_iff _).2 (small_noFold hk))]

theorem two_eq {b : Bytes} {x y : UInt8} (h : [x, y] <+: b) (hl : b.length ≤ 2) : b = [x, y] := by
  obtain ⟨t, rfl⟩ := h
  simp only [List.length_append, List.length_cons, List.length_nil] at hl
  obtain rfl : t = [] := List.length_eq_zero_iff.1 (by omega)
  rfl

theorem one_eq {b : Bytes} {x : UInt8} (h : [x] <+: b) (hl : b.length ≤ 1) : b = [x] := by
  obtain ⟨t, rfl⟩ := h
  simp only [List.length_append, List.length_cons, List.length_nil] at hl
  obtain rfl : t = [] := List.length_eq_zero_iff.1 (by omega)
  rfl

theorem snoc_inj {a b : Bytes} {x y : UInt8} (h : a ++ [x] = b ++ [y]) : a = b ∧ x = y := by
  have := List.append_inj' h rfl
  exact ⟨this.1, by simpa using this.2⟩

/-- The unfolded text has a marker that is not one of the document. -/
theorem off_new {R : Reader} {h h' : List Nat} {out a z : Bytes} (hd : delivered R h = a ++ z ++ [32]) (hr : removeFolds (a ++ z ++ [32]) = out ++ [13, 10, 32]) (hh : h <:+ h') (o : Bytes) :
    Off R h' o := by
  refine .inr ⟨a ++ z, ?_, ?_⟩
  · rw [← hd]; exact delivered_mono hh
  · rw [hr]; exact ⟨out, [], by simp⟩

theorem settle_verdict {R : Reader} (hok : ReaderOk R) (hL : LazyErr R) (hE : Eager R) : ∀ (fuel : Nat) (h : List Nat) (acc q : Bytes) (r : ReadRes),
    settle R fuel ⟨[], h⟩ q q.length = .done r → ¬ MarkerSplit R h → acc ++ q = removeFolds (delivered R h) →
    (RightSoFar R r.u (acc ++ r.q.take r.m.toNat) ∧ (r.err ≠ none → r.u.pend = [])) ∨ Off R r.u.hist (acc ++ r.q.take r.m.toNat) := by
  intro fuel
  induction fuel with
  | zero => intro h acc q r hd; cases hd
  | succ fuel ih =>
    intro h acc q r hd hn hq
    have hkeep := settle_keeps hok hL hE _ _ _ _ hd
    have hd0 := hd
    rw [settle] at hd
    simp only at hd
    split at hd
    · next hcr =>
      obtain ⟨p, rfl⟩ := snoc_of_getLast? (getLast?_of_getElem? hcr.2)
      have hl := hok 2 h
      have hno10 : ¬ [13, 10] <:+ delivered R h := by
        rintro ⟨a, ha⟩
        have h1 := removeFolds_snoc (a ++ [13]) 10 (by decide)
        rw [show a ++ [13] ++ [10] = a ++ [13, 10] by simp, ha, ← hq, ← List.append_assoc] at h1
        have := (snoc_inj h1).2
        simp at this
      by_cases hb : (R (2 :: h)).1 = [10, 32]
      · have he : (R (2 :: h)).2 = none := by
          cases he : (R (2 :: h)).2 with
          | none => rfl
          | some e =>
            have := hL 2 h (by rw [he]; simp)
            rw [hb] at this; cases this
        by_cases hD : [13] <:+ delivered R h
        · -- the rest of a marker
          obtain ⟨a, ha⟩ := hD
          have hq1 : removeFolds (delivered R h) = removeFolds a ++ [13] := by rw [← ha]; exact removeFolds_snoc a 13 (by decide)
          have hp : acc ++ p = removeFolds a := by
            rw [← hq, ← List.append_assoc] at hq1
            exact (snoc_inj hq1).1
          have hdel : delivered R (2 :: h) = a ++ [13, 10, 32] := by rw [delivered, hb, ← ha]; simp
          have hrem : removeFolds (delivered R (2 :: h)) = acc ++ p := by
            have := removeFolds_at_marker a []
            rw [List.append_nil] at this
            rw [hdel, this, hp]; simp [removeFolds]
          have hn2 : ¬ MarkerSplit R (2 :: h) := by
            refine not_split_cons hn ?_
            rintro (⟨h1, _⟩ | ⟨h1, _⟩)
            · exact hno10 h1
            · exact h1 rfl
          have hl1 := hok 1 (2 :: h)
          have hz := hL 1 (2 :: h)
          have hee := hE 1 (2 :: h) (by decide)
          simp only [hb, he, List.length_cons, List.length_nil, Nat.lt_irrefl, if_false, if_true, Option.isSome_none, Bool.false_eq_true, Nat.zero_add] at hd
          have hn3 : ¬ MarkerSplit R (1 :: 2 :: h) := by
            refine not_split_cons hn2 ?_
            have : ∀ x : Bytes, x.getLast? ≠ some 32 → ¬ x <:+ delivered R (2 :: h) ∨ x = [] := fun x hx => by
              by_cases hx0 : x = []
              · exact .inr hx0
              · left
                rintro ⟨t, ht⟩
                rw [hdel] at ht
                have := congrArg List.getLast? ht
                rw [getLast?_append_ne _ _ hx0] at this
                simp at this
                exact hx this
            rintro (⟨h1, _⟩ | ⟨_, h1, _⟩)
            · rcases this [13, 10] (by decide) with h2 | h2
              · exact h2 h1
              · cases h2
            · rcases this [13] (by decide) with h2 | h2
              · exact h2 h1
              · cases h2
          have hdel2 : delivered R (1 :: 2 :: h) = a ++ [13, 10] ++ [32] ++ (R (1 :: 2 :: h)).1 := by rw [delivered, hdel]; simp
          have hrem2 : removeFolds (delivered R (1 :: 2 :: h)) = acc ++ p ++ (R (1 :: 2 :: h)).1 := by
            rw [hdel2, removeFolds_append_space, removeFolds_of_none (w := (R (1 :: 2 :: h)).1) ((findFold_none_iff _).2 (small_noFold (by omega)))]
            rw [show a ++ [13, 10] ++ [32] = delivered R (2 :: h) by rw [hdel]; simp, hrem]
          cases hr : R (1 :: 2 :: h) with
          | mk b2 e2 =>
          rw [hr] at hl1 hz hee hrem2
          simp only [hr] at hd hl1 hz hee hrem2
          cases e2 with
          | some e2 =>
            obtain rfl := hz (by simp)
            simp only [Option.isSome_some, if_true] at hd
            cases hd
            refine .inl ⟨⟨hn3, ?_, by simp⟩, fun _ => rfl⟩
            rw [hrem2]
            simp [overwrite]
          | none =>
            simp only [Option.isSome_none, Bool.false_eq_true, if_false] at hd
            have hb := List.length_pos_iff.2 (hee rfl)
            have hb1 : b2.length = 1 := by omega
            have ho : overwrite (p ++ [13]) ((p ++ [13]).length - 1) b2 = p ++ b2 := by
              have := overwrite_end p [13] b2
              simp only [hb1, List.drop_succ_cons, List.drop_nil, List.append_nil] at this
              rw [← this]; simp
            rw [ho] at hd
            have hlen : ((p ++ [13]).length : Int) - 1 + b2.length = ((p ++ b2).length : Nat) := by
              simp only [List.length_append, List.length_cons, List.length_nil]; omega
            rw [hlen] at hd
            exact ih _ acc _ _ hd hn3 (by rw [hrem2, List.append_assoc])
        · -- the unfolded text gets a marker that is none of the document
          right
          have hu : removeFolds (delivered R (2 :: h)) = acc ++ p ++ [13, 10, 32] := by
            rw [delivered, removeFolds_uncut _ _ (fun h1 => hno10 h1.1) (fun h1 => hD h1.1), ← hq, hb]
            simp [removeFolds]
          have hdel : delivered R (2 :: h) = delivered R h ++ [10] ++ [32] := by rw [delivered, hb]; simp
          rw [hdel] at hu
          refine off_new hdel hu ?_ _
          have hd1 := hd
          simp only [hb, he, List.length_cons, List.length_nil, Nat.lt_irrefl, if_false, if_true, Option.isSome_none, Bool.false_eq_true, Nat.zero_add] at hd1
          split at hd1
          · cases hd1; exact List.suffix_cons _ _
          · exact (List.suffix_cons _ _).trans ((read_settle_hist _).2 _ _ _ _ hd1)
      · -- something else
        left
        have hres : r = ⟨⟨(R (2 :: h)).1, 2 :: h⟩, p ++ [13], (p ++ [13]).length, (R (2 :: h)).2⟩ := by
          split at hd
          · cases hd; rfl
          · cases hd; rfl
        subst hres
        refine ⟨?_, fun he => hL 2 h he⟩
        have := probe_other (R := R) (k := 2) (h := h) (out := acc ++ (p ++ [13])) hl hn hq (fun h1 => hno10 h1.1) (fun h1 => hb (two_eq h1.2 hl))
        show RightSoFar R _ (acc ++ List.take ((p ++ [13]).length : Int).toNat (p ++ [13]))
        rw [Int.toNat_natCast, List.take_length]
        exact this
    · next hncr =>
      split at hd
      · next hcrlf =>
        obtain ⟨p, rfl⟩ := endsCRLF hcrlf
        have hl := hok 1 h
        have hlast : (delivered R h).getLast? ≠ some 13 := by
          intro hc
          obtain ⟨a, ha⟩ := snoc_of_getLast? hc
          have h1 := removeFolds_snoc a 13 (by decide)
          rw [← ha, ← hq, show acc ++ (p ++ [13, 10]) = (acc ++ p ++ [13]) ++ [10] by simp] at h1
          have := (snoc_inj h1).2
          simp at this
        have hno13 : ¬ [13] <:+ delivered R h := by
          rintro ⟨a, ha⟩
          rw [← ha] at hlast; simp at hlast
        by_cases hb : (R (1 :: h)).1 = [32]
        · right
          have hsuf : (1 :: h) <:+ r.u.hist := by
            have hd1 := hd
            simp only [hb, List.length_cons, List.length_nil, Nat.lt_irrefl, if_false, if_true, Nat.zero_add] at hd1
            split at hd1
            · cases hd1; exact List.suffix_refl _
            · cases hr : Unfolder.read R fuel ⟨[32], 1 :: h⟩ 2 with
              | running => simp only [hr, Run.bind] at hd1; cases hd1
              | panic => simp only [hr, Run.bind] at hd1; cases hd1
              | done x =>
                have h1 := (read_settle_hist _).1 _ _ _ hr
                simp only [hr, Run.bind] at hd1
                split at hd1
                · cases hd1; exact h1
                · exact h1.trans ((read_settle_hist _).2 ⟨[], x.u.hist⟩ _ _ _ hd1)
          by_cases hD : [13, 10] <:+ delivered R h
          · obtain ⟨a, ha⟩ := hD
            have hrem : removeFolds (delivered R h) = removeFolds a ++ [13, 10] := by
              have h1 := removeFolds_snoc (a ++ [13]) 10 (by decide)
              rw [removeFolds_snoc a 13 (by decide)] at h1
              rw [← ha]; simpa using h1
            have hp : acc ++ p = removeFolds a := by
              rw [← hq, ← List.append_assoc] at hrem
              exact (List.append_inj' hrem rfl).1
            have hpre := settle_space hok hL hE _ _ _ _ hd0 hb
            refine .inl ⟨split_mono hsuf ⟨1, h, List.suffix_refl _, .inl ⟨⟨a, ha⟩, by rw [hb]; exact List.prefix_refl _⟩⟩, .inr ⟨a, ?_, ?_⟩⟩
            · refine List.IsPrefix.trans ?_ (delivered_mono hsuf)
              rw [delivered, hb, ← ha]; simp
            · rw [← hp]
              obtain ⟨t, ht⟩ := hpre
              exact ⟨t, by rw [← ht]; simp⟩
          · have hu : removeFolds (delivered R (1 :: h)) = acc ++ p ++ [13, 10, 32] := by
              rw [delivered, removeFolds_uncut _ _ (fun h1 => hD h1.1) (fun h1 => hno13 h1.1), ← hq, hb]
              simp [removeFolds]
            have hdel : delivered R (1 :: h) = delivered R h ++ [] ++ [32] := by rw [delivered, hb]; simp
            rw [hdel] at hu
            exact off_new hdel hu hsuf _
        · left
          have hres : r = ⟨⟨(R (1 :: h)).1, 1 :: h⟩, p ++ [13, 10], (p ++ [13, 10]).length, (R (1 :: h)).2⟩ := by
            split at hd
            · cases hd; rfl
            · cases hd; rfl
          subst hres
          refine ⟨?_, fun he => hL 1 h he⟩
          have := probe_other (R := R) (k := 1) (h := h) (out := acc ++ (p ++ [13, 10])) (by omega) hn hq (fun h1 => hb (one_eq h1.2 hl)) (fun h1 => hno13 h1.1)
          show RightSoFar R _ (acc ++ List.take ((p ++ [13, 10]).length : Int).toNat (p ++ [13, 10]))
          rw [Int.toNat_natCast, List.take_length]
          exact this
      · cases hd
        left
        refine ⟨⟨hn, ?_, by simp⟩, fun h => absurd rfl h⟩
        simpa using hq

theorem read_verdict {R : Reader} (hok : ReaderOk R) (hL : LazyErr R) (hE : Eager R) (fuel : Nat) (u : Unfolder) (acc : Bytes) (k : Nat) (hk : 5 ≤ k) (r : ReadRes)
    (hd : Unfolder.read R fuel u k = .done r) (hg : RightSoFar R u acc) :
    (RightSoFar R r.u (acc ++ r.q.take r.m.toNat) ∧ (r.err ≠ none → r.u.pend = [])) ∨ Off R r.u.hist (acc ++ r.q.take r.m.toNat) := by
  obtain ⟨hn, hq, hp⟩ := hg
  cases fuel with
  | zero => cases hd
  | succ fuel =>
    rw [Unfolder.read] at hd
    have ht : u.pend.take k = u.pend := List.take_of_length_le (by omega)
    have hdr : u.pend.drop k = [] := List.drop_of_length_le (by omega)
    simp only [ht, hdr] at hd
    cases hf : fill R fuel u.hist u.pend (k - u.pend.length) with
    | running => simp only [hf, Run.bind] at hd; cases hd
    | panic => simp only [hf, Run.bind] at hd; cases hd
    | done x =>
      obtain ⟨h', q', e⟩ := x
      simp only [hf, Run.bind] at hd
      have hv := fill_verdict _ _ acc _ _ _ _ _ hf (by omega) hn hq
      split at hd
      · cases hd
        rcases hv with ⟨h1, h2⟩ | hv
        · exact .inl ⟨⟨h1, by simpa using h2, by simp⟩, fun _ => rfl⟩
        · right; simpa using hv
      · rcases hv with ⟨h1, h2⟩ | hv
        · exact settle_verdict hok hL hE _ _ acc _ _ hd h1 h2
        · right
          exact hv.keeps (settle_keeps hok hL hE _ _ _ _ hd) ((read_settle_hist _).2 _ _ _ _ hd)

theorem readAll_grows {R : Reader} {fuel : Nat} : ∀ (ks : List Nat) (u : Unfolder) (acc out : Bytes) (e : Option Nat) (u' : Unfolder),
    readAll R fuel ks u acc = .done (out, e, u') → u.hist <:+ u'.hist ∧ acc <+: out := by
  intro ks
  induction ks with
  | nil => intro u acc out e u' h; cases h; exact ⟨List.suffix_refl _, List.prefix_refl _⟩
  | cons k ks ih =>
    intro u acc out e u' h
    rw [readAll] at h
    cases hr : Unfolder.read R fuel u k with
    | running => simp only [hr, Run.bind] at h; cases h
    | panic => simp only [hr, Run.bind] at h; cases h
    | done r =>
      have h1 := (read_settle_hist _).1 _ _ _ hr
      simp only [hr, Run.bind] at h
      split at h
      · cases h; exact ⟨h1, List.prefix_append _ _⟩
      · obtain ⟨h2, h3⟩ := ih _ _ _ _ _ h
        exact ⟨h1.trans h2, (List.prefix_append _ _).trans h3⟩

theorem readAll_verdict {R : Reader} (hok : ReaderOk R) (hL : LazyErr R) (hE : Eager R) (fuel : Nat) : ∀ (ks : List Nat) (u : Unfolder) (acc out : Bytes) (e : Option Nat) (u' : Unfolder),
    (∀ k ∈ ks, 5 ≤ k) → readAll R fuel ks u acc = .done (out, e, u') → RightSoFar R u acc →
    (RightSoFar R u' out ∧ (e ≠ none → u'.pend = [])) ∨ Off R u'.hist out := by
  intro ks
  induction ks with
  | nil => intro u acc out e u' _ h hg; cases h; exact .inl ⟨hg, fun h => absurd rfl h⟩
  | cons k ks ih =>
    intro u acc out e u' hks h hg
    rw [readAll] at h
    cases hr : Unfolder.read R fuel u k with
    | running => simp only [hr, Run.bind] at h; cases h
    | panic => simp only [hr, Run.bind] at h; cases h
    | done r =>
      have hv := read_verdict hok hL hE fuel u acc k (hks k (by simp)) r hr hg
      simp only [hr, Run.bind] at h
      split at h
      · cases h; exact hv
      · rcases hv with ⟨hv, _⟩ | hv
        · exact ih _ _ _ _ _ (fun k hk => hks k (by simp [hk])) h hv
        · obtain ⟨h2, h3⟩ := readAll_grows _ _ _ _ _ _ h
          exact .inr (hv.mono h2 h3)

end Ics
