import Verif.UnfolderLemmas
/-!
# Runs of the unfolding reader: well cut readers, and documents without fold markers
-/

namespace Ics

open Spec

theorem Run.bind_done {α β : Type} (a : α) (f : α → Run β) : (Run.done a).bind f = f a := rfl

/-- A piece that ends in neither CR, LF nor a complete fold marker.  Not in /repo: a hypothesis or invariant for unfolder.go:14-83. -/
def goodCut (b : Bytes) : Prop := b.getLast? ≠ some 13 ∧ b.getLast? ≠ some 10 ∧ ¬ [13, 10, 32] <:+ b

/-- The piece does not make the inner loop run forever.  Not in /repo: a hypothesis or invariant for unfolder.go:14-83. -/
def squeezable (b : Bytes) : Prop := hasFold b → ¬ badEnd b

/-- Readers whose pieces are cut outside of fold markers: every piece delivered without an error is
a `goodCut`, or it is the last data, the next call delivering nothing but the final error.  Not in /repo: a hypothesis or invariant for unfolder.go:14-83. -/
structure WellCut (R : Reader) : Prop where
  ok : ReaderOk R
  last : ∀ k h, (R (k :: h)).2 ≠ none → squeezable (R (k :: h)).1
  cut : ∀ k h, (R (k :: h)).2 = none → goodCut (R (k :: h)).1 ∨
    (squeezable (R (k :: h)).1 ∧ ∀ k', (R (k' :: k :: h)).1 = [] ∧ (R (k' :: k :: h)).2 ≠ none)

theorem getLast?_append_ne (a b : Bytes) (hb : b ≠ []) : (a ++ b).getLast? = b.getLast? := by
  rw [List.getLast?_append]
  cases h : b.getLast? with
  | none => rw [List.getLast?_eq_none_iff] at h; exact absurd h hb
  | some x => rfl

theorem removeFolds_append_good : ∀ (n : Nat) (a b : Bytes), a.length ≤ n → a.getLast? ≠ some 13 →
    a.getLast? ≠ some 10 → removeFolds (a ++ b) = removeFolds a ++ removeFolds b := by
  intro n
  induction n with
  | zero =>
    intro a b ha _ _
    have : a = [] := by cases a with
      | nil => rfl
      | cons _ _ => simp at ha
    subst this; rfl
  | succ n ih =>
    intro a b ha h1 h2
    rcases a with _ | ⟨x, a⟩
    · rfl
    simp only [List.length_cons] at ha
    have hl : ∀ r : Bytes, r ≠ [] → r <:+ (x :: a) → r.getLast? ≠ some 13 ∧ r.getLast? ≠ some 10 := by
      rintro r hr ⟨p, hp⟩
      have := getLast?_append_ne p r hr
      rw [hp] at this
      rw [← this]; exact ⟨h1, h2⟩
    by_cases hm : ∃ r, x :: a = 13 :: 10 :: 32 :: r
    · obtain ⟨r, hr⟩ := hm
      rw [hr]
      simp only [List.cons_append]
      rw [removeFolds, if_pos ⟨rfl, rfl, rfl⟩, removeFolds, if_pos ⟨rfl, rfl, rfl⟩]
      by_cases hrn : r = []
      · subst hrn; rfl
      · have hh := hl r hrn ⟨[13, 10, 32], by rw [hr]; rfl⟩
        exact ih r b (by have := congrArg List.length hr; simp at this; omega) hh.1 hh.2
    · have hne : ∀ r, x :: a ≠ 13 :: 10 :: 32 :: r := fun r hr => hm ⟨r, hr⟩
      have hne' : ∀ r, x :: (a ++ b) ≠ 13 :: 10 :: 32 :: r := by
        intro r hr
        rcases a with _ | ⟨y, _ | ⟨z, a⟩⟩
        · simp at hr; rw [hr.1] at h1; exact h1 rfl
        · simp at hr; rw [hr.2.1] at h2; exact h2 rfl
        · simp at hr
          exact hne a (by rw [hr.1, hr.2.1, hr.2.2.1])
      rw [List.cons_append, removeFolds_ne _ _ hne', removeFolds_ne _ _ hne, List.cons_append]
      by_cases han : a = []
      · subst han; rfl
      · have hh := hl a han ⟨[x], rfl⟩
        rw [ih a b (by omega) hh.1 hh.2]

theorem removeFolds_getLast? : ∀ (n : Nat) (b : Bytes), b.length ≤ n → ¬ [13, 10, 32] <:+ b →
    (removeFolds b).getLast? = b.getLast? := by
  intro n
  induction n with
  | zero =>
    intro a ha _
    have : a = [] := by cases a with
      | nil => rfl
      | cons _ _ => simp at ha
    subst this; rfl
  | succ n ih =>
    intro b hb hs
    rcases b with _ | ⟨x, a⟩
    · rfl
    simp only [List.length_cons] at hb
    by_cases hm : ∃ r, x :: a = 13 :: 10 :: 32 :: r
    · obtain ⟨r, hr⟩ := hm
      rw [hr] at hs ⊢
      rw [removeFolds, if_pos ⟨rfl, rfl, rfl⟩]
      have hrn : r ≠ [] := by rintro rfl; exact hs ⟨[], rfl⟩
      rw [ih r (by have := congrArg List.length hr; simp at this; omega)
        (fun h => hs (h.trans ⟨[13, 10, 32], rfl⟩))]
      exact (getLast?_append_ne [13, 10, 32] r hrn).symm
    · rw [removeFolds_ne _ _ (fun r hr => hm ⟨r, hr⟩)]
      have := ih a (by omega) (fun h => hs (h.trans ⟨[x], rfl⟩))
      rw [List.getLast?_cons, List.getLast?_cons, this]

theorem removeFolds_ne_nil {b : Bytes} (hb : b ≠ []) (hs : ¬ [13, 10, 32] <:+ b) : removeFolds b ≠ [] := by
  intro h
  have := removeFolds_getLast? _ b (Nat.le_refl _) hs
  rw [h] at this
  exact hb (List.getLast?_eq_none_iff.1 this.symm)

theorem goodCut_squeezable {b : Bytes} (h : goodCut b) : squeezable b := by
  rintro _ ⟨X, t, rfl, ht⟩
  obtain ⟨h1, h2, h3⟩ := h
  rcases ht with rfl | rfl | rfl
  · exact h3 ⟨X, rfl⟩
  · rw [getLast?_append_ne _ _ (by simp)] at h2; exact h2 rfl
  · rw [getLast?_append_ne _ _ (by simp)] at h1; exact h1 rfl

theorem squeezable_not_suffix {b : Bytes} (h : squeezable b) : ¬ [13, 10, 32] <:+ b := by
  rintro ⟨X, rfl⟩
  exact h ⟨X, [], by simp⟩ ⟨X, _, rfl, Or.inl rfl⟩

/-- What is known about the calls made so far: the data ends in neither CR nor LF, or the next call delivers only an
error.  Not in /repo: a hypothesis or invariant for unfolder.go:14-83. -/
def HistOk (R : Reader) (h : List Nat) : Prop :=
  ((delivered R h).getLast? ≠ some 13 ∧ (delivered R h).getLast? ≠ some 10) ∨
  (∀ k, (R (k :: h)).1 = [] ∧ (R (k :: h)).2 ≠ none)

theorem HistOk.next {R : Reader} (hR : WellCut R) {h : List Nat} (hh : HistOk R h) {k : Nat}
    (he : (R (k :: h)).2 = none) : HistOk R (k :: h) := by
  rcases hh with hh | hh
  · rcases hR.cut k h he with hc | ⟨_, hc⟩
    · left
      simp only [delivered]
      by_cases hb : (R (k :: h)).1 = []
      · rw [hb, List.append_nil]; exact hh
      · rw [getLast?_append_ne _ _ hb]; exact ⟨hc.1, hc.2.1⟩
    · right; exact hc
  · exact absurd he (hh k).2

/-- Unfolding distributes over the pieces of a well cut reader. -/
theorem HistOk.split {R : Reader} {h : List Nat} (hh : HistOk R h) (k : Nat) :
    removeFolds (delivered R (k :: h)) = removeFolds (delivered R h) ++ removeFolds (R (k :: h)).1 := by
  simp only [delivered]
  rcases hh with hh | hh
  · exact removeFolds_append_good _ _ _ (Nat.le_refl _) hh.1 hh.2
  · rw [(hh k).1]; simp [removeFolds]

theorem WellCut.squeezable {R : Reader} (hR : WellCut R) (k : Nat) (h : List Nat) :
    squeezable (R (k :: h)).1 := by
  cases he : (R (k :: h)).2 with
  | none =>
    rcases hR.cut k h he with hc | hc
    · exact goodCut_squeezable hc
    · exact hc.1
  | some e => exact hR.last k h (by rw [he]; simp)

/-- The filling loop over a well cut reader. -/
theorem fill_ok {R : Reader} (hR : WellCut R) : ∀ (fuel : Nat) (h : List Nat) (q : Bytes) (k : Nat),
    k + 2 ≤ fuel → HistOk R h →
    (q.getLast? ≠ some 13 ∧ q.getLast? ≠ some 10 ∨ ∀ k, (R (k :: h)).1 = [] ∧ (R (k :: h)).2 ≠ none) →
    ∃ h' q' e, fill R fuel h q k = .done (h', q ++ q', e) ∧
      removeFolds (delivered R h') = removeFolds (delivered R h) ++ q' ∧
      (e = none → HistOk R h' ∧ ((q ++ q').getLast? ≠ some 13 ∧ (q ++ q').getLast? ≠ some 10 ∨
        ∀ k, (R (k :: h')).1 = [] ∧ (R (k :: h')).2 ≠ none)) ∧
      (e ≠ none → (R h').2 = e) := by
  intro fuel
  induction fuel with
  | zero => intro h q k hk; omega
  | succ fuel ih =>
    intro h q k hk hh hq
    rw [fill]
    by_cases hk0 : k = 0
    · rw [if_pos hk0]
      refine ⟨h, [], none, by simp, by simp, fun _ => ⟨hh, by simpa using hq⟩, by simp⟩
    rw [if_neg hk0]
    have hlen := hR.ok k h
    have hsq := squeeze_good fuel (R (k :: h)).1 (by omega) (hR.squeezable k h)
    cases hr : R (k :: h) with
    | mk b e =>
    rw [hr] at hsq hlen
    simp only [hsq, Run.bind_done]
    have hsplit := hh.split k
    rw [hr] at hsplit
    cases e with
    | some e =>
      simp only [Option.isSome_some, if_true]
      exact ⟨_, removeFolds b, some e, rfl, hsplit, by simp, fun _ => by rw [hr]⟩
    | none =>
      simp only [Option.isSome_none, Bool.false_eq_true, if_false]
      have hns : ¬ [13, 10, 32] <:+ b := by
        have := squeezable_not_suffix (hR.squeezable k h)
        rwa [hr] at this
      have hlt : b.length - (removeFolds b).length + 2 ≤ fuel := by
        by_cases hb : b = []
        · subst hb; simp [removeFolds]; omega
        · have := removeFolds_ne_nil hb hns
          have : 0 < (removeFolds b).length := List.length_pos_iff.2 this
          simp only at hlen
          omega
      have hh' := hh.next hR (k := k) (by rw [hr])
      have hq' : (q ++ removeFolds b).getLast? ≠ some 13 ∧ (q ++ removeFolds b).getLast? ≠ some 10 ∨
          ∀ k', (R (k' :: k :: h)).1 = [] ∧ (R (k' :: k :: h)).2 ≠ none := by
        have hc := hR.cut k h (by rw [hr])
        rw [hr] at hc
        rcases hc with hc | hc
        · left
          by_cases hb : b = []
          · subst hb
            simp only [removeFolds, List.append_nil]
            rcases hq with hq | hq
            · exact hq
            · have := (hq k).2; rw [hr] at this; exact absurd rfl this
          · rw [getLast?_append_ne _ _ (removeFolds_ne_nil hb hns),
              removeFolds_getLast? _ b (Nat.le_refl _) hns]
            exact ⟨hc.1, hc.2.1⟩
        · exact Or.inr hc.2
      obtain ⟨h', q', e, h1, h2, h3, h4⟩ := ih (k :: h) (q ++ removeFolds b) _ hlt hh' hq'
      refine ⟨h', removeFolds b ++ q', e, by rw [h1, List.append_assoc], ?_, ?_, h4⟩
      · rw [h2, hsplit, List.append_assoc]
      · intro he; have := h3 he; rwa [List.append_assoc] at this

theorem getLast?_of_getElem? {q : Bytes} {x : UInt8} (h : q[q.length - 1]? = some x) :
    q.getLast? = some x := by
  rw [List.getLast?_eq_getElem?]; exact h

/-- One `Read` over a well cut reader. -/
theorem read_ok {R : Reader} (hR : WellCut R) (fuel k : Nat) (hk : k + 3 ≤ fuel) (h : List Nat)
    (hh : HistOk R h) :
    ∃ h' q e, Unfolder.read R fuel ⟨[], h⟩ k = .done ⟨⟨[], h'⟩, q, q.length, e⟩ ∧
      removeFolds (delivered R h') = removeFolds (delivered R h) ++ q ∧
      (e = none → HistOk R h') ∧ (e ≠ none → (R h').2 = e) := by
  obtain ⟨fuel, rfl⟩ : ∃ f, fuel = f + 1 := ⟨fuel - 1, by omega⟩
  rw [Unfolder.read]
  simp only [List.take_nil, List.drop_nil, List.length_nil, Nat.sub_zero]
  obtain ⟨h', q', e, h1, h2, h3, h4⟩ := fill_ok hR fuel h [] k (by omega) hh (by simp)
  rw [h1, Run.bind_done]
  simp only [List.nil_append] at h3 ⊢
  cases e with
  | some e =>
    simp only [Option.isSome_some, if_true]
    exact ⟨h', q', some e, rfl, h2, by simp, h4⟩
  | none =>
    simp only [Option.isSome_none, Bool.false_eq_true, if_false]
    obtain ⟨hh', hq⟩ := h3 rfl
    obtain ⟨fuel, rfl⟩ : ∃ f, fuel = f + 1 := ⟨fuel - 1, by omega⟩
    rw [settle]
    -- a further call, if made, delivers only an error
    have hempty : ∀ k : Nat, (∀ k, (R (k :: h')).1 = [] ∧ (R (k :: h')).2 ≠ none) →
        ∃ e, R (k :: h') = ([], e) ∧ e ≠ none := by
      intro k hx
      exact ⟨(R (k :: h')).2, by rw [← (hx k).1], (hx k).2⟩
    have hdel : ∀ k e, R (k :: h') = ([], e) →
        removeFolds (delivered R (k :: h')) = removeFolds (delivered R h) ++ q' := by
      intro k e hx
      simp only [delivered, hx, List.append_nil]
      exact h2
    by_cases hb1 : q'.length > 0 ∧ q'[q'.length - 1]? = some 13
    · simp only [if_pos hb1]
      rcases hq with hq | hq
      · exact absurd (getLast?_of_getElem? hb1.2) hq.1
      · obtain ⟨e, he, hne⟩ := hempty 2 hq
        simp only [he, List.length_nil, Nat.zero_lt_succ, if_true]
        exact ⟨_, q', e, rfl, hdel _ _ he, fun h => absurd h hne, fun _ => by rw [he]⟩
    · simp only [if_neg hb1]
      by_cases hb2 : q'.length > 1 ∧ q'[q'.length - 2]? = some 13 ∧ q'[q'.length - 1]? = some 10
      · simp only [if_pos hb2]
        rcases hq with hq | hq
        · exact absurd (getLast?_of_getElem? hb2.2.2) hq.2
        · obtain ⟨e, he, hne⟩ := hempty 1 hq
          simp only [he, List.length_nil, Nat.zero_lt_succ, if_true]
          exact ⟨_, q', e, rfl, hdel _ _ he, fun h => absurd h hne, fun _ => by rw [he]⟩
      · simp only [if_neg hb2]
        exact ⟨h', q', none, rfl, h2, fun _ => hh', by simp⟩

theorem readAll_ok {R : Reader} (hR : WellCut R) (fuel : Nat) : ∀ (ks : List Nat) (h : List Nat) (acc : Bytes),
    (∀ k ∈ ks, k + 3 ≤ fuel) → HistOk R h → acc = removeFolds (delivered R h) →
    ∃ out e h', readAll R fuel ks ⟨[], h⟩ acc = .done (out, e, ⟨[], h'⟩) ∧
      out = removeFolds (delivered R h') ∧ (e ≠ none → (R h').2 = e) := by
  intro ks
  induction ks with
  | nil =>
    intro h acc _ _ hacc
    exact ⟨acc, none, h, rfl, hacc, by simp⟩
  | cons k ks ih =>
    intro h acc hks hh hacc
    obtain ⟨h', q, e, h1, h2, h3, h4⟩ := read_ok hR fuel k (hks k (by simp)) h hh
    rw [readAll, h1, Run.bind_done]
    simp only [Int.toNat_natCast, List.take_length]
    cases e with
    | some e =>
      simp only [Option.isSome_some, if_true]
      exact ⟨_, some e, h', rfl, by rw [h2, hacc], h4⟩
    | none =>
      simp only [Option.isSome_none, Bool.false_eq_true, if_false]
      exact ih h' _ (fun k hk => hks k (by simp [hk])) (h3 rfl) (by rw [h2, hacc])

/-! ## Documents without fold markers -/

/-- The reader reports its final error separately from data.  Not in /repo: a hypothesis or invariant for unfolder.go:14-83. -/
def LazyErr (R : Reader) : Prop := ∀ k h, (R (k :: h)).2 ≠ none → (R (k :: h)).1 = []

/-- Nothing the reader ever delivers contains CR LF SPACE.  Not in /repo: a hypothesis or invariant for unfolder.go:14-83. -/
def NoFolds (R : Reader) : Prop := ∀ h, ¬ hasFold (delivered R h)

theorem squeeze_noFold (fuel : Nat) (b : Bytes) (h : ¬ hasFold b) :
    squeeze (fuel + 1) [] b 0 = .done (b, 0) := by
  rw [squeeze, (findFold_none_iff b).2 h]
  simp

theorem NoFolds.piece {R : Reader} (hR : NoFolds R) (k : Nat) (h : List Nat) : ¬ hasFold (R (k :: h)).1 := by
  rintro ⟨a, b, hab⟩
  refine hR (k :: h) ⟨delivered R h ++ a, b, ?_⟩
  simp only [delivered, ← hab, List.append_assoc]

theorem snoc_of_getLast? {q : Bytes} {x : UInt8} (h : q.getLast? = some x) : ∃ p, q = p ++ [x] := by
  rw [List.getLast?_eq_some_iff] at h
  exact h

theorem settle_noFold {R : Reader} (hok : ReaderOk R) (hN : NoFolds R) (hL : LazyErr R) (fuel : Nat) (h : List Nat) (q D : Bytes)
    (hD : delivered R h = D ++ q) :
    ∃ u e, settle R (fuel + 1) ⟨[], h⟩ q q.length = .done ⟨u, q, q.length, e⟩ ∧
      delivered R u.hist = D ++ q ++ u.pend ∧ (e ≠ none → u.pend = []) ∧ u.pend.length ≤ 2 ∧ (e ≠ none → (R u.hist).2 = e) := by
  rw [settle]
  by_cases hb1 : q.length > 0 ∧ q[q.length - 1]? = some 13
  · simp only [if_pos hb1]
    obtain ⟨q0, hq0⟩ := snoc_of_getLast? (getLast?_of_getElem? hb1.2)
    have hl := hok 2 h
    have hz := hL 2 h
    have hn := hN (2 :: h)
    have hd : delivered R (2 :: h) = D ++ q ++ (R (2 :: h)).1 := by rw [delivered, hD]
    cases hr : R (2 :: h) with
    | mk b e =>
    rw [hr] at hl hz hd
    simp only at hl hz hd ⊢
    by_cases hlen : b.length < 2
    · rw [if_pos hlen]
      exact ⟨_, e, ⟨rfl, hd, hz, by simpa using hl, fun _ => by rw [hr]⟩⟩
    · rw [if_neg hlen]
      have hne : b ≠ [10, 32] := by
        rintro rfl
        refine hn ⟨D ++ q0, [], ?_⟩
        rw [hd, hq0]; simp
      rw [if_neg hne]
      exact ⟨_, e, ⟨rfl, hd, hz, by simpa using hl, fun _ => by rw [hr]⟩⟩
  · simp only [if_neg hb1]
    by_cases hb2 : q.length > 1 ∧ q[q.length - 2]? = some 13 ∧ q[q.length - 1]? = some 10
    · simp only [if_pos hb2]
      have hq0 : ∃ q0, q = q0 ++ [13, 10] := by
        obtain ⟨p, rfl⟩ := snoc_of_getLast? (getLast?_of_getElem? hb2.2.2)
        have h2 := hb2.2.1
        simp only [List.length_append, List.length_cons, List.length_nil] at h2 hb2
        rw [List.getElem?_append_left (by omega)] at h2
        have : p[p.length - 1]? = some 13 := by
          rw [← h2]; congr 1
        obtain ⟨p', rfl⟩ := snoc_of_getLast? (getLast?_of_getElem? this)
        exact ⟨p', by simp⟩
      obtain ⟨q0, hq0⟩ := hq0
      have hl := hok 1 h
      have hz := hL 1 h
      have hn := hN (1 :: h)
      have hd : delivered R (1 :: h) = D ++ q ++ (R (1 :: h)).1 := by rw [delivered, hD]
      cases hr : R (1 :: h) with
      | mk b e =>
      rw [hr] at hl hz hd
      simp only at hl hz hd ⊢
      by_cases hlen : b.length < 1
      · rw [if_pos hlen]
        exact ⟨_, e, ⟨rfl, hd, hz, by simp; omega, fun _ => by rw [hr]⟩⟩
      · rw [if_neg hlen]
        have hne : b ≠ [32] := by
          rintro rfl
          refine hn ⟨D ++ q0, [], ?_⟩
          rw [hd, hq0]; simp
        rw [if_neg hne]
        exact ⟨_, e, ⟨rfl, hd, hz, by simp; omega, fun _ => by rw [hr]⟩⟩
    · simp only [if_neg hb2]
      exact ⟨⟨[], h⟩, none, ⟨rfl, by simpa using hD, by simp, by simp, by simp⟩⟩

/-- The reader never delivers nothing without an error.  Not in /repo: a hypothesis or invariant for unfolder.go:14-83. -/
def Eager (R : Reader) : Prop := ∀ k h, 0 < k → (R (k :: h)).2 = none → (R (k :: h)).1 ≠ []

theorem read_noFold {R : Reader} (hok : ReaderOk R) (hN : NoFolds R) (hL : LazyErr R) (fuel k : Nat)
    (hk : 2 ≤ k) (hf : 4 ≤ fuel) (u : Unfolder) (hu : u.pend.length ≤ 2) (D : Bytes)
    (hD : delivered R u.hist = D ++ u.pend) :
    ∃ u' q e, Unfolder.read R fuel u k = .done ⟨u', q, q.length, e⟩ ∧
      delivered R u'.hist = D ++ q ++ u'.pend ∧ (e ≠ none → u'.pend = []) ∧ u'.pend.length ≤ 2 ∧ (e ≠ none → (R u'.hist).2 = e) ∧
      (Eager R → e = none → q ≠ []) := by
  obtain ⟨fuel, rfl⟩ : ∃ f, fuel = f + 4 := ⟨fuel - 4, by omega⟩
  rw [Unfolder.read]
  have ht : u.pend.take k = u.pend := List.take_of_length_le (by omega)
  have hd : u.pend.drop k = [] := List.drop_of_length_le (by omega)
  simp only [ht, hd]
  -- the filling loop makes at most one call
  have hfill : ∃ h q' e, fill R (fuel + 3) u.hist u.pend (k - u.pend.length) = .done (h, u.pend ++ q', e) ∧
      delivered R h = D ++ (u.pend ++ q') ∧ (e ≠ none → q' = []) ∧ (e ≠ none → (R h).2 = e) ∧
      (Eager R → e = none → u.pend ++ q' ≠ []) := by
    rw [fill]
    by_cases h0 : k - u.pend.length = 0
    · rw [if_pos h0]
      refine ⟨u.hist, [], none, by simp, by simpa using hD, by simp, by simp, fun _ _ h => ?_⟩
      have := congrArg List.length h
      simp at this
      simp [this] at h0
      omega
    · rw [if_neg h0]
      generalize k - u.pend.length = j at h0
      have hp := hN.piece j u.hist
      have hz := hL j u.hist
      have hdel : delivered R (j :: u.hist) = D ++ (u.pend ++ (R (j :: u.hist)).1) := by
        rw [delivered, hD]; simp
      cases hr : R (j :: u.hist) with
      | mk b e =>
      rw [hr] at hp hz hdel
      simp only [squeeze_noFold _ _ hp, Run.bind_done]
      cases e with
      | some e =>
        simp only [Option.isSome_some, if_true]
        exact ⟨_, b, some e, rfl, hdel, hz, fun _ => by rw [hr], by simp⟩
      | none =>
        simp only [Option.isSome_none, Bool.false_eq_true, if_false]
        rw [fill]
        simp only [if_true]
        refine ⟨_, b, none, rfl, hdel, by simp, by simp, fun hE _ h => ?_⟩
        have := hE j u.hist (by omega) (by rw [hr])
        rw [hr] at this
        exact this (List.append_eq_nil_iff.1 h).2
  obtain ⟨h, q', e, h1, h2, h3, h5, h6⟩ := hfill
  rw [h1, Run.bind_done]
  cases e with
  | some e =>
    simp only [Option.isSome_some, if_true]
    exact ⟨_, _, some e, rfl, by simpa using h2, by simp, by simp, h5, by simp⟩
  | none =>
    simp only [Option.isSome_none, Bool.false_eq_true, if_false]
    obtain ⟨u', e, hs1, hs2, hs3, hs4, hs5⟩ := settle_noFold hok hN hL (fuel + 2) h (u.pend ++ q') D h2
    exact ⟨u', _, e, hs1, hs2, hs3, hs4, hs5, fun hE _ => h6 hE rfl⟩

theorem readAll_noFold {R : Reader} (hok : ReaderOk R) (hN : NoFolds R) (hL : LazyErr R) (fuel : Nat)
    (hf : 4 ≤ fuel) : ∀ (ks : List Nat) (u : Unfolder) (acc : Bytes), (∀ k ∈ ks, 2 ≤ k) →
    u.pend.length ≤ 2 → delivered R u.hist = acc ++ u.pend →
    ∃ out e u', readAll R fuel ks u acc = .done (out, e, u') ∧
      delivered R u'.hist = out ++ u'.pend ∧ (e ≠ none → u'.pend = []) ∧ u'.pend.length ≤ 2 ∧ (e ≠ none → (R u'.hist).2 = e) ∧
      (Eager R → e = none → acc.length + ks.length ≤ out.length) := by
  intro ks
  induction ks with
  | nil =>
    intro u acc _ hu hd
    exact ⟨acc, none, u, rfl, hd, by simp, hu, by simp, by simp⟩
  | cons k ks ih =>
    intro u acc hks hu hd
    obtain ⟨u', q, e, h1, h2, h3, h4, h5, h6⟩ :=
      read_noFold hok hN hL fuel k (hks k (by simp)) hf u hu acc hd
    rw [readAll, h1, Run.bind_done]
    simp only [Int.toNat_natCast, List.take_length]
    cases e with
    | some e =>
      simp only [Option.isSome_some, if_true]
      exact ⟨_, some e, u', rfl, h2, h3, h4, h5, by simp⟩
    | none =>
      simp only [Option.isSome_none, Bool.false_eq_true, if_false]
      obtain ⟨out, e, u'', g1, g2, g3, g4, g5, g6⟩ := ih u' (acc ++ q) (fun k hk => hks k (by simp [hk])) h4 h2
      refine ⟨out, e, u'', g1, g2, g3, g4, g5, fun hE he => ?_⟩
      have := g6 hE he
      have := List.length_pos_iff.2 (h6 hE rfl)
      simp at *
      omega

end Ics
