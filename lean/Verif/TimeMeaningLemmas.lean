import Verif.Spec.TimeMeaning
import Verif.Props.Time
/-!
# The decoders of dates, times and durations do what Spec/TimeMeaning says
-/

namespace Ics

open Spec

/-! ## Durations -/

/-- The decoder's loop on items: may these come at this level? -/
def Acc : Nat → List DurItem → Bool
  | l, [] => l != 0
  | l, i :: is =>
    let l' := if i.t then 1 else l
    if i.unit = 'W' then l' == 0 && is.isEmpty
    else if i.unit = 'D' then l' == 0 && Acc 1 is
    else if i.unit = 'H' then decide (l' ≤ 1) && Acc 2 is
    else if i.unit = 'M' then decide (l' ≤ 2) && Acc 3 is
    else if i.unit = 'S' then decide (l' ≤ 3) && is.isEmpty && l' != 0
    else false

/-- The fields, the last item of a unit winning. -/
def fromItems (d : Duration) (is : List DurItem) : Duration :=
  { neg := d.neg, weeks := lastOf 'W' d.weeks is, days := lastOf 'D' d.days is, hours := lastOf 'H' d.hours is, minutes := lastOf 'M' d.minutes is,
    seconds := lastOf 'S' d.seconds is }

theorem DurItem.print_eq (i : DurItem) (r : Str) : i.print ++ r = (if i.t then ['T'] else []) ++ (i.digits ++ i.unit :: r) := by
  simp [DurItem.print]

theorem Duration.loop_acc : ∀ (is : List DurItem) (f l : Nat) (d d' : Duration), (∀ i ∈ is, i.n < 2 ^ 64) →
    (∀ i ∈ is, i.unit ∈ ['W', 'D', 'H', 'M', 'S']) → (is.flatMap DurItem.print).length < f →
    (Duration.loop f l d (is.flatMap DurItem.print) = .ok d' ↔ Acc l is = true ∧ d' = fromItems d is) := by
  intro is
  induction is with
  | nil =>
    intro f l d d' _ _ hf
    obtain ⟨f, rfl⟩ : ∃ g, f = g + 1 := ⟨f - 1, by simp at hf; omega⟩
    rw [List.flatMap_nil, Duration.loop]
    by_cases hl : l = 0
    · simp [hl, Acc]
    · rw [if_pos rfl, if_neg hl]
      simp only [Res.ok.injEq, Acc, bne_iff_ne, ne_eq, hl, not_false_eq_true, true_and]
      exact eq_comm
  | cons i is ih =>
    intro f l d d' hr hu hf
    have hlen := Dec_length i.dec
    rw [List.flatMap_cons, DurItem.print_eq] at hf ⊢
    obtain ⟨f, rfl⟩ : ∃ g, f = g + 1 := ⟨f - 1, by simp at hf; omega⟩
    have hf' : (is.flatMap DurItem.print).length < f := by simp at hf ⊢; omega
    have hui := hu i (by simp)
    have hd : isDigit i.unit = false := by
      simp only [List.mem_cons, List.not_mem_nil, or_false] at hui
      rcases hui with h | h | h | h | h <;> rw [h] <;> decide
    rw [Duration.loop_item f l d i.t i.digits i.n i.unit _ i.dec (hr i (by simp)) hd]
    have ih := fun l d => ih f l d d' (fun j hj => hr j (by simp [hj])) (fun j hj => hu j (by simp [hj])) hf'
    have hnil : is.flatMap DurItem.print = [] ↔ is = [] := by
      constructor
      · intro h
        cases is with
        | nil => rfl
        | cons j js => rw [List.flatMap_cons, DurItem.print_eq] at h; simp at h
      · rintro rfl; rfl
    have hie : is.isEmpty = true ↔ is = [] := List.isEmpty_iff
    rw [Acc]
    generalize (if i.t = true then 1 else l) = l'
    have upd : fromItems d (i :: is) = fromItems ⟨d.neg, if i.unit = 'W' then i.n else d.weeks, if i.unit = 'D' then i.n else d.days,
        if i.unit = 'H' then i.n else d.hours, if i.unit = 'M' then i.n else d.minutes, if i.unit = 'S' then i.n else d.seconds⟩ is := rfl
    rw [upd]
    simp only [List.mem_cons, List.not_mem_nil, or_false] at hui
    rcases hui with h | h | h | h | h
    · rw [h, Duration.step]
      simp only [Char.reduceEq, if_true, if_false]
      by_cases h1 : l' > 0
      · rw [if_pos h1]; simp; omega
      · by_cases h2 : is.flatMap DurItem.print = []
        · rw [if_neg h1, if_neg (by simpa using h2)]
          have := hnil.1 h2
          subst this
          have : l' = 0 := by omega
          simp only [this, fromItems, lastOf, List.isEmpty_nil, beq_self_eq_true, Bool.and_self, true_and, Res.ok.injEq]
          rw [eq_comm]
        · rw [if_neg h1, if_pos h2]
          simp only [Bool.and_eq_true, hie]
          simp only [reduceCtorEq, false_iff, not_and]
          intro h3
          exact absurd (hnil.2 h3.2) h2
    · rw [h, Duration.step]
      simp only [Char.reduceEq, if_true, if_false]
      by_cases h1 : l' > 0
      · rw [if_pos h1]; simp; omega
      · rw [if_neg h1, ih, show l' = 0 by omega]
        simp
    · rw [h, Duration.step]
      simp only [Char.reduceEq, if_true, if_false]
      by_cases h1 : l' > 1
      · rw [if_pos h1]; simp; omega
      · rw [if_neg h1, ih]
        simp only [Bool.and_eq_true, decide_eq_true_eq, show l' ≤ 1 by omega, true_and]
    · rw [h, Duration.step]
      simp only [Char.reduceEq, if_true, if_false]
      by_cases h1 : l' > 2
      · rw [if_pos h1]; simp; omega
      · rw [if_neg h1, ih]
        simp only [Bool.and_eq_true, decide_eq_true_eq, show l' ≤ 2 by omega, true_and]
    · rw [h, Duration.step]
      simp only [Char.reduceEq, if_true, if_false]
      by_cases h1 : l' > 3
      · rw [if_pos h1]; simp; omega
      · by_cases h2 : is.flatMap DurItem.print = []
        · rw [if_neg h1, if_neg (by simpa using h2), ih]
          have := hnil.1 h2
          subst this
          simp only [Acc, List.isEmpty_nil, Bool.and_true, Bool.and_eq_true, decide_eq_true_eq, show l' ≤ 3 by omega, true_and]
        · rw [if_neg h1, if_pos h2]
          simp only [Bool.and_eq_true, hie]
          simp only [reduceCtorEq, false_iff, not_and]
          intro h3
          exact absurd (hnil.2 h3.1.2) h2

theorem adjacent_cons {α : Type} {R : α → α → Prop} {x : α} {l : List α} :
    (∀ a i j b, x :: l = a ++ i :: j :: b → R i j) ↔ (∀ y ∈ l.head?, R x y) ∧ ∀ a i j b, l = a ++ i :: j :: b → R i j := by
  constructor
  · intro h
    refine ⟨fun y hy => ?_, fun a i j b e => h (x :: a) i j b (by rw [e]; rfl)⟩
    cases l with
    | nil => simp at hy
    | cons z l =>
      simp only [List.head?_cons, Option.mem_def, Option.some.injEq] at hy
      subst hy
      exact h [] x z l rfl
  · rintro ⟨h1, h2⟩ a i j b e
    cases a with
    | nil =>
      simp only [List.nil_append, List.cons.injEq] at e
      obtain ⟨rfl, rfl⟩ := e
      exact h1 j (by simp)
    | cons y a =>
      simp only [List.cons_append, List.cons.injEq] at e
      exact h2 a i j b e.2

/-- Behind an item: the level is one more than its rank. -/
theorem acc_next : ∀ (is : List DurItem) (i : DurItem), i.unit ∈ ['D', 'H', 'M'] →
    (Acc (durRank i.unit + 1) is = true ↔ (∀ y ∈ is.head?, DurNext i y) ∧ ∀ a x y b, is = a ++ x :: y :: b → DurNext x y) := by
  intro is
  induction is with
  | nil => intro i _; simp [Acc]
  | cons j is ih =>
    intro i hi
    rw [adjacent_cons, Acc]
    simp only [List.head?_cons, Option.mem_def, Option.some.injEq, forall_eq']
    have hi3 : durRank i.unit < 3 ∧ i.unit ≠ 'S' := by
      simp only [List.mem_cons, List.not_mem_nil, or_false] at hi
      rcases hi with h | h | h <;> rw [h] <;> decide
    have empty : (is = [] ∨ is ≠ []) := by cases is <;> simp
    by_cases h1 : j.unit = 'W'
    · rw [if_pos h1]
      have : ¬ DurNext i j := by
        rintro ⟨_, h2 | h2 | h2, _⟩ <;> rw [h1] at h2 <;> exact absurd h2 (by decide)
      simp only [this, false_and, iff_false, Bool.and_eq_true, beq_iff_eq, not_and]
      intro h2
      split at h2 <;> omega
    · rw [if_neg h1]
      by_cases h2 : j.unit = 'D'
      · rw [if_pos h2]
        have : ¬ DurNext i j := by
          rintro ⟨_, h3 | h3 | h3, _⟩ <;> rw [h2] at h3 <;> exact absurd h3 (by decide)
        simp only [this, false_and, iff_false, Bool.and_eq_true, beq_iff_eq, not_and]
        intro h3
        split at h3 <;> omega
      · rw [if_neg h2]
        have key : ∀ k, k ∈ ['H', 'M', 'S'] → j.unit = k → (DurNext i j ↔ (if j.t then 1 else durRank i.unit + 1) ≤ durRank k) := by
          intro k hk hj
          unfold DurNext
          rw [hj]
          have : 1 ≤ durRank k := by
            simp only [List.mem_cons, List.not_mem_nil, or_false] at hk
            rcases hk with h | h | h <;> rw [h] <;> decide
          have hk' : k = 'H' ∨ k = 'M' ∨ k = 'S' := by simpa using hk
          cases j.t
          · simp [hi3.2, hk']; omega
          · simp [hi3.2, hk']; omega
        have next : ∀ k, k ∈ ['H', 'M'] → j.unit = k → ∀ n, n = durRank k →
            ((decide ((if j.t then 1 else durRank i.unit + 1) ≤ n) && Acc (n + 1) is) = true ↔
              DurNext i j ∧ (∀ y, is.head? = some y → DurNext j y) ∧ ∀ a x y b, is = a ++ x :: y :: b → DurNext x y) := by
          intro k hk hj n hn
          have := ih j (by rw [hj]; simp only [List.mem_cons] at hk ⊢; exact Or.inr hk)
          rw [hj, ← hn] at this
          rw [Bool.and_eq_true, this, key k (by simp only [List.mem_cons, List.not_mem_nil, or_false] at hk ⊢; rcases hk with h | h <;> simp [h]) hj, hn]
          simp [Option.mem_def]
        by_cases h3 : j.unit = 'H'
        · rw [if_pos h3]
          exact next 'H' (by simp) h3 1 rfl
        · rw [if_neg h3]
          by_cases h4 : j.unit = 'M'
          · rw [if_pos h4]
            exact next 'M' (by simp) h4 2 rfl
          · rw [if_neg h4]
            by_cases h5 : j.unit = 'S'
            · rw [if_pos h5, key 'S' (by simp) h5]
              have hz : (if j.t = true then 1 else durRank i.unit + 1) ≠ 0 := by split <;> omega
              simp only [Bool.and_eq_true, decide_eq_true_eq, List.isEmpty_iff, bne_iff_ne, ne_eq, hz, not_false_eq_true, and_true]
              show _ ≤ 3 ∧ _ ↔ _ ≤ 3 ∧ _
              refine and_congr Iff.rfl ?_
              constructor
              · rintro rfl; simp
              · rintro ⟨h6, _⟩
                cases is with
                | nil => rfl
                | cons y ys =>
                  have := (h6 y rfl).1
                  exact absurd h5 this
            · rw [if_neg h5]
              have : ¬ DurNext i j := by
                rintro ⟨_, h | h | h, _⟩
                · exact h3 h
                · exact h4 h
                · exact h5 h
              simp [this]

theorem durItems_acc (is : List DurItem) : Acc 0 is = true ↔ DurItems is := by
  cases is with
  | nil => simp [Acc, DurItems]
  | cons i is =>
    unfold DurItems
    rw [adjacent_cons, Acc]
    have hone : (∃ i', i :: is = [i'] ∧ i'.unit = 'W' ∧ i'.t = false) ↔ is = [] ∧ i.unit = 'W' ∧ i.t = false := by
      constructor
      · rintro ⟨i', h1, h2⟩
        simp only [List.cons.injEq] at h1
        obtain ⟨rfl, rfl⟩ := h1
        exact ⟨rfl, h2⟩
      · rintro ⟨rfl, h⟩
        exact ⟨i, rfl, h⟩
    have hfirst : (∃ i' l, i :: is = i' :: l ∧ DurFirst i') ↔ DurFirst i := by
      constructor
      · rintro ⟨i', l, h1, h2⟩
        simp only [List.cons.injEq] at h1
        obtain ⟨rfl, rfl⟩ := h1
        exact h2
      · intro h; exact ⟨i, is, rfl, h⟩
    rw [hone, hfirst]
    have ht : ∀ k, ((if i.t = true then 1 else 0) = (0 : Nat) ↔ i.t = false) ∧ (0 < k → (if i.t = true then 1 else 0) ≤ k) := by
      intro k
      cases i.t <;> simp <;> omega
    by_cases h1 : i.unit = 'W'
    · rw [if_pos h1]
      have : ¬ DurFirst i := by
        rintro (⟨h, _⟩ | h | h | ⟨h, _⟩) <;> rw [h1] at h <;> exact absurd h (by decide)
      simp only [Bool.and_eq_true, beq_iff_eq, (ht 0).1, List.isEmpty_iff, h1, this, false_and, or_false, true_and]
      exact And.comm
    · rw [if_neg h1]
      by_cases h2 : i.unit = 'D'
      · rw [if_pos h2]
        have hf : DurFirst i ↔ i.t = false := by simp [DurFirst, h2]
        have := acc_next is i (by simp [h2])
        rw [h2] at this
        rw [Bool.and_eq_true, show (1 : Nat) = durRank 'D' + 1 from rfl, this, hf, beq_iff_eq]
        rw [show durRank 'D' + 1 = 1 from rfl, (ht 0).1]
        simp [h1]
      · rw [if_neg h2]
        by_cases h3 : i.unit = 'H'
        · rw [if_pos h3]
          have hf : DurFirst i := Or.inr (Or.inl h3)
          have := acc_next is i (by simp [h3])
          rw [h3] at this
          rw [Bool.and_eq_true, show (2 : Nat) = durRank 'H' + 1 from rfl, this]
          simp [h1, hf, (ht 1).2]
        · rw [if_neg h3]
          by_cases h4 : i.unit = 'M'
          · rw [if_pos h4]
            have hf : DurFirst i := Or.inr (Or.inr (Or.inl h4))
            have := acc_next is i (by simp [h4])
            rw [h4] at this
            rw [Bool.and_eq_true, show (3 : Nat) = durRank 'M' + 1 from rfl, this]
            have := (ht 2).2 (by omega)
            simp only [decide_eq_true_eq, this, true_and, h1, and_false, false_and, hf, false_or]
          · rw [if_neg h4]
            by_cases h5 : i.unit = 'S'
            · rw [if_pos h5]
              have hf : DurFirst i ↔ i.t = true := by simp [DurFirst, h5]
              rw [hf]
              have := (ht 3).2 (by omega)
              simp only [Bool.and_eq_true, decide_eq_true_eq, this, true_and, List.isEmpty_iff, bne_iff_ne, ne_eq, (ht 0).1, Bool.not_eq_false, h1, and_false,
                false_and, false_or]
              constructor
              · rintro ⟨rfl, h⟩; exact ⟨h, by simp, by simp⟩
              · rintro ⟨h, h6, _⟩
                refine ⟨?_, h⟩
                cases is with
                | nil => rfl
                | cons y ys => exact absurd h5 (h6 y (by simp)).1
            · rw [if_neg h5]
              have : ¬ DurFirst i := by
                rintro (⟨h, _⟩ | h | h | ⟨h, _⟩)
                · exact h2 h
                · exact h3 h
                · exact h4 h
                · exact h5 h
              simp [h1, this]

theorem durItems_units {is : List DurItem} (h : DurItems is) : ∀ i ∈ is, i.unit ∈ ['W', 'D', 'H', 'M', 'S'] := by
  rcases h with ⟨i, rfl, h, _⟩ | ⟨⟨i, l, rfl, h⟩, h2⟩
  · intro j hj
    simp only [List.mem_singleton] at hj
    subst hj
    simp [h]
  · intro j hj
    obtain ⟨a, b, e⟩ := List.append_of_mem hj
    rcases List.eq_nil_or_concat a with rfl | ⟨a', k, rfl⟩
    · simp only [List.nil_append, List.cons.injEq] at e
      obtain ⟨rfl, _⟩ := e
      rcases h with ⟨h, _⟩ | h | h | ⟨h, _⟩ <;> simp [h]
    · obtain ⟨_, h, _⟩ := h2 a' k j b (by rw [e]; simp)
      rcases h with h | h | h <;> simp [h]

/-- Exactly the durations of the specification are decoded, to what they mean. -/
theorem Duration.decode_iff (s : Str) (d : Duration) : Duration.decode s = .ok d ↔ DurationMeans s d := by
  have key : ∀ (sign : Str) (is : List DurItem) (neg : Bool), (∀ i ∈ is, i.n < 2 ^ 64) → (∀ i ∈ is, i.unit ∈ ['W', 'D', 'H', 'M', 'S']) →
      ((sign = ['-'] ∧ neg = true) ∨ ((sign = [] ∨ sign = ['+']) ∧ neg = false)) →
      (Duration.decode (sign ++ 'P' :: is.flatMap DurItem.print) = .ok d ↔ Acc 0 is = true ∧ d = fromItems { neg := neg } is) := by
    intro sign is neg h1 h2 h3
    rw [← Duration.loop_acc is _ 0 { neg := neg } d h1 h2 (Nat.lt_succ_self _)]
    rcases h3 with ⟨rfl, rfl⟩ | ⟨rfl | rfl, rfl⟩ <;> exact Iff.rfl
  constructor
  · intro h
    obtain ⟨sign, is, h1, _, h2, h3⟩ := Duration.decode_items h
    subst h1
    have := (key sign is d.neg h2.range h2.units h3).1 h
    exact ⟨sign, is, rfl, (durItems_acc is).1 this.1, h2.range, h3, h2.weeks, h2.days, h2.hours, h2.minutes, h2.seconds⟩
  · rintro ⟨sign, is, rfl, h1, h2, h3, h4, h5, h6, h7, h8⟩
    rw [key sign is d.neg h2 (durItems_units h1) h3, durItems_acc]
    refine ⟨h1, ?_⟩
    obtain ⟨neg, w, dd, h, m, s⟩ := d
    dsimp only at h4 h5 h6 h7 h8
    subst h4 h5 h6 h7 h8
    rfl

/-! ## Dates and times -/

theorem dayCount_iff {y m d : Nat} (hr : IsDate y m d) (x : Int) : x = dayNumber y m d * 86400 ↔ ∃ k, DayCount k y m d ∧ x = midnight k := by
  unfold DayCount midnight
  constructor
  · rintro rfl
    have hc := civil_dayNumber ((RealDate_iff _ _ _).2 hr)
    have hpos : (0 : Int) ≤ dayNumber y m d + 366 := by
      have := daysBeforeYear_mono (y := -1) (z := (y : Int)) (by omega)
      have h0 : daysBeforeYear (-1 + 1) = -366 := by decide
      obtain ⟨h1, h2, h3, h4⟩ := hr
      unfold dayNumber
      omega
    refine ⟨(dayNumber y m d + 366).toNat, ?_, by omega⟩
    rw [Props.repeat_nextDay, ← hc]
    congr 1
    omega
  · rintro ⟨k, hk, rfl⟩
    rw [Props.repeat_nextDay] at hk
    have := (civil_real ((k : Int) - 366)).2
    rw [hk] at this
    simp only at this
    rw [this]
    omega

theorem Date.decode_iff (s : Str) (t : GoTime) : Date.decode s = .ok t ↔ DateMeans s t := Props.C22_date_exact s t

theorem loadLocation_iff (E : Env) (p : Nat) (n : Str) (l : Loc) : loadLocation E p n = some l ↔ ZoneNamed E p n l := by
  unfold loadLocation
  constructor
  · intro h
    split at h
    · next hn =>
      injection h with h
      subst h
      rcases hn with rfl | rfl
      · exact .empty
      · exact .utc
    · next hn =>
      split at h
      · next hl => injection h with h; subst h hl; exact .local
      · next hl =>
        rw [Option.map_eq_some_iff] at h
        obtain ⟨r, h1, rfl⟩ := h
        exact .zone (fun h => hn (Or.inl h)) (fun h => hn (Or.inr h)) hl h1
  · intro h
    cases h with
    | empty => rfl
    | utc => rfl
    | «local» => rfl
    | zone h1 h2 h3 h4 => rw [if_neg (by simp [h1, h2]), if_neg h3, h4]; rfl

theorem dayCount_sec {a : Str} {y m d : Nat} (hd : DateText a y m d) : ∃ k, DayCount k y m d ∧ dayNumber y m d * 86400 = midnight k := by
  obtain ⟨_, _, _, _, _, _, _, hr⟩ := hd
  exact (dayCount_iff hr _).1 rfl

theorem dayCount_sec' {a : Str} {y m d k : Nat} (hd : DateText a y m d) (hk : DayCount k y m d) : dayNumber y m d * 86400 = midnight k := by
  obtain ⟨_, _, _, _, _, _, _, hr⟩ := hd
  exact ((dayCount_iff hr _).2 ⟨k, hk, rfl⟩).symm

theorem DateTime.decode_iff (E : Env) (p : Nat) (tz : Option Str) (s : Str) (t : GoTime) :
    DateTime.decode E p tz s = .ok t ↔ DateTimeMeans E p tz s t := by
  have hsec : ∀ (k h mi sec : Nat), midnight k + 3600 * (h : Int) + 60 * (mi : Int) + (sec : Int) = midnight k + ((3600 * h + 60 * mi + sec : Nat) : Int) := by
    intro k h mi sec
    omega
  cases tz with
  | none =>
    rw [Props.C22_datetime_exact_partial]
    constructor
    · rintro ⟨a, c, f, y, m, d, h, mi, sec, ns, z, h1, h2, h3, h4, rfl⟩
      obtain ⟨k, hk, e⟩ := dayCount_sec h2
      rw [e]
      refine ⟨a, c, f, y, m, d, h, mi, sec, ns, k, _, h2, hk, h3, h4, by rw [hsec], ?_⟩
      subst h1
      cases z
      · exact Or.inr ⟨rfl, by simp⟩
      · exact Or.inl ⟨rfl, by simp⟩
    · rintro ⟨a, c, f, y, m, d, h, mi, sec, ns, k, l, h2, hk, h3, h4, rfl, h5⟩
      have e := dayCount_sec' h2 hk
      rcases h5 with ⟨rfl, rfl⟩ | ⟨rfl, rfl⟩
      · exact ⟨a, c, f, y, m, d, h, mi, sec, ns, true, by simp, h2, h3, h4, by rw [e, hsec]; rfl⟩
      · exact ⟨a, c, f, y, m, d, h, mi, sec, ns, false, by simp, h2, h3, h4, by rw [e, hsec]; rfl⟩
  | some n =>
    rw [Props.C22_zoned_exact_partial]
    constructor
    · rintro ⟨l, a, c, f, y, m, d, h, mi, sec, ns, h0, h1, h2, h3, h4, rfl⟩
      obtain ⟨k, hk, e⟩ := dayCount_sec h2
      rw [e]
      exact ⟨a, c, f, y, m, d, h, mi, sec, ns, k, l, h2, hk, h3, h4, by rw [hsec], (loadLocation_iff ..).1 h0, by simp [h1]⟩
    · rintro ⟨a, c, f, y, m, d, h, mi, sec, ns, k, l, h2, hk, h3, h4, rfl, h0, rfl⟩
      have e := dayCount_sec' h2 hk
      exact ⟨l, a, c, f, y, m, d, h, mi, sec, ns, (loadLocation_iff ..).2 h0, by simp, h2, h3, h4, by rw [e, hsec]⟩

end Ics
