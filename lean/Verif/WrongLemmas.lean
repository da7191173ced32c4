import Verif.Spec.Wrong
import Verif.ErrorLemmas
import Verif.CrashLemmas
/-!
# Lemmas: which error a wrong value, parameter or property gets
-/

namespace Ics

open Spec

variable {α β : Type}

/-! ## Durations -/

theorem noNumber_iff (s : Str) :
    NoNumber s ↔ parseUint 64 ((if s.head? = some 'T' then s.tail else s).takeWhile isDigit) = none := by
  have hs : s = (if s.head? = some 'T' then ['T'] else []) ++ (if s.head? = some 'T' then s.tail else s) := by
    by_cases ht : s.head? = some 'T'
    · rw [if_pos ht, if_pos ht]; exact head_tail ht
    · rw [if_neg ht, if_neg ht]; rfl
  constructor
  · intro h
    cases hp : parseUint 64 ((if s.head? = some 'T' then s.tail else s).takeWhile isDigit) with
    | none => rfl
    | some n =>
      exfalso
      obtain ⟨h1, h2⟩ := Dec_parseUint hp
      have := h (decide (s.head? = some 'T')) _ n ((if s.head? = some 'T' then s.tail else s).dropWhile isDigit) ?_ h1 ?_
      · omega
      · rw [List.append_assoc, ← takeWhile_dropWhile]
        simpa using hs
      · intro c hc hd
        have h3 : isDigit c = true := (isDigit_iff c).2 ⟨hd.1, hd.2⟩
        have := List.head?_dropWhile_not isDigit (if s.head? = some 'T' then s.tail else s)
        rw [hc] at this
        simp only [h3] at this
        cases this
  · intro h t ds n r e hd hr
    refine Nat.le_of_not_lt fun hlt => ?_
    obtain ⟨h1, h2, _⟩ := Dec_facts hd
    have hall : ∀ x ∈ ds, isDigit x = true := by simpa using h2
    have hr' : ∀ c ∈ r.head?, isDigit c = false := by
      intro c hc
      have := hr c hc
      cases hcd : isDigit c with
      | false => rfl
      | true => exact absurd ((isDigit_iff c).1 hcd) this
    obtain ⟨t1, _⟩ := takeWhile_stop isDigit ds r hall hr'
    have hhead : (ds ++ r).head? ≠ some 'T' := by
      cases ds with
      | nil => exact absurd rfl h1
      | cons c ds =>
        have := hall c (by simp)
        intro he
        simp at he
        rw [he] at this
        exact absurd this (by decide)
    subst e
    cases t with
    | true =>
      simp only [if_true, List.cons_append, List.nil_append, List.head?_cons, List.tail_cons] at h
      rw [t1, parseUint_Dec hd hlt] at h
      cases h
    | false =>
      simp only [Bool.false_eq_true, if_false, List.nil_append] at h
      rw [if_neg hhead, t1, parseUint_Dec hd hlt] at h
      cases h

/-- The loop on items with something behind them. -/
theorem Duration.loop_prefix (rest : Str) : ∀ (is : List DurItem) (f l : Nat) (d : Duration), (∀ i ∈ is, i.n < 2 ^ 64) → (∀ i ∈ is, i.unit ∈ ['D', 'H', 'M']) →
    (is = [] ∨ Acc l is = true) → (is.flatMap DurItem.print ++ rest).length < f →
    ∃ f' l' d', Duration.loop f l d (is.flatMap DurItem.print ++ rest) = Duration.loop f' l' d' rest ∧ rest.length < f' := by
  intro is
  induction is with
  | nil => intro f l d _ _ _ hf; exact ⟨f, l, d, rfl, by simpa using hf⟩
  | cons i is ih =>
    intro f l d hr hu ha hf
    have ha : Acc l (i :: is) = true := by
      rcases ha with h | h
      · cases h
      · exact h
    have hlen := Dec_length i.dec
    rw [List.flatMap_cons, List.append_assoc, DurItem.print_eq] at hf ⊢
    obtain ⟨f, rfl⟩ : ∃ g, f = g + 1 := ⟨f - 1, by simp at hf; omega⟩
    have hf' : (is.flatMap DurItem.print ++ rest).length < f := by simp at hf ⊢; omega
    have hui := hu i (by simp)
    have hd : isDigit i.unit = false := by
      simp only [List.mem_cons, List.not_mem_nil, or_false] at hui
      rcases hui with h | h | h <;> rw [h] <;> decide
    rw [Duration.loop_item f l d i.t i.digits i.n i.unit _ i.dec (hr i (by simp)) hd]
    have ih := fun l d ha => ih f l d (fun j hj => hr j (by simp [hj])) (fun j hj => hu j (by simp [hj])) (.inr ha) hf'
    rw [Acc] at ha
    generalize (if i.t = true then 1 else l) = l' at ha ⊢
    simp only [List.mem_cons, List.not_mem_nil, or_false] at hui
    rcases hui with h | h | h
    · rw [h] at ha ⊢
      simp only [Char.reduceEq, if_true, if_false, Bool.and_eq_true, beq_iff_eq] at ha
      rw [Duration.step, if_neg (by omega)]
      exact ih _ _ ha.2
    · rw [h] at ha ⊢
      simp only [Char.reduceEq, if_true, if_false, Bool.and_eq_true, decide_eq_true_eq] at ha
      rw [Duration.step, if_neg (by omega)]
      exact ih _ _ ha.2
    · rw [h] at ha ⊢
      simp only [Char.reduceEq, if_true, if_false, Bool.and_eq_true, decide_eq_true_eq] at ha
      rw [Duration.step, if_neg (by omega)]
      exact ih _ _ ha.2

theorem Duration.loop_bad {f l : Nat} {d : Duration} {s : Str} (hs : s ≠ []) (hn : NoNumber s) (hf : s.length < f) : Duration.loop f l d s = .err .ext := by
  obtain ⟨f, rfl⟩ : ∃ g, f = g + 1 := ⟨f - 1, by omega⟩
  rw [noNumber_iff] at hn
  rw [Duration.loop, if_neg hs]
  dsimp only
  rw [hn]

theorem Duration.loop_ext : ∀ (f l : Nat) (d : Duration) (s : Str), Duration.loop f l d s = .err .ext →
    ∃ is r, s = is.flatMap DurItem.print ++ r ∧ r ≠ [] ∧ NoNumber r ∧ (∀ i ∈ is, i.n < 2 ^ 64) ∧ (∀ i ∈ is, i.unit ∈ ['D', 'H', 'M']) ∧ (is = [] ∨ Acc l is = true) := by
  intro f
  induction f with
  | zero => intro l d s h; cases h
  | succ f ih =>
    intro l d s h
    rw [Duration.loop] at h
    dsimp only at h
    split at h
    · split at h <;> cases h
    · next hs0 =>
      split at h
      · next hn => exact ⟨[], s, rfl, hs0, (noNumber_iff s).2 hn, by simp, by simp, .inl rfl⟩
      · next n hn =>
        obtain ⟨hdec, hlt⟩ := Dec_parseUint hn
        have hs : s = (if s.head? = some 'T' then ['T'] else []) ++
            (if s.head? = some 'T' then s.tail else s) := by
          by_cases ht : s.head? = some 'T'
          · rw [if_pos ht, if_pos ht]; exact head_tail ht
          · rw [if_neg ht, if_neg ht]; rfl
        have hs2 := takeWhile_dropWhile isDigit (if s.head? = some 'T' then s.tail else s)
        have hl : (if s.head? = some 'T' then 1 else l) = (if decide (s.head? = some 'T') = true then 1 else l) := by simp
        rw [hl] at h
        generalize hl' : (if decide (s.head? = some 'T') = true then 1 else l) = l' at h
        generalize hds : (if s.head? = some 'T' then s.tail else s).takeWhile isDigit = ds at *
        generalize hr : (if s.head? = some 'T' then s.tail else s).dropWhile isDigit = rr at *
        have text : ∀ u r, rr = u :: r → s = (DurItem.mk (s.head? = some 'T') n u ds hdec).print ++ r := by
          intro u r hur
          rw [hs2, hur] at hs
          simpa [DurItem.print] using hs
        have mk : ∀ (u : Char) (r : Str) (l2 : Nat) (d1 : Duration), rr = u :: r → u ∈ ['D', 'H', 'M'] →
            (∀ is, (is = [] ∨ Acc l2 is = true) → Acc l (DurItem.mk (s.head? = some 'T') n u ds hdec :: is) = true) → Duration.loop f l2 d1 r = .err .ext →
            ∃ is r, s = is.flatMap DurItem.print ++ r ∧ r ≠ [] ∧ NoNumber r ∧ (∀ i ∈ is, i.n < 2 ^ 64) ∧ (∀ i ∈ is, i.unit ∈ ['D', 'H', 'M']) ∧ (is = [] ∨ Acc l is = true) := by
          intro u r l2 d1 hur hu ha hx
          obtain ⟨is, r', e, h1, h2, h3, h4, h5⟩ := ih l2 d1 r hx
          refine ⟨DurItem.mk (s.head? = some 'T') n u ds hdec :: is, r', ?_, h1, h2, ?_, ?_, .inr (ha is h5)⟩
          · rw [List.flatMap_cons, List.append_assoc, ← e]; exact text u r hur
          · intro i hi'
            rcases List.mem_cons.1 hi' with rfl | hi'
            · exact hlt
            · exact h3 i hi'
          · intro i hi'
            rcases List.mem_cons.1 hi' with rfl | hi'
            · exact hu
            · exact h4 i hi'
        have nil : ∀ l2, l2 ≠ 0 → ∀ is : List DurItem, (is = [] ∨ Acc l2 is = true) → Acc l2 is = true := by
          rintro l2 h2 is (rfl | h)
          · simpa [Acc] using h2
          · exact h
        split at h
        · next r =>
          split at h
          · cases h
          split at h <;> cases h
        · next r =>
          split at h
          · cases h
          · next hle =>
            refine mk 'D' r _ _ rfl (by simp) (fun is hi => ?_) h
            simp only [Acc, Char.reduceEq, if_true, if_false, Bool.and_eq_true, beq_iff_eq]
            rw [hl']
            exact ⟨by omega, nil 1 (by decide) is hi⟩
        · next r =>
          split at h
          · cases h
          · next hle =>
            refine mk 'H' r _ _ rfl (by simp) (fun is hi => ?_) h
            simp only [Acc, Char.reduceEq, if_true, if_false, Bool.and_eq_true, decide_eq_true_eq]
            rw [hl, hl']
            exact ⟨by omega, nil 2 (by decide) is hi⟩
        · next r =>
          split at h
          · cases h
          · next hle =>
            refine mk 'M' r _ _ rfl (by simp) (fun is hi => ?_) h
            simp only [Acc, Char.reduceEq, if_true, if_false, Bool.and_eq_true, decide_eq_true_eq]
            rw [hl, hl']
            exact ⟨by omega, nil 3 (by decide) is hi⟩
        · next r =>
          split at h
          · cases h
          split at h
          · cases h
          · next hr0 =>
            have hr0 : r = [] := by simpa using hr0
            subst hr0
            cases f with
            | zero => cases h
            | succ f =>
              rw [Duration.loop, if_pos rfl] at h
              split at h <;> cases h
        · cases h

theorem Duration.decode_ext (s : Str) : Duration.decode s = .err .ext ↔ DurNumberWrong s := by
  have units : ∀ is : List DurItem, (is = [] ∨ (DurItems is ∧ ∀ i ∈ is, i.unit ≠ 'W' ∧ i.unit ≠ 'S')) ↔ (is = [] ∨ Acc 0 is = true) ∧ ∀ i ∈ is, i.unit ∈ ['D', 'H', 'M'] := by
    intro is
    rw [durItems_acc]
    constructor
    · rintro (rfl | ⟨h1, h2⟩)
      · exact ⟨.inl rfl, by simp⟩
      · refine ⟨.inr h1, fun i hi => ?_⟩
        have := durItems_units ((durItems_acc is).1 ((durItems_acc is).2 h1)) i hi
        have h3 := h2 i hi
        simp only [List.mem_cons, List.not_mem_nil, or_false] at this ⊢
        rcases this with h | h | h | h | h
        · exact absurd h h3.1
        · exact .inl h
        · exact .inr (.inl h)
        · exact .inr (.inr h)
        · exact absurd h h3.2
    · rintro ⟨rfl | h1, h2⟩
      · exact .inl rfl
      · refine .inr ⟨h1, fun i hi => ?_⟩
        have := h2 i hi
        simp only [List.mem_cons, List.not_mem_nil, or_false] at this
        rcases this with h | h | h <;> rw [h] <;> decide
  constructor
  · intro h
    have hs : ∃ sign, sign ∈ [[], ['+'], ['-']] ∧ s = sign ++ (if s.head? = some '-' ∨ s.head? = some '+' then s.tail else s) := by
      by_cases h1 : s.head? = some '-'
      · rw [if_pos (.inl h1)]
        exact ⟨['-'], by simp, head_tail h1⟩
      · by_cases h2 : s.head? = some '+'
        · rw [if_pos (.inr h2)]
          exact ⟨['+'], by simp, head_tail h2⟩
        · rw [if_neg (by simp [h1, h2])]
          exact ⟨[], by simp, rfl⟩
    obtain ⟨sign, hs1, hs2⟩ := hs
    unfold Duration.decode at h
    dsimp only at h
    generalize (if s.head? = some '-' ∨ s.head? = some '+' then s.tail else s) = x at h hs2
    split at h
    · next r =>
      obtain ⟨is, r', e, h1, h2, h3, h4, h5⟩ := Duration.loop_ext _ _ _ _ h
      exact ⟨sign, is, r', hs1, by rw [hs2, e], h1, h2, h3, (units is).2 ⟨h5, h4⟩⟩
    · cases h
  · rintro ⟨sign, is, r, h1, rfl, h2, h3, h4, h5⟩
    obtain ⟨h5, h6⟩ := (units is).1 h5
    have key : ∀ d, Duration.loop ((is.flatMap DurItem.print ++ r).length + 1) 0 d (is.flatMap DurItem.print ++ r) = .err .ext := by
      intro d
      obtain ⟨f', l', d', e, hf⟩ := Duration.loop_prefix r is ((is.flatMap DurItem.print ++ r).length + 1) 0 d h4 h6 h5 (by omega)
      rw [e]
      exact Duration.loop_bad h2 h3 hf
    simp only [List.mem_cons, List.not_mem_nil, or_false] at h1
    rcases h1 with rfl | rfl | rfl <;> exact key _

theorem Duration.decode_err (s : Str) (e : Err) : Duration.decode s = .err e ↔ DurWrong s e := by
  unfold DurWrong
  rw [← Duration.decode_ext]
  simp only [← Duration.decode_iff]
  constructor
  · intro h
    have := Duration.decode_errs s e h
    simp only [List.mem_cons, List.not_mem_nil, or_false] at this
    rcases this with rfl | rfl
    · exact .inr ⟨rfl, by rw [h]; simp, by rw [h]; simp⟩
    · exact .inl ⟨rfl, h⟩
  · rintro (⟨rfl, h⟩ | ⟨rfl, h1, h2⟩)
    · exact h
    · cases hd : Duration.decode s with
      | ok d => exact absurd hd (h2 d)
      | panic => exact absurd hd (Duration.decode_ne_panic s)
      | err e =>
        have := Duration.decode_errs s e hd
        simp only [List.mem_cons, List.not_mem_nil, or_false] at this
        rcases this with rfl | rfl
        · rfl
        · exact absurd hd h1

/-! ## Values -/

theorem err_single {x : Res α} {e0 e : Err} (h1 : x ≠ .panic) (h2 : Errs [e0] x) : x = .err e ↔ e = e0 ∧ ∀ a, x ≠ .ok a := by
  constructor
  · intro h
    have := h2 e h
    simp only [List.mem_cons, List.not_mem_nil, or_false] at this
    exact ⟨this, by rw [h]; simp⟩
  · rintro ⟨rfl, h⟩
    cases hx : x with
    | ok a => exact absurd hx (h a)
    | panic => exact absurd hx h1
    | err e' =>
      have := h2 e' hx
      simp only [List.mem_cons, List.not_mem_nil, or_false] at this
      rw [this]

theorem map_err {x : Res α} {f : α → β} {e : Err} : f <$> x = .err e ↔ x = .err e := by
  cases x with
  | ok a => exact ⟨fun h => (nomatch h), fun h => (nomatch h)⟩
  | err e' => exact ⟨fun h => by cases h; rfl, fun h => by cases h; rfl⟩
  | panic => exact ⟨fun h => (nomatch h), fun h => (nomatch h)⟩

theorem DateTime.decode_err (E : Env) (p : Nat) (tz : Option Str) (s : Str) (e : Err) : DateTime.decode E p tz s = .err e ↔ e = .ext ∧ ∀ t, ¬ DateTimeMeans E p tz s t := by
  rw [err_single (DateTime.decode_ne_panic E p tz s) (DateTime.decode_errs E p tz s)]
  simp only [ne_eq, DateTime.decode_iff]

theorem split2_none {sep : Char} {s : Str} : (∃ a, split2 sep s = (a, none)) ↔ sep ∉ s := by
  constructor
  · rintro ⟨a, h⟩ hm
    obtain ⟨x, y, rfl⟩ := List.append_of_mem hm
    by_cases hx : sep ∈ x
    · obtain ⟨x1, x2, e, hx1⟩ := mem_first hx
      rw [e, List.append_assoc, List.cons_append, split2_iff.2 ⟨rfl, hx1⟩] at h
      cases h
    · rw [split2_iff.2 ⟨rfl, hx⟩] at h
      cases h
  · intro h
    cases hs : split2 sep s with
    | mk a b =>
      cases b with
      | none => exact ⟨a, rfl⟩
      | some b => exact absurd (by rw [(split2_iff.1 hs).1]; simp) h

theorem PeriodWrong_iff (E : Env) (p : Nat) (tz : Option Str) (s : Str) (e : Err) : Period.decode E p tz s = .err e ↔ PeriodWrong E p tz s e := by
  unfold Period.decode PeriodWrong
  by_cases h0 : '/' ∈ s
  · obtain ⟨a, b, rfl, ha⟩ := mem_first h0
    have uniq : ∀ {a' b' : Str}, '/' ∉ a' → a ++ '/' :: b = a' ++ '/' :: b' → a = a' ∧ b = b' := by
      intro a' b' h1 h2
      have e1 := (split2_iff (s := a ++ '/' :: b)).2 ⟨rfl, ha⟩
      have e2 := split2_iff.2 ⟨h2, h1⟩
      rw [e1] at e2
      injection e2 with e2 e3
      injection e3 with e3
      exact ⟨e2, e3⟩
    rw [split2_iff.2 ⟨rfl, ha⟩]
    cases b with
    | nil =>
      dsimp only
      constructor
      · intro h
        cases h
        exact .inl ⟨rfl, .inr ⟨a, ha, rfl⟩⟩
      · rintro (⟨rfl, _⟩ | ⟨a', b', h1, h2, h3, _⟩)
        · rfl
        · exact absurd (uniq h2 h1).2.symm h3
    | cons c b =>
      dsimp only
      rw [Res.bind_eq_err, DateTime.decode_err]
      have body : ∀ t, ((if c = 'P' ∨ c = '+' then do
            let d ← Duration.decode (c :: b)
            return ({ start := t, dur := d } : Period)
          else do
            let stop ← DateTime.decode E (p + 1) tz (c :: b)
            return ({ start := t, stop := stop } : Period)) = .err e) ↔
          (if (c :: b).head? = some 'P' ∨ (c :: b).head? = some '+' then DurWrong (c :: b) e else e = .ext ∧ ∀ u, ¬ DateTimeMeans E (p + 1) tz (c :: b) u) := by
        intro t
        simp only [List.head?_cons, Option.some.injEq]
        split
        · rw [Res.bind_eq_err, Duration.decode_err]
          exact ⟨fun h => h.resolve_right (by rintro ⟨_, _, h⟩; cases h), .inl⟩
        · rw [Res.bind_eq_err, DateTime.decode_err]
          exact ⟨fun h => h.resolve_right (by rintro ⟨_, _, h⟩; cases h), .inl⟩
      constructor
      · intro h
        refine .inr ⟨a, c :: b, rfl, ha, by simp, ?_⟩
        rcases h with h | ⟨t, h1, h2⟩
        · exact .inl h
        · exact .inr ⟨⟨t, (DateTime.decode_iff ..).1 h1⟩, (body t).1 h2⟩
      · rintro (⟨rfl, h | ⟨a', h1, h2⟩⟩ | ⟨a', b', h1, h2, h3, h4⟩)
        · exact absurd h0 h
        · exact absurd (uniq h1 h2).2 (by simp)
        · obtain ⟨rfl, rfl⟩ := uniq h2 h1
          rcases h4 with h | ⟨⟨t, ht⟩, h⟩
          · exact .inl h
          · exact .inr ⟨t, (DateTime.decode_iff ..).2 ht, (body t).2 h⟩
  · obtain ⟨a, ha⟩ := split2_none.2 h0
    rw [ha]
    dsimp only
    constructor
    · intro h
      cases h
      exact .inl ⟨rfl, .inl h0⟩
    · rintro (⟨rfl, _⟩ | ⟨a', b', rfl, _⟩)
      · rfl
      · exact absurd (by simp) h0

theorem PairWrong_iff (E : Env) (s : Str) (e : Err) : TFloat.decode E s = .err e ↔ PairWrong E s e := by
  unfold TFloat.decode PairWrong
  by_cases h0 : ';' ∈ s
  · obtain ⟨a, b, rfl, ha⟩ := mem_first h0
    rw [split2_iff.2 ⟨rfl, ha⟩]
    dsimp only
    have opt : ∀ o : Option UInt64, Res.ofOption .ext o = .err e ↔ e = .ext ∧ o = none := by
      intro o
      cases o with
      | some v => exact ⟨fun h => (nomatch h), fun h => (nomatch h.2)⟩
      | none => exact ⟨fun h => by cases h; exact ⟨rfl, rfl⟩, fun h => by rw [h.1]; rfl⟩
    rw [Res.bind_eq_err, opt]
    simp only [Res.bind_eq_err, opt, Res.ofOption_eq_ok]
    constructor
    · rintro (⟨rfl, h⟩ | ⟨x, hx, ⟨rfl, h⟩ | ⟨y, _, h⟩⟩)
      · exact .inr ⟨rfl, a, b, rfl, ha, .inl h⟩
      · exact .inr ⟨rfl, a, b, rfl, ha, .inr h⟩
      · cases h
    · rintro (⟨_, h⟩ | ⟨rfl, a', b', h1, h2, h3⟩)
      · exact absurd h0 h
      · have e1 := (split2_iff (s := a ++ ';' :: b)).2 ⟨rfl, ha⟩
        have e2 := split2_iff.2 ⟨h1, h2⟩
        rw [e1] at e2
        injection e2 with e2 e3
        injection e3 with e3
        subst e2 e3
        cases hx : E.floatParse a with
        | none => exact .inl ⟨rfl, rfl⟩
        | some x =>
          rw [hx] at h3
          exact .inr ⟨x, rfl, .inl ⟨rfl, h3.resolve_left (by simp)⟩⟩
  · obtain ⟨a, ha⟩ := split2_none.2 h0
    rw [ha]
    dsimp only
    constructor
    · intro h
      cases h
      exact .inl ⟨rfl, h0⟩
    · rintro (⟨rfl, _⟩ | ⟨_, a', b', rfl, _⟩)
      · rfl
      · exact absurd (by simp) h0

/-- The errors of values. -/
theorem Val.decode_err (E : Env) (look : Str → Option Str) (k : Kind) (s : Str) (e : Err) : Val.decode E look k s = .err e ↔ ValWrong E look k s e := by
  have np : k ≠ .recur → Val.decode E look k s ≠ .panic := fun h hp => h (Val.decode_panic hp).1
  have single : ∀ e0, k ≠ .recur → Kind.errors k = [e0] → (Val.decode E look k s = .err e ↔ e = e0 ∧ ∀ v, ¬ ValMeans E look k s v) := by
    intro e0 h1 h2
    rw [err_single (np h1) (h2 ▸ Val.decode_errs E look k s)]
    simp only [ne_eq, Val.decode_iff]
  have all : ∀ {γ : Type} {mk : γ → Val} {R : γ → Prop}, (∀ v : Val, ¬ ∃ a, v = mk a ∧ R a) ↔ ∀ a, ¬ R a := by
    intro γ mk R
    exact ⟨fun h a ha => h _ ⟨a, rfl, ha⟩, fun h v ⟨a, _, ha⟩ => h a ha⟩
  have opt : ∀ o : Option Url, (∀ u, ¬ o = some u) ↔ o = none := by
    intro o
    cases o <;> simp
  cases k with
  | binary =>
    unfold Val.decode ValWrong
    dsimp only
    rw [map_err]
    unfold Binary.decode
    have he : (look c!"ENCODING").getD [] = c!"BASE64" ↔ look c!"ENCODING" = some c!"BASE64" := by
      cases look c!"ENCODING" <;> simp
    by_cases h : look c!"ENCODING" = some c!"BASE64"
    · rw [if_neg (by simpa using he.2 h)]
      have hx : ∀ bs, Res.ofOption Err.ext (b64Decode s) = .ok bs ↔ ∃ pad, Base64 pad (s.filter fun c => c ≠ '\r' ∧ c ≠ '\n') bs := by
        intro bs
        have := Props.C25_decoding_exact s bs
        rwa [Binary.decode, if_neg (by simp)] at this
      rw [err_single (e0 := .ext) Res.ofOption_ne_panic (errs_ofOption (by simp) _)]
      simp only [ne_eq, hx]
      constructor
      · rintro ⟨rfl, h1⟩
        exact .inr ⟨rfl, h, fun pad bs hb => h1 bs ⟨pad, hb⟩⟩
      · rintro (⟨_, h1⟩ | ⟨rfl, _, h1⟩)
        · exact absurd h h1
        · exact ⟨rfl, fun bs ⟨pad, hb⟩ => h1 pad bs hb⟩
    · rw [if_pos (fun hh => h (he.1 hh))]
      constructor
      · intro h1
        cases h1
        exact .inl ⟨rfl, h⟩
      · rintro (⟨rfl, _⟩ | ⟨_, h1, _⟩)
        · rfl
        · exact absurd h1 h
  | boolean =>
    rw [single _ (by simp) rfl]
    exact and_congr Iff.rfl all
  | calAddress =>
    rw [single _ (by simp) rfl]
    exact and_congr Iff.rfl (all.trans (opt _))
  | date =>
    rw [single _ (by simp) rfl]
    exact and_congr Iff.rfl all
  | dateTime =>
    rw [single _ (by simp) rfl]
    exact and_congr Iff.rfl all
  | duration => exact map_err.trans (Duration.decode_err ..)
  | integer =>
    rw [single _ (by simp) rfl]
    refine and_congr Iff.rfl (all.trans (forall_congr' fun i => ?_))
    constructor
    · intro h hi
      by_cases h1 : i < -(2 ^ 31 : Int)
      · exact .inl h1
      · by_cases h2 : (2 ^ 31 : Int) ≤ i
        · exact .inr h2
        · exact absurd ⟨hi, by omega, by omega⟩ h
    · rintro h ⟨hi, h1, h2⟩
      rcases h hi with h | h <;> omega
  | mtext =>
    rw [single _ (by simp) rfl]
    exact and_congr Iff.rfl all
  | period => exact map_err.trans (PeriodWrong_iff ..)
  | recur =>
    refine map_err.trans ?_
    show _ ↔ _ ∧ _
    rw [← Recur.decode_panic_iff]
    simp only [← Recur.decode_iff]
    constructor
    · intro h
      have := Recur.decode_errs _ _ _ _ _ h
      simp only [List.mem_cons, List.not_mem_nil, or_false] at this
      exact ⟨this, by rw [h]; simp, by rw [h]; simp⟩
    · rintro ⟨rfl, h1, h2⟩
      exact (err_single h2 (Recur.decode_errs _ _ _ _)).2 ⟨rfl, h1⟩
  | text =>
    rw [single _ (by simp) rfl]
    exact and_congr Iff.rfl all
  | tfloat => exact map_err.trans (PairWrong_iff ..)
  | uri =>
    rw [single _ (by simp) rfl]
    exact and_congr Iff.rfl (all.trans (opt _))
  | utcOffset =>
    rw [single _ (by simp) rfl]
    exact and_congr Iff.rfl all

/-! ## Parameters -/

theorem oneVal_err {vs : List PVal} {e : Err} : oneVal vs = .err e ↔ e = .invalidParam ∧ NotOne vs := by
  unfold oneVal NotOne
  split
  · next v => exact ⟨fun h => (nomatch h), fun h => absurd rfl (h.2 v)⟩
  · next h => exact ⟨fun h1 => by cases h1; exact ⟨rfl, fun v => h v⟩, fun h1 => by rw [h1.1]⟩

theorem oneVal_one {vs : List PVal} {v : PVal} : oneVal vs = .ok v ↔ vs = [v] := by
  unfold oneVal
  split
  · next w => exact ⟨fun h => by cases h; rfl, fun h => by cases h; rfl⟩
  · next h => exact ⟨fun h1 => (nomatch h1), fun h1 => absurd h1 (h v)⟩

theorem wantQuoted_err {v : PVal} {e : Err} : wantQuoted v = .err e ↔ e = .invalidParam ∧ v.quoted = false := by
  unfold wantQuoted
  cases v.quoted with
  | true => exact ⟨fun h => (nomatch h), fun h => (nomatch h.2)⟩
  | false => exact ⟨fun h => by cases h; exact ⟨rfl, rfl⟩, fun h => by rw [h.1]; rfl⟩

theorem wantQuoted_ok {v : PVal} {x : Unit} : wantQuoted v = .ok x ↔ v.quoted = true := Res.guard_eq_ok

theorem uri_err {E : Env} {s : Str} {e : Err} : URI.decode E s = .err e ↔ e = .ext ∧ E.urlParse s = none := by
  unfold URI.decode
  cases E.urlParse s with
  | some u => exact ⟨fun h => (nomatch h), fun h => (nomatch h.2)⟩
  | none => exact ⟨fun h => by cases h; exact ⟨rfl, rfl⟩, fun h => by rw [h.1]; rfl⟩

theorem uri_ok {E : Env} {s : Str} {u : Url} : URI.decode E s = .ok u ↔ E.urlParse s = some u := Res.ofOption_eq_ok ..

theorem guard_err {b : Bool} {e e0 : Err} : Res.guard e0 b = .err e ↔ e = e0 ∧ b = false := by
  cases b with
  | true => exact ⟨fun h => (nomatch h), fun h => (nomatch h.2)⟩
  | false => exact ⟨fun h => by cases h; exact ⟨rfl, rfl⟩, fun h => by rw [h.1]; rfl⟩

theorem mapRes_err {f : α → Res β} {e : Err} : ∀ {l : List α}, mapRes f l = .err e ↔ ∃ a w b, l = a ++ w :: b ∧ (∀ x ∈ a, ∃ y, f x = .ok y) ∧ f w = .err e := by
  intro l
  induction l with
  | nil =>
    constructor
    · intro h; cases h
    · rintro ⟨a, w, b, h, _⟩; simp at h
  | cons x l ih =>
    rw [mapRes, Res.bind_eq_err]
    constructor
    · rintro (h | ⟨y, hy, h⟩)
      · exact ⟨[], x, l, rfl, by simp, h⟩
      · rcases Res.bind_eq_err.1 h with h | ⟨z, _, h⟩
        · obtain ⟨a, w, b, rfl, h1, h2⟩ := ih.1 h
          refine ⟨x :: a, w, b, rfl, ?_, h2⟩
          intro v hv
          rcases List.mem_cons.1 hv with rfl | hv
          · exact ⟨y, hy⟩
          · exact h1 v hv
        · cases h
    · rintro ⟨a, w, b, h, h1, h2⟩
      cases a with
      | nil =>
        cases h
        exact .inl h2
      | cons x' a =>
        cases h
        obtain ⟨y, hy⟩ := h1 x (by simp)
        refine .inr ⟨y, hy, Res.bind_eq_err.2 (.inl (ih.2 ⟨a, w, b, rfl, fun v hv => h1 v (by simp [hv]), h2⟩))⟩

theorem boolean_err {s : Str} {e : Err} : Boolean.decode s = .err e ↔ e = .invalidBoolean ∧ ∀ b, ¬ BoolText s b := by
  have hn : Boolean.decode s ≠ .panic := by
    unfold Boolean.decode
    split
    · exact fun h => nomatch h
    · split <;> exact fun h => nomatch h
  have he : Errs [.invalidBoolean] (Boolean.decode s) := by
    unfold Boolean.decode
    split
    · exact errs_ok _ _
    · split
      · exact errs_ok _ _
      · exact errs_err (by simp)
  rw [err_single hn he]
  simp only [ne_eq, Boolean.decode_iff]

/-- The errors of parameters. -/
theorem PKind.decode_err (E : Env) (k : PKind) (vs : List PVal) (e : Err) : k.decode E vs = .err e ↔ ParamWrong E k vs e := by
  have ret : ∀ {γ : Type} {x : Res γ} {f : γ → ParamVal}, (x >>= fun a => (pure (f a) : Res ParamVal)) = .err e ↔ x = .err e := by
    intro γ x f
    rw [Res.bind_eq_err]
    exact ⟨fun h => h.resolve_right (by rintro ⟨_, _, h⟩; cases h), .inl⟩
  cases k with
  | url =>
    unfold PKind.decode ParamWrong
    dsimp only
    simp only [Res.bind_eq_err, ret, oneVal_err, oneVal_one, wantQuoted_err, wantQuoted_ok, uri_err]
    constructor
    · rintro (⟨rfl, h⟩ | ⟨v, rfl, ⟨rfl, h⟩ | ⟨_, h1, h⟩⟩)
      · exact .inl ⟨rfl, fun s => h _⟩
      · refine .inl ⟨rfl, fun s hs => ?_⟩
        cases hs
        cases h
      · refine .inr ⟨h.1, v.data, ?_, h.2⟩
        rw [← h1]
    · rintro (⟨rfl, h⟩ | ⟨rfl, s, rfl, h⟩)
      · by_cases h1 : NotOne vs
        · exact .inl ⟨rfl, h1⟩
        · obtain ⟨v, hv⟩ := Classical.not_forall.1 h1
          have hv := Classical.not_not.1 hv
          refine .inr ⟨v, hv, .inl ⟨rfl, ?_⟩⟩
          cases hq : v.quoted with
          | false => rfl
          | true => exact absurd (by rw [hv, ← hq]) (h v.data)
      · exact .inr ⟨_, rfl, .inr ⟨(), rfl, rfl, h⟩⟩
  | urls =>
    unfold PKind.decode ParamWrong
    dsimp only
    simp only [ret, mapRes_err, Res.bind_eq_err, Res.bind_eq_ok, wantQuoted_err, wantQuoted_ok, uri_err, uri_ok]
    constructor
    · rintro ⟨a, v, b, rfl, h1, h2⟩
      refine ⟨a, v, b, rfl, fun w hw => ?_, ?_⟩
      · obtain ⟨y, _, h3, h4⟩ := h1 w hw
        exact ⟨h3, y, h4⟩
      · rcases h2 with h2 | ⟨_, h3, h4⟩
        · exact .inl h2
        · exact .inr ⟨h4.1, h3, h4.2⟩
    · rintro ⟨a, v, b, rfl, h1, h2⟩
      refine ⟨a, v, b, rfl, fun w hw => ?_, ?_⟩
      · obtain ⟨h3, y, h4⟩ := h1 w hw
        exact ⟨y, (), h3, h4⟩
      · rcases h2 with h2 | ⟨h3, h4, h5⟩
        · exact .inl h2
        · exact .inr ⟨(), h4, h3, h5⟩
  | str q =>
    unfold PKind.decode ParamWrong
    dsimp only
    simp only [Res.bind_eq_err, oneVal_err, oneVal_one]
    constructor
    · rintro (⟨rfl, h⟩ | ⟨v, rfl, h⟩)
      · exact ⟨rfl, .inl h⟩
      · cases q with
        | false => cases h
        | true =>
          rcases Res.bind_eq_err.1 h with h | ⟨_, _, h⟩
          · have h := wantQuoted_err.1 h
            exact ⟨h.1, .inr ⟨rfl, v, by simp, h.2⟩⟩
          · cases h
    · rintro ⟨rfl, h | ⟨rfl, v, hv, h⟩⟩
      · exact .inl ⟨rfl, h⟩
      · by_cases h1 : NotOne vs
        · exact .inl ⟨rfl, h1⟩
        · obtain ⟨w, hw⟩ := Classical.not_forall.1 h1
          have hw := Classical.not_not.1 hw
          subst hw
          simp only [List.mem_cons, List.not_mem_nil, or_false] at hv
          subst hv
          exact .inr ⟨v, rfl, Res.bind_eq_err.2 (.inl (wantQuoted_err.2 ⟨rfl, h⟩))⟩
  | fmt =>
    unfold PKind.decode ParamWrong
    dsimp only
    simp only [Res.bind_eq_err, oneVal_err, oneVal_one, guard_err]
    constructor
    · rintro (⟨rfl, h⟩ | ⟨v, rfl, ⟨rfl, h⟩ | ⟨_, _, h⟩⟩)
      · exact ⟨rfl, .inl h⟩
      · exact ⟨rfl, .inr ⟨v, by simp, fun hf => by rw [(fmtMatch_iff _).2 hf] at h; cases h⟩⟩
      · cases h
    · rintro ⟨rfl, h | ⟨v, hv, h⟩⟩
      · exact .inl ⟨rfl, h⟩
      · by_cases h1 : NotOne vs
        · exact .inl ⟨rfl, h1⟩
        · obtain ⟨w, hw⟩ := Classical.not_forall.1 h1
          have hw := Classical.not_not.1 hw
          subst hw
          simp only [List.mem_cons, List.not_mem_nil, or_false] at hv
          subst hv
          refine .inr ⟨v, rfl, .inl ⟨rfl, ?_⟩⟩
          cases hf : fmtMatch v.data with
          | false => rfl
          | true => exact absurd ((fmtMatch_iff _).1 hf) h
  | enum names =>
    unfold PKind.decode ParamWrong
    dsimp only
    simp only [Res.bind_eq_err, oneVal_err, oneVal_one]
    constructor
    · rintro (⟨rfl, h⟩ | ⟨v, rfl, h⟩)
      · exact ⟨rfl, h⟩
      · split at h <;> cases h
    · rintro ⟨rfl, h⟩
      exact .inl ⟨rfl, h⟩
  | strs =>
    unfold PKind.decode ParamWrong
    dsimp only
    simp only [ret, mapRes_err, Res.bind_eq_err, Res.bind_eq_ok, wantQuoted_err, wantQuoted_ok]
    constructor
    · rintro ⟨a, v, b, rfl, h1, h2 | ⟨_, _, h2⟩⟩
      · exact ⟨h2.1, v, by simp, h2.2⟩
      · cases h2
    · rintro ⟨rfl, v, hv, h⟩
      clear ret
      induction vs with
      | nil => simp at hv
      | cons w vs ih =>
        cases hq : w.quoted with
        | false => exact ⟨[], w, vs, rfl, by simp, .inl ⟨rfl, hq⟩⟩
        | true =>
          rcases List.mem_cons.1 hv with rfl | hv
          · rw [hq] at h; cases h
          · obtain ⟨a, v', b, rfl, h1, h2⟩ := ih hv
            refine ⟨w :: a, v', b, rfl, ?_, h2⟩
            intro x hx
            rcases List.mem_cons.1 hx with rfl | hx
            · exact ⟨_, (), hq, rfl⟩
            · exact h1 x hx
  | range =>
    unfold PKind.decode ParamWrong
    dsimp only
    simp only [Res.bind_eq_err, oneVal_err, oneVal_one, guard_err]
    constructor
    · rintro (⟨rfl, h⟩ | ⟨v, rfl, ⟨rfl, h⟩ | ⟨_, _, h⟩⟩)
      · exact ⟨rfl, .inl h⟩
      · exact ⟨rfl, .inr ⟨v, by simp, by simpa using h⟩⟩
      · cases h
    · rintro ⟨rfl, h | ⟨v, hv, h⟩⟩
      · exact .inl ⟨rfl, h⟩
      · by_cases h1 : NotOne vs
        · exact .inl ⟨rfl, h1⟩
        · obtain ⟨w, hw⟩ := Classical.not_forall.1 h1
          have hw := Classical.not_not.1 hw
          subst hw
          simp only [List.mem_cons, List.not_mem_nil, or_false] at hv
          subst hv
          exact .inr ⟨v, rfl, .inl ⟨rfl, by simpa using h⟩⟩
  | bool =>
    unfold PKind.decode ParamWrong
    dsimp only
    simp only [Res.bind_eq_err, ret, oneVal_err, oneVal_one, boolean_err]
    constructor
    · rintro (⟨rfl, h⟩ | ⟨v, rfl, rfl, h⟩)
      · exact .inl ⟨rfl, h⟩
      · exact .inr ⟨rfl, v, rfl, h⟩
    · rintro (⟨rfl, h⟩ | ⟨rfl, v, rfl, h⟩)
      · exact .inl ⟨rfl, h⟩
      · exact .inr ⟨v, rfl, rfl, h⟩

/-! ## Properties -/

theorem steps_append {E : Env} {params : List PDef} {vals : List (Str × Kind)} : ∀ (a b : List (Str × List PVal)) (st : PState),
    PState.steps E params vals st (a ++ b) = (PState.steps E params vals st a >>= fun st1 => PState.steps E params vals st1 b) := by
  intro a
  induction a with
  | nil => intro b st; rfl
  | cons p a ih =>
    intro b st
    rw [List.cons_append, PState.steps, PState.steps]
    cases st.step E params vals p with
    | ok st1 => exact ih b st1
    | err e => rfl
    | panic => rfl

theorem steps_err {E : Env} {params : List PDef} {vals : List (Str × Kind)} {e : Err} : ∀ (ps : List (Str × List PVal)) (st : PState),
    PState.steps E params vals st ps = .err e ↔
      ∃ a p b st1, ps = a ++ p :: b ∧ PState.steps E params vals st a = .ok st1 ∧ st1.step E params vals p = .err e := by
  intro ps
  induction ps with
  | nil =>
    intro st
    constructor
    · intro h; cases h
    · rintro ⟨a, p, b, st1, h, _⟩; simp at h
  | cons p ps ih =>
    intro st
    rw [PState.steps, Res.bind_eq_err]
    constructor
    · rintro (h | ⟨st1, h1, h⟩)
      · exact ⟨[], p, ps, st, rfl, rfl, h⟩
      · obtain ⟨a, q, b, st2, rfl, h2, h3⟩ := (ih st1).1 h
        refine ⟨p :: a, q, b, st2, rfl, ?_, h3⟩
        rw [PState.steps, h1]
        exact h2
    · rintro ⟨a, q, b, st1, h, h1, h2⟩
      cases a with
      | nil =>
        cases h
        cases h1
        exact .inl h2
      | cons x a =>
        cases h
        rw [PState.steps] at h1
        obtain ⟨st2, h3, h4⟩ := Res.bind_eq_ok.1 h1
        exact .inr ⟨st2, h3, (ih st2).2 ⟨a, q, b, st1, rfl, h4, h2⟩⟩

/-- What the state says of the parameters that were read. -/
structure Seen (params : List PDef) (vals : List (Str × Kind)) (a : List (Str × List PVal)) (st : PState) : Prop where
  par : ∀ (i : Nat) (d : PDef), params[i]? = some d → ((st.ps.getD i none).isSome = true ↔ valuesOf a d.name ≠ [])
  alt : 2 ≤ vals.length → (st.vtype.isSome = true ↔ valuesOf a c!"VALUE" ≠ [])
  uses : UsesType vals a (st.vtype.getD 0)
  lt : st.vtype.getD 0 < vals.length

theorem steps_seen {E : Env} {params : List PDef} {vals : List (Str × Kind)} (hw : FieldsWf params vals) {a : List (Str × List PVal)} {st : PState}
    (h : PState.steps E params vals { ps := params.map fun _ => none } a = .ok st) : Seen params vals a st := by
  have hlen : ({ ps := params.map fun _ => none } : PState).ps.length = params.length := by simp
  obtain ⟨qs, vt, op⟩ := st
  have hinit : ∀ i : Nat, (params.map fun _ => (none : Option ParamVal)).getD i none = none := by
    intro i
    rw [List.getD_eq_getElem?_getD, List.getElem?_map]
    cases params[i]? <;> rfl
  have hpos : 0 < vals.length := List.length_pos_iff.2 hw.ne
  obtain ⟨_, h2, h3⟩ := (steps_iff hw a hlen).2 ⟨op, h⟩
  have h4 : UsesType vals a (vt.getD 0) ∧ vt.getD 0 < vals.length := by
    unfold GAlt at h3
    unfold UsesType
    split at h3
    · next h => rw [if_pos h, h3]; exact ⟨rfl, hpos⟩
    · next h =>
      rw [if_neg h]
      split at h3
      · next hz => rw [hz, h3]; exact ⟨rfl, hpos⟩
      · next t hz =>
        obtain ⟨_, i, rfl, hi⟩ := h3
        rw [hz]
        have hi' := (indexOf_iff hw.vnodup).1 hi
        rw [List.getElem?_map, Option.map_eq_some_iff] at hi'
        obtain ⟨⟨a, k⟩, hx, he⟩ := hi'
        refine ⟨⟨k, by dsimp only at he; rw [← he]; exact hx⟩, ?_⟩
        have := indexOf_lt hi
        simpa using this
      · exact absurd h3 id
  refine ⟨fun i d hd => ?_, fun hv => ?_, h4.1, h4.2⟩
  · have := h2 i d hd
    dsimp only at this ⊢
    rw [hinit i] at this
    unfold GParam at this
    split at this
    · next hz => rw [hz, this]; simp
    · next hz =>
      obtain ⟨_, v, _, h5⟩ := this
      rw [hz, h5]
      simp
    · exact absurd this id
  · dsimp only at h3 ⊢
    unfold GAlt at h3
    rw [if_neg (by omega)] at h3
    split at h3
    · next hz => rw [hz, h3]; simp
    · next t hz =>
      obtain ⟨_, i, rfl, hi⟩ := h3
      rw [hz]
      simp
    · exact absurd h3 id

theorem step_err {E : Env} {params : List PDef} {vals : List (Str × Kind)} (hw : FieldsWf params vals) {a : List (Str × List PVal)} {st : PState}
    (hs : Seen params vals a st) (p : Str × List PVal) (e : Err) : st.step E params vals p = .err e ↔ ParamFault E params vals a p e := by
  unfold PState.step ParamFault
  dsimp only
  cases hi : paramIdx (upper p.1) params with
  | some i =>
    obtain ⟨d, hd, hn⟩ := paramIdx_some hi
    have hgd : params.getD i ⟨[], .range⟩ = d := by rw [List.getD_eq_getElem?_getD, hd]; rfl
    have hm := List.mem_of_getElem? hd
    have hnv : upper p.1 ≠ c!"VALUE" := by rw [← hn]; exact (hw.known d hm).nv
    have hone : ∀ d' ∈ params, d'.name = upper p.1 → d' = d := by
      intro d' hd' hn'
      obtain ⟨j, hj⟩ := List.getElem?_of_mem hd'
      have := names_inj hw.nodup hj hd (by rw [hn', hn])
      subst this
      rw [hj] at hd
      exact Option.some.inj hd
    simp only [hgd]
    have hp := hs.par i d hd
    by_cases h : valuesOf a d.name = []
    · rw [if_neg (by rw [hp]; simpa using h), Res.bind_eq_err, PKind.decode_err]
      constructor
      · rintro (h1 | ⟨v, _, h1⟩)
        · exact .inl ⟨d, hm, hn, .inr ⟨h, h1⟩⟩
        · cases h1
      · rintro (⟨d', h1, h2, h3⟩ | ⟨h1, _⟩)
        · rw [hone d' h1 h2] at h3
          rcases h3 with ⟨h3, _⟩ | ⟨_, h3⟩
          · exact absurd h h3
          · exact .inl h3
        · exact absurd h1 hnv
    · rw [if_pos (hp.2 h)]
      constructor
      · intro h1
        cases h1
        exact .inl ⟨d, hm, hn, .inl ⟨h, rfl⟩⟩
      · rintro (⟨d', h1, h2, h3⟩ | ⟨h1, _⟩)
        · rw [hone d' h1 h2] at h3
          rcases h3 with ⟨_, rfl⟩ | ⟨h3, _⟩
          · rfl
          · exact absurd h3 h
        · exact absurd h1 hnv
  | none =>
    have hno : ∀ d ∈ params, d.name ≠ upper p.1 := fun d hd hn => paramIdx_none.1 hi (List.mem_map.2 ⟨d, hd, hn⟩)
    dsimp only
    by_cases hv : upper p.1 = c!"VALUE" ∧ 2 ≤ vals.length
    · rw [if_pos hv]
      have ha := hs.alt hv.2
      split
      · next v hp =>
        by_cases h : valuesOf a c!"VALUE" = []
        · rw [if_neg (by rw [ha]; simpa using h)]
          split
          · next i hi2 =>
            have hmem : upper v.data ∈ vals.map (·.1) := List.mem_of_getElem? (indexOf_some _ _ _ hi2)
            constructor
            · intro h1; cases h1
            · rintro (⟨d, h1, h2, _⟩ | ⟨_, _, ⟨h1, _⟩ | ⟨w, h1, ⟨h2, _⟩ | ⟨_, h2, _⟩⟩⟩)
              · exact absurd h2 (hno d h1)
              · exact absurd hp (h1 v)
              · exact absurd h h2
              · rw [hp] at h1
                cases h1
                exact absurd hmem h2
          · next hi2 =>
            constructor
            · intro h1
              cases h1
              exact .inr ⟨hv.1, hv.2, .inr ⟨v, hp, .inr ⟨h, indexOf_none.1 hi2, rfl⟩⟩⟩
            · rintro (⟨d, h1, h2, _⟩ | ⟨_, _, ⟨h1, _⟩ | ⟨w, h1, ⟨h2, _⟩ | ⟨_, h2, rfl⟩⟩⟩)
              · exact absurd h2 (hno d h1)
              · exact absurd hp (h1 v)
              · exact absurd h h2
              · rfl
        · rw [if_pos (ha.2 h)]
          constructor
          · intro h1
            cases h1
            exact .inr ⟨hv.1, hv.2, .inr ⟨v, hp, .inl ⟨h, rfl⟩⟩⟩
          · rintro (⟨d, h1, h2, _⟩ | ⟨_, _, ⟨h1, _⟩ | ⟨w, h1, ⟨_, rfl⟩ | ⟨h2, _⟩⟩⟩)
            · exact absurd h2 (hno d h1)
            · exact absurd hp (h1 v)
            · rfl
            · exact absurd h2 h
      · next hp =>
        constructor
        · intro h1
          cases h1
          exact .inr ⟨hv.1, hv.2, .inl ⟨fun v => hp v, rfl⟩⟩
        · rintro (⟨d, h1, h2, _⟩ | ⟨_, _, ⟨_, rfl⟩ | ⟨w, h1, _⟩⟩)
          · exact absurd h2 (hno d h1)
          · rfl
          · exact absurd h1 (hp w)
    · rw [if_neg hv]
      constructor
      · intro h1; cases h1
      · rintro (⟨d, h1, h2, _⟩ | ⟨h1, h2, _⟩)
        · exact absurd h2 (hno d h1)
        · exact absurd ⟨h1, h2⟩ hv

theorem steps_right {E : Env} {params : List PDef} {vals : List (Str × Kind)} (hw : FieldsWf params vals) (ps : List (Str × List PVal)) :
    (∃ st, PState.steps E params vals { ps := params.map fun _ => none } ps = .ok st) ↔ ParamsRight E params vals ps := by
  constructor
  · rintro ⟨st, h⟩ a p b e rfl hf
    rw [steps_append] at h
    obtain ⟨st1, h1, h2⟩ := Res.bind_eq_ok.1 h
    rw [PState.steps, (step_err hw (steps_seen hw h1) p e).2 hf] at h2
    cases h2
  · intro h
    cases hx : PState.steps E params vals { ps := params.map fun _ => none } ps with
    | ok st => exact ⟨st, rfl⟩
    | panic => exact absurd hx (PState.steps_ne_panic _ _ _ _ _)
    | err e =>
      obtain ⟨a, p, b, st1, rfl, h1, h2⟩ := (steps_err ps _).1 hx
      exact absurd ((step_err hw (steps_seen hw h1) p e).1 h2) (h a p b e rfl)

theorem usesType_unique {params : List PDef} {vals : List (Str × Kind)} (hw : FieldsWf params vals) {ps : List (Str × List PVal)} {i j : Nat} (hi : UsesType vals ps i)
    (hj : UsesType vals ps j) : i = j := by
  unfold UsesType at hi hj
  split at hi
  · next h => rw [if_pos h] at hj; rw [hi, hj]
  · next h =>
    rw [if_neg h] at hj
    split at hi
    · next hz => rw [hz] at hj; rw [hi, hj]
    · next t hz =>
      rw [hz] at hj
      obtain ⟨k, hk⟩ := hi
      obtain ⟨l, hl⟩ := hj
      refine nodup_inj hw.vnodup (a := upper t.data) ?_ ?_
      · rw [List.getElem?_map, hk]; rfl
      · rw [List.getElem?_map, hl]; rfl
    · exact absurd hi id

/-- The errors of properties. -/
theorem PSpec.decode_err {E : Env} {sp : PSpec} (hw : sp.wf = true) (ps : List (Str × List PVal)) (value : Str) (e : Err) :
    sp.decode E ps value = .err e ↔ PropWrong E sp.shape ps value e := by
  obtain ⟨name, sh⟩ := sp
  cases sh with
  | enum names =>
    unfold PSpec.decode PropWrong
    dsimp only
    constructor
    · intro h
      split at h
      · cases h
      · next hn =>
        cases h
        exact ⟨rfl, indexOf_none.1 hn⟩
    · rintro ⟨rfl, h⟩
      rw [indexOf_none.2 h]
  | fields params vals =>
    have hw := PSpec.wf_fields hw
    have hnot : ∀ n : Str, (∀ d ∈ params, d.name ≠ n) → n ∉ params.map (·.name) := by
      intro n h hm
      obtain ⟨d, hd, he⟩ := List.mem_map.1 hm
      exact h d hd he
    have hop : ∀ {st : PState}, PState.steps E params vals { ps := params.map fun _ => none } ps = .ok st → ∀ k,
        Val.decode E (opGet st.op) k value = Val.decode E (otherParam ps) k value := by
      intro st h k
      refine Val.decode_same ?_ ?_ k value
      · rw [steps_op (hnot _ fun d hd => (hw.known d hd).nt) (by decide) ps h]
        show (otherParam ps c!"TZID").or none = _
        cases otherParam ps c!"TZID" <;> rfl
      · rw [steps_op (hnot _ fun d hd => (hw.known d hd).ne) (by decide) ps h]
        show (otherParam ps c!"ENCODING").or none = _
        cases otherParam ps c!"ENCODING" <;> rfl
    unfold PSpec.decode PropWrong
    dsimp only
    rw [Res.bind_eq_err]
    constructor
    · rintro (h | ⟨st, h1, h⟩)
      · obtain ⟨a, p, b, st1, rfl, h1, h2⟩ := (steps_err ps _).1 h
        exact .inl ⟨a, p, b, rfl, (steps_right hw a).1 ⟨st1, h1⟩, (step_err hw (steps_seen hw h1) p e).1 h2⟩
      · rcases Res.bind_eq_err.1 h with h | ⟨v, _, h⟩
        · have hs := steps_seen hw h1
          refine .inr ⟨(steps_right hw ps).1 ⟨st, h1⟩, st.vtype.getD 0, _, _, hs.uses, List.getElem?_eq_getElem hs.lt, (Val.decode_err ..).1 ?_⟩
          rw [hop h1, List.getD_eq_getElem?_getD, List.getElem?_eq_getElem hs.lt, Option.getD_some] at h
          exact h
        · cases h
    · rintro (⟨a, p, b, rfl, h1, h2⟩ | ⟨h1, i, n, k, h2, h3, h4⟩)
      · obtain ⟨st1, h3⟩ := (steps_right hw a).2 h1
        exact .inl ((steps_err _ _).2 ⟨a, p, b, st1, rfl, h3, (step_err hw (steps_seen hw h3) p e).2 h2⟩)
      · obtain ⟨st, h5⟩ := (steps_right hw ps).2 h1
        have hs := steps_seen hw h5
        have := usesType_unique hw h2 hs.uses
        subst this
        refine .inr ⟨st, h5, Res.bind_eq_err.2 (.inl ?_)⟩
        rw [hop h5, List.getD_eq_getElem?_getD, h3, Option.getD_some]
        exact (Val.decode_err ..).2 h4

end Ics
