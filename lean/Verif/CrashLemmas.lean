import Verif.PlaceLemmas
import Verif.RuleLemmas
import Verif.PropLineLemmas
import Verif.Spec.Panics
/-!
# Lemmas: exactly which rule texts panic
-/

namespace Ics

open Spec

variable {α β : Type}

theorem mapRes_append_ok {f : α → Res β} : ∀ {a b : List α} {r : List β}, mapRes f (a ++ b) = .ok r ↔ ∃ x y, mapRes f a = .ok x ∧ mapRes f b = .ok y ∧ r = x ++ y := by
  intro a
  induction a with
  | nil => intro b r; simp [mapRes]
  | cons w a ih =>
    intro b r
    rw [List.cons_append, mapRes, mapRes]
    simp only [Res.bind_eq_ok, Res.pure_eq, ih]
    constructor
    · rintro ⟨v, hv, z, ⟨x, y, h1, h2, rfl⟩, h⟩
      cases h
      exact ⟨v :: x, y, ⟨v, hv, x, h1, rfl⟩, h2, rfl⟩
    · rintro ⟨_, y, ⟨v, hv, x, h1, h⟩, h2, rfl⟩
      cases h
      exact ⟨v, hv, x ++ y, ⟨x, y, h1, h2, rfl⟩, rfl⟩

theorem mapRes_panic_iff {f : α → Res β} : ∀ {l : List α}, mapRes f l = .panic ↔ ∃ a w b, l = a ++ w :: b ∧ (∃ x, mapRes f a = .ok x) ∧ f w = .panic := by
  intro l
  induction l with
  | nil =>
    constructor
    · intro h; cases h
    · rintro ⟨a, w, b, h, _⟩
      cases a <;> cases h
  | cons v l ih =>
    rw [mapRes]
    simp only [Res.bind_eq_panic, ih]
    constructor
    · rintro (h | ⟨y, hy, ⟨a, w, b, rfl, ⟨x, hx⟩, hw⟩ | ⟨_, _, h⟩⟩)
      · exact ⟨[], v, l, rfl, ⟨[], rfl⟩, h⟩
      · exact ⟨v :: a, w, b, rfl, ⟨y :: x, by rw [mapRes, hy]; simp only [Res.ok_bind]; rw [hx]; rfl⟩, hw⟩
      · cases h
    · rintro ⟨a, w, b, he, ⟨x, hx⟩, hw⟩
      cases a with
      | nil => cases he; exact Or.inl hw
      | cons u a =>
        simp only [List.cons_append, List.cons.injEq] at he
        obtain ⟨rfl, rfl⟩ := he
        rw [mapRes] at hx
        obtain ⟨y, hy, hx⟩ := Res.bind_eq_ok.1 hx
        obtain ⟨z, hz, _⟩ := Res.bind_eq_ok.1 hx
        exact Or.inr ⟨y, hy, Or.inl ⟨a, w, b, rfl, ⟨z, hz⟩, hw⟩⟩

theorem Recur.loop_append {E : Env} {p : Nat} {tz : Option Str} : ∀ (a b : List Str) (st : RState),
    Recur.loop E p tz st (a ++ b) = Recur.loop E p tz st a >>= fun st => Recur.loop E p tz st b := by
  intro a
  induction a with
  | nil => intro b st; rfl
  | cons q a ih =>
    intro b st
    rw [List.cons_append, Recur.loop, Recur.loop]
    split
    · rfl
    · split
      · rfl
      · rw [Res.bind_assoc']
        congr 1
        funext st'
        exact ih b st'

theorem Recur.loop_panic_iff {E : Env} {p : Nat} {tz : Option Str} : ∀ (l : List Str) (st : RState), Recur.loop E p tz st l = .panic ↔
    ∃ a v b st', l = a ++ (c!"BYDAY=" ++ v) :: b ∧ Recur.loop E p tz st a = .ok st' ∧ Recur.part E p tz st' v .byDay = .panic := by
  intro l
  induction l with
  | nil =>
    intro st
    constructor
    · intro h; cases h
    · rintro ⟨a, w, b, _, h, _⟩
      cases a <;> cases h
  | cons q l ih =>
    intro st
    have hb : ∀ v, split2 '=' (c!"BYDAY=" ++ v) = (c!"BYDAY", some v) := fun v => split2_append '=' c!"BYDAY" v (by decide)
    constructor
    · intro h
      rw [Recur.loop] at h
      split at h
      · cases h
      · next name v hs =>
        split at h
        · cases h
        · next k hk =>
          rcases Res.bind_eq_panic.1 h with h | ⟨st1, h1, h⟩
          · obtain ⟨rfl, _⟩ := Recur.part_panic h
            have hn := rkeys_byDay hk
            subst hn
            have hq := split2_some hs
            exact ⟨[], v, l, st, by rw [hq]; rfl, rfl, h⟩
          · obtain ⟨a, v', b, st', rfl, h2, h3⟩ := (ih st1).1 h
            refine ⟨q :: a, v', b, st', rfl, ?_, h3⟩
            rw [Recur.loop, hs]
            simp only [hk]
            rw [h1]
            exact h2
    · rintro ⟨a, v, b, st', he, h1, h2⟩
      rw [he, Recur.loop_append, h1]
      show Recur.loop E p tz st' _ = _
      rw [Recur.loop, hb]
      show (Recur.part E p tz st' v .byDay >>= _) = _
      rw [h2]
      rfl

theorem decDay_mo : decDay c!"MO" = .ok ⟨2, 0⟩ := by decide

/-- BYDAY with the elements up to one. -/
theorem part_byDay_iff {E : Env} {p : Nat} {tz : Option Str} {st : RState} {v : Str} : Recur.part E p tz st v .byDay = .panic ↔
    st.1.byDay = [] ∧ mapRes decDay (splitOn ',' v) = .panic := by
  unfold Recur.part
  simp only
  unfold once
  split
  · next h =>
    rw [Res.bind_eq_panic]
    constructor
    · rintro (h1 | ⟨_, _, h1⟩)
      · exact ⟨h, h1⟩
      · cases h1
    · rintro ⟨_, h1⟩
      exact Or.inl h1
  · next h =>
    constructor
    · intro h1; cases h1
    · rintro ⟨h1, _⟩
      rw [h] at h1
      cases h1

theorem part_byDay_ok {E : Env} {p : Nat} {tz : Option Str} {st : RState} {v : Str} : (∃ st', Recur.part E p tz st v .byDay = .ok st') ↔
    st.1.byDay = [] ∧ ∃ l, mapRes decDay (splitOn ',' v) = .ok l := by
  unfold Recur.part
  simp only
  unfold once
  split
  · next h =>
    constructor
    · rintro ⟨st', h1⟩
      obtain ⟨l, h2, _⟩ := Res.bind_eq_ok.1 h1
      exact ⟨h, l, h2⟩
    · rintro ⟨_, l, h1⟩
      exact ⟨_, by rw [h1]; rfl⟩
  · next h =>
    constructor
    · rintro ⟨_, h1⟩; cases h1
    · rintro ⟨h1, _⟩
      rw [h] at h1
      cases h1

theorem freq_daily {E : Env} {p : Nat} {tz : Option Str} (st : RState) : Recur.loop E p tz st [c!"FREQ=DAILY"] = .ok ({ st.1 with freq := 3 }, true) := by
  rfl

theorem byDay_loop {E : Env} {p : Nat} {tz : Option Str} (st : RState) (v : Str) (b : List Str) : Recur.loop E p tz st ((c!"BYDAY=" ++ v) :: b) =
    Recur.part E p tz st v .byDay >>= fun st => Recur.loop E p tz st b := by
  have hb : split2 '=' (c!"BYDAY=" ++ v) = (c!"BYDAY", some v) := split2_append '=' c!"BYDAY" v (by decide)
  rw [Recur.loop, hb]
  rfl

/-- Rules with the parts `a`, a list of days and a frequency. -/
theorem daily_ok {E : Env} {p : Nat} {tz : Option Str} {a ws : List Str} (ha : ∀ q ∈ a, ';' ∉ q) (hw : ∀ w ∈ ws, ';' ∉ w ∧ ',' ∉ w) :
    (∃ r, Recur.decode E p tz (join [';'] (a ++ [c!"BYDAY=" ++ join [','] (ws ++ [c!"MO"]), c!"FREQ=DAILY"])) = .ok r) ↔
    ∃ st, Recur.loop E p tz ({}, false) a = .ok st ∧ st.1.byDay = [] ∧ ∃ l, mapRes decDay ws = .ok l := by
  have hw' : ∀ w ∈ ws ++ [c!"MO"], ';' ∉ w ∧ ',' ∉ w := by
    intro w h
    rcases List.mem_append.1 h with h | h
    · exact hw w h
    · rw [List.mem_singleton.1 h]; decide
  have hs : splitOn ',' (join [','] (ws ++ [c!"MO"])) = ws ++ [c!"MO"] := splitOn_join ',' _ (by simp) fun w h => (hw' w h).2
  have hp : splitOn ';' (join [';'] (a ++ [c!"BYDAY=" ++ join [','] (ws ++ [c!"MO"]), c!"FREQ=DAILY"])) =
      a ++ [c!"BYDAY=" ++ join [','] (ws ++ [c!"MO"]), c!"FREQ=DAILY"] := by
    refine splitOn_join ';' _ (by simp) fun w h => ?_
    simp only [List.mem_append, List.mem_cons, List.not_mem_nil, or_false] at h
    rcases h with h | rfl | rfl
    · exact ha w h
    · intro hc
      rcases List.mem_append.1 hc with hc | hc
      · revert hc; decide
      · rcases mem_join hc with hc | ⟨w, h, hc⟩
        · revert hc; decide
        · exact (hw' w h).1 hc
    · decide
  unfold Recur.decode
  rw [hp, Recur.loop_append]
  constructor
  · rintro ⟨r, h⟩
    obtain ⟨x, h, _⟩ := Res.bind_eq_ok.1 h
    obtain ⟨st, h1, h⟩ := Res.bind_eq_ok.1 h
    rw [byDay_loop] at h
    obtain ⟨st', h2, _⟩ := Res.bind_eq_ok.1 h
    obtain ⟨h3, l, h4⟩ := part_byDay_ok.1 ⟨st', h2⟩
    rw [hs] at h4
    obtain ⟨x, y, h5, _⟩ := mapRes_append_ok.1 h4
    exact ⟨st, h1, h3, x, h5⟩
  · rintro ⟨st, h1, h2, l, h3⟩
    obtain ⟨st', h4⟩ := part_byDay_ok (E := E) (p := p) (tz := tz) (v := join [','] (ws ++ [c!"MO"])).2 ⟨h2, l ++ [⟨2, 0⟩], by
      rw [hs]
      exact mapRes_append_ok.2 ⟨l, [⟨2, 0⟩], h3, by decide, rfl⟩⟩
    refine ⟨{ st'.1 with freq := 3 }, ?_⟩
    rw [h1]
    show (Recur.loop E p tz st _ >>= _) = _
    rw [byDay_loop, h4]
    rfl

/-- The rule texts on which decoding panics. -/
theorem Recur.decode_panic_iff {E : Env} {p : Nat} {tz : Option Str} {s : Str} : Recur.decode E p tz s = .panic ↔ CrashRule E p tz s := by
  have h0 : Recur.decode E p tz s = .panic ↔ Recur.loop E p tz ({}, false) (splitOn ';' s) = .panic := by
    unfold Recur.decode
    rw [Res.bind_eq_panic]
    constructor
    · rintro (h | ⟨x, _, h⟩)
      · exact h
      · dsimp only at h
        split at h <;> cases h
    · exact Or.inl
  rw [h0, Recur.loop_panic_iff]
  unfold CrashRule
  constructor
  · rintro ⟨a, v, b, st, he, h1, h2⟩
    obtain ⟨h3, h4⟩ := part_byDay_iff.1 h2
    obtain ⟨ws, w, ws', h5, ⟨l, h6⟩, h7⟩ := mapRes_panic_iff.1 h4
    obtain ⟨c, hc, rfl⟩ := (decDay_panic_iff w).1 h7
    have hq : ∀ q ∈ a ++ (c!"BYDAY=" ++ v) :: b, ';' ∉ q := fun q hq => splitOn_free ';' s q (by rw [he]; exact hq)
    have hv : ';' ∉ v := fun h => hq (c!"BYDAY=" ++ v) (by simp) (List.mem_append_right _ h)
    have hws : ∀ w ∈ ws ++ ['+', c] :: ws', ';' ∉ w ∧ ',' ∉ w := by
      intro w hw
      rw [← h5] at hw
      refine ⟨fun h => ?_, splitOn_free ',' v w hw⟩
      obtain ⟨x, y, e⟩ := mem_splitOn_infix hw
      exact hv (by rw [e]; simp [h])
    refine ⟨a, ws, c, ws', b, ?_, ?_, ?_, ?_, ?_⟩
    · rw [← h5, join_splitOn, ← he, join_splitOn]
    · simpa [isDigit] using hc
    · intro q h
      exact hq q (by rcases List.mem_append.1 h with h | h <;> simp [h])
    · intro w h
      exact hws w (by rcases List.mem_append.1 h with h | h <;> simp [h])
    · obtain ⟨r, hr⟩ := (daily_ok (E := E) (p := p) (tz := tz) (a := a) (ws := ws) (fun q h => hq q (by simp [h])) (fun w h => hws w (by simp [h]))).2 ⟨st, h1, h3, l, h6⟩
      exact ⟨r, (Recur.decode_iff _ _).1 hr⟩
  · rintro ⟨a, ws, c, ws', b, rfl, hc, hq, hw, r, hr⟩
    obtain ⟨st, h1, h2, l, h3⟩ := (daily_ok (fun q h => hq q (by simp [h])) (fun w h => hw w (by simp [h]))).1 ⟨r, (Recur.decode_iff _ _).2 hr⟩
    have hdig : isDigit c = true := by simpa [isDigit] using hc
    have hw' : ∀ w ∈ ws ++ ['+', c] :: ws', ';' ∉ w ∧ ',' ∉ w := by
      intro w h
      simp only [List.mem_append, List.mem_cons] at h
      rcases h with h | rfl | h
      · exact hw w (by simp [h])
      · constructor
        · intro h
          simp only [List.mem_cons, List.not_mem_nil, or_false] at h
          rcases h with h | h
          · revert h; decide
          · rw [← h] at hdig; revert hdig; decide
        · intro h
          simp only [List.mem_cons, List.not_mem_nil, or_false] at h
          rcases h with h | h
          · revert h; decide
          · rw [← h] at hdig; revert hdig; decide
      · exact hw w (by simp [h])
    have hs : splitOn ';' (join [';'] (a ++ (c!"BYDAY=" ++ join [','] (ws ++ ['+', c] :: ws')) :: b)) = a ++ (c!"BYDAY=" ++ join [','] (ws ++ ['+', c] :: ws')) :: b := by
      refine splitOn_join ';' _ (by simp) fun w h => ?_
      simp only [List.mem_append, List.mem_cons] at h
      rcases h with h | rfl | h
      · exact hq w (by simp [h])
      · intro hc
        rcases List.mem_append.1 hc with hc | hc
        · revert hc; decide
        · rcases mem_join hc with hc | ⟨w, h, hc⟩
          · revert hc; decide
          · exact (hw' w h).1 hc
      · exact hq w (by simp [h])
    refine ⟨a, _, b, st, hs, h1, part_byDay_iff.2 ⟨h2, ?_⟩⟩
    rw [splitOn_join ',' _ (by simp) fun w h => (hw' w h).2]
    exact mapRes_panic_iff.2 ⟨ws, ['+', c], ws', rfl, ⟨l, h3⟩, (decDay_panic_iff _).2 ⟨c, hdig, rfl⟩⟩

theorem recur_decode_panic (E : Env) (ps : List (Str × List PVal)) (v : Str) : propRecurrenceRule.decode E ps v = .panic ↔
    CrashRule E 0 (otherParam ps c!"TZID") v := by
  rw [← Recur.decode_panic_iff]
  have hst : ∃ st, PState.steps E [] [(c!"", .recur)] { ps := [] } ps = .ok st ∧ st.vtype = none := by
    have : ∀ (ps : List (Str × List PVal)) (st : PState), st.vtype = none → ∃ st', PState.steps E [] [(c!"", Kind.recur)] st ps = .ok st' ∧ st'.vtype = none := by
      intro ps
      induction ps with
      | nil => intro st h; exact ⟨st, rfl, h⟩
      | cons q ps ih =>
        intro st h
        have hq : st.step E [] [(c!"", Kind.recur)] q = .ok { st with op := (upper q.1, join [','] (q.2.map (·.data))) :: st.op } := by
          unfold PState.step
          simp only [paramIdx]
          rw [if_neg (by simp)]
        rw [PState.steps, hq]
        exact ih { st with op := (upper q.1, join [','] (q.2.map (·.data))) :: st.op } h
    exact this ps _ rfl
  obtain ⟨st, h1, h2⟩ := hst
  have h3 := steps_op (n := c!"TZID") (by simp) (by decide) ps h1
  have h4 : opGet st.op c!"TZID" = otherParam ps c!"TZID" := by
    rw [h3]
    show (otherParam ps c!"TZID").or none = _
    cases otherParam ps c!"TZID" <;> rfl
  have e : propRecurrenceRule.decode E ps v = (Recur.decode E 0 (otherParam ps c!"TZID") v >>= fun r => .ok (.fields st.ps (oneOf 1 0 (.recur r)))) := by
    unfold PSpec.decode propRecurrenceRule
    simp only [List.map_nil]
    rw [h1]
    show (Val.decode E (opGet st.op) (([(c!"", Kind.recur)].getD (st.vtype.getD 0) ([], .text)).2) v >>= fun w => _) = _
    rw [h2]
    show ((Val.recur <$> Recur.decode E 0 (opGet st.op c!"TZID") v) >>= fun w => Res.ok (PropVal.fields st.ps (oneOf 1 0 w))) = _
    rw [h4]
    cases Recur.decode E 0 (otherParam ps c!"TZID") v <;> rfl
  rw [e, Res.bind_eq_panic]
  constructor
  · rintro (h | ⟨_, _, h⟩)
    · exact h
    · cases h
  · exact Or.inl

/-- The places at which the decoder panics on a line. -/
theorem panic_line_iff {E : Env} {pre : List Line} {l : Line} (hk : Keywords (pre ++ [l])) : Wants E pre ∧ (∀ t q, decodeStream E ⟨pre ++ l :: q, t⟩ = .panic) ↔
    CrashLine E l ∧ (∃ B, Inside B pre ∧ B.Recurring) ∧ Wants E (pre ++ [dailyLine l]) := by
  constructor
  · rintro ⟨hw, hp⟩
    obtain ⟨B, hi, f, hf, hfk, hd⟩ := panics_here hw hk hp
    obtain ⟨h1, h2⟩ := recur_spec hi.ok hf (PSpec.decode_panic hd).1
    have hl : upper l.name = c!"RRULE" := by rw [← hfk, h2]
    refine ⟨⟨hl, ?_⟩, ⟨B, hi, f, hf, h2⟩, ?_⟩
    · rw [h1] at hd
      exact (recur_decode_panic E _ _).1 hd
    · obtain ⟨s, hs⟩ := hw.at hi
      obtain ⟨dup, put, hdp⟩ := Spec.Body.run_prop E hi.ok hf
      have hnd : ¬ dup s := by
        intro h
        obtain ⟨K, ⟨hK, _⟩, hr⟩ := hs .done
        have := hp .done []
        rw [hr, (hdp l s hfk).1 h, hK.1] at this
        cases this
      have hrun := (hdp (dailyLine l) s hfk).2 hnd
      obtain ⟨v, hv⟩ := daily_decode E
      intro e
      obtain ⟨K, ⟨hK, _⟩, hr⟩ := hs (.error e)
      show decodeStream E ⟨pre ++ [dailyLine l], .error e⟩ = _
      rw [hr, hrun, h1]
      show K (propRecurrenceRule.decode E [] c!"FREQ=DAILY" >>= _) = _
      rw [hv]
      show K (B.run E _ _ []) = _
      rw [Spec.Body.run_nil E (Spec.Body.not_alarm hf), hK.1]
      rfl
  · rintro ⟨⟨hl, hc⟩, ⟨B, hi, f, hf, hfk⟩, hw⟩
    refine ⟨hw.of_append, ?_⟩
    have hsp : f.spec = propRecurrenceRule := recur_key hi.ok hf hfk
    refine (next_prop hi hf (l := l) (l0 := dailyLine l) (hfk.trans hl.symm) (hfk.trans hl.symm) hw).2.2 ?_
    rw [hsp]
    exact (recur_decode_panic E _ _).2 hc

/-- Exactly when the decoder panics. -/
theorem decodeStream_panic_iff {E : Env} {st : Stream} (hk : Keywords st.lines) : decodeStream E st = .panic ↔
    (st.term = .done ∧ Wants E st.lines ∧ ∃ k, Inside (.alarm k) st.lines) ∨
    ∃ pre l r, st.lines = pre ++ l :: r ∧ CrashLine E l ∧ (∃ B, Inside B pre ∧ B.Recurring) ∧ Wants E (pre ++ [dailyLine l]) := by
  obtain ⟨ls, t⟩ := st
  simp only at hk ⊢
  constructor
  · intro h
    rcases wants_or_settled E ls with h1 | h1
    · right
      have hx : ∀ t q, decodeStream E ⟨[] ++ ls ++ q, t⟩ = .panic := by
        intro t' q
        have h2 := h1 t []
        rw [List.append_nil, h] at h2
        rw [List.nil_append, h1, ← h2]
      obtain ⟨p, l, r, he, hw, hp⟩ := first_settled ls [] (wants_nil E) hx
      rw [List.nil_append] at he
      exact ⟨p, l, r, he, (panic_line_iff (fun y hy => hk y (by rw [he]; simp only [List.mem_append, List.mem_cons, List.not_mem_nil, or_false] at hy ⊢; rcases hy with h | h <;> simp [h]))).1 ⟨hw, hp⟩⟩
    · left
      cases t with
      | error e =>
        have := h1 e
        simp only at this
        rw [h] at this
        cases this
      | done =>
        refine ⟨rfl, h1, ?_⟩
        rcases decodeStream_hungry h1 hk with rfl | ⟨B, hi⟩
        · cases h
        · have := h1.eof hi
          rw [h] at this
          cases B with
          | alarm k => exact ⟨k, hi⟩
          | _ => cases this
  · rintro (⟨rfl, h1, k, h2⟩ | ⟨pre, l, r, rfl, h⟩)
    · exact h1.eof h2
    · exact ((panic_line_iff (fun y hy => hk y (by simp only [List.mem_append, List.mem_cons, List.not_mem_nil, or_false] at hy ⊢; rcases hy with h | h <;> simp [h]))).2 h).2 t r

end Ics
