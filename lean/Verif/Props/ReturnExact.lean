import Verif.ReturnExactLemmas
import Verif.Props.Encode
import Verif.Props.Params
/-!
# Properties: exactly which values, parameters and calendars come back (C83, and C18, C20, C21, C23, C27, C31, C44)
-/

namespace Ics.Props
open Spec

/-! ## Values -/

/-- C18.  Exactly the durations come back that have weeks only or no weeks. -/
theorem C18_exactly (d : Duration) (h : d.WF) :
    Duration.decode (Duration.encode d) = .ok d ↔ d.weeks = 0 ∨ (d.days = 0 ∧ d.hours = 0 ∧ d.minutes = 0 ∧ d.seconds = 0) := by
  refine ⟨fun hd => ?_, C18_duration_round_trip_partial d h⟩
  rw [Duration.decode_encode d h] at hd
  have hk : d.kept = d := by simpa using hd
  by_cases hw : d.weeks = 0
  · exact .inl hw
  · unfold Duration.kept at hk
    rw [if_pos hw] at hk
    rw [← hk]
    exact .inr ⟨rfl, rfl, rfl, rfl⟩

/-- C20.  Exactly the offsets of less than a hundred hours come back. -/
theorem C20_exactly (u : Int) : UTCOffset.decode (UTCOffset.encode u) = .ok u ↔ u.natAbs < 360000 := by
  refine ⟨fun h => ?_, C20_offset_round_trip_partial u⟩
  have : ValOk sampleEnv (.utcOffset u) := val_returns (op := fun _ => none) (v' := .utcOffset u) trivial (fun _ e => by cases e) rfl
    (by simp [Val.decode, Val.kind, Val.text_, h]) rfl
  exact this

/-- C26.  Exactly the integers of 32 bits come back. -/
theorem C26_exactly (i : Int) : Integer.decode (Integer.encode i) = .ok i ↔ -(2 ^ 31 : Int) ≤ i ∧ i < 2 ^ 31 := by
  constructor
  · intro h
    have : ValOk sampleEnv (.integer i) := val_returns (op := fun _ => none) (v' := .integer i) trivial (fun _ e => by cases e) rfl
      (by simp [Val.decode, Val.kind, Val.text_, h]) rfl
    exact this
  · intro h
    exact Integer.decode_encode i h.1 h.2

/-- C21.  Exactly the times come back, but for the identity of their location, that have whole seconds and a year of four digits, whose location can
be loaded by its name and whose reading of the clock `time.Date` takes for the same instant. -/
theorem C21_exactly (E : Env) (p : Nat) (t : GoTime) :
    (∃ t', DateTime.decode E p (tzidOf t.loc) (DateTime.encode E t) = .ok t' ∧ anonTime t' = anonTime t) ↔
      t.nsec = 0 ∧ 0 ≤ yearOfWall (t.wall E) ∧ yearOfWall (t.wall E) ≤ 9999 ∧ LocOk E t.loc ∧ instant E t.loc (t.wall E) = t.sec := by
  constructor
  · rintro ⟨t', h1, h2⟩
    obtain ⟨a, b, c, d, e⟩ := dateTime_returns h1 h2
    exact ⟨a, b, c, d, e⟩
  · rintro ⟨a, b, c, d, e⟩
    exact ⟨_, C21_datetime_round_trip_partial E p t a b c d e, by simp [anonTime, anonLoc_withPtr]⟩

/-- C21.  Exactly the dates come back that are midnights of UTC in years of four digits. -/
theorem C21_date_exactly (E : Env) (t : GoTime) : Date.decode (Date.encode E t) = .ok t ↔
    t.nsec = 0 ∧ t.loc = .utc ∧ t.sec % 86400 = 0 ∧ 0 ≤ yearOfWall t.sec ∧ yearOfWall t.sec ≤ 9999 := by
  constructor
  · intro h
    have : ValOk E (.date t) := val_returns (op := fun _ => none) (v' := .date t) trivial (fun _ e => by cases e) rfl
      (by simp [Val.decode, Val.kind, Val.text_, h]) rfl
    obtain ⟨a, b, c, d, e⟩ := this
    exact ⟨a, b, c, d, e⟩
  · rintro ⟨a, b, c, d, e⟩
    exact Date.decode_encode E t a b c d e

/-- C23.  Exactly the rules come back, but for the identity of the location of UNTIL, whose numbers are in the ranges of RFC 5545, that have not both COUNT
and UNTIL, and whose UNTIL is a date that comes back, a time that comes back, or none at all. -/
theorem C23_exactly (E : Env) (p : Nat) (r : Recur) :
    (∃ r', Recur.decode E p (tzidOf r.until_.loc) (Recur.encode E r) = .ok r' ∧ anonVal (.recur r') = anonVal (.recur r)) ↔
      RecurInRange r ∧ UntilOk E r := by
  constructor
  · rintro ⟨r', h1, h2⟩
    exact recur_returns h1 h2
  · rintro ⟨a, b⟩
    exact ⟨_, Recur.decode_encode E p r a b, by simp [anonVal, anonTime, Recur.withPtr, anonLoc_withPtr]⟩

/-- C27.  Exactly the periods come back, but for the identity of locations, that have a start that comes back and, with no end, a duration that comes
back and is not negative, or else, with no duration, an end that comes back from a location of the same name. -/
theorem C27_exactly (E : Env) (q : Nat) (p : Period) :
    (∃ p', Period.decode E q (tzidOf p.start.loc) (Period.encode E p) = .ok p' ∧ anonVal (.period p') = anonVal (.period p)) ↔ PeriodOk E p := by
  constructor
  · rintro ⟨r', h1, h2⟩
    exact period_returns h1 h2
  · intro h
    exact ⟨_, Period.decode_encode E q p h, by simp [anonVal, anonTime, GoTime.withPtr, anonLoc_withPtr]⟩

/-- Samples for both sides of the equivalences. -/
example : Duration.decode (Duration.encode { weeks := 1, days := 1 }) ≠ .ok { weeks := 1, days := 1 } := by
  rw [Ne, C18_exactly _ ⟨by decide, by decide, by decide, by decide, by decide⟩]
  decide

example : UTCOffset.decode (UTCOffset.encode 360000) ≠ .ok 360000 := by rw [Ne, C20_exactly]; decide

example : Integer.decode (Integer.encode (-2147483648)) = .ok (-2147483648) := by rw [C26_exactly]; decide

example (E : Env) (p : Nat) : ¬ ∃ t', DateTime.decode E p none (DateTime.encode E ⟨0, 5, .utc⟩) = .ok t' ∧ anonTime t' = anonTime ⟨0, 5, .utc⟩ := by
  rw [show (none : Option Str) = tzidOf (GoTime.mk 0 5 .utc).loc from rfl, C21_exactly]
  exact fun h => absurd h.1 (by decide)

example (E : Env) : Date.decode (Date.encode E ⟨86400, 0, .utc⟩) = .ok ⟨86400, 0, .utc⟩ := by
  rw [C21_date_exactly]
  exact ⟨rfl, rfl, by decide, by decide +kernel, by decide +kernel⟩

/-! ## Parameters -/

/-- C31.  Of the parameter values that can be written on a line, exactly the good ones come back. -/
theorem C31_exactly (E : Env) (d : PDef) (v : ParamVal) (hd : d ∈ allParams) (ht : d.kind.typed v = true) (hc : CleanParam E v) :
    (∃ enc toks, d.kind.encode E d.name v = some enc ∧ ReadsAs enc d.name toks ∧ d.kind.decode E toks = .ok v) ↔ GoodParam d.kind v := by
  refine ⟨?_, C31_round_trip_partial E d v hd⟩
  rintro ⟨enc, toks, h1, h2, h3⟩
  obtain ⟨hw, hn⟩ := allParams_wf d hd
  obtain ⟨e1, e2, e3⟩ := PKind.encode_safe E d.name d.kind v hw (cleanParam_safe ht hc)
  have hA : ∀ c ∈ c!"A", IanaChar c := by
    intro c hc
    rw [List.mem_singleton.1 hc]
    exact (isIana_iff _).1 (by decide)
  rw [e1] at h1
  cases hv : vanishes E d.kind v with
  | true =>
    rw [hv, if_pos rfl] at h1
    cases h1
    have := h2 c!"A" [] [] (by decide) hA (by simp)
    have h0 : tokenise (c!"A" ++ [] ++ ':' :: [] ++ crlf ++ []) = ⟨[⟨c!"A", [], []⟩], .done⟩ := by decide
    rw [h0] at this
    injection this with this _
    injection this with this _
    injection this with _ this _
    exact absurd this (by simp)
  | false =>
    rw [hv, if_neg (by decide)] at h1
    cases h1
    have hr := readsAs_of hn (e2 hv) e3
    have a := h2 c!"A" [] [] (by decide) hA (by simp)
    have b := hr c!"A" [] [] (by decide) hA (by simp)
    rw [a] at b
    injection b with b _
    injection b with b _
    injection b with _ b _
    have b : toks = ptokens E d.kind v := by simpa using b
    rw [b] at h3
    exact param_returns ht hc hv ((PKind.decode_iff _ _ _ _).1 h3)

example (E : Env) : GoodParam paramCommonName.kind (.str c!"Ann: B") ∧ CleanParam E (.str c!"Ann: B") :=
  ⟨.str _ _ (by decide) (Plain_all (by decide)), Plain_all (by decide)⟩

/-! ## Calendars -/

/-- C83.  Of the calendars that pass validation and can be written without damage to the lines (no control characters, quotes or carets in texts of parameters,
no characters that need quotes in URIs of parameters and names of zones; texts and all other values are not restricted), exactly those come back from `Decode`,
but for the identity of loaded locations, that keep the rules between their properties, have no LAST-MODIFIED, and whose parameters and values each come back. -/
theorem C83_exactly_these_come_back (E : Env) (c : Cal) (ht : c.typed = true) (hv : c.valid = .ok ())
    (hp : ∀ x ∈ calProps c, ∀ y ∈ propParams x.1.spec x.2, CleanParam E y.2)
    (hl : ∀ x ∈ calProps c, ∀ v ∈ propVals x.2, CleanVal E v ∧ PlainFloats E v) :
    ∃ s, encodeDoc E c = some s ∧
      ((∃ c', decodeDoc E s = .ok c' ∧ SameCal c' c) ↔
        CalRules c ∧ (∀ x ∈ calProps c, x.1.key ≠ c!"LAST-MOD") ∧
        (∀ x ∈ calProps c, ∀ y ∈ propParams x.1.spec x.2, GoodParam y.1.kind y.2) ∧ ∀ x ∈ calProps c, ∀ v ∈ propVals x.2, GoodVal E v) := by
  have hb := GoodCal.build
    (fun f p => (∀ y ∈ propParams f.spec p, CleanParam E y.2) ∧ (∀ v ∈ propVals p, CleanVal E v ∧ PlainFloats E v))
    (fun f p => PropSafe E f.spec p ∧ (Back E f p → (∀ y ∈ propParams f.spec p, GoodParam y.1.kind y.2) ∧ ∀ v ∈ propVals p, GoodVal E v)) (by
      intro f p hw ht ⟨h1, h2⟩ hv
      exact ⟨propSafe_of (E := E) ht hv (fun x hx => cleanParam_safe (PSpec.typed_params ht x hx) (h1 x hx)) (fun v hv => cleanVal_safe (h2 v hv).1),
        prop_returns hw.spec ht hv h1 h2⟩) c ht hv (fun x hx => ⟨hp x hx, hl x hx⟩)
  obtain ⟨e1, e2⟩ := encodeDoc_lines E c (GoodCal.safe (hb.imp fun _ _ h => h.1))
  refine ⟨_, e1, ?_, ?_⟩
  · rintro ⟨c', hd, hs⟩
    have := tokenise_prints (calLines E c) e2 []
    rw [List.append_nil, tokenise_nil] at this
    unfold decodeDoc at hd
    rw [this] at hd
    obtain ⟨r, h⟩ := cal_back hb (by simpa using hd) hs
    have each := hb.each
    exact ⟨r, fun x hx => (each x hx).2.1 (h x hx).1, fun x hx => ((each x hx).1.2 (h x hx).2).1, fun x hx => ((each x hx).1.2 (h x hx).2).2⟩
  · rintro ⟨h1, h2, h3, h4⟩
    obtain ⟨s, c', g1, g2, g3⟩ := C44_round_trip_partial E c ht hv h1 h3 h4
    rw [e1] at g1
    cases g1
    refine ⟨c', g2, ?_⟩
    rwa [hb.drop_absent _ h2] at g3

theorem sampleCal_clean : (∀ x ∈ calProps sampleCal, ∀ y ∈ propParams x.1.spec x.2, CleanParam sampleEnv y.2) ∧
    (∀ x ∈ calProps sampleCal, ∀ v ∈ propVals x.2, CleanVal sampleEnv v ∧ PlainFloats sampleEnv v) := by
  constructor
  · intro x hx y hy
    have h := sampleCal_params x hx y hy
    generalize y.2 = w at h ⊢
    generalize y.1.kind = k at h
    cases h <;> first | trivial | assumption
  · intro x hx v hv
    obtain ⟨h1, h2⟩ := sampleCal_values x hx v hv
    refine ⟨⟨?_, ?_⟩, ?_⟩
    · intro n p r h
      exact h2 n (by rw [valLoc_tzid, h]; rfl)
    · have := h1.libOk
      cases v <;> exact this
    · rintro t rfl
      simp only [List.mem_append, not_or]
      exact ⟨fun h => (h1.1.chars _ h).2 rfl, fun h => (h1.2.chars _ h).2 rfl⟩

/-- The sample meets the hypotheses, and comes back. -/
example : ∃ s c', encodeDoc sampleEnv sampleCal = some s ∧ decodeDoc sampleEnv s = .ok c' ∧ SameCal c' sampleCal := by
  obtain ⟨s, h1, h2⟩ := C83_exactly_these_come_back sampleEnv sampleCal sampleCal_typed sampleCal_valid sampleCal_clean.1 sampleCal_clean.2
  obtain ⟨c', h3, h4⟩ := h2.2 ⟨sampleCal_rules, by decide +kernel, sampleCal_params, sampleCal_values⟩
  exact ⟨s, c', h1, h3, h4⟩

/-- An event that lasts a week and a day. -/
def weekAndDayCal : Cal := sect tabCalendar [(c!"VERSION", val1 0 (.text c!"2.0")), (c!"PRODID", val1 0 (.text c!"-//x"))]
  [[sect tabEvent [(c!"DTSTAMP", val1 0 (.dateTime ⟨63763119600, 0, .utc⟩)), (c!"UID", val1 0 (.text c!"1")),
    (c!"DTSTART", .fields [] [some (.dateTime ⟨63763119600, 0, .utc⟩), none]),
    (c!"DURATION", val1 0 (.duration { weeks := 1, days := 1 }))] [[]]], [], [], [], []]

/-- C83.  It passes validation, is written and read without an error, but not as it was. -/
theorem C83_week_and_day : weekAndDayCal.typed = true ∧ weekAndDayCal.valid = .ok () ∧ CalRules weekAndDayCal ∧
    ∃ s c', encodeDoc sampleEnv weekAndDayCal = some s ∧ decodeDoc sampleEnv s = .ok c' ∧ ¬ SameCal c' weekAndDayCal := by
  have hvals : ∀ v ∈ (calProps weekAndDayCal).flatMap (fun x => propVals x.2),
      v = .dateTime ⟨63763119600, 0, .utc⟩ ∨ v = .duration { weeks := 1, days := 1 } ∨ v.kind = .text := by decide +kernel
  have hclean : ∀ x ∈ calProps weekAndDayCal, ∀ v ∈ propVals x.2, CleanVal sampleEnv v ∧ PlainFloats sampleEnv v := by
    intro x hx v hv
    rcases hvals v (List.mem_flatMap.2 ⟨x, hx, hv⟩) with rfl | rfl | h
    · exact ⟨⟨fun _ _ _ h => (by cases h), trivial⟩, fun _ h => by cases h⟩
    · exact ⟨⟨fun _ _ _ h => (by cases h), trivial⟩, fun _ h => by cases h⟩
    · cases v <;> simp [Val.kind] at h
      exact ⟨⟨fun _ _ _ h => (by cases h), trivial⟩, fun _ h => by cases h⟩
  have hpar : ∀ x ∈ calProps weekAndDayCal, propParams x.1.spec x.2 = [] := by decide +kernel
  have ht : weekAndDayCal.typed = true := by decide +kernel
  have hv : weekAndDayCal.valid = .ok () := by decide +kernel
  refine ⟨ht, hv, by decide +kernel, ?_⟩
  obtain ⟨s, h1, h2⟩ := C83_exactly_these_come_back sampleEnv weekAndDayCal ht hv (fun x hx => by rw [hpar x hx]; simp) hclean
  have h3 : (encodeDoc sampleEnv weekAndDayCal).isSome ∧ ∀ s ∈ encodeDoc sampleEnv weekAndDayCal, (decodeDoc sampleEnv s).isOk = true := by decide +kernel
  have h4 := h3.2 s h1
  cases hd : decodeDoc sampleEnv s with
  | ok c' =>
    refine ⟨s, c', h1, hd, fun hs => ?_⟩
    obtain ⟨_, _, _, h⟩ := h2.1 ⟨c', hd, hs⟩
    have hm : ∃ x ∈ calProps weekAndDayCal, Val.duration { weeks := 1, days := 1 } ∈ propVals x.2 := by decide +kernel
    obtain ⟨x, hx, hm⟩ := hm
    have := (h x hx _ hm).1.2
    exact absurd this (by decide)
  | err e => rw [hd] at h4; cases h4
  | panic => rw [hd] at h4; cases h4

end Ics.Props
