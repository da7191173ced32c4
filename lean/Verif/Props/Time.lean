import Verif.TimeLemmas
/-!
# C21, C22: dates and times
-/

namespace Ics.Props

open Ics Ics.Spec

/-! ## The calendar

The day numbers used in the model count the days of the Gregorian calendar: day 0 is 1 January of year 1, and the date of the next day
number is the next date. -/

/-- C21.  The calendar of the model starts where that of package time does. -/
theorem C21_calendar_start : civil 0 = (1, 1, 1) := civil_zero

/-- C21.  Each day of the calendar is followed by the next one. -/
theorem C21_calendar_step (n : Int) : civil (n + 1) = nextDay (civil n) := civil_succ n

/-- C21.  Every day of the calendar is a real one. -/
theorem C21_calendar_real (n : Int) : IsDate (civil n).1 (civil n).2.1 (civil n).2.2 :=
  (RealDate_iff _ _ _).1 (civil_real n).1

example : civil 737999 = (2021, 7, 29) := by decide +kernel
example : nextDay (1900, 2, 28) = (1900, 3, 1) ∧ nextDay (2000, 2, 28) = (2000, 2, 29) := by decide

theorem repeat_nextDay (k : Nat) : Nat.repeat nextDay k (0, 1, 1) = civil ((k : Int) - 366) := by
  induction k with
  | zero => simp only [Nat.repeat]; decide +kernel
  | succ k ih =>
    rw [Nat.repeat, ih, ← civil_succ]
    congr 1
    omega

/-! ## C21 Round trip -/

/-- C21, the claim in full: every instant of a year 0 to 9999, in UTC, in the local zone or in a loadable zone, comes back with the same
location (up to the identity `p` of the loaded location). -/
def C21_claim : Prop := ∀ (E : Env) (p : Nat) (t : GoTime), 0 ≤ yearOfWall (t.wall E) → yearOfWall (t.wall E) ≤ 9999 →
  LocOk E t.loc → DateTime.decode E p (tzidOf t.loc) (DateTime.encode E t) = .ok { t with loc := t.loc.withPtr p }

/-- C21.  Missing: fractions of a second, and instants whose wall clock reading belongs to an earlier or later instant too. -/
theorem C21_datetime_round_trip_partial (E : Env) (p : Nat) (t : GoTime) (h0 : t.nsec = 0)
    (h1 : 0 ≤ yearOfWall (t.wall E)) (h2 : yearOfWall (t.wall E) ≤ 9999) (h3 : LocOk E t.loc)
    (h4 : instant E t.loc (t.wall E) = t.sec) :
    DateTime.decode E p (tzidOf t.loc) (DateTime.encode E t) = .ok { t with loc := t.loc.withPtr p } :=
  DateTime.decode_encode E p t h0 h1 h2 h3 h4

/-- C21.  UTC times need no condition on the reading. -/
theorem C21_utc_round_trip_partial (E : Env) (p : Nat) (sec : Int) (h1 : 0 ≤ yearOfWall sec) (h2 : yearOfWall sec ≤ 9999) :
    DateTime.decode E p none (DateTime.encode E ⟨sec, 0, .utc⟩) = .ok ⟨sec, 0, .utc⟩ := by
  have hw : GoTime.wall E ⟨sec, 0, .utc⟩ = sec := by simp [GoTime.wall, locOff]
  refine C21_datetime_round_trip_partial E p ⟨sec, 0, .utc⟩ rfl (by rwa [hw]) (by rwa [hw]) trivial ?_
  rw [hw]; simp [instant, locOff]

/-- C21.  A zone whose offset does not change between the instant and the reading taken as UTC (so at least a day around the instant for
the offsets in use) gives the same instant again. -/
theorem C21_zoned_round_trip_partial (E : Env) (p : Nat) (t : GoTime) (h0 : t.nsec = 0)
    (h1 : 0 ≤ yearOfWall (t.wall E)) (h2 : yearOfWall (t.wall E) ≤ 9999) (h3 : LocOk E t.loc)
    (h4 : locOff E t.loc (t.wall E) = locOff E t.loc t.sec) :
    DateTime.decode E p (tzidOf t.loc) (DateTime.encode E t) = .ok { t with loc := t.loc.withPtr p } :=
  C21_datetime_round_trip_partial E p t h0 h1 h2 h3 (instant_of_const E t.loc t.sec h4)

/-- C21.  The TZID parameter written for a time is the one its location is loaded from again. -/
theorem C21_timezone_written (t : GoTime) :
    writeTimezone t = (match tzidOf t.loc with | some n => c!";TZID=" ++ n | none => []) := by
  obtain ⟨s, n, l⟩ := t
  cases l <;> rfl

/-- C21.  A date is written and read back as midnight UTC of the day on the wall. -/
theorem C21_date_round_trip (E : Env) (t : GoTime) (h1 : 0 ≤ yearOfWall (t.wall E)) (h2 : yearOfWall (t.wall E) ≤ 9999) :
    Date.decode (Date.encode E t) = .ok ⟨t.wall E / 86400 * 86400, 0, .utc⟩ := by
  have := Date.decode_encode E ⟨t.wall E / 86400 * 86400, 0, .utc⟩ rfl rfl (by simp)
    (by unfold yearOfWall; rw [Int.mul_ediv_cancel _ (by omega)]; exact h1)
    (by unfold yearOfWall; rw [Int.mul_ediv_cancel _ (by omega)]; exact h2)
  rw [← this]
  congr 1
  unfold Date.encode
  congr 1
  simp [GoTime.wall, locOff]

/-- C21.  A time of day that is written is read as the same time of day. -/
theorem C21_time_of_day_round_trip (E : Env) (p : Nat) (c : Nat) (h : c < 86400) :
    Time.decode E p none (Time.encode E ⟨-31622400 + c, 0, .utc⟩) = .ok ⟨-31622400 + c, 0, .utc⟩ := by
  have hw : GoTime.wall E ⟨-31622400 + c, 0, .utc⟩ = -31622400 + c := by simp [GoTime.wall, locOff]
  unfold Time.encode Time.decode
  rw [hw]
  simp only [if_true]
  rw [if_pos (List.getLast?_concat ..)]
  unfold parseTime
  rw [show (((-31622400 : Int) + c) % 86400).toNat = c by omega, parseClock_fmt c h _ (by simp)]
  simp only [if_true, Res.ofOption_some]
  congr 2

/-- A sample environment: rules 0 are one hour east of UTC, two hours before the instant 100000000 (summer time ends then). -/
def sampleEnv : Env :=
  { urlParse := fun s => if s.isEmpty then none else some ⟨s⟩
    urlString := fun u => u.id
    floatParse := fun _ => none
    floatFormat := fun _ => []
    loadZone := fun n => if n = c!"Europe/Paris" then some 0 else none
    zoneOff := fun _ t => if t < 100000000 then 7200 else 3600
    localOff := fun _ => 0 }

/-- C21.  Two instants an hour apart that are written the same: at most one of them can come back. -/
theorem C21_ambiguous_times_collide :
    DateTime.encode sampleEnv ⟨100000000 - 3600, 0, .zone c!"Europe/Paris" 0 0⟩ =
      DateTime.encode sampleEnv ⟨100000000, 0, .zone c!"Europe/Paris" 0 0⟩ := by
  have h : GoTime.wall sampleEnv ⟨100000000 - 3600, 0, .zone c!"Europe/Paris" 0 0⟩ =
      GoTime.wall sampleEnv ⟨100000000, 0, .zone c!"Europe/Paris" 0 0⟩ := by decide
  unfold DateTime.encode
  rw [h]

/-- C21.  Fractions of a second are lost. -/
theorem C21_fraction_lost (E : Env) (sec : Int) (n : Nat) :
    DateTime.encode E ⟨sec, n, .utc⟩ = DateTime.encode E ⟨sec, 0, .utc⟩ := rfl

/-- C21.  The claim as stated in full is false: a counterexample. -/
theorem C21_full_claim_is_false : ¬ C21_claim := by
  intro h
  have a := h sampleEnv 0 ⟨0, 1, .utc⟩ (by decide +kernel) (by decide +kernel) trivial
  have b := C21_utc_round_trip_partial sampleEnv 0 0 (by decide +kernel) (by decide +kernel)
  rw [C21_fraction_lost] at a
  replace a := b.symm.trans a
  exact absurd a (by decide)

example : DateTime.encode sampleEnv ⟨63763119600, 0, .utc⟩ = c!"20210729T014000Z" := by decide +kernel
example : DateTime.decode sampleEnv 7 (some c!"Europe/Paris") c!"20210729T024000" =
    .ok ⟨63763119600, 0, .zone c!"Europe/Paris" 7 0⟩ := by decide +kernel
/-- The hypotheses of the zoned theorem are met by an ordinary time. -/
example : let t : GoTime := ⟨63763119600, 0, .zone c!"Europe/Paris" 3 0⟩
    0 ≤ yearOfWall (t.wall sampleEnv) ∧ yearOfWall (t.wall sampleEnv) ≤ 9999 ∧ LocOk sampleEnv t.loc ∧
      locOff sampleEnv t.loc (t.wall sampleEnv) = locOff sampleEnv t.loc t.sec := by
  refine ⟨by decide +kernel, by decide +kernel, ⟨by decide, by decide, by decide, by decide⟩, by decide⟩

/-! ## C22 Acceptance -/

/-- C22.  A string is accepted as a date exactly if it has four digits of year, two of month and two of day and the date exists; the result is
midnight UTC of that date, the number of days counted from 1 January of year 0. -/
theorem C22_date_exact (s : Str) (t : GoTime) : Date.decode s = .ok t ↔
    ∃ y m d k : Nat, DateText s y m d ∧ Nat.repeat nextDay k (0, 1, 1) = ((y : Int), m, d) ∧
      t = ⟨86400 * ((k : Int) - 366), 0, .utc⟩ := by
  have key : parseDate s = some t ↔ ∃ y m d : Nat, DateText s y m d ∧ t = ⟨dayNumber y m d * 86400, 0, .utc⟩ := by
    unfold parseDate
    constructor
    · intro h
      split at h
      · next n hp =>
        obtain ⟨a, y, m, d, e, ht, rfl⟩ := (parseDate8_iff _ _ _).1 hp
        injection h with h
        rw [List.append_nil] at e
        subst e
        exact ⟨y, m, d, ht, h.symm⟩
      · cases h
    · rintro ⟨y, m, d, ht, rfl⟩
      rw [(parseDate8_iff s (dayNumber y m d) []).2 ⟨s, y, m, d, by simp, ht, rfl⟩]
  rw [Date.decode, Res.ofOption_eq_ok, key]
  constructor
  · rintro ⟨y, m, d, ht, rfl⟩
    have hr := ht
    obtain ⟨_, _, _, _, _, _, _, hr⟩ := hr
    have hc := civil_dayNumber ((RealDate_iff _ _ _).2 hr)
    have hpos : (0 : Int) ≤ dayNumber y m d + 366 := by
      have := daysBeforeYear_mono (y := -1) (z := (y : Int)) (by omega)
      have h0 : daysBeforeYear (-1 + 1) = -366 := by decide
      obtain ⟨h1, h2, h3, h4⟩ := hr
      unfold dayNumber
      omega
    refine ⟨y, m, d, (dayNumber y m d + 366).toNat, ht, ?_, ?_⟩
    · rw [repeat_nextDay, ← hc]
      congr 1
      omega
    · congr 1
      omega
  · rintro ⟨y, m, d, k, ht, hk, rfl⟩
    refine ⟨y, m, d, ht, ?_⟩
    rw [repeat_nextDay] at hk
    have := (civil_real ((k : Int) - 366)).2
    rw [hk] at this
    simp only at this
    rw [this]
    congr 1
    omega

/-- C22, the claim in full for date-times: what is accepted is an RFC 5545 form #1, #2 or #3 text of a date that exists. -/
def C22_claim : Prop := ∀ (E : Env) (p : Nat) (tz : Option Str) (s : Str) (t : GoTime), DateTime.decode E p tz s = .ok t →
  ∃ a c y m d h mi sec, (s = a ++ 'T' :: c ∨ s = a ++ 'T' :: c ++ ['Z']) ∧ DateText a y m d ∧ ClockText c h mi sec

theorem parseDateTime_iff (E : Env) (z : Bool) (l : Loc) (s : Str) (t : GoTime) : parseDateTime E z l s = some t ↔
    ∃ a c f y m d h mi sec ns, s = a ++ 'T' :: c ++ f ++ (if z then ['Z'] else []) ∧ DateText a y m d ∧ ClockText c h mi sec ∧
      FracText f ns ∧ t = ⟨instant E l (dayNumber (y : Nat) m d * 86400 + ((3600 * h + 60 * mi + sec : Nat) : Int)), ns, l⟩ := by
  constructor
  · intro h
    unfold parseDateTime at h
    split at h
    · next n s' hp =>
      split at h
      · next c ns r hc =>
        generalize hz : (if z = true then ['Z'] else []) = zz at h ⊢
        split at h
        · next hr =>
          injection h with h
          subst hr
          obtain ⟨a, y, m, d, rfl, hd, rfl⟩ := (parseDate8_iff _ _ _).1 hp
          obtain ⟨c', hh, mi, sec, s2, rfl, hcl, rfl, hf⟩ := (parseClock_iff _ _ _ _).1 hc
          obtain ⟨f, rfl, hft⟩ := parseFrac_inv hf
          exact ⟨a, c', f, y, m, d, hh, mi, sec, ns, by simp, hd, hcl, hft, h.symm⟩
        · cases h
      · cases h
    · cases h
  · rintro ⟨a, c, f, y, m, d, h, mi, sec, ns, rfl, hd, hc, hf, rfl⟩
    unfold parseDateTime
    have e : a ++ 'T' :: c ++ f ++ (if z then ['Z'] else []) = a ++ ('T' :: (c ++ (f ++ (if z then ['Z'] else [])))) := by simp
    rw [e, (parseDate8_iff _ _ _).2 ⟨a, y, m, d, rfl, hd, rfl⟩]
    simp only
    rw [(parseClock_iff (c ++ (f ++ (if z then ['Z'] else []))) _ _ _).2 ⟨c, h, mi, sec, _, rfl, hc, rfl, parseFrac_text hf _ (by
      cases z <;> simp <;> decide)⟩]
    simp

/-- C22.  Exactly which date-times are accepted, and what they mean: date, 'T', time of day and, against the grammar, fractional seconds.
Missing from the claim: that there are no fractional seconds. -/
theorem C22_datetime_exact_partial (E : Env) (p : Nat) (s : Str) (t : GoTime) : DateTime.decode E p none s = .ok t ↔
    ∃ a c f y m d h mi sec ns, ∃ z : Bool, s = a ++ 'T' :: c ++ f ++ (if z then ['Z'] else []) ∧ DateText a y m d ∧ ClockText c h mi sec ∧
      FracText f ns ∧ t = ⟨instant E (if z then .utc else .local) (dayNumber (y : Nat) m d * 86400 +
        ((3600 * h + 60 * mi + sec : Nat) : Int)), ns, if z then .utc else .local⟩ := by
  have last : ∀ (a c f : Str) (h mi sec ns : Nat), ClockText c h mi sec → FracText f ns →
      (a ++ 'T' :: c ++ f).getLast? ≠ some 'Z' := by
    intro a c f h mi sec ns hc hf
    have dig : ∀ x : Str, x ≠ [] → (∀ y ∈ x, isDigit y = true) → ∀ pre : Str, (pre ++ x).getLast? ≠ some 'Z' := by
      intro x hx hall pre he
      rw [List.getLast?_append, List.getLast?_eq_some_getLast hx] at he
      have hz : x.getLast hx = 'Z' := by simpa using he
      have := hall 'Z' (hz ▸ List.getLast_mem hx)
      exact absurd this (by decide)
    rcases hf with ⟨rfl, _⟩ | ⟨q, u, w, v, rfl, _, hu, hw, _, _, _⟩
    · obtain ⟨x, y, w, rfl, _, _, ⟨hw, _⟩, _⟩ := hc
      obtain ⟨f1, f2, _⟩ := Dec_facts hw
      have := dig w f1 (List.all_eq_true.1 f2) (a ++ 'T' :: (x ++ y))
      simpa using this
    · obtain ⟨f1, f2, _⟩ := Dec_facts hu
      have := dig (u ++ w) (by simp [f1]) (by
        intro y hy
        rcases List.mem_append.1 hy with hy | hy
        · exact (List.all_eq_true.1 f2) y hy
        · exact dec_char_digit.2 (hw y hy)) (a ++ 'T' :: (c ++ [q]))
      simpa using this
  show (if s.getLast? = some 'Z' then _ else _) = _ ↔ _
  constructor
  · intro h
    split at h
    · rw [Res.ofOption_eq_ok] at h
      obtain ⟨a, c, f, y, m, d, hh, mi, sec, ns, hh'⟩ := (parseDateTime_iff _ _ _ _ _).1 h
      exact ⟨a, c, f, y, m, d, hh, mi, sec, ns, true, hh'⟩
    · rw [Res.ofOption_eq_ok] at h
      obtain ⟨a, c, f, y, m, d, hh, mi, sec, ns, hh'⟩ := (parseDateTime_iff _ _ _ _ _).1 h
      exact ⟨a, c, f, y, m, d, hh, mi, sec, ns, false, hh'⟩
  · rintro ⟨a, c, f, y, m, d, hh, mi, sec, ns, z, h1, h2, h3, h4, h5⟩
    cases z with
    | true =>
      rw [if_pos (by rw [h1]; exact List.getLast?_concat ..), Res.ofOption_eq_ok]
      exact (parseDateTime_iff _ _ _ _ _).2 ⟨a, c, f, y, m, d, hh, mi, sec, ns, h1, h2, h3, h4, h5⟩
    | false =>
      rw [if_neg (by rw [h1]; simpa using last a c f hh mi sec ns h3 h4), Res.ofOption_eq_ok]
      exact (parseDateTime_iff _ _ _ _ _).2 ⟨a, c, f, y, m, d, hh, mi, sec, ns, h1, h2, h3, h4, h5⟩

/-- C22.  The same with a TZID parameter. -/
theorem C22_zoned_exact_partial (E : Env) (p : Nat) (tz : Str) (s : Str) (t : GoTime) :
    DateTime.decode E p (some tz) s = .ok t ↔
    ∃ l a c f y m d h mi sec ns, loadLocation E p tz = some l ∧ s = a ++ 'T' :: c ++ f ∧ DateText a y m d ∧ ClockText c h mi sec ∧
      FracText f ns ∧ t = ⟨instant E l (dayNumber (y : Nat) m d * 86400 + ((3600 * h + 60 * mi + sec : Nat) : Int)), ns, l⟩ := by
  unfold DateTime.decode
  simp only [Res.bind_eq_ok, Res.ofOption_eq_ok]
  constructor
  · rintro ⟨l, hl, h⟩
    obtain ⟨a, c, f, y, m, d, hh, mi, sec, ns, h1, h'⟩ := (parseDateTime_iff _ _ _ _ _).1 h
    exact ⟨l, a, c, f, y, m, d, hh, mi, sec, ns, hl, by simpa using h1, h'⟩
  · rintro ⟨l, a, c, f, y, m, d, hh, mi, sec, ns, hl, h1, h'⟩
    exact ⟨l, hl, (parseDateTime_iff _ _ _ _ _).2 ⟨a, c, f, y, m, d, hh, mi, sec, ns, by simpa using h1, h'⟩⟩

/-- C22.  The claim as stated in full is false: a counterexample. -/
theorem C22_full_claim_is_false : ¬ C22_claim := by
  intro h
  obtain ⟨a, c, y, m, d, hh, mi, sec, h1, ⟨x1, x2, x3, rfl, hx1, hx2, hx3, _⟩, ⟨y1, y2, y3, rfl, hy1, hy2, hy3, _⟩⟩ :=
    h sampleEnv 0 none c!"20210729T014000.5Z" ⟨63763119600, 500000000, .utc⟩ (by decide +kernel)
  have e1 := hx1.2; have e2 := hx2.2; have e3 := hx3.2
  have e4 := hy1.2; have e5 := hy2.2; have e6 := hy3.2
  rcases h1 with h1 | h1
  all_goals
    have := congrArg List.length h1
    simp [e1, e2, e3, e4, e5, e6] at this

example : Date.decode c!"20210229" = .err .ext := by decide +kernel
example : Date.decode c!"20200229" = .ok ⟨63718531200, 0, .utc⟩ := by decide +kernel
example : DateTime.decode sampleEnv 0 none c!"20210729T240000Z" = .err .ext := by decide +kernel
/-- Fractional seconds, which RFC 5545 has not, are accepted. -/
example : DateTime.decode sampleEnv 0 none c!"20210729T014000.5Z" = .ok ⟨63763119600, 500000000, .utc⟩ := by decide +kernel

end Ics.Props
