import Verif.ValidLemmas
import Verif.Spec.Valid
import Verif.Props.ContentLine
import Verif.Props.Sample
import Verif.Props.Encode
/-!
# Theorems about validation of decoded calendars: C45
-/

namespace Ics.Props

open Spec

/-! ## C45 Decoded calendars can be encoded -/

/-- The full claim. -/
def C45_claim : Prop := ∀ (E : Env) (s : Str) (c : Cal), decodeDoc E s = .ok c → c.valid = .ok ()

theorem zero_iff (t : GoTime) : t.isZero = true ↔ ZeroTime t := by
  simp [GoTime.isZero, ZeroTime]

theorem after_iff (t u : GoTime) : t.after u = true ↔ Before u t := by
  simp [GoTime.after, Before]

theorem time_valid_iff (t : GoTime) : t.valid = .ok () ↔ ¬ ZeroTime t := by
  unfold GoTime.valid Res.guard
  rw [← zero_iff]
  cases t.isZero <;> simp

theorem special_iff (b : UInt64) : floatSpecial b = true ↔ NotFinite b := floatSpecial_iff b

theorem value_valid_iff {E : Env} {op : Str → Option Str} {k : Kind} {s : Str} {v : Val} (hs : ∀ c ∈ s, NoCtl c) (h : Val.decode E op k s = .ok v) :
    v.valid = .ok () ↔ Accepted v := by
  cases k <;> simp only [Val.decode, Res.map_eq_ok] at h <;> obtain ⟨x, h, rfl⟩ := h <;> simp only [Val.valid, Accepted, iff_true]
  · exact time_valid_iff x
  · exact time_valid_iff x
  · exact MText.decodeF_valid _ hs h
  · unfold Period.valid Res.guard
    rw [← zero_iff, ← zero_iff, ← after_iff]
    cases x.start.isZero <;> cases x.stop.isZero <;> simp
  · exact Recur.valid_of_range (Recur.decode_range h)
  · exact Text.decode_valid hs h
  · unfold TFloat.valid Res.guard
    rw [unit_bind_ok, ← special_iff, ← special_iff]
    cases floatSpecial x.1 <;> cases floatSpecial x.2 <;> simp

theorem decoded_all {E : Env} {s : Str} {c : Cal} (h : decodeDoc E s = .ok c) :
    CalAll (fun f p => f.spec.typed p = true ∧ (f.spec.valid p = .ok () ↔ ∀ v ∈ propVals p, Accepted v)) c := by
  refine decodeStream_all (L := LineOk) (fun f l p hw hl hd => ?_) (C11_document s) h
  obtain ⟨h1, h2, h3⟩ := PSpec.decode_good hw.spec hw.small hl hd
  refine ⟨h1, h2.trans ?_⟩
  constructor
  · intro h v hv
    obtain ⟨op, k, hd⟩ := h3 v hv
    exact (value_valid_iff hl.value hd).1 (h v hv)
  · intro h v hv
    obtain ⟨op, k, hd⟩ := h3 v hv
    exact (value_valid_iff hl.value hd).2 (h v hv)

/-- C45.  Exactly which decoded calendars pass validation: those all of whose times are not the zero time, whose periods end later in the same
location, and that have no finite position.  Texts, numbers, rules, parameters, alarms never fail. -/
theorem C45_valid_iff_partial (E : Env) (s : Str) (c : Cal) (h : decodeDoc E s = .ok c) : c.valid = .ok () ↔ ∀ v ∈ calVals c, Accepted v := by
  have ha := decoded_all h
  rw [ha.valid_iff]
  have hp := ha.props
  constructor
  · intro hv v hm
    obtain ⟨x, hx, hm⟩ := List.mem_flatMap.1 hm
    exact (hp x hx).2.1 (hv x hx) v hm
  · intro hv x hx
    exact (hp x hx).2.2 fun v hm => hv v (List.mem_flatMap.2 ⟨x, hx, hm⟩)

/-- C45.  A decoded calendar is a value of the Go types. -/
theorem C45_typed (E : Env) (s : Str) (c : Cal) (h : decodeDoc E s = .ok c) : c.typed = true :=
  (decoded_all h).typed fun _ _ h => h.1

/-- The sample document is decoded, and the calendar passes. -/
example : ∃ c, decodeDoc sampleEnv sampleDoc = .ok c ∧ c.valid = .ok () ∧ 10 ≤ (calVals c).length := by
  have : (match decodeDoc sampleEnv sampleDoc with
    | .ok c => decide (c.valid = .ok () ∧ 10 ≤ (calVals c).length)
    | _ => false) = true := by decide +kernel
  split at this
  · next c h => exact ⟨c, h, of_decide_eq_true this⟩
  · cases this

theorem DateTime_decode_loc {E : Env} {ptr : Nat} {tz : Option Str} {s : Str} {t : GoTime} (h : DateTime.decode E ptr tz s = .ok t) :
    (∃ n, tz = some n ∧ loadLocation E ptr n = some t.loc) ∨ (tz = none ∧ (t.loc = .utc ∨ t.loc = .local)) := by
  unfold DateTime.decode at h
  cases tz with
  | some n =>
    obtain ⟨l, h1, h2⟩ := Res.bind_eq_ok.1 h
    rw [Res.ofOption_eq_ok] at h1 h2
    exact Or.inl ⟨n, rfl, by rw [h1, parseDateTime_loc h2]⟩
  | none =>
    dsimp only at h
    split at h <;> rw [Res.ofOption_eq_ok] at h <;> simp [parseDateTime_loc h]

theorem Duration_decode_neg {s : Str} {d : Duration} (hs : s.head? ≠ some '-') (h : Duration.decode s = .ok d) : d.neg = false := by
  have key : ∀ (f l : Nat) (d d' : Duration) (s : Str), Duration.loop f l d s = .ok d' → d'.neg = d.neg := by
    intro f
    induction f with
    | zero => intro l d d' s h; cases h
    | succ f ih =>
      intro l d d' s h
      unfold Duration.loop at h
      dsimp only at h
      split at h
      · split at h
        · cases h
        · cases h; rfl
      · split at h
        · cases h
        · split at h <;> repeat' split at h
          all_goals first | cases h; done | (have := ih _ _ _ _ h; exact this) | (cases h; rfl)
  unfold Duration.decode at h
  dsimp only at h
  split at h
  · have := key _ _ _ _ _ h
    simpa [hs] using this
  · cases h

/-- C45.  Periods, exactly: a decoded period with an end (that is not the zero time) passes only in UTC or local time.  With a time zone it never
does, since each end has a location of its own. -/
theorem C45_period (E : Env) (ptr : Nat) (tz : Option Str) (s : Str) (p : Period) (h : Period.decode E ptr tz s = .ok p) :
    p.valid = .ok () ↔ ¬ ZeroTime p.start ∧ (ZeroTime p.stop ∨
      (Before p.start p.stop ∧ ((p.start.loc = .utc ∧ p.stop.loc = .utc) ∨ (p.start.loc = .local ∧ p.stop.loc = .local)))) := by
  have hv : p.valid = .ok () ↔ ¬ ZeroTime p.start ∧ ((ZeroTime p.stop ∧ p.dur.neg = false) ∨
      (¬ ZeroTime p.stop ∧ Before p.start p.stop ∧ p.start.loc = p.stop.loc)) := by
    unfold Period.valid Res.guard
    rw [← zero_iff, ← zero_iff, ← after_iff]
    cases p.start.isZero <;> cases p.stop.isZero <;> simp
  rw [hv]
  unfold Period.decode at h
  split at h
  · cases h
  · cases h
  · next a c b _ =>
    obtain ⟨t, h1, h⟩ := Res.bind_eq_ok.1 h
    split at h
    · next hc =>
      obtain ⟨d, h2, h⟩ := Res.bind_eq_ok.1 h
      cases h
      have hn := Duration_decode_neg (by rcases hc with rfl | rfl <;> simp) h2
      have hz : ZeroTime ({} : GoTime) := ⟨rfl, rfl⟩
      simp [hn, hz]
    · obtain ⟨u, h2, h⟩ := Res.bind_eq_ok.1 h
      cases h
      have hl : t.loc = u.loc ↔ (t.loc = .utc ∧ u.loc = .utc) ∨ (t.loc = .local ∧ u.loc = .local) := by
        constructor
        · intro he
          rcases DateTime_decode_loc h1 with ⟨n, e1, l1⟩ | ⟨e1, l1⟩
          · rcases DateTime_decode_loc h2 with ⟨m, e2, l2⟩ | ⟨e2, l2⟩
            · rw [e1] at e2
              cases e2
              unfold loadLocation at l1 l2
              split at l1
              · next hc => rw [if_pos hc] at l2; simp_all
              · next hc =>
                rw [if_neg hc] at l2
                split at l1
                · next hc => rw [if_pos hc] at l2; simp_all
                · next hc =>
                  rw [if_neg hc] at l2
                  rw [he] at l1
                  cases hz : E.loadZone n with
                  | none => rw [hz] at l1; cases l1
                  | some r =>
                    rw [hz] at l1 l2
                    simp only [Option.map_some, Option.some.injEq] at l1 l2
                    rw [← l2] at l1
                    injection l1
                    omega
            · rw [e1] at e2; cases e2
          · rcases l1 with l1 | l1
            · exact Or.inl ⟨l1, by rw [← he, l1]⟩
            · exact Or.inr ⟨l1, by rw [← he, l1]⟩
        · rintro (⟨e1, e2⟩ | ⟨e1, e2⟩) <;> rw [e1, e2]
      simp only [hl, and_true]
      by_cases hz : ZeroTime u <;> simp [hz]

/-- An event with one more property. -/
def oneMore (n : Str) (p : PropVal) : Cal := sect tabCalendar [(c!"VERSION", val1 0 (.text c!"2.0")), (c!"PRODID", val1 0 (.text c!"x"))]
  [[sect tabEvent [(c!"DTSTAMP", val1 0 (.dateTime ⟨63763119600, 0, .utc⟩)), (c!"UID", val1 0 (.text c!"1")), (n, p)] [[]]], [], [], [], []]

def oneMoreDoc (l : Str) : Str := c!"BEGIN:VCALENDAR\r\nVERSION:2.0\r\nPRODID:x\r\nBEGIN:VEVENT\r\nUID:1\r\nDTSTAMP:20210729T014000Z\r\n" ++ l ++
  c!"\r\nEND:VEVENT\r\nEND:VCALENDAR\r\n"

/-- C45.  Three kinds of document are decoded to calendars that cannot be encoded: with the zero time, -/
theorem C45_zero_time : decodeDoc sampleEnv (oneMoreDoc c!"DTSTART:00010101T000000Z") = .ok (oneMore c!"DTSTART" (.fields [] [some (.dateTime ⟨0, 0, .utc⟩), none])) ∧
    (oneMore c!"DTSTART" (.fields [] [some (.dateTime ⟨0, 0, .utc⟩), none])).valid = .err .invalidTime := by decide +kernel

/-- with a position, -/
theorem C45_position :
    let E := { sampleEnv with floatParse := fun s => if s = c!"48.85" then some 0x40486ccccccccccd else some 0x4002cccccccccccd }
    let g := oneMore c!"GEO" (val1 0 (.tfloat (0x40486ccccccccccd, 0x4002cccccccccccd)))
    decodeDoc E (oneMoreDoc c!"GEO:48.85;2.35") = .ok g ∧ g.valid = .err .invalidFloat := by decide +kernel

/-- and with a period in a time zone. -/
theorem C45_zone_period :
    let p : Period := { start := ⟨63763119600, 0, .zone c!"Europe/Paris" 0 0⟩, stop := ⟨63763123200, 0, .zone c!"Europe/Paris" 1 0⟩ }
    let g := oneMore c!"RDATE" (.fields [] [none, none, some (.period p)])
    decodeDoc sampleEnv (oneMoreDoc c!"RDATE;VALUE=PERIOD;TZID=Europe/Paris:20210729T024000/20210729T034000") = .ok g ∧
      g.valid = .err .invalidPeriodEnd := by decide +kernel

/-- C45.  The claim as stated in full is false: a counterexample. -/
theorem C45_full_claim_is_false : ¬ C45_claim := by
  intro h
  have h1 := C45_zero_time
  rw [h _ _ _ h1.1] at h1
  cases h1.2

end Ics.Props
