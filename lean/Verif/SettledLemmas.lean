import Verif.FoundLemmas
import Verif.UnbrokenLemmas
import Verif.ReturnExactLemmas
import Verif.LocalTimeLemmas
/-!
# Lemmas: what is written, read and written again
-/

namespace Ics
open Spec

variable {κ σ β : Type}

/-! ## Times -/

theorem fmtDate8_inj {m n : Int} (hn : 0 ≤ (civil n).1 ∧ (civil n).1 ≤ 9999) (h : fmtDate8 m = fmtDate8 n) : m = n := by
  have h1 := parseDate8_fmt n [] hn.1 hn.2
  rw [← h] at h1
  have h2 := fmtDate8_year h1 (by simp)
  have h3 := parseDate8_fmt m [] h2.1 h2.2
  rw [h3] at h1
  simpa using h1

theorem fmtDate8_noT {n : Int} : 'T' ∉ fmtDate8 n := by
  intro h
  rcases fmtDate8_mem h with h | h <;> exact absurd h (by decide)

theorem dateTime_inj {E : Env} {t u : GoTime} (hu : FourDigits E u) (hz : t.loc = .utc ↔ u.loc = .utc) (h : DateTime.encode E t = DateTime.encode E u) :
    t.wall E = u.wall E := by
  unfold DateTime.encode at h
  have hz' : (if t.loc = .utc then ['Z'] else []) = (if u.loc = .utc then ['Z'] else []) := by simp only [hz]
  rw [hz'] at h
  have h := List.append_cancel_right h
  have h1 := split2_append 'T' (fmtDate8 (t.wall E / 86400)) (fmtClock (t.wall E % 86400).toNat) fmtDate8_noT
  rw [h, split2_append 'T' _ _ fmtDate8_noT] at h1
  simp only [Option.some.injEq, Prod.mk.injEq] at h1
  have e1 := fmtDate8_inj hu h1.1.symm
  have c1 := parseClock_fmt (t.wall E % 86400).toNat (by omega) [] (by simp)
  have c2 := parseClock_fmt (u.wall E % 86400).toNat (by omega) [] (by simp)
  rw [← h1.2, c2] at c1
  simp only [Option.some.injEq, Prod.mk.injEq] at c1
  omega

theorem dateTime_congr {E : Env} {t u : GoTime} (hz : t.loc = .utc ↔ u.loc = .utc) (h : t.wall E = u.wall E) : DateTime.encode E t = DateTime.encode E u := by
  unfold DateTime.encode
  simp only [hz, h]

theorem foundLoc_zone {E : Env} {q : Nat} {l : Loc} (h : LocSettled l) : tzidOf (foundLoc E q l) = tzidOf l ∧ (foundLoc E q l = .utc ↔ l = .utc) := by
  cases l with
  | utc => exact ⟨rfl, Iff.rfl⟩
  | «local» => exact ⟨rfl, Iff.rfl⟩
  | zone n p r =>
    obtain ⟨h1, h2, h3⟩ := h
    unfold foundLoc
    simp only [h1, h2, h3, false_or, if_false]
    cases E.loadZone n <;> simp [tzidOf]

theorem foundLoc_special {E : Env} {q : Nat} {n : Str} {p r : Nat} (h : ¬ LocSettled (.zone n p r)) : tzidOf (foundLoc E q (.zone n p r)) = none := by
  simp only [LocSettled] at h
  have : n = [] ∨ n = c!"UTC" ∨ n = c!"Local" := by
    by_cases h1 : n = []
    · exact .inl h1
    · by_cases h2 : n = c!"UTC"
      · exact .inr (.inl h2)
      · by_cases h3 : n = c!"Local"
        · exact .inr (.inr h3)
        · exact absurd ⟨h1, h2, h3⟩ h
  rcases this with rfl | rfl | rfl <;> rfl

theorem locSettled_of {E : Env} {q : Nat} {l : Loc} (h : tzidOf (foundLoc E q l) = tzidOf l) : LocSettled l := by
  cases l with
  | utc => trivial
  | «local» => trivial
  | zone n p r =>
    by_cases hs : LocSettled (.zone n p r)
    · exact hs
    · rw [foundLoc_special hs] at h
      cases h

/-- In zones as they are, and with the rules of the zone of that name, all times are settled. -/
theorem timeSettled_sane {E : Env} (hE : SaneEnv E) {q : Nat} {t : GoTime} (h : LocOk E t.loc) : TimeSettled E q t := by
  have key : ∀ l, SaneZone (locOff E l) → (∀ x, locOff E l x = locOff E t.loc x) → (⟨instant E l (t.wall E), 0, l⟩ : GoTime).wall E = t.wall E := by
    intro l hs hl
    have := instant_shown E l hs (t.wall E) t.sec (by unfold Shows GoTime.wall; rw [hl])
    exact this
  unfold TimeSettled foundTime
  obtain ⟨sec, ns, l⟩ := t
  cases l with
  | utc => exact ⟨trivial, by simp [foundLoc, GoTime.wall, instant, locOff]⟩
  | «local» => exact ⟨trivial, key _ hE.loc fun _ => rfl⟩
  | zone n p r =>
    obtain ⟨h1, h2, h3, h4⟩ := h
    have hf : foundLoc E q (.zone n p r) = .zone n q r := by
      unfold foundLoc
      simp only [h1, h2, h3, false_or, if_false, h4]
    refine ⟨⟨h1, h2, h3⟩, ?_⟩
    simp only [hf]
    exact key _ (hE.zone n r h4) fun _ => rfl

/-! ## Values -/

/-- What stands in the line behind the parameters of the property. -/
def tailText (E : Env) (v : Val) : Str := printParams (headToks v) ++ ':' :: v.text_ E

theorem tail_tz {a b : Option Str} {s t : Str} (h : (match a with | some n => printParams [(c!"TZID", [⟨false, n⟩])] | none => []) ++ ':' :: s =
      (match b with | some n => printParams [(c!"TZID", [⟨false, n⟩])] | none => []) ++ ':' :: t) : (a = none ↔ b = none) ∧ (a = b → s = t) := by
  refine ⟨?_, fun e => ?_⟩
  · cases a <;> cases b <;> simp [printParams] at h ⊢
  · subst e
    have := List.append_cancel_left h
    simpa using this

theorem tzid_cases {E : Env} {q : Nat} {l : Loc} (h : tzidOf (foundLoc E q l) = none ↔ tzidOf l = none) : tzidOf (foundLoc E q l) = tzidOf l := by
  cases l with
  | utc => rfl
  | «local» => rfl
  | zone n p r =>
    by_cases hs : LocSettled (.zone n p r)
    · exact (foundLoc_zone hs).1
    · exact absurd (h.1 (foundLoc_special hs)) (by simp [tzidOf])

theorem headToks_tz (v : Val) (h : v.kind ≠ .binary) : printParams (headToks v) = (match v.tzid with | some n => printParams [(c!"TZID", [⟨false, n⟩])] | none => []) := by
  have : headToks v = (match v.tzid with | some n => [(c!"TZID", [⟨false, n⟩])] | none => []) := by
    cases v <;> first | exact absurd rfl h | rfl
  rw [this]
  cases v.tzid <;> rfl

theorem tail_tzid {E : Env} {v w : Val} (hv : v.kind ≠ .binary) (hw : w.kind ≠ .binary) (h : tailText E v = tailText E w) :
    (v.tzid = none ↔ w.tzid = none) ∧ (v.tzid = w.tzid → v.text_ E = w.text_ E) := by
  unfold tailText at h
  rw [headToks_tz v hv, headToks_tz w hw] at h
  exact tail_tz h

theorem tail_congr {E : Env} {v w : Val} (hv : v.kind ≠ .binary) (hw : w.kind ≠ .binary) (h1 : v.tzid = w.tzid) (h2 : v.text_ E = w.text_ E) : tailText E v = tailText E w := by
  unfold tailText
  rw [headToks_tz v hv, headToks_tz w hw, h1, h2]

theorem foundDuration_text (d : Duration) : Duration.encode (foundDuration d) = Duration.encode d := by
  unfold foundDuration
  split
  · rfl
  · next h => simp [Duration.encode, Duration.body, h]

theorem foundOffset_text {o : Int} (h : OffsetReadable o) : UTCOffset.encode (foundOffset o) = UTCOffset.encode o := by
  unfold OffsetReadable at h
  have hm : o ≠ -(2 ^ 63) := by omega
  rw [UTCOffset.encode_of hm]
  have hf : ∃ H, H = (if o.natAbs / 60 / 60 % 256 > 99 then 0 else o.natAbs / 60 / 60 % 256) ∧ H < 100 ∧ foundOffset o = if o < 0 then -(3600 * (H : Int) + (o.natAbs % 3600 : Nat)) else 3600 * (H : Int) + (o.natAbs % 3600 : Nat) := by
    refine ⟨_, rfl, by split <;> omega, ?_⟩
    unfold foundOffset
    rw [show o.natAbs / 3600 = o.natAbs / 60 / 60 by omega]
  obtain ⟨H, h1, h2, h3⟩ := hf
  rw [← h1]
  rw [show o.natAbs / 3600 = o.natAbs / 60 / 60 by omega] at h
  have hpos : o < 0 → 0 < 3600 * H + o.natAbs % 3600 := by
    intro ho
    rcases h with h | ⟨_, h⟩
    · omega
    · split at h1 <;> omega
  have hn : (foundOffset o).natAbs = 3600 * H + o.natAbs % 3600 := by rw [h3]; split <;> omega
  have hs : foundOffset o < 0 ↔ o < 0 := by
    rw [h3]
    split
    · next ho => have := hpos ho; constructor <;> omega
    · next ho => constructor <;> omega
  have hm' : foundOffset o ≠ -(2 ^ 63) := by
    clear h1
    omega
  rw [UTCOffset.encode_of hm', hn]
  simp only [hs]
  rw [show (3600 * H + o.natAbs % 3600) / 60 / 60 % 256 = H by omega, if_neg (show ¬ H > 99 by omega), show (3600 * H + o.natAbs % 3600) / 60 % 60 = o.natAbs / 60 % 60 by omega,
    show (3600 * H + o.natAbs % 3600) % 60 = o.natAbs % 60 by omega]

theorem foundDay_text (E : Env) (t : GoTime) : Date.encode E (foundDay E t) = Date.encode E t := by
  unfold Date.encode foundDay
  congr 1
  simp only [GoTime.wall, locOff]
  omega

theorem foundTime_settled {E : Env} {q : Nat} {t : GoTime} (h4 : FourDigits E t) :
    tzidOf (foundTime E q t).loc = tzidOf t.loc ∧ DateTime.encode E (foundTime E q t) = DateTime.encode E t ↔ TimeSettled E q t := by
  constructor
  · rintro ⟨h1, h2⟩
    have hs := locSettled_of h1
    exact ⟨hs, dateTime_inj h4 (foundLoc_zone hs).2 h2⟩
  · rintro ⟨h1, h2⟩
    exact ⟨(foundLoc_zone h1).1, dateTime_congr (foundLoc_zone h1).2 h2⟩

theorem foundTime_tzid {E : Env} {q : Nat} {t : GoTime} (h : tzidOf (foundTime E q t).loc = none ↔ tzidOf t.loc = none) : tzidOf (foundTime E q t).loc = tzidOf t.loc :=
  tzid_cases h

theorem encode_noSlash {E : Env} {t : GoTime} : '/' ∉ DateTime.encode E t := by
  intro hm
  exact timeChar_ne (DateTime.encode_mem hm) (d := '/') (by decide) (by decide) (by decide) (by decide) rfl

theorem period_split {E : Env} {p p' : Period} (h : Period.encode E p = Period.encode E p') :
    DateTime.encode E p.start = DateTime.encode E p'.start ∧
      (if p.stop.isZero then Duration.encode p.dur else DateTime.encode E p.stop) = (if p'.stop.isZero then Duration.encode p'.dur else DateTime.encode E p'.stop) := by
  unfold Period.encode at h
  have h1 := split2_append '/' (DateTime.encode E p.start) (if p.stop.isZero then Duration.encode p.dur else DateTime.encode E p.stop) encode_noSlash
  rw [h, split2_append '/' _ _ encode_noSlash] at h1
  simp only [Option.some.injEq, Prod.mk.injEq] at h1
  exact ⟨h1.1.symm, h1.2.symm⟩

theorem duration_ne_time {E : Env} {d : Duration} {t : GoTime} : Duration.encode d ≠ DateTime.encode E t := by
  intro h
  have : 'P' ∈ DateTime.encode E t := by rw [← h]; simp [Duration.encode]
  exact timeChar_ne (DateTime.encode_mem this) (d := 'P') (by decide) (by decide) (by decide) (by decide) rfl

open Props in
theorem rule_until {E : Env} {r r' : Recur} (h : Recur.encode E r = Recur.encode E r') :
    partsNamed (ruleOf E r) c!"UNTIL" = partsNamed (ruleOf E r') c!"UNTIL" := by
  have h1 := ruleText_ruleOf E r
  rw [h] at h1
  rw [h1.unique (ruleText_ruleOf E r')]

theorem nameless_iff (l : Loc) : LocNameless l ↔ tzidOf l = none := by
  cases l <;> simp [LocNameless, tzidOf]

/-- The text of the value that is found, and the zone beside it, are those of the value exactly if it is settled. -/
theorem val_settled {E : Env} {v : Val} (hr : ValReadable E v) (hv : v.valid = .ok ()) : tailText E (foundVal E v) = tailText E v ↔ ValSettled E v := by
  have plain : ∀ w : Val, w.kind ≠ .binary → v.kind ≠ .binary → w.tzid = none → v.tzid = none → (tailText E w = tailText E v ↔ w.text_ E = v.text_ E) := by
    intro w h1 h2 h3 h4
    exact ⟨fun h => (tail_tzid h1 h2 h).2 (h3.trans h4.symm), fun h => tail_congr h1 h2 (h3.trans h4.symm) h⟩
  cases v with
  | binary b => exact ⟨fun _ => trivial, fun _ => rfl⟩
  | boolean b => exact ⟨fun _ => trivial, fun _ => rfl⟩
  | integer i => exact ⟨fun _ => trivial, fun _ => rfl⟩
  | text t => exact ⟨fun _ => trivial, fun _ => rfl⟩
  | calAddress u => exact plain _ (by simp [foundVal, Val.kind]) (by simp [Val.kind]) rfl rfl
  | uri u => exact plain _ (by simp [foundVal, Val.kind]) (by simp [Val.kind]) rfl rfl
  | tfloat t => exact plain _ (by simp [foundVal, Val.kind]) (by simp [Val.kind]) rfl rfl
  | date t =>
    rw [plain (foundVal E (.date t)) (by simp [foundVal, Val.kind]) (by simp [Val.kind]) rfl rfl]
    exact ⟨fun _ => trivial, fun _ => foundDay_text E t⟩
  | duration d =>
    rw [plain (foundVal E (.duration d)) (by simp [foundVal, Val.kind]) (by simp [Val.kind]) rfl rfl]
    exact ⟨fun _ => trivial, fun _ => foundDuration_text d⟩
  | mtext ts =>
    rw [plain (foundVal E (.mtext ts)) (by simp [foundVal, Val.kind]) (by simp [Val.kind]) rfl rfl]
    refine ⟨fun _ => trivial, fun _ => ?_⟩
    cases ts <;> rfl
  | utcOffset o =>
    rw [plain (foundVal E (.utcOffset o)) (by simp [foundVal, Val.kind]) (by simp [Val.kind]) rfl rfl]
    exact ⟨fun _ => trivial, fun _ => foundOffset_text hr⟩
  | dateTime t =>
    refine Iff.trans ?_ (foundTime_settled (q := 0) hr.1)
    constructor
    · intro h
      obtain ⟨h1, h2⟩ := tail_tzid (by simp [foundVal, Val.kind]) (by simp [Val.kind]) h
      have h1 := foundTime_tzid (E := E) (q := 0) (t := t) h1
      exact ⟨h1, h2 h1⟩
    · rintro ⟨h1, h2⟩
      exact tail_congr (by simp [foundVal, Val.kind]) (by simp [Val.kind]) h1 h2
  | period p =>
    obtain ⟨r1, r2, r3⟩ := hr
    have hloc : p.stop.isZero = false → p.start.loc = p.stop.loc := by
      intro hz
      have hv : p.valid = .ok () := hv
      unfold Period.valid at hv
      split at hv
      · cases hv
      rw [hz] at hv
      simp only [Bool.false_eq_true, if_false, Res.guard_eq_ok, Bool.and_eq_true, decide_eq_true_eq] at hv
      exact hv.2
    have hst : (foundPeriod E p).start = foundTime E 0 p.start := by unfold foundPeriod; split <;> rfl
    have e : tailText E (foundVal E (.period p)) = tailText E (.period p) ↔
        tzidOf (foundTime E 0 p.start).loc = tzidOf p.start.loc ∧ Period.encode E (foundPeriod E p) = Period.encode E p := by
      constructor
      · intro h
        obtain ⟨h1, h2⟩ := tail_tzid (by simp [foundVal, Val.kind]) (by simp [Val.kind]) h
        have h1' : tzidOf (foundTime E 0 p.start).loc = none ↔ tzidOf p.start.loc = none := by
          rw [← hst]
          exact h1
        have h1 := foundTime_tzid h1'
        exact ⟨h1, h2 (by rw [← hst] at h1; exact h1)⟩
      · rintro ⟨h1, h2⟩
        exact tail_congr (by simp [foundVal, Val.kind]) (by simp [Val.kind]) (by rw [← hst] at h1; exact h1) h2
    rw [e]
    cases hz : p.stop.isZero with
    | true =>
      have hf : foundPeriod E p = ⟨foundTime E 0 p.start, {}, foundDuration p.dur⟩ := by unfold foundPeriod; rw [if_pos hz]
      have hz0 : (GoTime.isZero {}) = true := by decide
      constructor
      · rintro ⟨h1, h2⟩
        have := (period_split h2).1
        rw [hst] at this
        exact ⟨(foundTime_settled r1).1 ⟨h1, this⟩, fun h => by rw [hz] at h; cases h⟩
      · rintro ⟨h1, _⟩
        obtain ⟨a, b⟩ := (foundTime_settled r1).2 h1
        refine ⟨a, ?_⟩
        rw [hf]
        unfold Period.encode
        simp only [hz, hz0, if_true, b, foundDuration_text]
    | false =>
      have hf : foundPeriod E p = ⟨foundTime E 0 p.start, foundTime E 1 p.stop, {}⟩ := by unfold foundPeriod; rw [if_neg (by simp [hz])]
      constructor
      · rintro ⟨h1, h2⟩
        obtain ⟨a, b⟩ := period_split h2
        rw [hst] at a
        refine ⟨(foundTime_settled r1).1 ⟨h1, a⟩, fun _ => ?_⟩
        rw [hf] at b
        simp only [hz, Bool.false_eq_true, if_false] at b
        cases hz1 : (foundTime E 1 p.stop).isZero with
        | true =>
          rw [hz1, if_pos rfl] at b
          exact absurd b duration_ne_time
        | false =>
          rw [hz1, if_neg (by decide)] at b
          refine ⟨(foundTime_settled (r3 hz)).1 ⟨?_, b⟩, rfl⟩
          have hs := locSettled_of h1
          exact (foundLoc_zone (hloc hz ▸ hs)).1
      · rintro ⟨h1, h2⟩
        obtain ⟨h2, h3⟩ := h2 hz
        obtain ⟨a, b⟩ := (foundTime_settled r1).2 h1
        obtain ⟨a', b'⟩ := (foundTime_settled (r3 hz)).2 h2
        refine ⟨a, ?_⟩
        rw [hf]
        unfold Period.encode
        simp only [hz, h3, Bool.false_eq_true, if_false, b, b']
  | recur r =>
    have e : tailText E (foundVal E (.recur r)) = tailText E (.recur r) ↔
        (tzidOf (foundRule E r).until_.loc = tzidOf r.until_.loc ∧ Recur.encode E (foundRule E r) = Recur.encode E r) := by
      constructor
      · intro h
        obtain ⟨h1, h2⟩ := tail_tzid (by simp [foundVal, Val.kind]) (by simp [Val.kind]) h
        have h1 : tzidOf (foundRule E r).until_.loc = none ↔ tzidOf r.until_.loc = none := h1
        have h3 : tzidOf (foundRule E r).until_.loc = tzidOf r.until_.loc := by
          unfold foundRule at h1 ⊢
          split
          · next h => rw [if_pos h] at h1; exact (h1.1 rfl).symm
          · next h =>
            rw [if_neg h] at h1
            cases ht : r.untilTime with
            | true =>
              simp only [ht, if_true] at h1 ⊢
              exact foundTime_tzid h1
            | false =>
              simp only [ht, Bool.false_eq_true, if_false] at h1 ⊢
              exact (h1.1 rfl).symm
        exact ⟨h3, h2 h3⟩
      · rintro ⟨h1, h2⟩
        exact tail_congr (by simp [foundVal, Val.kind]) (by simp [Val.kind]) h1 h2
    rw [e]
    show _ ↔ if r.count ≠ 0 ∨ r.until_.isZero then _ else _
    by_cases hc : r.count ≠ 0 ∨ r.until_.isZero
    · have hf : foundRule E r = { r with until_ := {}, untilTime := false } := by unfold foundRule; rw [if_pos hc]
      rw [if_pos hc, hf, nameless_iff]
      constructor
      · rintro ⟨h1, _⟩
        exact h1.symm
      · intro h
        refine ⟨h.symm, ?_⟩
        have hz0 : (GoTime.isZero {}) = true := by decide
        unfold Recur.encode Recur.parts
        simp only [hz0]
        rcases hc with hc | hc
        · simp only [hc, ne_eq, not_false_eq_true, if_true]
        · simp only [hc, Bool.not_true, Bool.false_eq_true, if_false]
    · have hc' := hc
      simp only [not_or, ne_eq, Classical.not_not, Bool.not_eq_true] at hc'
      obtain ⟨c1, c2⟩ := hc'
      have hf : foundRule E r = { r with until_ := if r.untilTime then foundTime E 0 r.until_ else foundDay E r.until_ } := by unfold foundRule; rw [if_neg hc]
      obtain ⟨h4, _⟩ := hr.2 c1 c2
      have parts : ∀ t : GoTime, (Recur.encode E { r with until_ := t } = Recur.encode E r ↔
          t.isZero = false ∧ (if r.untilTime then DateTime.encode E t else Date.encode E t) = (if r.untilTime then DateTime.encode E r.until_ else Date.encode E r.until_)) := by
        intro t
        constructor
        · intro h
          have h := rule_until h
          rw [partsNamed_until, partsNamed_until] at h
          simp only [c1, c2, ne_eq, not_true_eq_false, if_false, Bool.not_false, if_true] at h
          cases ht : t.isZero with
          | true => rw [ht] at h; cases h
          | false => rw [ht] at h; simpa using h
        · rintro ⟨h1, h2⟩
          unfold Recur.encode Recur.parts
          simp only [c1, c2, h1, h2]
      rw [if_neg hc, hf, parts]
      cases ht : r.untilTime with
      | true =>
        simp only [if_true]
        rw [← foundTime_settled h4]
        exact ⟨fun ⟨a, b, c⟩ => ⟨⟨a, c⟩, b⟩, fun ⟨⟨a, c⟩, b⟩ => ⟨a, b, c⟩⟩
      | false =>
        simp only [Bool.false_eq_true, if_false]
        rw [nameless_iff]
        exact ⟨fun ⟨a, b, c⟩ => ⟨a.symm, b⟩, fun ⟨a, b⟩ => ⟨a.symm, b, foundDay_text E _⟩⟩

/-! ## Properties -/

theorem foundParams_toks {E : Env} : ∀ {ds : List PDef} {ps : List (Option ParamVal)}, (∀ x ∈ ds.zip ps, ∀ v, x.2 = some v → x.1.kind.typed v = true) →
    paramToks E ds (List.zipWith (fun d v => v.bind (foundParam E d.kind)) ds ps) = paramToks E ds ps := by
  intro ds
  induction ds with
  | nil => intro ps _; cases ps <;> rfl
  | cons d ds ih =>
    intro ps ht
    cases ps with
    | nil => rfl
    | cons p ps =>
      simp only [List.zipWith_cons_cons, paramToks]
      rw [ih fun x hx => ht x (by simp [hx])]
      congr 1
      cases p with
      | none => rfl
      | some v =>
        replace ht := ht (d, some v) (by simp) v rfl
        have hv := vanishes_present (E := E) ht
        simp only [Option.bind_some, hv]
        have hr : foundParam E d.kind v = if present E v then some (tameParam d.kind v) else none := rfl
        rw [hr]
        cases hp : present E v with
        | false => simp
        | true =>
          have hk : vanishes E d.kind (tameParam d.kind v) = false := by
            rw [hp] at hv
            rw [show vanishes E d.kind (tameParam d.kind v) = vanishes E d.kind v by generalize d.kind = k at ht ⊢; cases k <;> cases v <;> rfl, hv]
            rfl
          have hk2 : ptokens E d.kind (tameParam d.kind v) = ptokens E d.kind v := by
            generalize d.kind = k at ht ⊢
            cases k with
            | «enum» names =>
              cases v with
              | «enum» n =>
                simp only [tameParam, ptokens]
                by_cases hn : n ≤ names.length
                · rw [if_pos hn]
                · rw [if_neg hn, if_pos rfl, if_neg (by omega)]
                  rw [List.getD_eq_getElem?_getD, List.getElem?_eq_none (by omega)]
                  rfl
              | _ => rfl
            | _ => cases v <;> rfl
          simp [hk, hk2]

theorem filterMap_oneOf : ∀ {n i : Nat} {v : Val}, i < n → (oneOf n i v).filterMap id = [v] := by
  intro n
  induction n with
  | zero => intro i v h; omega
  | succ n ih =>
    intro i v h
    cases i with
    | zero => simp [oneOf_zero]
    | succ i => simpa [oneOf_cons] using ih (by omega)

theorem prop_settled {E : Env} {sp : PSpec} {p : PropVal} (ht : sp.typed p = true) (hv : sp.valid p = .ok ()) (hr : ∀ v ∈ propVals p, ValReadable E v) :
    printBare (toLine E sp (foundProp E sp p)) = printBare (toLine E sp p) ↔ ∀ v ∈ propVals p, ValSettled E v := by
  have htp := PSpec.typed_params ht
  obtain ⟨n, sh⟩ := sp
  cases sh with
  | «enum» names =>
    cases p with
    | fields => simp [PSpec.typed] at ht
    | «enum» m => exact ⟨fun _ v h => by simp [propVals] at h, fun _ => rfl⟩
  | fields params vals =>
    cases p with
    | «enum» => simp [PSpec.typed] at ht
    | fields ps vs =>
      obtain ⟨_, t1, i, v, hi, e, hk, hvv⟩ := PSpec.typed_valid ht hv
      subst e
      have hmem : propVals (.fields ps (oneOf vals.length i v)) = [v] := by
        simp only [propVals]
        exact filterMap_oneOf hi
      have hf : foundProp E ⟨n, .fields params vals⟩ (.fields ps (oneOf vals.length i v)) =
          .fields (List.zipWith (fun d v => v.bind (foundParam E d.kind)) params ps) (oneOf vals.length i (foundVal E v)) := by
        simp only [foundProp]
        rw [oneOf_map]
      have hl : ∀ qs w, toLine E ⟨n, .fields params vals⟩ (.fields qs (oneOf vals.length i w)) = ⟨n, paramToks E params qs ++ valueToks vals i ++ headToks w, w.text_ E⟩ := by
        intro qs w
        simp only [toLine, oneOf_findIdx _ i w hi, oneOf_get _ i w hi]
      rw [hf, hl, hl, foundParams_toks, hmem]
      · simp only [List.mem_singleton, forall_eq]
        rw [hmem] at hr
        rw [← val_settled (hr v (by simp)) hvv]
        simp only [printBare, printParams_append, List.append_assoc, List.append_cancel_left_eq, tailText]
      · intro x hx w hw
        have : (x.1, w) ∈ propParams ⟨n, .fields params vals⟩ (.fields ps (oneOf vals.length i v)) := by
          simp only [propParams, List.mem_filterMap]
          exact ⟨x, hx, by rw [hw]; rfl⟩
        exact htp _ this

theorem foundProp_encode {E : Env} {sp : PSpec} {p : PropVal} (ht : sp.typed p = true) (h : sp.encode E p ≠ none) : sp.encode E (foundProp E sp p) ≠ none := by
  intro hn
  apply h
  have htp := PSpec.typed_params ht
  rw [PSpec.encode_none] at hn ⊢
  obtain ⟨y, hy, hn⟩ := hn
  obtain ⟨n, sh⟩ := sp
  cases sh with
  | «enum» names => cases p <;> simp [propParams] at hy
  | fields params vals =>
    cases p with
    | «enum» => simp [foundProp, propParams] at hy
    | fields ps vs =>
      simp only [foundProp, propParams, List.mem_filterMap] at hy
      obtain ⟨x, hx, hy⟩ := hy
      obtain ⟨i, hi⟩ := List.getElem?_of_mem hx
      obtain ⟨e1, e2⟩ := List.getElem?_zip_eq_some.1 hi
      rw [List.getElem?_zipWith, e1] at e2
      cases hp : ps[i]? with
      | none => rw [hp] at e2; cases e2
      | some o =>
        rw [hp] at e2
        simp only [Option.some.injEq] at e2
        cases o with
        | none => rw [← e2] at hy; simp at hy
        | some w =>
          have hm : (x.1, w) ∈ propParams ⟨n, .fields params vals⟩ (.fields ps vs) := by
            simp only [propParams, List.mem_filterMap]
            exact ⟨(x.1, some w), List.mem_of_getElem? (i := i) (List.getElem?_zip_eq_some.2 ⟨e1, hp⟩), rfl⟩
          refine ⟨_, hm, ?_⟩
          rw [← e2] at hy
          simp only [Option.bind_some, foundParam] at hy
          split at hy
          · simp only [Option.map_some, Option.some.injEq] at hy
            subst hy
            generalize x.1.kind = k at hn ⊢
            cases k <;> cases w <;> first | exact hn | (simp [PKind.encode] at hn)
          · cases hy

/-! ## Components -/

theorem same_append {a b a' b' : List β} (h : a' ++ b' = a ++ b) (h1 : a'.length ≤ a.length) (h2 : b'.length ≤ b.length) : a' = a ∧ b' = b := by
  have h3 := congrArg List.length h
  simp only [List.length_append] at h3
  exact List.append_inj h (by omega)

theorem mem_foundSect {E : Env} {g : κ → σ → σ} {T : Tab κ} {s : Sect σ} {x : SField × PropVal} (h : x ∈ sectProps T (foundSect E g T s)) :
    ∃ y ∈ sectProps T s, y.1.key ≠ kLastMod ∧ x = (y.1, foundProp E y.1.spec y.2) := by
  obtain ⟨f, p⟩ := x
  obtain ⟨i, e1, e2⟩ := mem_sectProps.1 h
  simp only at e1 e2
  rw [List.getD_eq_getElem?_getD] at e2
  simp only [foundSect, List.getElem?_map] at e2
  cases hz : (T.fields.zip s.fields)[i]? with
  | none => rw [hz] at e2; simp at e2
  | some z =>
    rw [hz] at e2
    obtain ⟨z1, z2⟩ := List.getElem?_zip_eq_some.1 hz
    rw [e1] at z1
    cases z1
    simp only [Option.map_some, Option.getD_some] at e2
    split at e2
    · cases e2
    · next hk =>
      obtain ⟨q, hq, rfl⟩ := List.mem_map.1 e2
      exact ⟨(z.1, q), mem_sectProps.2 ⟨i, e1, by rw [List.getD_eq_getElem?_getD, z2]; exact hq⟩, hk, rfl⟩

theorem mem_foundBelow {E : Env} {g : κ → σ → σ} {T : Tab κ} {s : Sect σ} {ps : κ → σ → List (SField × PropVal)}
    (hg : ∀ k y, ∀ x ∈ ps k (g k y), ∃ z ∈ ps k y, z.1.key ≠ kLastMod ∧ x = (z.1, foundProp E z.1.spec z.2)) {x : SField × PropVal} (h : x ∈ below ps T (foundSect E g T s)) :
    ∃ y ∈ below ps T s, y.1.key ≠ kLastMod ∧ x = (y.1, foundProp E y.1.spec y.2) := by
  obtain ⟨z, hz, y, hy, hx⟩ := mem_below.1 h
  obtain ⟨i, hi⟩ := List.getElem?_of_mem hz
  obtain ⟨e1, e2⟩ := List.getElem?_zip_eq_some.1 hi
  simp only [foundSect, List.getElem?_map] at e2
  cases hw : (T.subs.zip s.subs)[i]? with
  | none => rw [hw] at e2; cases e2
  | some w =>
    rw [hw] at e2
    obtain ⟨w1, w2⟩ := List.getElem?_zip_eq_some.1 hw
    rw [e1] at w1
    simp only [Option.map_some, Option.some.injEq] at w1 e2
    rw [← e2] at hy
    obtain ⟨y', hy', rfl⟩ := List.mem_map.1 hy
    rw [w1] at hx
    obtain ⟨a, ha, hk, e⟩ := hg _ _ _ hx
    exact ⟨a, mem_below.2 ⟨w, List.mem_of_getElem? hw, y', hy', ha⟩, hk, e⟩

/-- The properties that are found are those that are found of the properties there were. -/
theorem mem_foundCal {E : Env} {c : Cal} {x : SField × PropVal} (h : x ∈ calProps (foundCal E c)) :
    ∃ y ∈ calProps c, y.1.key ≠ kLastMod ∧ x = (y.1, foundProp E y.1.spec y.2) := by
  have sub : ∀ k y, ∀ x ∈ subProps k (foundSub E k y), ∃ z ∈ subProps k y, z.1.key ≠ kLastMod ∧ x = (z.1, foundProp E z.1.spec z.2) := by
    intro k y x hx
    cases k with
    | leaf T =>
      cases y with
      | leaf s => exact mem_foundSect hx
      | alarm a => cases hx
    | alarm =>
      cases y with
      | leaf s => cases hx
      | alarm o =>
        cases o with
        | none => cases hx
        | some o =>
          obtain ⟨a, s⟩ := o
          exact mem_foundSect (T := a.tab) hx
  rcases List.mem_append.1 h with h | h
  · obtain ⟨y, hy, r⟩ := mem_foundSect h
    exact ⟨y, List.mem_append.2 (.inl hy), r⟩
  · obtain ⟨y, hy, r⟩ := mem_foundBelow (ps := compProps) (fun T s x hx => by
      rcases List.mem_append.1 hx with hx | hx
      · obtain ⟨y, hy, r⟩ := mem_foundSect hx
        exact ⟨y, List.mem_append.2 (.inl hy), r⟩
      · obtain ⟨y, hy, r⟩ := mem_foundBelow sub hx
        exact ⟨y, List.mem_append.2 (.inr hy), r⟩) h
    exact ⟨y, List.mem_append.2 (.inr hy), r⟩

/-- `b` has the same lines as `a` (as far as `φ` sees them) exactly if `P`, and never more. -/
def SameLines (φ : Line → β) (a b : List Line) (P : Prop) : Prop := b.length ≤ a.length ∧ (b.map φ = a.map φ ↔ P)

theorem SameLines.append {φ : Line → β} {a b a' b' : List Line} {P Q : Prop} (h : SameLines φ a b P) (h' : SameLines φ a' b' Q) : SameLines φ (a ++ a') (b ++ b') (P ∧ Q) := by
  refine ⟨by simp only [List.length_append]; have := h.1; have := h'.1; omega, ?_⟩
  rw [List.map_append, List.map_append, ← h.2, ← h'.2]
  constructor
  · intro e
    exact same_append e (by simpa using h.1) (by simpa using h'.1)
  · rintro ⟨e1, e2⟩
    rw [e1, e2]

theorem SameLines.congr {φ : Line → β} {a b : List Line} {P Q : Prop} (h : SameLines φ a b P) (e : P ↔ Q) : SameLines φ a b Q := ⟨h.1, h.2.trans e⟩

theorem SameLines.refl {φ : Line → β} (a : List Line) : SameLines φ a a True := ⟨Nat.le_refl _, by simp⟩

theorem fields_same {E : Env} {φ : Line → β} : ∀ (fs : List SField) (vs : List (List PropVal)),
    SameLines φ (fieldLines E fs vs) (fieldLines E fs ((fs.zip vs).map fun x => if x.1.key = c!"LAST-MOD" then [] else x.2.map (foundProp E x.1.spec)))
      (∀ x ∈ fs.zip vs, ∀ p ∈ x.2, x.1.key ≠ c!"LAST-MOD" ∧ φ (toLine E x.1.spec (foundProp E x.1.spec p)) = φ (toLine E x.1.spec p)) := by
  intro fs
  induction fs with
  | nil => intro vs; exact (SameLines.refl []).congr (by simp)
  | cons f fs ih =>
    intro vs
    cases vs with
    | nil => exact (SameLines.refl []).congr (by simp)
    | cons v vs =>
      simp only [List.zip_cons_cons, List.map_cons, fieldLines]
      refine (SameLines.append ?_ (ih vs)).congr List.forall_mem_cons.symm
      by_cases hk : f.key = c!"LAST-MOD"
      · rw [if_pos hk]
        refine ⟨by simp, ?_⟩
        cases v with
        | nil => simp
        | cons p v =>
          refine ⟨fun h => by simp at h, fun h => absurd hk (h p (by simp)).1⟩
      · rw [if_neg hk]
        refine ⟨by simp, ?_⟩
        simp only [List.map_map]
        rw [List.map_inj_left]
        simp [hk]

theorem subs_same {φ : Line → β} {inner : κ → σ → List Line} {g : κ → σ → σ} {P : κ → σ → Prop} (hg : ∀ k y, SameLines φ (inner k y) (inner k (g k y)) (P k y)) :
    ∀ (ks : List (Str × κ)) (vs : List (List σ)),
    SameLines φ (subsLines inner ks vs) (subsLines inner ks ((ks.zip vs).map fun x => x.2.map (g x.1.2))) (∀ x ∈ ks.zip vs, ∀ y ∈ x.2, P x.1.2 y) := by
  intro ks
  induction ks with
  | nil => intro vs; exact (SameLines.refl []).congr (by simp)
  | cons k ks ih =>
    obtain ⟨n, k⟩ := k
    intro vs
    cases vs with
    | nil => exact (SameLines.refl []).congr (by simp)
    | cons v vs =>
      simp only [List.zip_cons_cons, List.map_cons, subsLines]
      refine (SameLines.append ?_ (ih vs)).congr List.forall_mem_cons.symm
      simp only
      induction v with
      | nil => exact (SameLines.refl []).congr (by simp)
      | cons y v ihv =>
        simp only [List.map_cons, List.flatMap_cons]
        refine (SameLines.append (SameLines.append (SameLines.refl [plainLine kBEGIN n]) (hg k y)) ihv).congr ?_
        rw [true_and]
        exact List.forall_mem_cons.symm

theorem sect_same {E : Env} {φ : Line → β} {inner : κ → σ → List Line} {g : κ → σ → σ} {ps : κ → σ → List (SField × PropVal)} {P : SField × PropVal → Prop}
    (hP : ∀ x, P x ↔ x.1.key ≠ c!"LAST-MOD" ∧ φ (toLine E x.1.spec (foundProp E x.1.spec x.2)) = φ (toLine E x.1.spec x.2))
    (hg : ∀ k y, SameLines φ (inner k y) (inner k (g k y)) (∀ x ∈ ps k y, P x)) (T : Tab κ) (s : Sect σ) :
    SameLines φ (T.inner E inner s) (T.inner E inner (foundSect E g T s)) (∀ x ∈ sectProps T s ++ below ps T s, P x) := by
  refine (((fields_same T.fields s.fields).append (subs_same hg T.subs s.subs)).append (SameLines.refl [plainLine kEND T.name])).congr ?_
  rw [and_true, List.forall_mem_append]
  refine and_congr ?_ ?_
  · simp only [sectProps, List.mem_flatMap, List.mem_map]
    constructor
    · rintro h x ⟨z, hz, p, hp, rfl⟩
      exact (hP _).2 (h z hz p hp)
    · intro h z hz p hp
      exact (hP _).1 (h _ ⟨z, hz, p, hp, rfl⟩)
  · simp only [mem_below]
    constructor
    · rintro h x ⟨z, hz, y, hy, hx⟩
      exact h z hz y hy x hx
    · intro h z hz y hy x hx
      exact h x ⟨z, hz, y, hy, hx⟩

/-- The lines of what is found are the same (as far as `φ` sees) exactly if there is no LAST-MODIFIED, and each property is found with the same line. -/
theorem cal_same (E : Env) (φ : Line → β) (c : Cal) : (calLines E (foundCal E c)).map φ = (calLines E c).map φ ↔
    ∀ x ∈ calProps c, x.1.key ≠ c!"LAST-MOD" ∧ φ (toLine E x.1.spec (foundProp E x.1.spec x.2)) = φ (toLine E x.1.spec x.2) := by
  have leaf : ∀ (T : Tab Empty) (s : Leaf), SameLines φ (T.inner E noInner s) (T.inner E noInner (foundSect E (fun x => nomatch x) T s))
      (∀ x ∈ sectProps T s, x.1.key ≠ c!"LAST-MOD" ∧ φ (toLine E x.1.spec (foundProp E x.1.spec x.2)) = φ (toLine E x.1.spec x.2)) := by
    intro T s
    refine (sect_same (ps := fun x => nomatch x) (fun _ => Iff.rfl) (fun k => nomatch k) T s).congr ?_
    rw [List.forall_mem_append]
    refine ⟨fun h => h.1, fun h => ⟨h, fun x hx => ?_⟩⟩
    obtain ⟨z, _⟩ := mem_below.1 hx
    exact nomatch z.1.2
  refine ((SameLines.refl [plainLine kBEGIN tabCalendar.name]).append (sect_same (ps := compProps) (fun _ => Iff.rfl) (fun T s =>
    sect_same (ps := subProps) (fun _ => Iff.rfl) (fun k y => ?_) T s) tabCalendar c)).2.trans (by rw [true_and]; rfl)
  cases k with
  | leaf T =>
    cases y with
    | leaf s => exact leaf T s
    | alarm a => exact (SameLines.refl _).congr (by simp [subProps])
  | alarm =>
    cases y with
    | leaf s => exact (SameLines.refl _).congr (by simp [subProps])
    | alarm o =>
      cases o with
      | none => exact (SameLines.refl _).congr (by simp [subProps])
      | some o =>
        obtain ⟨a, s⟩ := o
        exact ((SameLines.refl [plainLine kACTION a.action]).append (leaf a.tab s)).congr (by rw [true_and]; rfl)

end Ics
