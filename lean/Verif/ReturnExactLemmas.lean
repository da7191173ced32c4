import Verif.WrittenDocLemmas
import Verif.AgainLemmas
import Verif.TruncLemmas
/-!
# Lemmas: what comes back through Encode and Decode is of the kinds for which this was proved

The other direction of the round trip: if the text of a value is read as the value it was written from, the value is one of those of `ValOk`.
-/

namespace Ics

open Spec Props

variable {κ σ : Type}

/-! ## Times -/

theorem fmtNat_long {n : Nat} (h : 10000 ≤ n) : 5 ≤ (fmtNat n).length := by
  have := Dec_below (Dec_fmtNat n)
  rcases Nat.lt_or_ge (fmtNat n).length 5 with hl | hl
  · have : 10 ^ (fmtNat n).length ≤ 10 ^ 4 := Nat.pow_le_pow_right (by decide) (by omega)
    omega
  · exact hl

theorem dd_digits {n : Nat} (h : n < 100) : ∀ c ∈ dd n, isDigit c = true := by
  obtain ⟨h1, _⟩ := Two_dd h
  exact List.all_eq_true.1 (Dec_facts h1).2.1

/-- A text that begins with a date and goes on with something other than a digit has a year of four digits. -/
theorem fmtDate8_year {n k : Int} {r r' : Str} (h : parseDate8 (fmtDate8 n ++ r) = some (k, r')) (hr : ∀ c ∈ r'.head?, isDigit c = false) :
    0 ≤ (civil n).1 ∧ (civil n).1 ≤ 9999 := by
  obtain ⟨a, y, m, d, e, ⟨a1, a2, a3, rfl, ⟨d1, l1⟩, ⟨d2, l2⟩, ⟨d3, l3⟩, _⟩, _⟩ := (parseDate8_iff _ _ _).1 h
  obtain ⟨hd, _⟩ := civil_real n
  have hm := hd.2.1
  have hdd : (civil n).2.2 < 100 := by
    have := hd.2.2.2
    rw [daysIn_eq] at this
    unfold monthLen at this
    repeat' split at this
    all_goals omega
  have hmm : (civil n).2.1 < 100 := by omega
  unfold fmtDate8 at e
  generalize civil n = cv at *
  obtain ⟨yy, mm, ddd⟩ := cv
  dsimp only at *
  unfold fmtYear at e
  by_cases hneg : yy < 0
  · rw [if_pos hneg] at e
    have h1 := List.all_eq_true.1 (Dec_facts d1).2.1
    cases a1 with
    | nil => simp at l1
    | cons x xs =>
      simp only [List.cons_append, List.cons.injEq, List.nil_append] at e
      have := h1 x (by simp)
      rw [← e.1] at this
      exact absurd this (by decide)
  · rw [if_neg hneg, List.nil_append] at e
    refine ⟨by omega, ?_⟩
    by_cases hbig : 9999 < yy
    · exfalso
      unfold pad4 at e
      rw [if_neg (by omega)] at e
      have hl := fmtNat_long (n := yy.natAbs) (by omega)
      have hdig : ∀ c ∈ fmtNat yy.natAbs ++ dd mm ++ dd ddd, isDigit c = true := by
        intro c hc
        rcases List.mem_append.1 hc with hc | hc
        · rcases List.mem_append.1 hc with hc | hc
          · exact fmtNat_mem hc
          · exact dd_digits hmm c hc
        · exact dd_digits hdd c hc
      have hlen : 9 ≤ (fmtNat yy.natAbs ++ dd mm ++ dd ddd).length := by simp [dd]; omega
      have hget : (fmtNat yy.natAbs ++ dd mm ++ dd ddd ++ r)[8]? = (a1 ++ a2 ++ a3 ++ r')[8]? := by rw [e]
      rw [List.getElem?_append_left hlen, List.getElem?_append_right (l₁ := a1 ++ a2 ++ a3) (by simp; omega)] at hget
      rw [List.getElem?_eq_getElem hlen] at hget
      have h0 : 8 - (a1 ++ a2 ++ a3).length = 0 := by simp; omega
      rw [h0, ← List.head?_eq_getElem?] at hget
      have := hr _ hget.symm
      rw [hdig _ (List.getElem_mem _)] at this
      cases this
    · omega

/-- The years are as required if the text can be read at all. -/
theorem dateTime_year {E : Env} {p : Nat} {tz : Option Str} {t t' : GoTime} (h : DateTime.decode E p tz (DateTime.encode E t) = .ok t') :
    0 ≤ yearOfWall (t.wall E) ∧ yearOfWall (t.wall E) ≤ 9999 := by
  have key : ∀ {z : Bool} {l : Loc} {t' : GoTime}, parseDateTime E z l (DateTime.encode E t) = some t' → 0 ≤ yearOfWall (t.wall E) ∧ yearOfWall (t.wall E) ≤ 9999 := by
    intro z l t' h
    unfold parseDateTime at h
    split at h
    · next n s hs =>
      unfold DateTime.encode at hs
      rw [List.append_assoc] at hs
      exact fmtDate8_year hs (by simp; decide)
    · cases h
  unfold DateTime.decode at h
  split at h
  · obtain ⟨l, _, h2⟩ := Res.bind_eq_ok.1 h
    exact key (Res.ofOption_eq_ok.1 h2)
  · split at h <;> exact key (Res.ofOption_eq_ok.1 h)

theorem anonLoc_utc {l : Loc} (h : anonLoc l = .utc) : l = .utc := by cases l <;> simp_all [anonLoc]

theorem anonLoc_local {l : Loc} (h : anonLoc l = .local) : l = .local := by cases l <;> simp_all [anonLoc]

theorem dateTime_returns {E : Env} {p : Nat} {t t' : GoTime} (h : DateTime.decode E p (tzidOf t.loc) (DateTime.encode E t) = .ok t')
    (hs : anonTime t' = anonTime t) : TimeOk E t := by
  obtain ⟨y1, y2⟩ := dateTime_year h
  obtain ⟨sec, nsec, loc⟩ := t
  have fin : ∀ {l : Loc}, t' = ⟨instant E l (GoTime.wall E ⟨sec, nsec, loc⟩), 0, l⟩ → LocOk E l → TimeOk E ⟨sec, nsec, loc⟩ := by
    rintro l rfl hl
    simp only [anonTime, GoTime.mk.injEq] at hs
    obtain ⟨h1, h2, h3⟩ := hs
    have hk : LocOk E loc := by
      cases l <;> cases loc <;> simp_all [anonLoc, LocOk]
    have hi : ∀ w, instant E loc w = instant E l w := by
      intro w
      cases l <;> cases loc <;> simp_all [anonLoc] <;> rfl
    exact ⟨h2.symm, y1, y2, hk, by rw [hi]; exact h1⟩
  unfold DateTime.encode at h
  cases loc with
  | utc =>
    have := parseDateTime_fmt E true .utc (GoTime.wall E ⟨sec, nsec, .utc⟩) y1 y2
    simp only [if_true] at this h
    simp only [tzidOf, DateTime.decode] at h
    rw [if_pos (List.getLast?_concat ..), this] at h
    cases h
    exact fin rfl trivial
  | «local» =>
    have := parseDateTime_fmt E false .local (GoTime.wall E ⟨sec, nsec, .local⟩) y1 y2
    simp only [Bool.false_eq_true, if_false, List.append_nil] at this
    rw [if_neg (by simp), List.append_nil] at h
    simp only [tzidOf, DateTime.decode] at h
    rw [if_neg (fmtClock_last _ _), this] at h
    cases h
    exact fin rfl trivial
  | zone name ptr r =>
    rw [if_neg (by simp), List.append_nil] at h
    simp only [tzidOf, DateTime.decode] at h
    obtain ⟨l, h1, h2⟩ := Res.bind_eq_ok.1 h
    have := parseDateTime_fmt E false l (GoTime.wall E ⟨sec, nsec, .zone name ptr r⟩) y1 y2
    simp only [Bool.false_eq_true, if_false, List.append_nil] at this
    rw [this] at h2
    have e : t' = ⟨instant E l (GoTime.wall E ⟨sec, nsec, .zone name ptr r⟩), 0, l⟩ := by cases h2; rfl
    refine fin e ?_
    have hz := Res.ofOption_eq_ok.1 h1
    unfold loadLocation at hz
    split at hz
    · cases hz; trivial
    · next n1 =>
      split at hz
      · cases hz; trivial
      · next n2 =>
        rw [Option.map_eq_some_iff] at hz
        obtain ⟨x, hx, rfl⟩ := hz
        exact ⟨fun h => n1 (.inl h), fun h => n1 (.inr h), n2, hx⟩

theorem anonTime_zero {t : GoTime} : (anonTime t).isZero = t.isZero := rfl

theorem anonTime_inj_zero {t : GoTime} (h : anonTime {} = anonTime t) : t = {} := by
  obtain ⟨sec, nsec, loc⟩ := t
  simp only [anonTime, GoTime.mk.injEq] at h
  obtain ⟨h1, h2, h3⟩ := h
  have := anonLoc_utc h3.symm
  subst h1 h2 this
  rfl

/-! ## Values -/

theorem period_returns {E : Env} {q : Nat} {p p' : Period} (h : Period.decode E q (tzidOf p.start.loc) (Period.encode E p) = .ok p')
    (hs : anonVal (.period p') = anonVal (.period p)) : PeriodOk E p := by
  simp only [anonVal, Val.period.injEq, Period.mk.injEq] at hs
  obtain ⟨s1, s2, s3⟩ := hs
  have hns : '/' ∉ DateTime.encode E p.start := by
    intro hm
    exact timeChar_ne (DateTime.encode_mem hm) (d := '/') (by decide) (by decide) (by decide) (by decide) rfl
  have h := (Period.decode_iff ..).1 h
  unfold Period.encode at h
  have split : ∀ {a b a' b' : Str}, '/' ∉ a → '/' ∉ a' → a ++ '/' :: b = a' ++ '/' :: b' → a = a' ∧ b = b' := by
    intro a b a' b' h1 h2 e
    have := split2_append '/' a b h1
    rw [e, split2_append '/' a' b' h2] at this
    simp only [Prod.mk.injEq, Option.some.injEq] at this
    exact ⟨this.1.symm, this.2.symm⟩
  generalize hx : DateTime.encode E p.start ++ '/' :: (if p.stop.isZero then Duration.encode p.dur else DateTime.encode E p.stop) = x at h
  cases h with
  | @«until» a b t u ha h1 h2 =>
    obtain ⟨e1, e2⟩ := split hns ha hx
    subst e1 e2
    have ht := dateTime_returns ((DateTime.decode_iff ..).2 h1) s1
    cases hz : p.stop.isZero with
    | true =>
      exfalso
      rw [if_pos hz] at h2
      obtain ⟨c, r, e, hc⟩ := dateTimeMeans_head h2
      have : Duration.encode p.dur = (if p.dur.neg then ['-'] else []) ++ 'P' :: p.dur.body := by simp [Duration.encode]
      rw [this] at e
      split at e <;> · simp at e; rw [← e.1] at hc; exact absurd hc (by decide)
    | false =>
      rw [hz] at h2
      simp only [Bool.false_eq_true, if_false] at h2
      have hloc : tzidOf p.stop.loc = tzidOf p.start.loc := by
        have hstop : anonLoc u.loc = anonLoc p.stop.loc := congrArg GoTime.loc s2
        have hstart : anonLoc t.loc = anonLoc p.start.loc := congrArg GoTime.loc s1
        have ha : ∀ {l m : Loc}, anonLoc l = anonLoc m → tzidOf l = tzidOf m := by
          intro l m h; cases l <;> cases m <;> simp_all [anonLoc, tzidOf]
        rw [← ha hstop, ← ha hstart]
        obtain ⟨_, _, _, _, _, _, _, _, _, _, _, l1, _, _, _, _, rfl, z1⟩ := h1
        obtain ⟨_, _, _, _, _, _, _, _, _, _, _, l2, _, _, _, _, rfl, z2⟩ := h2
        generalize tzidOf p.start.loc = tz at z1 z2
        cases tz with
        | some m => exact tzid_of_named z2.1 z1.1
        | none => rcases z1 with ⟨e, _⟩ | ⟨e, _⟩ <;> rcases z2 with ⟨e', _⟩ | ⟨e', _⟩ <;> dsimp only <;> rw [e, e'] <;> rfl
      refine ⟨ht, fun h => (by rw [hz] at h; cases h), fun _ => ⟨s3.symm, ?_, hloc⟩⟩
      rw [← hloc] at h2
      exact dateTime_returns ((DateTime.decode_iff ..).2 h2) s2
  | @lasting a b t d ha h1 h2 h3 =>
    obtain ⟨e1, e2⟩ := split hns ha hx
    subst e1 e2
    have ht := dateTime_returns ((DateTime.decode_iff ..).2 h1) s1
    have he := anonTime_inj_zero s2
    have hz : p.stop.isZero = true := by rw [he]; rfl
    obtain ⟨d1, d2⟩ := duration_again h2
    dsimp only at s3
    subst s3
    exact ⟨ht, fun _ => ⟨he, d1, d2, h3⟩, fun h => (by rw [hz] at h; cases h)⟩

theorem lastOf_nil {α : Type} {R : Str → α → Prop} {d : α} {x : α} (h : LastOf R d [] x) : x = d := by
  generalize hv : ([] : List Str) = vs at h
  cases h with
  | none => rfl
  | more _ _ => simp at hv

theorem lastOf_one {α : Type} {R : Str → α → Prop} {d : α} {v : Str} {x : α} (h : LastOf R d [v] x) : R v x := by
  generalize hv : [v] = vs at h
  cases h with
  | none => cases hv
  | @more ws w _ _ _ h =>
    have : ws = [] ∧ w = v := by
      cases ws with
      | nil => simp at hv; exact ⟨rfl, hv.symm⟩
      | cons => simp at hv
    exact this.2 ▸ h

theorem recur_returns {E : Env} {p : Nat} {r r' : Recur} (h : Recur.decode E p (tzidOf r.until_.loc) (Recur.encode E r) = .ok r')
    (hs : anonVal (.recur r') = anonVal (.recur r)) : RecurInRange r ∧ UntilOk E r := by
  have hr := Recur.decode_range h
  have hs' : ({ r' with until_ := anonTime r'.until_ } : Recur) = { r with until_ := anonTime r.until_ } := by simpa [anonVal] using hs
  have hu : anonTime r'.until_ = anonTime r.until_ := congrArg Recur.until_ hs'
  have hf : r'.untilTime = r.untilTime := (Recur.mk.inj hs').2.2.1
  have hrange : RecurInRange r := by
    have hz : r'.until_.isZero = r.until_.isZero := by rw [← anonTime_zero, hu, anonTime_zero]
    obtain ⟨h1, h2, h3, h4, h5, h6, h7, h8, h9, h10, h11, h12, h13, h14⟩ := hr
    rw [hz] at h3
    obtain ⟨a1, a2, a3, a4, a5, a6, a7, a8, a9, a10, a11, a12, a13, a14, a15⟩ := r
    obtain ⟨b1, b2, b3, b4, b5, b6, b7, b8, b9, b10, b11, b12, b13, b14, b15⟩ := r'
    simp only [Recur.mk.injEq] at hs'
    obtain ⟨rfl, rfl, _, _, rfl, rfl, rfl, rfl, rfl, rfl, rfl, rfl, rfl, rfl, rfl⟩ := hs'
    exact ⟨h1, h2, h3, h4, h5, h6, h7, h8, h9, h10, h11, h12, h13, h14⟩
  refine ⟨hrange, ?_⟩
  obtain ⟨ps, h1, _, h2⟩ := (Recur.decode_iff ..).1 h
  have e := RuleText.unique h1 (ruleText_ruleOf E r)
  subst e
  have h3 := h2.until_
  rw [partsNamed_until] at h3
  have gone : (r'.until_, r'.untilTime) = (({} : GoTime), false) → UntilOk E r := by
    intro e
    simp only [Prod.mk.injEq] at e
    rw [e.1] at hu
    have hz := anonTime_inj_zero hu
    have ht : r.untilTime = false := by rw [← hf]; exact e.2
    refine ⟨fun _ => ⟨hz, ht⟩, fun h => ?_, fun h => ?_⟩ <;> · rw [hz] at h; cases h
  by_cases hc : r.count ≠ 0
  · rw [if_pos hc] at h3
    exact gone (lastOf_nil h3)
  · rw [if_neg hc] at h3
    cases hz : r.until_.isZero with
    | true =>
      rw [hz] at h3
      exact gone (lastOf_nil h3)
    | false =>
      rw [hz] at h3
      simp only [Bool.not_false, if_true] at h3
      have h4 := lastOf_one h3
      cases ht : r.untilTime with
      | true =>
        rw [ht] at h4
        rcases h4 with ⟨h4, _⟩ | ⟨_, h5⟩
        · have := dateTime_returns ((DateTime.decode_iff ..).2 h4) hu
          refine ⟨fun h => (by rw [hz] at h; cases h), fun _ _ => ⟨this.nsec, this.lo, this.hi, this.loc, this.found⟩, fun _ h => (by rw [ht] at h; cases h)⟩
        · rw [hf, ht] at h5; cases h5
      | false =>
        rw [ht] at h4
        rcases h4 with ⟨_, h5⟩ | ⟨h4, _⟩
        · rw [hf, ht] at h5; cases h5
        · have d := date_again h4
          have e : r'.until_ = r.until_ := by
            have hl : anonLoc r.until_.loc = .utc := by
              rw [show anonLoc r.until_.loc = anonLoc r'.until_.loc from (congrArg GoTime.loc hu).symm, d.loc]; rfl
            have e1 : r'.until_.sec = r.until_.sec := (GoTime.mk.inj hu).1
            have e2 : r'.until_.nsec = r.until_.nsec := (GoTime.mk.inj hu).2.1
            have e3 := d.loc
            have e4 := anonLoc_utc hl
            generalize r'.until_ = x at *
            generalize r.until_ = y at *
            cases x; cases y
            dsimp only at *
            subst e1 e2 e3 e4
            rfl
          rw [e] at d
          exact ⟨fun h => (by rw [hz] at h; cases h), fun _ h => (by rw [ht] at h; cases h), fun _ _ => ⟨d.nsec, d.loc, d.midnight, d.lo, d.hi⟩⟩

/-- Floats are written without semicolons. -/
def PlainFloats (E : Env) (v : Val) : Prop := ∀ t, v = .tfloat t → ';' ∉ E.floatFormat t.1 ++ E.floatFormat t.2

/-- A value that comes back is one of those of `ValOk`. -/
theorem val_returns {E : Env} {op : Str → Option Str} {v v' : Val} (hc : v.LibOk E) (hf : PlainFloats E v) (ht : op c!"TZID" = v.tzid)
    (h : Val.decode E op v.kind (v.text_ E) = .ok v') (hs : anonVal v' = anonVal v) : ValOk E v := by
  have hm := (Val.decode_iff ..).1 h
  cases v with
  | binary => trivial
  | boolean => trivial
  | text => trivial
  | calAddress u =>
    obtain ⟨w, rfl, hp⟩ := hm
    simp only [anonVal, Val.calAddress.injEq] at hs
    subst hs
    exact ⟨hp, hc⟩
  | uri u =>
    obtain ⟨w, rfl, hp⟩ := hm
    simp only [anonVal, Val.uri.injEq] at hs
    subst hs
    exact ⟨hp, hc⟩
  | date t =>
    obtain ⟨w, rfl, hp⟩ := hm
    simp only [anonVal, Val.date.injEq] at hs
    subst hs
    exact date_again hp
  | dateTime t =>
    obtain ⟨w, rfl, hp⟩ := hm
    simp only [anonVal, Val.dateTime.injEq] at hs
    rw [ht] at hp
    exact dateTime_returns ((DateTime.decode_iff ..).2 hp) hs
  | duration d =>
    obtain ⟨w, rfl, hp⟩ := hm
    simp only [anonVal, Val.duration.injEq] at hs
    subst hs
    exact duration_again hp
  | integer i =>
    obtain ⟨w, rfl, _, hp⟩ := hm
    simp only [anonVal, Val.integer.injEq] at hs
    subst hs
    exact hp
  | mtext ts =>
    obtain ⟨w, rfl, hp⟩ := hm
    simp only [anonVal, Val.mtext.injEq] at hs
    subst hs
    exact list_again hp
  | period p =>
    obtain ⟨w, rfl, hp⟩ := hm
    rw [ht] at hp
    exact period_returns ((Period.decode_iff ..).2 hp) hs
  | recur r =>
    obtain ⟨w, rfl, hp⟩ := hm
    rw [ht] at hp
    exact recur_returns ((Recur.decode_iff ..).2 hp) hs
  | tfloat t =>
    obtain ⟨w, rfl, a, b, e, ha, h1, h2⟩ := hm
    simp only [anonVal, Val.tfloat.injEq] at hs
    subst hs
    have hn := hf w rfl
    have hc : ∀ c ∈ E.floatFormat w.1 ++ E.floatFormat w.2, NoCtl c := hc
    have e' : split2 ';' (E.floatFormat w.1 ++ ';' :: E.floatFormat w.2) = (a, some b) := by
      rw [show E.floatFormat w.1 ++ ';' :: E.floatFormat w.2 = a ++ ';' :: b from e]
      exact split2_append ';' a b ha
    rw [split2_append ';' _ _ (fun h => hn (List.mem_append_left _ h))] at e'
    simp only [Prod.mk.injEq, Option.some.injEq] at e'
    obtain ⟨rfl, rfl⟩ := e'
    exact ⟨⟨h1, fun c hm => ⟨hc c (List.mem_append_left _ hm), fun e => hn (List.mem_append_left _ (e ▸ hm))⟩⟩,
      ⟨h2, fun c hm => ⟨hc c (List.mem_append_right _ hm), fun e => hn (List.mem_append_right _ (e ▸ hm))⟩⟩⟩
  | utcOffset o =>
    obtain ⟨w, rfl, hp⟩ := hm
    simp only [anonVal, Val.utcOffset.injEq] at hs
    subst hs
    exact offset_again hp

/-! ## Parameters -/

theorem param_returns {E : Env} {k : PKind} {w : ParamVal} (ht : k.typed w = true) (hc : CleanParam E w) (hv : vanishes E k w = false)
    (h : ParamMeans E k (ptokens E k w) w) : GoodParam k w := by
  cases k <;> cases w <;> simp only [PKind.typed, Bool.false_eq_true] at ht
  · obtain ⟨s, u, e, _, _⟩ := h
    simp [ptokens] at e
  · next us =>
    obtain ⟨us', _, hp⟩ := h
    cases us with
    | nil => simp [vanishes] at hv
    | cons u us =>
      simp only [ptokens, List.map_cons] at hp
      cases hp with
      | cons h _ => exact absurd h.1 (by simp)
  · exact .str _ _ (by simpa [vanishes] using hv) hc
  · obtain ⟨v, e1, e2, hf⟩ := h
    simp only [ParamVal.str.injEq] at e2
    subst e2
    exact .fmt _ hc hf
  · obtain ⟨v, _, ⟨n, e, h, _⟩ | ⟨e, _⟩⟩ := h <;> cases e
    · exact .names _ _ (List.getElem?_eq_some_iff.1 h).1
    · exact .names _ _ (Nat.zero_le _)
  · exact .strs _ (by simpa [vanishes] using hv) hc
  · exact .range
  · next b =>
    cases b
    · simp [vanishes] at hv
    · exact .bool

theorem valuesOf_append (a b : List (Str × List PVal)) (n : Str) : valuesOf (a ++ b) n = valuesOf a n ++ valuesOf b n := by
  simp [valuesOf]

theorem valuesOf_none {ps : List (Str × List PVal)} {n : Str} (h : ∀ q ∈ ps, upper q.1 ≠ n) : valuesOf ps n = [] := by
  unfold valuesOf
  rw [List.filter_eq_nil_iff.2]
  · rfl
  · intro q hq
    simpa using h q hq

theorem pairwise2_zip {α β : Type} {R : α → β → Prop} {as : List α} {bs : List β} (h : Pairwise2 R as bs) : ∀ x ∈ as.zip bs, R x.1 x.2 := by
  induction h with
  | nil => simp
  | cons h _ ih =>
    intro x hx
    rw [List.zip_cons_cons] at hx
    rcases List.mem_cons.1 hx with rfl | hx
    · exact h
    · exact ih x hx

theorem paramToks_name {E : Env} {ds : List PDef} {ps : List (Option ParamVal)} {q : Str × List PVal} (h : q ∈ paramToks E ds ps) : ∃ d ∈ ds, q.1 = d.name := by
  obtain ⟨y, _, h2, _, rfl⟩ := mem_paramToks [] [] [] h
  exact ⟨_, h2, rfl⟩

theorem valuesOf_paramToks {E : Env} : ∀ {ds : List PDef} {ps : List (Option ParamVal)}, (∀ d ∈ ds, d.Wf) → (ds.map (·.name)).Nodup → ∀ {d : PDef} {w : ParamVal},
    (d, some w) ∈ ds.zip ps → valuesOf (paramToks E ds ps) d.name = if vanishes E d.kind w = true then [] else [ptokens E d.kind w] := by
  intro ds
  induction ds with
  | nil => intro ps _ _ d w h; simp at h
  | cons e ds ih =>
    intro ps hw hn d w h
    cases ps with
    | nil => simp at h
    | cons p ps =>
      have hn' := (List.nodup_cons.1 (by simpa using hn : (e.name :: ds.map (·.name)).Nodup))
      have hup : ∀ d ∈ e :: ds, upper d.name = d.name := fun d hd => nameOk_up (hw d hd).name
      simp only [paramToks]
      rw [valuesOf_append]
      rw [List.zip_cons_cons] at h
      replace h := List.mem_cons.1 h
      rcases h with h | h
      · simp only [Prod.mk.injEq] at h
        obtain ⟨rfl, rfl⟩ := h
        have hrest : valuesOf (paramToks E ds ps) d.name = [] := by
          apply valuesOf_none
          intro q hq he
          obtain ⟨d', hd', e'⟩ := paramToks_name hq
          rw [e', hup d' (List.mem_cons_of_mem _ hd')] at he
          exact hn'.1 (he ▸ List.mem_map.2 ⟨_, hd', rfl⟩)
        rw [hrest, List.append_nil]
        dsimp only
        split
        · rfl
        · rw [valuesOf_cons, if_pos (hup d List.mem_cons_self)]
          rfl
      · have hd : d ∈ ds := (List.of_mem_zip h).1
        rw [ih (fun d hd => hw d (List.mem_cons_of_mem _ hd)) hn'.2 h]
        rw [valuesOf_none, List.nil_append]
        intro q hq he
        have hq : q.1 = e.name := by
          cases p with
          | none => simp at hq
          | some v =>
            dsimp only at hq
            split at hq
            · simp at hq
            · simp at hq; rw [hq]
        rw [hq, hup e List.mem_cons_self] at he
        exact hn'.1 (he ▸ List.mem_map.2 ⟨_, hd, rfl⟩)

/-! ## A property -/

/-- The line that is written for the property is read as the property (with locations of its own). -/
def Back (E : Env) (f : SField) (p : PropVal) : Prop :=
  ∃ p', f.spec.decode E (toLine E f.spec p).params (toLine E f.spec p).value = .ok p' ∧ PropVal.mapVals anonVal p' = PropVal.mapVals anonVal p

theorem oneOf_map {n i : Nat} {v : Val} (g : Val → Val) : (oneOf n i v).map (·.map g) = oneOf n i (g v) := by
  simp [oneOf, List.map_set]

theorem oneOf_inj {n i j : Nat} {v w : Val} (hi : i < n) (h : oneOf n i v = oneOf n j w) : i = j ∧ v = w := by
  have h1 : (oneOf n i v)[i]? = some (some v) := by simp [oneOf, hi]
  rw [h] at h1
  unfold oneOf at h1
  rw [List.getElem?_set] at h1
  by_cases e : j = i
  · rw [if_pos e] at h1
    subst e
    simp [hi] at h1
    exact ⟨rfl, h1.symm⟩
  · rw [if_neg e] at h1
    simp [hi] at h1

/-- The parameters and the value of a property that comes back. -/
theorem prop_returns {E : Env} {f : SField} {p : PropVal} (hw : f.spec.wf = true) (ht : f.spec.typed p = true) (hv : f.spec.valid p = .ok ())
    (hp : ∀ y ∈ propParams f.spec p, CleanParam E y.2) (hl : ∀ v ∈ propVals p, CleanVal E v ∧ PlainFloats E v) (h : Back E f p) :
    (∀ y ∈ propParams f.spec p, GoodParam y.1.kind y.2) ∧ ∀ v ∈ propVals p, GoodVal E v := by
  have htp := PSpec.typed_params ht
  obtain ⟨p', h, hs⟩ := h
  have h := (PSpec.decode_iff hw _ _ _).1 h
  obtain ⟨key, ⟨n, sh⟩, mult⟩ := f
  cases sh with
  | «enum» names =>
    cases p with
    | «enum» m => simp [propParams, propVals]
    | fields => simp [PSpec.typed] at ht
  | fields ds vals =>
    cases p with
    | «enum» m => simp [PSpec.typed] at ht
    | fields ps vs =>
      have hwf := PSpec.wf_fields hw
      obtain ⟨_, _, i, v, hi, rfl, hk, hvv⟩ := PSpec.typed_valid ht hv
      have hm : ∀ w, w ∈ propVals (.fields ps (oneOf vals.length i v)) → w = v := by
        intro w hw
        simp only [propVals, List.mem_filterMap, id] at hw
        obtain ⟨o, ho, rfl⟩ := hw
        rcases List.mem_or_eq_of_mem_set ho with ho | ho
        · rw [List.mem_replicate] at ho; cases ho.2
        · cases ho; rfl
      have hmv : v ∈ propVals (.fields ps (oneOf vals.length i v)) := by
        simp only [propVals, List.mem_filterMap, id]
        exact ⟨some v, List.mem_of_getElem? (i := i) (by simp [oneOf, hi]), rfl⟩
      have hl' : toLine E ⟨n, .fields ds vals⟩ (.fields ps (oneOf vals.length i v)) = ⟨n, paramToks E ds ps ++ valueToks vals i ++ headToks v, v.text_ E⟩ := by
        simp only [toLine, oneOf_findIdx _ i v hi, oneOf_get _ i v hi]
      dsimp only at h hp ht
      rw [hl'] at h
      dsimp only [PropReads] at h
      obtain ⟨qs, j, m, k, w, rfl, h1, h2, h3, h4⟩ := h
      simp only [PropVal.mapVals, PropVal.fields.injEq] at hs
      obtain ⟨rfl, hs⟩ := hs
      have hs : oneOf vals.length j (anonVal w) = oneOf vals.length i (anonVal v) := by rw [← oneOf_map, ← oneOf_map]; exact hs
      obtain ⟨e1, e2⟩ := oneOf_inj hi hs.symm
      subst e1
      have hother : ∀ x ∈ valueToks vals i ++ headToks v, upper x.1 ∈ [c!"VALUE", c!"ENCODING", c!"TZID"] := by
        intro x hx
        rw [headToks_eq] at hx
        unfold valueToks at hx
        rcases List.mem_append.1 hx with hx | hx
        · split at hx
          · cases hx
          · rw [List.mem_singleton] at hx; subst hx; simp only; decide
        · rcases List.mem_append.1 hx with hx | hx
          · split at hx
            · rw [List.mem_singleton] at hx; subst hx; simp only; decide
            · cases hx
          · split at hx
            · rw [List.mem_singleton] at hx; subst hx; simp only; decide
            · cases hx
      constructor
      · intro y hy
        have hyt := htp y hy
        have hyc := hp y hy
        simp only [propParams, List.mem_filterMap] at hy
        obtain ⟨⟨d, o⟩, hz, e⟩ := hy
        rw [Option.map_eq_some_iff] at e
        obtain ⟨z, e, rfl⟩ := e
        dsimp only at e hyt hyc
        subst e
        have hr := pairwise2_zip h1 _ hz
        have hd := (List.of_mem_zip hz).1
        have hdw := hwf.known _ hd
        dsimp only at hr
        unfold ParamReads at hr
        rw [List.append_assoc, valuesOf_append, valuesOf_paramToks hwf.known hwf.nodup hz, valuesOf_none (ps := valueToks vals i ++ headToks v), List.append_nil] at hr
        · cases hvan : vanishes E d.kind z with
          | true =>
            rw [hvan] at hr
            simp at hr
          | false =>
            rw [hvan] at hr
            simp only [Bool.false_eq_true, if_false] at hr
            obtain ⟨u, hu, e⟩ := hr
            cases e
            exact param_returns hyt hyc hvan hu
        · intro q hq e
          have := hother q hq
          rw [e] at this
          simp only [List.mem_cons, List.not_mem_nil, or_false] at this
          rcases this with h | h | h
          · exact hdw.nv h
          · exact hdw.ne h
          · exact hdw.nt h
      · intro u hu
        cases hm u hu
        obtain ⟨hc, hf⟩ := hl v hmv
        obtain ⟨c1, c2⟩ := cleanVal_safe hc
        refine ⟨?_, c2⟩
        have hkk : k = v.kind := by
          rw [hk, List.getD_eq_getElem?_getD, h3]
          rfl
        rw [hkk] at h4
        refine val_returns c1 hf ?_ ((Val.decode_iff ..).2 h4) e2.symm
        unfold otherParam
        have hnp : valuesOf (paramToks E ds qs) c!"TZID" = [] := by
          apply valuesOf_none
          intro q hq e
          obtain ⟨d, hd, e'⟩ := paramToks_name hq
          have := hwf.known d hd
          rw [e', nameOk_up this.name] at e
          exact this.nt e
        have hnv : valuesOf (valueToks vals i) c!"TZID" = [] := by
          apply valuesOf_none
          intro q hq
          unfold valueToks at hq
          split at hq
          · cases hq
          · rw [List.mem_singleton] at hq; subst hq; simp only; decide
        rw [valuesOf_append, valuesOf_append, hnp, hnv, headToks_eq, valuesOf_append, tzid_valZone]
        have hnb : valuesOf (if v.kind = .binary then [(c!"ENCODING", [(⟨false, c!"BASE64"⟩ : PVal)])] else []) c!"TZID" = [] := by
          apply valuesOf_none
          intro q hq
          split at hq
          · rw [List.mem_singleton] at hq; subst hq; simp only; decide
          · cases hq
        rw [hnb]
        cases valZone v with
        | none => rfl
        | some z =>
          simp only [List.nil_append]
          rw [valuesOf_cons, if_pos (show upper c!"TZID" = c!"TZID" by decide)]
          simp [valuesOf, join]

/-! ## Rules and values -/

theorem sectProps_mapVals (f : Val → Val) {τ : Type} (g : σ → τ) (T : Tab κ) (s : Sect σ) :
    sectProps T (⟨s.fields.map (·.map (PropVal.mapVals f)), s.subs.map (·.map g)⟩ : Sect τ) = (sectProps T s).map fun x => (x.1, PropVal.mapVals f x.2) := by
  unfold sectProps
  dsimp only
  generalize T.fields = fs
  generalize s.fields = vs
  induction fs generalizing vs with
  | nil => simp
  | cons f' fs ih =>
    cases vs with
    | nil => simp
    | cons v vs => simp [ih]

theorem has_mapVals {f : Val → Val} {g : σ → σ} {T : Tab κ} {s : Sect σ} {n : Str} : Has T (Sect.mapVals f g s) n ↔ Has T s n := by
  unfold Has Sect.mapVals
  rw [sectProps_mapVals]
  constructor
  · rintro ⟨p, hp, h⟩
    obtain ⟨x, hx, rfl⟩ := List.mem_map.1 hp
    exact ⟨x, hx, h⟩
  · rintro ⟨x, hx, h⟩
    exact ⟨_, List.mem_map.2 ⟨x, hx, rfl⟩, h⟩

theorem rules_mapVals {f : Val → Val} {g : σ → σ} {T : Tab κ} {s : Sect σ} : SectRules T (Sect.mapVals f g s) ↔ SectRules T s := by
  unfold SectRules
  refine forall_congr' fun r => forall_congr' fun _ => ?_
  cases r with
  | anySub =>
    unfold Holds
    simp only [Sect.mapVals, List.mem_map]
    constructor
    · rintro ⟨xs, ⟨ys, hy, rfl⟩, hne⟩
      exact ⟨ys, hy, by simpa using hne⟩
    · rintro ⟨ys, hy, hne⟩
      exact ⟨_, ⟨ys, hy, rfl⟩, by simpa using hne⟩
  | _ => simp only [Holds, has_mapVals]

/-! ## The lines of a field -/

theorem filter_fieldLines {E : Env} : ∀ {fs : List SField} {vs : List (List PropVal)}, (fs.map (·.key)).Nodup → (∀ f ∈ fs, FieldWf f) →
    (∀ f ∈ fs, f.key ≠ f.spec.name → f.spec.name ∉ fs.map (·.key)) →
    ∀ {i : Nat} {f : SField}, fs[i]? = some f → (fieldLines E fs vs).filter (fun l => upper l.name = f.key) =
      if f.key = f.spec.name then (vs.getD i []).map (toLine E f.spec) else [] := by
  intro fs
  induction fs with
  | nil => intro vs _ _ _ i f h; simp at h
  | cons g fs ih =>
    intro vs hn hw hd i f hf
    cases vs with
    | nil => simp [fieldLines]
    | cons v vs =>
      have hn' : g.key ∉ fs.map (·.key) ∧ (fs.map (·.key)).Nodup := List.nodup_cons.1 (by simpa using hn)
      have hup : ∀ f ∈ g :: fs, upper f.spec.name = f.spec.name := by
        intro f hf
        have := (hw f hf).spec
        unfold PSpec.wf at this
        simp only [Bool.and_eq_true] at this
        exact nameOk_up this.1
      have hname : ∀ l ∈ v.map (toLine E g.spec), l.name = g.spec.name := by
        intro l hl
        obtain ⟨p, _, rfl⟩ := List.mem_map.1 hl
        unfold toLine
        repeat' split
        all_goals rfl
      have hd' : ∀ f ∈ fs, f.key ≠ f.spec.name → f.spec.name ∉ fs.map (·.key) :=
        fun f hf hk hm => hd f (List.mem_cons_of_mem _ hf) hk (List.mem_cons_of_mem _ hm)
      simp only [fieldLines, List.filter_append]
      cases i with
      | zero =>
        simp only [List.getElem?_cons_zero, Option.some.injEq] at hf
        subst hf
        have hrest : (fieldLines E fs vs).filter (fun l => upper l.name = g.key) = [] := by
          rw [List.filter_eq_nil_iff]
          intro l hl
          obtain ⟨f, hf, e⟩ := fieldLines_names E fs vs l hl
          rw [e, hup f (List.mem_cons_of_mem _ hf)]
          simp only [decide_eq_true_eq]
          intro e'
          by_cases hk : f.key = f.spec.name
          · exact hn'.1 (List.mem_map.2 ⟨f, hf, by rw [hk, e']⟩)
          · exact hd f (List.mem_cons_of_mem _ hf) hk (by rw [e']; simp)
        rw [hrest, List.append_nil]
        by_cases hk : g.key = g.spec.name
        · rw [if_pos hk, List.filter_eq_self.2]
          · rfl
          · intro l hl
            rw [hname l hl, hup g List.mem_cons_self]
            simpa using hk.symm
        · rw [if_neg hk, List.filter_eq_nil_iff]
          intro l hl
          rw [hname l hl, hup g List.mem_cons_self]
          simpa using fun e => hk e.symm
      | succ i =>
        simp only [List.getElem?_cons_succ] at hf
        rw [ih hn'.2 (fun f hf => hw f (List.mem_cons_of_mem _ hf)) hd' hf]
        have : (v.map (toLine E g.spec)).filter (fun l => upper l.name = f.key) = [] := by
          rw [List.filter_eq_nil_iff]
          intro l hl
          rw [hname l hl, hup g List.mem_cons_self]
          simp only [decide_eq_true_eq]
          intro e
          have hm : f.key ∈ fs.map (·.key) := List.mem_map.2 ⟨f, List.mem_of_getElem? hf, rfl⟩
          by_cases hk : g.key = g.spec.name
          · exact hn'.1 (by rw [hk, e]; exact hm)
          · exact hd g List.mem_cons_self hk (by rw [e]; exact List.mem_cons_of_mem _ hm)
        rw [this]
        rfl

theorem blocksNamed_subItems {body : κ → σ → List Line} : ∀ {ks : List (Str × κ)} {vs : List (List σ)}, (ks.map (·.1)).Nodup → ∀ {i : Nat} {x : Str × κ},
    ks[i]? = some x → blocksNamed (subItems body ks vs) x.1 = (vs.getD i []).map (body x.2) := by
  have one : ∀ (n m : Str) (k : κ) (v : List σ), blocksNamed (v.map fun y => Item.block m (body k y)) n = if m = n then v.map (body k) else [] := by
    intro n m k v
    unfold blocksNamed
    rw [List.filterMap_map]
    by_cases h : m = n
    · simp only [Function.comp_def, h, if_true]
      exact congrFun List.filterMap_eq_map v
    · simp [Function.comp_def, h]
  intro ks
  induction ks with
  | nil => intro vs _ i x h; simp at h
  | cons k ks ih =>
    intro vs hn i x hx
    cases vs with
    | nil => simp [subItems, blocksNamed]
    | cons v vs =>
      have hn' : k.1 ∉ ks.map (·.1) ∧ (ks.map (·.1)).Nodup := List.nodup_cons.1 (by simpa using hn)
      have hrest : subItems body (k :: ks) (v :: vs) = (v.map fun y => Item.block k.1 (body k.2 y)) ++ subItems body ks vs := by
        simp [subItems]
      rw [hrest, blocksNamed_append, one]
      cases i with
      | zero =>
        simp only [List.getElem?_cons_zero, Option.some.injEq] at hx
        subst hx
        have : blocksNamed (subItems body ks vs) k.1 = [] := by
          rw [List.eq_nil_iff_forall_not_mem]
          intro b hb
          obtain ⟨y, hy, z, hz, e⟩ := mem_subItems (mem_blocksNamed.1 hb)
          exact hn'.1 (List.mem_map.2 ⟨_, (List.of_mem_zip hy).1, (Item.block.inj e).1.symm⟩)
        rw [this]
        simp
      | succ i =>
        simp only [List.getElem?_cons_succ] at hx
        rw [ih hn'.2 hx, if_neg]
        · rfl
        · intro e
          exact hn'.1 (List.mem_map.2 ⟨x, List.mem_of_getElem? hx, e.symm⟩)

/-! ## A section -/

theorem pairwise2_map {α β γ : Type} {R : β → γ → Prop} {m : α → β} : ∀ {as : List α} {cs : List γ}, Pairwise2 R (as.map m) cs → Pairwise2 (fun a c => R (m a) c) as cs := by
  intro as
  induction as with
  | nil => intro cs h; cases h; exact .nil
  | cons a as ih => intro cs h; cases h with | cons h1 h2 => exact .cons h1 (ih h2)

theorem pairwise2_length {α β : Type} {R : α → β → Prop} {as : List α} {bs : List β} (h : Pairwise2 R as bs) : as.length = bs.length := by
  induction h with
  | nil => rfl
  | cons _ _ ih => simp [ih]

/-- Of two lists that are equal but for `g`, what corresponds to an element of the second is equal to it but for `g`. -/
theorem pairwise2_same {α β : Type} {R : α → α → Prop} {g : α → β} {as bs : List α} (h : Pairwise2 R as bs) (he : bs.map g = as.map g) : ∀ a ∈ as, ∃ b, R a b ∧ g b = g a := by
  induction h with
  | nil => simp
  | cons h _ ih =>
    simp only [List.map_cons, List.cons.injEq] at he
    intro x hx
    rcases List.mem_cons.1 hx with rfl | hx
    · exact ⟨_, h, he.1⟩
    · exact ih he.2 x hx

theorem mem_zip_getD {α β : Type} {as : List α} {bs : List (List β)} {x : α × List β} (h : x ∈ as.zip bs) : ∃ i, as[i]? = some x.1 ∧ bs.getD i [] = x.2 := by
  obtain ⟨i, hi⟩ := List.getElem?_of_mem h
  rw [List.getElem?_zip_eq_some] at hi
  exact ⟨i, hi.1, by rw [List.getD_eq_getElem?_getD, hi.2]; rfl⟩

theorem getD_map_map {α β : Type} {g : α → β} {a b : List (List α)} (h : a.map (·.map g) = b.map (·.map g)) (i : Nat) : (a.getD i []).map g = (b.getD i []).map g := by
  have := congrArg (fun l => l.getD i []) h
  simp only [List.getD_eq_getElem?_getD, List.getElem?_map] at this ⊢
  cases h1 : a[i]? <;> cases h2 : b[i]? <;> simp_all

/-- If the body of a section is read as a section that is the same but for locations, each of its lines is read so. -/
theorem sect_back {E : Env} {T : Tab κ} (hw : T.Wf) {R : κ → List Line → σ → Prop} {body : κ → σ → List Line} {g : σ → σ} {s s' : Sect σ} {pre k : List Line}
    (hpre : ∀ l ∈ pre, l.name = c!"ACTION") (hitems : Items k ((pre ++ fieldLines E T.fields s.fields).map Item.line ++ subItems body T.subs s.subs))
    (h : SectReads E T R k s') (hs : Sect.mapVals anonVal g s' = Sect.mapVals anonVal g s) :
    SectRules T s ∧ (∀ x ∈ sectProps T s, x.1.key = x.1.spec.name ∧ Back E x.1 x.2) ∧
      ∀ x ∈ T.subs.zip s.subs, ∀ y ∈ x.2, ∃ y', R x.1.2 (body x.1.2 y) y' ∧ g y' = g y := by
  obtain ⟨is, hi, _, _, hf, hb, hr⟩ := h
  have e := Items.unique hi hitems
  subst e
  have hs1 : s'.fields.map (·.map (PropVal.mapVals anonVal)) = s.fields.map (·.map (PropVal.mapVals anonVal)) := congrArg Sect.fields hs
  have hs2 : s'.subs.map (·.map g) = s.subs.map (·.map g) := congrArg Sect.subs hs
  refine ⟨rules_mapVals.1 (hs ▸ rules_mapVals.2 hr), ?_, ?_⟩
  · intro x hx
    obtain ⟨z, hz, hx⟩ := List.mem_flatMap.1 hx
    obtain ⟨p, hp, rfl⟩ := List.mem_map.1 hx
    obtain ⟨i, e1, e2⟩ := mem_zip_getD hz
    dsimp only
    have h1 := (hf i z.1 e1).1
    have hfw := hw.field z.1 (List.mem_of_getElem? e1)
    rw [linesNamed_append, linesNamed_subItems, List.append_nil, linesNamed_lines, List.filter_append, List.filter_eq_nil_iff.2, List.nil_append,
      filter_fieldLines hw.keys hw.field (fun f hf hk => (hw.names f hf hk).1) e1] at h1
    · have hsame := getD_map_map hs1 i
      by_cases hk : z.1.key = z.1.spec.name
      · refine ⟨hk, ?_⟩
        rw [if_pos hk] at h1
        obtain ⟨b, h2, h3⟩ := pairwise2_same (pairwise2_map h1) hsame p (by rw [e2]; exact hp)
        exact ⟨b, h2, h3⟩
      · rw [if_neg hk] at h1
        have hl := pairwise2_length h1
        have := congrArg List.length hsame
        simp only [List.length_map, List.length_nil] at hl this
        rw [← hl, e2] at this
        exact absurd (List.length_eq_zero_iff.1 this.symm) (List.ne_nil_of_mem hp)
    · intro l hl
      rw [hpre l hl]
      have ha : upper c!"ACTION" = c!"ACTION" := by decide
      simpa [ha] using fun e => hfw.notCtl.2.2 e.symm
  · intro x hx y hy
    obtain ⟨i, e1, e2⟩ := mem_zip_getD hx
    have h1 := hb i x.1 e1
    rw [blocksNamed_append, blocksNamed_lines, List.nil_append, blocksNamed_subItems hw.subs e1] at h1
    exact pairwise2_same (pairwise2_map h1) (getD_map_map hs2 i) y (by rw [e2]; exact hy)

/-! ## Subsections, components, calendars -/

theorem fieldLines_lines {E : Env} {T : Tab κ} (hw : T.Wf) {vs : List (List PropVal)} :
    ∀ l ∈ fieldLines E T.fields vs, ¬ Begins l ∧ ¬ Ends l ∧ upper l.name ≠ c!"ACTION" ∧ upper l.name = l.name := by
  intro l hl
  obtain ⟨f, hm, e⟩ := fieldLines_names E T.fields vs l hl
  have h1 := (hw.field f hm).notCtl2
  have h2 := (hw.field f hm).spec
  unfold PSpec.wf at h2
  simp only [Bool.and_eq_true] at h2
  unfold Begins Ends
  rw [e, nameOk_up h2.1]
  exact ⟨h1.1, h1.2.1, h1.2.2, rfl⟩

theorem leaf_body {E : Env} {T : Tab Empty} (hs : T.subs = []) (s : Leaf) : T.bodyLines E noInner s = fieldLines E T.fields s.fields := by
  unfold Tab.bodyLines
  rw [hs]
  simp [subsLines]

theorem sub_shape {E : Env} {P : SField → PropVal → Prop} {x : Str × SubKind} (hg : SubKind.Good x) {s : Sub} (h : GoodSub P x.2 s) :
    subInner E x.2 s = subBody E x.2 s ++ [plainLine kEND x.1] ∧ ∀ l ∈ subBody E x.2 s, ¬ Begins l ∧ ¬ Ends l ∧ upper l.name = l.name := by
  obtain ⟨n, k⟩ := x
  cases k with
  | leaf T =>
    cases s with
    | alarm a => exact absurd h id
    | leaf s =>
      obtain ⟨hw, hn, hs⟩ := hg
      refine ⟨?_, ?_⟩
      · simp only [subInner, subBody, Tab.inner, Tab.bodyLines]
        rw [show T.name = n from hn]
      · simp only [subBody]
        rw [leaf_body hs]
        intro l hl
        obtain ⟨a, b, _, c⟩ := fieldLines_lines hw l hl
        exact ⟨a, b, c⟩
  | alarm =>
    cases s with
    | leaf s => exact absurd h id
    | alarm a =>
      cases a with
      | none => exact absurd h id
      | some a =>
        obtain ⟨a, s⟩ := a
        have hn : n = kVALARM := hg
        refine ⟨?_, ?_⟩
        · simp only [subInner, subBody, alarmInner, Tab.inner, Tab.bodyLines, (aTab_name a).1, hn]
          simp
        · simp only [subBody]
          rw [leaf_body (aTab_name a).2]
          intro l hl
          rcases List.mem_cons.1 hl with rfl | hl
          · show ¬ upper kACTION = _ ∧ ¬ upper kACTION = _ ∧ upper kACTION = kACTION
            decide
          · obtain ⟨a, b, _, c⟩ := fieldLines_lines (aTab_wf a) l hl
            exact ⟨a, b, c⟩

theorem sub_back {E : Env} {P : SField → PropVal → Prop} {x : Str × SubKind} (hg : SubKind.Good x) {s s' : Sub} (h : GoodSub P x.2 s)
    (hr : SubReads E x.2 (subBody E x.2 s) s') (hs : Sub.mapVals anonVal s' = Sub.mapVals anonVal s) :
    SubRules x.2 s ∧ ∀ y ∈ subProps x.2 s, y.1.key = y.1.spec.name ∧ Back E y.1 y.2 := by
  obtain ⟨n, k⟩ := x
  cases k with
  | leaf T =>
    cases s with
    | alarm a => exact absurd h id
    | leaf s =>
      cases s' with
      | alarm a => exact absurd hr id
      | leaf s' =>
        obtain ⟨hw, hn, hsub⟩ := hg
        have hs : Leaf.mapVals anonVal s' = Leaf.mapVals anonVal s := by simpa [Sub.mapVals] using hs
        have hi : Items (subBody E (.leaf T) (.leaf s)) (([] ++ fieldLines E T.fields s.fields).map Item.line ++ subItems noInner T.subs s.subs) := by
          simp only [subBody]
          rw [leaf_body hsub, hsub]
          simp only [subItems, List.zip_nil_left, List.flatMap_nil, List.append_nil, List.nil_append]
          exact items_lines fun l hl => ⟨(fieldLines_lines hw l hl).1, (fieldLines_lines hw l hl).2.1⟩
        obtain ⟨a, b, _⟩ := sect_back hw (pre := []) (by simp) hi hr hs
        exact ⟨a, b⟩
  | alarm =>
    cases s with
    | leaf s => exact absurd h id
    | alarm o =>
      cases o with
      | none => exact absurd h id
      | some o =>
        obtain ⟨a, s⟩ := o
        cases s' with
        | leaf s' => exact absurd hr id
        | alarm o =>
          cases o with
          | none => exact absurd hr id
          | some o =>
            obtain ⟨b, s'⟩ := o
            have hs : b = a ∧ Leaf.mapVals anonVal s' = Leaf.mapVals anonVal s := by simpa [Sub.mapVals] using hs
            obtain ⟨rfl, hs2⟩ := hs
            obtain ⟨_, _, hr⟩ := hr
            have hi : Items (subBody E .alarm (.alarm (some (b, s))))
                (([plainLine kACTION b.action] ++ fieldLines E b.tab.fields s.fields).map Item.line ++ subItems noInner b.tab.subs s.subs) := by
              have := items_lines (ls := subBody E .alarm (.alarm (some (b, s)))) fun l hl => by
                obtain ⟨a, b, _⟩ := (sub_shape (E := E) hg h).2 l hl
                exact ⟨a, b⟩
              simp only [subBody] at this ⊢
              rw [leaf_body (aTab_name b).2] at this ⊢
              rw [(aTab_name b).2]
              simpa [subItems] using this
            obtain ⟨a, c, _⟩ := sect_back (aTab_wf b) (pre := [plainLine kACTION b.action])
              (by intro l hl; rw [List.mem_singleton] at hl; subst hl; rfl) hi hr hs2
            exact ⟨a, c⟩

theorem comp_shape {E : Env} {P : SField → PropVal → Prop} {x : Str × Tab SubKind} (hx : x ∈ tabCalendar.subs) {s : Comp} (h : GoodSect P (GoodSub P) x.2 s) :
    compInner E x.2 s = compBody E x.2 s ++ [plainLine kEND x.1] ∧
    Items (compBody E x.2 s) (([] ++ fieldLines E x.2.fields s.fields).map Item.line ++ subItems (subBody E) x.2.subs s.subs) := by
  obtain ⟨hw, hn, hg⟩ := compTab_good x hx
  obtain ⟨_, _, h3, _⟩ := h
  refine ⟨?_, Spec.Items.append (items_lines fun l hl => ?_) (items_subs hw.subNames fun y hy z hz => ?_)⟩
  · simp only [compInner, compBody, Tab.inner, Tab.bodyLines]
    rw [show x.2.name = x.1 from hn]
  · exact ⟨(fieldLines_lines hw l hl).1, (fieldLines_lines hw l hl).2.1⟩
  · obtain ⟨a, b⟩ := sub_shape (E := E) (hg _ (List.of_mem_zip hy).1) (h3.of_zip y hy z hz)
    exact ⟨a, closed_of_flat fun l hl => ⟨(b l hl).1, (b l hl).2.1⟩⟩

theorem comp_back {E : Env} {P : SField → PropVal → Prop} {x : Str × Tab SubKind} (hx : x ∈ tabCalendar.subs) {s s' : Comp} (h : GoodSect P (GoodSub P) x.2 s)
    (hr : CompReads E x.2 (compBody E x.2 s) s') (hs : Comp.mapVals anonVal s' = Comp.mapVals anonVal s) :
    (SectRules x.2 s ∧ Below SubRules x.2 s) ∧ ∀ y ∈ compProps x.2 s, y.1.key = y.1.spec.name ∧ Back E y.1 y.2 := by
  obtain ⟨hw, hn, hg⟩ := compTab_good x hx
  obtain ⟨a, b, c⟩ := sect_back hw (pre := []) (by simp) (comp_shape (E := E) hx h).2 hr hs
  have hsub : ∀ y ∈ x.2.subs.zip s.subs, ∀ z ∈ y.2, SubRules y.1.2 z ∧ ∀ w ∈ subProps y.1.2 z, w.1.key = w.1.spec.name ∧ Back E w.1 w.2 := by
    intro y hy z hz
    obtain ⟨z', h1, h2⟩ := c y hy z hz
    exact sub_back (hg _ (List.of_mem_zip hy).1) (h.2.2.1.of_zip y hy z hz) h1 h2
  refine ⟨⟨a, fun y hy z hz => (hsub y hy z hz).1⟩, fun y hy => ?_⟩
  rcases List.mem_append.1 hy with hy | hy
  · exact b y hy
  · obtain ⟨w, hw, z, hz, hy⟩ := mem_below.1 hy
    exact (hsub w hw z hz).2 y hy

/-- Up to the END line a block is closed, and there is only one such line. -/
theorem closed_split {k : List Line} (h : Closed k) : ∀ {k' : List Line}, Closed k' → ∀ {e e' : Line} {r r' : List Line}, Ends e → Ends e' →
    k ++ e :: r = k' ++ e' :: r' → k = k' ∧ e = e' ∧ r = r' := by
  have be : ∀ {l : Line}, Begins l → Ends l → False := by
    intro l h1 h2
    unfold Begins at h1
    unfold Ends at h2
    rw [h1] at h2
    exact absurd h2 (by decide)
  induction h with
  | nil =>
    intro k' h' e e' r r' h1 h2 he
    cases h' with
    | nil => simp at he; exact ⟨rfl, he.1, he.2⟩
    | line a b _ => simp at he; exact absurd h1 (he.1 ▸ b)
    | block a _ _ _ _ => simp at he; exact (be (he.1 ▸ a) h1).elim
  | line a b _ ih =>
    intro k' h' e e' r r' h1 h2 he
    cases h' with
    | nil => simp at he; exact absurd h2 (he.1 ▸ b)
    | line _ _ h' =>
      simp only [List.cons_append, List.cons.injEq] at he
      obtain ⟨rfl, he⟩ := he
      obtain ⟨rfl, rfl, rfl⟩ := ih h' h1 h2 he
      exact ⟨rfl, rfl, rfl⟩
    | block a' _ _ _ _ => simp at he; exact absurd (he.1 ▸ a') a
  | @block b0 e0 k0 r0 a b c _ _ ih1 ih2 =>
    intro k' h' e e' r r' h1 h2 he
    cases h' with
    | nil => simp at he; exact (be a (he.1 ▸ h2)).elim
    | line a' _ _ => simp at he; exact absurd (he.1 ▸ a) a'
    | @block b1 e1 k1 r1 a' b' c' d' f' =>
      simp only [List.cons_append, List.append_assoc, List.cons.injEq] at he
      obtain ⟨rfl, he⟩ := he
      obtain ⟨rfl, rfl, he2⟩ := ih1 d' b b' he
      obtain ⟨rfl, rfl, rfl⟩ := ih2 f' h1 h2 he2
      exact ⟨rfl, rfl, rfl⟩

theorem plainLine_name (a b : Str) : (plainLine a b).name = a := rfl

/-- All names in the lines of a calendar are in upper case. -/
theorem calLines_upper {E : Env} {P : SField → PropVal → Prop} {c : Cal} (h : GoodCal P c) : ∀ l ∈ calLines E c, upper l.name = l.name := by
  have hb : upper kBEGIN = kBEGIN := by decide
  have he : upper kEND = kEND := by decide
  have subs : ∀ {κ σ : Type} {inner : κ → σ → List Line} {ks : List (Str × κ)} {vs : List (List σ)},
      (∀ x ∈ ks.zip vs, ∀ y ∈ x.2, ∀ l ∈ inner x.1.2 y, upper l.name = l.name) → ∀ l ∈ subsLines inner ks vs, upper l.name = l.name := by
    intro κ σ inner ks
    induction ks with
    | nil => intro vs _ l hl; simp [subsLines] at hl
    | cons k ks ih =>
      intro vs h l hl
      cases vs with
      | nil => simp [subsLines] at hl
      | cons v vs =>
        simp only [subsLines, List.mem_append, List.mem_flatMap] at hl
        rcases hl with ⟨y, hy, hl⟩ | hl
        · rcases List.mem_cons.1 hl with rfl | hl
          · exact hb
          · exact h (k, v) (by simp) y hy l hl
        · exact ih (fun x hx => h x (by simp [hx])) l hl
  have sect : ∀ {κ σ : Type} {inner : κ → σ → List Line} {T : Tab κ} {s : Sect σ}, T.Wf →
      (∀ x ∈ T.subs.zip s.subs, ∀ y ∈ x.2, ∀ l ∈ inner x.1.2 y, upper l.name = l.name) → ∀ l ∈ T.inner E inner s, upper l.name = l.name := by
    intro κ σ inner T s hw h l hl
    simp only [Tab.inner, List.mem_append, List.mem_singleton] at hl
    rcases hl with (hl | hl) | rfl
    · exact (fieldLines_lines hw l hl).2.2.2
    · exact subs h l hl
    · exact he
  intro l hl
  rcases List.mem_cons.1 hl with rfl | hl
  · exact hb
  · refine sect calTab_wf (fun x hx y hy => ?_) l hl
    have hx' := (List.of_mem_zip hx).1
    obtain ⟨hw, hn, hg⟩ := compTab_good _ hx'
    refine sect hw fun z hz w hw' m hm => ?_
    obtain ⟨a, b⟩ := sub_shape (E := E) (hg _ (List.of_mem_zip hz).1) (((h.2.2.1.of_zip x hx y hy).2.2.1).of_zip z hz w hw')
    rw [a] at hm
    rcases List.mem_append.1 hm with hm | hm
    · exact (b m hm).2.2
    · cases List.mem_singleton.1 hm
      exact he

/-- If the lines of a calendar are read as the same calendar (but for locations), each of its properties is, and the rules hold. -/
theorem cal_back {E : Env} {P : SField → PropVal → Prop} {c c' : Cal} (h : GoodCal P c) {t : Term} (hr : decodeStream E ⟨calLines E c, t⟩ = .ok c') (hs : SameCal c' c) :
    CalRules c ∧ ∀ y ∈ calProps c, y.1.key = y.1.spec.name ∧ Back E y.1 y.2 := by
  have hkw : Keywords (calLines E c) := fun l hl _ => (calLines_upper h l hl).symm
  obtain ⟨pre, rest, e, hd⟩ := decodeStream_sound hkw hr
  obtain ⟨b, k, l, rfl, hb, _, hl, _, hk⟩ := hd
  have hshape : ∀ x ∈ tabCalendar.subs.zip c.subs, ∀ y ∈ x.2, compInner E x.1.2 y = compBody E x.1.2 y ++ [plainLine kEND x.1.1] ∧ Closed (compBody E x.1.2 y) := by
    intro x hx y hy
    obtain ⟨a, b⟩ := comp_shape (E := E) (List.of_mem_zip hx).1 (h.2.2.1.of_zip x hx y hy)
    exact ⟨a, Items.closed b⟩
  have hi : Items (fieldLines E tabCalendar.fields c.fields ++ subsLines (compInner E) tabCalendar.subs c.subs)
      (([] ++ fieldLines E tabCalendar.fields c.fields).map Item.line ++ subItems (compBody E) tabCalendar.subs c.subs) :=
    Spec.Items.append (items_lines fun l hl => ⟨(fieldLines_lines calTab_wf l hl).1, (fieldLines_lines calTab_wf l hl).2.1⟩)
      (items_subs calTab_wf.subNames hshape)
  have hkc : Closed k := by
    obtain ⟨is, hi, _⟩ := hk
    exact Items.closed hi
  have hk' : k = fieldLines E tabCalendar.fields c.fields ++ subsLines (compInner E) tabCalendar.subs c.subs := by
    simp only [calLines, Tab.inner, List.cons_append, List.append_assoc, List.cons.injEq] at e
    have e := e.2
    rw [← List.append_assoc] at e
    exact (closed_split (Items.closed hi) hkc (show Ends (plainLine kEND tabCalendar.name) by unfold Ends; rw [plainLine_name]; decide) hl
      (by simpa using e)).1.symm
  subst hk'
  obtain ⟨r1, r2, r3⟩ := sect_back calTab_wf (pre := []) (by simp) hi hk hs
  have hcomp : ∀ x ∈ tabCalendar.subs.zip c.subs, ∀ y ∈ x.2, (SectRules x.1.2 y ∧ Below SubRules x.1.2 y) ∧
      ∀ z ∈ compProps x.1.2 y, z.1.key = z.1.spec.name ∧ Back E z.1 z.2 := by
    intro x hx y hy
    obtain ⟨y', h1, h2⟩ := r3 x hx y hy
    exact comp_back (List.of_mem_zip hx).1 (h.2.2.1.of_zip x hx y hy) h1 h2
  refine ⟨⟨r1, fun x hx y hy => (hcomp x hx y hy).1⟩, fun y hy => ?_⟩
  rcases List.mem_append.1 hy with hy | hy
  · exact r2 y hy
  · obtain ⟨x, hx, z, hz, hy⟩ := mem_below.1 hy
    exact (hcomp x hx z hz).2 y hy

theorem GoodSect.props {P : SField → PropVal → Prop} {S : κ → σ → Prop} {T : Tab κ} {s : Sect σ} (h : GoodSect P S T s) :
    ∀ x ∈ sectProps T s, P x.1 x.2 ∧ x.1 ∈ T.fields := by
  intro x hx
  have := FieldsAll.props (FieldsAll.mem h.1) x hx
  exact ⟨this.2, this.1⟩

/-- Every property of a good calendar is good, and is read under the name it is written under unless it is a LAST-MODIFIED property. -/
theorem GoodCal.each {P : SField → PropVal → Prop} {c : Cal} (h : GoodCal P c) :
    ∀ x ∈ calProps c, P x.1 x.2 ∧ (x.1.key = x.1.spec.name ↔ x.1.key ≠ kLastMod) := by
  have both : ∀ {a b : Prop}, a ∧ b → (a ↔ b) := fun h => ⟨fun _ => h.2, fun _ => h.1⟩
  intro x hx
  rcases List.mem_append.1 hx with hx | hx
  · obtain ⟨a, b⟩ := h.props x hx
    exact ⟨a, both (names_match.1 _ b)⟩
  obtain ⟨y, hy, z, hz, hx⟩ := mem_below.1 hx
  have hy' := (List.of_mem_zip hy).1
  have hc := h.2.2.1.of_zip y hy z hz
  rcases List.mem_append.1 hx with hx | hx
  · obtain ⟨a, b⟩ := hc.props x hx
    exact ⟨a, names_match.2.1 _ hy' _ b⟩
  obtain ⟨w, hw, v, hv, hx⟩ := mem_below.1 hx
  have hs := hc.2.2.1.of_zip w hw v hv
  have hw' := (List.of_mem_zip hw).1
  obtain ⟨⟨n, k⟩, ws⟩ := w
  cases k with
  | leaf T =>
    cases v with
    | alarm a => exact absurd hs id
    | leaf s =>
      obtain ⟨a, b⟩ := GoodSect.props hs x hx
      exact ⟨a, both (names_match.2.2.2 T (leafTab_mem _ hy' _ hw' T rfl) _ b)⟩
  | alarm =>
    cases v with
    | leaf s => exact absurd hs id
    | alarm o =>
      cases o with
      | none => exact absurd hs id
      | some o =>
        obtain ⟨a, b⟩ := GoodSect.props hs x hx
        exact ⟨a, both (names_match.2.2.1 o.1 _ b)⟩

end Ics
