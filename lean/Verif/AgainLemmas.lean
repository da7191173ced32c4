import Verif.Spec.Again
import Verif.MeaningLemmas
import Verif.PropLineLemmas
import Verif.Props.Valid
import Verif.Props.RoundTrip
import Verif.Props.Scalars
/-!
# Lemmas: what is decoded can be written and read again
-/

namespace Ics

open Spec Props

/-! ## Readings of a clock -/

/-- What the clock shows at the instant that package time takes for a reading is a reading for the same instant. -/
theorem instant_again (E : Env) (l : Loc) (hs : SaneZone (locOff E l)) (w : Int) :
    instant E l (instant E l w + locOff E l (instant E l w)) = instant E l w ∧
    (instant E l w + locOff E l (instant E l w) = w ∨
      ∃ x y, locOff E l x ≠ locOff E l y ∧ w - 108000 ≤ x ∧ x ≤ w + 108000 ∧ w - 108000 ≤ y ∧ y ≤ w + 108000) ∧
    w - 108000 ≤ instant E l w + locOff E l (instant E l w) ∧ instant E l w + locOff E l (instant E l w) ≤ w + 108000 := by
  generalize hf : locOff E l = f at hs
  unfold instant
  simp only [hf]
  obtain ⟨t, a, b, h⟩ := hs.one w
  have hb := hs.small
  by_cases h0 : f w = 0
  · simp [h0]
    omega
  · simp only [if_neg h0]
    have b1 := hb w
    have b2 := hb (w - f w)
    have b3 := hb (w - f (w - f w))
    by_cases h3 : f (w - f (w - f w)) = f (w - f w)
    · rw [h3]
      have e : w - f (w - f w) + f (w - f w) = w := by omega
      rw [e, if_neg h0]
      omega
    · refine ⟨?_, Or.inr ⟨w - f (w - f w), w - f w, h3, by omega, by omega, by omega, by omega⟩, by omega, by omega⟩
      have f1 := h w (by omega) (by omega)
      have f2 := h (w - f w) (by omega) (by omega)
      have f3 := h (w - f (w - f w)) (by omega) (by omega)
      have f4 := h (w - f (w - f w) + f (w - f (w - f w))) (by omega) (by omega)
      generalize f w = o1 at *
      generalize f (w - o1) = o2 at *
      generalize f (w - o2) = o3 at *
      generalize ho4 : f (w - o2 + o3) = o4 at *
      have key : o4 ≠ 0 ∧ o4 = o3 := by
        split at f1 <;> split at f2 <;> split at f3 <;> split at f4 <;> omega
      rw [if_neg key.1, key.2]
      have : w - o2 + o3 - o3 = w - o2 := by omega
      rw [this]
      have f3' := h (w - o2) (by omega) (by omega)
      split at f1 <;> split at f2 <;> split at f3 <;> split at f3' <;> omega

theorem year_iff (w : Int) : (0 ≤ yearOfWall w ∧ yearOfWall w ≤ 9999) ↔ yearZero ≤ w ∧ w < yearTenThousand := by
  unfold yearOfWall yearZero yearTenThousand
  have e : (civil (w / 86400)).1 = yearOf (w / 86400) := rfl
  rw [e]
  obtain ⟨h1, h2⟩ := yearOf_spec (w / 86400)
  generalize yearOf (w / 86400) = y at *
  have z0 : daysBeforeYear 0 = -366 := by decide
  have z1 : daysBeforeYear 10000 = 3652059 := by decide
  constructor
  · rintro ⟨a, b⟩
    have m1 : daysBeforeYear 0 ≤ daysBeforeYear y := by
      rcases Int.lt_or_eq_of_le a with h | h
      · have := daysBeforeYear_mono h
        have := daysBeforeYear_succ 0
        split at this <;> omega
      · rw [← h]; omega
    have m2 : daysBeforeYear (y + 1) ≤ daysBeforeYear 10000 := daysBeforeYear_mono (by omega)
    omega
  · rintro ⟨a, b⟩
    constructor
    · by_cases h : y < 0
      · have := daysBeforeYear_mono h
        omega
      · omega
    · by_cases h : 9999 < y
      · have : daysBeforeYear 10000 ≤ daysBeforeYear y := by
          rcases Int.lt_or_eq_of_le (show 10000 ≤ y by omega) with h | h
          · have := daysBeforeYear_mono h
            have := daysBeforeYear_succ 10000
            split at this <;> omega
          · rw [← h]; omega
        omega
      · omega

theorem saneZone_zero : SaneZone (fun _ => 0) :=
  ⟨fun _ => by omega, fun _ => ⟨0, 0, 0, fun _ _ _ => by simp⟩, fun _ _ _ _ => rfl, fun _ _ _ _ => rfl⟩

/-- The clock shows a year of four digits, and its reading is one for the instant. -/
theorem instant_ok (E : Env) (l : Loc) (hs : SaneZone (locOff E l)) (w : Int) (h1 : yearZero ≤ w) (h2 : w < yearTenThousand) (n : Nat) :
    0 ≤ yearOfWall (GoTime.wall E ⟨instant E l w, n, l⟩) ∧ yearOfWall (GoTime.wall E ⟨instant E l w, n, l⟩) ≤ 9999 ∧
      instant E l (GoTime.wall E ⟨instant E l w, n, l⟩) = instant E l w := by
  obtain ⟨a, b, c, d⟩ := instant_again E l hs w
  unfold GoTime.wall
  dsimp only
  rw [← and_assoc, year_iff]
  refine ⟨?_, a⟩
  rcases b with b | ⟨x, y, b, b1, b2, b3, b4⟩
  · rw [b]; exact ⟨h1, h2⟩
  · generalize instant E l w + locOff E l (instant E l w) = v at *
    constructor
    · by_cases hv : yearZero ≤ v
      · exact hv
      · exact absurd (hs.first x y ⟨by omega, by omega⟩ ⟨by omega, by omega⟩) b
    · by_cases hv : v < yearTenThousand
      · exact hv
      · exact absurd (hs.last x y ⟨by omega, by omega⟩ ⟨by omega, by omega⟩) b

/-! ## Times -/

theorem Dec_below {s : Str} {n : Nat} (h : Dec s n) : n < 10 ^ s.length := by
  induction h with
  | one d => simp
  | snoc d _ ih =>
    rw [List.length_append, List.length_singleton, Nat.pow_succ]
    omega

theorem dateText_bounds {a : Str} {y m d k : Nat} (h : DateText a y m d) (hk : DayCount k y m d) : yearZero ≤ midnight k ∧ midnight k + 86400 ≤ yearTenThousand := by
  have e := dayCount_sec' h hk
  obtain ⟨a1, _, _, _, ⟨h4, h5⟩, _, _, hr⟩ := h
  have hy : y < 10000 := by
    have := Dec_below h4
    rw [h5] at this
    simpa using this
  have hc := civil_dayNumber ((RealDate_iff _ _ _).2 hr)
  have hyear : yearOfWall (midnight k) = y := by
    unfold yearOfWall
    rw [← e, Int.mul_ediv_cancel _ (by decide), hc]
  have := (year_iff (midnight k)).1 (by omega)
  refine ⟨this.1, ?_⟩
  have h2 := this.2
  unfold midnight yearTenThousand at *
  omega

theorem zoneNamed_sane {E : Env} (hE : SaneEnv E) {p : Nat} {n : Str} {l : Loc} (h : ZoneNamed E p n l) :
    SaneZone (locOff E l) ∧ LocOk E l ∧ ∀ m, tzidOf l = some m → ∀ c ∈ m, BareChar c := by
  cases h with
  | empty => exact ⟨saneZone_zero, trivial, fun m h => by cases h⟩
  | utc => exact ⟨saneZone_zero, trivial, fun m h => by cases h⟩
  | «local» => exact ⟨hE.loc, trivial, fun m h => by cases h⟩
  | zone h1 h2 h3 h4 => exact ⟨hE.zone _ _ h4, ⟨h1, h2, h3, h4⟩, fun m h => by cases h; exact hE.name _ _ h4⟩

theorem dateTime_again {E : Env} (hE : SaneEnv E) {p : Nat} {tz : Option Str} {s : Str} {t : GoTime} (h : DateTimeMeans E p tz s t) (hn : t.nsec = 0) :
    TimeOk E t ∧ (∀ m, tzidOf t.loc = some m → ∀ c ∈ m, BareChar c) ∧ (∀ m, tz = some m → ZoneNamed E p m t.loc) ∧
      (tz = none → t.loc = .utc ∨ t.loc = .local) := by
  obtain ⟨a, c, f, y, m, d, h, mi, sec, ns, k, l, h1, h2, h3, h4, rfl, h5⟩ := h
  obtain ⟨b1, b2⟩ := dateText_bounds h1 h2
  obtain ⟨_, _, _, _, _, _, _, c1, c2, c3⟩ := h3
  have key : SaneZone (locOff E l) ∧ LocOk E l ∧ (∀ m, tzidOf l = some m → ∀ c ∈ m, BareChar c) ∧ (∀ m, tz = some m → ZoneNamed E p m l) ∧
      (tz = none → l = .utc ∨ l = .local) := by
    cases tz with
    | some n =>
      obtain ⟨g1, g2, g3⟩ := zoneNamed_sane hE h5.1
      exact ⟨g1, g2, g3, fun m hm => by cases hm; exact h5.1, fun h => by cases h⟩
    | none =>
      rcases h5 with ⟨rfl, _⟩ | ⟨rfl, _⟩
      · exact ⟨saneZone_zero, trivial, fun m h => (by cases h), fun m h => (by cases h), fun _ => Or.inl rfl⟩
      · exact ⟨hE.loc, trivial, fun m h => (by cases h), fun m h => (by cases h), fun _ => Or.inr rfl⟩
  obtain ⟨k1, k2, k3, k4, k5⟩ := key
  obtain ⟨i1, i2, i3⟩ := instant_ok E l k1 (midnight k + 3600 * h + 60 * mi + sec) (by omega) (by omega) ns
  exact ⟨⟨hn, i1, i2, k2, i3⟩, k3, k4, k5⟩

theorem date_again {s : Str} {t : GoTime} (h : DateMeans s t) : DateOk t := by
  obtain ⟨y, m, d, k, h1, h2, rfl⟩ := h
  obtain ⟨b1, b2⟩ := dateText_bounds h1 h2
  obtain ⟨y1, y2⟩ := (year_iff (midnight k)).2 ⟨b1, by omega⟩
  exact ⟨rfl, rfl, by simp only [midnight]; omega, y1, y2⟩

theorem tzid_of_named {E : Env} {p q : Nat} {m : Str} {l l' : Loc} (h : ZoneNamed E p m l) (h' : ZoneNamed E q m l') : tzidOf l = tzidOf l' := by
  cases h <;> cases h' <;> simp_all [tzidOf]

theorem tzid_same {E : Env} (hE : SaneEnv E) {p q : Nat} {tz : Option Str} {a b : Str} {t u : GoTime} (h1 : DateTimeMeans E p tz a t) (h2 : DateTimeMeans E q tz b u)
    (n1 : t.nsec = 0) (n2 : u.nsec = 0) : tzidOf u.loc = tzidOf t.loc := by
  obtain ⟨_, _, z1, l1⟩ := dateTime_again hE h1 n1
  obtain ⟨_, _, z2, l2⟩ := dateTime_again hE h2 n2
  cases tz with
  | some m => exact tzid_of_named (z2 m rfl) (z1 m rfl)
  | none => rcases l1 rfl with e | e <;> rcases l2 rfl with e' | e' <;> rw [e, e'] <;> rfl

/-! ## Values -/

theorem lastOf_other {u : Char} : ∀ {is : List DurItem}, (∀ i ∈ is, i.unit ≠ u) → ∀ n, lastOf u n is = n := by
  intro is
  induction is with
  | nil => intro _ n; rfl
  | cons i is ih =>
    intro h n
    unfold lastOf
    rw [if_neg (h i (by simp)), ih fun j hj => h j (by simp [hj])]

theorem duration_again {s : Str} {d : Duration} (h : DurationMeans s d) : d.WF ∧ d.kept = d := by
  refine ⟨C19_decoded_in_range ((Duration.decode_iff s d).2 h), ?_⟩
  obtain ⟨sign, is, _, hi, _, _, h1, h2, h3, h4, h5⟩ := h
  rcases hi with ⟨i, rfl, hu, _⟩ | ⟨⟨i, l, rfl, hf⟩, hn⟩
  · simp only [lastOf, hu] at h2 h3 h4 h5
    unfold Duration.kept
    split
    · obtain ⟨neg, w, dd, hh, m, ss⟩ := d
      simp at h2 h3 h4 h5
      simp [h2, h3, h4, h5]
    · rfl
  · have : d.weeks = 0 := by
      rw [h1]
      refine lastOf_other (fun j hj => ?_) 0
      obtain ⟨a, b, e⟩ := List.append_of_mem hj
      rcases List.eq_nil_or_concat a with rfl | ⟨a', k, rfl⟩
      · simp only [List.nil_append, List.cons.injEq] at e
        obtain ⟨rfl, _⟩ := e
        rcases hf with ⟨h, _⟩ | h | h | ⟨h, _⟩ <;> rw [h] <;> decide
      · obtain ⟨_, h, _⟩ := hn a' k j b (by rw [e]; simp)
        rcases h with h | h | h <;> rw [h] <;> decide
    unfold Duration.kept
    simp [this]

theorem zeroTime_utc {t : GoTime} (h : t.isZero = true) (hl : t.loc = .utc) : t = {} := by
  obtain ⟨a, b⟩ := (zero_iff t).1 h
  obtain ⟨x, y, z⟩ := t
  dsimp only at a b hl
  subst a b hl
  rfl

theorem period_again {E : Env} (hE : SaneEnv E) {q : Nat} {tz : Option Str} {s : Str} {p : Period} (h : PeriodMeans E q tz s p) (hk : ValKept E (.period p)) :
    PeriodOk E p := by
  obtain ⟨k1, k2, k3⟩ := hk
  cases h with
  | «until» _ h1 h2 =>
    refine ⟨(dateTime_again hE h1 k1).1, fun hz => ⟨zeroTime_utc hz (k3 ((zero_iff _).1 hz)), ?_, rfl, rfl⟩, fun hz => ⟨rfl, (dateTime_again hE h2 k2).1, ?_⟩⟩
    · exact ⟨(by decide : 0 < 2 ^ 64), (by decide : 0 < 2 ^ 64), (by decide : 0 < 2 ^ 64), (by decide : 0 < 2 ^ 64), (by decide : 0 < 2 ^ 64)⟩
    · exact tzid_same hE h1 h2 k1 k2
  | lasting _ h1 h2 h3 =>
    obtain ⟨d1, d2⟩ := duration_again h2
    exact ⟨(dateTime_again hE h1 k1).1, fun _ => ⟨rfl, d1, d2, h3⟩, fun hz => by cases hz⟩

theorem LastOf_cases {α : Type} {R : Str → α → Prop} {d : α} {vs : List Str} {x : α} (h : LastOf R d vs x) : x = d ∨ ∃ v, R v x := by
  cases h with
  | none => exact Or.inl rfl
  | more _ h => exact Or.inr ⟨_, h⟩

theorem until_again {E : Env} (hE : SaneEnv E) {p : Nat} {tz : Option Str} {s : Str} {r : Recur} (h : LooseRule E p tz s r) (hk : ValKept E (.recur r)) :
    UntilOk E r ∧ ∀ m, tzidOf r.until_.loc = some m → ∀ c ∈ m, BareChar c := by
  obtain ⟨ps, _, _, h⟩ := h
  obtain ⟨k1, k2⟩ := hk
  rcases LastOf_cases h.until_ with e | ⟨v, h1 | h1⟩
  · simp only [Prod.mk.injEq] at e
    obtain ⟨e1, e2⟩ := e
    refine ⟨⟨fun _ => ⟨e1, e2⟩, fun hz => ?_, fun hz => ?_⟩, fun m hm => ?_⟩
    · rw [e1] at hz; cases hz
    · rw [e1] at hz; cases hz
    · rw [e1] at hm; cases hm
  · obtain ⟨h1, h2⟩ := h1
    dsimp only at h1 h2
    obtain ⟨t1, t2, _, _⟩ := dateTime_again hE h1 k1
    refine ⟨⟨fun hz => ?_, fun _ _ => ⟨t1.nsec, t1.lo, t1.hi, t1.loc, t1.found⟩, fun _ hf => ?_⟩, t2⟩
    · rw [k2 ((zero_iff _).1 hz)] at h2; cases h2
    · rw [hf] at h2; cases h2
  · obtain ⟨h1, h2⟩ := h1
    dsimp only at h1 h2
    have d := date_again h1
    refine ⟨⟨fun hz => ⟨zeroTime_utc hz d.loc, h2⟩, fun _ hf => ?_, fun _ _ => ⟨d.nsec, d.loc, d.midnight, d.lo, d.hi⟩⟩, fun m hm => ?_⟩
    · rw [hf] at h2; cases h2
    · rw [d.loc] at hm; cases hm

theorem offset_again {s : Str} {o : Int} (h : LooseOffset s o) : o.natAbs < 360000 := by
  obtain ⟨t, v, hv, h⟩ := h
  have : v < 360000 := by cases hv <;> omega
  omega

theorem list_again {s : Str} {ts : List Str} (h : LooseList s ts) : ts ≠ [] := by cases h <;> simp

/-- A decoded value that is kept is one that comes back. -/
theorem val_again {E : Env} (hE : SaneEnv E) {look : Str → Option Str} {k : Kind} {s : Str} {v : Val} (h : ValMeans E look k s v) (hk : ValKept E v) : GoodVal E v := by
  cases k with
  | binary => obtain ⟨_, _, rfl, _⟩ := h; exact ⟨trivial, fun n hn => by cases hn⟩
  | boolean => obtain ⟨_, rfl, _⟩ := h; exact ⟨trivial, fun n hn => by cases hn⟩
  | calAddress => obtain ⟨_, rfl, _⟩ := h; exact ⟨⟨hk.1, hk.2⟩, fun n hn => by cases hn⟩
  | date => obtain ⟨_, rfl, h⟩ := h; exact ⟨date_again h, fun n hn => by cases hn⟩
  | dateTime => obtain ⟨t, rfl, h⟩ := h; obtain ⟨a, b, _⟩ := dateTime_again hE h hk; exact ⟨a, b⟩
  | duration => obtain ⟨_, rfl, h⟩ := h; exact ⟨duration_again h, fun n hn => by cases hn⟩
  | integer => obtain ⟨_, rfl, _, h⟩ := h; exact ⟨h, fun n hn => by cases hn⟩
  | mtext => obtain ⟨_, rfl, h⟩ := h; exact ⟨list_again h, fun n hn => by cases hn⟩
  | period =>
    obtain ⟨p, rfl, h⟩ := h
    refine ⟨period_again hE h hk, ?_⟩
    have k1 := hk.1
    cases h with
    | «until» _ h1 _ => exact (dateTime_again hE h1 k1).2.1
    | lasting _ h1 _ _ => exact (dateTime_again hE h1 k1).2.1
  | recur =>
    obtain ⟨r, rfl, h⟩ := h
    obtain ⟨a, b⟩ := until_again hE h hk
    exact ⟨⟨Recur.decode_range ((Recur.decode_iff ..).2 h), a⟩, b⟩
  | text => obtain ⟨_, rfl, _⟩ := h; exact ⟨trivial, fun n hn => by cases hn⟩
  | tfloat =>
    obtain ⟨x, rfl, _⟩ := h
    have h1 := hk x.1 (by simp)
    have h2 := hk x.2 (by simp)
    exact ⟨⟨⟨h1.1, h1.2⟩, ⟨h2.1, h2.2⟩⟩, fun n hn => by cases hn⟩
  | uri => obtain ⟨_, rfl, _⟩ := h; exact ⟨⟨hk.1, hk.2⟩, fun n hn => by cases hn⟩
  | utcOffset => obtain ⟨_, rfl, h⟩ := h; exact ⟨offset_again h, fun n hn => by cases hn⟩

/-! ## Parameters -/

theorem caretText_same {s t : Str} (h : CaretText s t) (hc : '^' ∉ t) : t = s := by
  induction h with
  | nil => rfl
  | last => simp at hc
  | plain c _ _ ih => rw [ih fun h => hc (by simp [h])]
  | newline => simp at hc
  | quote => simp at hc
  | caret => simp at hc
  | other => simp at hc

theorem plain_of_raw {v : PVal} (h : ParamValOk v) (hc : '^' ∉ v.data) : PlainText v.data := by
  intro c hm
  refine ⟨(h c hm).1, fun e => hc ?_, (h c hm).2.1⟩
  have : c = '^' := Char.toNat_inj.1 e
  exact this ▸ hm

theorem param_again {E : Env} {k : PKind} {vs : List PVal} {q : ParamVal} (h : ParamMeans E k vs q) (hn : vs ≠ []) (hv : ∀ v ∈ vs, ParamValOk v)
    (hk : ParamKept k q) : GoodParam k q := by
  cases k with
  | url => cases hk
  | urls => cases hk
  | str must =>
    obtain ⟨v, t, rfl, rfl, _, h⟩ := h
    have e := caretText_same h hk.2
    subst e
    exact .str _ _ hk.1 (plain_of_raw (hv v (by simp)) hk.2)
  | fmt =>
    obtain ⟨v, rfl, rfl, h⟩ := h
    exact .fmt _ (plain_of_raw (hv v (by simp)) hk.2) h
  | enum names =>
    obtain ⟨v, rfl, ⟨n, rfl, h, _⟩ | ⟨rfl, _⟩⟩ := h
    · exact .names _ _ (List.getElem?_eq_some_iff.1 h).1
    · exact .names _ _ (Nat.zero_le _)
  | strs =>
    obtain ⟨ts, rfl, h⟩ := h
    refine .strs _ ?_ ?_
    · cases h with
      | nil => exact absurd rfl hn
      | cons => simp
    · replace hk : ∀ s ∈ ts, '^' ∉ s := hk
      clear hn
      induction h with
      | nil => simp
      | @cons v t vs ts h _ ih =>
        intro x hx
        rcases List.mem_cons.1 hx with rfl | hx
        · have e := caretText_same h.2 (hk x (by simp))
          subst e
          exact plain_of_raw (hv v (by simp)) (hk _ (by simp))
        · exact ih (fun v hm => hv v (by simp [hm])) (fun s hs => hk s (by simp [hs])) x hx
  | range => obtain ⟨v, rfl, rfl, _⟩ := h; exact .range
  | bool =>
    obtain ⟨v, b, rfl, rfl, _⟩ := h
    have : b = true := hk
    subst this
    exact .bool

/-! ## Calendars -/

theorem valuesOf_mem {ps : List (Str × List PVal)} {n : Str} {vs : List PVal} (h : vs ∈ valuesOf ps n) : ∃ p ∈ ps, p.2 = vs := by
  obtain ⟨p, hp, rfl⟩ := List.mem_map.1 h
  exact ⟨p, (List.mem_filter.1 hp).1, rfl⟩

theorem params_again {E : Env} {l : Line} (hl : LineOk l) : ∀ {ds : List PDef} {qs : List (Option ParamVal)}, Pairwise2 (ParamReads E l.params) ds qs →
    ∀ y ∈ (ds.zip qs).filterMap (fun x => x.2.map fun v => (x.1, v)), ParamKept y.1.kind y.2 → GoodParam y.1.kind y.2 := by
  intro ds qs h
  induction h with
  | nil => simp
  | @cons d q ds qs h _ ih =>
    intro y hy hk
    simp only [List.zip_cons_cons, List.filterMap_cons] at hy
    cases q with
    | none => exact ih y hy hk
    | some q =>
      simp only [Option.map_some, List.mem_cons] at hy
      rcases hy with rfl | hy
      · unfold ParamReads at h
        split at h
        · cases h
        · next vs e =>
          obtain ⟨v, h, e'⟩ := h
          cases e'
          obtain ⟨p, hp, rfl⟩ := valuesOf_mem (show vs ∈ valuesOf l.params d.name by rw [e]; simp)
          exact param_again h (hl.pvals_ne p hp) (hl.pvals p hp) hk
        · cases h
      · exact ih y hy hk

/-- What is true of the parameters and values of a decoded property. -/
def AgainProp (E : Env) (f : SField) (p : PropVal) : Prop :=
  (∀ y ∈ propParams f.spec p, ParamKept y.1.kind y.2 → GoodParam y.1.kind y.2) ∧ ∀ v ∈ propVals p, ValKept E v → GoodVal E v

theorem prop_again {E : Env} (hE : SaneEnv E) {f : SField} (hw : f.spec.wf = true) {l : Line} (hl : LineOk l) {p : PropVal}
    (h : f.spec.decode E l.params l.value = .ok p) : AgainProp E f p := by
  have h := (PSpec.decode_iff hw _ _ _).1 h
  unfold PropReads at h
  unfold AgainProp propParams
  split at h
  · obtain ⟨n, rfl, _⟩ := h
    simp [propVals]
  · next params vals e =>
    obtain ⟨qs, i, n, k, v, rfl, h1, _, h2, h3⟩ := h
    rw [e]
    refine ⟨params_again hl h1, fun w hw hk => ?_⟩
    unfold propVals at hw
    simp only [List.mem_filterMap, id] at hw
    obtain ⟨o, ho, rfl⟩ := hw
    rcases List.mem_or_eq_of_mem_set ho with ho | ho
    · rw [List.mem_replicate] at ho; cases ho.2
    · cases ho
      exact val_again hE h3 hk

theorem CalAll.rules {P : SField → PropVal → Prop} {c : Cal} (h : CalAll P c) : CalRules c := by
  refine ⟨h.2.2, fun x hx y hy => ?_⟩
  have hc := h.1.below x hx y hy
  refine ⟨hc.2.2, fun z hz t ht => ?_⟩
  have hd := hc.1.below z hz t ht
  obtain ⟨⟨n, k⟩, zs⟩ := z
  cases k with
  | leaf T =>
    cases t with
    | leaf t => exact hd.2.2
    | alarm => cases hd
  | alarm =>
    cases t with
    | leaf => cases hd
    | alarm o =>
      cases o with
      | none => cases hd
      | some o => exact hd.2.2

theorem decoded_again {E : Env} (hE : SaneEnv E) {s : Str} {c : Cal} (h : decodeDoc E s = .ok c) : CalAll (AgainProp E) c :=
  decodeStream_all (L := LineOk) (fun _ _ _ hw hl hd => prop_again hE hw.spec hl hd) (C11_document s) h

/-! ## Texts of parameters -/

theorem caretText_special {s t : Str} (h : CaretText s t) (hs : ∀ c ∈ s, NoCtl c ∧ c.toNat ≠ 34) (ht : '\n' ∈ t ∨ '"' ∈ t) : '^' ∈ t := by
  by_cases hc : '^' ∈ t
  · exact hc
  · have e := caretText_same h hc
    subst e
    rcases ht with ht | ht
    · have := (hs _ ht).1
      exact absurd this (by unfold NoCtl; decide)
    · exact absurd rfl (hs _ ht).2

theorem param_texts {E : Env} {k : PKind} {vs : List PVal} {q : ParamVal} (h : ParamMeans E k vs q) (hv : ∀ v ∈ vs, ParamValOk v) :
    ∀ s ∈ paramTexts q, ('\n' ∈ s ∨ '"' ∈ s) → '^' ∈ s := by
  have ok : ∀ v ∈ vs, ∀ c ∈ v.data, NoCtl c ∧ c.toNat ≠ 34 := fun v hm c hc => ⟨(hv v hm c hc).1, (hv v hm c hc).2.1⟩
  intro s hs ht
  cases k with
  | url => obtain ⟨_, _, rfl, rfl, _⟩ := h; simp [paramTexts] at hs
  | urls => obtain ⟨_, rfl, _⟩ := h; simp [paramTexts] at hs
  | str must =>
    obtain ⟨v, t, rfl, rfl, _, h⟩ := h
    simp only [paramTexts, List.mem_singleton] at hs
    subst hs
    exact caretText_special h (ok v (by simp)) ht
  | fmt =>
    obtain ⟨v, rfl, rfl, h⟩ := h
    simp only [paramTexts, List.mem_singleton] at hs
    subst hs
    rcases ht with ht | ht
    · have := (ok v (by simp) _ ht).1
      exact absurd this (by unfold NoCtl; decide)
    · exact absurd rfl (ok v (by simp) _ ht).2
  | enum names => obtain ⟨v, rfl, ⟨n, rfl, _⟩ | ⟨rfl, _⟩⟩ := h <;> simp [paramTexts] at hs
  | strs =>
    obtain ⟨ts, rfl, h⟩ := h
    replace hs : s ∈ ts := hs
    clear hv
    induction h with
    | nil => simp at hs
    | @cons v t vs ts h _ ih =>
      rcases List.mem_cons.1 hs with rfl | hs
      · exact caretText_special h.2 (ok v (by simp)) ht
      · exact ih (fun v hm => ok v (by simp [hm])) hs
  | range => obtain ⟨v, rfl, rfl, _⟩ := h; simp [paramTexts] at hs
  | bool => obtain ⟨v, b, rfl, rfl, _⟩ := h; simp [paramTexts] at hs

theorem params_texts {E : Env} {l : Line} (hl : LineOk l) : ∀ {ds : List PDef} {qs : List (Option ParamVal)}, Pairwise2 (ParamReads E l.params) ds qs →
    ∀ y ∈ (ds.zip qs).filterMap (fun x => x.2.map fun v => (x.1, v)), ∀ s ∈ paramTexts y.2, ('\n' ∈ s ∨ '"' ∈ s) → '^' ∈ s := by
  intro ds qs h
  induction h with
  | nil => simp
  | @cons d q ds qs h _ ih =>
    intro y hy
    simp only [List.zip_cons_cons, List.filterMap_cons] at hy
    cases q with
    | none => exact ih y hy
    | some q =>
      simp only [Option.map_some, List.mem_cons] at hy
      rcases hy with rfl | hy
      · unfold ParamReads at h
        split at h
        · cases h
        · next vs e =>
          obtain ⟨v, h, e'⟩ := h
          cases e'
          obtain ⟨p, hp, rfl⟩ := valuesOf_mem (show vs ∈ valuesOf l.params d.name by rw [e]; simp)
          exact param_texts h (hl.pvals p hp)
        · cases h
      · exact ih y hy

theorem decoded_texts {E : Env} {s : Str} {c : Cal} (h : decodeDoc E s = .ok c) :
    CalAll (fun f p => ∀ y ∈ propParams f.spec p, ∀ s ∈ paramTexts y.2, ('\n' ∈ s ∨ '"' ∈ s) → '^' ∈ s) c := by
  refine decodeStream_all (L := LineOk) (fun f l p hw hl hd => ?_) (C11_document s) h
  have h := (PSpec.decode_iff hw.spec _ _ _).1 hd
  unfold PropReads at h
  unfold propParams
  split at h
  · obtain ⟨n, rfl, _⟩ := h
    simp
  · next params vals e =>
    obtain ⟨qs, i, n, k, v, rfl, h1, _, h2, h3⟩ := h
    rw [e]
    exact params_texts hl h1

/-! ## Writing does not see the identity of locations -/

theorem wall_anon (E : Env) (t : GoTime) : (anonTime t).wall E = t.wall E := by
  unfold anonTime GoTime.wall
  dsimp only
  cases t.loc <;> rfl

theorem utc_anon (l : Loc) : anonLoc l = .utc ↔ l = .utc := by cases l <;> simp [anonLoc]

theorem DateTime.encode_anon (E : Env) (t : GoTime) : DateTime.encode E (anonTime t) = DateTime.encode E t := by
  unfold DateTime.encode
  rw [wall_anon]
  have : (anonTime t).loc = .utc ↔ t.loc = .utc := utc_anon t.loc
  simp only [this]

theorem Date.encode_anon (E : Env) (t : GoTime) : Date.encode E (anonTime t) = Date.encode E t := by
  unfold Date.encode
  rw [wall_anon]

theorem writeTimezone_anon (t : GoTime) : writeTimezone (anonTime t) = writeTimezone t := by
  unfold writeTimezone anonTime
  dsimp only
  cases t.loc <;> rfl

theorem aencode_anon (E : Env) (v : Val) : (anonVal v).aencode E = v.aencode E := by
  cases v with
  | dateTime t => simp only [Val.aencode, anonVal, Val.head_, Val.text_, writeTimezone_anon, DateTime.encode_anon]
  | period p =>
    have : (anonTime p.stop).isZero = p.stop.isZero := rfl
    simp only [Val.aencode, anonVal, Val.head_, Val.text_, writeTimezone_anon, Period.encode, DateTime.encode_anon, this]
  | recur r =>
    have : (anonTime r.until_).isZero = r.until_.isZero := rfl
    simp only [Val.aencode, anonVal, Val.head_, Val.text_, writeTimezone_anon, Recur.encode, Recur.parts, DateTime.encode_anon, Date.encode_anon, this]
  | _ => rfl

theorem encVals_map {E : Env} {f : Val → Val} (hf : ∀ v, (f v).aencode E = v.aencode E) : ∀ (b : Bool) (ks : List (Str × Kind)) (vs : List (Option Val)),
    encVals E b ks (vs.map (·.map f)) = encVals E b ks vs := by
  intro b ks
  induction ks generalizing b with
  | nil => intro vs; simp [encVals]
  | cons k ks ih =>
    intro vs
    cases vs with
    | nil => simp [encVals]
    | cons v vs =>
      obtain ⟨n, k⟩ := k
      simp only [List.map_cons, encVals, ih]
      cases v <;> simp [hf]

theorem PSpec.encode_map {E : Env} {f : Val → Val} (hf : ∀ v, (f v).aencode E = v.aencode E) (sp : PSpec) (p : PropVal) :
    sp.encode E (Spec.PropVal.mapVals f p) = sp.encode E p := by
  obtain ⟨n, sh⟩ := sp
  cases sh <;> cases p <;> simp [PSpec.encode, Spec.PropVal.mapVals, encVals_map hf]

theorem encFields_map {E : Env} {f : Val → Val} (hf : ∀ v, (f v).aencode E = v.aencode E) : ∀ (fs : List SField) (vs : List (List PropVal)),
    encFields E fs (vs.map (·.map (Spec.PropVal.mapVals f))) = encFields E fs vs := by
  intro fs
  induction fs with
  | nil => intro vs; simp [encFields]
  | cons d fs ih =>
    intro vs
    cases vs with
    | nil => simp [encFields]
    | cons v vs => simp [encFields, ih, PSpec.encode_map hf]

theorem encSubs_map {κ σ : Type} {enc : κ → σ → Option Str} {g : σ → σ} (hg : ∀ k s, enc k (g s) = enc k s) : ∀ (ks : List (Str × κ)) (vs : List (List σ)),
    encSubs enc ks (vs.map (·.map g)) = encSubs enc ks vs := by
  intro ks
  induction ks with
  | nil => intro vs; simp [encSubs]
  | cons k ks ih =>
    intro vs
    cases vs with
    | nil => simp [encSubs]
    | cons v vs => simp [encSubs, ih, hg]

theorem body_map {κ σ : Type} {E : Env} {f : Val → Val} (hf : ∀ v, (f v).aencode E = v.aencode E) (T : Tab κ) {enc : κ → σ → Option Str} {g : σ → σ}
    (hg : ∀ k s, enc k (g s) = enc k s) (s : Sect σ) : T.body E enc (Sect.mapVals f g s) = T.body E enc s := by
  unfold Tab.body Sect.mapVals
  dsimp only
  rw [encFields_map hf, encSubs_map hg]

theorem encode_map {κ σ : Type} {E : Env} {f : Val → Val} (hf : ∀ v, (f v).aencode E = v.aencode E) (T : Tab κ) {enc : κ → σ → Option Str} {g : σ → σ}
    (hg : ∀ k s, enc k (g s) = enc k s) (s : Sect σ) : T.encode E enc (Sect.mapVals f g s) = T.encode E enc s := by
  unfold Tab.encode
  rw [body_map hf T hg]

theorem encodeDoc_map {E : Env} {f : Val → Val} (hf : ∀ v, (f v).aencode E = v.aencode E) (c : Cal) : encodeDoc E (Cal.mapVals f c) = encodeDoc E c := by
  refine encode_map hf _ (fun T s => encode_map hf _ (fun k s => ?_) s) c
  cases s with
  | leaf s =>
    cases k with
    | leaf T => exact encode_map hf T (fun k _ => nomatch k) s
    | alarm => rfl
  | alarm a =>
    cases k with
    | leaf T => cases a <;> rfl
    | alarm =>
      cases a with
      | none => rfl
      | some a =>
        obtain ⟨a, s⟩ := a
        show alarmEncode E (some (a, Sect.mapVals f id s)) = alarmEncode E (some (a, s))
        unfold alarmEncode
        dsimp only
        rw [body_map hf a.tab (fun k _ => nomatch k)]

theorem encodeDoc_same {E : Env} {a b : Cal} (h : SameCal a b) : encodeDoc E a = encodeDoc E b := by
  rw [← encodeDoc_map (aencode_anon E) a, ← encodeDoc_map (aencode_anon E) b, h]

end Ics
