import Verif.RecurRange
import Verif.Props.Time
/-!
# C23, C24: recurrence rules
-/

namespace Ics.Props

open Ics Ics.Spec

/-! ## C23 Round trip -/

/-- C23, the claim in full: every rule that validation accepts comes back. -/
def C23_claim : Prop := ∀ (E : Env) (p : Nat) (r : Recur), r.WF → r.valid = .ok () →
  Recur.decode E p (tzidOf r.until_.loc) (Recur.encode E r) = .ok (r.withPtr p)

/-- C23.  Missing: rules with an occurrence number beyond 53, rules with both COUNT and UNTIL, and rules with an UNTIL that is lost
(zero with a location or with UntilTime set, or one for which C21 fails, or a date that is not midnight UTC). -/
theorem C23_recur_round_trip_partial (E : Env) (p : Nat) (r : Recur) (hw : r.WF) (hv : r.valid = .ok ())
    (hocc : ∀ x ∈ r.byDay, -53 ≤ x.occ ∧ x.occ ≤ 53) (hboth : r.count = 0 ∨ r.until_.isZero = true) (hu : UntilOk E r) :
    Recur.decode E p (tzidOf r.until_.loc) (Recur.encode E r) = .ok (r.withPtr p) := by
  obtain ⟨v1, v2, v3, v4, v5, v6, v7, v8, v9, v10, v11⟩ := (Recur.valid_iff r).1 hv
  refine Recur.decode_encode E p r ⟨v1, v11, hboth, hw.count, hw.interval, v2, v3, v4, ?_, v6, v7, v8, v9, v10⟩ hu
  intro x hx
  refine ⟨v5 x hx, ?_⟩
  have := hocc x hx
  unfold Ordinal
  omega

/-- C23.  Rules without UNTIL, or ending with a UTC date or a UTC date-time of a year 0 to 9999, need no hypothesis on zones. -/
theorem C23_utc_round_trip_partial (E : Env) (p : Nat) (r : Recur) (hw : r.WF) (hv : r.valid = .ok ())
    (hocc : ∀ x ∈ r.byDay, -53 ≤ x.occ ∧ x.occ ≤ 53) (hboth : r.count = 0 ∨ r.until_.isZero = true)
    (hl : r.until_.loc = .utc) (hn : r.until_.nsec = 0) (h1 : 0 ≤ yearOfWall r.until_.sec) (h2 : yearOfWall r.until_.sec ≤ 9999)
    (hz : r.until_.isZero = true → r.untilTime = false) (hd : r.untilTime = false → r.until_.sec % 86400 = 0) :
    Recur.decode E p none (Recur.encode E r) = .ok r := by
  have hwall : r.until_.wall E = r.until_.sec := by simp [GoTime.wall, locOff, hl]
  have := C23_recur_round_trip_partial E p r hw hv hocc hboth
    { zero := fun z => ⟨by
        have : r.until_.sec = 0 := by simp [GoTime.isZero] at z; exact z.1
        cases hu : r.until_ with
        | mk s n l => rw [hu] at this hn hl; simp only at this hn hl; subst this; subst hn; subst hl; rfl, hz z⟩
      time := fun _ _ => ⟨hn, by rwa [hwall], by rwa [hwall], by rw [hl]; trivial, by rw [hwall, hl]; simp [instant, locOff]⟩
      date := fun _ ht => ⟨hn, hl, hd ht, h1, h2⟩ }
  rw [hl] at this
  rw [show tzidOf .utc = none from rfl] at this
  rw [this]
  congr 1
  unfold Recur.withPtr
  cases r with
  | mk a b c u => cases u with | mk s n l => simp only at hl; subst hl; rfl

/-- A rule with most of the parts. -/
def sampleRecur : Recur :=
  { freq := 5, weekStart := 2, count := 12, interval := 2, byHour := [8, 17], byDay := [⟨2, 1⟩, ⟨6, -1⟩, ⟨4, 0⟩],
    byMonthDay := [-1, 15], byMonth := [1, 12], bySetPos := [-366] }

example : Recur.encode sampleEnv sampleRecur =
    c!"FREQ=MONTHLY;COUNT=12;INTERVAL=2;BYHOUR=8,17;BYDAY=1MO,-1FR,WE;BYMONTHDAY=-1,15;BYMONTH=1,12;BYSETPOS=-366;WKST=MO" := by
  decide +kernel

/-- The hypotheses of the partial theorem are met by the sample. -/
example : sampleRecur.WF ∧ sampleRecur.valid = .ok () ∧ (∀ x ∈ sampleRecur.byDay, -53 ≤ x.occ ∧ x.occ ≤ 53) ∧
    (sampleRecur.count = 0 ∨ sampleRecur.until_.isZero = true) ∧ UntilOk sampleEnv sampleRecur := by
  refine ⟨⟨by decide, by decide, by decide, by decide, by decide, by decide, by decide, by decide, by decide, by decide,
    by decide, by decide, by decide⟩, by decide, by decide, by decide, ⟨by decide, ?_, ?_⟩⟩
  · intro h; exact absurd h (by decide)
  · intro h; exact absurd h (by decide)

/-- C23.  Validation accepts the sixtieth Monday; decoding rejects what is written for it. -/
theorem C23_occurrence_not_checked :
    (Recur.valid { byDay := [⟨2, 60⟩] } = .ok ()) ∧
    Recur.decode sampleEnv 0 none (Recur.encode sampleEnv { byDay := [⟨2, 60⟩] }) = .err .invalidRecur := by decide +kernel

/-- C23.  Validation accepts a rule with both COUNT and UNTIL; UNTIL is not written. -/
theorem C23_until_dropped :
    (Recur.valid { count := 3, until_ := ⟨63763119600, 0, .utc⟩, untilTime := true } = .ok ()) ∧
    Recur.decode sampleEnv 0 none (Recur.encode sampleEnv { count := 3, until_ := ⟨63763119600, 0, .utc⟩, untilTime := true }) =
      .ok { count := 3 } := by decide +kernel

/-- C23.  The claim as stated in full is false: a counterexample. -/
theorem C23_full_claim_is_false : ¬ C23_claim := by
  intro h
  have h1 := C23_until_dropped
  have h2 := h sampleEnv 0 { count := 3, until_ := ⟨63763119600, 0, .utc⟩, untilTime := true }
    ⟨by decide, by decide, by decide, by decide, by decide, by decide, by decide, by decide, by decide, by decide,
      by decide, by decide, by decide⟩ h1.1
  have h3 := h1.2.symm.trans h2
  revert h3
  decide

/-! ## C24 Ranges -/

/-- C24.  An accepted rule is in the ranges of RFC 5545, has not both COUNT and UNTIL, and passes validation. -/
theorem C24_decoded_in_range (E : Env) (p : Nat) (tz : Option Str) (s : Str) (r : Recur) (h : Recur.decode E p tz s = .ok r) :
    RecurInRange r ∧ r.valid = .ok () :=
  ⟨Recur.decode_range h, Recur.valid_of_range (Recur.decode_range h)⟩

theorem lookup_mem {α β : Type} [BEq α] [LawfulBEq α] : ∀ {l : List (α × β)} {a : α} {b : β}, l.lookup a = some b → (a, b) ∈ l := by
  intro l
  induction l with
  | nil => intro a b h; simp at h
  | cons x l ih =>
    intro a b h
    obtain ⟨k, v⟩ := x
    rw [List.lookup_cons] at h
    split at h
    · next e => injection h with h; subst h; simp at e; simp [e]
    · exact List.mem_cons_of_mem _ (ih h)

theorem part_freq {E : Env} {p : Nat} {tz : Option Str} {st st' : RState} {v : Str} {k : RKey}
    (h : Recur.part E p tz st v k = .ok st') :
    (k = .freq ∧ freqNames[st'.1.freq]? = some v) ∨ (st'.2 = st.2 ∧ st'.1.freq = st.1.freq) := by
  have lst : ∀ {α : Type} {l : List α} {x : Res (List α)} {g : List α → Recur},
      once l (x >>= fun m => (Res.ok (g m, st.2) : Res RState)) = .ok st' → (∀ m, (g m).freq = st.1.freq) →
      st'.2 = st.2 ∧ st'.1.freq = st.1.freq := by
    intro α l x g h hg
    obtain ⟨_, h⟩ := once_ok h
    obtain ⟨m, _, h⟩ := Res.bind_eq_ok.1 h
    injection h with h; subst h
    exact ⟨rfl, hg m⟩
  cases k with
  | freq =>
    simp only [Recur.part] at h
    split at h
    · next f hf => injection h with h; subst h; exact Or.inl ⟨rfl, indexOf_some _ _ _ hf⟩
    · cases h
  | «until» =>
    right
    simp only [Recur.part] at h
    repeat' split at h
    all_goals first | (injection h with h; subst h; exact ⟨rfl, rfl⟩) | cases h
  | count =>
    right
    simp only [Recur.part] at h
    repeat' split at h
    all_goals first | (injection h with h; subst h; exact ⟨rfl, rfl⟩) | cases h
  | interval =>
    right
    simp only [Recur.part] at h
    repeat' split at h
    all_goals first | (injection h with h; subst h; exact ⟨rfl, rfl⟩) | cases h
  | weekStart =>
    right
    simp only [Recur.part] at h
    repeat' split at h
    all_goals first | (injection h with h; subst h; exact ⟨rfl, rfl⟩) | cases h
  | bySecond => exact Or.inr (lst h (fun _ => rfl))
  | byMinute => exact Or.inr (lst h (fun _ => rfl))
  | byHour => exact Or.inr (lst h (fun _ => rfl))
  | byDay => exact Or.inr (lst h (fun _ => rfl))
  | byMonthDay => exact Or.inr (lst h (fun _ => rfl))
  | byYearDay => exact Or.inr (lst h (fun _ => rfl))
  | byWeekNum => exact Or.inr (lst h (fun _ => rfl))
  | byMonth => exact Or.inr (lst h (fun _ => rfl))
  | bySetPos => exact Or.inr (lst h (fun _ => rfl))

/-- C24.  An accepted rule has a FREQ part, naming the frequency of the result. -/
theorem C24_frequency_given (E : Env) (p : Nat) (tz : Option Str) (s : Str) (r : Recur) (h : Recur.decode E p tz s = .ok r) :
    ∃ f, freqNames[r.freq]? = some f ∧ (c!"FREQ=" ++ f) ∈ splitOn ';' s := by
  have key : ∀ (n : Str), (n, RKey.freq) ∈ rkeys → n = c!"FREQ" := by
    intro n hn
    simpa [rkeys] using hn
  have loop : ∀ (ps : List Str) (st st' : RState), Recur.loop E p tz st ps = .ok st' → st'.2 = true →
      (st.2 = true ∧ st'.1.freq = st.1.freq) ∨ ∃ f, freqNames[st'.1.freq]? = some f ∧ (c!"FREQ=" ++ f) ∈ ps := by
    intro ps
    induction ps with
    | nil => intro st st' h ht; simp only [Recur.loop] at h; injection h with h; subst h; exact Or.inl ⟨ht, rfl⟩
    | cons q ps ih =>
      intro st st' h ht
      rw [Recur.loop] at h
      split at h
      · cases h
      · next name v hs =>
        split at h
        · cases h
        · next k hk =>
          obtain ⟨st2, h1, h2⟩ := Res.bind_eq_ok.1 h
          rcases ih st2 st' h2 ht with ⟨a, b⟩ | ⟨f, hf, hm⟩
          · rcases part_freq h1 with ⟨rfl, hv⟩ | ⟨c, d⟩
            · refine Or.inr ⟨v, by rw [b]; exact hv, ?_⟩
              rw [split2_some hs, key name (lookup_mem hk)]
              simp
            · exact Or.inl ⟨by rw [← c]; exact a, by rw [b, d]⟩
          · exact Or.inr ⟨f, hf, List.mem_cons_of_mem _ hm⟩
  unfold Recur.decode at h
  obtain ⟨⟨r', f⟩, h1, h2⟩ := Res.bind_eq_ok.1 h
  dsimp only at h2
  split at h2
  · next hf =>
    injection h2 with h2; subst h2
    rcases loop _ _ _ h1 hf with ⟨a, _⟩ | h
    · exact absurd a (by simp)
    · exact h
  · cases h2

/-- C24.  The only texts on which decoding a rule can panic have a rule part BYDAY with an element that is a plus sign and a digit. -/
theorem C24_panics_only_on_plus_digit (E : Env) (p : Nat) (tz : Option Str) (s : Str) (h : Recur.decode E p tz s = .panic) :
    plusDay s = true := Recur.decode_panic h

example : Recur.decode sampleEnv 0 none c!"FREQ=DAILY;BYDAY=+5" = .panic := by decide
example : Recur.decode sampleEnv 0 none c!"FREQ=DAILY;BYDAY=+5MO;COUNT=10" = .ok { freq := 3, byDay := [⟨2, 5⟩], count := 10 } := by
  decide +kernel
example : Recur.decode sampleEnv 0 none c!"FREQ=DAILY;COUNT=10;UNTIL=20210729" = .err .invalidRecur := by decide +kernel
example : Recur.decode sampleEnv 0 none c!"COUNT=10" = .err .invalidRecur := by decide +kernel
example : Recur.decode sampleEnv 0 none c!"FREQ=DAILY;BYDAY=54MO" = .err .invalidRecur := by decide +kernel

end Ics.Props
