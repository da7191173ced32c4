import Verif.RuleLemmas
/-!
# C56: the text of recurrence rules
-/

namespace Ics.Props

open Ics Ics.Spec

/-- C56.  What the decoder accepts, and what it makes of it, part by part. -/
theorem C56_decode_exact (E : Env) (p : Nat) (tz : Option Str) (s : Str) (r : Recur) : Recur.decode E p tz s = .ok r ↔ LooseRule E p tz s r :=
  Recur.decode_iff s r

theorem Once_last {α : Type} {R : Str → α → Prop} {d x : α} {vs : List Str} (h : Once R d vs x) : LastOf R d vs x := by
  match vs, h with
  | [], h => subst h; exact .none
  | [v], h => exact .more (vs := []) .none h

theorem last_Once {α : Type} {R : Str → α → Prop} {d x : α} {vs : List Str} (h : LastOf R d vs x) (hl : vs.length ≤ 1) : Once R d vs x := by
  cases h with
  | none => rfl
  | more h1 h2 =>
    next vs v y =>
    have : vs = [] := List.length_eq_zero_iff.1 (by rw [List.length_append, List.length_singleton] at hl; omega)
    subst this
    exact h2

theorem Once_interval {x : Nat} {vs : List Str} (h : Once Number 0 vs x) : IntervalOf vs x := by
  match vs, h with
  | [], h => subst h; exact .none
  | [v], h => exact .more (vs := []) .none h

theorem interval_Once {x : Nat} {vs : List Str} (h : IntervalOf vs x) (hl : vs.length ≤ 1) : Once Number 0 vs x := by
  cases h with
  | none => rfl
  | more h1 h2 =>
    next vs v =>
    have : vs = [] := List.length_eq_zero_iff.1 (by rw [List.length_append, List.length_singleton] at hl; omega)
    subst this
    exact h2

theorem Once_imp {α : Type} {R S : Str → α → Prop} {d x : α} {vs : List Str} (hs : ∀ v ∈ vs, R v x → S v x) (h : Once R d vs x) : Once S d vs x := by
  match vs, h with
  | [], h => exact h
  | [v], h => exact hs v (by simp) h

theorem partsNamed_append (a b : List (Str × Str)) (n : Str) : partsNamed (a ++ b) n = partsNamed a n ++ partsNamed b n := by
  simp [partsNamed]

theorem partsNamed_mem {ps : List (Str × Str)} {n v : Str} : v ∈ partsNamed ps n ↔ (n, v) ∈ ps := by
  simp only [partsNamed, List.mem_map, List.mem_filter, decide_eq_true_eq]
  constructor
  · rintro ⟨⟨a, b⟩, ⟨h1, rfl⟩, rfl⟩; exact h1
  · intro h; exact ⟨(n, v), ⟨h, rfl⟩, rfl⟩

theorem Pairwise2_strengthen {α β : Type} {R S : α → β → Prop} {as : List α} {bs : List β} (h : ∀ a ∈ as, ∀ b, R a b → S a b)
    (hp : Pairwise2 R as bs) : Pairwise2 S as bs := by
  induction hp with
  | nil => exact .nil
  | cons h1 _ ih => exact .cons (h _ (by simp) _ h1) (ih fun a ha => h a (by simp [ha]))

/-- C56.  Every rule that RFC 5545 describes is accepted, and read as described. -/
theorem C56_rfc_rules_read (E : Env) (p : Nat) (tz : Option Str) (s : Str) (r : Recur) (h : RfcRule E p tz s r) : Recur.decode E p tz s = .ok r := by
  rw [C56_decode_exact]
  obtain ⟨ps, h1, ⟨f, hf, h2⟩, h3, h4, h5, h6, h7⟩ := h
  refine ⟨ps, h1, by rw [hf]; simp, ?_⟩
  have hno : ∀ {a b : List (Str × Str)} {n v m : Str}, ps = a ++ (n, v) :: b → (partsNamed ps n = [] ∨ partsNamed ps m = []) → partsNamed a m = [] := by
    intro a b n v m e h
    have hn : partsNamed ps n ≠ [] := by
      intro hh
      have : v ∈ partsNamed ps n := partsNamed_mem.2 (by rw [e]; simp)
      rw [hh] at this
      cases this
    rcases h with h | h
    · exact absurd h hn
    · rw [e, partsNamed_append] at h
      exact (List.append_eq_nil_iff.1 h).1
  refine ⟨by rw [hf]; exact .more (vs := []) .none h2, Once_last h3, Once_last h4, Once_interval h5, ?_, ?_,
    ⟨h7.bySecond, h7.byMinute, h7.byHour, ?_, h7.byMonthDay, h7.byYearDay, h7.byWeekNum, h7.byMonth, h7.bySetPos, h7.weekStart⟩⟩
  · intro a v b e
    rw [hno e h6.symm]
    exact .none
  · intro a v b e
    rw [hno e h6]
    exact ⟨_, .none, rfl⟩
  · refine Once_imp ?_ h7.byDay
    rintro v _ ⟨ws, a, b, c, d⟩
    exact ⟨ws, a, b, c, Pairwise2_strengthen (fun _ _ _ h => Or.inl h) d⟩

theorem mem_join_of {sep : Str} {ws : List Str} {w : Str} (hw : w ∈ ws) {c : Char} (hc : c ∈ w) : c ∈ join sep ws := by
  induction ws with
  | nil => cases hw
  | cons x ws ih =>
    cases ws with
    | nil => simp at hw; subst hw; exact hc
    | cons y ws =>
      rw [join]
      · rcases List.mem_cons.1 hw with rfl | hw
        · simp [hc]
        · simp [ih hw]
      · simp

theorem rfc_of_loose {E : Env} {p : Nat} {tz : Option Str} {ps : List (Str × Str)} {r : Recur} (ht : ps ≠ [] ∧ (∀ x ∈ ps, x.1 ∈ ruleParts ∧ ';' ∉ x.2))
    (hf : partsNamed ps c!"FREQ" ≠ []) (h : LooseParts E p tz ps r) (h1 : ∀ n, (partsNamed ps n).length ≤ 1)
    (hb : partsNamed ps c!"COUNT" = [] ∨ partsNamed ps c!"UNTIL" = []) (hd : ∀ v ∈ partsNamed ps c!"BYDAY", '+' ∉ v) :
    RfcRule E p tz (join [';'] (ps.map ruleLine)) r := by
  refine ⟨ps, ⟨ht.1, ht.2, rfl⟩, ?_, last_Once h.count (h1 _), last_Once h.until_ (h1 _), interval_Once h.interval (h1 _), hb,
    ⟨h.lists.bySecond, h.lists.byMinute, h.lists.byHour, ?_, h.lists.byMonthDay, h.lists.byYearDay, h.lists.byWeekNum, h.lists.byMonth,
      h.lists.bySetPos, h.lists.weekStart⟩⟩
  · have := last_Once h.freq (h1 _)
    have hl := h1 c!"FREQ"
    generalize partsNamed ps c!"FREQ" = vs at this hl hf
    match vs, this with
    | [], _ => exact absurd rfl hf
    | [f], h => exact ⟨f, rfl, h⟩
  · refine Once_imp ?_ h.lists.byDay
    rintro v hv ⟨ws, a, b, rfl, d⟩
    refine ⟨ws, a, b, rfl, Pairwise2_strengthen ?_ d⟩
    rintro w hw x (h | ⟨d, n, _, rfl, _⟩)
    · exact h
    · exact absurd (mem_join_of hw (c := '+') (by simp)) (hd _ hv)

/-! ## Writing -/

/-- A list part as a name and a value. -/
def listPart {α : Type} (name : Str) (f : α → Str) : List α → List (Str × Str)
  | [] => []
  | l => [(name, join [','] (l.map f))]

/-- `Recur.parts` as names and values. -/
def ruleOf (E : Env) (r : Recur) : List (Str × Str) :=
  [(c!"FREQ", fmtFreq r.freq)] ++
  (if r.count ≠ 0 then [(c!"COUNT", fmtNat r.count)]
   else if !r.until_.isZero then [(c!"UNTIL", if r.untilTime then DateTime.encode E r.until_ else Date.encode E r.until_)]
   else []) ++
  (if r.interval ≠ 0 then [(c!"INTERVAL", fmtNat r.interval)] else []) ++
  listPart c!"BYSECOND" fmtNat r.bySecond ++
  listPart c!"BYMINUTE" fmtNat r.byMinute ++
  listPart c!"BYHOUR" fmtNat r.byHour ++
  listPart c!"BYDAY" fmtDayRecur r.byDay ++
  listPart c!"BYMONTHDAY" fmtInt r.byMonthDay ++
  listPart c!"BYYEARDAY" fmtInt r.byYearDay ++
  listPart c!"BYWEEKNO" fmtInt r.byWeekNum ++
  listPart c!"BYMONTH" fmtNat r.byMonth ++
  listPart c!"BYSETPOS" fmtInt r.bySetPos ++
  (if r.weekStart ≠ 0 then [(c!"WKST", fmtDay r.weekStart)] else [])

theorem parts_ruleOf (E : Env) (r : Recur) : r.parts E = (ruleOf E r).map ruleLine := by
  have hl : ∀ {α : Type} (n : Str) (f : α → Str) (l : List α), encList n f l = (listPart n f l).map ruleLine := by
    intro α n f l
    cases l <;> rfl
  unfold Recur.parts ruleOf
  simp only [hl, List.map_append]
  congr 1
  · congr 9
    congr 2
    congr 1
    · split
      · rfl
      · split <;> rfl
    · split <;> rfl
  · split <;> rfl

theorem length_partsNamed {ps : List (Str × Str)} (h : (ps.map (·.1)).Nodup) (n : Str) : (partsNamed ps n).length ≤ 1 := by
  induction ps with
  | nil => simp [partsNamed]
  | cons x ps ih =>
    rw [List.map_cons, List.nodup_cons] at h
    by_cases hx : x.1 = n
    · have : partsNamed ps n = [] := by
        rw [List.eq_nil_iff_forall_not_mem]
        intro v hv
        exact h.1 (List.mem_map.2 ⟨(n, v), partsNamed_mem.1 hv, hx.symm⟩)
      show (partsNamed ([x] ++ ps) n).length ≤ 1
      rw [partsNamed_append, this]
      simp [partsNamed, hx]
    · have : partsNamed (x :: ps) n = partsNamed ps n := by simp [partsNamed, hx]
      rw [this]
      exact ih h.2

theorem ruleOf_nodup (E : Env) (r : Recur) : ((ruleOf E r).map (·.1)).Nodup := by
  have hl : ∀ {α : Type} (n : Str) (f : α → Str) (l : List α), ((listPart n f l).map (·.1)).Sublist [n] := by
    intro α n f l
    cases l with
    | nil => exact List.nil_sublist _
    | cons a l => exact List.Sublist.refl _
  have h : ((ruleOf E r).map (·.1)).Sublist ([c!"FREQ"] ++ [c!"COUNT", c!"UNTIL"] ++ [c!"INTERVAL"] ++ [c!"BYSECOND"] ++ [c!"BYMINUTE"] ++ [c!"BYHOUR"] ++
      [c!"BYDAY"] ++ [c!"BYMONTHDAY"] ++ [c!"BYYEARDAY"] ++ [c!"BYWEEKNO"] ++ [c!"BYMONTH"] ++ [c!"BYSETPOS"] ++ [c!"WKST"]) := by
    unfold ruleOf
    simp only [List.map_append]
    refine List.Sublist.append (List.Sublist.append (List.Sublist.append (List.Sublist.append (List.Sublist.append (List.Sublist.append
      (List.Sublist.append (List.Sublist.append (List.Sublist.append (List.Sublist.append (List.Sublist.append (List.Sublist.append ?_ ?_) ?_)
      (hl _ _ _)) (hl _ _ _)) (hl _ _ _)) (hl _ _ _)) (hl _ _ _)) (hl _ _ _)) (hl _ _ _)) (hl _ _ _)) (hl _ _ _)) ?_
    · exact List.Sublist.refl _
    · split
      · exact List.Sublist.cons_cons _ (List.nil_sublist _)
      · split
        · exact List.Sublist.cons _ (List.Sublist.refl _)
        · exact List.nil_sublist _
    · split
      · exact List.Sublist.refl _
      · exact List.nil_sublist _
    · split
      · exact List.Sublist.refl _
      · exact List.nil_sublist _
  exact h.nodup (by decide)

theorem ruleOf_mem {E : Env} {r : Recur} {n v : Str} (h : (n, v) ∈ ruleOf E r) :
    n ∈ ruleParts ∧ (n = c!"BYDAY" → v = join [','] (r.byDay.map fmtDayRecur)) ∧ (n = c!"COUNT" → r.count ≠ 0) ∧ (n = c!"UNTIL" → r.count = 0) := by
  have hl : ∀ {α : Type} {m : Str} {f : α → Str} {l : List α}, (n, v) ∈ listPart m f l → n = m ∧ v = join [','] (l.map f) := by
    intro α m f l h
    cases l with
    | nil => cases h
    | cons a l => simpa [listPart] using h
  have no : ∀ {a b : Str} {P : Prop}, a ≠ b → a = b → P := fun h e => absurd e h
  unfold ruleOf at h
  simp only [List.mem_append] at h
  rcases h with ((((((((((((h | h) | h) | h) | h) | h) | h) | h) | h) | h) | h) | h) | h)
  · simp only [List.mem_singleton, Prod.mk.injEq] at h
    obtain ⟨rfl, _⟩ := h
    exact ⟨by decide, no (by decide), no (by decide), no (by decide)⟩
  · split at h
    · next hc =>
      simp only [List.mem_singleton, Prod.mk.injEq] at h
      obtain ⟨rfl, _⟩ := h
      exact ⟨by decide, no (by decide), fun _ => hc, no (by decide)⟩
    · next hc =>
      split at h
      · simp only [List.mem_singleton, Prod.mk.injEq] at h
        obtain ⟨rfl, _⟩ := h
        exact ⟨by decide, no (by decide), no (by decide), fun _ => by simpa using hc⟩
      · cases h
  · split at h
    · simp only [List.mem_singleton, Prod.mk.injEq] at h
      obtain ⟨rfl, _⟩ := h
      exact ⟨by decide, no (by decide), no (by decide), no (by decide)⟩
    · cases h
  · obtain ⟨rfl, e⟩ := hl h
    exact ⟨by decide, no (by decide), no (by decide), no (by decide)⟩
  · obtain ⟨rfl, e⟩ := hl h
    exact ⟨by decide, no (by decide), no (by decide), no (by decide)⟩
  · obtain ⟨rfl, e⟩ := hl h
    exact ⟨by decide, no (by decide), no (by decide), no (by decide)⟩
  · obtain ⟨rfl, e⟩ := hl h
    exact ⟨by decide, fun _ => e, no (by decide), no (by decide)⟩
  · obtain ⟨rfl, e⟩ := hl h
    exact ⟨by decide, no (by decide), no (by decide), no (by decide)⟩
  · obtain ⟨rfl, e⟩ := hl h
    exact ⟨by decide, no (by decide), no (by decide), no (by decide)⟩
  · obtain ⟨rfl, e⟩ := hl h
    exact ⟨by decide, no (by decide), no (by decide), no (by decide)⟩
  · obtain ⟨rfl, e⟩ := hl h
    exact ⟨by decide, no (by decide), no (by decide), no (by decide)⟩
  · obtain ⟨rfl, e⟩ := hl h
    exact ⟨by decide, no (by decide), no (by decide), no (by decide)⟩
  · split at h
    · simp only [List.mem_singleton, Prod.mk.injEq] at h
      obtain ⟨rfl, _⟩ := h
      exact ⟨by decide, no (by decide), no (by decide), no (by decide)⟩
    · cases h

theorem noPlus_day (x : DayRecur) : '+' ∉ fmtDayRecur x := by
  intro h
  have := (fmtDayRecur_mem h).1
  revert this
  decide

theorem join_free {sep : Str} {ws : List Str} {c : Char} (h : c ∈ join sep ws) : c ∈ sep ∨ ∃ w ∈ ws, c ∈ w := by
  induction ws with
  | nil => cases h
  | cons x ws ih =>
    cases ws with
    | nil => exact Or.inr ⟨x, by simp, h⟩
    | cons y ws =>
      rw [join] at h
      · rcases List.mem_append.1 h with h | h
        · rcases List.mem_append.1 h with h | h
          · exact Or.inr ⟨x, by simp, h⟩
          · exact Or.inl h
        · rcases ih h with h | ⟨w, hw, h⟩
          · exact Or.inl h
          · exact Or.inr ⟨w, by simp [hw], h⟩
      · simp

theorem ruleLines_inj : ∀ {ps qs : List (Str × Str)}, (∀ x ∈ ps, x.1 ∈ ruleParts) → (∀ x ∈ qs, x.1 ∈ ruleParts) → ps.map ruleLine = qs.map ruleLine → ps = qs := by
  have inj : ∀ x y : Str × Str, x.1 ∈ ruleParts → y.1 ∈ ruleParts → ruleLine x = ruleLine y → x = y := by
    intro x y hx hy e
    have e1 := split2_append '=' x.1 x.2 (ruleName_free hx).1
    have e2 := split2_append '=' y.1 y.2 (ruleName_free hy).1
    have e : x.1 ++ '=' :: x.2 = y.1 ++ '=' :: y.2 := e
    rw [e, e2] at e1
    injection e1 with a b
    injection b with b
    exact Prod.ext a.symm b.symm
  intro ps
  induction ps with
  | nil =>
    intro qs _ _ h
    cases qs with
    | nil => rfl
    | cons y qs => simp at h
  | cons x ps ih =>
    intro qs h1 h2 h
    cases qs with
    | nil => simp at h
    | cons y qs =>
      rw [List.map_cons, List.map_cons] at h
      injection h with e1 e2
      rw [inj x y (h1 x (by simp)) (h2 y (by simp)) e1, ih (fun z hz => h1 z (by simp [hz])) (fun z hz => h2 z (by simp [hz])) e2]

/-- C56.  What is written for a rule in the ranges of RFC 5545 (and with an UNTIL that can be written, as in C23) is a rule of RFC 5545 that says the same. -/
theorem C56_written_rules_partial (E : Env) (p : Nat) (r : Recur) (h : RecurInRange r) (hu : UntilOk E r) :
    RfcRule E p (tzidOf r.until_.loc) (Recur.encode E r) (r.withPtr p) := by
  have hd := (C56_decode_exact _ _ _ _ _).1 (Recur.decode_encode E p r h hu)
  have semi : ∀ x ∈ ruleOf E r, ';' ∉ x.2 := by
    intro x hx hc
    have : partChar ';' := parts_mem (w := ruleLine x) (by rw [parts_ruleOf]; exact List.mem_map_of_mem hx) (by simp [ruleLine, hc])
    revert this
    decide
  obtain ⟨ps, ⟨h1, h2, h3⟩, h4, h5⟩ := hd
  have e : ps = ruleOf E r := by
    have hs : splitOn ';' (Recur.encode E r) = ps.map ruleLine := by
      rw [h3]
      apply splitOn_join
      · simpa using h1
      · intro w hw
        obtain ⟨x, hx, rfl⟩ := List.mem_map.1 hw
        have := (ruleName_free (h2 x hx).1).2
        simp [this, (h2 x hx).2]
    have hs' : splitOn ';' (Recur.encode E r) = (ruleOf E r).map ruleLine := by
      rw [← parts_ruleOf]
      refine splitOn_join ';' _ (by simp [Recur.parts]) ?_
      intro w hw hc
      have := parts_mem hw hc
      revert this
      decide
    rw [hs] at hs'
    exact ruleLines_inj (fun x hx => (h2 x hx).1) (fun x hx => (ruleOf_mem (n := x.1) (v := x.2) hx).1) hs'
  subst e
  have := rfc_of_loose ⟨h1, h2⟩ h4 h5 (length_partsNamed (ruleOf_nodup E r)) ?_ ?_
  · rw [← parts_ruleOf] at this
    exact this
  · by_cases hc : r.count = 0
    · left
      rw [List.eq_nil_iff_forall_not_mem]
      intro v hv
      exact (ruleOf_mem (partsNamed_mem.1 hv)).2.2.1 rfl hc
    · right
      rw [List.eq_nil_iff_forall_not_mem]
      intro v hv
      exact hc ((ruleOf_mem (partsNamed_mem.1 hv)).2.2.2 rfl)
  · intro v hv
    rw [(ruleOf_mem (partsNamed_mem.1 hv)).2.1 rfl]
    intro hc
    rcases join_free hc with h | ⟨w, hw, h⟩
    · exact absurd h (by decide)
    · obtain ⟨x, _, rfl⟩ := List.mem_map.1 hw
      exact noPlus_day x h

/-- The hypotheses are met by the sample of C23. -/
example : RfcRule sampleEnv 0 none c!"FREQ=MONTHLY;COUNT=12;INTERVAL=2;BYHOUR=8,17;BYDAY=1MO,-1FR,WE;BYMONTHDAY=-1,15;BYMONTH=1,12;BYSETPOS=-366;WKST=MO" sampleRecur := by
  have := C56_written_rules_partial sampleEnv 0 sampleRecur
    (by refine ⟨by decide, by decide, by decide, by decide, by decide, by decide, by decide, by decide, ?_, ?_, ?_, ?_, ?_, ?_⟩ <;> first | decide | (unfold Ordinal; decide))
    ⟨by decide, fun h => absurd h (by decide), fun h => absurd h (by decide)⟩
  have e : Recur.encode sampleEnv sampleRecur =
    c!"FREQ=MONTHLY;COUNT=12;INTERVAL=2;BYHOUR=8,17;BYDAY=1MO,-1FR,WE;BYMONTHDAY=-1,15;BYMONTH=1,12;BYSETPOS=-366;WKST=MO" := by decide +kernel
  rw [e] at this
  exact this

/-- A rule of RFC 5545 with its parts in another order, plus signs and leading zeros. -/
theorem unordered_rule : RfcRule sampleEnv 0 none c!"WKST=SU;BYDAY=+2MO,TH;COUNT=010;BYMONTHDAY=+7,-1;FREQ=MONTHLY"
    { freq := 5, count := 10, weekStart := 1, byDay := [⟨2, 2⟩, ⟨5, 0⟩], byMonthDay := [7, -1] } := by
  have dec : ∀ s : Str, s ≠ [] → s.all isDigit = true → Dec s (digitsVal 0 s) := fun s => Dec_digits
  refine ⟨[(c!"WKST", c!"SU"), (c!"BYDAY", c!"+2MO,TH"), (c!"COUNT", c!"010"), (c!"BYMONTHDAY", c!"+7,-1"), (c!"FREQ", c!"MONTHLY")], ⟨by decide, by decide, by decide⟩,
    ⟨c!"MONTHLY", by decide, by decide⟩, ⟨dec c!"010" (by decide) (by decide), by decide⟩, rfl, rfl, Or.inr (by decide), ?_⟩
  refine ⟨rfl, rfl, rfl, ?_, ?_, rfl, rfl, rfl, rfl, ?_⟩
  · exact ⟨[c!"+2MO", c!"TH"], by decide, by decide, by decide,
      .cons (.plus (o := c!"2") (d := c!"MO") ⟨dec c!"2" (by decide) (by decide), by decide, by decide, by decide⟩ (by decide)) (.cons (.every (by decide)) .nil)⟩
  · exact ⟨[c!"+7", c!"-1"], by decide, by decide, by decide,
      .cons ⟨.plus (dec c!"7" (by decide) (by decide)), Or.inl (by decide)⟩ (.cons ⟨.minus (n := 1) (dec c!"1" (by decide) (by decide)), Or.inr (by decide)⟩ .nil)⟩
  · show _ ∈ weekdays
    decide

/-- And what the decoder says of it. -/
example : Recur.decode sampleEnv 0 none c!"WKST=SU;BYDAY=+2MO,TH;COUNT=010;BYMONTHDAY=+7,-1;FREQ=MONTHLY" =
    .ok { freq := 5, count := 10, weekStart := 1, byDay := [⟨2, 2⟩, ⟨5, 0⟩], byMonthDay := [7, -1] } := C56_rfc_rules_read _ _ _ _ _ unordered_rule

/-- C56, the claim in full: only rules of RFC 5545 are accepted. -/
def C56_claim : Prop := ∀ (E : Env) (p : Nat) (tz : Option Str) (s : Str) (r : Recur), Recur.decode E p tz s = .ok r ↔ RfcRule E p tz s r

/-- C56.  FREQ, COUNT and UNTIL may be repeated, and so may INTERVAL behind zeros; COUNT=0 goes with UNTIL; BYDAY takes a plus sign without a number. -/
theorem C56_beyond_the_rfc :
    Recur.decode sampleEnv 0 none c!"FREQ=DAILY;FREQ=WEEKLY" = .ok { freq := 4 } ∧
    Recur.decode sampleEnv 0 none c!"FREQ=DAILY;COUNT=3;COUNT=4" = .ok { freq := 3, count := 4 } ∧
    Recur.decode sampleEnv 0 none c!"FREQ=DAILY;INTERVAL=0;INTERVAL=2" = .ok { freq := 3, interval := 2 } ∧
    Recur.decode sampleEnv 0 none c!"FREQ=DAILY;COUNT=0;UNTIL=20200101" = .ok { freq := 3, until_ := ⟨63713433600, 0, .utc⟩ } ∧
    Recur.decode sampleEnv 0 none c!"FREQ=DAILY;BYDAY=+MO" = .ok { freq := 3, byDay := [⟨2, 0⟩] } := by decide +kernel

/-- C56.  The claim as stated in full is false: a counterexample. -/
theorem C56_full_claim_is_false : ¬ C56_claim := by
  intro h
  obtain ⟨ps, ⟨h1, h2, h3⟩, ⟨f, hf, _⟩, _⟩ := (h _ _ _ _ _).1 C56_beyond_the_rfc.1
  have hs : splitOn ';' c!"FREQ=DAILY;FREQ=WEEKLY" = ps.map ruleLine := by
    rw [h3]
    apply splitOn_join
    · simpa using h1
    · intro w hw
      obtain ⟨x, hx, rfl⟩ := List.mem_map.1 hw
      have := (ruleName_free (h2 x hx).1).2
      simp [this, (h2 x hx).2]
  have e : [(c!"FREQ", c!"DAILY"), (c!"FREQ", c!"WEEKLY")] = ps := ruleLines_inj (by decide) (fun x hx => (h2 x hx).1) ((show _ = splitOn ';' c!"FREQ=DAILY;FREQ=WEEKLY" by decide).trans hs)
  subst e
  have : partsNamed [(c!"FREQ", c!"DAILY"), (c!"FREQ", c!"WEEKLY")] c!"FREQ" = [c!"DAILY", c!"WEEKLY"] := by decide
  rw [this] at hf
  simp at hf

end Ics.Props
