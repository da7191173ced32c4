import Verif.Spec.Machines
import Verif.ExchangeLemmas
import Verif.TimeLemmas
/-!
# Lemmas: the same document on two machines
-/

namespace Ics

open Spec

variable {E E' : Env}

theorem parseDateTime_rel {z : Bool} {l l' : Loc} (h : LocRel E E' l l') (s : Str) {t : GoTime} (ht : parseDateTime E z l s = some t) :
    ∃ t', parseDateTime E' z l' s = some t' ∧ TimeRel E E' t t' := by
  unfold parseDateTime at ht ⊢
  split at ht
  · split at ht
    · next n _ c ns r _ =>
      by_cases hr : r = (if z then ['Z'] else [])
      · rw [if_pos hr] at ht
        cases ht
        exact ⟨_, if_pos hr, h, rfl, _, rfl, rfl⟩
      · rw [if_neg hr] at ht
        cases ht
    · cases ht
  · cases ht

theorem instant_utc (E : Env) (w : Int) : instant E .utc w = w := rfl

theorem Spec.TimeRel.ofUTC (t : GoTime) (h : t.loc = .utc) : TimeRel E E' t t := by
  obtain ⟨s, n, l⟩ := t
  cases h
  exact ⟨.utc, rfl, s, rfl, rfl⟩

theorem Spec.TimeRel.utc {t t' : GoTime} (h : TimeRel E E' t t') (hu : t.loc = .utc) : t' = t := by
  obtain ⟨s, n, l⟩ := t
  obtain ⟨s', n', l'⟩ := t'
  cases hu
  obtain ⟨hl, hn, w, h1, h2⟩ := h
  dsimp only at *
  generalize hk : Loc.utc = k at hl h1
  cases hl with
  | utc => simp only [instant_utc] at h1 h2; rw [h1, h2, hn]
  | «local» => cases hk
  | zone => cases hk

/-- If the first machine loads the zone, so does the second. -/
def TzKnown (E E' : Env) (tzid : Option Str) : Prop := ∀ n, tzid = some n → E.loadZone n ≠ none → E'.loadZone n ≠ none

theorem loadLocation_rel {p : Nat} {n : Str} {l : Loc} (hk : E.loadZone n ≠ none → E'.loadZone n ≠ none) (h : loadLocation E p n = some l) :
    ∃ l', loadLocation E' p n = some l' ∧ LocRel E E' l l' := by
  unfold loadLocation at h ⊢
  split at h
  · next hc => rw [if_pos hc]; cases h; exact ⟨_, rfl, .utc⟩
  · next hc =>
    rw [if_neg hc]
    split at h
    · next hc => rw [if_pos hc]; cases h; exact ⟨_, rfl, .local⟩
    · next hc =>
      rw [if_neg hc]
      obtain ⟨r, hr, rfl⟩ := Option.map_eq_some_iff.1 h
      obtain ⟨r', hr'⟩ := Option.ne_none_iff_exists'.1 (hk (by rw [hr]; nofun))
      exact ⟨_, by rw [hr']; rfl, .zone hr hr'⟩

theorem DateTime.decode_rel {p : Nat} {tzid : Option Str} (hk : TzKnown E E' tzid) {s : Str} {t : GoTime} (h : DateTime.decode E p tzid s = .ok t) :
    ∃ t', DateTime.decode E' p tzid s = .ok t' ∧ TimeRel E E' t t' := by
  unfold DateTime.decode at h ⊢
  cases tzid with
  | some n =>
    dsimp only at h ⊢
    obtain ⟨l, hl, h⟩ := Res.bind_eq_ok.1 h
    obtain ⟨l', hl', hr⟩ := loadLocation_rel (hk n rfl) (Res.ofOption_eq_ok.1 hl)
    obtain ⟨t', ht', hr⟩ := parseDateTime_rel hr s (Res.ofOption_eq_ok.1 h)
    exact ⟨t', by rw [hl']; exact Res.ofOption_eq_ok.2 ht', hr⟩
  | none =>
    dsimp only at h ⊢
    split at h
    · next hz =>
      rw [if_pos hz]
      obtain ⟨t', ht', hr⟩ := parseDateTime_rel LocRel.utc s (Res.ofOption_eq_ok.1 h)
      exact ⟨t', Res.ofOption_eq_ok.2 ht', hr⟩
    · next hz =>
      rw [if_neg hz]
      obtain ⟨t', ht', hr⟩ := parseDateTime_rel LocRel.local s (Res.ofOption_eq_ok.1 h)
      exact ⟨t', Res.ofOption_eq_ok.2 ht', hr⟩

theorem Period.decode_rel {p : Nat} {tzid : Option Str} (hk : TzKnown E E' tzid) {s : Str} {x : Period} (h : Period.decode E p tzid s = .ok x) :
    ∃ y, Period.decode E' p tzid s = .ok y ∧ ValRel E E' (.period x) (.period y) := by
  unfold Period.decode at h ⊢
  split at h
  · cases h
  · cases h
  · next a c b hs =>
    obtain ⟨t, ht, h⟩ := Res.bind_eq_ok.1 h
    obtain ⟨t', ht', hr⟩ := DateTime.decode_rel hk ht
    rw [ht']
    simp only [Res.ok_bind]
    split at h
    · next hc =>
      rw [if_pos hc]
      obtain ⟨d, hd, h⟩ := Res.bind_eq_ok.1 h
      cases h
      rw [hd]
      exact ⟨_, rfl, .period hr (TimeRel.ofUTC _ rfl) rfl⟩
    · next hc =>
      rw [if_neg hc]
      obtain ⟨u, hu, h⟩ := Res.bind_eq_ok.1 h
      cases h
      obtain ⟨u', hu', hr'⟩ := DateTime.decode_rel hk hu
      rw [hu']
      exact ⟨_, rfl, .period hr hr' rfl⟩

/-! ## Rules -/

/-- The same rule, with the time of UNTIL on another machine. -/
def RRel (E E' : Env) (x y : RState) : Prop := ∃ t, TimeRel E E' x.1.until_ t ∧ y = ({ x.1 with until_ := t }, x.2)

theorem RRel.same {x y : RState} (h : RRel E E' x y) (hu : x.1.until_ = {}) : y = x := by
  obtain ⟨t, ht, rfl⟩ := h
  have := ht.utc (by rw [hu])
  rw [this]

theorem Recur.part_rel {p : Nat} {tzid : Option Str} (hk : TzKnown E E' tzid) {x y x1 : RState} {v : Str} {k : RKey} (hr : RRel E E' x y)
    (hc : k = .count → x.1.until_ = {}) (h : Recur.part E p tzid x v k = .ok x1) :
    ∃ y1, Recur.part E' p tzid y v k = .ok y1 ∧ RRel E E' x1 y1 ∧ (k ≠ .until → x1.1.until_ = x.1.until_) := by
  cases k with
  | count =>
    have e := hr.same (hc rfl)
    subst e
    simp only [Recur.part] at h ⊢
    split at h
    · cases h
    · next hz =>
      rw [if_neg hz]
      split at h
      · cases h
        refine ⟨_, rfl, ⟨y.1.until_, ?_, rfl⟩, fun _ => rfl⟩
        rw [hc rfl]
        exact TimeRel.ofUTC _ rfl
      · cases h
  | «until» =>
    obtain ⟨t, ht, rfl⟩ := hr
    simp only [Recur.part] at h ⊢
    split at h
    · cases h
    · next hz =>
      rw [if_neg hz]
      split at h
      · next hl =>
        rw [if_pos hl]
        split at h
        · next u hu =>
          cases h
          obtain ⟨u', hu', hr'⟩ := DateTime.decode_rel hk hu
          rw [hu']
          exact ⟨_, rfl, ⟨u', hr', rfl⟩, fun h => absurd rfl h⟩
        · cases h
        · cases h
      · next hl =>
        rw [if_neg hl]
        split at h
        · next u hu =>
          cases h
          refine ⟨_, rfl, ⟨u, TimeRel.ofUTC _ ?_, rfl⟩, fun h => absurd rfl h⟩
          unfold Date.decode parseDate at hu
          have hu := Res.ofOption_eq_ok.1 hu
          split at hu
          · cases hu; rfl
          · cases hu
        · cases h
        · cases h
  | freq =>
    obtain ⟨t, ht, rfl⟩ := hr
    simp only [Recur.part] at h ⊢
    split at h
    · cases h; exact ⟨_, rfl, ⟨t, ht, rfl⟩, fun _ => rfl⟩
    · cases h
  | interval =>
    obtain ⟨t, ht, rfl⟩ := hr
    simp only [Recur.part] at h ⊢
    split at h
    · cases h
    · next hz =>
      rw [if_neg hz]
      split at h
      · cases h; exact ⟨_, rfl, ⟨t, ht, rfl⟩, fun _ => rfl⟩
      · cases h
  | weekStart =>
    obtain ⟨t, ht, rfl⟩ := hr
    simp only [Recur.part] at h ⊢
    split at h
    · cases h
    · next hz =>
      rw [if_neg hz]
      split at h
      · cases h; exact ⟨_, rfl, ⟨t, ht, rfl⟩, fun _ => rfl⟩
      · cases h
  | bySecond | byMinute | byHour | byDay | byMonthDay | byYearDay | byWeekNum | byMonth | bySetPos =>
    obtain ⟨t, ht, rfl⟩ := hr
    simp only [Recur.part] at h ⊢
    unfold once at h ⊢
    split at h
    · next he =>
      obtain ⟨l, hl, h⟩ := Res.bind_eq_ok.1 h
      cases h
      rw [hl]
      exact ⟨_, rfl, ⟨t, ht, rfl⟩, fun _ => rfl⟩
    · cases h

theorem split2_eq : ∀ {s a b : Str} {c : Char}, split2 c s = (a, some b) → s = a ++ c :: b
  | [], _, _, _, h => by simp [split2] at h
  | x :: s, a, b, c, h => by
    unfold split2 at h
    split at h
    · next e => cases h; rw [e]; rfl
    · cases hs : split2 c s with
      | mk u w =>
        rw [hs] at h
        cases h
        rw [split2_eq hs]
        rfl

theorem rkeys_count {n : Str} (h : rkeys.lookup n = some .count) : n = c!"COUNT" := by
  have : ∀ x ∈ rkeys, x.2 = RKey.count → x.1 = c!"COUNT" := by decide
  have hm : ∀ (l : List (Str × RKey)) k, l.lookup n = some k → (n, k) ∈ l := by
    intro l k
    induction l with
    | nil => intro h; cases h
    | cons x l ih =>
      intro h
      rw [List.lookup_cons] at h
      split at h
      · next e => cases h; rw [beq_iff_eq.1 e]; exact List.mem_cons_self
      · exact List.mem_cons_of_mem _ (ih h)
  exact this _ (hm _ _ h) rfl

theorem rkeys_until {n : Str} (h : rkeys.lookup n = some .until) : n = c!"UNTIL" := by
  have : ∀ x ∈ rkeys, x.2 = RKey.until → x.1 = c!"UNTIL" := by decide
  have hm : ∀ (l : List (Str × RKey)) k, l.lookup n = some k → (n, k) ∈ l := by
    intro l k
    induction l with
    | nil => intro h; cases h
    | cons x l ih =>
      intro h
      rw [List.lookup_cons] at h
      split at h
      · next e => cases h; rw [beq_iff_eq.1 e]; exact List.mem_cons_self
      · exact List.mem_cons_of_mem _ (ih h)
  exact this _ (hm _ _ h) rfl

theorem Recur.loop_rel {p : Nat} {tzid : Option Str} (hk : TzKnown E E' tzid) : ∀ (ps : List Str) {x y x1 : RState}, RRel E E' x y →
    ((∀ q ∈ ps, ∀ v, q ≠ c!"COUNT=" ++ v) ∨ (x.1.until_ = {} ∧ ∀ q ∈ ps, ∀ v, q ≠ c!"UNTIL=" ++ v)) → Recur.loop E p tzid x ps = .ok x1 →
    ∃ y1, Recur.loop E' p tzid y ps = .ok y1 ∧ RRel E E' x1 y1 := by
  intro ps
  induction ps with
  | nil =>
    intro x y x1 hr _ h
    cases h
    exact ⟨y, rfl, hr⟩
  | cons q ps ih =>
    intro x y x1 hr hc h
    unfold Recur.loop at h ⊢
    split at h
    · cases h
    · next name v hs =>
      have hq := split2_eq hs
      split at h
      · cases h
      · next k hk' =>
        obtain ⟨x2, h2, h⟩ := Res.bind_eq_ok.1 h
        have hcount : k = .count → x.1.until_ = {} := by
          rintro rfl
          rcases hc with hc | hc
          · exact absurd (hq.trans (by rw [rkeys_count hk']; rfl)) (hc q List.mem_cons_self v)
          · exact hc.1
        obtain ⟨y2, hy2, hr2, hu⟩ := Recur.part_rel hk hr hcount h2
        rw [hy2]
        refine ih hr2 ?_ h
        rcases hc with hc | hc
        · exact .inl fun q hq => hc q (List.mem_cons_of_mem _ hq)
        · refine .inr ⟨?_, fun q hq => hc.2 q (List.mem_cons_of_mem _ hq)⟩
          by_cases hkk : k = .until
          · subst hkk
            exact absurd (hq.trans (by rw [rkeys_until hk']; rfl)) (hc.2 q List.mem_cons_self v)
          · rw [hu hkk, hc.1]

theorem Recur.decode_rel {p : Nat} {tzid : Option Str} (hk : TzKnown E E' tzid) {s : Str} (hs : ¬ CountAndUntil s) {r : Recur} (h : Recur.decode E p tzid s = .ok r) :
    ∃ r', Recur.decode E' p tzid s = .ok r' ∧ ValRel E E' (.recur r) (.recur r') := by
  unfold Recur.decode at h ⊢
  obtain ⟨x, hx, h⟩ := Res.bind_eq_ok.1 h
  have hc : (∀ q ∈ splitOn ';' s, ∀ v, q ≠ c!"COUNT=" ++ v) ∨ ((({}, false) : RState).1.until_ = {} ∧ ∀ q ∈ splitOn ';' s, ∀ v, q ≠ c!"UNTIL=" ++ v) := by
    by_cases h1 : ∃ x, (c!"COUNT=" ++ x) ∈ splitOn ';' s
    · refine .inr ⟨rfl, ?_⟩
      rintro q hq v rfl
      exact hs ⟨h1, v, hq⟩
    · refine .inl ?_
      rintro q hq v rfl
      exact h1 ⟨v, hq⟩
  obtain ⟨y, hy, t, ht, rfl⟩ := Recur.loop_rel hk _ (⟨{}, TimeRel.ofUTC _ rfl, rfl⟩ : RRel E E' ({}, false) ({}, false)) hc hx
  rw [hy]
  obtain ⟨x, f⟩ := x
  cases f with
  | true => cases h; exact ⟨_, rfl, .recur ht⟩
  | false => cases h

/-! ## Values and properties -/

theorem map_ok {α β : Type} {f : α → β} {x : Res α} {b : β} (h : f <$> x = .ok b) : ∃ a, x = .ok a ∧ b = f a := by
  cases x with
  | ok a => cases h; exact ⟨a, rfl, rfl⟩
  | err => cases h
  | panic => cases h

theorem Val.decode_rel (hL : SameLibrary E E') {op : Str → Option Str} (hk : TzKnown E E' (op c!"TZID")) {k : Kind} {s : Str} (hs : k = .recur → ¬ CountAndUntil s)
    {v : Val} (h : Val.decode E op k s = .ok v) : ∃ v', Val.decode E' op k s = .ok v' ∧ ValRel E E' v v' := by
  unfold Val.decode at h ⊢
  cases k with
  | dateTime =>
    obtain ⟨t, ht, rfl⟩ := map_ok h
    obtain ⟨t', ht', hr⟩ := DateTime.decode_rel hk ht
    dsimp only
    rw [ht']
    exact ⟨_, rfl, .dateTime hr⟩
  | period =>
    obtain ⟨t, ht, rfl⟩ := map_ok h
    obtain ⟨t', ht', hr⟩ := Period.decode_rel hk ht
    dsimp only
    rw [ht']
    exact ⟨_, rfl, hr⟩
  | recur =>
    obtain ⟨t, ht, rfl⟩ := map_ok h
    obtain ⟨t', ht', hr⟩ := Recur.decode_rel hk (hs rfl) ht
    dsimp only
    rw [ht']
    exact ⟨_, rfl, hr⟩
  | tfloat =>
    obtain ⟨t, ht, rfl⟩ := map_ok h
    refine ⟨.tfloat t, ?_, .same nofun nofun nofun⟩
    dsimp only
    rw [show TFloat.decode E' s = TFloat.decode E s by unfold TFloat.decode; rw [hL.float], ht]
    rfl
  | calAddress =>
    obtain ⟨t, ht, rfl⟩ := map_ok h
    refine ⟨.calAddress t, ?_, .same nofun nofun nofun⟩
    dsimp only
    rw [show URI.decode E' s = URI.decode E s by unfold URI.decode; rw [hL.url], ht]
    rfl
  | uri =>
    obtain ⟨t, ht, rfl⟩ := map_ok h
    refine ⟨.uri t, ?_, .same nofun nofun nofun⟩
    dsimp only
    rw [show URI.decode E' s = URI.decode E s by unfold URI.decode; rw [hL.url], ht]
    rfl
  | binary | boolean | date | duration | integer | mtext | text | utcOffset =>
    refine ⟨v, h, ?_⟩
    obtain ⟨t, ht, rfl⟩ := map_ok h
    exact .same nofun nofun nofun

theorem PKind.decode_library (hL : SameLibrary E E') (k : PKind) (vs : List PVal) : k.decode E' vs = k.decode E vs := by
  have e : URI.decode E' = URI.decode E := by funext s; unfold URI.decode; rw [hL.url]
  cases k <;> simp only [PKind.decode, e]

theorem PState.steps_library (hL : SameLibrary E E') (params : List PDef) (vals : List (Str × Kind)) : ∀ (ps : List (Str × List PVal)) (st : PState),
    PState.steps E' params vals st ps = PState.steps E params vals st ps := by
  intro ps
  induction ps with
  | nil => intro st; rfl
  | cons p ps ih =>
    intro st
    unfold PState.steps
    rw [show st.step E' params vals p = st.step E params vals p by unfold PState.step; simp only [PKind.decode_library hL]]
    congr 1
    funext st
    exact ih st

/-- The other parameters come from the line. -/
theorem steps_opFrom {params : List PDef} {vals : List (Str × Kind)} : ∀ (ps : List (Str × List PVal)) {st st' : PState},
    PState.steps E params vals st ps = .ok st' → ∀ x ∈ st'.op, x ∈ st.op ∨ ∃ q ∈ ps, x = (upper q.1, join [','] (q.2.map (·.data))) := by
  intro ps
  induction ps with
  | nil => intro st st' h x hx; cases h; exact .inl hx
  | cons p ps ih =>
    intro st st' h x hx
    unfold PState.steps at h
    obtain ⟨st1, h1, h⟩ := Res.bind_eq_ok.1 h
    rcases ih h x hx with hx | ⟨q, hq, e⟩
    · unfold PState.step at h1
      dsimp only at h1
      split at h1
      · split at h1
        · cases h1
        · obtain ⟨v, _, h1⟩ := Res.bind_eq_ok.1 h1
          cases h1
          exact .inl hx
      · split at h1
        · split at h1
          · split at h1
            · cases h1
            · split at h1
              · cases h1; exact .inl hx
              · cases h1
          · cases h1
        · cases h1
          rcases List.mem_cons.1 hx with rfl | hx
          · exact .inr ⟨p, List.mem_cons_self, rfl⟩
          · exact .inl hx
    · exact .inr ⟨q, List.mem_cons_of_mem _ hq, e⟩

theorem oneOf_rel {v v' : Val} (h : ValRel E E' v v') (k i : Nat) : Pairwise2 (OptRel E E') (oneOf k i v) (oneOf k i v') := by
  unfold oneOf
  induction k generalizing i with
  | zero => exact .nil
  | succ k ih =>
    have hn : ∀ k, Pairwise2 (OptRel E E') (List.replicate k none) (List.replicate k none) := by
      intro k
      induction k with
      | zero => exact .nil
      | succ k ih => exact .cons .none ih
    cases i with
    | zero => exact .cons (.some h) (hn k)
    | succ i => exact .cons .none (ih i)

theorem PSpec.decode_rel (hL : SameLibrary E E') {sp : PSpec} {ps : List (Str × List PVal)} {value : Str}
    (hz : ∀ q ∈ ps, upper q.1 = c!"TZID" → E.loadZone (join [','] (q.2.map (·.data))) ≠ none → E'.loadZone (join [','] (q.2.map (·.data))) ≠ none)
    (hs : (∃ params vals, sp.shape = .fields params vals ∧ ∃ x ∈ vals, x.2 = Kind.recur) → ¬ CountAndUntil value) {x : PropVal} (h : sp.decode E ps value = .ok x) :
    ∃ y, sp.decode E' ps value = .ok y ∧ PropRel E E' x y := by
  unfold PSpec.decode at h ⊢
  split at h
  · split at h
    · cases h; exact ⟨_, rfl, .enum⟩
    · cases h
  · next params vals hsh =>
    obtain ⟨st, hst, h⟩ := Res.bind_eq_ok.1 h
    dsimp only at h
    obtain ⟨v, hv, h⟩ := Res.bind_eq_ok.1 h
    cases h
    have hk : TzKnown E E' (opGet st.op c!"TZID") := by
      intro n hn
      unfold opGet at hn
      obtain ⟨z, hz1, rfl⟩ := Option.map_eq_some_iff.1 hn
      have hm := List.mem_of_find?_eq_some hz1
      have he := List.find?_some hz1
      rcases steps_opFrom ps hst z hm with hx | ⟨q, hq, rfl⟩
      · cases hx
      · exact hz q hq (by simpa using he)
    have hr : (vals.getD (st.vtype.getD 0) ([], Kind.text)).2 = Kind.recur → ¬ CountAndUntil value := by
      intro e
      refine hs ⟨params, vals, hsh, ?_⟩
      rw [List.getD_eq_getElem?_getD] at e
      cases hg : vals[st.vtype.getD 0]? with
      | none => rw [hg] at e; cases e
      | some z => rw [hg] at e; exact ⟨z, List.mem_of_getElem? hg, e⟩
    obtain ⟨v', hv', hr⟩ := Val.decode_rel hL hk hr hv
    rw [PState.steps_library hL, hst]
    simp only [Res.ok_bind]
    rw [hv']
    exact ⟨_, rfl, .fields (oneOf_rel hr _ _)⟩

theorem recur_only_rrule : ∀ f ∈ allFields, (∃ params vals, f.spec.shape = .fields params vals ∧ ∃ x ∈ vals, x.2 = Kind.recur) → f.key = c!"RRULE" := by
  have h : ∀ f ∈ allFields, (match f.spec.shape with | .fields _ vals => vals.any fun x => x.2 == Kind.recur | _ => false) = true → f.key = c!"RRULE" := by decide +kernel
  rintro f hf ⟨params, vals, hs, x, hx, e⟩
  refine h f hf ?_
  rw [hs]
  exact List.any_eq_true.2 ⟨x, hx, by rw [e]; decide⟩

theorem stands_machines (hL : SameLibrary E E') {l : Line} (hp : Portable E E' l) : Stands E E' (PropRel E E') l l := by
  refine ⟨rfl, fun _ => ⟨rfl, rfl⟩, fun f hf hk p h => ?_⟩
  exact PSpec.decode_rel hL hp.zones (fun hr => hp.rule (by rw [← hk]; exact recur_only_rrule f hf hr)) h

theorem decodeStream_machines (hL : SameLibrary E E') {ls : List Line} {t : Term} (hp : ∀ l ∈ ls, Portable E E' l) {c : Cal} (h : decodeStream E ⟨ls, t⟩ = .ok c) :
    ∃ c', decodeStream E' ⟨ls, t⟩ = .ok c' ∧ CalRel (PropRel E E') c c' := by
  refine decodeStream_stands ?_ c h
  clear h
  induction ls with
  | nil => exact .nil
  | cons l ls ih => exact .cons (stands_machines hL (hp l List.mem_cons_self)) (ih fun l hl => hp l (List.mem_cons_of_mem _ hl))

/-! ## UTC -/

theorem Spec.ValRel.utc {v v' : Val} (h : ValRel E E' v v') (hu : Val.inUTC v) : v' = v := by
  cases h with
  | same => rfl
  | dateTime h => rw [h.utc hu]
  | @period p p' h1 h2 h3 =>
    have e1 := h1.utc hu.1
    have e2 := h2.utc hu.2
    cases p; cases p'
    dsimp only at *
    rw [e1, e2, h3]
  | recur h => rw [h.utc hu]

theorem Spec.PropRel.utc {p q : PropVal} (h : PropRel E E' p q) (hu : PropVal.inUTC p) : q = p := by
  cases h with
  | enum => rfl
  | @fields ps vs vs' h =>
    congr 1
    simp only [PropVal.inUTC] at hu
    induction h with
    | nil => rfl
    | @cons a b _ _ h _ ih =>
      rw [ih fun v hv => hu v (List.mem_cons_of_mem _ hv)]
      cases h with
      | none => rfl
      | some h => rw [h.utc (hu _ List.mem_cons_self)]

theorem Spec.Pairwise2.eq_of {α : Type} {R : α → α → Prop} {as bs : List α} (h : Pairwise2 R as bs) (hr : ∀ a ∈ as, ∀ b, R a b → b = a) : bs = as := by
  induction h with
  | nil => rfl
  | cons h _ ih => rw [hr _ List.mem_cons_self _ h, ih fun a ha => hr a (List.mem_cons_of_mem _ ha)]

theorem Spec.SectRel.eq_of {σ : Type} {Q : PropVal → PropVal → Prop} {R : σ → σ → Prop} {s s' : Sect σ} (h : SectRel Q R s s')
    (hq : ∀ p ∈ s.fields.flatten, ∀ q, Q p q → q = p) (hr : ∀ x ∈ s.subs.flatten, ∀ y, R x y → y = x) : s' = s := by
  obtain ⟨f, u⟩ := s
  obtain ⟨f', u'⟩ := s'
  obtain ⟨h1, h2⟩ := h
  dsimp only at *
  rw [Pairwise2.eq_of h1 fun a ha b hab => Pairwise2.eq_of hab fun p hp q => hq p (List.mem_flatten.2 ⟨a, ha, hp⟩) q,
    Pairwise2.eq_of h2 fun a ha b hab => Pairwise2.eq_of hab fun p hp q => hr p (List.mem_flatten.2 ⟨a, ha, hp⟩) q]

theorem Spec.CalRel.eq_of {Q : PropVal → PropVal → Prop} {c c' : Cal} (h : CalRel Q c c') (hq : ∀ p ∈ everyProp c, ∀ q, Q p q → q = p) : c' = c := by
  refine SectRel.eq_of h (fun p hp => hq p (List.mem_append_left _ hp)) fun x hx y hxy => ?_
  have hx' : ∀ p ∈ x.fields.flatten ++ x.subs.flatten.flatMap (fun
    | .leaf s => s.fields.flatten
    | .alarm (some (_, s)) => s.fields.flatten
    | .alarm none => []), p ∈ everyProp c := fun p hp => List.mem_append_right _ (List.mem_flatMap.2 ⟨x, hx, hp⟩)
  refine SectRel.eq_of hxy (fun p hp => hq p (hx' p (List.mem_append_left _ hp))) fun z hz w hzw => ?_
  have hz' := fun p hp => hq p (hx' p (List.mem_append_right _ (List.mem_flatMap.2 ⟨z, hz, hp⟩)))
  unfold SubRel at hzw
  split at hzw
  · rw [SectRel.eq_of hzw (fun p hp => hz' p hp) fun x => nomatch x]
  · obtain ⟨rfl, hzw⟩ := hzw
    rw [SectRel.eq_of hzw (fun p hp => hz' p hp) fun x => nomatch x]
  · rfl
  · exact hzw.elim

end Ics
