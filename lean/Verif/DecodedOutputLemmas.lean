import Verif.OutputLemmas
import Verif.WrittenLemmas
import Verif.RecurRange
import Verif.Props.Scalars
/-!
# Lemmas for the size of what Encode writes of a decoded calendar
-/

namespace Ics
open Spec

/-! ## Times -/

theorem parseDate8_small {s r : Str} {n : Int} (h : parseDate8 s = some (n, r)) : -366 ≤ n ∧ n ≤ 4000000 := by
  obtain ⟨_, y, m, d, _, ⟨a, _, _, _, ha, _, _, hr⟩, rfl⟩ := (parseDate8_iff _ _ _).1 h
  have hy := Four_below ha
  obtain ⟨h1, h2, h3, h4⟩ := (RealDate_iff y m d).2 hr
  have hm := (monthOf_dayOf (isLeap y) m d h1 h2 h3 h4).2
  unfold dayNumber daysBeforeYear
  split at hm <;> omega

theorem locOff_small {E : Env} {U F : Nat} (hE : Moderate E U F) (l : Loc) (t : Int) : (locOff E l t).natAbs ≤ 2 ^ 31 := by
  cases l with
  | utc => simp [locOff]
  | «local» => exact hE.here t
  | zone n p r => exact hE.zone r t

theorem instant_fits {E : Env} {U F : Nat} (hE : Moderate E U F) {l : Loc} {w : Int} (h1 : -400000000000 ≤ w) (h2 : w ≤ 400000000000) (k : Nat) :
    TimeFits E ⟨instant E l w, k, l⟩ := by
  have a := locOff_small hE l w
  have b := locOff_small hE l (w - locOff E l w)
  have c := locOff_small hE l (instant E l w)
  unfold TimeFits GoTime.wall
  dsimp only
  have hi : instant E l w = w ∨ instant E l w = w - locOff E l (w - locOff E l w) := by
    unfold instant
    dsimp only
    split
    · exact .inl rfl
    · exact .inr rfl
  omega

theorem parseDateTime_fits {E : Env} {U F : Nat} (hE : Moderate E U F) {z : Bool} {l : Loc} {s : Str} {t : GoTime} (h : parseDateTime E z l s = some t) :
    TimeFits E t ∧ t.loc = l := by
  unfold parseDateTime at h
  split at h
  · next n s' hd =>
    have hn := parseDate8_small hd
    split at h
    · next c ns r hc =>
      generalize (if z = true then ['Z'] else []) = q at h
      split at h
      · cases h
        obtain ⟨_, hh, mm, ss, _, _, hx, rfl, _⟩ := (parseClock_iff _ _ _ _).1 hc
        obtain ⟨a, b, c, _, _, _, _, h1, h2, h3⟩ := hx
        exact ⟨instant_fits hE (by omega) (by omega) _, rfl⟩
      · cases h
    · cases h
  · cases h

theorem Date.decode_fits {E : Env} {s : Str} {t : GoTime} (h : Date.decode s = .ok t) : TimeFits E t ∧ t.loc = .utc := by
  unfold Date.decode parseDate at h
  cases hd : parseDate8 s with
  | none => rw [hd] at h; cases h
  | some nr =>
    obtain ⟨n, r⟩ := nr
    rw [hd] at h
    cases r with
    | nil =>
      have := parseDate8_small hd
      cases h
      exact ⟨by unfold TimeFits GoTime.wall locOff; dsimp only; omega, rfl⟩
    | cons c r => cases h

/-- The name in the TZID parameter. -/
def tzLen (tz : Option Str) : Nat := (tz.getD []).length

theorem DateTime.decode_fits {E : Env} {U F : Nat} (hE : Moderate E U F) {p : Nat} {tz : Option Str} {s : Str} {t : GoTime} (h : DateTime.decode E p tz s = .ok t) :
    TimeFits E t ∧ (locName t.loc).length ≤ tzLen tz := by
  unfold DateTime.decode at h
  cases tz with
  | none =>
    dsimp only at h
    split at h
    · cases hp : parseDateTime E true .utc s with
      | none => rw [hp] at h; cases h
      | some t' =>
        rw [hp] at h; cases h
        obtain ⟨h1, h2⟩ := parseDateTime_fits hE hp
        exact ⟨h1, by rw [h2]; simp [locName]⟩
    · cases hp : parseDateTime E false .local s with
      | none => rw [hp] at h; cases h
      | some t' =>
        rw [hp] at h; cases h
        obtain ⟨h1, h2⟩ := parseDateTime_fits hE hp
        exact ⟨h1, by rw [h2]; simp [locName]⟩
  | some name =>
    dsimp only at h
    cases hl : loadLocation E p name with
    | none => rw [hl] at h; cases h
    | some l =>
      rw [hl] at h
      change Res.ofOption .ext (parseDateTime E false l s) = _ at h
      cases hp : parseDateTime E false l s with
      | none => rw [hp] at h; cases h
      | some t' =>
        rw [hp] at h; cases h
        obtain ⟨h1, h2⟩ := parseDateTime_fits hE hp
        refine ⟨h1, ?_⟩
        rw [h2]
        unfold loadLocation at hl
        split at hl
        · cases hl; simp [locName]
        · split at hl
          · cases hl; simp [locName]
          · cases hz : E.loadZone name with
            | none => rw [hz] at hl; cases hl
            | some r => rw [hz] at hl; cases hl; simp [locName, tzLen]

theorem zero_fits (E : Env) : TimeFits E {} := by
  unfold TimeFits GoTime.wall locOff; dsimp only; omega

/-! ## Values -/

theorem Recur.loop_until {E : Env} {U F : Nat} (hE : Moderate E U F) {p : Nat} {tz : Option Str} : ∀ (ps : List Str) {st st' : RState},
    Recur.loop E p tz st ps = .ok st' → TimeFits E st.1.until_ ∧ (locName st.1.until_.loc).length ≤ tzLen tz →
    TimeFits E st'.1.until_ ∧ (locName st'.1.until_.loc).length ≤ tzLen tz := by
  intro ps
  induction ps with
  | nil => intro st st' h hs; cases h; exact hs
  | cons q ps ih =>
    intro st st' h hs
    unfold Recur.loop at h
    split at h
    · cases h
    · rename_i name v e
      split at h
      · cases h
      · rename_i k _
        cases hp : Recur.part E p tz st v k with
        | ok st1 =>
          rw [hp] at h
          refine ih h ?_
          cases k <;> simp only [Recur.part] at hp
          case «until» =>
            split at hp
            · cases hp
            · split at hp
              · cases hd : DateTime.decode E p tz v with
                | ok t => rw [hd] at hp; cases hp; exact DateTime.decode_fits hE hd
                | err e => rw [hd] at hp; cases hp
                | panic => rw [hd] at hp; cases hp
              · cases hd : Date.decode v with
                | ok t =>
                  rw [hd] at hp; cases hp
                  obtain ⟨h1, h2⟩ := Date.decode_fits (E := E) hd
                  exact ⟨h1, by rw [h2]; simp [locName]⟩
                | err e => rw [hd] at hp; cases hp
                | panic => rw [hd] at hp; cases hp
          all_goals first
            | (obtain ⟨m, hm, rfl⟩ := once_mapRes hp; exact hs)
            | (repeat' split at hp
               all_goals cases hp
               all_goals exact hs)
        | err e => rw [hp] at h; cases h
        | panic => rw [hp] at h; cases h

theorem Recur.decode_fits {E : Env} {U F : Nat} (hE : Moderate E U F) {p : Nat} {tz : Option Str} {s : Str} {r : Recur} (h : Recur.decode E p tz s = .ok r) :
    (r.WF ∧ TimeFits E r.until_) ∧ (locName r.until_.loc).length ≤ tzLen tz := by
  have hr := Recur.decode_range h
  have hw : r.WF := by
    refine ⟨by have := hr.freq; omega, by have := hr.weekStart; omega, hr.count, hr.interval, ?_, ?_, ?_, ?_, ?_, ?_, ?_, ?_, ?_⟩
    · intro x hx; have := hr.bySecond x hx; omega
    · intro x hx; have := hr.byMinute x hx; omega
    · intro x hx; have := hr.byHour x hx; omega
    · intro x hx
      obtain ⟨⟨h1, h2⟩, h3⟩ := hr.byDay x hx
      unfold Ordinal at h3
      omega
    · intro x hx; have := hr.byMonthDay x hx; unfold Ordinal at this; omega
    · intro x hx; have := hr.byYearDay x hx; unfold Ordinal at this; omega
    · intro x hx; have := hr.byWeekNum x hx; unfold Ordinal at this; omega
    · intro x hx; have := hr.byMonth x hx; omega
    · intro x hx; have := hr.bySetPos x hx; unfold Ordinal at this; omega
  unfold Recur.decode at h
  cases hl : Recur.loop E p tz ({}, false) (splitOn ';' s) with
  | ok x =>
    rw [hl] at h
    have h1 := Recur.loop_until hE _ hl ⟨zero_fits E, by simp [locName]⟩
    obtain ⟨r', b⟩ := x
    change (if b then Res.ok r' else .err .invalidRecur) = .ok r at h
    split at h
    · cases h; exact ⟨⟨hw, h1.1⟩, h1.2⟩
    · cases h
  | err e => rw [hl] at h; cases h
  | panic => rw [hl] at h; cases h

theorem Period.decode_fits {E : Env} {U F : Nat} (hE : Moderate E U F) {p : Nat} {tz : Option Str} {s : Str} {x : Period} (h : Period.decode E p tz s = .ok x) :
    (TimeFits E x.start ∧ TimeFits E x.stop ∧ x.dur.WF) ∧ (locName x.start.loc).length ≤ tzLen tz := by
  have hz : ({} : Duration).WF := ⟨by decide, by decide, by decide, by decide, by decide⟩
  unfold Period.decode at h
  split at h
  · cases h
  · cases h
  · rename_i a c b _
    cases hd : DateTime.decode E p tz a with
    | err e => rw [hd] at h; cases h
    | panic => rw [hd] at h; cases h
    | ok t =>
      rw [hd] at h
      have ht := DateTime.decode_fits hE hd
      change (if c = 'P' ∨ c = '+' then _ else _) = _ at h
      split at h
      · cases hu : Duration.decode (c :: b) with
        | err e => rw [hu] at h; cases h
        | panic => rw [hu] at h; cases h
        | ok d =>
          rw [hu] at h; cases h
          exact ⟨⟨ht.1, zero_fits E, Props.C19_decoded_in_range hu⟩, ht.2⟩
      · cases hu : DateTime.decode E (p + 1) tz (c :: b) with
        | err e => rw [hu] at h; cases h
        | panic => rw [hu] at h; cases h
        | ok d =>
          rw [hu] at h; cases h
          exact ⟨⟨ht.1, (DateTime.decode_fits hE hu).1, hz⟩, ht.2⟩

theorem Val.decode_fits {E : Env} {U F : Nat} (hE : Moderate E U F) {op : Str → Option Str} {k : Kind} {s : Str} {v : Val} (h : Val.decode E op k s = .ok v) :
    ValFits E v ∧ valOutside E v ≤ U * (s.length + 1) + 2 * F + tzLen (op c!"TZID") := by
  have hurl : ∀ u, URI.decode E s = .ok u → (E.urlString u).length ≤ U * (s.length + 1) := by
    intro u hu
    unfold URI.decode at hu
    cases hp : E.urlParse s with
    | none => rw [hp] at hu; cases hu
    | some w => rw [hp] at hu; cases hu; exact hE.url _ _ hp
  cases k <;> obtain ⟨a, ha, rfl⟩ := Res.of_map h <;> simp only [ValFits, valOutside]
  case calAddress => exact ⟨trivial, by have := hurl _ ha; omega⟩
  case uri => exact ⟨trivial, by have := hurl _ ha; omega⟩
  case date => exact ⟨(Date.decode_fits ha).1, by omega⟩
  case dateTime => have := DateTime.decode_fits hE ha; exact ⟨this.1, by omega⟩
  case duration => exact ⟨Props.C19_decoded_in_range ha, by omega⟩
  case integer =>
    refine ⟨?_, by omega⟩
    unfold Integer.decode at ha
    cases hp : parseInt 32 s with
    | none => rw [hp] at ha; cases ha
    | some i =>
      rw [hp] at ha; cases ha
      unfold parseInt at hp
      dsimp only at hp
      repeat' split at hp
      all_goals cases hp
      all_goals simp at *
      all_goals omega
  case period => have := Period.decode_fits hE ha; exact ⟨this.1, by omega⟩
  case recur => have := Recur.decode_fits hE ha; exact ⟨this.1, by omega⟩
  case tfloat => exact ⟨trivial, by have := hE.float a.1; have := hE.float a.2; omega⟩
  all_goals exact ⟨trivial, by omega⟩

/-! ## Parameters -/

theorem printVals_data : ∀ vs : List PVal, (join [','] (vs.map (·.data))).length ≤ (printVals vs).length
  | [] => by simp [join, printVals]
  | [v] => by simp only [List.map_cons, List.map_nil, join, printVals, printVal]; split <;> simp; omega
  | v :: w :: vs => by
    have h1 := printVals_data (w :: vs)
    have h2 : v.data.length ≤ (printVal v).length := by unfold printVal; split <;> simp; omega
    simp only [List.map_cons, join, printVals, List.length_append, List.length_cons, List.length_nil] at *
    omega

theorem quoted_length {v : PVal} (h : v.quoted = true) : (printVal v).length = v.data.length + 2 := by
  unfold printVal; rw [if_pos h]; simp

theorem URI.decode_length {E : Env} {U F : Nat} (hE : Moderate E U F) {v : PVal} {u : Url} (h : (do wantQuoted v; URI.decode E v.data) = .ok u) :
    (E.urlString u).length ≤ U * (printVal v).length := by
  cases hq : v.quoted <;> simp only [wantQuoted, Res.guard, hq] at h
  · cases h
  · change URI.decode E v.data = .ok u at h
    unfold URI.decode at h
    cases hp : E.urlParse v.data with
    | none => rw [hp] at h; cases h
    | some w =>
      rw [hp] at h; cases h
      have := hE.url _ _ hp
      rw [quoted_length hq]
      refine Nat.le_trans this (Nat.mul_le_mul_left _ (by omega))

theorem PKind.decode_outside {E : Env} {U F : Nat} (hE : Moderate E U F) {k : PKind} {vs : List PVal} {p : ParamVal} (h : k.decode E vs = .ok p) :
    paramOutside E p ≤ U * (printVals vs).length := by
  cases k <;> simp only [PKind.decode] at h
  case url =>
    obtain ⟨v, rfl, h, _⟩ := twice.dec1 h
    cases hu : (do wantQuoted v; URI.decode E v.data : Res Url) with
    | ok u =>
      have := URI.decode_length hE hu
      cases hq : v.quoted <;> simp only [wantQuoted, Res.guard, hq] at h hu
      · cases h
      · change (URI.decode E v.data >>= _) = _ at h
        change URI.decode E v.data = _ at hu
        rw [hu] at h; cases h
        simpa [paramOutside, printVals] using this
    | err e =>
      cases hq : v.quoted <;> simp only [wantQuoted, Res.guard, hq] at h hu
      · cases h
      · change (URI.decode E v.data >>= _) = _ at h
        change URI.decode E v.data = _ at hu
        rw [hu] at h; cases h
    | panic =>
      cases hq : v.quoted <;> simp only [wantQuoted, Res.guard, hq] at h hu
      · cases h
      · change (URI.decode E v.data >>= _) = _ at h
        change URI.decode E v.data = _ at hu
        rw [hu] at h; cases h
  case urls =>
    have key : ∀ (g : PVal → Res Url), (∀ v u, g v = .ok u → (E.urlString u).length ≤ U * (printVal v).length) → ∀ {vs : List PVal} {us : List Url}, mapRes g vs = .ok us →
        (us.map fun u => (E.urlString u).length).sum ≤ U * (printVals vs).length := by
      intro g hg vs
      induction vs with
      | nil => intro us h; cases h; simp
      | cons v vs ih =>
        intro us h
        unfold mapRes at h
        cases hv : g v with
        | ok u =>
          cases hr : mapRes g vs with
          | ok ws =>
            rw [hv, hr] at h; cases h
            have h1 := hg _ _ hv
            have h2 := ih hr
            have h3 : (printVal v).length + (printVals vs).length ≤ (printVals (v :: vs)).length := by
              cases vs <;> simp [printVals]
            have h4 := Nat.mul_le_mul_left U h3
            rw [Nat.mul_add] at h4
            simp only [List.map_cons, List.sum_cons]; omega
          | err e => rw [hv, hr] at h; cases h
          | panic => rw [hv, hr] at h; cases h
        | err e => rw [hv] at h; cases h
        | panic => rw [hv] at h; cases h
    generalize hg : (fun v : PVal => (do wantQuoted v; URI.decode E v.data : Res Url)) = g at h
    cases hm : mapRes g vs with
    | ok us =>
      rw [hm] at h; cases h
      exact key g (fun v u hu => URI.decode_length hE (by rw [← hg] at hu; exact hu)) hm
    | err e => rw [hm] at h; cases h
    | panic => rw [hm] at h; cases h
  case strs =>
    generalize hg : (fun v : PVal => (do wantQuoted v; return decode6868 v.data : Res Str)) = g at h
    cases hm : mapRes g vs with
    | ok ss => rw [hm] at h; cases h; simp [paramOutside]
    | err e => rw [hm] at h; cases h
    | panic => rw [hm] at h; cases h
  case str q =>
    obtain ⟨v, rfl, h, _⟩ := twice.dec1 h
    cases q <;> cases hq : v.quoted <;> simp only [wantQuoted, Res.guard, hq] at h <;> cases h <;> simp [paramOutside]
  all_goals
    obtain ⟨v, rfl, h, hm⟩ := twice.dec1 h
    clear hm
  case fmt => cases hq : fmtMatch v.data <;> simp only [Res.guard, hq] at h <;> cases h; simp [paramOutside]
  case enum names => split at h <;> cases h <;> simp [paramOutside]
  case range => by_cases hq : upper v.data = c!"THISANDFUTURE" <;> simp only [Res.guard, hq] at h <;> cases h; simp [paramOutside]
  case bool =>
    cases hu : Boolean.decode v.data with
    | ok u => rw [hu] at h; cases h; simp [paramOutside]
    | err e => rw [hu] at h; cases h
    | panic => rw [hu] at h; cases h

theorem setOutside_set {α : Type} (f : α → Nat) (v : α) : ∀ (ps : List (Option α)) (i : Nat), setOutside f (ps.set i (some v)) ≤ setOutside f ps + f v
  | [], _ => by simp [setOutside]
  | p :: ps, 0 => by cases p <;> simp [setOutside] <;> omega
  | p :: ps, i + 1 => by
    have := setOutside_set f v ps i
    simp only [setOutside, List.set_cons_succ, List.map_cons, List.sum_cons] at *; omega

theorem setOutside_none {α : Type} (f : α → Nat) : ∀ n, setOutside f (List.replicate n none) = 0
  | 0 => rfl
  | n + 1 => by simp [setOutside, List.replicate_succ]

/-- The parameters that the property does not know. -/
def opLen (op : List (Str × Str)) : Nat := (op.map fun x => x.2.length).sum

theorem opGet_length (op : List (Str × Str)) (n : Str) : tzLen (opGet op n) ≤ opLen op := by
  unfold opGet
  induction op with
  | nil => simp [tzLen]
  | cons x op ih =>
    simp only [List.find?_cons, opLen, List.map_cons, List.sum_cons] at *
    split
    · simp [tzLen]
    · omega

theorem PState.step_outside {E : Env} {U F : Nat} (hE : Moderate E U F) {ds : List PDef} {vals : List (Str × Kind)} {st st' : PState} {p : Str × List PVal}
    (h : st.step E ds vals p = .ok st') :
    setOutside (paramOutside E) st'.ps + opLen st'.op ≤ setOutside (paramOutside E) st.ps + opLen st.op + (U + 1) * (printVals p.2).length := by
  unfold PState.step at h
  dsimp only at h
  rw [Nat.add_mul, Nat.one_mul]
  split at h
  · split at h
    · cases h
    · rename_i i _ _
      cases hd : (ds.getD i ⟨[], .range⟩).kind.decode E p.2 with
      | ok v =>
        rw [hd] at h; cases h
        have h1 := PKind.decode_outside hE hd
        have h2 := setOutside_set (paramOutside E) v st.ps i
        dsimp only; omega
      | err e => rw [hd] at h; cases h
      | panic => rw [hd] at h; cases h
  · have hj := printVals_data p.2
    repeat' split at h
    all_goals cases h
    all_goals dsimp only [opLen]
    all_goals simp
    all_goals omega

theorem PState.steps_outside {E : Env} {U F : Nat} (hE : Moderate E U F) {ds : List PDef} {vals : List (Str × Kind)} : ∀ (ps : List (Str × List PVal)) {st st' : PState},
    PState.steps E ds vals st ps = .ok st' →
    setOutside (paramOutside E) st'.ps + opLen st'.op ≤ setOutside (paramOutside E) st.ps + opLen st.op + (U + 1) * (printParams ps).length := by
  intro ps
  induction ps with
  | nil => intro st st' h; cases h; omega
  | cons p ps ih =>
    intro st st' h
    unfold PState.steps at h
    cases hs : st.step E ds vals p with
    | ok st1 =>
      rw [hs] at h
      have h1 := PState.step_outside hE hs
      have h2 := ih h
      obtain ⟨n, vs⟩ := p
      have h3 : (printVals vs).length + (printParams ps).length ≤ (printParams ((n, vs) :: ps)).length := by simp [printParams]; omega
      have h4 := Nat.mul_le_mul_left (U + 1) h3
      rw [Nat.mul_add] at h4
      dsimp only at h1
      omega
    | err e => rw [hs] at h; cases h
    | panic => rw [hs] at h; cases h

/-! ## Properties -/

theorem PSpec.decode_fits {E : Env} {U F : Nat} (hE : Moderate E U F) {sp : PSpec} {l : Line} {v : PropVal} (h : sp.decode E l.params l.value = .ok v) :
    PropFits E v ∧ propOutside E v ≤ (U + 2 * F + 1) * (printLine l).length := by
  have hl : (printLine l).length = l.name.length + (printParams l.params).length + l.value.length + 3 := by
    simp [printLine, printBare]; omega
  unfold PSpec.decode at h
  split at h
  · split at h <;> cases h
    exact ⟨trivial, by simp [propOutside]⟩
  · rename_i ds vals _
    cases hs : PState.steps E ds vals { ps := ds.map fun _ => none } l.params with
    | ok st =>
      rw [hs] at h
      change (Val.decode E (opGet st.op) (vals.getD (st.vtype.getD 0) ([], .text)).2 l.value >>= fun v =>
        Res.ok (.fields st.ps (oneOf vals.length (st.vtype.getD 0) v))) = .ok v at h
      cases hv : Val.decode E (opGet st.op) (vals.getD (st.vtype.getD 0) ([], .text)).2 l.value with
      | ok x =>
        rw [hv] at h; cases h
        have h1 := PState.steps_outside hE _ hs
        have h2 := Val.decode_fits hE hv
        have h3 := setOutside_set (valOutside E) x (List.replicate vals.length none) (st.vtype.getD 0)
        rw [setOutside_none] at h3
        have h4 : setOutside (paramOutside E) (ds.map fun _ => none) = 0 := by
          have : ds.map (fun _ => (none : Option ParamVal)) = List.replicate ds.length none := List.map_const' ..
          rw [this]; exact setOutside_none _ _
        have h5 := opGet_length st.op c!"TZID"
        refine ⟨?_, ?_⟩
        · intro w hw
          have : some w = some x := by
            unfold oneOf at hw
            rcases List.mem_or_eq_of_mem_set hw with hw | hw
            · simp at hw
            · exact hw
          cases this
          exact h2.1
        · simp only [propOutside, oneOf]
          have h6 : opLen ([] : List (Str × Str)) = 0 := rfl
          rw [h4, h6] at h1
          rw [hl]
          simp only [Nat.add_mul, Nat.mul_add, Nat.one_mul, Nat.mul_one] at *
          have := h2.2
          have k1 : 2 * F ≤ 2 * F * 3 := by omega
          omega
      | err e => rw [hv] at h; cases h
      | panic => rw [hv] at h; cases h
    | err e => rw [hs] at h; cases h
    | panic => rw [hs] at h; cases h

end Ics
