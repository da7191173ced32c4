import Verif.Spec.Wording
import Verif.WrongLemmas
import Verif.RefusedLemmas
import Verif.TimeMeaningLemmas
/-!
# Lemmas: what the error of a value, parameter or property says
-/

namespace Ics

open Spec

variable {α β : Type}

/-! ## The cause is at the end -/

/-- There is a text exactly if there is an error, and it ends with the error of the package, or with that of a call of the standard library. -/
def Utters (X : Call → Str) (o : Option Str) (r : Res α) : Prop :=
  match r with
  | .err e => ∃ m c, o = some m ∧ e.wording (X c) <:+ m
  | _ => o = none

theorem wording_iff {lib m : Str} {r : Res α} : r.wording lib = some m ↔ ∃ e, r = .err e ∧ m = e.wording lib := by
  cases r with
  | err e =>
    constructor
    · intro h; cases h; exact ⟨e, rfl, rfl⟩
    · rintro ⟨e', h, rfl⟩; cases h; rfl
  | ok a => exact ⟨fun h => (nomatch h), fun ⟨_, h, _⟩ => (nomatch h)⟩
  | panic => exact ⟨fun h => (nomatch h), fun ⟨_, h, _⟩ => (nomatch h)⟩

theorem wording_none {lib : Str} {r : Res α} : r.wording lib = none ↔ ∀ e, r ≠ .err e := by
  cases r with
  | err e => exact ⟨fun h => (nomatch h), fun h => absurd rfl (h e)⟩
  | ok a => exact ⟨fun _ e h => (nomatch h), fun _ => rfl⟩
  | panic => exact ⟨fun _ e h => (nomatch h), fun _ => rfl⟩

theorem suffix_pre (a b : Str) : b <:+ a ++ b := ⟨a, rfl⟩

theorem Err.wording_suffix {e : Err} {lib x : Str} (h : x <:+ lib) : e.wording x <:+ e.wording lib := by
  cases e
  case ext => exact h
  all_goals exact List.suffix_refl _

theorem tells_wording {X : Call → Str} (c : Call) {lib : Str} (h : X c <:+ lib) (r : Res α) : Utters X (r.wording lib) r := by
  cases r with
  | err e => exact ⟨_, c, rfl, Err.wording_suffix h⟩
  | ok a => rfl
  | panic => rfl

/-- For methods without calls of the standard library. -/
theorem tells_plain {X : Call → Str} {r : Res α} (h : r ≠ .err .ext) : Utters X (r.wording []) r := by
  cases r with
  | err e =>
    refine ⟨_, .int [], rfl, ?_⟩
    cases e
    case ext => exact absurd rfl h
    all_goals exact List.suffix_refl _
  | ok a => rfl
  | panic => rfl

theorem Utters.map {X : Call → Str} {o : Option Str} {r : Res α} (h : Utters X o r) (f : α → β) : Utters X o (f <$> r) := by
  cases r with
  | err e => exact h
  | ok a => exact h
  | panic => exact h

theorem Utters.under {X : Call → Str} {o : Option Str} {r : Res α} (h : Utters X o r) {g : Str → Str} (hg : ∀ m, m <:+ g m) : Utters X (o.map g) r := by
  cases r with
  | err e =>
    obtain ⟨m, c, rfl, hs⟩ := h
    exact ⟨_, c, rfl, hs.trans (hg m)⟩
  | ok a => rw [show o = none from h]; rfl
  | panic => rw [show o = none from h]; rfl

theorem tells_err {X : Call → Str} {m : Str} {e : Err} (c : Call) (h : e.wording (X c) <:+ m) : Utters X (some m) (.err e : Res α) := ⟨m, c, rfl, h⟩

theorem dateTime_tells (X : Call → Str) (E : Env) (p : Nat) (tz : Option Str) (s : Str) : Utters X (dateTimeSays X E p tz s) (DateTime.decode E p tz s) := by
  unfold dateTimeSays DateTime.decode
  cases tz with
  | some n =>
    dsimp only
    cases loadLocation E p n with
    | none => exact tells_err (.zone n) (suffix_pre _ _)
    | some l => exact tells_wording (.time _ s) (suffix_pre _ _) _
  | none =>
    dsimp only
    split
    · exact tells_wording (.time _ s) (suffix_pre _ _) _
    · exact tells_wording (.time _ s) (suffix_pre _ _) _

theorem durationLoop_tells (X : Call → Str) : ∀ (f l : Nat) (d : Duration) (s : Str), Utters X (durationLoopSays X f l s) (Duration.loop f l d s) := by
  intro f
  have inv : ∀ {γ : Type}, Utters X (some Err.invalidDuration.sentinel) (.err .invalidDuration : Res γ) := tells_err (.int []) (List.suffix_refl _)
  induction f with
  | zero => intro l d s; exact inv
  | succ f ih =>
    intro l d s
    rw [durationLoopSays, Duration.loop]
    dsimp only
    split
    · split
      · exact inv
      · rfl
    · cases hn : parseUint 64 ((if s.head? = some 'T' then s.tail else s).takeWhile isDigit) with
      | none => exact tells_err (.uint _) (suffix_pre _ _)
      | some n =>
        dsimp only
        generalize (if s.head? = some 'T' then 1 else l) = l'
        generalize (if s.head? = some 'T' then s.tail else s).dropWhile isDigit = r
        split
        · next r =>
          show Utters X (if l' > 0 then _ else if r ≠ [] then _ else _) (if l' > 0 then _ else if r ≠ [] then _ else _)
          split
          · exact inv
          · split
            · exact inv
            · rfl
        · next r =>
          show Utters X (if l' > 0 then _ else _) (if l' > 0 then _ else _)
          split
          · exact inv
          · exact ih _ _ _
        · next r =>
          show Utters X (if l' > 1 then _ else _) (if l' > 1 then _ else _)
          split
          · exact inv
          · exact ih _ _ _
        · next r =>
          show Utters X (if l' > 2 then _ else _) (if l' > 2 then _ else _)
          split
          · exact inv
          · exact ih _ _ _
        · next r =>
          show Utters X (if l' > 3 then _ else if r ≠ [] then _ else _) (if l' > 3 then _ else if r ≠ [] then _ else _)
          split
          · exact inv
          · split
            · exact inv
            · exact ih _ _ _
        · next h1 h2 h3 h4 h5 =>
          split
          · exact absurd rfl (h1 _)
          · exact absurd rfl (h2 _)
          · exact absurd rfl (h3 _)
          · exact absurd rfl (h4 _)
          · exact absurd rfl (h5 _)
          · exact inv

theorem duration_tells (X : Call → Str) (s : Str) : Utters X (durationSays X s) (Duration.decode s) := by
  unfold durationSays Duration.decode
  dsimp only
  generalize (if s.head? = some '-' ∨ s.head? = some '+' then s.tail else s) = x
  split
  · exact durationLoop_tells X _ _ _ _
  · next h =>
    split
    · exact absurd rfl (h _)
    · exact tells_err (.int []) (List.suffix_refl _)

theorem period_tells (X : Call → Str) (E : Env) (p : Nat) (tz : Option Str) (s : Str) : Utters X (periodSays X E p tz s) (Period.decode E p tz s) := by
  unfold periodSays Period.decode
  rcases split2 '/' s with ⟨a, _ | _ | ⟨c, b⟩⟩
  · exact tells_err (.int []) (List.suffix_refl _)
  · exact tells_err (.int []) (List.suffix_refl _)
  · have h1 := dateTime_tells X E p tz a
    dsimp only
    cases hd : DateTime.decode E p tz a with
    | ok t =>
      rw [hd] at h1
      rw [show dateTimeSays X E p tz a = none from h1]
      dsimp only [Res.ok_bind]
      split
      · exact ((duration_tells X (c :: b)).under (suffix_pre _)).map _
      · exact ((dateTime_tells X E (p + 1) tz (c :: b)).under (suffix_pre _)).map _
    | err e =>
      rw [hd] at h1
      obtain ⟨m, x, h2, h3⟩ := h1
      rw [h2]
      exact ⟨_, x, rfl, h3.trans (suffix_pre _ _)⟩
    | panic => exact absurd hd (DateTime.decode_ne_panic E p tz a)

theorem tfloat_tells (X : Call → Str) (E : Env) (s : Str) : Utters X (tfloatSays X E s) (TFloat.decode E s) := by
  unfold tfloatSays TFloat.decode
  rcases split2 ';' s with ⟨a, _ | b⟩
  · exact tells_err (.int []) (List.suffix_refl _)
  · dsimp only
    cases E.floatParse a with
    | none => exact tells_err (.float a) (suffix_pre _ _)
    | some x =>
      cases E.floatParse b with
      | none => exact tells_err (.float b) (suffix_pre _ _)
      | some y => rfl

theorem val_tells (X : Call → Str) (E : Env) (op : Str → Option Str) (k : Kind) (s : Str) : Utters X (valSays X E op k s) (Val.decode E op k s) := by
  have plain : ∀ k, .ext ∉ Kind.errors k → Val.decode E op k s ≠ .err .ext := fun k h hd => h (Val.decode_errs E op k s _ hd)
  cases k with
  | binary => exact tells_wording (.base64 s) (suffix_pre _ _) _
  | calAddress => exact tells_wording (.url s) (suffix_pre _ _) _
  | date => exact tells_wording (.time _ s) (suffix_pre _ _) _
  | dateTime => exact (dateTime_tells ..).map _
  | duration => exact (duration_tells ..).map _
  | integer => exact tells_wording (.int s) (List.suffix_refl _) _
  | period => exact (period_tells ..).map _
  | tfloat => exact (tfloat_tells ..).map _
  | uri => exact tells_wording (.url s) (suffix_pre _ _) _
  | boolean | mtext | recur | text | utcOffset => exact tells_plain (plain _ (by decide))

theorem urls_tells (X : Call → Str) (E : Env) (vs : List PVal) : Utters X (paramCause X E .urls vs) (PKind.decode E .urls vs) := by
  have hdec : ∀ ws : List PVal, PKind.decode E .urls ws = ParamVal.urls <$> mapRes (fun v => do wantQuoted v; URI.decode E v.data) ws := fun _ => rfl
  have one : ∀ v : PVal, mapRes (fun v => do wantQuoted v; URI.decode E v.data) [v] = (fun u => [u]) <$> (do wantQuoted v; URI.decode E v.data) := by
    intro v
    rw [mapRes]
    cases (do wantQuoted v; URI.decode E v.data) <;> rfl
  rw [hdec]
  refine Utters.map ?_ _
  unfold paramCause
  dsimp only
  induction vs with
  | nil => rfl
  | cons v vs ih =>
    rw [List.findSome?_cons, mapRes, hdec, one]
    cases hx : (do wantQuoted v; URI.decode E v.data : Res Url) with
    | err e => exact ⟨_, .url v.data, rfl, Err.wording_suffix (suffix_pre _ _)⟩
    | panic =>
      exfalso
      rcases Res.bind_eq_panic.1 hx with h | ⟨_, _, h⟩
      · exact Res.guard_ne_panic h
      · exact Res.ofOption_ne_panic h
    | ok u =>
      show Utters X (vs.findSome? _) _
      cases hy : mapRes (fun v => do wantQuoted v; URI.decode E v.data) vs with
      | ok us => rw [hy] at ih; exact ih
      | err e => rw [hy] at ih; exact ih
      | panic => rw [hy] at ih; exact ih

theorem param_tells (X : Call → Str) (E : Env) (k : PKind) (vs : List PVal) : Utters X (paramCause X E k vs) (k.decode E vs) := by
  have plain : k ≠ .url → k ≠ .urls → k.decode E vs ≠ .err .ext := by
    intro h1 h2 h
    rw [PKind.decode_err] at h
    cases k <;> simp_all [ParamWrong]
  cases k with
  | url =>
    unfold paramCause
    dsimp only
    split
    · next v => exact tells_wording (.url v.data) (suffix_pre _ _) _
    · next h =>
      have : PKind.decode E .url vs = .err .invalidParam := (PKind.decode_err ..).2 (.inl ⟨rfl, fun s hs => h _ hs⟩)
      rw [this]
      exact tells_err (.int []) (List.suffix_refl _)
  | urls => exact urls_tells X E vs
  | str q => exact tells_plain (plain (by simp) (by simp))
  | fmt => exact tells_plain (plain (by simp) (by simp))
  | enum ns => exact tells_plain (plain (by simp) (by simp))
  | strs => exact tells_plain (plain (by simp) (by simp))
  | range => exact tells_plain (plain (by simp) (by simp))
  | bool => exact tells_plain (plain (by simp) (by simp))

theorem saysType_suffix (a m : Str) : m <:+ saysType a m := suffix_pre _ _
theorem saysProp_suffix (a b m : Str) : m <:+ saysProp a b m := suffix_pre _ _

theorem step_tells (X : Call → Str) (E : Env) (me : Str) (params : List PDef) (vals : List (Str × Kind)) (st : PState) (p : Str × List PVal) :
    Utters X (stepSays X E me params vals st p) (st.step E params vals p) := by
  unfold stepSays PState.step
  dsimp only
  cases paramIdx (upper p.1) params with
  | some i =>
    dsimp only
    split
    · exact tells_err (.int []) (saysProp_suffix _ _ _)
    · exact (((param_tells X E _ p.2).under (saysType_suffix _)).under (saysProp_suffix _ _)).map _
  | none =>
    dsimp only
    split
    · rcases p.2 with _ | ⟨v, _ | ⟨w, ws⟩⟩
      · exact tells_err (.int []) (saysProp_suffix _ _ _)
      · dsimp only
        split
        · exact tells_err (.int []) (saysProp_suffix _ _ _)
        · cases indexOf (upper v.data) (vals.map (·.1)) with
          | some i => rfl
          | none => exact tells_err (.int []) (saysType_suffix _ _)
      · exact tells_err (.int []) (saysProp_suffix _ _ _)
    · rfl

theorem steps_tells (X : Call → Str) (E : Env) (me : Str) (params : List PDef) (vals : List (Str × Kind)) : ∀ (ps : List (Str × List PVal)) (st : PState),
    Utters X (stepsSay X E me params vals st ps) (PState.steps E params vals st ps) := by
  intro ps
  induction ps with
  | nil => intro st; rfl
  | cons p ps ih =>
    intro st
    have h := step_tells X E me params vals st p
    rw [stepsSay, PState.steps]
    cases hs : st.step E params vals p with
    | ok st' => exact ih st'
    | err e => rw [hs] at h; exact h
    | panic => rw [hs] at h; exact h

/-- A text exactly if there is an error, with the cause at the end. -/
theorem prop_tells (X : Call → Str) (E : Env) (me : Str) (sp : PSpec) (ps : List (Str × List PVal)) (value : Str) :
    Utters X (propSays X E me sp ps value) (sp.decode E ps value) := by
  unfold propSays PSpec.decode
  cases sp.shape with
  | enum names =>
    dsimp only
    cases indexOf (upper value) names with
    | some i => rfl
    | none => exact tells_err (.int []) (saysType_suffix _ _)
  | fields params vals =>
    dsimp only
    have h := steps_tells X E me params vals ps { ps := params.map fun _ => none }
    cases hs : PState.steps E params vals { ps := params.map fun _ => none } ps with
    | ok st =>
      refine ((val_tells X E (opGet st.op) _ value).under (g := fun m => if params = [] ∧ vals.length = 1 then _ else _) fun m => ?_).map _
      split
      · exact saysType_suffix _ _
      · exact saysProp_suffix _ _ _
    | err e => rw [hs] at h; exact h
    | panic => rw [hs] at h; exact h

/-! ## Exactly which text -/

theorem dateTimeSays_iff {X : Call → Str} {E : Env} {p : Nat} {tz : Option Str} {s m : Str} : dateTimeSays X E p tz s = some m ↔ DateTimeSays X E p tz s m := by
  have hw : (∀ t, ¬ DateTimeMeans E p tz s t) ↔ DateTime.decode E p tz s = .err .ext := by rw [DateTime.decode_err]; simp
  unfold DateTimeSays
  rw [hw]
  unfold dateTimeSays DateTime.decode
  cases tz with
  | some n =>
    dsimp only
    cases hl : loadLocation E p n with
    | none =>
      have hz : ∀ l, ¬ ZoneNamed E p n l := fun l h => by rw [← loadLocation_iff, hl] at h; cases h
      constructor
      · intro h; cases h; exact ⟨rfl, .inl ⟨hz, rfl⟩⟩
      · rintro ⟨_, ⟨_, rfl⟩ | ⟨⟨l, h⟩, _⟩⟩
        · rfl
        · exact absurd h (hz l)
    | some l =>
      have hz : ZoneNamed E p n l := (loadLocation_iff ..).1 hl
      show (Res.ofOption Err.ext (parseDateTime E false l s)).wording _ = some m ↔ Res.ofOption Err.ext (parseDateTime E false l s) = .err .ext ∧ _
      cases parseDateTime E false l s with
      | none =>
        constructor
        · intro h; cases h; exact ⟨rfl, .inr ⟨⟨l, hz⟩, rfl⟩⟩
        · rintro ⟨_, ⟨h, _⟩ | ⟨_, rfl⟩⟩
          · exact absurd hz (h l)
          · rfl
      | some t => exact ⟨fun h => (nomatch h), fun h => (nomatch h.1)⟩
  | none =>
    have hz : s.getLast? = some 'Z' ↔ ∃ a, s = a ++ ['Z'] := List.getLast?_eq_some_iff
    dsimp only
    by_cases h : s.getLast? = some 'Z'
    · rw [if_pos h, if_pos h]
      cases parseDateTime E true .utc s with
      | none =>
        constructor
        · intro h1; cases h1; exact ⟨rfl, .inl ⟨hz.1 h, rfl⟩⟩
        · rintro ⟨_, ⟨_, rfl⟩ | ⟨h1, _⟩⟩
          · rfl
          · obtain ⟨a, ha⟩ := hz.1 h
            exact absurd ha (h1 a)
      | some t => exact ⟨fun h => (nomatch h), fun h => (nomatch h.1)⟩
    · rw [if_neg h, if_neg h]
      cases parseDateTime E false .local s with
      | none =>
        constructor
        · intro h1; cases h1; exact ⟨rfl, .inr ⟨fun a ha => h (hz.2 ⟨a, ha⟩), rfl⟩⟩
        · rintro ⟨_, ⟨h1, _⟩ | ⟨_, rfl⟩⟩
          · exact absurd (hz.2 h1) h
          · rfl
      | some t => exact ⟨fun h => (nomatch h), fun h => (nomatch h.1)⟩

theorem digitsOf_iff {s ds : Str} : DigitsOf s ds ↔ ds = (if s.head? = some 'T' then s.tail else s).takeWhile isDigit := by
  constructor
  · rintro ⟨r, h, h1, h2⟩
    have t := (takeWhile_stop isDigit ds r (fun c hc => (isDigit_iff c).2 (h1 c hc)) (fun c hc => by
      cases hx : isDigit c with
      | false => rfl
      | true => exact absurd ((isDigit_iff c).1 hx) (h2 c hc))).1
    rcases h with rfl | ⟨rfl, h⟩
    · exact t.symm
    · rw [if_neg (fun hh => h _ (head_tail hh)), t]
  · rintro rfl
    refine ⟨(if s.head? = some 'T' then s.tail else s).dropWhile isDigit, ?_, ?_, ?_⟩
    · rw [← takeWhile_dropWhile]
      by_cases h : s.head? = some 'T'
      · rw [if_pos h]
        exact .inl (head_tail h)
      · rw [if_neg h]
        exact .inr ⟨rfl, fun s' hs => h (by rw [hs]; rfl)⟩
    · intro c hc
      have := List.all_takeWhile (p := isDigit) (l := if s.head? = some 'T' then s.tail else s)
      exact (isDigit_iff c).1 (List.all_eq_true.1 this c hc)
    · intro c hc hd
      have h3 : isDigit c = true := (isDigit_iff c).2 hd
      have := List.head?_dropWhile_not isDigit (if s.head? = some 'T' then s.tail else s)
      rw [hc] at this
      simp only [h3] at this
      cases this

/-- What the loop says behind a number. -/
def durationStepSays (X : Call → Str) (fuel level : Nat) : Str → Option Str
  | 'W' :: r => if level > 0 then some Err.invalidDuration.sentinel else if r ≠ [] then some Err.invalidDuration.sentinel else none
  | 'D' :: r => if level > 0 then some Err.invalidDuration.sentinel else durationLoopSays X fuel 1 r
  | 'H' :: r => if level > 1 then some Err.invalidDuration.sentinel else durationLoopSays X fuel 2 r
  | 'M' :: r => if level > 2 then some Err.invalidDuration.sentinel else durationLoopSays X fuel 3 r
  | 'S' :: r =>
    if level > 3 then some Err.invalidDuration.sentinel
    else if r ≠ [] then some Err.invalidDuration.sentinel
    else durationLoopSays X fuel level r
  | _ => some Err.invalidDuration.sentinel

theorem durationLoopSays_item (X : Call → Str) (fuel level : Nat) (t : Bool) (ds : Str) (n : Nat) (u : Char) (r : Str) (hd : Dec ds n) (hn : n < 2 ^ 64) (hu : isDigit u = false) :
    durationLoopSays X (fuel + 1) level ((if t then ['T'] else []) ++ (ds ++ u :: r)) = durationStepSays X fuel (if t then 1 else level) (u :: r) := by
  obtain ⟨h1, h2, _⟩ := Dec_facts hd
  have hall : ∀ x ∈ ds, isDigit x = true := by simpa using h2
  obtain ⟨t1, t2⟩ := takeWhile_stop isDigit ds (u :: r) hall (by simpa using hu)
  have hhead : (ds ++ u :: r).head? ≠ some 'T' := by
    cases ds with
    | nil => exact absurd rfl h1
    | cons c ds =>
      have := hall c (by simp)
      intro he
      simp at he
      rw [he] at this
      exact absurd this (by decide)
  rw [durationLoopSays]
  cases t with
  | true =>
    simp only [if_true, List.cons_append, List.nil_append, List.head?_cons, List.tail_cons]
    rw [if_neg (by simp), t1, t2, parseUint_Dec hd hn]
    rfl
  | false =>
    simp only [Bool.false_eq_true, if_false, List.nil_append]
    rw [if_neg (by simp), if_neg hhead, if_neg hhead, t1, t2, parseUint_Dec hd hn]
    rfl

theorem durationLoopSays_prefix (X : Call → Str) (rest : Str) : ∀ (is : List DurItem) (f l : Nat), (∀ i ∈ is, i.n < 2 ^ 64) → (∀ i ∈ is, i.unit ∈ ['D', 'H', 'M']) →
    (is = [] ∨ Acc l is = true) → (is.flatMap DurItem.print ++ rest).length < f →
    ∃ f' l', durationLoopSays X f l (is.flatMap DurItem.print ++ rest) = durationLoopSays X f' l' rest ∧ rest.length < f' := by
  intro is
  induction is with
  | nil => intro f l _ _ _ hf; exact ⟨f, l, rfl, by simpa using hf⟩
  | cons i is ih =>
    intro f l hr hu ha hf
    have ha : Acc l (i :: is) = true := by
      rcases ha with h | h
      · cases h
      · exact h
    have hlen := Dec_length i.dec
    rw [List.flatMap_cons, List.append_assoc, DurItem.print_eq] at hf ⊢
    obtain ⟨f, rfl⟩ : ∃ g, f = g + 1 := ⟨f - 1, by simp at hf; omega⟩
    have hf' : (is.flatMap DurItem.print ++ rest).length < f := by simp at hf ⊢; omega
    have hui := hu i (by simp)
    have hd : isDigit i.unit = false := by
      simp only [List.mem_cons, List.not_mem_nil, or_false] at hui
      rcases hui with h | h | h <;> rw [h] <;> decide
    rw [durationLoopSays_item X f l i.t i.digits i.n i.unit _ i.dec (hr i (by simp)) hd]
    have ih := fun l ha => ih f l (fun j hj => hr j (by simp [hj])) (fun j hj => hu j (by simp [hj])) (.inr ha) hf'
    rw [Acc] at ha
    generalize (if i.t = true then 1 else l) = l' at ha ⊢
    simp only [List.mem_cons, List.not_mem_nil, or_false] at hui
    rcases hui with h | h | h
    · rw [h] at ha ⊢
      simp only [Char.reduceEq, if_true, if_false, Bool.and_eq_true, beq_iff_eq] at ha
      rw [durationStepSays, if_neg (by omega)]
      exact ih _ ha.2
    · rw [h] at ha ⊢
      simp only [Char.reduceEq, if_true, if_false, Bool.and_eq_true, decide_eq_true_eq] at ha
      rw [durationStepSays, if_neg (by omega)]
      exact ih _ ha.2
    · rw [h] at ha ⊢
      simp only [Char.reduceEq, if_true, if_false, Bool.and_eq_true, decide_eq_true_eq] at ha
      rw [durationStepSays, if_neg (by omega)]
      exact ih _ ha.2

theorem durationLoopSays_bad {X : Call → Str} {f l : Nat} {s : Str} (hs : s ≠ []) (hn : NoNumber s) (hf : s.length < f) : durationLoopSays X f l s = some (numberSays X s) := by
  obtain ⟨f, rfl⟩ : ∃ g, f = g + 1 := ⟨f - 1, by omega⟩
  rw [noNumber_iff] at hn
  rw [durationLoopSays, if_neg hs]
  dsimp only
  rw [hn]

theorem durationLoop_inv (X : Call → Str) : ∀ (f l : Nat) (d : Duration) (s : Str), Duration.loop f l d s = .err .invalidDuration → durationLoopSays X f l s = some Err.invalidDuration.sentinel := by
  intro f
  induction f with
  | zero => intro l d s _; rfl
  | succ f ih =>
    intro l d s h
    rw [Duration.loop] at h
    rw [durationLoopSays]
    dsimp only at h ⊢
    split at h
    · next h0 =>
      rw [if_pos h0]
      split at h
      · next h1 => rw [if_pos h1]
      · cases h
    · next h0 =>
      rw [if_neg h0]
      cases hn : parseUint 64 ((if s.head? = some 'T' then s.tail else s).takeWhile isDigit) with
      | none => rw [hn] at h; cases h
      | some n =>
        rw [hn] at h
        dsimp only at h ⊢
        generalize (if s.head? = some 'T' then 1 else l) = l' at h ⊢
        generalize (if s.head? = some 'T' then s.tail else s).dropWhile isDigit = r at h ⊢
        split at h
        · next r =>
          show (if l' > 0 then _ else if r ≠ [] then _ else _) = _
          split at h
          · next h1 => rw [if_pos h1]
          · next h1 =>
            rw [if_neg h1]
            split at h
            · next h2 => rw [if_pos h2]
            · cases h
        · next r =>
          show (if l' > 0 then _ else _) = _
          split at h
          · next h1 => rw [if_pos h1]
          · next h1 => rw [if_neg h1]; exact ih _ _ _ h
        · next r =>
          show (if l' > 1 then _ else _) = _
          split at h
          · next h1 => rw [if_pos h1]
          · next h1 => rw [if_neg h1]; exact ih _ _ _ h
        · next r =>
          show (if l' > 2 then _ else _) = _
          split at h
          · next h1 => rw [if_pos h1]
          · next h1 => rw [if_neg h1]; exact ih _ _ _ h
        · next r =>
          show (if l' > 3 then _ else if r ≠ [] then _ else _) = _
          split at h
          · next h1 => rw [if_pos h1]
          · next h1 =>
            rw [if_neg h1]
            split at h
            · next h2 => rw [if_pos h2]
            · next h2 => rw [if_neg h2]; exact ih _ _ _ h
        · next h1 h2 h3 h4 h5 =>
          split
          · exact absurd rfl (h1 _)
          · exact absurd rfl (h2 _)
          · exact absurd rfl (h3 _)
          · exact absurd rfl (h4 _)
          · exact absurd rfl (h5 _)
          · rfl

theorem duration_inv (X : Call → Str) (s : Str) (h : Duration.decode s = .err .invalidDuration) : durationSays X s = some Err.invalidDuration.sentinel := by
  unfold Duration.decode at h
  unfold durationSays
  dsimp only at h ⊢
  generalize (if s.head? = some '-' ∨ s.head? = some '+' then s.tail else s) = y at h ⊢
  split at h
  · exact durationLoop_inv X _ _ _ _ h
  · next h1 =>
    split
    · exact absurd rfl (h1 _)
    · rfl

theorem durationSays_iff {X : Call → Str} {s m : Str} : durationSays X s = some m ↔ DurSays X s m := by
  have units : ∀ is : List DurItem, (is = [] ∨ (DurItems is ∧ ∀ i ∈ is, i.unit ≠ 'W' ∧ i.unit ≠ 'S')) → (is = [] ∨ Acc 0 is = true) ∧ ∀ i ∈ is, i.unit ∈ ['D', 'H', 'M'] := by
    intro is
    rw [durItems_acc]
    rintro (rfl | ⟨h1, h2⟩)
    · exact ⟨.inl rfl, by simp⟩
    · refine ⟨.inr h1, fun i hi => ?_⟩
      have := durItems_units ((durItems_acc is).1 ((durItems_acc is).2 h1)) i hi
      have h3 := h2 i hi
      simp only [List.mem_cons, List.not_mem_nil, or_false] at this ⊢
      rcases this with h | h | h | h | h
      · exact absurd h h3.1
      · exact .inl h
      · exact .inr (.inl h)
      · exact .inr (.inr h)
      · exact absurd h h3.2
  have key : ∀ {sign : Str} {is : List DurItem} {r : Str}, sign ∈ [[], ['+'], ['-']] → s = sign ++ 'P' :: (is.flatMap DurItem.print ++ r) → r ≠ [] → NoNumber r →
      (∀ i ∈ is, i.n < 2 ^ 64) → (is = [] ∨ (DurItems is ∧ ∀ i ∈ is, i.unit ≠ 'W' ∧ i.unit ≠ 'S')) → durationSays X s = some (numberSays X r) := by
    rintro sign is r h1 rfl h2 h3 h4 h5
    obtain ⟨h5, h6⟩ := units is h5
    have go : durationLoopSays X ((is.flatMap DurItem.print ++ r).length + 1) 0 (is.flatMap DurItem.print ++ r) = some (numberSays X r) := by
      obtain ⟨f', l', e, hf⟩ := durationLoopSays_prefix X r is ((is.flatMap DurItem.print ++ r).length + 1) 0 h4 h6 h5 (by omega)
      rw [e]
      exact durationLoopSays_bad h2 h3 hf
    simp only [List.mem_cons, List.not_mem_nil, or_false] at h1
    rcases h1 with rfl | rfl | rfl <;> exact go
  have ht := duration_tells X s
  constructor
  · intro h
    cases hd : Duration.decode s with
    | ok d => rw [hd] at ht; rw [show durationSays X s = none from ht] at h; cases h
    | panic => exact absurd hd (Duration.decode_ne_panic s)
    | err e =>
      have he := Duration.decode_errs s e hd
      simp only [List.mem_cons, List.not_mem_nil, or_false] at he
      rcases he with rfl | rfl
      · rw [duration_inv X s hd] at h
        cases h
        exact .inl ⟨(Duration.decode_err s _).1 hd, rfl⟩
      · obtain ⟨sign, is, r, h1, h2, h3, h4, h5, h6⟩ := (Duration.decode_ext s).1 hd
        rw [key h1 h2 h3 h4 h5 h6] at h
        cases h
        exact .inr ⟨sign, is, r, _, h1, h2, h3, h4, h5, h6, digitsOf_iff.2 rfl, rfl⟩
  · rintro (⟨h, rfl⟩ | ⟨sign, is, r, ds, h1, h2, h3, h4, h5, h6, h7, rfl⟩)
    · exact duration_inv X s ((Duration.decode_err s _).2 h)
    · rw [key h1 h2 h3 h4 h5 h6, digitsOf_iff.1 h7]
      rfl

theorem dateTimeSays_none {X : Call → Str} {E : Env} {p : Nat} {tz : Option Str} {s : Str} : dateTimeSays X E p tz s = none ↔ ∃ t, DateTimeMeans E p tz s t := by
  have h := dateTime_tells X E p tz s
  cases hd : DateTime.decode E p tz s with
  | ok t =>
    rw [hd] at h
    exact ⟨fun _ => ⟨t, (DateTime.decode_iff ..).1 hd⟩, fun _ => h⟩
  | panic => exact absurd hd (DateTime.decode_ne_panic E p tz s)
  | err e =>
    rw [hd] at h
    obtain ⟨m, c, h1, _⟩ := h
    constructor
    · intro h2; rw [h2] at h1; cases h1
    · rintro ⟨t, ht⟩
      rw [(DateTime.decode_iff ..).2 ht] at hd
      cases hd

theorem map_some_iff {α β : Type} {o : Option α} {f : α → β} {b : β} : o.map f = some b ↔ ∃ a, o = some a ∧ b = f a := by
  cases o with
  | none => simp
  | some a => simp [eq_comm]

theorem periodSays_iff {X : Call → Str} {E : Env} {p : Nat} {tz : Option Str} {s m : Str} : periodSays X E p tz s = some m ↔ PeriodSays X E p tz s m := by
  unfold periodSays PeriodSays
  by_cases h0 : '/' ∈ s
  · obtain ⟨a, b, rfl, ha⟩ := mem_first h0
    have uniq : ∀ {a' b' : Str}, '/' ∉ a' → a ++ '/' :: b = a' ++ '/' :: b' → a = a' ∧ b = b' := by
      intro a' b' h1 h2
      have e1 := (split2_iff (s := a ++ '/' :: b)).2 ⟨rfl, ha⟩
      have e2 := split2_iff.2 ⟨h2, h1⟩
      rw [e1] at e2
      injection e2 with e2 e3
      injection e3 with e3
      exact ⟨e2, e3⟩
    rw [split2_iff.2 ⟨rfl, ha⟩]
    cases b with
    | nil =>
      dsimp only
      constructor
      · intro h
        cases h
        exact .inl ⟨.inr ⟨a, ha, rfl⟩, rfl⟩
      · rintro (⟨_, rfl⟩ | ⟨a', b', h1, h2, h3, _⟩)
        · rfl
        · exact absurd (uniq h2 h1).2.symm h3
    | cons c b =>
      dsimp only
      have body : ((if c = 'P' ∨ c = '+' then (durationSays X (c :: b)).map (c!"error while decoding Period: " ++ ·)
            else (dateTimeSays X E (p + 1) tz (c :: b)).map (c!"error while decoding Period End: " ++ ·)) = some m) ↔
          (if (c :: b).head? = some 'P' ∨ (c :: b).head? = some '+' then ∃ x, DurSays X (c :: b) x ∧ m = c!"error while decoding Period: " ++ x
            else ∃ x, DateTimeSays X E (p + 1) tz (c :: b) x ∧ m = c!"error while decoding Period End: " ++ x) := by
        simp only [List.head?_cons, Option.some.injEq]
        split
        · rw [map_some_iff]; simp only [durationSays_iff]
        · rw [map_some_iff]; simp only [dateTimeSays_iff]
      have start : (match dateTimeSays X E p tz a with
          | some m => some (c!"error while decoding Period Start: " ++ m)
          | none => if c = 'P' ∨ c = '+' then (durationSays X (c :: b)).map (c!"error while decoding Period: " ++ ·)
            else (dateTimeSays X E (p + 1) tz (c :: b)).map (c!"error while decoding Period End: " ++ ·)) = some m ↔
          ((∃ x, DateTimeSays X E p tz a x ∧ m = c!"error while decoding Period Start: " ++ x) ∨ ((∃ t, DateTimeMeans E p tz a t) ∧
            if (c :: b).head? = some 'P' ∨ (c :: b).head? = some '+' then ∃ x, DurSays X (c :: b) x ∧ m = c!"error while decoding Period: " ++ x
            else ∃ x, DateTimeSays X E (p + 1) tz (c :: b) x ∧ m = c!"error while decoding Period End: " ++ x)) := by
        rw [← body, ← dateTimeSays_none (X := X)]
        simp only [← dateTimeSays_iff]
        cases dateTimeSays X E p tz a with
        | some x =>
          constructor
          · intro h; cases h; exact .inl ⟨x, rfl, rfl⟩
          · rintro (⟨y, h1, rfl⟩ | ⟨h1, _⟩)
            · cases h1; rfl
            · cases h1
        | none =>
          constructor
          · intro h; exact .inr ⟨rfl, h⟩
          · rintro (⟨y, h1, _⟩ | ⟨_, h1⟩)
            · cases h1
            · exact h1
      refine start.trans ?_
      constructor
      · intro h
        exact .inr ⟨a, c :: b, rfl, ha, by simp, h⟩
      · rintro (⟨h | ⟨a', h1, h2⟩, rfl⟩ | ⟨a', b', h1, h2, h3, h4⟩)
        · exact absurd h0 h
        · exact absurd (uniq h1 h2).2 (by simp)
        · obtain ⟨rfl, rfl⟩ := uniq h2 h1
          exact h4
  · obtain ⟨a, ha⟩ := split2_none.2 h0
    rw [ha]
    dsimp only
    constructor
    · intro h
      cases h
      exact .inl ⟨.inl h0, rfl⟩
    · rintro (⟨_, rfl⟩ | ⟨a', b', rfl, _⟩)
      · rfl
      · exact absurd (by simp) h0

theorem tfloatSays_iff {X : Call → Str} {E : Env} {s m : Str} : tfloatSays X E s = some m ↔ PairSays X E s m := by
  unfold tfloatSays PairSays
  by_cases h0 : ';' ∈ s
  · obtain ⟨a, b, rfl, ha⟩ := mem_first h0
    rw [split2_iff.2 ⟨rfl, ha⟩]
    dsimp only
    constructor
    · intro h
      refine .inr ⟨a, b, rfl, ha, ?_⟩
      cases hx : E.floatParse a with
      | none => rw [hx] at h; cases h; exact .inl ⟨rfl, rfl⟩
      | some x =>
        rw [hx] at h
        cases hy : E.floatParse b with
        | none => rw [hy] at h; cases h; exact .inr ⟨by simp, rfl, rfl⟩
        | some y => rw [hy] at h; cases h
    · rintro (⟨h, _⟩ | ⟨a', b', h1, h2, h3⟩)
      · exact absurd h0 h
      · have e1 := (split2_iff (s := a ++ ';' :: b)).2 ⟨rfl, ha⟩
        have e2 := split2_iff.2 ⟨h1, h2⟩
        rw [e1] at e2
        injection e2 with e2 e3
        injection e3 with e3
        subst e2 e3
        rcases h3 with ⟨h3, rfl⟩ | ⟨h3, h4, rfl⟩
        · rw [h3]
        · cases hx : E.floatParse a with
          | none => exact absurd hx h3
          | some x => rw [h4]
  · obtain ⟨a, ha⟩ := split2_none.2 h0
    rw [ha]
    dsimp only
    constructor
    · intro h
      cases h
      exact .inl ⟨h0, rfl⟩
    · rintro (⟨_, rfl⟩ | ⟨a', b', rfl, _⟩)
      · rfl
      · exact absurd (by simp) h0

theorem valSays_iff {X : Call → Str} {E : Env} {op : Str → Option Str} {k : Kind} {s m : Str} : valSays X E op k s = some m ↔ ValSays X E op k s m := by
  have one : ∀ (k : Kind) (e0 : Err) (lib : Str), (∀ e, ValWrong E op k s e → e = e0) → ((Val.decode E op k s).wording lib = some m ↔ ValWrong E op k s e0 ∧ m = e0.wording lib) := by
    intro k e0 lib h
    rw [wording_iff]
    simp only [Val.decode_err]
    constructor
    · rintro ⟨e, h1, rfl⟩
      have := h e h1
      subst this
      exact ⟨h1, rfl⟩
    · rintro ⟨h1, rfl⟩
      exact ⟨_, h1, rfl⟩
  cases k with
  | dateTime => exact dateTimeSays_iff
  | duration => exact durationSays_iff
  | period => exact periodSays_iff
  | tfloat => exact tfloatSays_iff
  | binary =>
    unfold valSays ValSays
    dsimp only
    rw [wording_iff]
    simp only [Val.decode_err]
    constructor
    · rintro ⟨e, h1, rfl⟩
      have h2 : e = .invalidEncoding ∨ e = .ext := by
        rcases h1 with ⟨h, _⟩ | ⟨h, _⟩
        · exact .inl h
        · exact .inr h
      rcases h2 with rfl | rfl
      · exact .inl ⟨h1, rfl⟩
      · exact .inr ⟨h1, rfl⟩
    · rintro (⟨h1, rfl⟩ | ⟨h1, rfl⟩)
      · exact ⟨_, h1, rfl⟩
      · exact ⟨_, h1, rfl⟩
  | boolean => exact one _ _ _ fun e h => h.1
  | calAddress => exact one _ _ _ fun e h => h.1
  | date => exact one _ _ _ fun e h => h.1
  | integer => exact one _ _ _ fun e h => h.1
  | mtext => exact one _ _ _ fun e h => h.1
  | recur => exact one _ _ _ fun e h => h.1
  | text => exact one _ _ _ fun e h => h.1
  | uri => exact one _ _ _ fun e h => h.1
  | utcOffset => exact one _ _ _ fun e h => h.1

theorem urls_one {E : Env} {v : PVal} {lib m : Str} : (PKind.decode E .urls [v]).wording lib = some m ↔
    (v.quoted = false ∧ m = c!"invalid param value") ∨ (v.quoted = true ∧ E.urlParse v.data = none ∧ m = lib) := by
  rw [wording_iff]
  simp only [PKind.decode_err]
  have one : ∀ e, ParamWrong E .urls [v] e ↔ (e = .invalidParam ∧ v.quoted = false) ∨ (e = .ext ∧ v.quoted = true ∧ E.urlParse v.data = none) := by
    intro e
    constructor
    · rintro ⟨a, w, b, h, _, h2⟩
      cases a with
      | nil => cases h; exact h2
      | cons x a => simp at h
    · intro h
      exact ⟨[], v, [], rfl, by simp, h⟩
  simp only [one]
  constructor
  · rintro ⟨e, ⟨rfl, h⟩ | ⟨rfl, h⟩, rfl⟩
    · exact .inl ⟨h, rfl⟩
    · exact .inr ⟨h.1, h.2, rfl⟩
  · rintro (⟨h, rfl⟩ | ⟨h1, h2, rfl⟩)
    · exact ⟨_, .inl ⟨rfl, h⟩, rfl⟩
    · exact ⟨_, .inr ⟨rfl, h1, h2⟩, rfl⟩

theorem urls_none {E : Env} {v : PVal} {lib : Str} : (PKind.decode E .urls [v]).wording lib = none ↔ v.quoted = true ∧ ∃ u, E.urlParse v.data = some u := by
  have h := fun m => urls_one (E := E) (v := v) (lib := lib) (m := m)
  constructor
  · intro h0
    rw [h0] at h
    cases hq : v.quoted with
    | false => exact absurd ((h _).2 (.inl ⟨hq, rfl⟩)) (by simp)
    | true =>
      cases hu : E.urlParse v.data with
      | none => exact absurd ((h _).2 (.inr ⟨hq, hu, rfl⟩)) (by simp)
      | some u => exact ⟨rfl, u, rfl⟩
  · rintro ⟨h1, u, h2⟩
    cases hx : (PKind.decode E .urls [v]).wording lib with
    | none => rfl
    | some m =>
      rcases (h m).1 hx with ⟨h3, _⟩ | ⟨_, h3, _⟩
      · rw [h1] at h3; cases h3
      · rw [h2] at h3; cases h3

theorem paramCause_iff {X : Call → Str} {E : Env} {k : PKind} {vs : List PVal} {m : Str} : paramCause X E k vs = some m ↔ ParamCause X E k vs m := by
  have inv : ∀ (k : PKind), (∀ e, ParamWrong E k vs e → e = .invalidParam ∨ e = .invalidBoolean) →
      ((k.decode E vs).wording [] = some m ↔ (ParamWrong E k vs .invalidParam ∧ m = c!"invalid param value") ∨ (ParamWrong E k vs .invalidBoolean ∧ m = c!"invalid Boolean")) := by
    intro k h
    rw [wording_iff]
    simp only [PKind.decode_err]
    constructor
    · rintro ⟨e, h1, rfl⟩
      rcases h e h1 with rfl | rfl
      · exact .inl ⟨h1, rfl⟩
      · exact .inr ⟨h1, rfl⟩
    · rintro (⟨h1, rfl⟩ | ⟨h1, rfl⟩)
      · exact ⟨_, h1, rfl⟩
      · exact ⟨_, h1, rfl⟩
  cases k with
  | url =>
    unfold paramCause ParamCause
    dsimp only
    split
    · next v =>
      rw [wording_iff]
      simp only [PKind.decode_err]
      constructor
      · rintro ⟨e, ⟨rfl, h⟩ | ⟨rfl, s, h, h1⟩, rfl⟩
        · exact .inl ⟨h, rfl⟩
        · cases h
          exact .inr ⟨s, rfl, h1, rfl⟩
      · rintro (⟨h, rfl⟩ | ⟨s, h, h1, rfl⟩)
        · exact ⟨_, .inl ⟨rfl, h⟩, rfl⟩
        · cases h
          exact ⟨_, .inr ⟨rfl, s, rfl, h1⟩, rfl⟩
    · next h =>
      constructor
      · intro h1
        cases h1
        exact .inl ⟨fun s => h _, rfl⟩
      · rintro (⟨_, rfl⟩ | ⟨s, h1, _⟩)
        · rfl
        · exact absurd h1 (h _)
  | urls =>
    unfold paramCause ParamCause
    dsimp only
    rw [List.findSome?_eq_some_iff]
    simp only [urls_one, urls_none]
    constructor
    · rintro ⟨a, v, b, h, h1, h2⟩
      exact ⟨a, v, b, h, h2, h1⟩
    · rintro ⟨a, v, b, h, h1, h2⟩
      exact ⟨a, v, b, h, h2, h1⟩
  | str q => exact inv _ fun e h => .inl h.1
  | fmt => exact inv _ fun e h => .inl h.1
  | enum names => exact inv _ fun e h => .inl h.1
  | strs => exact inv _ fun e h => .inl h.1
  | range => exact inv _ fun e h => .inl h.1
  | bool => exact inv _ fun e h => h.elim (fun h => .inl h.1) (fun h => .inr h.1)

theorem stepSays_iff {X : Call → Str} {E : Env} {me : Str} {params : List PDef} {vals : List (Str × Kind)} (hw : FieldsWf params vals) {a : List (Str × List PVal)} {st : PState}
    (hs : Seen params vals a st) {p : Str × List PVal} {m : Str} : stepSays X E me params vals st p = some m ↔ ParamSays X E me params vals a p m := by
  unfold stepSays ParamSays
  dsimp only
  cases hi : paramIdx (upper p.1) params with
  | some i =>
    obtain ⟨d, hd, hn⟩ := paramIdx_some hi
    have hgd : params.getD i ⟨[], .range⟩ = d := by rw [List.getD_eq_getElem?_getD, hd]; rfl
    have hm := List.mem_of_getElem? hd
    have hnv : upper p.1 ≠ c!"VALUE" := by rw [← hn]; exact (hw.known d hm).nv
    have hone : ∀ d' ∈ params, d'.name = upper p.1 → d' = d := by
      intro d' hd' hn'
      obtain ⟨j, hj⟩ := List.getElem?_of_mem hd'
      have := names_inj hw.nodup hj hd (by rw [hn', hn])
      subst this
      rw [hj] at hd
      exact Option.some.inj hd
    simp only [hgd]
    have hp := hs.par i d hd
    by_cases h : valuesOf a d.name = []
    · rw [if_neg (by rw [hp]; simpa using h), paramSays, map_some_iff]
      simp only [map_some_iff, paramCause_iff]
      constructor
      · rintro ⟨_, ⟨x, h1, rfl⟩, rfl⟩
        exact .inl ⟨d, hm, hn, .inr ⟨h, x, h1, by simp [saysProp, saysType]⟩⟩
      · rintro (⟨d', h1, h2, h3⟩ | ⟨h1, _⟩)
        · rw [hone d' h1 h2] at h3
          rcases h3 with ⟨h3, _⟩ | ⟨_, x, h3, rfl⟩
          · exact absurd h h3
          · exact ⟨_, ⟨x, h3, rfl⟩, by simp [saysProp, saysType]⟩
        · exact absurd h1 hnv
    · rw [if_pos (hp.2 h)]
      constructor
      · intro h1
        cases h1
        exact .inl ⟨d, hm, hn, .inl ⟨h, by simp [saysProp, Err.sentinel]⟩⟩
      · rintro (⟨d', h1, h2, h3⟩ | ⟨h1, _⟩)
        · rw [hone d' h1 h2] at h3
          rcases h3 with ⟨_, rfl⟩ | ⟨h3, _⟩
          · simp [saysProp, Err.sentinel]
          · exact absurd h3 h
        · exact absurd h1 hnv
  | none =>
    have hno : ∀ d ∈ params, d.name ≠ upper p.1 := fun d hd hn => paramIdx_none.1 hi (List.mem_map.2 ⟨d, hd, hn⟩)
    dsimp only
    by_cases hv : upper p.1 = c!"VALUE" ∧ 2 ≤ vals.length
    · rw [if_pos hv]
      have ha := hs.alt hv.2
      split
      · next v hp =>
        by_cases h : valuesOf a c!"VALUE" = []
        · rw [if_neg (by rw [ha]; simpa using h)]
          split
          · next i hi2 =>
            have hmem : upper v.data ∈ vals.map (·.1) := List.mem_of_getElem? (indexOf_some _ _ _ hi2)
            constructor
            · intro h1; cases h1
            · rintro (⟨d, h1, h2, _⟩ | ⟨_, _, ⟨h1, _⟩ | ⟨w, h1, ⟨h2, _⟩ | ⟨_, h2, _⟩⟩⟩)
              · exact absurd h2 (hno d h1)
              · exact absurd hp (h1 v)
              · exact absurd h h2
              · rw [hp] at h1
                cases h1
                exact absurd hmem h2
          · next hi2 =>
            constructor
            · intro h1
              cases h1
              exact .inr ⟨hv.1, hv.2, .inr ⟨v, hp, .inr ⟨h, indexOf_none.1 hi2, by simp [saysType, Err.sentinel]⟩⟩⟩
            · rintro (⟨d, h1, h2, _⟩ | ⟨_, _, ⟨h1, _⟩ | ⟨w, h1, ⟨h2, _⟩ | ⟨_, h2, rfl⟩⟩⟩)
              · exact absurd h2 (hno d h1)
              · exact absurd hp (h1 v)
              · exact absurd h h2
              · simp [saysType, Err.sentinel]
        · rw [if_pos (ha.2 h)]
          constructor
          · intro h1
            cases h1
            exact .inr ⟨hv.1, hv.2, .inr ⟨v, hp, .inl ⟨h, by simp [saysProp, Err.sentinel]⟩⟩⟩
          · rintro (⟨d, h1, h2, _⟩ | ⟨_, _, ⟨h1, _⟩ | ⟨w, h1, ⟨_, rfl⟩ | ⟨h2, _⟩⟩⟩)
            · exact absurd h2 (hno d h1)
            · exact absurd hp (h1 v)
            · simp [saysProp, Err.sentinel]
            · exact absurd h2 h
      · next hp =>
        constructor
        · intro h1
          cases h1
          exact .inr ⟨hv.1, hv.2, .inl ⟨fun v => hp v, by simp [saysProp, Err.sentinel]⟩⟩
        · rintro (⟨d, h1, h2, _⟩ | ⟨_, _, ⟨_, rfl⟩ | ⟨w, h1, _⟩⟩)
          · exact absurd h2 (hno d h1)
          · simp [saysProp, Err.sentinel]
          · exact absurd h1 (hp w)
    · rw [if_neg hv]
      constructor
      · intro h1; cases h1
      · rintro (⟨d, h1, h2, _⟩ | ⟨h1, h2, _⟩)
        · exact absurd h2 (hno d h1)
        · exact absurd ⟨h1, h2⟩ hv

theorem stepsSay_iff {X : Call → Str} {E : Env} {me : Str} {params : List PDef} {vals : List (Str × Kind)} {m : Str} : ∀ (ps : List (Str × List PVal)) (st : PState),
    stepsSay X E me params vals st ps = some m ↔
      ∃ a p b st1, ps = a ++ p :: b ∧ PState.steps E params vals st a = .ok st1 ∧ stepSays X E me params vals st1 p = some m := by
  intro ps
  induction ps with
  | nil =>
    intro st
    constructor
    · intro h; cases h
    · rintro ⟨a, p, b, st1, h, _⟩; simp at h
  | cons p ps ih =>
    intro st
    have ht := step_tells X E me params vals st p
    rw [stepsSay]
    constructor
    · intro h
      split at h
      · next st1 h1 =>
        obtain ⟨a, q, b, st2, rfl, h2, h3⟩ := (ih st1).1 h
        refine ⟨p :: a, q, b, st2, rfl, ?_, h3⟩
        rw [PState.steps, h1]
        exact h2
      · exact ⟨[], p, ps, st, rfl, rfl, h⟩
    · rintro ⟨a, q, b, st1, h, h1, h2⟩
      cases a with
      | nil =>
        cases h
        cases h1
        split
        · next st2 h3 =>
          rw [h3] at ht
          rw [show stepSays X E me params vals st p = none from ht] at h2
          cases h2
        · exact h2
      | cons x a =>
        cases h
        rw [PState.steps] at h1
        obtain ⟨st2, h3, h4⟩ := Res.bind_eq_ok.1 h1
        rw [h3]
        exact (ih st2).2 ⟨a, q, b, st1, rfl, h4, h2⟩

theorem valSays_same {X : Call → Str} {E : Env} {f g : Str → Option Str} (h1 : f c!"TZID" = g c!"TZID") (h2 : f c!"ENCODING" = g c!"ENCODING") (k : Kind) (s : Str) :
    valSays X E f k s = valSays X E g k s := by
  have h := fun k => Val.decode_same (E := E) h1 h2 k s
  cases k <;> simp only [valSays, h, h1]

/-- The texts of properties. -/
theorem propSays_iff {X : Call → Str} {E : Env} {me : Str} {sp : PSpec} (hw : sp.wf = true) {ps : List (Str × List PVal)} {value m : Str} :
    propSays X E me sp ps value = some m ↔ PropSays X E me sp.shape ps value m := by
  obtain ⟨name, sh⟩ := sp
  cases sh with
  | enum names =>
    unfold propSays PropSays
    dsimp only
    constructor
    · intro h
      split at h
      · cases h
      · next hn =>
        cases h
        exact ⟨indexOf_none.1 hn, by simp [saysType, Err.sentinel]⟩
    · rintro ⟨h, rfl⟩
      rw [indexOf_none.2 h]
      simp [saysType, Err.sentinel]
  | fields params vals =>
    have hw := PSpec.wf_fields hw
    have hnot : ∀ n : Str, (∀ d ∈ params, d.name ≠ n) → n ∉ params.map (·.name) := by
      intro n h hm
      obtain ⟨d, hd, he⟩ := List.mem_map.1 hm
      exact h d hd he
    have hop : ∀ {st : PState}, PState.steps E params vals { ps := params.map fun _ => none } ps = .ok st → ∀ k,
        valSays X E (opGet st.op) k value = valSays X E (otherParam ps) k value := by
      intro st h k
      refine valSays_same ?_ ?_ k value
      · rw [steps_op (hnot _ fun d hd => (hw.known d hd).nt) (by decide) ps h]
        show (otherParam ps c!"TZID").or none = _
        cases otherParam ps c!"TZID" <;> rfl
      · rw [steps_op (hnot _ fun d hd => (hw.known d hd).ne) (by decide) ps h]
        show (otherParam ps c!"ENCODING").or none = _
        cases otherParam ps c!"ENCODING" <;> rfl
    have text : ∀ (k : Kind) (x : Str), (if params = [] ∧ vals.length = 1 then saysType me x else saysProp me k.goName x) =
        c!"error decoding " ++ me ++ (if params = [] ∧ vals.length = 1 then [] else c!"->" ++ k.goName) ++ c!": " ++ x := by
      intro k x
      split
      · simp [saysType]
      · simp [saysProp]
    unfold propSays PropSays
    dsimp only
    constructor
    · intro h
      split at h
      · next st h1 =>
        obtain ⟨x, h2, rfl⟩ := map_some_iff.1 h
        have hs := steps_seen hw h1
        rw [hop h1, List.getD_eq_getElem?_getD, List.getElem?_eq_getElem hs.lt, Option.getD_some, valSays_iff] at h2
        refine .inr ⟨(steps_right hw ps).1 ⟨st, h1⟩, st.vtype.getD 0, _, _, x, hs.uses, List.getElem?_eq_getElem hs.lt, h2, ?_⟩
        rw [List.getD_eq_getElem?_getD, List.getElem?_eq_getElem hs.lt, Option.getD_some]
        exact text _ _
      · obtain ⟨a, p, b, st1, rfl, h1, h2⟩ := (stepsSay_iff ps _).1 h
        exact .inl ⟨a, p, b, rfl, (steps_right hw a).1 ⟨st1, h1⟩, (stepSays_iff hw (steps_seen hw h1)).1 h2⟩
    · rintro (⟨a, p, b, rfl, h1, h2⟩ | ⟨h1, i, n, k, x, h2, h3, h4, rfl⟩)
      · obtain ⟨st1, h3⟩ := (steps_right hw a).2 h1
        have h4 := (stepSays_iff (X := X) (E := E) (me := me) (p := p) (m := m) hw (steps_seen hw h3)).2 h2
        have h5 := (stepsSay_iff (X := X) (me := me) (m := m) (a ++ p :: b) _).2 ⟨a, p, b, st1, rfl, h3, h4⟩
        split
        · next st h6 =>
          rw [steps_append, h3] at h6
          have h6 : PState.steps E params vals st1 (p :: b) = .ok st := h6
          rw [PState.steps] at h6
          obtain ⟨st2, h7, _⟩ := Res.bind_eq_ok.1 h6
          have ht := step_tells X E me params vals st1 p
          rw [h7] at ht
          rw [show stepSays X E me params vals st1 p = none from ht] at h4
          cases h4
        · exact h5
      · obtain ⟨st, h5⟩ := (steps_right hw ps).2 h1
        have hs := steps_seen hw h5
        have := usesType_unique hw h2 hs.uses
        subst this
        rw [h5]
        dsimp only
        rw [hop h5, List.getD_eq_getElem?_getD, h3, Option.getD_some, valSays_iff.2 h4, ← text]
        rfl

/-! ## Validation -/

theorem val_wording_none {v : Val} : valSaysInvalid v = none ↔ ValFine v := by
  unfold valSaysInvalid
  rw [wording_none, ← val_fine_iff]
  constructor
  · intro h
    cases hv : v.valid with
    | ok u => rfl
    | err e => exact absurd hv (h e)
    | panic => exact absurd hv (Val.valid_ne_panic v)
  · intro h e he
    rw [h] at he
    cases he

theorem val_noext {v : Val} {e : Err} {x : Str} (h : ValRefused v e) : e.wording x = e.sentinel := by
  cases v <;> simp only [ValRefused] at h
  case date | dateTime | text | mtext | tfloat => rw [h.1]; rfl
  case period => rcases h with ⟨rfl, _⟩ | ⟨rfl, _⟩ | ⟨rfl, _⟩ <;> rfl
  case recur r =>
    obtain ⟨a, y, b, h1, _, _, h2⟩ := h
    have hm : y ∈ ruleChecks r := by rw [h1]; simp
    rw [h2]
    unfold ruleChecks at hm
    simp only [List.mem_cons, List.not_mem_nil, or_false] at hm
    rcases hm with rfl | rfl | rfl | rfl | rfl | rfl | rfl | rfl | rfl | rfl | rfl <;> rfl
  all_goals exact absurd h id

theorem param_noext {k : PKind} {v : ParamVal} {e : Err} {x : Str} (h : ParamRefused k v e) : e.wording x = e.sentinel := by
  unfold ParamRefused at h
  split at h
  · rw [h.1]; rfl
  · rw [h.1]; rfl
  · rw [h.1]; rfl
  · exact absurd h id

theorem valsSayInvalid_eq (me : Str) (alone : Bool) : ∀ vs : List (Option Val), valsSayInvalid me alone vs = (vs.filterMap id).findSome? fun v => (valSaysInvalid v).map fun m =>
    if alone then saysType me m else c!"error validating " ++ me ++ c!"->" ++ v.kind.goName ++ c!": " ++ m := by
  intro vs
  induction vs with
  | nil => rfl
  | cons v vs ih =>
    cases v with
    | none => exact ih
    | some v =>
      rw [show (some v :: vs).filterMap id = v :: vs.filterMap id from rfl, List.findSome?_cons]
      show (match valSaysInvalid v with | some m => _ | none => _) = _
      cases valSaysInvalid v with
      | none => exact ih
      | some m => rfl

theorem paramsSayInvalid_eq (me : Str) : ∀ (ds : List PDef) (ps : List (Option ParamVal)), paramsSayInvalid me ds ps =
    ((ds.zip ps).filterMap fun x => x.2.map fun v => (x.1, v)).findSome? fun x => (paramSaysInvalid x.1 x.2).map fun m =>
      c!"error validating " ++ me ++ c!"->" ++ goParam x.1.name ++ c!": " ++ m := by
  intro ds
  induction ds with
  | nil => intro ps; rfl
  | cons d ds ih =>
    intro ps
    cases ps with
    | nil => rfl
    | cons p ps =>
      rw [paramsSayInvalid, List.zip_cons_cons]
      cases p with
      | none => exact ih ps
      | some v =>
        rw [List.filterMap_cons_some (a := (d, some v)) (b := (d, v)) (f := fun x => x.2.map fun v => (x.1, v)) rfl, List.findSome?_cons]
        show (match paramSaysInvalid d v with | some m => _ | none => _) = _
        cases paramSaysInvalid d v with
        | none => exact ih ps
        | some m => rfl

theorem param_wording {d : PDef} {v : ParamVal} {m : Str} : paramSaysInvalid d v = some m ↔ ∃ e, ParamRefused d.kind v e ∧ m = c!"error decoding " ++ goParam d.name ++ c!": " ++ e.sentinel := by
  unfold paramSaysInvalid
  rw [map_some_iff]
  simp only [wording_iff, param_refused]
  constructor
  · rintro ⟨_, ⟨e, h, rfl⟩, rfl⟩
    exact ⟨e, h, by rw [param_noext h]; simp [saysType]⟩
  · rintro ⟨e, h, rfl⟩
    exact ⟨_, ⟨e, h, rfl⟩, by rw [param_noext h]; simp [saysType]⟩

theorem param_wording_none {d : PDef} {v : ParamVal} : paramSaysInvalid d v = none ↔ ParamFine d.kind v := by
  unfold paramSaysInvalid
  rw [Option.map_eq_none_iff, wording_none, ← param_fine_iff]
  constructor
  · intro h
    cases hv : d.kind.valid v with
    | ok u => rfl
    | err e => exact absurd hv (h e)
    | panic => exact absurd hv (PKind.valid_ne_panic d.kind v)
  · intro h e he
    rw [h] at he
    cases he

theorem val_wording {v : Val} {m : Str} : valSaysInvalid v = some m ↔ ∃ e, ValRefused v e ∧ m = e.sentinel := by
  unfold valSaysInvalid
  rw [wording_iff]
  simp only [val_refused]
  constructor
  · rintro ⟨e, h, rfl⟩
    exact ⟨e, h, val_noext h⟩
  · rintro ⟨e, h, rfl⟩
    exact ⟨e, h, (val_noext h).symm⟩

/-- The texts of properties that are refused. -/
theorem propSaysInvalid_iff {me : Str} {sp : PSpec} {p : PropVal} (ht : sp.typed p = true) {m : Str} : propSaysInvalid me sp p = some m ↔ PropSaysInvalid me sp p m := by
  obtain ⟨n, sh⟩ := sp
  cases sh with
  | enum names =>
    cases p with
    | enum k =>
      simp only [propSaysInvalid, PropSaysInvalid]
      by_cases h : k < names.length
      · rw [if_pos h]
        exact ⟨fun h => (nomatch h), fun h1 => by omega⟩
      · rw [if_neg h]
        constructor
        · intro h1; cases h1; exact ⟨by omega, by simp [saysType, Err.sentinel]⟩
        · rintro ⟨_, rfl⟩; simp [saysType, Err.sentinel]
    | fields ps vs => simp [PSpec.typed] at ht
  | fields params vals =>
    cases p with
    | enum k => simp [PSpec.typed] at ht
    | fields ps vs =>
      have hcount : (vs.filter (·.isSome)).length = (propVals (.fields ps vs)).length := by
        unfold propVals
        clear ht
        induction vs with
        | nil => rfl
        | cons v vs ih => cases v <;> simpa using ih
      have hone : vals.length = 1 → (propVals (.fields ps vs)).length = 1 := by
        intro h1
        simp only [PSpec.typed, Bool.and_eq_true] at ht
        obtain ⟨⟨_, h2⟩, h3⟩ := ht
        match vals, vs, h1, h2, h3 with
        | [(_, _)], [some v], _, _, _ => rfl
        | [(_, _)], [none], _, _, h3 => simp at h3
        | [(_, _)], [], _, h2, _ => simp [typedVals] at h2
        | [(_, _)], _ :: _ :: _, _, h2, _ => simp [typedVals] at h2
      have hcond : (vals.length = 1 ∨ (vs.filter (·.isSome)).length = 1) ↔ (propVals (.fields ps vs)).length = 1 := by
        rw [hcount]
        exact ⟨fun h => h.elim hone id, .inr⟩
      have hP : ∀ m, paramsSayInvalid me params ps = some m ↔ ∃ a d v b e, propParams ⟨n, .fields params vals⟩ (.fields ps vs) = a ++ (d, v) :: b ∧
          (∀ x ∈ a, ParamFine x.1.kind x.2) ∧ ParamRefused d.kind v e ∧
          m = c!"error validating " ++ me ++ c!"->" ++ goParam d.name ++ c!": error decoding " ++ goParam d.name ++ c!": " ++ e.sentinel := by
        intro m
        rw [paramsSayInvalid_eq, List.findSome?_eq_some_iff]
        simp only [Option.map_eq_none_iff, param_wording_none, map_some_iff, param_wording]
        constructor
        · rintro ⟨a, ⟨d, v⟩, b, h1, ⟨_, ⟨e, h2, rfl⟩, rfl⟩, h3⟩
          exact ⟨a, d, v, b, e, h1, h3, h2, by simp⟩
        · rintro ⟨a, d, v, b, e, h1, h3, h2, rfl⟩
          exact ⟨a, (d, v), b, h1, ⟨_, ⟨e, h2, rfl⟩, by simp⟩, h3⟩
      have hP0 : paramsSayInvalid me params ps = none ↔ ∀ x ∈ propParams ⟨n, .fields params vals⟩ (.fields ps vs), ParamFine x.1.kind x.2 := by
        rw [paramsSayInvalid_eq, List.findSome?_eq_none_iff]
        simp only [Option.map_eq_none_iff, param_wording_none]
        exact Iff.rfl
      have hV : ∀ m, valsSayInvalid me (params = [] ∧ vals.length = 1) vs = some m ↔ ∃ a v b e, propVals (.fields ps vs) = a ++ v :: b ∧ (∀ x ∈ a, ValFine x) ∧ ValRefused v e ∧
          m = if params = [] ∧ vals.length = 1 then c!"error decoding " ++ me ++ c!": " ++ e.sentinel
            else c!"error validating " ++ me ++ c!"->" ++ v.kind.goName ++ c!": " ++ e.sentinel := by
        intro m
        rw [valsSayInvalid_eq, List.findSome?_eq_some_iff]
        simp only [Option.map_eq_none_iff, val_wording_none, map_some_iff, val_wording, decide_eq_true_eq]
        constructor
        · rintro ⟨a, v, b, h1, ⟨_, ⟨e, h2, rfl⟩, rfl⟩, h3⟩
          exact ⟨a, v, b, e, h1, h3, h2, by simp [saysType]⟩
        · rintro ⟨a, v, b, e, h1, h3, h2, rfl⟩
          exact ⟨a, v, b, h1, ⟨_, ⟨e, h2, rfl⟩, by simp [saysType]⟩, h3⟩
      have hV0 : valsSayInvalid me (params = [] ∧ vals.length = 1) vs = none ↔ ∀ v ∈ propVals (.fields ps vs), ValFine v := by
        rw [valsSayInvalid_eq, List.findSome?_eq_none_iff]
        simp only [Option.map_eq_none_iff, val_wording_none]
        exact Iff.rfl
      simp only [propSaysInvalid, PropSaysInvalid]
      rw [← hP, ← hP0, ← hV, ← hV0]
      cases paramsSayInvalid me params ps with
      | some x => simp
      | none =>
        cases valsSayInvalid me (params = [] ∧ vals.length = 1) vs with
        | some x => simp
        | none =>
          dsimp only
          by_cases h : (propVals (.fields ps vs)).length = 1
          · rw [if_pos (hcond.2 h)]
            simp [h]
          · rw [if_neg (fun hh => h (hcond.1 hh))]
            simp [h, saysType, Err.sentinel, eq_comm]

/-- There is a text exactly if the property is refused. -/
theorem propSaysInvalid_valid (me : Str) (sp : PSpec) (p : PropVal) (ht : sp.typed p = true) : (∃ m, propSaysInvalid me sp p = some m) ↔ ∃ e, sp.valid p = .err e := by
  simp only [propSaysInvalid_iff ht, prop_refused ht]
  obtain ⟨n, sh⟩ := sp
  cases sh with
  | enum names =>
    cases p with
    | enum k => exact ⟨fun ⟨m, h, _⟩ => ⟨_, rfl, h⟩, fun ⟨e, _, h⟩ => ⟨_, h, rfl⟩⟩
    | fields ps vs => simp [PSpec.typed] at ht
  | fields params vals =>
    cases p with
    | enum k => simp [PSpec.typed] at ht
    | fields ps vs =>
      simp only [PropSaysInvalid, PropRefused, First]
      constructor
      · rintro ⟨m, ⟨a, d, v, b, e, h1, h2, h3, _⟩ | ⟨h0, ⟨a, v, b, e, h1, h2, h3, _⟩ | ⟨h1, h2, _⟩⟩⟩
        · exact ⟨e, .inl ⟨a, (d, v), b, h1, h2, h3⟩⟩
        · exact ⟨e, .inr ⟨h0, .inl ⟨a, v, b, h1, h2, h3⟩⟩⟩
        · exact ⟨_, .inr ⟨h0, .inr ⟨h1, h2, rfl⟩⟩⟩
      · rintro ⟨e, ⟨a, ⟨d, v⟩, b, h1, h2, h3⟩ | ⟨h0, ⟨a, v, b, h1, h2, h3⟩ | ⟨h1, h2, _⟩⟩⟩
        · exact ⟨_, .inl ⟨a, d, v, b, e, h1, h2, h3, rfl⟩⟩
        · exact ⟨_, .inr ⟨h0, .inl ⟨a, v, b, e, h1, h2, h3, rfl⟩⟩⟩
        · exact ⟨_, .inr ⟨h0, .inr ⟨h1, h2, rfl⟩⟩⟩

end Ics
