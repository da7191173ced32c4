import Verif.Spec.Output
import Verif.Spec.Machines
import Verif.SizeLemmas
/-!
# Lemmas for the size of what Encode writes
-/

namespace Ics
open Spec

/-! ## Numbers -/

theorem fmtNatF_short : ∀ (k f n : Nat), n < 10 ^ (k + 1) → (fmtNatF f n).length ≤ k + 1
  | _, 0, _, _ => by simp [fmtNatF]
  | 0, f + 1, n, h => by
    unfold fmtNatF
    rw [if_pos (by simpa using h)]
    simp
  | k + 1, f + 1, n, h => by
    unfold fmtNatF
    split
    · simp
    · have := fmtNatF_short k f (n / 10) (by rw [Nat.div_lt_iff_lt_mul (by decide)]; rw [Nat.pow_succ] at h; exact h)
      simp; omega

theorem fmtNat_short {k n : Nat} (h : n < 10 ^ (k + 1)) : (fmtNat n).length ≤ k + 1 := fmtNatF_short k _ n h

theorem fmtNat_64 {n : Nat} (h : n < 2 ^ 64) : (fmtNat n).length ≤ 20 := fmtNat_short (k := 19) (by omega)

theorem fmtNat_8 {n : Nat} (h : n < 256) : (fmtNat n).length ≤ 6 := Nat.le_trans (fmtNat_short (k := 2) (by omega)) (by decide)

theorem fmtInt_short {k : Nat} {i : Int} (h : i.natAbs < 10 ^ (k + 1)) : (fmtInt i).length ≤ k + 2 := by
  have := fmtNat_short h
  unfold fmtInt
  split
  · simp; omega
  · omega

theorem fmtInt_64 {i : Int} (h1 : -(2 ^ 63) ≤ i) (h2 : i < 2 ^ 63) : (fmtInt i).length ≤ 20 := fmtInt_short (k := 18) (by omega)

theorem fmtInt_16 {i : Int} (h : -32768 ≤ i ∧ i < 32768) : (fmtInt i).length ≤ 6 := fmtInt_short (k := 4) (by omega)

theorem fmtInt_8 {i : Int} (h : -128 ≤ i ∧ i < 128) : (fmtInt i).length ≤ 4 := fmtInt_short (k := 2) (by omega)

/-! ## Times -/

theorem civil_year {n : Int} (h1 : -(2 ^ 63) ≤ n * 86400 + 86399) (h2 : n * 86400 < 2 ^ 63) : (civil n).1.natAbs < 10 ^ 12 := by
  have h := yearOf_spec n
  change (yearOf n).natAbs < 10 ^ 12
  unfold daysBeforeYear at h
  omega

theorem fmtYear_short {y : Int} (h : y.natAbs < 10 ^ 12) : (fmtYear y).length ≤ 13 := by
  unfold fmtYear pad4
  have := fmtNat_short (k := 11) h
  split <;> split <;> simp [dd] <;> omega

theorem Date.encode_short {E : Env} {t : GoTime} (h : TimeFits E t) : (Date.encode E t).length ≤ 17 := by
  have h1 := h.1
  have h2 := h.2
  have := fmtYear_short (civil_year (n := t.wall E / 86400) (by omega) (by omega))
  unfold Date.encode fmtDate8
  simp [dd]; omega

theorem DateTime.encode_short {E : Env} {t : GoTime} (h : TimeFits E t) : (DateTime.encode E t).length ≤ 25 := by
  have := Date.encode_short h
  unfold Date.encode at this
  unfold DateTime.encode fmtClock
  split <;> simp [dd] <;> omega

theorem writeTimezone_length (t : GoTime) : (writeTimezone t).length ≤ 6 + (locName t.loc).length := by
  unfold writeTimezone
  cases h : t.loc <;> simp [locName]; omega

/-! ## Values -/

theorem Duration.encode_short {d : Duration} (h : d.WF) : (Duration.encode d).length ≤ 87 := by
  have h1 := fmtNat_64 h.weeks
  have h2 := fmtNat_64 h.days
  have h3 := fmtNat_64 h.hours
  have h4 := fmtNat_64 h.minutes
  have h5 := fmtNat_64 h.seconds
  have hb : d.body.length ≤ 85 := by
    unfold Duration.body
    repeat' split
    all_goals simp
    all_goals omega
  unfold Duration.encode
  split <;> simp <;> omega

theorem Text.encode_length (t : Str) : (Text.encode t).length ≤ 2 * t.length := by
  induction t with
  | nil => simp [Text.encode]
  | cons c t ih =>
    have : (escapeC c).length ≤ 2 := by unfold escapeC; repeat' split
                                        all_goals simp
    simp only [Text.encode, List.flatMap_cons, List.length_append, List.length_cons] at *
    omega

theorem MText.encode_length : ∀ ts : List Str, (MText.encode ts).length ≤ 2 * listSize ts
  | [] => by simp [MText.encode, join]
  | [t] => by have := Text.encode_length t; simp [MText.encode, join, listSize]; omega
  | t :: u :: ts => by
    have h1 := Text.encode_length t
    have h2 := MText.encode_length (u :: ts)
    simp only [MText.encode, List.map_cons, join, listSize, List.length_append, List.length_cons, List.length_nil] at *
    omega

theorem b64Encode_length (b : Bytes) : (b64Encode b).length ≤ 4 * b.length := by
  fun_induction b64Encode b <;> simp <;> omega

theorem joined_length (k : Nat) (c : Char) : ∀ ws : List Str, (∀ w ∈ ws, w.length ≤ k) → (join [c] ws).length ≤ (k + 1) * ws.length
  | [], _ => by simp [join]
  | [w], h => by have := h w (by simp); simp [join]; omega
  | w :: x :: ws, h => by
    have h1 := h w (by simp)
    have h2 := joined_length k c (x :: ws) fun y hy => h y (by simp [List.mem_cons] at *; exact .inr hy)
    simp only [join, List.length_append, List.length_cons, List.length_nil, Nat.mul_add] at *
    omega

/-- The lengths of the parts of a rule, each with its separator. -/
def partsLen (ws : List Str) : Nat := (ws.map fun w => w.length + 1).sum

theorem partsLen_append (a b : List Str) : partsLen (a ++ b) = partsLen a + partsLen b := by simp [partsLen]

theorem partsLen_one (a : Str) : partsLen [a] = a.length + 1 := by simp [partsLen]

theorem join_sum (c : Char) : ∀ ws : List Str, (join [c] ws).length ≤ partsLen ws
  | [] => by simp [join]
  | [w] => by simp [join, partsLen]
  | w :: x :: ws => by
    have h2 := join_sum c (x :: ws)
    simp only [join, partsLen, List.length_append, List.length_cons, List.length_nil, List.map_cons, List.sum_cons] at *
    omega

theorem encList_length {α : Type} (name : Str) (f : α → Str) (l : List α) (h : ∀ x ∈ l, (f x).length ≤ 6) :
    partsLen (encList name f l) ≤ name.length + 2 + 7 * l.length := by
  unfold encList
  split
  · simp [partsLen]
  · rename_i a l
    have := joined_length 6 ',' ((a :: l).map f) (by
      intro w hw
      obtain ⟨x, hx, rfl⟩ := List.mem_map.1 hw
      exact h x hx)
    simp only [partsLen_one, List.length_map, List.length_append, List.length_cons] at *
    omega

theorem fmtFreq_length (f : Nat) : (fmtFreq f).length ≤ 8 := by
  unfold fmtFreq
  cases h : freqNames[f]? with
  | none => simp
  | some w =>
    have : ∀ w ∈ freqNames, w.length ≤ 8 := by decide
    exact this _ (List.mem_of_getElem? h)

theorem fmtDay_length (d : Nat) : (fmtDay d).length ≤ 2 := by
  unfold fmtDay
  split
  · simp
  · cases h : dayNames[d - 1]? with
    | none => simp
    | some w =>
      have : ∀ w ∈ dayNames, w.length ≤ 2 := by decide
      exact this _ (List.mem_of_getElem? h)

theorem Recur.encode_length {E : Env} {r : Recur} (h : r.WF) (ht : TimeFits E r.until_) : (Recur.encode E r).length ≤ 171 + 7 * recurSize r := by
  have h0 := fmtFreq_length r.freq
  have h1 := fmtNat_64 h.count
  have h2 := fmtNat_64 h.interval
  have h3 := DateTime.encode_short ht
  have h4 := Date.encode_short ht
  have h5 := fmtDay_length r.weekStart
  have l1 := encList_length c!"BYSECOND" fmtNat r.bySecond fun x hx => fmtNat_8 (h.bySecond x hx)
  have l2 := encList_length c!"BYMINUTE" fmtNat r.byMinute fun x hx => fmtNat_8 (h.byMinute x hx)
  have l3 := encList_length c!"BYHOUR" fmtNat r.byHour fun x hx => fmtNat_8 (h.byHour x hx)
  have l4 := encList_length c!"BYDAY" fmtDayRecur r.byDay fun x hx => by
    have a := fmtInt_8 (h.byDay x hx).2
    have b := fmtDay_length x.day
    unfold fmtDayRecur
    split <;> simp <;> omega
  have l5 := encList_length c!"BYMONTHDAY" fmtInt r.byMonthDay fun x hx => by have := fmtInt_8 (h.byMonthDay x hx); omega
  have l6 := encList_length c!"BYYEARDAY" fmtInt r.byYearDay fun x hx => fmtInt_16 (h.byYearDay x hx)
  have l7 := encList_length c!"BYWEEKNO" fmtInt r.byWeekNum fun x hx => by have := fmtInt_8 (h.byWeekNum x hx); omega
  have l8 := encList_length c!"BYMONTH" fmtNat r.byMonth fun x hx => fmtNat_8 (h.byMonth x hx)
  have l9 := encList_length c!"BYSETPOS" fmtInt r.bySetPos fun x hx => fmtInt_16 (h.bySetPos x hx)
  have hu : partsLen (if r.count ≠ 0 then [c!"COUNT=" ++ fmtNat r.count]
      else if !r.until_.isZero then [c!"UNTIL=" ++ (if r.untilTime then DateTime.encode E r.until_ else Date.encode E r.until_)]
      else []) ≤ 32 := by
    repeat' split
    all_goals simp [partsLen]
    all_goals omega
  have hi : partsLen (if r.interval ≠ 0 then [c!"INTERVAL=" ++ fmtNat r.interval] else []) ≤ 30 := by
    split <;> simp [partsLen]; omega
  have hw : partsLen (if r.weekStart ≠ 0 then [c!"WKST=" ++ fmtDay r.weekStart] else []) ≤ 8 := by
    split <;> simp [partsLen]; omega
  have hf : partsLen [c!"FREQ=" ++ fmtFreq r.freq] ≤ 14 := by
    simp [partsLen]; omega
  have hj := join_sum ';' (r.parts E)
  unfold Recur.encode
  refine Nat.le_trans hj ?_
  unfold Recur.parts
  simp only [partsLen_append]
  simp only [List.length_cons, List.length_nil] at l1 l2 l3 l4 l5 l6 l7 l8 l9
  unfold recurSize
  omega

/-- What the text of a value has beside its contents and what comes from elsewhere. -/
def kindMax : Kind → Nat
  | .binary => 17
  | .boolean => 6
  | .date => 18
  | .dateTime => 32
  | .duration => 88
  | .integer => 21
  | .period => 120
  | .recur => 178
  | .tfloat => 2
  | .utcOffset => 8
  | .calAddress | .mtext | .text | .uri => 1

theorem Val.aencode_length {E : Env} {v : Val} (h : ValFits E v) : (v.aencode E).length ≤ kindMax v.kind + 7 * valSize v + valOutside E v := by
  cases v with
  | binary b => have := b64Encode_length b; simp [Val.aencode, Val.head_, Val.text_, Binary.encode, Val.kind, kindMax, valSize, valOutside]; omega
  | boolean b => cases b <;> simp [Val.aencode, Val.head_, Val.text_, Boolean.encode, Val.kind, kindMax, valSize, valOutside]
  | calAddress u => simp [Val.aencode, Val.head_, Val.text_, URI.encode, Val.kind, kindMax, valSize, valOutside]; omega
  | uri u => simp [Val.aencode, Val.head_, Val.text_, URI.encode, Val.kind, kindMax, valSize, valOutside]; omega
  | date t => have := Date.encode_short (E := E) (t := t) h; simp [Val.aencode, Val.head_, Val.text_, Val.kind, kindMax, valSize, valOutside]; omega
  | dateTime t =>
    have := DateTime.encode_short (E := E) (t := t) h
    have := writeTimezone_length t
    simp [Val.aencode, Val.head_, Val.text_, Val.kind, kindMax, valSize, valOutside]; omega
  | duration d => have := Duration.encode_short (d := d) h; simp [Val.aencode, Val.head_, Val.text_, Val.kind, kindMax, valSize, valOutside]; omega
  | integer i => have := fmtInt_64 h.1 h.2; simp [Val.aencode, Val.head_, Val.text_, Integer.encode, Val.kind, kindMax, valSize, valOutside]; omega
  | mtext ts => have := MText.encode_length ts; simp [Val.aencode, Val.head_, Val.text_, Val.kind, kindMax, valSize, valOutside]; omega
  | text t => have := Text.encode_length t; simp [Val.aencode, Val.head_, Val.text_, Val.kind, kindMax, valSize, valOutside]; omega
  | period p =>
    obtain ⟨h1, h2, h3⟩ := h
    have a := DateTime.encode_short h1
    have b := DateTime.encode_short h2
    have c := Duration.encode_short h3
    have d := writeTimezone_length p.start
    simp only [Val.aencode, Val.head_, Val.text_, Period.encode, Val.kind, kindMax, valSize, valOutside]
    split <;> simp <;> omega
  | recur r =>
    have := Recur.encode_length h.1 h.2
    have := writeTimezone_length r.until_
    simp [Val.aencode, Val.head_, Val.text_, Val.kind, kindMax, valSize, valOutside]; omega
  | tfloat t => simp [Val.aencode, Val.head_, Val.text_, TFloat.encode, Val.kind, kindMax, valSize, valOutside]; omega
  | utcOffset o =>
    simp only [Val.aencode, Val.head_, Val.text_, UTCOffset.encode, Val.kind, kindMax, valSize, valOutside]
    repeat' split
    all_goals simp [dd]

/-! ## Parameters -/

theorem encode6868_length {s t : Str} (h : encode6868 s = some t) : t = s := by
  by_cases he : ∃ c ∈ s, isEsc6868 c = true
  · rw [encode6868_esc s he] at h; cases h
  · rw [encode6868_plain s (fun c hc => by
      cases hb : isEsc6868 c with
      | false => rfl
      | true => exact absurd ⟨c, hc, hb⟩ he)] at h
    cases h; rfl

theorem commas_length {α : Type} (f : α → Option Str) (k : α → Nat) (h : ∀ x t, f x = some t → t.length + 1 ≤ k x) :
    ∀ (xs : List α) (t : Str), commas (xs.map f) = some t → t.length ≤ (xs.map k).sum
  | [], t, e => by cases e; simp
  | [x], t, e => by have := h x t e; simp; omega
  | x :: y :: xs, t, e => by
    have e' : (f x >>= fun a => commas ((y :: xs).map f) >>= fun b => some (a ++ ',' :: b)) = some t := e
    simp only [Option.bind_eq_bind, Option.bind_eq_some_iff, Option.some.injEq] at e'
    obtain ⟨a, ha, b, hb, rfl⟩ := e'
    have h1 := h x a ha
    have h2 := commas_length f k h (y :: xs) b hb
    simp only [List.map_cons, List.sum_cons, List.length_append, List.length_cons] at *
    omega

/-- The longest name of an enumeration. -/
def namesMax (names : List Str) : Bool := names.all fun w => w.length ≤ 16

theorem namesMax_get {names : List Str} (h : namesMax names = true) (i : Nat) (d : Str) (hd : d.length ≤ 16) : (names.getD i d).length ≤ 16 := by
  simp only [namesMax, List.all_eq_true, decide_eq_true_eq] at h
  rw [List.getD_eq_getElem?_getD]
  cases hx : names[i]? with
  | none => simpa using hd
  | some w => exact h _ (List.mem_of_getElem? hx)

/-- The names in the definition of a parameter are short. -/
def PDef.brief (d : PDef) : Bool := decide (d.name.length ≤ 14) && (match d.kind with
  | .enum names => namesMax names
  | _ => true)

theorem PKind.encode_length {E : Env} {d : PDef} (hd : d.brief = true) {p : ParamVal} {t : Str} (h : d.kind.encode E d.name p = some t) :
    t.length ≤ d.name.length + 18 + 3 * paramSize p + paramOutside E p := by
  obtain ⟨name, k⟩ := d
  simp only [PDef.brief, Bool.and_eq_true] at hd
  unfold PKind.encode at h
  dsimp only at h
  split at h
  · split at h <;> cases h <;> simp [paramSize, paramOutside]; omega
  · rename_i us
    split at h
    · cases h; simp
    · cases hc : commas (us.map fun u => some (E.urlString u)) with
      | none => rw [hc] at h; cases h
      | some w =>
        rw [hc] at h; cases h
        have := commas_length (fun u => some (E.urlString u)) (fun u => (E.urlString u).length + 1) (fun x t e => by cases e; omega) us w hc
        have hs : ∀ us : List Url, (us.map fun u => (E.urlString u).length + 1).sum = us.length + (us.map fun u => (E.urlString u).length).sum := by
          intro us
          induction us with
          | nil => rfl
          | cons u us ih => simp only [List.map_cons, List.sum_cons, List.length_cons, ih]; omega
        rw [hs] at this
        simp [paramSize, paramOutside]; omega
  · rename_i s
    split at h
    · cases h; simp
    · cases he : encode6868 s with
      | none => rw [he] at h; cases h
      | some e =>
        have := encode6868_length he; subst this
        rw [he] at h; cases h
        split <;> simp [quote, paramSize, paramOutside] <;> omega
  · rename_i s
    split at h
    · cases h; simp
    · cases he : encode6868 s with
      | none => rw [he] at h; cases h
      | some e =>
        have := encode6868_length he; subst this
        rw [he] at h; cases h
        split <;> simp [quote, paramSize, paramOutside] <;> omega
  · rename_i names n
    cases h
    have := namesMax_get hd.2 (n - 1) c!"UNKNOWN" (by decide)
    split <;> simp [paramSize, paramOutside] at * <;> omega
  · rename_i ss
    split at h
    · cases h; simp
    · cases hc : commas (ss.map fun s => (encode6868 s).map quote) with
      | none => rw [hc] at h; cases h
      | some w =>
        rw [hc] at h; cases h
        have := commas_length (fun s => (encode6868 s).map quote) (fun s => s.length + 3) (fun x t e => by
          cases he : encode6868 x with
          | none => rw [he] at e; cases e
          | some y =>
            have := encode6868_length he; subst this
            rw [he] at e; cases e; simp [quote]) ss w hc
        have hs : ∀ ss : List Str, (ss.map fun s => s.length + 3).sum ≤ 3 * listSize ss := by
          intro ss
          induction ss with
          | nil => simp
          | cons u us ih => simp only [List.map_cons, List.sum_cons, listSize]; omega
        have := hs ss
        simp [paramSize, paramOutside]; omega
  · cases h; simp; omega
  · rename_i b
    cases b <;> cases h <;> simp [Boolean.encode]; omega
  · cases h; simp

theorem catted_cons {x : Option Str} {xs : List (Option Str)} {t : Str} (h : cat (x :: xs) = some t) : ∃ a b, x = some a ∧ cat xs = some b ∧ t = a ++ b := by
  unfold cat at h
  simp only [Option.bind_eq_bind, Option.bind_eq_some_iff] at h
  obtain ⟨a, ha, b, hb, e⟩ := h
  cases e
  exact ⟨a, b, ha, hb, rfl⟩

theorem catted_append : ∀ {xs ys : List (Option Str)} {t : Str}, cat (xs ++ ys) = some t → ∃ a b, cat xs = some a ∧ cat ys = some b ∧ t = a ++ b
  | [], ys, t, h => ⟨[], t, rfl, h, rfl⟩
  | x :: xs, ys, t, h => by
    obtain ⟨a, b, h1, h2, rfl⟩ := catted_cons h
    obtain ⟨c, d, h3, h4, rfl⟩ := catted_append h2
    exact ⟨a ++ c, d, by simp [cat, h1, h3], h4, by simp⟩

theorem encParams_length {E : Env} : ∀ (ds : List PDef) (ps : List (Option ParamVal)) (t : Str), (∀ d ∈ ds, d.brief = true) →
    cat (encParams E ds ps) = some t → t.length ≤ 32 * paramsSize ps + setOutside (paramOutside E) ps
  | [], ps, t, _, h => by
    have : encParams E [] ps = [] := by unfold encParams; rfl
    rw [this] at h; cases h; simp
  | d :: ds, [], t, _, h => by
    have : encParams E (d :: ds) [] = [] := by unfold encParams; rfl
    rw [this] at h; cases h; simp
  | d :: ds, p :: ps, t, hd, h => by
    unfold encParams at h
    obtain ⟨a, b, ha, hb, rfl⟩ := catted_cons h
    have h1 := encParams_length ds ps b (fun x hx => hd x (List.mem_cons_of_mem _ hx)) hb
    cases p with
    | none =>
      cases ha
      simp only [paramsSize, setOutside, List.map_cons, List.sum_cons, List.nil_append] at *; omega
    | some v =>
      have hs := hd d (List.mem_cons_self ..)
      have h2 := PKind.encode_length hs ha
      simp only [PDef.brief, Bool.and_eq_true, decide_eq_true_eq] at hs
      simp only [paramsSize, setOutside, List.map_cons, List.sum_cons, List.length_append] at *; omega

/-! ## Properties -/

/-- What the alternatives of a property have beside their contents and what comes from elsewhere. -/
def valsMax : List (Str × Kind) → Nat
  | [] => 0
  | (n, k) :: ks => kindMax k + n.length + 7 + valsMax ks

theorem encVals_length {E : Env} : ∀ (first : Bool) (ks : List (Str × Kind)) (vs : List (Option Val)), typedVals ks vs = true → (∀ v, some v ∈ vs → ValFits E v) →
    (encVals E first ks vs).length ≤ valsMax ks + 7 * valsSize vs + setOutside (valOutside E) vs
  | first, [], [], _, _ => by simp [encVals]
  | first, (n, k) :: ks, [], h, _ => by cases h
  | first, [], v :: vs, h, _ => by cases h
  | first, (n, k) :: ks, v :: vs, h, hf => by
    simp only [typedVals, Bool.and_eq_true] at h
    have h1 := encVals_length false ks vs h.2 fun v hv => hf v (List.mem_cons_of_mem _ hv)
    unfold encVals
    cases v with
    | none => simp only [valsMax, valsSize, setOutside, List.map_cons, List.sum_cons, List.nil_append] at *; omega
    | some v =>
      have hk : v.kind = k := by simpa using h.1
      have h2 := Val.aencode_length (hf v (List.mem_cons_self ..))
      rw [hk] at h2
      simp only [valsMax, valsSize, setOutside, List.map_cons, List.sum_cons, List.length_append] at *
      split <;> simp <;> omega

/-- The names and texts in the definition of a property are short. -/
def PSpec.brief (sp : PSpec) : Bool := decide (sp.name.length ≤ 16) && (match sp.shape with
  | .enum names => namesMax names
  | .fields params vals => params.all PDef.brief && decide (valsMax vals ≤ 220))

theorem PSpec.encode_length {E : Env} {sp : PSpec} (hs : sp.brief = true) {v : PropVal} (ht : sp.typed v = true) (hf : PropFits E v) {t : Str}
    (h : sp.encode E v = some t) : t.length ≤ 240 * propSize v + propOutside E v := by
  obtain ⟨name, shape⟩ := sp
  simp only [PSpec.brief, Bool.and_eq_true, decide_eq_true_eq] at hs
  unfold PSpec.encode at h
  dsimp only at h
  split at h
  · rename_i names n
    cases h
    have := namesMax_get hs.2 n [] (by decide)
    simp [propSize, propOutside, crlf] at *; omega
  · rename_i params vals ps vs
    simp only [PSpec.typed, Bool.and_eq_true] at ht
    simp only [Bool.and_eq_true, decide_eq_true_eq, List.all_eq_true] at hs
    cases hc : cat (encParams E params ps) with
    | none => rw [hc] at h; cases h
    | some a =>
      rw [hc] at h; cases h
      have h1 := encParams_length params ps a hs.2.1 hc
      have h2 := encVals_length true vals vs ht.1.2 hf
      simp only [propSize, propOutside, crlf, List.length_append, List.length_cons, List.length_nil] at *; omega
  · cases h; simp

/-! ## Sections -/

theorem encFields_length {E : Env} : ∀ (fs : List SField) (vs : List (List PropVal)) (t : Str), (∀ f ∈ fs, f.spec.brief = true) → typedFields fs vs = true →
    (∀ p ∈ vs.flatten, PropFits E p) → cat (encFields E fs vs) = some t → t.length ≤ 240 * sumSize propSize vs + sumSize (propOutside E) vs
  | [], [], t, _, _, _, h => by cases h; simp
  | _ :: _, [], _, _, h, _, _ => by cases h
  | [], _ :: _, _, _, h, _, _ => by cases h
  | f :: fs, v :: vs, t, hs, ht, hf, h => by
    unfold encFields at h
    simp only [typedFields, Bool.and_eq_true] at ht
    obtain ⟨a, b, ha, hb, rfl⟩ := catted_append h
    have h1 := encFields_length fs vs b (fun x hx => hs x (List.mem_cons_of_mem _ hx)) ht.2 (fun p hp => hf p (by simp at *; exact .inr hp)) hb
    have h2 : ∀ (v : List PropVal) (a : Str), v.all f.spec.typed = true → (∀ p ∈ v, PropFits E p) → cat (v.map (f.spec.encode E)) = some a →
        a.length ≤ 240 * (v.map propSize).sum + (v.map (propOutside E)).sum := by
      intro v
      induction v with
      | nil => intro a _ _ h; cases h; simp
      | cons p v ih =>
        intro a ht hf h
        obtain ⟨c, d, hc, hd, rfl⟩ := catted_cons h
        simp only [List.all_cons, Bool.and_eq_true] at ht
        have h3 := ih d ht.2 (fun q hq => hf q (List.mem_cons_of_mem _ hq)) hd
        have h4 := PSpec.encode_length (hs f (List.mem_cons_self ..)) ht.1 (hf p (List.mem_cons_self ..)) hc
        simp only [List.map_cons, List.sum_cons, List.length_append] at *; omega
    have h3 := h2 v a ht.1.1 (fun p hp => hf p (by simp; exact .inl hp)) ha
    simp only [sumSize, List.map_cons, List.sum_cons, List.length_append] at *; omega

theorem encSubs_length {κ σ : Type} {enc : κ → σ → Option Str} {typ : κ → σ → Bool} {w o : σ → Nat} {Q : σ → Prop} : ∀ (ks : List (Str × κ)) (vs : List (List σ)) (t : Str),
    (∀ k ∈ ks, ∀ x t, typ k.2 x = true → Q x → enc k.2 x = some t → t.length ≤ 240 * w x + o x) → typedSubs typ ks vs = true →
    (∀ x ∈ vs.flatten, Q x) → cat (encSubs enc ks vs) = some t → t.length ≤ 240 * sumSize w vs + sumSize o vs
  | [], [], t, _, _, _, h => by cases h; simp
  | _ :: _, [], _, _, h, _, _ => by cases h
  | [], _ :: _, _, _, h, _, _ => by cases h
  | (n, k) :: ks, v :: vs, t, he, ht, hf, h => by
    unfold encSubs at h
    simp only [typedSubs, Bool.and_eq_true] at ht
    obtain ⟨a, b, ha, hb, rfl⟩ := catted_append h
    have h1 := encSubs_length ks vs b (fun x hx => he x (List.mem_cons_of_mem _ hx)) ht.2 (fun p hp => hf p (by simp at *; exact .inr hp)) hb
    have h2 : ∀ (v : List σ) (a : Str), v.all (typ k) = true → (∀ p ∈ v, Q p) → cat (v.map (enc k)) = some a →
        a.length ≤ 240 * (v.map w).sum + (v.map o).sum := by
      intro v
      induction v with
      | nil => intro a _ _ h; cases h; simp
      | cons p v ih =>
        intro a ht hf h
        obtain ⟨c, d, hc, hd, rfl⟩ := catted_cons h
        simp only [List.all_cons, Bool.and_eq_true] at ht
        have h3 := ih d ht.2 (fun q hq => hf q (List.mem_cons_of_mem _ hq)) hd
        have h4 := he _ (List.mem_cons_self ..) _ _ ht.1 (hf p (List.mem_cons_self ..)) hc
        simp only [List.map_cons, List.sum_cons, List.length_append] at *; omega
    have h3 := h2 v a ht.1 (fun p hp => hf p (by simp; exact .inl hp)) ha
    simp only [sumSize, List.map_cons, List.sum_cons, List.length_append] at *; omega

/-- The names in the table are short. -/
def Tab.brief {κ : Type} (T : Tab κ) : Bool := decide (T.name.length ≤ 16) && T.fields.all fun f => f.spec.brief

theorem Tab.body_length {κ σ : Type} {E : Env} {T : Tab κ} (hT : T.brief = true) {enc : κ → σ → Option Str} {typ : κ → σ → Bool} {w o : σ → Nat} {Q : σ → Prop}
    (he : ∀ k ∈ T.subs, ∀ x t, typ k.2 x = true → Q x → enc k.2 x = some t → t.length ≤ 240 * w x + o x) {s : Sect σ} (ht : T.typed typ s = true)
    (hf : ∀ p ∈ s.fields.flatten, PropFits E p) (hq : ∀ x ∈ s.subs.flatten, Q x) {t : Str} (h : cat (T.body E enc s) = some t) :
    t.length + 240 ≤ 240 * sectSize w s + sectOutside E o s := by
  unfold Tab.body at h
  simp only [Tab.brief, Bool.and_eq_true, List.all_eq_true] at hT
  simp only [Tab.typed, Bool.and_eq_true] at ht
  obtain ⟨a, b, ha, hb, rfl⟩ := catted_append h
  have h1 := encFields_length _ _ _ hT.2 ht.1 hf ha
  have h2 := encSubs_length (w := w) (o := o) (Q := Q) _ _ _ he ht.2 hq hb
  simp only [sectSize, sectOutside, List.length_append] at *; omega

theorem Tab.encode_length {κ σ : Type} {E : Env} {T : Tab κ} (hT : T.brief = true) {enc : κ → σ → Option Str} {typ : κ → σ → Bool} {w o : σ → Nat} {Q : σ → Prop}
    (he : ∀ k ∈ T.subs, ∀ x t, typ k.2 x = true → Q x → enc k.2 x = some t → t.length ≤ 240 * w x + o x) {s : Sect σ} (ht : T.typed typ s = true)
    (hf : ∀ p ∈ s.fields.flatten, PropFits E p) (hq : ∀ x ∈ s.subs.flatten, Q x) {t : Str} (h : T.encode E enc s = some t) :
    t.length ≤ 240 * sectSize w s + sectOutside E o s := by
  unfold Tab.encode at h
  obtain ⟨a, b, ha, hb, rfl⟩ := catted_append h
  obtain ⟨c, d, hc, hd, rfl⟩ := catted_append ha
  have h1 := Tab.body_length hT he ht hf hq hd
  simp only [Tab.brief, Bool.and_eq_true, decide_eq_true_eq] at hT
  simp only [cat, Option.bind_eq_bind, Option.bind_some] at hc hb
  cases hc; cases hb
  simp [lineOf, kBEGIN, kEND, crlf] at *; omega

theorem noEnc_length {T : Tab Empty} : ∀ k ∈ T.subs, ∀ (x : Empty) t, noTyp k.2 x = true → True → noEnc k.2 x = some t → t.length ≤ 240 * noSize x + noSize x :=
  fun _ _ x => nomatch x

theorem alarmTab_brief (k : AKind) : k.tab.brief = true := by cases k <;> decide +kernel

theorem compTabs_brief : ∀ k ∈ tabCalendar.subs, k.2.brief = true ∧ ∀ j ∈ k.2.subs, (match j.2 with
    | .alarm => true
    | .leaf T => T.brief) = true := by decide +kernel

/-- All properties of a subsection fit. -/
def SubFits (E : Env) (x : Sub) : Prop := match x with
  | .leaf s => ∀ p ∈ s.fields.flatten, PropFits E p
  | .alarm (some (_, s)) => ∀ p ∈ s.fields.flatten, PropFits E p
  | .alarm none => True

theorem subEncode_length {E : Env} {k : SubKind} (hk : (match k with
    | .alarm => true
    | .leaf T => T.brief) = true) {x : Sub} {t : Str} (ht : subTyped k x = true) (hf : SubFits E x) (h : subEncode E k x = some t) :
    t.length ≤ 240 * subSize x + subOutside E x := by
  cases k with
  | alarm =>
    cases x with
    | leaf s => cases ht
    | alarm a =>
      cases a with
      | none => cases h; simp
      | some ks =>
        obtain ⟨k, s⟩ := ks
        simp only [subEncode, alarmEncode] at h
        obtain ⟨a, b, ha, hb, rfl⟩ := catted_append h
        obtain ⟨c, d, hc, hd, rfl⟩ := catted_append ha
        have h1 := Tab.body_length (w := noSize) (o := noSize) (Q := fun _ => True) (alarmTab_brief k) noEnc_length ht hf (fun _ _ => trivial) hd
        simp only [cat, Option.bind_eq_bind, Option.bind_some] at hc hb
        have h2 : k.action.length ≤ 7 := by cases k <;> decide
        cases hc; cases hb
        simp [lineOf, kBEGIN, kEND, kVALARM, kACTION, crlf, subSize, subOutside] at *; omega
  | leaf T =>
    cases x with
    | alarm a => cases ht
    | leaf s => exact Tab.encode_length (Q := fun _ => True) hk noEnc_length ht hf (fun _ _ => trivial) h

theorem encodeDoc_length {E : Env} {c : Cal} (ht : c.typed = true) (hf : ∀ p ∈ everyProp c, PropFits E p) {t : Str} (h : encodeDoc E c = some t) :
    t.length ≤ 240 * calSize c + calOutside E c := by
  have hm : ∀ p, p ∈ everyProp c ↔ p ∈ c.fields.flatten ∨ ∃ x ∈ c.subs.flatten, p ∈ x.fields.flatten ∨ ∃ y ∈ x.subs.flatten, p ∈ (match y with
      | .leaf s => s.fields.flatten
      | .alarm (some (_, s)) => s.fields.flatten
      | .alarm none => []) := by
    intro p
    simp only [everyProp, List.mem_append, List.mem_flatMap]
    rfl
  refine Tab.encode_length (T := tabCalendar) (w := compSize) (o := compOutside E) (typ := fun T s => T.typed subTyped s)
    (Q := fun x => (∀ p ∈ x.fields.flatten, PropFits E p) ∧ ∀ y ∈ x.subs.flatten, SubFits E y) (by decide +kernel) ?_ ht (fun p hp => hf p ((hm p).2 (.inl hp))) ?_ h
  · intro k hk x t htx hq hx
    exact Tab.encode_length (w := subSize) (o := subOutside E) (Q := SubFits E) (compTabs_brief k hk).1
      (fun j hj y t hty hy h => subEncode_length ((compTabs_brief k hk).2 j hj) hty hy h) htx hq.1 hq.2 hx
  · intro x hx
    refine ⟨fun p hp => hf p ((hm p).2 (.inr ⟨x, hx, .inl hp⟩)), fun y hy => ?_⟩
    have : ∀ p, p ∈ (match y with
      | .leaf s => s.fields.flatten
      | .alarm (some (_, s)) => s.fields.flatten
      | .alarm none => []) → PropFits E p := fun p hp => hf p ((hm p).2 (.inr ⟨x, hx, .inr ⟨y, hy, hp⟩⟩))
    cases y with
    | leaf s => exact this
    | alarm a =>
      cases a with
      | none => trivial
      | some ks => exact this

end Ics
