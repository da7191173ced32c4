import Verif.RawKeep
import Verif.Props.RoundTrip
import Verif.Props.Stays
import Verif.Props.FoldingOctets
import Verif.Props.Encode
/-!
# Properties: calendars whose strings are not UTF-8 (C105), and whether what is written is UTF-8 (C106)
-/

namespace Ics.Props

open Ics.Spec

/-! ## C105 -/

/-- C105.  What the strings of a calendar are taken for: in `softCal` the texts and parameters are replaced, each wrong octet by U+FFFD, and nothing else. -/
theorem C105_taken_for (t : Bytes) (s : Str) : (softVal (.text t) = .text s ↔ Replaced t s) ∧ (softParam (.str t) = .str s ↔ Replaced t s) := by
  rw [replaced_iff]
  simp only [softVal, softParam, Val.text.injEq, ParamVal.str.injEq]
  exact ⟨eq_comm, eq_comm⟩

/-- C105.  Whatever octets the strings of a calendar have, what is written is taken, rune by rune, for what is written for the calendar with U+FFFD in the place of each
wrong octet; and if writing does not end for one, it does not for the other. -/
theorem C105_written (E : Env) (O : Octets) (hO : OctetsOf E O) (c : RawCal) : (encodeOctets E O c).map runes = encodeDoc E (softCal c) := (encodeOctets_ends hO c).text

/-- C105.  Validation gives the same answer for both. -/
theorem C105_validation (c : RawCal) : c.valid = (softCal c).valid := RawCal.valid_soft c

/-- C105.  So `Encode` returns for one if it returns for the other, with the same validation error. -/
theorem C105_encode (E : Env) (O : Octets) (hO : OctetsOf E O) (W : Sink) (cut : Bytes → List Bytes) (cut' : Str → List Str) (c : RawCal) :
    (encodeRaw E O W cut c = .running ↔ encode E W cut' (softCal c) = .running) ∧ encodeRaw E O W cut c ≠ .panic ∧
    ∀ e, (∃ o, encodeRaw E O W cut c = .done o ∧ o.err = some (.validation e)) ↔ ∃ o, encode E W cut' (softCal c) = .done o ∧ o.err = some (.validation e) := by
  have h1 := C105_written E O hO c
  unfold encodeRaw encode
  rw [C105_validation]
  cases hv : (softCal c).valid with
  | panic => exact absurd hv (Cal.valid_ne_panic _)
  | err e => exact ⟨by simp, by simp, fun e' => by simp⟩
  | ok u =>
    rw [← h1]
    cases encodeOctets E O c with
    | none => exact ⟨by simp, by simp, fun e' => by simp⟩
    | some b =>
      refine ⟨by simp, by simp, fun e => ⟨fun ⟨o, h2, h3⟩ => ?_, fun ⟨o, h2, h3⟩ => ?_⟩⟩
      · cases h2
        obtain ⟨x, _, hx⟩ := Option.map_eq_some_iff.1 h3
        cases hx
      · cases h2
        obtain ⟨x, _, hx⟩ := Option.map_eq_some_iff.1 h3
        cases hx

/-- C105.  What `Encode` sends to a writer that takes everything, read by `Decode` at once, gives what `Decode` makes of the text of that calendar, however `Encode`
divides the octets into writes; if there is nothing like a fold in the text itself. -/
theorem C105_read (E : Env) (O : Octets) (hO : OctetsOf E O) (c : RawCal) (hv : c.valid = .ok ()) (s : Str) (he : encodeDoc E (softCal c) = some s) (hn : ¬ ['\r', '\n', ' '] <:+: s)
    (cut : Bytes → List Bytes) (hcut : ∀ b, (cut b).flatten = b) :
    ∃ o, encodeRaw E O okSink cut c = .done o ∧ o.err = none ∧ ∀ fin k, o.f.out.length ≤ k → 0 < k → ∀ fuel, k + 4 ≤ fuel →
      decodeReader E (onceReader o.f.out fin) fuel [k, k] = .done (decodeDoc E s) := by
  have h1 := C105_written E O hO c
  rw [he] at h1
  obtain ⟨b, hb, hs⟩ := Option.map_eq_some_iff.1 h1
  subst hs
  obtain ⟨us, hu⟩ := allPieces_exist (cut b)
  have hf : (({} : Folder).writes okSink (cut b)).err = none := by
    obtain ⟨k, hk⟩ := writes_pieces hu {} rfl
    rw [hk]
  have hnf : ¬ hasFold (cut b).flatten := by
    rw [hcut]
    exact fun h => hn (hasFold_runes h)
  refine ⟨⟨none, ({} : Folder).writes okSink (cut b)⟩, ?_, rfl, ?_⟩
  · unfold encodeRaw
    rw [hv, hb]
    simp [hf]
  · intro fin k hk hk0 fuel hfuel
    obtain ⟨a, ha⟩ := encodeOctets_end hb
    obtain ⟨x, hx⟩ := foldedAt_tail (C96_broken_between_pieces _ us hu) hu.piece 82 a (by rw [hu.flatten, hcut]; exact ha)
    obtain ⟨u, hr⟩ := C07_single_delivery_partial (({} : Folder).writes okSink (cut b)).out fin k (fun _ => by rw [hx]; exact not_badEnd x 82 (by decide)) hk hk0 fuel hfuel
    unfold decodeReader
    rw [hr, C96_transparent _ hnf, hcut]
    rfl

/-- C105.  A calendar that comes back if its strings are UTF-8 comes back with U+FFFD in the place of each wrong octet; so exactly as it was if and only if all its texts
and parameters are UTF-8.  (`hardCal` has the strings as `Decode` gives them.) -/
theorem C105_comes_back (E : Env) (O : Octets) (hO : OctetsOf E O) (c : RawCal) (ht : c.typed = true) (hv : c.valid = .ok ()) (hr : CalRules (softCal c))
    (hp : ∀ x ∈ calProps (softCal c), ∀ y ∈ propParams x.1.spec x.2, GoodParam y.1.kind y.2)
    (hl : ∀ x ∈ calProps (softCal c), ∀ v ∈ propVals x.2, GoodVal E v)
    (hm : ∀ x ∈ calProps (softCal c), x.1.key ≠ c!"LAST-MOD") (hz : Unzoned (softCal c)) (cut : Bytes → List Bytes) (hcut : ∀ b, (cut b).flatten = b) :
    ∃ o d, encodeRaw E O okSink cut c = .done o ∧ o.err = none ∧ d = hardCal (softCal c) ∧ (d = c ↔ ∀ s ∈ calStrings c, IsUtf8 s) ∧
      ∀ fin k, o.f.out.length ≤ k → 0 < k → ∀ fuel, k + 4 ≤ fuel →
        (match decodeReader E (onceReader o.f.out fin) fuel [k, k] with | .done (.ok c') => some (hardCal c') | _ => none) = some d := by
  have hts := RawCal.typed_soft ht
  have hvs : (softCal c).valid = .ok () := by rw [← C105_validation]; exact hv
  obtain ⟨s, he, hd⟩ := C44_exact_partial E (softCal c) hts hvs hr hp hl hm hz
  have hb := good_build hts hvs hp hl
  obtain ⟨l1, l2⟩ := encodeDoc_lines E (softCal c) (GoodCal.safe (hb.imp fun _ _ h => PropOk.safe h.1))
  have hs : s = (calLines E (softCal c)).flatMap printLine := by rw [l1] at he; cases he; rfl
  obtain ⟨o, h1, h2, h3⟩ := C105_read E O hO c hv s he (by rw [hs]; exact noFold_lines _ l2) cut hcut
  refine ⟨o, _, h1, h2, rfl, hardCal_soft ht, fun fin k a b fuel f => ?_⟩
  rw [h3 fin k a b fuel f, hd]

/-- C105.  Where all is UTF-8 this is `Encode` as in the rest of the model. -/
theorem C105_utf8 (E : Env) (O : Octets) (hO : OctetsUtf8 E O) (W : Sink) (cut : Str → List Str) (c : Cal) (ht : c.typed = true) :
    encodeRaw E O W (fun b => (cut (runes b)).map utf8) (hardCal c) = encode E W cut c := by
  unfold encodeRaw encode
  rw [C105_validation, softCal_hard, encodeOctets_hard hO ht]
  cases c.valid with
  | ok u =>
    cases encodeDoc E c with
    | none => rfl
    | some s => simp only [Option.map_some, runes_utf8]
  | _ => rfl

/-- C105.  Every calendar of runes is meant, and only one: the octets of its strings are settled. -/
theorem C105_one (c : Cal) (ht : c.typed = true) : (hardCal c).typed = true ∧ softCal (hardCal c) = c ∧ ∀ d : RawCal, d.typed = true → (∀ s ∈ calStrings d, IsUtf8 s) → softCal d = c → d = hardCal c :=
  ⟨Cal.typed_hard ht, softCal_hard c, fun d hd h e => by rw [← e]; exact ((hardCal_soft hd).2 h).symm⟩

/-! ## C106 -/

/-- C106.  The octets are UTF-8 exactly if all parameters that are strings, all URLs and all names of time zones in the calendar are; texts are always written as UTF-8. -/
theorem C106_exactly (E : Env) (O : Octets) (hO : OctetsOf E O) (c : RawCal) (ht : c.typed = true) (b : Bytes) (hb : encodeOctets E O c = some b) : IsUtf8 b ↔ ∀ s ∈ calAsIs O c, IsUtf8 s :=
  encodeOctets_wr hO ht hb

/-- C106.  Then what is sent, with its folds, is UTF-8 too, if no write ends within a character. -/
theorem C106_folded_partial (E : Env) (O : Octets) (cut : Bytes → List Bytes) (c : RawCal) (o : EncOut) (h : encodeRaw E O okSink cut c = .done o) (hc : ∀ b, ∀ q ∈ cut b, IsUtf8 q) :
    IsUtf8 o.f.out := by
  unfold encodeRaw at h
  cases hv : c.valid with
  | panic => rw [hv] at h; cases h
  | err e => rw [hv] at h; cases h; exact ⟨[], rfl⟩
  | ok u =>
    rw [hv] at h
    cases hb : encodeOctets E O c with
    | none => rw [hb] at h; cases h
    | some b =>
      rw [hb] at h
      cases h
      have : ∃ ss : List Str, cut b = ss.map utf8 := by
        have hq := hc b
        generalize cut b = qs at hq
        induction qs with
        | nil => exact ⟨[], rfl⟩
        | cons q qs ih =>
          obtain ⟨ss, hs⟩ := ih (fun q hq' => hq q (by simp [hq']))
          obtain ⟨s, rfl⟩ := hq q (by simp)
          exact ⟨s :: ss, by rw [hs]; rfl⟩
      obtain ⟨ss, hs⟩ := this
      show IsUtf8 (({} : Folder).writes okSink (cut b)).out
      rw [hs]
      obtain ⟨t, h1, _⟩ := C02_fold_never_splits_characters ss
      exact ⟨t, h1⟩

/-- The claim: what is written for a calendar that passes validation is UTF-8. -/
def C106_claim : Prop := ∀ (E : Env) (O : Octets), OctetsOf E O → ∀ (cut : Bytes → List Bytes), (∀ b, (cut b).flatten = b) → ∀ (c : RawCal) (o : EncOut), c.typed = true →
  encodeRaw E O okSink cut c = .done o → o.err = none → IsUtf8 o.f.out

/-! ## Concrete cases -/

/-- The library for the sample. -/
def sampleOctets : Octets := ⟨fun u => utf8 (sampleEnv.urlString u), fun l => match l with | .zone n _ _ => utf8 n | _ => []⟩

theorem sampleOctets_utf8 : OctetsUtf8 sampleEnv sampleOctets := ⟨fun _ => rfl, fun _ _ _ => rfl⟩

/-- An event whose summary has these octets as language and text. -/
def octetCal (lang txt : Bytes) : RawCal :=
  { hardCal caretCal with
    subs := [[{ hardSect hardSub (sect tabEvent [(c!"DTSTAMP", val1 0 (.dateTime ⟨63763119600, 0, .utc⟩)), (c!"UID", val1 0 (.text c!"1"))] [[]]) with
      fields := ((hardSect hardSub (sect tabEvent [(c!"DTSTAMP", val1 0 (.dateTime ⟨63763119600, 0, .utc⟩)), (c!"UID", val1 0 (.text c!"1"))] [[]])).fields.set
        (tabEvent.fields.findIdx (·.key == c!"SUMMARY")) [.fields [none, some (.str lang)] [some (.text txt)]]) }], [], [], [], []] }

/-- With the octets of `en` and `Zürich`, and the same with octets that are wrong in both. -/
theorem octetCal_typed : (octetCal (utf8 c!"en") (utf8 c!"Zürich")).typed = true ∧ (octetCal [0x65, 0xff] [0x5a, 0xfc, 0x72]).typed = true ∧
    (octetCal (utf8 c!"en") (utf8 c!"Zürich")).valid = .ok () ∧ (octetCal [0x65, 0xff] [0x5a, 0xfc, 0x72]).valid = .ok () := by decide +kernel

/-- What is written for the wrong octets: that of the parameter as it is, that of the text replaced. -/
theorem C106_sample : encodeOctets sampleEnv sampleOctets (octetCal [0x65, 0xff] [0x5a, 0xfc, 0x72]) =
    some (utf8 c!"BEGIN:VCALENDAR\r\nVERSION:2.0\r\nPRODID:-//x\r\nBEGIN:VEVENT\r\nDTSTAMP:20210729T014000Z\r\nUID:1\r\nSUMMARY;LANGUAGE=e" ++ [0xff] ++
      utf8 c!":Z�r\r\nEND:VEVENT\r\nEND:VCALENDAR\r\n") := by decide +kernel

/-- C106.  The claim as stated in full is false: a counterexample. -/
theorem C106_full_claim_is_false : ¬ C106_claim := by
  intro h
  have hs := C106_sample
  have hrun : ∃ o, encodeRaw sampleEnv sampleOctets okSink (fun b => [b]) (octetCal [0x65, 0xff] [0x5a, 0xfc, 0x72]) = .done o ∧ o.err = none ∧ utf8 (runes o.f.out) ≠ o.f.out := by
    refine ⟨_, by unfold encodeRaw; rw [octetCal_typed.2.2.2, hs], ?_, ?_⟩ <;> decide +kernel
  obtain ⟨o, h1, h2, h3⟩ := hrun
  exact h3 ((isUtf8_iff _).1 (h sampleEnv sampleOctets sampleOctets_utf8.of (fun b => [b]) (fun b => by simp) _ o octetCal_typed.2.1 h1 h2))

/-- The theorem on both: one has only UTF-8 in its parameters, the other does not. -/
example : (∀ s ∈ calAsIs sampleOctets (octetCal (utf8 c!"en") [0xff]), utf8 (runes s) = s) ∧ ¬ ∀ s ∈ calAsIs sampleOctets (octetCal [0x65, 0xff] [0x5a, 0xfc, 0x72]), utf8 (runes s) = s := by
  decide +kernel

/-- Texts do not matter. -/
example : ∃ b, encodeOctets sampleEnv sampleOctets (octetCal (utf8 c!"en") [0xff]) = some b ∧ IsUtf8 b := by
  refine ⟨_, rfl, (C106_exactly _ _ sampleOctets_utf8.of (octetCal (utf8 c!"en") [0xff]) (by decide +kernel) _ rfl).2 fun s hs => (isUtf8_iff s).2 ?_⟩
  have : ∀ s ∈ calAsIs sampleOctets (octetCal (utf8 c!"en") [0xff]), utf8 (runes s) = s := by decide +kernel
  exact this s hs

theorem octetCal_soft : softCal (octetCal [0x65, 0xff] [0x5a, 0xfc, 0x72]) = softCal (octetCal (utf8 c!"e�") (utf8 c!"Z�r")) ∧
    octetCal [0x65, 0xff] [0x5a, 0xfc, 0x72] ≠ octetCal (utf8 c!"e�") (utf8 c!"Z�r") := by decide +kernel

/-- C105.  The theorem on the wrong octets: they come back as U+FFFD. -/
theorem C105_sample : ∃ o, encodeRaw sampleEnv sampleOctets okSink (fun b => [b]) (octetCal [0x65, 0xff] [0x5a, 0xfc, 0x72]) = .done o ∧ o.err = none ∧
    ∀ fin k, o.f.out.length ≤ k → 0 < k → ∀ fuel, k + 4 ≤ fuel →
      (match decodeReader sampleEnv (onceReader o.f.out fin) fuel [k, k] with | .done (.ok c') => some (hardCal c') | _ => none) = some (octetCal (utf8 c!"e�") (utf8 c!"Z�r")) := by
  obtain ⟨o, d, h1, h2, h3, h4, h5⟩ := C105_comes_back sampleEnv sampleOctets sampleOctets_utf8.of (octetCal [0x65, 0xff] [0x5a, 0xfc, 0x72]) octetCal_typed.2.1 octetCal_typed.2.2.2
    (by decide +kernel)
    (by
      have h : ∀ y ∈ (calProps (softCal (octetCal [0x65, 0xff] [0x5a, 0xfc, 0x72]))).flatMap (fun x => propParams x.1.spec x.2), y = (paramLanguage, ParamVal.str c!"e�") := by decide +kernel
      intro x hx y hy
      rw [h y (List.mem_flatMap.2 ⟨x, hx, hy⟩)]
      exact .str _ _ (by decide) (Plain_all (by decide)))
    (by
      have h : ∀ v ∈ (calProps (softCal (octetCal [0x65, 0xff] [0x5a, 0xfc, 0x72]))).flatMap (fun x => propVals x.2), v = .dateTime ⟨63763119600, 0, .utc⟩ ∨ v.kind = .text := by decide +kernel
      intro x hx v hv
      rcases h v (List.mem_flatMap.2 ⟨x, hx, hv⟩) with rfl | h
      · exact ⟨sampleTime _ (Or.inl rfl), fun n h => by cases h⟩
      · cases v <;> first | cases h | skip
        exact ⟨trivial, fun n h => by cases h⟩)
    (by decide +kernel) (by
      have h : ∀ v ∈ (calProps (softCal (octetCal [0x65, 0xff] [0x5a, 0xfc, 0x72]))).flatMap (fun x => propVals x.2), ∀ l ∈ valLocs v, l = .utc ∨ l = .local := by decide +kernel
      exact fun x hx v hv => h v (List.mem_flatMap.2 ⟨x, hx, hv⟩))
    (fun b => [b]) (fun b => by simp)
  refine ⟨o, h1, h2, ?_⟩
  rw [← show d = octetCal (utf8 c!"e�") (utf8 c!"Z�r") by
    rw [h3, octetCal_soft.1, hardCal_soft (by decide +kernel)]
    have : ∀ s ∈ calStrings (octetCal (utf8 c!"e�") (utf8 c!"Z�r")), utf8 (runes s) = s := by decide +kernel
    exact fun s hs => (isUtf8_iff s).2 (this s hs)]
  exact h5

/-- A library that gives octets which are not UTF-8: here every URL. -/
example : ∃ (E : Env) (O : Octets), OctetsOf { E with urlString := fun _ => c!"�" } { O with url := fun _ => [0xff] } := by
  refine ⟨sampleEnv, sampleOctets, ?_, ?_⟩
  · intro u
    show c!"�" = runes [0xff]
    decide
  · intro n p r; exact (sampleOctets_utf8.of.zone n p r)

/-- A caret among octets that are not UTF-8: `Encode` does not return. -/
example (W : Sink) (cut : Bytes → List Bytes) : encodeRaw sampleEnv sampleOctets W cut (octetCal [0xff, 0x5e] [0xfe]) = .running := by
  unfold encodeRaw
  rw [show (octetCal [0xff, 0x5e] [0xfe]).valid = .ok () by decide +kernel, show encodeOctets sampleEnv sampleOctets (octetCal [0xff, 0x5e] [0xfe]) = none by decide +kernel]

/-- A control character among them: the error is that of the text. -/
example (W : Sink) (cut : Bytes → List Bytes) : ∃ o, encodeRaw sampleEnv sampleOctets W cut (octetCal [0xff] [0xfe, 0x07]) = .done o ∧ o.err = some (.validation .invalidText) ∧ o.f.out = [] :=
  ⟨_, by unfold encodeRaw; rw [show (octetCal [0xff] [0xfe, 0x07]).valid = .err .invalidText by decide +kernel], rfl, rfl⟩

end Ics.Props
