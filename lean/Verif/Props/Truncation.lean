import Verif.TruncLemmas
import Verif.Props.Encode
/-!
# Theorems about documents that were cut off: C15

What `Encode` wrote is cut off at any octet before the text of the last line, END:VCALENDAR, is complete.
-/

namespace Ics.Props

open Spec

/-- The full claim: no part of an encoded calendar that ends before the text of its last line does is decoded. -/
def C15_claim : Prop := ∀ (E E' : Env) (c c' : Cal) (s p : Str), c.typed = true → c.valid = .ok () → encodeDoc E c = some s →
  p <+: s → p.length + 2 < s.length → decodeDoc E' p ≠ .ok c'

theorem clean_lines {E : Env} {c : Cal} (ht : c.typed = true) (hv : c.valid = .ok ())
    (hp : ∀ x ∈ calProps c, ∀ y ∈ propParams x.1.spec x.2, CleanParam E y.2)
    (hl : ∀ x ∈ calProps c, ∀ v ∈ propVals x.2, CleanVal E v) :
    encodeDoc E c = some ((calLines E c).flatMap printLine) ∧ ∀ l ∈ calLines E c, LineOk l :=
  encodeDoc_lines E c (GoodCal.safe (GoodCal.build
    (fun f p => (∀ y ∈ propParams f.spec p, CleanParam E y.2) ∧ (∀ v ∈ propVals p, CleanVal E v)) _ (by
      intro f p hw ht ⟨h1, h2⟩ hv
      exact propSafe_of (E := E) ht hv (fun x hx => cleanParam_safe (PSpec.typed_params ht x hx) (h1 x hx)) (fun v hv => cleanVal_safe (h2 v hv)))
    c ht hv (fun x hx => ⟨hp x hx, hl x hx⟩)))

/-- C15.  The claim for the calendars of C46: those whose parameters have no characters in their texts that break lines or cannot be
quoted, and whose time zone names need no quotes.  The libraries used for decoding need not be those used for encoding. -/
theorem C15_no_part_is_decoded_partial (E E' : Env) (c c' : Cal) (ht : c.typed = true) (hv : c.valid = .ok ())
    (hp : ∀ x ∈ calProps c, ∀ y ∈ propParams x.1.spec x.2, CleanParam E y.2)
    (hl : ∀ x ∈ calProps c, ∀ v ∈ propVals x.2, CleanVal E v) (s p : Str) (hs : encodeDoc E c = some s)
    (h1 : p <+: s) (h2 : p.length + 2 < s.length) : decodeDoc E' p ≠ .ok c' := by
  obtain ⟨e1, e2⟩ := clean_lines ht hv hp hl
  rw [e1] at hs
  cases hs
  have := decode_cut (E' := E') (c' := c') e2 h1 h2 (x := []) (fun _ h => by cases h)
  rwa [List.append_nil] at this

/-- The octets of a clean calendar, cut off, and unfolded. -/
theorem cut_octets {E E' : Env} {c c' : Cal} (ht : c.typed = true) (hv : c.valid = .ok ())
    (hp : ∀ x ∈ calProps c, ∀ y ∈ propParams x.1.spec x.2, CleanParam E y.2)
    (hl : ∀ x ∈ calProps c, ∀ v ∈ propVals x.2, CleanVal E v) {cut : Str → List Str} (hcut : ∀ s, (cut s).flatten = s) {o : EncOut}
    (ho : encode E okSink cut c = .done o) {b : Bytes} (h1 : b <+: o.f.out) (h2 : b.length + 2 < o.f.out.length) :
    decodeDoc E' (runes (removeFolds b)) ≠ .ok c' := by
  obtain ⟨e1, e2⟩ := clean_lines ht hv hp hl
  obtain ⟨t, g1, g2⟩ := C02_fold_never_splits_characters (cut ((calLines E c).flatMap printLine))
  have hout : o.f.out = utf8 t := by
    obtain ⟨k, hk⟩ := writes_ok (cut ((calLines E c).flatMap printLine)) {} rfl
    unfold encode at ho
    rw [hv, e1] at ho
    simp only [Run.done.injEq] at ho
    rw [← ho]
    exact g1
  rw [hcut] at g2
  rw [hout] at h1 h2
  obtain ⟨a, ha⟩ := calLines_end E c
  obtain ⟨p, x, k1, k2, k3, k4⟩ := unfold_cut g2 (noFold_lines _ e2) (by decide) ha h1 h2
  rw [k1]
  exact decode_cut e2 k3 k4 k2

/-- C15 for the octets: what `Encode` sent to a writer that takes everything is cut off after any octet, in the middle of a fold or of
a character as well, but before the last line is complete.  Read at once, it is never decoded. -/
theorem C15_octets_partial (E E' : Env) (c : Cal) (ht : c.typed = true) (hv : c.valid = .ok ())
    (hp : ∀ x ∈ calProps c, ∀ y ∈ propParams x.1.spec x.2, CleanParam E y.2)
    (hl : ∀ x ∈ calProps c, ∀ v ∈ propVals x.2, CleanVal E v) (cut : Str → List Str) (hcut : ∀ s, (cut s).flatten = s) (o : EncOut)
    (ho : encode E okSink cut c = .done o) (b : Bytes) (h1 : b <+: o.f.out) (h2 : b.length + 2 < o.f.out.length) (fin k : Nat)
    (hk : b.length ≤ k) (hk0 : 0 < k) (fuel : Nat) (hf : k + 4 ≤ fuel) (c' : Cal) :
    decodeReader E' (onceReader b fin) fuel [k, k] ≠ .done (.ok c') := by
  intro h
  by_cases hb : hasFold b ∧ badEnd b
  · have e : onceReader b fin [k] = (b, none) := by simp [onceReader, hk]
    have := read_hangs (R := onceReader b fin) fuel k hk0 (by rw [e]; exact hb.1) (by rw [e]; exact hb.2)
    unfold decodeReader at h
    rw [readAll, this] at h
    cases h
  · obtain ⟨u, hu⟩ := C07_single_delivery_partial b fin k (fun h1 h2 => hb ⟨h1, h2⟩) hk hk0 fuel hf
    unfold decodeReader at h
    rw [hu] at h
    exact cut_octets ht hv hp hl hcut ho h1 h2 (by injection h)

/-- C15 for readers that deliver the octets in pieces (not cutting fold markers) and fail before the last line is complete: whatever the
sizes of the buffers, nothing is decoded. -/
theorem C15_pieces_partial (E E' : Env) (c : Cal) (ht : c.typed = true) (hv : c.valid = .ok ())
    (hp : ∀ x ∈ calProps c, ∀ y ∈ propParams x.1.spec x.2, CleanParam E y.2)
    (hl : ∀ x ∈ calProps c, ∀ v ∈ propVals x.2, CleanVal E v) (cut : Str → List Str) (hcut : ∀ s, (cut s).flatten = s) (o : EncOut)
    (ho : encode E okSink cut c = .done o) (R : Reader) (hR : WellCut R)
    (hd : ∀ h, delivered R h <+: o.f.out ∧ (delivered R h).length + 2 < o.f.out.length) (ks : List Nat) (fuel : Nat)
    (hf : ∀ k ∈ ks, k + 3 ≤ fuel) (c' : Cal) : decodeReader E' R fuel ks ≠ .done (.ok c') := by
  intro h
  obtain ⟨out, e, u, h1, h2, _⟩ := C07_unfolding_partial R hR ks fuel hf
  unfold decodeReader at h
  rw [h1, h2] at h
  exact cut_octets ht hv hp hl hcut ho (hd u.hist).1 (hd u.hist).2 (by injection h)

/-- The sample meets the hypotheses of all three. -/
example : sampleCal.typed = true ∧ sampleCal.valid = .ok () ∧ (∀ x ∈ calProps sampleCal, ∀ y ∈ propParams x.1.spec x.2, CleanParam sampleEnv y.2) ∧
    (∀ x ∈ calProps sampleCal, ∀ v ∈ propVals x.2, CleanVal sampleEnv v) ∧ encodeDoc sampleEnv sampleCal = some sampleDoc ∧
    ∀ n, n + 2 < sampleDoc.length → ∀ E c', decodeDoc E (sampleDoc.take n) ≠ .ok c' := by
  have hp : ∀ x ∈ calProps sampleCal, ∀ y ∈ propParams x.1.spec x.2, CleanParam sampleEnv y.2 := by
    intro x hx y hy
    have h := sampleCal_params x hx y hy
    generalize y.2 = w at h ⊢
    generalize y.1.kind = k at h
    cases h <;> first | trivial | assumption
  have hl : ∀ x ∈ calProps sampleCal, ∀ v ∈ propVals x.2, CleanVal sampleEnv v := by
    intro x hx v hv
    obtain ⟨h1, h2⟩ := sampleCal_values x hx v hv
    refine ⟨?_, ?_⟩
    · intro n p r h
      exact h2 n (by rw [valLoc_tzid, h]; rfl)
    · have := h1.libOk
      cases v <;> exact this
  refine ⟨sampleCal_typed, sampleCal_valid, hp, hl, sampleCal_doc, fun n hn E c' => ?_⟩
  refine C15_no_part_is_decoded_partial sampleEnv E sampleCal c' sampleCal_typed sampleCal_valid hp hl _ _ sampleCal_doc (List.take_prefix _ _) ?_
  simp only [List.length_take]
  omega

/-- A bound that is sharp: the text without its last line end is decoded. -/
example : (match decodeDoc sampleEnv (sampleDoc.take (sampleDoc.length - 2)) with | .ok _ => true | _ => false) = true := by decide +kernel

/-- An event that starts in a zone made by `time.FixedZone` with this name. -/
def endZone : Str := c!"Europe/Paris:20210729T024000\r\nEND:VEVENT\r\nEND:VCALENDAR\r\nX-A"

def endZoneCal : Cal := sect tabCalendar [(c!"VERSION", val1 0 (.text c!"2.0")), (c!"PRODID", val1 0 (.text c!"-//x"))]
  [[sect tabEvent [(c!"DTSTAMP", val1 0 (.dateTime ⟨63763119600, 0, .utc⟩)), (c!"UID", val1 0 (.text c!"1")),
    (c!"DTSTART", .fields [] [some (.dateTime ⟨63763119600, 0, .zone endZone 0 0⟩), none])] [[]]], [], [], [], []]

/-- C15 fails for it: validation accepts it, and a part of what is written is decoded. -/
theorem C15_zone_name_ends_document : endZoneCal.typed = true ∧ endZoneCal.valid = .ok () ∧ ∃ s p c', encodeDoc sampleEnv endZoneCal = some s ∧
    p <+: s ∧ p.length + 2 < s.length ∧ decodeDoc sampleEnv p = .ok c' := by
  refine ⟨by decide +kernel, by decide +kernel, ?_⟩
  have h : (match encodeDoc sampleEnv endZoneCal with
    | some s => decide (160 + 2 < s.length) && (match decodeDoc sampleEnv (s.take 160) with | .ok _ => true | _ => false)
    | none => false) = true := by decide +kernel
  split at h
  · next s hs =>
    rw [Bool.and_eq_true] at h
    obtain ⟨h1, h2⟩ := h
    split at h2
    · next c' hc =>
      refine ⟨s, s.take 160, c', hs, List.take_prefix _ _, ?_, hc⟩
      have := of_decide_eq_true h1
      simp only [List.length_take]
      omega
    · cases h2
  · cases h

/-- C15.  The claim as stated in full is false: a counterexample. -/
theorem C15_full_claim_is_false : ¬ C15_claim := by
  intro h
  obtain ⟨h1, h2, s, p, c', h3, h4, h5, h6⟩ := C15_zone_name_ends_document
  exact h _ _ _ _ _ _ h1 h2 h3 h4 h5 h6

end Ics.Props
