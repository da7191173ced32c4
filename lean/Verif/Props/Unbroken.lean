import Verif.UnbrokenLemmas
import Verif.Props.Truncation
import Verif.Props.Again
/-!
# C46 exactly; C15 and C01 for every calendar written line by line

The only things that can break the lines of a written calendar are control characters in what the package takes from elsewhere without looking: URIs and
floats as the Go library writes them, format types, and names of time zones.  Everything else (`mailto:` URIs in parameters, names of time zones with
colons, ...) may make a line that cannot be read, but never one that is read as another line.
-/

namespace Ics.Props

open Spec

/-! ## C46 -/

/-- C46, exactly: what is written is one line for each property and each BEGIN, END and ACTION, in the order of the outline, exactly if no URI, float,
format type or time zone name in the calendar is written with control characters. -/
theorem C46_exactly_partial (E : Env) (c : Cal) (s : Str) (ht : c.typed = true) (hv : c.valid = .ok ()) (hs : encodeDoc E c = some s) :
    TextOf (calOutline E c) s ↔ Unbroken E c := by
  obtain ⟨e1, e2, e3⟩ := written_lines ht hv hs
  constructor
  · rintro ⟨rows, h1, h2, h3⟩
    have hl : rows.length = ((calLines E c).map printBare).length := by
      rw [← pairwise2_length h2, ← e3]
      simp
    have h4 := joinRows_length (a := rows) (b := (calLines E c).map printBare) (by rw [joinRows_map, ← e1, h1]) h3 hl
    intro x hx
    have hw := (GoodCal.build (fun _ _ => True) (fun f _ => FieldWf f) (fun _ _ hw _ _ _ => hw) c ht hv (fun _ _ => trivial)).each x hx
    obtain ⟨_, n, k⟩ := PSpec.encode_any E x.1.spec x.2 hw.1.spec (Cal.typed_props ht x hx) (((Cal.valid_iff c).1 hv).1 x hx) (written_each hs x hx)
    refine k.2 ((lineClear_iff n).2 (h3 _ ?_))
    rw [h4]
    exact List.mem_map.2 ⟨_, toLine_mem x hx, rfl⟩
  · intro hu
    refine ⟨(calLines E c).map printBare, by rw [joinRows_map, e1], by rw [← e3]; exact rowsOf_lines _, ?_⟩
    intro r hr
    obtain ⟨l, hl, rfl⟩ := List.mem_map.1 hr
    exact (unbroken_lines ht hv hs hu l hl).clear

/-- C46 for what the decoder sees of such a text: the lines one by one, from the first one on, to the last one or to one that is no content line.  No line
has a line end or a fold in it. -/
theorem C46_seen_partial (E : Env) (c : Cal) (s : Str) (ht : c.typed = true) (hv : c.valid = .ok ()) (hs : encodeDoc E c = some s) (hu : Unbroken E c) :
    ∃ rows, s = joinRows rows ∧ Pairwise2 RowOf (calOutline E c) rows ∧ (tokenise s).lines.map printBare <+: rows ∧
      ((tokenise s).term = .done → (tokenise s).lines.map printBare = rows) ∧ crlfClean s = true ∧ ¬ ['\r', '\n', ' '] <:+: s := by
  obtain ⟨e1, e2, e3⟩ := written_lines ht hv hs
  have hw := unbroken_lines ht hv hs hu
  have hr : ∀ r ∈ (calLines E c).map printBare, ∀ c ∈ r, NoCtl c := by
    intro r hr
    obtain ⟨l, hl, rfl⟩ := List.mem_map.1 hr
    exact (hw l hl).clear
  have hj : s = joinRows ((calLines E c).map printBare) := by rw [joinRows_map, e1]
  refine ⟨(calLines E c).map printBare, hj, by rw [← e3]; exact rowsOf_lines _, ?_, ?_, ?_, ?_⟩
  · rcases tokenise_rows [] _ hr with ⟨h, _⟩ | ⟨ls, h1, h2⟩
    · rw [List.append_nil, ← hj] at h
      exact h
    · rw [List.append_nil, ← hj, tokenise_nil] at h2
      rw [h2]
      simp [h1]
  · intro hd
    rcases tokenise_rows [] _ hr with ⟨_, h⟩ | ⟨ls, h1, h2⟩
    · rw [List.append_nil, ← hj] at h
      exact absurd hd h
    · rw [List.append_nil, ← hj, tokenise_nil] at h2
      rw [h2]
      simp [h1]
  · rw [e1]; exact crlfClean_whole _ hw
  · rw [e1]; exact noFold_whole _ hw

/-- Decoded calendars are such, if the library writes what it has read without control characters. -/
theorem C46_decoded_partial (E : Env) (hE : SaneEnv E) (hP : PlainEnv E) (doc : Str) (c : Cal) (h : decodeDoc E doc = .ok c) : Unbroken E c := by
  intro x hx
  obtain ⟨h1, h2⟩ := (decoded_plain hE hP h).props x hx
  refine ⟨fun y hy => ?_, fun v hv => ?_⟩
  · have := h1 y hy
    generalize y.1.kind = k at this ⊢
    generalize y.2 = w at this ⊢
    cases k <;> cases w <;> first | trivial | exact this.1 | exact this | exact fun u hu => (this u hu).1
  · obtain ⟨⟨a, b⟩, _⟩ := h2 v hv
    exact ⟨fun n p r e c hc => (a n p r e c hc).1, b⟩

/-! ## C15 -/

/-- C15 for all of them: no part of what was written that ends before the text of its last line does is decoded, whatever library is used for decoding. -/
theorem C15_any_part_partial (E E' : Env) (c c' : Cal) (ht : c.typed = true) (hv : c.valid = .ok ()) (hu : Unbroken E c) (s p : Str)
    (hs : encodeDoc E c = some s) (h1 : p <+: s) (h2 : p.length + 2 < s.length) : decodeDoc E' p ≠ .ok c' := by
  obtain ⟨e1, _, _⟩ := written_lines ht hv hs
  have hw := unbroken_lines ht hv hs hu
  subst e1
  have := decode_cut' (E' := E') (c' := c') hw h1 h2 (x := []) (fun _ h => by cases h)
  rwa [List.append_nil] at this

theorem any_cut_octets {E E' : Env} {c c' : Cal} (ht : c.typed = true) (hv : c.valid = .ok ()) (hu : Unbroken E c) {cut : Str → List Str}
    (hcut : ∀ s, (cut s).flatten = s) {o : EncOut} (ho : encode E okSink cut c = .done o) {b : Bytes} (h1 : b <+: o.f.out) (h2 : b.length + 2 < o.f.out.length) :
    decodeDoc E' (runes (removeFolds b)) ≠ .ok c' := by
  cases hs : encodeDoc E c with
  | none =>
    unfold encode at ho
    rw [hv, hs] at ho
    cases ho
  | some s =>
    obtain ⟨e1, _, _⟩ := written_lines ht hv hs
    have e2 := unbroken_lines ht hv hs hu
    obtain ⟨t, g1, g2⟩ := C02_fold_never_splits_characters (cut s)
    have hout : o.f.out = utf8 t := by
      obtain ⟨k, hk⟩ := writes_ok (cut s) {} rfl
      unfold encode at ho
      rw [hv, hs] at ho
      simp only [Run.done.injEq] at ho
      rw [← ho]
      exact g1
    rw [hcut] at g2
    rw [hout] at h1 h2
    subst e1
    obtain ⟨a, ha⟩ := calLines_end E c
    obtain ⟨p, x, k1, k2, k3, k4⟩ := unfold_cut g2 (noFold_whole _ e2) (by decide) ha h1 h2
    rw [k1]
    exact decode_cut' e2 k3 k4 k2

/-- The same for the octets sent to a writer, cut off after any octet and read at once. -/
theorem C15_any_octets_partial (E E' : Env) (c : Cal) (ht : c.typed = true) (hv : c.valid = .ok ()) (hu : Unbroken E c) (cut : Str → List Str)
    (hcut : ∀ s, (cut s).flatten = s) (o : EncOut) (ho : encode E okSink cut c = .done o) (b : Bytes) (h1 : b <+: o.f.out)
    (h2 : b.length + 2 < o.f.out.length) (fin k : Nat) (hk : b.length ≤ k) (hk0 : 0 < k) (fuel : Nat) (hf : k + 4 ≤ fuel) (c' : Cal) :
    decodeReader E' (onceReader b fin) fuel [k, k] ≠ .done (.ok c') := by
  intro h
  by_cases hb : hasFold b ∧ badEnd b
  · have e : onceReader b fin [k] = (b, none) := by simp [onceReader, hk]
    have := read_hangs (R := onceReader b fin) fuel k hk0 (by rw [e]; exact hb.1) (by rw [e]; exact hb.2)
    unfold decodeReader at h
    rw [readAll, this] at h
    cases h
  · obtain ⟨u, hu'⟩ := C07_single_delivery_partial b fin k (fun h1 h2 => hb ⟨h1, h2⟩) hk hk0 fuel hf
    unfold decodeReader at h
    rw [hu'] at h
    exact any_cut_octets ht hv hu hcut ho h1 h2 (by injection h)

/-- The same for readers that deliver the octets in pieces, not cutting fold markers. -/
theorem C15_any_pieces_partial (E E' : Env) (c : Cal) (ht : c.typed = true) (hv : c.valid = .ok ()) (hu : Unbroken E c) (cut : Str → List Str)
    (hcut : ∀ s, (cut s).flatten = s) (o : EncOut) (ho : encode E okSink cut c = .done o) (R : Reader) (hR : WellCut R)
    (hd : ∀ h, delivered R h <+: o.f.out ∧ (delivered R h).length + 2 < o.f.out.length) (ks : List Nat) (fuel : Nat)
    (hf : ∀ k ∈ ks, k + 3 ≤ fuel) (c' : Cal) : decodeReader E' R fuel ks ≠ .done (.ok c') := by
  intro h
  obtain ⟨out, e, u, h1, h2, _⟩ := C07_unfolding_partial R hR ks fuel hf
  unfold decodeReader at h
  rw [h1, h2] at h
  exact any_cut_octets ht hv hu hcut ho (hd u.hist).1 (hd u.hist).2 (by injection h)

/-- A calendar that was decoded, written again and cut off is not decoded. -/
theorem C15_decoded_partial (E E' : Env) (hE : SaneEnv E) (hP : PlainEnv E) (doc : Str) (c c' : Cal) (h : decodeDoc E doc = .ok c) (hv : c.valid = .ok ()) (s p : Str)
    (hs : encodeDoc E c = some s) (h1 : p <+: s) (h2 : p.length + 2 < s.length) : decodeDoc E' p ≠ .ok c' :=
  C15_any_part_partial E E' c c' (C45_typed E doc c h) hv (C46_decoded_partial E hE hP doc c h) s p hs h1 h2

/-! ## C01 and C03 -/

/-- C01 and C03 for `Encode` for all of them. -/
theorem C01_any_lines_partial (E : Env) (c : Cal) (s : Str) (ht : c.typed = true) (hv : c.valid = .ok ()) (hs : encodeDoc E c = some s) (hu : Unbroken E c)
    (cut : Str → List Str) (hcut : ∀ s, (cut s).flatten = s) :
    ∃ o, encode E okSink cut c = .done o ∧ o.err = none ∧ (∀ l ∈ physLines o.f.out, l.length ≤ 75) ∧ removeFolds o.f.out = utf8 s := by
  obtain ⟨_, _, _, _, _, e4, e5⟩ := C46_seen_partial E c s ht hv hs hu
  obtain ⟨k, hk⟩ := writes_ok (cut s) {} rfl
  refine ⟨⟨none, ({} : Folder).writes okSink ((cut s).map utf8)⟩, ?_, rfl, ?_, ?_⟩
  · unfold encode
    rw [hv, hs]
    simp [hk]
  · exact C01_lines_at_most_75_octets (cut s) (by rw [hcut]; exact e4)
  · obtain ⟨t, h1, h2⟩ := C02_fold_never_splits_characters (cut s)
    rw [h1, removeFolds_utf8 _ _ (Nat.le_refl _), removeFoldsC_FoldOf h2 (by rw [hcut]; exact e5), hcut]

/-! ## Cases -/

/-- An attendee with an address in a parameter, and a start in a zone with a colon in its name: neither is read as meant. -/
def oddCal : Cal := sect tabCalendar [(c!"VERSION", val1 0 (.text c!"2.0")), (c!"PRODID", val1 0 (.text c!"-//x"))]
  [[sect tabEvent [(c!"DTSTAMP", val1 0 (.dateTime ⟨63763119600, 0, .utc⟩)), (c!"UID", val1 0 (.text c!"1")),
    (c!"DTSTART", .fields [] [some (.dateTime ⟨63763119600, 0, .zone c!"Mars/Base:1;END" 0 0⟩), none]),
    (c!"ATTENDEE", .fields (List.replicate 5 none ++ [some (.urls [⟨c!"mailto:b@c"⟩])] ++ List.replicate 5 none) [some (.calAddress ⟨c!"mailto:a@b"⟩)])] [[]]], [], [], [], []]

theorem oddCal_valid : oddCal.typed = true ∧ oddCal.valid = .ok () := by decide +kernel

instance (E : Env) (k : PKind) (v : ParamVal) : Decidable (UnbrokenParam E k v) := by
  unfold UnbrokenParam
  split <;> infer_instance

instance (E : Env) (v : Val) : Decidable (UnbrokenVal E v) := by
  unfold UnbrokenVal
  have : Decidable (∀ name ptr rules, valLoc v = .zone name ptr rules → ∀ c ∈ name, NoCtl c) :=
    match valLoc v with
    | .zone n p r => decidable_of_iff (∀ c ∈ n, NoCtl c) ⟨fun h a b d e => by cases e; exact h, fun h => h n p r rfl⟩
    | .utc => .isTrue (by intro a b d e; cases e)
    | .local => .isTrue (by intro a b d e; cases e)
  refine @instDecidableAnd _ _ this ?_
  split <;> infer_instance

instance (E : Env) (c : Cal) : Decidable (Unbroken E c) := by unfold Unbroken; infer_instance

/-- It is written line by line; and no part of it is decoded (nor the whole, since the zone has no such name). -/
theorem oddCal_lines : Unbroken sampleEnv oddCal ∧ ∃ s, encodeDoc sampleEnv oddCal = some s ∧ TextOf (calOutline sampleEnv oddCal) s ∧
    s = c!"BEGIN:VCALENDAR\r\nVERSION:2.0\r\nPRODID:-//x\r\nBEGIN:VEVENT\r\nDTSTAMP:20210729T014000Z\r\nUID:1\r\n" ++
      c!"DTSTART;TZID=Mars/Base:1;END:20210729T024000\r\nATTENDEE;DELEGATED-TO=mailto:b@c:mailto:a@b\r\nEND:VEVENT\r\nEND:VCALENDAR\r\n" ∧
    ∀ p, p <+: s → p.length + 2 < s.length → ∀ E c', decodeDoc E p ≠ .ok c' := by
  have hu : Unbroken sampleEnv oddCal := by decide +kernel
  cases hs : encodeDoc sampleEnv oddCal with
  | none => exact absurd hs (by decide +kernel)
  | some s =>
    refine ⟨hu, s, rfl, (C46_exactly_partial _ _ _ oddCal_valid.1 oddCal_valid.2 hs).2 hu, ?_, fun p h1 h2 E c' =>
      C15_any_part_partial _ E _ c' oddCal_valid.1 oddCal_valid.2 hu s p hs h1 h2⟩
    have : encodeDoc sampleEnv oddCal = some (c!"BEGIN:VCALENDAR\r\nVERSION:2.0\r\nPRODID:-//x\r\nBEGIN:VEVENT\r\nDTSTAMP:20210729T014000Z\r\nUID:1\r\n" ++
      c!"DTSTART;TZID=Mars/Base:1;END:20210729T024000\r\nATTENDEE;DELEGATED-TO=mailto:b@c:mailto:a@b\r\nEND:VEVENT\r\nEND:VCALENDAR\r\n") := by decide +kernel
    rw [this] at hs
    exact (Option.some.inj hs).symm

/-- The calendars of the counterexamples are not such: what is written for them is not line by line. -/
theorem C46_broken : ¬ Unbroken sampleEnv evilZoneCal ∧ ¬ Unbroken sampleEnv evilTypeCal ∧ ¬ Unbroken sampleEnv endZoneCal := by decide +kernel

example : ∃ s, encodeDoc sampleEnv evilZoneCal = some s ∧ ¬ TextOf (calOutline sampleEnv evilZoneCal) s := by
  obtain ⟨h1, h2, s, h3, _⟩ := C46_zone_name_injects
  exact ⟨s, h3, fun h => C46_broken.1 ((C46_exactly_partial _ _ _ h1 h2 h3).1 h)⟩

/-- The sample is such. -/
example : Unbroken sampleEnv sampleCal ∧ ∃ s, encodeDoc sampleEnv sampleCal = some s ∧ TextOf (calOutline sampleEnv sampleCal) s :=
  have hu : Unbroken sampleEnv sampleCal := by decide +kernel
  ⟨hu, _, sampleCal_doc, (C46_exactly_partial _ _ _ sampleCal_typed sampleCal_valid sampleCal_doc).2 hu⟩

end Ics.Props
