import Verif.DecodedLemmas
import Verif.Props.Sample
/-!
# Theorems about Decode: C12, C13, C14, C34, C35, C36, C37, C39

Texts are the unfolded documents (C08 says how unfolding goes), `tokenise s` their content lines (C10, C11).
-/

namespace Ics.Props

open Spec

/-! ## C12 Panics -/

/-- The full claim. -/
def C12_claim : Prop := ∀ (E : Env) (s : Str), decodeDoc E s ≠ .panic

/-- C12.  Decode panics at most on documents that have a recurrence rule with a digit behind a plus sign, or end inside an alarm. -/
theorem C12_no_panic_partial (E : Env) (s : Str) (h1 : ∀ l ∈ (tokenise s).lines, ¬ BadRule l) (h2 : ¬ OpenAlarm (tokenise s).term (tokenise s).lines) :
    decodeDoc E s ≠ .panic := by
  intro h
  rcases decodeStream_panic h with ⟨l, hl, hb⟩ | h
  · exact h1 l hl hb
  · exact h2 h

/-- Both kinds of document do panic: a document cut inside an alarm, -/
theorem C12_open_alarm : decodeDoc sampleEnv c!"BEGIN:VCALENDAR\r\nBEGIN:VEVENT\r\nBEGIN:VALARM\r\n" = .panic := by decide +kernel

/-- and a rule with the day `+1`. -/
theorem C12_plus_day : decodeDoc sampleEnv c!"BEGIN:VCALENDAR\r\nBEGIN:VEVENT\r\nRRULE:FREQ=MONTHLY;BYDAY=+1\r\n" = .panic := by decide +kernel

/-- C12.  The claim as stated in full is false: a counterexample. -/
theorem C12_full_claim_is_false : ¬ C12_claim := fun h => h _ _ C12_open_alarm

/-- Any document that ends inside an alarm of an event panics, whatever the lines of the alarm, if they are not control lines. -/
theorem C12_truncated_alarm (E : Env) (ls : List Line) (hl : ∀ l ∈ ls, LineOk l ∧ l.name ∉ [c!"BEGIN", c!"END", c!"ACTION"]) :
    decodeDoc E (c!"BEGIN:VCALENDAR\r\nBEGIN:VEVENT\r\nBEGIN:VALARM\r\n" ++ ls.flatMap printLine) = .panic := by
  have h0 : c!"BEGIN:VCALENDAR\r\nBEGIN:VEVENT\r\nBEGIN:VALARM\r\n" ++ ls.flatMap printLine =
      ([plainLine kBEGIN c!"VCALENDAR", plainLine kBEGIN c!"VEVENT", plainLine kBEGIN kVALARM] ++ ls).flatMap printLine ++ [] := by
    rw [List.flatMap_append, List.append_nil]
    rfl
  unfold decodeDoc
  rw [h0, tokenise_prints _ ?_ [], tokenise_nil]
  · have h1 : ∀ (ls : List Line) (a : Option AKind), (∀ l ∈ ls, l.name ∉ [c!"BEGIN", c!"END", c!"ACTION"]) → alarmCollect .done a ls = .panic := by
      intro ls
      induction ls with
      | nil => intro a _; rfl
      | cons l ls ih =>
        intro a h
        have := h l (by simp)
        simp only [List.mem_cons, List.not_mem_nil, or_false, not_or] at this
        rw [alarmCollect, if_neg (show ¬ l.name = kBEGIN from this.1), if_neg (show ¬ l.name = kACTION from this.2.2),
          if_neg (show ¬ l.name = kEND from this.2.1), ih a (fun x hx => h x (by simp [hx]))]
        rfl
    have h2 : subDecode E .done .alarm ls = .panic := by
      simp only [subDecode, alarmDecode]
      rw [h1 ls none fun l h => (hl l h).2]
      rfl
    simp only [decodeStream, List.cons_append, List.nil_append, List.append_nil]
    rw [if_pos (by decide), Tab.decode_run, Sect.run_cons (compDecode_suffix E _)]
    rw [show tabCalendar.kindOf (plainLine kBEGIN c!"VEVENT") = .sub 0 tabEvent from rfl]
    dsimp only
    rw [compDecode, Tab.decode_run, Sect.run_cons (subDecode_suffix E _)]
    rw [show tabEvent.kindOf (plainLine kBEGIN kVALARM) = .sub 0 .alarm from rfl]
    dsimp only
    rw [h2]
    rfl
  · intro l h
    simp only [List.cons_append, List.nil_append, List.mem_cons] at h
    rcases h with rfl | rfl | rfl | h
    · exact plainLine_ok (by decide) (by decide)
    · exact plainLine_ok (by decide) (by decide)
    · exact plainLine_ok (by decide) (by decide)
    · exact (hl l h).1

/-- The sample document, whose rule has signed days, and whose alarm is closed. -/
theorem sampleDoc_lines : (tokenise sampleDoc).lines = calLines sampleEnv sampleCal ∧ (tokenise sampleDoc).term = .done := by decide +kernel

theorem not_open {t : Term} {ls : List Line} (h : ls.getLast?.map (·.name) = some c!"END") : ¬ OpenAlarm t ls := by
  rintro ⟨_, pre, b, post, rfl, hb, _, hp⟩
  rw [List.getLast?_append, List.getLast?_cons] at h
  simp only [Option.some_or, Option.map_some, Option.some.injEq] at h
  cases hq : post.getLast? with
  | none =>
    rw [hq] at h
    simp only [Option.getD_none] at h
    exact Ends.not_begin (show upper _ = _ by rw [h]; decide) hb
  | some e =>
    rw [hq] at h
    exact hp e (List.mem_of_getLast? hq) h

example : (∀ l ∈ (tokenise sampleDoc).lines, ¬ BadRule l) ∧ ¬ OpenAlarm (tokenise sampleDoc).term (tokenise sampleDoc).lines :=
  ⟨by decide +kernel, not_open (by decide +kernel)⟩

/-! ## C13 Closed documents -/

/-- The lines are a calendar object: BEGIN:VCALENDAR (in any case), lines in which every component is closed, END:VCALENDAR. -/
def CalendarObject (ls : List Line) : Prop := ∃ b k e, ls = b :: k ++ [e] ∧ Begins b ∧ upper b.value = c!"VCALENDAR" ∧ Ends e ∧
  e.value = c!"VCALENDAR" ∧ Closed k

/-- The full claim: an accepted document begins with a calendar object. -/
def C13_claim : Prop := ∀ (E : Env) (s : Str) (c : Cal), decodeDoc E s = .ok c → ∃ pre rest, (tokenise s).lines = pre ++ rest ∧ CalendarObject pre

/-- C13.  It does, if the names BEGIN, END and ACTION are in upper case. -/
theorem C13_closed_partial (E : Env) (s : Str) (c : Cal) (h : decodeDoc E s = .ok c) (hk : Keywords (tokenise s).lines) :
    ∃ pre rest, (tokenise s).lines = pre ++ rest ∧ CalendarObject pre := by
  obtain ⟨pre, rest, h1, b, k, e, h2, hb, hbv, he, hev, is, hi, _⟩ := decodeStream_sound hk h
  exact ⟨pre, rest, h1, b, k, e, h2, hb, hbv, he, hev, Items.closed hi⟩

/-- C13.  In any case the first line is BEGIN:VCALENDAR, and there is a line END:VCALENDAR. -/
theorem C13_begin_and_end (E : Env) (s : Str) (c : Cal) (h : decodeDoc E s = .ok c) : ∃ b k e rest, (tokenise s).lines = b :: k ++ e :: rest ∧
    Begins b ∧ upper b.value = c!"VCALENDAR" ∧ Ends e ∧ e.value = c!"VCALENDAR" := by
  obtain ⟨b, k, e, r, h1, h2, h3, h4, h5, _⟩ := decodeStream_local h
  exact ⟨b, k, e, r, h1, h2, h3, h4, h5⟩

example : Keywords (tokenise sampleDoc).lines ∧ ∃ c, decodeDoc sampleEnv sampleDoc = .ok c := by
  refine ⟨by decide +kernel, ?_⟩
  have : (match decodeDoc sampleEnv sampleDoc with | .ok _ => true | _ => false) = true := by decide +kernel
  split at this
  · next c h => exact ⟨c, h⟩
  · cases this

/-- An event with two END lines: the alarm is ended by `end:VALARM`, but Decode goes on to the next line called `END`. -/
def extraEnd : Str := List.flatten [c!"BEGIN:VCALENDAR\r\nVERSION:2.0\r\nPRODID:x\r\nBEGIN:VEVENT\r\nUID:1\r\nDTSTAMP:20210729T014000Z\r\n",
  c!"BEGIN:VALARM\r\nACTION:NONE\r\nend:VALARM\r\nEND:VEVENT\r\nEND:VEVENT\r\nEND:VCALENDAR\r\n"]

/-- The calendar in it. -/
def noneAlarmCal : Cal := sect tabCalendar [(c!"VERSION", val1 0 (.text c!"2.0")), (c!"PRODID", val1 0 (.text c!"x"))]
  [[sect tabEvent [(c!"UID", val1 0 (.text c!"1")), (c!"DTSTAMP", val1 0 (.dateTime ⟨63763119600, 0, .utc⟩))] [[.alarm (some (.none, ⟨[], []⟩))]]],
    [], [], [], []]

/-- C13.  An END that closes nothing. -/
theorem C13_extra_end : decodeDoc sampleEnv extraEnd = .ok noneAlarmCal := by decide +kernel

/-- BEGIN lines count one, END lines minus one. -/
def depth (ls : List Line) : Int := (ls.map fun l => if Begins l then 1 else if Ends l then -1 else 0).sum

theorem closed_depth {k : List Line} (h : Closed k) : depth k = 0 := by
  induction h with
  | nil => rfl
  | line hb he _ ih => simpa [depth, hb, he] using ih
  | block hb he _ _ _ ih1 ih2 =>
    have hn := Ends.not_begin he
    simp only [depth] at ih1 ih2 ⊢
    simp only [List.cons_append, List.map_cons, List.map_append, List.sum_cons, List.sum_append, ih1, ih2, if_pos hb, if_neg hn, if_pos he]
    rfl

/-- C13.  The claim as stated in full is false: a counterexample. -/
theorem C13_full_claim_is_false : ¬ C13_claim := by
  intro h
  obtain ⟨pre, rest, h1, b, k, e, rfl, hb, _, he, hev, hc⟩ := h _ _ _ C13_extra_end
  have hd : depth (b :: k ++ [e]) = 0 := by
    have := closed_depth hc
    have hn := Ends.not_begin he
    simp only [depth] at this ⊢
    simp only [List.cons_append, List.map_cons, List.map_append, List.sum_cons, List.sum_append, this, if_pos hb, if_neg hn, if_pos he, List.map_nil]
    rfl
  have hall : ∀ n ≤ (tokenise extraEnd).lines.length, depth ((tokenise extraEnd).lines.take n) = 0 → n = 0 ∨ n = 11 := by decide +kernel
  have hlast : ((tokenise extraEnd).lines.take 11).getLast?.map (·.value) = some c!"VEVENT" := by decide +kernel
  have htake : (tokenise extraEnd).lines.take (b :: k ++ [e]).length = b :: k ++ [e] := by rw [h1]; exact List.take_left
  rcases hall (b :: k ++ [e]).length (by rw [h1]; simp) (by rw [htake]; exact hd) with h0 | h0
  · simp at h0
  · rw [h0] at htake
    rw [htake] at hlast
    rw [List.getLast?_append] at hlast
    simp only [List.getLast?_singleton, Option.some_or, Option.map_some, Option.some.injEq] at hlast
    rw [hev] at hlast
    exact absurd hlast (by decide)

/-! ## C14 What is behind -/

/-- C14.  If a document is accepted it begins with lines, from BEGIN:VCALENDAR to END:VCALENDAR, that decide the result: any document that begins
with them is decoded to the same calendar.  (If the last line has no line end, one is added.) -/
theorem C14_rest_ignored (E : Env) (s : Str) (c : Cal) (h : decodeDoc E s = .ok c) : ∃ b k e, Begins b ∧ upper b.value = c!"VCALENDAR" ∧ Ends e ∧
    e.value = c!"VCALENDAR" ∧ ((∃ q, s = (b :: k ++ [e]).flatMap printLine ++ q) ∨ s ++ crlf = (b :: k ++ [e]).flatMap printLine) ∧
    ∀ q, decodeDoc E ((b :: k ++ [e]).flatMap printLine ++ q) = .ok c := by
  obtain ⟨b, k, e, r, h1, h2, h3, h4, h5, h6⟩ := decodeStream_local h
  have h1' : (tokenise s).lines = (b :: k ++ [e]) ++ r := by rw [h1]; simp
  obtain ⟨h7, h8⟩ := tokenise_front h1'
  refine ⟨b, k, e, h2, h3, h4, h5, h8, fun q => ?_⟩
  unfold decodeDoc
  rw [tokenise_prints _ h7 q]
  have := h6 (tokenise q).term (tokenise q).lines
  simpa using this

/-- C14, with a text as it is behind the calendar: whatever is added to an accepted document that is complete is ignored. -/
theorem C14_append (E : Env) (ls : List Line) (hl : ∀ l ∈ ls, LineOk l) (c : Cal) (h : decodeDoc E (ls.flatMap printLine) = .ok c) (q : Str) :
    decodeDoc E (ls.flatMap printLine ++ q) = .ok c := by
  unfold decodeDoc at h ⊢
  have h0 := tokenise_prints ls hl []
  rw [List.append_nil, tokenise_nil] at h0
  rw [h0] at h
  obtain ⟨b, k, e, r, h1, _, _, _, _, h6⟩ := decodeStream_local h
  rw [tokenise_prints _ hl q]
  simp only [List.append_nil] at h1
  rw [h1]
  have := h6 (tokenise q).term (r ++ (tokenise q).lines)
  simpa using this

example : decodeDoc sampleEnv (sampleDoc ++ c!"rubbish \u0001") = decodeDoc sampleEnv sampleDoc ∧ decodeDoc sampleEnv sampleDoc ≠ .panic := by
  decide +kernel

/-! ## C34, C35, C39 Properties and their lines -/

/-- Required properties are there, each from the only line with that name. -/
def RequiredFromOneLine (E : Env) : Claim := fun fs is vs => ∀ (i : Nat) (f : SField), fs[i]? = some f → f.mult = .req →
  ∃ l p, linesNamed is f.key = [l] ∧ vs.getD i [] = [p] ∧ f.spec.decode E l.params l.value = .ok p

/-- Properties that may not be repeated have at most one line. -/
def SingleOnce : Claim := fun fs is _ => ∀ f ∈ fs, f.mult ≠ .many → (linesNamed is f.key).length ≤ 1

/-- One value for each line, in the order of the lines. -/
def InOrder (E : Env) : Claim := fun fs is vs => ∀ (i : Nat) (f : SField), fs[i]? = some f →
  (vs.getD i []).length = (linesNamed is f.key).length ∧
  ∀ (j : Nat) (l : Line), (linesNamed is f.key)[j]? = some l → ∃ p, (vs.getD i [])[j]? = some p ∧ f.spec.decode E l.params l.value = .ok p

/-- The full claims of C34, C35 and C39: an accepted document begins with a calendar object, whose blocks are the components of the calendar, and
`P` holds in each of them. -/
def EachClaim (P : Env → Claim) : Prop := ∀ (E : Env) (s : Str) (c : Cal), decodeDoc E s = .ok c →
  ∃ pre rest, (tokenise s).lines = pre ++ rest ∧ EachPart (P E) pre c

theorem pairwise2_get {α β : Type} {R : α → β → Prop} {as : List α} {bs : List β} (h : Pairwise2 R as bs) : ∀ (j : Nat) (a : α), as[j]? = some a →
    ∃ b, bs[j]? = some b ∧ R a b := by
  induction h with
  | nil => intro j a h; simp at h
  | cons h1 _ ih =>
    intro j a h
    cases j with
    | zero => simp only [List.getElem?_cons_zero, Option.some.injEq] at h ⊢; exact ⟨_, rfl, h ▸ h1⟩
    | succ j => exact ih j a (by simpa using h)

/-- C34.  In an accepted document (with BEGIN, END and ACTION in upper case) each component has each of its required properties, from exactly one
line of that component.  (`EachPart` says that the blocks are the components of the calendar.) -/
theorem C34_required_partial (E : Env) (s : Str) (c : Cal) (h : decodeDoc E s = .ok c) (hk : Keywords (tokenise s).lines) :
    ∃ pre rest, (tokenise s).lines = pre ++ rest ∧ EachPart (RequiredFromOneLine E) pre c := by
  obtain ⟨pre, rest, h1, h2⟩ := decodeStream_sound hk h
  refine ⟨pre, rest, h1, DocReads.each h2 fun fs is vs _ hf i f hi hm => ?_⟩
  obtain ⟨h3, h4⟩ := hf i f hi
  rw [hm] at h4
  obtain ⟨l, hl⟩ := List.length_eq_one_iff.1 h4
  rw [hl] at h3 ⊢
  generalize vs.getD i [] = w at h3
  cases h3 with
  | cons h5 h6 => cases h6; exact ⟨l, _, rfl, rfl, h5⟩

/-- C34, without a condition, for the result: every component of a decoded calendar has each required property once, each that is not repeatable at
most once. -/
theorem C34_required_present (E : Env) (s : Str) (c : Cal) (h : decodeDoc E s = .ok c) : CalAll (fun _ _ => True) c :=
  decodeStream_all (L := fun _ => True) (fun _ _ _ _ _ _ => trivial) (fun _ _ => trivial) h

/-- C35.  If a document (with BEGIN, END and ACTION in upper case) is accepted, no component has two lines of a property that may occur only once. -/
theorem C35_single_partial (E : Env) (s : Str) (c : Cal) (h : decodeDoc E s = .ok c) (hk : Keywords (tokenise s).lines) :
    ∃ pre rest, (tokenise s).lines = pre ++ rest ∧ EachPart SingleOnce pre c := by
  obtain ⟨pre, rest, h1, h2⟩ := decodeStream_sound hk h
  refine ⟨pre, rest, h1, DocReads.each h2 fun fs is vs _ hf f hi hm => ?_⟩
  obtain ⟨i, hlt, hi⟩ := List.mem_iff_getElem.1 hi
  obtain ⟨_, h4⟩ := hf i f (by rw [List.getElem?_eq_getElem hlt, hi])
  unfold CountOk at h4
  cases hf : f.mult <;> simp_all

/-- C39.  In an accepted document (with BEGIN, END and ACTION in upper case) each field has one value for each line, each component one element for
each block, in the order of the document. -/
theorem C39_order_partial (E : Env) (s : Str) (c : Cal) (h : decodeDoc E s = .ok c) (hk : Keywords (tokenise s).lines) :
    ∃ pre rest, (tokenise s).lines = pre ++ rest ∧ EachPart (InOrder E) pre c := by
  obtain ⟨pre, rest, h1, h2⟩ := decodeStream_sound hk h
  refine ⟨pre, rest, h1, DocReads.each h2 fun fs is vs _ hf i f hi => ?_⟩
  obtain ⟨h3, _⟩ := hf i f hi
  exact ⟨(Pairwise2.length h3).symm, fun j l hl => pairwise2_get h3 j l hl⟩

/-- The lines of an event with two UID lines. -/
def twoUids : List Line := [plainLine c!"UID" c!"1", plainLine c!"DTSTAMP" c!"20210729T014000Z", plainLine kBEGIN kVALARM, plainLine kACTION c!"NONE",
  plainLine c!"end" kVALARM, plainLine c!"UID" c!"2", plainLine c!"begin" c!"X", plainLine kEND c!"X"]

def twoUidsBody : List Line := [plainLine c!"VERSION" c!"2.0", plainLine c!"PRODID" c!"x", plainLine kBEGIN c!"VEVENT"] ++ twoUids ++
  [plainLine kEND c!"VEVENT"]

/-- A document in which all components are closed: Decode drops the lines between `end:VALARM` and the next line called `END`. -/
def twoUidsDoc : Str := (plainLine kBEGIN c!"VCALENDAR" :: twoUidsBody ++ [plainLine kEND c!"VCALENDAR"]).flatMap printLine

theorem twoUids_decoded : decodeDoc sampleEnv twoUidsDoc = .ok noneAlarmCal := by decide +kernel

theorem twoUids_items : Items twoUids [.line (plainLine c!"UID" c!"1"), .line (plainLine c!"DTSTAMP" c!"20210729T014000Z"),
    .block kVALARM [plainLine kACTION c!"NONE"], .line (plainLine c!"UID" c!"2"), .block c!"X" []] := by
  refine .line (by decide) (by decide) (.line (by decide) (by decide) ?_)
  refine Items.block (b := plainLine kBEGIN kVALARM) (e := plainLine c!"end" kVALARM) (k := [plainLine kACTION c!"NONE"]) (by decide) (by decide) (by decide)
    (.line (by decide) (by decide) .nil) (.line (by decide) (by decide) ?_)
  exact Items.block (b := plainLine c!"begin" c!"X") (e := plainLine kEND c!"X") (k := []) (by decide) (by decide) (by decide) .nil .nil

theorem twoUidsBody_items : Items twoUidsBody [.line (plainLine c!"VERSION" c!"2.0"), .line (plainLine c!"PRODID" c!"x"), .block c!"VEVENT" twoUids] := by
  refine .line (by decide) (by decide) (.line (by decide) (by decide) ?_)
  exact Items.block (b := plainLine kBEGIN c!"VEVENT") (e := plainLine kEND c!"VEVENT") (k := twoUids) (by decide) (by decide) (by decide)
    (Items.closed twoUids_items) .nil

/-- What a claim would say about the event. -/
theorem twoUids_event {P : Env → Claim} (h : EachClaim P) : ∃ is, linesNamed is c!"UID" = [plainLine c!"UID" c!"1", plainLine c!"UID" c!"2"] ∧
    P sampleEnv tabEvent.fields is ((noneAlarmCal.subs.getD 0 []).map (·.fields)).flatten := by
  obtain ⟨pre, rest, h1, b, k, e, is, rfl, hb, he, hi, _, hp⟩ := h _ _ _ twoUids_decoded
  have h2 : (tokenise twoUidsDoc).lines = plainLine kBEGIN c!"VCALENDAR" :: twoUidsBody ++ [plainLine kEND c!"VCALENDAR"] := by decide +kernel
  rw [h2] at h1
  simp only [List.cons_append, List.cons.injEq, List.append_assoc] at h1
  obtain ⟨h3, _, _⟩ := Closed.split (Items.closed twoUidsBody_items) (Items.closed hi) (by decide) he h1.2
  subst h3
  have := Items.unique twoUidsBody_items hi
  subst this
  have h4 := hp 0 (c!"VEVENT", tabEvent) rfl
  have h5 : blocksNamed [.line (plainLine c!"VERSION" c!"2.0"), .line (plainLine c!"PRODID" c!"x"), .block c!"VEVENT" twoUids] c!"VEVENT" = [twoUids] := rfl
  rw [h5] at h4
  obtain ⟨s, hs, is, hi2, hp2, _⟩ := pairwise2_get h4 0 twoUids rfl
  have := Items.unique twoUids_items hi2
  subst this
  have h6 : noneAlarmCal.subs.getD 0 [] = [s] := by
    have hl := Pairwise2.length h4
    generalize noneAlarmCal.subs.getD 0 [] = w at hl hs
    cases w with
    | nil => simp at hs
    | cons x w =>
      simp at hs hl
      rw [hs, hl]
  rw [h6]
  refine ⟨_, ?_, by simpa using hp2⟩
  rfl

/-- UID is the field of an event at this position. -/
theorem event_uid : ∃ (i : Nat) (f : SField), tabEvent.fields[i]? = some f ∧ f.key = c!"UID" ∧ f.mult = .req := ⟨1, _, rfl, rfl, rfl⟩

/-- The sample is accepted, with its keywords in upper case: C34, C35 and C39 speak about it. -/
example : ∃ c, decodeDoc sampleEnv sampleDoc = .ok c ∧ Keywords (tokenise sampleDoc).lines ∧ (comps c!"VEVENT" c).length = 1 ∧ (alarms c).length = 1 := by
  have : (match decodeDoc sampleEnv sampleDoc with
    | .ok c => decide ((comps c!"VEVENT" c).length = 1 ∧ (alarms c).length = 1)
    | _ => false) = true := by decide +kernel
  split at this
  · next c h => exact ⟨c, h, by decide +kernel, by simpa using this⟩
  · cases this

/-- C34.  The claim as stated in full is false: a counterexample. -/
theorem C34_full_claim_is_false : ¬ EachClaim RequiredFromOneLine := by
  intro h
  obtain ⟨is, h1, h2⟩ := twoUids_event h
  obtain ⟨i, f, hi, hf, hm⟩ := event_uid
  obtain ⟨l, p, h3, _⟩ := h2 i f hi hm
  rw [hf, h1] at h3
  cases h3

/-- C35.  The claim as stated in full is false: a counterexample. -/
theorem C35_full_claim_is_false : ¬ EachClaim (fun _ => SingleOnce) := by
  intro h
  obtain ⟨is, h1, h2⟩ := twoUids_event h
  obtain ⟨i, f, hi, hf, hm⟩ := event_uid
  have := h2 f (List.mem_of_getElem? hi) (by rw [hm]; decide)
  rw [hf, h1] at this
  exact absurd this (by decide)

/-- C39.  The claim as stated in full is false: a counterexample. -/
theorem C39_full_claim_is_false : ¬ EachClaim InOrder := by
  intro h
  obtain ⟨is, h1, h2⟩ := twoUids_event h
  have := (h2 1 _ rfl).1
  rw [show linesNamed is c!"UID" = _ from h1] at this
  exact absurd this (by decide)

/-- C35 fails for ACTION also, which is not a field: lines with unknown actions do not count. -/
theorem C35_two_actions : (decodeDoc sampleEnv (List.flatten [
    c!"BEGIN:VCALENDAR\r\nVERSION:2.0\r\nPRODID:x\r\nBEGIN:VEVENT\r\nUID:1\r\nDTSTAMP:20210729T014000Z\r\nBEGIN:VALARM\r\n",
    c!"ACTION:PROCEDURE\r\nACTION:NONE\r\nEND:VALARM\r\nEND:VEVENT\r\nEND:VCALENDAR\r\n"])) = .ok noneAlarmCal := by decide +kernel

/-! ## C36 Rules between properties -/

/-- C36.  In a decoded calendar no event has both DTEND and DURATION, no todo both DUE and DURATION or DURATION without DTSTART, every time zone has a
STANDARD or DAYLIGHT part, no alarm has GEO-LOCATION without PROXIMITY. -/
theorem C36_rules (E : Env) (s : Str) (c : Cal) (h : decodeDoc E s = .ok c) :
    (∀ e ∈ comps c!"VEVENT" c, ¬ (Has tabEvent e c!"DTEND" ∧ Has tabEvent e c!"DURATION")) ∧
    (∀ t ∈ comps c!"VTODO" c, ¬ (Has tabTodo t c!"DUE" ∧ Has tabTodo t c!"DURATION") ∧
      (Has tabTodo t c!"DURATION" → Has tabTodo t c!"DTSTART")) ∧
    (∀ z ∈ comps c!"VTIMEZONE" c, ∃ xs ∈ z.subs, xs ≠ []) ∧
    (∀ x ∈ alarms c, Has x.1.tab x.2 c!"GEO-LOCATION" → Has x.1.tab x.2 c!"PROXIMITY") := by
  have ha : CalAll (fun _ _ => True) c := decodeStream_all (L := fun _ => True) (fun _ _ _ _ _ _ => trivial) (fun _ _ => trivial) h
  refine ⟨fun e he => ?_, fun t ht => ?_, fun z hz => ?_, fun x hx => ?_⟩
  · have := (ha.named (T := tabEvent) (by simp [tabCalendar]) he).2.2
    exact this (.notBoth c!"DTEND" c!"DURATION") (by decide)
  · have := (ha.named (T := tabTodo) (by simp [tabCalendar]) ht).2.2
    exact ⟨this (.notBoth c!"DUE" c!"DURATION") (by decide), this (.needs c!"DURATION" c!"DTSTART") (by decide)⟩
  · have := (ha.named (T := tabTimezone) (by simp [tabCalendar]) hz).2.2
    exact this .anySub (by decide)
  · obtain ⟨a, s⟩ := x
    have := (ha.alarm hx).2.2
    cases a with
    | none =>
      rintro ⟨p, hp, _⟩
      simp [sectProps, AKind.tab, tabAlarmNone] at hp
    | _ => exact this (.needs c!"GEO-LOCATION" c!"PROXIMITY") (by decide)

/-- The sample has an event, a time zone and an alarm. -/
example : comps c!"VEVENT" sampleCal ≠ [] ∧ comps c!"VTIMEZONE" sampleCal ≠ [] ∧ alarms sampleCal ≠ [] := by decide +kernel

/-! ## C37 DURATION and REPEAT in alarms -/

/-- The full claim. -/
def C37_claim : Prop := ∀ (E : Env) (s : Str) (c : Cal), decodeDoc E s = .ok c →
  ∀ x ∈ alarms c, Has x.1.tab x.2 c!"DURATION" ↔ Has x.1.tab x.2 c!"REPEAT"

/-- Only alarms of type NONE keep the rule always (they have no properties). -/
theorem C37_none_partial (E : Env) (s : Str) (c : Cal) (_ : decodeDoc E s = .ok c) (x : AKind × Leaf) (_ : x ∈ alarms c) (hn : x.1 = .none) :
    Has x.1.tab x.2 c!"DURATION" ↔ Has x.1.tab x.2 c!"REPEAT" := by
  rw [hn]
  constructor <;> rintro ⟨p, hp, _⟩ <;> simp [sectProps, AKind.tab, tabAlarmNone] at hp

/-- C37.  For alarms of type EMAIL and URI it is the other way round: exactly those with one of the two are accepted. -/
theorem C37_inverted (E : Env) (s : Str) (c : Cal) (h : decodeDoc E s = .ok c) (x : AKind × Leaf) (hx : x ∈ alarms c) (hk : x.1 = .email ∨ x.1 = .uri) :
    ¬ (Has x.1.tab x.2 c!"DURATION" ↔ Has x.1.tab x.2 c!"REPEAT") := by
  have ha : CalAll (fun _ _ => True) c := decodeStream_all (L := fun _ => True) (fun _ _ _ _ _ _ => trivial) (fun _ _ => trivial) h
  obtain ⟨a, s⟩ := x
  have hr := (ha.alarm hx).2.2 (.onlyOne c!"DURATION" c!"REPEAT") (by rcases hk with rfl | rfl <;> decide)
  intro hi
  rcases hr with ⟨h1, h2⟩ | ⟨h1, h2⟩
  · exact h2 (hi.1 h1)
  · exact h2 (hi.2 h1)

/-- A display alarm with DURATION only. -/
def durationOnly : Str := List.flatten [
  c!"BEGIN:VCALENDAR\r\nVERSION:2.0\r\nPRODID:x\r\nBEGIN:VEVENT\r\nUID:1\r\nDTSTAMP:20210729T014000Z\r\nBEGIN:VALARM\r\nACTION:DISPLAY\r\n",
  c!"DESCRIPTION:x\r\nTRIGGER:-PT15M\r\nDURATION:PT5M\r\nEND:VALARM\r\nEND:VEVENT\r\nEND:VCALENDAR\r\n"]

def durationOnlyCal : Cal := sect tabCalendar [(c!"VERSION", val1 0 (.text c!"2.0")), (c!"PRODID", val1 0 (.text c!"x"))]
  [[sect tabEvent [(c!"UID", val1 0 (.text c!"1")), (c!"DTSTAMP", val1 0 (.dateTime ⟨63763119600, 0, .utc⟩))] [[.alarm (some (.display,
    sect tabAlarmDisplay [(c!"DESCRIPTION", val1 2 (.text c!"x")), (c!"TRIGGER", .fields [] [some (.duration { neg := true, minutes := 15 }), none]),
      (c!"DURATION", val1 0 (.duration { minutes := 5 }))] []))]]], [], [], [], []]

/-- C37.  DURATION without REPEAT. -/
theorem C37_duration_only : decodeDoc sampleEnv durationOnly = .ok durationOnlyCal := by decide +kernel

/-- C37.  The claim as stated in full is false: a counterexample. -/
theorem C37_full_claim_is_false : ¬ C37_claim := by
  intro h
  have h1 : ∀ x ∈ alarms durationOnlyCal, Has x.1.tab x.2 c!"DURATION" ↔ Has x.1.tab x.2 c!"REPEAT" := h _ _ _ C37_duration_only
  exact absurd h1 (by decide +kernel)

/-- An e-mail alarm with both properties, as RFC 5545 demands, is rejected. -/
theorem C37_email_rejected : decodeDoc sampleEnv (List.flatten [
    c!"BEGIN:VCALENDAR\r\nVERSION:2.0\r\nPRODID:x\r\nBEGIN:VEVENT\r\nUID:1\r\nDTSTAMP:20210729T014000Z\r\nBEGIN:VALARM\r\nACTION:EMAIL\r\n",
    c!"DESCRIPTION:x\r\nTRIGGER:-PT15M\r\nSUMMARY:y\r\nATTENDEE:mailto:x@example.com\r\nDURATION:PT5M\r\nREPEAT:2\r\n",
    c!"END:VALARM\r\nEND:VEVENT\r\nEND:VCALENDAR\r\n"]) = .err .requirementNotMet := by decide +kernel

end Ics.Props
