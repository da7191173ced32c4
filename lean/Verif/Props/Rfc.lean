import Verif.RfcExactLemmas
import Verif.ExactLemmas
import Verif.Props.Decode
/-!
# Decode against the lists of RFC 5545: C49, C50, C51, and C34 to C36 once more

The lists are in `Spec.Rfc`, apart from the tables of the model.
-/

namespace Ics.Props

open Spec Spec.Rfc

/-! ## C49 What is accepted -/

/-- The full claim: exactly the documents that begin with a calendar object as RFC 5545 describes it are accepted. -/
def C49_claim : Prop := ∀ (E : Env) (s : Str), (∃ c, decodeDoc E s = .ok c) ↔ ∃ pre rest, (tokenise s).lines = pre ++ rest ∧ DocOk .rfc E pre

/-- C49.  A document (with BEGIN, END, ACTION and the names of components in upper case) is accepted exactly if it begins with a calendar object as RFC 5545
describes it, but for the differences listed in `changes` and `libLaws`. -/
theorem C49_accepted_partial (E : Env) (s : Str) (hl : Loud (tokenise s).lines) :
    (∃ c, decodeDoc E s = .ok c) ↔ ∃ pre rest, (tokenise s).lines = pre ++ rest ∧ DocOk .library E pre := by
  constructor
  · rintro ⟨c, h⟩
    obtain ⟨pre, rest, h1, h2⟩ := decodeStream_sound hl.1 h
    exact ⟨pre, rest, h1, (doc_exists pre).1 ⟨c, h2⟩⟩
  · rintro ⟨pre, rest, h1, h2⟩
    obtain ⟨c, hc⟩ := (doc_exists pre).2 h2
    refine ⟨c, ?_⟩
    unfold decodeDoc
    have : tokenise s = ⟨pre ++ rest, (tokenise s).term⟩ := by rw [← h1]
    rw [this]
    exact decodeStream_complete (Loud.append (h1 ▸ hl)).1 hc rest _

/-- C49, one direction, for documents in which only BEGIN, END and ACTION are in upper case. -/
theorem C49_sound_partial (E : Env) (s : Str) (c : Cal) (h : decodeDoc E s = .ok c) (hk : Keywords (tokenise s).lines) :
    ∃ pre rest, (tokenise s).lines = pre ++ rest ∧ DocOk .library E pre := by
  obtain ⟨pre, rest, h1, h2⟩ := decodeStream_sound hk h
  exact ⟨pre, rest, h1, (doc_exists pre).1 ⟨c, h2⟩⟩

/-- C49.  For all documents, whatever the case of their names: accepted are exactly those that begin with a calendar that is as RFC 5545 says, but for the differences listed in
`changes` and `libLaws`; what belongs to which component is said in Spec/Exact.lean and Spec/RfcExact.lean. -/
theorem C49_every_document (E : Env) (s : Str) :
    (∃ c, decodeDoc E s = .ok c) ↔ ∃ pre rest, (tokenise s).lines = pre ++ rest ∧ DocEach (BodyOk .library E) pre := by
  simp only [← exactDoc_exists]
  constructor
  · rintro ⟨c, h⟩
    obtain ⟨p, r, h1, h2⟩ := decodeStream_grammar.1 h
    exact ⟨p, r, h1, c, h2⟩
  · rintro ⟨p, r, h1, c, h2⟩
    exact ⟨c, decodeStream_grammar.2 ⟨p, r, h1, h2⟩⟩

/-- The document of C13 with an alarm that is ended by `end:VALARM`, and by an END line of something else. -/
example : ¬ Keywords (tokenise extraEnd).lines ∧ ∃ pre rest, (tokenise extraEnd).lines = pre ++ rest ∧ DocEach (BodyOk .library sampleEnv) pre :=
  ⟨by decide +kernel, (C49_every_document ..).1 ⟨_, C13_extra_end⟩⟩

/-- The sample, with an event, an alarm and a time zone. -/
example : Loud (tokenise sampleDoc).lines := by decide +kernel

/-- A calendar with two scales. -/
def twoScalesBody : List Line := [plainLine c!"VERSION" c!"2.0", plainLine c!"PRODID" c!"x", plainLine c!"CALSCALE" c!"GREGORIAN",
  plainLine c!"CALSCALE" c!"JULIAN"]

def twoScales : Str := (plainLine kBEGIN c!"VCALENDAR" :: twoScalesBody ++ [plainLine kEND c!"VCALENDAR"]).flatMap printLine

/-- C49.  CALSCALE is not looked at. -/
theorem C49_scale_ignored : decodeDoc sampleEnv twoScales =
    .ok (sect tabCalendar [(c!"VERSION", val1 0 (.text c!"2.0")), (c!"PRODID", val1 0 (.text c!"x"))] [[], [], [], [], []]) := by decide +kernel

/-- C49.  The claim as stated in full is false: a counterexample. -/
theorem C49_full_claim_is_false : ¬ C49_claim := by
  intro h
  obtain ⟨pre, rest, h1, b, k, e, is, rfl, hb, _, he, _, hi, ⟨hp, _⟩, _⟩ := (h sampleEnv twoScales).1 ⟨_, C49_scale_ignored⟩
  have h2 : (tokenise twoScales).lines = plainLine kBEGIN c!"VCALENDAR" :: twoScalesBody ++ [plainLine kEND c!"VCALENDAR"] := by decide +kernel
  rw [h2] at h1
  simp only [List.cons_append, List.cons.injEq, List.append_assoc] at h1
  have hi2 : Items twoScalesBody (twoScalesBody.map .line) :=
    .line (by decide) (by decide) (.line (by decide) (by decide) (.line (by decide) (by decide) (.line (by decide) (by decide) .nil)))
  obtain ⟨h3, _, _⟩ := Closed.split (Items.closed hi2) (Items.closed hi) (by decide) he h1.2
  subst h3
  have := Items.unique hi2 hi
  subst this
  have h4 := (hp c!"CALSCALE" .upToOne _ rfl rfl).1
  exact absurd (show _ ≤ 1 from h4) (by decide)

/-! ## C34, C35, C36 with the names of RFC 5545 -/

theorem body_one {E : Env} {p : Part} {is : List Item} (hb : BodyOk .library E p is) : ∀ n, occurs p n = some .one → (p, n) ≠ (.alarm .uri, c!"TRIGGER") →
      (linesNamed is n).length = 1 := by
  intro n ho hx
  have hl : libOccurs p n = some .one := by
    unfold libOccurs
    split
    · next x hf =>
      exfalso
      have hm := List.mem_of_find?_eq_some hf
      have he : x.1 = n := by simpa using List.find?_some hf
      subst he
      have : ∀ p ∈ allParts, ∀ x ∈ changes p, occurs p x.1 = some .one → (p, x.1) = (.alarm .uri, c!"TRIGGER") := by decide +kernel
      exact hx (this p (mem_allParts p) x hm ho)
    · exact ho
  obtain ⟨t, ht⟩ := content_exists hl
  exact (hb.1 n _ t hl ht).1

/-- Where RFC 5545 wants exactly one. -/
theorem C34_names_partial (E : Env) (s : Str) (c : Cal) (h : decodeDoc E s = .ok c) (hk : Keywords (tokenise s).lines) :
    ∃ pre rest, (tokenise s).lines = pre ++ rest ∧ DocAll (fun p is => ∀ n, occurs p n = some .one → (p, n) ≠ (.alarm .uri, c!"TRIGGER") →
      (linesNamed is n).length = 1) pre := by
  obtain ⟨pre, rest, h1, h2⟩ := C49_sound_partial E s c h hk
  exact ⟨pre, rest, h1, DocAll.mono (fun _ _ => body_one) h2⟩

/-- The same for all documents, whatever the case of their names. -/
theorem C34_every_document (E : Env) (s : Str) (c : Cal) (h : decodeDoc E s = .ok c) :
    ∃ pre rest, (tokenise s).lines = pre ++ rest ∧ DocEach (fun p is => ∀ n, occurs p n = some .one → (p, n) ≠ (.alarm .uri, c!"TRIGGER") →
      (linesNamed is n).length = 1) pre := by
  obtain ⟨pre, rest, h1, h2⟩ := (C49_every_document E s).1 ⟨c, h⟩
  exact ⟨pre, rest, h1, DocEach.mono (fun _ _ => body_one) h2⟩

/-- The properties that RFC 5545 allows once and the library ignores, or takes more than once. -/
def notSingle : List (Part × Str) := [(.calendar, c!"CALSCALE"), (.calendar, c!"METHOD"), (.event, c!"LAST-MODIFIED"), (.todo, c!"LAST-MODIFIED"),
  (.todo, c!"RRULE"), (.journal, c!"LAST-MODIFIED"), (.timezone, c!"LAST-MODIFIED"), (.alarm .audio, c!"ATTACH"), (.alarm .uri, c!"TRIGGER")]

theorem body_once {E : Env} {p : Part} {is : List Item} (hb : BodyOk .library E p is) : ∀ n, occurs p n = some .one ∨ occurs p n = some .upToOne → (p, n) ∉ notSingle →
      (linesNamed is n).length ≤ 1 := by
  intro n ho hx
  have hl : libOccurs p n = some .one ∨ libOccurs p n = some .upToOne := by
    unfold libOccurs
    split
    · next x hf =>
      exfalso
      have hm := List.mem_of_find?_eq_some hf
      have he : x.1 = n := by simpa using List.find?_some hf
      subst he
      have : ∀ p ∈ allParts, ∀ x ∈ changes p, occurs p x.1 = some .one ∨ occurs p x.1 = some .upToOne → (p, x.1) ∈ notSingle := by decide +kernel
      exact hx (this p (mem_allParts p) x hm ho)
    · exact ho
  rcases hl with hl | hl
  · obtain ⟨t, ht⟩ := content_exists hl
    exact Nat.le_of_eq (hb.1 n _ t hl ht).1
  · obtain ⟨t, ht⟩ := content_exists hl
    exact (hb.1 n _ t hl ht).1

/-- Where RFC 5545 wants at most one. -/
theorem C35_names_partial (E : Env) (s : Str) (c : Cal) (h : decodeDoc E s = .ok c) (hk : Keywords (tokenise s).lines) :
    ∃ pre rest, (tokenise s).lines = pre ++ rest ∧ DocAll (fun p is => ∀ n, occurs p n = some .one ∨ occurs p n = some .upToOne → (p, n) ∉ notSingle →
      (linesNamed is n).length ≤ 1) pre := by
  obtain ⟨pre, rest, h1, h2⟩ := C49_sound_partial E s c h hk
  exact ⟨pre, rest, h1, DocAll.mono (fun _ _ => body_once) h2⟩

/-- The same for all documents. -/
theorem C35_every_document (E : Env) (s : Str) (c : Cal) (h : decodeDoc E s = .ok c) :
    ∃ pre rest, (tokenise s).lines = pre ++ rest ∧ DocEach (fun p is => ∀ n, occurs p n = some .one ∨ occurs p n = some .upToOne → (p, n) ∉ notSingle →
      (linesNamed is n).length ≤ 1) pre := by
  obtain ⟨pre, rest, h1, h2⟩ := (C49_every_document E s).1 ⟨c, h⟩
  exact ⟨pre, rest, h1, DocEach.mono (fun _ _ => body_once) h2⟩

theorem body_laws {E : Env} {p : Part} {is : List Item} (hb : BodyOk .library E p is) : ∀ x ∈ laws p, x ≠ .bothOrNone c!"DURATION" c!"REPEAT" → x.ok is := by
  intro x hx hn
  refine hb.2 x ?_
  have : ∀ p ∈ allParts, ∀ x ∈ laws p, x ≠ .bothOrNone c!"DURATION" c!"REPEAT" → x ∈ libLaws p := by decide +kernel
  exact this p (mem_allParts p) x hx hn

/-- All rules of RFC 5545 between properties hold for the lines of an accepted document, but that about DURATION and REPEAT. -/
theorem C36_lines_partial (E : Env) (s : Str) (c : Cal) (h : decodeDoc E s = .ok c) (hk : Keywords (tokenise s).lines) :
    ∃ pre rest, (tokenise s).lines = pre ++ rest ∧ DocAll (fun p is => ∀ x ∈ laws p, x ≠ .bothOrNone c!"DURATION" c!"REPEAT" → x.ok is) pre := by
  obtain ⟨pre, rest, h1, h2⟩ := C49_sound_partial E s c h hk
  exact ⟨pre, rest, h1, DocAll.mono (fun _ _ => body_laws) h2⟩

/-- The same for all documents. -/
theorem C36_every_document (E : Env) (s : Str) (c : Cal) (h : decodeDoc E s = .ok c) :
    ∃ pre rest, (tokenise s).lines = pre ++ rest ∧ DocEach (fun p is => ∀ x ∈ laws p, x ≠ .bothOrNone c!"DURATION" c!"REPEAT" → x.ok is) pre := by
  obtain ⟨pre, rest, h1, h2⟩ := (C49_every_document E s).1 ⟨c, h⟩
  exact ⟨pre, rest, h1, DocEach.mono (fun _ _ => body_laws) h2⟩

/-- What the lists say about events, for instance. -/
example : occurs .event c!"UID" = some .one ∧ occurs .event c!"SUMMARY" = some .upToOne ∧ laws .event = [.notBoth c!"DTEND" c!"DURATION"] ∧
    (Part.event, c!"SUMMARY") ∉ notSingle := by decide +kernel

/-! ## C50 What a property line is read as -/

/-- C50.  The field of a component for the lines called `n` is there exactly if RFC 5545 (but for `changes`) has the property in that component; and it reads a
line as `PropReads` says, with the value types and parameters that RFC 5545 gives the property: the parameters it stores, at most once each, the type of the value
that VALUE names or else the first. -/
theorem C50_reads (p : Part) (n : Str) (o : Occ) (t : Content) (ho : libOccurs p n = some o) (ht : content p n = some t) :
    ∃ f ∈ partFields p, f.key = n ∧ occOf f.mult = o ∧ ∀ E ps value r, f.spec.decode E ps value = .ok r ↔ PropReads E t.shape ps value r := by
  have h1 := table_is_spec p n
  unfold specFor at h1
  rw [ho, ht] at h1
  simp only [Option.map_some, Option.bind_some] at h1
  unfold fieldFor at h1
  obtain ⟨f, hf, he⟩ := Option.map_eq_some_iff.1 h1
  have hm := List.mem_of_find?_eq_some hf
  have hk : f.key = n := by simpa using List.find?_some hf
  simp only [Prod.mk.injEq] at he
  have hw : ∀ p ∈ allParts, ∀ f ∈ partFields p, f.spec.wf = true := by decide +kernel
  exact ⟨f, hm, hk, he.1, fun E ps value r => he.2 ▸ PSpec.decode_iff (hw p (mem_allParts p) f hm) ps value r⟩

/-- And there are no other fields. -/
theorem C50_no_other (p : Part) (f : SField) (hf : f ∈ partFields p) : ∃ o t, libOccurs p f.key = some o ∧ content p f.key = some t := by
  have : ∀ p ∈ allParts, ∀ f ∈ partFields p, (libOccurs p f.key).isSome ∧ (content p f.key).isSome := by decide +kernel
  obtain ⟨h1, h2⟩ := this p (mem_allParts p) f hf
  obtain ⟨o, ho⟩ := Option.isSome_iff_exists.1 h1
  obtain ⟨t, ht⟩ := Option.isSome_iff_exists.1 h2
  exact ⟨o, t, ho, ht⟩

/-- C50.  The order of parameters with different names does not matter. -/
theorem C50_parameter_order (p : Part) (f : SField) (hf : f ∈ partFields p) (E : Env) (ps ps' : List (Str × List PVal)) (value : Str) (r : PropVal)
    (hp : ps.Perm ps') (hn : (ps.map fun x => upper x.1).Nodup) : f.spec.decode E ps value = .ok r ↔ f.spec.decode E ps' value = .ok r := by
  have hw : ∀ p ∈ allParts, ∀ f ∈ partFields p, f.spec.wf = true := by decide +kernel
  have hw := hw p (mem_allParts p) f hf
  rw [PSpec.decode_iff hw, PSpec.decode_iff hw]
  exact propReads_congr (valuesOf_perm hp hn)

/-- C50.  The value of a line without the parameter VALUE has the first type of the property. -/
theorem C50_default_type (p : Part) (f : SField) (hf : f ∈ partFields p) (E : Env) (ps : List (Str × List PVal)) (value : Str) (qs : List (Option ParamVal))
    (vs : List (Option Val)) (hv : ∀ x ∈ ps, upper x.1 ≠ c!"VALUE") (hd : f.spec.decode E ps value = .ok (.fields qs vs)) :
    ∃ v, vs.head? = some (some v) ∧ ∀ w ∈ vs.tail, w = none := by
  have hw : ∀ p ∈ allParts, ∀ f ∈ partFields p, f.spec.wf = true := by decide +kernel
  have hw := hw p (mem_allParts p) f hf
  have h1 := (PSpec.decode_iff hw _ _ _).1 hd
  unfold PropReads at h1
  split at h1
  · obtain ⟨n, h1, _⟩ := h1; cases h1
  · next params vals _ =>
    obtain ⟨qs', i, n, k, v, h2, _, h3, h4, _⟩ := h1
    cases h2
    have hi : i = 0 := by
      unfold UsesType at h3
      split at h3
      · exact h3
      · have : valuesOf ps c!"VALUE" = [] := by
          unfold valuesOf
          rw [List.filter_eq_nil_iff.2]
          · rfl
          · intro x hx; simpa using hv x hx
        rw [this] at h3
        exact h3
    subst hi
    cases vals with
    | nil => simp at h4
    | cons x xs =>
      refine ⟨v, rfl, fun w hw => ?_⟩
      simp only [List.length_cons, List.replicate_succ, List.set_cons_zero, List.tail_cons] at hw
      exact List.eq_of_mem_replicate hw

/-- A start date with two parameters, in either order, is a date. -/
example : ∃ f ∈ partFields .event, f.key = c!"DTSTART" ∧
    f.spec.decode sampleEnv [(c!"value", [⟨false, c!"date"⟩]), (c!"X-A", [⟨true, c!"b"⟩])] c!"20210729" = .ok (.fields [] [none, some (.date ⟨63763113600, 0, .utc⟩)]) ∧
    f.spec.decode sampleEnv [(c!"X-A", [⟨true, c!"b"⟩]), (c!"value", [⟨false, c!"date"⟩])] c!"20210729" = .ok (.fields [] [none, some (.date ⟨63763113600, 0, .utc⟩)]) := by
  decide +kernel

/-! ## C51 Nothing is dropped -/

/-- The full claim: every property that RFC 5545 allows in a component has a field. -/
def C51_claim : Prop := ∀ (p : Part) (n : Str), occurs p n ≠ none → ∃ f ∈ partFields p, f.key = n

/-- What is dropped. -/
def dropped : List (Part × Str) := [(.calendar, c!"CALSCALE"), (.calendar, c!"METHOD"), (.event, c!"LAST-MODIFIED"), (.todo, c!"LAST-MODIFIED"),
  (.todo, c!"RRULE"), (.journal, c!"LAST-MODIFIED"), (.timezone, c!"LAST-MODIFIED"), (.alarm .email, c!"ATTACH"), (.alarm .uri, c!"TRIGGER")]

/-- C51.  Every other property has. -/
theorem C51_kept_partial (p : Part) (n : Str) (h : occurs p n ≠ none) : (∃ f ∈ partFields p, f.key = n) ↔ (p, n) ∉ dropped := by
  have hm : n ∈ (properties p).flatMap (·.2) := by
    unfold occurs at h
    obtain ⟨o, ho⟩ := Option.ne_none_iff_exists'.1 h
    obtain ⟨x, hx, _⟩ := Option.map_eq_some_iff.1 ho
    exact List.mem_flatMap.2 ⟨x, List.mem_of_find?_eq_some hx, by simpa using List.find?_some hx⟩
  have : ∀ p ∈ allParts, ∀ n ∈ (properties p).flatMap (·.2), (∃ f ∈ partFields p, f.key = n) ↔ (p, n) ∉ dropped := by decide +kernel
  exact this p (mem_allParts p) n hm

example : occurs .event c!"RRULE" ≠ none ∧ (Part.event, c!"RRULE") ∉ dropped := by decide +kernel

/-- C51.  The claim as stated in full is false: a counterexample. -/
theorem C51_full_claim_is_false : ¬ C51_claim := fun h => (C51_kept_partial .todo c!"RRULE" (by decide +kernel)).1 (h _ _ (by decide +kernel)) (by decide)

/-- A weekly todo. -/
def weeklyTodo (r : Str) : Str := c!"BEGIN:VCALENDAR\r\nVERSION:2.0\r\nPRODID:x\r\nBEGIN:VTODO\r\nUID:1\r\nDTSTAMP:20210729T014000Z\r\n" ++ r ++
  c!"END:VTODO\r\nEND:VCALENDAR\r\n"

/-- Its rule is not in the calendar. -/
theorem C51_todo_rule_lost : decodeDoc sampleEnv (weeklyTodo c!"RRULE:FREQ=WEEKLY\r\n") = decodeDoc sampleEnv (weeklyTodo []) ∧
    decodeDoc sampleEnv (weeklyTodo []) = .ok (sect tabCalendar [(c!"VERSION", val1 0 (.text c!"2.0")), (c!"PRODID", val1 0 (.text c!"x"))]
      [[], [sect tabTodo [(c!"UID", val1 0 (.text c!"1")), (c!"DTSTAMP", val1 0 (.dateTime ⟨63763119600, 0, .utc⟩))] [[]]], [], [], []]) := by
  decide +kernel

end Ics.Props
