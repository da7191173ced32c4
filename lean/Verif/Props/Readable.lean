import Verif.ReadableLemmas
import Verif.Props.Exactly
/-!
# Properties: exactly which written calendars are read again (C38)
-/

namespace Ics.Props
open Spec

/-- C38.  Of the calendars that pass validation and that `Encode` writes, exactly those are read by `Decode` that keep the rules between properties and have, apart
from LAST-MODIFIED (which is not looked at, for it is looked for under another name), only readable parameters and values: no URI in a parameter, years of four
digits, zones that are known, weeks of days from 1 to 53, 32 bits for integers, URIs and floats that the library reads, and no negative offset that is written as
zero.  Of what the package does not check itself, the results of the library for URIs and floats, names of zones and format types are supposed to be free of
control characters. -/
theorem C38_exactly_partial (E : Env) (c : Cal) (ht : c.typed = true) (hv : c.valid = .ok ())
    (hp : ∀ x ∈ calProps c, ∀ y ∈ propParams x.1.spec x.2, ParamWritable E y.1.kind y.2)
    (hl : ∀ x ∈ calProps c, ∀ v ∈ propVals x.2, CleanVal E v ∧ PlainFloats E v) (hz : ∀ x ∈ calProps c, ∀ v ∈ propVals x.2, ValSized v)
    (s : Str) (he : encodeDoc E c = some s) :
    (∃ c', decodeDoc E s = .ok c') ↔
      CalRules c ∧ ∀ x ∈ calProps c, x.1.key ≠ c!"LAST-MOD" → (∀ y ∈ propParams x.1.spec x.2, ParamReadable E y.2) ∧ ∀ v ∈ propVals x.2, ValReadable E v := by
  have hn : ∀ x ∈ calProps c, x.1.spec.encode E x.2 ≠ none := fun x hx h => by
    rw [(encodeDoc_none E c).2 ⟨x, hx, h⟩] at he
    cases he
  have hb := GoodCal.build
    (fun f p => (∀ y ∈ propParams f.spec p, ParamWritable E y.1.kind y.2) ∧ (∀ v ∈ propVals p, CleanVal E v ∧ PlainFloats E v) ∧ (∀ v ∈ propVals p, ValSized v) ∧
      f.spec.encode E p ≠ none)
    (fun f p => PropLoose E f.spec p ∧ ((∀ y ∈ propParams f.spec p, ParamReadable E y.2) → PropSafe E f.spec p) ∧
      (Legible E f p ↔ (∀ y ∈ propParams f.spec p, ParamReadable E y.2) ∧ ∀ v ∈ propVals p, ValReadable E v))
    (fun f p hw ht h hv => prop_legible hw ht hv h.1 h.2.1 h.2.2.1 h.2.2.2) c ht hv (fun x hx => ⟨hp x hx, hl x hx, hz x hx, hn x hx⟩)
  have each := hb.each
  constructor
  · rintro ⟨c', hd⟩
    obtain ⟨e1, e2⟩ := (loose_lines E).cal c (hb.imp fun _ _ h => h.1)
    rw [e1] at he
    cases he
    obtain ⟨r, h⟩ := (cal_legible hb .done).1 ⟨c', decode_alike e2 hd⟩
    exact ⟨r, fun x hx hk => (each x hx).1.2.2.1 (h x hx ((each x hx).2.2 hk))⟩
  · rintro ⟨r, h⟩
    have hs := GoodCal.build
      (fun f p => (∀ y ∈ propParams f.spec p, ParamWritable E y.1.kind y.2) ∧ (∀ v ∈ propVals p, CleanVal E v ∧ PlainFloats E v) ∧ (∀ v ∈ propVals p, ValSized v) ∧
        f.spec.encode E p ≠ none ∧ ∀ y ∈ propParams f.spec p, ParamReadable E y.2)
      (fun f p => PropSafe E f.spec p) (fun f p hw ht h hv => (prop_legible hw ht hv h.1 h.2.1 h.2.2.1 h.2.2.2.1).2.1 h.2.2.2.2) c ht hv
      (fun x hx => ⟨hp x hx, hl x hx, hz x hx, hn x hx, fun y hy => by
        by_cases hk : x.1.key = kLastMod
        · rw [hb.lastMod x hx hk] at hy
          cases hy
        · exact (h x hx hk).1 y hy⟩)
    obtain ⟨e1, e2⟩ := encodeDoc_lines E c hs.safe
    rw [e1] at he
    cases he
    have := tokenise_prints (calLines E c) e2 []
    rw [List.append_nil, tokenise_nil] at this
    unfold decodeDoc
    rw [this]
    simp only [List.append_nil]
    exact (cal_legible hb _).2 ⟨r, fun x hx hk => (each x hx).1.2.2.2 (h x hx ((each x hx).2.1 hk))⟩

/-! ## Samples -/

/-- Every week, on the Sunday of this number in the year. -/
def sundayCal (n : Int) : Cal := oneMore c!"RRULE" (.fields [] [some (.recur { freq := 6, byDay := [⟨1, n⟩] })])

theorem sundayCal_props (n : Int) : calProps (sundayCal n) =
    [(⟨c!"VERSION", propVersion, .req⟩, val1 0 (.text c!"2.0")), (⟨c!"PRODID", propProductID, .req⟩, val1 0 (.text c!"x")),
      (⟨c!"DTSTAMP", propDateTimeStamp, .req⟩, val1 0 (.dateTime ⟨63763119600, 0, .utc⟩)), (⟨c!"UID", propUID, .req⟩, val1 0 (.text c!"1")),
      (⟨c!"RRULE", propRecurrenceRule, .opt⟩, .fields [] [some (.recur { freq := 6, byDay := [⟨1, n⟩] })])] := by rfl

/-- C38.  The theorem on both sides: the 53rd Sunday is read again, the 54th, valid and written too, is not. -/
theorem C38_both_sides : (∃ s c', encodeDoc sampleEnv (sundayCal 53) = some s ∧ decodeDoc sampleEnv s = .ok c') ∧
    (sundayCal 54).valid = .ok () ∧ ∃ s, encodeDoc sampleEnv (sundayCal 54) = some s ∧ ¬ ∃ c', decodeDoc sampleEnv s = .ok c' := by
  have all : ∀ n s, -128 ≤ n → n < 128 → (sundayCal n).typed = true → (sundayCal n).valid = .ok () → encodeDoc sampleEnv (sundayCal n) = some s →
      ((∃ c', decodeDoc sampleEnv s = .ok c') ↔ CalRules (sundayCal n) ∧ (n = 0 ∨ Ordinal 53 n)) := by
    intro n s l1 l2 ht hv he
    rw [C38_exactly_partial sampleEnv _ ht hv ?_ ?_ ?_ s he]
    · rw [sundayCal_props]
      have h4 : FourDigits sampleEnv ⟨63763119600, 0, .utc⟩ := by unfold FourDigits; decide +kernel
      simp [propParams, propVals, val1, propVersion, propProductID, propDateTimeStamp, propUID, propRecurrenceRule, ValReadable, RuleReadable, LocKnown, h4, GoTime.isZero]
    all_goals
      rw [sundayCal_props]
      simp [propParams, propVals, val1, propVersion, propProductID, propDateTimeStamp, propUID, propRecurrenceRule, CleanVal, PlainFloats, valLoc, ValSized]
    constructor <;> simp <;> omega
  have h1 := all 53 _ (by decide) (by decide) (by decide +kernel) (by decide +kernel) rfl
  have h2 := all 54 _ (by decide) (by decide) (by decide +kernel) (by decide +kernel) rfl
  obtain ⟨c', hc⟩ := h1.2 ⟨by decide +kernel, by unfold Ordinal; decide⟩
  refine ⟨⟨_, c', rfl, hc⟩, by decide +kernel, _, rfl, fun h => ?_⟩
  exact absurd (h2.1 h).2 (by unfold Ordinal; decide)

/-- C38.  Each of the others: valid and written, and refused by `Decode` - a URI in a parameter; a year of five digits; a zone that is not known here; an end of a
rule beyond the year 9999; an integer beyond 32 bits. -/
theorem C38_each_refused :
    (∀ x ∈ [(c!"SUMMARY", PropVal.fields [some (.url ⟨c!"CID:x"⟩), none] [some (.text c!"y")]),
        (c!"DTSTART", .fields [] [some (.dateTime ⟨315569520000, 0, .utc⟩), none]),
        (c!"DTSTART", .fields [] [some (.dateTime ⟨63763119600, 0, .zone c!"Nowhere" 0 0⟩), none]),
        (c!"RRULE", .fields [] [some (.recur { freq := 6, until_ := ⟨315569520000, 0, .utc⟩, untilTime := true })]),
        (c!"SEQUENCE", .fields [] [some (.integer 2147483648)])],
      (oneMore x.1 x.2).valid = .ok () ∧ CalRules (oneMore x.1 x.2) ∧ ∃ s, encodeDoc sampleEnv (oneMore x.1 x.2) = some s ∧ (decodeDoc sampleEnv s).isOk = false) := by
  have : ∀ x ∈ [(c!"SUMMARY", PropVal.fields [some (.url ⟨c!"CID:x"⟩), none] [some (.text c!"y")]),
        (c!"DTSTART", .fields [] [some (.dateTime ⟨315569520000, 0, .utc⟩), none]),
        (c!"DTSTART", .fields [] [some (.dateTime ⟨63763119600, 0, .zone c!"Nowhere" 0 0⟩), none]),
        (c!"RRULE", .fields [] [some (.recur { freq := 6, until_ := ⟨315569520000, 0, .utc⟩, untilTime := true })]),
        (c!"SEQUENCE", .fields [] [some (.integer 2147483648)])],
      (oneMore x.1 x.2).valid = .ok () ∧ CalRules (oneMore x.1 x.2) ∧
        (match encodeDoc sampleEnv (oneMore x.1 x.2) with
        | some s => !(decodeDoc sampleEnv s).isOk
        | none => false) = true := by decide +kernel
  intro x hx
  obtain ⟨a, b, h⟩ := this x hx
  refine ⟨a, b, ?_⟩
  split at h
  · next s hs => exact ⟨s, hs, by simpa using h⟩
  · cases h

/-- C38.  Not all that is read is what was written: fractions of a second are lost, offsets of 256 hours and more wrap around or become zero. -/
theorem C38_read_as_other : OffsetReadable 921600 ∧ UTCOffset.decode (UTCOffset.encode 921600) = .ok 0 ∧
    ¬ OffsetReadable (-921600) ∧ UTCOffset.decode (UTCOffset.encode (-921600)) = .err .invalidOffset := by
  refine ⟨.inl (by decide), by decide +kernel, ?_, by decide +kernel⟩
  unfold OffsetReadable
  decide

end Ics.Props
