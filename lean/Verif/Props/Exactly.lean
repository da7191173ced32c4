import Verif.LooseLemmas
import Verif.Props.ReturnExact
import Verif.Props.Again
/-!
# Properties: exactly which calendars come back, whatever their URIs (C83, C60)
-/

namespace Ics.Props
open Spec

/-- What a property that can be written says when it comes back. -/
theorem prop_returns_loose {E : Env} {f : SField} {p : PropVal} (hf : FieldWf f) (ht : f.spec.typed p = true) (hv : f.spec.valid p = .ok ())
    (hp : ∀ y ∈ propParams f.spec p, ParamWritable E y.1.kind y.2) (hl : ∀ v ∈ propVals p, CleanVal E v ∧ PlainFloats E v)
    (he : f.spec.encode E p ≠ none) :
    PropLoose E f.spec p ∧ (Back E f p → (∀ y ∈ propParams f.spec p, GoodParam y.1.kind y.2) ∧ ∀ v ∈ propVals p, GoodVal E v) := by
  have htp := PSpec.typed_params ht
  have hvp := valid_params hv
  have hw : ∀ y ∈ propParams f.spec p, ParamLoose E y.1.kind y.2 ∧ (CleanParam E y.2 ∨ ((y.1.kind = .url ∨ y.1.kind = .urls) ∧ vanishes E y.1.kind y.2 = false)) := by
    intro y hy
    refine param_written (htp y hy) (hvp y hy) (hp y hy) fun h => he ?_
    rw [PSpec.encode_none]
    exact ⟨y, hy, (PKind.encode_none E y.1.name y.1.kind y.2 (htp y hy)).2 h⟩
  have hpl := propLoose_of ht hv (fun y hy => (hw y hy).1) (fun v hv => cleanVal_safe (hl v hv).1)
  refine ⟨hpl, fun hb => ?_⟩
  by_cases hc : ∀ y ∈ propParams f.spec p, CleanParam E y.2
  · exact prop_returns hf.spec ht hv hc hl hb
  · exfalso
    apply hc
    intro y hy
    rcases (hw y hy).2 with h | ⟨hk, hn⟩
    · exact h
    · exfalso
      obtain ⟨p', hb, _⟩ := hb
      obtain ⟨hm, ds, vals, hs, hd⟩ := toLine_param hpl hy hn
      refine decode_unquoted hf.spec hm ?_ (ptokens_unquoted (htp y hy) hk hn) _ _ hb
      rw [hs]
      exact ⟨y.1, hd, rfl, hk⟩

theorem sameRead_refl {E : Env} (l : Line) : SameRead true E l l :=
  ⟨rfl, fun _ => ⟨rfl, rfl⟩, fun _ _ _ => by unfold ResAlike; rw [if_pos rfl]; exact fun _ => Iff.rfl⟩

/-- The lines of a calendar that can be written are read as they are, or, if a URI is in the way, as lines that are refused like them. -/
theorem loose_lines (E : Env) : LinesOf E (fun f p => PropLoose E f.spec p) (ReadsAlike E) where
  prop := by
    intro f x hm hf h
    obtain ⟨e, hl, hn⟩ := PSpec.encode_line_loose E f.spec x hf.spec h
    refine ⟨e, fun rest => ?_⟩
    rcases parseLine_loose hl rest with h | ⟨l', h1, h2, h3⟩
    · exact .inl h
    · refine .inr ⟨l', h1, ?_⟩
      rcases h3 with rfl | ⟨p, hp, p', hp', e, hR, hu, hu'⟩
      · exact sameRead_refl _
      · exact sameRead_refused hm hf hn (h2.trans hn) hp hp' e hR hu hu'
  plain := by
    intro a b ha hb rest
    have h := plainLine_ok ha hb
    refine .inr ⟨_, ?_, sameRead_refl _⟩
    rw [printLine, List.append_assoc]
    exact parseLine_print_aux _ h _ rest (parseValue_print _ rest h.value)

/-- C83.  Of the calendars that pass validation, exactly those are written and come back from `Decode`, but for the identity of locations, that meet the rules
of the decoder, have no LAST-MODIFIED, and have only parameters and values that come back.  URIs and texts of parameters are not restricted; of what the package
does not check itself, the results of the library for URIs and floats, names of zones and format types are supposed to be free of control characters. -/
theorem C83_exactly_for_all (E : Env) (c : Cal) (ht : c.typed = true) (hv : c.valid = .ok ())
    (hp : ∀ x ∈ calProps c, ∀ y ∈ propParams x.1.spec x.2, ParamWritable E y.1.kind y.2)
    (hl : ∀ x ∈ calProps c, ∀ v ∈ propVals x.2, CleanVal E v ∧ PlainFloats E v) :
    (∃ s c', encodeDoc E c = some s ∧ decodeDoc E s = .ok c' ∧ SameCal c' c) ↔
      CalRules c ∧ (∀ x ∈ calProps c, x.1.key ≠ c!"LAST-MOD") ∧
      (∀ x ∈ calProps c, ∀ y ∈ propParams x.1.spec x.2, GoodParam y.1.kind y.2) ∧ ∀ x ∈ calProps c, ∀ v ∈ propVals x.2, GoodVal E v := by
  constructor
  · rintro ⟨s, c', he, hd, hs⟩
    have hn : ∀ x ∈ calProps c, x.1.spec.encode E x.2 ≠ none := fun x hx h => by
      rw [(encodeDoc_none E c).2 ⟨x, hx, h⟩] at he
      cases he
    have hb := GoodCal.build
      (fun f p => (∀ y ∈ propParams f.spec p, ParamWritable E y.1.kind y.2) ∧ (∀ v ∈ propVals p, CleanVal E v ∧ PlainFloats E v) ∧ f.spec.encode E p ≠ none)
      (fun f p => PropLoose E f.spec p ∧ (Back E f p → (∀ y ∈ propParams f.spec p, GoodParam y.1.kind y.2) ∧ ∀ v ∈ propVals p, GoodVal E v))
      (fun f p hw ht h hv => prop_returns_loose hw ht hv h.1 h.2.1 h.2.2) c ht hv (fun x hx => ⟨hp x hx, hl x hx, hn x hx⟩)
    obtain ⟨e1, e2⟩ := (loose_lines E).cal c (hb.imp fun _ _ h => h.1)
    rw [e1] at he
    cases he
    obtain ⟨r, h⟩ := cal_back hb (decode_alike e2 hd) hs
    have each := hb.each
    exact ⟨r, fun x hx => (each x hx).2.1 (h x hx).1, fun x hx => ((each x hx).1.2 (h x hx).2).1, fun x hx => ((each x hx).1.2 (h x hx).2).2⟩
  · rintro ⟨h1, h2, h3, h4⟩
    obtain ⟨s, c', g1, g2, g3⟩ := C44_round_trip_partial E c ht hv h1 h3 h4
    refine ⟨s, c', g1, g2, ?_⟩
    have hb := GoodCal.build (fun _ _ => True) (fun _ _ => True) (fun _ _ _ _ _ _ => trivial) c ht hv (fun _ _ => trivial)
    rwa [hb.drop_absent _ h2] at g3

/-! ## C60 Decode, Encode, Decode -/

theorem goodParam_kept {k : PKind} {v : ParamVal} (h : GoodParam k v) : ParamKept k v := by
  have no : ∀ {s : Str}, PlainText s → '^' ∉ s := fun h hm => (h _ hm).2.1 rfl
  cases h with
  | str q s h1 h2 => exact ⟨h1, no h2⟩
  | fmt s h1 h2 =>
    refine ⟨?_, no h1⟩
    rintro rfl
    obtain ⟨a, b, c, _, h, _⟩ := h2
    simp at h
  | names => trivial
  | strs l h1 h2 => exact fun s hs => no (h2 s hs)
  | range => trivial
  | bool => rfl

theorem goodVal_kept {E : Env} {v : Val} (h : GoodVal E v) : ValKept E v := by
  obtain ⟨h, _⟩ := h
  cases v with
  | dateTime t => exact h.nsec
  | period p =>
    refine ⟨h.start.nsec, ?_, fun hz => ?_⟩
    · cases hz : p.stop.isZero with
      | true => rw [(h.withDur hz).1]
      | false => exact (h.withEnd hz).2.1.nsec
    · rw [(h.withDur ((zero_iff _).2 hz)).1]
  | recur r =>
    obtain ⟨_, h⟩ := h
    refine ⟨?_, fun hz => (h.zero ((zero_iff _).2 hz)).2⟩
    cases hz : r.until_.isZero with
    | true => rw [(h.zero hz).1]
    | false =>
      cases ht : r.untilTime with
      | true => exact (h.time hz ht).1
      | false => exact (h.date hz ht).1
  | calAddress u => exact ⟨h.parse, h.chars⟩
  | uri u => exact ⟨h.parse, h.chars⟩
  | tfloat x =>
    intro y hy
    rcases List.mem_cons.1 hy with rfl | hy
    · exact ⟨h.1.parse, h.1.chars⟩
    · rw [List.mem_singleton] at hy
      subst hy
      exact ⟨h.2.parse, h.2.chars⟩
  | _ => trivial

/-- C60.  Exactly which decoded calendars that pass validation come back when they are written and read again: those without LAST-MODIFIED (read under the
name LAST-MOD), whose parameters are not URIs, not empty, not FALSE and have no caret, and whose values have no fraction of a second, no zero time in the place
of an end, and no URI or number that the library does not read back. -/
theorem C60_exactly_partial (E : Env) (hE : SaneEnv E) (hP : PlainEnv E) (s : Str) (c : Cal) (h : decodeDoc E s = .ok c) (hv : c.valid = .ok ()) :
    (∃ t c', encodeDoc E c = some t ∧ decodeDoc E t = .ok c' ∧ SameCal c' c) ↔
      (∀ x ∈ calProps c, x.1.key ≠ c!"LAST-MOD") ∧ (∀ x ∈ calParams c, ParamKept x.1 x.2) ∧ ∀ v ∈ calVals c, ValKept E v := by
  have ha := decoded_again hE h
  have hd := (decoded_plain hE hP h).props
  rw [C83_exactly_for_all E c (C45_typed E s c h) hv (fun x hx => (hd x hx).1) (fun x hx => (hd x hx).2)]
  constructor
  · rintro ⟨_, h2, h3, h4⟩
    refine ⟨h2, ?_, ?_⟩
    · intro x hx
      obtain ⟨y, hy, hx⟩ := List.mem_flatMap.1 hx
      obtain ⟨z, hz, rfl⟩ := List.mem_map.1 hx
      exact goodParam_kept (h3 y hy z hz)
    · intro v hx
      obtain ⟨y, hy, hx⟩ := List.mem_flatMap.1 hx
      exact goodVal_kept (h4 y hy v hx)
  · rintro ⟨h2, h3, h4⟩
    exact ⟨ha.rules, h2, fun x hx y hy => (ha.props x hx).1 y hy (h3 _ (List.mem_flatMap.2 ⟨x, hx, List.mem_map.2 ⟨y, hy, rfl⟩⟩)),
      fun x hx v hv => (ha.props x hx).2 v hv (h4 _ (List.mem_flatMap.2 ⟨x, hx, hv⟩))⟩

/-! ## Samples -/

/-- Like the sample environment, but `url.Parse` refuses control characters and quotes, as the library does or escapes them. -/
def strictEnv : Env := { sampleEnv with urlParse := fun s => if s.isEmpty || s.any (fun c => isCtl32 c || c == '"') then none else some ⟨s⟩ }

theorem strictEnv_sane : SaneEnv strictEnv := ⟨sampleEnv_sane.loc, sampleEnv_sane.zone, sampleEnv_sane.name⟩

theorem strictEnv_plain : PlainEnv strictEnv where
  url := by
    intro s u h
    simp only [strictEnv] at h
    split at h
    · cases h
    · next hn =>
      cases h
      simp only [Bool.or_eq_true, not_or, List.any_eq_true, not_exists, not_and] at hn
      have hc : ∀ c ∈ s, isCtl32 c = false ∧ c ≠ '"' := fun c hm => ⟨by simpa using (hn.2 c hm).1, by simpa using (hn.2 c hm).2⟩
      refine ⟨fun c hm => (isCtl32_iff c).1 (hc c hm).1, fun e => ?_⟩
      obtain ⟨t, rfl⟩ := List.head?_eq_some_iff.1 e
      exact (hc _ (by simp)).2 rfl
  float := fun f c h => by cases h

/-- C60, C83.  A decoded calendar that comes back, and one with a URI in a parameter (the URI has a colon) that does not. -/
theorem C60_both_sides :
    (∃ c, decodeDoc strictEnv (oneMoreDoc c!"SUMMARY;LANGUAGE=en:x") = .ok c ∧ c.valid = .ok () ∧
      ∃ t c', encodeDoc strictEnv c = some t ∧ decodeDoc strictEnv t = .ok c' ∧ SameCal c' c) ∧
    (∃ c, decodeDoc strictEnv (oneMoreDoc c!"SUMMARY;ALTREP=\"CID:x\":y") = .ok c ∧ c.valid = .ok () ∧
      ¬ ∃ t c', encodeDoc strictEnv c = some t ∧ decodeDoc strictEnv t = .ok c' ∧ SameCal c' c) := by
  constructor
  · have h : decodeDoc strictEnv (oneMoreDoc c!"SUMMARY;LANGUAGE=en:x") = .ok (oneMore c!"SUMMARY" (.fields [none, some (.str c!"en")] [some (.text c!"x")])) := by
      decide +kernel
    have hv : (oneMore c!"SUMMARY" (.fields [none, some (.str c!"en")] [some (.text c!"x")])).valid = .ok () := by decide +kernel
    refine ⟨_, h, hv, (C60_exactly_partial _ strictEnv_sane strictEnv_plain _ _ h hv).2 ⟨by decide +kernel, by decide +kernel, by decide +kernel⟩⟩
  · have h : decodeDoc strictEnv (oneMoreDoc c!"SUMMARY;ALTREP=\"CID:x\":y") = .ok (oneMore c!"SUMMARY" (.fields [some (.url ⟨c!"CID:x"⟩), none] [some (.text c!"y")])) := by
      decide +kernel
    have hv : (oneMore c!"SUMMARY" (.fields [some (.url ⟨c!"CID:x"⟩), none] [some (.text c!"y")])).valid = .ok () := by decide +kernel
    refine ⟨_, h, hv, fun hc => ?_⟩
    have := ((C60_exactly_partial _ strictEnv_sane strictEnv_plain _ _ h hv).1 hc).2.1
    exact absurd this (by decide +kernel)

end Ics.Props
