import Verif.NeverLemmas
import Verif.Props.Emit
/-!
# Property C104 for an Encode that does not return
-/

namespace Ics.Props

open Ics Spec

theorem soften_char {s : Str} {c : Char} (h : c ∈ soften s) : c ∈ s ∨ c = ';' ∨ c = 'x' := by
  unfold soften at h
  split at h
  · obtain ⟨d, hd, rfl⟩ := List.mem_map.1 h
    split
    · exact .inr (.inl rfl)
    · split
      · exact .inr (.inr rfl)
      · exact .inl hd
  · exact .inl h

/-- Where the texts are accepted, those that stand in are. -/
theorem soften_gentle : Gentle soften where
  toStandIn := soften_standIn
  text s h := by
    intro c hc
    rcases soften_char hc with hc | rfl | rfl
    · exact h c hc
    · decide
    · decide
  clear s h := by
    intro c hc
    rcases soften_char hc with hc | rfl | rfl
    · exact h c hc
    · unfold NoCtl; decide
    · unfold NoCtl; decide
  format s h := by
    unfold soften
    split
    · obtain ⟨x, a, b, y, rfl, ha, hb⟩ := h
      have one : ∀ a, FormatChar a → FormatChar (if a = '"' then ';' else if a = '\n' ∨ a = '^' then 'x' else a) := by
        intro a h
        split
        · unfold FormatChar; decide
        · split
          · unfold FormatChar; decide
          · exact h
      exact ⟨_, _, _, _, by simp only [List.map_append, List.map_cons]; rfl, one a ha, one b hb⟩
    · exact h

/-- C104.  Also when `Encode` does not return, and whatever the writer does, no call was given octets of two lines. -/
theorem C104_never_one_line_partial (E : Env) (w : Writer) (c : Cal) (ht : c.typed = true) (hu : Unbroken E c) (f : WFolder)
    (h : encodeCalls E w c = .never f) : ∀ p ∈ f.log, OfOneLine p := by
  unfold encodeCalls at h
  split at h
  · cases h
  · cases h
  rename_i hv
  dsimp only at h
  split at h
  · cases h
  cases h
  have hg := GoodCal.build (fun f p => (∀ y ∈ propParams f.spec p, UnbrokenParam E y.1.kind y.2) ∧ ∀ v ∈ propVals p, UnbrokenVal E v)
    (fun f p => FieldWf f ∧ f.spec.typed p = true ∧ f.spec.valid p = .ok () ∧
      (∀ y ∈ propParams f.spec p, UnbrokenParam E y.1.kind y.2) ∧ ∀ v ∈ propVals p, UnbrokenVal E v) (by
      intro f p hw ht he hv
      exact ⟨hw, ht, hv, he⟩) c ht hv hu
  have hsh : ∀ p ∈ (c.said E).calls, Shaped p := by
    refine cal_shaped (P := fun y => ∀ q ∈ (y.1.spec.said E y.2).calls, Shaped q) (fun y hy => hy) ?_
    intro y hy
    obtain ⟨hw, h1, h2, h3⟩ := (hg.each y hy).1
    exact prop_shaped_any soften_gentle hw.spec h1 h2 h3
  have hb : Brief (({} : WFolder).writes taker ((c.said E).calls.map utf8)) := brief_writes _ hsh {} ⟨rfl, Nat.zero_le _, by nofun⟩
  intro p hp
  refine hb.2.2 p ?_
  rcases SameCalls.writes (w := w) ((c.said E).calls.map utf8) {} {} rfl rfl rfl rfl with ⟨_, _, h⟩ | ⟨_, h⟩
  · exact h ▸ hp
  · exact h.subset hp

/-- C104.  So no call is given more than 77 octets. -/
theorem C104_never_call_size_partial (E : Env) (w : Writer) (c : Cal) (ht : c.typed = true) (hu : Unbroken E c) (f : WFolder)
    (h : encodeCalls E w c = .never f) : ∀ p ∈ f.log, p.length ≤ 77 := fun p hp => OfOneLine.length (C104_never_one_line_partial E w c ht hu f h p hp)

/-! ## Concrete cases -/

/-- The calendar for which `Encode` does not return breaks no line. -/
theorem caretCal_unbroken : Unbroken sampleEnv caretCal := by decide +kernel

example (w : Writer) : ∃ f, encodeCalls sampleEnv w caretCal = .never f ∧ (∀ p ∈ f.log, OfOneLine p) ∧ ∀ p ∈ f.log, p.length ≤ 77 := by
  obtain ⟨f, h⟩ := (C103_never_iff sampleEnv w caretCal caretCal_typed.1).2 ⟨caretCal_typed.2, by decide +kernel⟩
  exact ⟨f, h, C104_never_one_line_partial _ _ _ caretCal_typed.1 caretCal_unbroken _ h, C104_never_call_size_partial _ _ _ caretCal_typed.1 caretCal_unbroken _ h⟩

end Ics.Props
