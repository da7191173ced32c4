import Verif.CharacterWriteLemmas
import Verif.Props.Writer
import Verif.Props.Cases
/-!
# Property C102: where the characters come from
-/

namespace Ics.Props

open Ics Spec

/-- C102.  Every character of a text in a calendar that was read is in the document, or is a line feed that was written with a backslash or a caret, a double quote that was written with
a caret, or the replacement character that a text gets which ends in a backslash. -/
theorem C102_decode (E : Env) (s : Str) (c : Cal) (h : decodeDoc E s = .ok c) : ∀ w ∈ calTexts c, ∀ ch ∈ w,
    ch ∈ s ∨ (ch = '\n' ∧ ('\\' ∈ s ∨ '^' ∈ s)) ∨ (ch = '"' ∧ '^' ∈ s) ∨ (ch = '�' ∧ '\\' ∈ s) := by
  refine decodeDoc_each (P := fun ch => ch ∈ s ∨ (ch = '\n' ∧ ('\\' ∈ s ∨ '^' ∈ s)) ∨ (ch = '"' ∧ '^' ∈ s) ∨ (ch = '�' ∧ '\\' ∈ s)) ?_ ?_ ?_ (fun ch hc => .inl hc) h
  · rintro (h | h)
    · rcases h with h | ⟨h, _⟩ | ⟨h, _⟩ | ⟨h, _⟩
      · exact .inr (.inl ⟨rfl, .inl h⟩)
      all_goals exact absurd h (by decide)
    · rcases h with h | ⟨h, _⟩ | ⟨h, _⟩ | ⟨h, _⟩
      · exact .inr (.inl ⟨rfl, .inr h⟩)
      all_goals exact absurd h (by decide)
  · intro h
    rcases h with h | ⟨h, _⟩ | ⟨h, _⟩ | ⟨h, _⟩
    · exact .inr (.inr (.inr ⟨rfl, h⟩))
    all_goals exact absurd h (by decide)
  · intro h
    rcases h with h | ⟨h, _⟩ | ⟨h, _⟩ | ⟨h, _⟩
    · exact .inr (.inr (.inl ⟨rfl, h⟩))
    all_goals exact absurd h (by decide)

/-- C102.  So a document with neither backslash nor caret gives texts of its own characters only. -/
theorem C102_no_escapes (E : Env) (s : Str) (c : Cal) (h : decodeDoc E s = .ok c) (h1 : '\\' ∉ s) (h2 : '^' ∉ s) : ∀ w ∈ calTexts c, ∀ ch ∈ w, ch ∈ s := by
  intro w hw ch hc
  rcases C102_decode E s c h w hw ch hc with h | ⟨_, h | h⟩ | ⟨_, h⟩ | ⟨_, h⟩
  · exact h
  · exact absurd h h1
  · exact absurd h h2
  · exact absurd h h2
  · exact absurd h h1

/-- C102.  Every character that is written is CR, LF or a printable one of ASCII, or in a text of the calendar, or in a text that the Go library makes of a URI or a number in it. -/
theorem C102_encode (E : Env) (c : Cal) (t : Str) (h : encodeDoc E c = some t) : ∀ ch ∈ t,
    OfFormat ch ∨ (∃ w ∈ calTexts c, ch ∈ w) ∨ ∃ w ∈ calLibrary E c, ch ∈ w :=
  encodeDoc_each (P := fun ch => OfFormat ch ∨ (∃ w ∈ calTexts c, ch ∈ w) ∨ ∃ w ∈ calLibrary E c, ch ∈ w) (fun _ h => .inl h)
    (fun w hw _ hc => .inr (.inl ⟨w, hw, hc⟩)) (fun w hw _ hc => .inr (.inr ⟨w, hw, hc⟩)) h

/-- The text is 7-bit. -/
def SevenBit (s : Str) : Prop := ∀ ch ∈ s, ch.toNat < 128

instance (s : Str) : Decidable (SevenBit s) := by unfold SevenBit; infer_instance

theorem ofFormat_sevenBit {ch : Char} (h : OfFormat ch) : ch.toNat < 128 := by
  rcases h with rfl | rfl | h
  · decide
  · decide
  · omega

theorem handedOut_octets {P : UInt8 → Prop} (h13 : P 13) (h10 : P 10) (h32 : P 32) {q : Bytes} {ps : List Bytes} (h : HandedOut q ps) (hq : ∀ b ∈ q, P b) : ∀ p ∈ ps, ∀ b ∈ p, P b := by
  induction h with
  | nil => nofun
  | @piece p q ps _ _ ih =>
    intro x hx b hb
    rcases List.mem_cons.1 hx with rfl | hx
    · exact hq b (List.mem_append_left _ hb)
    · exact ih (fun b hb => hq b (List.mem_append_right _ hb)) x hx b hb
  | @fold p q ps _ _ ih =>
    intro x hx b hb
    rcases List.mem_cons.1 hx with rfl | hx
    · simp only [List.mem_cons, List.not_mem_nil, or_false] at hb
      rcases hb with rfl | rfl | rfl <;> assumption
    · rcases List.mem_cons.1 hx with rfl | hx
      · exact hq b (List.mem_append_left _ hb)
      · exact ih (fun b hb => hq b (List.mem_append_right _ hb)) x hx b hb

theorem handed_out {w : Writer} {log : List Bytes} {out : Bytes} {e : Option Nat} (h : Handed w log out e) : ∀ b ∈ out, ∃ p ∈ log, b ∈ p := by
  induction h with
  | none => nofun
  | @call log out p _ _ ih =>
    intro b hb
    rcases List.mem_append.1 hb with hb | hb
    · obtain ⟨p', hp, hb⟩ := ih b hb
      exact ⟨p', List.mem_append_left _ hp, hb⟩
    · exact ⟨p, List.mem_append_right _ (List.mem_singleton.2 rfl), List.mem_of_mem_take hb⟩

/-- C102.  A calendar whose texts are 7-bit, and whose URIs and numbers the Go library writes so, is written in octets below 128 only, to whatever writer. -/
theorem C102_seven_bit (E : Env) (w : Writer) (cut : Str → List Str) (hcut : ∀ s, (cut s).flatten = s) (c : Cal) (e : Option EncErr) (f : WFolder)
    (h : encodeTo E w cut c = .done (e, f)) (h1 : ∀ x ∈ calTexts c, SevenBit x) (h2 : ∀ x ∈ calLibrary E c, SevenBit x) :
    (∀ p ∈ f.log, ∀ b ∈ p, b.toNat < 128) ∧ ∀ b ∈ f.out, b.toNat < 128 := by
  rcases C101_encode E w cut hcut c e f h with ⟨_, _, _, rfl⟩ | ⟨t, _, ht, _, hh, ⟨ps, hp, hl, _⟩, _⟩
  · exact ⟨nofun, nofun⟩
  · have ht : ∀ b ∈ utf8 t, b.toNat < 128 := by
      intro b hb
      obtain ⟨ch, hc, hb⟩ := List.mem_flatMap.1 hb
      have hs : ch.toNat < 128 := by
        rcases C102_encode E c t ht ch hc with h | ⟨x, hx, h⟩ | ⟨x, hx, h⟩
        · exact ofFormat_sevenBit h
        · exact h1 x hx ch h
        · exact h2 x hx ch h
      rw [encodeChar_ascii ch hs] at hb
      rw [List.mem_singleton.1 hb]
      simp only [UInt8.toNat_ofNat']
      omega
    have h3 := handedOut_octets (P := fun b => b.toNat < 128) (by decide) (by decide) (by decide) hp ht
    have h4 : ∀ p ∈ f.log, ∀ b ∈ p, b.toNat < 128 := fun p hp' => h3 p (hl.subset hp')
    refine ⟨h4, fun b hb => ?_⟩
    obtain ⟨p, hp', hb⟩ := handed_out hh b hb
    exact h4 p hp' b hb

/-- C102.  What is read and written again has only the characters of the format, those that were read, the replacement character, and what the Go library writes. -/
theorem C102_read_and_written (E : Env) (s t : Str) (c : Cal) (h : decodeDoc E s = .ok c) (hw : encodeDoc E c = some t) : ∀ ch ∈ t,
    OfFormat ch ∨ ch ∈ s ∨ (ch = '�' ∧ '\\' ∈ s) ∨ ∃ w ∈ calLibrary E c, ch ∈ w := by
  intro ch hc
  rcases C102_encode E c t hw ch hc with h' | ⟨w, hw, h'⟩ | h'
  · exact .inl h'
  · rcases C102_decode E s c h w hw ch h' with h' | ⟨rfl, _⟩ | ⟨rfl, _⟩ | h'
    · exact .inr (.inl h')
    · exact .inl (by decide)
    · exact .inl (by decide)
    · exact .inr (.inr (.inl h'))
  · exact .inr (.inr (.inr h'))

/-! ## Concrete cases -/

example := C102_decode sampleEnv sampleDoc sampleRead sampleRead_ok
example := C102_encode sampleEnv sampleCal sampleDoc sampleCal_doc
example := C102_read_and_written sampleEnv sampleDoc sampleDoc sampleRead sampleRead_ok (by decide +kernel)
example := C102_no_escapes sampleEnv c!"BEGIN:VCALENDAR\r\nVERSION:2.0\r\nPRODID:a\r\nEND:VCALENDAR\r\n" (sect tabCalendar [(c!"VERSION", val1 0 (.text c!"2.0")), (c!"PRODID", val1 0 (.text c!"a"))] [[], [], [], [], []]) (by decide +kernel) (by decide) (by decide)

theorem sampleCal_sevenBit : (∀ x ∈ calTexts sampleCal, SevenBit x) ∧ ∀ x ∈ calLibrary sampleEnv sampleCal, SevenBit x := by
  constructor <;> decide +kernel

example := C102_seven_bit sampleEnv noFolds (fun s => [s]) (by simp) sampleCal _ _ (sampleCal_encodedTo noFolds) sampleCal_sevenBit.1 sampleCal_sevenBit.2

/-- Texts with what is made up: the line feed, the double quote and the replacement character. -/
def madeUpDoc : Str := c!"BEGIN:VCALENDAR\r\nVERSION:2.0\r\nPRODID:a\r\nBEGIN:VEVENT\r\nUID:u\r\nDTSTAMP:20210729T014000Z\r\nDTSTART:20210729T014000Z\r\nATTENDEE;CN=x^'y:z\r\nSUMMARY:p\\nq\\\r\nEND:VEVENT\r\nEND:VCALENDAR\r\n"

/-- C102.  All three happen. -/
theorem C102_made_up : ∃ c, decodeDoc sampleEnv madeUpDoc = .ok c ∧ c!"p\nq\\�" ∈ calTexts c ∧ (∃ w ∈ calTexts c, '"' ∈ w) ∧ '"' ∉ madeUpDoc ∧ '�' ∉ madeUpDoc := by
  have h : (match decodeDoc sampleEnv madeUpDoc with
    | .ok c => decide (c!"p\nq\\�" ∈ calTexts c ∧ ∃ w ∈ calTexts c, '"' ∈ w)
    | _ => false) = true := by decide +kernel
  cases hc : decodeDoc sampleEnv madeUpDoc with
  | ok c =>
    rw [hc] at h
    have := of_decide_eq_true h
    exact ⟨c, rfl, this.1, this.2, by decide +kernel, by decide +kernel⟩
  | err e => rw [hc] at h; cases h
  | panic => rw [hc] at h; cases h

end Ics.Props
