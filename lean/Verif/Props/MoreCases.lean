import Verif.Props.Cases
import Verif.Props.Cuts
import Verif.Props.Unbroken
import Verif.Props.Unfolding
import Verif.Props.LocalTime
import Verif.Props.Reading
import Verif.Props.Errors
import Verif.Props.WrittenDoc
import Verif.Props.LineEnds
import Verif.Props.ContentLine
/-!
# More concrete cases
-/

namespace Ics.Props

open Ics Spec

example := C11_parsed_lines_wellformed (s := c!"A;B=c:d\r\nE") (l := ⟨c!"A", [(c!"B", [⟨false, c!"c"⟩])], c!"d"⟩) (r := c!"E") (by decide +kernel)

/-- An ordinary time in New York, with its only reading and only instant. -/
example := C62_rfc_unique westEnv c!"America/New_York" c!"20210314T033000" 0 63751289400 63751289400 63751303800 63751303800 york_zone ((reading_iff sampleEnv _ _).2 ⟨0, by decide +kernel⟩)
  ((reading_iff sampleEnv _ _).2 ⟨0, by decide +kernel⟩)
  (.first (by unfold Shows; decide) fun y h => by
    have h : y + ite (y < 63751302000) (-18000) (-14400) = 63751289400 := h
    split at h <;> omega)
  (.first (by unfold Shows; decide) fun y h => by
    have h : y + ite (y < 63751302000) (-18000) (-14400) = 63751289400 := h
    split at h <;> omega)

/-- The folds of `samplePieces`. -/
theorem samplePieces_folded : Folded Space [97, 98, 99, 100, 101, 102, 103, 13, 10] samplePieces.flatten :=
  .keep _ (.keep _ (.fold rfl (.keep _ (.keep _ (.keep _ (.keep _ (.keep _ (.keep _ (.keep _ .nil)))))))))

example := C64_space_pieces_partial sampleEnv _ _ (noFold_decide (by decide +kernel)) samplePieces_folded (listReader samplePieces) samplePieces_wellCut [16, 16, 16] 40 (by decide)

example : decodeReader sampleEnv (fullReader markedA 0) 40 [5, 5] = .done (decodeDoc sampleEnv (runes [97, 98, 99, 100, 101])) :=
  C64_uncut_partial sampleEnv [97, 98, 99, 100, 101] markedA (noFold_decide (by decide +kernel)) (.keep _ (.keep _ (.keep _ (.keep _ (.fold rfl (.keep _ .nil)))))) (fullReader markedA 0)
    (fullReader_ok _ _) (fullReader_lazy _ _) (fullReader_eager _ _) [5, 5] (by decide) 40 _ _ _ markedA_whole.1 (by decide +kernel) markedA_whole.2

/-- The first line of what is written for the sample, in one piece. -/
theorem beginPiece_wellCut : WellCut (listReader [utf8 (sampleDoc.take 20)]) := by
  apply listReader_wellCut
  · intro i b hb hi; simp at hi
  · intro b hb hf
    simp at hb
    subst hb
    exact absurd hf (noFold_decide (by decide +kernel))

theorem beginPiece_delivered (h : List Nat) : delivered (listReader [utf8 (sampleDoc.take 20)]) h <+: utf8 (sampleDoc.take 20) := by
  have key : ∀ h, delivered (listReader [utf8 (sampleDoc.take 20)]) h = [] ∨ delivered (listReader [utf8 (sampleDoc.take 20)]) h = utf8 (sampleDoc.take 20) := by
    intro h
    induction h with
    | nil => exact .inl rfl
    | cons k h ih =>
      cases h with
      | nil =>
        simp only [delivered, listReader, List.length_nil, List.getElem?_cons_zero, List.nil_append]
        split
        · exact .inr rfl
        · exact .inl rfl
      | cons k' h' =>
        have : (listReader [utf8 (sampleDoc.take 20)] (k :: k' :: h')).1 = [] := by simp [listReader]
        rw [delivered, this, List.append_nil]
        exact ih
  rcases key h with h | h <;> rw [h]
  · exact List.nil_prefix
  · exact List.prefix_refl _

theorem sampleCal_encoded : encode sampleEnv okSink (fun s => [s]) sampleCal = .done ⟨none, ({} : Folder).writes okSink ([sampleDoc].map utf8)⟩ := by
  obtain ⟨k, hk⟩ := writes_ok [sampleDoc] {} rfl
  unfold encode
  rw [sampleCal_valid, sampleCal_doc]
  simp only [hk]
  rfl

example := C15_any_pieces_partial sampleEnv sampleEnv sampleCal sampleCal_typed sampleCal_valid sampleCal_unbroken (fun s => [s]) (by simp) _ sampleCal_encoded
  (listReader [utf8 (sampleDoc.take 20)]) beginPiece_wellCut
  (fun h =>
    have h1 : utf8 (sampleDoc.take 20) <+: (({} : Folder).writes okSink ([sampleDoc].map utf8)).out := by decide +kernel
    have h2 : (utf8 (sampleDoc.take 20)).length + 2 < (({} : Folder).writes okSink ([sampleDoc].map utf8)).out.length := by decide +kernel
    have h3 := (beginPiece_delivered h).length_le
    ⟨(beginPiece_delivered h).trans h1, Nat.lt_of_le_of_lt (Nat.add_le_add_right h3 2) h2⟩) [16, 30] 40 (by decide)

/-- A VERSION with a semicolon that is not escaped. -/
example : Err.invalidText ∈ shapeErrors propVersion :=
  C73_property_errors sampleEnv [⟨c!"BEGIN", [], c!"VCALENDAR"⟩, ⟨c!"VERSION", [], c!"a;b"⟩] ⟨.cal, c!"VCALENDAR", []⟩ ⟨c!"VERSION", [], c!"a;b"⟩
    (.direct (pre := [⟨c!"BEGIN", [], c!"VCALENDAR"⟩]) (r := []) (st := []) rfl ⟨_, [], rfl, ⟨by decide, by decide⟩, .nil (by decide)⟩ nofun) ⟨c!"VERSION", propVersion, .req⟩
    (List.mem_of_getElem? (i := 0) rfl) _ (by decide +kernel)

/-- The lines of the sample document. -/
example : ∃ ls, TextBegins ls sampleDoc ∧ ∀ ls' c', TextBegins ls' sampleDoc → ExactDoc sampleEnv ls' c' → ls = ls' ∧ sampleRead = c' := by
  obtain ⟨ls, h1, h2⟩ := (C95_exactly sampleEnv sampleDoc sampleRead).1 sampleRead_ok
  exact ⟨ls, h1, fun ls' c' h3 h4 => C95_one sampleEnv sampleDoc sampleRead c' ls ls' h1 h3 h2 h4⟩

/-- The sample with an alarm that opens a URI. -/
def uriCal : Cal := sect tabCalendar [(c!"VERSION", val1 0 (.text c!"2.0")), (c!"PRODID", val1 0 (.text c!"-//x"))]
  [[sect tabEvent [(c!"DTSTAMP", val1 0 (.dateTime ⟨63763119600, 0, .utc⟩)), (c!"UID", val1 0 (.text c!"1@example.com"))]
    [[.alarm (some (.uri, sect tabAlarmURI [(c!"URI", val1 0 (.uri ⟨c!"http://example.com"⟩))] []))]]], [], [], [], []]

theorem uriCal_expressible : ∀ x ∈ calProps uriCal, PropExpressible sampleEnv uriOk x.1 x.2 := by
  have : ∀ x ∈ calProps uriCal, propCheck x = true ∨ (x.1.spec.name = c!"URI" ∧ x.2 = val1 0 (.uri ⟨c!"http://example.com"⟩) ∧ (propParams x.1.spec x.2).isEmpty = true) := by decide +kernel
  intro x hx
  rcases this x hx with h | ⟨h1, h2, h3⟩
  · exact propCheck_ok h
  · obtain ⟨f, p⟩ := x
    simp only at h1 h2 h3
    subst h2
    have hv : ∀ v ∈ propVals (val1 0 (.uri ⟨c!"http://example.com"⟩)), v = .uri ⟨c!"http://example.com"⟩ := by simp [propVals, val1]
    refine ⟨(by rw [h1]; decide), ?_, fun v h => (by rw [hv v h]; exact (by decide : uriOk c!"http://example.com")), fun v h o e => (by rw [hv v h] at e; cases e),
      fun v h o e => (by rw [hv v h] at e; cases e), fun v h o e => (by rw [hv v h] at e; cases e), fun hm => by rw [h1] at hm; exact absurd hm (by decide)⟩
    intro y hy
    rw [List.isEmpty_iff.1 h3] at hy
    cases hy

example := C82_uri_alarm sampleEnv uriOk (fun _ h => h.2) uriCal (by decide +kernel) (by decide +kernel) uriCal_expressible (by decide +kernel) _ rfl

end Ics.Props
