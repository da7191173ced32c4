import Verif.Unused
import Verif.Spec.Enums
import Verif.PropertyLemmas
import Verif.StructureLemmas
import Verif.Props.Time
/-!
# Theorems about enumerations: C68
-/

namespace Ics.Props

open Spec

/-- All enumerated properties of the package. -/
def enumProps : List (PSpec × List Str) := [propClass, propStatus, propTimeTransparency, propAlarmStatus, propAction, propCalendarScale].filterMap fun p =>
  match p.shape with
  | .enum names => some (p, names)
  | .fields _ _ => none

/-- All enumerated parameters of the package that have an unknown value. -/
def enumParams : List (PDef × List Str) := [paramCalendarUserType, paramParticipationRole, paramParticipationStatus, paramRelationshipType, paramFreeBusyType,
    paramValue].filterMap fun p =>
  match p.kind with
  | .enum names => some (p, names)
  | _ => none

/-- And those without. -/
def closedParams : List ClosedEnum := [paramEncoding, paramRelated]

/-- C68.  The names known for each enumeration are those of RFC 5545, each with one meaning.  (The STATUS of alarms is not from that RFC.) -/
theorem C68_rfc_names : (∀ n ∈ rfcPropNames, ∃ p ∈ enumProps, p.1.name = n.1 ∧ SameNames p.2 n.2) ∧
    (∀ n ∈ rfcParamNames, (∃ p ∈ enumParams, p.1.name = n.1 ∧ SameNames p.2 n.2) ∨ ∃ p ∈ closedParams, p.name = n.1 ∧ SameNames p.names n.2) := by
  decide +kernel

theorem enumProps_names : ∀ p ∈ enumProps, p.1.shape = .enum p.2 ∧ p.2.Nodup := by decide +kernel
theorem enumParams_names : ∀ p ∈ enumParams, p.1.kind = .enum p.2 ∧ p.2.Nodup ∧ c!"UNKNOWN" ∉ p.2 ∧ (∀ n ∈ p.2, upper n = n) := by decide +kernel
theorem closedParams_names : ∀ p ∈ closedParams, p.names.Nodup ∧ (∀ n ∈ p.names, upper n = n) := by decide +kernel

theorem indexOf_iff {n : Str} : ∀ {l : List Str} {i : Nat}, l.Nodup → (indexOf n l = some i ↔ l[i]? = some n) := by
  intro l
  induction l with
  | nil => intro i _; simp [indexOf]
  | cons a l ih =>
    intro i h
    obtain ⟨h1, h2⟩ := List.nodup_cons.1 h
    rw [indexOf]
    split
    · next e =>
      subst e
      cases i with
      | zero => simp
      | succ i =>
        simp only [Option.some.injEq, List.getElem?_cons_succ]
        refine ⟨fun h => by omega, fun h => absurd (List.mem_of_getElem? h) h1⟩
    · next e =>
      cases i with
      | zero => simp only [Option.map_eq_some_iff, List.getElem?_cons_zero, Option.some.injEq]
                exact ⟨fun ⟨_, _, h⟩ => by omega, fun h => absurd h.symm e⟩
      | succ i =>
        simp only [Option.map_eq_some_iff, List.getElem?_cons_succ]
        constructor
        · rintro ⟨j, h3, h4⟩
          obtain rfl : j = i := by omega
          exact (ih h2).1 h3
        · intro h3
          exact ⟨i, (ih h2).2 h3, rfl⟩

/-- C68, properties: exactly the numbers that have a name are valid; each is written as its name; a text is read as a number if and only if it is its name,
in any case, and anything else is an error. -/
theorem C68_properties (E : Env) (p : PSpec × List Str) (hp : p ∈ enumProps) (n : Nat) :
    (p.1.valid (.enum n) = .ok () ↔ ∃ x, p.2[n]? = some x) ∧
    (∀ x, p.2[n]? = some x → p.1.encode E (.enum n) = some (p.1.name ++ c!":" ++ x ++ c!"\r\n")) ∧
    (∀ ps t, p.1.decode E ps t = .ok (.enum n) ↔ p.2[n]? = some (upper t)) ∧
    (∀ ps t, upper t ∉ p.2 → p.1.decode E ps t = .err .invalidValue) := by
  obtain ⟨h1, h2⟩ := enumProps_names p hp
  refine ⟨?_, fun x hx => ?_, fun ps t => ?_, fun ps t ht => ?_⟩
  · unfold PSpec.valid
    rw [h1]
    simp only [Res.guard]
    constructor
    · intro h
      by_cases hn : n < p.2.length
      · exact ⟨_, List.getElem?_eq_getElem hn⟩
      · simp [hn] at h
    · rintro ⟨x, hx⟩
      have := (List.getElem?_eq_some_iff.1 hx).1
      simp [this]
  · unfold PSpec.encode
    rw [h1]
    simp only [List.getD_eq_getElem?_getD, hx, Option.getD_some, crlf, List.append_assoc, List.cons_append, List.nil_append]
  · unfold PSpec.decode
    rw [h1, ← indexOf_iff h2]
    dsimp only
    cases indexOf (upper t) p.2 <;> simp
  · unfold PSpec.decode
    rw [h1]
    simp only [indexOf_none.2 ht]

/-- C68, parameters: `some` of the names is written and read as its number plus one; everything else, UNKNOWN among it, is read as zero, and zero is written as
UNKNOWN.  All numbers are valid. -/
theorem C68_parameters (E : Env) (p : PDef × List Str) (hp : p ∈ enumParams) (n : Nat) :
    p.1.kind.valid (.enum n) = .ok () ∧
    (∀ x, p.2[n]? = some x → p.1.kind.encode E p.1.name (.enum (n + 1)) = some (c!";" ++ p.1.name ++ c!"=" ++ x)) ∧
    (∀ q t, p.1.kind.decode E [⟨q, t⟩] = .ok (.enum (n + 1)) ↔ p.2[n]? = some (upper t)) ∧
    p.1.kind.encode E p.1.name (.enum 0) = some (c!";" ++ p.1.name ++ c!"=UNKNOWN") ∧
    (∀ q t, p.1.kind.decode E [⟨q, t⟩] = .ok (.enum 0) ↔ upper t ∉ p.2) ∧ (∀ q, p.1.kind.decode E [⟨q, c!"UNKNOWN"⟩] = .ok (.enum 0)) := by
  obtain ⟨h1, h2, h3, h4⟩ := enumParams_names p hp
  rw [h1]
  have hz : ∀ q t, PKind.decode E (.enum p.2) [⟨q, t⟩] = .ok (.enum 0) ↔ upper t ∉ p.2 := by
    intro q t
    rw [← indexOf_none]
    simp only [PKind.decode, oneVal, Res.ok_bind]
    cases indexOf (upper t) p.2 <;> simp [pure]
  refine ⟨rfl, fun x hx => ?_, fun q t => ?_, ?_, hz, fun q => (hz q _).2 ?_⟩
  · simp only [PKind.encode, Nat.add_sub_cancel, List.getD_eq_getElem?_getD, hx, Option.getD_some]
    simp
  · rw [← indexOf_iff h2]
    simp only [PKind.decode, oneVal, Res.ok_bind]
    cases indexOf (upper t) p.2 <;> simp [pure]
  · simp [PKind.encode]
  · exact h3

/-- Numbers beyond the names are valid, are written as UNKNOWN, and so come back as zero. -/
theorem C68_other_numbers (E : Env) (p : PDef × List Str) (hp : p ∈ enumParams) (n : Nat) (hn : p.2.length ≤ n) :
    p.1.kind.valid (.enum (n + 1)) = .ok () ∧ p.1.kind.encode E p.1.name (.enum (n + 1)) = some (c!";" ++ p.1.name ++ c!"=UNKNOWN") := by
  obtain ⟨h1, _⟩ := enumParams_names p hp
  rw [h1]
  refine ⟨rfl, ?_⟩
  simp [PKind.encode, hn]

/-- C68, the parameters without an unknown value. -/
theorem C68_closed_parameters (p : ClosedEnum) (hp : p ∈ closedParams) (n : Nat) :
    (p.valid n = .ok () ↔ ∃ x, p.names[n]? = some x) ∧ (∀ x, p.names[n]? = some x → p.encode n = c!";" ++ p.name ++ c!"=" ++ x) ∧
    (∀ q t, p.decode [⟨q, t⟩] = .ok n ↔ p.names[n]? = some (upper t)) ∧ (∀ q t, upper t ∉ p.names → p.decode [⟨q, t⟩] = .err .invalidParam) ∧
    (p.valid n ≠ .ok () → p.encode n = c!";" ++ p.name ++ c!"=") := by
  obtain ⟨h2, h4⟩ := closedParams_names p hp
  refine ⟨?_, fun x hx => ?_, fun q t => ?_, fun q t ht => ?_, fun hn => ?_⟩
  · simp only [ClosedEnum.valid, Res.guard]
    constructor
    · intro h
      by_cases hn : n < p.names.length
      · exact ⟨_, List.getElem?_eq_getElem hn⟩
      · simp [hn] at h
    · rintro ⟨x, hx⟩
      have := (List.getElem?_eq_some_iff.1 hx).1
      simp [this]
  · simp only [ClosedEnum.encode, List.getD_eq_getElem?_getD, hx, Option.getD_some]
    simp
  · rw [← indexOf_iff h2]
    simp only [ClosedEnum.decode, oneVal, Res.ok_bind]
    cases indexOf (upper t) p.names <;> simp [Res.ofOption]
  · simp only [ClosedEnum.decode, oneVal, Res.ok_bind, indexOf_none.2 ht, Res.ofOption]
  · have : ¬ n < p.names.length := fun h => hn (by simp [ClosedEnum.valid, Res.guard, h])
    simp [ClosedEnum.encode, List.getD_eq_getElem?_getD, List.getElem?_eq_none (Nat.le_of_not_lt this)]

theorem upperC_iff (c d : Char) (hd : d.toNat < 128 ∧ ¬ (97 ≤ d.toNat ∧ d.toNat ≤ 122)) : upperC c = d ↔ StandsFor c d := by
  have hch : ∀ a b : Char, a = b ↔ a.toNat = b.toNat := fun a b => ⟨fun h => h ▸ rfl, Char.toNat_inj.1⟩
  have hi : ('ı' : Char).toNat = 305 := by decide
  have hs : ('ſ' : Char).toNat = 383 := by decide
  unfold upperC StandsFor
  have hle : ('a' ≤ c ∧ c ≤ 'z') ↔ (97 ≤ c.toNat ∧ c.toNat ≤ 122) := Iff.rfl
  split
  · next h =>
    rw [hle] at h
    have : (Char.ofNat (c.toNat - 32)).toNat = c.toNat - 32 := by
      have hv : (c.toNat - 32).isValidChar := by left; omega
      simp only [Char.ofNat, dif_pos hv]
      rfl
    rw [hch, this]
    constructor
    · intro h1; exact .inr (.inl ⟨by omega, by omega, by omega⟩)
    · rintro (rfl | h1 | ⟨_, rfl⟩ | ⟨_, rfl⟩)
      · omega
      · omega
      · rw [hi] at h; omega
      · rw [hs] at h; omega
  · next h =>
    rw [hle] at h
    split
    · next h1 =>
      subst h1
      constructor
      · rintro rfl; exact .inr (.inr (.inl ⟨rfl, rfl⟩))
      · rintro (rfl | h1 | ⟨rfl, _⟩ | ⟨_, h1⟩)
        · rw [hi] at hd; omega
        · rw [hi] at h1; omega
        · rfl
        · cases h1
    · next h1 =>
      split
      · next h2 =>
        subst h2
        constructor
        · rintro rfl; exact .inr (.inr (.inr ⟨rfl, rfl⟩))
        · rintro (rfl | h2 | ⟨_, h2⟩ | ⟨rfl, _⟩)
          · rw [hs] at hd; omega
          · rw [hs] at h2; omega
          · cases h2
          · rfl
      · next h2 =>
        split
        · next h3 =>
          constructor
          · exact .inl
          · rintro (h4 | h4 | ⟨_, h4⟩ | ⟨_, h4⟩)
            · exact h4
            · omega
            · exact absurd h4 h1
            · exact absurd h4 h2
        · next h3 =>
          have ht := (upperTable.2 c (by omega) (by rintro (h4 | h4); exact h1 h4; exact h2 h4)).1
          constructor
          · rintro rfl; omega
          · rintro (rfl | h4 | ⟨_, h4⟩ | ⟨_, h4⟩)
            · omega
            · omega
            · exact absurd h4 h1
            · exact absurd h4 h2

/-- C43, C68.  A text is read as a name, whatever its case, exactly if it is one of these spellings: besides capital and small letters two others are taken for I and S. -/
theorem C43_spelling (s t : Str) (ht : Capitals t) : upper s = t ↔ Spells s t := by
  unfold upper
  induction s generalizing t with
  | nil =>
    constructor
    · rintro rfl; exact .nil
    · intro h; cases h; rfl
  | cons c s ih =>
    cases t with
    | nil =>
      constructor
      · intro h; cases h
      · intro h; cases h
    | cons d t =>
      have h1 := upperC_iff c d (ht d (by simp))
      have h2 := ih t (fun x hx => ht x (by simp [hx]))
      rw [List.map_cons, List.cons.injEq, h1, h2]
      constructor
      · rintro ⟨a, b⟩; exact .cons a b
      · intro h; cases h with | cons a b => exact ⟨a, b⟩

theorem capital_names : (∀ p ∈ enumProps, ∀ x ∈ p.2, ∀ c ∈ x, c.toNat < 128 ∧ ¬ (97 ≤ c.toNat ∧ c.toNat ≤ 122)) ∧
    (∀ p ∈ enumParams, ∀ x ∈ p.2, ∀ c ∈ x, c.toNat < 128 ∧ ¬ (97 ≤ c.toNat ∧ c.toNat ≤ 122)) ∧
    (∀ p ∈ closedParams, ∀ x ∈ p.names, ∀ c ∈ x, c.toNat < 128 ∧ ¬ (97 ≤ c.toNat ∧ c.toNat ≤ 122)) := by decide +kernel

theorem spelled_iff {l : List Str} (hl : ∀ x ∈ l, Capitals x) (n : Nat) (t : Str) : l[n]? = some (upper t) ↔ ∃ x, l[n]? = some x ∧ Spells t x := by
  constructor
  · intro h
    exact ⟨_, h, (C43_spelling t _ (hl _ (List.mem_of_getElem? h))).1 rfl⟩
  · rintro ⟨x, h, hx⟩
    rw [h, (C43_spelling t x (hl x (List.mem_of_getElem? h))).2 hx]

/-- C68.  Which texts are read as which value, letter by letter. -/
theorem C68_spelling (E : Env) (n : Nat) :
    (∀ p ∈ enumProps, ∀ ps t, p.1.decode E ps t = .ok (.enum n) ↔ ∃ x, p.2[n]? = some x ∧ Spells t x) ∧
    (∀ p ∈ enumParams, ∀ q t, p.1.kind.decode E [⟨q, t⟩] = .ok (.enum (n + 1)) ↔ ∃ x, p.2[n]? = some x ∧ Spells t x) ∧
    (∀ p ∈ closedParams, ∀ q t, p.decode [⟨q, t⟩] = .ok n ↔ ∃ x, p.names[n]? = some x ∧ Spells t x) := by
  obtain ⟨h1, h2, h3⟩ := capital_names
  refine ⟨fun p hp ps t => ?_, fun p hp q t => ?_, fun p hp q t => ?_⟩
  · rw [(C68_properties E p hp n).2.2.1 ps t]; exact spelled_iff (h1 p hp) n t
  · rw [(C68_parameters E p hp n).2.2.1 q t]; exact spelled_iff (h2 p hp) n t
  · rw [(C68_closed_parameters p hp n).2.2.1 q t]; exact spelled_iff (h3 p hp) n t

/-- A long ſ. -/
example : propTimeTransparency.decode sampleEnv [] c!"tranſparent" = .ok (.enum 1) ∧ Spells c!"tranſparent" c!"TRANSPARENT" := by
  refine ⟨by decide +kernel, (C43_spelling _ _ (by unfold Capitals; decide)).1 (by decide +kernel)⟩

/-- Names in any case, and what is written for them. -/
example : propStatus.decode sampleEnv [] c!"Needs-Action" = .ok (.enum 3) ∧ propStatus.encode sampleEnv (.enum 3) = some c!"STATUS:NEEDS-ACTION\r\n" ∧
    paramParticipationStatus.kind.decode sampleEnv [⟨false, c!"x-new"⟩] = .ok (.enum 0) ∧ paramRelated.decode [⟨false, c!"end"⟩] = .ok 1 := by decide +kernel

end Ics.Props
