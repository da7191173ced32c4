import Verif.SharedLemmas
import Verif.Props.Emit
import Verif.Props.Reading
/-!
# Property C108: calls have nothing to do with one another

`runCalls {} cs` are the answers of calls of `Encode` and `Decode` made one after the other, `Machine.schedule` is how calls proceed that are made at the same time.  Both have the arrays at
package level, which the caller's writers are handed.
-/

namespace Ics.Props

open Ics Spec

/-- In every sequence of calls, whatever the callers' readers and writers do to the octets they are given, each call comes to what it comes to alone.  This asks too much (below). -/
def C108_whatever : Prop := ∀ cs : List PackageCall, (∀ E w src c, .enc E w src c ∈ cs → Sits src ((c.said E).calls.map utf8)) → runCalls {} cs = cs.map alone

/-- C108.  The writers may even change what they are given, but none of the shared octets.  What they answer, and what the readers do, does not matter. -/
theorem C108_sequence (cs : List PackageCall) (h : ∀ c ∈ cs, Fair c) : runCalls {} cs = cs.map alone := runCalls_fair cs h

/-- C108.  Writers that keep to the contract of `io.Writer` are such. -/
theorem C108_lawful (w : FreeWriter) (h : Lawful w) : Spares w := fun log p _ => h log p

/-- C108.  A sequence of calls of `Decode` alone needs no hypothesis. -/
theorem C108_decodes (cs : List PackageCall) (h : ∀ c ∈ cs, ∃ E R fuel ks, c = .dec E R fuel ks) : runCalls {} cs = cs.map alone :=
  runCalls_fair cs fun c hc => by obtain ⟨E, R, fuel, ks, rfl⟩ := h c hc; exact trivial

theorem beginning (cs : List PackageCall) (h : ∀ c ∈ cs, Fair c) (is : List Nat) :
    (Machine.schedule (cs.map PackageCall.begin, {}) is).2 = {} ∧
      ∀ i c, cs[i]? = some c → ∃ r : Running, (Machine.schedule (cs.map PackageCall.begin, {}) is).1[i]? = some r ∧ r.Good (alone c) (steps c - is.count i) := by
  have := schedule_good cs is (cs.map PackageCall.begin, {}) (fun _ => 0) rfl
    (fun i c hc => ⟨c.begin, by simp [hc], PackageCall.begin_good (h c (List.mem_of_getElem? hc))⟩) (List.length_map _)
  refine ⟨this.1, fun i c hc => ?_⟩
  obtain ⟨r, hr, hg⟩ := this.2.2 i c hc
  exact ⟨r, hr, by rwa [Nat.zero_add] at hg⟩

/-- C108.  Also when the calls are made at the same time, in every order of their steps: when one is through, it came to what it comes to alone. -/
theorem C108_schedule (cs : List PackageCall) (h : ∀ c ∈ cs, Fair c) (is : List Nat) (i : Nat) (c : PackageCall) (hc : cs[i]? = some c) (a : Answer)
    (ha : (Machine.schedule (cs.map PackageCall.begin, {}) is).1[i]? = some (.through a)) : a = alone c := by
  obtain ⟨r, hr, hg⟩ := (beginning cs h is).2 i c hc
  rw [ha] at hr
  cases hr
  exact hg.symm

/-- C108.  And each is through when it had its steps, however many the others had: none waits for another one. -/
theorem C108_schedule_through (cs : List PackageCall) (h : ∀ c ∈ cs, Fair c) (is : List Nat) (i : Nat) (c : PackageCall) (hc : cs[i]? = some c)
    (hi : steps c ≤ is.count i) : (Machine.schedule (cs.map PackageCall.begin, {}) is).1[i]? = some (.through (alone c)) := by
  obtain ⟨r, hr, hg⟩ := (beginning cs h is).2 i c hc
  rw [Nat.sub_eq_zero_of_le hi] at hg
  cases r with
  | enc w src ends k f qs => exact absurd hg.2.2.1 (Nat.not_succ_le_zero _)
  | dec E R fuel u acc ks => exact absurd hg.1 (Nat.not_succ_le_zero _)
  | through b => rw [hr]; exact congrArg _ (congrArg _ hg.symm)

/-- C108.  The arrays are then as they were. -/
theorem C108_arrays (cs : List PackageCall) (h : ∀ c ∈ cs, Fair c) (is : List Nat) : (Machine.schedule (cs.map PackageCall.begin, {}) is).2 = {} := (beginning cs h is).1

/-! ## Where the contract is needed -/

/-- Accepts all and puts "x" for every octet it was given. -/
def smudger : FreeWriter := fun _ p => (p.length, none, p.map fun _ => 120)

/-- Accepts all and changes nothing. -/
def lawfulWriter : FreeWriter := fun _ p => (p.length, none, p)

/-- Changes "TRUE" only. -/
def trueSmudger : FreeWriter := fun _ p => (p.length, none, if p = [84, 82, 85, 69] then [120, 120, 120, 120] else p)

/-- The calls with "TRUE" are those of `Boolean.encode`. -/
def booleans (E : Env) (c : Cal) (k : Nat) : Source := if ((c.said E).calls.map utf8)[k]? = some [84, 82, 85, 69] then .yes else .own

theorem booleans_sit (E : Env) (c : Cal) : Sits (booleans E c) ((c.said E).calls.map utf8) := by
  intro k q hq
  unfold booleans
  rw [hq]
  split
  · next h => exact ⟨fun _ => Option.some.inj h, nofun⟩
  · exact ⟨nofun, nofun⟩

theorem own_sit (qs : List Bytes) : Sits (fun _ => .own) qs := fun _ _ _ => ⟨nofun, nofun⟩

/-- A document with a fold. -/
def foldedDoc : Bytes := utf8 c!"BEGIN:VCALENDAR\r\nVERSION:2.0\r\nPRODID:a\r\n b\r\nEND:VCALENDAR\r\n"

/-- Read with two buffers of 200 octets. -/
def readFolded : PackageCall := .dec sampleEnv (fullReader foldedDoc 0) 300 [200, 200]

/-- What the writer accepted. -/
def accepted : Answer → Option Bytes
  | .enc (.returned none f) => some f.out
  | _ => none

/-- Whether a calendar was read. -/
def wasRead : Answer → Option Bool
  | .dec (.done (.ok _)) => some true
  | .dec (.done _) => some false
  | _ => none

/-- C108.  A writer that changes the marker of a fold: from then on `Decode` does not find folds, and fails on a document it reads otherwise, -/
theorem C108_scribbled_decode : (runCalls {} [.enc sampleEnv smudger (fun _ => .own) longCal, readFolded]).map wasRead = [none, some false] ∧ wasRead (alone readFolded) = some true := by
  decide +kernel

/-- and `Encode` with another writer no longer folds. -/
theorem C108_scribbled_encode : ((runCalls {} [.enc sampleEnv smudger (fun _ => .own) longCal, .enc sampleEnv lawfulWriter (fun _ => .own) longCal]).map accepted) =
    [some (utf8 c!"BEGIN:VCALENDAR\r\nVERSION:2.0\r\nPRODID:" ++ List.replicate 68 97 ++ [13, 10, 32] ++ List.replicate 12 97 ++ utf8 c!"\r\nEND:VCALENDAR\r\n"),
      some (utf8 c!"BEGIN:VCALENDAR\r\nVERSION:2.0\r\nPRODID:" ++ List.replicate 68 97 ++ [120, 120, 120] ++ List.replicate 12 97 ++ utf8 c!"\r\nEND:VCALENDAR\r\n")] := by
  decide +kernel

/-- The octets that follow ";RSVP=". -/
def rsvpOf (p : Bytes) : Bytes := ((List.range p.length).filterMap fun i => if (p.drop i).take 6 = utf8 c!";RSVP=" then some ((p.drop (i + 6)).take 4) else none).flatten

/-- C108.  One that changes "TRUE": from then on `Encode` writes something else. -/
theorem C108_scribbled_true : (runCalls {} [.enc sampleEnv trueSmudger (booleans sampleEnv sampleCal) sampleCal, .enc sampleEnv lawfulWriter (booleans sampleEnv sampleCal) sampleCal]).map
    (fun a => (accepted a).map rsvpOf) = [some (utf8 c!"TRUE"), some (utf8 c!"xxxx")] := by decide +kernel

/-- C108.  So the contract is needed. -/
theorem C108_needs_the_contract : ¬ C108_whatever := by
  intro h
  have h1 := congrArg (List.map wasRead) (h [.enc sampleEnv smudger (fun _ => .own) longCal, readFolded] fun E w src c hc => by
    cases hc with
    | head => exact own_sit _
    | tail _ hc => cases hc with
      | tail _ hc => cases hc)
  rw [C108_scribbled_decode.1] at h1
  have h2 : wasRead (alone readFolded) = some false := (List.cons.inj (List.cons.inj h1).2).1.symm
  rw [C108_scribbled_decode.2] at h2
  cases h2

/-! ## Concrete cases -/

theorem lawfulWriter_lawful : Lawful lawfulWriter := fun _ _ => rfl

/-- Changes what it is given after it has used it, but not the shared octets. -/
def keeper : FreeWriter := fun _ p => (p.length, none, if p.length < 6 then p else p.map fun _ => 120)

theorem keeper_spares : Spares keeper := by
  intro log p h
  have hl : p.length < 6 := by
    rcases h with h | h | h | rfl
    · exact Nat.lt_of_le_of_lt h.length_le (by decide)
    · exact Nat.lt_of_le_of_lt h.length_le (by decide)
    · exact Nat.lt_of_le_of_lt h.length_le (by decide)
    · decide
  exact if_pos hl

/-- Two calls of `Encode` and one of `Decode`. -/
def threeCalls : List PackageCall :=
  [.enc sampleEnv keeper (booleans sampleEnv sampleCal) sampleCal, .enc sampleEnv lawfulWriter (fun _ => .own) longCal, readFolded]

theorem threeCalls_fair : ∀ c ∈ threeCalls, Fair c := by
  intro c hc
  cases hc with
  | head => exact ⟨keeper_spares, booleans_sit _ _⟩
  | tail _ hc => cases hc with
    | head => exact ⟨C108_lawful _ lawfulWriter_lawful, own_sit _⟩
    | tail _ hc => cases hc with
      | head => exact trivial
      | tail _ hc => cases hc

example : runCalls {} threeCalls = threeCalls.map alone := C108_sequence _ threeCalls_fair

example : runCalls {} [readFolded, readFolded] = [alone readFolded, alone readFolded] := C108_decodes _ fun c hc => ⟨_, _, _, _, by
  cases hc with
  | head => rfl
  | tail _ hc => cases hc with
    | head => rfl
    | tail _ hc => cases hc⟩

/-- `Decode` takes its three steps between steps of the others. -/
example : (Machine.schedule (threeCalls.map PackageCall.begin, {}) [0, 2, 1, 1, 0, 2, 0, 1, 2, 0]).1[2]? = some (.through (alone readFolded)) :=
  C108_schedule_through _ threeCalls_fair _ 2 readFolded rfl (by decide)

example : (Machine.schedule (threeCalls.map PackageCall.begin, {}) [0, 2, 1, 1, 0, 2, 0, 1, 2, 0]).2 = {} := C108_arrays _ threeCalls_fair _

example : alone readFolded = alone readFolded := C108_schedule _ threeCalls_fair [0, 2, 1, 1, 0, 2, 0, 1, 2, 0] 2 readFolded rfl _
  (C108_schedule_through _ threeCalls_fair _ 2 readFolded rfl (by decide))

end Ics.Props
