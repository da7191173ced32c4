import Verif.EmitLemmas
import Verif.Spec.Machines
/-!
# How many calls of the folder's `Write` and `WriteString` are given something

Lemmas for C118.
-/

namespace Ics

open Spec

/-- The calls that are given something. -/
def given (l : List Str) : Nat := (l.filter (· ≠ [])).length

theorem given_append (a b : List Str) : given (a ++ b) = given a + given b := by
  unfold given
  rw [List.filter_append, List.length_append]

theorem given_one {s : Str} (h : s ≠ []) : given [s] = 1 := by
  unfold given
  rw [List.filter_cons_of_pos (by simpa using h)]
  rfl

theorem Said.andThen_ends {a b : Said} (h : (a.andThen b).ends = true) : a.ends = true ∧ b.ends = true ∧ given (a.andThen b).calls = given a.calls + given b.calls := by
  unfold Said.andThen at h ⊢
  split at h
  · rename_i ha
    rw [if_pos ha]
    exact ⟨ha, h, given_append _ _⟩
  · rename_i ha
    exact absurd h ha

theorem Said.seq_ends : ∀ (xs : List Said), (Said.seq xs).ends = true → (∀ x ∈ xs, x.ends = true) ∧ given (Said.seq xs).calls = (xs.map fun x => given x.calls).sum
  | [], _ => ⟨nofun, rfl⟩
  | x :: xs, h => by
    obtain ⟨h1, h2, h3⟩ := Said.andThen_ends h
    obtain ⟨h4, h5⟩ := Said.seq_ends xs h2
    refine ⟨by simpa using ⟨h1, h4⟩, ?_⟩
    rw [Said.seq, h3, h5]
    rfl

theorem crlf_given : given [crlf] = 1 := rfl

theorem PSpec.said_given {E : Env} {sp : PSpec} {v : PropVal} (hn : sp.name ≠ []) (ht : sp.typed v = true) (h : (sp.said E v).ends = true) : 2 ≤ given (sp.said E v).calls := by
  unfold PSpec.typed at ht
  unfold PSpec.said at h ⊢
  split at ht
  · simp only [*, Said.of]
    rw [given_append, given_append, crlf_given, given_one (by simp)]
    omega
  · simp only [*] at h ⊢
    obtain ⟨_, h2, h3⟩ := Said.andThen_ends h
    obtain ⟨_, _, h4⟩ := Said.andThen_ends h2
    rw [h3, h4]
    simp only [Said.of]
    rw [given_append, crlf_given, given_one hn]
    omega
  · cases ht

theorem sum_ge {α : Type} {k g : α → Nat} : ∀ (l : List α), (∀ x ∈ l, k x ≤ g x) → (l.map k).sum ≤ (l.map g).sum
  | [], _ => Nat.le_refl _
  | x :: l, h => by
    have h1 := h x (List.mem_cons_self ..)
    have h2 := sum_ge l fun y hy => h y (List.mem_cons_of_mem _ hy)
    simp only [List.map_cons, List.sum_cons]
    omega

theorem sum_twice {α : Type} : ∀ l : List α, (l.map fun _ => 2).sum = 2 * l.length
  | [] => rfl
  | _ :: l => by
    simp only [List.map_cons, List.sum_cons, List.length_cons, sum_twice l]
    omega

theorem saidFields_given {E : Env} : ∀ (fs : List SField) (vs : List (List PropVal)), (∀ f ∈ fs, f.spec.name ≠ []) → typedFields fs vs = true →
    (∀ x ∈ saidFields E fs vs, x.ends = true) → 2 * vs.flatten.length ≤ ((saidFields E fs vs).map fun x => given x.calls).sum
  | [], [], _, _, _ => Nat.zero_le _
  | [], _ :: _, _, h, _ => by simp [typedFields] at h
  | _ :: _, [], _, h, _ => by simp [typedFields] at h
  | f :: fs, v :: vs, hn, ht, he => by
    rw [typedFields, Bool.and_eq_true, Bool.and_eq_true] at ht
    have h1 := saidFields_given (E := E) fs vs (fun f hf => hn f (List.mem_cons_of_mem _ hf)) ht.2 fun x hx => he x (List.mem_append_right _ hx)
    have h2 := sum_ge (k := fun _ => 2) (g := fun p => given (f.spec.said E p).calls) v fun p hp =>
      PSpec.said_given (hn f (List.mem_cons_self ..)) (List.all_eq_true.1 ht.1.1 p hp) (he _ (List.mem_append_left _ (List.mem_map_of_mem hp)))
    rw [sum_twice] at h2
    rw [saidFields, List.map_append, List.sum_append, List.map_map, List.flatten_cons, List.length_append]
    simp only [Function.comp_def]
    omega

theorem saidSubs_given {κ σ : Type} {enc : κ → σ → Said} {typ : κ → σ → Bool} {k : σ → Nat} : ∀ (ks : List (Str × κ)) (vs : List (List σ)),
    (∀ x ∈ ks, ∀ s, typ x.2 s = true → (enc x.2 s).ends = true → k s ≤ given (enc x.2 s).calls) → typedSubs typ ks vs = true →
    (∀ x ∈ saidSubs enc ks vs, x.ends = true) → (vs.flatten.map k).sum ≤ ((saidSubs enc ks vs).map fun x => given x.calls).sum
  | [], [], _, _, _ => Nat.zero_le _
  | [], _ :: _, _, h, _ => by simp [typedSubs] at h
  | _ :: _, [], _, h, _ => by simp [typedSubs] at h
  | (n, y) :: ks, v :: vs, hk, ht, he => by
    rw [typedSubs, Bool.and_eq_true] at ht
    have h1 := saidSubs_given ks vs (fun x hx => hk x (List.mem_cons_of_mem _ hx)) ht.2 fun x hx => he x (List.mem_append_right _ hx)
    have h2 := sum_ge (k := k) (g := fun s => given (enc y s).calls) v fun s hs =>
      hk _ (List.mem_cons_self ..) s (List.all_eq_true.1 ht.1 s hs) (he _ (List.mem_append_left _ (List.mem_map_of_mem hs)))
    rw [saidSubs, List.map_append, List.sum_append, List.map_map, List.flatten_cons, List.map_append, List.sum_append]
    simp only [Function.comp_def]
    omega

/-- A body: two for each property, and what the subsections give. -/
theorem Tab.saidBody_given {κ σ : Type} {E : Env} {T : Tab κ} {enc : κ → σ → Said} {typ : κ → σ → Bool} {k : σ → Nat} {s : Sect σ} (hn : ∀ f ∈ T.fields, f.spec.name ≠ [])
    (hk : ∀ x ∈ T.subs, ∀ s, typ x.2 s = true → (enc x.2 s).ends = true → k s ≤ given (enc x.2 s).calls) (ht : T.typed typ s = true)
    (he : ∀ x ∈ T.saidBody E enc s, x.ends = true) :
    2 * s.fields.flatten.length + (s.subs.flatten.map k).sum ≤ ((T.saidBody E enc s).map fun x => given x.calls).sum := by
  unfold Tab.typed at ht
  rw [Bool.and_eq_true] at ht
  unfold Tab.saidBody at he ⊢
  have h1 := saidFields_given (E := E) T.fields s.fields hn ht.1 fun x hx => he x (List.mem_append_left _ hx)
  have h2 := saidSubs_given T.subs s.subs hk ht.2 fun x hx => he x (List.mem_append_right _ hx)
  rw [List.map_append, List.sum_append]
  omega

theorem lineOf_given (a b : Str) : given [lineOf a b] = 1 := given_one (by simp [lineOf])

/-- A section: two more for its first and last line. -/
theorem Tab.said_given {κ σ : Type} {E : Env} {T : Tab κ} {enc : κ → σ → Said} {typ : κ → σ → Bool} {k : σ → Nat} {s : Sect σ} (hn : ∀ f ∈ T.fields, f.spec.name ≠ [])
    (hk : ∀ x ∈ T.subs, ∀ s, typ x.2 s = true → (enc x.2 s).ends = true → k s ≤ given (enc x.2 s).calls) (ht : T.typed typ s = true)
    (he : (T.said E enc s).ends = true) : 2 + 2 * s.fields.flatten.length + (s.subs.flatten.map k).sum ≤ given (T.said E enc s).calls := by
  unfold Tab.said at he ⊢
  obtain ⟨h1, h2⟩ := Said.seq_ends _ he
  have h3 := Tab.saidBody_given (E := E) hn hk ht fun x hx => h1 x (by simp [hx])
  rw [h2, List.map_append, List.map_append, List.sum_append, List.sum_append]
  simp only [List.map_cons, List.map_nil, List.sum_cons, List.sum_nil, Said.of, lineOf_given]
  omega

/-- What a subsection gives: two for each property and for its first and last line, one more for an alarm. -/
def subGives : Sub → Nat
  | .leaf s => 2 + 2 * s.fields.flatten.length
  | .alarm (some (_, s)) => 3 + 2 * s.fields.flatten.length
  | .alarm none => 0

/-- Its properties. -/
def subProps : Sub → List PropVal
  | .leaf s => s.fields.flatten
  | .alarm (some (_, s)) => s.fields.flatten
  | .alarm none => []

/-- What a component gives. -/
def partGives (s : Sect Sub) : Nat := 2 + 2 * s.fields.flatten.length + (s.subs.flatten.map subGives).sum

/-- The properties of these subsections have names. -/
def SubKind.Named : SubKind → Prop
  | .leaf T => ∀ f ∈ T.fields, f.spec.name ≠ []
  | .alarm => True

theorem alarms_named (k : AKind) : ∀ f ∈ k.tab.fields, f.spec.name ≠ [] := by cases k <;> decide

theorem empty_sum (l : List Empty) (k : Empty → Nat) : (l.map k).sum = 0 := by
  cases l with
  | nil => rfl
  | cons x _ => cases x

theorem subSaid_given {E : Env} {x : SubKind} {s : Sub} (hx : x.Named) (ht : subTyped x s = true) (he : (subSaid E x s).ends = true) : subGives s ≤ given (subSaid E x s).calls := by
  unfold subTyped at ht
  split at ht
  · exact Nat.zero_le _
  · rename_i k s
    have he : (alarmSaid E (some (k, s))).ends = true := he
    show subGives _ ≤ given (alarmSaid E (some (k, s))).calls
    simp only [alarmSaid] at he ⊢
    obtain ⟨h1, h2⟩ := Said.seq_ends _ he
    have h3 := Tab.saidBody_given (E := E) (enc := noSaid) (k := fun _ => 0) (alarms_named k) (fun x _ => nomatch x.2) ht fun x hx => h1 x (by simp [hx])
    rw [h2, List.map_append, List.map_append, List.sum_append, List.sum_append]
    simp only [List.map_cons, List.map_nil, List.sum_cons, List.sum_nil, Said.of, lineOf_given, subGives]
    omega
  · rename_i T s
    have h := Tab.said_given (E := E) (k := fun _ => 0) hx (fun x _ => nomatch x.2) ht he
    rw [empty_sum] at h
    exact h
  · cases ht

theorem calendar_named : ∀ f ∈ tabCalendar.fields, f.spec.name ≠ [] := by decide

theorem parts_named : ∀ x ∈ tabCalendar.subs, ∀ f ∈ x.2.fields, f.spec.name ≠ [] := by decide

theorem subs_named : ∀ x ∈ tabCalendar.subs, ∀ y ∈ x.2.subs, y.2.Named := by
  have h : (tabCalendar.subs.all fun x => x.2.subs.all fun y => match y.2 with
      | .leaf T => T.fields.all fun f => decide (f.spec.name ≠ [])
      | .alarm => true) = true := by decide +kernel
  intro x hx y hy
  have h1 := List.all_eq_true.1 (List.all_eq_true.1 h x hx) y hy
  unfold SubKind.Named
  split
  · rename_i T hT
    rw [hT] at h1
    simpa using h1
  · trivial

theorem Cal.said_given {E : Env} {c : Cal} (ht : c.typed = true) (he : (c.said E).ends = true) :
    2 + 2 * c.fields.flatten.length + (c.subs.flatten.map partGives).sum ≤ given (c.said E).calls :=
  Tab.said_given calendar_named (fun x hx _ ht he => Tab.said_given (parts_named x hx) (fun y hy _ => subSaid_given (subs_named x hx y hy)) ht he) ht he

/-- Of all that, the properties. -/
theorem gives_props (c : Cal) : 2 * (everyProp c).length + 2 + 2 * c.subs.flatten.length ≤ 2 + 2 * c.fields.flatten.length + (c.subs.flatten.map partGives).sum := by
  unfold everyProp
  rw [List.length_append]
  have h1 : ∀ l : List Sub, 2 * (l.flatMap subProps).length ≤ (l.map subGives).sum := by
    intro l
    induction l with
    | nil => exact Nat.zero_le _
    | cons x l ih =>
      rw [List.flatMap_cons, List.length_append, List.map_cons, List.sum_cons]
      have : 2 * (subProps x).length ≤ subGives x := by
        unfold subProps subGives
        split <;> simp <;> omega
      omega
  have h2 : ∀ l : List (Sect Sub), 2 * (l.flatMap fun x => x.fields.flatten ++ x.subs.flatten.flatMap subProps).length + 2 * l.length ≤ (l.map partGives).sum := by
    intro l
    induction l with
    | nil => exact Nat.zero_le _
    | cons x l ih =>
      rw [List.flatMap_cons, List.length_append, List.length_append, List.map_cons, List.sum_cons, List.length_cons]
      have := h1 x.subs.flatten
      unfold partGives at ih ⊢
      omega
  have := h2 c.subs.flatten
  have h3 : (c.subs.flatten.flatMap fun x => x.fields.flatten ++ x.subs.flatten.flatMap subProps) = (everyProp c).drop c.fields.flatten.length := by
    unfold everyProp
    rw [List.drop_left]
    rfl
  rw [h3] at this
  unfold everyProp at this
  rw [List.drop_left] at this
  omega

end Ics
