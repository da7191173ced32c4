import Verif.Spec.Pointers
import Verif.RefusedLemmas
/-!
# Lemmas: nil pointers given to Encode
-/

namespace Ics

open Spec

theorem checks_congr {α β : Type} {f : α → Res Unit} {g : β → Res Unit} {h : α → β} {l : List α} (hc : ∀ x ∈ l, f x = g (h x)) : checks f l = checks g (l.map h) := by
  rw [checks_inTurn, checks_inTurn, List.map_map, List.map_congr_left hc]
  rfl

theorem validSubs_congr {κ σ τ : Type} {f : κ → σ → Res Unit} {g : κ → τ → Res Unit} {h : σ → τ} : ∀ (ks : List (Str × κ)) (vs : List (List σ)),
    (∀ l ∈ vs, ∀ x ∈ l, ∀ k, f k x = g k (h x)) → validSubs f ks vs = validSubs g ks (vs.map fun l => l.map h) := by
  intro ks
  induction ks with
  | nil => intro vs _; simp [validSubs]
  | cons k ks ih =>
    intro vs hc
    cases vs with
    | nil => simp [validSubs]
    | cons v vs =>
      obtain ⟨n, k⟩ := k
      rw [List.map_cons, validSubs, validSubs, ih vs fun l hl => hc l (by simp [hl]), checks_congr fun x hx => hc v (by simp) x hx k]

theorem encSubs_congr {κ σ τ : Type} {f : κ → σ → Option Str} {g : κ → τ → Option Str} {h : σ → τ} : ∀ (ks : List (Str × κ)) (vs : List (List σ)),
    (∀ l ∈ vs, ∀ x ∈ l, ∀ k, f k x = g k (h x)) → encSubs f ks vs = encSubs g ks (vs.map fun l => l.map h) := by
  intro ks
  induction ks with
  | nil => intro vs _; simp [encSubs]
  | cons k ks ih =>
    intro vs hc
    cases vs with
    | nil => simp [encSubs]
    | cons v vs =>
      obtain ⟨n, k⟩ := k
      rw [List.map_cons, encSubs, encSubs, ih vs fun l hl => hc l (by simp [hl]), List.map_map, List.map_congr_left fun x hx => hc v (by simp) x hx k]
      rfl

theorem tab_valid_congr {κ σ τ : Type} {f : κ → σ → Res Unit} {g : κ → τ → Res Unit} {h : σ → τ} (T : Tab κ) (s : Sect σ)
    (hc : ∀ l ∈ s.subs, ∀ x ∈ l, ∀ k, f k x = g k (h x)) : T.valid f s = T.valid g ⟨s.fields, s.subs.map fun l => l.map h⟩ := by
  unfold Tab.valid
  rw [validSubs_congr T.subs s.subs hc]

theorem tab_encode_congr {κ σ τ : Type} (E : Env) {f : κ → σ → Option Str} {g : κ → τ → Option Str} {h : σ → τ} (T : Tab κ) (s : Sect σ)
    (hc : ∀ l ∈ s.subs, ∀ x ∈ l, ∀ k, f k x = g k (h x)) : T.encode E f s = T.encode E g ⟨s.fields, s.subs.map fun l => l.map h⟩ := by
  unfold Tab.encode Tab.body
  rw [encSubs_congr T.subs s.subs hc]

theorem typedSubs_congr {κ σ τ : Type} {f : κ → σ → Bool} {g : κ → τ → Bool} {h : σ → τ} : ∀ (ks : List (Str × κ)) (vs : List (List σ)),
    (∀ l ∈ vs, ∀ x ∈ l, ∀ k, f k x = g k (h x)) → typedSubs f ks vs = typedSubs g ks (vs.map fun l => l.map h) := by
  intro ks
  induction ks with
  | nil => intro vs _; cases vs <;> simp [typedSubs]
  | cons k ks ih =>
    intro vs hc
    cases vs with
    | nil => simp [typedSubs]
    | cons v vs =>
      obtain ⟨n, k⟩ := k
      rw [List.map_cons, typedSubs, typedSubs, ih vs fun l hl => hc l (by simp [hl]), List.all_map]
      congr 1
      rw [Bool.eq_iff_iff, List.all_eq_true, List.all_eq_true]
      exact ⟨fun h1 x hx => (hc v (by simp) x hx k).symm.trans (h1 x hx), fun h1 x hx => (hc v (by simp) x hx k).trans (h1 x hx)⟩

theorem tab_typed_congr {κ σ τ : Type} {f : κ → σ → Bool} {g : κ → τ → Bool} {h : σ → τ} (T : Tab κ) (s : Sect σ)
    (hc : ∀ l ∈ s.subs, ∀ x ∈ l, ∀ k, f k x = g k (h x)) : T.typed f s = T.typed g ⟨s.fields, s.subs.map fun l => l.map h⟩ := by
  unfold Tab.typed
  rw [typedSubs_congr T.subs s.subs hc]

theorem mem_parts {c : CalP} {l : List CompP} {s : CompP} {m : List PartP} {x : PartP} (h1 : l ∈ c.subs) (h2 : s ∈ l) (h3 : m ∈ s.subs) (h4 : x ∈ m) : x ∈ c.parts :=
  List.mem_flatMap.2 ⟨l, h1, List.mem_flatMap.2 ⟨s, h2, List.mem_flatMap.2 ⟨m, h3, h4⟩⟩⟩

theorem typedP_filled {c : CalP} (h : ∀ x ∈ c.parts, ∀ k, partTyped k x = subTyped k x.filled) : c.typed = c.filled.typed := by
  unfold CalP.typed Cal.typed
  exact tab_typed_congr tabCalendar c fun l hl s hs T => tab_typed_congr T s fun m hm x hx k => h x (mem_parts hl hs hm hx) k

theorem encodeDocP_filled (E : Env) (c : CalP) : encodeDocP E c = encodeDoc E c.filled := by
  unfold encodeDocP encodeDoc
  refine tab_encode_congr E tabCalendar c fun l _ s _ T => tab_encode_congr E T s fun m _ x _ k => ?_
  cases x <;> rfl

theorem filled_valid (k : SubKind) {x : PartP} (h : ¬ x.Crashes) : partValid k x = subValid k x.filled := by
  cases x with
  | part s => rfl
  | nil a =>
    have : a = .none := Classical.byContradiction h
    subst this
    cases k <;> rfl

theorem validP_filled {c : CalP} (h : ∀ x ∈ c.parts, ¬ x.Crashes) : c.valid = c.filled.valid := by
  unfold CalP.valid Cal.valid
  exact tab_valid_congr tabCalendar c fun l hl s hs T => tab_valid_congr T s fun m hm x hx k => filled_valid k (h x (mem_parts hl hs hm hx))


/-! ## Validation as a list of checks -/

def EntryP.valid : EntryP → Res _root_.Unit
  | .entry x => Entry.valid x
  | .nil => .panic

theorem entry_map (l : List Entry) : (l.map EntryP.entry).map EntryP.valid = l.map Entry.valid := by
  rw [List.map_map]
  rfl

theorem validSubs_entries {κ σ : Type} (val : κ → σ → Res Unit) (g : κ → σ → List EntryP) (h : ∀ k s, val k s = inTurn ((g k s).map EntryP.valid)) :
    ∀ (ks : List (Str × κ)) (vs : List (List σ)), validSubs val ks vs = inTurn (((ks.zip vs).flatMap fun x => x.2.flatMap (g x.1.2)).map EntryP.valid) := by
  intro ks
  induction ks with
  | nil => intro vs; simp [validSubs, inTurn]
  | cons k ks ih =>
    intro vs
    cases vs with
    | nil => simp [validSubs, inTurn]
    | cons v vs =>
      obtain ⟨n, k⟩ := k
      rw [validSubs, ih, checks_inTurn, List.zip_cons_cons, List.flatMap_cons, List.map_append, inTurn_append]
      have : v.map (val k) = v.map fun x => inTurn ((g k x).map EntryP.valid) := List.map_congr_left fun x _ => h k x
      rw [this, ← inTurn_flatMap, ← List.map_flatMap]

theorem Tab.valid_entries {κ σ : Type} (T : Tab κ) (val : κ → σ → Res Unit) (g : κ → σ → List EntryP) (h : ∀ k s, val k s = inTurn ((g k s).map EntryP.valid)) (s : Sect σ) :
    T.valid val s = inTurn (((sectEntries T s).map EntryP.entry ++ below g T s).map EntryP.valid) := by
  rw [Tab.valid, sectEntries_valid, validSubs_entries val g h, List.map_append, inTurn_append, entry_map]
  rfl

theorem part_entries (k : SubKind) (s : PartP) : partValid k s = inTurn ((partEntries k s).map EntryP.valid) := by
  cases s with
  | part s => rw [partEntries, entry_map]; exact sub_entries k s
  | nil a => cases a <;> rfl

theorem CalP.valid_entries (c : CalP) : c.valid = inTurn (c.entries.map EntryP.valid) :=
  Tab.valid_entries _ _ compEntriesP (fun T s => Tab.valid_entries T partValid partEntries part_entries s) c

theorem inTurn_panic {l : List (Res Unit)} : inTurn l = .panic ↔ ∃ a b, l = a ++ .panic :: b ∧ ∀ x ∈ a, x = .ok () := by
  induction l with
  | nil =>
    constructor
    · intro h; cases h
    · rintro ⟨a, b, h, _⟩; cases a <;> cases h
  | cons x l ih =>
    cases x with
    | ok u =>
      show inTurn l = .panic ↔ _
      rw [ih]
      constructor
      · rintro ⟨a, b, rfl, h⟩
        exact ⟨.ok u :: a, b, rfl, by simpa using h⟩
      · rintro ⟨a, b, h, h1⟩
        cases a with
        | nil => cases h
        | cons y a =>
          injection h with h2 h3
          exact ⟨a, b, h3, fun z hz => h1 z (by simp [hz])⟩
    | err e =>
      constructor
      · intro h; cases h
      · rintro ⟨a, b, h, h1⟩
        cases a with
        | nil => cases h
        | cons y a =>
          injection h with h2 h3
          subst h2
          cases h1 (.err e) (by simp)
    | panic => exact ⟨fun _ => ⟨[], l, rfl, by simp⟩, fun _ => rfl⟩

/-- The properties are of their types. -/
theorem CalP.typed_entries {c : CalP} (h : c.typed = true) {f : SField} {p : PropVal} (hx : EntryP.entry (.prop f p) ∈ c.entries) : f.spec.typed p = true := by
  have sect : ∀ {κ σ : Type} {T : Tab κ} {s : Sect σ}, EntryP.entry (.prop f p) ∈ (sectEntries T s).map EntryP.entry → (f, p) ∈ sectProps T s := by
    intro κ σ T s h
    obtain ⟨x, hx, he⟩ := List.mem_map.1 h
    injection he with h1
    subst h1
    obtain ⟨y, hy, he⟩ := List.mem_map.1 hx
    injection he with h1 h2
    subst h1; subst h2
    exact hy
  obtain ⟨h1, h2⟩ := Tab.typed_props h
  unfold CalP.entries at hx
  rw [List.mem_append, mem_below] at hx
  rcases hx with hx | ⟨k, hk, y, hy, hx⟩
  · exact h1 (f, p) (sect hx)
  · obtain ⟨h3, h4⟩ := Tab.typed_props (h2 k hk y hy)
    unfold compEntriesP at hx
    rw [List.mem_append, mem_below] at hx
    rcases hx with hx | ⟨j, hj, z, hz, hx⟩
    · exact h3 (f, p) (sect hx)
    · have h5 := h4 j hj z hz
      revert h5 hx
      generalize j.1.2 = jk
      intro hx h5
      cases z with
      | nil a => cases a <;> simp [partEntries] at hx
      | part s =>
        have h6 : subTyped jk s = true := by
          cases jk <;> exact h5
        unfold partEntries subEntries at hx
        dsimp only at hx
        split at hx
        · exact (Tab.typed_props h6).1 (f, p) (sect hx)
        · exact (Tab.typed_props h6).1 (f, p) (sect hx)
        · simp at hx
        · cases hx

theorem CalP.entry_fine {c : CalP} (h : c.typed = true) : ∀ x ∈ c.entries, x.valid = .ok () ↔ x.Fine := by
  intro x hx
  cases x with
  | nil => simp [EntryP.valid, EntryP.Fine]
  | entry x =>
    cases x with
    | prop f p => exact prop_fine_iff (CalP.typed_entries h hx)
    | noAlarm => simp [EntryP.valid, EntryP.Fine, Entry.valid, EntryFine]

theorem CalP.entry_refused {c : CalP} (h : c.typed = true) : ∀ x ∈ c.entries, ∀ e, x.valid = .err e ↔ x.Refused e := by
  intro x hx e
  cases x with
  | nil => simp [EntryP.valid, EntryP.Refused]
  | entry x =>
    cases x with
    | prop f p => exact prop_refused (CalP.typed_entries h hx) e
    | noAlarm => simp [EntryP.valid, EntryP.Refused, Entry.valid, EntryRefused, eq_comm]

theorem CalP.valid_err {c : CalP} (h : c.typed = true) (e : Err) : c.valid = .err e ↔ First EntryP.Fine EntryP.Refused c.entries e := by
  rw [CalP.valid_entries]
  exact inTurn_map_err (CalP.entry_fine h) (CalP.entry_refused h)

theorem CalP.valid_panic {c : CalP} (h : c.typed = true) : c.valid = .panic ↔ ∃ a b, c.entries = a ++ .nil :: b ∧ ∀ x ∈ a, x.Fine := by
  rw [CalP.valid_entries, inTurn_panic]
  constructor
  · rintro ⟨a, b, h1, h2⟩
    obtain ⟨a', r, hl, rfl, hr⟩ := List.map_eq_append_iff.1 h1
    obtain ⟨y, b', rfl, hy, rfl⟩ := List.map_eq_cons_iff.1 hr
    have : y = .nil := by
      cases y with
      | nil => rfl
      | entry x =>
        have hm : EntryP.entry x ∈ c.entries := by rw [hl]; simp
        cases x with
        | noAlarm => cases hy
        | prop f p =>
          exact absurd hy (PSpec.valid_ne_panic f.spec p)
    subst this
    exact ⟨a', b', hl, fun x hx => (CalP.entry_fine h x (by rw [hl]; simp [hx])).1 (h2 _ (List.mem_map_of_mem hx))⟩
  · rintro ⟨a, b, h1, h2⟩
    refine ⟨a.map EntryP.valid, b.map EntryP.valid, by rw [h1]; simp [EntryP.valid], ?_⟩
    intro z hz
    obtain ⟨w, hw, rfl⟩ := List.mem_map.1 hz
    exact (CalP.entry_fine h w (by rw [h1]; simp [hw])).2 (h2 w hw)

end Ics
