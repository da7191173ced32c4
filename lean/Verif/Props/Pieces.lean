import Verif.PiecesLemmas
import Verif.Props.Sample
/-!
# C98: what Encode writes is put together from what it writes for each part
-/

namespace Ics.Props
open Spec

/-- The octets of an accepted calendar. -/
theorem writesOut_iff (E : Env) (c : Cal) (o : Bytes) : WritesOut E c o ↔ piece c.valid (encodeDoc E c) = some o := by
  constructor
  · intro h
    obtain ⟨r, h1, h2, rfl⟩ := h (fun s => [s]) (by simp)
    unfold encode at h1
    cases hv : c.valid with
    | err e => rw [hv] at h1; cases h1; cases h2
    | panic => rw [hv] at h1; cases h1
    | ok u =>
      cases hd : encodeDoc E c with
      | none => rw [hv, hd] at h1; cases h1
      | some s =>
        rw [hv, hd] at h1
        obtain ⟨k, hk⟩ := writes_ok [s] {} rfl
        simp only [hk, Run.done.injEq] at h1
        cases h1
        simp [piece, oct]
  · intro h cut hc
    unfold encode
    cases hv : c.valid with
    | err e => rw [hv] at h; cases h
    | panic => rw [hv] at h; cases h
    | ok u =>
      cases hd : encodeDoc E c with
      | none => rw [hv, hd] at h; cases h
      | some s =>
        rw [hv, hd] at h
        obtain ⟨k, hk⟩ := writes_ok (cut s) {} rfl
        rw [hc] at hk
        simp only [piece, Option.map_some, Option.some.injEq] at h
        exact ⟨_, rfl, by simp [hk], by simp [hk, ← h, oct]⟩

/-- C98.  There are octets for the first and last line, and functions for properties and components, so that what `Encode` writes for any calendar is
these octets one after the other, and `Encode` refuses the calendar or does not return exactly if one of the functions gives nothing.  The function of components
is put together in the same way, and so are its functions of alarms, with a first and last line for each kind of alarm, and of time zone rules. -/
theorem C98_composed (E : Env) : ∃ (head tail : Bytes) (prop : Nat → PropVal → Option Bytes) (block : Nat → Comp → Option Bytes),
    (∀ c : Cal, c.typed = true → ∀ o, WritesOut E c o ↔ composed head tail prop block c = some o) ∧
    ∀ i, ∃ (head tail : Bytes) (prop : Nat → PropVal → Option Bytes) (sub : Nat → Sub → Option Bytes),
      (∀ c : Cal, c.typed = true → ∀ x ∈ c.subs.getD i [], block i x = composed head tail prop sub x) ∧
      (∀ (j : Nat) (a : AKind), ∃ (head tail : Bytes) (prop : Nat → PropVal → Option Bytes), ∀ c : Cal, c.typed = true → ∀ x ∈ c.subs.getD i [], ∀ s,
        Sub.alarm (some (a, s)) ∈ x.subs.getD j [] → sub j (.alarm (some (a, s))) = composed head tail prop noPiece s) ∧
      ∀ j : Nat, ∃ (head tail : Bytes) (prop : Nat → PropVal → Option Bytes), ∀ c : Cal, c.typed = true → ∀ x ∈ c.subs.getD i [], ∀ s,
        Sub.leaf s ∈ x.subs.getD j [] → sub j (.leaf s) = composed head tail prop noPiece s := by
  have hno : ∀ (k x : Empty), AtStart (noEnc k x) := fun k => nomatch k
  have hnp : ∀ ks : List (Str × Empty), subPiece noEnc noVal ks = noPiece := fun ks => by funext i x; exact nomatch x
  refine ⟨heads [(kBEGIN, tabCalendar.name)], oct (lineOf kEND tabCalendar.name), propPiece E tabCalendar.fields,
    subPiece (fun T s => T.encode E (subEncode E) s) (fun T s => T.valid subValid s) tabCalendar.subs, ?_, ?_⟩
  · intro c ht o
    rw [writesOut_iff]
    have hl := Tab.typed_length ht
    have := sect_composed E (enc := fun T s => T.encode E (subEncode E) s) (val := fun T s => T.valid subValid s) (fun k x => cat_start (b := (_, _))) tabCalendar
      [(kBEGIN, tabCalendar.name)] (kEND, tabCalendar.name) c hl.1 hl.2
    exact iff_of_eq (congrArg (· = some o) this)
  · intro i
    cases hi : tabCalendar.subs[i]? with
    | none =>
      have hn : ∀ c : Cal, c.typed = true → ∀ x ∈ c.subs.getD i [], False := by
        intro c ht x hx
        simp only [Cal.typed, Tab.typed, Bool.and_eq_true] at ht
        obtain ⟨k, hk, _⟩ := typedSubs_at ht.2 x hx
        rw [hi] at hk; cases hk
      exact ⟨[], [], fun _ _ => none, fun _ _ => none, fun c ht x hx => (hn c ht x hx).elim, fun j a => ⟨[], [], fun _ _ => none, fun c ht x hx => (hn c ht x hx).elim⟩,
        fun j => ⟨[], [], fun _ _ => none, fun c ht x hx => (hn c ht x hx).elim⟩⟩
    | some nT =>
      obtain ⟨n, T⟩ := nT
      have hT : ∀ c : Cal, c.typed = true → ∀ x ∈ c.subs.getD i [], T.typed subTyped x = true := by
        intro c ht x hx
        simp only [Cal.typed, Tab.typed, Bool.and_eq_true] at ht
        obtain ⟨k, hk, h⟩ := typedSubs_at ht.2 x hx
        rw [hi] at hk; cases hk
        simpa [Tab.typed] using h
      refine ⟨heads [(kBEGIN, T.name)], oct (lineOf kEND T.name), propPiece E T.fields, subPiece (subEncode E) subValid T.subs, ?_, ?_, ?_⟩
      · intro c ht x hx
        have hl := Tab.typed_length (hT c ht x hx)
        have := sect_composed E (val := subValid) (subEncode_start E) T [(kBEGIN, T.name)] (kEND, T.name) x hl.1 hl.2
        rw [← this]
        simp only [subPiece, hi]
        rfl
      · intro j a
        refine ⟨heads [(kBEGIN, kVALARM), (kACTION, a.action)], oct (lineOf kEND kVALARM), propPiece E a.tab.fields, fun c ht x hx s hs => ?_⟩
        have h := hT c ht x hx
        simp only [Tab.typed, Bool.and_eq_true] at h
        obtain ⟨⟨m, k⟩, hk, h⟩ := typedSubs_at h.2 _ hs
        cases k with
        | leaf U => simp [subTyped] at h
        | alarm =>
          simp only [subTyped] at h
          have hl := Tab.typed_length h
          have := sect_composed E (val := noVal) hno a.tab [(kBEGIN, kVALARM), (kACTION, a.action)] (kEND, kVALARM) s hl.1 hl.2
          rw [hnp] at this
          rw [← this]
          simp only [subPiece, hk]
          rfl
      · intro j
        cases hj : T.subs[j]? with
        | none =>
          refine ⟨[], [], fun _ _ => none, fun c ht x hx s hs => ?_⟩
          have h := hT c ht x hx
          simp only [Tab.typed, Bool.and_eq_true] at h
          obtain ⟨k, hk, _⟩ := typedSubs_at h.2 _ hs
          rw [hj] at hk; cases hk
        | some mk =>
          obtain ⟨m, k⟩ := mk
          cases k with
          | alarm =>
            refine ⟨[], [], fun _ _ => none, fun c ht x hx s hs => ?_⟩
            have h := hT c ht x hx
            simp only [Tab.typed, Bool.and_eq_true] at h
            obtain ⟨k, hk, h⟩ := typedSubs_at h.2 _ hs
            rw [hj] at hk; cases hk
            simp [subTyped] at h
          | leaf U =>
            refine ⟨heads [(kBEGIN, U.name)], oct (lineOf kEND U.name), propPiece E U.fields, fun c ht x hx s hs => ?_⟩
            have h := hT c ht x hx
            simp only [Tab.typed, Bool.and_eq_true] at h
            obtain ⟨k, hk, h⟩ := typedSubs_at h.2 _ hs
            rw [hj] at hk; cases hk
            simp only [subTyped] at h
            have hl := Tab.typed_length h
            have := sect_composed E (val := noVal) hno U [(kBEGIN, U.name)] (kEND, U.name) s hl.1 hl.2
            rw [hnp] at this
            rw [← this]
            simp only [subPiece, hj]
            rfl

/-- C98.  To put a component into a calendar, or another in its place, puts octets into what is written that depend on the component and its kind only; all else stays.
(Or the rest of the calendar is refused, or never written to its end, whatever the component.) -/
theorem C98_component (E : Env) : ∃ block : Nat → Comp → Option Bytes, ∀ (F : List (List PropVal)) (A B : List (List Comp)) (l r : List Comp),
    (∀ x, Cal.typed ⟨F, A ++ (l ++ x :: r) :: B⟩ = true → ∀ o, ¬ WritesOut E ⟨F, A ++ (l ++ x :: r) :: B⟩ o) ∨
    ∃ u v, (Cal.typed ⟨F, A ++ (l ++ r) :: B⟩ = true → ∀ o, WritesOut E ⟨F, A ++ (l ++ r) :: B⟩ o ↔ o = u ++ v) ∧
      ∀ x, Cal.typed ⟨F, A ++ (l ++ x :: r) :: B⟩ = true → ∀ o, WritesOut E ⟨F, A ++ (l ++ x :: r) :: B⟩ o ↔ ∃ m, block A.length x = some m ∧ o = u ++ m ++ v := by
  obtain ⟨head, tail, prop, block, h, _⟩ := C98_composed E
  refine ⟨block, fun F A B l r => ?_⟩
  rcases composed_sub_ctx head tail prop block F A B l r with h1 | ⟨u, v, h1, h2⟩
  · left; intro x ht o; rw [h _ ht, h1]; exact nofun
  · right
    refine ⟨u, v, fun ht o => ?_, fun x ht o => ?_⟩
    · rw [h _ ht, h1]; simp [eq_comm]
    · rw [h _ ht, h2]; exact octets_map_iff

/-- C98.  So for a property of the calendar: only its own line changes. -/
theorem C98_property (E : Env) : ∃ line : Nat → PropVal → Option Bytes, ∀ (S : List (List Comp)) (A B : List (List PropVal)) (l r : List PropVal),
    (∀ x, Cal.typed ⟨A ++ (l ++ x :: r) :: B, S⟩ = true → ∀ o, ¬ WritesOut E ⟨A ++ (l ++ x :: r) :: B, S⟩ o) ∨
    ∃ u v, (Cal.typed ⟨A ++ (l ++ r) :: B, S⟩ = true → ∀ o, WritesOut E ⟨A ++ (l ++ r) :: B, S⟩ o ↔ o = u ++ v) ∧
      ∀ x, Cal.typed ⟨A ++ (l ++ x :: r) :: B, S⟩ = true → ∀ o, WritesOut E ⟨A ++ (l ++ x :: r) :: B, S⟩ o ↔ ∃ m, line A.length x = some m ∧ o = u ++ m ++ v := by
  obtain ⟨head, tail, prop, block, h, _⟩ := C98_composed E
  refine ⟨prop, fun S A B l r => ?_⟩
  rcases composed_prop_ctx head tail prop block S A B l r with h1 | ⟨u, v, h1, h2⟩
  · left; intro x ht o; rw [h _ ht, h1]; exact nofun
  · right
    refine ⟨u, v, fun ht o => ?_, fun x ht o => ?_⟩
    · rw [h _ ht, h1]; simp [eq_comm]
    · rw [h _ ht, h2]; exact octets_map_iff

/-- C98.  And for a property of a component: its line depends on the kind of component, the place of the property in it, and the property's value only. -/
theorem C98_component_property (E : Env) : ∃ line : Nat → Nat → PropVal → Option Bytes,
    ∀ (F : List (List PropVal)) (A B : List (List Comp)) (l r : List Comp) (S : List (List Sub)) (A' B' : List (List PropVal)) (l' r' : List PropVal),
    let put := fun w : List PropVal => (⟨F, A ++ (l ++ ⟨A' ++ w :: B', S⟩ :: r) :: B⟩ : Cal)
    (∀ x, Cal.typed (put (l' ++ x :: r')) = true → ∀ o, ¬ WritesOut E (put (l' ++ x :: r')) o) ∨
    ∃ u v, (Cal.typed (put (l' ++ r')) = true → ∀ o, WritesOut E (put (l' ++ r')) o ↔ o = u ++ v) ∧
      ∀ x, Cal.typed (put (l' ++ x :: r')) = true → ∀ o, WritesOut E (put (l' ++ x :: r')) o ↔ ∃ m, line A.length A'.length x = some m ∧ o = u ++ m ++ v := by
  obtain ⟨head, tail, prop, block, h, hb⟩ := C98_composed E
  obtain ⟨line, hl⟩ : ∃ line : Nat → Nat → PropVal → Option Bytes, ∀ i, ∃ d t sub, ∀ c : Cal, c.typed = true → ∀ x ∈ c.subs.getD i [],
      block i x = composed d t (line i) sub x :=
    ⟨fun i => (hb i).choose_spec.choose_spec.choose, fun i => ⟨_, _, _, (hb i).choose_spec.choose_spec.choose_spec.choose_spec.1⟩⟩
  refine ⟨line, ?_⟩
  intro F A B l r S A' B' l' r' put
  obtain ⟨d, t, sub, hs⟩ := hl A.length
  have hx : ∀ w, Cal.typed (put w) = true → block A.length ⟨A' ++ w :: B', S⟩ = composed d t (line A.length) sub ⟨A' ++ w :: B', S⟩ := fun w ht =>
    hs _ ht _ (by simp [put])
  rcases composed_sub_ctx head tail prop block F A B l r with h1 | ⟨u, v, _, h2⟩
  · left; intro x ht o; rw [h _ ht]; simp only [put]; rw [h1]; exact nofun
  · rcases composed_prop_ctx d t (line A.length) sub S A' B' l' r' with h3 | ⟨u', v', h3, h4⟩
    · left; intro x ht o; rw [h _ ht]; simp only [put]; rw [h2, hx _ ht, h3]; exact nofun
    · right
      refine ⟨u ++ u', v' ++ v, fun ht o => ?_, fun x ht o => ?_⟩
      · rw [h _ ht]; simp only [put]; rw [h2, hx _ ht, h3]; simp [eq_comm]
      · rw [h _ ht]; simp only [put]; rw [h2, hx _ ht, h4, Option.map_map, octets_map_iff]
        simp only [Function.comp_apply, List.append_assoc]

/-- The sample calendar is written, and so it is without its event: the second case of `C98_component` is met. -/
example : ∃ (F : List (List PropVal)) (A B : List (List Comp)) (l r : List Comp) (x : Comp),
    Cal.typed ⟨F, A ++ (l ++ x :: r) :: B⟩ = true ∧ Cal.typed ⟨F, A ++ (l ++ r) :: B⟩ = true ∧
    (∃ o, WritesOut sampleEnv ⟨F, A ++ (l ++ x :: r) :: B⟩ o) ∧ ∃ o, WritesOut sampleEnv ⟨F, A ++ (l ++ r) :: B⟩ o := by
  have h : ∃ A l x r B, sampleCal.subs = A ++ (l ++ x :: r) :: B ∧ Cal.typed ⟨sampleCal.fields, A ++ (l ++ r) :: B⟩ = true ∧
      ((piece (Cal.valid ⟨sampleCal.fields, A ++ (l ++ r) :: B⟩) (encodeDoc sampleEnv ⟨sampleCal.fields, A ++ (l ++ r) :: B⟩)).isSome = true) :=
    ⟨[], [], sampleEvent, [], sampleCal.subs.tail, by decide +kernel⟩
  obtain ⟨A, l, x, r, B, h1, h2, h3⟩ := h
  refine ⟨sampleCal.fields, A, B, l, r, x, ?_, h2, ?_, ?_⟩
  · rw [← h1]; exact sampleCal_typed
  · rw [← h1]; exact ⟨_, (writesOut_iff _ _ _).2 (by rw [sampleCal_valid, sampleCal_doc]; rfl)⟩
  · obtain ⟨o, ho⟩ := Option.isSome_iff_exists.1 h3
    exact ⟨o, (writesOut_iff _ _ _).2 ho⟩

end Ics.Props
