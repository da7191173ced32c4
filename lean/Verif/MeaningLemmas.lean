import Verif.Spec.Meaning
import Verif.RuleLemmas
import Verif.Props.Params
import Verif.Props.Scalars
/-!
# Values and parameters are decoded as Spec/Meaning says
-/

namespace Ics

open Spec

/-! ## Values -/

theorem Boolean.decode_iff (s : Str) (b : Bool) : Boolean.decode s = .ok b ↔ BoolText s b := by
  unfold Boolean.decode
  constructor
  · intro h
    split at h
    · next h1 => injection h with h; subst h; exact .yes h1
    · split at h
      · next h1 => injection h with h; subst h; exact .no h1
      · cases h
  · intro h
    cases h with
    | yes h => rw [if_pos h]
    | no h =>
      have : s ∉ [c!"1", c!"t", c!"T", c!"TRUE", c!"true", c!"True"] := by
        simp only [List.mem_cons, List.not_mem_nil, or_false] at h
        rcases h with rfl | rfl | rfl | rfl | rfl | rfl <;> decide
      rw [if_neg this, if_pos h]

theorem split2_iff {sep : Char} {s a b : Str} : split2 sep s = (a, some b) ↔ s = a ++ sep :: b ∧ sep ∉ a := by
  constructor
  · intro h
    refine ⟨split2_some h, ?_⟩
    induction s generalizing a b with
    | nil => simp [split2] at h
    | cons c s ih =>
      rw [split2] at h
      split at h
      · simp only [Prod.mk.injEq] at h
        rw [← h.1]; simp
      · next hc =>
        generalize hs : split2 sep s = x at h
        obtain ⟨a', b'⟩ := x
        simp only [Prod.mk.injEq] at h
        obtain ⟨rfl, rfl⟩ := h
        simp only [List.mem_cons, not_or]
        exact ⟨fun e => hc e.symm, ih hs⟩
  · rintro ⟨rfl, h⟩
    exact split2_append sep a b h

theorem TFloat.decode_iff (E : Env) (s : Str) (x : UInt64 × UInt64) : TFloat.decode E s = .ok x ↔ PairMeans E s x := by
  unfold TFloat.decode PairMeans
  constructor
  · intro h
    split at h
    · cases h
    · next a b hs =>
      obtain ⟨h1, h2⟩ := split2_iff.1 hs
      obtain ⟨y, hy, h⟩ := Res.bind_eq_ok.1 h
      obtain ⟨z, hz, h⟩ := Res.bind_eq_ok.1 h
      injection h with h
      subst h
      exact ⟨a, b, h1, h2, (Res.ofOption_eq_ok ..).1 hy, (Res.ofOption_eq_ok ..).1 hz⟩
  · rintro ⟨a, b, h1, h2, h3, h4⟩
    rw [split2_iff.2 ⟨h1, h2⟩]
    simp only [h3, h4]
    rfl

/-- The start of a duration's text says whether it is negative. -/
theorem durationMeans_head {s : Str} {d : Duration} (h : DurationMeans s d) :
    (s.head? = some '-' ∧ d.neg = true) ∨ ((s.head? = some 'P' ∨ s.head? = some '+') ∧ d.neg = false) := by
  obtain ⟨sign, is, rfl, _, _, h, _⟩ := h
  rcases h with ⟨rfl, h⟩ | ⟨rfl | rfl, h⟩
  · exact Or.inl ⟨rfl, h⟩
  · exact Or.inr ⟨Or.inl rfl, h⟩
  · exact Or.inr ⟨Or.inr rfl, h⟩

theorem dateTimeMeans_head {E : Env} {p : Nat} {tz : Option Str} {s : Str} {t : GoTime} (h : DateTimeMeans E p tz s t) : ∃ c r, s = c :: r ∧ isDigit c = true := by
  obtain ⟨a, c, f, y, m, d, hh, mi, sec, ns, k, l, ⟨a1, a2, a3, rfl, h1, _⟩, _, _, _, _, h2⟩ := h
  obtain ⟨h3, h4, _⟩ := Dec_facts h1.1
  cases a1 with
  | nil => exact absurd rfl h3
  | cons x a1 =>
    have hx : isDigit x = true := by simp at h4; exact h4.1
    cases tz with
    | none =>
      rcases h2 with ⟨_, rfl⟩ | ⟨_, rfl⟩
      · exact ⟨x, _, rfl, hx⟩
      · exact ⟨x, _, rfl, hx⟩
    | some n => obtain ⟨_, rfl⟩ := h2; exact ⟨x, _, rfl, hx⟩

theorem Period.decode_iff (E : Env) (p : Nat) (tz : Option Str) (s : Str) (x : Period) : Period.decode E p tz s = .ok x ↔ PeriodMeans E p tz s x := by
  unfold Period.decode
  constructor
  · intro h
    split at h
    · cases h
    · cases h
    · next a c b hs =>
      obtain ⟨rfl, h2⟩ := split2_iff.1 hs
      obtain ⟨t, ht, h⟩ := Res.bind_eq_ok.1 h
      have ht := (DateTime.decode_iff ..).1 ht
      split at h
      · next hc =>
        obtain ⟨d, hd, h⟩ := Res.bind_eq_ok.1 h
        injection h with h
        subst h
        have hd := (Duration.decode_iff ..).1 hd
        refine .lasting h2 ht hd ?_
        rcases durationMeans_head hd with ⟨h1, _⟩ | ⟨_, h1⟩
        · simp only [List.head?_cons, Option.some.injEq] at h1
          subst h1
          rcases hc with h | h <;> cases h
        · exact h1
      · obtain ⟨u, hu, h⟩ := Res.bind_eq_ok.1 h
        injection h with h
        subst h
        exact .until h2 ht ((DateTime.decode_iff ..).1 hu)
  · intro h
    cases h with
    | @«until» a b t u h1 h2 h3 =>
      rw [split2_iff.2 ⟨rfl, h1⟩]
      obtain ⟨c, r, rfl, hc⟩ := dateTimeMeans_head h3
      dsimp only
      rw [(DateTime.decode_iff ..).2 h2, Res.ok_bind, if_neg, (DateTime.decode_iff ..).2 h3]
      · rfl
      · rintro (rfl | rfl) <;> cases hc
    | @lasting a b t d h1 h2 h3 h4 =>
      rw [split2_iff.2 ⟨rfl, h1⟩]
      rcases durationMeans_head h3 with ⟨_, h5⟩ | ⟨h5, _⟩
      · rw [h4] at h5; cases h5
      · cases b with
        | nil => rcases h5 with h | h <;> cases h
        | cons c b =>
          simp only [List.head?_cons, Option.some.injEq] at h5
          dsimp only
          rw [(DateTime.decode_iff ..).2 h2, Res.ok_bind, if_pos h5, (Duration.decode_iff ..).2 h3]
          rfl

theorem map_iff {α : Type} {mk : α → Val} {x : Res α} {R : α → Prop} {v : Val} (h : ∀ a, x = .ok a ↔ R a) : mk <$> x = .ok v ↔ ∃ a, v = mk a ∧ R a := by
  rw [Res.map_eq_ok]
  constructor
  · rintro ⟨a, h1, rfl⟩; exact ⟨a, rfl, (h a).1 h1⟩
  · rintro ⟨a, rfl, h1⟩; exact ⟨a, (h a).2 h1, rfl⟩

/-- Exactly the texts of the specification are decoded, to what they mean. -/
theorem Val.decode_iff (E : Env) (look : Str → Option Str) (k : Kind) (s : Str) (v : Val) : Val.decode E look k s = .ok v ↔ ValMeans E look k s v := by
  have uri : ∀ u, URI.decode E s = .ok u ↔ E.urlParse s = some u := fun u => Res.ofOption_eq_ok ..
  cases k with
  | binary =>
    unfold Val.decode ValMeans
    dsimp only
    rw [Res.map_eq_ok]
    constructor
    · rintro ⟨bs, h1, rfl⟩
      have he := Props.C25_only_with_encoding _ _ _ h1
      rw [he] at h1
      obtain ⟨pad, h2⟩ := (Props.C25_decoding_exact ..).1 h1
      refine ⟨bs, pad, rfl, ?_, h2⟩
      cases hl : look c!"ENCODING" with
      | none => rw [hl] at he; cases he
      | some e => rw [hl] at he; exact congrArg some he
    · rintro ⟨bs, pad, rfl, h1, h2⟩
      rw [h1]
      exact ⟨bs, (Props.C25_decoding_exact ..).2 ⟨pad, h2⟩, rfl⟩
  | boolean => exact map_iff fun b => Boolean.decode_iff ..
  | calAddress => exact map_iff uri
  | date => exact map_iff fun t => Date.decode_iff ..
  | dateTime => exact map_iff fun t => DateTime.decode_iff ..
  | duration => exact map_iff fun d => Duration.decode_iff ..
  | integer => exact map_iff fun i => Props.C26_integer_exact ..
  | mtext => exact map_iff fun ts => Props.C17_decoding_exact ..
  | period => exact map_iff fun p => Period.decode_iff ..
  | recur => exact map_iff fun r => Recur.decode_iff ..
  | text => exact map_iff fun t => Text.decode_iff
  | tfloat => exact map_iff fun x => TFloat.decode_iff ..
  | uri => exact map_iff uri
  | utcOffset => exact map_iff fun o => offset_decode_iff ..

/-! ## Parameters -/

theorem caretText_append {s t : Str} (a : Str) (ha : '^' ∉ a) (h : CaretText s t) : CaretText (a ++ s) (a ++ t) := by
  induction a with
  | nil => exact h
  | cons c a ih =>
    simp only [List.mem_cons, not_or] at ha
    exact .plain c (fun e => ha.1 e.symm) (ih ha.2)

theorem caretText_decode : ∀ (n : Nat) (s : Str), s.length ≤ n → CaretText s (decode6868 s) := by
  intro n
  induction n with
  | zero =>
    intro s h
    have : s = [] := List.length_eq_zero_iff.1 (by omega)
    subst this
    exact .nil
  | succ n ih =>
    intro s h
    rcases caret_cases s with hs | ⟨a, ha, rfl⟩ | ⟨a, c, r, ha, rfl⟩
    · rw [decode6868_plain s hs]
      have := caretText_append s hs .nil
      simpa using this
    · rw [decode6868_last a ha]
      exact caretText_append a ha .last
    · rw [decode6868_esc a ha]
      simp at h
      have hr := ih r (by omega)
      rw [List.append_assoc]
      refine caretText_append a ha ?_
      by_cases h1 : c = 'n'
      · subst h1; exact .newline hr
      · by_cases h2 : c = '\''
        · subst h2; exact .quote hr
        · by_cases h3 : c = '^'
          · subst h3; exact .caret hr
          · rw [if_neg h1, if_neg h2, if_neg h3]
            exact .other c h1 h2 h3 hr

theorem caretText_unique {s t u : Str} (h1 : CaretText s t) (h2 : CaretText s u) : t = u := by
  induction h1 generalizing u with
  | nil => cases h2; rfl
  | last =>
    cases h2 with
    | last => rfl
    | plain c hc => exact absurd rfl hc
  | plain c hc _ ih =>
    cases h2 with
    | last => exact absurd rfl hc
    | plain _ _ h => rw [ih h]
    | newline => exact absurd rfl hc
    | quote => exact absurd rfl hc
    | caret => exact absurd rfl hc
    | other => exact absurd rfl hc
  | newline _ ih =>
    cases h2 with
    | plain _ h => exact absurd rfl h
    | newline h => rw [ih h]
    | other c h => exact absurd rfl h
  | quote _ ih =>
    cases h2 with
    | plain _ h => exact absurd rfl h
    | quote h => rw [ih h]
    | other c _ h => exact absurd rfl h
  | caret _ ih =>
    cases h2 with
    | plain _ h => exact absurd rfl h
    | caret h => rw [ih h]
    | other c _ _ h => exact absurd rfl h
  | other c hn hq hc _ ih =>
    cases h2 with
    | plain _ h => exact absurd rfl h
    | newline => exact absurd rfl hn
    | quote => exact absurd rfl hq
    | caret => exact absurd rfl hc
    | other _ _ _ _ h => rw [ih h]

theorem decode6868_iff (s t : Str) : decode6868 s = t ↔ CaretText s t :=
  ⟨fun h => h ▸ caretText_decode _ s (Nat.le_refl _), fun h => caretText_unique (caretText_decode _ s (Nat.le_refl _)) h⟩

theorem fmtMatch_iff (s : Str) : fmtMatch s = true ↔ FormatType s := by
  refine ⟨fun h => ?_, Props.fmtMatch_of⟩
  induction s with
  | nil => cases h
  | cons a s ih =>
    have more : fmtMatch s = true → FormatType (a :: s) := by
      intro h
      obtain ⟨x, b, c, y, rfl, h1⟩ := ih h
      exact ⟨a :: x, b, c, y, rfl, h1⟩
    unfold fmtMatch at h
    split at h
    · next b c r e =>
      simp only [List.cons.injEq] at e
      obtain ⟨rfl, rfl⟩ := e
      rw [Bool.or_eq_true, Bool.and_eq_true] at h
      rcases h with ⟨h1, h2⟩ | h
      · exact ⟨[], a, _, _, rfl, (Props.isFmtChar_iff _).1 h1, (Props.isFmtChar_iff _).1 h2⟩
      · exact more h
    · next e => simp only [List.cons.injEq] at e; obtain ⟨rfl, rfl⟩ := e; exact more h
    · next e => cases e

theorem indexOf_first {n : Str} : ∀ {l : List Str} {i : Nat}, indexOf n l = some i ↔ l[i]? = some n ∧ n ∉ l.take i := by
  intro l
  induction l with
  | nil => intro i; simp [indexOf]
  | cons x l ih =>
    intro i
    rw [indexOf]
    split
    · next h =>
      subst h
      constructor
      · intro h; injection h with h; subst h; simp
      · rintro ⟨_, h2⟩
        cases i with
        | zero => rfl
        | succ i => simp at h2
    · next h =>
      rw [Option.map_eq_some_iff]
      constructor
      · rintro ⟨j, hj, rfl⟩
        have := ih.1 hj
        simpa [h] using this
      · rintro ⟨h1, h2⟩
        cases i with
        | zero => simp at h1; exact absurd h1.symm h
        | succ i => exact ⟨i, ih.2 ⟨by simpa using h1, by simp at h2; exact h2.2⟩, rfl⟩

theorem oneVal_iff {vs : List PVal} {v : PVal} : oneVal vs = .ok v ↔ vs = [v] := by
  unfold oneVal
  split
  · simp
  · next h => simp only [reduceCtorEq, false_iff]; exact h v

theorem wantQuoted_iff {v : PVal} {u : _root_.Unit} : wantQuoted v = .ok u ↔ v.quoted = true := by
  unfold wantQuoted Res.guard
  cases v.quoted <;> simp

/-- Exactly the values of the specification are decoded, to what they mean. -/
theorem PKind.decode_iff (E : Env) (k : PKind) (vs : List PVal) (q : ParamVal) : k.decode E vs = .ok q ↔ ParamMeans E k vs q := by
  cases k with
  | url =>
    unfold PKind.decode ParamMeans
    dsimp only
    constructor
    · intro h
      obtain ⟨v, h1, h⟩ := Res.bind_eq_ok.1 h
      obtain ⟨_, h2, h⟩ := Res.bind_eq_ok.1 h
      obtain ⟨u, h3, h4⟩ := Res.bind_eq_ok.1 h
      injection h4 with h4
      obtain ⟨b, s⟩ := v
      have h2 := wantQuoted_iff.1 h2
      dsimp only at h2
      subst h2
      exact ⟨s, u, oneVal_iff.1 h1, h4.symm, (Res.ofOption_eq_ok ..).1 h3⟩
    · rintro ⟨s, u, rfl, rfl, h⟩
      simp only [oneVal, Res.ok_bind, wantQuoted, Res.guard, if_true, URI.decode, h, Res.ofOption]
      rfl
  | urls =>
    unfold PKind.decode ParamMeans
    dsimp only
    have key := mapRes_iff (f := fun v : PVal => do wantQuoted v; URI.decode E v.data)
      (R := fun (v : PVal) u => v.quoted = true ∧ E.urlParse v.data = some u) (fun v u => by
        rw [Res.bind_eq_ok]
        constructor
        · rintro ⟨_, h1, h2⟩; exact ⟨wantQuoted_iff.1 h1, (Res.ofOption_eq_ok ..).1 h2⟩
        · rintro ⟨h1, h2⟩; exact ⟨(), wantQuoted_iff.2 h1, (Res.ofOption_eq_ok ..).2 h2⟩) vs
    rw [Res.bind_eq_ok]
    constructor
    · rintro ⟨us, h1, h2⟩; injection h2 with h2; exact ⟨us, h2.symm, (key us).1 h1⟩
    · rintro ⟨us, rfl, h⟩; exact ⟨us, (key us).2 h, rfl⟩
  | str must =>
    unfold PKind.decode ParamMeans
    dsimp only
    constructor
    · intro h
      obtain ⟨v, h1, h⟩ := Res.bind_eq_ok.1 h
      split at h
      · obtain ⟨_, h2, h⟩ := Res.bind_eq_ok.1 h
        injection h with h
        exact ⟨v, _, oneVal_iff.1 h1, h.symm, fun _ => wantQuoted_iff.1 h2, (decode6868_iff ..).1 rfl⟩
      · next hm =>
        injection h with h
        exact ⟨v, _, oneVal_iff.1 h1, h.symm, fun h => absurd h hm, (decode6868_iff ..).1 rfl⟩
    · rintro ⟨v, t, rfl, rfl, h1, h2⟩
      rw [← (decode6868_iff ..).2 h2]
      cases must with
      | false => rfl
      | true =>
        simp only [oneVal, Res.ok_bind, if_true, wantQuoted, h1 rfl, Res.guard]
        rfl
  | fmt =>
    unfold PKind.decode ParamMeans
    dsimp only
    constructor
    · intro h
      obtain ⟨v, h1, h⟩ := Res.bind_eq_ok.1 h
      obtain ⟨_, h2, h⟩ := Res.bind_eq_ok.1 h
      injection h with h
      refine ⟨v, oneVal_iff.1 h1, h.symm, (fmtMatch_iff _).1 ?_⟩
      unfold Res.guard at h2
      split at h2
      · assumption
      · cases h2
    · rintro ⟨v, rfl, rfl, h⟩
      simp only [oneVal, Res.ok_bind, (fmtMatch_iff _).2 h, Res.guard]
      rfl
  | enum names =>
    unfold PKind.decode ParamMeans
    dsimp only
    constructor
    · intro h
      obtain ⟨v, h1, h⟩ := Res.bind_eq_ok.1 h
      refine ⟨v, oneVal_iff.1 h1, ?_⟩
      split at h
      · next n hn => injection h with h; exact Or.inl ⟨n, h.symm, indexOf_first.1 hn⟩
      · next hn => injection h with h; exact Or.inr ⟨h.symm, indexOf_none.1 hn⟩
    · rintro ⟨v, rfl, ⟨n, rfl, h⟩ | ⟨rfl, h⟩⟩
      · simp only [oneVal, Res.ok_bind, indexOf_first.2 h]; rfl
      · simp only [oneVal, Res.ok_bind, indexOf_none.2 h]; rfl
  | strs =>
    unfold PKind.decode ParamMeans
    dsimp only
    have key := mapRes_iff (f := fun v : PVal => do wantQuoted v; return decode6868 v.data)
      (R := fun (v : PVal) t => v.quoted = true ∧ CaretText v.data t) (fun v t => by
        rw [Res.bind_eq_ok]
        constructor
        · rintro ⟨_, h1, h2⟩; injection h2 with h2; exact ⟨wantQuoted_iff.1 h1, (decode6868_iff ..).1 h2⟩
        · rintro ⟨h1, h2⟩; exact ⟨(), wantQuoted_iff.2 h1, by rw [(decode6868_iff ..).2 h2]; rfl⟩) vs
    rw [Res.bind_eq_ok]
    constructor
    · rintro ⟨us, h1, h2⟩; injection h2 with h2; exact ⟨us, h2.symm, (key us).1 h1⟩
    · rintro ⟨us, rfl, h⟩; exact ⟨us, (key us).2 h, rfl⟩
  | range =>
    unfold PKind.decode ParamMeans
    dsimp only
    constructor
    · intro h
      obtain ⟨v, h1, h⟩ := Res.bind_eq_ok.1 h
      obtain ⟨_, h2, h⟩ := Res.bind_eq_ok.1 h
      injection h with h
      refine ⟨v, oneVal_iff.1 h1, h.symm, ?_⟩
      unfold Res.guard at h2
      split at h2
      · next h => exact of_decide_eq_true h
      · cases h2
    · rintro ⟨v, rfl, rfl, h⟩
      simp only [oneVal, Res.ok_bind, h, Res.guard]
      rfl
  | bool =>
    unfold PKind.decode ParamMeans
    dsimp only
    constructor
    · intro h
      obtain ⟨v, h1, h⟩ := Res.bind_eq_ok.1 h
      obtain ⟨b, h2, h⟩ := Res.bind_eq_ok.1 h
      injection h with h
      exact ⟨v, b, oneVal_iff.1 h1, h.symm, (Boolean.decode_iff ..).1 h2⟩
    · rintro ⟨v, b, rfl, rfl, h⟩
      simp only [oneVal, Res.ok_bind, (Boolean.decode_iff ..).2 h]
      rfl

end Ics
