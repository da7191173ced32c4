import Verif.Spec.Values
import Verif.Scalars
import Verif.Text
/-!
# Lemmas relating the scalar types to their specifications
-/

namespace Ics

open Spec

theorem escaped_encode (t : Str) : Escaped (Text.encode t) t := by
  induction t with
  | nil => exact .nil
  | cons c t ih =>
    rw [Text.encode, List.flatMap_cons]
    rcases escapeC_eq c with ⟨h, rfl | rfl | rfl⟩ | ⟨h, rfl⟩ | ⟨h, h1, h2, h3, h4⟩ <;> rw [h]
    · exact .backslash ih
    · exact .semicolon ih
    · exact .comma ih
    · exact .newline 'n' (Or.inl rfl) ih
    · exact .plain c h1 h2 h3 h4 ih

theorem decodeText_escaped {s t : Str} (h : Escaped s t) (r : Str) (hr : ∀ c ∈ r.head?, c = ',' ∨ c = ';') :
    decodeText (s ++ r) = (t, r) := by
  induction h with
  | nil =>
    cases r with
    | nil => rfl
    | cons c r => rcases hr c (by simp) with rfl | rfl <;> rfl
  | plain c h1 h2 h3 _ _ ih => rw [List.cons_append, decodeText_plain _ h1 h2 h3, ih]
  | backslash _ ih => simp [decodeText, ih]
  | semicolon _ ih => simp [decodeText, ih]
  | comma _ ih => simp [decodeText, ih]
  | newline c hc _ ih => rcases hc with rfl | rfl <;> simp [decodeText, ih]

theorem decodeText_loose {s t : Str} (h : Loose s t) (r : Str) (hr : ∀ c ∈ r.head?, c = ',' ∨ c = ';') :
    decodeText (s ++ r) = (t, r) := by
  induction h with
  | nil =>
    cases r with
    | nil => rfl
    | cons c r => rcases hr c (by simp) with rfl | rfl <;> rfl
  | plain c h1 h2 h3 _ ih => rw [List.cons_append, decodeText_plain _ h1 h2 h3, ih]
  | escape c h _ ih => rcases h with rfl | rfl | rfl <;> simp [decodeText, ih]
  | newline c h _ ih => rcases h with rfl | rfl <;> simp [decodeText, ih]
  | other c h _ ih =>
    simp at h
    simp [decodeText, ih, h]

theorem decodeText_dangling {s t : Str} (h : Loose s t) : decodeText (s ++ ['\\']) = (t ++ ['\\', '�'], []) := by
  induction h with
  | nil => rfl
  | plain c h1 h2 h3 _ ih => rw [List.cons_append, decodeText_plain _ h1 h2 h3, ih]; rfl
  | escape c h _ ih => rcases h with rfl | rfl | rfl <;> simp [decodeText, ih]
  | newline c h _ ih => rcases h with rfl | rfl <;> simp [decodeText, ih]
  | other c h _ ih =>
    simp at h
    simp [decodeText, ih, h]

/-- What `decodeText` reads. -/
theorem decodeText_cases (s : Str) : ∃ a t r, s = a ++ r ∧
    ((Loose a t ∧ (∀ c ∈ r.head?, c = ',' ∨ c = ';')) ∨ (LooseText a t ∧ r = [])) := by
  induction hn : s.length using Nat.strongRecOn generalizing s with
  | _ n ih =>
    have key : ∀ (p q s' : Str), s = p ++ s' → p ≠ [] → (∀ a t, Loose a t → Loose (p ++ a) (q ++ t)) → ∃ a t r, s = a ++ r ∧
        ((Loose a t ∧ (∀ c ∈ r.head?, c = ',' ∨ c = ';')) ∨ (LooseText a t ∧ r = [])) := by
      intro p q s' hs hp hl
      have : 0 < p.length := List.length_pos_iff.2 hp
      obtain ⟨a, t, r, e, h⟩ := ih s'.length (by rw [← hn, hs, List.length_append]; omega) s' rfl
      refine ⟨p ++ a, q ++ t, r, by rw [hs, e, List.append_assoc], ?_⟩
      rcases h with ⟨h1, h2⟩ | ⟨h1 | ⟨x, y, hx, rfl, rfl⟩, h2⟩
      · exact .inl ⟨hl _ _ h1, h2⟩
      · exact .inr ⟨.inl (hl _ _ h1), h2⟩
      · exact .inr ⟨.inr ⟨p ++ x, q ++ y, hl _ _ hx, by simp, by simp⟩, h2⟩
    match s with
    | [] => exact ⟨[], [], [], rfl, .inl ⟨.nil, by simp⟩⟩
    | c :: r =>
      by_cases h1 : c = '\\'
      · subst h1
        match r with
        | [] => exact ⟨['\\'], _, [], rfl, .inr ⟨.inr ⟨[], [], .nil, rfl, rfl⟩, rfl⟩⟩
        | d :: r =>
          by_cases h2 : d = '\\' ∨ d = ';' ∨ d = ','
          · exact key ['\\', d] [d] r rfl (by simp) fun a t h => .escape d h2 h
          by_cases h3 : d = 'n' ∨ d = 'N'
          · exact key ['\\', d] ['\n'] r rfl (by simp) fun a t h => .newline d h3 h
          · exact key ['\\', d] ['\\', d] r rfl (by simp) fun a t h => .other d (by simp; grind) h
      · by_cases h2 : c = ',' ∨ c = ';'
        · exact ⟨[], [], c :: r, rfl, .inl ⟨.nil, by simpa using h2⟩⟩
        · exact key [c] [c] r rfl (by simp) fun a t h => .plain c h1 (by grind) (by grind) h

theorem looseText_decode {s t : Str} (h : LooseText s t) : decodeText s = (t, []) := by
  rcases h with h | ⟨a, b, h, rfl, rfl⟩
  · have := decodeText_loose h [] (by simp)
    rwa [List.append_nil] at this
  · exact decodeText_dangling h

theorem decodeText_all {s t : Str} : decodeText s = (t, []) ↔ LooseText s t := by
  refine ⟨fun h => ?_, looseText_decode⟩
  obtain ⟨a, u, r, rfl, ⟨h1, h2⟩ | ⟨h1, rfl⟩⟩ := decodeText_cases s
  · rw [decodeText_loose h1 r h2] at h
    cases h
    rw [List.append_nil]; exact .inl h1
  · rw [List.append_nil] at h ⊢
    rw [looseText_decode h1] at h
    cases h; exact h1

theorem Text.decode_iff {s t : Str} : Text.decode s = .ok t ↔ LooseText s t := by
  rw [← decodeText_all]
  unfold Text.decode
  constructor
  · intro h
    split at h
    · next hd => cases h; exact hd
    · cases h
  · intro h; rw [h]

theorem MText.decodeF_iff : ∀ (fuel : Nat) (s : Str) (ts : List Str), s.length < fuel → (MText.decodeF fuel s = .ok ts ↔ LooseList s ts) := by
  intro fuel
  induction fuel with
  | zero => intro s ts h; omega
  | succ fuel ih =>
    intro s ts hf
    rw [MText.decodeF]
    constructor
    · intro h
      split at h
      · next t hd => cases h; exact .one (decodeText_all.1 hd)
      · next t r hd =>
        obtain ⟨us, h1, h2⟩ := Res.bind_eq_ok.1 h
        cases h2
        obtain ⟨a, u, r', e, ⟨g1, g2⟩ | ⟨g1, rfl⟩⟩ := decodeText_cases s
        · rw [e, decodeText_loose g1 r' g2] at hd
          cases hd
          rw [e] at hf ⊢
          simp only [List.length_append, List.length_cons] at hf
          exact .cons g1 ((ih _ _ (by omega)).1 h1)
        · rw [List.append_nil] at e; subst e
          rw [looseText_decode g1] at hd
          cases hd
      · cases h
    · intro h
      cases h with
      | one h => rw [looseText_decode h]
      | cons h1 h2 =>
        rw [decodeText_loose h1 _ (by simp)]
        simp only [List.length_append, List.length_cons] at hf
        simp only
        rw [(ih _ _ (by omega)).2 h2]
        rfl

theorem escapedList_encode : ∀ (ts : List Str), ts ≠ [] → EscapedList (MText.encode ts) ts := by
  intro ts
  induction ts with
  | nil => intro h; exact absurd rfl h
  | cons t ts ih =>
    intro _
    cases ts with
    | nil => exact .one (escaped_encode t)
    | cons u ts =>
      rw [MText.encode_cons]
      exact .cons (escaped_encode t) (ih (by simp))

theorem mtext_escapedList {s : Str} {ts : List Str} (h : EscapedList s ts) :
    ∀ fuel, s.length < fuel → MText.decodeF fuel s = .ok ts := by
  induction h with
  | one h =>
    intro fuel hf
    obtain ⟨f, rfl⟩ : ∃ f, fuel = f + 1 := ⟨fuel - 1, by omega⟩
    have := decodeText_escaped h [] (by simp)
    rw [List.append_nil] at this
    rw [MText.decodeF, this]
  | cons h _ ih =>
    intro fuel hf
    obtain ⟨f, rfl⟩ : ∃ f, fuel = f + 1 := ⟨fuel - 1, by omega⟩
    rw [MText.decodeF, decodeText_escaped h _ (by simp)]
    simp only
    rw [ih f (by simp at hf; omega)]
    rfl

theorem IntLit_fmtInt (i : Int) : IntLit (fmtInt i) i := by
  unfold fmtInt
  split
  · next h =>
    have := IntLit.minus (Dec_fmtNat i.natAbs)
    rwa [show -((i.natAbs : Nat) : Int) = i by omega] at this
  · next h =>
    have := IntLit.plain (Dec_fmtNat i.natAbs)
    rwa [show ((i.natAbs : Nat) : Int) = i by omega] at this

theorem Dec_head_ne {s : Str} {n : Nat} (h : Dec s n) : ∀ r, s ≠ '-' :: r ∧ s ≠ '+' :: r := by
  intro r
  obtain ⟨_, h2, _⟩ := Dec_facts h
  constructor <;> (rintro rfl; simp [isDigit] at h2)

theorem parseInt_iff (bits : Nat) (s : Str) (i : Int) :
    parseInt bits s = some i ↔ IntLit s i ∧ -(2 ^ (bits - 1) : Nat) ≤ i ∧ i < (2 ^ (bits - 1) : Nat) := by
  constructor
  · intro h
    unfold parseInt at h
    split at h
    next neg ds heq =>
    split at h
    · next hds =>
      have hdec := Dec_of ds _ (Nat.le_refl _) hds.1 hds.2
      dsimp only at h
      split at h
      · next hneg =>
        split at h
        · next hle =>
          injection h with h
          subst h
          refine ⟨?_, by omega, ?_⟩
          · split at heq
            · injection heq with h1 h2; subst h2; exact .minus hdec
            · injection heq with h1 h2; subst h1; cases hneg
            · injection heq with h1 h2; subst h1; cases hneg
          · have : (0 : Int) < (2 ^ (bits - 1) : Nat) := by
              have := Nat.pow_pos (a := 2) (n := bits - 1) (by omega)
              omega
            omega
        · cases h
      · next hneg =>
        split at h
        · next hlt =>
          injection h with h
          subst h
          refine ⟨?_, by omega, by omega⟩
          split at heq
          · injection heq with h1 h2; subst h1; simp at hneg
          · injection heq with h1 h2; subst h2; exact .plus hdec
          · injection heq with h1 h2; subst h2; exact .plain hdec
        · cases h
    · cases h
  · rintro ⟨h, h1, h2⟩
    cases h with
    | plain hd =>
      obtain ⟨f1, f2, f3⟩ := Dec_facts hd
      unfold parseInt
      split
      next neg ds heq =>
      split at heq
      · exact absurd rfl (Dec_head_ne hd _).1
      · exact absurd rfl (Dec_head_ne hd _).2
      · injection heq with ha hb
        subst ha; subst hb
        rw [if_pos ⟨f1, f2⟩]
        simp only [f3, Bool.false_eq_true, if_false]
        rw [if_pos (by omega)]
    | plus hd =>
      obtain ⟨f1, f2, f3⟩ := Dec_facts hd
      simp only [parseInt]
      rw [if_pos ⟨f1, f2⟩]
      simp only [f3, Bool.false_eq_true, if_false]
      rw [if_pos (by omega)]
    | minus hd =>
      obtain ⟨f1, f2, f3⟩ := Dec_facts hd
      simp only [parseInt]
      rw [if_pos ⟨f1, f2⟩]
      simp only [f3, if_true]
      rw [if_pos (by omega)]

theorem Dec_unique {s : Str} {m n : Nat} (h1 : Dec s m) (h2 : Dec s n) : m = n := by
  rw [← (Dec_facts h1).2.2, (Dec_facts h2).2.2]

/-! ## Offsets -/

theorem twoDigits_iff (s : Str) (n : Nat) (r : Str) :
    twoDigits s = some (n, r) ↔ ∃ a, Two a n ∧ s = a ++ r := by
  constructor
  · intro h
    unfold twoDigits at h
    split at h
    · next a b r' =>
      split at h
      · next hab =>
        injection h with h
        injection h with h1 h2
        subst h2
        refine ⟨[a, b], ⟨?_, rfl⟩, rfl⟩
        have := Dec_of [a, b] _ (Nat.le_refl _) (by simp) (by simp [hab.1, hab.2])
        rw [digitsVal_cons, digitsVal_cons, digitsVal_nil] at this
        rw [← h1]
        simpa using this
      · cases h
    · cases h
  · rintro ⟨a, ⟨hd, hl⟩, rfl⟩
    obtain ⟨_, f2, f3⟩ := Dec_facts hd
    match a, hl with
    | [x, y], _ =>
      simp at f2
      rw [digitsVal_cons, digitsVal_cons, digitsVal_nil] at f3
      simp only [List.cons_append, List.nil_append, twoDigits]
      rw [if_pos ⟨f2.1, f2.2⟩]
      congr 2
      omega

theorem digitVal_lt {c : Char} (h : isDigit c = true) : digitVal c < 10 := by
  have := (isDigit_iff c).1 h
  unfold digitVal
  omega

theorem Two_lt {s : Str} {n : Nat} (h : Two s n) : n < 100 := by
  obtain ⟨hd, hl⟩ := h
  obtain ⟨_, f2, f3⟩ := Dec_facts hd
  match s, hl with
  | [x, y], _ =>
    simp at f2
    rw [digitsVal_cons, digitsVal_cons, digitsVal_nil] at f3
    have := digitVal_lt f2.1
    have := digitVal_lt f2.2
    omega

theorem Two_dd {n : Nat} (h : n < 100) : Two (dd n) n := by
  have := (twoDigits_iff (dd n ++ []) n []).1 (twoDigits_dd n h [])
  obtain ⟨a, ha, e⟩ := this
  simp only [List.append_nil] at e
  rwa [e]

theorem offset_body_iff (s : Str) (v : Nat) : UTCOffset.body s = some v ↔ HourMinute 99 s v := by
  constructor
  · intro h
    unfold UTCOffset.body at h
    split at h
    · cases h
    · next h1 r1 e1 =>
      obtain ⟨a, ha, rfl⟩ := (twoDigits_iff _ _ _).1 e1
      split at h
      · cases h
      · next m r2 e2 =>
        obtain ⟨b, hb, rfl⟩ := (twoDigits_iff _ _ _).1 e2
        split at h
        · cases h
        · next hm =>
          split at h
          · injection h with h
            subst h
            rw [List.append_nil]
            have := Two_lt ha
            exact .hm ha hb (by omega) (by omega)
          · next hne =>
            split at h
            · next sec e3 =>
              obtain ⟨c, hc, e⟩ := (twoDigits_iff _ _ _).1 e3
              rw [List.append_nil] at e
              subst e
              split at h
              · cases h
              · injection h with h
                subst h
                have := Two_lt ha
                rw [← List.append_assoc]
                exact .hms ha hb hc (by omega) (by omega) (by omega)
            · cases h
  · intro h
    cases h with
    | hm ha hb h1 h2 =>
      next a b h m =>
      unfold UTCOffset.body
      rw [(twoDigits_iff (a ++ b) h b).2 ⟨a, ha, rfl⟩]
      simp only
      rw [(twoDigits_iff b m []).2 ⟨b, hb, by simp⟩]
      simp only
      rw [if_neg (by omega)]
    | hms ha hb hc h1 h2 h3 =>
      next a b c h m sec =>
      unfold UTCOffset.body
      rw [(twoDigits_iff (a ++ b ++ c) h (b ++ c)).2 ⟨a, ha, by simp⟩]
      simp only
      rw [(twoDigits_iff (b ++ c) m c).2 ⟨b, hb, rfl⟩]
      simp only
      rw [if_neg (by omega)]
      split
      · have := hc.2; simp at this
      · rw [(twoDigits_iff c sec []).2 ⟨c, hc, by simp⟩]
        simp only
        rw [if_neg (by omega)]

theorem HourMinute_head {k : Nat} {s : Str} {v : Nat} (h : HourMinute k s v) :
    s.head? ≠ some '-' ∧ s.head? ≠ some '+' := by
  have key : ∀ (a : Str) (n : Nat) (r : Str), Two a n → (a ++ r).head? ≠ some '-' ∧ (a ++ r).head? ≠ some '+' := by
    intro a n r ha
    have hd := Dec_head_ne ha.1
    match a, ha.2 with
    | [x, y], _ =>
      constructor
      · intro he
        simp at he
        subst he
        exact absurd rfl (hd [y]).1
      · intro he
        simp at he
        subst he
        exact absurd rfl (hd [y]).2
  cases h with
  | hm ha => exact key _ _ _ ha
  | hms ha => rw [List.append_assoc]; exact key _ _ _ ha

theorem offset_decode_iff (s : Str) (u : Int) : UTCOffset.decode s = .ok u ↔ LooseOffset s u := by
  constructor
  · intro h
    unfold UTCOffset.decode at h
    dsimp only at h
    split at h
    · cases h
    · next v hv =>
      have hv := (offset_body_iff _ _).1 hv
      by_cases h1 : s.head? = some '-'
      · rw [if_pos (Or.inl h1)] at hv
        rw [if_pos h1] at h
        split at h
        · cases h
        · next h0 =>
          injection h with h
          exact ⟨_, _, hv, Or.inr ⟨head_tail h1, h.symm, h0⟩⟩
      · rw [if_neg h1] at h
        injection h with h
        by_cases h2 : s.head? = some '+'
        · rw [if_pos (Or.inr h2)] at hv
          exact ⟨_, _, hv, Or.inl ⟨Or.inr (head_tail h2), h.symm⟩⟩
        · rw [if_neg (by simp [h1, h2])] at hv
          exact ⟨_, _, hv, Or.inl ⟨Or.inl rfl, h.symm⟩⟩
  · rintro ⟨t, v, hv, ⟨rfl | rfl, rfl⟩ | ⟨rfl, rfl, h0⟩⟩
    · obtain ⟨h1, h2⟩ := HourMinute_head hv
      unfold UTCOffset.decode
      simp only [h1, h2, false_or, if_false, (offset_body_iff _ _).2 hv]
    · unfold UTCOffset.decode
      simp [(offset_body_iff _ _).2 hv]
    · unfold UTCOffset.decode
      simp [(offset_body_iff _ _).2 hv, h0]

theorem offset_encode_spec (u : Int) (h : u.natAbs < 86400) :
    ∃ t, HourMinute 23 t u.natAbs ∧ UTCOffset.encode u = (if u < 0 then ['-'] else []) ++ t := by
  rw [UTCOffset.encode_of (by omega)]
  have e : u.natAbs / 60 / 60 % 256 = u.natAbs / 60 / 60 := by omega
  rw [e, if_neg (show ¬ (u.natAbs / 60 / 60 > 99) by omega), List.append_assoc, List.append_assoc]
  refine ⟨_, ?_, rfl⟩
  have ha := Two_dd (n := u.natAbs / 60 / 60) (by omega)
  have hb := Two_dd (n := u.natAbs / 60 % 60) (by omega)
  by_cases h0 : u.natAbs % 60 > 0
  · rw [if_pos h0, ← List.append_assoc]
    have hc := Two_dd (n := u.natAbs % 60) (by omega)
    have := HourMinute.hms (maxHour := 23) ha hb hc (by omega) (by omega) (by omega)
    rwa [show 3600 * (u.natAbs / 60 / 60) + 60 * (u.natAbs / 60 % 60) + u.natAbs % 60 = u.natAbs by omega] at this
  · rw [if_neg h0, List.append_nil]
    have := HourMinute.hm (maxHour := 23) ha hb (by omega) (by omega)
    rwa [show 3600 * (u.natAbs / 60 / 60) + 60 * (u.natAbs / 60 % 60) = u.natAbs by omega] at this

/-! Base 64 -/

theorem sextet_char {n : Nat} (h : n < 64) : sextet (b64Char n) = some n := by
  have : ∀ m : Fin 64, sextet (b64Char m.1) = some m.1 := by decide +kernel
  exact this ⟨n, h⟩

theorem sextet_lt {c : Char} {n : Nat} (h : sextet c = some n) : n < 64 := by
  unfold sextet at h
  dsimp only at h
  repeat' split at h
  all_goals first | cases h; done | (cases h; omega)

theorem sextet_is {c : Char} {n : Nat} (h : sextet c = some n) : c = b64Char n := by
  have key : ∀ k : Fin 128, ∀ m : Fin 64, sextet (Char.ofNat k.1) = some m.1 → Char.ofNat k.1 = b64Char m.1 := by decide +kernel
  have hc : c.toNat < 128 := by
    unfold sextet at h
    dsimp only at h
    repeat' split at h
    all_goals first | cases h; done | omega
  have := key ⟨c.toNat, hc⟩ ⟨n, sextet_lt h⟩
  simpa [h] using this

theorem b64Val_eq (c : Char) : b64Val c = sextet c := by
  cases h : sextet c with
  | some n => rw [sextet_is h, b64Val_b64Char (sextet_lt h)]
  | none =>
    cases h2 : b64Val c with
    | none => rfl
    | some n =>
      exfalso
      have h2 : b64Alphabet.findIdx? (· == c) = some n := h2
      rw [List.findIdx?_eq_some_iff_getElem] at h2
      obtain ⟨hn, he, _⟩ := h2
      have hl : n < 64 := hn
      have : b64Char n = c := by
        unfold b64Char
        rw [List.getD_eq_getElem?_getD, List.getElem?_eq_getElem hn, Option.getD_some]
        exact by simpa using he
      rw [← this, sextet_char hl] at h
      cases h

theorem base64_encode : ∀ (k : Nat) (bs : Bytes), bs.length ≤ k → Base64 0 (b64Encode bs) bs := by
  intro k
  induction k with
  | zero =>
    intro bs h
    have : bs = [] := List.length_eq_zero_iff.1 (by omega)
    subst this; exact .nil
  | succ k ih =>
    intro bs h
    match bs with
    | [] => exact .nil
    | [a] =>
      have ha := a.toNat_lt
      exact .one (sextet_char (by omega)) (sextet_char (by omega)) (by omega) (by omega)
    | [a, b] =>
      have ha := a.toNat_lt
      have hb := b.toNat_lt
      exact .two (sextet_char (by omega)) (sextet_char (by omega)) (sextet_char (by omega)) (by omega) (by omega)
    | a :: b :: c :: r =>
      have ha := a.toNat_lt
      have hb := b.toNat_lt
      have hc := c.toNat_lt
      exact .three (sextet_char (by omega)) (sextet_char (by omega)) (sextet_char (by omega)) (sextet_char (by omega)) (by omega)
        (ih r (by simp at h; omega))

theorem sextet_ne {c : Char} {n : Nat} (h : sextet c = some n) : c ≠ '=' := by
  rintro rfl
  simp [show sextet (Char.ofNat 61) = none from rfl] at h

theorem b64Groups_base64 {pad : Nat} {s : Str} {bs : Bytes} (h : Base64 pad s bs) : b64Groups s = some bs := by
  induction h with
  | nil => rfl
  | @one a b x y o pad h1 h2 hp he =>
    simp only [b64Groups, b64Val_eq, h1, h2, bind, Option.bind]
    congr 2
    exact ofNat_toNat8 _ _ (by omega)
  | @two a b c x y z o o' pad h1 h2 h3 hp he =>
    have hn := sextet_ne h3
    have := o'.toNat_lt
    rw [b64Groups]
    · simp only [b64Val_eq, h1, h2, h3, bind, Option.bind]
      congr 2
      · exact ofNat_toNat8 _ _ (by omega)
      · congr 1; exact ofNat_toNat8 _ _ (by omega)
    · intro h; exact hn h
  | @three a b c d x y z w o o' o'' pad s bs h1 h2 h3 h4 he _ ih =>
    have hn := sextet_ne h4
    have := o'.toNat_lt
    have := o''.toNat_lt
    rw [b64Groups]
    · simp only [b64Val_eq, h1, h2, h3, h4, ih, bind, Option.bind]
      congr 2
      · exact ofNat_toNat8 _ _ (by omega)
      · congr 1
        · exact ofNat_toNat8 _ _ (by omega)
        · congr 1; exact ofNat_toNat8 _ _ (by omega)
    all_goals (intros; grind)

theorem base64_of_groups : ∀ (k : Nat) (s : Str) (bs : Bytes), s.length ≤ k → b64Groups s = some bs → ∃ pad, Base64 pad s bs := by
  intro k
  induction k with
  | zero =>
    intro s bs hk h
    have : s = [] := List.length_eq_zero_iff.1 (by omega)
    subst this
    cases h
    exact ⟨0, .nil⟩
  | succ k ih =>
    intro s bs hk h
    rw [b64Groups.eq_def] at h
    split at h
    · cases h; exact ⟨0, .nil⟩
    · simp only [b64Val_eq, Option.bind_eq_bind, Option.bind_eq_some_iff, Option.some.injEq] at h
      obtain ⟨x, h1, y, h2, rfl⟩ := h
      have := sextet_lt h1
      have := sextet_lt h2
      exact ⟨y % 16, .one h1 h2 (by omega) (by rw [UInt8.toNat_ofNat']; omega)⟩
    · simp only [b64Val_eq, Option.bind_eq_bind, Option.bind_eq_some_iff, Option.some.injEq] at h
      obtain ⟨x, h1, y, h2, z, h3, rfl⟩ := h
      have := sextet_lt h1
      have := sextet_lt h2
      have := sextet_lt h3
      exact ⟨z % 4, .two h1 h2 h3 (by omega) (by rw [UInt8.toNat_ofNat', UInt8.toNat_ofNat']; omega)⟩
    · next a b c d r _ _ =>
      simp only [b64Val_eq, Option.bind_eq_bind, Option.bind_eq_some_iff, Option.some.injEq] at h
      obtain ⟨x, h1, y, h2, z, h3, w, h4, bs', h5, rfl⟩ := h
      have := sextet_lt h1
      have := sextet_lt h2
      have := sextet_lt h3
      have := sextet_lt h4
      obtain ⟨pad, hp⟩ := ih r bs' (by simp at hk; omega) h5
      exact ⟨pad, .three h1 h2 h3 h4 (by rw [UInt8.toNat_ofNat', UInt8.toNat_ofNat', UInt8.toNat_ofNat']; omega) hp⟩
    · cases h

theorem b64Groups_iff (s : Str) (bs : Bytes) : b64Groups s = some bs ↔ ∃ pad, Base64 pad s bs :=
  ⟨base64_of_groups _ s bs (Nat.le_refl _), fun ⟨_, h⟩ => b64Groups_base64 h⟩

end Ics
