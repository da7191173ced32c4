import Verif.Spec.Raw
import Verif.FolderLemmas
import Verif.MeaningLemmas
/-!
# Lemmas: calendars with strings that are not UTF-8
-/

namespace Ics

open Spec

/-! ## Octets and runes -/

/-- Begins with an ASCII character, or is empty. -/
def AsciiStart (b : Bytes) : Prop := ∀ x r, b = x :: r → x.toNat < 128

theorem AsciiStart.nil : AsciiStart [] := nofun

theorem AsciiStart.cons {x : UInt8} (h : x.toNat < 128) (r : Bytes) : AsciiStart (x :: r) := by
  intro y q e
  cases e
  exact h

theorem AsciiStart.append {a b : Bytes} (ha : AsciiStart a) (hb : AsciiStart b) : AsciiStart (a ++ b) := by
  cases a with
  | nil => exact hb
  | cons x r => exact .cons (ha x r rfl) _

theorem AsciiStart.utf8 {c : Char} (h : c.toNat < 128) (s : Str) (r : Bytes) : AsciiStart (utf8 (c :: s) ++ r) := by
  rw [utf8_cons, encodeChar_ascii c h]
  refine .cons ?_ _
  rw [UInt8.toNat_ofNat']
  omega

theorem runes_ascii {x : UInt8} (h : x.toNat < 128) (r : Bytes) : runes (x :: r) = Char.ofNat x.toNat :: runes r := by
  have hv : (Char.ofNat x.toNat).toNat = x.toNat := by
    unfold Char.ofNat
    rw [dif_pos (.inl (by omega))]
    rfl
  have := runes_good (Char.ofNat x.toNat) r
  rw [encodeChar_ascii _ (by omega), hv] at this
  simpa using this

theorem not_a_rune {b : UInt8} {r : Bytes} (h : decodeRune (b :: r) = (0xFFFD, 1)) (c : Char) (q : Bytes) : b :: r ≠ encodeChar c ++ q := by
  intro e
  rw [e, decodeRune_encodeChar] at h
  injection h with h1 h2
  have : c = '�' := by rw [← Char_ofNat_toNat c, h1]
  subst this
  exact absurd h2 (by decide)

/-- Octets are taken for the same runes whatever ASCII comes behind them. -/
theorem runes_split (t : Bytes) {b : Bytes} (hb : AsciiStart b) : runes (t ++ b) = runes t ++ runes b := by
  induction t using runes_induction with
  | nil => rfl
  | good c r ih => rw [List.append_assoc, runes_good, runes_good, ih]; rfl
  | bad x r h1 h2 ih =>
    rw [runes_bad h2, List.cons_append, List.cons_append, ← ih]
    rcases decodeRune_step x (r ++ b) with ⟨h, _⟩ | ⟨c, _, q, h⟩
    · exact runes_bad h
    · exfalso
      have hc : 128 ≤ c.toNat := by
        by_cases hc : c.toNat < 128
        · rw [encodeChar_ascii c hc] at h
          injection h with h _
          rw [h, UInt8.toNat_ofNat'] at h1
          omega
        · omega
      rw [← List.cons_append] at h
      rcases List.append_eq_append_iff.1 h with ⟨w, e1, e2⟩ | ⟨w, e1, e2⟩
      · cases w with
        | nil => exact not_a_rune h2 c [] (by rw [e1]; simp)
        | cons y w =>
          have h3 := hb y (w ++ q) (by rw [e2]; rfl)
          have h4 := encodeChar_high c hc y (by rw [e1]; simp)
          omega
      · exact not_a_rune h2 c w e1

/-- A property of the ASCII characters alone holds for some octet if it holds for some rune. -/
theorem any_runes (p : Nat → Bool) (hp : ∀ n, 128 ≤ n → p n = false) (t : Bytes) : t.any (fun b => p b.toNat) = (runes t).any (fun c => p c.toNat) := by
  induction t using runes_induction with
  | nil => rfl
  | bad b r h1 h2 ih =>
    rw [runes_bad h2, List.any_cons, List.any_cons, ih, hp _ h1, hp _ (by decide)]
  | good c r ih =>
    rw [runes_good, List.any_append, List.any_cons, ih]
    congr 1
    by_cases h : c.toNat < 128
    · rw [encodeChar_ascii c h]
      simp only [List.any_cons, List.any_nil, Bool.or_false]
      rw [UInt8.toNat_ofNat', Nat.mod_eq_of_lt (by omega)]
    · rw [hp _ (by omega), List.any_eq_false]
      intro b hb
      rw [hp _ (encodeChar_high c (by omega) b hb)]
      simp

theorem char_eq_iff (c d : Char) : (c == d) = (c.toNat == d.toNat) := by
  rw [Bool.eq_iff_iff, beq_iff_eq, beq_iff_eq]
  refine ⟨fun h => by rw [h], fun h => ?_⟩
  rw [← Char_ofNat_toNat c, ← Char_ofNat_toNat d, h]

theorem any_esc (t : Bytes) : t.any isEsc6868B = (runes t).any isEsc6868 := by
  have := any_runes (fun n => n == 0x0a || n == 0x5e || n == 0x22) (fun n h => by
    have : n ≠ 10 ∧ n ≠ 94 ∧ n ≠ 34 := by omega
    simp [this.1, this.2.1, this.2.2]) t
  have e : isEsc6868 = fun c : Char => c.toNat == 0x0a || c.toNat == 0x5e || c.toNat == 0x22 := by
    funext c
    unfold isEsc6868
    rw [char_eq_iff, char_eq_iff, char_eq_iff]
    rfl
  rw [e]
  exact this

theorem any_special (t : Bytes) : t.any isSpecialB = (runes t).any isSpecial := by
  have := any_runes (fun n => n == 0x22 || n == 0x3b || n == 0x3a || n == 0x2c) (fun n h => by
    have : n ≠ 34 ∧ n ≠ 59 ∧ n ≠ 58 ∧ n ≠ 44 := by omega
    simp [this.1, this.2.1, this.2.2.1, this.2.2.2]) t
  have e : isSpecial = fun c : Char => c.toNat == 0x22 || c.toNat == 0x3b || c.toNat == 0x3a || c.toNat == 0x2c := by
    funext c
    unfold isSpecial
    rw [char_eq_iff, char_eq_iff, char_eq_iff, char_eq_iff]
    rfl
  rw [e]
  exact this

theorem runes_eq_nil {t : Bytes} : runes t = [] ↔ t = [] := by
  cases t with
  | nil => exact ⟨fun _ => rfl, fun _ => rfl⟩
  | cons b r => simp [runes_cons]

/-- Where an ASCII character is in the runes, it is in the octets. -/
theorem runes_find {t : Bytes} : ∀ {x : Str} {c : Char} {y : Str}, runes t = x ++ c :: y → c.toNat < 128 → ∃ t1 t2, t = t1 ++ UInt8.ofNat c.toNat :: t2 ∧ runes t1 = x ∧ runes t2 = y := by
  induction t using runes_induction with
  | nil => intro x c y h _; simp [runes, runesF] at h
  | bad b r h1 h2 ih =>
    intro x c y h hc
    rw [runes_bad h2] at h
    cases x with
    | nil => simp at h; rw [← h.1] at hc; exact absurd hc (by decide)
    | cons d x =>
      simp only [List.cons_append, List.cons.injEq] at h
      obtain ⟨t1, t2, e1, e2, e3⟩ := ih h.2 hc
      refine ⟨b :: t1, t2, by rw [e1]; rfl, ?_, e3⟩
      have hs := runes_split (b :: t1) (b := UInt8.ofNat c.toNat :: t2) (.cons (by rw [UInt8.toNat_ofNat']; omega) _)
      rw [List.cons_append, ← e1, runes_bad h2, h.2, runes_ascii (x := UInt8.ofNat c.toNat) (by rw [UInt8.toNat_ofNat']; omega), e3, UInt8.toNat_ofNat', Nat.mod_eq_of_lt (by omega), Char_ofNat_toNat] at hs
      rw [← List.cons_append] at hs
      rw [← h.1]
      exact (List.append_cancel_right hs).symm
  | good d r ih =>
    intro x c y h hc
    rw [runes_good] at h
    cases x with
    | nil =>
      simp only [List.nil_append, List.cons.injEq] at h
      refine ⟨[], r, ?_, rfl, h.2⟩
      rw [h.1, encodeChar_ascii c hc]
      rfl
    | cons d' x =>
      simp only [List.cons_append, List.cons.injEq] at h
      obtain ⟨t1, t2, e1, e2, e3⟩ := ih h.2 hc
      exact ⟨encodeChar d ++ t1, t2, by rw [e1]; simp, by rw [runes_good, e2, h.1], e3⟩

/-! ## Parameters -/

theorem takeWhile_every {α : Type} (p : α → Bool) : ∀ l : List α, l.any (fun x => !p x) = false → l.takeWhile p = l ∧ l.dropWhile p = []
  | [], _ => ⟨rfl, rfl⟩
  | a :: l, h => by
    simp only [List.any_cons, Bool.or_eq_false_iff, Bool.not_eq_false'] at h
    simp [h.1, takeWhile_every p l h.2]

theorem dropWhile_some {α : Type} (p : α → Bool) : ∀ l : List α, l.any (fun x => !p x) = true → ∃ a r, l.dropWhile p = a :: r ∧ p a = false
  | [], h => by simp at h
  | a :: l, h => by
    cases ha : p a with
    | false => exact ⟨a, l, by simp [ha], ha⟩
    | true =>
      simp only [List.any_cons, ha, Bool.not_true, Bool.false_or] at h
      obtain ⟨b, r, h1, h2⟩ := dropWhile_some p l h
      exact ⟨b, r, by simp [ha, h1], h2⟩

theorem encode6868B_eq (t : Bytes) : encode6868B t = if t.any isEsc6868B then none else some t := by
  unfold encode6868B Enc6868B.step
  cases h : t.any isEsc6868B with
  | false =>
    have := takeWhile_every (fun c => !isEsc6868B c) t (by simpa using h)
    simp [this.1, this.2]
  | true =>
    obtain ⟨a, r, h1, _⟩ := dropWhile_some (fun c => !isEsc6868B c) t (by simpa using h)
    simp [h1]

/-- Once it does not return in the first round, `encode6868` never does. -/
theorem encode6868B_rounds (t : Bytes) (h : encode6868B t = none) (n : Nat) : ∃ s d, Enc6868B.rounds n (.run t []) = .run s d := by
  rw [encode6868B_eq] at h
  have h : t.any isEsc6868B = true := by
    cases ht : t.any isEsc6868B with
    | false => rw [ht] at h; cases h
    | true => rfl
  have key : ∀ n (s d : Bytes), s.any isEsc6868B = true → ∃ s' d', Enc6868B.rounds n (.run s d) = .run s' d' := by
    intro n
    induction n with
    | zero => intro s d _; exact ⟨s, d, rfl⟩
    | succ n ih =>
      intro s d hs
      obtain ⟨a, r, h1, h2⟩ := dropWhile_some (fun c => !isEsc6868B c) s (by simpa using hs)
      have ha : isEsc6868B a = true := by simpa using h2
      unfold Enc6868B.rounds Enc6868B.step
      simp only [h1]
      exact ih _ _ (by simp [ha])
  exact key n t [] h

theorem encode6868_any (s : Str) : encode6868 s = if s.any isEsc6868 then none else some s := by
  unfold encode6868 Enc6868.step
  cases h : s.any isEsc6868 with
  | false =>
    have := takeWhile_every (fun c => !isEsc6868 c) s (by simpa using h)
    simp [this.1, this.2]
  | true =>
    obtain ⟨a, r, h1, _⟩ := dropWhile_some (fun c => !isEsc6868 c) s (by simpa using h)
    simp only [h1, if_true]
    split
    · next h => split at h <;> first | contradiction | cases h
    · rfl

theorem encode6868B_runes (t : Bytes) : (encode6868B t).map runes = encode6868 (runes t) := by
  rw [encode6868B_eq, encode6868_any, any_esc]
  split <;> rfl

theorem fmtMatchB_iff : ∀ t : Bytes, fmtMatchB t = true ↔ ∃ p a b r, t = p ++ a :: 0x2f :: b :: r ∧ isFmtByte a = true ∧ isFmtByte b = true
  | [] => by simp [fmtMatchB]
  | [x] => by
    simp only [fmtMatchB, Bool.false_eq_true, false_iff]
    rintro ⟨p, a, b, r, h, _⟩
    have := congrArg List.length h
    simp at this
    omega
  | [x, y] => by
    simp only [fmtMatchB, Bool.false_eq_true, false_iff]
    rintro ⟨p, a, b, r, h, _⟩
    have := congrArg List.length h
    simp at this
    omega
  | x :: s :: y :: q => by
    rw [fmtMatchB, Bool.or_eq_true, fmtMatchB_iff (s :: y :: q)]
    constructor
    · rintro (h | ⟨p, a, b, r, h, h'⟩)
      · simp only [Bool.and_eq_true, beq_iff_eq] at h
        have : s = 0x2f := UInt8.toNat_inj.1 h.1.1
        exact ⟨[], x, y, q, by rw [this]; rfl, h.1.2, h.2⟩
      · exact ⟨x :: p, a, b, r, by rw [h]; rfl, h'⟩
    · rintro ⟨p, a, b, r, h, h1, h2⟩
      cases p with
      | nil =>
        simp only [List.nil_append, List.cons.injEq] at h
        obtain ⟨rfl, rfl, rfl, rfl⟩ := h
        exact .inl (by simp [h1, h2])
      | cons z p =>
        simp only [List.cons_append, List.cons.injEq] at h
        exact .inr ⟨p, a, b, r, h.2, h1, h2⟩


theorem isFmtByte_iff (b : UInt8) : isFmtByte b = true ↔ (97 ≤ b.toNat ∧ b.toNat ≤ 122) ∨ (43 ≤ b.toNat ∧ b.toNat ≤ 94) ∨ b.toNat = 33 ∨ b.toNat = 35 ∨ b.toNat = 36 ∨ b.toNat = 38 ∨ b.toNat = 95 := by
  unfold isFmtByte
  simp only [Bool.or_eq_true, Bool.and_eq_true, decide_eq_true_eq, beq_iff_eq, or_assoc]

theorem fmtMatchB_runes (t : Bytes) : fmtMatchB t = fmtMatch (runes t) := by
  rw [Bool.eq_iff_iff, fmtMatchB_iff, fmtMatch_iff]
  have low : ∀ n : Nat, ((97 ≤ n ∧ n ≤ 122) ∨ (43 ≤ n ∧ n ≤ 94) ∨ n = 33 ∨ n = 35 ∨ n = 36 ∨ n = 38 ∨ n = 95) → n < 128 := by intro n h; omega
  have val : ∀ n, n < 128 → (Char.ofNat n).toNat = n := by
    intro n h
    unfold Char.ofNat
    rw [dif_pos (.inl (by omega))]
    rfl
  constructor
  · rintro ⟨p, a, b, r, rfl, h1, h2⟩
    rw [isFmtByte_iff] at h1 h2
    have ha := low _ h1
    have hb := low _ h2
    refine ⟨runes p, Char.ofNat a.toNat, Char.ofNat b.toNat, runes r, ?_, by unfold FormatChar; rw [val _ ha]; exact h1, by unfold FormatChar; rw [val _ hb]; exact h2⟩
    rw [runes_split p (.cons ha _), runes_ascii ha, runes_ascii (x := 0x2f) (by decide), runes_ascii hb]
    rfl
  · rintro ⟨x, a, b, y, h, h1, h2⟩
    have ha := low _ h1
    have hb := low _ h2
    obtain ⟨t1, t2, e1, _, e2⟩ := runes_find h ha
    obtain ⟨t3, t4, e3, e4, e5⟩ := runes_find (x := []) e2 (by decide)
    obtain ⟨t5, t6, e6, e7, _⟩ := runes_find (x := []) e5 hb
    rw [runes_eq_nil] at e4 e7
    subst e4; subst e7; subst e6; subst e3
    refine ⟨t1, _, _, t6, e1, ?_, ?_⟩
    · rw [isFmtByte_iff, UInt8.toNat_ofNat', Nat.mod_eq_of_lt (by omega)]; exact h1
    · rw [isFmtByte_iff, UInt8.toNat_ofNat', Nat.mod_eq_of_lt (by omega)]; exact h2

/-- What is written as octets is taken for this text, whatever comes before. -/
structure Fits (x : Option Bytes) (y : Option Str) : Prop where
  text : x.map runes = y
  start : ∀ b, x = some b → AsciiStart b

theorem fits_nil : Fits (some []) (some []) := ⟨rfl, fun _ h => by cases h; exact .nil⟩

theorem fits_utf8 {c : Char} (h : c.toNat < 128) (s : Str) : Fits (some (utf8 (c :: s))) (some (c :: s)) :=
  ⟨by rw [Option.map_some, runes_utf8], fun b e => by cases e; simpa using AsciiStart.utf8 h s []⟩

/-- A parameter: its name, and octets behind it. -/
theorem fits_pre {name : Str} {x : Option Bytes} {y : Option Str} (h : x.map runes = y) : Fits (x.map (utf8 (';' :: name ++ ['=']) ++ ·)) (y.map ((';' :: name ++ ['=']) ++ ·)) := by
  subst h
  refine ⟨?_, ?_⟩
  · cases x with
    | none => rfl
    | some b => simp only [Option.map_some, runes_append]
  · intro b e
    obtain ⟨a, _, rfl⟩ := Option.map_eq_some_iff.1 e
    exact AsciiStart.utf8 (by decide) _ _

theorem runes_quoteB (t : Bytes) : runes (quoteB t) = quote (runes t) := by
  unfold quoteB quote
  rw [List.cons_append, runes_ascii (x := 0x22) (by decide), runes_split t (.cons (by decide) _), runes_ascii (x := 0x22) (by decide)]
  rfl

theorem commasB_runes {α : Type} (f : α → Option Bytes) (g : α → Option Str) (h : ∀ a, (f a).map runes = g a) : ∀ l : List α, (commasB (l.map f)).map runes = commas (l.map g)
  | [] => rfl
  | [a] => h a
  | a :: b :: l => by
    have ih := commasB_runes f g h (b :: l)
    simp only [List.map_cons] at ih ⊢
    rw [commasB, commas]
    · rw [← ih, ← h a]
      cases f a with
      | none => rfl
      | some x =>
        cases commasB (f b :: l.map f) with
        | none => rfl
        | some y =>
          show some (runes (x ++ 0x2c :: y)) = some _
          rw [runes_split x (.cons (by decide) _), runes_ascii (x := 0x2c) (by decide)]
          rfl
    · simp
    · simp

theorem PKind.encodeB_fits {E : Env} {O : Octets} (hO : OctetsOf E O) (name : Str) (k : PKind) (v : RawParam) : Fits (k.encodeB E O name v) (k.encode E name (softParam v)) := by
  have str : ∀ (q : Bool) (s : Bytes), Fits (if s = [] then some [] else (encode6868B s).map fun e => utf8 (';' :: name ++ ['=']) ++ (if q || s.any isSpecialB then quoteB e else e))
      (if runes s = [] then some [] else (encode6868 (runes s)).map fun e => (';' :: name ++ ['=']) ++ (if q || containsAny isSpecial (runes s) then quote e else e)) := by
    intro q s
    by_cases hs : s = []
    · rw [if_pos hs, if_pos (runes_eq_nil.2 hs)]; exact fits_nil
    · rw [if_neg hs, if_neg (mt runes_eq_nil.1 hs)]
      have h : ((encode6868B s).map fun e => if q || s.any isSpecialB then quoteB e else e).map runes =
          (encode6868 (runes s)).map fun e => if q || containsAny isSpecial (runes s) then quote e else e := by
        rw [← encode6868B_runes, containsAny, any_special]
        cases encode6868B s with
        | none => rfl
        | some e =>
          simp only [Option.map_some, Option.some.injEq]
          split
          · exact runes_quoteB e
          · rfl
      have := fits_pre (name := name) h
      simpa only [Option.map_map, Function.comp_def] using this
  have other : ∀ (x : Option Str), (∀ s, x = some s → s = [] ∨ ∃ r, s = ';' :: r) → Fits (x.map utf8) x := by
    intro x hx
    refine ⟨?_, ?_⟩
    · cases x with
      | none => rfl
      | some s => simp only [Option.map_some, runes_utf8]
    · intro b e
      obtain ⟨s, h1, rfl⟩ := Option.map_eq_some_iff.1 e
      rcases hx s h1 with rfl | ⟨r, rfl⟩
      · exact .nil
      · simpa using AsciiStart.utf8 (c := ';') (by decide) r []
  have starts : ∀ (w : ParamVal) s, k.encode E name w = some s → s = [] ∨ ∃ r, s = ';' :: r := by
    intro w s h
    unfold PKind.encode at h
    dsimp only at h
    split at h
    all_goals (try split at h)
    all_goals first
      | (cases h; exact .inl rfl)
      | (cases h; exact .inr ⟨_, rfl⟩)
      | (obtain ⟨a, _, rfl⟩ := Option.map_eq_some_iff.1 h; exact .inr ⟨_, rfl⟩)
  have range : Fits (some (utf8 (';' :: name ++ ['=']) ++ utf8 c!"THISANDFUTURE")) (some ((';' :: name ++ ['=']) ++ c!"THISANDFUTURE")) :=
    fits_pre (name := name) (x := some (utf8 c!"THISANDFUTURE")) (y := some c!"THISANDFUTURE") (by rw [Option.map_some, runes_utf8])
  cases v with
  | str s =>
    cases k with
    | str q => exact str q s
    | fmt => have := str false s; rw [Bool.false_or, Bool.false_or] at this; exact this
    | range => exact range
    | _ => exact fits_nil
  | strs ss =>
    cases k with
    | strs =>
      show Fits (if ss = [] then some [] else (commasB (ss.map fun s => (encode6868B s).map quoteB)).map (utf8 (';' :: name ++ ['=']) ++ ·))
        (if ss.map runes = [] then some [] else (commas ((ss.map runes).map fun s => (encode6868 s).map quote)).map ((';' :: name ++ ['=']) ++ ·))
      by_cases hs : ss = []
      · rw [if_pos hs, if_pos (by rw [hs]; rfl)]; exact fits_nil
      · rw [if_neg hs, if_neg (by simpa using hs), List.map_map]
        refine fits_pre (commasB_runes _ _ (fun s => ?_) ss)
        rw [Function.comp_apply, ← encode6868B_runes]
        cases encode6868B s with
        | none => rfl
        | some e => simp only [Option.map_some, runes_quoteB]
    | range => exact range
    | _ => exact fits_nil
  | other w =>
    have gen := other _ (starts w)
    cases k with
    | url =>
      cases w with
      | url u =>
        show Fits (if O.url u = [] then some [] else some (utf8 (';' :: name ++ ['=']) ++ O.url u)) (if E.urlString u = [] then some [] else some ((';' :: name ++ ['=']) ++ E.urlString u))
        rw [hO.url]
        by_cases hs : O.url u = []
        · rw [if_pos hs, if_pos (runes_eq_nil.2 hs)]; exact fits_nil
        · rw [if_neg hs, if_neg (mt runes_eq_nil.1 hs)]
          exact fits_pre (x := some (O.url u)) rfl
      | _ => exact gen
    | urls =>
      cases w with
      | urls us =>
        show Fits (if us = [] then some [] else (commasB (us.map fun u => some (O.url u))).map (utf8 (';' :: name ++ ['=']) ++ ·))
          (if us = [] then some [] else (commas (us.map fun u => some (E.urlString u))).map ((';' :: name ++ ['=']) ++ ·))
        by_cases hs : us = []
        · rw [if_pos hs, if_pos hs]; exact fits_nil
        · rw [if_neg hs, if_neg hs]
          exact fits_pre (commasB_runes _ _ (fun u => by rw [hO.url]; rfl) us)
      | _ => exact gen
    | range => exact range
    | _ => exact gen

theorem PKind.validB_soft (k : PKind) (v : RawParam) : k.validB v = k.valid (softParam v) := by
  cases v with
  | str s =>
    cases k with
    | str q =>
      show Res.guard _ _ = Res.guard _ _
      rw [any_ctl]; rfl
    | fmt =>
      show Res.guard _ _ = Res.guard _ _
      rw [fmtMatchB_runes]
    | _ => rfl
  | strs ss =>
    cases k with
    | strs =>
      show Res.guard _ _ = Res.guard _ _
      congr 1
      induction ss with
      | nil => rfl
      | cons s ss ih => rw [List.map_cons, List.all_cons, List.all_cons, ih, any_ctl]; rfl
    | _ => rfl
  | other w => cases k <;> rfl

/-! ## Values -/

theorem writeTimezoneB_runes {E : Env} {O : Octets} (hO : OctetsOf E O) (t : GoTime) : runes (writeTimezoneB O t) = writeTimezone t ∧ AsciiStart (writeTimezoneB O t) := by
  unfold writeTimezoneB writeTimezone
  cases h : t.loc with
  | utc => exact ⟨rfl, .nil⟩
  | «local» => exact ⟨rfl, .nil⟩
  | zone n p r =>
    dsimp only
    refine ⟨?_, AsciiStart.utf8 (by decide) _ _⟩
    rw [runes_append, ← hO.zone]

theorem RawVal.head_runes {E : Env} {O : Octets} (hO : OctetsOf E O) (v : RawVal) : runes (v.head_ O) = (softVal v).head_ ∧ AsciiStart (v.head_ O) := by
  cases v with
  | text t => exact ⟨rfl, .nil⟩
  | mtext t => exact ⟨rfl, .nil⟩
  | other w =>
    cases w
    case binary => exact ⟨runes_utf8 _, by
      have := AsciiStart.utf8 (c := ';') (by decide) c!"ENCODING=BASE64" []
      rw [List.append_nil] at this
      exact this⟩
    case dateTime t => exact writeTimezoneB_runes hO t
    case period p => exact writeTimezoneB_runes hO p.start
    case recur r => exact writeTimezoneB_runes hO r.until_
    all_goals exact ⟨rfl, .nil⟩

theorem RawVal.text_runes {E : Env} {O : Octets} (hO : OctetsOf E O) (v : RawVal) : runes (v.text_ E O) = (softVal v).text_ E := by
  cases v with
  | text t => show runes (Text.encodeB t) = Text.encode (runes t); rw [Text.encodeB_eq, runes_utf8]
  | mtext ts => show runes (MText.encodeB ts) = MText.encode (ts.map runes); rw [MText.encodeB_eq, runes_utf8]
  | other w =>
    cases w
    case calAddress u => exact (hO.url u).symm
    case uri u => exact (hO.url u).symm
    all_goals exact runes_utf8 _

theorem RawVal.aencode_runes {E : Env} {O : Octets} (hO : OctetsOf E O) (v : RawVal) : runes (v.aencode E O) = (softVal v).aencode E ∧ AsciiStart (v.aencode E O) := by
  unfold RawVal.aencode Val.aencode
  obtain ⟨h1, h2⟩ := RawVal.head_runes hO v
  refine ⟨?_, h2.append (.cons (by decide) _)⟩
  rw [runes_split _ (.cons (by decide) _), runes_ascii (x := 0x3a) (by decide), h1, RawVal.text_runes hO]
  rfl

theorem RawVal.valid_soft (v : RawVal) : v.valid = (softVal v).valid := by
  cases v with
  | text t => exact Text.validB_eq t
  | mtext ts => exact MText.validB_eq ts
  | other w => rfl

/-! ## Properties -/

theorem catB_fits : ∀ {xs : List (Option Bytes)} {ys : List (Option Str)}, Pairwise2 Fits xs ys → Fits (catB xs) (cat ys)
  | _, _, .nil => fits_nil
  | _, _, .cons (a := x) (b := y) (as := xs) (bs := ys) h hs => by
    have ih := catB_fits hs
    obtain ⟨h1, h2⟩ := h
    obtain ⟨i1, i2⟩ := ih
    subst h1
    unfold catB cat
    rw [← i1]
    cases hx : x with
    | none => exact ⟨rfl, nofun⟩
    | some a =>
      cases hc : catB xs with
      | none => exact ⟨rfl, nofun⟩
      | some b =>
        refine ⟨?_, ?_⟩
        · show some (runes (a ++ b)) = some _
          rw [runes_split a (i2 b hc)]
        · intro c e
          cases e
          exact (h2 a hx).append (i2 b hc)

theorem encParamsB_fits {E : Env} {O : Octets} (hO : OctetsOf E O) : ∀ (ds : List PDef) (ps : List (Option RawParam)), Pairwise2 Fits (encParamsB E O ds ps) (encParams E ds (ps.map (Option.map softParam)))
  | [], _ => by simp only [encParamsB, encParams]; exact .nil
  | _ :: _, [] => by simp only [encParamsB, encParams, List.map_nil]; exact .nil
  | d :: ds, p :: ps => by
    simp only [encParamsB, encParams, List.map_cons]
    refine .cons ?_ (encParamsB_fits hO ds ps)
    cases p with
    | none => exact fits_nil
    | some v => exact PKind.encodeB_fits hO d.name d.kind v

theorem encValsB_runes {E : Env} {O : Octets} (hO : OctetsOf E O) : ∀ (first : Bool) (ks : List (Str × Kind)) (vs : List (Option RawVal)),
    runes (encValsB E O first ks vs) = encVals E first ks (vs.map (Option.map softVal)) ∧ AsciiStart (encValsB E O first ks vs)
  | _, [], _ => by simp only [encValsB, encVals]; exact ⟨rfl, .nil⟩
  | _, _ :: _, [] => by simp only [encValsB, encVals, List.map_nil]; exact ⟨rfl, .nil⟩
  | first, (n, k) :: ks, v :: vs => by
    obtain ⟨i1, i2⟩ := encValsB_runes hO false ks vs
    simp only [encValsB, encVals, List.map_cons]
    cases v with
    | none => exact ⟨i1, i2⟩
    | some v =>
      obtain ⟨h1, h2⟩ := RawVal.aencode_runes hO v
      simp only [Option.map_some]
      cases first with
      | true => exact ⟨by rw [if_pos rfl, if_pos rfl, List.nil_append, List.nil_append, runes_split _ i2, h1, i1], by rw [if_pos rfl]; exact h2.append i2⟩
      | false =>
        refine ⟨?_, ?_⟩
        · rw [if_neg (by simp), if_neg (by simp), runes_split _ i2, runes_append, h1, i1]
        · rw [if_neg (by simp), List.append_assoc]; exact AsciiStart.utf8 (by decide) _ _

/-- What is written as octets is taken for this text, whatever comes behind it. -/
structure Ends6 (x : Option Bytes) (y : Option Str) : Prop where
  text : x.map runes = y
  closed : ∀ b, x = some b → ∀ r, runes (b ++ r) = runes b ++ runes r

theorem ends6_utf8 (s : Str) : Ends6 (some (utf8 s)) (some s) :=
  ⟨by rw [Option.map_some, runes_utf8], fun b e r => by cases e; rw [runes_append, runes_utf8]⟩

theorem PSpec.encodeB_ends {E : Env} {O : Octets} (hO : OctetsOf E O) (sp : PSpec) (v : RawProp) : Ends6 (sp.encodeB E O v) (sp.encode E (softProp v)) := by
  unfold PSpec.encodeB PSpec.encode
  have nil : Ends6 (some []) (some []) := ends6_utf8 []
  cases hs : sp.shape with
  | enum names =>
    cases v with
    | enum n => exact ends6_utf8 _
    | fields ps vs => exact nil
  | fields params vals =>
    cases v with
    | enum n => exact nil
    | fields ps vs =>
      obtain ⟨h1, h2⟩ := catB_fits (encParamsB_fits hO params ps)
      obtain ⟨h3, h4⟩ := encValsB_runes hO true vals vs
      show Ends6 ((catB (encParamsB E O params ps)).map fun t => utf8 sp.name ++ t ++ encValsB E O true vals vs ++ utf8 crlf)
        ((cat (encParams E params (ps.map (Option.map softParam)))).map fun t => sp.name ++ t ++ encVals E true vals (vs.map (Option.map softVal)) ++ crlf)
      rw [← h1]
      cases catB (encParamsB E O params ps) with
      | none => exact ⟨rfl, nofun⟩
      | some t =>
        have key : ∀ r, runes (utf8 sp.name ++ t ++ encValsB E O true vals vs ++ utf8 crlf ++ r) = sp.name ++ runes t ++ encVals E true vals (vs.map (Option.map softVal)) ++ crlf ++ runes r := by
          intro r
          have hc : AsciiStart (utf8 crlf ++ r) := AsciiStart.utf8 (c := '\r') (by decide) ['\n'] r
          rw [List.append_assoc, List.append_assoc, List.append_assoc, runes_append, runes_split t (h4.append hc), runes_split _ hc, runes_append, h3]
          simp only [List.append_assoc]
        have key0 : runes (utf8 sp.name ++ t ++ encValsB E O true vals vs ++ utf8 crlf) = sp.name ++ runes t ++ encVals E true vals (vs.map (Option.map softVal)) ++ crlf := by
          have := key []
          rw [List.append_nil, show runes [] = [] from rfl, List.append_nil] at this
          exact this
        refine ⟨by simp only [Option.map_some, key0], fun b e r => ?_⟩
        simp only [Option.map_some, Option.some.injEq] at e
        rw [← e, key, key0]

theorem validParamsB_soft : ∀ (ds : List PDef) (ps : List (Option RawParam)), validParamsB ds ps = validParams ds (ps.map (Option.map softParam))
  | [], _ => by simp only [validParamsB, validParams]
  | _ :: _, [] => by simp only [validParamsB, validParams, List.map_nil]
  | d :: ds, p :: ps => by
    simp only [validParamsB, validParams, List.map_cons, validParamsB_soft ds ps]
    cases p with
    | none => rfl
    | some v => simp only [Option.map_some, PKind.validB_soft]

theorem validValsB_soft : ∀ vs : List (Option RawVal), validValsB vs = validVals (vs.map (Option.map softVal))
  | [] => rfl
  | v :: vs => by
    simp only [validValsB, validVals, List.map_cons, validValsB_soft vs]
    cases v with
    | none => rfl
    | some v => simp only [Option.map_some, RawVal.valid_soft]

theorem some_count {α β : Type} (f : α → β) (vs : List (Option α)) : ((vs.map (Option.map f)).filter (·.isSome)).length = (vs.filter (·.isSome)).length := by
  induction vs with
  | nil => rfl
  | cons v vs ih =>
    cases v with
    | none => simpa using ih
    | some v => simpa using ih

theorem PSpec.validB_soft (sp : PSpec) (v : RawProp) : sp.validB v = sp.valid (softProp v) := by
  unfold PSpec.validB PSpec.valid
  cases sp.shape with
  | enum names => cases v <;> rfl
  | fields params vals =>
    cases v with
    | enum n => rfl
    | fields ps vs =>
      simp only [softProp, validParamsB_soft, validValsB_soft, some_count]

/-! ## Sections -/

theorem catB_ends : ∀ {xs : List (Option Bytes)} {ys : List (Option Str)}, Pairwise2 Ends6 xs ys → Ends6 (catB xs) (cat ys)
  | _, _, .nil => ends6_utf8 []
  | _, _, .cons (a := x) (b := y) (as := xs) (bs := ys) h hs => by
    have ih := catB_ends hs
    obtain ⟨h1, h2⟩ := h
    obtain ⟨i1, i2⟩ := ih
    subst h1
    unfold catB cat
    rw [← i1]
    cases hx : x with
    | none => exact ⟨rfl, nofun⟩
    | some a =>
      cases hc : catB xs with
      | none => exact ⟨rfl, nofun⟩
      | some b =>
        refine ⟨?_, ?_⟩
        · show some (runes (a ++ b)) = some _
          rw [h2 a hx]
        · intro c e r
          cases e
          rw [List.append_assoc, h2 a hx, i2 b hc, h2 a hx, List.append_assoc]

theorem Spec.Pairwise2.chain {α β : Type} {R : α → β → Prop} : ∀ {as as' : List α} {bs bs' : List β}, Pairwise2 R as bs → Pairwise2 R as' bs' → Pairwise2 R (as ++ as') (bs ++ bs')
  | _, _, _, _, .nil, h => h
  | _, _, _, _, .cons h hs, h' => .cons h (Pairwise2.chain hs h')

theorem Spec.Pairwise2.both {α β γ : Type} {R : β → γ → Prop} (f : α → β) (g : α → γ) (h : ∀ a, R (f a) (g a)) : ∀ l : List α, Pairwise2 R (l.map f) (l.map g)
  | [] => .nil
  | a :: l => .cons (h a) (Pairwise2.both f g h l)

theorem encFieldsB_ends {E : Env} {O : Octets} (hO : OctetsOf E O) : ∀ (fs : List SField) (vs : List (List RawProp)), Pairwise2 Ends6 (encFieldsB E O fs vs) (encFields E fs (vs.map (List.map softProp)))
  | [], _ => by simp only [encFieldsB, encFields]; exact .nil
  | _ :: _, [] => by simp only [encFieldsB, encFields, List.map_nil]; exact .nil
  | f :: fs, v :: vs => by
    simp only [encFieldsB, encFields, List.map_cons, List.map_map]
    exact (Pairwise2.both _ _ (fun p => PSpec.encodeB_ends hO f.spec p) v).chain (encFieldsB_ends hO fs vs)

theorem encSubsB_ends {κ σ τ : Type} {enc : κ → σ → Option Bytes} {enc' : κ → τ → Option Str} {g : σ → τ} (h : ∀ k s, Ends6 (enc k s) (enc' k (g s))) :
    ∀ (ks : List (Str × κ)) (vs : List (List σ)), Pairwise2 Ends6 (encSubsB enc ks vs) (encSubs enc' ks (vs.map (List.map g)))
  | [], _ => by simp only [encSubsB, encSubs]; exact .nil
  | _ :: _, [] => by simp only [encSubsB, encSubs, List.map_nil]; exact .nil
  | (n, k) :: ks, v :: vs => by
    simp only [encSubsB, encSubs, List.map_cons, List.map_map]
    exact (Pairwise2.both _ _ (fun s => h k s) v).chain (encSubsB_ends h ks vs)

theorem Tab.bodyB_ends {κ σ τ : Type} {E : Env} {O : Octets} (hO : OctetsOf E O) (T : Tab κ) {enc : κ → σ → Option Bytes} {enc' : κ → τ → Option Str} {g : σ → τ} (h : ∀ k s, Ends6 (enc k s) (enc' k (g s)))
    (s : RawSect σ) : Pairwise2 Ends6 (T.bodyB E O enc s) (T.body E enc' (softSect g s)) :=
  (encFieldsB_ends hO T.fields s.fields).chain (encSubsB_ends h T.subs s.subs)

theorem Tab.encodeB_ends {κ σ τ : Type} {E : Env} {O : Octets} (hO : OctetsOf E O) (T : Tab κ) {enc : κ → σ → Option Bytes} {enc' : κ → τ → Option Str} {g : σ → τ} (h : ∀ k s, Ends6 (enc k s) (enc' k (g s)))
    (s : RawSect σ) : Ends6 (T.encodeB E O enc s) (T.encode E enc' (softSect g s)) :=
  catB_ends (((Pairwise2.cons (ends6_utf8 _) .nil).chain (T.bodyB_ends hO h s)).chain (.cons (ends6_utf8 _) .nil))

theorem subEncodeB_ends {E : Env} {O : Octets} (hO : OctetsOf E O) (k : SubKind) (s : RawSub) : Ends6 (subEncodeB E O k s) (subEncode E k (softSub s)) := by
  cases k with
  | alarm =>
    cases s with
    | leaf s => exact ends6_utf8 []
    | alarm a =>
      cases a with
      | none => exact ends6_utf8 []
      | some a =>
        obtain ⟨k, s⟩ := a
        exact catB_ends (((Pairwise2.cons (ends6_utf8 _) (.cons (ends6_utf8 _) .nil)).chain (k.tab.bodyB_ends hO (fun k => nomatch k) s)).chain (.cons (ends6_utf8 _) .nil))
  | leaf T =>
    cases s with
    | leaf s => exact T.encodeB_ends hO (fun k => nomatch k) s
    | alarm a => exact ends6_utf8 []

theorem encodeOctets_ends {E : Env} {O : Octets} (hO : OctetsOf E O) (c : RawCal) : Ends6 (encodeOctets E O c) (encodeDoc E (softCal c)) :=
  tabCalendar.encodeB_ends hO (fun T s => T.encodeB_ends hO (fun k s => subEncodeB_ends hO k s) s) c

theorem checks_map {α β : Type} (f : α → Res Unit) (f' : β → Res Unit) (g : α → β) (h : ∀ a, f a = f' (g a)) : ∀ l : List α, checks f l = checks f' (l.map g)
  | [] => rfl
  | a :: l => by simp only [checks, List.map_cons, h a, checks_map f f' g h l]

theorem validFieldsB_soft : ∀ (fs : List SField) (vs : List (List RawProp)), validFieldsB fs vs = validFields fs (vs.map (List.map softProp))
  | [], _ => by simp only [validFieldsB, validFields]
  | _ :: _, [] => by simp only [validFieldsB, validFields, List.map_nil]
  | f :: fs, v :: vs => by
    simp only [validFieldsB, validFields, List.map_cons, validFieldsB_soft fs vs, checks_map _ _ softProp f.spec.validB_soft v]

theorem validSubs_map {κ σ τ : Type} {val : κ → σ → Res Unit} {val' : κ → τ → Res Unit} {g : σ → τ} (h : ∀ k s, val k s = val' k (g s)) :
    ∀ (ks : List (Str × κ)) (vs : List (List σ)), validSubs val ks vs = validSubs val' ks (vs.map (List.map g))
  | [], _ => by simp only [validSubs]
  | _ :: _, [] => by simp only [validSubs, List.map_nil]
  | (n, k) :: ks, v :: vs => by
    simp only [validSubs, List.map_cons, validSubs_map h ks vs, checks_map _ _ g (h k) v]

theorem Tab.validB_soft {κ σ τ : Type} (T : Tab κ) {val : κ → σ → Res Unit} {val' : κ → τ → Res Unit} {g : σ → τ} (h : ∀ k s, val k s = val' k (g s)) (s : RawSect σ) :
    T.validB val s = T.valid val' (softSect g s) := by
  unfold Tab.validB Tab.valid softSect
  rw [validFieldsB_soft, validSubs_map h]

theorem subValidB_soft (k : SubKind) (s : RawSub) : subValidB k s = subValid k (softSub s) := by
  cases k with
  | alarm =>
    cases s with
    | leaf s => rfl
    | alarm a =>
      cases a with
      | none => rfl
      | some a => exact a.1.tab.validB_soft (g := id) (fun k => nomatch k) a.2
  | leaf T =>
    cases s with
    | leaf s => exact T.validB_soft (g := id) (fun k => nomatch k) s
    | alarm a => rfl

theorem RawCal.valid_soft (c : RawCal) : RawCal.valid c = (softCal c).valid :=
  tabCalendar.validB_soft (fun T s => T.validB_soft subValidB_soft s) c

end Ics
