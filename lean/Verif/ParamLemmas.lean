import Verif.Param
import Verif.ValueLemmas
import Verif.Spec.Params
/-!
# Lemmas about parameters
-/

namespace Ics

open Spec

/-! ## RFC 6868 -/

theorem decode6868F_pend (f : Nat) (p s : Str) (h : s.length < f) : decode6868F f p s = p ++ decode6868F f [] s := by
  cases f with
  | zero => omega
  | succ f => simp only [decode6868F, List.nil_append, List.append_assoc]

theorem decode6868F_fuel : ∀ (f g : Nat) (s : Str), s.length < f → s.length < g → ∀ p, decode6868F f p s = decode6868F g p s := by
  intro f
  induction f with
  | zero => intro g s h; omega
  | succ f ih =>
    intro g s hf hg p
    cases g with
    | zero => omega
    | succ g =>
      simp only [decode6868F]
      have hl : (s.dropWhile (· ≠ '^')).length ≤ s.length := by
        have := (List.dropWhile_suffix (· ≠ '^') (l := s)).length_le
        exact this
      generalize s.dropWhile (· ≠ '^') = d at hl
      congr 1
      split
      · rfl
      · rfl
      all_goals
        simp only [List.length_cons] at hl
        rw [ih g _ (by omega) (by omega)]

/-- The text with an escape sequence: what stands before it, what the sequence gives, the sequence itself, and the rest. -/
theorem decode6868_esc (a : Str) (ha : '^' ∉ a) (c : Char) (r : Str) :
    decode6868 (a ++ '^' :: c :: r) =
      a ++ (if c = 'n' then ['\n'] else if c = '\'' then ['"'] else if c = '^' then ['^'] else ['^', '^']) ++
        '^' :: c :: decode6868 r := by
  obtain ⟨h1, h2⟩ := takeWhile_stop (fun x => decide (x ≠ '^')) a ('^' :: c :: r) (fun x hx => by
    simp only [decide_eq_true_eq]; rintro rfl; exact ha hx) (by simp)
  unfold decode6868
  rw [decode6868F, h1, h2]
  have hf : ∀ p, decode6868F (a ++ '^' :: c :: r).length p r = p ++ decode6868F (r.length + 1) [] r := by
    intro p
    rw [decode6868F_fuel _ (r.length + 1) r (by simp; omega) (by omega), decode6868F_pend _ _ _ (by omega)]
  simp only [List.nil_append, List.append_assoc]
  congr 1
  by_cases h1 : c = 'n'
  · subst h1; simp only [hf]; simp
  · by_cases h2 : c = '\''
    · subst h2; simp only [hf]; simp
    · by_cases h3 : c = '^'
      · subst h3; simp only [hf]; simp
      · rw [if_neg h1, if_neg h2, if_neg h3]
        split
        · next h => cases h
        · next h => simp at h
        · next h => simp at h; exact absurd h.2.1 h1
        · next h => simp at h; exact absurd h.2.1 h2
        · next h => simp at h; exact absurd h.2.1 h3
        · next h =>
          simp at h
          obtain ⟨_, rfl, rfl⟩ := h
          rw [hf]
          simp

theorem decode6868_plain (s : Str) (h : '^' ∉ s) : decode6868 s = s := by
  obtain ⟨h1, h2⟩ := takeWhile_stop (fun x => decide (x ≠ '^')) s [] (fun x hx => by
    simp only [decide_eq_true_eq]; rintro rfl; exact h hx) (by simp)
  rw [List.append_nil] at h1 h2
  unfold decode6868
  rw [decode6868F, h1, h2]
  simp

theorem decode6868_last (s : Str) (h : '^' ∉ s) : decode6868 (s ++ ['^']) = s ++ ['^'] := by
  obtain ⟨h1, h2⟩ := takeWhile_stop (fun x => decide (x ≠ '^')) s ['^'] (fun x hx => by
    simp only [decide_eq_true_eq]; rintro rfl; exact h hx) (by simp)
  unfold decode6868
  rw [decode6868F, h1, h2]
  simp

theorem rfcDec_plain (s t : Str) (h : '^' ∉ s) : rfcDec6868 (s ++ t) = s ++ rfcDec6868 t := by
  induction s with
  | nil => rfl
  | cons c s ih =>
    simp only [List.mem_cons, not_or] at h
    rw [List.cons_append, rfcDec6868, ih h.2]
    · rfl
    all_goals intro _ h1; exact absurd h1.symm h.1

theorem mem_first {α : Type} [DecidableEq α] {x : α} {s : List α} (h : x ∈ s) : ∃ a b, s = a ++ x :: b ∧ x ∉ a := by
  induction s with
  | nil => cases h
  | cons y s ih =>
    by_cases hy : y = x
    · subst hy; exact ⟨[], s, rfl, by simp⟩
    · have : x ∈ s := by
        rcases List.mem_cons.1 h with h | h
        · exact absurd h.symm hy
        · exact h
      obtain ⟨a, b, rfl, ha⟩ := ih this
      exact ⟨y :: a, b, rfl, by simp only [List.mem_cons, not_or]; exact ⟨fun e => hy e.symm, ha⟩⟩

/-- Every text is free of carets, or ends in its only caret, or has a first caret with a character behind it. -/
theorem caret_cases (s : Str) : '^' ∉ s ∨ (∃ a, '^' ∉ a ∧ s = a ++ ['^']) ∨ ∃ a c r, '^' ∉ a ∧ s = a ++ '^' :: c :: r := by
  by_cases h : '^' ∈ s
  · obtain ⟨a, b, rfl, ha⟩ := mem_first h
    cases b with
    | nil => exact Or.inr (Or.inl ⟨a, ha, rfl⟩)
    | cons c r => exact Or.inr (Or.inr ⟨a, c, r, ha, rfl⟩)
  · exact Or.inl h

theorem rfcDec_esc_length (c : Char) (r : Str) : (rfcDec6868 ('^' :: c :: r)).length ≤ (rfcDec6868 r).length + 2 := by
  by_cases h1 : c = 'n'
  · subst h1; simp [rfcDec6868]
  · by_cases h2 : c = '\''
    · subst h2; simp [rfcDec6868]
    · by_cases h3 : c = '^'
      · subst h3; simp [rfcDec6868]
      · rw [rfcDec6868, rfcDec6868]
        · simp
        all_goals (intros; simp_all)

theorem decode6868_length (n : Nat) : ∀ s : Str, s.length ≤ n → (rfcDec6868 s).length ≤ (decode6868 s).length := by
  induction n with
  | zero => intro s h; simp at h; subst h; decide
  | succ n ih =>
    intro s h
    rcases caret_cases s with h1 | ⟨a, ha, rfl⟩ | ⟨a, c, r, ha, rfl⟩
    · have := rfcDec_plain s [] h1
      rw [List.append_nil] at this
      rw [decode6868_plain s h1, this]
      simp [rfcDec6868]
    · rw [rfcDec_plain a _ ha, decode6868_last a ha]; simp [rfcDec6868]
    · have := ih r (by simp at h; omega)
      have h2 := rfcDec_esc_length c r
      rw [rfcDec_plain a _ ha, decode6868_esc a ha]
      simp only [List.length_append, List.length_cons]
      omega

theorem decode6868_longer (a : Str) (ha : '^' ∉ a) (c : Char) (r : Str) :
    (rfcDec6868 (a ++ '^' :: c :: r)).length < (decode6868 (a ++ '^' :: c :: r)).length := by
  have := decode6868_length _ r (Nat.le_refl _)
  have h2 := rfcDec_esc_length c r
  rw [rfcDec_plain a _ ha, decode6868_esc a ha]
  simp only [List.length_append, List.length_cons]
  have : 0 < (if c = 'n' then ['\n'] else if c = '\'' then ['"'] else if c = '^' then ['^'] else ['^', '^']).length := by
    repeat' split
    all_goals simp
  omega

theorem isEsc6868_iff (c : Char) : isEsc6868 c = true ↔ c = '\n' ∨ c = '^' ∨ c = '"' := by
  unfold isEsc6868
  simp [or_assoc]

theorem enc6868_step_plain (s d : Str) (h : ∀ c ∈ s, isEsc6868 c = false) : (Enc6868.run s d).step = .ret (d ++ s) := by
  obtain ⟨h1, h2⟩ := takeWhile_stop (fun c => !isEsc6868 c) s [] (fun x hx => by simp [h x hx]) (by simp)
  rw [List.append_nil] at h1 h2
  unfold Enc6868.step
  simp only [h1, h2]

theorem enc6868_step_esc (s d : Str) (h : ∃ c ∈ s, isEsc6868 c = true) :
    ∃ s' d', (Enc6868.run s d).step = .run s' d' ∧ (∃ c ∈ s', isEsc6868 c = true) ∧ d.length < d'.length := by
  unfold Enc6868.step
  dsimp only
  have hd : s.dropWhile (fun c => !isEsc6868 c) ≠ [] := by
    intro h2
    obtain ⟨c, hc, he⟩ := h
    have h3 := takeWhile_dropWhile (fun c => !isEsc6868 c) s
    rw [h2, List.append_nil] at h3
    have := takeWhile_all (fun c => !isEsc6868 c) s c (h3 ▸ hc)
    simp [he] at this
  have hh := List.head_dropWhile_not (p := fun c => !isEsc6868 c) hd
  generalize s.dropWhile (fun c => !isEsc6868 c) = t at hd hh
  cases t with
  | nil => exact absurd rfl hd
  | cons c t =>
    simp only [List.head_cons, Bool.not_eq_false'] at hh
    split
    · next he => cases he
    all_goals exact ⟨_, _, rfl, ⟨c, List.mem_cons_self, by simpa using hh⟩, by simp; try omega⟩

/-- With a newline, caret or quote in the text the loop runs for ever, its output growing. -/
theorem enc6868_diverges (n : Nat) : ∀ (s d : Str), (∃ c ∈ s, isEsc6868 c = true) →
    ∃ s' d', (Enc6868.run s d).rounds n = .run s' d' ∧ d.length + n ≤ d'.length := by
  induction n with
  | zero => intro s d _; exact ⟨s, d, rfl, Nat.le_refl _⟩
  | succ n ih =>
    intro s d h
    obtain ⟨s1, d1, h1, h2, h3⟩ := enc6868_step_esc s d h
    obtain ⟨s2, d2, h4, h5⟩ := ih s1 d1 h2
    exact ⟨s2, d2, by rw [Enc6868.rounds, h1, h4], by omega⟩

theorem encode6868_plain (s : Str) (h : ∀ c ∈ s, isEsc6868 c = false) : encode6868 s = some s := by
  unfold encode6868
  rw [enc6868_step_plain s [] h]
  rfl

theorem encode6868_esc (s : Str) (h : ∃ c ∈ s, isEsc6868 c = true) : encode6868 s = none := by
  obtain ⟨s', d', h1, _⟩ := enc6868_step_esc s [] h
  unfold encode6868
  rw [h1]

/-- `encode6868` is what the loop returns after some number of rounds, and `none` exactly if it never returns. -/
theorem encode6868_spec (s : Str) :
    (∀ d, encode6868 s = some d ↔ ∃ n, (Enc6868.run s []).rounds n = .ret d) ∧
    (encode6868 s = none ↔ ∀ n d, (Enc6868.run s []).rounds n ≠ .ret d) := by
  by_cases h : ∃ c ∈ s, isEsc6868 c = true
  · have hn : ∀ n d, (Enc6868.run s []).rounds n ≠ .ret d := by
      intro n d hr
      obtain ⟨_, _, h1, _⟩ := enc6868_diverges n s [] h
      rw [h1] at hr
      cases hr
    rw [encode6868_esc s h]
    exact ⟨fun d => ⟨fun h => (nomatch h), fun ⟨n, hr⟩ => absurd hr (hn n d)⟩, ⟨fun _ => hn, fun _ => rfl⟩⟩
  · have hp : ∀ c ∈ s, isEsc6868 c = false := by
      intro c hc
      cases he : isEsc6868 c
      · rfl
      · exact absurd ⟨c, hc, he⟩ h
    have hr1 : (Enc6868.run s []).rounds 1 = .ret s := by
      simp only [Enc6868.rounds, enc6868_step_plain s [] hp, List.nil_append]
    have hret : ∀ n d, Enc6868.rounds n (.ret d) = .ret d := by
      intro n d
      induction n with
      | zero => rfl
      | succ n ih => rw [Enc6868.rounds]; exact ih
    rw [encode6868_plain s hp]
    refine ⟨fun d => ⟨?_, ?_⟩, ⟨fun h => (nomatch h), fun hn => absurd hr1 (hn 1 s)⟩⟩
    · intro h; injection h with h; subst h; exact ⟨1, hr1⟩
    · rintro ⟨n, hn⟩
      cases n with
      | zero => simp [Enc6868.rounds] at hn
      | succ n =>
        rw [Enc6868.rounds, enc6868_step_plain s [] hp, hret] at hn
        injection hn with hn
        simp at hn
        rw [hn]

/-! ## Parameters -/

/-- The table entry of an enumeration is sane: names in upper case, of name characters, all different, none of them `UNKNOWN`. -/
def namesOk (names : List Str) : Bool :=
  decide names.Nodup && names.all (fun n => decide (upper n = n) && n.all isIana && !n.isEmpty && n != c!"UNKNOWN")

def PKind.wf : PKind → Bool
  | .enum names => namesOk names
  | _ => true

/-- Values that are not written at all. -/
def vanishes (E : Env) : PKind → ParamVal → Bool
  | .url, .url u => decide (E.urlString u = [])
  | .urls, .urls us => us.isEmpty
  | .str _, .str s => s.isEmpty
  | .fmt, .str s => s.isEmpty
  | .strs, .strs ss => ss.isEmpty
  | .bool, .bool b => !b
  | _, _ => false

/-- The values the tokeniser should see. -/
def ptokens (E : Env) : PKind → ParamVal → List PVal
  | .url, .url u => [⟨false, E.urlString u⟩]
  | .urls, .urls us => us.map fun u => ⟨false, E.urlString u⟩
  | .str q, .str s => [⟨q || containsAny isSpecial s, s⟩]
  | .fmt, .str s => [⟨containsAny isSpecial s, s⟩]
  | .enum names, .enum n => [⟨false, if n = 0 then c!"UNKNOWN" else names.getD (n - 1) c!"UNKNOWN"⟩]
  | .strs, .strs ss => ss.map fun s => ⟨true, s⟩
  | .range, _ => [⟨false, c!"THISANDFUTURE"⟩]
  | .bool, .bool b => [⟨false, Boolean.encode b⟩]
  | _, _ => []

/-- Characters a parameter text may have for the encoder to write it as it is. -/
def ParamChar (c : Char) : Prop := NoCtl c ∧ c ≠ '^' ∧ c ≠ '"'

def UrlChar (c : Char) : Prop := NoCtl c ∧ c ≠ '"' ∧ c ≠ ';' ∧ c ≠ ':' ∧ c ≠ ','

/-- Values that are written as one well formed parameter. -/
def ParamSafe (E : Env) : PKind → ParamVal → Prop
  | .url, .url u => ∀ c ∈ E.urlString u, UrlChar c
  | .urls, .urls us => ∀ u ∈ us, ∀ c ∈ E.urlString u, UrlChar c
  | .str _, .str s => ∀ c ∈ s, ParamChar c
  | .fmt, .str s => ∀ c ∈ s, ParamChar c
  | .enum _, .enum _ => True
  | .strs, .strs ss => ∀ s ∈ ss, ∀ c ∈ s, ParamChar c
  | .range, .unit => True
  | .bool, .bool _ => True
  | _, _ => False

/-- Values that also come back. -/
def ParamOk (E : Env) (k : PKind) (v : ParamVal) : Prop :=
  ParamSafe E k v ∧ (vanishes E k v = false →
    match k, v with
    | .url, _ => False
    | .urls, _ => False
    | .fmt, .str s => fmtMatch s = true
    | .enum names, .enum n => n ≤ names.length
    | _, _ => True)

theorem ParamChar.plain {s : Str} (h : ∀ c ∈ s, ParamChar c) : encode6868 s = some s := by
  apply encode6868_plain
  intro c hc
  obtain ⟨h1, h2, h3⟩ := h c hc
  cases he : isEsc6868 c
  · rfl
  · rcases (isEsc6868_iff c).1 he with rfl | rfl | rfl
    · rcases h1 with ⟨h1, _⟩ | h1
      · exact absurd h1 (by decide)
      · exact absurd h1 (by decide)
    · exact absurd rfl h2
    · exact absurd rfl h3

theorem char_toNat_inj {a b : Char} (h : a.toNat = b.toNat) : a = b := by
  apply Char.ext
  apply UInt32.toNat_inj.1
  exact h

theorem ParamChar.tokOk {s : Str} (h : ∀ c ∈ s, ParamChar c) (q : Bool) : ParamValOk ⟨q || containsAny isSpecial s, s⟩ := by
  intro c hc
  obtain ⟨h1, h2, h3⟩ := h c hc
  refine ⟨h1, fun e => h3 (char_toNat_inj e), ?_⟩
  intro hq
  dsimp only at hq hc
  rw [Bool.or_eq_false_iff] at hq
  have h4 : isSpecial c = false := by
    unfold containsAny at hq
    rw [List.any_eq_false] at hq
    simpa using hq.2 c hc
  unfold isSpecial at h4
  simp only [Bool.or_eq_false_iff, beq_eq_false_iff_ne] at h4
  exact ⟨fun e => h4.1.1.2 (char_toNat_inj e), fun e => h4.1.2 (char_toNat_inj e), fun e => h4.2 (char_toNat_inj e)⟩

theorem UrlChar.tokOk {s : Str} (h : ∀ c ∈ s, UrlChar c) : ParamValOk ⟨false, s⟩ := by
  intro c hc
  obtain ⟨h1, h2, h3, h4, h5⟩ := h c hc
  exact ⟨h1, fun e => h2 (char_toNat_inj e), fun _ =>
    ⟨fun e => h3 (char_toNat_inj e), fun e => h4 (char_toNat_inj e), fun e => h5 (char_toNat_inj e)⟩⟩

theorem isIana_NoCtl {c : Char} (h : isIana c = true) : NoCtl c ∧ c.toNat ≠ 34 ∧ c.toNat ≠ 59 ∧ c.toNat ≠ 58 ∧ c.toNat ≠ 44 := by
  have := (isIana_iff c).1 h
  unfold IanaChar at this
  unfold NoCtl
  omega

theorem namesOk_get {names : List Str} (h : namesOk names = true) (n : Nat) :
    ∀ c ∈ names.getD n c!"UNKNOWN", isIana c = true := by
  unfold namesOk at h
  rw [Bool.and_eq_true, List.all_eq_true] at h
  rw [List.getD_eq_getElem?_getD]
  cases hg : names[n]? with
  | none => simp only [Option.getD_none]; decide
  | some w =>
    have := h.2 w (List.mem_of_getElem? hg)
    simp only [Bool.and_eq_true, List.all_eq_true] at this
    exact this.1.1.2

theorem commas_some {α : Type} (f : α → Option Str) (g : α → PVal) : ∀ l : List α, (∀ x ∈ l, f x = some (printVal (g x))) →
    commas (l.map f) = some (printVals (l.map g)) := by
  intro l
  induction l with
  | nil => intro _; rfl
  | cons x l ih =>
    intro h
    have hx := h x List.mem_cons_self
    have hl := ih (fun y hy => h y (List.mem_cons_of_mem _ hy))
    cases l with
    | nil => simp [commas, printVals, hx]
    | cons y l =>
      simp only [List.map_cons] at hl ⊢
      rw [commas, hx, hl]
      · simp [printVals]
      · simp

/-- A safe parameter is written as a well formed parameter, or not at all. -/
theorem PKind.encode_safe (E : Env) (name : Str) (k : PKind) (v : ParamVal) (hk : k.wf = true) (h : ParamSafe E k v) :
    k.encode E name v = some (if vanishes E k v = true then [] else ';' :: name ++ '=' :: printVals (ptokens E k v)) ∧
    (vanishes E k v = false → ptokens E k v ≠ []) ∧ ∀ t ∈ ptokens E k v, ParamValOk t := by
  cases k with
  | url =>
    cases v <;> simp only [ParamSafe] at h
    next u =>
    refine ⟨?_, by simp [ptokens], ?_⟩
    · simp only [PKind.encode, vanishes, ptokens]
      split <;> simp_all [printVals, printVal]
    · intro t ht
      simp only [ptokens, List.mem_singleton] at ht
      subst ht
      exact UrlChar.tokOk h
  | urls =>
    cases v <;> simp only [ParamSafe] at h
    next us =>
    refine ⟨?_, ?_, ?_⟩
    · simp only [PKind.encode, vanishes, ptokens]
      cases us with
      | nil => simp
      | cons u us =>
        rw [commas_some _ (fun u => ⟨false, E.urlString u⟩)]
        · simp
        · intro x _; simp [printVal]
    · simp [vanishes, ptokens]
    · intro t ht
      simp only [ptokens, List.mem_map] at ht
      obtain ⟨u, hu, rfl⟩ := ht
      exact UrlChar.tokOk (h u hu)
  | str q =>
    cases v <;> simp only [ParamSafe] at h
    next s =>
    refine ⟨?_, by simp [ptokens], ?_⟩
    · simp only [PKind.encode, vanishes, ptokens, ParamChar.plain h]
      cases s with
      | nil => simp
      | cons c s =>
        simp only [printVals, printVal, quote]
        split <;> simp_all
    · intro t ht
      simp only [ptokens, List.mem_singleton] at ht
      subst ht
      exact ParamChar.tokOk h q
  | fmt =>
    cases v <;> simp only [ParamSafe] at h
    next s =>
    refine ⟨?_, by simp [ptokens], ?_⟩
    · simp only [PKind.encode, vanishes, ptokens, ParamChar.plain h]
      cases s with
      | nil => simp
      | cons c s =>
        simp only [printVals, printVal, quote]
        split <;> simp_all
    · intro t ht
      simp only [ptokens, List.mem_singleton] at ht
      subst ht
      exact ParamChar.tokOk h false
  | «enum» names =>
    cases v <;> simp only [ParamSafe] at h
    next n =>
    refine ⟨?_, by simp [ptokens], ?_⟩
    · simp [PKind.encode, vanishes, ptokens, printVals, printVal]
    · intro t ht
      simp only [ptokens, List.mem_singleton] at ht
      subst ht
      intro c hc
      dsimp only at hc
      have : isIana c = true := by
        split at hc
        · revert c; decide
        · exact namesOk_get hk _ c hc
      obtain ⟨h1, h2, h3⟩ := isIana_NoCtl this
      exact ⟨h1, h2, fun _ => h3⟩
  | strs =>
    cases v <;> simp only [ParamSafe] at h
    next ss =>
    refine ⟨?_, ?_, ?_⟩
    · simp only [PKind.encode, vanishes, ptokens]
      cases ss with
      | nil => simp
      | cons u us =>
        rw [commas_some _ (fun s => ⟨true, s⟩)]
        · simp
        · intro x hx; rw [ParamChar.plain (h x hx)]; simp [printVal, quote]
    · simp [vanishes, ptokens]
    · intro t ht
      simp only [ptokens, List.mem_map] at ht
      obtain ⟨u, hu, rfl⟩ := ht
      exact ParamChar.tokOk (h u hu) true
  | range =>
    refine ⟨?_, by simp [ptokens], ?_⟩
    · simp [PKind.encode, vanishes, ptokens, printVals, printVal]
    · intro t ht
      simp only [ptokens, List.mem_singleton] at ht
      subst ht
      intro c hc
      have : isIana c = true := by revert c; decide
      obtain ⟨h1, h2, h3⟩ := isIana_NoCtl this
      exact ⟨h1, h2, fun _ => h3⟩
  | bool =>
    cases v <;> simp only [ParamSafe] at h
    next b =>
    refine ⟨?_, by simp [ptokens], ?_⟩
    · cases b <;> simp [PKind.encode, vanishes, ptokens, printVals, printVal]
    · intro t ht
      simp only [ptokens, List.mem_singleton] at ht
      subst ht
      intro c hc
      have : isIana c = true := by revert c; cases b <;> decide
      obtain ⟨h1, h2, h3⟩ := isIana_NoCtl this
      exact ⟨h1, h2, fun _ => h3⟩

theorem mapRes_map' {α β γ : Type} (dec : β → Res γ) (f : α → β) (g : α → γ) : ∀ (l : List α), (∀ x ∈ l, dec (f x) = .ok (g x)) →
    mapRes dec (l.map f) = .ok (l.map g) := by
  intro l
  induction l with
  | nil => intro _; rfl
  | cons x l ih =>
    intro h
    simp only [List.map_cons, mapRes, h x List.mem_cons_self, ih (fun y hy => h y (List.mem_cons_of_mem _ hy))]
    rfl

/-- A good parameter comes back. -/
theorem PKind.decode_tokens (E : Env) (k : PKind) (v : ParamVal) (hk : k.wf = true) (h : ParamOk E k v) (hv : vanishes E k v = false) :
    k.decode E (ptokens E k v) = .ok v := by
  obtain ⟨hs, h0⟩ := h
  have h := h0 hv
  clear h0
  have hcar : ∀ s : Str, (∀ c ∈ s, ParamChar c) → decode6868 s = s := fun s h => decode6868_plain s (fun hm => (h _ hm).2.1 rfl)
  cases k with
  | url => exact absurd h (by simp)
  | urls => exact absurd h (by simp)
  | str q =>
    cases v <;> simp only [ParamSafe] at hs
    next s =>
    simp only [PKind.decode, ptokens, oneVal]
    cases q <;> simp [wantQuoted, Res.guard, hcar s hs]
  | fmt =>
    cases v <;> simp only [ParamSafe] at hs
    next s =>
    dsimp only at h
    simp [PKind.decode, ptokens, oneVal, Res.guard, h]
  | «enum» names =>
    cases v <;> simp only [ParamSafe] at hs
    next n =>
    dsimp only at h
    unfold PKind.wf namesOk at hk
    rw [Bool.and_eq_true, List.all_eq_true, decide_eq_true_eq] at hk
    simp only [PKind.decode, ptokens, oneVal, Res.ok_bind]
    cases n with
    | zero =>
      have : indexOf (upper c!"UNKNOWN") names = none := by
        cases hi : indexOf (upper c!"UNKNOWN") names with
        | none => rfl
        | some i =>
          have h1 := indexOf_some _ _ _ hi
          have h2 := hk.2 _ (List.mem_of_getElem? h1)
          have h3 : upper c!"UNKNOWN" = c!"UNKNOWN" := by decide
          rw [h3] at h2
          simp at h2
      simp only [if_pos, this]
      rfl
    | succ n =>
      have hn : n < names.length := h
      have hg : names[n]? = some names[n] := List.getElem?_eq_getElem hn
      simp only [Nat.add_sub_cancel, List.getD_eq_getElem?_getD, hg, Option.getD_some]
      have hm := hk.2 _ (List.getElem_mem hn)
      simp only [Bool.and_eq_true, decide_eq_true_eq] at hm
      rw [if_neg (by omega), hm.1.1.1, indexOf_get names n _ hk.1 hg]
      rfl
  | strs =>
    cases v <;> simp only [ParamSafe] at hs
    next ss =>
    simp only [PKind.decode, ptokens]
    rw [mapRes_map' _ _ id]
    · simp
    · intro x hx
      simp [wantQuoted, Res.guard, hcar x (hs x hx)]
  | range =>
    cases v <;> simp only [ParamSafe] at hs
    simp only [PKind.decode, ptokens, oneVal, Res.ok_bind]
    rfl
  | bool =>
    cases v <;> simp only [ParamSafe] at hs
    next b =>
    cases b
    · simp [vanishes] at hv
    · simp only [PKind.decode, ptokens, oneVal, Res.ok_bind]
      rfl

end Ics
