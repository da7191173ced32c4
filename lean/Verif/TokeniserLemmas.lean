import Verif.Spec.ContentLine
/-!
# Lemmas about the tokeniser
-/

namespace Ics

open Spec

theorem takeWhile_stop {α : Type} (p : α → Bool) : ∀ (a : List α) (r : List α), (∀ x ∈ a, p x = true) →
    (∀ x ∈ r.head?, p x = false) → (a ++ r).takeWhile p = a ∧ (a ++ r).dropWhile p = r := by
  intro a
  induction a with
  | nil =>
    intro r _ hr
    cases r with
    | nil => simp
    | cons x r => have := hr x (by simp); simp [this]
  | cons x a ih =>
    intro r ha hr
    have hx := ha x (by simp)
    obtain ⟨h1, h2⟩ := ih r (fun y hy => ha y (by simp [hy])) hr
    simp [hx, h1, h2]

theorem dropWhile_head {α : Type} (p : α → Bool) (s : List α) {x : α} {r : List α}
    (h : s.dropWhile p = x :: r) : p x = false := by
  induction s with
  | nil => cases h
  | cons y s ih =>
    rw [List.dropWhile_cons] at h
    split at h
    · exact ih h
    · next hy => injection h with h1 _; subst h1; simpa using hy

theorem takeWhile_all {α : Type} (p : α → Bool) (s : List α) : ∀ x ∈ s.takeWhile p, p x = true := by
  induction s with
  | nil => simp
  | cons y s ih =>
    intro x hx
    rw [List.takeWhile_cons] at hx
    split at hx
    · next hy =>
      rcases List.mem_cons.1 hx with rfl | hx
      · exact hy
      · exact ih x hx
    · simp at hx

theorem takeWhile_dropWhile {α : Type} (p : α → Bool) (s : List α) : s = s.takeWhile p ++ s.dropWhile p :=
  (List.takeWhile_append_dropWhile).symm

theorem char_le_iff (a b : Char) : a ≤ b ↔ a.toNat ≤ b.toNat := by
  rw [Char.le_def, UInt32.le_iff_toNat_le]
  rfl

theorem beq_char_iff (a b : Char) : (a == b) = true ↔ a.toNat = b.toNat := by
  rw [beq_iff_eq]
  constructor
  · rintro rfl; rfl
  · intro h
    have := congrArg Char.ofNat h
    simpa using this

theorem isIana_iff (c : Char) : isIana c = true ↔ IanaChar c := by
  unfold isIana IanaChar
  simp only [Bool.or_eq_true, Bool.and_eq_true, decide_eq_true_eq, char_le_iff, beq_char_iff]
  have e1 : 'A'.toNat = 65 := rfl
  have e2 : 'Z'.toNat = 90 := rfl
  have e3 : 'a'.toNat = 97 := rfl
  have e4 : 'z'.toNat = 122 := rfl
  have e5 : '0'.toNat = 48 := rfl
  have e6 : '9'.toNat = 57 := rfl
  have e7 : '-'.toNat = 45 := rfl
  omega

theorem isCtl32_iff (c : Char) : isCtl32 c = false ↔ NoCtl c := by
  unfold isCtl32 isCtl31 NoCtl
  rw [← Bool.not_eq_true]
  have e1 : '\n'.toNat = 10 := rfl
  simp only [Bool.or_eq_true, Bool.and_eq_true, decide_eq_true_eq, beq_char_iff, e1]
  have e2 : (c.toNat == 127) = true ↔ c.toNat = 127 := by simp
  rw [e2]
  omega

theorem isCtl33_iff (c : Char) : isCtl33 c = false ↔ NoCtl c ∧ c.toNat ≠ 34 := by
  rw [← isCtl32_iff]
  unfold isCtl33
  rw [← Bool.not_eq_true, ← Bool.not_eq_true]
  simp only [Bool.or_eq_true, beq_char_iff]
  have e1 : '"'.toNat = 34 := rfl
  rw [e1]
  grind

theorem isNonsafe_iff (c : Char) : isNonsafe c = false ↔
    NoCtl c ∧ c.toNat ≠ 34 ∧ c.toNat ≠ 59 ∧ c.toNat ≠ 58 ∧ c.toNat ≠ 44 := by
  rw [← isCtl32_iff]
  unfold isNonsafe isSpecial
  rw [← Bool.not_eq_true, ← Bool.not_eq_true]
  simp only [Bool.or_eq_true, beq_char_iff]
  have e1 : '"'.toNat = 34 := rfl
  have e2 : ';'.toNat = 59 := rfl
  have e3 : ':'.toNat = 58 := rfl
  have e4 : ','.toNat = 44 := rfl
  rw [e1, e2, e3, e4]
  grind

/-! ## Printing then parsing -/

theorem parseValue_print (v rest : Str) (hv : ∀ c ∈ v, NoCtl c) :
    parseValue (v ++ '\r' :: '\n' :: rest) = .ok (v, rest) := by
  obtain ⟨h1, h2⟩ := takeWhile_stop (fun c => !isCtl32 c) v ('\r' :: '\n' :: rest)
    (by intro x hx; simp [(isCtl32_iff x).2 (hv x hx)]) (by simp [isCtl32, isCtl31])
  simp [parseValue, h1, h2]

theorem parseValue_print_end (v : Str) (hv : ∀ c ∈ v, NoCtl c) : parseValue v = .ok (v, []) := by
  obtain ⟨h1, h2⟩ := takeWhile_stop (fun c => !isCtl32 c) v []
    (by intro x hx; simp [(isCtl32_iff x).2 (hv x hx)]) (by simp)
  rw [List.append_nil] at h1 h2
  simp [parseValue, h1, h2]

theorem parseOneVal_print (v : PVal) (hv : ParamValOk v) (d : Char) (rest : Str)
    (hd : d = ',' ∨ d = ';' ∨ d = ':') : parseOneVal (printVal v ++ d :: rest) = .ok (v, d :: rest) := by
  obtain ⟨q, s⟩ := v
  cases q with
  | true =>
    have e : printVal ⟨true, s⟩ ++ d :: rest = '"' :: (s ++ '"' :: d :: rest) := by simp [printVal]
    obtain ⟨h1, h2⟩ := takeWhile_stop (fun c => !isCtl33 c) s ('"' :: d :: rest)
      (by intro x hx; simp [(isCtl33_iff x).2 ⟨(hv x hx).1, (hv x hx).2.1⟩]) (by simp [isCtl33])
    rw [e]
    simp [parseOneVal, h1, h2]
  | false =>
    have e : printVal ⟨false, s⟩ ++ d :: rest = s ++ d :: rest := by simp [printVal]
    have hs : ∀ x ∈ s, isNonsafe x = false := by
      intro x hx
      obtain ⟨a, b, c⟩ := hv x hx
      obtain ⟨c1, c2, c3⟩ := c rfl
      exact (isNonsafe_iff x).2 ⟨a, b, c1, c2, c3⟩
    have hdn : isNonsafe d = true := by rcases hd with rfl | rfl | rfl <;> decide
    obtain ⟨h1, h2⟩ := takeWhile_stop (fun c => !isNonsafe c) s (d :: rest)
      (by intro x hx; simp [hs x hx]) (by simp [hdn])
    rw [e]
    have hne : ∀ t, s ++ d :: rest ≠ '"' :: t := by
      intro t ht
      cases s with
      | nil =>
        simp only [List.nil_append, List.cons.injEq] at ht
        rcases hd with rfl | rfl | rfl <;> exact absurd ht.1 (by decide)
      | cons x s =>
        simp only [List.cons_append, List.cons.injEq] at ht
        have := hs x (by simp)
        rw [ht.1] at this
        exact absurd this (by decide)
    unfold parseOneVal
    split
    · next h => exact absurd h (hne _)
    · rw [h1, h2]

theorem parseVals_print : ∀ (vs : List PVal) (fuel : Nat) (d : Char) (rest : Str), vs ≠ [] →
    (∀ v ∈ vs, ParamValOk v) → (d = ';' ∨ d = ':') → vs.length ≤ fuel →
    parseVals fuel (printVals vs ++ d :: rest) = .ok (vs, d :: rest) := by
  intro vs
  induction vs with
  | nil => intro _ _ _ h; exact absurd rfl h
  | cons v vs ih =>
    intro fuel d rest _ hv hd hl
    cases fuel with
    | zero => simp at hl
    | succ fuel =>
      cases vs with
      | nil =>
        have := parseOneVal_print v (hv v (by simp)) d rest (Or.inr hd)
        simp only [printVals, parseVals, this, Res.ok_bind]
        rcases hd with rfl | rfl <;> rfl
      | cons w vs =>
        have := parseOneVal_print v (hv v (by simp)) ',' (printVals (w :: vs) ++ d :: rest) (Or.inl rfl)
        have e : printVals (v :: w :: vs) ++ d :: rest =
            printVal v ++ ',' :: (printVals (w :: vs) ++ d :: rest) := by
          simp [printVals]
        rw [e]
        simp only [parseVals, this, Res.ok_bind]
        rw [ih fuel d rest (by simp) (fun x hx => hv x (by simp [hx])) hd (by simpa using hl)]
        rfl

theorem printVals_length (vs : List PVal) : vs.length ≤ (printVals vs).length + 1 := by
  induction vs with
  | nil => simp
  | cons v vs ih =>
    cases vs with
    | nil => simp [printVals]
    | cons w vs => simp [printVals] at ih ⊢; omega

theorem printParams_head (ps : List (Str × List PVal)) (rest : Str) :
    ∃ d r, printParams ps ++ ':' :: rest = d :: r ∧ (d = ';' ∨ d = ':') := by
  cases ps with
  | nil => exact ⟨':', rest, rfl, Or.inr rfl⟩
  | cons p ps => exact ⟨';', _, rfl, Or.inl rfl⟩

theorem parseParams_print : ∀ (ps : List (Str × List PVal)) (fuel : Nat) (rest : Str),
    (∀ p ∈ ps, ∀ c ∈ p.1, IanaChar c) → (∀ p ∈ ps, p.2 ≠ []) → (∀ p ∈ ps, ∀ v ∈ p.2, ParamValOk v) →
    ps.length < fuel → parseParams fuel (printParams ps ++ ':' :: rest) = .ok (ps, rest) := by
  intro ps
  induction ps with
  | nil =>
    intro fuel rest _ _ _ hl
    cases fuel with
    | zero => simp at hl
    | succ fuel => rfl
  | cons p ps ih =>
    intro fuel rest h1 h2 h3 hl
    obtain ⟨n, vs⟩ := p
    cases fuel with
    | zero => simp at hl
    | succ fuel =>
      obtain ⟨d, r, hr, hd⟩ := printParams_head ps rest
      have e : printParams ((n, vs) :: ps) ++ ':' :: rest =
          ';' :: (n ++ '=' :: (printVals vs ++ (d :: r))) := by
        rw [← hr]; simp [printParams]
      obtain ⟨t1, t2⟩ := takeWhile_stop isIana n ('=' :: (printVals vs ++ (d :: r)))
        (by intro x hx; exact (isIana_iff x).2 (h1 (n, vs) (by simp) x hx)) (by simp; decide)
      rw [e]
      simp only [parseParams, t1, t2]
      rw [parseVals_print vs _ d r (h2 (n, vs) (by simp)) (h3 (n, vs) (by simp)) hd (by
        have := printVals_length vs
        simp; omega)]
      simp only [Res.ok_bind]
      rw [← hr, ih fuel rest (fun p hp => h1 p (by simp [hp])) (fun p hp => h2 p (by simp [hp]))
        (fun p hp => h3 p (by simp [hp])) (by simpa using hl)]
      rfl

theorem printParams_length (ps : List (Str × List PVal)) : ps.length ≤ (printParams ps).length := by
  induction ps with
  | nil => simp
  | cons p ps ih => obtain ⟨n, vs⟩ := p; simp [printParams]; omega

theorem parseLine_print_aux (l : Line) (h : LineOk l) (tail rest : Str)
    (hv : parseValue (l.value ++ tail) = .ok (l.value, rest)) :
    parseLine (printBare l ++ tail) = .line l rest := by
  obtain ⟨d, r, hr, hd⟩ := printParams_head l.params (l.value ++ tail)
  have e : printBare l ++ tail = l.name ++ d :: r := by
    rw [← hr]; simp [printBare]
  have hdi : isIana d = false := by rcases hd with rfl | rfl <;> decide
  obtain ⟨t1, t2⟩ := takeWhile_stop isIana l.name (d :: r)
    (by intro x hx; exact (isIana_iff x).2 (h.name x hx)) (by simpa using hdi)
  have hp : parseParams ((d :: r).length + 1) (d :: r) = .ok (l.params, l.value ++ tail) := by
    rw [← hr]
    refine parseParams_print _ _ _ h.pname h.pvals_ne h.pvals ?_
    have := printParams_length l.params
    simp; omega
  rw [e]
  unfold parseLine
  simp only [t1, t2, if_neg h.name_ne]
  rcases hd with rfl | rfl
  · simp only [hp, Res.ok_bind, hv]
  · simp only [hp, Res.ok_bind, hv]

/-! ## Parsing yields well-formed lines -/

theorem parseValue_inv {s v r : Str} (h : parseValue s = .ok (v, r)) :
    (∀ c ∈ v, NoCtl c) ∧ (s = v ++ '\r' :: '\n' :: r ∨ (s = v ∧ r = [])) := by
  unfold parseValue at h
  have ha := takeWhile_all (fun c => !isCtl32 c) s
  have hs := takeWhile_dropWhile (fun c => !isCtl32 c) s
  split at h
  · next r' hd =>
    rw [hd] at hs
    injection h with h
    injection h with h1 h2
    subst h2
    rw [h1] at ha hs
    exact ⟨fun c hc => (isCtl32_iff c).1 (by simpa using ha c hc), Or.inl hs⟩
  · next hd =>
    rw [hd] at hs
    injection h with h
    injection h with h1 h2
    rw [h1] at ha hs
    exact ⟨fun c hc => (isCtl32_iff c).1 (by simpa using ha c hc), Or.inr ⟨by simpa using hs, h2.symm⟩⟩
  · cases h

theorem parseOneVal_inv {s : Str} {v : PVal} {r : Str} (h : parseOneVal s = .ok (v, r)) :
    ParamValOk v ∧ s = printVal v ++ r := by
  unfold parseOneVal at h
  split at h
  · next s' =>
    have ha := takeWhile_all (fun c => !isCtl33 c) s'
    have hs := takeWhile_dropWhile (fun c => !isCtl33 c) s'
    split at h
    · next r' hd =>
      rw [hd] at hs
      injection h with h
      injection h with h1 h2
      subst h2
      subst h1
      refine ⟨?_, ?_⟩
      · intro c hc
        have := (isCtl33_iff c).1 (by simpa using ha c hc)
        exact ⟨this.1, this.2, by simp⟩
      · simp only [printVal, if_true]
        conv => lhs; rw [hs]
        simp
    · cases h
  · have ha := takeWhile_all (fun c => !isNonsafe c) s
    have hs := takeWhile_dropWhile (fun c => !isNonsafe c) s
    injection h with h
    injection h with h1 h2
    subst h2
    subst h1
    refine ⟨?_, ?_⟩
    · intro c hc
      have := (isNonsafe_iff c).1 (by simpa using ha c hc)
      exact ⟨this.1, this.2.1, fun _ => this.2.2⟩
    · simpa [printVal] using hs

theorem parseVals_inv : ∀ (fuel : Nat) {s : Str} {vs : List PVal} {r : Str},
    parseVals fuel s = .ok (vs, r) → vs ≠ [] ∧ (∀ v ∈ vs, ParamValOk v) ∧ s = printVals vs ++ r := by
  intro fuel
  induction fuel with
  | zero => intro s vs r h; cases h
  | succ fuel ih =>
    intro s vs r h
    rw [parseVals] at h
    obtain ⟨⟨v, t⟩, h1, h2⟩ := Res.bind_eq_ok.1 h
    obtain ⟨hv, hs⟩ := parseOneVal_inv h1
    simp only at h2
    split at h2
    · next r' =>
      obtain ⟨⟨vs', r''⟩, h3, h4⟩ := Res.bind_eq_ok.1 h2
      obtain ⟨i1, i2, i3⟩ := ih h3
      injection h4 with h4
      injection h4 with h5 h6
      subst h5; subst h6
      refine ⟨by simp, ?_, ?_⟩
      · intro w hw
        rcases List.mem_cons.1 hw with rfl | hw
        · exact hv
        · exact i2 w hw
      · rw [hs, i3]
        cases vs' with
        | nil => exact absurd rfl i1
        | cons a b => simp [printVals]
    · injection h2 with h2
      injection h2 with h5 h6
      subst h5; subst h6
      exact ⟨by simp, by simpa using hv, by simpa [printVals] using hs⟩
    · injection h2 with h2
      injection h2 with h5 h6
      subst h5; subst h6
      exact ⟨by simp, by simpa using hv, by simpa [printVals] using hs⟩
    · cases h2

theorem parseParams_inv : ∀ (fuel : Nat) {s : Str} {ps : List (Str × List PVal)} {r : Str},
    parseParams fuel s = .ok (ps, r) →
    (∀ p ∈ ps, ∀ c ∈ p.1, IanaChar c) ∧ (∀ p ∈ ps, p.2 ≠ []) ∧ (∀ p ∈ ps, ∀ v ∈ p.2, ParamValOk v) ∧
      s = printParams ps ++ ':' :: r := by
  intro fuel
  induction fuel with
  | zero => intro s ps r h; cases h
  | succ fuel ih =>
    intro s ps r h
    rw [parseParams.eq_def] at h
    dsimp only at h
    split at h
    · injection h with h
      injection h with h5 h6
      subst h5; subst h6
      simp [printParams]
    · next s' =>
      have ha := takeWhile_all isIana s'
      have hs := takeWhile_dropWhile isIana s'
      split at h
      · next r' hd =>
        rw [hd] at hs
        obtain ⟨⟨vs, t⟩, h1, h2⟩ := Res.bind_eq_ok.1 h
        obtain ⟨v1, v2, v3⟩ := parseVals_inv _ h1
        obtain ⟨⟨ps', t'⟩, h3, h4⟩ := Res.bind_eq_ok.1 h2
        obtain ⟨i1, i2, i3, i4⟩ := ih h3
        injection h4 with h4
        injection h4 with h5 h6
        subst h5; subst h6
        refine ⟨?_, ?_, ?_, ?_⟩
        · intro p hp
          rcases List.mem_cons.1 hp with rfl | hp
          · intro c hc; exact (isIana_iff c).1 (ha c hc)
          · exact i1 p hp
        · intro p hp
          rcases List.mem_cons.1 hp with rfl | hp
          · exact v1
          · exact i2 p hp
        · intro p hp
          rcases List.mem_cons.1 hp with rfl | hp
          · exact v2
          · exact i3 p hp
        · conv => lhs; rw [hs]
          dsimp only at i4 ⊢
          rw [v3, i4]
          simp [printParams]
      · cases h
    · cases h

theorem parseLine_inv {s : Str} {l : Line} {r : Str} (h : parseLine s = .line l r) :
    LineOk l ∧ (s = printLine l ++ r ∨ (s = printBare l ∧ r = [])) := by
  unfold parseLine at h
  have ha := takeWhile_all isIana s
  have hs := takeWhile_dropWhile isIana s
  generalize hn : s.takeWhile isIana = n at h ha hs
  generalize ht : s.dropWhile isIana = t at h hs
  dsimp only at h
  split at h
  · split at h <;> cases h
  · next hne =>
    have key : ∀ x : Res Phrase, (match x with
        | .ok p => p
        | .err e => .error e
        | .panic => Phrase.done) = .line l r → x = .ok (.line l r) := by
      intro x hx
      cases x with
      | ok p => simp only at hx; rw [hx]
      | err e => cases hx
      | panic => cases hx
    have main : (do
        let (ps, r) ← parseParams (t.length + 1) t
        let (v, r) ← parseValue r
        Res.ok (Phrase.line ⟨n, ps, v⟩ r)) = Res.ok (.line l r) →
        LineOk l ∧ (s = printLine l ++ r ∨ (s = printBare l ∧ r = [])) := by
      intro hk
      obtain ⟨⟨ps, u⟩, h1, h2⟩ := Res.bind_eq_ok.1 hk
      obtain ⟨⟨v, w⟩, h3, h4⟩ := Res.bind_eq_ok.1 h2
      obtain ⟨p1, p2, p3, p4⟩ := parseParams_inv _ h1
      obtain ⟨q1, q2⟩ := parseValue_inv h3
      injection h4 with h4
      injection h4 with h5 h6
      subst h5; subst h6
      refine ⟨⟨hne, fun c hc => (isIana_iff c).1 (ha c hc), p1, p2, p3, q1⟩, ?_⟩
      rcases q2 with q2 | ⟨q2, q3⟩
      · left
        rw [hs, p4, q2]
        simp [printLine, printBare]
      · right
        refine ⟨?_, q3⟩
        rw [hs, p4, q2]
        simp [printBare]
    split at h
    · exact main (key _ h)
    · exact main (key _ h)
    · cases h

/-! ## No panics -/

theorem parseOneVal_ne_panic (s : Str) : parseOneVal s ≠ .panic := by
  unfold parseOneVal
  split
  · split <;> simp
  · simp

theorem parseVals_ne_panic : ∀ (f : Nat) (s : Str), parseVals f s ≠ .panic := by
  intro f
  induction f with
  | zero => intro s; simp [parseVals]
  | succ f ih =>
    intro s h
    rw [parseVals] at h
    rcases Res.bind_eq_panic.1 h with h | ⟨⟨v, r⟩, _, h⟩
    · exact parseOneVal_ne_panic _ h
    · dsimp only at h
      split at h
      · rcases Res.bind_eq_panic.1 h with h | ⟨_, _, h⟩
        · exact ih _ h
        · cases h
      · cases h
      · cases h
      · cases h

theorem parseParams_ne_panic : ∀ (f : Nat) (s : Str), parseParams f s ≠ .panic := by
  intro f
  induction f with
  | zero => intro s; simp [parseParams]
  | succ f ih =>
    intro s h
    rw [parseParams.eq_def] at h
    dsimp only at h
    split at h
    · cases h
    · split at h
      · rcases Res.bind_eq_panic.1 h with h | ⟨⟨v, r⟩, _, h⟩
        · exact parseVals_ne_panic _ _ h
        · rcases Res.bind_eq_panic.1 h with h | ⟨_, _, h⟩
          · exact ih _ h
          · cases h
      · cases h
    · cases h

/-! ## Streams -/

theorem printBare_length (l : Line) (h : l.name ≠ []) : 2 ≤ (printBare l).length := by
  have : 0 < l.name.length := List.length_pos_iff.2 h
  simp [printBare]; omega

theorem parseLine_rest_lt {s : Str} {l : Line} {r : Str} (h : parseLine s = .line l r) :
    r.length < s.length := by
  obtain ⟨h1, h2⟩ := parseLine_inv h
  have := printBare_length l h1.name_ne
  rcases h2 with h2 | ⟨h2, h3⟩
  · rw [h2]; simp [printLine]; omega
  · rw [h2, h3]; simp; omega

/-- The fuel does not matter once it exceeds the length. -/
theorem streamF_fuel : ∀ (f g : Nat) (s : Str), s.length < f → s.length < g → streamF f s = streamF g s := by
  intro f
  induction f with
  | zero => intro g s h; omega
  | succ f ih =>
    intro g s hf hg
    cases g with
    | zero => omega
    | succ g =>
      rw [streamF, streamF]
      cases h : parseLine s with
      | line l r =>
        have := parseLine_rest_lt h
        simp only
        rw [ih g r (by omega) (by omega)]
      | done => rfl
      | error e => rfl

theorem tokenise_line {s : Str} {l : Line} {r : Str} (h : parseLine s = .line l r) :
    tokenise s = ⟨l :: (tokenise r).lines, (tokenise r).term⟩ := by
  have := parseLine_rest_lt h
  unfold tokenise
  rw [streamF, h]
  simp only
  rw [streamF_fuel s.length (r.length + 1) r this (by omega)]

theorem tokenise_nil : tokenise [] = ⟨[], .done⟩ := rfl

/-- A printed line in front of a text adds that line to the stream. -/
theorem tokenise_print (l : Line) (h : LineOk l) (rest : Str) :
    tokenise (printLine l ++ rest) = ⟨l :: (tokenise rest).lines, (tokenise rest).term⟩ := by
  apply tokenise_line
  rw [printLine, List.append_assoc]
  exact parseLine_print_aux l h _ rest (parseValue_print l.value rest h.value)

theorem tokenise_prints (ls : List Line) (h : ∀ l ∈ ls, LineOk l) (rest : Str) :
    tokenise (ls.flatMap printLine ++ rest) =
      ⟨ls ++ (tokenise rest).lines, (tokenise rest).term⟩ := by
  induction ls with
  | nil => rfl
  | cons l ls ih =>
    rw [List.flatMap_cons, List.append_assoc, tokenise_print l (h l (by simp)),
      ih (fun x hx => h x (by simp [hx]))]
    rfl

end Ics
