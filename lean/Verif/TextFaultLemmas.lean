import Verif.Spec.TextFault
import Verif.TokeniserLemmas
/-!
# Lemmas: which error a text gets that is not a content line
-/

namespace Ics

open Spec

theorem dropWhile_stops (p : Char → Bool) (s : Str) : ∀ c ∈ (s.dropWhile p).head?, p c = false := by
  intro c hc
  have := List.head?_dropWhile_not p s
  rw [hc] at this
  simpa using this

/-- An unquoted value goes on with such characters. -/
def GoesOn (v : PVal) (c : Char) : Prop := v.quoted = false ∧ NoCtl c ∧ c ∉ [',', ';', ':'] ∧ (c = '"' → v.data = [])

theorem nonsafe_iff (c : Char) : isNonsafe c = false ↔ NoCtl c ∧ c ∉ [',', ';', ':'] ∧ c ≠ '"' := by
  rw [isNonsafe_iff]
  have e1 : ∀ d : Char, c = d ↔ c.toNat = d.toNat := fun d => by rw [← beq_char_iff]; simp
  simp only [List.mem_cons, List.not_mem_nil, or_false, not_or, ne_eq, e1]
  have h1 : '"'.toNat = 34 := rfl
  have h2 : ';'.toNat = 59 := rfl
  have h3 : ':'.toNat = 58 := rfl
  have h4 : ','.toNat = 44 := rfl
  rw [h1, h2, h3, h4]
  grind

theorem quote_iff (c : Char) : isCtl33 c = false ↔ NoCtl c ∧ c ≠ '"' := by
  rw [isCtl33_iff]
  have : c = '"' ↔ c.toNat = '"'.toNat := by rw [← beq_char_iff]; simp
  have h1 : '"'.toNat = 34 := rfl
  rw [ne_eq, ne_eq, this, h1]

theorem parseOneVal_iff {s : Str} {v : PVal} {r : Str} : parseOneVal s = .ok (v, r) ↔ ParamValOk v ∧ s = printVal v ++ r ∧ Stops (GoesOn v) r := by
  constructor
  · intro h
    obtain ⟨h1, h2⟩ := parseOneVal_inv h
    refine ⟨h1, h2, ?_⟩
    unfold parseOneVal at h
    split at h
    · split at h
      · injection h with h
        injection h with h3 h4
        subst h3
        intro c _ hg
        cases hg.1
      · cases h
    · next hne =>
      injection h with h
      injection h with h3 h4
      subst h3
      intro c hc hg
      rw [← h4] at hc
      have := dropWhile_stops _ _ c hc
      have hn : isNonsafe c = true := by simpa using this
      obtain ⟨_, g1, g2, g3⟩ := hg
      by_cases hq : c = '"'
      · have hd : s.takeWhile (fun c => !isNonsafe c) = [] := g3 hq
        have hs := takeWhile_dropWhile (fun c => !isNonsafe c) s
        rw [hd, List.nil_append] at hs
        rw [← hs] at hc
        cases s with
        | nil => simp at hc
        | cons x s =>
          simp only [List.head?_cons, Option.mem_def, Option.some.injEq] at hc
          subst hc
          subst hq
          exact hne s rfl
      · rw [(nonsafe_iff c).2 ⟨g1, g2, hq⟩] at hn
        cases hn
  · rintro ⟨h1, rfl, h2⟩
    obtain ⟨q, d⟩ := v
    cases q with
    | true =>
      obtain ⟨t1, t2⟩ := takeWhile_stop (fun c => !isCtl33 c) d ('"' :: r)
        (by intro x hx; simp [(isCtl33_iff x).2 ⟨(h1 x hx).1, (h1 x hx).2.1⟩]) (by simp [isCtl33])
      have e : printVal ⟨true, d⟩ ++ r = '"' :: (d ++ '"' :: r) := by simp [printVal]
      rw [e]
      simp [parseOneVal, t1, t2]
    | false =>
      have hs : ∀ x ∈ d, isNonsafe x = false := by
        intro x hx
        obtain ⟨a, b, c⟩ := h1 x hx
        obtain ⟨c1, c2, c3⟩ := c rfl
        exact (isNonsafe_iff x).2 ⟨a, b, c1, c2, c3⟩
      have hr : ∀ c ∈ r.head?, isNonsafe c = true ∧ (c = '"' → d ≠ []) := by
        intro c hc
        have := h2 c hc
        refine ⟨?_, fun hq hd => this ⟨rfl, ?_, ?_, fun _ => hd⟩⟩
        · cases hn : isNonsafe c with
          | true => rfl
          | false =>
            obtain ⟨g1, g2, g3⟩ := (nonsafe_iff c).1 hn
            exact absurd ⟨rfl, g1, g2, fun h => absurd h g3⟩ this
        · subst hq; exact .inl (by decide)
        · subst hq; decide
      obtain ⟨t1, t2⟩ := takeWhile_stop (fun c => !isNonsafe c) d r
        (by intro x hx; simp [hs x hx]) (by intro c hc; simp [(hr c hc).1])
      have e : printVal ⟨false, d⟩ ++ r = d ++ r := by simp [printVal]
      rw [e]
      unfold parseOneVal
      split
      · next s' h =>
        exfalso
        cases d with
        | nil =>
          rw [List.nil_append] at h
          exact (hr '"' (by rw [h]; rfl)).2 rfl rfl
        | cons x d =>
          simp only [List.cons_append, List.cons.injEq] at h
          have := hs x (by simp)
          rw [h.1] at this
          exact absurd this (by decide)
      · rw [t1, t2]

theorem parseOneVal_err {s : Str} {e : Err} : parseOneVal s = .err e ↔
    e = .invalidContentLineQuotedParamValue ∧ ∃ q r, s = '"' :: (q ++ r) ∧ (∀ c ∈ q, NoCtl c ∧ c ≠ '"') ∧ Stops NoCtl r := by
  constructor
  · intro h
    unfold parseOneVal at h
    split at h
    · next s' =>
      split at h
      · cases h
      · next hne =>
        cases h
        refine ⟨rfl, s'.takeWhile (fun c => !isCtl33 c), s'.dropWhile (fun c => !isCtl33 c), by rw [← takeWhile_dropWhile], ?_, ?_⟩
        · intro c hc
          exact (quote_iff c).1 (by simpa using takeWhile_all (fun c => !isCtl33 c) s' c hc)
        · intro c hc hn
          have h1 := dropWhile_stops _ _ c hc
          have h2 : c = '"' := by
            refine Classical.byContradiction fun hq => ?_
            rw [(quote_iff c).2 ⟨hn, hq⟩] at h1
            cases h1
          subst h2
          generalize s'.dropWhile (fun c => !isCtl33 c) = x at hc hne
          cases x with
          | nil => simp at hc
          | cons y x =>
            simp only [List.head?_cons, Option.mem_def, Option.some.injEq] at hc
            subst hc
            exact hne x rfl
    · cases h
  · rintro ⟨rfl, q, r, rfl, h1, h2⟩
    have hr : ∀ c ∈ r.head?, isCtl33 c = true := by
      intro c hc
      cases hn : isCtl33 c with
      | true => rfl
      | false => exact absurd ((quote_iff c).1 hn).1 (h2 c hc)
    obtain ⟨t1, t2⟩ := takeWhile_stop (fun c => !isCtl33 c) q r
      (by intro x hx; simp [(quote_iff x).2 (h1 x hx)]) (by intro c hc; simp [hr c hc])
    simp only [parseOneVal, t2]
    split
    · next r' =>
      exact absurd (.inl (by decide)) (h2 '"' rfl)
    · rfl

theorem parseVals_err : ∀ (fuel : Nat) (s : Str) (e : Err), s.length < fuel → (parseVals fuel s = .err e ↔ ValuesFault s e) := by
  intro fuel
  induction fuel with
  | zero => intro s e h; omega
  | succ fuel ih =>
    intro s e hf
    rw [parseVals, Res.bind_eq_err]
    constructor
    · rintro (h | ⟨⟨v, r⟩, h1, h2⟩)
      · obtain ⟨rfl, q, r, rfl, h1, h2⟩ := parseOneVal_err.1 h
        exact .quoted (vs := []) (by simp) h1 h2
      · obtain ⟨p1, p2, p3⟩ := parseOneVal_iff.1 h1
        dsimp only at h2
        split at h2
        · next r' =>
          rcases Res.bind_eq_err.1 h2 with h2 | ⟨_, _, h2⟩
          · have hl : r'.length < fuel := by rw [p2] at hf; simp at hf; omega
            have := (ih r' e hl).1 h2
            have ok : ∀ {vs : List PVal}, (∀ w ∈ vs, ParamValOk w) → ∀ w ∈ v :: vs, ParamValOk w := by
              intro vs h w hw
              rcases List.mem_cons.1 hw with rfl | hw
              · exact p1
              · exact h w hw
            rw [p2]
            cases this with
            | quoted g1 g2 g3 =>
              have := ValuesFault.quoted (ok g1) g2 g3
              simpa [printCommas] using this
            | behind g1 g2 g3 =>
              have := ValuesFault.behind (ok g1) g2 g3
              simpa [printCommas] using this
          · cases h2
        · cases h2
        · cases h2
        · next n1 n2 n3 =>
          cases h2
          rw [p2]
          refine .behind (vs := []) (by simp) p1 ?_
          intro c hc hb
          cases r with
          | nil => simp at hc
          | cons y r =>
            simp only [List.head?_cons, Option.mem_def, Option.some.injEq] at hc
            subst hc
            have hm : y ∉ [',', ';', ':'] := by
              simp only [List.mem_cons, List.not_mem_nil, or_false, not_or]
              exact ⟨fun h => n1 r (by rw [h]), fun h => n2 r (by rw [h]), fun h => n3 r (by rw [h])⟩
            rcases hb with hb | ⟨b1, b2, b3⟩
            · exact hm hb
            · exact p3 y rfl ⟨b1, b2, hm, b3⟩
    · intro h
      have more : ∀ {v : PVal} {vs : List PVal} {x : Str}, (∀ w ∈ v :: vs, ParamValOk w) → s = printCommas (v :: vs) ++ x →
          (ValuesFault (printCommas vs ++ x) e) →
          (parseOneVal s = .err e ∨ ∃ a, parseOneVal s = .ok a ∧ (match a with
            | (v, r) => (match r with
              | ',' :: r => do
                let (vs, r) ← parseVals fuel r
                Res.ok (v :: vs, r)
              | ';' :: _ => .ok ([v], r)
              | ':' :: _ => .ok ([v], r)
              | _ => .err .invalidContentLineParamValue)) = .err e) := by
        intro v vs x hv hs hf2
        have e1 : s = printVal v ++ ',' :: (printCommas vs ++ x) := by rw [hs]; simp [printCommas]
        refine .inr ⟨(v, ',' :: (printCommas vs ++ x)), parseOneVal_iff.2 ⟨hv v (by simp), e1, ?_⟩, ?_⟩
        · intro c hc hg
          simp only [List.head?_cons, Option.mem_def, Option.some.injEq] at hc
          subst hc
          exact hg.2.2.1 (by simp)
        · have hl : (printCommas vs ++ x).length < fuel := by rw [e1] at hf; simp at hf ⊢; omega
          show ((parseVals fuel (printCommas vs ++ x)) >>= _) = _
          rw [(ih _ e hl).2 hf2]
          rfl
      cases h with
      | @quoted vs q r g1 g2 g3 =>
        cases vs with
        | nil => exact .inl (parseOneVal_err.2 ⟨rfl, q, r, rfl, g2, g3⟩)
        | cons v vs => exact more g1 rfl (.quoted (fun w hw => g1 w (by simp [hw])) g2 g3)
      | @behind vs v r g1 g2 g3 =>
        cases vs with
        | nil =>
          refine .inr ⟨(v, r), parseOneVal_iff.2 ⟨g2, rfl, ?_⟩, ?_⟩
          · intro c hc hg
            exact g3 c hc (.inr ⟨hg.1, hg.2.1, hg.2.2.2⟩)
          · dsimp only
            split
            · exact absurd (.inl (by simp)) (g3 ',' rfl)
            · exact absurd (.inl (by simp)) (g3 ';' rfl)
            · exact absurd (.inl (by simp)) (g3 ':' rfl)
            · rfl
        | cons w vs => exact more g1 rfl (.behind (fun w hw => g1 w (by simp [hw])) g2 g3)

theorem parseVals_rest : ∀ (fuel : Nat) {s : Str} {vs : List PVal} {r : Str}, parseVals fuel s = .ok (vs, r) → ∃ d r', r = d :: r' ∧ (d = ';' ∨ d = ':') := by
  intro fuel
  induction fuel with
  | zero => intro s vs r h; cases h
  | succ fuel ih =>
    intro s vs r h
    rw [parseVals] at h
    obtain ⟨⟨v, t⟩, _, h2⟩ := Res.bind_eq_ok.1 h
    dsimp only at h2
    split at h2
    · obtain ⟨⟨vs', t'⟩, h3, h4⟩ := Res.bind_eq_ok.1 h2
      injection h4 with h4
      injection h4 with _ h4
      subst h4
      exact ih h3
    · injection h2 with h2
      injection h2 with _ h2
      subst h2
      exact ⟨_, _, rfl, .inl rfl⟩
    · injection h2 with h2
      injection h2 with _ h2
      subst h2
      exact ⟨_, _, rfl, .inr rfl⟩
    · cases h2

/-- Parameters as `LineOk` wants them. -/
def ParsOk (ps : List (Str × List PVal)) : Prop := ∀ p ∈ ps, (∀ c ∈ p.1, IanaChar c) ∧ p.2 ≠ [] ∧ ∀ v ∈ p.2, ParamValOk v

theorem lineOk_iff {n v : Str} {ps : List (Str × List PVal)} : LineOk ⟨n, ps, v⟩ ↔ n ≠ [] ∧ (∀ c ∈ n, IanaChar c) ∧ ParsOk ps ∧ ∀ c ∈ v, NoCtl c :=
  ⟨fun h => ⟨h.name_ne, h.name, fun p hp => ⟨h.pname p hp, h.pvals_ne p hp, h.pvals p hp⟩, h.value⟩,
    fun ⟨a, b, c, d⟩ => ⟨a, b, fun p hp => (c p hp).1, fun p hp => (c p hp).2.1, fun p hp => (c p hp).2.2, d⟩⟩

/-- What is wrong with the parameters. -/
inductive ParsFault : Str → Err → Prop
  | pname {m r : Str} {ps : List (Str × List PVal)} : ParsOk ps → (∀ c ∈ m, IanaChar c) → Stops (fun c => IanaChar c ∨ c = '=') r →
      ParsFault (printParams ps ++ ';' :: (m ++ r)) .invalidContentLineParamName
  | pvalues {m r : Str} {ps : List (Str × List PVal)} {e : Err} : ParsOk ps → (∀ c ∈ m, IanaChar c) → ValuesFault r e →
      ParsFault (printParams ps ++ ';' :: (m ++ '=' :: r)) e

theorem iana_split {m r : Str} (hm : ∀ c ∈ m, IanaChar c) (hr : Stops IanaChar r) : (m ++ r).takeWhile isIana = m ∧ (m ++ r).dropWhile isIana = r := by
  refine takeWhile_stop isIana m r (fun x hx => (isIana_iff x).2 (hm x hx)) ?_
  intro c hc
  have := hr c hc
  rw [← isIana_iff] at this
  simpa using this

theorem stops_eq (r : Str) : Stops IanaChar ('=' :: r) := by
  intro c hc
  simp only [List.head?_cons, Option.mem_def, Option.some.injEq] at hc
  subst hc
  rw [← isIana_iff]
  decide

theorem parseParams_err : ∀ (fuel : Nat) (d : Char) (s : Str) (e : Err), (d = ';' ∨ d = ':') → (d :: s).length < fuel →
    (parseParams fuel (d :: s) = .err e ↔ ParsFault (d :: s) e) := by
  intro fuel
  induction fuel with
  | zero => intro d s e _ h; omega
  | succ fuel ih =>
    intro d s e hd hf
    constructor
    · intro h
      rcases hd with rfl | rfl
      · rw [parseParams] at h
        have ha := takeWhile_all isIana s
        have hb := dropWhile_stops isIana s
        have hs := takeWhile_dropWhile isIana s
        have ha' : ∀ c ∈ s.takeWhile isIana, IanaChar c := fun c hc => (isIana_iff c).1 (ha c hc)
        split at h
        · next r hr =>
          rw [hr] at hs
          rcases Res.bind_eq_err.1 h with h | ⟨⟨vs, t⟩, h1, h2⟩
          · have := (parseVals_err (r.length + 1) r e (by omega)).1 h
            rw [hs]
            exact ParsFault.pvalues (ps := []) (by intro p hp; cases hp) ha' this
          · dsimp only at h2
            obtain ⟨d', t', rfl, hd'⟩ := parseVals_rest _ h1
            obtain ⟨v1, v2, v3⟩ := parseVals_inv _ h1
            rcases Res.bind_eq_err.1 h2 with h2 | ⟨_, _, h2⟩
            · have hl : (d' :: t').length < fuel := by
                have : s.length = (s.takeWhile isIana).length + (r.length + 1) := by
                  conv => lhs; rw [hs]
                  simp
                rw [v3] at this
                simp at this hf ⊢
                omega
              have g := (ih d' t' e hd' hl).1 h2
              have ok : ∀ {ps : List (Str × List PVal)}, ParsOk ps → ParsOk ((s.takeWhile isIana, vs) :: ps) := by
                intro ps h p hp
                rcases List.mem_cons.1 hp with rfl | hp
                · exact ⟨ha', v1, v2⟩
                · exact h p hp
              rw [hs, v3]
              generalize d' :: t' = x at g
              cases g with
              | pname g1 g2 g3 =>
                have := ParsFault.pname (ok g1) g2 g3
                simpa [printParams] using this
              | pvalues g1 g2 g3 =>
                have := ParsFault.pvalues (ok g1) g2 g3
                simpa [printParams] using this
            · cases h2
        · next hne =>
          cases h
          rw [hs]
          refine ParsFault.pname (ps := []) (by intro p hp; cases hp) ha' ?_
          intro c hc hor
          have := hb c hc
          rcases hor with h | h
          · rw [(isIana_iff c).2 h] at this; cases this
          · subst h
            generalize s.dropWhile isIana = x at hc hne
            cases x with
            | nil => simp at hc
            | cons y x =>
              simp only [List.head?_cons, Option.mem_def, Option.some.injEq] at hc
              subst hc
              exact hne x rfl
      · rw [parseParams] at h; cases h
    · intro h
      generalize hx : d :: s = x at h hf
      have more : ∀ {m : Str} {vs : List PVal} {ps : List (Str × List PVal)} {y : Str}, ParsOk ((m, vs) :: ps) →
          x = printParams ((m, vs) :: ps) ++ ';' :: y → ParsFault (printParams ps ++ ';' :: y) e → parseParams (fuel + 1) x = .err e := by
        intro m vs ps y hp hs hf2
        obtain ⟨p1, p2, p3⟩ := hp _ (List.mem_cons_self ..)
        have hh : ∃ d' t', printParams ps ++ ';' :: y = d' :: t' ∧ (d' = ';' ∨ d' = ':') := by
          cases ps with
          | nil => exact ⟨';', _, rfl, .inl rfl⟩
          | cons p ps => exact ⟨';', _, rfl, .inl rfl⟩
        obtain ⟨d', t', hh1, hh2⟩ := hh
        have e1 : x = ';' :: (m ++ '=' :: (printVals vs ++ d' :: t')) := by rw [hs, ← hh1]; simp [printParams]
        rw [hh1] at hf2
        have hl : (d' :: t').length < fuel := by rw [e1] at hf; simp at hf ⊢; omega
        rw [e1, parseParams]
        obtain ⟨t1, t2⟩ := iana_split p1 (stops_eq (printVals vs ++ d' :: t'))
        rw [t2]
        have hv := parseVals_print vs ((printVals vs ++ d' :: t').length + 1) d' t' p2 p3 hh2 (by have := printVals_length vs; simp; omega)
        refine Res.bind_eq_err.2 (.inr ⟨_, hv, ?_⟩)
        dsimp only
        rw [(ih d' t' e hh2 hl).2 hf2]
        rfl
      cases h with
      | @pname m r ps g1 g2 g3 =>
        cases ps with
        | nil =>
          obtain ⟨_, t2⟩ := iana_split g2 (r := r) (fun c hc h => g3 c hc (.inl h))
          rw [printParams, List.nil_append, parseParams, t2]
          split
          · exact absurd (.inr rfl) (g3 '=' rfl)
          · rfl
        | cons p ps => exact more g1 rfl (.pname (fun q hq => g1 q (by simp [hq])) g2 g3)
      | @pvalues m r ps _ g1 g2 g3 =>
        cases ps with
        | nil =>
          obtain ⟨_, t2⟩ := iana_split g2 (stops_eq r)
          rw [printParams, List.nil_append, parseParams, t2]
          exact Res.bind_eq_err.2 (.inl ((parseVals_err (r.length + 1) r e (by omega)).2 g3))
        | cons p ps => exact more g1 rfl (.pvalues (fun q hq => g1 q (by simp [hq])) g2 g3)

theorem parseValue_err {s : Str} {e : Err} : parseValue s = .err e ↔ e = .invalidContentLineValue ∧
    ∃ v c r, s = v ++ c :: r ∧ (∀ x ∈ v, NoCtl x) ∧ ¬ NoCtl c ∧ ∀ r', c :: r ≠ '\r' :: '\n' :: r' := by
  constructor
  · intro h
    have ha := takeWhile_all (fun c => !isCtl32 c) s
    have hb := dropWhile_stops (fun c => !isCtl32 c) s
    have hs := takeWhile_dropWhile (fun c => !isCtl32 c) s
    unfold parseValue at h
    generalize s.takeWhile (fun c => !isCtl32 c) = v at h ha hs
    generalize s.dropWhile (fun c => !isCtl32 c) = x at h hb hs
    dsimp only at h
    split at h
    · cases h
    · cases h
    · next n1 n2 =>
      cases h
      cases x with
      | nil => exact absurd rfl n2
      | cons c r =>
        refine ⟨rfl, v, c, r, hs, fun y hy => (isCtl32_iff y).1 (by simpa using ha y hy), fun hn => ?_, fun r' h => n1 r' h⟩
        have := hb c rfl
        rw [(isCtl32_iff c).2 hn] at this
        cases this
  · rintro ⟨rfl, v, c, r, rfl, hv, hc, hn⟩
    have hc' : isCtl32 c = true := by
      cases h : isCtl32 c with
      | true => rfl
      | false => exact absurd ((isCtl32_iff c).1 h) hc
    obtain ⟨t1, t2⟩ := takeWhile_stop (fun c => !isCtl32 c) v (c :: r) (by intro x hx; simp [(isCtl32_iff x).2 (hv x hx)])
      (by intro x hx; simp only [List.head?_cons, Option.mem_def, Option.some.injEq] at hx; subst hx; simp [hc'])
    simp only [parseValue, t2]

/-- Which error a text gets. -/
theorem parseLine_err {s : Str} {e : Err} : parseLine s = .error e ↔ TextFault s e := by
  constructor
  · intro h
    have ha := takeWhile_all isIana s
    have hb := dropWhile_stops isIana s
    have hs := takeWhile_dropWhile isIana s
    unfold parseLine at h
    generalize s.takeWhile isIana = n at h ha hs
    generalize s.dropWhile isIana = r at h hb hs
    have ha' : ∀ c ∈ n, IanaChar c := fun c hc => (isIana_iff c).1 (ha c hc)
    dsimp only at h
    split at h
    · next hn =>
      split at h
      · cases h
      · next hr =>
        cases h
        rw [hs, hn, List.nil_append]
        cases r with
        | nil => exact absurd rfl hr
        | cons c r =>
          refine .start fun hi => ?_
          have := hb c rfl
          rw [(isIana_iff c).2 hi] at this
          cases this
    · next hn =>
      have key : ∀ (d : Char) (r' : Str), (d = ';' ∨ d = ':') → r = d :: r' →
          (match (do
            let (ps, r) ← parseParams (r.length + 1) r
            let (v, r) ← parseValue r
            .ok (Phrase.line ⟨n, ps, v⟩ r) : Res Phrase) with
          | .ok p => p
          | .err e => .error e
          | .panic => .done) = .error e → TextFault s e := by
        intro d r' hd hr h
        have : (do
            let (ps, r) ← parseParams (r.length + 1) r
            let (v, r) ← parseValue r
            .ok (Phrase.line ⟨n, ps, v⟩ r) : Res Phrase) = .err e := by
          split at h
          · next p hp =>
            obtain ⟨⟨ps, t⟩, _, h2⟩ := Res.bind_eq_ok.1 hp
            obtain ⟨⟨v, t'⟩, _, h4⟩ := Res.bind_eq_ok.1 h2
            injection h4 with h4
            rw [← h4] at h
            cases h
          · next e' he => cases h; exact he
          · cases h
        rcases Res.bind_eq_err.1 this with h1 | ⟨⟨ps, t⟩, h1, h2⟩
        · rw [hr] at h1
          have := (parseParams_err _ d r' e hd (by omega)).1 h1
          rw [← hr] at this
          rw [hs]
          cases this with
          | pname g1 g2 g3 => exact .pname (lineOk_iff.2 ⟨hn, ha', g1, by simp⟩) g2 g3
          | pvalues g1 g2 g3 => exact .pvalues (lineOk_iff.2 ⟨hn, ha', g1, by simp⟩) g2 g3
        · dsimp only at h2
          obtain ⟨q1, q2, q3, q4⟩ := parseParams_inv _ h1
          rcases Res.bind_eq_err.1 h2 with h2 | ⟨_, _, h2⟩
          · obtain ⟨rfl, v, c, r', rfl, g1, g2, g3⟩ := parseValue_err.1 h2
            rw [hs, q4]
            exact .value (lineOk_iff.2 ⟨hn, ha', fun p hp => ⟨q1 p hp, q2 p hp, q3 p hp⟩, g1⟩) g2 g3
          · cases h2
      split at h
      · exact key ';' _ (.inl rfl) rfl h
      · exact key ':' _ (.inr rfl) rfl h
      · next n1 n2 =>
        cases h
        rw [hs]
        refine .name hn ha' ?_
        intro c hc hor
        cases r with
        | nil => simp at hc
        | cons y r =>
          simp only [List.head?_cons, Option.mem_def, Option.some.injEq] at hc
          subst hc
          rcases hor with h | h | h
          · have := hb y rfl
            rw [(isIana_iff y).2 h] at this
            cases this
          · exact n1 r (by rw [h])
          · exact n2 r (by rw [h])
  · intro h
    have stopsep : ∀ {x : Str} {d : Char} {y : Str}, (d = ';' ∨ d = ':') → x = d :: y → Stops IanaChar x := by
      intro x d y hd hx c hc
      subst hx
      simp only [List.head?_cons, Option.mem_def, Option.some.injEq] at hc
      subst hc
      rw [← isIana_iff]
      rcases hd with rfl | rfl <;> decide
    have go : ∀ {n x y : Str} {d : Char}, n ≠ [] → (∀ c ∈ n, IanaChar c) → (d = ';' ∨ d = ':') → x = d :: y →
        (parseParams (x.length + 1) x = .err e ∨ ∃ a, parseParams (x.length + 1) x = .ok a ∧ parseValue a.2 = .err e) → parseLine (n ++ x) = .error e := by
      intro n x y d hn ha hd hx hp
      obtain ⟨t1, t2⟩ := iana_split ha (stopsep hd hx)
      have key : (do
            let (ps, r) ← parseParams (x.length + 1) x
            let (v, r) ← parseValue r
            .ok (Phrase.line ⟨n, ps, v⟩ r) : Res Phrase) = .err e := by
        refine Res.bind_eq_err.2 ?_
        rcases hp with hp | ⟨a, h1, h2⟩
        · exact .inl hp
        · exact .inr ⟨a, h1, Res.bind_eq_err.2 (.inl h2)⟩
      unfold parseLine
      rw [t1, t2]
      dsimp only
      rw [if_neg hn]
      have fin : ∀ R : Res Phrase, R = .err e → (match R with | .ok p => p | .err e => .error e | .panic => .done) = Phrase.error e := by
        rintro _ rfl; rfl
      subst hx
      rcases hd with rfl | rfl
      · exact fin _ key
      · exact fin _ key
    have head : ∀ (ps : List (Str × List PVal)) (d : Char) (y : Str), (d = ';' ∨ d = ':') → ∃ d' y', printParams ps ++ d :: y = d' :: y' ∧ (d' = ';' ∨ d' = ':') := by
      intro ps d y hd
      cases ps with
      | nil => exact ⟨d, y, rfl, hd⟩
      | cons p ps => exact ⟨';', _, rfl, .inl rfl⟩
    cases h with
    | @start c r hc =>
      have : isIana c = false := by
        cases h : isIana c with
        | false => rfl
        | true => exact absurd ((isIana_iff c).1 h) hc
      simp [parseLine, this]
    | @name n r hn ha hr =>
      obtain ⟨t1, t2⟩ := iana_split ha (r := r) (fun c hc h => hr c hc (.inl h))
      unfold parseLine
      rw [t1, t2]
      dsimp only
      rw [if_neg hn]
      split
      · exact absurd (.inr (.inl rfl)) (hr ';' rfl)
      · exact absurd (.inr (.inr rfl)) (hr ':' rfl)
      · rfl
    | @pname n m r ps g1 g2 g3 =>
      obtain ⟨l1, l2, l3, _⟩ := lineOk_iff.1 g1
      obtain ⟨d, y, h1, h2⟩ := head ps ';' (m ++ r) (.inl rfl)
      refine go l1 l2 h2 h1 (.inl ?_)
      have := ParsFault.pname l3 g2 g3
      rw [h1] at this ⊢
      exact (parseParams_err _ d y _ h2 (by omega)).2 this
    | @pvalues n m r ps _ g1 g2 g3 =>
      obtain ⟨l1, l2, l3, _⟩ := lineOk_iff.1 g1
      obtain ⟨d, y, h1, h2⟩ := head ps ';' (m ++ '=' :: r) (.inl rfl)
      refine go l1 l2 h2 h1 (.inl ?_)
      have := ParsFault.pvalues l3 g2 g3
      rw [h1] at this ⊢
      exact (parseParams_err _ d y _ h2 (by omega)).2 this
    | @value n v r c ps g1 g2 g3 =>
      obtain ⟨l1, l2, l3, l4⟩ := lineOk_iff.1 g1
      obtain ⟨d, y, h1, h2⟩ := head ps ':' (v ++ c :: r) (.inr rfl)
      refine go l1 l2 h2 h1 (.inr ⟨(ps, v ++ c :: r), ?_, parseValue_err.2 ⟨rfl, v, c, r, rfl, l4, g2, g3⟩⟩)
      exact parseParams_print ps _ _ g1.pname g1.pvals_ne g1.pvals (by have := printParams_length ps; simp; omega)

/-- Which error ends a text, and behind which lines. -/
theorem tokenise_err {s : Str} {ls : List Line} {e : Err} : tokenise s = ⟨ls, .error e⟩ ↔ ∃ r, (∀ l ∈ ls, LineOk l) ∧ s = ls.flatMap printLine ++ r ∧ TextFault r e := by
  have nil : ∀ {r : Str} {e : Err}, parseLine r = .error e → tokenise r = ⟨[], .error e⟩ := by
    intro r e h
    unfold tokenise
    rw [streamF, h]
  constructor
  · have : ∀ (k : Nat) (s : Str) (ls : List Line), s.length < k → tokenise s = ⟨ls, .error e⟩ → ∃ r, (∀ l ∈ ls, LineOk l) ∧ s = ls.flatMap printLine ++ r ∧ TextFault r e := by
      intro k
      induction k with
      | zero => intro s ls h; omega
      | succ k ih =>
        intro s ls hk h
        cases hp : parseLine s with
        | line l r =>
          have hlt := parseLine_rest_lt hp
          rw [tokenise_line hp] at h
          injection h with h1 h2
          obtain ⟨r', g1, g2, g3⟩ := ih r (tokenise r).lines (by omega) (by rw [← h2])
          obtain ⟨i1, i2⟩ := parseLine_inv hp
          rcases i2 with i2 | ⟨i2, i3⟩
          · refine ⟨r', ?_, ?_, g3⟩
            · intro x hx
              rw [← h1] at hx
              rcases List.mem_cons.1 hx with rfl | hx
              · exact i1
              · exact g1 x hx
            · rw [i2, g2, ← h1]
              conv => lhs; rw [← g2]
              rw [List.flatMap_cons, List.append_assoc, ← g2]
          · rw [i3, tokenise_nil] at h2
            cases h2
        | done =>
          unfold tokenise at h
          rw [streamF, hp] at h
          cases h
        | error e' =>
          rw [nil hp] at h
          injection h with h1 h2
          injection h2 with h2
          subst h2
          subst h1
          exact ⟨s, by simp, by simp, parseLine_err.1 hp⟩
    exact this _ s ls (Nat.lt_succ_self _)
  · rintro ⟨r, h1, rfl, h2⟩
    rw [tokenise_prints ls h1, nil (parseLine_err.2 h2)]
    simp

end Ics
