import Verif.Failing
import Verif.DemandLemmas
/-!
# Lemmas: texts that go on, and readers that fail
-/

namespace Ics

open Spec

/-- What is read of a line that goes on behind its text. -/
theorem parseLine_goes_on {l : Line} (h : LineOk l) (t : Str) : parseLine (printBare l ++ t) =
    match parseValue (l.value ++ t) with
    | .ok (v, r) => .line { l with value := v } r
    | .err e => .error e
    | .panic => .done := by
  obtain ⟨d, r, hr, hd⟩ := printParams_head l.params (l.value ++ t)
  have e : printBare l ++ t = l.name ++ d :: r := by
    rw [← hr]; simp [printBare]
  have hdi : isIana d = false := by rcases hd with rfl | rfl <;> decide
  obtain ⟨t1, t2⟩ := takeWhile_stop isIana l.name (d :: r)
    (by intro x hx; exact (isIana_iff x).2 (h.name x hx)) (by simpa using hdi)
  have hp : parseParams ((d :: r).length + 1) (d :: r) = .ok (l.params, l.value ++ t) := by
    rw [← hr]
    refine parseParams_print _ _ _ h.pname h.pvals_ne h.pvals ?_
    have := printParams_length l.params
    simp; omega
  rw [e]
  unfold parseLine
  simp only [t1, t2, if_neg h.name_ne]
  rcases hd with rfl | rfl
  all_goals
    simp only [hp, Res.ok_bind]
    cases parseValue (l.value ++ t) with
    | ok x => rfl
    | err e => rfl
    | panic => rfl

theorem parseValue_no_panic (s : Str) : parseValue s ≠ .panic := by
  unfold parseValue
  dsimp only
  split <;> nofun

/-- The state of the calendar that is closed by the line `e`. -/
theorem calStep_closes {E : Env} {c : CalCfg} {e : Line} {x : Cal} (h : calStep E c e = .ok (.inr x)) :
    c.inner = .own ∧ Ends e ∧ e.value = tabCalendar.name := by
  unfold calStep SCfg.step at h
  cases hi : c.inner with
  | own =>
    rw [hi] at h
    dsimp only at h
    cases hk : tabCalendar.kindOf e with
    | fin =>
      rw [hk] at h
      dsimp only at h
      refine ⟨rfl, ?_, ?_⟩
      · unfold Tab.kindOf at hk
        split at hk
        · split at hk
          · split at hk <;> cases hk
          · cases hk
        · split at hk
          · split at hk <;> cases hk
          · split at hk
            · assumption
            · cases hk
      · split at h
        · assumption
        · cases h
    | sub i k => rw [hk] at h; cases h
    | unk => rw [hk] at h; cases h
    | prop i f =>
      rw [hk] at h
      dsimp only at h
      cases ha : c.s.addProp E i f e <;> rw [ha] at h <;> cases h
    | other => rw [hk] at h; cases h
  | skip n ns =>
    rw [hi] at h
    dsimp only at h
    split at h
    · cases h
    · split at h
      · split at h <;> cases h
      · cases h
  | sub i y =>
    rw [hi] at h
    dsimp only at h
    cases hs : compStep E y e with
    | ok z => rw [hs] at h; cases z <;> cases h
    | err e => rw [hs] at h; cases h
    | panic => rw [hs] at h; cases h

/-- The same line with another value is an error there. -/
theorem calStep_other_end {E : Env} {c : CalCfg} {e : Line} (hi : c.inner = .own) (he : Ends e) (hv : e.value ≠ tabCalendar.name) : calStep E c e = .err .invalidEnd := by
  unfold calStep SCfg.step
  rw [hi]
  dsimp only
  rw [Tab.kindOf_end calTab_wf he]
  dsimp only
  rw [if_neg hv]

/-- What becomes of an accepted text that goes on: the calendar is complete, and what follows does not matter; or the line end of its last line is missing, and a line end has to follow. -/
theorem decodeDoc_goes_on {E : Env} {p : Str} {c : Cal} (h : decodeDoc E p = .ok c) : (∀ t, decodeDoc E (p ++ t) = .ok c) ∨
    ∀ t, ((t = [] ∨ crlf <+: t) ∧ decodeDoc E (p ++ t) = .ok c) ∨
      (¬ (t = [] ∨ crlf <+: t) ∧ (decodeDoc E (p ++ t) = .err .invalidEnd ∨ decodeDoc E (p ++ t) = .err .invalidContentLineValue)) := by
  obtain ⟨b, k, e, r, h1, h2, h3, h4, h5, h6⟩ := decodeStream_local h
  have h1' : (tokenise p).lines = (b :: k ++ [e]) ++ r := by rw [h1]; simp
  obtain ⟨h7, h8⟩ := tokenise_front h1'
  have hall : ∀ t, decodeDoc E ((b :: k ++ [e]).flatMap printLine ++ t) = .ok c := by
    intro t
    unfold decodeDoc
    rw [tokenise_prints _ h7 t]
    simpa using h6 (tokenise t).term (tokenise t).lines
  rcases h8 with ⟨q, rfl⟩ | h8
  · left
    intro t
    rw [List.append_assoc]
    exact hall _
  · have hbk : ∀ l ∈ b :: k, LineOk l := fun l hl => h7 l (by simp at hl ⊢; rcases hl with rfl | hl <;> simp_all)
    have hle : LineOk e := h7 e (by simp)
    have hp : p = (b :: k).flatMap printLine ++ printBare e := by
      have : p ++ crlf = ((b :: k).flatMap printLine ++ printBare e) ++ crlf := by
        rw [h8, List.flatMap_append, List.append_assoc]
        simp [printLine, crlf]
      exact List.append_cancel_right this
    have hst : ∀ t' r', decodeStream E ⟨b :: (k ++ r'), t'⟩ =
        calSteps E calInit (k ++ r') >>= fun
          | .inl c => if c.inAlarm = true ∧ t' = .done then .panic else .err t'.err
          | .inr x => .ok x.1 := by
      intro t' r'
      rw [decodeStream_steps, if_pos ⟨h2, h3⟩]
      rfl
    have hk : ∃ y, calSteps E calInit k = .ok y := by
      have := h6 .done []
      rw [List.cons_append, hst, calSteps_append] at this
      cases hk : calSteps E calInit k with
      | ok y => exact ⟨y, rfl⟩
      | err e => rw [hk] at this; cases this
      | panic => rw [hk] at this; cases this
    obtain ⟨y, hk⟩ := hk
    cases y with
    | inr x =>
      left
      intro t
      have hx : c = x.1 := by
        have := h6 .done []
        rw [List.cons_append, hst, calSteps_append, hk] at this
        cases this
        rfl
      unfold decodeDoc
      rw [hp, List.append_assoc, tokenise_prints _ hbk]
      rw [List.cons_append, hst, calSteps_append, hk, hx]
      rfl
    | inl cfg =>
      right
      have hcl : calStep E cfg e = .ok (.inr c) := by
        have := h6 (.error .invalidEnd) []
        rw [List.cons_append, hst, calSteps_append, hk] at this
        simp only [Res.ok_bind, calSteps] at this
        cases hc : calStep E cfg e with
        | ok y =>
          rw [hc] at this
          cases y with
          | inl c2 =>
            simp only [Res.ok_bind] at this
            split at this <;> cases this
          | inr x => simp only [Res.ok_bind] at this; cases this; rfl
        | err e => rw [hc] at this; cases this
        | panic => rw [hc] at this; cases this
      obtain ⟨c1, c2, c3⟩ := calStep_closes hcl
      intro t
      by_cases ht : t = [] ∨ crlf <+: t
      · left
        refine ⟨ht, ?_⟩
        rcases ht with rfl | ⟨t', rfl⟩
        · rw [List.append_nil]; exact h
        · rw [← List.append_assoc, h8]
          exact hall t'
      · right
        refine ⟨ht, ?_⟩
        unfold decodeDoc
        rw [hp, List.append_assoc, tokenise_prints _ hbk]
        have hpl := parseLine_goes_on hle t
        cases hv : parseValue (e.value ++ t) with
        | panic => exact absurd hv (parseValue_no_panic _)
        | err x =>
          right
          rw [hv] at hpl
          dsimp only at hpl
          rw [tokenise_fails hpl]
          dsimp only
          have hx : x = .invalidContentLineValue := by
            unfold parseValue at hv
            dsimp only at hv
            split at hv
            · cases hv
            · cases hv
            · cases hv; rfl
          rw [List.cons_append, hst, calSteps_append, hk, hx]
          simp only [Res.ok_bind, calSteps]
          rw [if_neg (by rintro ⟨_, h⟩; cases h)]
          rfl
        | ok y =>
          obtain ⟨v, r'⟩ := y
          left
          rw [hv] at hpl
          dsimp only at hpl
          rw [tokenise_line hpl]
          dsimp only
          have hne : v ≠ tabCalendar.name := by
            intro hvn
            rcases (parseValue_inv hv).2 with h' | ⟨h', _⟩
            · rw [hvn, ← c3] at h'
              exact ht (Or.inr ⟨r', by rw [List.append_cancel_left h']; rfl⟩)
            · rw [hvn, ← c3] at h'
              exact ht (Or.inl (by simpa using h'))
          rw [List.cons_append, hst, calSteps_append, hk]
          simp only [Res.ok_bind, calSteps]
          rw [calStep_other_end c1 (show Ends { e with value := v } from c2) hne]
          rfl

/-! ## Failing readers -/

theorem decodeFailing_some {E : Env} {P : OnFail} {R : Reader} {fuel : Nat} {ks : List Nat} {u : Unfolder} {acc : Bytes} {x : Res Cal} (h : decodeOpen E (runesOpen acc) = some x) :
    decodeFailing E P R fuel ks u acc = .done (x, u) := by
  unfold decodeFailing
  rw [h]

theorem decodeFailing_none {E : Env} {P : OnFail} {R : Reader} {fuel : Nat} {k : Nat} {ks : List Nat} {u : Unfolder} {acc : Bytes} (h : decodeOpen E (runesOpen acc) = none) :
    decodeFailing E P R fuel (k :: ks) u acc = (u.read R fuel k).bind fun r =>
        match r.err with
        | some e => .done (decodeBroken E P (acc ++ r.q.take r.m.toNat) e, r.u)
        | none => decodeFailing E P R fuel ks r.u (acc ++ r.q.take r.m.toNat) := by
  conv => lhs; unfold decodeFailing
  rw [h]
  rfl

theorem decodeFailing_nil {E : Env} {P : OnFail} {R : Reader} {fuel : Nat} {u : Unfolder} {acc : Bytes} (h : decodeOpen E (runesOpen acc) = none) :
    decodeFailing E P R fuel [] u acc = .running := by
  conv => lhs; unfold decodeFailing
  rw [h]

/-- Either what has arrived decided the result before the reader failed, or the reader has failed and the library has made something of it. -/
theorem decodeFailing_done {E : Env} {P : OnFail} {R : Reader} {fuel : Nat} : ∀ {ks : List Nat} {u : Unfolder} {acc : Bytes} {x : Res Cal} {u' : Unfolder},
    decodeFailing E P R fuel ks u acc = .done (x, u') →
    ∃ ks1 ks2 out, ks = ks1 ++ ks2 ∧ ((readAll R fuel ks1 u acc = .done (out, none, u') ∧ ∀ q, decodeDoc E (runes out ++ q) = x) ∨
      ∃ e, readAll R fuel ks1 u acc = .done (out, some e, u') ∧ x = decodeBroken E P out e)
  | ks, u, acc, x, u', h => by
    cases hd : decodeOpen E (runesOpen acc) with
    | some y =>
      rw [decodeFailing_some hd] at h
      cases h
      refine ⟨[], ks, acc, rfl, Or.inl ⟨rfl, fun q => ?_⟩⟩
      obtain ⟨r, hr⟩ := runesOpen_prefix acc []
      rw [List.append_nil] at hr
      rw [hr, List.append_assoc]
      exact decodeOpen_sound hd _
    | none =>
      match ks with
      | [] => rw [decodeFailing_nil hd] at h; cases h
      | k :: ks =>
        rw [decodeFailing_none hd] at h
        obtain ⟨r, h1, h2⟩ := Run.bind_eq_done h
        cases he : r.err with
        | some e =>
          rw [he] at h2
          cases h2
          exact ⟨[k], ks, _, rfl, Or.inr ⟨e, by rw [readAll, h1, Run.bind_done, if_pos (by rw [he]; rfl), he], rfl⟩⟩
        | none =>
          rw [he] at h2
          obtain ⟨ks1, ks2, out, e1, e2⟩ := decodeFailing_done h2
          refine ⟨k :: ks1, ks2, out, by rw [e1]; rfl, ?_⟩
          have : readAll R fuel (k :: ks1) u acc = readAll R fuel ks1 r.u (acc ++ r.q.take r.m.toNat) := by
            rw [readAll, h1, Run.bind_done, if_neg (by rw [he]; nofun)]
          rw [this]
          exact e2

/-- A reader that fails only where the result is decided already: it does not matter what the library makes of it. -/
theorem decodeFailing_readAll {E : Env} {P : OnFail} {R : Reader} {fuel : Nat} {e : Nat} : ∀ {ks : List Nat} {u : Unfolder} {acc out : Bytes} {u' : Unfolder},
    readAll R fuel ks u acc = .done (out, some e, u') → ∃ u'', decodeFailing E P R fuel ks u acc = .done (decodeBroken E P out e, u'') ∧ u''.hist <:+ u'.hist
  | [], u, acc, out, u', h => by cases h
  | k :: ks, u, acc, out, u', h => by
    have hg := readAll_grows _ _ _ _ _ _ h
    cases hd : decodeOpen E (runesOpen acc) with
    | some x =>
      obtain ⟨q, rfl⟩ := hg.2
      refine ⟨u, ?_, hg.1⟩
      rw [decodeFailing_some hd]
      have : decodeOpen E (runes (acc ++ q)) = some x := by
        obtain ⟨r, hr⟩ := runesOpen_prefix acc q
        cases hd' : decodeOpen E (runes (acc ++ q)) with
        | some y => rw [← decodeOpen_octets hd q, ← decodeOpen_sound hd' [], List.append_nil]
        | none =>
          obtain ⟨q1, q2, hq⟩ := decodeOpen_asks hd'
          rw [hr, List.append_assoc, List.append_assoc, decodeOpen_sound hd, decodeOpen_sound hd] at hq
          exact absurd rfl hq
      unfold decodeBroken
      rw [this]
    | none =>
      rw [decodeFailing_none hd]
      rw [readAll] at h
      obtain ⟨r, h1, h2⟩ := Run.bind_eq_done h
      rw [h1, Run.bind_done]
      cases he : r.err with
      | some e' =>
        rw [if_pos (by rw [he]; rfl), he] at h2
        simp only [Run.done.injEq, Prod.mk.injEq, Option.some.injEq] at h2
        obtain ⟨rfl, rfl, rfl⟩ := h2
        exact ⟨_, rfl, List.suffix_refl _⟩
      | none =>
        rw [if_neg (by rw [he]; nofun)] at h2
        exact decodeFailing_readAll h2

end Ics
