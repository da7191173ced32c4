import Verif.Demand
import Verif.ErrorLemmas
import Verif.TextOctets
import Verif.UnfolderCuts
import Verif.WaitingLemmas
import Verif.Spec.Demand
/-!
# Lemmas: Decode while the text is still coming in
-/

namespace Ics

open Spec

/-- A result with more text behind it. -/
def Res.moreText {α : Type} (q : Str) : Res (α × Str) → Res (α × Str)
  | .ok (a, r) => .ok (a, r ++ q)
  | .err e => .err e
  | .panic => .panic

theorem dropWhile_open {α : Type} (p : α → Bool) : ∀ (s q : List α) {c : α} {r : List α}, s.dropWhile p = c :: r →
    (s ++ q).dropWhile p = c :: (r ++ q) ∧ (s ++ q).takeWhile p = s.takeWhile p
  | [], _, _, _, h => by cases h
  | a :: s, q, c, r, h => by
    rw [List.dropWhile_cons] at h
    rw [List.cons_append, List.dropWhile_cons, List.takeWhile_cons, List.takeWhile_cons]
    by_cases ha : p a = true
    · rw [if_pos ha] at h
      rw [if_pos ha, if_pos ha, if_pos ha, (dropWhile_open p s q h).1, (dropWhile_open p s q h).2]
      exact ⟨rfl, rfl⟩
    · rw [if_neg ha] at h
      rw [if_neg ha, if_neg ha, if_neg ha]
      cases h
      exact ⟨rfl, rfl⟩

theorem dropWhile_end {α : Type} (p : α → Bool) : ∀ (s q : List α), s.dropWhile p = [] → (s ++ q).dropWhile p = q.dropWhile p ∧ (s ++ q).takeWhile p = s ++ q.takeWhile p
  | [], _, _ => ⟨rfl, rfl⟩
  | a :: s, q, h => by
    rw [List.dropWhile_cons] at h
    rw [List.cons_append, List.dropWhile_cons, List.takeWhile_cons]
    by_cases ha : p a = true
    · rw [if_pos ha] at h
      rw [if_pos ha, if_pos ha, (dropWhile_end p s q h).1, (dropWhile_end p s q h).2]
      exact ⟨rfl, rfl⟩
    · rw [if_neg ha] at h
      cases h

/-! ## What it finds stands -/

theorem askValue_sound {s : Str} {x : Res (Str × Str)} (h : askValue s = some x) (q : Str) : parseValue (s ++ q) = x.moreText q := by
  unfold askValue at h
  unfold parseValue
  split at h
  · cases h
  · cases h
  · next r hd =>
    cases h
    dsimp only
    rw [(dropWhile_open _ s q hd).1, (dropWhile_open _ s q hd).2]
    rfl
  · next h1 h2 h3 =>
    cases h
    cases hd : s.dropWhile (fun c => !isCtl32 c) with
    | nil => exact absurd hd h1
    | cons c r =>
      dsimp only
      rw [(dropWhile_open _ s q hd).1]
      split
      · next r' he =>
        injection he with he1 he2
        subst he1
        cases r with
        | nil => exact absurd hd h2
        | cons d r =>
          injection he2 with he2 _
          subst he2
          exact absurd hd (h3 r)
      · next he => cases he
      · rfl

theorem askOneVal_sound {s : Str} {x : Res (PVal × Str)} (h : askOneVal s = some x) (q : Str) : parseOneVal (s ++ q) = x.moreText q := by
  unfold askOneVal at h
  split at h
  · cases h
  · next s =>
    rw [List.cons_append, parseOneVal]
    split at h
    · cases h
    · next r hd =>
      cases h
      rw [(dropWhile_open _ s q hd).1, (dropWhile_open _ s q hd).2]
      rfl
    · next h1 h2 =>
      cases h
      cases hd : s.dropWhile (fun c => !isCtl33 c) with
      | nil => exact absurd hd h1
      | cons c r =>
        rw [(dropWhile_open _ s q hd).1]
        split
        · next he => cases he; exact absurd hd (h2 r)
        · rfl
  · next h1 h2 =>
    split at h
    · cases h
    · next hn =>
      cases h
      cases hd : s.dropWhile (fun c => !isNonsafe c) with
      | nil => exact absurd hd hn
      | cons c r =>
        unfold parseOneVal
        split
        · next s' he =>
          cases s with
          | nil => exact absurd rfl h1
          | cons a s => cases he; exact absurd rfl (h2 s)
        · rw [(dropWhile_open _ s q hd).1, (dropWhile_open _ s q hd).2]
          rfl

theorem askVals_sound : ∀ {f g : Nat} {s : Str} {x : Res (List PVal × Str)}, askVals f s = some x → f ≤ g → ∀ q, parseVals g (s ++ q) = x.moreText q
  | 0, _, _, _, h, _, _ => by cases h
  | f + 1, 0, _, _, _, hg, _ => by omega
  | f + 1, g + 1, s, x, h, hg, q => by
    rw [askVals] at h
    rw [parseVals]
    cases h1 : askOneVal s with
    | none => rw [h1] at h; cases h
    | some y =>
      rw [h1] at h
      rw [askOneVal_sound h1 q]
      cases y with
      | err e => cases h; rfl
      | panic => cases h; rfl
      | ok v =>
        obtain ⟨v, r⟩ := v
        simp only [Asks.andThen] at h
        simp only [Res.moreText, Res.ok_bind]
        split at h
        · cases h
        · next r =>
          rw [List.cons_append]
          cases h2 : askVals f r with
          | none => simp only [h2] at h; cases h
          | some z =>
            simp only [h2] at h
            have h3 := askVals_sound h2 (Nat.le_of_succ_le_succ hg) q
            show (parseVals g (r ++ q) >>= _) = _
            rw [h3]
            cases z with
            | ok w => cases h; rfl
            | err e => cases h; rfl
            | panic => cases h; rfl
        · cases h; rfl
        · cases h; rfl
        · next n1 n2 n3 n4 =>
          cases h
          cases r with
          | nil => exact absurd rfl n1
          | cons c r =>
            rw [List.cons_append]
            split
            · next he => cases he; exact absurd rfl (n2 r)
            · next he => cases he; exact absurd rfl (n3 r)
            · next he => cases he; exact absurd rfl (n4 r)
            · rfl

theorem askParams_sound : ∀ {f g : Nat} {s : Str} {x : Res (List (Str × List PVal) × Str)}, askParams f s = some x → f ≤ g → ∀ q, parseParams g (s ++ q) = x.moreText q
  | 0, _, _, _, h, _, _ => by cases h
  | f + 1, 0, _, _, _, hg, _ => by omega
  | f + 1, g + 1, s, x, h, hg, q => by
    unfold askParams at h
    split at h
    · cases h
    · cases h; rfl
    · next s =>
      rw [List.cons_append, parseParams]
      split at h
      · cases h
      · next r hd =>
        simp only [(dropWhile_open _ s q hd).1, (dropWhile_open _ s q hd).2]
        cases h1 : askVals (r.length + 1) r with
        | none => simp only [h1] at h; cases h
        | some y =>
          simp only [h1] at h
          rw [askVals_sound h1 (by simp) q]
          cases y with
          | err e => cases h; rfl
          | panic => cases h; rfl
          | ok v =>
            obtain ⟨vs, r⟩ := v
            simp only [Asks.andThen] at h
            simp only [Res.moreText, Res.ok_bind]
            cases h2 : askParams f r with
            | none => simp only [h2] at h; cases h
            | some z =>
              simp only [h2] at h
              have h3 := askParams_sound h2 (Nat.le_of_succ_le_succ hg) q
              rw [h3]
              cases z with
              | ok w => cases h; rfl
              | err e => cases h; rfl
              | panic => cases h; rfl
      · next n1 n2 =>
        cases h
        cases hd : s.dropWhile isIana with
        | nil => exact absurd hd n1
        | cons c r =>
          simp only [(dropWhile_open _ s q hd).1]
          split
          · next he => cases he; exact absurd hd (n2 r)
          · rfl
    · next n1 n2 n3 =>
      cases h
      cases s with
      | nil => exact absurd rfl n1
      | cons c r =>
        unfold parseParams
        split
        · next he => cases he; exact absurd rfl (n2 r)
        · next he => cases he; exact absurd rfl (n3 r)
        · rfl

/-- What the parser gives for a line, or an error. -/
def Phrase.found (q : Str) : Res (Line × Str) → Phrase
  | .ok (l, r) => .line l (r ++ q)
  | .err e => .error e
  | .panic => .done

theorem askLine_sound {s : Str} {x : Res (Line × Str)} (h : askLine s = some x) (q : Str) : parseLine (s ++ q) = Phrase.found q x := by
  unfold askLine at h
  dsimp only at h
  split at h
  · cases h
  · next c r hd =>
    unfold parseLine
    dsimp only
    rw [(dropWhile_open _ s q hd).1, (dropWhile_open _ s q hd).2]
    by_cases hn : s.takeWhile isIana = []
    · rw [if_pos hn] at h
      cases h
      rw [if_pos hn, if_neg nofun]
      rfl
    · rw [if_neg hn] at h
      rw [if_neg hn]
      by_cases hc : c = ';' ∨ c = ':'
      · rw [if_pos hc] at h
        have key : (match (do
            let (ps, r) ← parseParams ((c :: (r ++ q)).length + 1) (c :: (r ++ q))
            let (v, r) ← parseValue r
            Res.ok (Phrase.line ⟨s.takeWhile isIana, ps, v⟩ r) : Res Phrase) with
            | .ok p => p
            | .err e => .error e
            | .panic => .done) = Phrase.found q x := by
          cases h1 : askParams (r.length + 2) (c :: r) with
          | none => rw [h1] at h; cases h
          | some y =>
            rw [h1] at h
            have := askParams_sound h1 (g := (c :: (r ++ q)).length + 1) (by simp) q
            rw [List.cons_append] at this
            rw [this]
            cases y with
            | err e => cases h; rfl
            | panic => cases h; rfl
            | ok v =>
              obtain ⟨ps, r⟩ := v
              simp only [Asks.andThen] at h
              simp only [Res.moreText, Res.ok_bind]
              cases h2 : askValue r with
              | none => simp only [h2] at h; cases h
              | some z =>
                simp only [h2] at h
                simp only [askValue_sound h2 q]
                cases z with
                | ok w => cases h; rfl
                | err e => cases h; rfl
                | panic => cases h; rfl
        rcases hc with rfl | rfl
        · exact key
        · exact key
      · rw [if_neg hc] at h
        cases h
        split
        · next he => cases he; exact absurd (.inl rfl) hc
        · next he => cases he; exact absurd (.inr rfl) hc
        · rfl

/-! ## Where it asks, it has to -/

/-- Two texts that may come next, with two errors. -/
def Splits {α : Type} (parse : Nat → Str → Res α) (s : Str) : Prop := ∃ q1 q2 e1 e2, e1 ≠ e2 ∧ (∀ g, (s ++ q1).length < g → parse g (s ++ q1) = .err e1) ∧
  ∀ g, (s ++ q2).length < g → parse g (s ++ q2) = .err e2

theorem parseOneVal_open {s : Str} (hn : ∀ r, s ≠ '"' :: r) (hs : s ≠ []) (hd : s.dropWhile (fun c => !isNonsafe c) = []) {c : Char} {q : Str} (hc : isNonsafe c = true) :
    parseOneVal (s ++ c :: q) = .ok (⟨false, s⟩, c :: q) := by
  unfold parseOneVal
  split
  · next s' he =>
    cases s with
    | nil => exact absurd rfl hs
    | cons a s => cases he; exact absurd rfl (hn s)
  · rw [(dropWhile_end _ s (c :: q) hd).1, (dropWhile_end _ s (c :: q) hd).2, List.dropWhile_cons, List.takeWhile_cons]
    rw [if_neg (by rw [hc]; nofun), if_neg (by rw [hc]; nofun), List.append_nil]

theorem splits_next {s : Str} {v : PVal} (h1 : parseOneVal (s ++ ['\x01']) = .ok (v, ['\x01'])) (h2 : parseOneVal (s ++ [',', '"', '\x01']) = .ok (v, [',', '"', '\x01'])) :
    Splits parseVals s := by
  refine ⟨['\x01'], [',', '"', '\x01'], .invalidContentLineParamValue, .invalidContentLineQuotedParamValue, nofun, fun g hg => ?_, fun g hg => ?_⟩
  · cases g with
    | zero => omega
    | succ g =>
      rw [parseVals, h1]
      rfl
  · cases g with
    | zero => omega
    | succ g =>
      rw [parseVals, h2]
      cases g with
      | zero => simp at hg
      | succ g => rfl

theorem askOneVal_splits {s : Str} (h : askOneVal s = none) : Splits parseVals s := by
  unfold askOneVal at h
  split at h
  · refine ⟨['\x01'], ['"', '\x01'], .invalidContentLineParamValue, .invalidContentLineQuotedParamValue, nofun, fun g hg => ?_, fun g hg => ?_⟩
    · cases g with
      | zero => omega
      | succ g => rfl
    · cases g with
      | zero => omega
      | succ g => rfl
  · next s =>
    split at h
    · next hd =>
      refine ⟨['\x01'], ['"', '\x01'], .invalidContentLineQuotedParamValue, .invalidContentLineParamValue, nofun, fun g hg => ?_, fun g hg => ?_⟩
      · cases g with
        | zero => omega
        | succ g =>
          rw [List.cons_append, parseVals, parseOneVal, (dropWhile_end _ s ['\x01'] hd).1]
          rfl
      · cases g with
        | zero => omega
        | succ g =>
          rw [List.cons_append, parseVals, parseOneVal, (dropWhile_end _ s ['"', '\x01'] hd).1]
          rfl
    · cases h
    · cases h
  · next h1 h2 =>
    split at h
    · next hd => exact splits_next (v := ⟨false, s⟩) (parseOneVal_open h2 h1 hd rfl) (parseOneVal_open h2 h1 hd rfl)
    · cases h

theorem askOneVal_length {s : Str} {v : PVal} {r : Str} (h : askOneVal s = some (.ok (v, r))) : r.length ≤ s.length := by
  have := askOneVal_sound h []
  simp only [List.append_nil, Res.moreText] at this
  rw [(parseOneVal_inv this).2, List.length_append]
  omega

theorem askVals_splits : ∀ {f : Nat} {s : Str}, askVals f s = none → s.length < f → Splits parseVals s
  | 0, _, _, hl => by omega
  | f + 1, s, h, hl => by
    rw [askVals] at h
    cases h1 : askOneVal s with
    | none => exact askOneVal_splits h1
    | some y =>
      rw [h1] at h
      cases y with
      | err e => cases h
      | panic => cases h
      | ok v =>
        obtain ⟨v, r⟩ := v
        have hs := askOneVal_sound h1
        have hr := askOneVal_length h1
        simp only [Res.moreText] at hs
        simp only [Asks.andThen] at h
        split at h
        · exact splits_next (hs _) (hs _)
        · next r =>
          cases h2 : askVals f r with
          | some z => simp only [h2] at h; cases z <;> cases h
          | none =>
            simp only [List.length_cons] at hr
            obtain ⟨q1, q2, e1, e2, hne, g1, g2⟩ := askVals_splits h2 (by omega)
            refine ⟨q1, q2, e1, e2, hne, fun g hg => ?_, fun g hg => ?_⟩
            · cases g with
              | zero => omega
              | succ g =>
                rw [parseVals, hs]
                show ((parseVals g (r ++ q1) >>= _) : Res _) = _
                rw [g1 g (by simp only [List.length_append] at hg ⊢; omega)]
                rfl
            · cases g with
              | zero => omega
              | succ g =>
                rw [parseVals, hs]
                show ((parseVals g (r ++ q2) >>= _) : Res _) = _
                rw [g2 g (by simp only [List.length_append] at hg ⊢; omega)]
                rfl
        · cases h
        · cases h
        · cases h

theorem askParams_splits : ∀ {f : Nat} {s : Str}, askParams f s = none → s.length < f → Splits parseParams s
  | 0, _, _, hl => by omega
  | f + 1, s, h, hl => by
    unfold askParams at h
    split at h
    · refine ⟨['?'], [';', '=', '\x01'], .invalidContentLineParamName, .invalidContentLineParamValue, nofun, fun g hg => ?_, fun g hg => ?_⟩
      · cases g with
        | zero => omega
        | succ g => rfl
      · cases g with
        | zero => omega
        | succ g => rfl
    · cases h
    · next s =>
      split at h
      · next hd =>
        refine ⟨['?'], ['=', '\x01'], .invalidContentLineParamName, .invalidContentLineParamValue, nofun, fun g hg => ?_, fun g hg => ?_⟩
        · cases g with
          | zero => omega
          | succ g =>
            rw [List.cons_append, parseParams, (dropWhile_end _ s ['?'] hd).1]
            rfl
        · cases g with
          | zero => omega
          | succ g =>
            rw [List.cons_append, parseParams, (dropWhile_end _ s ['=', '\x01'] hd).1]
            rfl
      · next r hd =>
        have hrs : r.length < s.length := by
          have := congrArg List.length (List.takeWhile_append_dropWhile (p := isIana) (l := s))
          rw [hd, List.length_append, List.length_cons] at this
          omega
        simp only [List.length_cons] at hl
        cases h1 : askVals (r.length + 1) r with
        | none =>
          obtain ⟨q1, q2, e1, e2, hne, g1, g2⟩ := askVals_splits h1 (by omega)
          refine ⟨q1, q2, e1, e2, hne, fun g hg => ?_, fun g hg => ?_⟩
          · cases g with
            | zero => omega
            | succ g =>
              rw [List.cons_append, parseParams]
              simp only [(dropWhile_open _ s q1 hd).1, (dropWhile_open _ s q1 hd).2]
              rw [g1 _ (by omega)]
              rfl
          · cases g with
            | zero => omega
            | succ g =>
              rw [List.cons_append, parseParams]
              simp only [(dropWhile_open _ s q2 hd).1, (dropWhile_open _ s q2 hd).2]
              rw [g2 _ (by omega)]
              rfl
        | some y =>
          simp only [h1] at h
          cases y with
          | err e => cases h
          | panic => cases h
          | ok v =>
            obtain ⟨vs, r2⟩ := v
            have hs := fun q => askVals_sound h1 (g := (r ++ q).length + 1) (by simp) q
            have hr : r2.length ≤ r.length := by
              have := hs []
              simp only [List.append_nil, Res.moreText] at this
              rw [(parseVals_inv _ this).2.2, List.length_append]
              omega
            simp only [Res.moreText] at hs
            simp only [Asks.andThen] at h
            cases h2 : askParams f r2 with
            | some z => simp only [h2] at h; cases z <;> cases h
            | none =>
              obtain ⟨q1, q2, e1, e2, hne, g1, g2⟩ := askParams_splits h2 (by omega)
              refine ⟨q1, q2, e1, e2, hne, fun g hg => ?_, fun g hg => ?_⟩
              · cases g with
                | zero => omega
                | succ g =>
                  rw [List.cons_append, parseParams]
                  simp only [(dropWhile_open _ s q1 hd).1, (dropWhile_open _ s q1 hd).2]
                  rw [hs]
                  show ((parseParams g (r2 ++ q1) >>= _) : Res _) = _
                  rw [g1 g (by simp only [List.length_append, List.length_cons] at hg ⊢; omega)]
                  rfl
              · cases g with
                | zero => omega
                | succ g =>
                  rw [List.cons_append, parseParams]
                  simp only [(dropWhile_open _ s q2 hd).1, (dropWhile_open _ s q2 hd).2]
                  rw [hs]
                  show ((parseParams g (r2 ++ q2) >>= _) : Res _) = _
                  rw [g2 g (by simp only [List.length_append, List.length_cons] at hg ⊢; omega)]
                  rfl
      · cases h
    · cases h

theorem askValue_splits {s : Str} (h : askValue s = none) : ∃ q1 q2 v, parseValue (s ++ q1) = .err .invalidContentLineValue ∧ parseValue (s ++ q2) = .ok (v, []) := by
  unfold askValue at h
  split at h
  · next hd =>
    refine ⟨['\x01'], ['\r', '\n'], s, ?_, ?_⟩
    · unfold parseValue
      dsimp only
      rw [(dropWhile_end _ s _ hd).1]
      rfl
    · unfold parseValue
      dsimp only
      rw [(dropWhile_end _ s _ hd).1, (dropWhile_end _ s _ hd).2]
      show Res.ok (s ++ [], []) = _
      rw [List.append_nil]
  · next hd =>
    refine ⟨['x'], ['\n'], s.takeWhile (fun c => !isCtl32 c), ?_, ?_⟩
    · unfold parseValue
      dsimp only
      rw [(dropWhile_open _ s _ hd).1]
      rfl
    · unfold parseValue
      dsimp only
      rw [(dropWhile_open _ s _ hd).1, (dropWhile_open _ s _ hd).2]
      rfl
  · cases h
  · cases h

/-- The parser of a line behind its name. -/
theorem parseLine_body {s : Str} {c : Char} {r : Str} (hd : s.dropWhile isIana = c :: r) (hn : s.takeWhile isIana ≠ []) (hc : c = ';' ∨ c = ':') :
    parseLine s = match (parseParams ((c :: r).length + 1) (c :: r) >>= fun x => parseValue x.2 >>= fun y => Res.ok (Phrase.line ⟨s.takeWhile isIana, x.1, y.1⟩ y.2) : Res Phrase) with
      | .ok p => p
      | .err e => .error e
      | .panic => .done := by
  unfold parseLine
  dsimp only
  rw [hd, if_neg hn]
  rcases hc with rfl | rfl <;> rfl

theorem askLine_splits {s : Str} (h : askLine s = none) : (∃ q1 q2 e1 e2, e1 ≠ e2 ∧ parseLine (s ++ q1) = .error e1 ∧ parseLine (s ++ q2) = .error e2) ∨
    ∃ q1 q2 l, parseLine (s ++ q1) = .error .invalidContentLineValue ∧ parseLine (s ++ q2) = .line l [] := by
  unfold askLine at h
  dsimp only at h
  split at h
  · next hd =>
    left
    have h2 : parseLine (s ++ ['A', ':', '\x01']) = .error .invalidContentLineValue := by
      have h3 := dropWhile_end isIana s ['A', ':', '\x01'] hd
      rw [parseLine_body (c := ':') (r := ['\x01']) h3.1 (by rw [h3.2]; simp [isIana]) (.inr rfl)]
      rfl
    have h3 := dropWhile_end isIana s ['?'] hd
    cases s with
    | nil => exact ⟨['?'], ['A', ':', '\x01'], .invalidContentLine, .invalidContentLineValue, nofun, rfl, h2⟩
    | cons a s =>
      refine ⟨['?'], ['A', ':', '\x01'], .invalidContentLineName, .invalidContentLineValue, nofun, ?_, h2⟩
      unfold parseLine
      dsimp only
      rw [h3.1, h3.2, if_neg (by simp)]
      rfl
  · next c r hd =>
    by_cases hn : s.takeWhile isIana = []
    · rw [if_pos hn] at h; cases h
    · rw [if_neg hn] at h
      by_cases hc : c = ';' ∨ c = ':'
      · rw [if_pos hc] at h
        have hb : ∀ q, _ := fun q => parseLine_body (s := s ++ q) (dropWhile_open _ s q hd).1 (by rw [(dropWhile_open _ s q hd).2]; exact hn) hc
        cases h1 : askParams (r.length + 2) (c :: r) with
        | none =>
          obtain ⟨q1, q2, e1, e2, hne, g1, g2⟩ := askParams_splits h1 (by simp)
          refine .inl ⟨q1, q2, e1, e2, hne, ?_, ?_⟩
          · rw [hb, ← List.cons_append, g1 _ (by omega)]
            rfl
          · rw [hb, ← List.cons_append, g2 _ (by omega)]
            rfl
        | some y =>
          rw [h1] at h
          cases y with
          | err e => cases h
          | panic => cases h
          | ok v =>
            obtain ⟨ps, r2⟩ := v
            have hs : ∀ q, parseParams ((c :: (r ++ q)).length + 1) (c :: (r ++ q)) = .ok (ps, r2 ++ q) := fun q => by
              have := askParams_sound h1 (g := (c :: (r ++ q)).length + 1) (by simp) q
              rw [List.cons_append] at this
              exact this
            simp only [Asks.andThen] at h
            cases h2 : askValue r2 with
            | some z => simp only [h2] at h; cases z <;> cases h
            | none =>
              obtain ⟨q1, q2, v, g1, g2⟩ := askValue_splits h2
              refine .inr ⟨q1, q2, ⟨(s ++ q2).takeWhile isIana, ps, v⟩, ?_, ?_⟩
              · rw [hb, hs]
                simp only [Res.ok_bind, g1]
                rfl
              · rw [hb, hs]
                simp only [Res.ok_bind, g2]
      · rw [if_neg hc] at h; cases h

/-! ## Lines -/

theorem tokenise_fails {s : Str} {e : Err} (h : parseLine s = .error e) : tokenise s = ⟨[], .error e⟩ := by
  unfold tokenise
  rw [streamF, h]

theorem askLine_panic {s : Str} : askLine s ≠ some .panic := by
  intro h
  unfold askLine at h
  dsimp only at h
  split at h
  · cases h
  · next c r hd =>
    split at h
    · cases h
    · split at h
      · cases h1 : askParams (r.length + 2) (c :: r) with
        | none => rw [h1] at h; cases h
        | some y =>
          rw [h1] at h
          cases y with
          | err e => cases h
          | panic => exact parseParams_ne_panic _ _ (askParams_sound h1 (Nat.le_refl _) [])
          | ok v =>
            obtain ⟨ps, r2⟩ := v
            simp only [Asks.andThen] at h
            cases h2 : askValue r2 with
            | none => simp only [h2] at h; cases h
            | some z =>
              simp only [h2] at h
              cases z with
              | ok w => cases h
              | err e => cases h
              | panic =>
                unfold askValue at h2
                split at h2 <;> cases h2
      · cases h

theorem askLines_spec : ∀ {f : Nat} {s : Str}, s.length < f →
    (∃ ls e, askLines f s = (ls, some e) ∧ ∀ q, tokenise (s ++ q) = ⟨ls, .error e⟩) ∨
    ∃ ls r, askLines f s = (ls, none) ∧ askLine r = none ∧ ∀ q, tokenise (s ++ q) = ⟨ls ++ (tokenise (r ++ q)).lines, (tokenise (r ++ q)).term⟩
  | 0, _, h => by omega
  | f + 1, s, h => by
    unfold askLines
    cases h1 : askLine s with
    | none => exact .inr ⟨[], s, rfl, h1, fun q => rfl⟩
    | some x =>
      have hs := askLine_sound h1
      cases x with
      | panic => exact absurd h1 askLine_panic
      | err e => exact .inl ⟨[], e, rfl, fun q => tokenise_fails (hs q)⟩
      | ok x =>
        obtain ⟨l, r⟩ := x
        have hr : r.length < s.length := by
          have := parseLine_rest_lt (hs [])
          simpa using this
        rcases askLines_spec (f := f) (s := r) (by omega) with ⟨ls, e, g1, g2⟩ | ⟨ls, r2, g1, g2, g3⟩
        · refine .inl ⟨l :: ls, e, by dsimp only; rw [g1], fun q => ?_⟩
          rw [tokenise_line (hs q), g2]
        · refine .inr ⟨l :: ls, r2, by dsimp only; rw [g1], g2, fun q => ?_⟩
          rw [tokenise_line (hs q), g3]
          rfl

theorem calSteps_append (E : Env) : ∀ (a b : List Line) (c : CalCfg), calSteps E c (a ++ b) = calSteps E c a >>= fun
    | .inl c => calSteps E c b
    | .inr x => .ok (.inr (x.1, x.2 ++ b))
  | [], b, c => rfl
  | l :: a, b, c => by
    rw [List.cons_append, calSteps, calSteps]
    cases calStep E c l with
    | ok y =>
      cases y with
      | inl c => exact calSteps_append E a b c
      | inr s => rfl
    | err e => rfl
    | panic => rfl

theorem askDecode_error (E : Env) (ls : List Line) (e : Err) : askDecode E (ls, some e) = some (decodeStream E ⟨ls, .error e⟩) := by
  cases ls with
  | nil => rfl
  | cons l r =>
    rw [decodeStream_steps, askDecode]
    show (if Begins l ∧ upper l.value = c!"VCALENDAR" then _ else _) = _
    by_cases hb : Begins l ∧ upper l.value = c!"VCALENDAR"
    · rw [if_pos hb, if_pos hb]
      cases calSteps E calInit r with
      | ok y =>
        cases y with
        | inl c =>
          show _ = some (if c.inAlarm = true ∧ Term.error e = .done then _ else _)
          rw [if_neg (fun h => nomatch h.2)]
          rfl
        | inr x => rfl
      | err e => rfl
      | panic => rfl
    · rw [if_neg hb, if_neg hb]

/-- Either the lines decide the result, or `Decode` asks for another. -/
theorem askDecode_open (E : Env) (ls : List Line) : (∃ x, askDecode E (ls, none) = some x ∧ ∀ m t, decodeStream E ⟨ls ++ m, t⟩ = x) ∨
    (askDecode E (ls, none) = none ∧ ∀ e, decodeStream E ⟨ls, .error e⟩ = .err e) := by
  cases ls with
  | nil => exact .inr ⟨rfl, fun e => rfl⟩
  | cons l r =>
    rw [askDecode]
    have hd : ∀ m t, decodeStream E ⟨l :: r ++ m, t⟩ = _ := fun m t => decodeStream_steps E t l (r ++ m)
    have hd' : ∀ t, decodeStream E ⟨l :: r, t⟩ = _ := fun t => decodeStream_steps E t l r
    by_cases hb : Begins l ∧ upper l.value = c!"VCALENDAR"
    · rw [if_pos (show upper l.name = kBEGIN ∧ upper l.value = tabCalendar.name from hb)]
      simp only [if_pos hb, calSteps_append] at hd hd'
      cases h : calSteps E calInit r with
      | ok y =>
        rw [h] at hd hd'
        cases y with
        | inl c =>
          refine .inr ⟨rfl, fun e => ?_⟩
          rw [hd']
          show (if c.inAlarm = true ∧ Term.error e = .done then _ else _) = _
          rw [if_neg (fun h => nomatch h.2)]
          rfl
        | inr x => exact .inl ⟨_, rfl, fun m t => hd m t⟩
      | err e => rw [h] at hd; exact .inl ⟨_, rfl, fun m t => hd m t⟩
      | panic => rw [h] at hd; exact .inl ⟨_, rfl, fun m t => hd m t⟩
    · rw [if_neg (show ¬ (upper l.name = kBEGIN ∧ upper l.value = tabCalendar.name) from hb)]
      simp only [if_neg hb] at hd
      exact .inl ⟨_, rfl, fun m t => hd m t⟩

theorem decodeOpen_sound {E : Env} {s : Str} {x : Res Cal} (h : decodeOpen E s = some x) (q : Str) : decodeDoc E (s ++ q) = x := by
  unfold decodeOpen at h
  unfold decodeDoc
  rcases askLines_spec (f := s.length + 1) (s := s) (by omega) with ⟨ls, e, g1, g2⟩ | ⟨ls, r, g1, g2, g3⟩
  · rw [g1, askDecode_error] at h
    rw [g2]
    exact Option.some.inj h
  · rw [g1] at h
    rw [g3]
    rcases askDecode_open E ls with ⟨y, h1, h2⟩ | ⟨h1, _⟩
    · rw [h1] at h
      rw [h2]
      exact Option.some.inj h
    · rw [h1] at h; cases h

theorem decodeOpen_asks {E : Env} {s : Str} (h : decodeOpen E s = none) : ∃ q1 q2, decodeDoc E (s ++ q1) ≠ decodeDoc E (s ++ q2) := by
  unfold decodeOpen at h
  unfold decodeDoc
  rcases askLines_spec (f := s.length + 1) (s := s) (by omega) with ⟨ls, e, g1, g2⟩ | ⟨ls, r, g1, g2, g3⟩
  · rw [g1, askDecode_error] at h; cases h
  · rw [g1] at h
    rcases askDecode_open E ls with ⟨y, h1, h2⟩ | ⟨_, h2⟩
    · rw [h1] at h; cases h
    · rcases askLine_splits g2 with ⟨q1, q2, e1, e2, hne, k1, k2⟩ | ⟨q1, q2, l, k1, k2⟩
      · refine ⟨q1, q2, ?_⟩
        rw [g3, g3, tokenise_fails k1, tokenise_fails k2]
        simp only [List.append_nil, h2]
        intro h
        cases h
        exact hne rfl
      · refine ⟨q1, q2, ?_⟩
        rw [g3, g3, tokenise_fails k1, tokenise_line k2, tokenise_nil]
        simp only [List.append_nil, h2]
        intro h
        rcases (decodeStream_means (E := E) (s := ⟨ls ++ [l], .done⟩) nofun).1 h.symm with ⟨_, h3, _⟩ | ⟨h3, _⟩
        · cases h3
        · revert h3; decide

/-! ## Octets -/

theorem fullRune_decode {b : UInt8} {r : Bytes} (h : fullRune (b :: r) = true) (q : Bytes) : decodeRune (b :: (r ++ q)) = decodeRune (b :: r) := by
  unfold fullRune at h
  unfold decodeRune
  dsimp only at h ⊢
  by_cases h1 : b.toNat < 0x80
  · rw [if_pos h1, if_pos h1]
  rw [if_neg h1, if_neg h1]
  by_cases h2 : b.toNat < 0xC2
  · rw [if_pos h2, if_pos h2]
  rw [if_neg h2, if_neg h2]
  rw [if_neg h2] at h
  by_cases h3 : b.toNat < 0xE0
  · rw [if_pos h3, if_pos h3]
    rw [if_pos h3] at h
    cases r with
    | nil => cases h
    | cons b1 r => rfl
  rw [if_neg h3, if_neg h3]
  rw [if_neg h3] at h
  by_cases h4 : b.toNat < 0xF0
  · rw [if_pos h4, if_pos h4]
    rw [if_pos h4] at h
    match r with
    | [] => cases h
    | [b1] =>
      have hb : inRange b1 (if b.toNat = 0xE0 then 0xA0 else 0x80) (if b.toNat = 0xED then 0x9F else 0xBF) = false := by simpa using h
      cases q with
      | nil => rfl
      | cons c q =>
        show (if (_ && _) = true then _ else _) = _
        rw [hb]
        rfl
    | b1 :: b2 :: r => rfl
  rw [if_neg h4, if_neg h4]
  rw [if_neg h4] at h
  by_cases h5 : b.toNat < 0xF5
  · rw [if_pos h5, if_pos h5]
    rw [if_pos h5] at h
    match r with
    | [] => cases h
    | [b1] =>
      have hb : inRange b1 (if b.toNat = 0xF0 then 0x90 else 0x80) (if b.toNat = 0xF4 then 0x8F else 0xBF) = false := by simpa using h
      match q with
      | [] => rfl
      | [c] => rfl
      | c :: d :: q =>
        show (if (_ && _ && _) = true then _ else _) = _
        rw [hb]
        rfl
    | [b1, b2] =>
      cases q with
      | nil => rfl
      | cons c q =>
        have hb : (inRange b1 (if b.toNat = 0xF0 then 0x90 else 0x80) (if b.toNat = 0xF4 then 0x8F else 0xBF) && inRange b2 0x80 0xBF) = false := by
          simp only at h
          cases hx : inRange b1 (if b.toNat = 0xF0 then 0x90 else 0x80) (if b.toNat = 0xF4 then 0x8F else 0xBF) with
          | false => rfl
          | true =>
            rw [hx] at h
            cases hy : inRange b2 0x80 0xBF with
            | false => rfl
            | true => rw [hy] at h; cases h
        show (if (_ && _ && _) = true then _ else _) = _
        rw [hb]
        rfl
    | b1 :: b2 :: b3 :: r => rfl
  rw [if_neg h5, if_neg h5]

/-- Octets that are not complete are the first ones of a character. -/
theorem fullRune_cut {b : UInt8} {r : Bytes} (h : fullRune (b :: r) = false) : ∃ c t, t ≠ [] ∧ encodeChar c = b :: r ++ t := by
  have hb := b.toNat_lt
  have fin : ∀ t : Bytes, t ≠ [] → (decodeRune (b :: (r ++ t))).2 = (b :: (r ++ t)).length → ∃ c t, t ≠ [] ∧ encodeChar c = b :: r ++ t := by
    intro t ht hd
    rcases decodeRune_step b (r ++ t) with ⟨h1, h2⟩ | ⟨c, h1, rest, h2⟩
    · rw [h1] at hd
      cases t with
      | nil => exact absurd rfl ht
      | cons x t => simp at hd
    · rw [h1, h2, List.length_append] at hd
      have : rest = [] := List.length_eq_zero_iff.1 (by simp only at hd; omega)
      rw [this, List.append_nil] at h2
      exact ⟨c, t, ht, h2.symm⟩
  unfold fullRune at h
  dsimp only at h
  by_cases h2 : b.toNat < 0xC2
  · rw [if_pos h2] at h; cases h
  rw [if_neg h2] at h
  have h1 : ¬ b.toNat < 0x80 := by omega
  by_cases h3 : b.toNat < 0xE0
  · rw [if_pos h3] at h
    cases r with
    | cons b1 r => cases h
    | nil =>
      refine fin [0x80] nofun ?_
      simp [decodeRune, h1, h2, h3, inRange]
  rw [if_neg h3] at h
  by_cases h4 : b.toNat < 0xF0
  · rw [if_pos h4] at h
    match r with
    | [] =>
      refine fin [if b.toNat = 0xE0 then 0xA0 else 0x80, 0x80] nofun ?_
      have : inRange (if b.toNat = 0xE0 then 0xA0 else 0x80) (if b.toNat = 0xE0 then 0xA0 else 0x80) (if b.toNat = 0xED then 0x9F else 0xBF) = true := by
        by_cases he : b.toNat = 0xE0
        · simp [he, inRange]
        · rw [if_neg he, if_neg he]
          split <;> decide
      simp [decodeRune, h1, h2, h3, h4, this]
      simp [inRange]
    | [b1] =>
      have hi : inRange b1 (if b.toNat = 0xE0 then 0xA0 else 0x80) (if b.toNat = 0xED then 0x9F else 0xBF) = true := by simpa using h
      refine fin [0x80] nofun ?_
      simp [decodeRune, h1, h2, h3, h4, hi]
      simp [inRange]
    | b1 :: b2 :: r => cases h
  rw [if_neg h4] at h
  by_cases h5 : b.toNat < 0xF5
  · rw [if_pos h5] at h
    match r with
    | [] =>
      refine fin [if b.toNat = 0xF0 then 0x90 else 0x80, 0x80, 0x80] nofun ?_
      have : inRange (if b.toNat = 0xF0 then 0x90 else 0x80) (if b.toNat = 0xF0 then 0x90 else 0x80) (if b.toNat = 0xF4 then 0x8F else 0xBF) = true := by
        by_cases he : b.toNat = 0xF0
        · simp [he, inRange]
        · rw [if_neg he, if_neg he]
          split <;> decide
      simp [decodeRune, h1, h2, h3, h4, h5, this]
      simp [inRange]
    | [b1] =>
      have hi : inRange b1 (if b.toNat = 0xF0 then 0x90 else 0x80) (if b.toNat = 0xF4 then 0x8F else 0xBF) = true := by simpa using h
      refine fin [0x80, 0x80] nofun ?_
      simp [decodeRune, h1, h2, h3, h4, h5, hi]
      simp [inRange]
    | [b1, b2] =>
      simp only [Bool.or_eq_false_iff, Bool.not_eq_false'] at h
      refine fin [0x80] nofun ?_
      simp [decodeRune, h1, h2, h3, h4, h5, h.1, h.2]
      simp [inRange]
    | b1 :: b2 :: b3 :: r => cases h
  · rw [if_neg h5] at h; cases h

theorem runesOpenF_spec : ∀ (f : Nat) (b : Bytes), b.length ≤ f → (∀ q, runes (b ++ q) = runesOpenF f b ++ runes q) ∨
    (CutShort b ∧ ∃ r, ∀ q, runes (b ++ q) = runesOpenF f b ++ runes (r ++ q))
  | 0, b, h => by
    cases List.length_eq_zero_iff.1 (Nat.le_zero.1 h)
    exact .inl fun q => rfl
  | f + 1, [], _ => .inl fun q => rfl
  | f + 1, b :: r, h => by
    rw [runesOpenF]
    by_cases hf : fullRune (b :: r) = true
    · rw [if_pos hf]
      have hs := decodeRune_size b r
      have hq : ∀ q, runes (b :: r ++ q) = Char.ofNat (decodeRune (b :: r)).1 :: runes ((b :: r).drop (decodeRune (b :: r)).2 ++ q) := fun q => by
        rw [List.cons_append, runes_cons, fullRune_decode hf, ← List.cons_append, List.drop_append_of_le_length hs.2.2]
      have hl : ((b :: r).drop (decodeRune (b :: r)).2).length ≤ f := by
        rw [List.length_drop]
        simp only [List.length_cons] at h ⊢
        omega
      rcases runesOpenF_spec f _ hl with h1 | ⟨h1, r', h2⟩
      · exact .inl fun q => by rw [hq, h1]; rfl
      · refine .inr ⟨?_, r', fun q => by rw [hq, h2]; rfl⟩
        obtain ⟨a, p, c, t, g1, g2, g3, g4⟩ := h1
        exact ⟨(b :: r).take (decodeRune (b :: r)).2 ++ a, p, c, t, by rw [List.append_assoc, ← g1, List.take_append_drop], g2, g3, g4⟩
    · rw [if_neg hf]
      obtain ⟨c, t, h1, h2⟩ := fullRune_cut (by simpa using hf)
      exact .inr ⟨⟨[], b :: r, c, t, rfl, nofun, h1, h2⟩, b :: r, fun q => rfl⟩

theorem runesOpen_prefix (b q : Bytes) : ∃ r, runes (b ++ q) = runesOpen b ++ r := by
  rcases runesOpenF_spec b.length b (Nat.le_refl _) with h | ⟨_, r, h⟩
  · exact ⟨_, h q⟩
  · exact ⟨_, h q⟩

/-! ## Reading -/

theorem decodeOpen_octets {E : Env} {b : Bytes} {x : Res Cal} (h : decodeOpen E (runesOpen b) = some x) (q : Bytes) : decodeDoc E (runes (b ++ q)) = x := by
  obtain ⟨r, hr⟩ := runesOpen_prefix b q
  rw [hr]
  exact decodeOpen_sound h r

theorem decodeOpen_open {E : Env} {b : Bytes} (h : decodeOpen E (runesOpen b) = none) : Unsettled E b ∨ CutShort b := by
  rcases runesOpenF_spec b.length b (Nat.le_refl _) with h1 | ⟨h1, _⟩
  · left
    obtain ⟨q1, q2, hq⟩ := decodeOpen_asks h
    refine ⟨utf8 q1, utf8 q2, ?_⟩
    rw [h1, h1, runes_utf8, runes_utf8]
    exact hq
  · exact .inr h1

theorem decodeDemand_some {E : Env} {R : Reader} {fuel : Nat} {ks : List Nat} {u : Unfolder} {acc : Bytes} {x : Res Cal} (h : decodeOpen E (runesOpen acc) = some x) :
    decodeDemand E R fuel ks u acc = .done (x, u) := by
  unfold decodeDemand
  rw [h]

theorem decodeDemand_none {E : Env} {R : Reader} {fuel : Nat} {k : Nat} {ks : List Nat} {u : Unfolder} {acc : Bytes} (h : decodeOpen E (runesOpen acc) = none) :
    decodeDemand E R fuel (k :: ks) u acc = (u.read R fuel k).bind fun r =>
        if r.err.isSome then .done (decodeDoc E (runes (acc ++ r.q.take r.m.toNat)), r.u)
        else decodeDemand E R fuel ks r.u (acc ++ r.q.take r.m.toNat) := by
  conv => lhs; unfold decodeDemand
  rw [h]

theorem decodeDemand_nil {E : Env} {R : Reader} {fuel : Nat} {u : Unfolder} {acc : Bytes} (h : decodeOpen E (runesOpen acc) = none) :
    decodeDemand E R fuel [] u acc = .running := by
  conv => lhs; unfold decodeDemand
  rw [h]

/-- It returns what it returns when everything is read first, and asks the reader no more often. -/
theorem decodeDemand_readAll {E : Env} {R : Reader} {fuel : Nat} {e : Nat} : ∀ {ks : List Nat} {u : Unfolder} {acc out : Bytes} {u' : Unfolder}, readAll R fuel ks u acc = .done (out, some e, u') →
    ∃ u'', decodeDemand E R fuel ks u acc = .done (decodeDoc E (runes out), u'') ∧ u''.hist <:+ u'.hist
  | [], u, acc, out, u', h => by cases h
  | k :: ks, u, acc, out, u', h => by
    have hg := readAll_grows _ _ _ _ _ _ h
    cases hd : decodeOpen E (runesOpen acc) with
    | some x =>
      obtain ⟨q, rfl⟩ := hg.2
      exact ⟨u, by rw [decodeDemand_some hd, decodeOpen_octets hd], hg.1⟩
    | none =>
      rw [decodeDemand_none hd]
      rw [readAll] at h
      obtain ⟨r, h1, h2⟩ := Run.bind_eq_done h
      rw [h1, Run.bind_done]
      by_cases he : r.err.isSome = true
      · rw [if_pos he] at h2 ⊢
        simp only [Run.done.injEq, Prod.mk.injEq] at h2
        obtain ⟨rfl, _, rfl⟩ := h2
        exact ⟨_, rfl, List.suffix_refl _⟩
      · rw [if_neg he] at h2 ⊢
        exact decodeDemand_readAll h2

/-- What it has read when it returns. -/
theorem decodeDemand_done {E : Env} {R : Reader} {fuel : Nat} : ∀ {ks : List Nat} {u : Unfolder} {acc : Bytes} {x : Res Cal} {u' : Unfolder}, decodeDemand E R fuel ks u acc = .done (x, u') →
    ∃ ks1 ks2 out e, ks = ks1 ++ ks2 ∧ readAll R fuel ks1 u acc = .done (out, e, u') ∧ decodeDoc E (runes out) = x ∧ (e = none → ∀ q, decodeDoc E (runes (out ++ q)) = x) ∧
      ∀ ks0 k r out0 u0, ks1 = ks0 ++ k :: r → readAll R fuel ks0 u acc = .done (out0, none, u0) → Unsettled E out0 ∨ CutShort out0
  | ks, u, acc, x, u', h => by
    cases hd : decodeOpen E (runesOpen acc) with
    | some y =>
      rw [decodeDemand_some hd] at h
      cases h
      have := decodeOpen_octets hd
      exact ⟨[], ks, acc, none, rfl, rfl, by have := this []; rwa [List.append_nil] at this, fun _ => this, fun ks0 k r _ _ h => by simp at h⟩
    | none =>
      match ks with
      | [] => rw [decodeDemand_nil hd] at h; cases h
      | k :: ks =>
        rw [decodeDemand_none hd] at h
        obtain ⟨r, h1, h2⟩ := Run.bind_eq_done h
        by_cases he : r.err.isSome = true
        · rw [if_pos he] at h2
          cases h2
          refine ⟨[k], ks, _, r.err, rfl, ?_, rfl, fun hn => (by rw [hn] at he; cases he), ?_⟩
          · rw [readAll, h1, Run.bind_done, if_pos he]
          · intro ks0 k' r' out0 u0 g1 g2
            cases ks0 with
            | nil => cases g2; exact decodeOpen_open hd
            | cons a ks0 => simp at g1
        · rw [if_neg he] at h2
          obtain ⟨ks1, ks2, out, e, g1, g2, g3, g4, g5⟩ := decodeDemand_done h2
          refine ⟨k :: ks1, ks2, out, e, by rw [g1]; rfl, ?_, g3, g4, ?_⟩
          · rw [readAll, h1, Run.bind_done, if_neg he, g2]
          · intro ks0 k' r' out0 u0 g6 g7
            cases ks0 with
            | nil => cases g7; exact decodeOpen_open hd
            | cons a ks0 =>
              rw [List.cons_append] at g6
              injection g6 with g6 g8
              subst g6
              rw [readAll, h1, Run.bind_done, if_neg he] at g7
              exact g5 ks0 k' r' out0 u0 g8 g7

end Ics
