import Verif.Scanned
import Verif.TokensLemmas
import Verif.ParamLemmas
/-!
# Lemmas: the string tokenisers call by call do what the functions on texts do
-/

namespace Ics

theorem acceptRun_eq {cs : Str} {p : Char → Bool} (h : ∀ c, cs.contains c = p c) (k s : Str) :
    Scan.acceptRun cs ⟨k, s⟩ = ((s.dropWhile p).head?, ⟨k ++ s.takeWhile p, s.dropWhile p⟩) := by
  have : (fun c => cs.contains c) = p := funext h
  simp only [Scan.acceptRun, Scan.run_eq, this, Scan.peek]

theorem digits_contains (c : Char) : digits.contains c = isDigit c := by
  refine contains_of_ascii (by decide +kernel) (by decide +kernel) ?_ c
  intro c hc
  cases h : isDigit c with
  | false => rfl
  | true =>
    simp only [isDigit, Bool.and_eq_true, decide_eq_true_eq] at h
    have := h.2
    have h9 : c.toNat ≤ '9'.toNat := this
    have : '9'.toNat = 57 := rfl
    omega

theorem accept_one (x c : Char) (k r : Str) : Scan.accept [x] ⟨k, c :: r⟩ = if c = x then (true, ⟨k ++ [c], r⟩) else (false, ⟨k, c :: r⟩) := by
  unfold Scan.accept
  by_cases h : c = x
  · simp [h]
  · simp [h]

theorem accept_nil (cs k : Str) : Scan.accept cs ⟨k, []⟩ = (false, ⟨k, []⟩) := rfl

/-! ## Duration -/

theorem Duration.scanLoop_eq : ∀ (fuel fuel' level : Nat) (d : Duration) (k s : Str), s.length < fuel → s.length < fuel' →
    Duration.scanLoop fuel level d ⟨k, s⟩ = some (Duration.loop fuel' level d s) := by
  intro fuel
  induction fuel with
  | zero => intro fuel' level d k s h; omega
  | succ fuel ih =>
    intro fuel' level d k s hs hs'
    obtain ⟨fuel', rfl⟩ : ∃ m, fuel' = m + 1 := ⟨fuel' - 1, by omega⟩
    cases s with
    | nil =>
      simp only [Duration.scanLoop, Duration.loop, Scan.peek, List.head?_nil, if_true]
    | cons c s =>
      have hT : Scan.accept ['T'] ⟨k, c :: s⟩ = (decide (c = 'T'), ⟨if c = 'T' then k ++ [c] else k, if c = 'T' then s else c :: s⟩) := by
        rw [accept_one]; by_cases h : c = 'T' <;> simp [h]
      have hlen : (if c = 'T' then s else c :: s).length ≤ (c :: s).length := by split <;> simp
      simp only [Duration.scanLoop, Duration.loop, Scan.peek, List.head?_cons, reduceCtorEq, if_false, hT, Scan.get, acceptRun_eq digits_contains, List.nil_append, decide_eq_true_eq,
        Option.some.injEq, List.tail_cons]
      generalize (if c = 'T' then 1 else level) = lv
      have e1 : (if c = 'T' then s else c :: s) = (if c = 'T' then s else c :: s) := rfl
      generalize (if c = 'T' then s else c :: s) = q at hlen e1 ⊢
      clear e1
      cases parseUint 64 (q.takeWhile isDigit) with
      | none => rfl
      | some n =>
        have hq := takeWhile_dropWhile isDigit q
        have hd : (q.dropWhile isDigit).length ≤ q.length := by
          have := congrArg List.length hq
          rw [List.length_append] at this
          omega
        generalize q.dropWhile isDigit = z at hd ⊢
        clear hq
        cases z with
        | nil => rfl
        | cons m r =>
          simp only [List.length_cons] at hd hlen hs hs'
          simp only [List.head?_cons, Option.some.injEq]
          by_cases hW : m = 'W'
          · subst hW
            simp only [accept_one, if_true]
            by_cases hl : lv > 0
            · simp only [if_pos hl]
            · simp only [if_neg hl]
              cases r <;> simp
          by_cases hD : m = 'D'
          · subst hD
            simp only [accept_one, if_true, reduceIte, hW]
            by_cases hl : lv > 0
            · simp only [if_pos hl]
            · simp only [if_neg hl]; exact ih _ _ _ _ _ (by omega) (by omega)
          by_cases hH : m = 'H'
          · subst hH
            simp only [accept_one, if_true, if_neg hW, if_neg hD]
            by_cases hl : lv > 1
            · simp only [if_pos hl]
            · simp only [if_neg hl]; exact ih _ _ _ _ _ (by omega) (by omega)
          by_cases hM : m = 'M'
          · subst hM
            simp only [accept_one, if_true, if_neg hW, if_neg hD, if_neg hH]
            by_cases hl : lv > 2
            · simp only [if_pos hl]
            · simp only [if_neg hl]; exact ih _ _ _ _ _ (by omega) (by omega)
          by_cases hS : m = 'S'
          · subst hS
            simp only [accept_one, if_true, if_neg hW, if_neg hD, if_neg hH, if_neg hM]
            by_cases hl : lv > 3
            · simp only [if_pos hl]
            · simp only [if_neg hl]
              cases r with
              | nil => simp only [List.head?_nil, ne_eq, not_true_eq_false, if_false]; exact ih _ _ _ _ _ (by omega) (by omega)
              | cons x r => simp
          simp only [if_neg hW, if_neg hD, if_neg hH, if_neg hM, if_neg hS]
          split <;> first | rfl | (rename_i h; cases h; contradiction)

theorem Duration.scan_eq (s : Str) : Duration.scan s = some (Duration.decode s) := by
  cases s with
  | nil => rfl
  | cons c s =>
    by_cases h1 : c = '-'
    · subst h1
      simp only [Duration.scan, Duration.decode, accept_one, if_true, List.head?_cons, true_or, decide_true, List.tail_cons]
      cases s with
      | nil => rfl
      | cons x s =>
        by_cases hx : x = 'P'
        · subst hx
          simp only [accept_one, if_true]
          exact Duration.scanLoop_eq _ _ _ _ _ _ (by simp; omega) (by omega)
        · simp only [accept_one, if_neg hx, Bool.false_eq_true, if_false]
          split <;> first | rfl | (rename_i h; cases h; contradiction)
    · by_cases h2 : c = '+'
      · subst h2
        simp only [Duration.scan, Duration.decode, accept_one, if_neg h1, if_true, List.head?_cons, or_true, List.tail_cons, Option.some.injEq, decide_false, Bool.false_eq_true, if_false, h1]
        cases s with
        | nil => rfl
        | cons x s =>
          by_cases hx : x = 'P'
          · subst hx
            simp only [accept_one, if_true]
            exact Duration.scanLoop_eq _ _ _ _ _ _ (by simp; omega) (by omega)
          · simp only [accept_one, if_neg hx, Bool.false_eq_true, if_false]
            split <;> first | rfl | (rename_i h; cases h; contradiction)
      · simp only [Duration.scan, Duration.decode, accept_one, if_neg h1, if_neg h2, List.head?_cons, Option.some.injEq, h1, h2, or_self, decide_false, Bool.false_eq_true, if_false]
        by_cases hx : c = 'P'
        · subst hx
          simp only [accept_one, if_true]
          exact Duration.scanLoop_eq _ _ _ _ _ _ (by simp only [List.length_cons]; omega) (by omega)
        · simp only [accept_one, if_neg hx, Bool.false_eq_true, if_false]
          split <;> first | rfl | (rename_i h; cases h; contradiction)

/-! ## Text -/

/-- The runes at which `decodeText` stops.  types.go:1257. -/
def stopsText (c : Char) : Bool := c == '\\' || c == ',' || c == ';'

theorem stopsText_contains (c : Char) : (['\\', ',', ';'] : Str).contains c = stopsText c := by
  simp [stopsText, Bool.or_assoc, Bool.beq_eq_decide_eq]

theorem decodeText_run (s : Str) : decodeText s = (s.takeWhile (fun c => !stopsText c) ++ (decodeText (s.dropWhile (fun c => !stopsText c))).1, (decodeText (s.dropWhile (fun c => !stopsText c))).2) := by
  induction s with
  | nil => rfl
  | cons c s ih =>
    by_cases h : stopsText c = true
    · simp [List.takeWhile_cons, List.dropWhile_cons, h]
    · have h' : stopsText c = false := by simpa using h
      simp only [List.takeWhile_cons, List.dropWhile_cons, h', Bool.not_false, if_true]
      simp only [stopsText, Bool.or_eq_true, beq_iff_eq, not_or] at h
      rw [decodeText_plain s h.1.1 h.2 h.1.2, ih]
      rfl

theorem scanText_eq : ∀ (fuel : Nat) (d s : Str), s.length < fuel → scanText fuel d ⟨[], s⟩ = some (d ++ (decodeText s).1, ⟨[], (decodeText s).2⟩) := by
  intro fuel
  induction fuel with
  | zero => intro d s h; omega
  | succ fuel ih =>
    intro d s hs
    rw [decodeText_run s]
    simp only [scanText, exceptRun_eq stopsText_contains, Scan.get, List.nil_append]
    have hq := takeWhile_dropWhile (fun c => !stopsText c) s
    have hstop : ∀ c r, s.dropWhile (fun c => !stopsText c) = c :: r → stopsText c = true := by
      intro c r h
      simpa using dropWhile_head_false h
    generalize s.takeWhile (fun c => !stopsText c) = w at hq ⊢
    generalize s.dropWhile (fun c => !stopsText c) = z at hq hstop ⊢
    have hl : z.length ≤ s.length := by
      rw [hq]; simp
    match z, hl with
    | [], _ => simp [decodeText]
    | c :: r, hl =>
      have hc := hstop c r rfl
      simp only [stopsText, Bool.or_eq_true, beq_iff_eq] at hc
      by_cases hb : c = '\\'
      · subst hb
        simp only [List.head?_cons, if_true, accept_one, Scan.next]
        cases r with
        | nil =>
          rw [ih _ _ (by simp at hl ⊢; omega)]
          simp [runeText, decodeText]
        | cons x r =>
          rw [ih _ _ (by simp at hl ⊢; omega)]
          simp only [decodeText, Option.some.injEq]
          by_cases h1 : x = '\\'
          · simp [h1]
          by_cases h2 : x = ';'
          · simp [h2]
          by_cases h3 : x = ','
          · simp [h3]
          by_cases h4 : x = 'N' ∨ x = 'n'
          · simp [h1, h2, h3, h4]
          · simp [h1, h2, h3, h4, runeText]
      · have hd : decodeText (c :: r) = ([], c :: r) := by
          rcases hc with (hc | hc) | hc
          · exact absurd hc hb
          · subst hc; rfl
          · subst hc; rfl
        simp only [List.head?_cons, Option.some.injEq, hb, if_false, hd, List.append_nil]

theorem Text.scan_eq (s : Str) : Text.scan s = some (Text.decode s) := by
  simp only [Text.scan, scanText_eq _ _ s (Nat.lt_succ_self _), List.nil_append, Scan.peek, Text.decode]
  generalize decodeText s = p
  obtain ⟨a, b⟩ := p
  cases b <;> simp

theorem MText.scanLoop_eq : ∀ (fuel fuel' : Nat) (ts : List Str) (s : Str), s.length < fuel → s.length < fuel' →
    MText.scanLoop fuel ts ⟨[], s⟩ = some (MText.decodeF fuel' s >>= fun us => .ok (ts ++ us)) := by
  intro fuel
  induction fuel with
  | zero => intro fuel' ts s h; omega
  | succ fuel ih =>
    intro fuel' ts s hs hs'
    obtain ⟨fuel', rfl⟩ : ∃ m, fuel' = m + 1 := ⟨fuel' - 1, by omega⟩
    simp only [MText.scanLoop, MText.decodeF, scanText_eq _ _ s (Nat.lt_succ_self _), List.nil_append]
    have hl := decodeText_rest_le s.length s (Nat.le_refl _)
    generalize decodeText s = p at hl ⊢
    obtain ⟨a, b⟩ := p
    cases b with
    | nil => rfl
    | cons c r =>
      simp only [Scan.peek, List.head?_cons]
      by_cases hc : c = ','
      · subst hc
        simp only [accept_one, if_true, Scan.get]
        simp only [List.length_cons] at hl
        rw [ih fuel' _ r (by omega) (by omega)]
        cases MText.decodeF fuel' r <;> simp
      · split
        · next h => cases h
        · next h => cases h; exact absurd rfl hc
        · split
          · next h => cases h
          · next h => cases h; exact absurd rfl hc
          · rfl

theorem MText.scan_eq (s : Str) : MText.scan s = some (MText.decode s) := by
  rw [MText.scan, MText.scanLoop_eq _ _ [] s (Nat.lt_succ_self _) (Nat.lt_succ_self _), MText.decode]
  cases MText.decodeF (s.length + 1) s <;> simp

/-! ## UTCOffset -/

theorem getInt_two (a b : Char) (ha : isDigit a = true) (hb : isDigit b = true) : getInt [a, b] = ((digitVal a * 10 + digitVal b : Nat) : Int) := by
  have h9 : ∀ c, isDigit c = true → digitVal c ≤ 9 := by
    intro c hc
    simp only [isDigit, Bool.and_eq_true, decide_eq_true_eq] at hc
    have h9 : c.toNat ≤ '9'.toNat := hc.2
    have : '9'.toNat = 57 := rfl
    unfold digitVal
    omega
  have h1 := h9 a ha
  have h2 := h9 b hb
  have hm : a ≠ '-' := by intro h; subst h; simp [isDigit] at ha
  have hp : a ≠ '+' := by intro h; subst h; simp [isDigit] at ha
  have : parseInt 32 [a, b] = some ((digitVal a * 10 + digitVal b : Nat) : Int) := by
    unfold parseInt
    split
    next neg ds h =>
      split at h
      · next heq => cases heq; exact absurd rfl hm
      · next heq => cases heq; exact absurd rfl hp
      · cases h
        rw [if_pos ⟨by simp, by simp [ha, hb]⟩]
        have hv : digitsVal 0 [a, b] = digitVal a * 10 + digitVal b := by simp [digitsVal]
        rw [hv]
        simp only [Bool.false_eq_true, if_false]
        rw [if_pos (by omega)]
  rw [getInt, this]
  rfl

theorem accept_digits (c : Char) (k r : Str) : Scan.accept digits ⟨k, c :: r⟩ = if isDigit c = true then (true, ⟨k ++ [c], r⟩) else (false, ⟨k, c :: r⟩) := by
  simp only [Scan.accept, digits_contains]

theorem scan_twoDigits (s : Str) : (∃ a b r, s = a :: b :: r ∧ isDigit a = true ∧ isDigit b = true ∧ Scan.twoDigits ⟨[], s⟩ = some ⟨[a, b], r⟩ ∧
      twoDigits s = some (digitVal a * 10 + digitVal b, r)) ∨ (Scan.twoDigits ⟨[], s⟩ = none ∧ twoDigits s = none) := by
  match s with
  | [] => exact .inr ⟨rfl, rfl⟩
  | [a] =>
    right
    refine ⟨?_, rfl⟩
    simp only [Scan.twoDigits, accept_digits]
    by_cases ha : isDigit a = true
    · simp [ha, accept_nil]
    · simp [ha]
  | a :: b :: r =>
    by_cases ha : isDigit a = true
    · by_cases hb : isDigit b = true
      · exact .inl ⟨a, b, r, rfl, ha, hb, by simp [Scan.twoDigits, accept_digits, ha, hb], by simp [twoDigits, ha, hb]⟩
      · exact .inr ⟨by simp [Scan.twoDigits, accept_digits, ha, hb], by simp [twoDigits, hb]⟩
    · exact .inr ⟨by simp [Scan.twoDigits, accept_digits, ha], by simp [twoDigits, ha]⟩

theorem UTCOffset.scanEnd_nat (neg : Bool) (h m s : Nat) : UTCOffset.scanEnd neg h m s =
    if neg then (if 3600 * h + 60 * m + s = 0 then .err .invalidOffset else .ok (-((3600 * h + 60 * m + s : Nat) : Int))) else .ok ((3600 * h + 60 * m + s : Nat) : Int) := by
  unfold UTCOffset.scanEnd
  cases neg
  · simp
  · simp only [if_true]
    by_cases hz : 3600 * h + 60 * m + s = 0
    · rw [if_pos (by omega), if_pos hz]
    · rw [if_neg (by omega), if_neg hz]; simp

theorem UTCOffset.scanBody_eq (neg : Bool) (s : Str) : UTCOffset.scanBody neg ⟨[], s⟩ =
    match UTCOffset.body s with
    | none => .err .invalidOffset
    | some v => if neg then (if v = 0 then .err .invalidOffset else .ok (-(v : Int))) else .ok v := by
  unfold UTCOffset.body UTCOffset.scanBody
  rcases scan_twoDigits s with ⟨a, b, r, rfl, ha, hb, h1, h2⟩ | ⟨h1, h2⟩
  · rw [h1, h2]
    simp only [Scan.get]
    rcases scan_twoDigits r with ⟨a', b', r', rfl, ha', hb', h3, h4⟩ | ⟨h3, h4⟩
    · rw [h3, h4]
      simp only [getInt_two a b ha hb, getInt_two a' b' ha' hb']
      generalize digitVal a * 10 + digitVal b = h
      generalize digitVal a' * 10 + digitVal b' = m
      by_cases hm : m ≥ 60
      · rw [if_pos (by omega), if_pos hm]
      · rw [if_neg (by omega), if_neg hm]
        match r' with
        | [] =>
          simp only [accept_nil, Bool.false_eq_true, if_false, Scan.peek, List.head?_nil, ne_eq, not_true_eq_false]
          exact UTCOffset.scanEnd_nat neg h m 0
        | [x] =>
          simp only [accept_digits, twoDigits]
          by_cases hx : isDigit x = true
          · simp [hx, accept_nil]
          · simp [hx, Scan.peek]
        | x :: y :: q =>
          simp only [accept_digits, twoDigits]
          by_cases hx : isDigit x = true
          · by_cases hy : isDigit y = true
            · simp only [hx, hy, if_true, Bool.not_true, Bool.false_or, Scan.peek, List.nil_append, List.cons_append, and_self, accept_digits]
              cases q with
              | cons z q => simp
              | nil =>
                simp only [List.head?_nil, ne_eq, not_true_eq_false, decide_false, Bool.false_eq_true, if_false, getInt_two x y hx hy]
                generalize digitVal x * 10 + digitVal y = e
                by_cases he : e ≥ 60
                · rw [if_pos (by omega), if_pos he]
                · rw [if_neg (by omega), if_neg he]
                  exact UTCOffset.scanEnd_nat neg h m e
            · simp [hx, hy, accept_digits]
          · simp [hx, Scan.peek]
    · rw [h3, h4]
  · rw [h1, h2]

theorem UTCOffset.scan_eq (s : Str) : UTCOffset.scan s = UTCOffset.decode s := by
  cases s with
  | nil => rfl
  | cons c s =>
    by_cases h1 : c = '-'
    · subst h1
      simp only [UTCOffset.scan, accept_one, if_true, Scan.get, UTCOffset.scanBody_eq]
      rfl
    · by_cases h2 : c = '+'
      · subst h2
        simp only [UTCOffset.scan, accept_one, if_true, if_neg h1, Bool.false_eq_true, if_false, Scan.get, UTCOffset.scanBody_eq]
        rfl
      · simp only [UTCOffset.scan, accept_one, if_neg h1, if_neg h2, Bool.false_eq_true, if_false, Scan.get, UTCOffset.scanBody_eq, UTCOffset.decode, List.head?_cons, Option.some.injEq, h1, h2, or_self]
        rfl

/-! ## RFC 6868 -/

theorem caret_contains (c : Char) : (['^'] : Str).contains c = (c == '^') := by simp [Bool.beq_eq_decide_eq]

theorem scan6868_eq : ∀ (fuel fuel' : Nat) (d k s : Str), s.length < fuel → s.length < fuel' →
    scan6868 fuel d ⟨k, s⟩ = some (d ++ decode6868F fuel' k s) := by
  intro fuel
  induction fuel with
  | zero => intro fuel' d k s h; omega
  | succ fuel ih =>
    intro fuel' d k s hs hs'
    obtain ⟨fuel', rfl⟩ : ∃ m, fuel' = m + 1 := ⟨fuel' - 1, by omega⟩
    have hp : (fun c : Char => decide (c ≠ '^')) = (fun c => !(c == '^')) := by
      funext c; simp [Bool.beq_eq_decide_eq]
    simp only [scan6868, decode6868F, exceptRun_eq caret_contains, Scan.get, hp]
    have hq := takeWhile_dropWhile (fun c => !(c == '^')) s
    have hstop : ∀ c r, s.dropWhile (fun c => !(c == '^')) = c :: r → c = '^' := by
      intro c r h
      simpa using dropWhile_head_false h
    generalize s.takeWhile (fun c => !(c == '^')) = w at hq ⊢
    generalize s.dropWhile (fun c => !(c == '^')) = z at hq hstop ⊢
    have hl : z.length ≤ s.length := by rw [hq]; simp
    match z, hl with
    | [], _ => simp
    | c :: [], hl =>
      obtain rfl := hstop c _ rfl
      simp [accept_one, Scan.next]
    | c :: x :: r, hl =>
      obtain rfl := hstop c _ rfl
      simp only [List.length_cons] at hl
      simp only [List.head?_cons, if_true, accept_one, Scan.next]
      by_cases h1 : x = 'n'
      · subst h1
        simp only [ih fuel' _ _ r (by omega) (by omega)]
        simp
      by_cases h2 : x = '\''
      · subst h2
        simp only [ih fuel' _ _ r (by omega) (by omega)]
        simp
      by_cases h3 : x = '^'
      · subst h3
        simp only [ih fuel' _ _ r (by omega) (by omega)]
        simp
      · split
        · next h => cases h
        · next h => cases h; exact absurd rfl h1
        · next h => cases h; exact absurd rfl h2
        · next h => cases h; exact absurd rfl h3
        · rw [ih fuel' _ _ r (by omega) (by omega)]
          split
          · next h => cases h
          · next h => cases h
          · next h => cases h; exact absurd rfl h1
          · next h => cases h; exact absurd rfl h2
          · next h => cases h; exact absurd rfl h3
          · next h => cases h; simp [runeText]

theorem esc6868_contains (c : Char) : (['\n', '^', '"'] : Str).contains c = isEsc6868 c := by
  simp [isEsc6868, Bool.or_assoc, Bool.beq_eq_decide_eq]

theorem round6868_eq (d s : Str) : (Enc6868.run s d).step =
    match round6868 d ⟨[], s⟩ with
    | (d, none) => .ret d
    | (d, some t) => .run t.rest d := by
  simp only [Enc6868.step, round6868, exceptRun_eq esc6868_contains, Scan.get, List.nil_append]
  have hstop : ∀ c r, s.dropWhile (fun c => !isEsc6868 c) = c :: r → isEsc6868 c = true := by
    intro c r h
    simpa using dropWhile_head_false h
  generalize s.takeWhile (fun c => !isEsc6868 c) = w
  generalize s.dropWhile (fun c => !isEsc6868 c) = z at hstop ⊢
  match z with
  | [] => rfl
  | c :: r =>
    have hc := hstop c r rfl
    simp only [isEsc6868, Bool.or_eq_true, beq_iff_eq] at hc
    rcases hc with (rfl | rfl) | rfl <;> rfl

theorem round6868_taken (d : Str) (t : Scan) : ∀ t', (round6868 d t).2 = some t' → t'.taken = [] := by
  intro t' h
  simp only [round6868, Scan.get] at h
  split at h <;> first | (cases h; done) | (cases h; rfl)

theorem rounds6868_eq : ∀ (n : Nat) (d s : Str), rounds6868 n d ⟨[], s⟩ =
    match Enc6868.rounds n (.run s d) with
    | .ret d => some d
    | .run _ _ => none := by
  intro n
  induction n with
  | zero => intro d s; rfl
  | succ n ih =>
    intro d s
    rw [Enc6868.rounds, round6868_eq, rounds6868]
    have ht := round6868_taken d ⟨[], s⟩
    generalize round6868 d ⟨[], s⟩ = p at ht ⊢
    obtain ⟨d', o⟩ := p
    cases o with
    | none =>
      have : ∀ m, Enc6868.rounds m (.ret d') = .ret d' := by
        intro m; induction m with
        | zero => rfl
        | succ m ihm => exact ihm
      simp only [this]
    | some t =>
      obtain ⟨k, r⟩ := t
      obtain rfl : k = [] := ht _ rfl
      exact ih d' r

end Ics
