import Verif.Spec.Tokens
import Verif.TokeniserLemmas
/-!
# Lemmas: the functions of tokeniser.go one by one read what `parseLine` reads
-/

namespace Ics

open Spec

theorem contains_of_ascii {cs : Str} {p : Char → Bool} (h : ∀ n, n < 128 → cs.contains (Char.ofNat n) = p (Char.ofNat n)) (hc : ∀ c ∈ cs, c.toNat < 128) (hp : ∀ c : Char, 128 ≤ c.toNat → p c = false)
    (c : Char) : cs.contains c = p c := by
  by_cases hn : c.toNat < 128
  · have := h c.toNat hn
    rwa [Char.ofNat_toNat] at this
  · rw [hp c (by omega)]
    cases hx : cs.contains c with
    | false => rfl
    | true => exact absurd (hc c (List.contains_iff_mem.1 hx)) hn

theorem ianaToken_contains (c : Char) : ianaToken.contains c = isIana c := by
  refine contains_of_ascii (by decide +kernel) (by decide +kernel) ?_ c
  intro c hc
  cases h : isIana c with
  | false => rfl
  | true => rw [isIana_iff] at h; unfold IanaChar at h; omega

theorem ctl_high {c : Char} (hc : 128 ≤ c.toNat) : isCtl32 c = false := by
  rw [isCtl32_iff]; unfold NoCtl; omega

theorem nonsafe32_contains (c : Char) : (nonsafeChars.take 32).contains c = isCtl32 c :=
  contains_of_ascii (by decide +kernel) (by decide +kernel) (fun _ hc => ctl_high hc) c

theorem nonsafe33_contains (c : Char) : (nonsafeChars.take 33).contains c = isCtl33 c := by
  refine contains_of_ascii (by decide +kernel) (by decide +kernel) ?_ c
  intro c hc
  rw [isCtl33_iff]
  refine ⟨(isCtl32_iff c).1 (ctl_high hc), by omega⟩

theorem nonsafe_contains (c : Char) : nonsafeChars.contains c = isNonsafe c := by
  refine contains_of_ascii (by decide +kernel) (by decide +kernel) ?_ c
  intro c hc
  have : isSpecial c = false := by
    cases h : isSpecial c with
    | false => rfl
    | true =>
      simp only [isSpecial, Bool.or_eq_true, beq_iff_eq] at h
      rcases h with ((h | h) | h) | h <;> (subst h; simp at hc)
  rw [isNonsafe, ctl_high hc, this]; rfl

theorem Scan.run_eq (p : Char → Bool) (k s : Str) : Scan.run p k s = ⟨k ++ s.takeWhile p, s.dropWhile p⟩ := by
  induction s generalizing k with
  | nil => simp [Scan.run]
  | cons c s ih =>
    unfold Scan.run
    by_cases h : p c = true
    · rw [if_pos h, ih, List.takeWhile_cons, List.dropWhile_cons, if_pos h, if_pos h]
      simp
    · rw [if_neg h, List.takeWhile_cons, List.dropWhile_cons, if_neg h, if_neg h]
      simp

theorem acceptRun_iana (k s : Str) : Scan.acceptRun ianaToken ⟨k, s⟩ = ((s.dropWhile isIana).head?, ⟨k ++ s.takeWhile isIana, s.dropWhile isIana⟩) := by
  have : (fun c => ianaToken.contains c) = isIana := funext ianaToken_contains
  simp only [Scan.acceptRun, Scan.run_eq, this, Scan.peek]

theorem exceptRun_eq {cs : Str} {p : Char → Bool} (h : ∀ c, cs.contains c = p c) (k s : Str) :
    Scan.exceptRun cs ⟨k, s⟩ = ((s.dropWhile (fun c => !p c)).head?, ⟨k ++ s.takeWhile (fun c => !p c), s.dropWhile (fun c => !p c)⟩) := by
  have : (fun c => !cs.contains c) = (fun c => !p c) := funext fun c => by rw [h]
  simp only [Scan.exceptRun, Scan.run_eq, this, Scan.peek]

theorem dropWhile_head_false {p : Char → Bool} {s r : Str} {c : Char} (h : s.dropWhile p = c :: r) : p c = false := by
  induction s with
  | nil => cases h
  | cons x s ih =>
    rw [List.dropWhile_cons] at h
    split at h
    · exact ih h
    · next hx => cases h; simpa using hx

/-! ## The functions -/

theorem parseParamName_call (k s : Str) (e : Option TokErr) : Tokens.parseParamName ⟨⟨k, ';' :: s⟩, e⟩ =
    match s.dropWhile isIana with
    | '=' :: r => (⟨.paramName, s.takeWhile isIana⟩, .parseParamValue, ⟨⟨[], '=' :: r⟩, e⟩)
    | r => (⟨.error, []⟩, .error, ⟨⟨s.takeWhile isIana, r⟩, some (.code .invalidContentLineParamName)⟩) := by
  simp only [Tokens.parseParamName, Scan.accept, Scan.get, acceptRun_iana, List.contains_cons, List.contains_nil, BEq.rfl, Bool.or_false, if_true, List.nil_append, Tokens.fail]
  generalize s.dropWhile isIana = d
  match d with
  | [] => rfl
  | c :: r =>
    by_cases hc : c = '='
    · subst hc; rfl
    · rw [if_pos (by simpa using hc)]
      split
      · next heq => cases heq; exact absurd rfl hc
      · rfl

theorem afterValue_call (tk : Token) (t : Tokens) : t.afterValue tk =
    match t.scan.rest with
    | ',' :: _ => (tk, .parseParamValue, t)
    | ';' :: _ => (tk, .parseParamName, t)
    | ':' :: _ => (tk, .parseValue, t)
    | _ => (⟨.error, []⟩, .error, { t with err := some (.code .invalidContentLineParamValue) }) := by
  unfold Tokens.afterValue Scan.peek
  cases hr : t.scan.rest with
  | nil => rfl
  | cons c r =>
    simp only [List.head?_cons]
    by_cases h1 : c = ','
    · subst h1; rfl
    by_cases h2 : c = ';'
    · subst h2; rfl
    by_cases h3 : c = ':'
    · subst h3; rfl
    split <;> first | (rename_i h; cases h; contradiction) | skip
    split <;> first | (rename_i h; cases h; contradiction) | rfl

/-- `parseParamValue` is one value of `parseOneVal`, and the look at the next character. -/
theorem parseParamValue_call (k s : Str) (c : Char) (hc : c = '=' ∨ c = ',') (e : Option TokErr) : ∃ k', Tokens.parseParamValue ⟨⟨k, c :: s⟩, e⟩ =
    match parseOneVal s with
    | .ok (v, r) => Tokens.afterValue (valToken v) ⟨⟨k', r⟩, e⟩
    | .err x => (⟨.error, []⟩, .error, ⟨⟨k', s.tail.dropWhile (fun c => !isCtl33 c)⟩, some (.code x)⟩)
    | .panic => (⟨.error, []⟩, .error, ⟨⟨k', []⟩, e⟩) := by
  have h0 : (['=', ','] : Str).contains c = true := by rcases hc with rfl | rfl <;> rfl
  simp only [Tokens.parseParamValue, Scan.accept, Scan.get, h0, if_true]
  cases s with
  | nil =>
    simp only [Bool.false_eq_true, if_false, exceptRun_eq nonsafe_contains, parseOneVal, valToken]
    exact ⟨_, rfl⟩
  | cons x s =>
    by_cases hx : x = '"'
    · subst hx
      simp only [List.contains_cons, BEq.rfl, Bool.true_or, if_true, exceptRun_eq nonsafe33_contains, parseOneVal, List.nil_append, List.tail_cons]
      cases hd : s.dropWhile (fun c => !isCtl33 c) with
      | nil => exact ⟨s.takeWhile (fun c => !isCtl33 c), rfl⟩
      | cons y r =>
        by_cases hy : y = '"'
        · subst hy
          simp only [List.head?_cons, ne_eq, not_true_eq_false, if_false, BEq.rfl, Bool.true_or, if_true, valToken]
          exact ⟨_, rfl⟩
        · rw [if_pos (by simpa using hy)]
          refine ⟨s.takeWhile (fun c => !isCtl33 c), ?_⟩
          split
          · next h => split at h
                      · next h' => cases h'; exact absurd rfl hy
                      · cases h
          · next h => split at h
                      · cases h
                      · cases h; rfl
          · next h => split at h <;> cases h
    · have h1 : (['"'] : Str).contains x = false := by simp [hx]
      simp only [h1, Bool.false_eq_true, if_false, exceptRun_eq nonsafe_contains]
      have h2 : parseOneVal (x :: s) = .ok (⟨false, (x :: s).takeWhile (fun c => !isNonsafe c)⟩, (x :: s).dropWhile (fun c => !isNonsafe c)) := by
        unfold parseOneVal
        split
        · next h => cases h; exact absurd rfl hx
        · rfl
      rw [h2]
      simp only [valToken, List.nil_append]
      exact ⟨_, rfl⟩

/-- `parseValue` behind the colon. -/
theorem parseValue_call (k s : Str) (e : Option TokErr) : (∃ v r, parseValue s = .ok (v, r) ∧
      ((Tokens.parseValue ⟨⟨k, ':' :: s⟩, e⟩ = (⟨.value, v⟩, .parseName, ⟨⟨[], r⟩, e⟩) ∧ s = v ++ '\r' :: '\n' :: r) ∨
       (Tokens.parseValue ⟨⟨k, ':' :: s⟩, e⟩ = (⟨.value, v⟩, .nil, ⟨⟨[], []⟩, e⟩) ∧ r = [] ∧ s = v))) ∨
    (parseValue s = .err .invalidContentLineValue ∧ ∃ t, Tokens.parseValue ⟨⟨k, ':' :: s⟩, e⟩ = (⟨.error, []⟩, .error, ⟨t, some (.code .invalidContentLineValue)⟩)) := by
  have hs := takeWhile_dropWhile (fun c => !isCtl32 c) s
  simp only [Tokens.parseValue, parseValue, Scan.accept, Scan.get, List.contains_cons, List.contains_nil, BEq.rfl, Bool.or_false, if_true, exceptRun_eq nonsafe32_contains, List.nil_append,
    Tokens.fail]
  generalize s.takeWhile (fun c => !isCtl32 c) = v at hs ⊢
  generalize s.dropWhile (fun c => !isCtl32 c) = d at hs ⊢
  match d with
  | [] => exact .inl ⟨v, [], rfl, .inr ⟨rfl, rfl, by simpa using hs⟩⟩
  | [c] =>
    right
    by_cases hc : c = '\r'
    · subst hc; exact ⟨rfl, _, rfl⟩
    · refine ⟨by split <;> first | rfl | (rename_i h; cases h), ⟨v, [c]⟩, ?_⟩
      simp only [List.head?_cons]
      split
      · next h => cases h; exact absurd rfl hc
      · next h => cases h
      · rfl
  | c :: c' :: r =>
    by_cases hc : c = '\r'
    · subst hc
      by_cases hc' : c' = '\n'
      · subst hc'
        exact .inl ⟨v, r, rfl, .inl ⟨rfl, hs⟩⟩
      · right
        refine ⟨?_, ⟨['\r'], c' :: r⟩, ?_⟩
        · split
          · next h => cases h; exact absurd rfl hc'
          · next h => cases h
          · rfl
        · simp [hc']
    · right
      refine ⟨?_, ⟨v, c :: c' :: r⟩, ?_⟩
      · split
        · next h => cases h; exact absurd rfl hc
        · next h => cases h
        · rfl
      · simp only [List.head?_cons]
        split
        · next h => cases h; exact absurd rfl hc
        · next h => cases h
        · rfl

/-! ## The phraser -/

/-- A parser that has looked at no token. -/
def atFunc (f : TokenFunc) (k s : Str) (e : Option TokErr) (T : List Token) : Parser := ⟨⟨⟨k, s⟩, e⟩, f, none, T⟩

/-- The parser that has looked at the next token. -/
def Parser.look (L : Lib) (p : Parser) : Parser := { (p.next L).2 with peeked := some (p.next L).1 }

theorem look_next (L : Lib) {p : Parser} (h : p.peeked = none) : (p.look L).next L = p.next L := by
  obtain ⟨t, f, k, T⟩ := p
  cases h
  simp only [Parser.look, Parser.next]

theorem look_accept (L : Lib) {p : Parser} (h : p.peeked = none) (ts : List TokenType) : (p.look L).accept L ts = p.accept L ts := by
  simp only [Parser.accept, look_next L h]

theorem accept_no (L : Lib) {p : Parser} {ts : List TokenType} (h : ts.contains (p.next L).1.type = false) : p.accept L ts = (false, p.look L) := by
  simp only [Parser.accept, Parser.look, h, Bool.false_eq_true, if_false]

theorem accept_yes (L : Lib) {p : Parser} {ts : List TokenType} (h : ts.contains (p.next L).1.type = true) :
    p.accept L ts = (true, { (p.next L).2 with tokens := (p.next L).2.tokens ++ [(p.next L).1] }) := by
  simp only [Parser.accept, h, if_true]

/-- The parser is stuck at an error. -/
def Failed (e : Err) (p : Parser) : Prop := p.peeked = some ⟨.error, []⟩ ∧ p.tok.err = some (.code e)

theorem failed_accept (L : Lib) {e : Err} {p : Parser} (h : Failed e p) {ts : List TokenType} (ht : ts.contains .error = false) : ∃ p', p.accept L ts = (false, p') ∧ Failed e p' := by
  obtain ⟨t, f, k, T⟩ := p
  obtain ⟨h1, h2⟩ := h
  cases h1
  refine ⟨⟨t, f, some ⟨.error, []⟩, T⟩, ?_, rfl, h2⟩
  simp only [Parser.accept, Parser.next, ht, Bool.false_eq_true, if_false]

theorem fails_accept (L : Lib) {e : Err} {p : Parser} (h0 : p.peeked = none) {t : Scan} (h : p.state.call L p.tok = (⟨.error, []⟩, .error, ⟨t, some (.code e)⟩)) {ts : List TokenType}
    (ht : ts.contains .error = false) : ∃ p', p.accept L ts = (false, p') ∧ Failed e p' := by
  obtain ⟨t, f, k, T⟩ := p
  cases h0
  refine ⟨_, accept_no L ?_, ?_, ?_⟩
  · simp only [Parser.next, h]; exact ht
  · simp only [Parser.look, Parser.next, h]
  · simp only [Parser.look, Parser.next, h]

/-- The function for what follows a value of a parameter. -/
def followed : Str → TokenFunc
  | ';' :: _ => .parseParamName
  | _ => .parseValue

/-- The types of values of parameters. -/
def VT : List TokenType := [.paramValue, .paramQuotedValue]

theorem valToken_type (v : PVal) : VT.contains (valToken v).type = true := by
  obtain ⟨q, d⟩ := v
  cases q <;> rfl

theorem parseOneVal_no_panic {s : Str} : parseOneVal s ≠ .panic := by
  unfold parseOneVal
  split
  · split <;> simp
  · simp

theorem parseOneVal_length {s : Str} {v : PVal} {r : Str} (h : parseOneVal s = .ok (v, r)) : r.length ≤ s.length := by
  rw [(parseOneVal_inv h).2]; simp

/-- What one `Accept` of a value gives. -/
theorem accept_val (L : Lib) (k s : Str) (c : Char) (hc : c = '=' ∨ c = ',') (e : Option TokErr) (T : List Token) :
    (∃ v r k', parseOneVal s = .ok (v, r) ∧
      ((∃ r', r = ',' :: r' ∧ (atFunc .parseParamValue k (c :: s) e T).accept L VT = (true, atFunc .parseParamValue k' r e (T ++ [valToken v]))) ∨
       (∃ d r', r = d :: r' ∧ (d = ';' ∨ d = ':') ∧ (atFunc .parseParamValue k (c :: s) e T).accept L VT = (true, atFunc (followed r) k' r e (T ++ [valToken v]))) ∨
       ((∀ r', r ≠ ',' :: r' ∧ r ≠ ';' :: r' ∧ r ≠ ':' :: r') ∧ ∃ p', (atFunc .parseParamValue k (c :: s) e T).accept L VT = (false, p') ∧ Failed .invalidContentLineParamValue p'))) ∨
    ∃ x, parseOneVal s = .err x ∧ ∃ p', (atFunc .parseParamValue k (c :: s) e T).accept L VT = (false, p') ∧ Failed x p' := by
  obtain ⟨k', hk⟩ := parseParamValue_call k s c hc e
  cases hv : parseOneVal s with
  | panic => exact absurd hv parseOneVal_no_panic
  | err x =>
    rw [hv] at hk
    exact .inr ⟨x, rfl, fails_accept (p := atFunc .parseParamValue k (c :: s) e T) L rfl hk rfl⟩
  | ok w =>
    obtain ⟨v, r⟩ := w
    rw [hv] at hk
    simp only [afterValue_call] at hk
    left
    refine ⟨v, r, k', rfl, ?_⟩
    have yes : ∀ f, Tokens.parseParamValue ⟨⟨k, c :: s⟩, e⟩ = (valToken v, f, ⟨⟨k', r⟩, e⟩) →
        (atFunc .parseParamValue k (c :: s) e T).accept L VT = (true, atFunc f k' r e (T ++ [valToken v])) := by
      intro f hf
      have hn : (atFunc .parseParamValue k (c :: s) e T).next L = (valToken v, atFunc f k' r e T) := by
        simp only [Parser.next, atFunc, TokenFunc.call, hf]
      rw [accept_yes L (by rw [hn]; exact valToken_type v), hn]
      rfl
    cases r with
    | nil =>
      right; right
      exact ⟨fun r' => ⟨nofun, nofun, nofun⟩, fails_accept (p := atFunc .parseParamValue k (c :: s) e T) L rfl hk rfl⟩
    | cons d r =>
      by_cases h1 : d = ','
      · subst h1; exact .inl ⟨r, rfl, yes _ hk⟩
      by_cases h2 : d = ';'
      · subst h2; exact .inr (.inl ⟨_, r, rfl, .inl rfl, yes _ hk⟩)
      by_cases h3 : d = ':'
      · subst h3; exact .inr (.inl ⟨_, r, rfl, .inr rfl, yes _ hk⟩)
      refine .inr (.inr ⟨fun r' => ⟨fun h => h1 (by cases h; rfl), fun h => h2 (by cases h; rfl), fun h => h3 (by cases h; rfl)⟩, ?_⟩)
      refine fails_accept L rfl (t := ⟨k', d :: r⟩) ?_ rfl
      simp only [atFunc, TokenFunc.call, hk]
      split <;> first | rfl | (rename_i h; cases h; contradiction)

/-- Behind the values of a parameter no token is one of its values. -/
theorem followed_type (L : Lib) (k : Str) (d : Char) (r : Str) (hd : d = ';' ∨ d = ':') (e : Option TokErr) (T : List Token) :
    VT.contains ((atFunc (followed (d :: r)) k (d :: r) e T).next L).1.type = false := by
  rcases hd with rfl | rfl
  · simp only [Parser.next, atFunc, followed, TokenFunc.call, parseParamName_call]
    split <;> rfl
  · simp only [Parser.next, atFunc, followed, TokenFunc.call]
    rcases parseValue_call k r e with ⟨v, r', _, ⟨h, _⟩ | ⟨h, _⟩⟩ | ⟨_, t, h⟩ <;> (rw [h]; rfl)

/-- `Accept` and `AcceptRun` together read what `parseVals` reads. -/
theorem accept_vals (L : Lib) : ∀ (n : Nat) (s : Str), s.length < n → ∀ (k : Str) (c : Char), c = '=' ∨ c = ',' → ∀ (e : Option TokErr) (T : List Token),
    (∃ vs d r k' p1, parseVals n s = .ok (vs, d :: r) ∧ (d = ';' ∨ d = ':') ∧ (d :: r).length ≤ s.length ∧ (atFunc .parseParamValue k (c :: s) e T).accept L VT = (true, p1) ∧
      p1.tok.scan.rest.length ≤ s.length ∧
      ∀ fuel, p1.tok.scan.rest.length < fuel → p1.acceptRun L VT fuel = some ((atFunc (followed (d :: r)) k' (d :: r) e (T ++ vs.map valToken)).look L)) ∨
    ∃ x, parseVals n s = .err x ∧ ((∃ p', (atFunc .parseParamValue k (c :: s) e T).accept L VT = (false, p') ∧ Failed x p') ∨
      ∃ p1, (atFunc .parseParamValue k (c :: s) e T).accept L VT = (true, p1) ∧ p1.tok.scan.rest.length ≤ s.length ∧
        ∀ fuel, p1.tok.scan.rest.length < fuel → ∃ p', p1.acceptRun L VT fuel = some p' ∧ Failed x p') := by
  intro n
  induction n with
  | zero => intro s h; omega
  | succ n ih =>
    intro s hs k c hc e T
    rcases accept_val L k s c hc e T with ⟨v, r, k', hv, h⟩ | ⟨x, hv, p', hp, hf⟩
    · have hl := parseOneVal_length hv
      rcases h with ⟨r', rfl, ha⟩ | ⟨d, r', rfl, hd, ha⟩ | ⟨hr, p', hp, hf⟩
      · have hrest : ∀ fuel, (atFunc .parseParamValue k' (',' :: r') e (T ++ [valToken v])).tok.scan.rest.length < fuel → r'.length + 1 < fuel := by
          intro fuel h; simpa [atFunc] using h
        rcases ih r' (by simp at hl; omega) k' ',' (.inr rfl) e (T ++ [valToken v]) with ⟨vs, d, r, k'', p1, h1, hd, h2, h3, h4, h5⟩ | ⟨x, h1, h2⟩
        · refine .inl ⟨v :: vs, d, r, k'', _, ?_, hd, ?_, ha, ?_, ?_⟩
          · simp only [parseVals, hv, Res.ok_bind, h1]
          · simp at hl h2 ⊢; omega
          · simpa [atFunc] using hl
          · intro fuel hfu
            have hfu := hrest fuel hfu
            obtain ⟨g, rfl⟩ : ∃ g, fuel = g + 1 := ⟨fuel - 1, by omega⟩
            simp only [Parser.acceptRun, h3, if_true]
            rw [h5 g (by omega)]
            simp
        · refine .inr ⟨x, ?_, .inr ⟨_, ha, by simpa [atFunc] using hl, ?_⟩⟩
          · simp only [parseVals, hv, Res.ok_bind, h1, Res.err_bind]
          · intro fuel hfu
            have hfu := hrest fuel hfu
            obtain ⟨g, rfl⟩ : ∃ g, fuel = g + 1 := ⟨fuel - 1, by omega⟩
            rcases h2 with ⟨p', h2, h3⟩ | ⟨p1, h2, h3, h4⟩
            · exact ⟨p', by simp [Parser.acceptRun, h2], h3⟩
            · obtain ⟨p', h5, h6⟩ := h4 g (by omega)
              exact ⟨p', by simp [Parser.acceptRun, h2, h5], h6⟩
      · refine .inl ⟨[v], d, r', k', _, ?_, hd, hl, ha, by simpa [atFunc] using hl, ?_⟩
        · rcases hd with rfl | rfl <;> simp only [parseVals, hv, Res.ok_bind]
        · intro fuel hfu
          obtain ⟨g, rfl⟩ : ∃ g, fuel = g + 1 := ⟨fuel - 1, by omega⟩
          simp only [Parser.acceptRun, accept_no L (followed_type L k' d r' hd e _)]
          rfl
      · refine .inr ⟨_, ?_, .inl ⟨p', hp, hf⟩⟩
        simp only [parseVals, hv, Res.ok_bind]
        cases r with
        | nil => rfl
        | cons d r =>
          have := hr r
          split
          · next h => cases h; exact absurd rfl this.1
          · next h => cases h; exact absurd rfl this.2.1
          · next h => cases h; exact absurd rfl this.2.2
          · rfl
    · exact .inr ⟨x, by simp only [parseVals, hv, Res.err_bind], .inl ⟨p', hp, hf⟩⟩

theorem params_done (L : Lib) {p p' : Parser} (h : p.accept L [.paramName] = (false, p')) (g : Nat) : p.params L (g + 1) = some (true, p') := by
  simp only [Parser.params, h, Bool.false_eq_true, if_false]

theorem params_wrong (L : Lib) {p q p' : Parser} (h : p.accept L [.paramName] = (true, q)) (h' : q.accept L VT = (false, p')) (g : Nat) : p.params L (g + 1) = some (false, p') := by
  unfold VT at h'
  simp only [Parser.params, h, if_true, h', Bool.false_eq_true, if_false]

theorem params_more (L : Lib) {p q p1 p2 : Parser} (h : p.accept L [.paramName] = (true, q)) (h' : q.accept L VT = (true, p1)) (hr : p1.acceptRun L VT (p1.tok.scan.rest.length + 1) = some p2)
    (g : Nat) : p.params L (g + 1) = p2.params L g := by
  unfold VT at h' hr
  simp only [Parser.params, h, if_true, h', hr]

/-- The loop over the parameters reads what `parseParams` reads. -/
theorem params_vals (L : Lib) : ∀ (n : Nat) (d : Char) (s : Str), s.length + 1 < n → (d = ';' ∨ d = ':') → ∀ (k : Str) (e : Option TokErr) (T : List Token) (p : Parser),
    (p = atFunc (followed (d :: s)) k (d :: s) e T ∨ p = (atFunc (followed (d :: s)) k (d :: s) e T).look L) → ∀ fuel, s.length < fuel →
    (∃ ps r k', parseParams n (d :: s) = .ok (ps, r) ∧ p.params L fuel = some (true, (atFunc .parseValue k' (':' :: r) e (T ++ paramTokens ps)).look L)) ∨
    ∃ x b p', parseParams n (d :: s) = .err x ∧ p.params L fuel = some (b, p') ∧ Failed x p' := by
  intro n
  induction n with
  | zero => intro d s h; omega
  | succ n ih =>
    intro d s hs hd k e T p hp fuel hfu
    obtain ⟨g, rfl⟩ : ∃ g, fuel = g + 1 := ⟨fuel - 1, by omega⟩
    have hacc : ∀ ts, p.accept L ts = (atFunc (followed (d :: s)) k (d :: s) e T).accept L ts := by
      intro ts
      rcases hp with rfl | rfl
      · rfl
      · exact look_accept L rfl ts
    rcases hd with rfl | rfl
    · have hcall := parseParamName_call k s e
      cases hr : s.dropWhile isIana with
      | nil =>
        rw [hr] at hcall
        obtain ⟨p', h1, h2⟩ := fails_accept (p := atFunc .parseParamName k (';' :: s) e T) (ts := [.paramName]) L rfl hcall rfl
        refine .inr ⟨_, true, p', ?_, ?_, h2⟩
        · simp only [parseParams, hr]
        · exact params_done L ((hacc _).trans h1) g
      | cons c r =>
        by_cases hc : c = '='
        · subst hc
          rw [hr] at hcall
          have hn : (atFunc .parseParamName k (';' :: s) e T).next L = (⟨.paramName, s.takeWhile isIana⟩, atFunc .parseParamValue [] ('=' :: r) e T) := by
            simp only [Parser.next, atFunc, TokenFunc.call, hcall]
          have ha : p.accept L [.paramName] = (true, atFunc .parseParamValue [] ('=' :: r) e (T ++ [⟨.paramName, s.takeWhile isIana⟩])) := by
            rw [hacc, followed, accept_yes L (by rw [hn]; rfl), hn]
            rfl
          have hlr : r.length + 1 ≤ s.length := by
            have := takeWhile_dropWhile isIana s
            rw [hr] at this
            rw [this]
            simp
          rcases accept_vals L (r.length + 1) r (by omega) [] '=' (.inl rfl) e (T ++ [⟨.paramName, s.takeWhile isIana⟩]) with ⟨vs, d', r', k', p1, h1, hd', h2, h3, h4, h5⟩ | ⟨x, h1, h2⟩
          · have h6 := h5 (p1.tok.scan.rest.length + 1) (by omega)
            simp only [List.length_cons] at h2
            rcases ih d' r' (by omega) hd' k' e ((T ++ [⟨.paramName, s.takeWhile isIana⟩]) ++ vs.map valToken) _ (.inr rfl) g (by omega) with ⟨ps, r'', k'', h7, h8⟩ | ⟨x, b, p', h7, h8, h9⟩
            · refine .inl ⟨(s.takeWhile isIana, vs) :: ps, r'', k'', ?_, ?_⟩
              · simp only [parseParams, hr, h1, Res.ok_bind, h7]
              · rw [params_more L ha h3 h6, h8]
                simp [paramTokens]
            · refine .inr ⟨x, b, p', ?_, ?_, h9⟩
              · simp only [parseParams, hr, h1, Res.ok_bind, h7, Res.err_bind]
              · rw [params_more L ha h3 h6, h8]
          · have hpe : parseParams (n + 1) (';' :: s) = .err x := by simp only [parseParams, hr, h1, Res.err_bind]
            rcases h2 with ⟨p', h3, h4⟩ | ⟨p1, h3, h4, h5⟩
            · refine .inr ⟨x, false, p', hpe, ?_, h4⟩
              exact params_wrong L ha h3 g
            · obtain ⟨p', h6, h7⟩ := h5 (p1.tok.scan.rest.length + 1) (by omega)
              obtain ⟨p'', h8, h9⟩ := failed_accept L h7 (ts := [.paramName]) rfl
              cases g with
              | zero => omega
              | succ g =>
              refine .inr ⟨x, true, p'', hpe, ?_, h9⟩
              rw [params_more L ha h3 h6, params_done L h8]
        · have hcall' : Tokens.parseParamName ⟨⟨k, ';' :: s⟩, e⟩ = (⟨.error, []⟩, .error, ⟨⟨s.takeWhile isIana, c :: r⟩, some (.code .invalidContentLineParamName)⟩) := by
            rw [hcall, hr]
            split
            · next h => cases h; exact absurd rfl hc
            · rfl
          obtain ⟨p', h1, h2⟩ := fails_accept (p := atFunc .parseParamName k (';' :: s) e T) (ts := [.paramName]) L rfl hcall' rfl
          refine .inr ⟨.invalidContentLineParamName, true, p', ?_, ?_, h2⟩
          · simp only [parseParams, hr]
            split
            · next h => cases h; exact absurd rfl hc
            · rfl
          · exact params_done L ((hacc _).trans h1) g
    · have hn : [TokenType.paramName].contains ((atFunc .parseValue k (':' :: s) e T).next L).1.type = false := by
        simp only [Parser.next, atFunc, TokenFunc.call]
        rcases parseValue_call k s e with ⟨v, r', _, ⟨h, _⟩ | ⟨h, _⟩⟩ | ⟨_, t, h⟩ <;> (rw [h]; rfl)
      refine .inl ⟨[], s, k, by simp only [parseParams], ?_⟩
      rw [params_done L ((hacc _).trans (accept_no L hn)) g]
      simp only [paramTokens, List.flatMap_nil, List.append_nil]
      rfl

/-- The next phrase: what `parseLine` reads, and where the parser is behind it. -/
theorem phrase_reads (L : Lib) (s : Str) (e : Option TokErr) :
    (∃ l r p', parseLine s = .line l r ∧ (atFunc .parseName [] s e []).phrase L = some (.line (lineTokens l), p') ∧
      ((p' = atFunc .parseName [] r e [] ∧ s = printLine l ++ r) ∨ (p' = atFunc .nil [] [] e [] ∧ r = [] ∧ s = printBare l))) ∨
    (parseLine s = .done ∧ s = [] ∧ ∃ p', (atFunc .parseName [] s e []).phrase L = some (.done, p') ∧ p'.tok.err = some .eof) ∨
    ∃ x p', parseLine s = .error x ∧ (atFunc .parseName [] s e []).phrase L = some (.error (.code x), p') := by
  have hbad : ∀ x t, Tokens.parseName ⟨⟨[], s⟩, e⟩ = (⟨.error, []⟩, .error, ⟨t, some (.code x)⟩) → ∃ p', (atFunc .parseName [] s e []).phrase L = some (.error (.code x), p') := by
    intro x t ht
    obtain ⟨p', h1, h2⟩ := fails_accept (p := atFunc .parseName [] s e []) (ts := [.name]) L rfl ht rfl
    obtain ⟨p'', h3, h4⟩ := failed_accept L h2 (ts := [.done]) rfl
    refine ⟨p'', ?_⟩
    simp only [Parser.phrase, h1, h3, Bool.false_eq_true, if_false, Parser.failed, h4.2, Option.getD_some]
  have hname : Tokens.parseName ⟨⟨[], s⟩, e⟩ =
      if (s.takeWhile isIana).length = 0 then
        if (s.dropWhile isIana).head? = none then Tokens.done ⟨⟨[], s.dropWhile isIana⟩, e⟩ else Tokens.fail .invalidContentLine ⟨⟨[], s.dropWhile isIana⟩, e⟩
      else match (s.dropWhile isIana).head? with
        | some ';' => (⟨.name, s.takeWhile isIana⟩, .parseParamName, ⟨⟨[], s.dropWhile isIana⟩, e⟩)
        | some ':' => (⟨.name, s.takeWhile isIana⟩, .parseValue, ⟨⟨[], s.dropWhile isIana⟩, e⟩)
        | _ => Tokens.fail .invalidContentLineName ⟨⟨[], s.dropWhile isIana⟩, e⟩ := by
    simp only [Tokens.parseName, acceptRun_iana, Scan.get, List.nil_append]
    rfl
  have hs := takeWhile_dropWhile isIana s
  by_cases hn : s.takeWhile isIana = []
  · rw [if_pos (by rw [hn]; rfl)] at hname
    cases hr : s.dropWhile isIana with
    | nil =>
      rw [hr, hn] at hs
      subst hs
      exact .inr (.inl ⟨rfl, rfl, _, rfl, rfl⟩)
    | cons c r =>
      rw [hr, if_neg (by simp)] at hname
      obtain ⟨p', hp⟩ := hbad _ _ hname
      refine .inr (.inr ⟨_, p', ?_, hp⟩)
      simp [parseLine, hn, hr]
  · rw [if_neg (by simpa using hn)] at hname
    have wrong : ((∀ q, s.dropWhile isIana ≠ ';' :: q ∧ s.dropWhile isIana ≠ ':' :: q)) → ∃ x p', parseLine s = .error x ∧ (atFunc .parseName [] s e []).phrase L = some (.error (.code x), p') := by
      intro hq
      have h1 : Tokens.parseName ⟨⟨[], s⟩, e⟩ = Tokens.fail .invalidContentLineName ⟨⟨[], s.dropWhile isIana⟩, e⟩ := by
        rw [hname]
        cases hr : s.dropWhile isIana with
        | nil => rfl
        | cons c r =>
          have := hq r
          rw [hr] at this
          simp only [List.head?_cons]
          split
          · next h => cases h; exact absurd rfl this.1
          · next h => cases h; exact absurd rfl this.2
          · rfl
      obtain ⟨p', hp⟩ := hbad _ _ h1
      refine ⟨_, p', ?_, hp⟩
      simp only [parseLine, if_neg hn]
      split
      · next q h => exact absurd h (hq q).1
      · next q h => exact absurd h (hq q).2
      · rfl
    cases hr : s.dropWhile isIana with
    | nil => exact .inr (.inr (wrong (by rw [hr]; exact fun q => ⟨nofun, nofun⟩)))
    | cons d r =>
      by_cases hd : d = ';' ∨ d = ':'
      · have h1 : Tokens.parseName ⟨⟨[], s⟩, e⟩ = (⟨.name, s.takeWhile isIana⟩, followed (d :: r), ⟨⟨[], d :: r⟩, e⟩) := by
          rw [hname, hr]
          rcases hd with rfl | rfl <;> rfl
        have h2 : (atFunc .parseName [] s e []).next L = (⟨.name, s.takeWhile isIana⟩, atFunc (followed (d :: r)) [] (d :: r) e []) := by
          simp only [Parser.next, atFunc, TokenFunc.call, h1]
        have h3 : (atFunc .parseName [] s e []).accept L [.name] = (true, atFunc (followed (d :: r)) [] (d :: r) e [⟨.name, s.takeWhile isIana⟩]) := by
          rw [accept_yes L (by rw [h2]; rfl), h2]
          rfl
        have hline : parseLine s = match (do
            let (ps, r) ← parseParams ((d :: r).length + 1) (d :: r)
            let (v, r) ← parseValue r
            Res.ok (Phrase.line ⟨s.takeWhile isIana, ps, v⟩ r)) with
            | .ok p => p
            | .err e => .error e
            | .panic => Phrase.done := by
          simp only [parseLine, if_neg hn, hr]
          rcases hd with rfl | rfl <;> rfl
        have hph : ∀ x, (atFunc (followed (d :: r)) [] (d :: r) e [⟨.name, s.takeWhile isIana⟩]).params L ((d :: r).length + 1) = x →
            (atFunc .parseName [] s e []).phrase L = match x with
              | none => none
              | some (false, p) => some (p.failed L)
              | some (true, p) => if (p.accept L [.value]).1 then some (.line (p.accept L [.value]).2.tokens, { (p.accept L [.value]).2 with tokens := [] }) else some ((p.accept L [.value]).2.failed L) := by
          intro x hx
          simp only [Parser.phrase, h3, if_true]
          have : (atFunc (followed (d :: r)) [] (d :: r) e [⟨.name, s.takeWhile isIana⟩]).tok.scan.rest.length = (d :: r).length := rfl
          rw [this, hx]
          rcases x with _ | ⟨b, p⟩
          · rfl
          · cases b <;> rfl
        rcases params_vals L ((d :: r).length + 1) d r (by simp) hd [] e [⟨.name, s.takeWhile isIana⟩] _ (.inl rfl) ((d :: r).length + 1) (by simp; omega) with
          ⟨ps, q, k', h4, h5⟩ | ⟨x, b, p', h4, h5, h6⟩
        · have h6 := hph _ h5
          simp only [look_accept L (p := atFunc .parseValue k' (':' :: q) e ([⟨.name, s.takeWhile isIana⟩] ++ paramTokens ps)) rfl] at h6
          rcases parseValue_call k' q e with ⟨v, r', hv, hcall⟩ | ⟨hv, t, hcall⟩
          · have hl : parseLine s = .line ⟨s.takeWhile isIana, ps, v⟩ r' := by rw [hline, h4]; simp only [Res.ok_bind, hv]
            have acc : ∀ f rest, Tokens.parseValue ⟨⟨k', ':' :: q⟩, e⟩ = (⟨.value, v⟩, f, ⟨⟨[], rest⟩, e⟩) →
                (atFunc .parseName [] s e []).phrase L = some (.line (lineTokens ⟨s.takeWhile isIana, ps, v⟩), atFunc f [] rest e []) := by
              intro f rest hf
              have h7 : (atFunc .parseValue k' (':' :: q) e ([⟨.name, s.takeWhile isIana⟩] ++ paramTokens ps)).next L =
                  (⟨.value, v⟩, atFunc f [] rest e ([⟨.name, s.takeWhile isIana⟩] ++ paramTokens ps)) := by
                simp only [Parser.next, atFunc, TokenFunc.call, hf]
              rw [h6, accept_yes L (by rw [h7]; rfl), h7]
              simp [lineTokens, atFunc]
            rcases hcall with ⟨hcall, hq⟩ | ⟨hcall, rfl, rfl⟩
            · refine .inl ⟨_, r', _, hl, acc _ _ hcall, .inl ⟨rfl, ?_⟩⟩
              rw [hr, (parseParams_inv _ h4).2.2.2, hq] at hs
              rw [printLine, printBare]
              simp only [List.append_assoc, List.cons_append, List.nil_append] at hs ⊢
              exact hs
            · refine .inl ⟨_, [], _, hl, acc _ _ hcall, .inr ⟨rfl, rfl, ?_⟩⟩
              rw [hr, (parseParams_inv _ h4).2.2.2] at hs
              simp only [printBare]
              rw [List.append_assoc, ← hs]
          · obtain ⟨p', h7, h8⟩ := fails_accept (p := atFunc .parseValue k' (':' :: q) e ([⟨.name, s.takeWhile isIana⟩] ++ paramTokens ps)) (ts := [.value]) L rfl hcall rfl
            refine .inr (.inr ⟨.invalidContentLineValue, p', by rw [hline, h4]; simp only [Res.ok_bind, hv, Res.err_bind], ?_⟩)
            rw [h6, h7]
            simp only [Bool.false_eq_true, if_false, Parser.failed, h8.2, Option.getD_some]
        · have h7 := hph _ h5
          have hl : parseLine s = .error x := by rw [hline, h4]; rfl
          cases b with
          | false =>
            refine .inr (.inr ⟨x, p', hl, ?_⟩)
            rw [h7]
            simp only [Parser.failed, h6.2, Option.getD_some]
          | true =>
            obtain ⟨p'', h8, h9⟩ := failed_accept L h6 (ts := [.value]) rfl
            refine .inr (.inr ⟨x, p'', hl, ?_⟩)
            rw [h7]
            simp only [h8, Bool.false_eq_true, if_false, Parser.failed, h9.2, Option.getD_some]
      · refine .inr (.inr (wrong ?_))
        rw [hr]
        exact fun q => ⟨fun h => hd (.inl (by cases h; rfl)), fun h => hd (.inr (by cases h; rfl))⟩

/-! ## Lines of tokens -/

theorem groupParams_tokens : ∀ (ps : List (Str × List PVal)) (n : Nat), ps.length ≤ n → groupParams n (paramTokens ps) = ps := by
  intro ps
  induction ps with
  | nil => intro n _; cases n <;> rfl
  | cons p ps ih =>
    intro n hn
    obtain ⟨n, rfl⟩ : ∃ m, n = m + 1 := ⟨n - 1, by simp at hn; omega⟩
    have hv : ∀ v : PVal, decide ((valToken v).type ≠ .paramName) = true := by
      intro v; obtain ⟨q, d⟩ := v; cases q <;> rfl
    have h1 : ∀ (vs : List PVal), (vs.map valToken ++ paramTokens ps).takeWhile (fun v => v.type ≠ .paramName) = vs.map valToken ∧
        (vs.map valToken ++ paramTokens ps).dropWhile (fun v => v.type ≠ .paramName) = paramTokens ps := by
      intro vs
      induction vs with
      | nil => cases ps <;> exact ⟨rfl, rfl⟩
      | cons v vs ihv =>
        simp only [List.map_cons, List.cons_append, List.takeWhile_cons, List.dropWhile_cons, hv, if_true, ihv, and_self]
    have h2 : paramTokens (p :: ps) = ⟨.paramName, p.1⟩ :: (p.2.map valToken ++ paramTokens ps) := by simp [paramTokens]
    have h3 : ∀ v : PVal, (⟨decide ((valToken v).type = .paramQuotedValue), (valToken v).data⟩ : PVal) = v := by
      intro v; obtain ⟨q, d⟩ := v; cases q <;> rfl
    rw [h2, groupParams, (h1 p.2).1, (h1 p.2).2, ih n (by simp at hn; omega), List.map_map]
    have : ((fun v : Token => (⟨decide (v.type = .paramQuotedValue), v.data⟩ : PVal)) ∘ valToken) = id := funext h3
    rw [this, List.map_id]

theorem lineOfTokens_tokens (l : Line) : lineOfTokens (lineTokens l) = some l := by
  have h : (paramTokens l.params ++ [(⟨.value, l.value⟩ : Token)]).getLast? = some ⟨.value, l.value⟩ := by simp
  have hl : ∀ ps : List (Str × List PVal), ps.length ≤ (paramTokens ps).length := by
    intro ps
    induction ps with
    | nil => exact Nat.le_refl _
    | cons p ps ih =>
      have h2 : paramTokens (p :: ps) = ⟨.paramName, p.1⟩ :: (p.2.map valToken ++ paramTokens ps) := by simp [paramTokens]
      rw [h2]; simp; omega
  have := hl l.params
  simp only [lineOfTokens, lineTokens, h]
  rw [List.dropLast_concat, groupParams_tokens _ _ (by simp; omega)]

theorem linesOfTokens_tokens (ls : List Line) : linesOf (ls.map lineTokens) = some ls := by
  induction ls with
  | nil => rfl
  | cons l ls ih => simp only [List.map_cons, linesOf, lineOfTokens_tokens, ih]

/-! ## The phrases of a document -/

/-- The error that ends the phrases. -/
def termErr : Term → Option TokErr
  | .done => none
  | .error e => some (.code e)

theorem noLastLineEnd_nil : ¬ NoLastLineEnd [] := by
  rintro ⟨ls, l, h, _⟩
  have := congrArg List.length h
  simp [printBare] at this

theorem noLastLineEnd_line {s r : Str} {l : Line} (hl : parseLine s = .line l r) (h : s = printLine l ++ r) : NoLastLineEnd s ↔ NoLastLineEnd r := by
  constructor
  · rintro ⟨ls, l0, h0, hok⟩
    cases ls with
    | nil =>
      exfalso
      have h1 : parseLine s = .line l0 [] := by
        rw [h0]
        have := parseLine_print_aux l0 (hok l0 (by simp)) [] [] (by simpa using parseValue_print_end l0.value (hok l0 (by simp)).value)
        simpa using this
      rw [hl] at h1
      cases h1
      have := congrArg List.length (h.symm.trans h0)
      simp [printLine] at this
    | cons x ls =>
      have h1 : parseLine s = .line x (ls.flatMap printLine ++ printBare l0) := by
        rw [h0, List.flatMap_cons, List.append_assoc, printLine, List.append_assoc]
        exact parseLine_print_aux x (hok x (by simp)) _ _ (parseValue_print x.value _ (hok x (by simp)).value)
      rw [hl] at h1
      cases h1
      exact ⟨ls, l0, rfl, fun y hy => hok y (by simp at hy ⊢; exact .inr hy)⟩
  · rintro ⟨ls, l0, h0, hok⟩
    refine ⟨l :: ls, l0, by rw [h, h0]; simp, ?_⟩
    intro y hy
    rw [List.cons_append] at hy
    rcases List.mem_cons.1 hy with rfl | hy
    · exact (parseLine_inv hl).1
    · exact hok y hy

theorem tokenise_ended {s : Str} (h : parseLine s = .done) : tokenise s = ⟨[], .done⟩ := by
  rw [tokenise, streamF, h]

theorem tokenise_wrong {s : Str} {e : Err} (h : parseLine s = .error e) : tokenise s = ⟨[], .error e⟩ := by
  rw [tokenise, streamF, h]

theorem phrases_reads (L : Lib) : ∀ (n : Nat) (s : Str) (e : Option TokErr), s.length < n → ∃ t p, (atFunc .parseName [] s e []).phrases L n = some ((tokenise s).lines.map lineTokens, t, p) ∧
    (¬ NoLastLineEnd s → t = termErr (tokenise s).term) ∧ (NoLastLineEnd s → (tokenise s).term = .done ∧ t = L.noState.map .code) ∧
    ((tokenise s).lines = [] → t = none → p.tok.err = some .eof) := by
  intro n
  induction n with
  | zero => intro s e h; omega
  | succ n ih =>
    intro s e hs
    rcases phrase_reads L s e with ⟨l, r, p', h1, h2, ⟨rfl, h3⟩ | ⟨rfl, rfl, h3⟩⟩ | ⟨h1, rfl, p', h2, h3⟩ | ⟨x, p', h1, h2⟩
    · have hlt := parseLine_rest_lt h1
      obtain ⟨t, p, h4, h5, h6, _⟩ := ih r e (by omega)
      refine ⟨t, p, ?_, ?_, ?_, ?_⟩
      · simp only [Parser.phrases, h2, h4, tokenise_line h1, List.map_cons]
      · rw [noLastLineEnd_line h1 h3, tokenise_line h1]; exact h5
      · rw [noLastLineEnd_line h1 h3, tokenise_line h1]; exact h6
      · rw [tokenise_line h1]; exact nofun
    · have hlt := parseLine_rest_lt h1
      have hno : NoLastLineEnd s := ⟨[], l, by simpa using h3, by intro x hx; simp at hx; subst hx; exact (parseLine_inv h1).1⟩
      obtain ⟨n, rfl⟩ : ∃ m, n = m + 1 := ⟨n - 1, by omega⟩
      have h4 : ∃ p, (atFunc .nil [] [] e []).phrases L (n + 1) = some ([], L.noState.map .code, p) := by
        cases hL : L.noState with
        | none =>
          refine ⟨⟨⟨⟨[], []⟩, some .eof⟩, .done, none, [⟨.done, []⟩]⟩, ?_⟩
          simp only [Parser.phrases, Parser.phrase, Parser.accept, Parser.next, atFunc, TokenFunc.call, hL, Tokens.done]
          rfl
        | some x =>
          refine ⟨⟨⟨⟨[], []⟩, some (.code x)⟩, .error, some ⟨.error, []⟩, []⟩, ?_⟩
          simp only [Parser.phrases, Parser.phrase, Parser.accept, Parser.next, atFunc, TokenFunc.call, hL, Tokens.fail]
          rfl
      obtain ⟨p, h4⟩ := h4
      refine ⟨L.noState.map .code, p, ?_, ?_, ?_, ?_⟩
      · simp only [Parser.phrases, h2, tokenise_line h1, List.map_cons]
        have := h4
        simp only [Parser.phrases] at this
        rw [this]
        rfl
      · exact fun h => absurd hno h
      · rw [tokenise_line h1]; exact fun _ => ⟨rfl, rfl⟩
      · rw [tokenise_line h1]; exact nofun
    · refine ⟨none, p', ?_, ?_, ?_, ?_⟩
      · simp only [Parser.phrases, h2]; rfl
      · intro _; rfl
      · exact fun h => absurd h noLastLineEnd_nil
      · exact fun _ _ => h3
    · refine ⟨some (.code x), p', ?_, ?_, ?_, ?_⟩
      · simp only [Parser.phrases, h2, tokenise_wrong h1]; rfl
      · intro _; rw [tokenise_wrong h1]; rfl
      · rintro ⟨ls, l0, h0, hok⟩
        exfalso
        cases ls with
        | nil =>
          have h3 : parseLine s = .line l0 [] := by
            rw [h0]
            have := parseLine_print_aux l0 (hok l0 (by simp)) [] [] (by simpa using parseValue_print_end l0.value (hok l0 (by simp)).value)
            simpa using this
          rw [h1] at h3; cases h3
        | cons y ls =>
          have h3 : parseLine s = .line y (ls.flatMap printLine ++ printBare l0) := by
            rw [h0, List.flatMap_cons, List.append_assoc, printLine, List.append_assoc]
            exact parseLine_print_aux y (hok y (by simp)) _ _ (parseValue_print y.value _ (hok y (by simp)).value)
          rw [h1] at h3; cases h3
      · exact fun _ => nofun

end Ics
