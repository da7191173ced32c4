import Verif.Spec.Duration
import Verif.TokeniserLemmas
/-!
# Lemmas about durations
-/

namespace Ics

open Spec

theorem digitsVal_snoc (s : Str) (c : Char) (a : Nat) :
    digitsVal a (s ++ [c]) = digitsVal a s * 10 + digitVal c := by
  rw [digitsVal_append, digitsVal_cons, digitsVal_nil]

theorem isDigit_iff (c : Char) : isDigit c = true ↔ 48 ≤ c.toNat ∧ c.toNat ≤ 57 := by
  unfold isDigit
  simp only [Bool.and_eq_true, decide_eq_true_eq, char_le_iff]
  have e5 : '0'.toNat = 48 := rfl
  have e6 : '9'.toNat = 57 := rfl
  omega

theorem isDigit_cases {c : Char} (h : isDigit c = true) : ∃ d : Fin 10, c = Char.ofNat (48 + d) := by
  have := (isDigit_iff c).1 h
  refine ⟨⟨c.toNat - 48, by omega⟩, ?_⟩
  rw [show 48 + (c.toNat - 48) = c.toNat by omega]
  exact (Char.ofNat_toNat c).symm

theorem Dec_facts {s : Str} {n : Nat} (h : Dec s n) : s ≠ [] ∧ s.all isDigit = true ∧ digitsVal 0 s = n := by
  induction h with
  | one d =>
    refine ⟨by simp, ?_, ?_⟩
    · have := digitChar_isDigit d.2
      rw [digitChar] at this
      simp [this]
    · rw [digitsVal_cons, digitsVal_nil]
      have := digitVal_digitChar d.2
      rw [digitChar] at this
      omega
  | snoc d h ih =>
    refine ⟨by simp, ?_, ?_⟩
    · have := digitChar_isDigit d.2
      rw [digitChar] at this
      rw [List.all_append, ih.2.1]
      simp [this]
    · rw [digitsVal_snoc, ih.2.2]
      have := digitVal_digitChar d.2
      rw [digitChar] at this
      omega

theorem Dec_of (s : Str) : ∀ k, s.length ≤ k → s ≠ [] → s.all isDigit = true → Dec s (digitsVal 0 s) := by
  intro k
  induction k generalizing s with
  | zero => intro hk hne; exact absurd (List.length_eq_zero_iff.1 (by omega)) hne
  | succ k ih =>
    intro hk hne hall
    obtain ⟨t, c, rfl⟩ : ∃ t c, s = t ++ [c] := ⟨s.dropLast, s.getLast hne, (List.dropLast_concat_getLast hne).symm⟩
    rw [List.all_append] at hall
    simp only [Bool.and_eq_true] at hall
    obtain ⟨d, hd⟩ := isDigit_cases (c := c) (by simpa using hall.2)
    have hv : digitVal c = d := by
      rw [hd]; exact digitVal_digitChar d.2
    rw [digitsVal_snoc, hv, hd]
    by_cases ht : t = []
    · subst ht
      simpa [digitsVal_nil] using Dec.one d
    · rw [Nat.mul_comm]
      exact Dec.snoc d (ih t (by simp at hk; omega) ht hall.1)

theorem Dec_fmtNat (n : Nat) : Dec (fmtNat n) n := by
  have := Dec_of (fmtNat n) _ (Nat.le_refl _) (fmtNat_ne_nil n) (fmtNat_all n)
  rwa [fmtNat_val] at this

theorem parseUint_Dec {s : Str} {n bits : Nat} (h : Dec s n) (hn : n < 2 ^ bits) : parseUint bits s = some n := by
  obtain ⟨h1, h2, h3⟩ := Dec_facts h
  unfold parseUint
  rw [if_pos ⟨h1, h2⟩]
  simp only [h3]
  rw [if_pos hn]

theorem Dec_parseUint {s : Str} {n bits : Nat} (h : parseUint bits s = some n) : Dec s n ∧ n < 2 ^ bits := by
  obtain ⟨h1, h2, h3, h4⟩ := parseUint_some h
  rw [← h3]
  exact ⟨Dec_of s _ (Nat.le_refl _) h1 h2, by rw [h3]; exact h4⟩

/-- One step of the decoder after the number. -/
def Duration.step (fuel level : Nat) (d : Duration) (n : Nat) (s : Str) : Res Duration :=
  match s with
  | 'W' :: r =>
    if level > 0 then .err .invalidDuration
    else if r ≠ [] then .err .invalidDuration
    else .ok { d with weeks := n }
  | 'D' :: r => if level > 0 then .err .invalidDuration else Duration.loop fuel 1 { d with days := n } r
  | 'H' :: r => if level > 1 then .err .invalidDuration else Duration.loop fuel 2 { d with hours := n } r
  | 'M' :: r => if level > 2 then .err .invalidDuration else Duration.loop fuel 3 { d with minutes := n } r
  | 'S' :: r =>
    if level > 3 then .err .invalidDuration
    else if r ≠ [] then .err .invalidDuration
    else Duration.loop fuel level { d with seconds := n } r
  | _ => .err .invalidDuration

theorem Duration.loop_item (fuel level : Nat) (d : Duration) (t : Bool) (ds : Str) (n : Nat) (u : Char) (r : Str)
    (hd : Dec ds n) (hn : n < 2 ^ 64) (hu : isDigit u = false) :
    Duration.loop (fuel + 1) level d ((if t then ['T'] else []) ++ (ds ++ u :: r)) =
      Duration.step fuel (if t then 1 else level) d n (u :: r) := by
  obtain ⟨h1, h2, _⟩ := Dec_facts hd
  have hall : ∀ x ∈ ds, isDigit x = true := by simpa using h2
  obtain ⟨t1, t2⟩ := takeWhile_stop isDigit ds (u :: r) hall (by simpa using hu)
  have hhead : (ds ++ u :: r).head? ≠ some 'T' := by
    cases ds with
    | nil => exact absurd rfl h1
    | cons c ds =>
      have := hall c (by simp)
      intro he
      simp at he
      rw [he] at this
      exact absurd this (by decide)
  rw [Duration.loop]
  cases t with
  | true =>
    simp only [if_true, List.cons_append, List.nil_append, List.head?_cons, List.tail_cons]
    rw [if_neg (by simp), t1, t2, parseUint_Dec hd hn]
    rfl
  | false =>
    simp only [Bool.false_eq_true, if_false, List.nil_append]
    rw [if_neg (by simp), if_neg hhead, if_neg hhead, t1, t2, parseUint_Dec hd hn]
    rfl

theorem Duration.loop_nil (fuel level : Nat) (d : Duration) (h : level ≠ 0) :
    Duration.loop (fuel + 1) level d [] = .ok d := by
  rw [Duration.loop]; simp [h]

theorem Duration.loop_item_f (fuel level : Nat) (d : Duration) (ds : Str) (n : Nat) (u : Char) (r : Str)
    (hd : Dec ds n) (hn : n < 2 ^ 64) (hu : isDigit u = false) :
    Duration.loop (fuel + 1) level d (ds ++ u :: r) = Duration.step fuel level d n (u :: r) := by
  have := Duration.loop_item fuel level d false ds n u r hd hn hu
  simpa using this

theorem Dec_length {s : Str} {n : Nat} (h : Dec s n) : 1 ≤ s.length := by
  have := (Dec_facts h).1
  exact List.length_pos_iff.2 this

theorem Duration.second_loop {s : Str} {n : Nat} (h : DurSecond s n) (hn : n < 2 ^ 64) (fuel level : Nat) (d : Duration)
    (hl : 1 ≤ level) (hl3 : level ≤ 3) (hf : s.length < fuel) :
    Duration.loop fuel level d s = .ok { d with seconds := n } := by
  obtain ⟨ds, hd, rfl⟩ := h
  have := Dec_length hd
  simp at hf
  obtain ⟨f, rfl⟩ : ∃ f, fuel = f + 1 + 1 := ⟨fuel - 2, by omega⟩
  rw [Duration.loop_item_f _ _ _ _ _ _ _ hd hn (by decide), Duration.step, if_neg (by omega), if_neg (by simp),
    Duration.loop_nil _ _ _ (by omega)]

theorem Duration.minute_loop {s : Str} {m n : Nat} (h : DurMinute s m n) (hm : m < 2 ^ 64) (hn : n < 2 ^ 64)
    (fuel level : Nat) (d : Duration) (hl : level ≤ 2) (h0 : d.seconds = 0) (hf : s.length < fuel) :
    Duration.loop fuel level d s = .ok { d with minutes := m, seconds := n } := by
  rcases h with ⟨⟨ds, hd, rfl⟩, rfl⟩ | ⟨a, b, rfl, ⟨ds, hd, rfl⟩, hb⟩
  · have := Dec_length hd
    simp at hf
    obtain ⟨f, rfl⟩ : ∃ f, fuel = f + 1 + 1 := ⟨fuel - 2, by omega⟩
    rw [Duration.loop_item_f _ _ _ _ _ _ _ hd hm (by decide), Duration.step, if_neg (by omega),
      Duration.loop_nil _ _ _ (by omega)]
    cases d; simp_all
  · have := Dec_length hd
    simp at hf
    obtain ⟨f, rfl⟩ : ∃ f, fuel = f + 1 := ⟨fuel - 1, by omega⟩
    rw [List.append_assoc, List.cons_append, List.nil_append, Duration.loop_item_f _ _ _ _ _ _ _ hd hm (by decide), Duration.step,
      if_neg (by omega), Duration.second_loop hb hn _ _ _ (by omega) (by omega) (by omega)]

theorem Duration.hour_loop {s : Str} {h m n : Nat} (hh : DurHour s h m n) (hhh : h < 2 ^ 64) (hm : m < 2 ^ 64)
    (hn : n < 2 ^ 64) (fuel level : Nat) (d : Duration) (hl : level ≤ 1) (h0 : d.seconds = 0) (h1 : d.minutes = 0)
    (hf : s.length < fuel) :
    Duration.loop fuel level d s = .ok { d with hours := h, minutes := m, seconds := n } := by
  rcases hh with ⟨⟨ds, hd, rfl⟩, rfl, rfl⟩ | ⟨a, b, rfl, ⟨ds, hd, rfl⟩, hb⟩
  · have := Dec_length hd
    simp at hf
    obtain ⟨f, rfl⟩ : ∃ f, fuel = f + 1 + 1 := ⟨fuel - 2, by omega⟩
    rw [Duration.loop_item_f _ _ _ _ _ _ _ hd hhh (by decide), Duration.step, if_neg (by omega),
      Duration.loop_nil _ _ _ (by omega)]
    cases d; simp_all
  · have := Dec_length hd
    simp at hf
    obtain ⟨f, rfl⟩ : ∃ f, fuel = f + 1 := ⟨fuel - 1, by omega⟩
    rw [List.append_assoc, List.cons_append, List.nil_append, Duration.loop_item_f _ _ _ _ _ _ _ hd hhh (by decide), Duration.step,
      if_neg (by omega), Duration.minute_loop hb hm hn f 2 { d with hours := h } (by omega) h0 (by omega)]

/-- A leading "T" only sets the level, when a digit follows. -/
theorem Duration.loop_T (fuel level : Nat) (d : Duration) (s : Str) (hs : ∀ c ∈ s.head?, isDigit c = true) (hne : s ≠ []) :
    Duration.loop (fuel + 1) level d ('T' :: s) = Duration.loop (fuel + 1) 1 d s := by
  have hh : s.head? ≠ some 'T' := by
    intro h
    have := hs 'T' (by simp [h])
    exact absurd this (by decide)
  rw [Duration.loop, Duration.loop]
  simp only [List.head?_cons, if_true, List.tail_cons]
  rw [if_neg (by simp), if_neg hne, if_neg hh, if_neg hh]

theorem Unit_head {u : Char} {s : Str} {n : Nat} (h : Spec.Unit u s n) (r : Str) :
    (∀ c ∈ (s ++ r).head?, isDigit c = true) ∧ s ++ r ≠ [] := by
  obtain ⟨ds, hd, rfl⟩ := h
  obtain ⟨h1, h2, _⟩ := Dec_facts hd
  cases ds with
  | nil => exact absurd rfl h1
  | cons c ds =>
    simp at h2
    simpa using h2.1

theorem Duration.time_loop {s : Str} {h m n : Nat} (ht : DurTime s h m n) (hh : h < 2 ^ 64) (hm : m < 2 ^ 64)
    (hn : n < 2 ^ 64) (fuel level : Nat) (d : Duration) (h0 : d.seconds = 0) (h1 : d.minutes = 0) (h2 : d.hours = 0)
    (hf : s.length < fuel) :
    Duration.loop fuel level d s = .ok { d with hours := h, minutes := m, seconds := n } := by
  obtain ⟨t, rfl, ht⟩ := ht
  have hd : (∀ c ∈ t.head?, isDigit c = true) ∧ t ≠ [] := by
    rcases ht with (⟨hu, _⟩ | ⟨a, b, rfl, hu, _⟩) | ⟨⟨hu, _⟩ | ⟨a, b, rfl, hu, _⟩, _⟩ | ⟨hu, _⟩
    · simpa using Unit_head hu []
    · exact Unit_head hu b
    · simpa using Unit_head hu []
    · exact Unit_head hu b
    · simpa using Unit_head hu []
  simp at hf
  obtain ⟨f, rfl⟩ : ∃ f, fuel = f + 1 := ⟨fuel - 1, by omega⟩
  rw [Duration.loop_T _ _ _ _ hd.1 hd.2]
  rcases ht with ht | ⟨ht, rfl⟩ | ⟨ht, rfl, rfl⟩
  · exact Duration.hour_loop ht hh hm hn _ _ _ (by omega) h0 h1 (by omega)
  · rw [Duration.minute_loop ht hm hn _ _ _ (by omega) h0 (by omega)]
    cases d; simp_all
  · rw [Duration.second_loop ht hn _ _ _ (by omega) (by omega) (by omega)]
    cases d; simp_all

theorem Duration.body_loop {s : Str} {x : Duration} (h : DurBody s x) (hx : x.WF) (fuel : Nat) (hf : s.length < fuel) :
    Duration.loop fuel 0 { neg := x.neg } s = .ok x := by
  rcases h with ⟨h, hw⟩ | ⟨h, hw, hd⟩ | ⟨⟨ds, hd, rfl⟩, h1, h2, h3, h4⟩
  · rcases h with ⟨⟨ds, hd, rfl⟩, h1, h2, h3⟩ | ⟨a, b, rfl, ⟨ds, hd, rfl⟩, ht⟩
    · have := Dec_length hd
      simp at hf
      obtain ⟨f, rfl⟩ : ∃ f, fuel = f + 1 + 1 := ⟨fuel - 2, by omega⟩
      rw [Duration.loop_item_f _ _ _ _ _ _ _ hd hx.days (by decide), Duration.step, if_neg (by omega),
        Duration.loop_nil _ _ _ (by omega)]
      cases x; simp_all
    · have := Dec_length hd
      simp at hf
      obtain ⟨f, rfl⟩ : ∃ f, fuel = f + 1 := ⟨fuel - 1, by omega⟩
      rw [List.append_assoc, List.cons_append, List.nil_append, Duration.loop_item_f _ _ _ _ _ _ _ hd hx.days (by decide),
        Duration.step, if_neg (by omega),
        Duration.time_loop ht hx.hours hx.minutes hx.seconds _ _ _ rfl rfl rfl (by omega)]
      cases x; simp_all
  · rw [Duration.time_loop h hx.hours hx.minutes hx.seconds _ _ _ rfl rfl rfl hf]
    cases x; simp_all
  · have := Dec_length hd
    simp at hf
    obtain ⟨f, rfl⟩ : ∃ f, fuel = f + 1 := ⟨fuel - 1, by omega⟩
    rw [Duration.loop_item_f _ _ _ _ _ _ _ hd hx.weeks (by decide), Duration.step, if_neg (by omega), if_neg (by simp)]
    cases x; simp_all

theorem Duration.decode_rfc {s : Str} {x : Duration} (h : RfcDuration s x) (hx : x.WF) :
    Duration.decode s = .ok x := by
  obtain ⟨t, hb, ⟨hn, rfl⟩ | ⟨hn, rfl | rfl⟩⟩ := h
  · have := Duration.body_loop hb hx (t.length + 1) (by omega)
    rw [hn] at this
    simpa [Duration.decode] using this
  · have := Duration.body_loop hb hx (t.length + 1) (by omega)
    rw [hn] at this
    simpa [Duration.decode] using this
  · have := Duration.body_loop hb hx (t.length + 1) (by omega)
    rw [hn] at this
    simpa [Duration.decode] using this

/-- What survives encoding: with weeks present the other fields are dropped (types.go:352-355). -/
def Duration.kept (d : Duration) : Duration :=
  if d.weeks ≠ 0 then { neg := d.neg, weeks := d.weeks } else d

theorem Unit_fmtNat (u : Char) (n : Nat) : Spec.Unit u (fmtNat n ++ [u]) n := ⟨_, Dec_fmtNat n, rfl⟩

theorem Duration.body_rfc (d : Duration) : DurBody d.body d.kept := by
  obtain ⟨neg, w, dd, h, m, s⟩ := d
  unfold Duration.kept Duration.body DurBody
  dsimp only
  have hmin : m ≠ 0 → DurMinute (fmtNat m ++ 'M' :: (if s ≠ 0 then fmtNat s ++ ['S'] else [])) m s := by
    intro _
    by_cases hs : s = 0
    · left; rw [if_neg (by simpa using hs)]; exact ⟨Unit_fmtNat _ _, hs⟩
    · right; rw [if_pos hs]
      exact ⟨fmtNat m ++ ['M'], fmtNat s ++ ['S'], by simp, Unit_fmtNat _ _, Unit_fmtNat _ _⟩
  have htime : DurTime ('T' :: (if h ≠ 0 then
        fmtNat h ++ 'H' ::
        (if m ≠ 0 ∨ s ≠ 0 then
          fmtNat m ++ 'M' :: (if s ≠ 0 then fmtNat s ++ ['S'] else [])
         else [])
       else if m ≠ 0 then
        fmtNat m ++ 'M' :: (if s ≠ 0 then fmtNat s ++ ['S'] else [])
       else fmtNat s ++ ['S'])) h m s := by
    refine ⟨_, rfl, ?_⟩
    by_cases hh : h = 0
    · rw [if_neg (by simpa using hh)]
      right
      by_cases hm : m = 0
      · rw [if_neg (by simpa using hm)]
        right
        exact ⟨Unit_fmtNat _ _, hh, hm⟩
      · rw [if_pos hm]
        left
        exact ⟨hmin hm, hh⟩
    · rw [if_pos hh]
      left
      by_cases hms : m ≠ 0 ∨ s ≠ 0
      · rw [if_pos hms]
        right
        refine ⟨fmtNat h ++ ['H'], fmtNat m ++ 'M' :: (if s ≠ 0 then fmtNat s ++ ['S'] else []),
          (List.append_assoc _ ['H'] _).symm, Unit_fmtNat _ _, ?_⟩
        by_cases hs : s = 0
        · have hm : m ≠ 0 := by omega
          exact hmin hm
        · rw [if_pos hs]
          right
          exact ⟨fmtNat m ++ ['M'], fmtNat s ++ ['S'], by simp, Unit_fmtNat _ _, Unit_fmtNat _ _⟩
      · rw [if_neg hms]
        left
        exact ⟨Unit_fmtNat _ _, by omega, by omega⟩
  by_cases hw : w = 0
  · subst hw
    have h00 : ¬ ((0 : Nat) ≠ 0) := by simp
    simp only [if_neg h00]
    by_cases hd : dd = 0
    · subst hd
      right; left
      rw [if_pos (Or.inl rfl)]
      exact ⟨htime, trivial, rfl⟩
    · rw [if_pos hd]
      left
      refine ⟨?_, trivial⟩
      by_cases hr : h ≠ 0 ∨ m ≠ 0 ∨ s ≠ 0
      · rw [if_pos (Or.inr hr)]
        right
        exact ⟨_, _, rfl, Unit_fmtNat _ _, htime⟩
      · rw [if_neg (by simp only [hd, false_or]; exact hr)]
        left
        rw [List.append_nil]
        exact ⟨Unit_fmtNat _ _, by omega, by omega, by omega⟩
  · rw [if_pos hw, if_pos hw]
    right; right
    exact ⟨Unit_fmtNat _ _, rfl, rfl, rfl, rfl⟩

theorem Duration.kept_neg (d : Duration) : d.kept.neg = d.neg := by
  unfold Duration.kept
  split <;> rfl

theorem Duration.encode_rfc (d : Duration) : RfcDuration (Duration.encode d) d.kept := by
  refine ⟨d.body, Duration.body_rfc d, ?_⟩
  rw [Duration.kept_neg]
  unfold Duration.encode
  cases d.neg with
  | true => left; exact ⟨rfl, rfl⟩
  | false => right; exact ⟨rfl, Or.inl rfl⟩

theorem Duration.kept_WF {d : Duration} (h : d.WF) : d.kept.WF := by
  unfold Duration.kept
  split
  · exact ⟨h.weeks, by simp, by simp, by simp, by simp⟩
  · exact h

/-- General round trip. -/
theorem Duration.decode_encode (d : Duration) (h : d.WF) : Duration.decode (Duration.encode d) = .ok d.kept :=
  Duration.decode_rfc (Duration.encode_rfc d) (Duration.kept_WF h)

theorem Duration.loop_ne_panic : ∀ (f l : Nat) (d : Duration) (s : Str), Duration.loop f l d s ≠ .panic := by
  intro f
  induction f with
  | zero => intro l d s; simp [Duration.loop]
  | succ f ih =>
    intro l d s
    rw [Duration.loop]
    dsimp only
    repeat' split
    all_goals first | exact ih _ _ _ | simp

theorem Duration.decode_ne_panic (s : Str) : Duration.decode s ≠ .panic := by
  unfold Duration.decode
  dsimp only
  split
  · exact Duration.loop_ne_panic _ _ _ _
  · simp

/-! ## What the decoder accepts -/

/-- The result of the loop comes from a list of items. -/
structure FromItems (s : Str) (d d' : Duration) (is : List DurItem) : Prop where
  text : s = is.flatMap DurItem.print
  units : ∀ i ∈ is, i.unit ∈ ['W', 'D', 'H', 'M', 'S']
  range : ∀ i ∈ is, i.n < 2 ^ 64
  neg : d'.neg = d.neg
  weeks : d'.weeks = lastOf 'W' d.weeks is
  days : d'.days = lastOf 'D' d.days is
  hours : d'.hours = lastOf 'H' d.hours is
  minutes : d'.minutes = lastOf 'M' d.minutes is
  seconds : d'.seconds = lastOf 'S' d.seconds is

theorem head_tail {s : Str} {c : Char} (h : s.head? = some c) : s = c :: s.tail := by
  cases s with
  | nil => simp at h
  | cons x s => simp at h; simp [h]

theorem Duration.loop_items : ∀ (f l : Nat) (d d' : Duration) (s : Str), Duration.loop f l d s = .ok d' →
    ∃ is, FromItems s d d' is ∧ (is = [] → l ≠ 0) := by
  intro f
  induction f with
  | zero => intro l d d' s h; simp [Duration.loop] at h
  | succ f ih =>
    intro l d d' s h
    rw [Duration.loop] at h
    dsimp only at h
    split at h
    · next hs =>
      split at h
      · cases h
      · next hl =>
        injection h with h
        subst h
        exact ⟨[], ⟨by simpa using hs, by simp, by simp, rfl, rfl, rfl, rfl, rfl, rfl⟩, fun _ => hl⟩
    · split at h
      · cases h
      · next n hn =>
        obtain ⟨hdec, hlt⟩ := Dec_parseUint hn
        have hs : s = (if s.head? = some 'T' then ['T'] else []) ++
            (if s.head? = some 'T' then s.tail else s) := by
          by_cases ht : s.head? = some 'T'
          · rw [if_pos ht, if_pos ht]; exact head_tail ht
          · rw [if_neg ht, if_neg ht]; rfl
        have hs2 := takeWhile_dropWhile isDigit (if s.head? = some 'T' then s.tail else s)
        generalize (if s.head? = some 'T' then 1 else l) = l' at h
        generalize hds : (if s.head? = some 'T' then s.tail else s).takeWhile isDigit = ds at *
        generalize hr : (if s.head? = some 'T' then s.tail else s).dropWhile isDigit = rr at *
        have text : ∀ u r, rr = u :: r → s = (DurItem.mk (s.head? = some 'T') n u ds hdec).print ++ r := by
          intro u r hur
          rw [hs2, hur] at hs
          simpa [DurItem.print] using hs
        have mk : ∀ (u : Char) (r : Str) (l2 : Nat) (d1 : Duration), rr = u :: r → u ∈ ['W', 'D', 'H', 'M', 'S'] →
            d1.neg = d.neg → d1.weeks = (if u = 'W' then n else d.weeks) → d1.days = (if u = 'D' then n else d.days) →
            d1.hours = (if u = 'H' then n else d.hours) → d1.minutes = (if u = 'M' then n else d.minutes) →
            d1.seconds = (if u = 'S' then n else d.seconds) →
            (∃ is, FromItems r d1 d' is ∧ (is = [] → l2 ≠ 0)) → ∃ is, FromItems s d d' is ∧ (is = [] → l ≠ 0) := by
          intro u r l2 d1 hur hu e0 e1 e2 e3 e4 e5 ⟨is, hi, _⟩
          refine ⟨DurItem.mk (s.head? = some 'T') n u ds hdec :: is, ⟨?_, ?_, ?_, ?_, ?_, ?_, ?_, ?_, ?_⟩, by simp⟩
          · rw [List.flatMap_cons, ← hi.text]; exact text u r hur
          · intro i hi'
            rcases List.mem_cons.1 hi' with rfl | hi'
            · exact hu
            · exact hi.units i hi'
          · intro i hi'
            rcases List.mem_cons.1 hi' with rfl | hi'
            · exact hlt
            · exact hi.range i hi'
          · rw [hi.neg, e0]
          · rw [hi.weeks, e1]; rfl
          · rw [hi.days, e2]; rfl
          · rw [hi.hours, e3]; rfl
          · rw [hi.minutes, e4]; rfl
          · rw [hi.seconds, e5]; rfl
        split at h
        · next r =>
          split at h
          · cases h
          split at h
          · cases h
          · next hr0 =>
            have hr0 : r = [] := by simpa using hr0
            injection h with h
            subst h
            exact mk 'W' r 1 { d with weeks := n } rfl (by simp) rfl rfl rfl rfl rfl rfl
              ⟨[], ⟨by simp [hr0], by simp, by simp, rfl, rfl, rfl, rfl, rfl, rfl⟩, by simp⟩
        · next r =>
          split at h
          · cases h
          · exact mk 'D' r _ { d with days := n } rfl (by simp) rfl rfl rfl rfl rfl rfl (ih _ _ _ _ h)
        · next r =>
          split at h
          · cases h
          · exact mk 'H' r _ { d with hours := n } rfl (by simp) rfl rfl rfl rfl rfl rfl (ih _ _ _ _ h)
        · next r =>
          split at h
          · cases h
          · exact mk 'M' r _ { d with minutes := n } rfl (by simp) rfl rfl rfl rfl rfl rfl (ih _ _ _ _ h)
        · next r =>
          split at h
          · cases h
          split at h
          · cases h
          · exact mk 'S' r _ { d with seconds := n } rfl (by simp) rfl rfl rfl rfl rfl rfl (ih _ _ _ _ h)
        · cases h

theorem Duration.decode_items {s : Str} {d : Duration} (h : Duration.decode s = .ok d) :
    ∃ sign is, s = sign ++ 'P' :: is.flatMap DurItem.print ∧ is ≠ [] ∧
      FromItems (is.flatMap DurItem.print) { neg := d.neg } d is ∧
      ((sign = ['-'] ∧ d.neg = true) ∨ ((sign = [] ∨ sign = ['+']) ∧ d.neg = false)) := by
  unfold Duration.decode at h
  dsimp only at h
  have hs : s = (if s.head? = some '-' then ['-'] else if s.head? = some '+' then ['+'] else []) ++
      (if s.head? = some '-' ∨ s.head? = some '+' then s.tail else s) := by
    by_cases h1 : s.head? = some '-'
    · rw [if_pos h1, if_pos (Or.inl h1)]; exact head_tail h1
    · by_cases h2 : s.head? = some '+'
      · rw [if_neg h1, if_pos h2, if_pos (Or.inr h2)]; exact head_tail h2
      · rw [if_neg h1, if_neg h2, if_neg (by simp [h1, h2])]; rfl
  split at h
  · next r hr =>
    obtain ⟨is, hi, hne⟩ := Duration.loop_items _ _ _ _ _ h
    refine ⟨if s.head? = some '-' then ['-'] else if s.head? = some '+' then ['+'] else [], is, ?_, ?_, ?_, ?_⟩
    · rw [← hi.text, ← hr]; exact hs
    · intro hn; exact hne hn rfl
    · have hneg := hi.neg
      rw [← hi.text]
      dsimp only at hneg
      rw [hneg]
      exact hi
    · have hneg := hi.neg
      dsimp only at hneg
      by_cases h1 : s.head? = some '-'
      · left; rw [if_pos h1]; simpa [h1] using hneg
      · right
        rw [if_neg h1]
        refine ⟨?_, by simpa [h1] using hneg⟩
        split
        · right; rfl
        · left; rfl
  · cases h

end Ics
