import Verif.Time
import Verif.Spec.Time
import Verif.ScalarLemmas
/-!
# Lemmas about dates and times
-/

namespace Ics

open Spec

theorem isLeap_iff (y : Int) : isLeap y = true ↔ LeapYear y := by
  unfold isLeap LeapYear
  simp only [Bool.and_eq_true, Bool.or_eq_true, beq_iff_eq, bne_iff_ne, ne_eq]
  omega

theorem daysIn_eq (y : Int) (m : Nat) : daysIn (isLeap y) m = monthLen y m := by
  unfold daysIn monthLen
  have := isLeap_iff y
  by_cases h : isLeap y = true
  · have hl := this.1 h
    rw [h]
    split <;> simp_all
  · have hl : ¬ LeapYear y := fun hh => h (this.2 hh)
    rw [Bool.not_eq_true] at h
    rw [h]
    split <;> simp_all

theorem RealDate_iff (y : Int) (m d : Nat) : RealDate y m d ↔ IsDate y m d := by
  unfold RealDate IsDate
  rw [daysIn_eq]

theorem nextDay_spec {y : Int} {m d : Nat} (h : RealDate y m d) :
    RealDate (nextDay (y, m, d)).1 (nextDay (y, m, d)).2.1 (nextDay (y, m, d)).2.2 ∧
    dayNumber (nextDay (y, m, d)).1 (nextDay (y, m, d)).2.1 (nextDay (y, m, d)).2.2 = dayNumber y m d + 1 := by
  obtain ⟨h1, h2, h3, h4⟩ := h
  have keyM : ∀ (l : Bool) (m : Fin 12), 1 ≤ m.1 → daysBeforeMonth l (m.1 + 1) = daysBeforeMonth l m.1 + daysIn l m.1 ∧
      1 ≤ daysIn l (m.1 + 1) := by decide
  unfold nextDay
  dsimp only
  rw [← daysIn_eq]
  by_cases hd : d < daysIn (isLeap y) m
  · simp only [if_pos hd]
    refine ⟨⟨h1, h2, by omega, by omega⟩, ?_⟩
    unfold dayNumber; omega
  · simp only [if_neg hd]
    by_cases hm : m < 12
    · simp only [if_pos hm]
      obtain ⟨k1, k2⟩ := keyM (isLeap y) ⟨m, hm⟩ h1
      simp only at k1 k2
      refine ⟨⟨by omega, by omega, by omega, k2⟩, ?_⟩
      unfold dayNumber
      rw [k1]
      omega
    · simp only [if_neg hm]
      have : m = 12 := by omega
      subst this
      refine ⟨⟨by omega, by omega, by omega, by simp [daysIn]⟩, ?_⟩
      unfold dayNumber
      rw [daysBeforeYear_succ]
      have e : daysIn (isLeap y) 12 = 31 := rfl
      rw [e] at hd h4
      simp only [daysBeforeMonth]
      split <;> simp <;> omega

theorem civil_succ (n : Int) : civil (n + 1) = nextDay (civil n) := by
  obtain ⟨h1, h2⟩ := civil_real n
  obtain ⟨h3, h4⟩ := nextDay_spec h1
  have := civil_dayNumber h3
  rw [h4, h2] at this
  exact this

theorem civil_zero : civil 0 = (1, 1, 1) := by decide

/-! ## Numbers -/

theorem takeNum_iff (n : Nat) (hn : 0 < n) (s : Str) (v : Nat) (r : Str) :
    takeNum n s = some (v, r) ↔ ∃ a, Dec a v ∧ a.length = n ∧ s = a ++ r := by
  constructor
  · intro h
    unfold takeNum at h
    split at h
    · next hc =>
      injection h with h
      injection h with h1 h2
      refine ⟨s.take n, ?_, hc.1, ?_⟩
      · rw [← h1]
        refine Dec_of _ _ (Nat.le_refl _) ?_ hc.2
        intro he
        rw [he] at hc
        simp at hc
        omega
      · rw [← h2, List.take_append_drop]
    · cases h
  · rintro ⟨a, hd, hl, rfl⟩
    obtain ⟨_, f2, f3⟩ := Dec_facts hd
    unfold takeNum
    have ht : (a ++ r).take n = a := by rw [← hl]; simp
    have hdr : (a ++ r).drop n = r := by rw [← hl]; simp
    rw [ht, hdr, if_pos ⟨hl, f2⟩, f3]

theorem Four_pad4 {n : Nat} (h : n < 10000) : Four (pad4 n) n := by
  unfold pad4
  rw [if_pos h]
  have h1 := digitChar_isDigit (n := n / 100 / 10) (by omega)
  have h2 := digitChar_isDigit (n := n / 100 % 10) (by omega)
  have h3 := digitChar_isDigit (n := n % 100 / 10) (by omega)
  have h4 := digitChar_isDigit (n := n % 100 % 10) (by omega)
  have v1 := digitVal_digitChar (n := n / 100 / 10) (by omega)
  have v2 := digitVal_digitChar (n := n / 100 % 10) (by omega)
  have v3 := digitVal_digitChar (n := n % 100 / 10) (by omega)
  have v4 := digitVal_digitChar (n := n % 100 % 10) (by omega)
  rw [digitChar] at h1 h2 h3 h4 v1 v2 v3 v4
  refine ⟨?_, rfl⟩
  have := Dec_of (dd (n / 100) ++ dd (n % 100)) _ (Nat.le_refl _) (by simp [dd]) (by
    rw [List.all_eq_true]
    intro x hx
    simp only [dd, List.cons_append, List.nil_append, List.mem_cons, List.not_mem_nil, or_false] at hx
    rcases hx with rfl | rfl | rfl | rfl <;> assumption)
  have e : digitsVal 0 (dd (n / 100) ++ dd (n % 100)) = n := by
    simp only [dd, List.cons_append, List.nil_append, digitsVal_cons, digitsVal_nil, v1, v2, v3, v4]
    omega
  rwa [e] at this

/-! ## Dates -/

theorem option_bind_eq_some {α β : Type} {x : Option α} {f : α → Option β} {b : β} :
    (x >>= f) = some b ↔ ∃ a, x = some a ∧ f a = some b := by
  cases x <;> simp

theorem parseDate8_iff (s : Str) (n : Int) (r : Str) :
    parseDate8 s = some (n, r) ↔ ∃ a y m d, s = a ++ r ∧ DateText a y m d ∧ n = dayNumber y m d := by
  constructor
  · intro h
    unfold parseDate8 at h
    obtain ⟨⟨y, s1⟩, e1, k1⟩ := option_bind_eq_some.1 h
    obtain ⟨⟨m, s2⟩, e2, k2⟩ := option_bind_eq_some.1 k1
    obtain ⟨⟨d, s3⟩, e3, k3⟩ := option_bind_eq_some.1 k2
    clear h k1 k2
    obtain ⟨a, ha, la, rfl⟩ := (takeNum_iff 4 (by omega) _ _ _).1 e1
    obtain ⟨b, hb, lb, e⟩ := (takeNum_iff 2 (by omega) _ _ _).1 e2
    have e := e; subst e
    obtain ⟨c, hc, lc, e⟩ := (takeNum_iff 2 (by omega) _ _ _).1 e3
    have e := e; subst e
    dsimp only at k3
    split at k3
    · next hr =>
      injection k3 with h
      injection h with h1 h2
      subst h2
      exact ⟨a ++ b ++ c, y, m, d, by simp, ⟨a, b, c, rfl, ⟨ha, la⟩, ⟨hb, lb⟩, ⟨hc, lc⟩, (RealDate_iff _ _ _).1 hr⟩, h1.symm⟩
    · cases k3
  · rintro ⟨x, y, m, d, rfl, ⟨a, b, c, rfl, ha, hb, hc, hr⟩, rfl⟩
    unfold parseDate8
    rw [(takeNum_iff 4 (by omega) (a ++ b ++ c ++ r) y (b ++ c ++ r)).2 ⟨a, ha.1, ha.2, by simp⟩]
    simp only [bind, Option.bind]
    rw [(takeNum_iff 2 (by omega) (b ++ c ++ r) m (c ++ r)).2 ⟨b, hb.1, hb.2, by simp⟩]
    simp only
    rw [(takeNum_iff 2 (by omega) (c ++ r) d r).2 ⟨c, hc.1, hc.2, rfl⟩]
    simp only
    exact if_pos ((RealDate_iff _ _ _).2 hr)

/-- The year of a wall clock reading. -/
def yearOfWall (w : Int) : Int := (civil (w / 86400)).1

theorem fmtDate8_text (n : Int) (h1 : 0 ≤ (civil n).1) (h2 : (civil n).1 ≤ 9999) :
    DateText (fmtDate8 n) (civil n).1.toNat (civil n).2.1 (civil n).2.2 ∧
      n = dayNumber ((civil n).1.toNat : Int) (civil n).2.1 (civil n).2.2 := by
  obtain ⟨hr, hn⟩ := civil_real n
  unfold fmtDate8
  generalize civil n = cv at *
  obtain ⟨y, m, d⟩ := cv
  dsimp only at *
  have he : (y.toNat : Int) = y := by omega
  rw [he]
  refine ⟨?_, hn.symm⟩
  refine ⟨_, _, _, rfl, ?_, ?_, ?_, ?_⟩
  · unfold fmtYear
    rw [if_neg (by omega), List.nil_append]
    have := Four_pad4 (n := y.natAbs) (by omega)
    rwa [show y.natAbs = y.toNat by omega] at this ⊢
  · exact Two_dd (by have := hr.2.1; omega)
  · have hd := hr.2.2.2
    refine Two_dd ?_
    rw [daysIn_eq] at hd
    unfold monthLen at hd
    repeat' split at hd
    all_goals omega
  · rw [he]; exact (RealDate_iff _ _ _).1 hr

theorem parseDate8_fmt (n : Int) (r : Str) (h1 : 0 ≤ (civil n).1) (h2 : (civil n).1 ≤ 9999) :
    parseDate8 (fmtDate8 n ++ r) = some (n, r) := by
  obtain ⟨h3, h4⟩ := fmtDate8_text n h1 h2
  exact (parseDate8_iff _ _ _).2 ⟨_, _, _, _, rfl, h3, h4⟩

/-! ## Clock -/

theorem parseFrac_plain (s : Str) (h : ∀ c ∈ s.head?, c ≠ '.' ∧ c ≠ ',') : parseFrac s = (0, s) := by
  unfold parseFrac
  split
  · next c d r =>
    have := h c (by simp)
    rw [if_neg (by simp [this])]
  · rfl

theorem dec_char_digit {x : Char} : isDigit x = true ↔ 48 ≤ x.toNat ∧ x.toNat ≤ 57 := isDigit_iff x

theorem parseFrac_inv {s : Str} {ns : Nat} {r : Str} (h : parseFrac s = (ns, r)) :
    ∃ f, s = f ++ r ∧ FracText f ns := by
  unfold parseFrac at h
  split at h
  · next c d r' =>
    split at h
    · next hc =>
      injection h with h1 h2
      have hs := takeWhile_dropWhile isDigit (d :: r')
      have ha := takeWhile_all isDigit (d :: r')
      have hne : (d :: r').takeWhile isDigit ≠ [] := by
        rw [List.takeWhile_cons, if_pos hc.2]; simp
      generalize hds : (d :: r').takeWhile isDigit = ds at *
      refine ⟨c :: ds, ?_, Or.inr ⟨c, ds.take 9, ds.drop 9, _, ?_, hc.1, ?_, ?_, ?_, ?_, h1.symm⟩⟩
      · rw [← h2, List.cons_append, ← hs]
      · rw [List.take_append_drop]
      · refine Dec_of _ _ (Nat.le_refl _) ?_ ?_
        · cases ds with
          | nil => exact absurd rfl hne
          | cons x ds => simp
        · rw [List.all_eq_true]
          intro x hx
          exact ha x (List.mem_of_mem_take hx)
      · intro x hx
        exact dec_char_digit.1 (ha x (List.mem_of_mem_drop hx))
      · rw [List.length_take]; omega
      · intro hb
        rw [List.length_take]
        have : 0 < (ds.drop 9).length := List.length_pos_iff.2 hb
        rw [List.length_drop] at this
        omega
    · injection h with h1 h2
      exact ⟨[], by simpa using h2, Or.inl ⟨rfl, h1.symm⟩⟩
  · injection h with h1 h2
    exact ⟨[], by simpa using h2, Or.inl ⟨rfl, h1.symm⟩⟩

theorem parseFrac_text {f : Str} {ns : Nat} (h : FracText f ns) (r : Str)
    (hr : ∀ c ∈ r.head?, isDigit c = false ∧ c ≠ '.' ∧ c ≠ ',') : parseFrac (f ++ r) = (ns, r) := by
  rcases h with ⟨rfl, rfl⟩ | ⟨c, a, b, v, rfl, hc, hd, hb, hl, hl9, rfl⟩
  · exact parseFrac_plain _ (fun c hc => (hr c hc).2)
  · obtain ⟨f1, f2, f3⟩ := Dec_facts hd
    have hall : ∀ x ∈ a ++ b, isDigit x = true := by
      intro x hx
      rcases List.mem_append.1 hx with hx | hx
      · exact (List.all_eq_true.1 f2) x hx
      · exact dec_char_digit.2 (hb x hx)
    obtain ⟨t1, t2⟩ := takeWhile_stop isDigit (a ++ b) r hall (fun x hx => (hr x hx).1)
    have htake : (a ++ b).take 9 = a := by
      by_cases hb0 : b = []
      · subst hb0; rw [List.append_nil, List.take_of_length_le hl]
      · rw [← hl9 hb0]; simp
    cases a with
    | nil => exact absurd rfl f1
    | cons x a =>
      have hx := hall x (by simp)
      simp only [List.cons_append] at t1 t2 htake ⊢
      unfold parseFrac
      simp only
      rw [if_pos ⟨hc, hx⟩, t1, t2, htake, f3]

theorem parseClock_iff (s : Str) (c ns : Nat) (r : Str) : parseClock s = some (c, ns, r) ↔
    ∃ a h m sec s', s = a ++ s' ∧ ClockText a h m sec ∧ c = 3600 * h + 60 * m + sec ∧ parseFrac s' = (ns, r) := by
  constructor
  · intro h
    unfold parseClock at h
    obtain ⟨⟨h', s1⟩, e1, k1⟩ := option_bind_eq_some.1 h
    obtain ⟨⟨m, s2⟩, e2, k2⟩ := option_bind_eq_some.1 k1
    obtain ⟨⟨sec, s3⟩, e3, k3⟩ := option_bind_eq_some.1 k2
    clear h k1 k2
    obtain ⟨a, ha, la, rfl⟩ := (takeNum_iff 2 (by omega) _ _ _).1 e1
    obtain ⟨b, hb, lb, e⟩ := (takeNum_iff 2 (by omega) _ _ _).1 e2
    have e := e; subst e
    obtain ⟨c', hc, lc, e⟩ := (takeNum_iff 2 (by omega) _ _ _).1 e3
    have e := e; subst e
    dsimp only at k3
    split at k3
    · next hr =>
      injection k3 with h
      injection h with h1 h2
      injection h2 with h2 h3
      refine ⟨a ++ b ++ c', h', m, sec, s3, by simp, ⟨a, b, c', rfl, ⟨ha, la⟩, ⟨hb, lb⟩, ⟨hc, lc⟩, hr⟩, h1.symm, ?_⟩
      rw [← h2, ← h3]
    · cases k3
  · rintro ⟨x, h, m, sec, s', rfl, ⟨a, b, c', rfl, ha, hb, hc, hr⟩, rfl, hf⟩
    unfold parseClock
    rw [(takeNum_iff 2 (by omega) (a ++ b ++ c' ++ s') h (b ++ c' ++ s')).2 ⟨a, ha.1, ha.2, by simp⟩]
    simp only [bind, Option.bind]
    rw [(takeNum_iff 2 (by omega) (b ++ c' ++ s') m (c' ++ s')).2 ⟨b, hb.1, hb.2, by simp⟩]
    simp only
    rw [(takeNum_iff 2 (by omega) (c' ++ s') sec s').2 ⟨c', hc.1, hc.2, rfl⟩]
    simp only
    rw [if_pos hr, hf]

theorem fmtClock_text (c : Nat) (h : c < 86400) : ClockText (fmtClock c) (c / 3600) (c / 60 % 60) (c % 60) :=
  ⟨_, _, _, rfl, Two_dd (by omega), Two_dd (by omega), Two_dd (by omega), by omega, by omega, by omega⟩

theorem parseClock_fmt (c : Nat) (h : c < 86400) (r : Str) (hr : ∀ x ∈ r.head?, x ≠ '.' ∧ x ≠ ',') :
    parseClock (fmtClock c ++ r) = some (c, 0, r) :=
  (parseClock_iff _ _ _ _).2 ⟨_, _, _, _, r, rfl, fmtClock_text c h, by omega, parseFrac_plain r hr⟩

/-! ## DateTime -/

theorem parseDateTime_fmt (E : Env) (z : Bool) (l : Loc) (w : Int) (h1 : 0 ≤ yearOfWall w) (h2 : yearOfWall w ≤ 9999) :
    parseDateTime E z l (fmtDate8 (w / 86400) ++ 'T' :: fmtClock (w % 86400).toNat ++ (if z then ['Z'] else [])) =
      some ⟨instant E l w, 0, l⟩ := by
  unfold parseDateTime
  rw [List.append_assoc, parseDate8_fmt _ _ h1 h2]
  simp only [List.cons_append]
  rw [parseClock_fmt _ (by omega) _ (by cases z <;> simp)]
  simp only [if_true]
  rw [show w / 86400 * 86400 + (((w % 86400).toNat : Nat) : Int) = w by omega]

theorem fmtClock_last (p : Str) (c : Nat) : (p ++ 'T' :: fmtClock c).getLast? ≠ some 'Z' := by
  unfold fmtClock dd
  simp only [List.getLast?_append, List.getLast?_cons]
  simp
  have h1 := digitChar_isDigit (n := c % 10) (by omega)
  rw [digitChar] at h1
  intro he
  rw [he] at h1
  exact absurd h1 (by decide)

/-- The TZID parameter under which a location is written. -/
def tzidOf : Loc → Option Str
  | .utc => none
  | .local => none
  | .zone name _ _ => some name

/-- The location can be loaded again under its name. -/
def LocOk (E : Env) : Loc → Prop
  | .zone name _ r => name ≠ [] ∧ name ≠ c!"UTC" ∧ name ≠ c!"Local" ∧ E.loadZone name = some r
  | _ => True

def Loc.withPtr (p : Nat) : Loc → Loc
  | .zone name _ r => .zone name p r
  | l => l

theorem locOff_withPtr (E : Env) (p : Nat) (l : Loc) (t : Int) : locOff E (l.withPtr p) t = locOff E l t := by
  cases l <;> rfl

theorem instant_withPtr (E : Env) (p : Nat) (l : Loc) (w : Int) : instant E (l.withPtr p) w = instant E l w := by
  unfold instant
  simp only [locOff_withPtr]

theorem DateTime.decode_encode (E : Env) (p : Nat) (t : GoTime) (h0 : t.nsec = 0) (h1 : 0 ≤ yearOfWall (t.wall E))
    (h2 : yearOfWall (t.wall E) ≤ 9999) (h3 : LocOk E t.loc) (h4 : instant E t.loc (t.wall E) = t.sec) :
    DateTime.decode E p (tzidOf t.loc) (DateTime.encode E t) = .ok { t with loc := t.loc.withPtr p } := by
  obtain ⟨sec, nsec, loc⟩ := t
  simp only at h0 h3 h4
  subst h0
  unfold DateTime.encode
  cases loc with
  | utc =>
    have := parseDateTime_fmt E true .utc (GoTime.wall E ⟨sec, 0, .utc⟩) h1 h2
    rw [h4] at this
    simp only [if_true] at this ⊢
    simp only [tzidOf, DateTime.decode]
    rw [if_pos (List.getLast?_concat ..), this]
    rfl
  | «local» =>
    have := parseDateTime_fmt E false .local (GoTime.wall E ⟨sec, 0, .local⟩) h1 h2
    rw [h4] at this
    simp only [Bool.false_eq_true, if_false, List.append_nil] at this
    rw [if_neg (by simp), List.append_nil]
    simp only [tzidOf, DateTime.decode]
    rw [if_neg (fmtClock_last _ _), this]
    rfl
  | zone name ptr r =>
    obtain ⟨n1, n2, n3, n4⟩ := h3
    have := parseDateTime_fmt E false (.zone name p r) (GoTime.wall E ⟨sec, 0, .zone name ptr r⟩) h1 h2
    have hi : instant E (.zone name p r) (GoTime.wall E ⟨sec, 0, .zone name ptr r⟩) = sec := by
      exact Eq.trans (instant_withPtr E p (.zone name ptr r) _) h4
    rw [hi] at this
    simp only [Bool.false_eq_true, if_false, List.append_nil] at this
    rw [if_neg (by simp), List.append_nil]
    simp only [tzidOf, DateTime.decode, loadLocation]
    rw [if_neg (by simp [n1, n2]), if_neg n3, n4]
    simp only [Option.map_some, Res.ofOption_some, Res.ok_bind, this]
    rfl

theorem Date.decode_encode (E : Env) (t : GoTime) (h0 : t.nsec = 0) (hl : t.loc = .utc) (hm : t.sec % 86400 = 0)
    (h1 : 0 ≤ yearOfWall t.sec) (h2 : yearOfWall t.sec ≤ 9999) : Date.decode (Date.encode E t) = .ok t := by
  obtain ⟨sec, nsec, loc⟩ := t
  simp only at h0 hl hm h1 h2
  subst h0; subst hl
  have hw : GoTime.wall E ⟨sec, 0, .utc⟩ = sec := by simp [GoTime.wall, locOff]
  unfold Date.encode Date.decode parseDate
  rw [hw]
  have := parseDate8_fmt (sec / 86400) [] h1 h2
  rw [List.append_nil] at this
  rw [this]
  simp only [Res.ofOption_some]
  rw [show sec / 86400 * 86400 = sec by omega]

/-- The offset at the reading taken as UTC being the offset at the instant is enough for the instant to be found again. -/
theorem instant_of_const (E : Env) (l : Loc) (t : Int) (h : locOff E l (t + locOff E l t) = locOff E l t) :
    instant E l (t + locOff E l t) = t := by
  unfold instant
  dsimp only
  rw [h]
  split
  · omega
  · rw [show t + locOff E l t - locOff E l t = t by omega]; omega

end Ics
