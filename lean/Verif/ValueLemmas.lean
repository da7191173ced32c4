import Verif.Value
import Verif.RecurRange
import Verif.Spec.ContentLine
import Verif.TokeniserLemmas
/-!
# Lemmas about values: round trip, characters, panics
-/

namespace Ics

open Spec

@[simp] theorem Res.map_ok {α β : Type} (f : α → β) (a : α) : f <$> (Res.ok a) = .ok (f a) := rfl
@[simp] theorem Res.map_err {α β : Type} (f : α → β) (e : Err) : f <$> (Res.err e : Res α) = .err e := rfl
@[simp] theorem Res.map_panic {α β : Type} (f : α → β) : f <$> (Res.panic : Res α) = .panic := rfl

theorem Res.map_eq_ok {α β : Type} {f : α → β} {x : Res α} {b : β} : f <$> x = .ok b ↔ ∃ a, x = .ok a ∧ f a = b := by
  cases x <;> simp

theorem Res.map_eq_panic {α β : Type} {f : α → β} {x : Res α} : f <$> x = .panic ↔ x = .panic := by
  cases x <;> simp

theorem Res.map_eq_err {α β : Type} {f : α → β} {x : Res α} {e : Err} : f <$> x = .err e ↔ x = .err e := by
  cases x <;> simp

/-! ## The values that come back -/

/-- The times for which a date-time comes back (see C21). -/
structure TimeOk (E : Env) (t : GoTime) : Prop where
  nsec : t.nsec = 0
  lo : 0 ≤ yearOfWall (t.wall E)
  hi : yearOfWall (t.wall E) ≤ 9999
  loc : LocOk E t.loc
  found : instant E t.loc (t.wall E) = t.sec

/-- The times for which a date comes back. -/
structure DateOk (t : GoTime) : Prop where
  nsec : t.nsec = 0
  loc : t.loc = .utc
  midnight : t.sec % 86400 = 0
  lo : 0 ≤ yearOfWall t.sec
  hi : yearOfWall t.sec ≤ 9999

/-- The periods that come back: a start and, in the same location, an end, or a duration with weeks or the other units. -/
structure PeriodOk (E : Env) (p : Period) : Prop where
  start : TimeOk E p.start
  withDur : p.stop.isZero = true → p.stop = {} ∧ p.dur.WF ∧ p.dur.kept = p.dur ∧ p.dur.neg = false
  withEnd : p.stop.isZero = false → p.dur = {} ∧ TimeOk E p.stop ∧ tzidOf p.stop.loc = tzidOf p.start.loc

/-- URLs that `url.Parse` reads back from their string, and whose string has no control characters. -/
structure UrlOk (E : Env) (u : Url) : Prop where
  parse : E.urlParse (E.urlString u) = some u
  chars : ∀ c ∈ E.urlString u, NoCtl c

/-- Floats that `strconv.ParseFloat` reads back, written with digits, signs, points and letters only. -/
structure FloatOk (E : Env) (f : UInt64) : Prop where
  parse : E.floatParse (E.floatFormat f) = some f
  chars : ∀ c ∈ E.floatFormat f, NoCtl c ∧ c ≠ ';'

def GoTime.withPtr (p : Nat) (t : GoTime) : GoTime := { t with loc := t.loc.withPtr p }

def Period.norm (p : Period) : Period := { p with start := p.start.withPtr 0, stop := p.stop.withPtr 1 }

/-- What comes back: the same with the identities of freshly loaded locations. -/
def Val.norm : Val → Val
  | .dateTime t => .dateTime (t.withPtr 0)
  | .period p => .period p.norm
  | .recur r => .recur (r.withPtr 0)
  | v => v

/-- The class of values that come back. -/
def ValOk (E : Env) : Val → Prop
  | .binary _ => True
  | .boolean _ => True
  | .calAddress u => UrlOk E u
  | .date t => DateOk t
  | .dateTime t => TimeOk E t
  | .duration d => d.WF ∧ d.kept = d
  | .integer i => -(2 ^ 31 : Int) ≤ i ∧ i < 2 ^ 31
  | .mtext ts => ts ≠ []
  | .period p => PeriodOk E p
  | .recur r => RecurInRange r ∧ UntilOk E r
  | .text _ => True
  | .tfloat t => FloatOk E t.1 ∧ FloatOk E t.2
  | .uri u => UrlOk E u
  | .utcOffset o => o.natAbs < 360000

/-- The parameters a value needs to be decoded with. -/
def Val.tzid : Val → Option Str
  | .dateTime t => tzidOf t.loc
  | .period p => tzidOf p.start.loc
  | .recur r => tzidOf r.until_.loc
  | _ => none

theorem Period.decode_encode (E : Env) (q : Nat) (p : Period) (h : PeriodOk E p) :
    Period.decode E q (tzidOf p.start.loc) (Period.encode E p) =
      .ok { p with start := p.start.withPtr q, stop := p.stop.withPtr (q + 1) } := by
  obtain ⟨hs, hd, he⟩ := h
  have hst := DateTime.decode_encode E q p.start hs.nsec hs.lo hs.hi hs.loc hs.found
  have hns : '/' ∉ DateTime.encode E p.start := by
    intro hm
    exact timeChar_ne (DateTime.encode_mem hm) (d := '/') (by decide) (by decide) (by decide) (by decide) rfl
  unfold Period.encode Period.decode
  rw [split2_append '/' _ _ hns]
  cases hz : p.stop.isZero with
  | true =>
    obtain ⟨h1, h2, h3, h4⟩ := hd hz
    have hdd := Duration.decode_encode p.dur h2
    rw [h3] at hdd
    simp only [if_true]
    have hP : Duration.encode p.dur = 'P' :: p.dur.body := by simp [Duration.encode, h4]
    rw [hP] at hdd ⊢
    simp only
    rw [hst, Res.ok_bind, if_pos (Or.inl trivial), hdd]
    simp only [Res.ok_bind, Res.pure_eq, h1]
    rfl
  | false =>
    obtain ⟨h1, h2, h3⟩ := he hz
    have hen := DateTime.decode_encode E (q + 1) p.stop h2.nsec h2.lo h2.hi h2.loc h2.found
    rw [h3] at hen
    simp only [Bool.false_eq_true, if_false]
    cases hc : DateTime.encode E p.stop with
    | nil =>
      have := DateTime.encode_length E p.stop h2.lo h2.hi
      rw [hc] at this
      simp at this
    | cons c b =>
      simp only
      have hm : timeChar c := DateTime.encode_mem (by rw [hc]; simp)
      have n1 : c ≠ '+' := timeChar_ne hm (by decide) (by decide) (by decide) (by decide)
      have n2 : c ≠ 'P' := timeChar_ne hm (by decide) (by decide) (by decide) (by decide)
      rw [hst, Res.ok_bind, if_neg (by simp [n1, n2]), ← hc, hen]
      simp only [Res.ok_bind, Res.pure_eq]
      rw [h1]
      rfl

theorem TFloat.decode_encode (E : Env) (t : UInt64 × UInt64) (h1 : FloatOk E t.1) (h2 : FloatOk E t.2) :
    TFloat.decode E (TFloat.encode E t) = .ok t := by
  unfold TFloat.decode TFloat.encode
  rw [split2_append ';' _ _ (fun hm => (h1.chars _ hm).2 rfl)]
  simp only [h1.parse, h2.parse, Res.ofOption_some, Res.ok_bind, Res.pure_eq]

theorem Val.decode_text (E : Env) (op : Str → Option Str) (v : Val) (h : ValOk E v) (ht : op c!"TZID" = v.tzid)
    (he : v.kind = .binary → op c!"ENCODING" = some c!"BASE64") : Val.decode E op v.kind (v.text_ E) = .ok v.norm := by
  cases v with
  | binary b =>
    simp only [Val.kind, Val.decode, Val.text_, he rfl, Option.getD_some, Binary.decode_encode, Res.map_ok, Val.norm]
  | boolean b => simp only [Val.kind, Val.decode, Val.text_, Boolean.decode_encode, Res.map_ok, Val.norm]
  | calAddress u => simp only [Val.kind, Val.decode, Val.text_, URI.decode, URI.encode, UrlOk.parse h, Res.ofOption_some, Res.map_ok, Val.norm]
  | date t =>
    have h : DateOk t := h
    simp only [Val.kind, Val.decode, Val.text_, Date.decode_encode E t h.nsec h.loc h.midnight h.lo h.hi, Res.map_ok, Val.norm]
  | dateTime t =>
    have h : TimeOk E t := h
    simp only [Val.kind, Val.decode, Val.text_, ht, Val.tzid, DateTime.decode_encode E 0 t h.nsec h.lo h.hi h.loc h.found, Res.map_ok, Val.norm, GoTime.withPtr]
  | duration d =>
    obtain ⟨h1, h2⟩ := h
    simp only [Val.kind, Val.decode, Val.text_, Duration.decode_encode d h1, h2, Res.map_ok, Val.norm]
  | integer i => simp only [Val.kind, Val.decode, Val.text_, Integer.decode_encode i h.1 h.2, Res.map_ok, Val.norm]
  | mtext ts => simp only [Val.kind, Val.decode, Val.text_, MText.decode_encode ts h, Res.map_ok, Val.norm]
  | period p =>
    simp only [Val.kind, Val.decode, Val.text_, ht, Val.tzid, Period.decode_encode E 0 p h, Res.map_ok, Val.norm]
    rfl
  | recur r => simp only [Val.kind, Val.decode, Val.text_, ht, Val.tzid, Recur.decode_encode E 0 r h.1 h.2, Res.map_ok, Val.norm]
  | text t => simp only [Val.kind, Val.decode, Val.text_, Text.decode_encode, Res.map_ok, Val.norm]
  | tfloat t => simp only [Val.kind, Val.decode, Val.text_, TFloat.decode_encode E t h.1 h.2, Res.map_ok, Val.norm]
  | uri u => simp only [Val.kind, Val.decode, Val.text_, URI.decode, URI.encode, UrlOk.parse h, Res.ofOption_some, Res.map_ok, Val.norm]
  | utcOffset o => simp only [Val.kind, Val.decode, Val.text_, UTCOffset.decode_encode o h, Res.map_ok, Val.norm]

/-! ## Characters -/

theorem NoCtl_of_range {c : Char} (h1 : 32 ≤ c.toNat) (h2 : c.toNat ≤ 126) : NoCtl c := Or.inl ⟨h1, by omega⟩

theorem NoCtl_digit {c : Char} (h : isDigit c = true) : NoCtl c := by
  have := dec_char_digit.1 h
  exact NoCtl_of_range (by omega) (by omega)

theorem NoCtl_time {c : Char} (h : timeChar c) : NoCtl c := by
  rcases h with h | rfl | rfl | rfl
  · exact NoCtl_digit h
  all_goals exact NoCtl_of_range (by decide) (by decide)

theorem NoCtl_part {c : Char} (h : partChar c) : NoCtl c := by
  rcases h with h | h | rfl | rfl | rfl
  · exact NoCtl_of_range (by omega) (by omega)
  · exact NoCtl_of_range (by omega) (by omega)
  all_goals exact NoCtl_of_range (by decide) (by decide)

theorem not_isCtl31 {c : Char} (h : isCtl31 c = false) (h2 : c ≠ '\n') : NoCtl c := by
  have h3 : c.toNat ≠ 10 := by
    intro e
    apply h2
    apply Char.ext
    apply UInt32.toNat_inj.1
    exact e
  unfold isCtl31 at h
  simp at h
  unfold NoCtl
  omega

theorem Text.valid_iff (t : Str) : Text.valid t = .ok () ↔ ∀ c ∈ t, isCtl31 c = false := by
  unfold Text.valid containsAny
  rw [Res.guard_eq_ok]
  simp

theorem Text.encode_NoCtl {t : Str} (h : Text.valid t = .ok ()) : ∀ c ∈ Text.encode t, NoCtl c := by
  intro c hc
  rcases Text.encode_mem hc with ⟨h1, h2⟩ | rfl | rfl
  · exact not_isCtl31 ((Text.valid_iff t).1 h c h1) h2
  all_goals exact NoCtl_of_range (by decide) (by decide)

theorem MText.valid_iff (ts : List Str) : MText.valid ts = .ok () ↔ ∀ t ∈ ts, Text.valid t = .ok () := by
  induction ts with
  | nil => simp [MText.valid]
  | cons t ts ih => rw [MText.valid, unit_bind_ok, ih]; simp

theorem MText.encode_NoCtl {ts : List Str} (h : MText.valid ts = .ok ()) : ∀ c ∈ MText.encode ts, NoCtl c := by
  intro c hc
  rcases mem_join hc with hc | ⟨w, hw, hc⟩
  · rw [List.mem_singleton] at hc; subst hc
    exact NoCtl_of_range (by decide) (by decide)
  · obtain ⟨t, ht, rfl⟩ := List.mem_map.1 hw
    exact Text.encode_NoCtl ((MText.valid_iff ts).1 h t ht) c hc

theorem NoCtl_fmtNat (n : Nat) : ∀ c ∈ fmtNat n, NoCtl c := fun _ h => NoCtl_digit (fmtNat_mem h)

theorem all_append {P : Char → Prop} {a b : Str} (h1 : ∀ c ∈ a, P c) (h2 : ∀ c ∈ b, P c) : ∀ c ∈ a ++ b, P c :=
  fun c hc => (List.mem_append.1 hc).elim (h1 c) (h2 c)

theorem all_cons {P : Char → Prop} {x : Char} {b : Str} (h1 : P x) (h2 : ∀ c ∈ b, P c) : ∀ c ∈ x :: b, P c :=
  fun c hc => (List.mem_cons.1 hc).elim (fun e => e ▸ h1) (h2 c)

theorem all_nil {P : Char → Prop} : ∀ c ∈ ([] : Str), P c := fun _ hc => nomatch hc

theorem all_ite {P : Char → Prop} {q : Prop} [Decidable q] {a b : Str} (h1 : ∀ c ∈ a, P c) (h2 : ∀ c ∈ b, P c) :
    ∀ c ∈ (if q then a else b), P c := by
  split
  · exact h1
  · exact h2

theorem Duration.encode_NoCtl (d : Duration) : ∀ c ∈ Duration.encode d, NoCtl c := by
  have u : ∀ {x : Char}, 32 ≤ x.toNat → x.toNat ≤ 126 → NoCtl x := NoCtl_of_range
  have f := NoCtl_fmtNat
  have fin : ∀ (n : Nat) (x : Char), NoCtl x → ∀ c ∈ fmtNat n ++ [x], NoCtl c :=
    fun n x hx => all_append (f n) (all_cons hx all_nil)
  have hS : NoCtl 'S' := u (by decide) (by decide)
  have hM : NoCtl 'M' := u (by decide) (by decide)
  have hH : NoCtl 'H' := u (by decide) (by decide)
  have hT : NoCtl 'T' := u (by decide) (by decide)
  have hW : NoCtl 'W' := u (by decide) (by decide)
  have hD : NoCtl 'D' := u (by decide) (by decide)
  have hP : NoCtl 'P' := u (by decide) (by decide)
  have hm : NoCtl '-' := u (by decide) (by decide)
  unfold Duration.encode Duration.body
  refine all_append (all_ite (all_cons hm all_nil) all_nil) (all_cons hP (all_ite (fin _ _ hW) (all_append (all_ite (fin _ _ hD) all_nil) (all_ite (all_cons hT ?_) all_nil))))
  exact all_ite (all_append (f _) (all_cons hH (all_ite (all_append (f _) (all_cons hM (all_ite (fin _ _ hS) all_nil))) all_nil)))
    (all_ite (all_append (f _) (all_cons hM (all_ite (fin _ _ hS) all_nil))) (fin _ _ hS))

theorem Period.encode_NoCtl (E : Env) (p : Period) : ∀ c ∈ Period.encode E p, NoCtl c := by
  intro c hc
  unfold Period.encode at hc
  rcases List.mem_append.1 hc with hc | hc
  · exact NoCtl_time (DateTime.encode_mem hc)
  · rcases List.mem_cons.1 hc with rfl | hc
    · exact NoCtl_of_range (by decide) (by decide)
    · split at hc
      · exact Duration.encode_NoCtl _ c hc
      · exact NoCtl_time (DateTime.encode_mem hc)

theorem Recur.encode_NoCtl (E : Env) (r : Recur) : ∀ c ∈ Recur.encode E r, NoCtl c := by
  intro c hc
  rcases Recur.encode_mem hc with h | rfl
  · exact NoCtl_part h
  · exact NoCtl_of_range (by decide) (by decide)

theorem UTCOffset.encode_NoCtl (u : Int) : ∀ c ∈ UTCOffset.encode u, NoCtl c := by
  intro c hc
  by_cases hu : u = -(2 ^ 63)
  · rw [hu, UTCOffset.encode_least] at hc
    have : ∀ c ∈ c!"-00F6H8", 32 ≤ c.toNat ∧ c.toNat ≤ 126 := by decide
    exact NoCtl_of_range (this c hc).1 (this c hc).2
  rw [UTCOffset.encode_of hu] at hc
  simp only [List.mem_append] at hc
  rcases hc with ((hc | hc) | hc) | hc
  · split at hc
    · rw [List.mem_singleton] at hc; subst hc; exact NoCtl_of_range (by decide) (by decide)
    · simp at hc
  · refine NoCtl_digit (dd_mem ?_ hc)
    generalize u.natAbs / 60 / 60 % 256 = k
    split <;> omega
  · exact NoCtl_digit (dd_mem (by omega) hc)
  · split at hc
    · exact NoCtl_digit (dd_mem (by omega) hc)
    · simp at hc

theorem Binary.encode_NoCtl (bs : Bytes) : ∀ c ∈ Binary.encode bs, NoCtl c := by
  intro c hc
  rcases b64Encode_mem _ bs (Nat.le_refl _) c hc with rfl | ⟨n, hn, rfl⟩
  · exact NoCtl_of_range (by decide) (by decide)
  · have : ∀ m : Fin 64, 32 ≤ (b64Char m.1).toNat ∧ (b64Char m.1).toNat ≤ 126 := by decide +kernel
    exact NoCtl_of_range (this ⟨n, hn⟩).1 (this ⟨n, hn⟩).2

/-- URLs and floats are written without control characters. -/
def Val.LibOk (E : Env) : Val → Prop
  | .calAddress u => ∀ c ∈ E.urlString u, NoCtl c
  | .uri u => ∀ c ∈ E.urlString u, NoCtl c
  | .tfloat t => ∀ c ∈ E.floatFormat t.1 ++ E.floatFormat t.2, NoCtl c
  | _ => True

/-- Texts pass validation. -/
def Val.TextOk : Val → Prop
  | .text t => Text.valid t = .ok ()
  | .mtext ts => MText.valid ts = .ok ()
  | _ => True

theorem Val.valid_textOk {v : Val} (h : v.valid = .ok ()) : v.TextOk := by
  cases v <;> first | trivial | exact h

theorem Val.text_NoCtl {E : Env} {v : Val} (hv : v.TextOk) (hl : v.LibOk E) : ∀ c ∈ v.text_ E, NoCtl c := by
  cases v with
  | binary b => exact Binary.encode_NoCtl b
  | boolean b =>
    have : ∀ b : Bool, ∀ c ∈ Boolean.encode b, 32 ≤ c.toNat ∧ c.toNat ≤ 126 := by decide
    exact fun c hc => NoCtl_of_range (this b c hc).1 (this b c hc).2
  | calAddress u => exact hl
  | date t => exact fun c hc => NoCtl_time (Date.encode_mem hc)
  | dateTime t => exact fun c hc => NoCtl_time (DateTime.encode_mem hc)
  | duration d => exact Duration.encode_NoCtl d
  | integer i => exact fun c hc => NoCtl_part (fmtInt_part hc).1
  | mtext ts => exact MText.encode_NoCtl hv
  | period p => exact Period.encode_NoCtl E p
  | recur r => exact Recur.encode_NoCtl E r
  | text t => exact Text.encode_NoCtl hv
  | tfloat t =>
    intro c hc
    rcases List.mem_append.1 hc with hc | hc
    · exact hl c (List.mem_append.2 (Or.inl hc))
    · rcases List.mem_cons.1 hc with rfl | hc
      · exact NoCtl_of_range (by decide) (by decide)
      · exact hl c (List.mem_append.2 (Or.inr hc))
  | uri u => exact hl
  | utcOffset o => exact UTCOffset.encode_NoCtl o

theorem ValOk.libOk {E : Env} {v : Val} (h : ValOk E v) : v.LibOk E := by
  cases v <;> first | trivial | skip
  · exact UrlOk.chars h
  · intro c hc
    rcases List.mem_append.1 hc with hc | hc
    · exact (h.1.chars c hc).1
    · exact (h.2.chars c hc).1
  · exact UrlOk.chars h

/-! ## Panics -/

theorem UTCOffset.decode_ne_panic (s : Str) : UTCOffset.decode s ≠ .panic := by
  unfold UTCOffset.decode
  dsimp only
  repeat' split
  all_goals simp

theorem Binary.decode_ne_panic (e s : Str) : Binary.decode e s ≠ .panic := by
  unfold Binary.decode
  split
  · simp
  · exact Res.ofOption_ne_panic

theorem Boolean.decode_ne_panic (s : Str) : Boolean.decode s ≠ .panic := by
  unfold Boolean.decode
  repeat' split
  all_goals simp

theorem TFloat.decode_ne_panic (E : Env) (s : Str) : TFloat.decode E s ≠ .panic := by
  unfold TFloat.decode
  split
  · simp
  · intro h
    rw [Res.bind_eq_panic] at h
    rcases h with h | ⟨_, _, h⟩
    · exact Res.ofOption_ne_panic h
    · rw [Res.bind_eq_panic] at h
      rcases h with h | ⟨_, _, h⟩
      · exact Res.ofOption_ne_panic h
      · cases h

theorem Period.decode_ne_panic (E : Env) (p : Nat) (tz : Option Str) (s : Str) : Period.decode E p tz s ≠ .panic := by
  unfold Period.decode
  split
  · simp
  · simp
  · intro h
    rw [Res.bind_eq_panic] at h
    rcases h with h | ⟨_, _, h⟩
    · exact DateTime.decode_ne_panic _ _ _ _ h
    · split at h
      · rw [Res.bind_eq_panic] at h
        rcases h with h | ⟨_, _, h⟩
        · exact Duration.decode_ne_panic _ h
        · cases h
      · rw [Res.bind_eq_panic] at h
        rcases h with h | ⟨_, _, h⟩
        · exact DateTime.decode_ne_panic _ _ _ _ h
        · cases h

/-- Only recurrence rules make decoding a value panic, on a day that is a plus sign and a digit. -/
theorem Val.decode_panic {E : Env} {op : Str → Option Str} {k : Kind} {s : Str} (h : Val.decode E op k s = .panic) :
    k = .recur ∧ Spec.plusDay s = true := by
  cases k <;> simp only [Val.decode, Res.map_eq_panic] at h
  · exact absurd h (Binary.decode_ne_panic _ _)
  · exact absurd h (Boolean.decode_ne_panic _)
  · exact absurd h Res.ofOption_ne_panic
  · exact absurd h (Date.decode_ne_panic _)
  · exact absurd h (DateTime.decode_ne_panic _ _ _ _)
  · exact absurd h (Duration.decode_ne_panic _)
  · exact absurd h Res.ofOption_ne_panic
  · exact absurd h (MText.decodeF_ne_panic _ _)
  · exact absurd h (Period.decode_ne_panic _ _ _ _)
  · exact ⟨rfl, Recur.decode_panic h⟩
  · exact absurd h (Text.decode_ne_panic _)
  · exact absurd h (TFloat.decode_ne_panic _ _)
  · exact absurd h Res.ofOption_ne_panic
  · exact absurd h (UTCOffset.decode_ne_panic _)

theorem Val.decode_kind {E : Env} {op : Str → Option Str} {k : Kind} {s : Str} {v : Val} (h : Val.decode E op k s = .ok v) :
    v.kind = k := by
  cases k <;> simp only [Val.decode, Res.map_eq_ok] at h <;> obtain ⟨_, _, rfl⟩ := h <;> rfl

end Ics
