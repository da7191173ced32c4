import Verif.Spec.RfcValues
import Verif.Props.Rfc
import Verif.Props.Scalars
import Verif.Props.Alike
/-!
# Properties C52 - C54: lists of times, REQUEST-STATUS, RELATED
-/

namespace Ics.Props

open Ics Spec Rfc

/-! ## C52 Lists of times -/

theorem dec_mem {s : Str} {n : Nat} (h : Dec s n) {c : Char} (hc : c ∈ s) : isDigit c = true :=
  List.all_eq_true.1 (Dec_facts h).2.1 c hc

theorem dateText_mem {s : Str} {y m d : Nat} (h : DateText s y m d) {c : Char} (hc : c ∈ s) : isDigit c = true := by
  obtain ⟨a, b, e, rfl, ha, hb, he, _⟩ := h
  rcases List.mem_append.1 hc with hc | hc
  · rcases List.mem_append.1 hc with hc | hc
    · exact dec_mem ha.1 hc
    · exact dec_mem hb.1 hc
  · exact dec_mem he.1 hc

theorem clockText_mem {s : Str} {y m d : Nat} (h : ClockText s y m d) {c : Char} (hc : c ∈ s) : isDigit c = true := by
  obtain ⟨a, b, e, rfl, ha, hb, he, _⟩ := h
  rcases List.mem_append.1 hc with hc | hc
  · rcases List.mem_append.1 hc with hc | hc
    · exact dec_mem ha.1 hc
    · exact dec_mem hb.1 hc
  · exact dec_mem he.1 hc

theorem fracText_mem {s : Str} {ns : Nat} (h : FracText s ns) {c : Char} (hc : c ∈ s) : isDigit c = true ∨ c = '.' ∨ c = ',' := by
  rcases h with ⟨rfl, _⟩ | ⟨x, a, b, v, rfl, hx, ha, hb, _⟩
  · cases hc
  · rcases List.mem_cons.1 hc with rfl | hc
    · exact .inr hx
    · rcases List.mem_append.1 hc with hc | hc
      · exact .inl (dec_mem ha hc)
      · exact .inl ((isDigit_iff c).2 (hb c hc))

theorem not_mem_of_digits {s : Str} (h : ∀ c ∈ s, isDigit c = true) {x : Char} (hx : isDigit x = false) : x ∉ s := by
  intro hm
  have := h x hm
  rw [hx] at this; cases this

/-- A date-time as the library reads it has one T and no slash. -/
theorem moment_counts {a c f : Str} {y m d h mi sec ns : Nat} {z : Bool} (ha : DateText a y m d) (hc : ClockText c h mi sec) (hf : FracText f ns) :
    (a ++ 'T' :: c ++ f ++ (if z then ['Z'] else [])).count 'T' = 1 ∧ (a ++ 'T' :: c ++ f ++ (if z then ['Z'] else [])).count '/' = 0 := by
  have h1 : ∀ x, isDigit x = false → a.count x = 0 := fun x hx => List.count_eq_zero.2 (not_mem_of_digits (fun _ => dateText_mem ha) hx)
  have h2 : ∀ x, isDigit x = false → c.count x = 0 := fun x hx => List.count_eq_zero.2 (not_mem_of_digits (fun _ => clockText_mem hc) hx)
  have h3 : ∀ x, isDigit x = false → x ≠ '.' → x ≠ ',' → f.count x = 0 := fun x hx g1 g2 => List.count_eq_zero.2 fun hm => by
    rcases fracText_mem hf hm with g | g | g
    · rw [hx] at g; cases g
    · exact g1 g
    · exact g2 g
  have h4 : ∀ x, x ≠ 'Z' → (if z then ['Z'] else []).count x = 0 := fun x hx => by
    cases z
    · rfl
    · exact List.count_eq_zero.2 (by simpa using hx)
  simp only [List.count_append, List.count_cons]
  rw [h1 'T' (by decide), h2 'T' (by decide), h3 'T' (by decide) (by decide) (by decide), h4 'T' (by decide), h1 '/' (by decide), h2 '/' (by decide),
    h3 '/' (by decide) (by decide) (by decide), h4 '/' (by decide)]
  decide

theorem dateTime_counts {E : Env} {p : Nat} {tz : Option Str} {s : Str} {t : GoTime} (h : DateTime.decode E p tz s = .ok t) :
    s.count 'T' = 1 ∧ s.count '/' = 0 := by
  cases tz with
  | none =>
    obtain ⟨a, c, f, y, m, d, h, mi, sec, ns, z, rfl, h1, h2, h3, _⟩ := (C22_datetime_exact_partial E p s t).1 h
    exact moment_counts h1 h2 h3
  | some tz =>
    obtain ⟨l, a, c, f, y, m, d, h, mi, sec, ns, _, rfl, h1, h2, h3, _⟩ := (C22_zoned_exact_partial E p tz s t).1 h
    have := moment_counts (z := false) h1 h2 h3
    rwa [if_neg (by decide), List.append_nil] at this

theorem date_digits {s : Str} {t : GoTime} (h : Date.decode s = .ok t) : ∀ c ∈ s, isDigit c = true := by
  obtain ⟨y, m, d, k, h1, _⟩ := (C22_date_exact s t).1 h
  exact fun c => dateText_mem h1

theorem duration_no_slash {s : Str} {d : Duration} (h : Duration.decode s = .ok d) : s.count '/' = 0 := by
  obtain ⟨sign, is, rfl, _, hi, hs, _⟩ := C19_accepted_are_items_partial h
  rw [List.count_eq_zero]
  intro hm
  rcases List.mem_append.1 hm with hm | hm
  · rcases hs with ⟨rfl, _⟩ | ⟨rfl | rfl, _⟩ <;> revert hm <;> decide
  · rcases List.mem_cons.1 hm with hm | hm
    · revert hm; decide
    · obtain ⟨i, him, hm⟩ := List.mem_flatMap.1 hm
      unfold DurItem.print at hm
      rcases List.mem_append.1 hm with hm | hm
      · rcases List.mem_append.1 hm with hm | hm
        · split at hm <;> revert hm <;> decide
        · have := dec_mem i.dec hm
          revert this; decide
      · have h1 := (hi i him).1
        rw [← List.mem_singleton.1 hm] at h1
        revert h1; decide

theorem period_one_slash {E : Env} {p : Nat} {tz : Option Str} {s : Str} {r : Period} (h : Period.decode E p tz s = .ok r) : s.count '/' = 1 := by
  unfold Period.decode at h
  split at h
  · cases h
  · cases h
  · next a c b hs =>
    rw [split2_some hs]
    obtain ⟨t, h1, h⟩ := Res.bind_eq_ok.1 h
    have h2 : (c :: b).count '/' = 0 := by
      split at h
      · obtain ⟨d, h3, _⟩ := Res.bind_eq_ok.1 h
        exact duration_no_slash h3
      · obtain ⟨d, h3, _⟩ := Res.bind_eq_ok.1 h
        exact (dateTime_counts h3).2
    rw [List.count_append, (dateTime_counts h1).2, List.count_cons, h2]
    decide

theorem join_count (x : Char) (k : Nat) : ∀ (xs : List Str), (∀ s ∈ xs, k ≤ s.count x) → xs.length * k ≤ (join [','] xs).count x := by
  intro xs
  induction xs with
  | nil => intro _; simp
  | cons a xs ih =>
    intro h
    have h1 := h a (by simp)
    have h2 := ih fun s hs => h s (by simp [hs])
    cases xs with
    | nil => simpa [join] using h1
    | cons b xs =>
      simp only [join, List.count_append, List.length_cons] at h2 ⊢
      rw [Nat.add_mul]
      omega

theorem mem_join {x : Char} : ∀ {xs : List Str}, x ∈ join [','] xs → x = ',' ∨ ∃ s ∈ xs, x ∈ s := by
  intro xs
  induction xs with
  | nil => intro h; cases h
  | cons a xs ih =>
    intro h
    cases xs with
    | nil => exact .inr ⟨a, by simp, by simpa [join] using h⟩
    | cons b xs =>
      simp only [join, List.mem_append, List.mem_singleton] at h
      rcases h with (h | h) | h
      · exact .inr ⟨a, by simp, h⟩
      · exact .inl h
      · rcases ih h with h | ⟨s, hs, h⟩
        · exact .inl h
        · exact .inr ⟨s, List.mem_cons_of_mem _ hs, h⟩

theorem moment_one {s : Str} (h : Moment s) : s.count 'T' = 1 ∧ s.count '/' = 0 := by
  obtain ⟨a, c, y, m, d, hh, mi, sec, z, rfl, h1, h2⟩ := h
  have := moment_counts (z := z) h1 h2 (.inl ⟨rfl, rfl⟩)
  rwa [List.append_nil] at this

/-- No list of two or more times is a value of one of the types. -/
theorem lists_unread {xs : List Str} {s : Str} (hx : TimeList xs s) (h2 : 2 ≤ xs.length) :
    (∀ (E : Env) (p : Nat) (tz : Option Str) (t : GoTime), DateTime.decode E p tz s ≠ .ok t) ∧ (∀ t, Date.decode s ≠ .ok t) ∧
    ∀ (E : Env) (p : Nat) (tz : Option Str) (r : Period), Period.decode E p tz s ≠ .ok r := by
  obtain ⟨_, hx, rfl⟩ := hx
  have comma : ',' ∈ join [','] xs := by
    match xs, h2 with
    | a :: b :: xs, _ => simp [join]
  have hdate : ∀ t, Date.decode (join [','] xs) ≠ .ok t := fun t h => by
    have := date_digits h _ comma
    revert this; decide
  rcases hx with hx | hx | hx
  · have hT := join_count 'T' 1 xs fun s hs => by rw [(moment_one (hx s hs)).1]; omega
    have hS : '/' ∉ join [','] xs := by
      intro hm
      rcases mem_join hm with h | ⟨s, hs, h⟩
      · revert h; decide
      · exact List.count_eq_zero.1 (moment_one (hx s hs)).2 h
    refine ⟨fun E p tz t h => ?_, hdate, fun E p tz r h => ?_⟩
    · have := (dateTime_counts h).1; omega
    · have := period_one_slash h
      rw [List.count_eq_zero.2 hS] at this; cases this
  · have hN : ∀ x, isDigit x = false → x ≠ ',' → x ∉ join [','] xs := by
      intro x h1 h2 hm
      rcases mem_join hm with h | ⟨s, hs, h⟩
      · exact h2 h
      · obtain ⟨y, m, d, hd⟩ := hx s hs
        rw [dateText_mem hd h] at h1; cases h1
    refine ⟨fun E p tz t h => ?_, hdate, fun E p tz r h => ?_⟩
    · have := (dateTime_counts h).1
      rw [List.count_eq_zero.2 (hN 'T' (by decide) (by decide))] at this; cases this
    · have := period_one_slash h
      rw [List.count_eq_zero.2 (hN '/' (by decide) (by decide))] at this; cases this
  · have hS := join_count '/' 1 xs fun s hs => by
      obtain ⟨a, b, rfl, _⟩ := hx s hs
      simp only [List.count_append, List.count_cons_self]
      omega
    refine ⟨fun E p tz t h => ?_, hdate, fun E p tz r h => ?_⟩
    · have := (dateTime_counts h).2; omega
    · have := period_one_slash h; omega

/-- Each value of a list is read by itself. -/
theorem C52_single_values (E : Env) (p : Nat) (s : Str) : (Moment s → ∃ t, DateTime.decode E p none s = .ok t) ∧ (Day s → ∃ t, Date.decode s = .ok t) := by
  constructor
  · rintro ⟨a, c, y, m, d, h, mi, sec, z, rfl, h1, h2⟩
    exact ⟨_, (C22_datetime_exact_partial E p _ _).2 ⟨a, c, [], y, m, d, h, mi, sec, 0, z, by rw [List.append_nil], h1, h2, .inl ⟨rfl, rfl⟩, rfl⟩⟩
  · rintro ⟨y, m, d, h⟩
    unfold Date.decode parseDate
    rw [(parseDate8_iff s _ []).2 ⟨s, y, m, d, by simp, h, rfl⟩]
    exact ⟨_, rfl⟩

/-- The shapes of the three properties. -/
theorem timeLists_content : ∀ p ∈ allParts, ∀ n ∈ timeLists, (match content p n with
    | some (.value types _) => types.all fun k => k = .dateTime ∨ k = .date ∨ k = .period
    | _ => false) = true := by decide +kernel

theorem timeLists_kept (p : Part) (n : Str) (hn : n ∈ timeLists) (h : occurs p n ≠ none) : libOccurs p n ≠ none := by
  have : ∀ p ∈ allParts, ∀ n ∈ timeLists, occurs p n ≠ none → libOccurs p n ≠ none := by decide +kernel
  exact this p (mem_allParts p) n hn h

theorem list_unreadable {E : Env} {p : Part} {n : Str} (hn : n ∈ timeLists) {t : Content} (ht : content p n = some t) {ps : List (Str × List PVal)} {xs : List Str} {s : Str}
    (hx : TimeList xs s) (h2 : 2 ≤ xs.length) (r : PropVal) : ¬ PropReads E t.shape ps s r := by
  intro h
  have hc := timeLists_content p (mem_allParts p) n hn
  rw [ht] at hc
  cases t with
  | name ns => cases hc
  | value types params =>
    obtain ⟨qs, i, m, k, v, _, _, _, hv, hd⟩ := h
    have hm := List.mem_of_getElem? hv
    obtain ⟨k', hk', he⟩ := List.mem_map.1 hm
    have := List.all_eq_true.1 hc k' hk'
    simp only [Prod.mk.injEq] at he
    rw [he.2] at this
    obtain ⟨g1, g2, g3⟩ := lists_unread hx h2
    have key : ∀ {α : Type} {f : α → Val} {x : Res α}, f <$> x = .ok v → ∃ a, x = .ok a := by
      intro α f x h
      cases x with
      | ok a => exact ⟨a, rfl⟩
      | err => cases h
      | panic => cases h
    have hk : k = .dateTime ∨ k = .date ∨ k = .period := of_decide_eq_true this
    replace hd := (Val.decode_iff ..).2 hd
    rcases hk with rfl | rfl | rfl
    · obtain ⟨a, ha⟩ := key hd; exact g1 _ _ _ _ ha
    · obtain ⟨a, ha⟩ := key hd; exact g2 _ ha
    · obtain ⟨a, ha⟩ := key hd; exact g3 _ _ _ _ ha

/-- The property: in an accepted document the time of FREEBUSY, EXDATE or RDATE may be replaced by a list of times that begins with it. -/
def C52_claim : Prop := ∀ (E : Env) (s s' : Str) (p r : List Line) (n : Str) (ps : List (Str × List PVal)) (x v : Str) (xs : List Str) (t : Term),
  upper n ∈ timeLists → TimeList (x :: xs) v → tokenise s = ⟨p ++ ⟨n, ps, x⟩ :: r, t⟩ → tokenise s' = ⟨p ++ ⟨n, ps, v⟩ :: r, t⟩ →
  (decodeDoc E s).isOk = true → (decodeDoc E s').isOk = true

theorem body_no_lists {E : Env} {p : Part} {is : List Item} (hb : BodyOk .library E p is) : ∀ n ∈ timeLists, occurs p n ≠ none → ∀ l ∈ linesNamed is n, ∀ xs, TimeList xs l.value →
      xs.length = 1 := by
  intro n hn ho l hl xs hx
  obtain ⟨o, hlo⟩ := Option.ne_none_iff_exists'.1 (timeLists_kept p n hn ho)
  obtain ⟨t, ht⟩ := content_exists hlo
  obtain ⟨r, hr⟩ := (hb.1 n o t hlo ht).2 l hl
  have : ¬ 2 ≤ xs.length := fun h2 => list_unreadable hn ht hx h2 r hr
  have : xs.length ≠ 0 := fun h0 => hx.1 (List.length_eq_zero_iff.1 h0)
  omega

/-- C52.  No document that is accepted has a list of two or more times in a component that RFC 5545 has FREEBUSY, EXDATE or RDATE in. -/
theorem C52_no_lists_partial (E : Env) (s : Str) (c : Cal) (h : decodeDoc E s = .ok c) (hk : Keywords (tokenise s).lines) :
    ∃ pre rest, (tokenise s).lines = pre ++ rest ∧ DocAll (fun p is => ∀ n ∈ timeLists, occurs p n ≠ none → ∀ l ∈ linesNamed is n, ∀ xs, TimeList xs l.value →
      xs.length = 1) pre := by
  obtain ⟨pre, rest, h1, h2⟩ := C49_sound_partial E s c h hk
  exact ⟨pre, rest, h1, DocAll.mono (fun _ _ => body_no_lists) h2⟩

/-- C52.  The same for all documents, whatever the case of their names. -/
theorem C52_every_document (E : Env) (s : Str) (c : Cal) (h : decodeDoc E s = .ok c) :
    ∃ pre rest, (tokenise s).lines = pre ++ rest ∧ DocEach (fun p is => ∀ n ∈ timeLists, occurs p n ≠ none → ∀ l ∈ linesNamed is n, ∀ xs, TimeList xs l.value →
      xs.length = 1) pre := by
  obtain ⟨pre, rest, h1, h2⟩ := (C49_every_document E s).1 ⟨c, h⟩
  exact ⟨pre, rest, h1, DocEach.mono (fun _ _ => body_no_lists) h2⟩

theorem dec_two (a b : Fin 10) : Two [Char.ofNat (48 + a), Char.ofNat (48 + b)] (10 * a + b) := ⟨.snoc b (.one a), rfl⟩

theorem dec_four (a b c d : Fin 10) : Four [Char.ofNat (48 + a), Char.ofNat (48 + b), Char.ofNat (48 + c), Char.ofNat (48 + d)] (10 * (10 * (10 * a + b) + c) + d) :=
  ⟨.snoc d (.snoc c (.snoc b (.one a))), rfl⟩

theorem sample_moment (d : Fin 10) : Moment (c!"2021070" ++ [Char.ofNat (48 + d)] ++ c!"T014000Z") ∨ d = 0 := by
  by_cases hd : d = 0
  · exact .inr hd
  · refine .inl ⟨c!"2021070" ++ [Char.ofNat (48 + d)], c!"014000", 2021, 7, 10 * 0 + d, 1, 40, 0, true, rfl, ?_, ?_⟩
    · refine ⟨c!"2021", c!"07", '0' :: [Char.ofNat (48 + d)], rfl, dec_four 2 0 2 1, dec_two 0 7, dec_two 0 d, ?_⟩
      revert hd
      revert d
      unfold IsDate
      decide
    · exact ⟨c!"01", c!"40", c!"00", rfl, dec_two 0 1, dec_two 4 0, dec_two 0 0, by decide⟩

/-- An event that recurs at this time, or these. -/
def recursAt (s : Str) : List Line := inAlarm.take 6 ++ plainLine c!"RDATE" s :: afterAlarm.drop 1

/-- C52.  The claim as stated in full is false: a counterexample. -/
theorem C52_full_claim_is_false : ¬ C52_claim := by
  intro h
  have hx : TimeList [c!"20210701T014000Z", c!"20210702T014000Z"] c!"20210701T014000Z,20210702T014000Z" := by
    refine ⟨by simp, .inl fun x hx => ?_, rfl⟩
    simp only [List.mem_cons, List.not_mem_nil, or_false] at hx
    rcases hx with rfl | rfl
    · exact (sample_moment 1).resolve_right (by decide)
    · exact (sample_moment 2).resolve_right (by decide)
  have := h sampleEnv ((recursAt c!"20210701T014000Z").flatMap printLine) ((recursAt c!"20210701T014000Z,20210702T014000Z").flatMap printLine)
    (inAlarm.take 6) (afterAlarm.drop 1) c!"RDATE" [] _ _ _ .done (by decide) hx (by decide +kernel) (by decide +kernel) (by decide +kernel)
  revert this
  decide +kernel

/-! ## C53 REQUEST-STATUS -/

theorem loose_digits {s : Str} (h : ∀ c ∈ s, isDigit c = true ∨ c = '.') : Loose s s := by
  induction s with
  | nil => exact .nil
  | cons c s ih =>
    have hc := h c (by simp)
    have key : ∀ x : Char, isDigit x = false → x ≠ '.' → c ≠ x := by
      rintro x hx hd rfl
      rcases hc with hc | hc
      · rw [hx] at hc; cases hc
      · exact hd hc
    exact .plain c (key _ (by decide) (by decide)) (key _ (by decide) (by decide)) (key _ (by decide) (by decide)) (ih fun c hc => h c (by simp [hc]))

theorem statCode_loose {s : Str} (h : StatCode s) : Loose s s := by
  obtain ⟨a, b, i, j, ha, hb, h⟩ := h
  refine loose_digits fun c hc => ?_
  have key : ∀ {s : Str} {n : Nat}, Dec s n → c ∈ s → isDigit c = true ∨ c = '.' := fun h hc => .inl (dec_mem h hc)
  rcases h with rfl | ⟨d, k, hd, rfl⟩
  · rcases List.mem_append.1 hc with hc | hc
    · exact key ha hc
    · rcases List.mem_cons.1 hc with hc | hc
      · exact .inr hc
      · exact key hb hc
  · rcases List.mem_append.1 hc with hc | hc
    · rcases List.mem_append.1 hc with hc | hc
      · exact key ha hc
      · rcases List.mem_cons.1 hc with hc | hc
        · exact .inr hc
        · exact key hb hc
    · rcases List.mem_cons.1 hc with hc | hc
      · exact .inr hc
      · exact key hd hc

/-- The value that RFC 5545 describes is not a text, for its semicolon. -/
theorem status_unread {s : Str} (h : Status s) (t : Str) : Text.decode s ≠ .ok t := by
  intro hd
  obtain ⟨code, desc, u, hc, _, h⟩ := h
  have key : ∀ r, s = code ++ ';' :: r → False := by
    rintro r rfl
    have h1 := decodeText_loose (statCode_loose hc) (';' :: r) (by simp)
    have h2 := decodeText_all.2 (Text.decode_iff.1 hd)
    rw [h1] at h2
    cases h2
  rcases h with h | ⟨data, v, _, h⟩
  · exact key _ h
  · exact key (desc ++ ';' :: data) (by rw [h, List.append_assoc]; rfl)

def kREQUEST : Str := c!"REQUEST-STATUS"

/-- The property: in an accepted document a REQUEST-STATUS may have any value that RFC 5545 allows. -/
def C53_claim : Prop := ∀ (E : Env) (s s' : Str) (p r : List Line) (n : Str) (ps : List (Str × List PVal)) (x v : Str) (t : Term),
  upper n = kREQUEST → Status v → tokenise s = ⟨p ++ ⟨n, ps, x⟩ :: r, t⟩ → tokenise s' = ⟨p ++ ⟨n, ps, v⟩ :: r, t⟩ →
  (decodeDoc E s).isOk = true → (decodeDoc E s').isOk = true

theorem body_no_status {E : Env} {p : Part} {is : List Item} (hb : BodyOk .library E p is) : occurs p kREQUEST ≠ none → ∀ l ∈ linesNamed is kREQUEST, ¬ Status l.value := by
  intro ho l hl hs
  have e : ∀ p ∈ allParts, libOccurs p kREQUEST = occurs p kREQUEST := by decide +kernel
  obtain ⟨o, hlo⟩ := Option.ne_none_iff_exists'.1 ((e p (mem_allParts p)).symm ▸ ho)
  obtain ⟨t, ht⟩ := content_exists hlo
  obtain ⟨r, hr⟩ := (hb.1 kREQUEST o t hlo ht).2 l hl
  have : ∀ p ∈ allParts, (match content p kREQUEST with
    | some (.value [.text] []) => true
    | _ => false) = true := by decide +kernel
  have := this p (mem_allParts p)
  rw [ht] at this
  match t, this with
  | .value [.text] [], _ =>
    obtain ⟨qs, i, m, k, v, _, _, _, hv, hd⟩ := hr
    have hm := List.mem_of_getElem? hv
    simp only [List.map_cons, List.map_nil, List.mem_singleton, Prod.mk.injEq] at hm
    rw [hm.2] at hd
    replace hd := (Val.decode_iff ..).2 hd
    change Val.text <$> Text.decode l.value = .ok v at hd
    cases ht : Text.decode l.value with
    | ok t => exact status_unread hs t ht
    | err e => rw [ht] at hd; cases hd
    | panic => rw [ht] at hd; cases hd

/-- C53.  No document that is accepted has a REQUEST-STATUS as RFC 5545 describes it, in a component that RFC 5545 has it in. -/
theorem C53_none_partial (E : Env) (s : Str) (c : Cal) (h : decodeDoc E s = .ok c) (hk : Keywords (tokenise s).lines) :
    ∃ pre rest, (tokenise s).lines = pre ++ rest ∧ DocAll (fun p is => occurs p kREQUEST ≠ none → ∀ l ∈ linesNamed is kREQUEST, ¬ Status l.value) pre := by
  obtain ⟨pre, rest, h1, h2⟩ := C49_sound_partial E s c h hk
  exact ⟨pre, rest, h1, DocAll.mono (fun _ _ => body_no_status) h2⟩

/-- C53.  The same for all documents, whatever the case of their names. -/
theorem C53_every_document (E : Env) (s : Str) (c : Cal) (h : decodeDoc E s = .ok c) :
    ∃ pre rest, (tokenise s).lines = pre ++ rest ∧ DocEach (fun p is => occurs p kREQUEST ≠ none → ∀ l ∈ linesNamed is kREQUEST, ¬ Status l.value) pre := by
  obtain ⟨pre, rest, h1, h2⟩ := (C49_every_document E s).1 ⟨c, h⟩
  exact ⟨pre, rest, h1, DocEach.mono (fun _ _ => body_no_status) h2⟩

/-- The first example of section 3.8.8.3. -/
theorem sample_status : Status c!"2.0;Success" :=
  ⟨c!"2.0", c!"Success", c!"Success", ⟨c!"2", c!"0", 2, 0, .one 2, .one 0, .inl rfl⟩,
    .plain _ (by decide) (by decide) (by decide) (by decide) (.plain _ (by decide) (by decide) (by decide) (by decide) (.plain _ (by decide) (by decide) (by decide)
      (by decide) (.plain _ (by decide) (by decide) (by decide) (by decide) (.plain _ (by decide) (by decide) (by decide) (by decide) (.plain _ (by decide) (by decide)
      (by decide) (by decide) (.plain _ (by decide) (by decide) (by decide) (by decide) .nil)))))), .inl rfl⟩

/-- An event with this request status. -/
def requested (s : Str) : List Line := inAlarm.take 6 ++ plainLine kREQUEST s :: afterAlarm.drop 1

/-- C53.  The claim as stated in full is false: a counterexample. -/
theorem C53_full_claim_is_false : ¬ C53_claim := by
  intro h
  have := h sampleEnv ((requested c!"x").flatMap printLine) ((requested c!"2.0;Success").flatMap printLine)
    (inAlarm.take 6) (afterAlarm.drop 1) kREQUEST [] c!"x" _ .done (by decide) sample_status (by decide +kernel) (by decide +kernel) (by decide +kernel)
  revert this
  decide +kernel

/-! ## C54 RELATED -/

/-- The property: whether an alarm is related to the start or the end of its event shows in the calendar. -/
def C54_claim : Prop := ∀ (E : Env) (s s' : Str) (p r : List Line) (n v : Str) (ps : List (Str × List PVal)) (t : Term), upper n = c!"TRIGGER" →
  (∀ x ∈ ps, upper x.1 ≠ c!"RELATED") → tokenise s = ⟨p ++ ⟨n, ps, v⟩ :: r, t⟩ → tokenise s' = ⟨p ++ ⟨n, (c!"RELATED", [⟨false, c!"END"⟩]) :: ps, v⟩ :: r, t⟩ →
  (decodeDoc E s).isOk = true → decodeDoc E s' ≠ decodeDoc E s

theorem related_unknown (n : Str) : ¬ hasParam n c!"RELATED" := by
  rintro ⟨p, types, ps, h, hp⟩
  have key : ∀ x ∈ contents, (match x.2 with
    | .value _ ps => !ps.contains c!"RELATED"
    | _ => true) = true := by decide +kernel
  have : (contents.find? fun x => x.1 = n).map (·.2) = some (.value types ps) := by
    unfold content at h
    split at h
    · split at h
      · cases h
      · exact h
    · exact h
  obtain ⟨x, hx, he⟩ := Option.map_eq_some_iff.1 this
  have := key x (List.mem_of_find?_eq_some hx)
  rw [he] at this
  simp at this
  exact this hp

theorem pairwise2_one {R : Line → Line → Prop} (hr : ∀ l, R l l) (p r : List Line) {l m : Line} (h : R l m) : Pairwise2 R (p ++ l :: r) (p ++ m :: r) := by
  induction p with
  | nil =>
    refine .cons h ?_
    induction r with
    | nil => exact .nil
    | cons x r ih => exact .cons (hr x) ih
  | cons x p ih => exact .cons (hr x) ih

/-- C54.  RELATED makes no difference: not with TRIGGER, and not with any other line. -/
theorem C54_related_ignored (E : Env) (s s' : Str) (p r : List Line) (n v : Str) (a b : List (Str × List PVal)) (vs : List PVal) (t : Term)
    (h : tokenise s = ⟨p ++ ⟨n, a ++ b, v⟩ :: r, t⟩) (h' : tokenise s' = ⟨p ++ ⟨n, a ++ (c!"RELATED", vs) :: b, v⟩ :: r, t⟩) : decodeDoc E s' = decodeDoc E s :=
  (show decodeDoc E s = decodeDoc E s' from
    C55_alike false E s s' _ _ t h h' (pairwise2_one .refl p r (.ignored (related_unknown _) (by decide)))).symm

/-- An alarm at the end of an event, and one at its start. -/
def alarmAt (ps : List (Str × List PVal)) : List Line := inAlarm.dropLast ++ [plainLine kACTION c!"AUDIO", ⟨c!"TRIGGER", ps, c!"-PT5M"⟩] ++ afterAlarm

/-- C54.  The claim as stated in full is false: a counterexample. -/
theorem C54_full_claim_is_false : ¬ C54_claim := by
  intro h
  have h1 : tokenise ((alarmAt []).flatMap printLine) = ⟨(inAlarm.dropLast ++ [plainLine kACTION c!"AUDIO"]) ++ ⟨c!"TRIGGER", [], c!"-PT5M"⟩ :: afterAlarm, .done⟩ := by decide +kernel
  have h2 : tokenise ((alarmAt [(c!"RELATED", [⟨false, c!"END"⟩])]).flatMap printLine) =
      ⟨(inAlarm.dropLast ++ [plainLine kACTION c!"AUDIO"]) ++ ⟨c!"TRIGGER", [(c!"RELATED", [⟨false, c!"END"⟩])], c!"-PT5M"⟩ :: afterAlarm, .done⟩ := by decide +kernel
  exact h sampleEnv _ _ _ _ _ _ _ _ (by decide) (by simp) h1 h2 (by decide +kernel)
    (C54_related_ignored sampleEnv _ _ _ _ _ _ [] [] _ _ h1 h2)

end Ics.Props
