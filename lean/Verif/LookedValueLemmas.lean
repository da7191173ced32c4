import Verif.LookedLemmas
import Verif.WrongLemmas
import Verif.MachinesLemmas
import Verif.DecodedLemmas
/-!
# Lemmas about what is read of lines on two machines
-/

namespace Ics

open Spec

/-! ## Blocks with known properties -/

/-- The frames of documents. -/
def FrameKnown (F : Frame) : Prop := F = .cal ∨ (∃ x ∈ tabCalendar.subs, F = .comp x.2) ∨ (∃ T, F = .leaf T ∧ FrameOf (.leaf T) T) ∨ F = .alarm ∨ F = .unknown

theorem FrameKnown.fields {F : Frame} (h : FrameKnown F) : ∀ f ∈ F.fields, f.spec.wf = true := by
  rcases h with rfl | ⟨x, hx, rfl⟩ | ⟨T, rfl, hT⟩ | rfl | rfl
  · exact fun f hf => (cal_frame.wf.field f hf).spec
  · exact fun f hf => ((comp_frame hx).wf.field f hf).spec
  · exact fun f hf => (hT.wf.field f hf).spec
  · exact nofun
  · exact nofun

theorem FrameKnown.enter {F : Frame} (h : FrameKnown F) (n : Str) : FrameKnown (F.enter n) := by
  by_cases hn : n ∈ F.parts.map (·.1)
  · obtain ⟨⟨m, k⟩, hk, rfl⟩ := List.mem_map.1 hn
    rcases h with rfl | ⟨⟨y, T⟩, hx, rfl⟩ | ⟨T, rfl, hT⟩ | rfl | rfl
    · rw [Frame.enter_known (by rw [cal_frame.parts]; exact calTab_wf.subs) hk]
      obtain ⟨x, hx, e⟩ := List.mem_map.1 hk
      cases e
      exact .inr (.inl ⟨x, hx, rfl⟩)
    · have hF := comp_frame hx
      obtain ⟨_, _, hg⟩ := compTab_good _ hx
      rw [Frame.enter_known (by rw [hF.parts]; exact hF.wf.subs) hk]
      obtain ⟨⟨z, sk⟩, hz, e⟩ := List.mem_map.1 hk
      cases e
      have hgk := hg _ hz
      cases sk with
      | leaf T' =>
        obtain ⟨g1, g2, g3⟩ := hgk
        exact .inr (.inr (.inl ⟨T', rfl, leaf_frame g1 g3 ((compTab_rules _ hx).2 _ hz T' rfl)⟩))
      | alarm => exact .inr (.inr (.inr (.inl rfl)))
    · cases hk
    · cases hk
    · cases hk
  · rw [Frame.enter_unknown hn]
    exact .inr (.inr (.inr (.inr rfl)))

theorem advance_known {p : Level} {st : List Level} (l : Line) (h : ∀ q ∈ p :: st, FrameKnown q.frame) : ∀ q ∈ advance p st l, FrameKnown q.frame := by
  have hp := h p (List.mem_cons_self ..)
  have hst := fun q hq => h q (List.mem_cons_of_mem _ hq)
  have hclose : ∀ n, ∀ q ∈ close st n, FrameKnown q.frame := by
    intro n q hq
    cases st with
    | nil => cases hq
    | cons u us =>
      rcases List.mem_cons.1 hq with rfl | hq
      · exact hst u (List.mem_cons_self ..)
      · exact hst q (List.mem_cons_of_mem _ hq)
  have hadd : ∀ q ∈ p.add l :: st, FrameKnown q.frame := by
    intro q hq
    rcases List.mem_cons.1 hq with rfl | hq
    · exact hp
    · exact hst q hq
  by_cases ha : p.frame = .alarm
  · obtain ⟨f, n, own⟩ := p
    dsimp only at ha
    subst ha
    rw [advance_alarm]
    split
    · exact hclose _
    · exact hadd
  · rw [advance_section ha]
    split
    · intro q hq
      rcases List.mem_cons.1 hq with rfl | hq
      · exact hp.enter _
      · exact h q hq
    · split
      · exact hclose _
      · exact hadd

theorem gather_known {H : Level → Line → List (SField × Line)} (hH : ∀ p l, FrameKnown p.frame → ∀ y ∈ H p l, y.1.spec.wf = true) :
    ∀ (ls : List Line) (st : List Level), (∀ q ∈ st, FrameKnown q.frame) → ∀ y ∈ gather H st ls, y.1.spec.wf = true := by
  intro ls
  induction ls with
  | nil => intro st _ y hy; cases st <;> cases hy
  | cons l r ih =>
    intro st hst y hy
    cases st with
    | nil => cases hy
    | cons p st =>
      rcases List.mem_append.1 hy with hy | hy
      · exact hH p l (hst p (List.mem_cons_self ..)) y hy
      · exact ih _ (advance_known l hst) y hy

theorem sectLooked_known (p : Level) (l : Line) (h : FrameKnown p.frame) : ∀ y ∈ sectLooked p l, y.1.spec.wf = true := by
  intro y hy
  exact h.fields _ (mem_sectLooked.1 hy).1

theorem lookedAt_known {ls : List Line} : ∀ y ∈ lookedAt ls, y.1.spec.wf = true := by
  cases ls with
  | nil => exact nofun
  | cons b k =>
    refine gather_known ?_ k calStart ?_
    · intro p l h y hy
      by_cases ha : p.frame = .alarm
      · unfold looked at hy
        rw [ha] at hy
        dsimp only at hy
        split at hy
        · obtain ⟨a, _, hy⟩ := List.mem_flatMap.1 hy
          refine gather_known sectLooked_known _ _ ?_ y hy
          intro q hq
          have h0 : alarmStart a = [⟨.leaf a.tab, a.tab.name, []⟩] := by rw [(aTab_name a).1]; rfl
          rw [h0] at hq
          cases List.mem_singleton.1 hq
          exact .inr (.inr (.inl ⟨_, rfl, alarm_frame a⟩))
        · cases hy
      · rw [looked_section ha] at hy
        exact sectLooked_known p l h y hy
    · intro q hq
      cases List.mem_singleton.1 hq
      exact .inl rfl

theorem lineDecodes_iff {E : Env} {ls : List Line} {y : SField × Line} (hy : y ∈ lookedAt ls) : LineDecodes E y ↔ LineReads E y := by
  unfold LineDecodes LineReads
  simp only [PSpec.decode_iff (lookedAt_known y hy)]

theorem sameRead_iff {E E' : Env} {ls : List Line} {y : SField × Line} (hy : y ∈ lookedAt ls) (h : LineReads E y) : SameRead E E' y ↔ LineSame E E' y := by
  have hw := lookedAt_known y hy
  unfold SameRead LineSame
  simp only [← PSpec.decode_iff hw]
  constructor
  · intro e r hr
    rw [e, hr]
  · intro hs
    obtain ⟨r, hr⟩ := h
    have hr := (PSpec.decode_iff hw _ _ _).2 hr
    rw [hr, hs r hr]

/-! ## Times -/

theorem zoneNamed_known {E : Env} {p : Nat} {n : Str} : (∃ l, ZoneNamed E p n l) ↔ n = [] ∨ n = c!"UTC" ∨ n = c!"Local" ∨ E.loadZone n ≠ none := by
  constructor
  · rintro ⟨l, h⟩
    cases h with
    | empty => exact .inl rfl
    | utc => exact .inr (.inl rfl)
    | «local» => exact .inr (.inr (.inl rfl))
    | zone _ _ _ h => exact .inr (.inr (.inr (by rw [h]; nofun)))
  · intro h
    by_cases h1 : n = []
    · subst h1; exact ⟨_, ZoneNamed.empty⟩
    by_cases h2 : n = c!"UTC"
    · subst h2; exact ⟨_, ZoneNamed.utc⟩
    by_cases h3 : n = c!"Local"
    · subst h3; exact ⟨_, ZoneNamed.local⟩
    have h4 := ((h.resolve_left h1).resolve_left h2).resolve_left h3
    cases hz : E.loadZone n with
    | none => exact absurd hz h4
    | some r => exact ⟨_, .zone h1 h2 h3 hz⟩

theorem time_known {E E' : Env} {p : Nat} {tz : Option Str} {s : Str} (h : ∃ t, DateTimeMeans E p tz s t) : (∃ t, DateTimeMeans E' p tz s t) ↔ KnownZone E' tz := by
  obtain ⟨t, a, c, f, y, m, d, hh, mi, sec, ns, k, l, h1, h2, h3, h4, _, h6⟩ := h
  constructor
  · rintro ⟨t', a', c', f', y', m', d', hh', mi', sec', ns', k', l', _, _, _, _, _, h6'⟩ n rfl
    exact zoneNamed_known.1 ⟨_, h6'.1⟩
  · intro hk
    cases tz with
    | none => exact ⟨_, a, c, f, y, m, d, hh, mi, sec, ns, k, l, h1, h2, h3, h4, rfl, h6⟩
    | some n =>
      obtain ⟨l', hl'⟩ := zoneNamed_known.2 (hk n rfl)
      exact ⟨_, a, c, f, y, m, d, hh, mi, sec, ns, k, l', h1, h2, h3, h4, rfl, hl', h6.2⟩

theorem time_same {E E' : Env} {p : Nat} {tz : Option Str} {s : Str} : (∀ t, DateTimeMeans E p tz s t → DateTimeMeans E' p tz s t) ↔ SameTime E E' p tz s := by
  constructor
  · intro h l w hr
    cases tz with
    | some n =>
      obtain ⟨hz, a, c, f, y, m, d, hh, mi, sec, ns, k, h1, h2, h3, h4, rfl, rfl⟩ := hr
      have hm := h _ ⟨a, c, f, y, m, d, hh, mi, sec, ns, k, l, h1, h2, h3, h4, rfl, hz, rfl⟩
      have hz' : ZoneNamed E' p n l := by
        obtain ⟨_, _, _, _, _, _, _, _, _, _, _, l', _, _, _, _, e, hz', _⟩ := hm
        injection e with _ _ e
        rw [e]
        exact hz'
      have hm' : DateTimeMeans E' p (some n) (a ++ 'T' :: (c ++ f)) _ := ⟨a, c, f, y, m, d, hh, mi, sec, ns, k, l, h1, h2, h3, h4, rfl, hz', rfl⟩
      have e := ((DateTime.decode_iff ..).2 hm).symm.trans ((DateTime.decode_iff ..).2 hm')
      injection e with e
      injection e with e
      exact ⟨⟨hz', a, c, f, y, m, d, hh, mi, sec, ns, k, h1, h2, h3, h4, rfl, rfl⟩, e.symm⟩
    | none =>
      refine ⟨hr, ?_⟩
      rcases hr with ⟨rfl, x, rfl, a, c, f, y, m, d, hh, mi, sec, ns, k, h1, h2, h3, h4, rfl, rfl⟩ | ⟨rfl, a, c, f, y, m, d, hh, mi, sec, ns, k, h1, h2, h3, h4, rfl, rfl⟩
      · rfl
      · have hm := h _ ⟨a, c, f, y, m, d, hh, mi, sec, ns, k, .local, h1, h2, h3, h4, rfl, .inr ⟨rfl, rfl⟩⟩
        have hm' : DateTimeMeans E' p none (a ++ 'T' :: (c ++ f)) _ := ⟨a, c, f, y, m, d, hh, mi, sec, ns, k, .local, h1, h2, h3, h4, rfl, .inr ⟨rfl, rfl⟩⟩
        have e := ((DateTime.decode_iff ..).2 hm).symm.trans ((DateTime.decode_iff ..).2 hm')
        injection e with e
        injection e with e
        exact e.symm
  · rintro h t ⟨a, c, f, y, m, d, hh, mi, sec, ns, k, l, h1, h2, h3, h4, rfl, h6⟩
    cases tz with
    | some n =>
      obtain ⟨hz, rfl⟩ := h6
      obtain ⟨⟨g1, _⟩, g2⟩ := h l _ ⟨hz, a, c, f, y, m, d, hh, mi, sec, ns, k, h1, h2, h3, h4, rfl, rfl⟩
      exact ⟨a, c, f, y, m, d, hh, mi, sec, ns, k, l, h1, h2, h3, h4, by rw [g2], g1, rfl⟩
    | none =>
      refine ⟨a, c, f, y, m, d, hh, mi, sec, ns, k, l, h1, h2, h3, h4, ?_, h6⟩
      rcases h6 with ⟨rfl, rfl⟩ | ⟨rfl, rfl⟩
      · rfl
      · obtain ⟨_, g2⟩ := h .local _ (.inr ⟨rfl, a, c, f, y, m, d, hh, mi, sec, ns, k, h1, h2, h3, h4, rfl, rfl⟩)
        rw [g2]

theorem reading_head {s : Str} {w : Int} (h : Reading s w) : ∃ c r, s = c :: r ∧ isDigit c = true := by
  obtain ⟨a, c, f, y, m, d, hh, mi, sec, ns, k, h1, h2, h3, h4, rfl, _⟩ := h
  exact dateTimeMeans_head (E := ⟨fun _ => none, fun _ => [], fun _ => none, fun _ => [], fun _ => none, fun _ _ => 0, fun _ => 0⟩) (p := 0) (tz := none)
    ⟨a, c, f, y, m, d, hh, mi, sec, ns, k, .local, h1, h2, h3, h4, rfl, .inr ⟨rfl, rfl⟩⟩

theorem duration_head {s : Str} {d : Duration} (h : DurationMeans s d) : ∀ c r, s = c :: r → isDigit c = false := by
  obtain ⟨sign, is, rfl, _, _, h, _⟩ := h
  intro c r e
  rcases h with ⟨rfl, _⟩ | ⟨rfl | rfl, _⟩ <;> · simp only [List.cons_append, List.nil_append, List.cons.injEq] at e; rw [← e.1]; rfl

theorem no_reading {s : Str} {d : Duration} (h : DurationMeans s d) (E : Env) (p : Nat) (tz : Option Str) (l : Loc) (w : Int) : ¬ ReadIn E p tz s l w := by
  have key : ∀ {x w}, Reading x w → ∀ y, s ≠ x ++ y := by
    intro x w hr y e
    obtain ⟨c, r, rfl, hc⟩ := reading_head hr
    rw [duration_head h c _ e] at hc
    cases hc
  intro hr
  cases tz with
  | some n => exact key hr.2 [] (by simp)
  | none =>
    rcases hr with ⟨_, x, e, hr⟩ | ⟨_, hr⟩
    · exact key hr _ e
    · exact key hr [] (by simp)

theorem slash_inj : ∀ {a a' b b' : Str}, '/' ∉ a → '/' ∉ a' → a ++ '/' :: b = a' ++ '/' :: b' → a = a' ∧ b = b'
  | [], [], _, _, _, _, e => by simpa using e
  | [], c :: _, _, _, _, h', e => by
    simp only [List.nil_append, List.cons_append, List.cons.injEq] at e
    exact absurd (e.1 ▸ List.mem_cons_self ..) h'
  | c :: _, [], _, _, h, _, e => by
    simp only [List.nil_append, List.cons_append, List.cons.injEq] at e
    exact absurd (e.1 ▸ List.mem_cons_self ..) h
  | c :: a, c' :: a', _, _, h, h', e => by
    simp only [List.cons_append, List.cons.injEq] at e
    obtain ⟨e1, e2⟩ := slash_inj (fun x => h (List.mem_cons_of_mem _ x)) (fun x => h' (List.mem_cons_of_mem _ x)) e.2
    exact ⟨by rw [e.1, e1], e2⟩

theorem duration_not_time {E : Env} {p : Nat} {tz : Option Str} {s : Str} {d : Duration} {t : GoTime} (h : DurationMeans s d) (ht : DateTimeMeans E p tz s t) : False := by
  obtain ⟨c, r, e, hc⟩ := dateTimeMeans_head ht
  rw [duration_head h c r e] at hc
  cases hc

theorem period_known {E E' : Env} {tz : Option Str} {s : Str} (h : ∃ x, PeriodMeans E 0 tz s x) : (∃ x, PeriodMeans E' 0 tz s x) ↔ KnownZone E' tz := by
  obtain ⟨x, h⟩ := h
  cases h with
  | «until» ha h1 h2 =>
    constructor
    · rintro ⟨x', h'⟩
      generalize he : (_ ++ '/' :: _ : Str) = s at h'
      cases h' with
      | «until» ha' h1' h2' =>
        obtain ⟨rfl, rfl⟩ := slash_inj ha ha' he
        exact (time_known ⟨_, h1⟩).1 ⟨_, h1'⟩
      | lasting ha' h1' h2' =>
        obtain ⟨rfl, rfl⟩ := slash_inj ha ha' he
        exact (time_known ⟨_, h1⟩).1 ⟨_, h1'⟩
    · intro hk
      obtain ⟨t, ht⟩ := (time_known ⟨_, h1⟩).2 hk
      obtain ⟨u, hu⟩ := (time_known ⟨_, h2⟩).2 hk
      exact ⟨_, .until ha ht hu⟩
  | lasting ha h1 h2 h3 =>
    constructor
    · rintro ⟨x', h'⟩
      generalize he : (_ ++ '/' :: _ : Str) = s at h'
      cases h' with
      | «until» ha' h1' h2' =>
        obtain ⟨rfl, rfl⟩ := slash_inj ha ha' he
        exact (time_known ⟨_, h1⟩).1 ⟨_, h1'⟩
      | lasting ha' h1' h2' =>
        obtain ⟨rfl, rfl⟩ := slash_inj ha ha' he
        exact (time_known ⟨_, h1⟩).1 ⟨_, h1'⟩
    · intro hk
      obtain ⟨t, ht⟩ := (time_known ⟨_, h1⟩).2 hk
      exact ⟨_, .lasting ha ht h2 h3⟩

theorem period_same {E E' : Env} {tz : Option Str} {s : Str} (h : ∃ x, PeriodMeans E 0 tz s x) :
    (∀ x, PeriodMeans E 0 tz s x → PeriodMeans E' 0 tz s x) ↔ ∀ a b, s = a ++ '/' :: b → '/' ∉ a → SameTime E E' 0 tz a ∧ SameTime E E' 1 tz b := by
  obtain ⟨x, h⟩ := h
  constructor
  · intro hs a b e ha
    cases h with
    | @«until» a0 b0 _ _ ha0 h1 h2 =>
      obtain ⟨rfl, rfl⟩ := slash_inj ha0 ha e
      rw [← time_same, ← time_same]
      have key : ∀ t u, DateTimeMeans E 0 tz a0 t → DateTimeMeans E 1 tz b0 u → DateTimeMeans E' 0 tz a0 t ∧ DateTimeMeans E' 1 tz b0 u := by
        intro t u ht hu
        have := hs _ (.until ha ht hu)
        generalize he : (_ ++ '/' :: _ : Str) = s at this
        cases this with
        | «until» ha' g1 g2 =>
          obtain ⟨rfl, rfl⟩ := slash_inj ha ha' he
          exact ⟨g1, g2⟩
        | lasting ha' g1 g2 =>
          obtain ⟨rfl, rfl⟩ := slash_inj ha ha' he
          exact (duration_not_time g2 hu).elim
      exact ⟨fun t ht => (key t _ ht h2).1, fun u hu => (key _ u h1 hu).2⟩
    | lasting ha0 h1 h2 h3 =>
      obtain ⟨rfl, rfl⟩ := slash_inj ha0 ha e
      refine ⟨?_, fun l w hr => absurd hr (no_reading h2 E 1 tz l w)⟩
      rw [← time_same]
      intro t ht
      have := hs _ (.lasting ha ht h2 h3)
      generalize he : (_ ++ '/' :: _ : Str) = s at this
      cases this with
      | «until» ha' g1 g2 =>
        obtain ⟨rfl, rfl⟩ := slash_inj ha ha' he
        exact g1
      | lasting ha' g1 g2 =>
        obtain ⟨rfl, rfl⟩ := slash_inj ha ha' he
        exact g1
  · intro hs x hx
    cases hx with
    | «until» ha h1 h2 =>
      obtain ⟨g1, g2⟩ := hs _ _ rfl ha
      exact .until ha (time_same.2 g1 _ h1) (time_same.2 g2 _ h2)
    | lasting ha h1 h2 h3 => exact .lasting ha (time_same.2 (hs _ _ rfl ha).1 _ h1) h2 h3

/-! ## Values -/

theorem val_same {E E' : Env} (hL : SameLibrary E E') {look : Str → Option Str} {k : Kind} {s : Str} (h : ∃ v, ValMeans E look k s v) :
    (∀ v, ValMeans E look k s v → ValMeans E' look k s v) ↔ ValSame E E' look k s := by
  cases k with
  | dateTime =>
    rw [show ValSame E E' look .dateTime s = SameTime E E' 0 (look c!"TZID") s from rfl, ← time_same]
    constructor
    · intro hs t ht
      obtain ⟨_, e, h⟩ := hs _ ⟨t, rfl, ht⟩
      cases e
      exact h
    · rintro hs _ ⟨t, rfl, ht⟩
      exact ⟨t, rfl, hs t ht⟩
  | period =>
    obtain ⟨_, x, rfl, hx⟩ := h
    rw [show ValSame E E' look .period s = _ from rfl]
    refine Iff.trans ?_ (period_same ⟨x, hx⟩)
    constructor
    · intro hs t ht
      obtain ⟨_, e, h⟩ := hs _ ⟨t, rfl, ht⟩
      cases e
      exact h
    · rintro hs _ ⟨t, rfl, ht⟩
      exact ⟨t, rfl, hs t ht⟩
  | recur =>
    constructor
    · intro hs t ht
      obtain ⟨_, e, h⟩ := hs _ ⟨t, rfl, ht⟩
      cases e
      exact h
    · rintro hs _ ⟨t, rfl, ht⟩
      exact ⟨t, rfl, hs t ht⟩
  | calAddress | uri => exact ⟨fun _ => trivial, fun _ v ⟨u, e, hu⟩ => ⟨u, e, by rw [hL.url]; exact hu⟩⟩
  | tfloat => exact ⟨fun _ => trivial, fun _ v ⟨u, e, a, b, h1, h2, h3, h4⟩ => ⟨u, e, a, b, h1, h2, by rw [hL.float]; exact h3, by rw [hL.float]; exact h4⟩⟩
  | binary | boolean | date | duration | integer | mtext | text | utcOffset => exact ⟨fun _ => trivial, fun _ v hv => hv⟩

theorem val_known {E E' : Env} (hL : SameLibrary E E') {look : Str → Option Str} {k : Kind} {s : Str} (h : ∃ v, ValMeans E look k s v) :
    (∃ v, ValMeans E' look k s v) ↔ ValKnown E' look k s := by
  cases k with
  | dateTime =>
    obtain ⟨_, x, rfl, hx⟩ := h
    refine Iff.trans ?_ (time_known (E' := E') ⟨x, hx⟩)
    exact ⟨fun ⟨_, t, _, ht⟩ => ⟨t, ht⟩, fun ⟨t, ht⟩ => ⟨_, t, rfl, ht⟩⟩
  | period =>
    obtain ⟨_, x, rfl, hx⟩ := h
    refine Iff.trans ?_ (period_known (E' := E') ⟨x, hx⟩)
    exact ⟨fun ⟨_, t, _, ht⟩ => ⟨t, ht⟩, fun ⟨t, ht⟩ => ⟨_, t, rfl, ht⟩⟩
  | recur => exact ⟨fun ⟨_, t, _, ht⟩ => ⟨t, ht⟩, fun ⟨t, ht⟩ => ⟨_, t, rfl, ht⟩⟩
  | calAddress | uri | tfloat | binary | boolean | date | duration | integer | mtext | text | utcOffset =>
    obtain ⟨v, hv⟩ := h
    exact ⟨fun _ => trivial, fun _ => ⟨v, (val_same hL ⟨v, hv⟩).2 trivial v hv⟩⟩

theorem param_library {E E' : Env} (hL : SameLibrary E E') {ps : List (Str × List PVal)} {d : PDef} {q : Option ParamVal} (h : ParamReads E ps d q) : ParamReads E' ps d q := by
  have key : ∀ {k vs v}, ParamMeans E k vs v → ParamMeans E' k vs v := by
    intro k vs v h
    cases k with
    | url => unfold ParamMeans at h ⊢; rw [hL.url]; exact h
    | urls => unfold ParamMeans at h ⊢; rw [hL.url]; exact h
    | _ => exact h
  unfold ParamReads at h ⊢
  split at h
  · exact h
  · obtain ⟨v, hv, e⟩ := h
    exact ⟨v, key hv, e⟩
  · exact h.elim

theorem line_cases {E : Env} {y : SField × Line} (hw : y.1.spec.wf = true) (h : LineReads E y) :
    (∃ names, y.1.spec.shape = .enum names) ∨
    ∃ params vals qs i n k, y.1.spec.shape = .fields params vals ∧ Pairwise2 (ParamReads E y.2.params) params qs ∧ UsesType vals y.2.params i ∧ vals[i]? = some (n, k) ∧
      (∃ v, ValMeans E (otherParam y.2.params) k y.2.value v) ∧ (∀ k', HasKind y k' ↔ k' = k) ∧ FieldsWf params vals := by
  obtain ⟨⟨key, ⟨name, sh⟩, mult⟩, l⟩ := y
  obtain ⟨r, hr⟩ := h
  dsimp only at *
  cases sh with
  | enum names => exact .inl ⟨names, rfl⟩
  | fields params vals =>
    obtain ⟨qs, i, n, k, v, rfl, h1, h2, h3, h4⟩ := hr
    have hF : FieldsWf params vals := PSpec.wf_fields hw
    refine .inr ⟨params, vals, qs, i, n, k, rfl, h1, h2, h3, ⟨v, h4⟩, ?_, hF⟩
    intro k'
    constructor
    · rintro ⟨_, _, j, n', e, hj, hg⟩
      cases e
      rw [usesType_unique hF hj h2, h3] at hg
      cases hg
      rfl
    · rintro rfl
      exact ⟨_, _, i, n, rfl, h2, h3⟩

theorem line_known {E E' : Env} (hL : SameLibrary E E') {y : SField × Line} (hw : y.1.spec.wf = true) (h : LineReads E y) :
    LineReads E' y ↔ ∀ k, HasKind y k → ValKnown E' (otherParam y.2.params) k y.2.value := by
  rcases line_cases hw h with ⟨names, e⟩ | ⟨params, vals, qs, i, n, k, e, h1, h2, h3, h4, h5, hF⟩
  · obtain ⟨r, hr⟩ := h
    refine ⟨fun _ k hk => ?_, fun _ => ⟨r, ?_⟩⟩
    · obtain ⟨_, _, _, _, e', _⟩ := hk
      rw [e] at e'
      cases e'
    · rw [e] at hr ⊢
      exact hr
  · simp only [h5, forall_eq]
    rw [← val_known hL h4]
    unfold LineReads
    rw [e]
    constructor
    · rintro ⟨r, qs', j, n', k', v, rfl, g1, g2, g3, g4⟩
      rw [usesType_unique hF g2 h2, h3] at g3
      cases g3
      exact ⟨v, g4⟩
    · rintro ⟨v, hv⟩
      exact ⟨_, qs, i, n, k, v, rfl, Pairwise2.imp (fun _ _ => param_library hL) h1, h2, h3, hv⟩

theorem line_same {E E' : Env} (hL : SameLibrary E E') {y : SField × Line} (hw : y.1.spec.wf = true) (h : LineReads E y) :
    LineSame E E' y ↔ ∀ k, HasKind y k → ValSame E E' (otherParam y.2.params) k y.2.value := by
  rcases line_cases hw h with ⟨names, e⟩ | ⟨params, vals, qs, i, n, k, e, h1, h2, h3, h4, h5, hF⟩
  · refine ⟨fun _ k hk => ?_, fun _ r hr => ?_⟩
    · obtain ⟨_, _, _, _, e', _⟩ := hk
      rw [e] at e'
      cases e'
    · rw [e] at hr ⊢
      exact hr
  · simp only [h5, forall_eq]
    rw [← val_same hL h4]
    unfold LineSame
    rw [e]
    have hi : i < vals.length := (List.getElem?_eq_some_iff.1 h3).1
    constructor
    · intro hs v hv
      obtain ⟨qs', j, n', k', v', er, g1, g2, g3, g4⟩ := hs _ ⟨qs, i, n, k, v, rfl, h1, h2, h3, hv⟩
      cases usesType_unique hF g2 h2
      rw [h3] at g3
      cases g3
      injection er with _ er
      have := congrArg (·[i]?) er
      simp only [List.getElem?_set_self (show i < (List.replicate vals.length (none : Option Val)).length by simpa using hi)] at this
      cases this
      exact g4
    · rintro hs _ ⟨qs', j, n', k', v', rfl, g1, g2, g3, g4⟩
      cases usesType_unique hF g2 h2
      rw [h3] at g3
      cases g3
      exact ⟨qs', i, n, k, v', rfl, Pairwise2.imp (fun _ _ => param_library hL) g1, h2, h3, hs _ g4⟩

end Ics
