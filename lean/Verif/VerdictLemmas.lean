import Verif.FaultLemmas
import Verif.CrashLemmas
/-!
# Lemmas: the outcome of Decode in terms of the line at fault
-/

namespace Ics

open Spec

/-! ## Reading ends at one line -/

theorem midway_opening {E : Env} {b : Line} {ls : List Line} {st : List Level} : Midway E (b :: ls) st ↔ Opening b ∧ Sails (Fault E) calStart ls st := by
  constructor
  · rintro ⟨b', k, he, hb, hs⟩
    simp only [List.cons.injEq] at he
    obtain ⟨rfl, rfl⟩ := he
    exact ⟨hb, hs⟩
  · rintro ⟨hb, hs⟩
    exact ⟨b, ls, rfl, hb, hs⟩

theorem midway_ne {E : Env} {ls : List Line} {st : List Level} (h : Midway E ls st) : ls ≠ [] ∧ st ≠ [] := by
  obtain ⟨b, k, rfl, _, hs⟩ := h
  exact ⟨by simp, (sails_ne hs).2⟩

theorem midway_unique {E : Env} {ls : List Line} {st st' : List Level} (h : Midway E ls st) (h' : Midway E ls st') : st = st' := by
  obtain ⟨b, k, rfl, _, hs⟩ := h
  exact sails_unique hs (midway_opening.1 h').2

theorem midway_not_halts {E : Env} {ls pre post : List Line} {st sq : List Level} {m : Line} {q : Level} (h : Midway E ls st) (e : ls = pre ++ m :: post)
    (h1 : Midway E pre (q :: sq)) : ¬ Halts (Fault E) q sq m := by
  obtain ⟨b, k, rfl, _, hs⟩ := h1
  subst e
  exact sails_not_halts (midway_opening.1 h).2 rfl hs

theorem midway_halts_unique {E : Env} {ls pre post pre' post' : List Line} {m m' : Line} {q q' : Level} {sq sq' : List Level} (e : ls = pre ++ m :: post)
    (h : Midway E pre (q :: sq)) (hh : Halts (Fault E) q sq m) (e' : ls = pre' ++ m' :: post') (h' : Midway E pre' (q' :: sq')) (hh' : Halts (Fault E) q' sq' m') :
    pre = pre' ∧ m = m' ∧ post = post' ∧ q = q' ∧ sq = sq' := by
  obtain ⟨b, k, rfl, _, hs⟩ := h
  obtain ⟨b', k', rfl, _, hs'⟩ := h'
  subst e
  simp only [List.cons_append, List.cons.injEq] at e'
  obtain ⟨rfl, e'⟩ := e'
  obtain ⟨rfl, h2⟩ := halts_unique rfl hs hh e' hs' hh'
  exact ⟨rfl, h2⟩

theorem midway_snoc {E : Env} {ls : List Line} {l : Line} {st : List Level} (hn : ls ≠ []) : Midway E (ls ++ [l]) st ↔
    ∃ p q, Midway E ls (p :: q) ∧ (∀ x, ¬ Fault E p l x) ∧ advance p q l = st ∧ st ≠ [] := by
  cases ls with
  | nil => exact absurd rfl hn
  | cons b k =>
    rw [List.cons_append, midway_opening, sails_snoc]
    constructor
    · rintro ⟨hb, p, q, h1, h2⟩
      exact ⟨p, q, midway_opening.2 ⟨hb, h1⟩, h2⟩
    · rintro ⟨p, q, h1, h2⟩
      obtain ⟨hb, h1⟩ := midway_opening.1 h1
      exact ⟨hb, p, q, h1, h2⟩

/-! ## The outcome -/

theorem decodeStream_nil {E : Env} {t : Term} : decodeStream E ⟨[], t⟩ = .err t.err := rfl

theorem decodeStream_closed {E : Env} {t : Term} {l : Line} {r : List Line} (h : ¬ Opening l) : decodeStream E ⟨l :: r, t⟩ = .err .invalidCalendar := by
  rw [decodeStream_steps, if_neg (show ¬ (Begins l ∧ upper l.value = c!"VCALENDAR") from h)]

/-- All lines are read. -/
theorem decodeStream_reading {E : Env} {ls : List Line} {p : Level} {st : List Level} (h : Midway E ls (p :: st)) (t : Term) :
    (p.frame = .alarm ∧ t = .done → decodeStream E ⟨ls, t⟩ = .panic) ∧ (¬ (p.frame = .alarm ∧ t = .done) → decodeStream E ⟨ls, t⟩ = .err t.err) := by
  have h0 := h
  obtain ⟨b, k, rfl, hb, hs⟩ := h
  rcases decodeStream_cases E b hb k with ⟨p', st', hr, ht⟩ | ⟨pre, m, post, q, sq, he, hr, hor⟩
  · have := midway_unique h0 hr
    simp only [List.cons.injEq] at this
    obtain ⟨rfl, rfl⟩ := this
    exact ht t
  · refine absurd ?_ (midway_not_halts h0 (by rw [he]; rfl) hr)
    rcases hor with ⟨e, h1, _⟩ | ⟨h1, _⟩ | ⟨v, h1, h2, _⟩
    · exact Or.inl ⟨_, (h1 _).2 rfl⟩
    · exact Or.inl ⟨_, (h1 _).2 rfl⟩
    · exact Or.inr h2

/-- What is reported. -/
def blame : Option Err → Res Cal
  | some e => .err e
  | none => .panic

/-- A line is at fault. -/
theorem decodeStream_fault {E : Env} {pre : List Line} {l : Line} {r : List Line} {p : Level} {st : List Level} (h : Midway E pre (p :: st)) {x : Option Err} (hf : Fault E p l x)
    (t : Term) : decodeStream E ⟨pre ++ l :: r, t⟩ = blame x := by
  have h0 := h
  obtain ⟨b, k, rfl, hb, hs⟩ := h
  rcases decodeStream_cases E b hb (k ++ l :: r) with ⟨p', st', hr, ht⟩ | ⟨pre, m, post, q, sq, he, hr, hor⟩
  · exact absurd (Or.inl ⟨_, hf⟩) (midway_not_halts hr rfl h0)
  · have hh : Halts (Fault E) q sq m := by
      rcases hor with ⟨e, h1, _⟩ | ⟨h1, _⟩ | ⟨v, h1, h2, _⟩
      · exact Or.inl ⟨_, (h1 _).2 rfl⟩
      · exact Or.inl ⟨_, (h1 _).2 rfl⟩
      · exact Or.inr h2
    obtain ⟨_, rfl, _, rfl, _⟩ := midway_halts_unique (ls := b :: (k ++ l :: r)) rfl h0 (Or.inl ⟨_, hf⟩) (by rw [he]; rfl) hr hh
    rcases hor with ⟨e, h1, h2⟩ | ⟨h1, h2⟩ | ⟨v, h1, _⟩
    · rw [(h1 x).1 hf]; exact h2 t
    · rw [(h1 x).1 hf]; exact h2 t
    · exact absurd hf (h1 x)

/-- A line ends the calendar. -/
theorem decodeStream_completes {E : Env} {pre : List Line} {l : Line} {r : List Line} {p : Level} {st : List Level} (h : Midway E pre (p :: st)) (hf : ∀ x, ¬ Fault E p l x)
    (ha : advance p st l = []) : ∃ c, ∀ t, decodeStream E ⟨pre ++ l :: r, t⟩ = .ok c := by
  have h0 := h
  obtain ⟨b, k, rfl, hb, hs⟩ := h
  rcases decodeStream_cases E b hb (k ++ l :: r) with ⟨p', st', hr, ht⟩ | ⟨pre, m, post, q, sq, he, hr, hor⟩
  · exact absurd (Or.inr ha) (midway_not_halts hr rfl h0)
  · have hh : Halts (Fault E) q sq m := by
      rcases hor with ⟨e, h1, _⟩ | ⟨h1, _⟩ | ⟨v, h1, h2, _⟩
      · exact Or.inl ⟨_, (h1 _).2 rfl⟩
      · exact Or.inl ⟨_, (h1 _).2 rfl⟩
      · exact Or.inr h2
    obtain ⟨_, rfl, _, rfl, _⟩ := midway_halts_unique (ls := b :: (k ++ l :: r)) rfl h0 (Or.inr ha) (by rw [he]; rfl) hr hh
    rcases hor with ⟨e, h1, h2⟩ | ⟨h1, h2⟩ | ⟨v, _, _, h2⟩
    · exact absurd ((h1 _).2 rfl) (hf _)
    · exact absurd ((h1 _).2 rfl) (hf _)
    · exact ⟨v, h2⟩

/-- The blocks that are open when the outermost ends: the line is END, and it is the only one. -/
theorem advance_nil {p : Level} {st : List Level} {l : Line} (h : advance p st l = []) : st = [] ∧ (p.frame ≠ .alarm → Ends l) ∧ (p.frame = .alarm → l.name = c!"END") := by
  obtain ⟨f, n, own⟩ := p
  have hc : close st n = [] → st = [] := by
    cases st with
    | nil => intro _; rfl
    | cons q st => intro h; cases h
  by_cases hf : f = .alarm
  · subst hf
    rw [advance_alarm] at h
    split at h
    · next he => exact ⟨hc h, fun h => absurd rfl h, fun _ => he⟩
    · cases h
  · rw [advance_section (p := ⟨f, n, own⟩) hf] at h
    split at h
    · cases h
    · split at h
      · next he => exact ⟨hc h, fun _ => he, fun e => absurd e hf⟩
      · cases h

/-- The frames around each other: the calendar is the outermost, components are in it, their parts are in these; in unknown components there are only unknown ones. -/
def Chain (st : List Level) : Prop := match st with
  | [] => True
  | p :: st => Chain st ∧ match st with
    | [] => p.frame = .cal
    | q :: _ => p.frame = .unknown ∨ ∃ n, (n, p.frame) ∈ q.frame.parts

theorem enter_mem {f : Frame} (n : Str) : f.enter n = .unknown ∨ ∃ m, (m, f.enter n) ∈ f.parts := by
  unfold Frame.enter
  cases h : f.parts.find? fun x => x.1 = n with
  | none => exact Or.inl rfl
  | some x => exact Or.inr ⟨x.1, List.mem_of_find?_eq_some h⟩

theorem chain_frame {p p' : Level} {st : List Level} (hf : p'.frame = p.frame) (h : Chain (p :: st)) : Chain (p' :: st) := by
  unfold Chain at h ⊢
  refine ⟨h.1, ?_⟩
  cases st with
  | nil => exact hf.trans h.2
  | cons q st => rw [hf]; exact h.2

theorem chain_advance {p : Level} {st : List Level} {l : Line} (h : Chain (p :: st)) : Chain (advance p st l) := by
  obtain ⟨f, n, own⟩ := p
  have hc : Chain (close st n) := by
    cases st with
    | nil => trivial
    | cons q st =>
      unfold Chain at h
      exact chain_frame (p := q) rfl h.1
  by_cases hf : f = .alarm
  · subst hf
    rw [advance_alarm]
    split
    · exact hc
    · exact chain_frame rfl h
  · rw [advance_section (p := ⟨f, n, own⟩) hf]
    split
    · unfold Chain
      exact ⟨h, enter_mem _⟩
    · split
      · exact hc
      · exact chain_frame rfl h

theorem chain_sails {F : Level → Line → Option Err → Prop} {st st' : List Level} {ls : List Line} (h : Sails F st ls st') (hc : Chain st) : Chain st' := by
  induction h with
  | nil _ => exact hc
  | cons _ _ ih => exact ih (chain_advance hc)

theorem chain_reading {E : Env} {ls : List Line} {st : List Level} (h : Midway E ls st) : Chain st := by
  obtain ⟨b, k, rfl, _, hs⟩ := h
  exact chain_sails hs ⟨trivial, rfl⟩

theorem chain_one {p : Level} (h : Chain [p]) : p.frame = .cal := h.2

/-- The kinds of blocks that can be open. -/
def KnownFrame (f : Frame) : Prop := ∃ B : Body, B.Ok ∧ f = match B with
  | .cal => .cal
  | .comp T => .comp T
  | .leaf T => .leaf T
  | .alarm _ => .alarm
  | .unknown => .unknown

theorem chain_known {p : Level} {st : List Level} (h : Chain (p :: st)) : KnownFrame p.frame := by
  induction st generalizing p with
  | nil => rw [chain_one h]; exact ⟨.cal, trivial, rfl⟩
  | cons q st ih =>
    unfold Chain at h
    obtain ⟨h1, h2⟩ := h
    rcases h2 with h2 | ⟨n, h2⟩
    · exact ⟨.unknown, trivial, h2⟩
    · obtain ⟨B, hB, hq⟩ := ih h1
      rw [hq] at h2
      cases B with
      | cal =>
        obtain ⟨x, hx, he⟩ := List.mem_map.1 h2
        simp only [Prod.mk.injEq] at he
        exact ⟨.comp x.2, ⟨x.1, hx⟩, he.2.symm⟩
      | comp T =>
        obtain ⟨x, hx, he⟩ := List.mem_map.1 h2
        obtain ⟨m, k⟩ := x
        simp only [Prod.mk.injEq] at he
        obtain ⟨_, he⟩ := he
        obtain ⟨c, hc⟩ := hB
        cases k with
        | leaf T' => exact ⟨.leaf T', ⟨_, hc, m, hx⟩, he.symm⟩
        | alarm => exact ⟨.alarm [], trivial, he.symm⟩
      | leaf T => cases h2
      | alarm k => cases h2
      | unknown => cases h2

/-- Accepted documents. -/
theorem decodeStream_ok_iff {E : Env} {s : Stream} : (∃ c, decodeStream E s = .ok c) ↔ ∃ pre l r, s.lines = pre ++ l :: r ∧ Completes E pre l := by
  obtain ⟨ls, t⟩ := s
  simp only
  constructor
  · rintro ⟨c, hc⟩
    cases ls with
    | nil => cases hc
    | cons b k =>
      by_cases hb : Opening b
      · rcases decodeStream_cases E b hb k with ⟨p', st', hr, ht⟩ | ⟨pre, m, post, q, sq, he, hr, hor⟩
        · exfalso
          by_cases ha : p'.frame = .alarm ∧ t = .done
          · rw [(ht t).1 ha] at hc; cases hc
          · rw [(ht t).2 ha] at hc; cases hc
        · rcases hor with ⟨e, h1, h2⟩ | ⟨h1, h2⟩ | ⟨v, h1, h2, h3⟩
          · rw [h2] at hc; cases hc
          · rw [h2] at hc; cases hc
          · obtain ⟨rfl, h4, h5⟩ := advance_nil h2
            refine ⟨b :: pre, m, post, by rw [he]; rfl, q, hr, h4 ?_, h1⟩
            rw [chain_one (chain_reading hr)]
            simp
      · rw [decodeStream_closed hb] at hc
        cases hc
  · rintro ⟨pre, l, r, rfl, p, hr, he, hf⟩
    have hp := chain_one (chain_reading hr)
    obtain ⟨c, hc⟩ := decodeStream_completes (r := r) hr hf (by
      rw [advance_section (by rw [hp]; simp), if_neg (show ¬ Begins l from fun hb => absurd ((show upper l.name = c!"BEGIN" from hb).symm.trans he) (by decide)), if_pos he]
      rfl)
    exact ⟨c, hc t⟩

theorem decodeStream_err_iff {E : Env} {s : Stream} {e : Err} : decodeStream E s = .err e ↔
    (s.lines = [] ∧ s.term.err = e) ∨ (∃ l r, s.lines = l :: r ∧ ¬ Opening l ∧ e = .invalidCalendar) ∨
    (∃ p st, Midway E s.lines (p :: st) ∧ s.term.err = e ∧ (p.frame = .alarm → s.term ≠ .done)) ∨
    (∃ pre l r p st, s.lines = pre ++ l :: r ∧ Midway E pre (p :: st) ∧ Fault E p l (some e)) := by
  obtain ⟨ls, t⟩ := s
  simp only
  constructor
  · intro h
    cases ls with
    | nil => cases h; exact Or.inl ⟨rfl, rfl⟩
    | cons b k =>
      by_cases hb : Opening b
      · rcases decodeStream_cases E b hb k with ⟨p', st', hr, ht⟩ | ⟨pre, m, post, q, sq, he, hr, hor⟩
        · by_cases ha : p'.frame = .alarm ∧ t = .done
          · rw [(ht t).1 ha] at h; cases h
          · rw [(ht t).2 ha] at h
            cases h
            exact Or.inr (Or.inr (Or.inl ⟨p', st', hr, rfl, fun h1 h2 => ha ⟨h1, h2⟩⟩))
        · rcases hor with ⟨e', h1, h2⟩ | ⟨h1, h2⟩ | ⟨v, h1, h2, h3⟩
          · rw [h2] at h
            cases h
            exact Or.inr (Or.inr (Or.inr ⟨b :: pre, m, post, q, sq, by rw [he]; rfl, hr, (h1 _).2 rfl⟩))
          · rw [h2] at h; cases h
          · rw [h3] at h; cases h
      · rw [decodeStream_closed hb] at h
        cases h
        exact Or.inr (Or.inl ⟨b, k, rfl, hb, rfl⟩)
  · rintro (⟨rfl, rfl⟩ | ⟨l, r, rfl, hb, rfl⟩ | ⟨p, st, hr, rfl, ha⟩ | ⟨pre, l, r, p, st, rfl, hr, hf⟩)
    · rfl
    · exact decodeStream_closed hb
    · exact (decodeStream_reading hr t).2 fun h => ha h.1 h.2
    · exact decodeStream_fault hr hf t

/-- Inside an alarm there are its own lines and unknown components. -/
theorem alarm_frames {E : Env} {a : AKind} {pre : List Line} {q : Level} {sq : List Level} (hs : Sails (SectFault E) (alarmStart a) pre (q :: sq)) :
    q.frame = .leaf a.tab ∨ q.frame = .unknown := by
  have : ∀ {st st' : List Level} {ls : List Line}, Sails (SectFault E) st ls st' → (∀ q ∈ st, q.frame = .leaf a.tab ∨ q.frame = .unknown) →
      ∀ q ∈ st', q.frame = .leaf a.tab ∨ q.frame = .unknown := by
    intro st st' ls h
    induction h with
    | nil _ => exact id
    | cons _ _ ih =>
      next p st _ l _ _ _ =>
      intro hall
      refine ih ?_
      have hp0 := hall p (List.mem_cons_self ..)
      have hst : ∀ q ∈ st, q.frame = .leaf a.tab ∨ q.frame = .unknown := fun q hq => hall q (List.mem_cons_of_mem _ hq)
      have hpa : p.frame ≠ .alarm := by rcases hp0 with h | h <;> rw [h] <;> simp
      rw [advance_section hpa]
      split
      · intro q hq
        rcases List.mem_cons.1 hq with rfl | hq
        · right
          refine Frame.enter_unknown ?_
          rcases hp0 with h | h <;> rw [h] <;> simp [Frame.parts]
        · exact hall q hq
      · split
        · intro q hq
          cases st with
          | nil => cases hq
          | cons r st =>
            rcases List.mem_cons.1 hq with rfl | hq
            · exact hst r (List.mem_cons_self ..)
            · exact hst q (List.mem_cons_of_mem _ hq)
        · intro q hq
          rcases List.mem_cons.1 hq with rfl | hq
          · exact hp0
          · exact hst q hq
  refine this hs ?_ q (List.mem_cons_self ..)
  intro q hq
  rw [List.mem_singleton.1 hq]
  exact Or.inl rfl

/-- Reading the value of a line in an alarm does not panic. -/
theorem alarm_no_crash {E : Env} {a : AKind} {pre : List Line} {q : Level} {sq : List Level} (hs : Sails (SectFault E) (alarmStart a) pre (q :: sq)) {m : Line} :
    ¬ SectFault E q m none := by
  intro hf
  have hq := alarm_frames hs
  cases hf with
  | crash hf _ _ hd =>
    have hrec := (PSpec.decode_panic hd).1
    rcases hq with h | h
    · rw [h] at hf
      have : ∀ f ∈ a.tab.fields, f.spec.hasRecur = false := by
        cases a <;> decide
      have := this _ hf
      rw [hrec] at this
      cases this
    · rw [h] at hf
      cases hf

/-- A line on which reading its value panics. -/
theorem fault_none_iff {E : Env} {ls : List Line} {p : Level} {st : List Level} (hr : Midway E ls (p :: st)) {l : Line} : Fault E p l none ↔
    CrashLine E l ∧ ∃ f ∈ p.frame.fields, f.key = c!"RRULE" ∧ ¬ HasLine p.own f.key := by
  obtain ⟨B, hB, hp⟩ := chain_known (chain_reading hr)
  have hmult : ∀ f ∈ p.frame.fields, f.key = c!"RRULE" → f.spec = propRecurrenceRule ∧ f.mult = .opt := by
    intro f hf hk
    have key : ∀ fs : List SField, fs.all (fun f => !(f.key == c!"RRULE") || (f.spec == propRecurrenceRule && f.mult == .opt)) = true → f ∈ fs →
        f.spec = propRecurrenceRule ∧ f.mult = .opt := by
      intro fs h hm
      have := List.all_eq_true.1 h f hm
      simpa [hk] using this
    rw [hp] at hf
    cases B with
    | cal => exact key tabCalendar.fields (by decide) hf
    | comp T =>
      obtain ⟨n, hn⟩ := hB
      refine key T.fields ?_ hf
      exact (by decide : ∀ x ∈ tabCalendar.subs, x.2.fields.all (fun f => !(f.key == c!"RRULE") || (f.spec == propRecurrenceRule && f.mult == .opt)) = true) _ hn
    | leaf T =>
      obtain ⟨x, hx, n, hn⟩ := hB
      have : T ∈ [tabStandard, tabDaylight] := leafTab_mem x hx _ hn T rfl
      simp only [List.mem_cons, List.not_mem_nil, or_false] at this
      rcases this with rfl | rfl
      · exact key tabStandard.fields (by decide) hf
      · exact key tabDaylight.fields (by decide) hf
    | alarm k => cases hf
    | unknown => cases hf
  have hsect : p.frame ≠ .alarm → (SectFault E p l none ↔ CrashLine E l ∧ ∃ f ∈ p.frame.fields, f.key = c!"RRULE" ∧ ¬ HasLine p.own f.key) := by
    intro hna
    constructor
    · intro h
      cases h with
      | crash hf hk hor hd =>
        next f =>
        have hB' : f ∈ B.fields := by
          rw [hp] at hf
          cases B with
          | alarm k => cases hf
          | unknown => cases hf
          | _ => exact hf
        obtain ⟨h1, h2⟩ := recur_spec hB hB' (PSpec.decode_panic hd).1
        have hm := hmult f hf h2
        refine ⟨⟨hk.symm.trans h2, ?_⟩, f, hf, h2, hor.resolve_left (by rw [hm.2]; simp)⟩
        rw [h1] at hd
        exact (recur_decode_panic E _ _).1 hd
    · rintro ⟨⟨h1, h2⟩, f, hf, hk, hn⟩
      obtain ⟨hs, hm⟩ := hmult f hf hk
      exact .crash hf (hk.trans h1.symm) (Or.inr hn) (by rw [hs]; exact (recur_decode_panic E _ _).2 h2)
  by_cases hna : p.frame = .alarm
  · constructor
    · intro h
      exfalso
      cases h with
      | sect h => exact h hna
      | alarm _ _ _ _ hs hf => exact alarm_no_crash hs hf
    · rintro ⟨_, f, hf, _⟩
      rw [hna] at hf
      cases hf
  · rw [fault_section _ _ _ hna]
    exact hsect hna

theorem decodeStream_panics_iff {E : Env} {s : Stream} : decodeStream E s = .panic ↔
    (s.term = .done ∧ ∃ p st, Midway E s.lines (p :: st) ∧ p.frame = .alarm) ∨
    (∃ pre l r p st, s.lines = pre ++ l :: r ∧ Midway E pre (p :: st) ∧ Fault E p l none) := by
  obtain ⟨ls, t⟩ := s
  simp only
  constructor
  · intro h
    cases ls with
    | nil => cases h
    | cons b k =>
      by_cases hb : Opening b
      · rcases decodeStream_cases E b hb k with ⟨p', st', hr, ht⟩ | ⟨pre, m, post, q, sq, he, hr, hor⟩
        · by_cases ha : p'.frame = .alarm ∧ t = .done
          · exact Or.inl ⟨ha.2, p', st', hr, ha.1⟩
          · rw [(ht t).2 ha] at h
            cases h
        · rcases hor with ⟨e', h1, h2⟩ | ⟨h1, h2⟩ | ⟨v, h1, h2, h3⟩
          · rw [h2] at h; cases h
          · exact Or.inr ⟨b :: pre, m, post, q, sq, by rw [he]; rfl, hr, (h1 _).2 rfl⟩
          · rw [h3] at h; cases h
      · rw [decodeStream_closed hb] at h
        cases h
  · rintro (⟨rfl, p, st, hr, ha⟩ | ⟨pre, l, r, p, st, rfl, hr, hf⟩)
    · exact (decodeStream_reading hr _).1 ⟨ha, rfl⟩
    · exact decodeStream_fault hr hf t

/-- A document goes on: no line is at fault, and the calendar has not ended. -/
theorem wants_iff_reading {E : Env} {ls : List Line} : Wants E ls ↔ ls = [] ∨ ∃ st, Midway E ls st := by
  constructor
  · intro hw
    cases ls with
    | nil => exact Or.inl rfl
    | cons b k =>
      right
      have hset : ∀ x, ¬ ∀ t, decodeStream E ⟨b :: k, t⟩ = x := by
        intro x hx
        have h1 := (hw .multiple).symm.trans (hx (.error .multiple))
        have h2 := (hw .invalidEnd).symm.trans (hx (.error .invalidEnd))
        rw [← h1] at h2
        cases h2
      by_cases hb : Opening b
      · rcases decodeStream_cases E b hb k with ⟨p', st', hr, ht⟩ | ⟨pre, m, post, q, sq, he, hr, hor⟩
        · exact ⟨_, hr⟩
        · exfalso
          rcases hor with ⟨e', h1, h2⟩ | ⟨h1, h2⟩ | ⟨v, h1, h2, h3⟩
          · exact hset _ h2
          · exact hset _ h2
          · exact hset _ h3
      · exact absurd (fun t => decodeStream_closed hb) (hset _)
  · rintro (rfl | ⟨st, hr⟩)
    · exact wants_nil E
    · cases st with
      | nil => exact absurd rfl (midway_ne hr).2
      | cons p st =>
        intro e
        exact (decodeStream_reading hr (.error e)).2 (fun h => by cases h.2)

theorem midway_one {E : Env} {b : Line} (hb : Opening b) : Midway E [b] calStart := ⟨b, [], rfl, hb, .nil (by simp [calStart])⟩

theorem midway_next {E : Env} {ls : List Line} {l : Line} {p : Level} {st : List Level} (h : Midway E ls (p :: st)) (hw : Wants E (ls ++ [l])) : Midway E (ls ++ [l]) (advance p st l) := by
  rcases wants_iff_reading.1 hw with h1 | ⟨st', h1⟩
  · simp at h1
  · obtain ⟨p', q', h5, _, h7, _⟩ := (midway_snoc (midway_ne h).1).1 h1
    have := midway_unique h h5
    simp only [List.cons.injEq] at this
    obtain ⟨rfl, rfl⟩ := this
    rw [h7]
    exact h1

end Ics
