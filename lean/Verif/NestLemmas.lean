import Verif.EverywhereLemmas
/-!
# Lemmas: components are closed one inside the other
-/

namespace Ics

open Spec

/-- Lines other than BEGIN and END inside an alarm: one of them is at fault, or none. -/
theorem flat_sails {E : Env} {T : Tab Empty} {n : Str} : ∀ (ls : List Line) (own : List Item), (∀ l ∈ ls, ¬ Begins l ∧ ¬ Ends l) →
    (∃ pre m post q st x, ls = pre ++ m :: post ∧ Sails (SectFault E) [⟨.leaf T, n, own⟩] pre (q :: st) ∧ SectFault E q m x) ∨
    ∃ own', Sails (SectFault E) [⟨.leaf T, n, own⟩] ls [⟨.leaf T, n, own'⟩] := by
  intro ls
  induction ls with
  | nil => exact fun own _ => Or.inr ⟨own, .nil (by simp)⟩
  | cons l ls ih =>
    intro own hl
    obtain ⟨hb, he⟩ := hl l (List.mem_cons_self ..)
    by_cases hx : ∃ x, SectFault E ⟨.leaf T, n, own⟩ l x
    · obtain ⟨x, hx⟩ := hx
      exact Or.inl ⟨[], l, ls, _, [], x, rfl, .nil (by simp), hx⟩
    · have hx' : ∀ x, ¬ SectFault E ⟨.leaf T, n, own⟩ l x := fun x h => hx ⟨x, h⟩
      have ha : advance ⟨.leaf T, n, own⟩ [] l = [⟨.leaf T, n, own ++ [.line l]⟩] := by
        rw [advance_section (by simp), if_neg hb, if_neg he]
        rfl
      rcases ih (own ++ [.line l]) fun m hm => hl m (List.mem_cons_of_mem _ hm) with ⟨pre, m, post, q, st, x, rfl, h1, h2⟩ | ⟨own', h1⟩
      · exact Or.inl ⟨l :: pre, m, post, q, st, x, rfl, .cons hx' (by rw [ha]; exact h1), h2⟩
      · exact Or.inr ⟨own', .cons hx' (by rw [ha]; exact h1)⟩

/-- The END line of an alarm has its name, if there is no line before that is called BEGIN or END in any case. -/
theorem alarm_ends {E : Env} {u : Level} {l : Line} (hu : u.frame = .alarm) (hown : ∀ m ∈ ownLines u.own, ¬ Begins m ∧ ¬ Ends m) (hl : l.name = c!"END")
    (hf : ∀ x, ¬ Fault E u l x) : l.value = c!"VALARM" := by
  apply Classical.byContradiction
  intro hv
  have he : Ends l := by
    show upper l.name = _
    rw [hl]
    rfl
  by_cases ha : ∃ a, Acts u.own a
  · obtain ⟨a, ha⟩ := ha
    rcases flat_sails (E := E) (T := a.tab) (n := c!"VALARM") (ownLines u.own) [] hown with ⟨pre, m, post, q, st, x, h1, h2, h3⟩ | ⟨own', h1⟩
    · exact hf _ (.alarm hu hl ha (by rw [h1]; simp; rfl) h2 h3)
    · exact hf _ (.alarm hu hl ha (pre := ownLines u.own) (post := []) rfl h1 (.wrongEnd trivial he hv))
  · exact hf _ (.noAction hu hl fun a h => ha ⟨a, h⟩)

/-- A block that is called VALARM. -/
theorem enter_alarm {E : Env} {pre : List Line} {p : Level} {st : List Level} (h : Midway E pre (p :: st)) {n : Str} (ha : p.frame.enter n = .alarm) : n = c!"VALARM" := by
  obtain ⟨B, hB, hk⟩ := chain_known (chain_reading h)
  rw [hk] at ha
  unfold Frame.enter at ha
  split at ha
  · next x hx =>
    have hm := List.mem_of_find?_eq_some hx
    have hn : x.1 = n := by simpa using List.find?_some hx
    rw [← hn]
    cases B with
    | cal =>
      obtain ⟨y, hy, rfl⟩ := List.mem_map.1 hm
      cases ha
    | comp T =>
      obtain ⟨y, hy, rfl⟩ := List.mem_map.1 hm
      obtain ⟨c, hc⟩ := hB
      have : ∀ x ∈ tabCalendar.subs, ∀ y ∈ x.2.subs, (match y.2 with | .leaf _ => true | .alarm => decide (y.1 = c!"VALARM")) = true := by decide +kernel
      have h2 := this _ hc y hy
      obtain ⟨m, k⟩ := y
      cases k with
      | leaf => cases ha
      | alarm => simpa using h2
    | leaf T => cases hm
    | alarm k => cases hm
    | unknown => cases hm
  · cases ha

theorem ending_upper (F : Frame) (n : Str) : upper (F.ending n) = upper n := by
  cases F <;> simp [Frame.ending, upper_idem]

/-- The innermost block is closed, if no alarm has a line BEGIN or END that is not in upper case. -/
theorem sails_closed {E : Env} {st' : List Level} : ∀ (n : Nat) (ls pre : List Line) (u : Level) (st : List Level), ls.length ≤ n → Midway E pre (u :: st) →
    (u.frame = .alarm → u.name = c!"VALARM" ∧ ∀ m ∈ ownLines u.own, ¬ Begins m ∧ ¬ Ends m) →
    (∀ a l b, ls = a ++ l :: b → ∀ p st, Midway E (pre ++ a) (p :: st) → p.frame = .alarm → (Begins l → l.name = c!"BEGIN") ∧ (Ends l → l.name = c!"END")) →
    Sails (Fault E) (u :: st) ls st' → st'.length ≤ st.length →
    ∃ k e r, ls = k ++ e :: r ∧ Closed k ∧ Ends e ∧ upper e.value = upper u.name ∧ Sails (Fault E) (close st u.name) r st' ∧ Midway E (pre ++ k ++ [e]) (close st u.name) := by
  intro n
  induction n with
  | zero =>
    intro ls pre u st hn _ _ _ hs hl
    rw [List.length_eq_zero_iff.1 (Nat.le_zero.1 hn)] at hs
    obtain ⟨rfl, _⟩ := sails_nil hs
    exact absurd hl (by simp)
  | succ n ih =>
    intro ls pre u st hn hm hu hk hs hl
    cases hs with
    | nil _ => exact absurd hl (by simp)
    | @cons _ _ _ l ls hf hs =>
      rw [List.length_cons] at hn
      have hm' : Midway E (pre ++ [l]) (advance u st l) := (midway_snoc (midway_ne hm).1).2 ⟨u, st, hm, hf, rfl, (sails_ne hs).1⟩
      have hk' : ∀ a m b, ls = a ++ m :: b → ∀ p st, Midway E (pre ++ [l] ++ a) (p :: st) → p.frame = .alarm → (Begins m → m.name = c!"BEGIN") ∧ (Ends m → m.name = c!"END") := by
        intro a m b he p st hp ha
        refine hk (l :: a) m b (by rw [he]; rfl) p st ?_ ha
        rw [List.append_assoc] at hp
        exact hp
      -- a line of the block itself
      have hline : ¬ Begins l → ¬ Ends l → (advance u st l = u.add l :: st) → ∃ k e r, l :: ls = k ++ e :: r ∧ Closed k ∧ Ends e ∧ upper e.value = upper u.name ∧
          Sails (Fault E) (close st u.name) r st' ∧ Midway E (pre ++ k ++ [e]) (close st u.name) := by
        intro hb he ha
        rw [ha] at hs hm'
        obtain ⟨k, e, r, rfl, h1, h2, h3, h4, h5⟩ := ih ls (pre ++ [l]) (u.add l) st (by omega) hm' (fun h => ⟨(hu h).1, by
          intro m hm
          simp only [Level.add, ownLines, List.filterMap_append, List.mem_append] at hm
          rcases hm with hm | hm
          · exact (hu h).2 m hm
          · simp at hm
            subst hm
            exact ⟨hb, he⟩⟩) hk' hs hl
        exact ⟨l :: k, e, r, rfl, .line hb he h1, h2, h3, h4, by simpa [Level.add] using h5⟩
      by_cases hfr : u.frame = .alarm
      · have hq := hk [] l ls rfl u st (by simpa using hm) hfr
        have hb : ¬ Begins l := fun h => hf _ (.block hfr (hq.1 h))
        by_cases he : l.name = c!"END"
        · have ha : advance u st l = close st u.name := by
            unfold advance
            rw [hfr]
            exact if_pos he
          rw [ha] at hs hm'
          refine ⟨[], l, ls, rfl, .nil, by show upper l.name = _; rw [he]; rfl, ?_, hs, by simpa using hm'⟩
          rw [alarm_ends hfr (hu hfr).2 he hf, (hu hfr).1]
        · refine hline hb (fun h => he (hq.2 h)) ?_
          unfold advance
          rw [hfr]
          exact if_neg he
      · have ha := advance_section (st := st) (l := l) hfr
        by_cases hb : Begins l
        · rw [if_pos hb] at ha
          rw [ha] at hs hm'
          have hst : (0:Nat) < st'.length := List.length_pos_iff.2 (sails_ne hs).2
          obtain ⟨k1, e1, r1, rfl, h1, h2, h3, h4, h5⟩ := ih ls (pre ++ [l]) _ (u :: st) (by omega) hm' (fun h => ⟨by
            have hv := enter_alarm hm h
            show u.frame.ending l.value = _
            have : u.frame ≠ .unknown := by
              intro h'
              rw [h'] at h
              cases h
            unfold Frame.ending
            split
            · next h' => exact absurd h' this
            · exact hv, by intro m hm; simp [ownLines] at hm⟩) hk' hs (by rw [List.length_cons]; omega)
          rw [List.length_append, List.length_cons] at hn
          obtain ⟨k2, e2, r2, rfl, j1, j2, j3, j4, j5⟩ := ih r1 _ _ st (by omega) h5 (fun h => absurd h hfr) (by
            intro a m b he p st hp ha
            refine hk' (k1 ++ e1 :: a) m b (by rw [he]; simp) p st ?_ ha
            simpa using hp) h4 hl
          refine ⟨l :: k1 ++ e1 :: k2, e2, r2, by simp, .block hb h2 ?_ h1 j1, j2, j3, j4, by simpa using j5⟩
          rw [h3]
          exact ending_upper _ _
        · rw [if_neg hb] at ha
          by_cases he : Ends l
          · rw [if_pos he] at ha
            rw [ha] at hs hm'
            refine ⟨[], l, ls, rfl, .nil, he, ?_, hs, by simpa using hm'⟩
            apply Classical.byContradiction
            intro hv
            by_cases hun : u.frame = .unknown
            · exact hf _ (.sect hfr (.wrongEndUnknown hun he (fun h => hv (by rw [← h, upper_idem]))))
            · refine hf _ (.sect hfr (.wrongEnd ?_ he (fun h => hv (by rw [h]))))
              obtain ⟨F, nm, own⟩ := u
              cases F <;> first | trivial | exact absurd rfl hfr | exact absurd rfl hun
          · rw [if_neg he] at ha
            exact hline hb he ha

/-- All components in the calendar are closed. -/
theorem calendar_closed {E : Env} {st' : List Level} (h1 : st'.length ≤ 1) : ∀ (n : Nat) (ls pre : List Line) (u : Level), ls.length ≤ n → Midway E pre [u] →
    (∀ a l b, ls = a ++ l :: b → ∀ p st, Midway E (pre ++ a) (p :: st) → p.frame = .alarm → (Begins l → l.name = c!"BEGIN") ∧ (Ends l → l.name = c!"END")) →
    Sails (Fault E) [u] ls st' → Closed ls := by
  intro n
  induction n with
  | zero =>
    intro ls pre u hn _ _ _
    rw [List.length_eq_zero_iff.1 (Nat.le_zero.1 hn)]
    exact .nil
  | succ n ih =>
    intro ls pre u hn hm hk hs
    have hfr : u.frame ≠ .alarm := by
      rw [chain_one (chain_reading hm)]
      simp
    cases hs with
    | nil _ => exact .nil
    | @cons _ _ _ l ls hf hs =>
      rw [List.length_cons] at hn
      have hm' : Midway E (pre ++ [l]) (advance u [] l) := (midway_snoc (midway_ne hm).1).2 ⟨u, [], hm, hf, rfl, (sails_ne hs).1⟩
      have hk' : ∀ a m b, ls = a ++ m :: b → ∀ p st, Midway E (pre ++ [l] ++ a) (p :: st) → p.frame = .alarm → (Begins m → m.name = c!"BEGIN") ∧ (Ends m → m.name = c!"END") := by
        intro a m b he p st hp ha
        refine hk (l :: a) m b (by rw [he]; rfl) p st ?_ ha
        rw [List.append_assoc] at hp
        exact hp
      rw [advance_section hfr] at hs hm'
      split at hs
      · next hb =>
        rw [if_pos hb] at hm'
        obtain ⟨k1, e1, r1, rfl, j1, j2, j3, j4, j5⟩ := sails_closed _ ls (pre ++ [l]) _ [u] (Nat.le_refl _) hm' (fun h => by
          have h2 := enter_alarm hm h
          rw [chain_one (chain_reading hm)] at h ⊢
          exact ⟨h2, by intro m hm; simp [ownLines] at hm⟩) hk' hs h1
        rw [List.length_append, List.length_cons] at hn
        refine .block hb j2 ?_ j1 (ih r1 _ _ (by omega) j5 ?_ j4)
        · rw [j3]
          exact ending_upper _ _
        · intro a m b he p st hp ha
          refine hk' (k1 ++ e1 :: a) m b (by rw [he]; simp) p st ?_ ha
          simpa using hp
      · next hb =>
        rw [if_neg hb] at hm'
        split at hs
        · exact absurd rfl (sails_ne hs).1
        · next he =>
          rw [if_neg he] at hm'
          exact .line hb he (ih ls _ _ (by omega) hm' hk' hs)

/-- The calendar keeps its name. -/
theorem sails_last {F : Level → Line → Option Err → Prop} {st st' : List Level} {ls : List Line} (h : Sails F st ls st') :
    st'.getLast?.map (·.name) = st.getLast?.map (·.name) := by
  have hclose : ∀ (p q : Level) (st : List Level) (n : Str), (close (q :: st) n).getLast?.map (·.name) = (p :: q :: st).getLast?.map (·.name) := by
    intro p q st n
    cases st <;> rfl
  induction h with
  | nil _ => rfl
  | @cons p st st' l ls _ h ih =>
    rw [ih]
    have hne := (sails_ne h).1
    have hadd : (p.add l :: st).getLast?.map (·.name) = (p :: st).getLast?.map (·.name) := by cases st <;> rfl
    have hcl : close st p.name ≠ [] → (close st p.name).getLast?.map (·.name) = (p :: st).getLast?.map (·.name) := by
      intro hne
      cases st with
      | nil => exact absurd rfl hne
      | cons q st => exact hclose p q st _
    unfold advance at hne ⊢
    split
    · next hf =>
      rw [hf] at hne
      dsimp only at hne
      split
      · next h => exact hcl (by rwa [if_pos h] at hne)
      · exact hadd
    · next hf =>
      split
      · rfl
      · next hb =>
        split
        · next he =>
          refine hcl ?_
          intro h0
          rw [h0] at hne
          simp only [if_neg hb, if_pos he] at hne
          exact hne rfl
        · exact hadd

theorem accepted_closed {E : Env} {s : Stream} {c : Cal} (h : decodeStream E s = .ok c)
    (hk : ∀ pre l post p st, s.lines = pre ++ l :: post → Midway E pre (p :: st) → p.frame = .alarm → (Begins l → l.name = c!"BEGIN") ∧ (Ends l → l.name = c!"END")) :
    ∃ b k e rest, s.lines = b :: k ++ e :: rest ∧ Opening b ∧ Ends e ∧ e.value = c!"VCALENDAR" ∧ Closed k := by
  obtain ⟨pre, l, r, he, p, hm, hl, hf⟩ := decodeStream_ok_iff.1 ⟨c, h⟩
  have hfr := chain_one (chain_reading hm)
  obtain ⟨b, k, rfl, hb, hs⟩ := hm
  refine ⟨b, k, l, r, he, hb, hl, ?_, ?_⟩
  · apply Classical.byContradiction
    intro hv
    have hn : p.name = c!"VCALENDAR" := by simpa [calStart] using sails_last hs
    exact hf _ (.sect (by rw [hfr]; simp) (.wrongEnd (by rw [hfr]; trivial) hl (by rw [hn]; exact hv)))
  · refine calendar_closed (E := E) (by simp) _ k [b] ⟨.cal, c!"VCALENDAR", []⟩ (Nat.le_refl _) (midway_one hb) ?_ hs
    intro a m b' hq p st hp ha
    refine hk (b :: a) m (b' ++ l :: r) p st ?_ hp ha
    rw [he, hq]
    simp

end Ics
