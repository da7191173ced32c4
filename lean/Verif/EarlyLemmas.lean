import Verif.LocalLemmas
/-!
# Lemmas: either the lines decide the result, or the decoder ran out of lines
-/

namespace Ics

variable {κ σ α : Type}

/-- A result with more lines behind it. -/
def Res.more (q : List Line) : Res (α × List Line) → Res (α × List Line)
  | .ok (a, r) => .ok (a, r ++ q)
  | .err e => .err e
  | .panic => .panic

/-- The decoder needs no more than these lines. -/
def Settled (dec : Term → List Line → Res (α × List Line)) (ls : List Line) : Prop := ∃ x : Res (α × List Line), ∀ t q, dec t (ls ++ q) = x.more q

/-- The decoder gets to the end of these lines and wants more. -/
def Starved {β : Type} (dec : Term → List Line → Res β) (ls : List Line) : Prop :=
  (∀ e, dec (.error e) ls = .err e) ∧ (dec .done ls = .err .unexpectedEOF ∨ dec .done ls = .panic)

def Early (dec : Term → List Line → Res (α × List Line)) : Prop := ∀ ls, Settled dec ls ∨ Starved dec ls

theorem Starved.bind {β γ : Type} {d1 : Term → List Line → Res β} {ls : List Line} (h : Starved d1 ls) (f : Term → β → Res γ) :
    Starved (fun t ls => d1 t ls >>= f t) ls := by
  refine ⟨fun e => ?_, ?_⟩
  · show d1 _ _ >>= _ = _
    rw [h.1 e]; rfl
  · rcases h.2 with h2 | h2
    · exact Or.inl (by show d1 _ _ >>= _ = _; rw [h2]; rfl)
    · exact Or.inr (by show d1 _ _ >>= _ = _; rw [h2]; rfl)

theorem Starved.congr {β : Type} {d1 d2 : Term → List Line → Res β} {l1 l2 : List Line} (h : Starved d1 l1) (e : ∀ t, d2 t l2 = d1 t l1) : Starved d2 l2 := by
  refine ⟨fun x => by rw [e, h.1], ?_⟩
  rw [e]
  exact h.2

theorem starved_nil {β : Type} {dec : Term → List Line → Res β} (h : ∀ t, dec t [] = .err t.err) : Starved dec [] :=
  ⟨fun e => by rw [h]; rfl, Or.inl (by rw [h]; rfl)⟩

/-- `skip` with a result like that of the other decoders. -/
def skipU (n : Str) (t : Term) (ls : List Line) : Res (Unit × List Line) := do
  let r ← skip t n ls
  return ((), r)

theorem skip_early : ∀ (n : Nat) (name : Str) (ls : List Line), ls.length ≤ n → Settled (skipU name) ls ∨ Starved (skipU name) ls := by
  intro n
  induction n with
  | zero =>
    intro name ls hl
    obtain rfl : ls = [] := List.length_eq_zero_iff.1 (by omega)
    exact Or.inr (starved_nil fun t => rfl)
  | succ n ih =>
    intro name ls hl
    cases ls with
    | nil => exact Or.inr (starved_nil fun t => rfl)
    | cons l ls =>
      simp only [List.length_cons] at hl
      by_cases hb : upper l.name = kBEGIN
      · have e : ∀ t q, skipU name t (l :: ls ++ q) = skipU l.value t (ls ++ q) >>= fun r => skipU name t r.2 := by
          intro t q
          unfold skipU
          rw [List.cons_append, skip_cons, if_pos hb]
          cases skip t l.value (ls ++ q) <;> rfl
        rcases ih l.value ls (by omega) with ⟨x, hx⟩ | h
        · cases x with
          | ok y =>
            obtain ⟨u, r⟩ := y
            have h0 := hx .done []
            have hlen : r.length ≤ n := by
              simp only [List.append_nil, Res.more] at h0
              unfold skipU at h0
              obtain ⟨r1, g1, g2⟩ := Res.bind_eq_ok.1 h0
              cases g2
              have := skip_length g1
              omega
            rcases ih name r hlen with ⟨y, hy⟩ | h2
            · exact Or.inl ⟨y, fun t q => by rw [e, hx]; exact hy t q⟩
            · refine Or.inr (h2.congr fun t => ?_)
              have := e t []
              rw [List.append_nil] at this
              rw [this, hx]
              simp [Res.more]
          | err x => exact Or.inl ⟨.err x, fun t q => by rw [e, hx]; rfl⟩
          | panic => exact Or.inl ⟨.panic, fun t q => by rw [e, hx]; rfl⟩
        · refine Or.inr ((h.bind fun t r => skipU name t r.2).congr fun t => ?_)
          have := e t []
          rw [List.append_nil, List.append_nil] at this
          exact this
      · by_cases he : upper l.name = kEND
        · by_cases hv : upper l.value = name
          · exact Or.inl ⟨.ok ((), ls), fun t q => by unfold skipU; rw [List.cons_append, skip_cons, if_neg hb, if_pos he, if_pos hv]; rfl⟩
          · exact Or.inl ⟨.err .invalidEnd, fun t q => by unfold skipU; rw [List.cons_append, skip_cons, if_neg hb, if_pos he, if_neg hv]; rfl⟩
        · have e : ∀ t q, skipU name t (l :: ls ++ q) = skipU name t (ls ++ q) := by
            intro t q
            unfold skipU
            rw [List.cons_append, skip_cons, if_neg hb, if_neg he]
          rcases ih name ls (by omega) with ⟨x, hx⟩ | h
          · exact Or.inl ⟨x, fun t q => by rw [e, hx]⟩
          · exact Or.inr (h.congr fun t => by have := e t []; simpa using this)

theorem Sect.run_early {E : Env} {T : Tab κ} {sub : Term → κ → List Line → Res (σ × List Line)} (hs : ∀ t, Suffix (sub t))
    (hl : ∀ k, Early (fun t => sub t k)) : ∀ (n : Nat) (s : Sect σ) (ls : List Line), ls.length ≤ n →
      Settled (fun t => Sect.run E T (sub t) t s) ls ∨ Starved (fun t => Sect.run E T (sub t) t s) ls := by
  intro n
  induction n with
  | zero =>
    intro s ls hn
    obtain rfl : ls = [] := List.length_eq_zero_iff.1 (by omega)
    exact Or.inr (starved_nil fun t => rfl)
  | succ n ih =>
    intro s ls hn
    cases ls with
    | nil => exact Or.inr (starved_nil fun t => rfl)
    | cons l ls =>
      simp only [List.length_cons] at hn
      have e0 := fun t q => Sect.run_cons (E := E) (T := T) (t := t) (hs t) s l (ls ++ q)
      cases hk : T.kindOf l with
      | sub i k =>
        have e : ∀ t q, Sect.run E T (sub t) t s (l :: ls ++ q) = sub t k (ls ++ q) >>= fun x => Sect.run E T (sub t) t (s.addSub i x.1) x.2 := by
          intro t q
          have := e0 t q
          rw [hk] at this
          exact this
        rcases hl k ls with ⟨x, hx⟩ | h
        · cases x with
          | ok y =>
            obtain ⟨y, r⟩ := y
            have hlen : r.length ≤ n := by
              have h0 := hx .done []
              simp only [Res.more, List.append_nil] at h0
              obtain ⟨pre, hp⟩ := hs _ _ _ _ _ h0
              rw [hp] at hn
              simp at hn
              omega
            rcases ih (s.addSub i y) r hlen with ⟨z, hz⟩ | h2
            · refine Or.inl ⟨z, fun t q => ?_⟩
              have := hx t q
              simp only at this ⊢
              rw [e, this]
              exact hz t q
            · refine Or.inr (h2.congr fun t => ?_)
              have h3 := e t []
              have := hx t []
              simp only [List.append_nil] at h3 this ⊢
              rw [h3, this]
              simp [Res.more]
          | err x => exact Or.inl ⟨.err x, fun t q => by have := hx t q; simp only at this ⊢; rw [e, this]; rfl⟩
          | panic => exact Or.inl ⟨.panic, fun t q => by have := hx t q; simp only at this ⊢; rw [e, this]; rfl⟩
        · refine Or.inr ((h.bind fun t x => Sect.run E T (sub t) t (s.addSub i x.1) x.2).congr fun t => ?_)
          have h3 := e t []
          simpa using h3
      | unk =>
        have e : ∀ t q, Sect.run E T (sub t) t s (l :: ls ++ q) = skipU (upper l.value) t (ls ++ q) >>= fun x => Sect.run E T (sub t) t s x.2 := by
          intro t q
          have := e0 t q
          rw [hk] at this
          rw [List.cons_append, this]
          unfold skipU
          dsimp only
          cases skip t (upper l.value) (ls ++ q) <;> rfl
        rcases skip_early _ (upper l.value) ls (Nat.le_refl _) with ⟨x, hx⟩ | h
        · cases x with
          | ok y =>
            obtain ⟨y, r⟩ := y
            have hlen : r.length ≤ n := by
              have h0 := hx .done []
              simp only [Res.more, List.append_nil] at h0
              unfold skipU at h0
              obtain ⟨r1, g1, g2⟩ := Res.bind_eq_ok.1 h0
              cases g2
              have := skip_length g1
              omega
            rcases ih s r hlen with ⟨z, hz⟩ | h2
            · exact Or.inl ⟨z, fun t q => by have := hx t q; simp only at this ⊢; rw [e, this]; exact hz t q⟩
            · refine Or.inr (h2.congr fun t => ?_)
              have h3 := e t []
              have := hx t []
              simp only [List.append_nil] at h3 this ⊢
              rw [h3, this]
              simp [Res.more]
          | err x => exact Or.inl ⟨.err x, fun t q => by have := hx t q; simp only at this ⊢; rw [e, this]; rfl⟩
          | panic => exact Or.inl ⟨.panic, fun t q => by have := hx t q; simp only at this ⊢; rw [e, this]; rfl⟩
        · refine Or.inr ((h.bind fun t x => Sect.run E T (sub t) t s x.2).congr fun t => ?_)
          have h3 := e t []
          simpa using h3
      | prop i f =>
        have e : ∀ t q, Sect.run E T (sub t) t s (l :: ls ++ q) = s.addProp E i f l >>= fun s => Sect.run E T (sub t) t s (ls ++ q) := by
          intro t q
          have := e0 t q
          rw [hk] at this
          exact this
        cases ha : s.addProp E i f l with
        | ok s1 =>
          rw [ha] at e
          rcases ih s1 ls (by omega) with ⟨z, hz⟩ | h2
          · exact Or.inl ⟨z, fun t q => by simp only; rw [e]; exact hz t q⟩
          · refine Or.inr (h2.congr fun t => ?_)
            have h3 := e t []
            simpa using h3
        | err x => rw [ha] at e; exact Or.inl ⟨.err x, fun t q => by simp only; rw [e]; rfl⟩
        | panic => rw [ha] at e; exact Or.inl ⟨.panic, fun t q => by simp only; rw [e]; rfl⟩
      | fin =>
        by_cases hv : l.value = T.name
        · refine Or.inl ⟨.ok (s, ls), fun t q => ?_⟩
          have := e0 t q
          rw [hk] at this
          simp only [if_pos hv] at this
          exact this
        · refine Or.inl ⟨.err .invalidEnd, fun t q => ?_⟩
          have := e0 t q
          rw [hk] at this
          simp only [if_neg hv] at this
          exact this
      | other =>
        have e : ∀ t q, Sect.run E T (sub t) t s (l :: ls ++ q) = Sect.run E T (sub t) t s (ls ++ q) := by
          intro t q
          have := e0 t q
          rw [hk] at this
          exact this
        rcases ih s ls (by omega) with ⟨z, hz⟩ | h2
        · exact Or.inl ⟨z, fun t q => by simp only; rw [e]; exact hz t q⟩
        · refine Or.inr (h2.congr fun t => ?_)
          have h3 := e t []
          simpa using h3

theorem Tab.decode_early {E : Env} {T : Tab κ} {sub : Term → κ → List Line → Res (σ × List Line)} (hs : ∀ t, Suffix (sub t))
    (hl : ∀ k, Early (fun t => sub t k)) : Early (fun t => T.decode E (sub t) t) := by
  intro ls
  have e : ∀ t ls, T.decode E (sub t) t ls = Sect.run E T (sub t) t (T.start σ) ls >>= fun x => (do T.finish x.1; return x) := fun t ls => rfl
  rcases Sect.run_early hs hl _ (T.start σ) ls (Nat.le_refl _) with ⟨x, hx⟩ | h
  · refine Or.inl ⟨x >>= fun x => (do T.finish x.1; return x), fun t q => ?_⟩
    have := hx t q
    simp only at this ⊢
    rw [e, this]
    cases x with
    | ok y => obtain ⟨y, r⟩ := y; simp only [Res.more, Res.ok_bind]; cases T.finish y <;> rfl
    | err x => rfl
    | panic => rfl
  · exact Or.inr ((h.bind fun t x => (do T.finish x.1; return x)).congr fun t => e t ls)

theorem alarmCollect_early : ∀ (ls : List Line) (a : Option AKind), (∃ x : Res (Option AKind × List Line × List Line), ∀ t q,
      alarmCollect t a (ls ++ q) = (x >>= fun y => .ok (y.1, y.2.1, y.2.2 ++ q))) ∨ Starved (fun t => alarmCollect t a) ls := by
  intro ls
  induction ls with
  | nil => intro a; exact Or.inr ⟨fun e => rfl, Or.inr rfl⟩
  | cons l ls ih =>
    intro a
    by_cases hb : l.name = kBEGIN
    · exact Or.inl ⟨.err .invalidStructure, fun t q => by rw [List.cons_append, alarmCollect, if_pos hb]; rfl⟩
    by_cases ha : l.name = kACTION
    · by_cases hn : a.isSome = true
      · exact Or.inl ⟨.err .invalidStructure, fun t q => by rw [List.cons_append, alarmCollect, if_neg hb, if_pos ha, if_pos hn]; rfl⟩
      · have e : ∀ t q, alarmCollect t a (l :: ls ++ q) = alarmCollect t (AKind.ofAction l.value) (ls ++ q) >>= fun y => .ok (y.1, l :: y.2.1, y.2.2) := by
          intro t q
          rw [List.cons_append, alarmCollect, if_neg hb, if_pos ha, if_neg hn]
          rfl
        rcases ih (AKind.ofAction l.value) with ⟨x, hx⟩ | h
        · exact Or.inl ⟨x >>= fun y => .ok (y.1, l :: y.2.1, y.2.2), fun t q => by rw [e, hx]; cases x <;> rfl⟩
        · refine Or.inr ((h.bind fun t y => .ok (y.1, l :: y.2.1, y.2.2)).congr fun t => ?_)
          have h3 := e t []
          simpa using h3
    by_cases he : l.name = kEND
    · exact Or.inl ⟨.ok (a, [l], ls), fun t q => by rw [List.cons_append, alarmCollect, if_neg hb, if_neg ha, if_pos he]; rfl⟩
    have e : ∀ t q, alarmCollect t a (l :: ls ++ q) = alarmCollect t a (ls ++ q) >>= fun y => .ok (y.1, l :: y.2.1, y.2.2) := by
      intro t q
      rw [List.cons_append, alarmCollect, if_neg hb, if_neg ha, if_neg he]
      rfl
    rcases ih a with ⟨x, hx⟩ | h
    · exact Or.inl ⟨x >>= fun y => .ok (y.1, l :: y.2.1, y.2.2), fun t q => by rw [e, hx]; cases x <;> rfl⟩
    · refine Or.inr ((h.bind fun t y => .ok (y.1, l :: y.2.1, y.2.2)).congr fun t => ?_)
      have h3 := e t []
      simpa using h3

theorem subDecode_early (E : Env) (k : SubKind) : Early (fun t => subDecode E t k) := by
  intro ls
  cases k with
  | alarm =>
    let f : Option AKind × List Line × List Line → Res (Sub × List Line) := fun y => match y.1 with
      | none => .err .missingAlarmAction
      | some k => do
        let (s, _) ← k.tab.decode E noSub (.error .unexpectedEOF) y.2.1
        return (.alarm (some (k, s)), y.2.2)
    have e : ∀ t ls, subDecode E t .alarm ls = alarmCollect t none ls >>= f := fun t ls => rfl
    rcases alarmCollect_early ls none with ⟨x, hx⟩ | h
    · refine Or.inl ⟨x >>= f, fun t q => ?_⟩
      simp only
      rw [e, hx]
      cases x with
      | ok y =>
        obtain ⟨a, p, r⟩ := y
        simp only [Res.ok_bind, f]
        cases a with
        | none => rfl
        | some k =>
          simp only
          cases k.tab.decode E noSub (.error .unexpectedEOF) p <;> rfl
      | err x => rfl
      | panic => rfl
    · exact Or.inr ((h.bind fun t => f).congr fun t => e t ls)
  | leaf T =>
    have e : ∀ t ls, subDecode E t (.leaf T) ls = T.decode E noSub t ls >>= fun x => .ok (.leaf x.1, x.2) := fun t ls => rfl
    rcases Tab.decode_early (E := E) (T := T) (sub := fun _ => noSub) (fun _ => noSub_suffix) (fun k => nomatch k) ls with ⟨x, hx⟩ | h
    · refine Or.inl ⟨x >>= fun x => .ok (.leaf x.1, x.2), fun t q => ?_⟩
      have := hx t q
      simp only at this ⊢
      rw [e, this]
      cases x <;> rfl
    · exact Or.inr ((h.bind fun t x => .ok (.leaf x.1, x.2)).congr fun t => e t ls)

theorem compDecode_early (E : Env) (T : Tab SubKind) : Early (fun t => compDecode E t T) :=
  Tab.decode_early (subDecode_suffix E) (subDecode_early E)

theorem decodeStream_early (E : Env) (ls : List Line) : (∀ t q, decodeStream E ⟨ls ++ q, t⟩ = decodeStream E ⟨ls, .done⟩) ∨
    Starved (fun t ls => decodeStream E ⟨ls, t⟩) ls := by
  cases ls with
  | nil => exact Or.inr (starved_nil fun t => rfl)
  | cons l ls =>
    by_cases hb : upper l.name = kBEGIN ∧ upper l.value = tabCalendar.name
    · have e : ∀ t q, decodeStream E ⟨l :: ls ++ q, t⟩ = tabCalendar.decode E (compDecode E t) t (ls ++ q) >>= fun x => .ok x.1 := by
        intro t q
        unfold decodeStream
        simp only [List.cons_append]
        rw [if_pos hb]
        rfl
      have e' : ∀ t, decodeStream E ⟨l :: ls, t⟩ = tabCalendar.decode E (compDecode E t) t ls >>= fun x => .ok x.1 := by
        intro t
        have := e t []
        simpa using this
      rcases Tab.decode_early (E := E) (T := tabCalendar) (compDecode_suffix E) (compDecode_early E) ls with ⟨x, hx⟩ | h
      · left
        intro t q
        have h1 := hx t q
        have h2 := hx .done []
        simp only [List.append_nil] at h1 h2
        rw [e, e', h1, h2]
        cases x <;> rfl
      · exact Or.inr ((h.bind fun t x => .ok x.1).congr fun t => e' t)
    · left
      intro t q
      unfold decodeStream
      simp only [List.cons_append]
      rw [if_neg hb, if_neg hb]

end Ics
