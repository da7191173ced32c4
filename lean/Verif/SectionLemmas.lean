import Verif.Codec
import Verif.PropertyLemmas
/-!
# Lemmas about the decoding loops

`skip` and `Sect.run` are `dummy` and `Sect.loop` with the fuel they are always given, and satisfy the loops' equations without fuel.
-/

namespace Ics

/-! ## `decodeDummy` -/

theorem dummy_suffix {t : Term} : ∀ {f : Nat} {n : Str} {ls r : List Line}, dummy t f n ls = .ok r → ∃ pre, pre ≠ [] ∧ ls = pre ++ r := by
  intro f
  induction f with
  | zero => intro n ls r h; cases h
  | succ f ih =>
    intro n ls r h
    cases ls with
    | nil => cases h
    | cons l ls =>
      simp only [dummy] at h
      split at h
      · obtain ⟨r1, h1, h2⟩ := Res.bind_eq_ok.1 h
        obtain ⟨p1, _, rfl⟩ := ih h1
        obtain ⟨p2, _, rfl⟩ := ih h2
        exact ⟨l :: (p1 ++ p2), by simp, by simp⟩
      · split at h
        · split at h
          · injection h with h; subst h; exact ⟨[l], by simp, rfl⟩
          · cases h
        · obtain ⟨p1, _, rfl⟩ := ih h
          exact ⟨l :: p1, by simp, rfl⟩

theorem dummy_length {t : Term} {f : Nat} {n : Str} {ls r : List Line} (h : dummy t f n ls = .ok r) : r.length < ls.length := by
  obtain ⟨p, hp, rfl⟩ := dummy_suffix h
  cases p with
  | nil => exact absurd rfl hp
  | cons => simp; omega

theorem dummy_fuel {t : Term} : ∀ {f g : Nat} {ls : List Line}, ls.length < f → ls.length < g → ∀ n, dummy t f n ls = dummy t g n ls := by
  intro f
  induction f with
  | zero => intro g ls h; omega
  | succ f ih =>
    intro g ls hf hg n
    cases g with
    | zero => omega
    | succ g =>
      cases ls with
      | nil => rfl
      | cons l ls =>
        simp only [List.length_cons] at hf hg
        simp only [dummy]
        rw [ih (g := g) (ls := ls) (by omega) (by omega) l.value, ih (g := g) (ls := ls) (by omega) (by omega) n]
        cases hd : dummy t g l.value ls with
        | ok r =>
          have := dummy_length hd
          simp only [Res.ok_bind]
          rw [ih (g := g) (ls := r) (by omega) (by omega) n]
        | err e => rfl
        | panic => rfl

/-- `decodeDummy` with sufficient fuel. -/
def skip (t : Term) (n : Str) (ls : List Line) : Res (List Line) := dummy t (ls.length + 1) n ls

theorem skip_nil (t : Term) (n : Str) : skip t n [] = .err t.err := rfl

theorem skip_cons (t : Term) (n : Str) (l : Line) (r : List Line) :
    skip t n (l :: r) =
      if upper l.name = kBEGIN then (do
        let r ← skip t l.value r
        skip t n r)
      else if upper l.name = kEND then
        if upper l.value = n then .ok r else .err .invalidEnd
      else skip t n r := by
  unfold skip
  simp only [List.length_cons]
  rw [dummy]
  congr 1
  cases hd : dummy t (r.length + 1) l.value r with
  | ok r1 =>
    have := dummy_length hd
    simp only [Res.ok_bind]
    exact dummy_fuel (by omega) (by omega) n
  | err e => rfl
  | panic => rfl

theorem skip_suffix {t : Term} {n : Str} {ls r : List Line} (h : skip t n ls = .ok r) : ∃ pre, pre ≠ [] ∧ ls = pre ++ r := dummy_suffix h

theorem skip_length {t : Term} {n : Str} {ls r : List Line} (h : skip t n ls = .ok r) : r.length < ls.length := dummy_length h

theorem skip_ne_panic (t : Term) : ∀ (k : Nat) (n : Str) (ls : List Line), ls.length ≤ k → skip t n ls ≠ .panic := by
  intro k
  induction k with
  | zero =>
    intro n ls h
    cases ls with
    | nil => intro h; cases h
    | cons => simp at h
  | succ k ih =>
    intro n ls hl
    cases ls with
    | nil => intro h; cases h
    | cons l r =>
      simp only [List.length_cons] at hl
      rw [skip_cons]
      split
      · intro h
        rcases Res.bind_eq_panic.1 h with h | ⟨r1, h1, h2⟩
        · exact ih _ _ (by omega) h
        · have := skip_length h1
          exact ih _ _ (by omega) h2
      · split
        · split <;> (intro h; cases h)
        · exact ih _ _ (by omega)

/-! ## The loops of the sections -/

variable {κ σ : Type}

/-- A decoder of subsections gives back a part of the lines it was given. -/
def Suffix (sub : κ → List Line → Res (σ × List Line)) : Prop := ∀ k ls x r, sub k ls = .ok (x, r) → ∃ pre, ls = pre ++ r

theorem Sect.loop_suffix {E : Env} {T : Tab κ} {sub : κ → List Line → Res (σ × List Line)} {t : Term} (hs : Suffix sub) :
    ∀ {f : Nat} {s : Sect σ} {ls : List Line} {x : Sect σ} {r : List Line}, Sect.loop E T sub t f s ls = .ok (x, r) →
      ∃ pre, pre ≠ [] ∧ ls = pre ++ r := by
  intro f
  induction f with
  | zero => intro s ls x r h; cases h
  | succ f ih =>
    intro s ls x r h
    cases ls with
    | nil => cases h
    | cons l ls =>
      simp only [Sect.loop] at h
      split at h
      · split at h
        · split at h
          · obtain ⟨⟨y, r1⟩, h1, h2⟩ := Res.bind_eq_ok.1 h
            obtain ⟨p1, rfl⟩ := hs _ _ _ _ h1
            obtain ⟨p2, _, rfl⟩ := ih h2
            exact ⟨l :: (p1 ++ p2), by simp, by simp⟩
          · cases h
        · obtain ⟨r1, h1, h2⟩ := Res.bind_eq_ok.1 h
          obtain ⟨p1, _, rfl⟩ := dummy_suffix h1
          obtain ⟨p2, _, rfl⟩ := ih h2
          exact ⟨l :: (p1 ++ p2), by simp, by simp⟩
      · split at h
        · split at h
          · obtain ⟨s1, h1, h2⟩ := Res.bind_eq_ok.1 h
            obtain ⟨p2, _, rfl⟩ := ih h2
            exact ⟨l :: p2, by simp, by simp⟩
          · cases h
        · split at h
          · split at h
            · injection h with h; injection h with h1 h2; subst h2; exact ⟨[l], by simp, rfl⟩
            · cases h
          · obtain ⟨p2, _, rfl⟩ := ih h
            exact ⟨l :: p2, by simp, by simp⟩

theorem Suffix.length {sub : κ → List Line → Res (σ × List Line)} (hs : Suffix sub) {k : κ} {ls : List Line} {x : σ} {r : List Line}
    (h : sub k ls = .ok (x, r)) : r.length ≤ ls.length := by
  obtain ⟨p, rfl⟩ := hs _ _ _ _ h
  simp

theorem Sect.loop_fuel {E : Env} {T : Tab κ} {sub : κ → List Line → Res (σ × List Line)} {t : Term} (hs : Suffix sub) :
    ∀ {f g : Nat} {ls : List Line}, ls.length < f → ls.length < g → ∀ s : Sect σ,
      Sect.loop E T sub t f s ls = Sect.loop E T sub t g s ls := by
  intro f
  induction f with
  | zero => intro g ls h; omega
  | succ f ih =>
    intro g ls hf hg s
    cases g with
    | zero => omega
    | succ g =>
      cases ls with
      | nil => rfl
      | cons l ls =>
        simp only [List.length_cons] at hf hg
        simp only [Sect.loop]
        split
        · split
          · split
            · next i _ _ _ k _ =>
              cases hd : sub k ls with
              | ok x =>
                obtain ⟨x, r⟩ := x
                have := hs.length hd
                simp only [Res.ok_bind]
                exact ih (by omega) (by omega) _
              | err e => rfl
              | panic => rfl
            · rfl
          · cases hd : dummy t (ls.length + 1) (upper l.value) ls with
            | ok r =>
              have := dummy_length hd
              simp only [Res.ok_bind]
              exact ih (by omega) (by omega) _
            | err e => rfl
            | panic => rfl
        · split
          · split
            · next i _ _ fd _ =>
              cases hd : s.addProp E i fd l with
              | ok s1 => simp only [Res.ok_bind]; exact ih (by omega) (by omega) _
              | err e => rfl
              | panic => rfl
            · rfl
          · split
            · rfl
            · exact ih (by omega) (by omega) _

/-- `Sect.loop` with sufficient fuel. -/
def Sect.run (E : Env) (T : Tab κ) (sub : κ → List Line → Res (σ × List Line)) (t : Term) (s : Sect σ) (ls : List Line) :
    Res (Sect σ × List Line) := Sect.loop E T sub t (ls.length + 1) s ls

/-- What a line is to a section. -/
inductive LineKind (κ : Type) where
  /-- the beginning of the subsection with this number -/
  | sub (i : Nat) (k : κ)
  /-- the beginning of an unknown subsection -/
  | unk
  /-- a property of the field with this number -/
  | prop (i : Nat) (f : SField)
  /-- the end of a section -/
  | fin
  /-- none of these -/
  | other

def Tab.kindOf (T : Tab κ) (l : Line) : LineKind κ :=
  if upper l.name = kBEGIN then
    match indexOf (upper l.value) (T.subs.map (·.1)) with
    | some i => match T.subs[i]? with
      | some (_, k) => .sub i k
      | none => .other
    | none => .unk
  else match fieldIdx (upper l.name) T.fields with
    | some i => match T.fields[i]? with
      | some f => .prop i f
      | none => .other
    | none => if upper l.name = kEND then .fin else .other

theorem fieldIdx_some {n : Str} : ∀ {ds : List SField} {i : Nat}, fieldIdx n ds = some i → ∃ d, ds[i]? = some d ∧ d.key = n := by
  intro ds
  induction ds with
  | nil => intro i h; simp [fieldIdx] at h
  | cons d ds ih =>
    intro i h
    unfold fieldIdx at h
    split at h
    · next hn => injection h with h; subst h; exact ⟨d, rfl, hn.symm⟩
    · rw [Option.map_eq_some_iff] at h
      obtain ⟨j, hj, rfl⟩ := h
      obtain ⟨e, he, hn⟩ := ih hj
      exact ⟨e, by simpa using he, hn⟩

theorem fieldIdx_none {n : Str} {ds : List SField} : fieldIdx n ds = none ↔ n ∉ ds.map (·.key) := by
  induction ds with
  | nil => simp [fieldIdx]
  | cons d ds ih =>
    unfold fieldIdx
    split
    · next h => simp [h]
    · next h => simp only [Option.map_eq_none_iff, ih, List.map_cons, List.mem_cons, not_or]; simp [h]

theorem Sect.run_nil {E : Env} {T : Tab κ} {sub : κ → List Line → Res (σ × List Line)} {t : Term} (s : Sect σ) :
    Sect.run E T sub t s [] = .err t.err := rfl

theorem Sect.run_cons {E : Env} {T : Tab κ} {sub : κ → List Line → Res (σ × List Line)} {t : Term} (hs : Suffix sub) (s : Sect σ) (l : Line)
    (r : List Line) :
    Sect.run E T sub t s (l :: r) =
      match T.kindOf l with
      | .sub i k => do
        let x ← sub k r
        Sect.run E T sub t (s.addSub i x.1) x.2
      | .unk => do
        let r ← skip t (upper l.value) r
        Sect.run E T sub t s r
      | .prop i f => do
        let s ← s.addProp E i f l
        Sect.run E T sub t s r
      | .fin => if l.value = T.name then .ok (s, r) else .err .invalidEnd
      | .other => Sect.run E T sub t s r := by
  unfold Sect.run Tab.kindOf
  simp only [List.length_cons]
  rw [Sect.loop]
  by_cases hb : upper l.name = kBEGIN
  · simp only [if_pos hb]
    cases hi : indexOf (upper l.value) (T.subs.map (·.1)) with
    | some i =>
      have hg := indexOf_some _ _ _ hi
      rw [List.getElem?_map] at hg
      obtain ⟨⟨n, k⟩, hk, _⟩ := Option.map_eq_some_iff.1 hg
      simp only [hk]
      cases hd : sub k r with
      | ok x =>
        obtain ⟨x, r1⟩ := x
        have := hs.length hd
        simp only [Res.ok_bind]
        exact Sect.loop_fuel hs (by omega) (by omega) _
      | err e => rfl
      | panic => rfl
    | none =>
      simp only
      show (dummy t (r.length + 1) (upper l.value) r >>= _) = (dummy t (r.length + 1) (upper l.value) r >>= _)
      cases hd : dummy t (r.length + 1) (upper l.value) r with
      | ok r1 =>
        have := dummy_length hd
        simp only [Res.ok_bind]
        exact Sect.loop_fuel hs (by omega) (by omega) _
      | err e => rfl
      | panic => rfl
  · simp only [if_neg hb]
    cases hi : fieldIdx (upper l.name) T.fields with
    | some i =>
      obtain ⟨d, hd, _⟩ := fieldIdx_some hi
      simp only [hd]
    | none =>
      by_cases he : upper l.name = kEND
      · simp only [if_pos he]
      · simp only [if_neg he]

theorem Sect.run_suffix {E : Env} {T : Tab κ} {sub : κ → List Line → Res (σ × List Line)} {t : Term} (hs : Suffix sub) {s : Sect σ}
    {ls : List Line} {x : Sect σ} {r : List Line} (h : Sect.run E T sub t s ls = .ok (x, r)) : ∃ pre, pre ≠ [] ∧ ls = pre ++ r :=
  Sect.loop_suffix hs h

theorem Tab.decode_run (E : Env) (T : Tab κ) (sub : κ → List Line → Res (σ × List Line)) (t : Term) (ls : List Line) :
    T.decode E sub t ls = (do
      let x ← Sect.run E T sub t (T.start σ) ls
      T.finish x.1
      return x) := by
  unfold Tab.decode Sect.run
  rfl

theorem Tab.decode_ok {E : Env} {T : Tab κ} {sub : κ → List Line → Res (σ × List Line)} {t : Term} {ls : List Line} {s : Sect σ}
    {r : List Line} : T.decode E sub t ls = .ok (s, r) ↔ Sect.run E T sub t (T.start σ) ls = .ok (s, r) ∧ T.finish s = .ok () := by
  rw [Tab.decode_run]
  constructor
  · intro h
    obtain ⟨⟨s1, r1⟩, h1, h2⟩ := Res.bind_eq_ok.1 h
    obtain ⟨u, h3, h4⟩ := Res.bind_eq_ok.1 h2
    injection h4 with h4
    injection h4 with h5 h6
    subst h5 h6
    exact ⟨h1, h3⟩
  · rintro ⟨h1, h2⟩
    rw [h1]
    simp only [Res.ok_bind, h2, Res.pure_eq]

theorem Tab.decode_suffix {E : Env} {T : Tab κ} {sub : κ → List Line → Res (σ × List Line)} {t : Term} (hs : Suffix sub) {ls : List Line}
    {x : Sect σ} {r : List Line} (h : T.decode E sub t ls = .ok (x, r)) : ∃ pre, pre ≠ [] ∧ ls = pre ++ r :=
  Sect.run_suffix hs (Tab.decode_ok.1 h).1

theorem noSub_suffix : Suffix noSub := fun k => nomatch k

theorem alarmCollect_ok {t : Term} : ∀ {ls : List Line} {a : Option AKind} {x : Option AKind} {pt r : List Line},
    alarmCollect t a ls = .ok (x, pt, r) → ls = pt ++ r := by
  intro ls
  induction ls with
  | nil => intro a x pt r h; unfold alarmCollect at h; split at h <;> cases h
  | cons l ls ih =>
    intro a x pt r h
    unfold alarmCollect at h
    split at h
    · cases h
    · split at h
      · split at h
        · cases h
        · obtain ⟨⟨x1, p1, r1⟩, h1, h2⟩ := Res.bind_eq_ok.1 h
          injection h2 with h2; injection h2 with h3 h4; injection h4 with h4 h5
          subst h4 h5
          rw [ih h1]; rfl
      · split at h
        · injection h with h; injection h with h1 h2; injection h2 with h2 h3
          subst h2 h3; rfl
        · obtain ⟨⟨x1, p1, r1⟩, h1, h2⟩ := Res.bind_eq_ok.1 h
          injection h2 with h2; injection h2 with h3 h4; injection h4 with h4 h5
          subst h4 h5
          rw [ih h1]; rfl

theorem alarmDecode_suffix {E : Env} {t : Term} {ls : List Line} {x : Sub} {r : List Line} (h : alarmDecode E t ls = .ok (x, r)) :
    ∃ pre, ls = pre ++ r := by
  unfold alarmDecode at h
  obtain ⟨⟨a, pt, r1⟩, h1, h2⟩ := Res.bind_eq_ok.1 h
  dsimp only at h2
  split at h2
  · cases h2
  · obtain ⟨⟨s, _⟩, h3, h4⟩ := Res.bind_eq_ok.1 h2
    injection h4 with h4; injection h4 with h4 h5
    subst h5
    exact ⟨pt, alarmCollect_ok h1⟩

theorem subDecode_suffix (E : Env) (t : Term) : Suffix (subDecode E t) := by
  intro k ls x r h
  unfold subDecode at h
  cases k with
  | alarm => exact alarmDecode_suffix h
  | leaf T =>
    obtain ⟨⟨s, r1⟩, h1, h2⟩ := Res.bind_eq_ok.1 h
    injection h2 with h2; injection h2 with h2 h3
    subst h3
    obtain ⟨p, _, hp⟩ := Tab.decode_suffix noSub_suffix h1
    exact ⟨p, hp⟩

theorem compDecode_suffix (E : Env) (t : Term) : Suffix (compDecode E t) := by
  intro T ls x r h
  obtain ⟨p, _, hp⟩ := Tab.decode_suffix (subDecode_suffix E t) h
  exact ⟨p, hp⟩

end Ics
