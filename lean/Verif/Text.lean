import Verif.Tokeniser
/-!
# Model of the Text and MText value types (types.go:1238-1371)
-/

namespace Ics

/-- `decodeText` (types.go:1251-1286): the decoded text and what is left of the input (empty, or starting at an unescaped ','
or ';').  A backslash at the very end reads rune -1, which `utf8.EncodeRune` writes as U+FFFD. -/
def decodeText : Str → Str × Str
  | [] => ([], [])
  | '\\' :: [] => (['\\', '�'], [])
  | '\\' :: c :: r =>
    let p := decodeText r
    if c = '\\' then ('\\' :: p.1, p.2)
    else if c = ';' then (';' :: p.1, p.2)
    else if c = ',' then (',' :: p.1, p.2)
    else if c = 'N' ∨ c = 'n' then ('\n' :: p.1, p.2)
    else ('\\' :: c :: p.1, p.2)
  | c :: r =>
    if c = ',' ∨ c = ';' then ([], c :: r)
    else
      let p := decodeText r
      (c :: p.1, p.2)

/-- `Text.decode` (types.go:1240-1249). -/
def Text.decode (s : Str) : Res Str :=
  match decodeText s with
  | (t, []) => .ok t
  | _ => .err .invalidText

/-- The switch of `Text.encode` (types.go:1298-1311) for one rune. -/
def escapeC (c : Char) : Str :=
  if c = '\\' then ['\\', '\\']
  else if c = '\n' then ['\\', 'n']
  else if c = ';' then ['\\', ';']
  else if c = ',' then ['\\', ',']
  else [c]

/-- `Text.encode` (types.go:1293-1315). -/
def Text.encode (t : Str) : Str := t.flatMap escapeC

/-- `Text.valid` (types.go:1317-1323). -/
def Text.valid (t : Str) : Res Unit := Res.guard .invalidText (!containsAny isCtl31 t)

/-- The loop of `MText.decode` (types.go:1328-1346); the fuel is one more than the length of the text. -/
def MText.decodeF : Nat → Str → Res (List Str)
  | 0, _ => .err .invalidText
  | fuel + 1, s =>
    match decodeText s with
    | (t, []) => .ok [t]
    | (t, ',' :: r) => do
      let ts ← MText.decodeF fuel r
      .ok (t :: ts)
    | _ => .err .invalidText

/-- `MText.decode` (types.go:1328-1346). -/
def MText.decode (s : Str) : Res (List Str) := MText.decodeF (s.length + 1) s

/-- `MText.encode` (types.go:1353-1361). -/
def MText.encode (ts : List Str) : Str := join [','] (ts.map Text.encode)

/-- `MText.valid` (types.go:1363-1371). -/
def MText.valid : List Str → Res Unit
  | [] => .ok ()
  | t :: ts => do
    Text.valid t
    MText.valid ts

/-! ## Lemmas -/

theorem escapeC_eq (c : Char) : (escapeC c = ['\\', c] ∧ (c = '\\' ∨ c = ';' ∨ c = ',')) ∨
    (escapeC c = ['\\', 'n'] ∧ c = '\n') ∨
    (escapeC c = [c] ∧ c ≠ '\\' ∧ c ≠ ';' ∧ c ≠ ',' ∧ c ≠ '\n') := by
  unfold escapeC
  grind

theorem decodeText_plain {c : Char} (r : Str) (h1 : c ≠ '\\') (h2 : c ≠ ';') (h3 : c ≠ ',') :
    decodeText (c :: r) = (c :: (decodeText r).1, (decodeText r).2) := by
  rw [decodeText.eq_def]
  split
  · next h => cases h
  · next h => injection h with h _; exact absurd h h1
  · next h => injection h with h _; exact absurd h h1
  · next h =>
    injection h with ha hb
    subst ha; subst hb
    rw [if_neg (by simp [h2, h3])]

theorem decodeText_escapeC (c : Char) (r : Str) :
    decodeText (escapeC c ++ r) = (c :: (decodeText r).1, (decodeText r).2) := by
  rcases escapeC_eq c with ⟨h, rfl | rfl | rfl⟩ | ⟨h, rfl⟩ | ⟨h, h1, h2, h3, _⟩
  · rw [h]; rfl
  · rw [h]; rfl
  · rw [h]; rfl
  · rw [h]; rfl
  · rw [h]; exact decodeText_plain r h1 h2 h3

theorem decodeText_encode (t r : Str) (hr : ∀ c ∈ r.head?, c = ',' ∨ c = ';') :
    decodeText (Text.encode t ++ r) = (t, r) := by
  induction t with
  | nil =>
    cases r with
    | nil => rfl
    | cons c r =>
      rcases hr c (by simp) with rfl | rfl <;> rfl
  | cons c t ih =>
    rw [Text.encode, List.flatMap_cons, List.append_assoc, decodeText_escapeC]
    rw [show t.flatMap escapeC = Text.encode t from rfl, ih]

theorem Text.decode_encode (t : Str) : Text.decode (Text.encode t) = .ok t := by
  have := decodeText_encode t [] (by simp)
  rw [List.append_nil] at this
  rw [Text.decode, this]

theorem MText.encode_cons (t u : Str) (ts : List Str) :
    MText.encode (t :: u :: ts) = Text.encode t ++ ',' :: MText.encode (u :: ts) := by
  simp [MText.encode, join]

theorem MText.decodeF_encode : ∀ (ts : List Str) (fuel : Nat), ts ≠ [] → ts.length ≤ fuel →
    MText.decodeF fuel (MText.encode ts) = .ok ts := by
  intro ts
  induction ts with
  | nil => intro _ h; exact absurd rfl h
  | cons t ts ih =>
    intro fuel _ hl
    cases fuel with
    | zero => simp at hl
    | succ fuel =>
      cases ts with
      | nil =>
        have := decodeText_encode t [] (by simp)
        rw [List.append_nil] at this
        simp [MText.encode, join, MText.decodeF, this]
      | cons u ts =>
        rw [MText.encode_cons, MText.decodeF, decodeText_encode t _ (by simp)]
        simp only
        rw [ih fuel (by simp) (by simpa using hl)]
        rfl

theorem join_length (sep : Str) (hs : 0 < sep.length) (ws : List Str) : ws.length ≤ (join sep ws).length + 1 := by
  induction ws with
  | nil => simp
  | cons w ws ih =>
    cases ws with
    | nil => simp [join]
    | cons v ws => simp [join] at ih ⊢; omega

theorem MText.decode_encode (ts : List Str) (h : ts ≠ []) : MText.decode (MText.encode ts) = .ok ts := by
  refine MText.decodeF_encode ts _ h ?_
  have := join_length [','] (by simp) (ts.map Text.encode)
  simpa [MText.encode] using this

theorem decodeText_rest_le : ∀ (n : Nat) (s : Str), s.length ≤ n → (decodeText s).2.length ≤ s.length := by
  intro n
  induction n with
  | zero =>
    intro s h
    have : s = [] := List.length_eq_zero_iff.1 (by omega)
    subst this; simp [decodeText]
  | succ n ih =>
    intro s h
    rw [decodeText.eq_def]
    split
    · simp
    · simp
    · next c r =>
      have := ih r (by simp at h; omega)
      dsimp only
      simp only [List.length_cons] at h ⊢
      split
      · dsimp only; omega
      split
      · dsimp only; omega
      split
      · dsimp only; omega
      split <;> (dsimp only; omega)
    · next c r _ _ =>
      have := ih r (by simp at h; omega)
      simp only [List.length_cons] at h ⊢
      split
      · simp
      · dsimp only; omega

theorem Text.decode_ne_panic (s : Str) : Text.decode s ≠ .panic := by
  unfold Text.decode
  split <;> simp

theorem MText.decodeF_ne_panic : ∀ (f : Nat) (s : Str), MText.decodeF f s ≠ .panic := by
  intro f
  induction f with
  | zero => intro s; simp [MText.decodeF]
  | succ f ih =>
    intro s h
    rw [MText.decodeF] at h
    split at h
    · cases h
    · rcases Res.bind_eq_panic.1 h with h | ⟨_, _, h⟩
      · exact ih _ h
      · cases h
    · cases h

/-- Characters of an encoded text. -/
theorem Text.encode_mem {t : Str} {c : Char} (h : c ∈ Text.encode t) : c ∈ t ∧ c ≠ '\n' ∨ c = '\\' ∨ c = 'n' := by
  rw [Text.encode, List.mem_flatMap] at h
  obtain ⟨d, hd, hc⟩ := h
  rcases escapeC_eq d with ⟨h, h'⟩ | ⟨h, h'⟩ | ⟨h, h1, h2, h3, h4⟩
  · rw [h] at hc
    simp at hc
    rcases hc with rfl | rfl
    · right; left; rfl
    · left; refine ⟨hd, ?_⟩; rcases h' with rfl | rfl | rfl <;> decide
  · rw [h] at hc; simp at hc; right; exact hc
  · rw [h] at hc; simp at hc; subst hc; left; exact ⟨hd, h4⟩

end Ics
