import Verif.Spec.Pieces
import Verif.WholeLemmas
/-!
# Lemmas for the pieces of what Encode writes
-/

namespace Ics
open Spec

/-! ## Joining -/

theorem joinAll_append (a b : List (Option Bytes)) : joinAll (a ++ b) = (joinAll a).bind fun x => (joinAll b).map (x ++ ·) := by
  induction a with
  | nil => cases h : joinAll b <;> simp [joinAll, h]
  | cons x a ih =>
    cases x with
    | none => rfl
    | some x =>
      simp only [List.cons_append, joinAll, Option.bind_some, ih]
      cases joinAll a <;> cases joinAll b <;> simp

theorem joinAll_mid {a b : List (Option Bytes)} {x : Option Bytes} {o : Bytes} :
    joinAll (a ++ x :: b) = some o ↔ ∃ p q r, joinAll a = some p ∧ x = some q ∧ joinAll b = some r ∧ o = p ++ q ++ r := by
  rw [joinAll_append]
  cases joinAll a with
  | none => simp
  | some p =>
    cases x with
    | none => simp [joinAll]
    | some q =>
      cases hb : joinAll b with
      | none => simp [joinAll, hb]
      | some r =>
        simp only [joinAll, hb, Option.bind_some, Option.map_some, Option.some.injEq]
        constructor
        · rintro rfl; exact ⟨_, _, _, rfl, rfl, rfl, by simp⟩
        · rintro ⟨_, _, _, rfl, rfl, rfl, rfl⟩; simp

theorem pieces_append {α : Type} (f : Nat → α → Option Bytes) (b : List (List α)) : ∀ (a : List (List α)) (i : Nat),
    pieces f i (a ++ b) = pieces f i a ++ pieces f (i + a.length) b
  | [], i => by simp [pieces]
  | l :: a, i => by
    have : i + (l :: a).length = i + 1 + a.length := by simp; omega
    rw [this]
    simp [pieces, pieces_append f b a (i + 1)]

theorem pieces_mid {α : Type} (f : Nat → α → Option Bytes) (a b : List (List α)) (l r : List α) (x : α) :
    pieces f 0 (a ++ (l ++ x :: r) :: b) = (pieces f 0 a ++ l.map (f a.length)) ++ f a.length x :: (r.map (f a.length) ++ pieces f (a.length + 1) b) := by
  rw [pieces_append]
  simp [pieces]

/-! ## Texts and octets -/

/-- The octets of a text at the start of a line. -/
def oct (s : Str) : Bytes := utf8 (foldStr 0 s)

/-- A check and a text. -/
def piece (v : Res Unit) (e : Option Str) : Option Bytes :=
  match v with
  | .ok () => e.map oct
  | _ => none

theorem endCol_crlf (col : UInt8) (s : Str) : endCol col (s ++ crlf) = 0 := by
  rw [endCol_append]; rfl

/-- The text is empty or ends a line. -/
def AtStart (e : Option Str) : Prop := ∀ s, e = some s → endCol 0 s = 0

theorem oct_append {s t : Str} (h : endCol 0 s = 0) : oct (s ++ t) = oct s ++ oct t := by
  unfold oct
  rw [foldStr_append, h, utf8_append]

/-- All checks pass. -/
def allOk : List (Res Unit × Option Str) → Res Unit
  | [] => .ok ()
  | x :: xs => do
    x.1
    allOk xs

theorem allOk_append : ∀ a b : List (Res Unit × Option Str), allOk (a ++ b) = (do allOk a; allOk b)
  | [], b => rfl
  | x :: a, b => by
    simp only [List.cons_append, allOk, allOk_append a b]
    cases x.1 <;> rfl

theorem joined : ∀ (l : List (Res Unit × Option Str)), (∀ x ∈ l, AtStart x.2) →
    joinAll (l.map fun x => piece x.1 x.2) = piece (allOk l) (cat (l.map (·.2))) ∧ AtStart (cat (l.map (·.2)))
  | [], _ => ⟨by simp [joinAll, piece, allOk, cat, oct, foldStr, utf8_nil], fun s h => by cases h; rfl⟩
  | x :: l, h => by
    obtain ⟨h1, h2⟩ := joined l fun y hy => h y (.tail _ hy)
    have hx := h x (.head _)
    obtain ⟨v, e⟩ := x
    refine ⟨?_, ?_⟩
    · simp only [List.map_cons, joinAll, h1]
      cases v with
      | ok u =>
        cases e with
        | none => simp [piece, cat]; cases allOk ((Res.ok (), none) :: l) <;> rfl
        | some s =>
          have : allOk ((Res.ok u, some s) :: l) = allOk l := rfl
          rw [this]
          cases allOk l with
          | ok w =>
            simp only [piece, cat, Option.map_some, Option.bind_some]
            cases cat (l.map (·.2)) with
            | none => rfl
            | some t => simp [oct_append (hx s rfl)]
          | err e => rfl
          | panic => rfl
      | err e => rfl
      | panic => rfl
    · intro s hs
      simp only [List.map_cons, cat] at hs
      cases e with
      | none => cases hs
      | some a =>
        cases hc : cat (l.map (·.2)) with
        | none => rw [hc] at hs; cases hs
        | some b =>
          rw [hc] at hs; cases hs
          rw [endCol_append, hx a rfl, h2 b hc]

/-! ## Properties and sections -/

theorem PSpec.encode_start (E : Env) (sp : PSpec) (v : PropVal) : AtStart (sp.encode E v) := by
  intro s h
  unfold PSpec.encode at h
  split at h
  · cases h; exact endCol_crlf _ _
  · cases hc : cat _ with
    | none => rw [hc] at h; cases h
    | some t => rw [hc] at h; cases h; exact endCol_crlf _ _
  · cases h; rfl

variable {κ σ : Type}

/-- A property: its check and its text. -/
def propPiece (E : Env) (fs : List SField) (i : Nat) (v : PropVal) : Option Bytes :=
  match fs[i]? with
  | some f => piece (f.spec.valid v) (f.spec.encode E v)
  | none => none

/-- A subsection: its check and its text. -/
def subPiece (enc : κ → σ → Option Str) (val : κ → σ → Res Unit) (ks : List (Str × κ)) (i : Nat) (x : σ) : Option Bytes :=
  match ks[i]? with
  | some (_, k) => piece (val k x) (enc k x)
  | none => none

/-- The checks and texts of the properties. -/
def fieldEntries (E : Env) : List SField → List (List PropVal) → List (Res Unit × Option Str)
  | f :: fs, v :: vs => v.map (fun p => (f.spec.valid p, f.spec.encode E p)) ++ fieldEntries E fs vs
  | _, _ => []

def subEntries (enc : κ → σ → Option Str) (val : κ → σ → Res Unit) : List (Str × κ) → List (List σ) → List (Res Unit × Option Str)
  | (_, k) :: ks, v :: vs => v.map (fun p => (val k p, enc k p)) ++ subEntries enc val ks vs
  | _, _ => []

theorem allOk_map {α : Type} (f : α → Res Unit) (g : α → Option Str) : ∀ l : List α, allOk (l.map fun x => (f x, g x)) = checks f l
  | [] => rfl
  | x :: l => by simp only [List.map_cons, allOk, checks, allOk_map f g l]

theorem fieldEntries_valid (E : Env) : ∀ (fs : List SField) (vs : List (List PropVal)), allOk (fieldEntries E fs vs) = validFields fs vs
  | [], _ => by cases ‹List (List PropVal)› <;> rfl
  | _ :: _, [] => rfl
  | f :: fs, v :: vs => by
    simp only [fieldEntries, validFields, allOk_append, fieldEntries_valid E fs vs]
    rw [allOk_map (fun p => f.spec.valid p)]

theorem subEntries_valid (enc : κ → σ → Option Str) (val : κ → σ → Res Unit) : ∀ (ks : List (Str × κ)) (vs : List (List σ)), allOk (subEntries enc val ks vs) = validSubs val ks vs
  | [], _ => by cases ‹List (List σ)› <;> rfl
  | _ :: _, [] => rfl
  | k :: ks, v :: vs => by
    simp only [subEntries, validSubs, allOk_append, subEntries_valid enc val ks vs]
    rw [allOk_map (fun p => val k.2 p)]

theorem fieldEntries_enc (E : Env) : ∀ (fs : List SField) (vs : List (List PropVal)), (fieldEntries E fs vs).map (·.2) = encFields E fs vs
  | [], _ => by cases ‹List (List PropVal)› <;> rfl
  | _ :: _, [] => rfl
  | f :: fs, v :: vs => by simp [fieldEntries, encFields, fieldEntries_enc E fs vs]

theorem subEntries_enc (enc : κ → σ → Option Str) (val : κ → σ → Res Unit) : ∀ (ks : List (Str × κ)) (vs : List (List σ)), (subEntries enc val ks vs).map (·.2) = encSubs enc ks vs
  | [], _ => by cases ‹List (List σ)› <;> rfl
  | _ :: _, [] => rfl
  | k :: ks, v :: vs => by simp [subEntries, encSubs, subEntries_enc enc val ks vs]

theorem fieldEntries_pieces (E : Env) (all : List SField) : ∀ (fs : List SField) (vs : List (List PropVal)) (i : Nat), all.drop i = fs → vs.length ≤ fs.length →
    (fieldEntries E fs vs).map (fun x => piece x.1 x.2) = pieces (propPiece E all) i vs
  | [], [], _, _, _ => rfl
  | [], _ :: _, _, _, h => by simp at h
  | _ :: _, [], _, _, _ => rfl
  | f :: fs, v :: vs, i, hd, h => by
    have hi : all[i]? = some f := by rw [← List.head?_drop, hd]; rfl
    have hn : all.drop (i + 1) = fs := by rw [← List.tail_drop, hd]; rfl
    simp only [fieldEntries, pieces, List.map_append, fieldEntries_pieces E all fs vs (i + 1) hn (by simpa using h), List.map_map]
    congr 1
    apply List.map_congr_left
    intro p _
    simp [propPiece, hi]

theorem subEntries_pieces (enc : κ → σ → Option Str) (val : κ → σ → Res Unit) (all : List (Str × κ)) : ∀ (ks : List (Str × κ)) (vs : List (List σ)) (i : Nat), all.drop i = ks →
    vs.length ≤ ks.length → (subEntries enc val ks vs).map (fun x => piece x.1 x.2) = pieces (subPiece enc val all) i vs
  | [], [], _, _, _ => rfl
  | [], _ :: _, _, _, h => by simp at h
  | _ :: _, [], _, _, _ => rfl
  | k :: ks, v :: vs, i, hd, h => by
    have hi : all[i]? = some k := by rw [← List.head?_drop, hd]; rfl
    have hn : all.drop (i + 1) = ks := by rw [← List.tail_drop, hd]; rfl
    simp only [subEntries, pieces, List.map_append, subEntries_pieces enc val all ks vs (i + 1) hn (by simpa using h), List.map_map]
    congr 1
    apply List.map_congr_left
    intro p _
    simp [subPiece, hi]

theorem fieldEntries_start (E : Env) : ∀ (fs : List SField) (vs : List (List PropVal)), ∀ x ∈ fieldEntries E fs vs, AtStart x.2
  | [], _, x, h => by cases ‹List (List PropVal)› <;> cases h
  | _ :: _, [], x, h => by cases h
  | f :: fs, v :: vs, x, h => by
    simp only [fieldEntries, List.mem_append, List.mem_map] at h
    rcases h with ⟨p, _, rfl⟩ | h
    · exact PSpec.encode_start E _ _
    · exact fieldEntries_start E fs vs x h

theorem subEntries_start {enc : κ → σ → Option Str} (val : κ → σ → Res Unit) (he : ∀ k x, AtStart (enc k x)) : ∀ (ks : List (Str × κ)) (vs : List (List σ)),
    ∀ x ∈ subEntries enc val ks vs, AtStart x.2
  | [], _, x, h => by cases ‹List (List σ)› <;> cases h
  | _ :: _, [], x, h => by cases h
  | k :: ks, v :: vs, x, h => by
    simp only [subEntries, List.mem_append, List.mem_map] at h
    rcases h with ⟨p, _, rfl⟩ | h
    · exact he _ _
    · exact subEntries_start val he ks vs x h

theorem lineOf_start (a b : Str) : AtStart (some (lineOf a b)) := by
  intro s h; cases h; exact endCol_crlf _ _

/-- What is written for a section, if its checks pass. -/
theorem sect_joined (E : Env) {enc : κ → σ → Option Str} {val : κ → σ → Res Unit} (he : ∀ k x, AtStart (enc k x)) (T : Tab κ) (a b : List (Str × Str)) (s : Sect σ)
    (hf : s.fields.length ≤ T.fields.length) (hs : s.subs.length ≤ T.subs.length) :
    piece (T.valid val s) (cat (a.map (fun x => some (lineOf x.1 x.2)) ++ T.body E enc s ++ b.map fun x => some (lineOf x.1 x.2))) =
      joinAll (a.map (fun x => some (oct (lineOf x.1 x.2))) ++ pieces (propPiece E T.fields) 0 s.fields ++ pieces (subPiece enc val T.subs) 0 s.subs ++
        b.map fun x => some (oct (lineOf x.1 x.2))) := by
  have h := (joined (a.map (fun x => (Res.ok (), some (lineOf x.1 x.2))) ++ (fieldEntries E T.fields s.fields ++ subEntries enc val T.subs s.subs) ++
    b.map fun x => (Res.ok (), some (lineOf x.1 x.2))) (by
      intro x hx
      simp only [List.mem_append, List.mem_map] at hx
      rcases hx with (⟨y, _, rfl⟩ | hx | hx) | ⟨y, _, rfl⟩
      · exact lineOf_start _ _
      · exact fieldEntries_start E _ _ x hx
      · exact subEntries_start val he _ _ x hx
      · exact lineOf_start _ _)).1
  have hl : ∀ l : List (Str × Str), allOk (l.map fun x => (Res.ok (), some (lineOf x.1 x.2))) = .ok () := by
    intro l
    induction l with
    | nil => rfl
    | cons x l ih => exact ih
  have hv : ∀ r : Res Unit, (do r; Res.ok ()) = r := by intro r; cases r <;> rfl
  simp only [List.map_append, List.map_map, allOk_append, fieldEntries_valid, subEntries_valid, fieldEntries_enc, subEntries_enc,
    fieldEntries_pieces E T.fields T.fields s.fields 0 rfl hf, subEntries_pieces enc val T.subs T.subs s.subs 0 rfl hs, hl] at h
  rw [hv] at h
  unfold Tab.body
  simp only [List.append_assoc] at h ⊢
  exact h.symm

theorem joinAll_head (a : List Bytes) (l : List (Option Bytes)) : joinAll (a.map some ++ l) = joinAll ([some a.flatten] ++ l) := by
  induction a with
  | nil => cases h : joinAll l <;> simp [joinAll, h]
  | cons x a ih =>
    simp only [List.map_cons, List.cons_append, joinAll, Option.bind_some, ih, List.flatten_cons, List.nil_append]
    cases joinAll l <;> simp

/-- The octets of lines. -/
def heads (a : List (Str × Str)) : Bytes := (a.map fun x => oct (lineOf x.1 x.2)).flatten

theorem sect_composed (E : Env) {enc : κ → σ → Option Str} {val : κ → σ → Res Unit} (he : ∀ k x, AtStart (enc k x)) (T : Tab κ) (a : List (Str × Str)) (b : Str × Str) (s : Sect σ)
    (hf : s.fields.length ≤ T.fields.length) (hs : s.subs.length ≤ T.subs.length) :
    piece (T.valid val s) (cat (a.map (fun x => some (lineOf x.1 x.2)) ++ T.body E enc s ++ [some (lineOf b.1 b.2)])) =
      composed (heads a) (oct (lineOf b.1 b.2)) (propPiece E T.fields) (subPiece enc val T.subs) s := by
  have h := sect_joined E he T a [b] s hf hs (val := val)
  have h2 : a.map (fun x => some (oct (lineOf x.1 x.2))) = (a.map fun x => oct (lineOf x.1 x.2)).map some := by simp
  rw [h2] at h
  unfold composed
  simp only [List.append_assoc] at h ⊢
  rw [joinAll_head] at h
  exact h

/-! ## The sections -/

theorem cat_start {l : List (Option Str)} {b : Str × Str} : AtStart (cat (l ++ [some (lineOf b.1 b.2)])) := by
  intro s h
  rw [cat_append] at h
  cases hl : cat l with
  | none => rw [hl] at h; cases h
  | some t =>
    rw [hl] at h
    simp only [cat] at h
    cases h
    have : t ++ (lineOf b.1 b.2 ++ []) = (t ++ (b.1 ++ ':' :: b.2)) ++ crlf := by simp [lineOf]
    rw [this]
    exact endCol_crlf 0 _

theorem subEncode_start (E : Env) (k : SubKind) (s : Sub) : AtStart (subEncode E k s) := by
  unfold subEncode
  split
  · unfold alarmEncode
    split
    · intro s h; cases h; rfl
    · exact cat_start (b := (_, _))
  · exact cat_start (b := (_, _))
  · intro s h; cases h; rfl

theorem typedFields_length : ∀ {fs : List SField} {vs : List (List PropVal)}, typedFields fs vs = true → vs.length = fs.length
  | [], [], _ => rfl
  | [], _ :: _, h => by simp [typedFields] at h
  | _ :: _, [], h => by simp [typedFields] at h
  | f :: fs, v :: vs, h => by
    simp only [typedFields, Bool.and_eq_true] at h
    simp [typedFields_length h.2]

theorem typedSubs_length {typ : κ → σ → Bool} : ∀ {ks : List (Str × κ)} {vs : List (List σ)}, typedSubs typ ks vs = true → vs.length = ks.length
  | [], [], _ => rfl
  | [], _ :: _, h => by simp [typedSubs] at h
  | _ :: _, [], h => by simp [typedSubs] at h
  | (_, k) :: ks, v :: vs, h => by
    simp only [typedSubs, Bool.and_eq_true] at h
    simp [typedSubs_length h.2]

theorem Tab.typed_length {T : Tab κ} {typ : κ → σ → Bool} {s : Sect σ} (h : T.typed typ s = true) :
    s.fields.length ≤ T.fields.length ∧ s.subs.length ≤ T.subs.length := by
  simp only [Tab.typed, Bool.and_eq_true] at h
  rw [typedFields_length h.1, typedSubs_length h.2]
  exact ⟨Nat.le_refl _, Nat.le_refl _⟩

theorem typedSubs_at {typ : κ → σ → Bool} : ∀ {ks : List (Str × κ)} {vs : List (List σ)} {i : Nat}, typedSubs typ ks vs = true →
    ∀ y ∈ vs.getD i [], ∃ k, ks[i]? = some k ∧ typ k.2 y = true
  | [], [], _, _, y, hy => by simp at hy
  | [], _ :: _, _, h, _, _ => by simp [typedSubs] at h
  | _ :: _, [], _, h, _, _ => by simp [typedSubs] at h
  | (_, k) :: ks, v :: vs, 0, h, y, hy => by
    simp only [typedSubs, Bool.and_eq_true] at h
    exact ⟨_, rfl, List.all_eq_true.1 h.1 y hy⟩
  | (_, k) :: ks, v :: vs, i + 1, h, y, hy => by
    simp only [typedSubs, Bool.and_eq_true] at h
    simpa using typedSubs_at h.2 y (i := i) (by simpa using hy)

/-! ## Contexts -/

theorem octets_map_iff {x : Option Bytes} {f : Bytes → Bytes} {o : Bytes} : x.map f = some o ↔ ∃ m, x = some m ∧ o = f m := by
  cases x <;> simp [eq_comm]

theorem joinAll_ctx (a b : List (Option Bytes)) : (∀ x, joinAll (a ++ x :: b) = none) ∨
    ∃ p q, joinAll (a ++ b) = some (p ++ q) ∧ ∀ x : Option Bytes, joinAll (a ++ x :: b) = x.map fun m => p ++ m ++ q := by
  simp only [joinAll_append, joinAll]
  cases joinAll a with
  | none => left; intro x; rfl
  | some p =>
    cases joinAll b with
    | none => left; intro x; cases x <;> rfl
    | some q => right; exact ⟨p, q, rfl, fun x => by cases x <;> simp⟩

theorem composed_sub_ctx (h t : Bytes) (p : Nat → PropVal → Option Bytes) (b : Nat → σ → Option Bytes) (F : List (List PropVal)) (A B : List (List σ)) (l r : List σ) :
    (∀ x, composed h t p b ⟨F, A ++ (l ++ x :: r) :: B⟩ = none) ∨
    ∃ u v, composed h t p b ⟨F, A ++ (l ++ r) :: B⟩ = some (u ++ v) ∧ ∀ x, composed h t p b ⟨F, A ++ (l ++ x :: r) :: B⟩ = (b A.length x).map fun m => u ++ m ++ v := by
  have e0 : ∀ x, composed h t p b ⟨F, A ++ (l ++ x :: r) :: B⟩ =
      joinAll (([some h] ++ pieces p 0 F ++ (pieces b 0 A ++ l.map (b A.length))) ++ b A.length x :: ((r.map (b A.length) ++ pieces b (A.length + 1) B) ++ [some t])) := by
    intro x; unfold composed; simp only [pieces_mid, List.append_assoc, List.cons_append]
  have e1 : composed h t p b ⟨F, A ++ (l ++ r) :: B⟩ =
      joinAll (([some h] ++ pieces p 0 F ++ (pieces b 0 A ++ l.map (b A.length))) ++ ((r.map (b A.length) ++ pieces b (A.length + 1) B) ++ [some t])) := by
    unfold composed; simp [pieces_append, pieces]
  rcases joinAll_ctx (([some h] ++ pieces p 0 F ++ (pieces b 0 A ++ l.map (b A.length)))) ((r.map (b A.length) ++ pieces b (A.length + 1) B) ++ [some t]) with h1 | ⟨u, v, h1, h2⟩
  · left; intro x; rw [e0, h1]
  · right; exact ⟨u, v, by rw [e1, h1], fun x => by rw [e0, h2]⟩

theorem composed_prop_ctx (h t : Bytes) (p : Nat → PropVal → Option Bytes) (b : Nat → σ → Option Bytes) (S : List (List σ)) (A B : List (List PropVal)) (l r : List PropVal) :
    (∀ x, composed h t p b ⟨A ++ (l ++ x :: r) :: B, S⟩ = none) ∨
    ∃ u v, composed h t p b ⟨A ++ (l ++ r) :: B, S⟩ = some (u ++ v) ∧ ∀ x, composed h t p b ⟨A ++ (l ++ x :: r) :: B, S⟩ = (p A.length x).map fun m => u ++ m ++ v := by
  have e0 : ∀ x, composed h t p b ⟨A ++ (l ++ x :: r) :: B, S⟩ =
      joinAll (([some h] ++ (pieces p 0 A ++ l.map (p A.length))) ++ p A.length x :: ((r.map (p A.length) ++ pieces p (A.length + 1) B) ++ pieces b 0 S ++ [some t])) := by
    intro x; unfold composed; simp only [pieces_mid, List.append_assoc, List.cons_append]
  have e1 : composed h t p b ⟨A ++ (l ++ r) :: B, S⟩ =
      joinAll (([some h] ++ (pieces p 0 A ++ l.map (p A.length))) ++ ((r.map (p A.length) ++ pieces p (A.length + 1) B) ++ pieces b 0 S ++ [some t])) := by
    unfold composed; simp [pieces_append, pieces]
  rcases joinAll_ctx ([some h] ++ (pieces p 0 A ++ l.map (p A.length))) ((r.map (p A.length) ++ pieces p (A.length + 1) B) ++ pieces b 0 S ++ [some t]) with h1 | ⟨u, v, h1, h2⟩
  · left; intro x; rw [e0, h1]
  · right; exact ⟨u, v, by rw [e1, h1], fun x => by rw [e0, h2]⟩

end Ics
