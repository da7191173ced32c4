import Verif.EditLemmas
import Verif.DecodedLemmas
/-!
# Lemmas: the place in a document that the decoder has got to
-/

namespace Ics

open Spec

variable {κ σ α β : Type}

/-- In a document that can be completed, the decoder gets to the body. -/
theorem Spec.Inside.at {E : Env} {t : Term} {B : Body} {pre : List Line} (h : Inside B pre) {r0 : List Line} {c : Cal}
    (hok : decodeStream E ⟨pre ++ r0, t⟩ = .ok c) :
    ∃ (s : B.State) (K : Res B.Result → Res Cal), Strict K ∧ ∀ r, decodeStream E ⟨pre ++ r, t⟩ = K (B.run E t s r) := by
  rcases h.reaches E with ⟨res, hf, hr⟩ | ⟨s, h⟩
  · exact absurd ((hr t r0).symm.trans hok) (hf c)
  · obtain ⟨K, hK, h⟩ := h t
    exact ⟨s, K, hK.1, h⟩

/-- An accepted document is accepted whatever stops the decoder behind its lines. -/
theorem decodeStream_term {E : Env} {ls : List Line} {t : Term} {c : Cal} (h : decodeStream E ⟨ls, t⟩ = .ok c) (t' : Term) : decodeStream E ⟨ls, t'⟩ = .ok c := by
  obtain ⟨b, k, e, r, h1, _, _, _, _, h2⟩ := decodeStream_local h
  rw [show ls = b :: k ++ e :: r from h1]
  exact h2 t' r

/-- What the decoder makes of the end of the document. -/
def Spec.Body.eof : Body → Res Cal
  | .alarm _ => .panic
  | _ => .err .unexpectedEOF

theorem Spec.Inside.cut {E : Env} {B : Body} {pre : List Line} (h : Inside B pre) {r0 : List Line} {c : Cal} {t : Term}
    (hok : decodeStream E ⟨pre ++ r0, t⟩ = .ok c) : decodeStream E ⟨pre, .done⟩ = B.eof := by
  have hok' := decodeStream_term hok .done
  obtain ⟨s, K, hK, hr⟩ := h.at hok'
  have h0 := hr []
  rw [List.append_nil] at h0
  rw [h0]
  cases B with
  | cal => exact hK.1 _
  | comp T => exact hK.1 _
  | leaf T => exact hK.1 _
  | unknown => exact hK.1 _
  | alarm k =>
    show K (alarmDecode E .done (k ++ [])) = .panic
    rcases alarmCollect_walk h.flat none with ⟨e, he⟩ | ⟨a', ha⟩
    · exfalso
      have h1 := hr r0
      rw [hok'] at h1
      have h2 : Body.run E .done (.alarm k) s r0 = .err e := by
        show alarmDecode E .done (k ++ r0) = _
        unfold alarmDecode
        rw [he]; rfl
      rw [h2, hK.1] at h1
      cases h1
    · unfold alarmDecode
      rw [ha]
      exact hK.2

theorem Spec.Inside.flats : ∀ {k k0 q : List Line}, Inside (.alarm k0) q → (∀ l ∈ k, ¬ Begins l ∧ ¬ Ends l) → Inside (.alarm (k0 ++ k)) (q ++ k) := by
  intro k
  induction k with
  | nil => intro k0 q h _; simpa using h
  | cons l k ih =>
    intro k0 q h hf
    have := ih (h.line (hf l (by simp)).1 (hf l (by simp)).2) (fun x hx => hf x (by simp [hx]))
    simpa using this

/-- A block begins inside an alarm. -/
def BlockInAlarm (q : List Line) : Prop := ∃ ka p1 b p2, q = p1 ++ b :: p2 ∧ Inside (.alarm ka) p1 ∧ Begins b

theorem alarm_prefix {q k p s : List Line} (h : Inside (.alarm []) q) (hc : Closed k) (he : k = p ++ s) : (∃ B, Inside B (q ++ p)) ∨ BlockInAlarm (q ++ p) := by
  rcases closed_cases hc with hf | ⟨f, b, r, rfl, hf, hb⟩
  · exact Or.inl ⟨_, h.flats (k := p) fun l hl => hf l (by rw [he]; simp [hl])⟩
  · rcases List.append_eq_append_iff.1 he with ⟨a, rfl, h2⟩ | ⟨a, rfl, _⟩
    · cases a with
      | nil => exact Or.inl ⟨_, h.flats (k := f ++ []) fun l hl => hf l (by simpa using hl)⟩
      | cons x a =>
        simp only [List.cons_append, List.cons.injEq] at h2
        obtain ⟨rfl, _⟩ := h2
        exact Or.inr ⟨_, q ++ f, b, a, by simp, h.flats hf, hb⟩
    · exact Or.inl ⟨_, h.flats (k := p) fun l hl => hf l (by simp [hl])⟩

/-- Every part of a document with matching BEGIN and END lines ends in some body. -/
theorem Spec.Inside.prefix {k : List Line} (hc : Closed k) : ∀ {B : Body} {q : List Line}, Inside B q → (∀ k, B ≠ .alarm k) → Keywords k → ∀ (p s : List Line),
    k = p ++ s → (∃ B', Inside B' (q ++ p)) ∨ BlockInAlarm (q ++ p) := by
  induction hc with
  | nil =>
    intro B q h hB _ p s he
    obtain ⟨rfl, _⟩ := List.append_eq_nil_iff.1 he.symm
    exact Or.inl ⟨B, by simpa using h⟩
  | @line l r hb he _ ih =>
    intro B q h hB hk p s heq
    cases p with
    | nil => exact Or.inl ⟨B, by simpa using h⟩
    | cons x p =>
      simp only [List.cons_append, List.cons.injEq] at heq
      obtain ⟨rfl, heq⟩ := heq
      have := ih (h.lines hB (.line hb he .nil) (fun y hy => hk y (by simp at hy; simp [hy]))) hB (fun y hy => hk y (by simp [hy])) p s heq
      simpa using this
  | @block b e kk r hb he hv hck _ ihk ihr =>
    intro B q h hB hk p s heq
    cases p with
    | nil => exact Or.inl ⟨B, by simpa using h⟩
    | cons x p =>
      simp only [List.cons_append, List.cons.injEq] at heq
      obtain ⟨rfl, heq⟩ := heq
      have inner : (∃ a, kk = p ++ a) → (∃ B', Inside B' (q ++ b :: p)) ∨ BlockInAlarm (q ++ b :: p) := by
        rintro ⟨a, ha⟩
        have hkk : Keywords kk := fun y hy => hk y (by simp [hy])
        have go : ∀ {B2 : Body}, Inside B2 (q ++ [b]) → (∀ k, B2 ≠ .alarm k) → (∃ B', Inside B' (q ++ b :: p)) ∨ BlockInAlarm (q ++ b :: p) := by
          intro B2 h2 hB2
          have := ihk h2 hB2 hkk p a ha
          simpa using this
        have unk : upper b.value ∉ B.parts → (∃ B', Inside B' (q ++ b :: p)) ∨ BlockInAlarm (q ++ b :: p) :=
          fun hn => go (h.unknown hB hb hn) (by simp)
        cases B with
        | cal =>
          by_cases hm : upper b.value ∈ Body.cal.parts
          · obtain ⟨x, hx, hxv⟩ := List.mem_map.1 hm
            exact go (h.comp hb hx hxv.symm) (by simp)
          · exact unk hm
        | comp T =>
          by_cases hm : upper b.value ∈ (Body.comp T).parts
          · obtain ⟨⟨n, y⟩, hx, hxv⟩ := List.mem_map.1 hm
            cases y with
            | leaf T' => exact go (h.leaf hb hx hxv.symm) (by simp)
            | alarm =>
              have := alarm_prefix (h.alarm hb hx hxv.symm) hck ha
              simpa using this
          · exact unk hm
        | leaf T => exact unk (by simp [Body.parts])
        | unknown => exact unk (by simp [Body.parts])
        | alarm k => exact absurd rfl (hB k)
      rcases List.append_eq_append_iff.1 heq with ⟨a, rfl, h2⟩ | ⟨a, h1, _⟩
      · cases a with
        | nil => exact inner ⟨[], by simp⟩
        | cons y a =>
          simp only [List.cons_append, List.cons.injEq] at h2
          obtain ⟨rfl, h2⟩ := h2
          have hl : Inside B (q ++ (b :: kk ++ [e])) := h.lines hB (.block hb he hv hck .nil) (fun y hy => hk y (by
            simp only [List.cons_append, List.mem_cons, List.mem_append, List.not_mem_nil, or_false] at hy ⊢
            rcases hy with h | h | h <;> simp [h]))
          have := ihr hl hB (fun y hy => hk y (by simp [hy])) a s h2
          simpa using this
      · exact inner ⟨a, h1⟩

/-- In an accepted document no block begins inside an alarm. -/
theorem blockInAlarm_fails {E : Env} {t : Term} {q r : List Line} (h : BlockInAlarm q) (hk : Keywords q) {c : Cal} : decodeStream E ⟨q ++ r, t⟩ ≠ .ok c := by
  obtain ⟨ka, p1, b, p2, rfl, hi, hb⟩ := h
  intro hok
  have hn : b.name = kBEGIN := Keywords.name hk (by simp) (by decide) hb
  rw [List.append_assoc] at hok
  obtain ⟨s, K, hK, hr⟩ := hi.at hok
  have h1 := hr (b :: p2 ++ r)
  rw [hok] at h1
  have h2 : ∃ e, Body.run E t (.alarm ka) s (b :: p2 ++ r) = .err e := by
    show ∃ e, alarmDecode E t (ka ++ (b :: p2 ++ r)) = _
    unfold alarmDecode
    rcases alarmCollect_walk hi.flat none with ⟨e, he⟩ | ⟨a', ha⟩
    · exact ⟨e, by rw [he]; rfl⟩
    · refine ⟨.invalidStructure, ?_⟩
      rw [ha, List.cons_append, alarmCollect, if_pos hn]
      rfl
  obtain ⟨e, h2⟩ := h2
  rw [h2, hK.1] at h1
  cases h1

/-- A part of an accepted document, not yet the whole calendar. -/
theorem cut_inside {E : Env} {ls p r : List Line} {t : Term} {c : Cal} (hk : Keywords ls) (hok : decodeStream E ⟨ls, t⟩ = .ok c) (he : ls = p ++ r)
    (hp : ∀ c', decodeStream E ⟨p, .done⟩ ≠ .ok c') : p = [] ∨ ∃ B, Inside B p := by
  obtain ⟨pre, rest, g1, g0, g2⟩ := decodeStream_sound' hok
  simp only at g1
  obtain ⟨b', k', e', rfl, hb', hbv', he', hev', is, hi, _⟩ := g2 fun y hy => hk y (by rw [g1]; exact List.mem_append_left _ hy)
  have hc := Items.closed hi
  -- either the whole object is in `p`, or `p` ends before its END line
  cases p with
  | nil => exact Or.inl rfl
  | cons x p =>
    right
    rw [g1] at he
    simp only [List.cons_append, List.append_assoc, List.cons.injEq, List.nil_append] at he
    obtain ⟨rfl, he⟩ := he
    have hin : Inside .cal [b'] := .cal hb' hbv'
    have hkk : Keywords k' := fun y hy => hk y (by rw [g1]; simp [hy])
    have inner : (∃ a, k' = p ++ a) → ∃ B, Inside B (b' :: p) := by
      rintro ⟨a, ha⟩
      rcases Spec.Inside.prefix hc hin (by simp) hkk p a ha with h | h
      · exact h
      · exfalso
        have hh : ls = [b'] ++ p ++ (a ++ e' :: rest) := by rw [g1, ha]; simp
        rw [hh] at hok hk
        exact blockInAlarm_fails h (fun y hy => hk y (List.mem_append_left _ hy)) hok
    rcases List.append_eq_append_iff.1 he with ⟨a, rfl, h3⟩ | ⟨a, h3, _⟩
    · cases a with
      | nil => exact inner ⟨[], by simp⟩
      | cons y a =>
        exfalso
        simp only [List.cons_append, List.cons.injEq] at h3
        obtain ⟨rfl, h3⟩ := h3
        have := g0 .done a
        exact hp c (by simpa using this)
    · exact inner ⟨a, h3⟩

end Ics
