import Verif.ReturnLemmas
import Verif.Props.Folding
import Verif.Props.Unfolding
/-!
# Encoded documents as octets: their line ends, folding and unfolding
-/

namespace Ics

open Spec

theorem noCtl_ne_cr {c : Char} (h : NoCtl c) : c ≠ '\r' ∧ c ≠ '\n' := by
  constructor <;> (rintro rfl; unfold NoCtl at h; revert h; decide)

theorem iana_NoCtl {c : Char} (h : IanaChar c) : NoCtl c := (isIana_NoCtl ((isIana_iff c).2 h)).1

theorem printVals_NoCtl : ∀ (vs : List PVal), (∀ v ∈ vs, ParamValOk v) → ∀ c ∈ printVals vs, NoCtl c := by
  have one : ∀ v : PVal, ParamValOk v → ∀ c ∈ printVal v, NoCtl c := by
    intro v hv c hc
    unfold printVal at hc
    split at hc
    · simp only [List.cons_append, List.mem_cons, List.mem_append, List.not_mem_nil, or_false] at hc
      rcases hc with rfl | hc | rfl
      · exact Or.inl (by decide)
      · exact (hv c hc).1
      · exact Or.inl (by decide)
    · exact (hv c hc).1
  intro vs
  induction vs with
  | nil => intro _ c hc; cases hc
  | cons v vs ih =>
    intro h c hc
    cases vs with
    | nil => exact one v (h v (by simp)) c hc
    | cons w vs =>
      simp only [printVals, List.mem_append, List.mem_cons] at hc
      rcases hc with hc | rfl | hc
      · exact one v (h v (by simp)) c hc
      · exact Or.inl (by decide)
      · exact ih (fun x hx => h x (List.mem_cons_of_mem _ hx)) c hc

theorem printBare_NoCtl {l : Line} (h : LineOk l) : ∀ c ∈ printBare l, NoCtl c := by
  have hp : ∀ ps : List (Str × List PVal), (∀ p ∈ ps, ∀ c ∈ p.1, IanaChar c) → (∀ p ∈ ps, ∀ v ∈ p.2, ParamValOk v) →
      ∀ c ∈ printParams ps, NoCtl c := by
    intro ps
    induction ps with
    | nil => intro _ _ c hc; cases hc
    | cons p ps ih =>
      obtain ⟨n, vs⟩ := p
      intro h1 h2 c hc
      simp only [printParams, List.cons_append, List.append_assoc, List.mem_cons, List.mem_append] at hc
      rcases hc with rfl | hc | rfl | hc | hc
      · exact Or.inl (by decide)
      · exact iana_NoCtl (h1 (n, vs) (by simp) c hc)
      · exact Or.inl (by decide)
      · exact printVals_NoCtl vs (h2 (n, vs) (by simp)) c hc
      · exact ih (fun x hx => h1 x (List.mem_cons_of_mem _ hx)) (fun x hx => h2 x (List.mem_cons_of_mem _ hx)) c hc
  intro c hc
  simp only [printBare, List.append_assoc, List.mem_append, List.mem_cons] at hc
  rcases hc with hc | hc | rfl | hc
  · exact iana_NoCtl (h.name c hc)
  · exact hp _ h.pname h.pvals c hc
  · exact Or.inl (by decide)
  · exact h.value c hc

theorem crlfClean_append (p r : Str) (hp : ∀ c ∈ p, NoCtl c) (hr : crlfClean r = true) : crlfClean (p ++ r) = true := by
  induction p with
  | nil => exact hr
  | cons c p ih =>
    have hc := noCtl_ne_cr (hp c (by simp))
    have ih := ih fun x hx => hp x (List.mem_cons_of_mem _ hx)
    rw [List.cons_append, crlfClean.eq_def]
    split
    · next h => cases h
    · next h => injection h with h1 _; exact absurd h1 hc.1
    · next h => injection h with h1 _; exact absurd h1 hc.1
    · next h => injection h with h1 _; exact absurd h1 hc.2
    · next h => injection h with _ h2; rw [← h2]; exact ih

theorem crlfClean_lines (ls : List Line) (h : ∀ l ∈ ls, LineOk l) : crlfClean (ls.flatMap printLine) = true := by
  induction ls with
  | nil => rfl
  | cons l ls ih =>
    rw [List.flatMap_cons, printLine, List.append_assoc]
    apply crlfClean_append _ _ (printBare_NoCtl (h l (by simp)))
    simp only [List.cons_append, List.nil_append, crlfClean, decide_true, Bool.true_and]
    exact ih fun x hx => h x (List.mem_cons_of_mem _ hx)

theorem infix_cons_iff' {α : Type} (p : List α) (c : α) (s : List α) : p <:+: c :: s ↔ p <+: c :: s ∨ p <:+: s := List.infix_cons_iff

theorem noFold_append (p r : Str) (hp : ∀ c ∈ p, NoCtl c) (hr : ¬ ['\r', '\n', ' '] <:+: r) : ¬ ['\r', '\n', ' '] <:+: p ++ r := by
  induction p with
  | nil => exact hr
  | cons c p ih =>
    have hc := noCtl_ne_cr (hp c (by simp))
    rw [List.cons_append, infix_cons_iff']
    rintro (h | h)
    · obtain ⟨t, ht⟩ := h
      injection ht with h1 _
      exact hc.1 h1.symm
    · exact ih (fun x hx => hp x (List.mem_cons_of_mem _ hx)) h

theorem noFold_lines (ls : List Line) (h : ∀ l ∈ ls, LineOk l) : ¬ ['\r', '\n', ' '] <:+: ls.flatMap printLine := by
  induction ls with
  | nil => simp
  | cons l ls ih =>
    have ih := ih fun x hx => h x (List.mem_cons_of_mem _ hx)
    rw [List.flatMap_cons, printLine, List.append_assoc]
    apply noFold_append _ _ (printBare_NoCtl (h l (by simp)))
    rw [List.cons_append, List.cons_append, List.nil_append, infix_cons_iff', infix_cons_iff']
    rintro (⟨t, ht⟩ | ⟨t, ht⟩ | hi)
    · simp only [List.cons_append, List.nil_append, List.cons.injEq, true_and] at ht
      cases ls with
      | nil => simp at ht
      | cons k ls =>
        have hk := h k (by simp)
        have hne := hk.name_ne
        rw [List.flatMap_cons, printLine, printBare] at ht
        cases hn : k.name with
        | nil => exact hne hn
        | cons c n =>
          rw [hn] at ht
          simp only [List.cons_append, List.cons.injEq] at ht
          have := hk.name c (by rw [hn]; simp)
          rw [← ht.1] at this
          revert this
          unfold IanaChar
          decide
    · simp at ht
    · exact ih hi

/-! ## Reading what was written -/

theorem FoldOf.tail {s t : Str} (h : FoldOf s t) : ∀ (a : Str) (c : Char), s = a ++ [c, '\r', '\n'] → ∃ b, t = b ++ [c, '\r', '\n'] := by
  induction h with
  | nil => intro a c e; cases a <;> simp at e
  | @keep d s t h ih =>
    intro a c e
    cases a with
    | nil =>
      simp only [List.nil_append, List.cons.injEq] at e
      obtain ⟨rfl, rfl⟩ := e
      cases h with
      | keep _ h =>
        cases h with
        | keep _ h => cases h; exact ⟨[], rfl⟩
        | fold _ h1 _ _ => exact absurd rfl h1
      | fold _ _ h2 _ => exact absurd rfl h2
    | cons x a =>
      simp only [List.cons_append, List.cons.injEq] at e
      obtain ⟨b, rfl⟩ := ih a c e.2
      exact ⟨d :: b, rfl⟩
  | @fold d s t h1 h2 h ih =>
    intro a c e
    cases a with
    | nil =>
      simp only [List.nil_append, List.cons.injEq] at e
      obtain ⟨rfl, rfl⟩ := e
      cases h with
      | keep _ h =>
        cases h with
        | keep _ h => cases h; exact ⟨['\r', '\n', ' '], rfl⟩
        | fold _ h1 _ _ => exact absurd rfl h1
      | fold _ _ h2 _ => exact absurd rfl h2
    | cons x a =>
      simp only [List.cons_append, List.cons.injEq] at e
      obtain ⟨b, rfl⟩ := ih a c e.2
      exact ⟨'\r' :: '\n' :: ' ' :: d :: b, rfl⟩

theorem not_badEnd (b : Bytes) (x : UInt8) (hx : x ≠ 32) : ¬ badEnd (b ++ [x, 13, 10]) := by
  rintro ⟨X, t, e, h⟩
  have ht : t.length = 3 := by
    unfold isRot at h
    rcases h with rfl | rfl | rfl <;> rfl
  have : [x, 13, 10] = t := by
    have := congrArg (fun l => l.drop (l.length - 3)) e
    simpa [ht] using this
  subst this
  unfold isRot at h
  simp at h
  exact hx h

/-- Reading the folded text back gives the text, if it has no fold marker of its own and ends in a letter and CR LF. -/
theorem read_folded (ss : List Str) (a : Str) (c : Char) (hc : c.toNat < 128 ∧ c ≠ ' ') (he : ss.flatten = a ++ [c, '\r', '\n'])
    (hn : ¬ ['\r', '\n', ' '] <:+: ss.flatten) (fin k : Nat) (hk : (({} : Folder).writes okSink (ss.map utf8)).out.length ≤ k)
    (hk0 : 0 < k) (fuel : Nat) (hf : k + 4 ≤ fuel) :
    ∃ u, readAll (Props.onceReader (({} : Folder).writes okSink (ss.map utf8)).out fin) fuel [k, k] {} [] =
      .done (utf8 ss.flatten, some fin, u) := by
  obtain ⟨t, h1, h2⟩ := Props.C02_fold_never_splits_characters ss
  have hr : removeFolds (({} : Folder).writes okSink (ss.map utf8)).out = utf8 ss.flatten := by
    rw [h1, removeFolds_utf8 _ _ (Nat.le_refl _), removeFoldsC_FoldOf h2 hn]
  rw [← hr]
  apply Props.C07_single_delivery_partial _ fin k _ hk hk0 fuel hf
  intro _
  obtain ⟨b, rfl⟩ := FoldOf.tail h2 a c he
  rw [h1]
  have : utf8 (b ++ [c, '\r', '\n']) = utf8 b ++ [UInt8.ofNat c.toNat, 13, 10] := by
    rw [utf8_append, utf8_cons, encodeChar_ascii c hc.1]
    rfl
  rw [this]
  apply not_badEnd
  intro e
  have := congrArg UInt8.toNat e
  have h3 : c.toNat = 32 := by
    have h0 : (UInt8.ofNat c.toNat).toNat = c.toNat % 256 := by simp
    rw [h0] at this
    have h32 : (32 : UInt8).toNat = 32 := rfl
    omega
  exact hc.2 (char_toNat_inj h3)

/-- Encoded documents end in END:VCALENDAR and CR LF. -/
theorem calLines_end (E : Env) (c : Cal) : ∃ a, (calLines E c).flatMap printLine = a ++ ['R', '\r', '\n'] := by
  unfold calLines Tab.inner
  refine ⟨(plainLine kBEGIN tabCalendar.name :: (fieldLines E tabCalendar.fields c.fields ++ subsLines (compInner E) tabCalendar.subs c.subs)).flatMap
    printLine ++ c!"END:VCALENDA", ?_⟩
  simp only [List.flatMap_cons, List.flatMap_append, List.flatMap_nil, List.append_nil, List.append_assoc]
  congr 2

end Ics
