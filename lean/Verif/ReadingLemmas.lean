import Verif.Spec.Reading
import Verif.Props.RoundTrip
import Verif.Props.Decode
/-!
# Lemmas: reading folded documents
-/

namespace Ics

open Spec

/-! ## Folds are removed -/

theorem Spec.Folded.nl {s t : Bytes} (h : Folded Space s (10 :: t)) : ∃ s', s = 10 :: s' ∧ Folded Space s' t := by
  generalize hu : (10 : UInt8) :: t = u at h
  cases h with
  | nil => cases hu
  | keep b h => injection hu with h1 h2; subst h1; subst h2; exact ⟨_, rfl, h⟩
  | fold _ _ => cases hu

theorem Spec.Folded.sp {s t : Bytes} (h : Folded Space s (32 :: t)) : ∃ s', s = 32 :: s' ∧ Folded Space s' t := by
  generalize hu : (32 : UInt8) :: t = u at h
  cases h with
  | nil => cases hu
  | keep b h => injection hu with h1 h2; subst h1; subst h2; exact ⟨_, rfl, h⟩
  | fold _ _ => cases hu

theorem removeFolds_Folded {s t : Bytes} (h : Folded Space s t) (hno : ¬ hasFold s) : removeFolds t = s := by
  induction h with
  | nil => rfl
  | @keep b s t h ih =>
    have ih := ih fun hf => hno (by obtain ⟨x, y, e⟩ := hf; exact ⟨b :: x, y, by rw [← e]; rfl⟩)
    rw [removeFolds_ne, ih]
    intro r e
    injection e with e1 e2
    subst e2
    obtain ⟨s', rfl, h1⟩ := h.nl
    obtain ⟨s'', rfl, _⟩ := h1.sp
    subst e1
    exact hno ⟨[], s'', rfl⟩
  | @fold w s t hw h ih =>
    have hw : w = 32 := hw
    subst hw
    rw [removeFolds, if_pos ⟨rfl, rfl, rfl⟩, ih hno]

/-! ## One delivery -/

/-- The consumer receives the unfolded document from any reader that delivers it at once, and then nothing but its final error. -/
theorem single_delivery (R : Reader) (doc : Bytes) (fin k : Nat) (hR1 : R [k] = (doc, none)) (hR2 : ∀ j, R [j, k] = ([], some fin)) (h : hasFold doc → ¬ badEnd doc)
    (hk : doc.length ≤ k) (hk0 : 0 < k) (fuel : Nat) (hf : k + 4 ≤ fuel) :
    ∃ u, readAll R fuel [k, k] {} [] = .done (removeFolds doc, some fin, u) := by
  obtain ⟨f, rfl⟩ : ∃ f, fuel = f + 4 := ⟨fuel - 4, by omega⟩
  have hsq := squeeze_good (f + 2) doc (by omega) h
  have hse : ∀ n, squeeze (n + 1) [] [] 0 = .done ([], 0) := fun n => rfl
  have hread2 : Unfolder.read R (f + 4) ⟨[], [k]⟩ k =
      .done ⟨⟨[], [k, k]⟩, [], 0, some fin⟩ := by
    rw [Unfolder.read]
    simp only [List.take_nil, List.drop_nil, List.length_nil, Nat.sub_zero]
    rw [fill, if_neg (by omega)]
    simp only [hR2, hse, Run.bind_done, Option.isSome_some, if_true]
    rfl
  rw [readAll, Unfolder.read]
  simp only [List.take_nil, List.drop_nil, List.length_nil, Nat.sub_zero]
  rw [fill, if_neg (by omega)]
  simp only [hR1, hsq, Run.bind_done, Option.isSome_none, Bool.false_eq_true, if_false, List.nil_append]
  rw [fill]
  by_cases hd : doc.length - (removeFolds doc).length = 0
  · simp only [if_pos hd, Run.bind_done, Option.isSome_none, Bool.false_eq_true, if_false]
    rw [settle]
    generalize removeFolds doc = q
    split
    · simp only [hR2, List.length_nil, Nat.zero_lt_succ, if_true, Run.bind_done, Option.isSome_some]
      exact ⟨_, by simp; rfl⟩
    · split
      · simp only [hR2, List.length_nil, Nat.zero_lt_succ, if_true, Run.bind_done, Option.isSome_some]
        exact ⟨_, by simp; rfl⟩
      · simp only [Run.bind_done, Option.isSome_none, Bool.false_eq_true, if_false]
        rw [readAll, hread2]
        simp only [Run.bind_done, Option.isSome_some, if_true]
        exact ⟨_, by simp; rfl⟩
  · simp only [if_neg hd, hR2, hse, Run.bind_done, Option.isSome_some, if_true]
    exact ⟨_, by simp; rfl⟩

theorem fullReader_single (doc : Bytes) (fin k : Nat) (h : hasFold doc → ¬ badEnd doc) (hd : doc ≠ []) (hk : doc.length ≤ k) (fuel : Nat) (hf : k + 4 ≤ fuel) :
    ∃ u, readAll (fullReader doc fin) fuel [k, k] {} [] = .done (removeFolds doc, some fin, u) := by
  have hl : 0 < doc.length := List.length_pos_iff.2 hd
  refine single_delivery _ doc fin k ?_ (fun j => ?_) h hk (by omega) fuel hf
  · rw [fullReader, if_neg (by simp; exact hd)]
    simp [List.take_of_length_le hk]
  · rw [fullReader, if_pos (by simpa using hk)]

/-! ## Any number of deliveries, no folds -/

theorem fullReader_ok (doc : Bytes) (fin : Nat) : ReaderOk (fullReader doc fin) := by
  intro k h
  rw [fullReader]
  split
  · simp
  · show (List.take k _).length ≤ k
    exact List.length_take_le ..

theorem fullReader_lazy (doc : Bytes) (fin : Nat) : LazyErr (fullReader doc fin) := by
  intro k h
  rw [fullReader]
  split
  · simp
  · simp

theorem fullReader_delivered (doc : Bytes) (fin : Nat) : ∀ h : List Nat, delivered (fullReader doc fin) h = doc.take h.sum := by
  intro h
  induction h with
  | nil => simp [delivered]
  | cons k h ih =>
    rw [delivered, ih, fullReader, List.sum_cons]
    split
    · next hl => rw [List.append_nil, List.take_of_length_le hl, List.take_of_length_le (by omega)]
    · show List.take h.sum doc ++ List.take k (List.drop h.sum doc) = List.take (k + h.sum) doc
      rw [Nat.add_comm, List.take_add]

theorem fullReader_noFolds {doc : Bytes} (fin : Nat) (hn : ¬ hasFold doc) : NoFolds (fullReader doc fin) := by
  intro h hf
  rw [fullReader_delivered] at hf
  exact hn (List.IsInfix.trans hf (List.take_prefix _ _).isInfix)

theorem fullReader_eager (doc : Bytes) (fin : Nat) : Eager (fullReader doc fin) := by
  intro k h hk hn he
  rw [fullReader] at hn he
  split at hn
  · cases hn
  · next hl =>
    rw [if_neg hl] at he
    have := congrArg List.length he
    simp at this
    omega

/-! ## A calendar with two texts -/

/-- A calendar without components. -/
def twoCal (a b : Str) : Cal := ⟨[[.fields [] [some (.text a)]], [.fields [] [some (.text b)]]], [[], [], [], [], []]⟩

theorem encodeDoc_two (E : Env) (a b : Str) : encodeDoc E (twoCal a b) =
    some (c!"BEGIN:VCALENDAR\r\nVERSION:" ++ (Text.encode a ++ (c!"\r\nPRODID:" ++ (Text.encode b ++ c!"\r\nEND:VCALENDAR\r\n")))) := by
  have h : ∀ t, Val.aencode E (.text t) = ':' :: Text.encode t := fun t => rfl
  simp [encodeDoc, Tab.encode, Tab.body, tabCalendar, twoCal, encFields, encSubs, PSpec.encode, propVersion, propProductID, encParams, cat, encVals, lineOf, kBEGIN, kEND,
    crlf, h]

theorem two_typed (a b : Str) : (twoCal a b).typed = true := rfl

theorem two_rules (a b : Str) : CalRules (twoCal a b) := by
  refine ⟨fun r hr => ?_, fun x hx y hy => ?_⟩
  · cases hr
  · simp only [twoCal, tabCalendar, List.zip_cons_cons, List.zip_nil_right, List.mem_cons, List.not_mem_nil, or_false] at hx
    rcases hx with rfl | rfl | rfl | rfl | rfl <;> cases hy

theorem two_valid (a b : Str) (ha : Text.valid a = .ok ()) (hb : Text.valid b = .ok ()) : (twoCal a b).valid = .ok () := by
  have h : ∀ t, Val.valid (.text t) = Text.valid t := fun t => rfl
  simp [Cal.valid, Tab.valid, tabCalendar, twoCal, validFields, validSubs, checks, PSpec.valid, propVersion, propProductID, validParams, validVals, h, ha, hb]

theorem two_good (E : Env) (a b : Str) : (∀ x ∈ calProps (twoCal a b), ∀ y ∈ propParams x.1.spec x.2, GoodParam y.1.kind y.2) ∧
    ∀ x ∈ calProps (twoCal a b), ∀ v ∈ propVals x.2, Props.GoodVal E v := by
  have e : calProps (twoCal a b) = [(⟨c!"VERSION", propVersion, .req⟩, .fields [] [some (.text a)]), (⟨c!"PRODID", propProductID, .req⟩, .fields [] [some (.text b)])] := rfl
  rw [e]
  refine ⟨fun x hx y hy => ?_, fun x hx v hv => ?_⟩
  · simp only [List.mem_cons, List.not_mem_nil, or_false] at hx
    rcases hx with rfl | rfl <;> cases hy
  · simp only [List.mem_cons, List.not_mem_nil, or_false] at hx
    have h : ∀ t, Props.GoodVal E (.text t) := fun t => ⟨trivial, fun n hn => by cases hn⟩
    rcases hx with rfl | rfl
    · have : v = .text a := by simpa [propVals] using hv
      exact this ▸ h a
    · have : v = .text b := by simpa [propVals] using hv
      exact this ▸ h b

/-! ## Lengths of folded texts -/

theorem step_ascii (col : UInt8) (c : Char) (h : c = 'a' ∨ c = ' ') :
    stepCol col c = if col + 1 > maxLineLength then (2, ['\r', '\n', ' ', c]) else (col + 1, [c]) := by
  rcases h with rfl | rfl <;> rfl

theorem fold_one_more (n : Nat) : ∀ col : UInt8, (foldStr col (List.replicate (n + 1) 'a' ++ [' '])).length = (foldStr col (List.replicate n 'a' ++ [' '])).length + 1 ∨
    (foldStr col (List.replicate (n + 1) 'a' ++ [' '])).length = (foldStr col (List.replicate n 'a' ++ [' '])).length + 4 := by
  induction n with
  | zero =>
    intro col
    simp only [List.replicate, List.cons_append, List.nil_append, foldStr, step_ascii _ _ (Or.inl rfl), step_ascii _ _ (Or.inr rfl)]
    by_cases h : col + 1 > maxLineLength
    · simp only [if_pos h]
      rw [if_neg (by decide)]
      simp
    · simp only [if_neg h]
      by_cases h2 : col + 1 + 1 > maxLineLength
      · simp [h2]
      · simp [h2]
  | succ n ih =>
    intro col
    have e : ∀ m, List.replicate (m + 1) 'a' ++ [' '] = 'a' :: (List.replicate m 'a' ++ [' ']) := fun m => rfl
    have f : ∀ t, foldStr col ('a' :: t) = (stepCol col 'a').2 ++ foldStr (stepCol col 'a').1 t := fun _ => rfl
    rw [e (n + 1), e n, f, f, List.length_append, List.length_append, ← e n]
    have := ih (stepCol col 'a').1
    omega

/-- Text up to the end of PRODID. -/
def padFront (v n : Nat) : Str := c!"BEGIN:VCALENDAR\r\nVERSION:" ++ (List.replicate v 'b' ++ (c!"\r\nPRODID:" ++ (List.replicate n 'a' ++ [' ']) ++ c!"\r\n"))

theorem pad_fold (v n : Nat) (hv : v ≤ 3) : foldStr 0 (padFront v n) =
    c!"BEGIN:VCALENDAR\r\nVERSION:" ++ (List.replicate v 'b' ++ (c!"\r\nPRODID:" ++ foldStr 7 (List.replicate n 'a' ++ [' ']) ++ c!"\r\n")) := by
  have h1 : foldStr 0 (c!"BEGIN:VCALENDAR\r\nVERSION:" ++ (List.replicate v 'b' ++ c!"\r\nPRODID:")) = c!"BEGIN:VCALENDAR\r\nVERSION:" ++ (List.replicate v 'b' ++ c!"\r\nPRODID:") ∧
      endCol 0 (c!"BEGIN:VCALENDAR\r\nVERSION:" ++ (List.replicate v 'b' ++ c!"\r\nPRODID:")) = 7 := by
    rcases v with _ | _ | _ | _ | v
    · decide
    · decide
    · decide
    · decide
    · omega
  have h2 : ∀ col, foldStr col c!"\r\n" = c!"\r\n" := fun col => rfl
  have e : padFront v n = (c!"BEGIN:VCALENDAR\r\nVERSION:" ++ (List.replicate v 'b' ++ c!"\r\nPRODID:")) ++ ((List.replicate n 'a' ++ [' ']) ++ c!"\r\n") := by
    simp [padFront]
  rw [e, foldStr_append, h1.1, h1.2, foldStr_append, h2]
  simp only [List.append_assoc]

/-- Every length from 109 on is that of such a text with a fold in it. -/
theorem pad_lengths : ∀ k, 109 ≤ k → ∃ v n, v ≤ 3 ∧ 69 ≤ n ∧ 36 + v + (foldStr 7 (List.replicate n 'a' ++ [' '])).length = k := by
  intro k hk
  obtain ⟨d, rfl⟩ : ∃ d, k = 109 + d := ⟨k - 109, by omega⟩
  clear hk
  induction d with
  | zero => exact ⟨0, 69, by decide, by decide, by decide +kernel⟩
  | succ d ih =>
    obtain ⟨v, n, h1, h2, h3⟩ := ih
    by_cases hv : v < 3
    · exact ⟨v + 1, n, by omega, h2, by omega⟩
    · rcases fold_one_more n 7 with h | h
      · exact ⟨v, n + 1, h1, by omega, by omega⟩
      · exact ⟨0, n + 1, by omega, by omega, by omega⟩

theorem utf8_ascii_length : ∀ s : Str, (∀ c ∈ s, c.toNat < 128) → (utf8 s).length = s.length := by
  intro s
  induction s with
  | nil => intro _; rfl
  | cons c s ih =>
    intro h
    rw [utf8_cons, List.length_append, ih fun x hx => h x (List.mem_cons_of_mem _ hx), encodeChar_ascii c (h c (by simp))]
    simp
    omega

theorem foldStr_mem : ∀ (s : Str) (col : UInt8), ∀ c ∈ foldStr col s, c ∈ s ∨ c = '\r' ∨ c = '\n' ∨ c = ' ' := by
  intro s
  induction s with
  | nil => intro col c h; cases h
  | cons d s ih =>
    intro col c h
    rw [foldStr, List.mem_append] at h
    rcases h with h | h
    · have hs : ∀ x ∈ (stepCol col d).2, x = d ∨ x = '\r' ∨ x = '\n' ∨ x = ' ' := by
        intro x hx
        rcases stepCol_cases col d with ⟨_, e⟩ | ⟨_, e, _⟩ | ⟨_, _, e⟩ <;> rw [e] at hx <;> simp at hx
        · exact Or.inl hx
        · exact Or.inl hx
        · rcases hx with hx | hx | hx | hx
          · exact Or.inr (Or.inl hx)
          · exact Or.inr (Or.inr (Or.inl hx))
          · exact Or.inr (Or.inr (Or.inr hx))
          · exact Or.inl hx
      rcases hs c h with e | e
      · exact Or.inl (by rw [e]; simp)
      · exact Or.inr e
    · rcases ih _ c h with h | h
      · exact Or.inl (List.mem_cons_of_mem _ h)
      · exact Or.inr h

theorem foldStr_ascii (s : Str) (col : UInt8) (h : ∀ c ∈ s, c.toNat < 128) : ∀ c ∈ foldStr col s, c.toNat < 128 := by
  intro c hc
  rcases foldStr_mem s col c hc with h' | rfl | rfl | rfl
  · exact h c h'
  · decide
  · decide
  · decide

theorem pad_hasFold (n : Nat) (hn : 69 ≤ n) : ['\r', '\n', ' '] <:+: foldStr 7 (List.replicate n 'a' ++ [' ']) := by
  obtain ⟨m, rfl⟩ : ∃ m, n = 69 + m := ⟨n - 69, by omega⟩
  have h : foldStr 7 (List.replicate 69 'a') = List.replicate 68 'a' ++ ['\r', '\n', ' ', 'a'] := by decide +kernel
  rw [← List.replicate_append_replicate, List.append_assoc, foldStr_append, h]
  exact ⟨List.replicate 68 'a', 'a' :: _, by simp only [List.append_assoc]; rfl⟩

theorem fold_space (t : Str) (col : UInt8) : ∃ b, foldStr col (t ++ [' ']) = b ++ [' '] := by
  rw [foldStr_append]
  simp only [foldStr, List.append_nil, step_ascii _ _ (Or.inr rfl)]
  split
  · exact ⟨foldStr col t ++ ['\r', '\n', ' '], by simp⟩
  · exact ⟨foldStr col t, rfl⟩

/-- For each buffer size there is a calendar whose first piece has a fold and a bad end. -/
theorem pad_piece (k : Nat) (hk : 109 ≤ k) : ∃ v n, v ≤ 3 ∧ ∀ q, ∃ r, utf8 (foldStr 0 (padFront v n ++ q)) = utf8 (foldStr 0 (padFront v n)) ++ r ∧
    (utf8 (foldStr 0 (padFront v n))).length = k ∧ hasFold (utf8 (foldStr 0 (padFront v n))) ∧ badEnd (utf8 (foldStr 0 (padFront v n))) := by
  obtain ⟨v, n, h1, h2, h3⟩ := pad_lengths k hk
  refine ⟨v, n, h1, fun q => ⟨_, by rw [foldStr_append, utf8_append], ?_, ?_, ?_⟩⟩
  · rw [utf8_ascii_length _ (foldStr_ascii _ _ ?_), pad_fold v n h1]
    · simp only [List.length_append, List.length_replicate]
      simp only [List.length_cons, List.length_nil]
      omega
    · intro c hc
      unfold padFront at hc
      simp only [List.mem_append, List.mem_replicate] at hc
      rcases hc with hc | ⟨_, rfl⟩ | (hc | ⟨_, rfl⟩ | hc) | hc
      · exact (by decide : ∀ c ∈ c!"BEGIN:VCALENDAR\r\nVERSION:", c.toNat < 128) c hc
      · decide
      · exact (by decide : ∀ c ∈ c!"\r\nPRODID:", c.toNat < 128) c hc
      · decide
      · exact (by decide : ∀ c ∈ [' '], c.toNat < 128) c hc
      · exact (by decide : ∀ c ∈ c!"\r\n", c.toNat < 128) c hc
  · rw [pad_fold v n h1]
    apply hasFold_of_infix
    obtain ⟨a, b, e⟩ := pad_hasFold n h2
    rw [← e]
    exact ⟨c!"BEGIN:VCALENDAR\r\nVERSION:" ++ (List.replicate v 'b' ++ (c!"\r\nPRODID:" ++ a)), b ++ c!"\r\n", by simp only [List.append_assoc]⟩
  · obtain ⟨b, e⟩ := fold_space (List.replicate n 'a') 7
    rw [pad_fold v n h1, e]
    refine ⟨utf8 (c!"BEGIN:VCALENDAR\r\nVERSION:" ++ (List.replicate v 'b' ++ (c!"\r\nPRODID:" ++ b))), [32, 13, 10], ?_, Or.inr (Or.inl rfl)⟩
    have : ([32, 13, 10] : Bytes) = utf8 [' ', '\r', '\n'] := by decide
    rw [this, ← utf8_append]
    congr 1
    simp only [List.append_assoc, List.cons_append, List.nil_append]

/-! ## Folds with a tab -/

theorem noTab_lines (ls : List Line) (h : ∀ l ∈ ls, LineOk l) : ¬ ['\r', '\n', '\t'] <:+: ls.flatMap printLine := by
  have app : ∀ (p r : Str), (∀ c ∈ p, NoCtl c) → ¬ ['\r', '\n', '\t'] <:+: r → ¬ ['\r', '\n', '\t'] <:+: p ++ r := by
    intro p r hp hr
    induction p with
    | nil => exact hr
    | cons c p ih =>
      have hc := noCtl_ne_cr (hp c (by simp))
      rw [List.cons_append, infix_cons_iff']
      rintro (h | h)
      · obtain ⟨t, ht⟩ := h
        injection ht with h1 _
        exact hc.1 h1.symm
      · exact ih (fun x hx => hp x (List.mem_cons_of_mem _ hx)) h
  induction ls with
  | nil => simp
  | cons l ls ih =>
    have ih := ih fun x hx => h x (List.mem_cons_of_mem _ hx)
    rw [List.flatMap_cons, printLine, List.append_assoc]
    apply app _ _ (printBare_NoCtl (h l (by simp)))
    rw [List.cons_append, List.cons_append, List.nil_append, infix_cons_iff', infix_cons_iff']
    rintro (⟨t, ht⟩ | ⟨t, ht⟩ | hi)
    · simp only [List.cons_append, List.nil_append, List.cons.injEq, true_and] at ht
      cases ls with
      | nil => simp at ht
      | cons k ls =>
        have hk := h k (by simp)
        have hne := hk.name_ne
        rw [List.flatMap_cons, printLine, printBare] at ht
        cases hn : k.name with
        | nil => exact hne hn
        | cons c n =>
          rw [hn] at ht
          simp only [List.cons_append, List.cons.injEq] at ht
          have := hk.name c (by rw [hn]; simp)
          rw [← ht.1] at this
          revert this
          unfold IanaChar
          decide
    · simp at ht
    · exact ih hi

end Ics
