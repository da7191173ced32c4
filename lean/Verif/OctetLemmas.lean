import Verif.ReadingLemmas
/-!
# Reading octet by octet

Lemmas about `Read` with buffers of one octet over a reader that delivers what it is asked for.
-/

namespace Ics

open Spec

/-- What is left of the document after the calls recorded. -/
def left (doc : Bytes) (h : List Nat) : Bytes := doc.drop h.sum

theorem left_cons (doc : Bytes) (k : Nat) (h : List Nat) : left doc (k :: h) = (left doc h).drop k := by
  unfold left
  rw [List.sum_cons, List.drop_drop, Nat.add_comm]

theorem fullReader_left (doc : Bytes) (fin k : Nat) (h : List Nat) :
    fullReader doc fin (k :: h) = if left doc h = [] then ([], some fin) else ((left doc h).take k, none) := by
  show (if doc.length ≤ h.sum then _ else _) = _
  unfold left
  by_cases hl : doc.length ≤ h.sum
  · rw [if_pos hl, if_pos (List.drop_eq_nil_of_le hl)]
  · rw [if_neg hl, if_neg]
    intro h0
    have := List.length_drop (i := h.sum) (l := doc)
    rw [h0] at this
    simp at this
    omega

/-- No CR is followed by a CR. -/
def NoCRCR (b : Bytes) : Prop := ¬ [13, 13] <:+: b

theorem NoCRCR.tail {x : UInt8} {b : Bytes} (h : NoCRCR (x :: b)) : NoCRCR b :=
  fun h' => h (h'.trans (List.infix_cons (List.infix_refl _)))

theorem NoCRCR.second {y : UInt8} {b : Bytes} (h : NoCRCR (13 :: y :: b)) : y ≠ 13 := by
  rintro rfl
  exact h ⟨[], b, rfl⟩

theorem NoCRCR.nil : NoCRCR [] := by
  rintro ⟨a, b, h⟩
  simp at h

theorem removeFolds_marker (r : Bytes) : removeFolds (13 :: 10 :: 32 :: r) = removeFolds r := by
  simp [removeFolds]

/-- The outcome of settling a single octet `c`: it is read on, markers are passed over, and the octet delivered is the first of the unfolded text, or the text ends. -/
theorem settle_octet (doc : Bytes) (fin : Nat) : ∀ (n fuel : Nat) (c : UInt8) (h : List Nat), (left doc h).length < n → n ≤ fuel → NoCRCR (c :: left doc h) →
    (∃ c' u, settle (fullReader doc fin) fuel ⟨[], h⟩ [c] 1 = .done ⟨u, [c'], 1, none⟩ ∧ NoCRCR (u.pend ++ left doc u.hist) ∧
      (u.pend = [] ∨ (∃ y, u.pend = [y]) ∨ ∃ y z, u.pend = [y, z] ∧ y ≠ 13) ∧
      (u.pend ++ left doc u.hist).length ≤ (left doc h).length ∧ removeFolds (c :: left doc h) = c' :: removeFolds (u.pend ++ left doc u.hist)) ∨
    (∃ q m u, settle (fullReader doc fin) fuel ⟨[], h⟩ [c] 1 = .done ⟨u, q, m, some fin⟩ ∧ removeFolds (c :: left doc h) = q.take m.toNat) := by
  intro n
  induction n with
  | zero => intro fuel c h hl; omega
  | succ n ih =>
    intro fuel c h hl hf hcr
    obtain ⟨f, rfl⟩ : ∃ f, fuel = f + 1 := ⟨fuel - 1, by omega⟩
    rw [settle]
    by_cases hc : c = 13
    · subst hc
      simp only [List.length_singleton, fullReader_left, List.getElem?_cons_zero, Nat.sub_self, Nat.zero_lt_one, and_self, if_true]
      rcases hr : left doc h with _ | ⟨y, _ | ⟨z, r⟩⟩
      · right
        refine ⟨[13], 1, ⟨[], 2 :: h⟩, ?_, rfl⟩
        simp
      · left
        refine ⟨13, ⟨[y], 2 :: h⟩, by simp, ?_, Or.inr (Or.inl ⟨y, rfl⟩), ?_, ?_⟩
        · rw [left_cons, hr]
          rw [hr] at hcr
          simpa using hcr.tail
        · rw [left_cons, hr]
          simp
        · rw [left_cons, hr]
          simp [removeFolds]
      · have hy : y ≠ 13 := by rw [hr] at hcr; exact hcr.second
        by_cases hm : y = 10 ∧ z = 32
        · obtain ⟨rfl, rfl⟩ := hm
          simp only [reduceCtorEq, if_false, List.take_succ_cons, List.take_zero, List.length_cons, List.length_nil, Nat.reduceAdd, Nat.lt_irrefl, if_true,
            Option.isSome_none, Bool.false_eq_true, left_cons, hr, List.drop_succ_cons, List.drop_zero, removeFolds_marker]
          cases r with
          | nil =>
            right
            refine ⟨_, 0, ⟨[], 1 :: 2 :: h⟩, by simp [overwrite]; rfl, by simp [removeFolds]⟩
          | cons x r =>
            simp only [reduceCtorEq, if_false, List.take_succ_cons, List.take_zero, overwrite, List.nil_append, List.length_cons, List.length_nil, Nat.reduceAdd,
              Option.isSome_none, Bool.false_eq_true, List.drop_succ_cons, List.drop_nil, List.append_nil]
            have h2 : left doc (1 :: 2 :: h) = r := by rw [left_cons, left_cons, hr]; rfl
            rw [hr] at hl hcr
            simp only [List.length_cons] at hl
            have := ih f x (1 :: 2 :: h) (by rw [h2]; omega) (by omega) (by rw [h2]; exact hcr.tail.tail.tail)
            rw [h2] at this
            have hm : ((1 : Nat) : Int) - 1 + ((1 : Nat) : Int) = 1 := by decide
            have hm' : (1 : Int) - 1 + ((1 : Nat) : Int) = 1 := by decide
            simp only [hm']
            rcases this with ⟨c', u, e1, e2, e3, e4, e5⟩ | h
            · left
              refine ⟨c', u, e1, e2, e3, ?_, e5⟩
              omega
            · right; exact h
        · left
          refine ⟨13, ⟨[y, z], 2 :: h⟩, ?_, ?_, Or.inr (Or.inr ⟨y, z, rfl, hy⟩), ?_, ?_⟩
          · have : ¬ ([y, z] : Bytes) = [10, 32] := by
              intro h0
              simp only [List.cons.injEq, and_true] at h0
              exact hm h0
            simp [this]
          · rw [left_cons, hr]
            rw [hr] at hcr
            simpa using hcr.tail
          · rw [left_cons, hr]
            simp
          · rw [left_cons, hr]
            simp only [List.drop_succ_cons, List.drop_zero, List.cons_append, List.nil_append]
            rw [removeFolds_ne]
            intro r' h0
            simp only [List.cons.injEq, true_and] at h0
            exact hm ⟨h0.1, h0.2.1⟩
    · left
      refine ⟨c, ⟨[], h⟩, ?_, by simpa using hcr.tail, Or.inl rfl, by simp, ?_⟩
      · simp [hc]
      · simp only [List.nil_append]
        rw [removeFolds_ne]
        intro r' h0
        simp only [List.cons.injEq] at h0
        exact hc h0.1

/-- Reading octet by octet to the end. -/
theorem readAll_octets (doc : Bytes) (fin : Nat) (fuel : Nat) (hf : doc.length + 4 ≤ fuel) : ∀ (n : Nat) (u : Unfolder) (acc : Bytes),
    (u.pend ++ left doc u.hist).length < n → NoCRCR (u.pend ++ left doc u.hist) →
    (u.pend = [] ∨ (∃ y, u.pend = [y]) ∨ ∃ y z, u.pend = [y, z] ∧ y ≠ 13) →
    ∃ u', readAll (fullReader doc fin) fuel (List.replicate n 1) u acc = .done (acc ++ removeFolds (u.pend ++ left doc u.hist), some fin, u') := by
  have hlen : ∀ h, (left doc h).length ≤ doc.length := fun h => by unfold left; rw [List.length_drop]; omega
  obtain ⟨f, rfl⟩ : ∃ f, fuel = f + 3 := ⟨fuel - 3, by omega⟩
  intro n
  induction n with
  | zero => intro u acc h; omega
  | succ n ih =>
    intro u acc hl hcr hp
    obtain ⟨pend, h⟩ := u
    simp only at hl hcr hp
    rw [List.replicate_succ, readAll, Unfolder.read]
    -- settling the octet read
    have key : ∀ (c : UInt8) (h' : List Nat), (left doc h').length < n → NoCRCR (c :: left doc h') → ∃ u',
        ((settle (fullReader doc fin) (f + 2) ⟨[], h'⟩ [c] ((1 : Nat) : Int)).bind fun r =>
          if r.err.isSome then .done (acc ++ r.q.take r.m.toNat, r.err, r.u)
          else readAll (fullReader doc fin) (f + 3) (List.replicate n 1) r.u (acc ++ r.q.take r.m.toNat)) =
        .done (acc ++ removeFolds (c :: left doc h'), some fin, u') := by
      intro c h' hl' hcr'
      rcases settle_octet doc fin (doc.length + 1) (f + 2) c h' (by have := hlen h'; omega) (by omega) hcr' with
        ⟨c', u, e1, e2, e3, e4, e5⟩ | ⟨q, m, u, e1, e2⟩
      · obtain ⟨u', hu⟩ := ih u (acc ++ [c']) (by omega) e2 e3
        refine ⟨u', ?_⟩
        rw [show ((1 : Nat) : Int) = 1 from rfl, e1]
        simp only [Run.bind_done, Option.isSome_none, Bool.false_eq_true, if_false]
        have : ([c'] : Bytes).take (1 : Int).toNat = [c'] := rfl
        rw [this, hu, e5]
        simp
      · refine ⟨u, ?_⟩
        rw [show ((1 : Nat) : Int) = 1 from rfl, e1]
        simp only [Run.bind_done, Option.isSome_some, if_true]
        rw [e2]
    rcases hp with rfl | ⟨y, rfl⟩ | ⟨y, z, rfl, hy⟩
    · simp only [List.take_nil, List.length_nil, Nat.sub_zero, List.drop_nil, List.nil_append] at *
      rw [fill, if_neg (by decide)]
      simp only [fullReader_left]
      rcases hr : left doc h with _ | ⟨c, r⟩
      · refine ⟨⟨[], 1 :: h⟩, ?_⟩
        simp [squeeze, findFold, removeFolds, Run.bind]
      · rw [hr] at hl hcr
        simp only [List.length_cons] at hl
        have h2 : left doc (1 :: h) = r := by rw [left_cons, hr]; rfl
        obtain ⟨u', hu⟩ := key c (1 :: h) (by rw [h2]; omega) (by rw [h2]; exact hcr)
        refine ⟨u', ?_⟩
        rw [h2] at hu
        rw [← hu]
        simp [squeeze, findFold, Run.bind, fill]
    · simp only [List.take_succ_cons, List.take_zero, List.length_cons, List.length_nil, Nat.sub_self, List.drop_succ_cons, List.drop_zero, List.cons_append,
        List.nil_append, Nat.reduceAdd] at *
      rw [fill, if_pos rfl]
      simp only [Run.bind_done, Option.isSome_none, Bool.false_eq_true, if_false, List.length_cons, List.length_nil]
      exact key y h (by omega) hcr
    · simp only [List.take_succ_cons, List.take_zero, List.length_cons, List.length_nil, Nat.sub_self, List.drop_succ_cons, List.drop_zero, List.cons_append,
        List.nil_append, Nat.reduceAdd] at *
      rw [fill, if_pos rfl]
      simp only [Run.bind_done, Option.isSome_none, Bool.false_eq_true, if_false, List.length_cons, List.length_nil]
      rw [settle]
      simp only [List.length_cons, List.length_nil, Nat.zero_add, Nat.sub_self, List.getElem?_cons_zero, Option.some.injEq, hy, and_false, if_false, Nat.lt_irrefl,
        false_and, Run.bind_done, Option.isSome_none, Bool.false_eq_true]
      obtain ⟨u', hu⟩ := ih ⟨[z], h⟩ (acc ++ [y]) (by simp; omega) (by simpa using hcr.tail) (Or.inr (Or.inl ⟨z, rfl⟩))
      refine ⟨u', ?_⟩
      have : ([y] : Bytes).take (((1 : Nat) : Int)).toNat = [y] := rfl
      rw [this, hu, removeFolds_ne y]
      · simp
      · intro r' h0
        simp only [List.cons.injEq] at h0
        exact hy h0.1

/-! ## What `Encode` writes has no CR behind a CR -/

/-- Every CR is followed by LF. -/
inductive CrLf : Str → Prop
  | nil : CrLf []
  | pair {s : Str} : CrLf s → CrLf ('\r' :: '\n' :: s)
  | cons (c : Char) {s : Str} : c ≠ '\r' → CrLf s → CrLf (c :: s)

theorem CrLf.of_clean : ∀ (n : Nat) (s : Str), s.length ≤ n → crlfClean s = true → CrLf s := by
  intro n
  induction n with
  | zero => intro s hs _; rw [List.length_eq_zero_iff.1 (Nat.le_zero.1 hs)]; exact .nil
  | succ n ih =>
    intro s hs h
    rcases s with _ | ⟨c, s⟩
    · exact .nil
    · by_cases hc : c = '\r'
      · subst hc
        rcases s with _ | ⟨d, s⟩
        · simp [crlfClean] at h
        · obtain ⟨rfl, h2⟩ := crlfClean_cr h
          exact .pair (ih s (by simp at hs; omega) h2)
      · exact .cons c hc (ih s (by simp at hs; omega) (crlfClean_cons h hc).2)

theorem CrLf.fold : ∀ {s t : Str}, CrLf s → FoldOf s t → CrLf t := by
  intro s t h
  induction h generalizing t with
  | nil => intro hf; cases hf; exact .nil
  | @pair s h ih =>
    intro hf
    cases hf with
    | keep _ hf =>
      cases hf with
      | keep _ hf => exact .pair (ih hf)
      | fold _ h0 _ _ => exact absurd rfl h0
    | fold _ _ h0 _ => exact absurd rfl h0
  | @cons c s hc h ih =>
    intro hf
    cases hf with
    | keep _ hf => exact .cons c hc (ih hf)
    | fold _ _ _ hf => exact .pair (.cons _ (by decide) (.cons c hc (ih hf)))

theorem NoCRCR.append {p r : Bytes} (hp : ∀ b ∈ p, b ≠ 13) (hr : NoCRCR r) : NoCRCR (p ++ r) := by
  induction p with
  | nil => exact hr
  | cons b p ih =>
    intro h
    rw [List.cons_append, List.infix_cons_iff] at h
    rcases h with h | h
    · exact hp b (by simp) (by
        obtain ⟨t, ht⟩ := h
        simp only [List.cons_append, List.cons.injEq] at ht
        exact ht.1.symm)
    · exact ih (fun x hx => hp x (by simp [hx])) h

theorem CrLf.noCRCR {t : Str} (h : CrLf t) : NoCRCR (utf8 t) := by
  induction h with
  | nil => exact .nil
  | @pair s h ih =>
    have : utf8 ('\r' :: '\n' :: s) = 13 :: ([10] ++ utf8 s) := rfl
    rw [this]
    intro hi
    rw [List.infix_cons_iff] at hi
    rcases hi with ⟨t, ht⟩ | hi
    · simp at ht
    · exact NoCRCR.append (by decide) ih hi
  | @cons c s hc h ih =>
    rw [utf8_cons]
    refine NoCRCR.append (encodeChar_no_byte c 13 (by decide) fun h0 => hc ?_) ih
    exact Char.ext (UInt32.toNat_inj.1 h0)

end Ics
