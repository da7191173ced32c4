import Verif.Spec.Memory
import Verif.UnfolderCount
/-!
# Lemmas: what the rest of the buffers holds does not matter
-/

namespace Ics

open Spec

/-- Both run on, both panic, or both are done with results that go together. -/
inductive RunSim {α β : Type} (P : α → β → Prop) : Run α → Run β → Prop
  | done {a : α} {b : β} : P a b → RunSim P (.done a) (.done b)
  | panic : RunSim P .panic .panic
  | running : RunSim P .running .running

theorem RunSim.bind {α β γ δ : Type} {P : α → β → Prop} {Q : γ → δ → Prop} {x : Run α} {y : Run β} {f : α → Run γ} {g : β → Run δ} (h : RunSim P x y)
    (hf : ∀ a b, P a b → RunSim Q (f a) (g b)) : RunSim Q (x.bind f) (y.bind g) := by
  cases h with
  | done h => exact hf _ _ h
  | panic => exact .panic
  | running => exact .running

theorem RunSim.imp {α β : Type} {P Q : α → β → Prop} {x : Run α} {y : Run β} (h : RunSim P x y) (hf : ∀ a b, P a b → Q a b) : RunSim Q x y := by
  cases h with
  | done h => exact .done (hf _ _ h)
  | panic => exact .panic
  | running => exact .running

theorem overwrite_take_le (q b : Bytes) {i j : Nat} (hj : j ≤ i) (h : i ≤ q.length) : (overwrite q i b).take j = q.take j := by
  unfold overwrite
  rw [List.append_assoc, List.take_append_of_le_length (by simp; omega), List.take_take, Nat.min_eq_left hj]

theorem overwrite_drop_ge (q b : Bytes) {i j : Nat} (hj : i + b.length ≤ j) (h : i + b.length ≤ q.length) : (overwrite q i b).drop j = q.drop j := by
  unfold overwrite
  have hl : (q.take i ++ b).length = i + b.length := by simp; omega
  rw [List.drop_append, List.drop_of_length_le (by omega), hl, List.nil_append, List.drop_drop]
  congr 1
  omega

theorem overwrite_mid (q b : Bytes) {i n : Nat} (h : i ≤ q.length) (hn : n ≤ b.length) : ((overwrite q i b).drop i).take n = b.take n := by
  unfold overwrite
  rw [List.append_assoc, List.drop_append, List.drop_of_length_le (by simp; omega), List.nil_append, List.length_take, Nat.min_eq_left h, Nat.sub_self, List.drop_zero,
    List.take_append_of_le_length hn]

theorem overwrite_append (q r b : Bytes) {i : Nat} (h : i + b.length ≤ q.length) : overwrite (q ++ r) i b = overwrite q i b ++ r := by
  unfold overwrite
  rw [List.take_append_of_le_length (by omega), List.drop_append_of_le_length h, List.append_assoc, List.append_assoc, List.append_assoc]

theorem overwrite_take_ge (q b : Bytes) {i j : Nat} (hj : i + b.length ≤ j) (h : j ≤ q.length) : (overwrite q i b).take j = overwrite (q.take j) i b := by
  have hl : (q.take j).length = j := by simp; omega
  conv => lhs; rw [← List.take_append_drop j q, overwrite_append _ _ _ (by omega)]
  rw [List.take_append_of_le_length (by rw [overwrite_length _ _ _ (by omega)]; omega), List.take_of_length_le (by rw [overwrite_length _ _ _ (by omega)]; omega)]

section
variable {R : Reader} {S : Scratch}

theorem callRead_fst (hok : ReaderOk R) (hS : ScratchOk S) (h : List Nat) (mem : Bytes) (i k : Nat) (hi : i + k ≤ mem.length) :
    ∃ x, x.length = k ∧ x.take (R (k :: h)).1.length = (R (k :: h)).1 ∧ (callRead R S h mem i k).1 = overwrite mem i x := by
  refine ⟨_, ?_, ?_, rfl⟩
  · have := hok k h
    rw [List.length_append, hS, List.length_take, List.length_drop]
    omega
  · simp

theorem squeezeM_sim : ∀ (fuel : Nat) (mem : Bytes) (i len t : Nat) (pre kept win : Bytes), i + len ≤ mem.length → mem.take i = pre ++ kept → win = (mem.drop i).take len →
    RunSim (fun (a : Bytes × Nat × Nat) (b : Bytes × Nat) => a.1.length = mem.length ∧ a.1.take a.2.1 = pre ++ b.1 ∧ a.2.1 + b.2 = i + len ∧ a.2.2 = b.2)
      (squeezeM fuel mem i len t) (squeeze fuel kept win t) := by
  intro fuel
  induction fuel with
  | zero => intros; exact .running
  | succ fuel ih =>
    intro mem i len t pre kept win hi hk hw
    subst hw
    have hwl : ((mem.drop i).take len).length = len := by simp; omega
    rw [squeezeM, squeeze]
    dsimp only
    cases hf : findFold ((mem.drop i).take len) with
    | none =>
      simp only [hwl]
      split
      · exact .panic
      · refine .done ⟨rfl, ?_, by dsimp only; omega, rfl⟩
        dsimp only
        rw [List.take_add, hk, List.append_assoc, List.take_take, Nat.min_eq_left (by omega)]
    | some pos =>
      simp only
      obtain ⟨r, hp, hpl, _⟩ := findFold_some hf
      have hpos : pos + 3 ≤ len := by
        have := congrArg List.length hp
        rw [List.length_append, hpl, hwl] at this
        simp at this
        omega
      have hx : (((mem.drop i).take len).drop (pos + 3)).length = len - (pos + 3) := by rw [List.length_drop, hwl]
      have hi' : i + pos + (len - pos) = i + len := by omega
      have hnew : (overwrite mem (i + pos) (((mem.drop i).take len).drop (pos + 3))).length = mem.length := overwrite_length _ _ _ (by omega)
      have := ih (overwrite mem (i + pos) (((mem.drop i).take len).drop (pos + 3))) (i + pos) (len - pos) (t + 3) pre (kept ++ ((mem.drop i).take len).take pos)
        ((((mem.drop i).take len).drop pos).drop 3 ++ (((mem.drop i).take len).drop pos).drop ((((mem.drop i).take len).drop pos).length - 3)) (by omega) ?_ ?_
      · rw [hi'] at this
        rw [hnew] at this
        exact this
      · rw [overwrite_take_le _ _ (Nat.le_refl _) (by omega), List.take_add, hk, List.append_assoc, List.take_take, Nat.min_eq_left (by omega)]
      · rw [List.drop_drop, List.drop_drop, List.length_drop, hwl]
        generalize hX : ((mem.drop i).take len).drop (pos + 3) = x at hx
        unfold overwrite
        have e1 : (mem.take (i + pos)).drop (i + pos) = [] := List.drop_of_length_le (by simp; omega)
        have e2 : (mem.take (i + pos)).length = i + pos := by simp; omega
        have e3 : x.take (len - pos) = x := List.take_of_length_le (by omega)
        rw [List.append_assoc, List.drop_append, e1, List.nil_append, e2, Nat.sub_self, List.drop_zero, List.take_append, e3, hx, List.drop_take, List.drop_drop]
        congr 1
        rw [show pos + (len - pos - 3) = len - 3 by omega, show len - pos - (len - (pos + 3)) = 3 by omega, show len - (len - 3) = 3 by omega]
        congr 2
        omega

/-- The filling loop. -/
theorem fillM_sim (hok : ReaderOk R) (hS : ScratchOk S) : ∀ (fuel : Nat) (h : List Nat) (mem : Bytes) (i k : Nat) (q : Bytes), i + k ≤ mem.length → mem.take i = q →
    RunSim (fun (a : List Nat × Bytes × Nat × Option Nat) (b : List Nat × Bytes × Option Nat) => a.1 = b.1 ∧ a.2.1.length = mem.length ∧ a.2.2.1 ≤ mem.length ∧
      a.2.1.take a.2.2.1 = b.2.1 ∧ a.2.2.2 = b.2.2) (fillM R S fuel h mem i k i) (fill R fuel h q k) := by
  intro fuel
  induction fuel with
  | zero => intros; exact .running
  | succ fuel ih =>
    intro h mem i k q hi hq
    rw [fillM, fill]
    by_cases h0 : k = 0
    · rw [if_pos h0, if_pos h0]
      exact .done ⟨rfl, rfl, by dsimp only; omega, hq, rfl⟩
    · rw [if_neg h0, if_neg h0]
      obtain ⟨x, hx1, hx2, hx3⟩ := callRead_fst (S := S) hok hS h mem i k hi
      have hn := hok k h
      have hl : (overwrite mem i x).length = mem.length := overwrite_length _ _ _ (by omega)
      have hsq := squeezeM_sim fuel (overwrite mem i x) i (R (k :: h)).1.length 0 q [] (R (k :: h)).1 (by omega)
        (by rw [overwrite_take_le _ _ (Nat.le_refl _) (by omega), hq, List.append_nil]) (by rw [overwrite_mid _ _ (by omega) (by omega), hx2])
      rw [show callRead R S h mem i k = (overwrite mem i x, (R (k :: h)).1.length, (R (k :: h)).2) from Prod.ext hx3 rfl]
      refine hsq.bind ?_
      rintro ⟨mem', i', t⟩ ⟨b', t'⟩ ⟨h1, h2, h3, h4⟩
      dsimp only at h1 h2 h3 h4 ⊢
      subst h4
      have hm : i + (R (k :: h)).1.length - t = i' := by omega
      rw [hm]
      by_cases he : (R (k :: h)).2.isSome = true
      · rw [if_pos he, if_pos he]
        exact .done ⟨rfl, by dsimp only; omega, by dsimp only; omega, h2, rfl⟩
      · rw [if_neg he, if_neg he]
        refine (ih (k :: h) mem' i' t (q ++ b') (by omega) h2).imp ?_
        rintro a b ⟨g1, g2, g3, g4, g5⟩
        exact ⟨g1, by omega, by omega, g4, g5⟩

theorem RunSim.and {α β : Type} {P : α → β → Prop} {Q : α → Prop} {x : Run α} {y : Run β} (h : RunSim P x y) (hf : ∀ a, x = .done a → Q a) : RunSim (fun a b => P a b ∧ Q a) x y := by
  cases h with
  | done h => exact .done ⟨h, hf _ rfl⟩
  | panic => exact .panic
  | running => exact .running

theorem findFold_short {p : Bytes} (h : p.length ≤ 1) : findFold p = none := by
  match p, h with
  | [], _ => rfl
  | [_], _ => rfl

/-- One octet into the second place of a buffer of two. -/
theorem fillM_one (hok : ReaderOk R) (hS : ScratchOk S) (hQ : LeavesAlone R S) (fuel : Nat) (h : List Nat) (mem : Bytes) (hl : mem.length = 2) (a : List Nat × Bytes × Nat × Option Nat)
    (hd : fillM R S fuel h mem 1 1 1 = .done a) (he : a.2.2.2 = none) : a.2.1.drop a.2.2.1 = mem.drop a.2.2.1 ∧ 1 ≤ a.2.2.1 := by
  cases fuel with
  | zero => cases hd
  | succ fuel =>
    rw [fillM, if_neg (by decide)] at hd
    obtain ⟨x, hx1, hx2, hx3⟩ := callRead_fst (S := S) hok hS h mem 1 1 (by omega)
    have hn := hok 1 h
    have hxl : (overwrite mem 1 x).length = mem.length := overwrite_length _ _ _ (by omega)
    have hq0 : (R (1 :: h)).2 = none → (R (1 :: h)).1 = [] → overwrite mem 1 x = mem := by
      intro e1 e2
      rw [← hx3, callRead, e2, hQ 1 h _ (by decide) e1 e2]
      match mem, hl with
      | [c, d], _ => rfl
    rw [show callRead R S h mem 1 1 = (overwrite mem 1 x, (R (1 :: h)).1.length, (R (1 :: h)).2) from Prod.ext hx3 rfl] at hd
    dsimp only at hd
    cases fuel with
    | zero => cases hd
    | succ fuel =>
      rw [squeezeM] at hd
      rw [findFold_short (by rw [List.length_take]; omega)] at hd
      simp only [Nat.not_lt_zero, if_false, Nat.sub_zero, Run.bind] at hd
      by_cases hs : (R (1 :: h)).2.isSome = true
      · rw [if_pos hs] at hd
        cases hd
        dsimp only at he
        rw [he] at hs
        cases hs
      · rw [if_neg hs, fillM, if_pos rfl] at hd
        cases hd
        refine ⟨?_, by dsimp only; omega⟩
        dsimp only
        by_cases h0 : (R (1 :: h)).1 = []
        · rw [hq0 (by simpa using hs) h0]
        · have : (R (1 :: h)).1.length ≠ 0 := by simpa using h0
          rw [List.drop_of_length_le (by omega), List.drop_of_length_le (by omega)]

theorem overwrite_all (q b : Bytes) (h : q.length = b.length) : overwrite q 0 b = b := by
  unfold overwrite
  rw [Nat.zero_add, List.drop_of_length_le (by omega), List.take_zero, List.append_nil, List.nil_append]

theorem overwrite_nil (q : Bytes) (i : Nat) : overwrite q i [] = q := by
  unfold overwrite
  rw [List.append_nil, List.length_nil, Nat.add_zero, List.take_append_drop]

theorem overwrite_self (q : Bytes) (i k : Nat) : overwrite q i ((q.drop i).take k) = q := by
  unfold overwrite
  rw [List.append_assoc, ← List.drop_drop]
  conv => rhs; rw [← List.take_append_drop i q]
  congr 1
  generalize q.drop i = r
  rw [List.length_take]
  by_cases h : k ≤ r.length
  · rw [Nat.min_eq_left h, List.take_append_drop]
  · rw [Nat.min_eq_right (by omega), List.take_of_length_le (by omega), List.drop_length, List.append_nil]

theorem overwrite_same (p q x y : Bytes) {i j : Nat} (hp : p.take i = q.take i) (h1 : i ≤ p.length) (h2 : i ≤ q.length) (hx : j ≤ i + x.length) (hy : j ≤ i + y.length)
    (h : x.take (j - i) = y.take (j - i)) : (overwrite p i x).take j = (overwrite q i y).take j := by
  unfold overwrite
  have e1 : (p.take i).length = i := by simp; omega
  have e2 : (q.take i).length = i := by simp; omega
  rw [List.append_assoc, List.append_assoc, List.take_append (l₁ := p.take i), List.take_append (l₁ := q.take i), e1, e2, hp, List.take_append_of_le_length (by omega),
    List.take_append_of_le_length (by omega), h]

theorem take_less {p q : Bytes} {j n : Nat} (h : p.take n = q.take n) (hj : j ≤ n) : p.take j = q.take j := by
  have := congrArg (List.take j) h
  rwa [List.take_take, List.take_take, Nat.min_eq_left hj] at this

/-- The unfolder in memory and the other. -/
structure MSim (a : MUnfolder) (b : Unfolder) : Prop where
  size : a.buf.length = 2
  len : a.bufLen ≤ 2
  pend : a.buf.take a.bufLen = b.pend
  hist : a.hist = b.hist

/-- The results. -/
structure MResSim (k : Nat) (a : MRes) (b : ReadRes) : Prop where
  u : MSim a.u b.u
  size : a.mem.length = k
  len : b.q.length ≤ k
  most : b.m ≤ b.q.length
  q : b.err = none → a.mem.take b.q.length = b.q
  got : a.mem.take b.m.toNat = b.q.take b.m.toNat
  m : a.m = b.m
  err : a.err = b.err

theorem read_settle_sim (hok : ReaderOk R) (hS : ScratchOk S) (hQ : LeavesAlone R S) : ∀ (fuel : Nat),
    (∀ (a : MUnfolder) (b : Unfolder) (mem : Bytes), MSim a b →
      RunSim (fun x y => MResSim mem.length x y ∧ (mem.length = 2 → b.pend = [32] → y.err = none → x.mem.drop y.q.length = mem.drop y.q.length)) (a.read R S fuel mem) (b.read R fuel mem.length)) ∧
    (∀ (a : MUnfolder) (b : Unfolder) (mem : Bytes) (lq : Nat) (m : Int), MSim a b → lq ≤ mem.length → m ≤ lq →
      RunSim (fun x y => MResSim mem.length x y ∧ y.q.length = lq ∧ x.mem.drop lq = mem.drop lq) (settleM R S fuel a mem lq m) (settle R fuel b (mem.take lq) m)) := by
  intro fuel
  induction fuel with
  | zero => exact ⟨fun _ _ _ _ => .running, fun _ _ _ _ _ _ _ _ => .running⟩
  | succ fuel ih =>
    obtain ⟨ih1, ih2⟩ := ih
    constructor
    · intro a b mem hab
      rw [MUnfolder.read, Unfolder.read]
      dsimp only
      have hp : b.pend.length = a.bufLen := by rw [← hab.pend, List.length_take, hab.size]; have := hab.len; omega
      have hn : (b.pend.take mem.length).length = min mem.length a.bufLen := by rw [List.length_take, hp]
      have hpt : a.buf.take (min mem.length a.bufLen) = b.pend.take mem.length := by rw [← hab.pend, List.take_take]
      have hl : (overwrite mem 0 (a.buf.take (min mem.length a.bufLen))).length = mem.length := overwrite_length _ _ _ (by rw [hpt, hn]; omega)
      have hu : ∃ buf len, (if min mem.length a.bufLen > 0 then (⟨overwrite a.buf 0 ((a.buf.drop 1).take 1), a.bufLen - min mem.length a.bufLen, a.hist⟩ : MUnfolder) else a) = ⟨buf, len, a.hist⟩ ∧
          ∀ h, MSim ⟨buf, len, h⟩ ⟨b.pend.drop mem.length, h⟩ := by
        obtain ⟨buf, bufLen, hist⟩ := a
        obtain ⟨pend, hist'⟩ := b
        obtain ⟨h1, h2, h3, h4⟩ := hab
        dsimp only at h1 h2 h3 h4 ⊢
        subst h3
        match buf, h1 with
        | [x, y], _ =>
          split
          · refine ⟨_, _, rfl, fun h => ⟨rfl, by dsimp only; omega, ?_, rfl⟩⟩
            rename_i hpos
            match bufLen, h2 with
            | 0, _ => simp at hpos
            | 1, _ =>
              have : 1 ≤ mem.length := by omega
              simp [overwrite, Nat.min_eq_right this, this]
            | 2, _ =>
              by_cases hk : mem.length = 1
              · simp [overwrite, hk]
              · have : 2 ≤ mem.length := by omega
                simp [overwrite, Nat.min_eq_right this, this]
          · refine ⟨_, _, rfl, fun h => ⟨rfl, h2, ?_, rfl⟩⟩
            rename_i hpos
            by_cases hk : mem.length = 0
            · simp [hk]
            · have : bufLen = 0 := by omega
              simp [this]
      obtain ⟨buf, len, hu1, hu2⟩ := hu
      rw [hu1, hl, hn, hab.hist]
      have hf := fillM_sim (S := S) hok hS fuel b.hist (overwrite mem 0 (a.buf.take (min mem.length a.bufLen))) (min mem.length a.bufLen) (mem.length - min mem.length a.bufLen)
        (b.pend.take mem.length) (by rw [hl]; omega) (by
          have := overwrite_mid mem (a.buf.take (min mem.length a.bufLen)) (i := 0) (n := min mem.length a.bufLen) (Nat.zero_le _) (by rw [hpt, hn]; exact Nat.le_refl _)
          rw [List.drop_zero] at this
          rw [this, hpt, List.take_of_length_le (by rw [hn]; exact Nat.le_refl _)])
      refine (hf.and (Q := fun x => mem.length = 2 → b.pend = [32] → x.2.2.2 = none → x.2.1.drop x.2.2.1 = mem.drop x.2.2.1) ?_).bind ?_
      · intro x hx h2 hb he
        have hlen : a.bufLen = 1 := by rw [← hp, hb]; rfl
        have hmin : min mem.length a.bufLen = 1 := by omega
        rw [hmin] at hx hl hpt
        rw [show mem.length - 1 = 1 by omega] at hx
        obtain ⟨h3, h4⟩ := fillM_one hok hS hQ fuel b.hist _ (by omega) x hx he
        have h5 : (a.buf.take 1).length = 1 := by rw [hpt, hn, hmin]
        rw [h3, overwrite_drop_ge _ _ (by omega) (by omega)]
      · rintro ⟨h', mem', m', e'⟩ ⟨h'', q', e''⟩ ⟨⟨rfl, g2, g3, g4, rfl⟩, g6⟩
        dsimp only at g2 g3 g4 g6 ⊢
        rw [hl] at g2 g3
        have hql : q'.length = m' := by rw [← g4, List.length_take]; omega
        split
        · rename_i he
          refine .done ⟨⟨hu2 _, g2, by dsimp only; omega, Int.le_refl _, fun _ => by dsimp only; rw [hql, g4], by dsimp only; rw [Int.toNat_natCast, hql, g4, List.take_of_length_le (by omega)], by dsimp only; rw [hql], rfl⟩, fun _ _ h0 => ?_⟩
          dsimp only at h0
          rw [h0] at he
          cases he
        · rename_i he
          have hs := ih2 ⟨buf, len, h'⟩ ⟨b.pend.drop mem.length, h'⟩ mem' m' m' (hu2 _) (by omega) (Int.le_refl _)
          rw [g4, g2] at hs
          rw [hql]
          refine hs.imp ?_
          rintro x y ⟨k1, k2, k3⟩
          refine ⟨k1, fun h2 hb _ => ?_⟩
          rw [k2, k3]
          exact g6 h2 hb (by simpa using he)
    · intro a b mem lq m hab hlq hm
      have hql : (mem.take lq).length = lq := by simp; omega
      have hstay : ∀ (u : MUnfolder) (v : Unfolder) (m' : Int) (e : Option Nat), MSim u v → m' ≤ lq →
          RunSim (fun x y => MResSim mem.length x y ∧ y.q.length = lq ∧ x.mem.drop lq = mem.drop lq) (.done ⟨u, mem, m', e⟩) (.done ⟨v, mem.take lq, m', e⟩) := by
        intro u v m' e huv hm'
        refine .done ⟨⟨huv, rfl, by dsimp only; omega, by dsimp only; omega, fun _ => ?_, ?_, rfl, rfl⟩, hql, rfl⟩
        · dsimp only; rw [hql]
        · dsimp only; rw [List.take_take, Nat.min_eq_left (by omega)]
      rw [settleM, settle]
      dsimp only
      rw [hql]
      have g1 : lq > 0 → (mem.take lq)[lq - 1]? = mem[lq - 1]? := fun h => List.getElem?_take_of_lt (by omega)
      have g2 : lq > 1 → (mem.take lq)[lq - 2]? = mem[lq - 2]? := fun h => List.getElem?_take_of_lt (by omega)
      by_cases c1 : lq > 0 ∧ mem[lq - 1]? = some 13
      · have c1' : lq > 0 ∧ (mem.take lq)[lq - 1]? = some 13 := ⟨c1.1, by rw [g1 c1.1]; exact c1.2⟩
        rw [if_pos c1, if_pos c1']
        obtain ⟨x, hx1, hx2, hx3⟩ := callRead_fst (S := S) hok hS a.hist a.buf 0 2 (by rw [hab.size]; omega)
        rw [overwrite_all _ _ (by rw [hab.size, hx1])] at hx3
        rw [show callRead R S a.hist a.buf 0 2 = (x, (R (2 :: a.hist)).1.length, (R (2 :: a.hist)).2) from Prod.ext hx3 rfl]
        dsimp only
        have hn := hok 2 a.hist
        rw [hab.hist] at hx2 hn ⊢
        have hsim : MSim ⟨x, (R (2 :: b.hist)).1.length, 2 :: b.hist⟩ ⟨(R (2 :: b.hist)).1, 2 :: b.hist⟩ := ⟨hx1, hn, hx2, rfl⟩
        by_cases c2 : (R (2 :: b.hist)).1.length < 2
        · rw [if_pos c2, if_pos c2]
          exact hstay _ _ _ _ hsim hm
        · rw [if_neg c2, if_neg c2]
          have hxb : x = (R (2 :: b.hist)).1 := by rw [← hx2, List.take_of_length_le (by omega)]
          have hc : (x[0]? = some 10 ∧ x[1]? = some 32) ↔ (R (2 :: b.hist)).1 = [10, 32] := by
            rw [← hxb]
            match x, hx1 with
            | [c, d], _ => simp
          by_cases c3 : (R (2 :: b.hist)).1 = [10, 32]
          · rw [if_pos c3, if_pos (hc.2 c3)]
            by_cases c4 : (R (2 :: b.hist)).2.isSome = true
            · rw [if_pos c4, if_pos c4]
              exact hstay _ _ _ _ hsim (by omega)
            · rw [if_neg c4, if_neg c4]
              obtain ⟨y, hy1, hy2, hy3⟩ := callRead_fst (S := S) hok hS (2 :: b.hist) mem (lq - 1) 1 (by omega)
              have hq0 : (R (1 :: 2 :: b.hist)).2 = none → (overwrite mem (lq - 1) y).take lq = overwrite (mem.take lq) (lq - 1) (R (1 :: 2 :: b.hist)).1 := by
                intro he
                have hn1 := hok 1 (2 :: b.hist)
                by_cases h0 : (R (1 :: 2 :: b.hist)).1 = []
                · rw [← hy3, callRead, h0, hQ _ _ _ (by decide) he h0, overwrite_nil]
                  simp only [List.length_nil, Nat.add_zero, Nat.sub_zero, List.nil_append]
                  rw [overwrite_self]
                · have : (R (1 :: 2 :: b.hist)).1.length ≠ 0 := by simpa using h0
                  rw [List.take_of_length_le (by omega)] at hy2
                  rw [← hy2, overwrite_take_ge _ _ (by omega) hlq]
              rw [show callRead R S (2 :: b.hist) mem (lq - 1) 1 = (overwrite mem (lq - 1) y, (R (1 :: 2 :: b.hist)).1.length, (R (1 :: 2 :: b.hist)).2) from Prod.ext hy3 rfl]
              dsimp only
              have hn1 := hok 1 (2 :: b.hist)
              have hsim' : MSim ⟨x, 0, 1 :: 2 :: b.hist⟩ ⟨[], 1 :: 2 :: b.hist⟩ := ⟨hx1, by dsimp only; omega, rfl, rfl⟩
              have hl1 : (overwrite mem (lq - 1) y).length = mem.length := overwrite_length _ _ _ (by omega)
              have hl2 : (overwrite (mem.take lq) (lq - 1) (R (1 :: 2 :: b.hist)).1).length = lq := by rw [overwrite_length _ _ _ (by omega), hql]
              have hdrop : (overwrite mem (lq - 1) y).drop lq = mem.drop lq := overwrite_drop_ge _ _ (by omega) (by omega)
              by_cases c5 : (R (1 :: 2 :: b.hist)).2.isSome = true
              · rw [if_pos c5, if_pos c5]
                refine .done ⟨⟨hsim', hl1, by dsimp only; omega, by dsimp only; omega, fun h0 => ?_, ?_, rfl, rfl⟩, hl2, hdrop⟩
                · dsimp only at h0
                  rw [h0] at c5
                  cases c5
                · dsimp only
                  refine take_less (n := lq - 1 + (R (1 :: 2 :: b.hist)).1.length) ?_ (by omega)
                  refine overwrite_same _ _ _ _ (by rw [List.take_take, Nat.min_eq_left (by omega)]) (by omega) (by omega) (by omega) (Nat.le_refl _) ?_
                  rw [Nat.add_sub_cancel_left, hy2, List.take_length]
              · rw [if_neg c5, if_neg c5]
                have := ih2 _ _ (overwrite mem (lq - 1) y) lq (m - 1 + (R (1 :: 2 :: b.hist)).1.length) hsim' (by omega) (by omega)
                rw [hq0 (by simpa using c5), hl1, hdrop] at this
                exact this
          · rw [if_neg c3, if_neg (fun h => c3 (hc.1 h))]
            exact hstay _ _ _ _ hsim hm
      · have c1' : ¬ (lq > 0 ∧ (mem.take lq)[lq - 1]? = some 13) := fun h => c1 ⟨h.1, by rw [← g1 h.1]; exact h.2⟩
        rw [if_neg c1, if_neg c1']
        by_cases d1 : lq > 1 ∧ mem[lq - 2]? = some 13 ∧ mem[lq - 1]? = some 10
        · have d1' : lq > 1 ∧ (mem.take lq)[lq - 2]? = some 13 ∧ (mem.take lq)[lq - 1]? = some 10 := ⟨d1.1, by rw [g2 d1.1]; exact d1.2.1, by rw [g1 (by omega)]; exact d1.2.2⟩
          rw [if_pos d1, if_pos d1']
          obtain ⟨x, hx1, hx2, hx3⟩ := callRead_fst (S := S) hok hS a.hist a.buf 0 1 (by rw [hab.size]; omega)
          rw [show callRead R S a.hist a.buf 0 1 = (overwrite a.buf 0 x, (R (1 :: a.hist)).1.length, (R (1 :: a.hist)).2) from Prod.ext hx3 rfl]
          dsimp only
          have hn := hok 1 a.hist
          rw [hab.hist] at hx2 hn ⊢
          have hxl : (overwrite a.buf 0 x).length = 2 := by rw [overwrite_length _ _ _ (by rw [hab.size]; omega), hab.size]
          have hxt : (overwrite a.buf 0 x).take (R (1 :: b.hist)).1.length = (R (1 :: b.hist)).1 := by
            have := overwrite_mid a.buf x (i := 0) (n := (R (1 :: b.hist)).1.length) (Nat.zero_le _) (by omega)
            rw [List.drop_zero, hx2] at this
            exact this
          have hsim : MSim ⟨overwrite a.buf 0 x, (R (1 :: b.hist)).1.length, 1 :: b.hist⟩ ⟨(R (1 :: b.hist)).1, 1 :: b.hist⟩ := ⟨hxl, by dsimp only; omega, hxt, rfl⟩
          by_cases d2 : (R (1 :: b.hist)).1.length < 1
          · rw [if_pos d2, if_pos d2]
            exact hstay _ _ _ _ hsim hm
          · rw [if_neg d2, if_neg d2]
            have hc : (overwrite a.buf 0 x)[0]? = some 32 ↔ (R (1 :: b.hist)).1 = [32] := by
              have hl1 : (R (1 :: b.hist)).1.length = 1 := by omega
              rw [hl1] at hxt
              rw [← hxt]
              match overwrite a.buf 0 x, hxl with
              | [c, d], _ => simp
            by_cases d3 : (R (1 :: b.hist)).1 = [32]
            · rw [if_pos d3, if_pos (hc.2 d3)]
              by_cases d4 : (R (1 :: b.hist)).2.isSome = true
              · rw [if_pos d4, if_pos d4]
                exact hstay _ _ _ _ hsim (by omega)
              · rw [if_neg d4, if_neg d4]
                have hsub : ((mem.drop (lq - 2)).take 2).length = 2 := by simp; omega
                have hrd := ih1 _ _ ((mem.drop (lq - 2)).take 2) hsim
                rw [hsub] at hrd
                refine hrd.bind ?_
                rintro r r' ⟨⟨⟨k1, k2, k3, k4⟩, k5, k6, k7, k8, k9, k10, k11⟩, k12⟩
                rw [k10, k11]
                have k12 := k12 rfl d3
                have hl1 : (overwrite mem (lq - 2) r.mem).length = mem.length := overwrite_length _ _ _ (by omega)
                have hl2 : (overwrite (mem.take lq) (lq - 2) r'.q).length = lq := by rw [overwrite_length _ _ _ (by omega), hql]
                have hdrop : (overwrite mem (lq - 2) r.mem).drop lq = mem.drop lq := overwrite_drop_ge _ _ (by omega) (by omega)
                have hsim' : MSim ⟨r.u.buf, 0, r.u.hist⟩ ⟨[], r'.u.hist⟩ := ⟨k1, by dsimp only; omega, rfl, k4⟩
                by_cases d5 : r'.err.isSome = true
                · rw [if_pos d5, if_pos d5]
                  refine .done ⟨⟨hsim', hl1, by dsimp only; omega, by dsimp only; omega, fun h0 => ?_, ?_, rfl, rfl⟩, hl2, hdrop⟩
                  · dsimp only at h0
                    rw [h0] at d5
                    cases d5
                  · dsimp only
                    refine take_less (n := lq - 2 + r'.m.toNat) ?_ (by omega)
                    refine overwrite_same _ _ _ _ (by rw [List.take_take, Nat.min_eq_left (by omega)]) (by omega) (by omega) (by omega) (by omega) ?_
                    rw [Nat.add_sub_cancel_left, k9]
                · rw [if_neg d5, if_neg d5]
                  have he : r'.err = none := by simpa using d5
                  have := ih2 _ _ (overwrite mem (lq - 2) r.mem) lq (m - 2 + r'.m) hsim' (by omega) (by omega)
                  have hq : (overwrite mem (lq - 2) r.mem).take lq = overwrite (mem.take lq) (lq - 2) r'.q := by
                    have hr : r.mem = r'.q ++ (mem.take lq).drop (lq - 2 + r'.q.length) := by
                      have e : (mem.take lq).drop (lq - 2) = (mem.drop (lq - 2)).take 2 := by rw [List.drop_take, show lq - (lq - 2) = 2 by omega]
                      rw [← List.drop_drop, e, ← k12 he]
                      conv => lhs; rw [← List.take_append_drop r'.q.length r.mem, k8 he]
                    rw [overwrite_take_ge _ _ (by omega) hlq]
                    unfold overwrite
                    have e1 : (mem.take lq).drop (lq - 2 + r.mem.length) = [] := List.drop_of_length_le (by omega)
                    rw [e1, List.append_nil, List.append_assoc, ← hr]
                  rw [hq, hl1, hdrop] at this
                  exact this
            · rw [if_neg d3, if_neg (fun h => d3 (hc.1 h))]
              exact hstay _ _ _ _ hsim hm
        · have d1' : ¬ (lq > 1 ∧ (mem.take lq)[lq - 2]? = some 13 ∧ (mem.take lq)[lq - 1]? = some 10) := fun h =>
            d1 ⟨h.1, by rw [← g2 h.1]; exact h.2.1, by rw [← g1 (by omega)]; exact h.2.2⟩
          rw [if_neg d1, if_neg d1']
          exact hstay _ _ _ _ hab hm

/-- A consumer of them. -/
theorem readAllM_sim (hok : ReaderOk R) (hS : ScratchOk S) (hQ : LeavesAlone R S) (fuel : Nat) : ∀ (mems : List Bytes) (a : MUnfolder) (b : Unfolder) (acc : Bytes), MSim a b →
    RunSim (fun x y => x.1 = y.1 ∧ x.2.1 = y.2.1 ∧ MSim x.2.2 y.2.2) (readAllM R S fuel mems a acc) (readAll R fuel (mems.map List.length) b acc)
  | [], _, _, _, h => .done ⟨rfl, rfl, h⟩
  | mem :: mems, a, b, acc, h => by
    rw [readAllM, List.map_cons, readAll]
    refine ((read_settle_sim hok hS hQ fuel).1 a b mem h).bind ?_
    rintro x y ⟨k, _⟩
    rw [k.err, k.m, k.got]
    split
    · exact .done ⟨rfl, rfl, k.u⟩
    · exact readAllM_sim hok hS hQ fuel mems x.u y.u _ k.u

end

end Ics
