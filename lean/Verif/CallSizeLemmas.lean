import Verif.EmitLemmas
import Verif.Spec.Emit
import Verif.WriterLemmas
import Verif.UnbrokenLemmas
/-!
# Lemmas: how much a call of the caller's writer is given
-/

namespace Ics

open Spec

/-- No line end, but for one at the end. -/
inductive Shaped : Str → Prop
  | nil : Shaped []
  | crlf : Shaped ['\r', '\n']
  | cons {c : Char} {s : Str} : c ≠ '\r' → c ≠ '\n' → Shaped s → Shaped (c :: s)

theorem shaped_of {s : Str} (h : ∀ c ∈ s, c ≠ '\r' ∧ c ≠ '\n') : Shaped s := by
  induction s with
  | nil => exact .nil
  | cons c s ih => exact .cons (h c (.head _)).1 (h c (.head _)).2 (ih fun d hd => h d (.tail _ hd))

theorem shaped_line {s : Str} (h : ∀ c ∈ s, c ≠ '\r' ∧ c ≠ '\n') : Shaped (s ++ crlf) := by
  induction s with
  | nil => exact .crlf
  | cons c s ih => exact .cons (h c (.head _)).1 (h c (.head _)).2 (ih fun d hd => h d (.tail _ hd))

/-- All calls so far were given something of one line, and the line is no longer than it may be. -/
def Brief (g : WFolder) : Prop := g.err = none ∧ g.line.toNat ≤ 75 ∧ ∀ p ∈ g.log, OfOneLine p

/-- No octet of a line end. -/
def NoEnds (l : Bytes) : Prop := ∀ b ∈ l, b ≠ 13 ∧ b ≠ 10

theorem noEnds_char {c : Char} (h1 : c ≠ '\r') (h2 : c ≠ '\n') : NoEnds (encodeChar c) := fun b hb =>
  ⟨encodeChar_no_byte c 13 (by decide) (fun e => h1 (by rw [← Char.ofNat_toNat c, e])) b hb, encodeChar_no_byte c 10 (by decide) (fun e => h2 (by rw [← Char.ofNat_toNat c, e])) b hb⟩

theorem NoEnds.append {a b : Bytes} (h1 : NoEnds a) (h2 : NoEnds b) : NoEnds (a ++ b) := fun x hx => (List.mem_append.1 hx).elim (h1 x) (h2 x)

theorem OfOneLine.length {p : Bytes} (h : OfOneLine p) : p.length ≤ 77 := by
  rcases h with rfl | ⟨l, h1, _, rfl | rfl⟩
  · decide
  · omega
  · simp; omega

theorem Brief.finish {g : WFolder} {n : Nat} {pre : Bytes} (h : Brief g) (hp : OfOneLine pre) : Brief (g.finish taker n pre).1 := by
  unfold WFolder.finish
  split
  · rw [taker_sink]
    refine ⟨rfl, h.2.1, fun p hm => ?_⟩
    rcases List.mem_append.1 hm with hm | hm
    · exact h.2.2 p hm
    · rw [List.mem_singleton.1 hm]; exact hp
  · exact h

theorem brief_crlf (fuel : Nat) (g : WFolder) (n : Nat) (pre : Bytes) (hf : 2 ≤ fuel) (h : Brief g) (hp : pre.length ≤ 75) (hq : NoEnds pre) :
    Brief (WFolder.loop taker fuel g n pre [13, 10]).1 := by
  obtain ⟨k, rfl⟩ : ∃ k, fuel = k + 2 := ⟨fuel - 2, by omega⟩
  have h1 : decodeRune [13, 10] = (13, 1) := by decide +kernel
  have h2 : decodeRune [10] = (10, 1) := by decide +kernel
  have hs : WFolder.loop taker (k + 2) g n pre [13, 10] = WFolder.finish taker { g with line := 0 } n (pre ++ [13] ++ [10]) := by
    unfold WFolder.loop
    simp only [h1]
    simp only [List.take_succ_cons, List.take_zero, List.drop_succ_cons, List.drop_zero]
    rw [if_neg (by decide), if_pos trivial]
    unfold WFolder.loop
    simp only [h2]
    rw [if_pos trivial]
    cases k <;> rfl
  rw [hs]
  refine Brief.finish ⟨h.1, ?_, h.2.2⟩ (.inr ⟨pre, hp, hq, .inr (by simp)⟩)
  exact Nat.zero_le _

theorem brief_loop {cs : Str} (hcs : Shaped cs) : ∀ (fuel : Nat) (g : WFolder) (n : Nat) (pre : Bytes), (utf8 cs).length ≤ fuel → Brief g → pre.length ≤ g.line.toNat → NoEnds pre →
    Brief (WFolder.loop taker fuel g n pre (utf8 cs)).1 := by
  induction hcs with
  | nil =>
    intro fuel g n pre _ h hp hq
    have : WFolder.loop taker fuel g n pre (utf8 []) = g.finish taker n pre := by cases fuel <;> rfl
    rw [this]
    exact h.finish (.inr ⟨pre, by have := h.2.1; omega, hq, .inl rfl⟩)
  | crlf =>
    intro fuel g n pre hf h hp hq
    exact brief_crlf fuel g n pre hf h (by have := h.2.1; omega) hq
  | @cons c cs hc1 hc2 _ ih =>
    intro fuel g n pre hf h hp hq
    rw [utf8_cons] at hf ⊢
    have hl' := encodeChar_length c
    rw [List.length_append] at hf
    rcases fuel with _ | fuel
    · omega
    rcases he : encodeChar c with _ | ⟨b, r⟩
    · exact absurd he (encodeChar_ne_nil c)
    have hce := noEnds_char hc1 hc2
    rw [he] at hce
    have hd := decodeRune_encodeChar c (utf8 cs)
    rw [he] at hd hl'
    have hf' : (utf8 cs).length ≤ fuel := by rw [he] at hf; omega
    have htake : (b :: (r ++ utf8 cs)).take (b :: r).length = b :: r := by rw [← List.cons_append, List.take_left]
    have hdrop : (b :: (r ++ utf8 cs)).drop (b :: r).length = utf8 cs := by rw [← List.cons_append, List.drop_left]
    simp only [List.cons_append] at hd ⊢
    unfold WFolder.loop
    simp only [hd, htake, hdrop]
    have hn1 : c.toNat ≠ 10 := fun e => hc2 (by rw [← Char.ofNat_toNat c, e])
    have hn2 : c.toNat ≠ 13 := fun e => hc1 (by rw [← Char.ofNat_toNat c, e])
    rw [if_neg hn1, if_neg hn2]
    have h75 := h.2.1
    have hb : (UInt8.ofNat (b :: r).length).toNat = (b :: r).length := by
      rw [UInt8.toNat_ofNat']
      omega
    have ha : (g.line + UInt8.ofNat (b :: r).length).toNat = g.line.toNat + (b :: r).length := by
      rw [UInt8.toNat_add, hb]
      omega
    split
    · have h1 : Brief (if pre ≠ [] then g.sink taker pre else (g, 0)).1 := by
        split
        · rw [taker_sink]
          refine ⟨rfl, h75, fun p hm => ?_⟩
          rcases List.mem_append.1 hm with hm | hm
          · exact h.2.2 p hm
          · rw [List.mem_singleton.1 hm]; exact .inr ⟨pre, by omega, hq, .inl rfl⟩
        · exact h
      generalize (if pre ≠ [] then g.sink taker pre else (g, 0)) = fm at h1 ⊢
      obtain ⟨f', m⟩ := fm
      dsimp only at h1 ⊢
      simp only [h1.1, Option.isSome_none, Bool.false_eq_true, if_false, taker_sink]
      have hl : (UInt8.ofNat (b :: r).length + 1).toNat = (b :: r).length + 1 := by
        rw [UInt8.toNat_add, hb]
        show ((b :: r).length + 1) % 256 = _
        omega
      refine ih fuel _ _ _ hf' ⟨rfl, ?_, fun p hm => ?_⟩ ?_ hce
      · show (UInt8.ofNat (b :: r).length + 1).toNat ≤ 75
        omega
      · rcases List.mem_append.1 hm with hm | hm
        · exact h1.2.2 p hm
        · rw [List.mem_singleton.1 hm]; exact .inl rfl
      · show (b :: r).length ≤ (UInt8.ofNat (b :: r).length + 1).toNat
        omega
    · next hgt =>
      have hle : (g.line + UInt8.ofNat (b :: r).length).toNat ≤ 75 := by
        have : ¬ (maxLineLength < g.line + UInt8.ofNat (b :: r).length) := hgt
        rw [UInt8.lt_iff_toNat_lt] at this
        exact Nat.le_of_not_lt this
      refine ih fuel _ _ _ hf' ⟨h.1, hle, h.2.2⟩ ?_ (hq.append hce)
      show (pre ++ b :: r).length ≤ (g.line + UInt8.ofNat (b :: r).length).toNat
      rw [List.length_append, ha]
      omega

theorem brief_writes : ∀ (ss : List Str), (∀ s ∈ ss, Shaped s) → ∀ g : WFolder, Brief g → Brief (g.writes taker (ss.map utf8))
  | [], _, _, h => h
  | s :: ss, hs, g, h => by
    refine brief_writes ss (fun t ht => hs t (.tail _ ht)) (g.write taker (utf8 s)).1 ?_
    have hw : g.write taker (utf8 s) = WFolder.loop taker (utf8 s).length g 0 [] (utf8 s) := by
      unfold WFolder.write
      simp only [h.1, Option.isSome_none, Bool.false_eq_true, if_false]
    rw [hw]
    exact brief_loop (hs s (.head _)) _ g 0 [] (Nat.le_refl _) h (Nat.zero_le _) (by nofun)

/-! ## Where the calls of the folder come from -/

theorem Said.mem_andThen {a b : Said} {p : Str} (h : p ∈ (a.andThen b).calls) : p ∈ a.calls ∨ p ∈ b.calls := by
  unfold Said.andThen at h
  split at h
  · exact List.mem_append.1 h
  · exact .inl h

theorem Said.mem_seq {p : Str} : ∀ {xs : List Said}, p ∈ (Said.seq xs).calls → ∃ x ∈ xs, p ∈ x.calls
  | [], h => by cases h
  | x :: xs, h => by
    rcases Said.mem_andThen h with h | h
    · exact ⟨x, .head _, h⟩
    · obtain ⟨y, hy, hp⟩ := Said.mem_seq h
      exact ⟨y, .tail _ hy, hp⟩

theorem saidFields_mem {E : Env} {x : Said} : ∀ {fs : List SField} {vs : List (List PropVal)}, x ∈ saidFields E fs vs →
    ∃ y ∈ (fs.zip vs).flatMap (fun x => x.2.map fun p => (x.1, p)), x = y.1.spec.said E y.2
  | [], _, h => by simp [saidFields] at h
  | _ :: _, [], h => by simp [saidFields] at h
  | f :: fs, v :: vs, h => by
    simp only [saidFields] at h
    rcases List.mem_append.1 h with h | h
    · obtain ⟨p, hp, rfl⟩ := List.mem_map.1 h
      exact ⟨(f, p), by simpa using .inl hp, rfl⟩
    · obtain ⟨y, hy, e⟩ := saidFields_mem h
      exact ⟨y, by simp only [List.zip_cons_cons, List.flatMap_cons]; exact List.mem_append.2 (.inr hy), e⟩

theorem saidSubs_mem {κ σ : Type} {a : κ → σ → Said} {x : Said} : ∀ {ks : List (Str × κ)} {vs : List (List σ)}, x ∈ saidSubs a ks vs →
    ∃ y ∈ ks.zip vs, ∃ s ∈ y.2, x = a y.1.2 s
  | [], _, h => by simp [saidSubs] at h
  | _ :: _, [], h => by simp [saidSubs] at h
  | (n, k) :: ks, v :: vs, h => by
    simp only [saidSubs] at h
    rcases List.mem_append.1 h with h | h
    · obtain ⟨p, hp, rfl⟩ := List.mem_map.1 h
      exact ⟨((n, k), v), by simp, p, hp, rfl⟩
    · obtain ⟨y, hy, s, hs, e⟩ := saidSubs_mem h
      exact ⟨y, by simp only [List.zip_cons_cons]; exact .tail _ hy, s, hs, e⟩

theorem Tab.saidBody_mem {κ σ : Type} {E : Env} {T : Tab κ} {a : κ → σ → Said} {s : Sect σ} {x : Said} (h : x ∈ T.saidBody E a s) :
    (∃ y ∈ sectProps T s, x = y.1.spec.said E y.2) ∨ ∃ y ∈ T.subs.zip s.subs, ∃ z ∈ y.2, x = a y.1.2 z := by
  rcases List.mem_append.1 h with h | h
  · exact .inl (saidFields_mem h)
  · exact .inr (saidSubs_mem h)

/-- The name of a section without line ends. -/
def cleanName (n : Str) : Bool := n.all fun c => c != '\r' && c != '\n'

theorem cleanName_iff {n : Str} (h : cleanName n = true) : ∀ c ∈ n, c ≠ '\r' ∧ c ≠ '\n' := by
  intro c hc
  have := List.all_eq_true.1 h c hc
  simpa using this

theorem shaped_lineOf {a b : Str} (ha : cleanName a = true) (hb : cleanName b = true) : Shaped (lineOf a b) := by
  unfold lineOf
  refine shaped_line fun c hc => ?_
  rcases List.mem_append.1 hc with hc | hc
  · exact cleanName_iff ha c hc
  · rcases List.mem_cons.1 hc with rfl | hc
    · decide
    · exact cleanName_iff hb c hc

def cleanSub : SubKind → Bool
  | .leaf T => cleanName T.name
  | .alarm => true

def cleanComp (T : Tab SubKind) : Bool := cleanName T.name && T.subs.all fun x => cleanSub x.2

theorem tabCalendar_clean : tabCalendar.subs.all (fun x => cleanComp x.2) = true := by decide +kernel

section
variable {E : Env} {P : SField × PropVal → Prop} (hP : ∀ y, P y → ∀ p ∈ (y.1.spec.said E y.2).calls, Shaped p)
include hP

theorem leaf_shaped {T : Tab Empty} {s : Leaf} (hp : ∀ y ∈ sectProps T s, P y) {x : Said} (hx : x ∈ T.saidBody E noSaid s) : ∀ p ∈ x.calls, Shaped p := by
  rcases Tab.saidBody_mem hx with ⟨y, hy, rfl⟩ | ⟨y, _, z, _⟩
  · exact hP y (hp y hy)
  · exact nomatch z

theorem sub_shaped {k : SubKind} {s : Sub} (hk : cleanSub k = true) (hp : ∀ y ∈ subProps k s, P y) : ∀ p ∈ (subSaid E k s).calls, Shaped p := by
  cases k with
  | leaf T =>
    cases s with
    | alarm => intro p h; cases h
    | leaf s =>
      intro p h
      obtain ⟨x, hx, hpx⟩ := Said.mem_seq h
      rcases List.mem_append.1 hx with hx | hx
      · rcases List.mem_append.1 hx with hx | hx
        · rw [List.mem_singleton.1 hx] at hpx
          rw [List.mem_singleton.1 hpx]
          exact shaped_lineOf (by decide) hk
        · exact leaf_shaped hP hp hx p hpx
      · rw [List.mem_singleton.1 hx] at hpx
        rw [List.mem_singleton.1 hpx]
        exact shaped_lineOf (by decide) hk
  | alarm =>
    cases s with
    | leaf => intro p h; cases h
    | alarm a =>
      cases a with
      | none => intro p h; cases h
      | some a =>
        obtain ⟨a, s⟩ := a
        intro p h
        obtain ⟨x, hx, hpx⟩ := Said.mem_seq h
        rcases List.mem_append.1 hx with hx | hx
        · rcases List.mem_append.1 hx with hx | hx
          · rcases List.mem_cons.1 hx with rfl | hx
            · rw [List.mem_singleton.1 hpx]
              exact shaped_lineOf (by decide) (by decide)
            · rw [List.mem_singleton.1 hx] at hpx
              rw [List.mem_singleton.1 hpx]
              exact shaped_lineOf (by decide) (by cases a <;> decide)
          · exact leaf_shaped hP hp hx p hpx
        · rw [List.mem_singleton.1 hx] at hpx
          rw [List.mem_singleton.1 hpx]
          exact shaped_lineOf (by decide) (by decide)

theorem comp_shaped {T : Tab SubKind} {s : Comp} (hk : cleanComp T = true) (hp : ∀ y ∈ compProps T s, P y) : ∀ p ∈ (T.said E (subSaid E) s).calls, Shaped p := by
  intro p h
  simp only [cleanComp, Bool.and_eq_true] at hk
  obtain ⟨x, hx, hpx⟩ := Said.mem_seq h
  rcases List.mem_append.1 hx with hx | hx
  · rcases List.mem_append.1 hx with hx | hx
    · rw [List.mem_singleton.1 hx] at hpx
      rw [List.mem_singleton.1 hpx]
      exact shaped_lineOf (by decide) hk.1
    · rcases Tab.saidBody_mem hx with ⟨y, hy, rfl⟩ | ⟨y, hy, z, hz, rfl⟩
      · exact hP y (hp y (List.mem_append.2 (.inl hy))) p hpx
      · refine sub_shaped hP (List.all_eq_true.1 hk.2 y.1 (List.of_mem_zip hy).1) (fun w hw => hp w (List.mem_append.2 (.inr ?_))) p hpx
        exact List.mem_flatMap.2 ⟨y, hy, List.mem_flatMap.2 ⟨z, hz, hw⟩⟩
  · rw [List.mem_singleton.1 hx] at hpx
    rw [List.mem_singleton.1 hpx]
    exact shaped_lineOf (by decide) hk.1

theorem cal_shaped {c : Cal} (hp : ∀ y ∈ calProps c, P y) : ∀ p ∈ (c.said E).calls, Shaped p := by
  intro p h
  obtain ⟨x, hx, hpx⟩ := Said.mem_seq h
  rcases List.mem_append.1 hx with hx | hx
  · rcases List.mem_append.1 hx with hx | hx
    · rw [List.mem_singleton.1 hx] at hpx
      rw [List.mem_singleton.1 hpx]
      exact shaped_lineOf (by decide) (by decide)
    · rcases Tab.saidBody_mem hx with ⟨y, hy, rfl⟩ | ⟨y, hy, z, hz, rfl⟩
      · exact hP y (hp y (List.mem_append.2 (.inl hy))) p hpx
      · refine comp_shaped hP (List.all_eq_true.1 tabCalendar_clean y.1 (List.of_mem_zip hy).1) (fun w hw => hp w (List.mem_append.2 (.inr ?_))) p hpx
        exact List.mem_flatMap.2 ⟨y, hy, List.mem_flatMap.2 ⟨z, hz, hw⟩⟩
  · rw [List.mem_singleton.1 hx] at hpx
    rw [List.mem_singleton.1 hpx]
    exact shaped_lineOf (by decide) (by decide)

end

/-- A property's last call is given its line end. -/
theorem PSpec.said_init {E : Env} {sp : PSpec} {p : PropVal} (ht : sp.typed p = true) (he : (sp.said E p).ends = true) : ∃ l, (sp.said E p).calls = l ++ [crlf] := by
  rcases sp with ⟨name, names | ⟨params, vals⟩⟩ <;> cases p with
  | enum n =>
    first
    | cases ht; done
    | exact ⟨_, rfl⟩
  | fields ps vs =>
    first
    | cases ht; done
    | simp only [PSpec.said] at he ⊢
      generalize Said.seq (saidParams E params ps) = x at he ⊢
      rcases x with ⟨l, _ | _⟩
      · cases he
      · exact ⟨[name] ++ (l ++ valsCalls E true vals vs), by simp [Said.andThen, Said.of]⟩

theorem prop_shaped {E : Env} {sp : PSpec} {p : PropVal} {b : Str} (ht : sp.typed p = true) (he : sp.encode E p = some (b ++ crlf)) (hb : ∀ c ∈ b, NoCtl c) :
    ∀ q ∈ (sp.said E p).calls, Shaped q := by
  have h := PSpec.said_text E sp p
  rw [he] at h
  unfold Said.text at h
  split at h
  · next hends =>
    obtain ⟨l, hl⟩ := PSpec.said_init ht hends
    rw [hl] at h ⊢
    have hf : l.flatten = b := by
      have := Option.some.inj h
      rw [List.flatten_append] at this
      simp only [List.flatten_cons, List.flatten_nil, List.append_nil] at this
      exact List.append_cancel_right this
    intro q hq
    rcases List.mem_append.1 hq with hq | hq
    · refine shaped_of fun c hc => ?_
      have := hb c (hf ▸ List.mem_flatten.2 ⟨q, hq, hc⟩)
      constructor <;> (rintro rfl; revert this; unfold NoCtl; decide)
    · rw [List.mem_singleton.1 hq]; exact .crlf
  · cases h

end Ics
