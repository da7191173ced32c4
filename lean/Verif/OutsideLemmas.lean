import Verif.DecodedOutputLemmas
import Verif.Props.Valid
import Verif.Props.Size
/-!
# Lemmas: the texts from elsewhere in a decoded calendar
-/

namespace Ics
open Spec

/-- The texts from elsewhere in a property, measured by its line. -/
def Bounds (M : Measure) (E : Env) : Prop := ∀ (sp : PSpec) (l : Line) v, sp.decode E l.params l.value = .ok v → propOutside E v ≤ M.m (printLine l)

theorem Sect.loop_outside {κ σ : Type} (M : Measure) {E : Env} (hM : Bounds M E) (w : σ → Nat) {T : Tab κ} {sub : κ → List Line → Res (σ × List Line)} {t : Term}
    (hsub : ∀ k ls x r, sub k ls = .ok (x, r) → w x + M.lines r ≤ M.lines ls) : ∀ (f : Nat) {s s' : Sect σ} {ls r : List Line},
    Sect.loop E T sub t f s ls = .ok (s', r) → sectOutside E w s' + M.lines r ≤ sectOutside E w s + M.lines ls := by
  intro f
  induction f with
  | zero => intro s s' ls r h; cases h
  | succ f ih =>
    intro s s' ls r h
    cases ls with
    | nil => cases h
    | cons l ls =>
      have hc := M.lines_cons l ls
      unfold Sect.loop at h
      split at h
      · split at h
        · rename_i i _
          split at h
          · rename_i n k _
            cases hx : sub k ls with
            | ok xr =>
              obtain ⟨x, r1⟩ := xr
              rw [hx] at h
              have h1 := hsub _ _ _ _ hx
              have h2 := ih h
              have h3 := sumSize_add w x s.subs i
              simp only [sectOutside, Sect.addSub] at *; omega
            | err e => rw [hx] at h; cases h
            | panic => rw [hx] at h; cases h
          · cases h
        · cases hd : dummy t (ls.length + 1) (upper l.value) ls with
          | ok r1 =>
            rw [hd] at h
            have h1 := dummy_size M _ hd
            have h2 := ih h
            omega
          | err e => rw [hd] at h; cases h
          | panic => rw [hd] at h; cases h
      · split at h
        · rename_i i _
          split at h
          · rename_i fd _
            cases ha : s.addProp E i fd l with
            | ok s1 =>
              rw [ha] at h
              have h2 := ih h
              unfold Sect.addProp at ha
              split at ha
              · cases ha
              · cases hv : fd.spec.decode E l.params l.value with
                | ok v =>
                  rw [hv] at ha; cases ha
                  have h1 := hM _ _ _ hv
                  have h3 := sumSize_add (propOutside E) v s.fields i
                  simp only [sectOutside, Measure.lines, List.map_cons, List.sum_cons] at *; omega
                | err e => rw [hv] at ha; cases ha
                | panic => rw [hv] at ha; cases ha
            | err e => rw [ha] at h; cases h
            | panic => rw [ha] at h; cases h
          · cases h
        · split at h
          · split at h <;> cases h
            omega
          · have := ih h; omega

theorem Tab.decode_outside {κ σ : Type} (M : Measure) {E : Env} (hM : Bounds M E) (w : σ → Nat) {T : Tab κ} {sub : κ → List Line → Res (σ × List Line)} {t : Term}
    (hsub : ∀ k ls x r, sub k ls = .ok (x, r) → w x + M.lines r ≤ M.lines ls) {ls r : List Line} {s : Sect σ}
    (h : T.decode E sub t ls = .ok (s, r)) : sectOutside E w s + M.lines r ≤ M.lines ls := by
  unfold Tab.decode at h
  cases hl : Sect.loop E T sub t (ls.length + 1) (T.start σ) ls with
  | ok x =>
    obtain ⟨s1, r1⟩ := x
    rw [hl] at h
    cases hf : T.finish s1 with
    | ok u =>
      change ((T.finish s1) >>= fun _ => Res.ok (s1, r1)) = _ at h
      rw [hf] at h; cases h
      have h1 := Sect.loop_outside M hM w hsub _ hl
      have h2 : sectOutside E w (T.start σ) = 0 := by
        simp only [sectOutside, Tab.start, sumSize_nil]
      omega
    | err e => change ((T.finish s1) >>= fun _ => Res.ok (s1, r1)) = _ at h; rw [hf] at h; cases h
    | panic => change ((T.finish s1) >>= fun _ => Res.ok (s1, r1)) = _ at h; rw [hf] at h; cases h
  | err e => rw [hl] at h; cases h
  | panic => rw [hl] at h; cases h

theorem noSub_outside (M : Measure) (w : Empty → Nat) : ∀ k ls x r, noSub k ls = .ok (x, r) → w x + M.lines r ≤ M.lines ls := nofun

theorem subDecode_outside (M : Measure) {E : Env} (hM : Bounds M E) {t : Term} : ∀ k ls x r, subDecode E t k ls = .ok (x, r) →
    subOutside E x + M.lines r ≤ M.lines ls := by
  intro k ls x r h
  cases k with
  | alarm =>
    change alarmDecode E t ls = _ at h
    unfold alarmDecode at h
    cases hc : alarmCollect t none ls with
    | ok y =>
      obtain ⟨a, pt, r1⟩ := y
      rw [hc] at h
      have h1 := alarmCollect_size M _ hc
      cases a with
      | none => cases h
      | some k =>
        cases hd : k.tab.decode E noSub (.error .unexpectedEOF) pt with
        | ok z =>
          obtain ⟨s, q⟩ := z
          change (k.tab.decode E noSub (.error .unexpectedEOF) pt >>= fun z => Res.ok (Sub.alarm (some (k, z.1)), r1)) = _ at h
          rw [hd] at h; cases h
          have h2 := Tab.decode_outside M hM noSize (noSub_outside M _) hd
          simp only [subOutside]; omega
        | err e =>
          change (k.tab.decode E noSub (.error .unexpectedEOF) pt >>= fun z => Res.ok (Sub.alarm (some (k, z.1)), r1)) = _ at h
          rw [hd] at h; cases h
        | panic =>
          change (k.tab.decode E noSub (.error .unexpectedEOF) pt >>= fun z => Res.ok (Sub.alarm (some (k, z.1)), r1)) = _ at h
          rw [hd] at h; cases h
    | err e => rw [hc] at h; cases h
    | panic => rw [hc] at h; cases h
  | leaf T =>
    change (T.decode E noSub t ls >>= fun z => Res.ok (Sub.leaf z.1, z.2)) = _ at h
    cases hd : T.decode E noSub t ls with
    | ok z =>
      rw [hd] at h; cases h
      exact Tab.decode_outside M hM noSize (noSub_outside M _) hd
    | err e => rw [hd] at h; cases h
    | panic => rw [hd] at h; cases h

theorem decodeStream_outside (M : Measure) {E : Env} (hM : Bounds M E) {st : Stream} {c : Cal} (h : decodeStream E st = .ok c) :
    ∃ l, 17 ≤ (printLine l).length ∧ calOutside E c + M.m (printLine l) ≤ M.lines st.lines := by
  unfold decodeStream at h
  split at h
  · cases h
  · rename_i l r hl
    split at h
    · rename_i hb
      cases hd : tabCalendar.decode E (compDecode E st.term) st.term r with
      | ok z =>
        obtain ⟨c1, q⟩ := z
        rw [hd] at h; cases h
        have h1 := Tab.decode_outside M hM (compOutside E) (fun k ls x r h => Tab.decode_outside M hM (subOutside E) (subDecode_outside M hM) h) hd
        have h2 := M.len (printLine l)
        have h3 : (upper l.name).length = 5 := by rw [hb.1]; rfl
        have h4 : (upper l.value).length = 9 := by rw [hb.2]; rfl
        have h5 : l.name.length = 5 := by simpa [upper] using h3
        have h6 : l.value.length = 9 := by simpa [upper] using h4
        have h7 : 17 ≤ (printLine l).length := by simp [printLine, printBare, h5, h6]; omega
        refine ⟨l, h7, ?_⟩
        rw [hl]
        simp only [calOutside, Measure.lines, List.map_cons, List.sum_cons] at *; omega
      | err e => rw [hd] at h; cases h
      | panic => rw [hd] at h; cases h
    · cases h


/-- So many times the length. -/
def times (k : Nat) : Measure := ⟨fun s => (k + 2) * s.length, fun s => by rw [Nat.add_mul]; omega, fun s t => by simp [Nat.mul_add],
  fun s => by have := decode6868_size s; rw [Nat.add_mul]; omega⟩

theorem decodeDoc_outside {E : Env} {U F : Nat} (hE : Moderate E U F) {s : Str} {c : Cal} (h : decodeDoc E s = .ok c) : calOutside E c ≤ (U + 2 * F + 3) * s.length := by
  have hb : Bounds (times (U + 2 * F + 1)) E := fun sp l v hv => Nat.le_trans (PSpec.decode_fits hE hv).2 (Nat.mul_le_mul_right _ (by omega))
  obtain ⟨l, hl, h1⟩ := decodeStream_outside (times (U + 2 * F + 1)) hb h
  have h2 := tokenise_size (times (U + 2 * F + 1)) s
  have h3 : (times (U + 2 * F + 1)).m (s ++ crlf) = (U + 2 * F + 3) * s.length + (U + 2 * F + 3) * 2 := by
    rw [← Nat.mul_add]
    exact congrArg ((U + 2 * F + 3) * ·) (by simp [crlf])
  have h4 : (U + 2 * F + 3) * 17 ≤ (times (U + 2 * F + 1)).m (printLine l) := Nat.mul_le_mul_left _ hl
  omega

theorem decodeDoc_fits {E : Env} {U F : Nat} (hE : Moderate E U F) {s : Str} {c : Cal} (h : decodeDoc E s = .ok c) : ∀ p ∈ everyProp c, PropFits E p := by
  have ha : CalAll (fun _ p => PropFits E p) c := decodeStream_all (L := fun _ => True) (fun f l p _ _ hd => (PSpec.decode_fits hE hd).1) (fun _ _ => trivial) h
  have key : ∀ {κ σ : Type} {T : Tab κ} {Q : κ → σ → Prop} {s : Sect σ}, SectAll (fun _ p => PropFits E p) Q T s →
      (∀ p ∈ s.fields.flatten, PropFits E p) ∧ ∀ y ∈ s.subs.flatten, ∃ x ∈ T.subs, Q x.2 y := by
    intro κ σ T Q s hs
    refine ⟨fun p hp => ?_, fun y hy => ?_⟩
    · obtain ⟨i, hi, hx⟩ := mem_flatten_getD hp
      rw [hs.lenF] at hi
      exact hs.field i _ (List.getElem?_eq_getElem hi) p hx
    · obtain ⟨i, hi, hx⟩ := mem_flatten_getD hy
      rw [hs.lenS] at hi
      exact ⟨_, List.getElem_mem hi, hs.sub i _ (List.getElem?_eq_getElem hi) y hx⟩
  intro p hp
  simp only [everyProp, List.mem_append, List.mem_flatMap] at hp
  obtain ⟨k1, k2⟩ := key ha.1
  rcases hp with hp | ⟨x, hx, hp⟩
  · exact k1 p hp
  · obtain ⟨k, _, hc⟩ := k2 x hx
    obtain ⟨k3, k4⟩ := key hc.1
    rcases hp with hp | ⟨y, hy, hp⟩
    · exact k3 p hp
    · obtain ⟨⟨n, k⟩, _, hq⟩ := k4 y hy
      cases y with
      | leaf s =>
        cases k with
        | leaf T => exact (key hq.1).1 p hp
        | alarm => exact hq.elim
      | alarm a =>
        cases a with
        | none => simp at hp
        | some ks =>
          cases k with
          | leaf T => exact hq.elim
          | alarm => exact (key hq.1).1 p hp

end Ics
