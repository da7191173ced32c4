import Verif.Spec.Writer
import Verif.FolderLemmas
/-!
# Lemmas about what the caller's writer is given
-/

namespace Ics
open Spec

/-! ## The model without the record -/

theorem counted_sink (W : Sink) (f : WFolder) (p : Bytes) :
    (counted (f.sink (byCount W) p).1, (f.sink (byCount W) p).2) = (counted f).sink W p := by
  unfold WFolder.sink Folder.sink byCount counted
  cases h : W f.log.length with
  | none => simp
  | some x =>
    obtain ⟨n, e⟩ := x
    simp only [List.length_append, List.length_cons, List.length_nil, List.length_take, Nat.zero_add]
    rw [List.take_eq_take_iff.2 (by omega : min (min n p.length) p.length = min n p.length)]

theorem counted_finish (W : Sink) (f : WFolder) (n : Nat) (p : Bytes) :
    (counted (f.finish (byCount W) n p).1, (f.finish (byCount W) n p).2) = (counted f).finish W n p := by
  unfold WFolder.finish Folder.finish
  split
  · rw [← counted_sink]
  · rfl

theorem counted_loop (W : Sink) : ∀ (fuel : Nat) (f : WFolder) (n : Nat) (pre suf : Bytes),
    (counted (WFolder.loop (byCount W) fuel f n pre suf).1, (WFolder.loop (byCount W) fuel f n pre suf).2) = Folder.loop W fuel (counted f) n pre suf
  | 0, f, n, pre, suf => counted_finish ..
  | fuel + 1, f, n, pre, [] => counted_finish ..
  | fuel + 1, f, n, pre, b :: suf => by
    unfold WFolder.loop Folder.loop
    obtain ⟨r, s⟩ := decodeRune (b :: suf)
    dsimp only
    split
    · exact counted_loop W fuel _ n _ _
    · split
      · exact counted_loop W fuel _ n _ _
      · have hl : (counted f).line = f.line := rfl
        rw [hl]
        split
        · have h1 : (if pre ≠ [] then (counted f).sink W pre else (counted f, 0)) =
              (counted (if pre ≠ [] then f.sink (byCount W) pre else (f, 0)).1, (if pre ≠ [] then f.sink (byCount W) pre else (f, 0)).2) := by
            split
            · exact (counted_sink ..).symm
            · rfl
          rw [h1]
          generalize (if pre ≠ [] then f.sink (byCount W) pre else (f, 0)) = fm
          obtain ⟨f', m⟩ := fm
          dsimp only
          have he : (counted f').err = f'.err := rfl
          rw [he]
          split
          · rfl
          · rw [← counted_sink]
            generalize f'.sink (byCount W) eol = gm
            obtain ⟨g, k⟩ := gm
            dsimp only
            have he : (counted g).err = g.err := rfl
            rw [he]
            split
            · rfl
            · exact counted_loop W fuel _ (n + m) _ _
        · exact counted_loop W fuel _ n _ _

theorem counted_write (W : Sink) (f : WFolder) (q : Bytes) :
    (counted (f.write (byCount W) q).1, (f.write (byCount W) q).2) = (counted f).write W q := by
  unfold WFolder.write Folder.write
  have he : (counted f).err = f.err := rfl
  rw [he]
  split
  · rfl
  · exact counted_loop ..

theorem counted_writes (W : Sink) : ∀ (qs : List Bytes) (f : WFolder), counted (f.writes (byCount W) qs) = (counted f).writes W qs
  | [], f => rfl
  | q :: qs, f => by
    have h1 := counted_writes W qs (f.write (byCount W) q).1
    have h2 := congrArg Prod.fst (counted_write W f q)
    dsimp only at h2
    simp only [WFolder.writes, Folder.writes, List.foldl_cons] at *
    rw [h1, h2]

/-! ## The calls -/

/-- What happened so far: the calls, and whether there was an error. -/
def WFolder.Good (w : Writer) (f : WFolder) : Prop := Handed w f.log f.out f.err

theorem WFolder.Good.sink {w : Writer} {f : WFolder} {p : Bytes} (h : f.Good w) (he : f.err = none) (hp : p ≠ []) : (f.sink w p).1.Good w := by
  unfold WFolder.Good at *
  rw [he] at h
  exact .call p h hp

theorem WFolder.Good.finish {w : Writer} {f : WFolder} {n : Nat} {p : Bytes} (h : f.Good w) (he : f.err = none) : (f.finish w n p).1.Good w := by
  unfold WFolder.finish
  split
  · rename_i hp
    exact h.sink he hp
  · exact h

theorem WFolder.Good.loop {w : Writer} : ∀ (fuel : Nat) (f : WFolder) (n : Nat) (pre suf : Bytes), f.Good w → f.err = none → (WFolder.loop w fuel f n pre suf).1.Good w
  | 0, f, n, pre, suf, h, he => h.finish he
  | fuel + 1, f, n, pre, [], h, he => h.finish he
  | fuel + 1, f, n, pre, b :: suf, h, he => by
    unfold WFolder.loop
    obtain ⟨r, s⟩ := decodeRune (b :: suf)
    dsimp only
    split
    · exact Good.loop fuel _ n _ _ h he
    · split
      · exact Good.loop fuel _ n _ _ h he
      · split
        · have h1 : (if pre ≠ [] then f.sink w pre else (f, 0)).1.Good w := by
            split
            · rename_i hp
              exact h.sink he hp
            · exact h
          generalize (if pre ≠ [] then f.sink w pre else (f, 0)) = fm at h1 ⊢
          obtain ⟨f', m⟩ := fm
          dsimp only at h1 ⊢
          split
          · exact h1
          · rename_i he'
            have h2 := h1.sink (p := eol) (by simpa using he') (by decide)
            generalize f'.sink w eol = gm at h2 ⊢
            obtain ⟨g, k⟩ := gm
            dsimp only at h2 ⊢
            split
            · exact h2
            · rename_i he'
              exact Good.loop fuel _ _ _ _ h2 (by simpa using he')
        · exact Good.loop fuel _ n _ _ h he

theorem WFolder.Good.write {w : Writer} {f : WFolder} (h : f.Good w) (q : Bytes) : (f.write w q).1.Good w := by
  unfold WFolder.write
  split
  · exact h
  · rename_i he
    exact Good.loop _ _ _ _ _ h (by simpa using he)

theorem WFolder.Good.writes {w : Writer} : ∀ (qs : List Bytes) {f : WFolder}, f.Good w → (f.writes w qs).Good w
  | [], _, h => h
  | q :: qs, _, h => Good.writes qs (h.write q)

/-! ## The pieces do not depend on the writer -/

/-- A writer that takes everything. -/
def taker : Writer := fun _ p => (p.length, none)

theorem taker_sink (f : WFolder) (p : Bytes) : f.sink taker p = ({ f with err := none, log := f.log ++ [p], out := f.out ++ p }, p.length) := by
  simp [WFolder.sink, taker]

/-- The run against any writer, and the one against a writer that takes everything. -/
def SameCalls (f g : WFolder) : Prop := (f.err = none ∧ f.line = g.line ∧ f.log = g.log) ∨ (f.err ≠ none ∧ f.log <+: g.log)

theorem SameCalls.sink {w : Writer} {f g : WFolder} (p : Bytes) (h : f.line = g.line) (hl : f.log = g.log) : SameCalls (f.sink w p).1 (g.sink taker p).1 := by
  rw [taker_sink]
  unfold WFolder.sink SameCalls
  cases he : (w f.log p).2 with
  | none => left; rw [← hl]; simp [he, h]
  | some e => right; rw [← hl]; simp [he]

theorem taker_finish (g : WFolder) (hg : g.err = none) (n : Nat) (p : Bytes) : (g.finish taker n p).1.err = none ∧ g.log <+: (g.finish taker n p).1.log := by
  unfold WFolder.finish
  split
  · rw [taker_sink]; simp
  · simp [hg]

theorem taker_loop : ∀ (fuel : Nat) (g : WFolder) (n : Nat) (pre suf : Bytes), g.err = none →
    (WFolder.loop taker fuel g n pre suf).1.err = none ∧ g.log <+: (WFolder.loop taker fuel g n pre suf).1.log
  | 0, f, n, pre, suf, h => taker_finish _ h _ _
  | fuel + 1, f, n, pre, [], h => taker_finish _ h _ _
  | fuel + 1, g, n, pre, b :: suf, h => by
    unfold WFolder.loop
    obtain ⟨r, s⟩ := decodeRune (b :: suf)
    dsimp only
    split
    · exact taker_loop fuel _ n _ _ h
    · split
      · exact taker_loop fuel _ n _ _ h
      · split
        · have h1 : (if pre ≠ [] then g.sink taker pre else (g, 0)).1.err = none ∧ g.log <+: (if pre ≠ [] then g.sink taker pre else (g, 0)).1.log := by
            split
            · rw [taker_sink]; simp
            · simp [h]
          generalize (if pre ≠ [] then g.sink taker pre else (g, 0)) = fm at h1 ⊢
          obtain ⟨f', m⟩ := fm
          dsimp only at h1 ⊢
          simp only [h1.1, Option.isSome_none, Bool.false_eq_true, if_false, taker_sink]
          have h2 := taker_loop fuel { f' with line := UInt8.ofNat s + 1, err := none, log := f'.log ++ [eol], out := f'.out ++ eol } (n + m)
            ((b :: suf).take s) ((b :: suf).drop s) rfl
          refine ⟨h2.1, h1.2.trans (.trans ?_ h2.2)⟩
          simp
        · exact taker_loop fuel _ n _ _ h

theorem SameCalls.finish {w : Writer} {f g : WFolder} (n n' : Nat) (p : Bytes) (he : f.err = none) (h : f.line = g.line) (hl : f.log = g.log) :
    SameCalls (f.finish w n p).1 (g.finish taker n' p).1 := by
  unfold WFolder.finish
  split
  · exact .sink p h hl
  · exact .inl ⟨he, h, hl⟩

theorem SameCalls.loop {w : Writer} : ∀ (fuel : Nat) (f g : WFolder) (n n' : Nat) (pre suf : Bytes), f.err = none → g.err = none → f.line = g.line → f.log = g.log →
    SameCalls (WFolder.loop w fuel f n pre suf).1 (WFolder.loop taker fuel g n' pre suf).1
  | 0, f, g, n, n', pre, suf, he, hg, h, hl => .finish n n' pre he h hl
  | fuel + 1, f, g, n, n', pre, [], he, hg, h, hl => .finish n n' pre he h hl
  | fuel + 1, f, g, n, n', pre, b :: suf, he, hg, h, hl => by
    unfold WFolder.loop
    obtain ⟨r, s⟩ := decodeRune (b :: suf)
    dsimp only
    split
    · exact SameCalls.loop fuel _ _ n n' _ _ he hg rfl hl
    · rw [h]
      split
      · exact SameCalls.loop fuel _ _ n n' _ _ he hg rfl hl
      · split
        · have h1 : SameCalls (if pre ≠ [] then f.sink w pre else (f, 0)).1 (if pre ≠ [] then g.sink taker pre else (g, 0)).1 := by
            split
            · exact .sink _ h hl
            · exact .inl ⟨he, h, hl⟩
          have h2 : (if pre ≠ [] then g.sink taker pre else (g, 0)).1.err = none := by
            split
            · rw [taker_sink]
            · exact hg
          generalize (if pre ≠ [] then f.sink w pre else (f, 0)) = fm at h1 ⊢
          generalize (if pre ≠ [] then g.sink taker pre else (g, 0)) = gm at h1 h2 ⊢
          obtain ⟨f', m⟩ := fm
          obtain ⟨g', m'⟩ := gm
          dsimp only at h1 h2 ⊢
          simp only [h2, Option.isSome_none, Bool.false_eq_true, if_false]
          have grow : (g'.sink taker eol).1.err = none ∧ g'.log <+: (g'.sink taker eol).1.log := by rw [taker_sink]; simp
          split
          · rename_i he'
            rcases h1 with h1 | h1
            · rw [h1.1] at he'; cases he'
            · refine .inr ⟨h1.1, h1.2.trans ?_⟩
              simp only [grow.1, Option.isSome_none, Bool.false_eq_true, if_false]
              exact grow.2.trans (taker_loop fuel { (g'.sink taker eol).1 with line := UInt8.ofNat s + 1 } (n' + m') _ _ grow.1).2
          · rename_i he'
            rcases h1 with h1 | h1
            · have h3 := SameCalls.sink (w := w) eol h1.2.1 h1.2.2
              generalize f'.sink w eol = fk at h3 ⊢
              generalize g'.sink taker eol = gk at h3 grow ⊢
              obtain ⟨f'', k⟩ := fk
              obtain ⟨g'', k'⟩ := gk
              dsimp only at h3 grow ⊢
              simp only [grow.1, Option.isSome_none, Bool.false_eq_true, if_false]
              split
              · rename_i he''
                rcases h3 with h3 | h3
                · rw [h3.1] at he''; cases he''
                · exact .inr ⟨h3.1, h3.2.trans (taker_loop fuel { g'' with line := UInt8.ofNat s + 1, err := none } (n' + m') _ _ rfl).2⟩
              · rename_i he''
                rcases h3 with h3 | h3
                · exact SameCalls.loop fuel _ _ _ _ _ _ h3.1 rfl rfl h3.2.2
                · exact absurd (by simpa using he'') h3.1
            · exact absurd (by simpa using he') h1.1
        · exact SameCalls.loop fuel _ _ n n' _ _ he hg rfl hl

theorem writes_stay {w : Writer} : ∀ (qs : List Bytes) {f : WFolder}, f.err ≠ none → f.writes w qs = f
  | [], _, _ => rfl
  | q :: qs, f, h => by
    have h1 : (f.write w q).1 = f := by
      unfold WFolder.write
      rw [if_pos (by cases hf : f.err with | none => exact absurd hf h | some e => rfl)]
    simp only [WFolder.writes, List.foldl_cons, h1]
    exact writes_stay qs h

theorem taker_writes : ∀ (qs : List Bytes) (g : WFolder), g.err = none → (g.writes taker qs).err = none ∧ g.log <+: (g.writes taker qs).log
  | [], g, h => ⟨h, List.prefix_refl _⟩
  | q :: qs, g, h => by
    have h1 : (g.write taker q).1.err = none ∧ g.log <+: (g.write taker q).1.log := by
      unfold WFolder.write
      simp only [h, Option.isSome_none, Bool.false_eq_true, if_false]
      exact taker_loop _ _ _ _ _ h
    have h2 := taker_writes qs _ h1.1
    exact ⟨h2.1, h1.2.trans h2.2⟩

theorem SameCalls.writes {w : Writer} : ∀ (qs : List Bytes) (f g : WFolder), f.err = none → g.err = none → f.line = g.line → f.log = g.log →
    SameCalls (f.writes w qs) (g.writes taker qs)
  | [], f, g, he, hg, h, hl => .inl ⟨he, h, hl⟩
  | q :: qs, f, g, he, hg, h, hl => by
    have h1 : SameCalls (f.write w q).1 (g.write taker q).1 := by
      unfold WFolder.write
      simp only [he, hg, Option.isSome_none, Bool.false_eq_true, if_false]
      exact SameCalls.loop _ _ _ _ _ _ _ he hg h hl
    have h2 : (g.write taker q).1.err = none := by
      unfold WFolder.write
      simp only [hg, Option.isSome_none, Bool.false_eq_true, if_false]
      exact (taker_loop _ _ _ _ _ hg).1
    rcases h1 with h1 | h1
    · exact SameCalls.writes qs _ _ h1.1 h2 h1.2.1 h1.2.2
    · refine .inr ⟨?_, ?_⟩
      · show ((f.write w q).1.writes w qs).err ≠ none
        rw [writes_stay qs h1.1]; exact h1.1
      · show ((f.write w q).1.writes w qs).log <+: ((g.write taker q).1.writes taker qs).log
        rw [writes_stay qs h1.1]
        exact h1.2.trans (taker_writes qs _ h2).2

/-! ## The pieces -/

theorem HandedOut.append {q r : Bytes} {ps rs : List Bytes} (h : HandedOut q ps) (h' : HandedOut r rs) : HandedOut (q ++ r) (ps ++ rs) := by
  induction h with
  | nil => exact h'
  | piece hp _ ih => rw [List.append_assoc]; exact .piece hp ih
  | fold hp _ ih => rw [List.append_assoc]; exact .fold hp ih

theorem decodeRune_pos (b : UInt8) (suf : Bytes) : 1 ≤ (decodeRune (b :: suf)).2 := by
  unfold decodeRune badRune
  dsimp only
  repeat' split
  all_goals simp

/-- The calls of a loop that has `pre` in hand. -/
def RestOut (pre suf : Bytes) (new : List Bytes) : Prop :=
  (pre = [] ∧ HandedOut suf new) ∨ ∃ p q ps, pre ++ suf = p ++ q ∧ p ≠ [] ∧ HandedOut q ps ∧ new = p :: ps

theorem RestOut.finish {pre : Bytes} (g : WFolder) (n : Nat) : ∃ new, (g.finish taker n pre).1.log = g.log ++ new ∧ RestOut pre [] new := by
  unfold WFolder.finish
  split
  · rename_i hp
    rw [taker_sink]
    exact ⟨[pre], rfl, .inr ⟨pre, [], [], rfl, hp, .nil, rfl⟩⟩
  · rename_i hp
    refine ⟨[], by simp, .inl ⟨by simpa using hp, .nil⟩⟩

theorem RestOut.move {pre rune rest : Bytes} {new : List Bytes} (hr : rune ≠ []) (h : RestOut (pre ++ rune) rest new) : RestOut pre (rune ++ rest) new := by
  rcases h with ⟨h, _⟩ | ⟨p, q, ps, h1, h2, h3, rfl⟩
  · exact absurd (List.append_eq_nil_iff.1 h).2 hr
  · rw [List.append_assoc] at h1
    exact .inr ⟨p, q, ps, h1, h2, h3, rfl⟩

theorem RestOut.loop : ∀ (fuel : Nat) (g : WFolder) (n : Nat) (pre suf : Bytes), g.err = none → suf.length ≤ fuel →
    ∃ new, (WFolder.loop taker fuel g n pre suf).1.log = g.log ++ new ∧ RestOut pre suf new
  | 0, g, n, pre, suf, _, hf => by
    have : suf = [] := List.eq_nil_of_length_eq_zero (by omega)
    subst this
    exact RestOut.finish g n
  | fuel + 1, g, n, pre, [], _, _ => RestOut.finish g n
  | fuel + 1, g, n, pre, b :: suf, hg, hf => by
    have hs := decodeRune_pos b suf
    unfold WFolder.loop
    generalize decodeRune (b :: suf) = rs at hs ⊢
    obtain ⟨r, s⟩ := rs
    dsimp only at hs ⊢
    have hrune : (b :: suf).take s ≠ [] := by
      rcases s with _ | s
      · omega
      · simp
    have hrest : ((b :: suf).drop s).length ≤ fuel := by simp at hf ⊢; omega
    have hcat : (b :: suf).take s ++ (b :: suf).drop s = b :: suf := List.take_append_drop ..
    generalize (b :: suf).take s = rune at *
    generalize (b :: suf).drop s = rest at *
    have key : ∀ g' : WFolder, g'.err = none → g'.log = g.log → ∃ new, (WFolder.loop taker fuel g' n (pre ++ rune) rest).1.log = g.log ++ new ∧ RestOut pre (b :: suf) new := by
      intro g' h1 h2
      obtain ⟨new, h3, h4⟩ := RestOut.loop fuel g' n (pre ++ rune) rest h1 hrest
      refine ⟨new, by rw [h3, h2], ?_⟩
      rw [← hcat]
      exact h4.move hrune
    split
    · exact key _ hg rfl
    · split
      · exact key _ hg rfl
      · split
        · have fold : ∀ (g' : WFolder) (m : Nat), g'.err = none → ∃ p q ps, rune ++ rest = p ++ q ∧ p ≠ [] ∧ HandedOut q ps ∧
              (WFolder.loop taker fuel { (g'.sink taker eol).1 with line := UInt8.ofNat s + 1 } m rune rest).1.log = g'.log ++ [13, 10, 32] :: p :: ps := by
            intro g' m h1
            rw [taker_sink]
            obtain ⟨new, h3, h4⟩ := RestOut.loop fuel { g' with err := none, log := g'.log ++ [eol], out := g'.out ++ eol, line := UInt8.ofNat s + 1 } m rune rest rfl hrest
            rcases h4 with ⟨h, _⟩ | ⟨p, q, ps, h4, h5, h6, rfl⟩
            · exact absurd h hrune
            · exact ⟨p, q, ps, h4, h5, h6, by rw [h3]; simp [eol]⟩
          by_cases hp : pre = []
          · subst hp
            obtain ⟨p, q, ps, h1, h2, h3, h4⟩ := fold g (n + 0) hg
            simp only [ne_eq, not_true_eq_false, if_false, hg, Option.isSome_none, Bool.false_eq_true]
            have he : (g.sink taker eol).1.err = none := by rw [taker_sink]
            simp only [he, Option.isSome_none, Bool.false_eq_true, if_false]
            refine ⟨_, h4, .inl ⟨rfl, ?_⟩⟩
            rw [← hcat, h1]
            exact .fold h2 h3
          · simp only [ne_eq, hp, not_false_eq_true, if_true]
            have he1 : (g.sink taker pre).1.err = none := by rw [taker_sink]
            have hl1 : (g.sink taker pre).1.log = g.log ++ [pre] := by rw [taker_sink]
            obtain ⟨p, q, ps, h1, h2, h3, h4⟩ := fold (g.sink taker pre).1 (n + (g.sink taker pre).2) he1
            have he : ((g.sink taker pre).1.sink taker eol).1.err = none := by rw [taker_sink]
            simp only [he1, he, Option.isSome_none, Bool.false_eq_true, if_false]
            rw [hl1] at h4
            refine ⟨pre :: [13, 10, 32] :: p :: ps, h4.trans (by simp), .inr ⟨pre, b :: suf, [13, 10, 32] :: p :: ps, rfl, hp, ?_, rfl⟩⟩
            rw [← hcat, h1]
            exact .fold h2 h3
        · exact key _ hg rfl

theorem taker_pieces : ∀ (qs : List Bytes) (g : WFolder), g.err = none → ∃ new, (g.writes taker qs).log = g.log ++ new ∧ HandedOut qs.flatten new
  | [], g, _ => ⟨[], by simp [WFolder.writes], .nil⟩
  | q :: qs, g, hg => by
    have hw : g.write taker q = WFolder.loop taker q.length g 0 [] q := by
      unfold WFolder.write
      simp only [hg, Option.isSome_none, Bool.false_eq_true, if_false]
    obtain ⟨new, h1, h2⟩ := RestOut.loop q.length g 0 [] q hg (Nat.le_refl _)
    have h3 := (taker_loop q.length g 0 [] q hg).1
    obtain ⟨new', h4, h5⟩ := taker_pieces qs (g.write taker q).1 (by rw [hw]; exact h3)
    rw [hw] at h4
    refine ⟨new ++ new', ?_, ?_⟩
    · show ((g.write taker q).1.writes taker qs).log = _
      rw [hw, h4, h1, List.append_assoc]
    · rw [List.flatten_cons]
      refine HandedOut.append ?_ h5
      rcases h2 with ⟨_, h⟩ | ⟨p, q', ps, h6, h7, h8, rfl⟩
      · exact h
      · rw [List.nil_append] at h6
        rw [h6]
        exact .piece h7 h8

/-! ## WholeChars characters -/

/-- The octets of whole characters. -/
def WholeChars (p : Bytes) : Prop := ∃ s : Str, p = utf8 s

theorem WholeChars.append {p q : Bytes} (h : WholeChars p) (h' : WholeChars q) : WholeChars (p ++ q) := by
  obtain ⟨s, rfl⟩ := h
  obtain ⟨t, rfl⟩ := h'
  exact ⟨s ++ t, (utf8_append s t).symm⟩

theorem whole_finish {g : WFolder} {n : Nat} {pre : Bytes} (hp : WholeChars pre) (hl : ∀ p ∈ g.log, WholeChars p) : ∀ p ∈ (g.finish taker n pre).1.log, WholeChars p := by
  unfold WFolder.finish
  split
  · rw [taker_sink]
    intro p h
    rcases List.mem_append.1 h with h | h
    · exact hl p h
    · rw [List.mem_singleton.1 h]; exact hp
  · exact hl

theorem whole_loop : ∀ (cs : Str) (fuel : Nat) (g : WFolder) (n : Nat) (pre : Bytes), (utf8 cs).length ≤ fuel → g.err = none → WholeChars pre → (∀ p ∈ g.log, WholeChars p) →
    ∀ p ∈ (WFolder.loop taker fuel g n pre (utf8 cs)).1.log, WholeChars p
  | [], fuel, g, n, pre, _, _, hp, hl => by
    have : WFolder.loop taker fuel g n pre (utf8 []) = g.finish taker n pre := by cases fuel <;> rfl
    rw [this]
    exact whole_finish hp hl
  | c :: cs, fuel, g, n, pre, hf, hg, hp, hl => by
    rw [utf8_cons] at hf ⊢
    have hl' := encodeChar_length c
    rw [List.length_append] at hf
    rcases fuel with _ | fuel
    · omega
    rcases he : encodeChar c with _ | ⟨b, r⟩
    · exact absurd he (encodeChar_ne_nil c)
    have hd := decodeRune_encodeChar c (utf8 cs)
    rw [he] at hd
    have hf' : (utf8 cs).length ≤ fuel := by omega
    have htake : (b :: (r ++ utf8 cs)).take (b :: r).length = b :: r := by rw [← List.cons_append, List.take_left]
    have hdrop : (b :: (r ++ utf8 cs)).drop (b :: r).length = utf8 cs := by rw [← List.cons_append, List.drop_left]
    have hc : WholeChars (b :: r) := ⟨[c], by rw [← he]; simp [utf8]⟩
    simp only [List.cons_append] at hd ⊢
    unfold WFolder.loop
    simp only [hd, htake, hdrop]
    split
    · exact whole_loop cs fuel _ n _ hf' hg (hp.append hc) hl
    · split
      · exact whole_loop cs fuel _ n _ hf' hg (hp.append hc) hl
      · split
        · have h1 : (if pre ≠ [] then g.sink taker pre else (g, 0)).1.err = none ∧ ∀ p ∈ (if pre ≠ [] then g.sink taker pre else (g, 0)).1.log, WholeChars p := by
            split
            · rw [taker_sink]
              refine ⟨rfl, fun p h => ?_⟩
              rcases List.mem_append.1 h with h | h
              · exact hl p h
              · rw [List.mem_singleton.1 h]; exact hp
            · exact ⟨hg, hl⟩
          generalize (if pre ≠ [] then g.sink taker pre else (g, 0)) = fm at h1 ⊢
          obtain ⟨f', m⟩ := fm
          dsimp only at h1 ⊢
          simp only [h1.1, Option.isSome_none, Bool.false_eq_true, if_false, taker_sink]
          refine whole_loop cs fuel _ _ _ hf' rfl hc fun p h => ?_
          rcases List.mem_append.1 h with h | h
          · exact h1.2 p h
          · rw [List.mem_singleton.1 h]; exact ⟨['\r', '\n', ' '], utf8_eol.symm⟩
        · exact whole_loop cs fuel _ n _ hf' hg (hp.append hc) hl

theorem whole_writes : ∀ (ss : List Str) (g : WFolder), g.err = none → (∀ p ∈ g.log, WholeChars p) → ∀ p ∈ (g.writes taker (ss.map utf8)).log, WholeChars p
  | [], g, _, hl => hl
  | s :: ss, g, hg, hl => by
    have hw : g.write taker (utf8 s) = WFolder.loop taker (utf8 s).length g 0 [] (utf8 s) := by
      unfold WFolder.write
      simp only [hg, Option.isSome_none, Bool.false_eq_true, if_false]
    refine whole_writes ss (g.write taker (utf8 s)).1 ?_ ?_
    · rw [hw]; exact (taker_loop _ _ _ _ _ hg).1
    · rw [hw]; exact whole_loop s _ g 0 [] (Nat.le_refl _) hg ⟨[], rfl⟩ hl

end Ics
