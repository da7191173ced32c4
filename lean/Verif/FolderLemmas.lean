import Verif.Folder
/-!
# Lemmas about the folding writer
-/

namespace Ics

/-- A writer that never fails. -/
def okSink : Sink := fun _ => none

/-- Column after a character, and the text emitted for it (character level view of the loop). -/
def stepCol (col : UInt8) (c : Char) : UInt8 × Str :=
  let w := UInt8.ofNat (encodeChar c).length
  if c = '\n' then (0, [c])
  else if c = '\r' then (col + w, [c])
  else if col + w > maxLineLength then (w + 1, ['\r', '\n', ' ', c])
  else (col + w, [c])

def foldStr (col : UInt8) : Str → Str
  | [] => []
  | c :: cs => (stepCol col c).2 ++ foldStr (stepCol col c).1 cs

def endCol (col : UInt8) : Str → UInt8
  | [] => col
  | c :: cs => endCol (stepCol col c).1 cs

theorem foldStr_append (col : UInt8) (s t : Str) :
    foldStr col (s ++ t) = foldStr col s ++ foldStr (endCol col s) t := by
  induction s generalizing col with
  | nil => rfl
  | cons c cs ih => simp [foldStr, endCol, ih]

theorem endCol_append (col : UInt8) (s t : Str) :
    endCol col (s ++ t) = endCol (endCol col s) t := by
  induction s generalizing col with
  | nil => rfl
  | cons c cs ih => simp [endCol, ih]

theorem toNat_eq_iff (c d : Char) : c.toNat = d.toNat ↔ c = d := by
  constructor
  · intro h
    have := congrArg Char.ofNat h
    simpa using this
  · rintro rfl; rfl

theorem sink_ok (f : Folder) (p : Bytes) :
    f.sink okSink p = ({ f with err := none, calls := f.calls + 1, out := f.out ++ p }, p.length) := rfl

theorem utf8_eol : utf8 ['\r', '\n', ' '] = eol := by decide

theorem finish_ok (f : Folder) (n : Nat) (q : Bytes) (hf : f.err = none) :
    ∃ k, Folder.finish okSink f n q =
      ({ f with calls := k, out := f.out ++ q }, n + q.length) := by
  unfold Folder.finish
  split
  · exact ⟨f.calls + 1, by simp [sink_ok, hf]⟩
  · next h =>
    have : q = [] := by simpa using h
    subst this
    exact ⟨f.calls, by simp⟩

theorem loop_ok (cs : Str) : ∀ (fuel : Nat) (f : Folder) (n : Nat) (pre : Bytes),
    (utf8 cs).length ≤ fuel → f.err = none →
    ∃ k, Folder.loop okSink fuel f n pre (utf8 cs) =
      ({ line := endCol f.line cs, err := none, calls := k,
         out := f.out ++ pre ++ utf8 (foldStr f.line cs) }, n + pre.length + (utf8 cs).length) := by
  induction cs with
  | nil =>
    intro fuel f n pre _ hf
    obtain ⟨k, hk⟩ := finish_ok f n pre hf
    refine ⟨k, ?_⟩
    have : Folder.loop okSink fuel f n pre (utf8 []) = Folder.finish okSink f n pre := by
      cases fuel <;> rfl
    rw [this, hk]
    simp [endCol, foldStr, utf8_nil, hf]
  | cons c cs ih =>
    intro fuel f n pre hfuel hf
    rw [utf8_cons] at hfuel ⊢
    have hl := encodeChar_length c
    rw [List.length_append] at hfuel
    rcases fuel with _ | fuel
    · omega
    rcases he : encodeChar c with _ | ⟨b, r⟩
    · exact absurd he (encodeChar_ne_nil c)
    have hd := decodeRune_encodeChar c (utf8 cs)
    rw [he] at hd
    have hfuel' : (utf8 cs).length ≤ fuel := by omega
    have htake : (b :: (r ++ utf8 cs)).take (b :: r).length = b :: r := by
      rw [← List.cons_append, List.take_left]
    have hdrop : (b :: (r ++ utf8 cs)).drop (b :: r).length = utf8 cs := by
      rw [← List.cons_append, List.drop_left]
    simp only [List.cons_append] at hd ⊢
    unfold Folder.loop
    simp only [hd, htake, hdrop]
    have hn : (c.toNat = 10) ↔ c = '\n' := toNat_eq_iff c '\n'
    have hr : (c.toNat = 13) ↔ c = '\r' := toNat_eq_iff c '\r'
    simp only [hn, hr, foldStr, endCol, stepCol, he]
    have hc1 : utf8 [c] = b :: r := by
      rw [← he]; simp [utf8]
    by_cases h1 : c = '\n'
    · simp only [if_pos h1]
      obtain ⟨k, hk⟩ := ih fuel { f with line := 0 } n (pre ++ b :: r) hfuel' hf
      refine ⟨k, ?_⟩
      rw [hk, utf8_append, hc1]
      simp [List.append_assoc]
      omega
    · simp only [if_neg h1]
      by_cases h2 : c = '\r'
      · simp only [if_pos h2]
        obtain ⟨k, hk⟩ := ih fuel { f with line := f.line + UInt8.ofNat (b :: r).length } n
          (pre ++ b :: r) hfuel' hf
        refine ⟨k, ?_⟩
        rw [hk, utf8_append, hc1]
        simp [List.append_assoc]
        omega
      · simp only [if_neg h2]
        by_cases h3 : f.line + UInt8.ofNat (b :: r).length > maxLineLength
        · simp only [h3, if_true]
          have hc4 : utf8 ['\r', '\n', ' ', c] = eol ++ (b :: r) := by
            rw [show ['\r', '\n', ' ', c] = ['\r', '\n', ' '] ++ [c] from rfl, utf8_append,
              utf8_eol, hc1]
          by_cases hp : pre = []
          · subst hp
            simp only [ne_eq, not_true_eq_false, if_false, hf, Option.isSome_none,
              Bool.false_eq_true, sink_ok]
            obtain ⟨k, hk⟩ := ih fuel
              ⟨UInt8.ofNat (b :: r).length + 1, none, f.calls + 1, f.out ++ eol⟩ (n + 0) (b :: r) hfuel' rfl
            refine ⟨k, ?_⟩
            rw [hk]
            rw [utf8_append, hc4]
            simp [List.append_assoc]
            omega
          · simp only [ne_eq, hp, not_false_eq_true, if_true, sink_ok, Option.isSome_none,
              Bool.false_eq_true, if_false]
            obtain ⟨k, hk⟩ := ih fuel
              { line := UInt8.ofNat (b :: r).length + 1, err := none, calls := f.calls + 1 + 1,
                out := f.out ++ pre ++ eol } (n + pre.length) (b :: r) hfuel' rfl
            refine ⟨k, ?_⟩
            rw [hk]
            rw [utf8_append, hc4]
            simp [List.append_assoc]
            omega
        · simp only [h3, if_false]
          obtain ⟨k, hk⟩ := ih fuel { f with line := f.line + UInt8.ofNat (b :: r).length } n
            (pre ++ b :: r) hfuel' hf
          refine ⟨k, ?_⟩
          rw [hk, utf8_append, hc1]
          simp [List.append_assoc]
          omega

/-- What a write of a string does when the writer does not fail. -/
theorem write_ok (f : Folder) (hf : f.err = none) (s : Str) :
    ∃ k, f.write okSink (utf8 s) =
      ({ line := endCol f.line s, err := none, calls := k, out := f.out ++ utf8 (foldStr f.line s) },
        (utf8 s).length) := by
  unfold Folder.write
  simp only [hf, Option.isSome_none, Bool.false_eq_true, if_false]
  obtain ⟨k, hk⟩ := loop_ok s (utf8 s).length f 0 [] (Nat.le_refl _) hf
  exact ⟨k, by simpa using hk⟩

theorem writes_ok (ss : List Str) : ∀ (f : Folder), f.err = none →
    ∃ k, f.writes okSink (ss.map utf8) =
      { line := endCol f.line ss.flatten, err := none, calls := k,
        out := f.out ++ utf8 (foldStr f.line ss.flatten) } := by
  induction ss with
  | nil =>
    intro f hf
    refine ⟨f.calls, ?_⟩
    simp [Folder.writes, endCol, foldStr, utf8_nil, ← hf]
  | cons s ss ih =>
    intro f hf
    obtain ⟨k, hk⟩ := write_ok f hf s
    obtain ⟨k', hk'⟩ := ih _ (show
      ({ line := endCol f.line s, err := none, calls := k,
         out := f.out ++ utf8 (foldStr f.line s) } : Folder).err = none from rfl)
    refine ⟨k', ?_⟩
    simp only [Folder.writes, List.map_cons, List.foldl_cons, hk] at hk' ⊢
    rw [hk']
    simp [endCol_append, foldStr_append, utf8_append]

/-! ## Failing writers -/

/-- How a run against an arbitrary writer relates to the run (`g`) against a writer that never fails:
either no call failed and the runs agree, or the last call failed, its error is recorded, and what
the writer accepted is a prefix. -/
def Sim (W : Sink) (c0 : Nat) (f g : Folder) : Prop :=
  (f = g ∧ f.err = none ∧ c0 ≤ f.calls ∧ ∀ k, c0 ≤ k → k < f.calls → W k = none) ∨
  (∃ a e, f.err = some e ∧ c0 < f.calls ∧ W (f.calls - 1) = some (a, e) ∧
    (∀ k, c0 ≤ k → k < f.calls - 1 → W k = none) ∧ f.out <+: g.out)

theorem sim_sink (W : Sink) (f : Folder) (p : Bytes) :
    Sim W f.calls (f.sink W p).1 (f.sink okSink p).1 := by
  unfold Folder.sink
  cases h : W f.calls with
  | none =>
    left
    refine ⟨rfl, rfl, by simp, ?_⟩
    intro k h1 h2
    have : k = f.calls := by simp at h2; omega
    rw [this, h]
  | some ae =>
    obtain ⟨a, e⟩ := ae
    right
    refine ⟨a, e, rfl, by simp, by simpa using h, ?_, ?_⟩
    · intro k h1 h2; simp at h2; omega
    · simp only [okSink]
      exact (List.prefix_append_right_inj _).2 (List.take_prefix _ _)

theorem finish_grows (W : Sink) (f : Folder) (n : Nat) (q : Bytes) :
    f.out <+: (Folder.finish W f n q).1.out ∧ f.calls ≤ (Folder.finish W f n q).1.calls := by
  unfold Folder.finish Folder.sink
  split
  · cases W f.calls <;> simp
  · simp

theorem loop_grows_ok (fuel : Nat) : ∀ (f : Folder) (n : Nat) (pre suf : Bytes),
    f.err = none → f.out <+: (Folder.loop okSink fuel f n pre suf).1.out ∧
      (Folder.loop okSink fuel f n pre suf).1.err = none ∧
      f.calls ≤ (Folder.loop okSink fuel f n pre suf).1.calls := by
  have hfin : ∀ (f : Folder) (n : Nat) (pre : Bytes), f.err = none →
      f.out <+: (Folder.finish okSink f n pre).1.out ∧ (Folder.finish okSink f n pre).1.err = none ∧
      f.calls ≤ (Folder.finish okSink f n pre).1.calls := by
    intro f n pre hf
    unfold Folder.finish
    split
    · simp [sink_ok]
    · simp [hf]
  induction fuel with
  | zero => intro f n pre suf hf; exact hfin f n pre hf
  | succ fuel ih =>
    intro f n pre suf hf
    rcases suf with _ | ⟨b, suf⟩
    · exact hfin f n pre hf
    unfold Folder.loop
    rcases decodeRune (b :: suf) with ⟨r, s⟩
    dsimp only
    split
    · exact ih { f with line := 0 } _ _ _ hf
    split
    · exact ih { f with line := f.line + UInt8.ofNat s } _ _ _ hf
    split
    · by_cases hp : pre = []
      · simp only [hp, ne_eq, not_true_eq_false, if_false, hf, Option.isSome_none,
          Bool.false_eq_true, sink_ok]
        have := ih ⟨UInt8.ofNat s + 1, none, f.calls + 1, f.out ++ eol⟩ (n + 0) (List.take s (b :: suf)) (List.drop s (b :: suf)) rfl
        refine ⟨(List.prefix_append _ _).trans this.1, this.2.1, ?_⟩
        have := this.2.2
        simp only at this
        omega
      · simp only [hp, ne_eq, not_false_eq_true, if_true, Option.isSome_none,
          Bool.false_eq_true, sink_ok, if_false]
        have := ih ⟨UInt8.ofNat s + 1, none, f.calls + 1 + 1, f.out ++ pre ++ eol⟩ (n + pre.length) (List.take s (b :: suf))
          (List.drop s (b :: suf)) rfl
        refine ⟨?_, this.2.1, ?_⟩
        · refine List.IsPrefix.trans ?_ this.1
          simp only [List.append_assoc]
          exact List.prefix_append _ _
        · have := this.2.2
          simp only at this
          omega
    · exact ih { f with line := f.line + UInt8.ofNat s } _ _ _ hf

theorem sim_finish (W : Sink) (f : Folder) (n n' : Nat) (q : Bytes) (hf : f.err = none) :
    Sim W f.calls (Folder.finish W f n q).1 (Folder.finish okSink f n' q).1 := by
  unfold Folder.finish
  split
  · exact sim_sink W f q
  · left
    refine ⟨rfl, hf, Nat.le_refl _, ?_⟩
    intro k h1 h2
    simp only at h2
    omega

/-- Continue a simulation after an error: the reference run only grows. -/
theorem Sim.fail {W : Sink} {c0 : Nat} {f g g' : Folder} (h : Sim W c0 f g) (he : f.err.isSome = true)
    (hg : g.out <+: g'.out) : Sim W c0 f g' := by
  rcases h with ⟨_, h2, _⟩ | ⟨a, e, h1, h2, h3, h4, h5⟩
  · rw [h2] at he; simp at he
  · exact Or.inr ⟨a, e, h1, h2, h3, h4, h5.trans hg⟩

/-- Continue a simulation after success. -/
theorem Sim.trans {W : Sink} {c0 : Nat} {f g f' g' : Folder} (h : Sim W c0 f g)
    (he : f.err.isSome = false) (h' : Sim W f.calls f' g') : Sim W c0 f' g' := by
  rcases h with ⟨_, _, h3, h4⟩ | ⟨a, e, h1, _⟩
  · rcases h' with ⟨i1, i2, i3, i4⟩ | ⟨a, e, i1, i2, i3, i4, i5⟩
    · refine Or.inl ⟨i1, i2, by omega, ?_⟩
      intro k k1 k2
      by_cases hk : k < f.calls
      · exact h4 k k1 hk
      · exact i4 k (by omega) k2
    · refine Or.inr ⟨a, e, i1, by omega, i3, ?_, i5⟩
      intro k k1 k2
      by_cases hk : k < f.calls
      · exact h4 k k1 hk
      · exact i4 k (by omega) k2
  · rw [h1] at he; simp at he

theorem Sim.eq {W : Sink} {c0 : Nat} {f g : Folder} (h : Sim W c0 f g)
    (he : f.err.isSome = false) : f = g := by
  rcases h with ⟨h1, _⟩ | ⟨a, e, h1, _⟩
  · exact h1
  · rw [h1] at he; simp at he

theorem Sim.setLine {W : Sink} {c0 : Nat} {f g : Folder} (h : Sim W c0 f g) (l : UInt8) :
    Sim W c0 { f with line := l } { g with line := l } := by
  rcases h with ⟨h1, h2, h3, h4⟩ | ⟨a, e, h1, h2, h3, h4, h5⟩
  · subst h1; exact Or.inl ⟨rfl, h2, h3, h4⟩
  · exact Or.inr ⟨a, e, h1, h2, h3, h4, h5⟩

theorem sim_loop (W : Sink) (fuel : Nat) : ∀ (f : Folder) (n n' : Nat) (pre suf : Bytes),
    f.err = none →
    Sim W f.calls (Folder.loop W fuel f n pre suf).1 (Folder.loop okSink fuel f n' pre suf).1 := by
  induction fuel with
  | zero => intro f n n' pre suf hf; exact sim_finish W f n n' pre hf
  | succ fuel ih =>
    intro f n n' pre suf hf
    rcases suf with _ | ⟨b, suf⟩
    · exact sim_finish W f n n' pre hf
    unfold Folder.loop
    rcases decodeRune (b :: suf) with ⟨r, s⟩
    dsimp only
    split
    · exact ih { f with line := 0 } _ _ _ _ hf
    split
    · exact ih { f with line := f.line + UInt8.ofNat s } _ _ _ _ hf
    split
    · -- a fold is due: one or two calls of the writer, then the rest
      have key : ∀ (g : Folder) (m m' : Nat) (h1 : Sim W f.calls g
            (if pre ≠ [] then f.sink okSink pre else (f, 0)).1),
          Sim W f.calls
            (if g.err.isSome = true then ({ g with line := f.line + UInt8.ofNat s }, n + m)
             else
              if (g.sink W eol).1.err.isSome = true then
                ({ (g.sink W eol).1 with line := f.line + UInt8.ofNat s }, n + m)
              else Folder.loop W fuel { (g.sink W eol).1 with line := UInt8.ofNat s + 1 } (n + m)
                (List.take s (b :: suf)) (List.drop s (b :: suf))).1
            (Folder.loop okSink fuel
              { ((if pre ≠ [] then f.sink okSink pre else (f, 0)).1.sink okSink eol).1 with
                line := UInt8.ofNat s + 1 } m'
              (List.take s (b :: suf)) (List.drop s (b :: suf))).1 := by
        intro g m m' h1
        generalize hg0 : (if pre ≠ [] then f.sink okSink pre else (f, 0)).1 = g0 at h1
        have hgrow := loop_grows_ok fuel
          { (g0.sink okSink eol).1 with line := UInt8.ofNat s + 1 } m'
          (List.take s (b :: suf)) (List.drop s (b :: suf)) rfl
        by_cases he : g.err.isSome = true
        · rw [if_pos he]
          refine (Sim.fail (h1.setLine _) he ?_)
          refine List.IsPrefix.trans ?_ hgrow.1
          simp [sink_ok]
        · rw [if_neg he]
          have he' : g.err.isSome = false := by simpa using he
          have h2 := sim_sink W g eol
          have hgg := h1.eq he'
          subst hgg
          by_cases he2 : (g.sink W eol).1.err.isSome = true
          · rw [if_pos he2]
            have h3 := (h1.trans he' h2).setLine (f.line + UInt8.ofNat s)
            exact Sim.fail h3 he2 hgrow.1
          · rw [if_neg he2]
            have he2' : (g.sink W eol).1.err.isSome = false := by simpa using he2
            have h3 := h2.eq he2'
            have h4 := ih { (g.sink W eol).1 with line := UInt8.ofNat s + 1 } (n + m) m'
              (List.take s (b :: suf)) (List.drop s (b :: suf)) (by simpa using he2')
            rw [h3] at h4 ⊢
            rw [h3] at h2
            exact (h1.trans he' h2).trans (by rfl) h4
      have hk := key (if pre ≠ [] then f.sink W pre else (f, 0)).1
        (if pre ≠ [] then f.sink W pre else (f, 0)).2
        (n' + (if pre ≠ [] then f.sink okSink pre else (f, 0)).2) (by
          split
          · exact sim_sink W f pre
          · left
            refine ⟨rfl, hf, Nat.le_refl _, ?_⟩
            intro k h1 h2
            simp only at h2
            omega)
      have herr : ((if pre ≠ [] then f.sink okSink pre else (f, 0)).1).err = none := by
        split <;> simp [sink_ok, hf]
      have herr2 : (((if pre ≠ [] then f.sink okSink pre else (f, 0)).1).sink okSink eol).1.err = none :=
        rfl
      rw [if_neg (c := (if pre ≠ [] then f.sink okSink pre else (f, 0)).1.err.isSome = true)
        (by rw [herr]; simp)]
      rw [if_neg (c := ((if pre ≠ [] then f.sink okSink pre else (f, 0)).1.sink okSink eol).1.err.isSome = true)
        (by rw [herr2]; simp)]
      exact hk
    · exact ih { f with line := f.line + UInt8.ofNat s } _ _ _ _ hf

theorem write_grows_ok (f : Folder) (q : Bytes) (hf : f.err = none) :
    f.out <+: (f.write okSink q).1.out ∧ (f.write okSink q).1.err = none := by
  unfold Folder.write
  simp only [hf, Option.isSome_none, Bool.false_eq_true, if_false]
  exact ⟨(loop_grows_ok _ _ _ _ _ hf).1, (loop_grows_ok _ _ _ _ _ hf).2.1⟩

theorem writes_grows_ok (qs : List Bytes) : ∀ (f : Folder), f.err = none →
    f.out <+: (f.writes okSink qs).out ∧ (f.writes okSink qs).err = none := by
  induction qs with
  | nil => intro f hf; exact ⟨List.prefix_refl _, hf⟩
  | cons q qs ih =>
    intro f hf
    have h1 := write_grows_ok f q hf
    have h2 := ih _ h1.2
    exact ⟨h1.1.trans h2.1, h2.2⟩

theorem writes_err (W : Sink) (qs : List Bytes) : ∀ (f : Folder), f.err.isSome = true →
    f.writes W qs = f := by
  induction qs with
  | nil => intro f _; rfl
  | cons q qs ih =>
    intro f hf
    have : f.write W q = (f, 0) := by unfold Folder.write; rw [if_pos hf]
    show ((f.write W q).1).writes W qs = f
    rw [this]
    exact ih f hf

theorem sim_writes (W : Sink) (qs : List Bytes) : ∀ (f : Folder), f.err = none →
    Sim W f.calls (f.writes W qs) (f.writes okSink qs) := by
  induction qs with
  | nil =>
    intro f hf
    left
    refine ⟨rfl, hf, Nat.le_refl _, ?_⟩
    intro k h1 h2
    exact absurd h2 (by show ¬ k < f.calls; omega)
  | cons q qs ih =>
    intro f hf
    show Sim W f.calls ((f.write W q).1.writes W qs) ((f.write okSink q).1.writes okSink qs)
    have h1 : Sim W f.calls (f.write W q).1 (f.write okSink q).1 := by
      unfold Folder.write
      simp only [hf, Option.isSome_none, Bool.false_eq_true, if_false]
      exact sim_loop W _ _ _ _ _ _ hf
    have h2 := writes_grows_ok qs _ (write_grows_ok f q hf).2
    cases he : (f.write W q).1.err.isSome with
    | true =>
      rw [writes_err W qs _ he]
      exact h1.fail he h2.1
    | false =>
      have hh := h1.eq he
      have h3 := ih (f.write W q).1 (by simpa using he)
      rw [hh] at h3 ⊢
      rw [hh] at h1
      exact h1.trans (by rw [← hh]; exact he) h3

/-! ## Lines -/

theorem encodeChar_ascii (c : Char) (h : c.toNat < 128) : encodeChar c = [UInt8.ofNat c.toNat] := by
  unfold encodeChar
  simp [h, byte]

theorem encodeChar_high (c : Char) (h : 128 ≤ c.toNat) : ∀ b ∈ encodeChar c, 128 ≤ b.toNat := by
  have hr := char_range c
  intro b hb
  unfold encodeChar at hb
  rw [if_neg (by omega)] at hb
  split at hb
  · simp only [List.mem_cons, List.not_mem_nil, or_false] at hb
    rcases hb with rfl | rfl <;> (rw [byte_toNat] <;> omega)
  split at hb
  · simp only [List.mem_cons, List.not_mem_nil, or_false] at hb
    rcases hb with rfl | rfl | rfl <;> (rw [byte_toNat] <;> omega)
  · simp only [List.mem_cons, List.not_mem_nil, or_false] at hb
    rcases hb with rfl | rfl | rfl | rfl <;> (rw [byte_toNat] <;> omega)

theorem encodeChar_no_byte (c : Char) (k : Nat) (hk : k < 128) (h : c.toNat ≠ k) :
    ∀ b ∈ encodeChar c, b ≠ UInt8.ofNat k := by
  intro b hb e
  have hbk : b.toNat = k := by rw [e]; simp [UInt8.toNat_ofNat']; omega
  by_cases hc : c.toNat < 128
  · rw [encodeChar_ascii c hc] at hb
    simp only [List.mem_cons, List.not_mem_nil, or_false] at hb
    rw [hb] at hbk
    simp [UInt8.toNat_ofNat'] at hbk
    omega
  · have := encodeChar_high c (by omega) b hb
    omega

end Ics
