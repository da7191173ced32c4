import Verif.Spec.Pipe
import Verif.PipeLemmas
import Verif.RawUtf8
import Verif.Props.Emit
import Verif.Props.Demand
import Verif.Props.Reading
import Verif.Props.Found
/-!
# Properties C114 and C115: from Encode to Decode through a pipe, and folds only where they are needed

In C114 `f.log` is what `Encode` gave the calls of `Write` of the pipe, and `decodeDemand E R fuel ks {} []` is `Decode` from the reader `R`: it reads buffers of the sizes `ks`, one after the
other, until the result is certain.
-/

namespace Ics.Props

open Ics Spec

/-! ## C115 -/

/-- C115.  A text in which no line has more than 75 octets is written as it is, in whatever way it is handed over. -/
theorem C115_short_lines (ss : List Str) (h : crlfClean ss.flatten = true) (hl : ∀ l ∈ physLines (utf8 ss.flatten), l.length ≤ 75) :
    (({} : Folder).writes okSink (ss.map utf8)).out = utf8 ss.flatten := by
  obtain ⟨k, hk⟩ := writes_ok ss {} rfl
  rw [hk]
  have := foldStr_short _ ss.flatten (Nat.le_refl _) h 0 [] rfl (Nat.zero_le _) hl
  simp only [List.nil_append]
  exact congrArg utf8 this

/-- C115.  So exactly the texts with a longer line are changed. -/
theorem C115_exactly (ss : List Str) (h : crlfClean ss.flatten = true) :
    (({} : Folder).writes okSink (ss.map utf8)).out = utf8 ss.flatten ↔ ∀ l ∈ physLines (utf8 ss.flatten), l.length ≤ 75 :=
  ⟨fun e => by rw [← e]; exact C01_lines_at_most_75_octets ss h, C115_short_lines ss h⟩

/-- C115.  A line is broken only in front of a character for which there was no place: with it the line would have had more than 75 octets. -/
theorem C115_no_place (ss : List Str) (h : crlfClean ss.flatten = true) (hn : ¬ ['\r', '\n', ' '] <:+: ss.flatten) (a b : List Bytes) (l l' : Bytes)
    (hp : physLines (({} : Folder).writes okSink (ss.map utf8)).out = a ++ l :: l' :: b) (hl : l'.head? = some 32) :
    ∃ (c : Char) (r : Bytes), l' = 32 :: (encodeChar c ++ r) ∧ 75 < l.length + (encodeChar c).length := by
  obtain ⟨k, hk⟩ := writes_ok ss {} rfl
  rw [hk] at hp
  simp only [List.nil_append] at hp
  exact tight_foldStr _ ss.flatten (Nat.le_refl _) h hn 0 [] rfl (Nat.zero_le _) a l l' b hp hl

/-- C115.  So a line that goes on in the next one has 72 octets or more. -/
theorem C115_full_lines (ss : List Str) (h : crlfClean ss.flatten = true) (hn : ¬ ['\r', '\n', ' '] <:+: ss.flatten) (a b : List Bytes) (l l' : Bytes)
    (hp : physLines (({} : Folder).writes okSink (ss.map utf8)).out = a ++ l :: l' :: b) (hl : l'.head? = some 32) : 72 ≤ l.length ∧ l.length ≤ 75 := by
  obtain ⟨c, r, _, h2⟩ := C115_no_place ss h hn a b l l' hp hl
  have := enc_len c
  exact ⟨by omega, C01_lines_at_most_75_octets ss h l (by rw [hp]; simp)⟩

/-- C115.  These rules leave no choice: of all the ways to fold a text, what is written is the only one in which all lines have at most 75 octets and all folds are needed. -/
theorem C115_only_way (ss : List Str) (h : crlfClean ss.flatten = true) (hn : ¬ ['\r', '\n', ' '] <:+: ss.flatten) (t : Str) (hf : FoldOf ss.flatten t) :
    utf8 t = (({} : Folder).writes okSink (ss.map utf8)).out ↔ (∀ l ∈ physLines (utf8 t), l.length ≤ 75) ∧ Tight (physLines (utf8 t)) := by
  constructor
  · intro e
    rw [e]
    exact ⟨C01_lines_at_most_75_octets ss h, fun a l l' b hp hl => C115_no_place ss h hn a b l l' hp hl⟩
  · rintro ⟨h1, h2⟩
    obtain ⟨k, hk⟩ := writes_ok ss {} rfl
    rw [hk, tight_unique hf h 0 [] rfl (Nat.zero_le _) h1 h2]
    rfl

/-- C115.  And none is shorter: no way to fold the text into lines of at most 75 octets takes fewer octets, or fewer folds. -/
theorem C115_shortest (ss : List Str) (h : crlfClean ss.flatten = true) (t : Str) (hf : FoldOf ss.flatten t) (hl : ∀ l ∈ physLines (utf8 t), l.length ≤ 75) :
    (({} : Folder).writes okSink (ss.map utf8)).out.length ≤ (utf8 t).length := by
  obtain ⟨k, hk⟩ := writes_ok ss {} rfl
  rw [hk]
  exact (fold_least hf h 0 [] (Nat.zero_le _) hl).1 (Nat.le_refl _)

/-! ## C114 -/

/-- What is known of the calls. -/
theorem piped {E : Env} {w : Writer} {c : Cal} {f : WFolder} (ht : c.typed = true) (hu : Unbroken E c) (h : encodeCalls E w c = .returned none f) :
    ∃ s, c.valid = .ok () ∧ encodeDoc E c = some s ∧ HandedOut (utf8 s) f.log ∧ Follows f.log ∧ (∀ p ∈ f.log, ∃ t : Str, t ≠ [] ∧ p = utf8 t) ∧ (∀ p ∈ f.log, OfOneLine p) ∧
      (∀ p ∈ f.log, Morsel p) ∧ ¬ hasFold (utf8 s) ∧ crlfClean s = true ∧ (∃ a, s = a ++ ['R', '\r', '\n']) ∧ f.log.flatten = utf8 (foldStr 0 s) := by
  have h1 := C104_one_line_partial E w c ht hu none f h
  obtain ⟨cut, hcut, hto⟩ := C103_same E c
  have h2 := hto w
  rw [h] at h2
  rcases C101_encode E w cut hcut c none f h2 with ⟨x, _, hx, _⟩ | ⟨s, hv, hs, herr, _, ⟨ps, hps, _, he⟩, hch⟩
  · cases hx
  rw [← he rfl] at hps
  obtain ⟨e1, _, _⟩ := written_lines ht hv hs
  obtain ⟨_, _, _, _, _, hcl, hno⟩ := C46_seen_partial E c s ht hv hs hu
  have hfol : Follows f.log ∧ f.log.flatten = utf8 (foldStr 0 s) := by
    unfold encodeCalls at h
    rw [hv] at h
    dsimp only at h
    by_cases hends : (c.said E).ends = true
    case neg => rw [if_neg hends] at h; cases h
    rw [if_pos hends] at h
    have h3 : ({} : WFolder).writes w ((c.said E).calls.map utf8) = f := by
      simp only [Encoding.returned.injEq] at h
      exact h.2
    have herr' : f.err = none := by
      cases hf : f.err with
      | none => rfl
      | some e => rw [hf] at herr; cases herr
    have htx := Cal.said_text E c
    unfold Said.text at htx
    rw [if_pos hends, hs] at htx
    have htx : (c.said E).calls.flatten = s := Option.some.inj htx
    constructor
    · rcases SameCalls.writes (w := w) ((c.said E).calls.map utf8) {} {} rfl rfl rfl rfl with ⟨_, _, h4⟩ | ⟨h4, _⟩
      · rw [← h3, h4]
        exact (neat_writes _ (said_shaped ht hv hu hends) {} ⟨rfl, Nat.zero_le _, by nofun, ⟨by simp, by simp, by nofun⟩, fun _ _ => rfl, by simp⟩).log
      · rw [h3] at h4; exact absurd herr' h4
    · have h4 := (C101_together w ((c.said E).calls.map utf8)).2 (by rw [h3]; exact herr')
      rw [h3] at h4
      obtain ⟨k, hk⟩ := writes_ok (c.said E).calls {} rfl
      rw [h4, hk, htx]
      rfl
  refine ⟨s, hv, hs, hps, hfol.1, hch, h1, fun p hp => ?_, fun hf => ?_, hcl, by rw [e1]; exact calLines_end E c, hfol.2⟩
  · obtain ⟨t, h3, h4⟩ := hch p hp
    exact morsel_of (h1 p hp) (by rw [h4]; exact fun e => h3 (utf8_injective (e.trans utf8_nil.symm)))
  · have := hasFold_runes hf
    rw [runes_utf8] at this
    exact hno this

/-- The calls up to the first fold. -/
theorem piped_fold {E : Env} {w : Writer} {c : Cal} {f : WFolder} (ht : c.typed = true) (hu : Unbroken E c) (h : encodeCalls E w c = .returned none f) (hf : SomeFold f.log) :
    ∃ s s0 a b, encodeDoc E c = some s ∧ f.log = a ++ [13, 10, 32] :: b ∧ [13, 10, 32] ∉ a ∧ a.flatten = utf8 s0 ∧ s0 <+: s ∧ s0.length + 2 < s.length ∧ (∀ p ∈ a, Morsel p) ∧
      ¬ hasFold a.flatten ∧ a.flatten.getLast? ≠ some 10 := by
  obtain ⟨s, hv, hs, hps, hfol, hch, h1, hm, hno, hcl, ⟨z, hz⟩, _⟩ := piped ht hu h
  obtain ⟨a, b, e, ha⟩ := exists_first hf
  obtain ⟨p, b', r, rfl, hp, hx⟩ := handedOut_first hps a b e ha hno
  obtain ⟨s0, hs0⟩ := utf8_pieces (a := a) (fun p hp => by
    obtain ⟨t, _, ht⟩ := hch p (by rw [e]; exact List.mem_append_left _ hp)
    exact ⟨t, ht⟩)
  have hpre : s0 <+: s := by
    have h3 := congrArg runes hx
    rw [runes_utf8, List.append_assoc, hs0, runes_append] at h3
    exact ⟨_, h3.symm⟩
  refine ⟨s, s0, a, p :: b', hs, e, ha, hs0, hpre, ?_, fun q hq => hm q (by rw [e]; exact List.mem_append_left _ hq), ?_, ?_⟩
  · obtain ⟨t, rfl⟩ := hpre
    rw [utf8_append, hs0, List.append_assoc] at hx
    have hx := List.append_cancel_left hx
    have h13 := hfol.2.1 a p b' e
    have hone := h1 p (by rw [e]; simp)
    rw [List.length_append]
    match t, hx with
    | [], hx =>
      rw [utf8_nil] at hx
      have := congrArg List.length hx
      simp only [List.length_nil, List.length_append] at this
      exact absurd (List.eq_nil_of_length_eq_zero (by omega)) hp
    | [d], hx =>
      have hd : d = '\n' := by
        have := congrArg List.getLast? hz
        simpa using this
      subst hd
      exfalso
      have hp1 : p = [10] := by
        rcases p with _ | ⟨x, p⟩
        · exact absurd rfl hp
        · have h5 : utf8 ['\n'] = [10] := by decide +kernel
          rw [h5] at hx
          have hlen := congrArg List.length hx
          simp only [List.length_cons, List.length_nil, List.length_append] at hlen
          have h6 : p = [] := List.eq_nil_of_length_eq_zero (by omega)
          rw [h6] at hx ⊢
          exact congrArg (fun z => [z]) (List.cons.inj hx).1.symm
      subst hp1
      rcases hone with h5 | ⟨l, _, h5, h6 | h6⟩
      · cases h5
      · exact (h5 10 (by rw [← h6]; simp)).2 rfl
      · have := congrArg List.length h6
        simp at this
    | [d, d'], hx =>
      have hd : d = '\r' := by
        have := congrArg (fun l => l.dropLast.getLast?) hz
        have e1 : s0 ++ [d, d'] = (s0 ++ [d]) ++ [d'] := by simp
        have e2 : z ++ ['R', '\r', '\n'] = (z ++ ['R'] ++ ['\r']) ++ ['\n'] := by simp
        simp only [e1, e2, List.dropLast_concat, List.getLast?_concat, Option.some.injEq] at this
        exact this
      subst hd
      exfalso
      rcases p with _ | ⟨x, p⟩
      · exact absurd rfl hp
      · have h5 : utf8 ['\r', d'] = 13 :: encodeChar d' := by
          rw [utf8_cons, utf8_cons, utf8_nil, List.append_nil]
          rfl
        rw [h5] at hx
        simp only [List.cons_append, List.cons.injEq] at hx
        exact h13 (by rw [← hx.1]; rfl)
    | _ :: _ :: _ :: _, _ => simp only [List.length_cons]; omega
  · rintro ⟨x, y, hxy⟩
    exact hno ⟨x, y ++ (p ++ r), by rw [hx, ← hxy]; simp⟩
  · rcases a.eq_nil_or_concat with rfl | ⟨a', q, rfl⟩
    · simp
    · have hq := hm q (by rw [e]; simp)
      have h4 := hfol.1 a' q (p :: b') (by rw [e]; simp)
      rw [List.concat_eq_append, List.flatten_append]
      simp only [List.flatten_cons, List.flatten_nil, List.append_nil]
      rw [last_append_ne hq.1]
      exact h4

/-- C114.  If a line was folded, `Decode` finds out no more than what is in front of the first fold: if it returns at all, its result does not depend on what comes behind. -/
theorem C114_before_fold_partial (E E' : Env) (w : Writer) (c : Cal) (ht : c.typed = true) (hu : Unbroken E c) (f : WFolder) (h : encodeCalls E w c = .returned none f) (hf : SomeFold f.log)
    (fin : Nat) (ks : List Nat) (hk : ∀ k ∈ ks, 78 ≤ k) (fuel : Nat) (x : Res Cal) (u : Unfolder) (hd : decodeDemand E' (pipeReader fin f.log) fuel ks {} [] = .done (x, u)) :
    ∃ s s0, encodeDoc E c = some s ∧ s0 <+: s ∧ s0.length + 2 < s.length ∧ ∀ q, decodeDoc E' (s0 ++ q) = x := by
  obtain ⟨s, s0, a, b, h1, h2, h3, h4, h5, h6, h7, h8, h9⟩ := piped_fold ht hu h hf
  refine ⟨s, s0, h1, h5, h6, fun q => ?_⟩
  obtain ⟨ks1, ks2, out, e, e1, e2, _, e4, _⟩ := C109_returns E' _ fuel ks x u hd
  rcases pieces_hang (fin := fin) (ps := f.log) b a.length a {} [] (Nat.le_refl _) (Nat.zero_le _) h2 h7 h8 h9 ks1 (fun k hk1 => hk k (by rw [e1]; exact List.mem_append_left _ hk1)) fuel with
    h | ⟨_, out', u', h, hp⟩
  · rw [pipeReader, h] at e2; cases e2
  · rw [pipeReader, h] at e2
    cases e2
    obtain ⟨y, hy⟩ := hp
    have := e4 rfl (y ++ utf8 q)
    rw [← List.append_assoc, hy] at this
    simp only [List.nil_append] at this
    rw [h4, ← utf8_append, runes_utf8] at this
    exact this

/-- C114.  If a line was folded, and the text would be read as a calendar from a file, `Decode` never returns, however long it is given; it does not ask for what is behind the fold, so
`Encode` does not return either. -/
theorem C114_hangs_partial (E E' : Env) (w : Writer) (c c' : Cal) (ht : c.typed = true) (hu : Unbroken E c) (f : WFolder) (h : encodeCalls E w c = .returned none f) (hf : SomeFold f.log)
    (s : Str) (hs : encodeDoc E c = some s) (hd : decodeDoc E' s = .ok c') (fin : Nat) (ks : List Nat) (hk : ∀ k ∈ ks, 78 ≤ k) (fuel : Nat) :
    decodeDemand E' (pipeReader fin f.log) fuel ks {} [] = .running := by
  cases hr : decodeDemand E' (pipeReader fin f.log) fuel ks {} [] with
  | running => rfl
  | panic => exact absurd hr (decodeDemand_not_panic _ _ _)
  | done r =>
    obtain ⟨x, u⟩ := r
    obtain ⟨s', s0, h1, ⟨t, h2⟩, h3, h4⟩ := C114_before_fold_partial E E' w c ht hu f h hf fin ks hk fuel x u hr
    rw [hs] at h1
    cases h1
    obtain ⟨_, hv, _⟩ := piped ht hu h
    have h5 := h4 t
    rw [h2, hd] at h5
    have h6 := h4 []
    rw [List.append_nil, ← h5] at h6
    exact absurd h6 (C15_any_part_partial E E' c c' ht hv hu s s0 hs ⟨t, h2⟩ h3)

/-- C114.  However often the tokeniser calls `Read`, it is stuck in one of the first calls: there are no more of them than calls of `Write` in front of the fold. -/
theorem C114_stuck_partial (E : Env) (w : Writer) (c : Cal) (ht : c.typed = true) (hu : Unbroken E c) (f : WFolder) (h : encodeCalls E w c = .returned none f) (a b : List Bytes)
    (hf : f.log = a ++ [13, 10, 32] :: b) (ha : [13, 10, 32] ∉ a) (fin : Nat) (ks : List Nat) (hk : ∀ k ∈ ks, 78 ≤ k) (hl : a.length < ks.length) (fuel : Nat) :
    readAll (pipeReader fin f.log) fuel ks {} [] = .running := by
  obtain ⟨s, s0, a', b', h1, h2, h3, h4, h5, h6, h7, h8, h9⟩ := piped_fold ht hu h (by rw [SomeFold, hf]; simp)
  have : a' = a := by
    have hg := h2.symm.trans hf
    clear h1 h2 h4 h5 h6 h7 h8 h9 hl hf
    induction a' generalizing a with
    | nil =>
      cases a with
      | nil => rfl
      | cons x a => exact absurd (List.cons.inj hg).1 (fun e => ha (by rw [← e]; exact .head _))
    | cons x a' ih =>
      cases a with
      | nil => exact absurd (List.cons.inj hg).1 (fun e => h3 (by rw [e]; exact .head _))
      | cons y a =>
        obtain ⟨rfl, hg'⟩ := List.cons.inj hg
        rw [ih a (fun h => ha (.tail _ h)) (fun h => h3 (.tail _ h)) hg']
  subst this
  rcases pieces_hang (fin := fin) (ps := f.log) b' a'.length a' {} [] (Nat.le_refl _) (Nat.zero_le _) h2 h7 h8 h9 ks hk fuel with h | ⟨h, _⟩
  · exact h
  · omega

/-- C114.  If no line was folded, the result is that of reading the text from a file. -/
theorem C114_returns_partial (E E' : Env) (w : Writer) (c : Cal) (ht : c.typed = true) (hu : Unbroken E c) (f : WFolder) (h : encodeCalls E w c = .returned none f) (hf : ¬ SomeFold f.log)
    (s : Str) (hs : encodeDoc E c = some s) (fin : Nat) (ks : List Nat) (hk : ∀ k ∈ ks, 78 ≤ k) (hl : f.log.length < ks.length) (fuel : Nat) (hfu : 3 ≤ fuel) :
    ∃ u, decodeDemand E' (pipeReader fin f.log) fuel ks {} [] = .done (decodeDoc E' s, u) := by
  obtain ⟨s', hv, hs', hps, _, _, _, hm, hno, _⟩ := piped ht hu h
  rw [hs] at hs'
  cases hs'
  have hfl := handedOut_none hps hf
  obtain ⟨u', hr⟩ := pieces_through (fin := fin) (ps := f.log) f.log.length f.log {} [] (Nat.le_refl _) (Nat.zero_le _) rfl hm (by simpa [hfl] using hno) ks hk hl fuel hfu
  obtain ⟨_, u, h1, _⟩ := C109_same E' _ fuel ks _ _ _ hr
  refine ⟨u, ?_⟩
  rw [pipeReader, h1]
  simp [hfl, runes_utf8]

/-- C114.  A call was given a fold if a line of the text has more than 75 octets, and only then. -/
theorem C114_folded_partial (E : Env) (w : Writer) (c : Cal) (ht : c.typed = true) (hu : Unbroken E c) (f : WFolder) (h : encodeCalls E w c = .returned none f) (s : Str)
    (hs : encodeDoc E c = some s) : SomeFold f.log ↔ ∃ l ∈ physLines (utf8 s), 75 < l.length := by
  obtain ⟨s', hv, hs', hps, _, _, _, hm, hno, hcl, _, hout⟩ := piped ht hu h
  rw [hs] at hs'
  cases hs'
  have hw : (({} : Folder).writes okSink ([s].map utf8)).out = utf8 (foldStr 0 s) := by
    obtain ⟨k, hk⟩ := writes_ok [s] {} rfl
    rw [hk]
    simp
  have hiff := C115_exactly [s] (by simpa using hcl)
  rw [hw] at hiff
  simp only [List.flatten_cons, List.flatten_nil, List.append_nil] at hiff
  constructor
  · intro hf
    obtain ⟨s1, s0, a, b, h1, h2, h3, h4, h5, h6, _⟩ := piped_fold ht hu h hf
    apply Classical.byContradiction
    intro hcon
    have := hiff.2 fun l hl => Classical.byContradiction fun hlt => hcon ⟨l, hl, by omega⟩
    rw [← hout] at this
    refine hno ⟨a.flatten, b.flatten, ?_⟩
    rw [← this, h2]
    simp
  · rintro ⟨l, hl, hlt⟩
    apply Classical.byContradiction
    intro hcon
    have h1 := handedOut_none hps hcon
    rw [hout] at h1
    have := hiff.1 h1 l hl
    omega

/-- C114.  So a calendar that would come back from a file comes back through a pipe exactly if no line of its text has more than 75 octets; otherwise `Decode` never returns. -/
theorem C114_exactly_partial (E E' : Env) (w : Writer) (c c' : Cal) (ht : c.typed = true) (hu : Unbroken E c) (f : WFolder) (h : encodeCalls E w c = .returned none f)
    (s : Str) (hs : encodeDoc E c = some s) (hd : decodeDoc E' s = .ok c') (fin k : Nat) (hk : 78 ≤ k) :
    (∃ fuel n x u, decodeDemand E' (pipeReader fin f.log) fuel (List.replicate n k) {} [] = .done (x, u)) ↔ ∀ l ∈ physLines (utf8 s), l.length ≤ 75 := by
  have hiff := C114_folded_partial E w c ht hu f h s hs
  constructor
  · rintro ⟨fuel, n, x, u, hr⟩
    intro l hl
    apply Classical.byContradiction
    intro hlt
    have := C114_hangs_partial E E' w c c' ht hu f h (hiff.2 ⟨l, hl, by omega⟩) s hs hd fin (List.replicate n k) (fun k' hk' => by rw [List.eq_of_mem_replicate hk']; exact hk) fuel
    rw [this] at hr
    cases hr
  · intro hl
    obtain ⟨u, hr⟩ := C114_returns_partial E E' w c ht hu f h (fun hf => by obtain ⟨l, h1, h2⟩ := hiff.1 hf; have := hl l h1; omega) s hs fin (List.replicate (f.log.length + 1) k)
      (fun k' hk' => by rw [List.eq_of_mem_replicate hk']; exact hk) (by simp) 3 (Nat.le_refl _)
    exact ⟨3, f.log.length + 1, _, u, hr⟩

/-- The full claim: what `Encode` writes to a pipe comes back from `Decode` at its other end. -/
def C114_claim : Prop := ∀ (E : Env) (c : Cal), GoodCalendar E c → ∀ (w : Writer) (f : WFolder), encodeCalls E w c = .returned none f →
  ∃ fuel n c' u, decodeDemand E (pipeReader 0 f.log) fuel (List.replicate n 4096) {} [] = .done (.ok c', u)

theorem encodeCalls_taker {E : Env} {c : Cal} (hv : c.valid = .ok ()) (he : (c.said E).ends = true) :
    encodeCalls E taker c = .returned none (({} : WFolder).writes taker ((c.said E).calls.map utf8)) := by
  unfold encodeCalls
  rw [hv]
  dsimp only
  rw [if_pos he, (taker_writes _ {} rfl).1]
  rfl

theorem longCal_unbroken : Unbroken sampleEnv longCal := by decide +kernel

/-- What the calls are given for the calendar with a PRODID of 80 letters. -/
theorem longCal_calls : encodeCalls sampleEnv taker longCal = .returned none (({} : WFolder).writes taker ((longCal.said sampleEnv).calls.map utf8)) ∧
    (({} : WFolder).writes taker ((longCal.said sampleEnv).calls.map utf8)).log =
      [utf8 c!"BEGIN:VCALENDAR\r\n", utf8 c!"VERSION", utf8 c!":", utf8 c!"2.0", utf8 c!"\r\n", utf8 c!"PRODID", utf8 c!":", List.replicate 68 97, [13, 10, 32], List.replicate 12 97,
        utf8 c!"\r\n", utf8 c!"END:VCALENDAR\r\n"] := ⟨encodeCalls_taker (longCal_good sampleEnv).valid (by decide +kernel), by decide +kernel⟩

theorem longCal_read : ∃ s, encodeDoc sampleEnv longCal = some s ∧ decodeDoc sampleEnv s = .ok longCal := ⟨_, rfl, by decide +kernel⟩

/-- C114.  The claim as stated in full is false: a calendar with a PRODID of 80 letters is read from a file, but not from a pipe. -/
theorem C114_full_claim_is_false : ¬ C114_claim := by
  intro h
  obtain ⟨fuel, n, c', u, h1⟩ := h sampleEnv longCal (longCal_good sampleEnv) taker _ longCal_calls.1
  obtain ⟨s, h2, h3⟩ := longCal_read
  have := C114_hangs_partial sampleEnv sampleEnv taker longCal longCal (longCal_good sampleEnv).typed longCal_unbroken _ longCal_calls.1 (by rw [longCal_calls.2]; decide +kernel) s h2 h3 0
    (List.replicate n 4096) (fun k hk => by rw [List.eq_of_mem_replicate hk]; decide) fuel
  rw [this] at h1
  cases h1

/-! ## Concrete cases -/

theorem parisCal_encodeCalls : encodeCalls sampleEnv taker (parisCal 5 7) = .returned none (({} : WFolder).writes taker (((parisCal 5 7).said sampleEnv).calls.map utf8)) :=
  encodeCalls_taker (parisCal_proper 5 7).valid (by decide +kernel)

/-- An event in Paris comes back through the pipe. -/
example : ∃ u, decodeDemand sampleEnv (pipeReader 0 (({} : WFolder).writes taker (((parisCal 5 7).said sampleEnv).calls.map utf8)).log) 5 (List.replicate 200 4096) {} [] =
    .done (.ok (parisCal 0 0), u) := by
  obtain ⟨s, h1, h2⟩ := C44_sample
  rw [← h2]
  exact C114_returns_partial sampleEnv sampleEnv taker _ (parisCal_proper 5 7).typed (proper_unbroken (parisCal_proper 5 7)) _ parisCal_encodeCalls (by decide +kernel) s h1 0
    (List.replicate 200 4096) (fun k hk => by rw [List.eq_of_mem_replicate hk]; decide) (by decide +kernel) 5 (by decide)

/-- The other calendar: the first eight calls of `Read` return, and the ninth does not. -/
example : ((readAll (pipeReader 0 (({} : WFolder).writes taker ((longCal.said sampleEnv).calls.map utf8)).log) 50 (List.replicate 8 4096) {} []).bind fun x => .done (x.1, x.2.1)) =
      .done (utf8 c!"BEGIN:VCALENDAR\r\nVERSION:2.0\r\nPRODID:" ++ List.replicate 68 97, none) ∧
    ∀ fuel, readAll (pipeReader 0 (({} : WFolder).writes taker ((longCal.said sampleEnv).calls.map utf8)).log) fuel (List.replicate 9 4096) {} [] = .running := by
  refine ⟨by decide +kernel, fun fuel => ?_⟩
  exact C114_stuck_partial sampleEnv taker longCal (longCal_good sampleEnv).typed longCal_unbroken _ longCal_calls.1 [utf8 c!"BEGIN:VCALENDAR\r\n", utf8 c!"VERSION", utf8 c!":", utf8 c!"2.0",
    utf8 c!"\r\n", utf8 c!"PRODID", utf8 c!":", List.replicate 68 97] _ longCal_calls.2 (by decide +kernel) 0 _ (fun k hk => by rw [List.eq_of_mem_replicate hk]; decide)
    (by decide +kernel) fuel

/-- The theorem says so on both sides. -/
example : (∃ fuel n x u, decodeDemand sampleEnv (pipeReader 0 (({} : WFolder).writes taker ((longCal.said sampleEnv).calls.map utf8)).log) fuel (List.replicate n 4096) {} [] = .done (x, u)) ↔
    ∀ l ∈ physLines (utf8 (c!"BEGIN:VCALENDAR\r\nVERSION:2.0\r\nPRODID:" ++ List.replicate 80 'a' ++ c!"\r\nEND:VCALENDAR\r\n")), l.length ≤ 75 :=
  C114_exactly_partial sampleEnv sampleEnv taker longCal longCal (longCal_good sampleEnv).typed longCal_unbroken _ longCal_calls.1 _ (by decide +kernel) (by decide +kernel) 0 4096 (by decide)

/-- A line of 75 octets stays, and one of 76 is broken in front of its last character; with a character of two octets at the end it is broken in front of that, and has 74 octets. -/
example : (({} : Folder).writes okSink [utf8 (List.replicate 75 'a' ++ crlf)]).out = utf8 (List.replicate 75 'a' ++ crlf) ∧
    physLines (({} : Folder).writes okSink [utf8 (List.replicate 76 'a' ++ crlf)]).out = [List.replicate 75 97, [32, 97], []] ∧
    physLines (({} : Folder).writes okSink [utf8 (List.replicate 74 'a' ++ ['é'] ++ crlf)]).out = [List.replicate 74 97, [32, 0xc3, 0xa9], []] := by decide +kernel

example := C115_no_place [List.replicate 74 'a' ++ ['é'] ++ crlf] (by decide +kernel) (by decide +kernel) [] [[]] (List.replicate 74 97) [32, 0xc3, 0xa9] (by decide +kernel) rfl

/-- Another way to fold a line of 76 letters, after the first one: the lines are short enough, but the fold was not needed, and one more is. -/
example : FoldOf (List.replicate 76 'a') ('a' :: '\r' :: '\n' :: ' ' :: 'a' :: (List.replicate 73 'a' ++ ['\r', '\n', ' ', 'a'])) ∧
    physLines (utf8 ('a' :: '\r' :: '\n' :: ' ' :: 'a' :: (List.replicate 73 'a' ++ ['\r', '\n', ' ', 'a']))) = [[97], 32 :: List.replicate 74 97, [32, 97]] := by
  refine ⟨?_, by decide +kernel⟩
  have hk : ∀ n, FoldOf (List.replicate n 'a' ++ ['a']) (List.replicate n 'a' ++ ['\r', '\n', ' ', 'a']) := by
    intro n
    induction n with
    | zero => exact .fold 'a' (by decide) (by decide) .nil
    | succ n ih => exact .keep 'a' ih
  exact .keep 'a' (.fold 'a' (by decide) (by decide) (hk 73))

end Ics.Props
