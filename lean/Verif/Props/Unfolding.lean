import Verif.UnfolderTerm
/-!
# Properties C07 - C09: the unfolding reader

`readAll R fuel ks {} []` is what a consumer receives that calls `Read` with buffers of the sizes `ks`, stopping at the first
error: the octets, the error and the final state; `delivered R u.hist` is what the caller's reader delivered during
that time; `removeFolds` is the RFC 5545 unfolding of a whole document.  `.running` means that the allowed number of
steps was not enough, so "`.running` for every fuel" means that the call never returns.
-/

namespace Ics.Props

open Ics Spec

/-- C07, full statement (false, see `C07_full_claim_is_false`): for every reader and every choice of buffer sizes. -/
def C07_claim : Prop :=
  ∀ (R : Reader), ReaderOk R → ∀ ks : List Nat, (∀ k ∈ ks, 0 < k) →
    ∃ fuel out e u, readAll R fuel ks {} [] = .done (out, e, u) ∧
      (e ≠ none → out = removeFolds (delivered R u.hist))

/-- C07 for readers that cut their data outside of fold markers and line ends: the consumer receives the unfolded document,
whatever the piece and buffer sizes.  Missing from the full claim: pieces ending in CR, LF or a complete marker. -/
theorem C07_unfolding_partial (R : Reader) (hR : WellCut R) (ks : List Nat) (fuel : Nat)
    (hf : ∀ k ∈ ks, k + 3 ≤ fuel) :
    ∃ out e u, readAll R fuel ks {} [] = .done (out, e, u) ∧
      out = removeFolds (delivered R u.hist) ∧ (e ≠ none → (R u.hist).2 = e) := by
  obtain ⟨out, e, h', h1, h2, h3⟩ := readAll_ok hR fuel ks [] [] hf (Or.inl (by simp [delivered])) rfl
  exact ⟨out, e, ⟨[], h'⟩, h1, h2, h3⟩

/-- C07/C09 for documents without fold markers, any reader (reporting its final error separately), any cuts and any buffer
sizes from two octets up: everything delivered by the reader arrives, once and in order; at the end nothing is left behind. -/
theorem C07_no_folds_any_chunking_partial (R : Reader) (hok : ReaderOk R) (hN : NoFolds R) (hL : LazyErr R)
    (ks : List Nat) (hks : ∀ k ∈ ks, 2 ≤ k) (fuel : Nat) (hf : 4 ≤ fuel) :
    ∃ out e u, readAll R fuel ks {} [] = .done (out, e, u) ∧
      delivered R u.hist = out ++ u.pend ∧ (e ≠ none → out = delivered R u.hist) := by
  obtain ⟨out, e, u, h1, h2, h3, _⟩ := readAll_noFold hok hN hL fuel hf ks {} [] hks (by simp) rfl
  exact ⟨out, e, u, h1, h2, fun he => by rw [h2, h3 he, List.append_nil]⟩

/-- A reader delivering the whole document with its first call (it refuses a buffer that is too small) and the error `fin` with
every later one. -/
def onceReader (doc : Bytes) (fin : Nat) : Reader
  | [k] => if doc.length ≤ k then (doc, none) else ([], some fin)
  | _ => ([], some fin)

/-- C07 for a document delivered by one call into a buffer that is large enough: the consumer receives the unfolded
document and the final error, unless the document has a fold marker and ends in CR LF SPACE, SPACE CR LF or
LF SPACE CR. -/
theorem C07_single_delivery_partial (doc : Bytes) (fin k : Nat) (h : hasFold doc → ¬ badEnd doc)
    (hk : doc.length ≤ k) (hk0 : 0 < k) (fuel : Nat) (hf : k + 4 ≤ fuel) :
    ∃ u, readAll (onceReader doc fin) fuel [k, k] {} [] = .done (removeFolds doc, some fin, u) := by
  obtain ⟨f, rfl⟩ : ∃ f, fuel = f + 4 := ⟨fuel - 4, by omega⟩
  have hR1 : onceReader doc fin [k] = (doc, none) := by simp [onceReader, hk]
  have hR2 : ∀ j, onceReader doc fin [j, k] = ([], some fin) := fun j => rfl
  have hsq := squeeze_good (f + 2) doc (by omega) h
  have hse : ∀ n, squeeze (n + 1) [] [] 0 = .done ([], 0) := fun n => rfl
  have hread2 : Unfolder.read (onceReader doc fin) (f + 4) ⟨[], [k]⟩ k =
      .done ⟨⟨[], [k, k]⟩, [], 0, some fin⟩ := by
    rw [Unfolder.read]
    simp only [List.take_nil, List.drop_nil, List.length_nil, Nat.sub_zero]
    rw [fill, if_neg (by omega)]
    simp only [hR2, hse, Run.bind_done, Option.isSome_some, if_true]
    rfl
  rw [readAll, Unfolder.read]
  simp only [List.take_nil, List.drop_nil, List.length_nil, Nat.sub_zero]
  rw [fill, if_neg (by omega)]
  simp only [hR1, hsq, Run.bind_done, Option.isSome_none, Bool.false_eq_true, if_false, List.nil_append]
  rw [fill]
  by_cases hd : doc.length - (removeFolds doc).length = 0
  · simp only [if_pos hd, Run.bind_done, Option.isSome_none, Bool.false_eq_true, if_false]
    rw [settle]
    generalize removeFolds doc = q
    split
    · simp only [hR2, List.length_nil, Nat.zero_lt_succ, if_true, Run.bind_done, Option.isSome_some]
      exact ⟨_, by simp; rfl⟩
    · split
      · simp only [hR2, List.length_nil, Nat.zero_lt_succ, if_true, Run.bind_done, Option.isSome_some]
        exact ⟨_, by simp; rfl⟩
      · simp only [Run.bind_done, Option.isSome_none, Bool.false_eq_true, if_false]
        rw [readAll, hread2]
        simp only [Run.bind_done, Option.isSome_some, if_true]
        exact ⟨_, by simp; rfl⟩
  · simp only [if_neg hd, hR2, hse, Run.bind_done, Option.isSome_some, if_true]
    exact ⟨_, by simp; rfl⟩

/-- C08, exact: when the reader delivers a piece, the loop that removes the markers from it finishes if and only if the piece has
no marker or does not end in CR LF SPACE, SPACE CR LF or LF SPACE CR. -/
theorem C08_marker_removal_terminates_iff (b : Bytes) :
    (∃ fuel, squeeze fuel [] b 0 ≠ .running) ↔ (hasFold b → ¬ badEnd b) := by
  constructor
  · rintro ⟨fuel, hf⟩ hb he
    exact hf (squeeze_bad fuel b [] 0 hb he)
  · intro h
    exact ⟨b.length + 1, by rw [squeeze_good _ b (by omega) h]; simp⟩

/-- C08, full statement (false, see `C08_full_claim_is_false`): a `Read` over a reader with finitely many octets returns. -/
def C08_claim : Prop :=
  ∀ (R : Reader), ReaderOk R → (∃ N, ∀ h, (delivered R h).length ≤ N) → ∀ u k,
    ∃ fuel r, Unfolder.read R fuel u k = .done r

/-- C08 for every reader with finitely many octets none of whose pieces has a marker and a bad end: every `Read`, in every
state and with every buffer size, returns without panic.  Missing from the full claim: exactly the pieces on which
`C08_marker_removal_terminates_iff` says the loop does not finish. -/
theorem C08_read_terminates_partial (R : Reader) (hok : ReaderOk R)
    (hfin : ∃ N, ∀ h, (delivered R h).length ≤ N)
    (hs : ∀ k h, hasFold (R (k :: h)).1 → ¬ badEnd (R (k :: h)).1) (u : Unfolder) (k : Nat) :
    ∃ fuel r, Unfolder.read R fuel u k = .done r := by
  obtain ⟨N, hN⟩ := hfin
  obtain ⟨r, hr, _⟩ := (read_settle_finish hok hs N hN (2 * N + 6 + k)).1 u k (by omega) (by omega)
  exact ⟨_, r, hr⟩

/-- C08 fails: if the first piece delivered has a marker and a bad end, the call of `Read` never returns. -/
theorem C08_read_can_hang (R : Reader) (k : Nat) (hk : 0 < k) (hb : hasFold (R [k]).1) (he : badEnd (R [k]).1) :
    ∀ fuel, Unfolder.read R fuel {} k = .running :=
  fun fuel => read_hangs fuel k hk hb he

/-- Three octets, CR LF SPACE, then the end. -/
def hangReader : Reader
  | [k] => ([13, 10, 32].take k, none)
  | _ => ([], some 0)

theorem hangReader_ok : ReaderOk hangReader := by
  intro k h
  cases h with
  | nil => simp only [hangReader]; exact List.length_take_le _ _
  | cons _ _ => simp [hangReader]

theorem hangReader_finite (h : List Nat) : (delivered hangReader h).length ≤ 3 := by
  induction h with
  | nil => simp [delivered]
  | cons k h ih =>
    cases h with
    | nil => simp [delivered, hangReader]; omega
    | cons _ _ => simpa [delivered, hangReader] using ih

/-- C08.  The claim as stated in full is false: a counterexample. -/
theorem C08_full_claim_is_false : ¬ C08_claim := by
  intro h
  obtain ⟨fuel, r, hr⟩ := h hangReader hangReader_ok ⟨3, hangReader_finite⟩ {} 100
  rw [C08_read_can_hang hangReader 100 (by decide) ⟨[], [], rfl⟩ ⟨[], [13, 10, 32], rfl, Or.inl rfl⟩] at hr
  cases hr

/-- C07.  The claim as stated in full is false: a counterexample. -/
theorem C07_full_claim_is_false : ¬ C07_claim := by
  intro h
  obtain ⟨fuel, out, e, u, hr, _⟩ := h hangReader hangReader_ok [100] (by simp)
  rw [readAll, C08_read_can_hang hangReader 100 (by decide) ⟨[], [], rfl⟩
    ⟨[], [13, 10, 32], rfl, Or.inl rfl⟩] at hr
  cases hr

/-- C07 fails also without hanging: the same folded octets arrive unfolded or not, depending on the cuts. -/
theorem C07_result_depends_on_chunking :
    readAll (piecesReader 0 [[97, 13, 10, 32, 98]]) 20 [9, 9] {} [] =
      .done ([97, 98], some 0, ⟨[], [3, 9]⟩) ∧
    readAll (piecesReader 0 [[97], [13], [10], [32], [98]]) 20 [9, 9, 9, 9, 9] {} [] =
      .done ([97, 13, 10, 32, 98], some 0, ⟨[], [9, 9, 8, 2, 9, 9]⟩) := by
  decide +kernel

/-- C09 fails: with the cut after CR LF the marker is replaced by a space, so the unfolded text has an octet too many. -/
theorem C09_space_invented :
    readAll (piecesReader 0 [[97, 13, 10], [32, 98]]) 20 [9, 9] {} [] =
      .done ([97, 32, 98], some 0, ⟨[], [9, 1, 1, 9]⟩) ∧ removeFolds [97, 13, 10, 32, 98] = [97, 98] := by
  decide +kernel

/-- A reader delivering "a" CR, then LF "b" together with the end of the data (refusing a buffer that is too small). -/
def eagerReader : Reader
  | [k] => if k < 2 then ([], some 1) else ([97, 13], none)
  | [k, _] => if k < 2 then ([], some 1) else ([10, 98], some 0)
  | _ => ([], some 0)

theorem eagerReader_ok : ReaderOk eagerReader := by
  intro k h
  match h with
  | [] => simp only [eagerReader]; split <;> simp; omega
  | [_] => simp only [eagerReader]; split <;> simp; omega
  | _ :: _ :: _ => simp [eagerReader]

/-- C09 fails: data delivered together with the final error while looking for the rest of a marker is lost. -/
theorem C09_octets_lost :
    readAll eagerReader 20 [9, 9] {} [] = .done ([97, 13], some 0, ⟨[10, 98], [2, 9]⟩) ∧
    delivered eagerReader [2, 9] = [97, 13, 10, 98] ∧ ¬ hasFold (delivered eagerReader [2, 9]) := by
  refine ⟨by decide +kernel, by decide +kernel, ?_⟩
  rw [← findFold_none_iff]
  decide +kernel

/-- The second text is the first with some of the sequences CR LF SPACE removed. -/
inductive SomeFoldsRemoved : Bytes → Bytes → Prop
  | nil : SomeFoldsRemoved [] []
  | keep (x : UInt8) {a b : Bytes} : SomeFoldsRemoved a b → SomeFoldsRemoved (x :: a) (x :: b)
  | remove {a b : Bytes} : SomeFoldsRemoved a b → SomeFoldsRemoved (13 :: 10 :: 32 :: a) b

/-- C09, full statement (false, see `C09_full_claim_is_false`): whenever the consumer has seen the final error, it received every octet delivered by
the reader, once and in order, but for removed markers.  Unlike in C07 it does not matter which markers are removed, and nothing is
said about calls that do not return. -/
def C09_claim : Prop := ∀ (R : Reader), ReaderOk R → ∀ ks : List Nat, (∀ k ∈ ks, 0 < k) → ∀ (fuel : Nat) (out : Bytes) (e : Nat) (u : Unfolder),
  readAll R fuel ks {} [] = .done (out, some e, u) → SomeFoldsRemoved (delivered R u.hist) out

theorem removed_all : ∀ (n : Nat) (a : Bytes), a.length ≤ n → SomeFoldsRemoved a (removeFolds a) := by
  intro n
  induction n with
  | zero =>
    intro a h
    obtain rfl : a = [] := List.length_eq_zero_iff.1 (by omega)
    exact .nil
  | succ n ih =>
    intro a h
    match a, h with
    | [], _ => exact .nil
    | [b], _ => exact .keep _ .nil
    | [b, c], _ => exact .keep _ (.keep _ .nil)
    | b :: c :: d :: r, h =>
      simp only [List.length_cons] at h
      rw [removeFolds]
      split
      · next hc => obtain ⟨rfl, rfl, rfl⟩ := hc; exact .remove (ih r (by omega))
      · exact .keep b (ih (c :: d :: r) (by simp only [List.length_cons]; omega))

theorem removed_none (a : Bytes) : SomeFoldsRemoved a a := by
  induction a with
  | nil => exact .nil
  | cons x a ih => exact .keep x ih

/-- C09 for well cut readers. -/
theorem C09_well_cut_partial (R : Reader) (hR : WellCut R) (ks : List Nat) (fuel : Nat) (hf : ∀ k ∈ ks, k + 3 ≤ fuel) (out : Bytes) (e : Nat) (u : Unfolder)
    (h : readAll R fuel ks {} [] = .done (out, some e, u)) : SomeFoldsRemoved (delivered R u.hist) out := by
  obtain ⟨o, e', u', h1, h2, _⟩ := C07_unfolding_partial R hR ks fuel hf
  rw [h] at h1
  cases h1
  rw [h2]
  exact removed_all _ _ (Nat.le_refl _)

/-- C09 for any way to deliver a document without markers. -/
theorem C09_no_folds_partial (R : Reader) (hok : ReaderOk R) (hN : NoFolds R) (hL : LazyErr R) (ks : List Nat) (hks : ∀ k ∈ ks, 2 ≤ k) (fuel : Nat)
    (hf : 4 ≤ fuel) (out : Bytes) (e : Nat) (u : Unfolder) (h : readAll R fuel ks {} [] = .done (out, some e, u)) :
    SomeFoldsRemoved (delivered R u.hist) out := by
  obtain ⟨o, e', u', h1, _, h3⟩ := C07_no_folds_any_chunking_partial R hok hN hL ks hks fuel hf
  rw [h] at h1
  cases h1
  rw [h3 (by simp)]
  exact removed_none _

theorem SomeFoldsRemoved.length {a b : Bytes} (h : SomeFoldsRemoved a b) : ∃ n, a.length = b.length + 3 * n := by
  induction h with
  | nil => exact ⟨0, rfl⟩
  | keep x _ ih => obtain ⟨n, h⟩ := ih; exact ⟨n, by simp only [List.length_cons, h]; omega⟩
  | remove _ ih => obtain ⟨n, h⟩ := ih; exact ⟨n + 1, by simp only [List.length_cons, h]; omega⟩

/-- Octets are lost if the reader delivers data together with the final error. -/
theorem C09_full_claim_is_false : ¬ C09_claim := by
  intro h
  have h1 := h eagerReader eagerReader_ok [9, 9] (by decide) 20 _ _ _ C09_octets_lost.1
  obtain ⟨n, hn⟩ := h1.length
  rw [C09_octets_lost.2.1] at hn
  simp only [List.length_cons, List.length_nil] at hn
  omega

theorem piecesReader_ok (fin : Nat) (ps : List Bytes) : ReaderOk (piecesReader fin ps) := by
  intro k h
  simp only [piecesReader]
  cases piecesState fin ps h with
  | nil => simp [piecesStep]
  | cons p ps => simp only [piecesStep]; split <;> simp <;> omega

theorem piecesReader_lazy (fin : Nat) (ps : List Bytes) : LazyErr (piecesReader fin ps) := by
  intro k h
  simp only [piecesReader]
  cases piecesState fin ps h with
  | nil => simp [piecesStep]
  | cons p ps => simp only [piecesStep]; split <;> simp

/-- It does not help if the reader reports its end separately: an octet is invented. -/
theorem C09_false_for_lazy_readers : ¬ ∀ (R : Reader), ReaderOk R → LazyErr R → ∀ ks : List Nat, (∀ k ∈ ks, 2 ≤ k) → ∀ (fuel : Nat) (out : Bytes) (e : Nat) (u : Unfolder),
    readAll R fuel ks {} [] = .done (out, some e, u) → SomeFoldsRemoved (delivered R u.hist) out := by
  intro h
  have h1 := h (piecesReader 0 [[97, 13, 10], [32, 98]]) (piecesReader_ok _ _) (piecesReader_lazy _ _) [9, 9] (by decide) 20 _ _ _ C09_space_invented.1
  obtain ⟨n, hn⟩ := h1.length
  have : (delivered (piecesReader 0 [[97, 13, 10], [32, 98]]) [9, 1, 1, 9]).length = 5 := by decide +kernel
  rw [this] at hn
  simp only [List.length_cons, List.length_nil] at hn
  omega

/-! ## Concrete cases -/

/-- Delivers one piece per call (refusing a buffer that is too small), then error 0. -/
def listReader (ps : List Bytes) : Reader
  | [] => ([], some 0)
  | k :: h => match ps[h.length]? with
    | some b => if b.length ≤ k then (b, none) else ([], some 1)
    | none => ([], some 0)

/-- Pieces that are good cuts, the last one being free to end a line, give a well cut reader. -/
theorem listReader_wellCut (ps : List Bytes) (hg : ∀ i b, ps[i]? = some b → i + 1 < ps.length → goodCut b)
    (hl : ∀ b, ps[ps.length - 1]? = some b → hasFold b → ¬ badEnd b) : WellCut (listReader ps) where
  ok := by
    intro k h
    simp only [listReader]
    cases hb : ps[h.length]? with
    | none => simp
    | some b => simp only; split <;> simp_all
  last := by
    intro k h
    simp only [listReader]
    cases hb : ps[h.length]? with
    | none => intro _ hf; have := hasFold_length hf; simp at this
    | some b =>
      simp only
      split
      · intro hne; exact absurd rfl hne
      · intro _ hf; have := hasFold_length hf; simp at this
  cut := by
    intro k h
    simp only [listReader]
    cases hb : ps[h.length]? with
    | none => intro hne; simp at hne
    | some b =>
      simp only
      split
      · intro _
        have hlt : h.length < ps.length := by
          rcases Nat.lt_or_ge h.length ps.length with h' | h'
          · exact h'
          · rw [List.getElem?_eq_none h'] at hb; cases hb
        by_cases hlast : h.length + 1 < ps.length
        · exact Or.inl (hg _ _ hb hlast)
        · right
          have he : h.length = ps.length - 1 := by omega
          refine ⟨hl b (by rw [← he]; exact hb), ?_⟩
          intro k'
          have : ps[(k :: h).length]? = none := by
            rw [List.getElem?_eq_none]; simp; omega
          rw [this]
          simp
      · intro hne; simp at hne

/-- "ab" CR LF SPACE "c", then "def", then "g" CR LF: one well cut document in three pieces. -/
def samplePieces : List Bytes := [[97, 98, 13, 10, 32, 99], [100, 101, 102], [103, 13, 10]]

theorem samplePieces_wellCut : WellCut (listReader samplePieces) := by
  apply listReader_wellCut
  · intro i b hb hi
    have : i = 0 ∨ i = 1 := by simp [samplePieces] at hi; omega
    rcases this with rfl | rfl <;> simp [samplePieces] at hb <;> subst hb <;>
      (refine ⟨by decide, by decide, by decide⟩)
  · intro b hb hf
    simp [samplePieces] at hb
    subst hb
    exact absurd hf ((findFold_none_iff _).1 (by decide))

example : readAll (listReader samplePieces) 40 [16, 16, 16] {} [] =
    .done ([97, 98, 99, 100, 101, 102, 103, 13, 10], some 0, ⟨[], [1, 16, 3, 16]⟩) := by
  decide +kernel

/-- Hypotheses of `C07_no_folds_any_chunking_partial` are met by a document cut inside CR LF. -/
example : readAll (piecesReader 0 [[97, 13], [10, 98, 13, 10], [99, 13], [10]]) 40 [2, 2, 2, 2, 2, 2, 2] {} [] =
    .done ([97, 13, 10, 98, 13, 10, 99, 13, 10], some 0, ⟨[], [1, 2, 1, 1, 2, 2, 2]⟩) := by
  decide +kernel

end Ics.Props
