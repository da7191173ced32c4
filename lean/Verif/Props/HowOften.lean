import Verif.Props.Calls
import Verif.Props.Demand
import Verif.Props.Reading
import Verif.FewCalls
import Verif.HangExact
/-!
# C117: how often the caller's reader is called
-/

namespace Ics.Props

open Spec

theorem calls_at_most {R : Reader} (hE : Eager R) {b : Nat} {hist : List Nat} {e : Option Nat} (c : Calls R b [] hist e) :
    hist.length ≤ (delivered R hist).length + 1 ∧ (e = none → hist.length ≤ (delivered R hist).length) := by
  induction c with
  | none => simp [delivered]
  | @call h k c hk _ ih =>
    have h1 := ih.2 rfl
    simp only [List.length_cons, delivered, List.length_append]
    refine ⟨by omega, fun h2 => ?_⟩
    have h3 := hE k h hk h2
    have h4 : 0 < (R (k :: h)).1.length := List.length_pos_iff.2 h3
    omega

theorem calls_at_least {R : Reader} (hok : ReaderOk R) {b : Nat} {hist : List Nat} {e : Option Nat} (c : Calls R b [] hist e) : (delivered R hist).length ≤ hist.length * b := by
  induction c with
  | none => simp [delivered]
  | @call h k c _ hk ih =>
    have h1 := hok k h
    simp only [List.length_cons, delivered, List.length_append, Nat.succ_mul]
    omega

/-- C117.  A reader that delivers something with every call that gives no error is called at most once for each octet it delivers, and once for the error. -/
theorem C117_at_most (R : Reader) (hok : ReaderOk R) (hE : Eager R) (fuel : Nat) (ks : List Nat) (out : Bytes) (e : Option Nat) (u : Unfolder) (h : readAll R fuel ks {} [] = .done (out, e, u)) :
    u.hist.length ≤ (delivered R u.hist).length + 1 ∧ (e = none → u.hist.length ≤ (delivered R u.hist).length) := by
  exact calls_at_most hE (C100_calls R hok fuel (ks.foldr max 2) (le_max_all ks).1 ks (le_max_all ks).2 out e u h)

/-- C117.  No call gives more than the largest of the buffers takes: so many calls there are at least, for any reader. -/
theorem C117_at_least (R : Reader) (hok : ReaderOk R) (fuel b : Nat) (hb : 2 ≤ b) (ks : List Nat) (hk : ∀ k ∈ ks, k ≤ b) (out : Bytes) (e : Option Nat) (u : Unfolder)
    (h : readAll R fuel ks {} [] = .done (out, e, u)) : (delivered R u.hist).length ≤ u.hist.length * b := calls_at_least hok (C100_calls R hok fuel b hb ks hk out e u h)

/-- C117 for `Decode`, whether it returns a calendar or an error: if the document has `n` octets, there are at most `n + 1` calls. -/
theorem C117_decode (E : Env) (R : Reader) (hok : ReaderOk R) (hE : Eager R) (doc : Bytes) (hR : ∀ h, delivered R h <+: doc) (fuel : Nat) (ks : List Nat) (x : Res Cal) (u : Unfolder)
    (h : decodeDemand E R fuel ks {} [] = .done (x, u)) : u.hist.length ≤ doc.length + 1 := by
  obtain ⟨ks1, _, out, e, _, h1, _⟩ := C109_returns E R fuel ks x u h
  have h2 := (C117_at_most R hok hE fuel ks1 out e u h1).1
  have h3 := (hR u.hist).length_le
  omega

/-- C117.  So many calls are made: a reader that delivers octets one by one is called for each of them, and for the error. -/
theorem C117_one_by_one (R : Reader) (hok : ReaderOk R) (h1 : ∀ h, (R h).1.length ≤ 1) (fuel : Nat) (ks : List Nat) (out : Bytes) (e : Nat) (u : Unfolder)
    (h : readAll R fuel ks {} [] = .done (out, some e, u)) (hL : LazyErr R) (hE : Eager R) : u.hist.length = (delivered R u.hist).length + 1 := by
  refine Nat.le_antisymm (C117_at_most R hok hE fuel ks out _ u h).1 ?_
  have h2 := readAll_calls hok fuel (b := ks.foldr max 2) (le_max_all ks).1 ks {} [] out (some e) u (le_max_all ks).2 h
  have h3 : ∀ hist : List Nat, (delivered R hist).length ≤ hist.length := by
    intro hist
    induction hist with
    | nil => simp [delivered]
    | cons k hist ih =>
      have := h1 (k :: hist)
      simp only [List.length_cons, delivered, List.length_append]
      omega
  generalize hh : u.hist = hist at h2
  generalize he : some e = e' at h2
  cases h2 with
  | none => cases he
  | @call h' k _ _ _ =>
    have h4 := hL k h' (by rw [← he]; nofun)
    have h5 := h3 h'
    simp only [List.length_cons, delivered, List.length_append, h4, List.length_nil]
    omega

/-- C117.  If nothing is folded, there are at most two calls for each time the parser asks, however little the reader delivers. -/
theorem C117_no_folds (R : Reader) (hok : ReaderOk R) (hN : NoFolds R) (hL : LazyErr R) (fuel : Nat) (hf : 4 ≤ fuel) (ks : List Nat) (hks : ∀ k ∈ ks, 2 ≤ k) (out : Bytes) (e : Option Nat)
    (u : Unfolder) (h : readAll R fuel ks {} [] = .done (out, e, u)) : u.hist.length ≤ 2 * ks.length := by
  have := readAll_few hok hN hL fuel hf ks {} [] hks (by simp) (by simp [delivered]) out e u h
  simpa using this

/-! ## Concrete cases -/

/-- Eight octets with a fold, in pieces as large as the buffers: four calls. -/
example := C117_at_most (fullReader markedA 0) (fullReader_ok _ _) (fullReader_eager _ _) 40 [5, 5] _ _ _ markedA_whole.1

example := C117_at_least (fullReader markedA 0) (fullReader_ok _ _) 40 5 (by decide) [5, 5] (by decide) _ _ _ markedA_whole.1

/-- A document octet by octet. -/
def slowReader (doc : Bytes) : Reader := fun h => if h.length ≤ doc.length then ((doc.drop (h.length - 1)).take (min 1 (h.headD 0)), none) else ([], some 0)

theorem slowReader_ok (doc : Bytes) : ReaderOk (slowReader doc) := by
  intro k h
  unfold slowReader
  split
  · simp only [List.headD_cons, List.length_take]
    omega
  · simp

theorem slowReader_one (doc : Bytes) (h : List Nat) : (slowReader doc h).1.length ≤ 1 := by
  unfold slowReader
  split
  · simp only [List.length_take]
    omega
  · simp

theorem slowReader_lazy (doc : Bytes) : LazyErr (slowReader doc) := by
  intro k h
  unfold slowReader
  split <;> simp

theorem slowReader_eager (doc : Bytes) : Eager (slowReader doc) := by
  intro k h hk
  unfold slowReader
  split
  · next hl =>
    intro _ h2
    have := congrArg List.length h2
    simp only [List.length_cons, List.headD_cons, List.length_take, List.length_drop, List.length_nil] at this hl
    omega
  · nofun

theorem slow_read : readAll (slowReader [97, 13, 10, 98]) 40 (List.replicate 9 5) {} [] = .done ([97, 13, 10, 98], some 0, ⟨[], [5, 4, 2, 5, 5]⟩) := by decide +kernel

example := C117_one_by_one (slowReader [97, 13, 10, 98]) (slowReader_ok _) (slowReader_one _) 40 (List.replicate 9 5) _ _ _ slow_read (slowReader_lazy _) (slowReader_eager _)

example := C117_no_folds (fullReader [97, 13, 10, 98] 0) (fullReader_ok _ _) (fullReader_noFolds _ (by rw [← findFold_none_iff]; decide)) (fullReader_lazy _ _) 40 (by decide) [3, 3, 3] (by decide)
  [97, 13, 10, 98] (some 0) ⟨[], [2, 1, 3]⟩ (by decide +kernel)

/-- A calendar of 137 octets with a fold, from a file: three calls. -/
example : ∃ o, encode sampleEnv okSink (fun s => [s]) longCal = .done o ∧ o.f.out.length = 137 ∧ (∀ h, delivered (fullReader o.f.out 3) h <+: o.f.out) ∧
    (match decodeDemand sampleEnv (fullReader o.f.out 3) 40 [60, 100, 60] {} [] with
    | .done (.ok c, u) => decide (c = longCal) && decide (u.hist.length = 3)
    | _ => false) = true := by
  refine ⟨_, rfl, ?_, fun h => ?_, ?_⟩
  · decide +kernel
  · rw [fullReader_delivered]
    exact List.take_prefix _ _
  · decide +kernel

end Ics.Props
