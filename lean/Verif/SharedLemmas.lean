import Verif.Spec.Shared
/-!
# Lemmas: calls that have nothing to do with one another
-/

namespace Ics

open Spec

theorem bytesIndex_eol : ∀ p : Bytes, bytesIndex [13, 10, 32] p = findFold p
  | [] => rfl
  | [a] => by simp [bytesIndex, findFold]
  | [a, b] => by simp [bytesIndex, findFold]
  | a :: b :: c :: r => by
    rw [bytesIndex, findFold, bytesIndex_eol (b :: c :: r)]
    have : ([13, 10, 32] : Bytes).isPrefixOf (a :: b :: c :: r) = true ↔ (a = 13 ∧ b = 10 ∧ c = 32) := by
      simp only [List.isPrefixOf, Bool.and_eq_true, beq_iff_eq, and_true]
      exact ⟨fun h => ⟨h.1.symm, h.2.1.symm, h.2.2.symm⟩, fun h => ⟨h.1.symm, h.2.1.symm, h.2.2.symm⟩⟩
    by_cases h : a = 13 ∧ b = 10 ∧ c = 32
    · rw [if_pos h, if_pos (this.2 h)]
    · rw [if_neg h, if_neg (fun x => h (this.1 x))]

theorem squeezeG_eol : ∀ (fuel : Nat) (kept win : Bytes) (t : Nat), squeezeG [13, 10, 32] fuel kept win t = squeeze fuel kept win t
  | 0, _, _, _ => rfl
  | fuel + 1, kept, win, t => by
    rw [squeezeG, squeeze, bytesIndex_eol]
    cases findFold win with
    | none => rfl
    | some pos => exact squeezeG_eol fuel _ _ _

theorem fillG_eol (R : Reader) : ∀ (fuel : Nat) (h : List Nat) (q : Bytes) (k : Nat), fillG [13, 10, 32] R fuel h q k = fill R fuel h q k
  | 0, _, _, _ => rfl
  | fuel + 1, h, q, k => by
    rw [fillG, fill]
    simp only [squeezeG_eol, fillG_eol R fuel]

theorem readG_settleG_eol (R : Reader) : ∀ fuel : Nat, (∀ u k, readG [13, 10, 32] R fuel u k = Unfolder.read R fuel u k) ∧
    ∀ u q m, settleG [13, 10, 32] R fuel u q m = settle R fuel u q m
  | 0 => ⟨fun _ _ => by rw [readG, Unfolder.read], fun _ _ _ => by rw [settleG, settle]⟩
  | fuel + 1 => by
    have ih := readG_settleG_eol R fuel
    refine ⟨fun u k => ?_, fun u q m => ?_⟩
    · rw [readG, Unfolder.read]
      simp only [fillG_eol, ih.2]
    · rw [settleG, settle]
      simp only [ih.1, ih.2]

theorem readAllG_eol (R : Reader) (fuel : Nat) : ∀ (ks : List Nat) (u : Unfolder) (acc : Bytes), readAllG [13, 10, 32] R fuel ks u acc = readAll R fuel ks u acc
  | [], _, _ => rfl
  | k :: ks, u, acc => by
    rw [readAllG, readAll]
    simp only [(readG_settleG_eol R fuel).1, readAllG_eol R fuel ks]

theorem decodeShared_eol (E : Env) (R : Reader) (fuel : Nat) (ks : List Nat) : decodeShared E R fuel ks {} = decodeReader E R fuel ks := by
  unfold decodeShared decodeReader
  rw [readAllG_eol]

/-! ## Encode -/

theorem overwrite_itself (A p B : Bytes) : overwrite (A ++ p ++ B) A.length p = A ++ p ++ B := by
  unfold overwrite
  simp [List.drop_append]

/-- The octets lie where `src` says. -/
def Lies (src : Source) (q : Bytes) : Prop := (src = .yes → q = [84, 82, 85, 69]) ∧ (src = .no → q = [70, 65, 76, 83, 69])

theorem Lies.content {src : Source} {q : Bytes} (h : Lies src q) : ({} : Globals).content q src = q := by
  cases src with
  | own => rfl
  | yes => exact (h.1 rfl).symm
  | no => exact (h.2 rfl).symm

theorem put_spared {w : FreeWriter} (hw : Spares w) {src : Source} {A p B : Bytes} (h : Lies src (A ++ p ++ B)) (log : List Bytes) :
    ({} : Globals).put A.length (w log p).2.2 src = {} := by
  have hi : p <:+: A ++ p ++ B := ⟨A, B, rfl⟩
  cases src with
  | own => rfl
  | yes =>
    have e := h.1 rfl
    rw [hw log p (.inr (.inl (e ▸ hi)))]
    have : overwrite ({} : Globals).yes A.length p = ({} : Globals).yes := by
      rw [show ({} : Globals).yes = A ++ p ++ B from e.symm]; exact overwrite_itself A p B
    rw [Globals.put, this]
  | no =>
    have e := h.2 rfl
    rw [hw log p (.inr (.inr (.inl (e ▸ hi))))]
    have : overwrite ({} : Globals).no A.length p = ({} : Globals).no := by
      rw [show ({} : Globals).no = A ++ p ++ B from e.symm]; exact overwrite_itself A p B
    rw [Globals.put, this]

theorem GFolder.finish_spared {w : FreeWriter} (hw : Spares w) {src : Source} (f : WFolder) (A p B : Bytes) (n : Nat) (h : Lies src (A ++ p ++ B)) :
    GFolder.finish w ⟨f, {}⟩ src A.length n p = (⟨(WFolder.finish w.plain f n p).1, {}⟩, (WFolder.finish w.plain f n p).2) := by
  unfold GFolder.finish WFolder.finish
  by_cases hp : p ≠ []
  · rw [if_pos hp, if_pos hp]
    simp only [GFolder.sink, put_spared hw h]
  · rw [if_neg hp, if_neg hp]

theorem GFolder.loop_spared {w : FreeWriter} (hw : Spares w) {src : Source} : ∀ (fuel : Nat) (f : WFolder) (A : Bytes) (n : Nat) (pre q : Bytes), Lies src (A ++ pre ++ q) →
    GFolder.loop w src fuel ⟨f, {}⟩ A.length n pre q = (⟨(WFolder.loop w.plain fuel f n pre q).1, {}⟩, (WFolder.loop w.plain fuel f n pre q).2)
  | 0, f, A, n, pre, q, h => by rw [GFolder.loop, WFolder.loop]; exact GFolder.finish_spared hw f A pre q n h
  | fuel + 1, f, A, n, pre, [], h => by rw [GFolder.loop, WFolder.loop]; exact GFolder.finish_spared hw f A pre [] n h
  | fuel + 1, f, A, n, pre, b :: suf, h => by
    rw [GFolder.loop, WFolder.loop]
    have h1 : Lies src (A ++ (pre ++ (b :: suf).take (decodeRune (b :: suf)).2) ++ (b :: suf).drop (decodeRune (b :: suf)).2) := by
      rw [← List.append_assoc, List.append_assoc, List.take_append_drop]; exact h
    have h2 : Lies src (A ++ pre ++ (b :: suf).take (decodeRune (b :: suf)).2 ++ (b :: suf).drop (decodeRune (b :: suf)).2) := by
      rw [List.append_assoc, List.take_append_drop]; exact h
    have hl : A.length + pre.length = (A ++ pre).length := List.length_append.symm
    have he : eol = [13, 10, 32] := rfl
    simp only [GFolder.loop_spared hw fuel _ _ _ _ _ h1, he]
    split
    · rfl
    · split
      · rfl
      · split
        · by_cases hp : pre ≠ []
          · simp only [if_pos hp, GFolder.sink, put_spared hw h]
            split
            · rfl
            · rw [hw _ ({} : Globals).eol (.inl (List.infix_refl _))]
              split
              · rfl
              · rw [hl]; exact GFolder.loop_spared hw fuel _ _ _ _ _ h2
          · simp only [if_neg hp, GFolder.sink]
            split
            · rfl
            · rw [hw _ ({} : Globals).eol (.inl (List.infix_refl _))]
              split
              · rfl
              · rw [hl]; exact GFolder.loop_spared hw fuel _ _ _ _ _ h2
        · rfl

theorem GFolder.write_spared {w : FreeWriter} (hw : Spares w) {src : Source} (f : WFolder) (q : Bytes) (h : Lies src q) :
    GFolder.write w ⟨f, {}⟩ src q = ⟨(f.write w.plain q).1, {}⟩ := by
  unfold GFolder.write WFolder.write
  rw [h.content]
  by_cases he : f.err.isSome = true
  · rw [if_pos he, if_pos he]
  · rw [if_neg he, if_neg he]
    have := GFolder.loop_spared hw (src := src) q.length f [] 0 [] q h
    rw [List.length_nil] at this
    rw [this]

theorem GFolder.writes_spared {w : FreeWriter} (hw : Spares w) {src : Nat → Source} : ∀ (qs : List Bytes) (k : Nat) (f : WFolder),
    (∀ j q, qs[j]? = some q → Lies (src (k + j)) q) → GFolder.writes w src k ⟨f, {}⟩ qs = ⟨f.writes w.plain qs, {}⟩
  | [], _, _, _ => rfl
  | q :: qs, k, f, h => by
    rw [GFolder.writes, GFolder.write_spared hw f q (src := src k) (h 0 q rfl), GFolder.writes_spared hw qs (k + 1) _ fun j p hp => by
      have := h (j + 1) p hp
      rwa [show k + (j + 1) = k + 1 + j by omega] at this]
    rfl

theorem encodeShared_fair {E : Env} {w : FreeWriter} {src : Nat → Source} {c : Cal} (hw : Spares w) (hs : Sits src ((c.said E).calls.map utf8)) :
    encodeShared E w src c {} = (encodeCalls E w.plain c, {}) := by
  unfold encodeShared encodeCalls
  cases c.valid with
  | err e => rfl
  | panic => rfl
  | ok _ =>
    dsimp only
    rw [GFolder.writes_spared hw _ 0 {} fun j q hq => by rw [Nat.zero_add]; exact hs j q hq]

/-! ## Together -/

theorem PackageCall.run_fair {c : PackageCall} (h : Fair c) : c.run {} = (alone c, {}) := by
  cases c with
  | enc E w src c => simp only [PackageCall.run, encodeShared_fair h.1 h.2, alone]
  | dec E R fuel ks => simp only [PackageCall.run, decodeShared_eol, alone]

theorem runCalls_fair : ∀ (cs : List PackageCall), (∀ c ∈ cs, Fair c) → runCalls {} cs = cs.map alone
  | [], _ => rfl
  | c :: cs, h => by
    rw [runCalls, PackageCall.run_fair (h c (.head _)), runCalls_fair cs fun x hx => h x (.tail _ hx)]
    rfl

/-- On its way with no harm done. -/
def Running.Good (a : Answer) (n : Nat) : Running → Prop
  | .enc w src ends k f qs => Spares w ∧ (∀ j q, qs[j]? = some q → Lies (src (k + j)) q) ∧ qs.length + 1 ≤ n ∧
      a = .enc (if ends then .returned ((f.writes w.plain qs).err.map .write) (f.writes w.plain qs) else .never (f.writes w.plain qs))
  | .dec E R fuel u acc ks => ks.length + 1 ≤ n ∧ a = .dec ((readAll R fuel ks u acc).bind fun (out, _, _) => .done (decodeDoc E (runes out)))
  | .through b => a = b

theorem Running.Good.mono {a : Answer} {n m : Nat} {r : Running} (h : r.Good a n) (hn : n ≤ m) : r.Good a m := by
  cases r with
  | enc w src ends k f qs => exact ⟨h.1, h.2.1, Nat.le_trans h.2.2.1 hn, h.2.2.2⟩
  | dec E R fuel u acc ks => exact ⟨Nat.le_trans h.1 hn, h.2⟩
  | through b => exact h

theorem PackageCall.begin_good {c : PackageCall} (h : Fair c) : c.begin.Good (alone c) (steps c) := by
  cases c with
  | enc E w src c =>
    unfold PackageCall.begin alone encodeCalls
    dsimp only
    cases c.valid with
    | err e => exact rfl
    | panic => exact rfl
    | ok _ => exact ⟨h.1, fun j q hq => by rw [Nat.zero_add]; exact h.2 j q hq, by rw [List.length_map]; exact Nat.le_refl _, rfl⟩
  | dec E R fuel ks => exact ⟨Nat.le_refl _, rfl⟩

theorem Running.step_good {a : Answer} {n : Nat} {r : Running} (h : r.Good a n) : (r.step {}).2 = {} ∧ (r.step {}).1.Good a (n - 1) := by
  cases r with
  | enc w src ends k f qs =>
    obtain ⟨hw, hl, hn, ha⟩ := h
    cases qs with
    | nil => exact ⟨rfl, ha⟩
    | cons q qs =>
      rw [Running.step]
      simp only [GFolder.write_spared hw f q (src := src k) (hl 0 q rfl)]
      refine ⟨trivial, hw, fun j p hp => ?_, ?_, ha⟩
      · have := hl (j + 1) p hp
        rwa [show k + (j + 1) = k + 1 + j by omega] at this
      · simp only [List.length_cons] at hn; omega
  | dec E R fuel u acc ks =>
    obtain ⟨hn, ha⟩ := h
    cases ks with
    | nil => exact ⟨rfl, ha⟩
    | cons k ks =>
      rw [Running.step]
      rw [show ({} : Globals).eol = [13, 10, 32] from rfl, (readG_settleG_eol R fuel).1]
      rw [readAll] at ha
      simp only [List.length_cons] at hn
      cases hr : Unfolder.read R fuel u k with
      | running => rw [hr] at ha; exact ⟨rfl, ha⟩
      | panic => rw [hr] at ha; exact ⟨rfl, ha⟩
      | done r =>
        rw [hr] at ha
        simp only [Run.bind] at ha
        dsimp only
        by_cases he : r.err.isSome = true
        · rw [if_pos he]
          rw [if_pos he] at ha
          refine ⟨rfl, ?_, ?_⟩
          · show 0 + 1 ≤ n - 1
            omega
          · exact ha
        · rw [if_neg he]
          rw [if_neg he] at ha
          exact ⟨rfl, by omega, ha⟩
  | through b => exact ⟨rfl, h⟩

theorem schedule_good (cs : List PackageCall) : ∀ (is : List Nat) (m : Machine) (d : Nat → Nat), m.2 = {} →
    (∀ i c, cs[i]? = some c → ∃ r : Running, m.1[i]? = some r ∧ r.Good (alone c) (steps c - d i)) → m.1.length = cs.length →
    (m.schedule is).2 = {} ∧ (m.schedule is).1.length = cs.length ∧
      ∀ i c, cs[i]? = some c → ∃ r : Running, (m.schedule is).1[i]? = some r ∧ r.Good (alone c) (steps c - (d i + is.count i))
  | [], m, d, hg, h, hl => ⟨hg, hl, fun i c hc => by simpa [Machine.schedule] using h i c hc⟩
  | j :: is, m, d, hg, h, hl => by
    have h1 : (m.turn j).2 = {} ∧ (m.turn j).1.length = cs.length ∧
        ∀ i c, cs[i]? = some c → ∃ r : Running, (m.turn j).1[i]? = some r ∧ r.Good (alone c) (steps c - (d i + if i = j then 1 else 0)) := by
      unfold Machine.turn
      cases hj : m.1[j]? with
      | none =>
        refine ⟨hg, hl, fun i c hc => ?_⟩
        obtain ⟨r, hr, hgd⟩ := h i c hc
        have : i ≠ j := fun e => by rw [e, hj] at hr; cases hr
        rw [if_neg this]
        exact ⟨r, hr, hgd⟩
      | some r =>
        have hjl : j < m.1.length := (List.getElem?_eq_some_iff.1 hj).1
        have hc : cs[j]? = some (cs[j]'(hl ▸ hjl)) := List.getElem?_eq_getElem _
        obtain ⟨r', hr', hgd⟩ := h j _ hc
        rw [hj] at hr'
        cases hr'
        have hs := Running.step_good hgd
        dsimp only
        rw [hg]
        refine ⟨hs.1, by rw [List.length_set]; exact hl, fun i c hci => ?_⟩
        by_cases e : i = j
        · subst e
          rw [hc] at hci
          cases hci
          rw [if_pos rfl, List.getElem?_set_self hjl]
          exact ⟨_, rfl, by rw [← Nat.sub_sub]; exact hs.2⟩
        · rw [if_neg e, List.getElem?_set_ne (fun x => e x.symm)]
          exact h i c hci
    have h2 := schedule_good cs is (m.turn j) (fun i => d i + if i = j then 1 else 0) h1.1 h1.2.2 h1.2.1
    refine ⟨h2.1, h2.2.1, fun i c hc => ?_⟩
    obtain ⟨r, hr, hgd⟩ := h2.2.2 i c hc
    refine ⟨r, hr, ?_⟩
    rw [List.count_cons]
    have e : (d i + if i = j then 1 else 0) + is.count i = d i + (is.count i + if (j == i) = true then 1 else 0) := by
      by_cases e : i = j
      · simp [e]; omega
      · rw [if_neg e, if_neg (by simpa using fun x => e x.symm)]; omega
    rw [← e]
    exact hgd

end Ics
