import Verif.Spec.Refusal
import Verif.RefusedLemmas
/-!
# Lemmas about the texts of the errors of Encode
-/

namespace Ics
open Spec

/-- What is said of one place. -/
def Spec.Place.said (V : SField → PropVal → Str) (x : Place) : Option Str := x.entry.valid.said (x.text V)

theorem findSome_flatMap {α β γ : Type} (f : α → List β) (g : β → Option γ) (l : List α) : (l.flatMap f).findSome? g = l.findSome? fun x => (f x).findSome? g := by
  induction l with
  | nil => rfl
  | cons a l ih =>
    rw [List.flatMap_cons, List.findSome?_append, ih, List.findSome?_cons]
    cases (f a).findSome? g <;> rfl

theorem findSome_congr {α β : Type} {f g : α → Option β} {l : List α} (h : ∀ x ∈ l, f x = g x) : l.findSome? f = l.findSome? g := by
  induction l with
  | nil => rfl
  | cons a l ih =>
    rw [List.findSome?_cons, List.findSome?_cons, h a (List.mem_cons_self ..), ih fun x hx => h x (List.mem_cons_of_mem _ hx)]

theorem fieldsSay_eq (V : SField → PropVal → Str) (me : Str) : ∀ (fs : List SField) (vs : List (List PropVal)), fieldsSay V me fs vs =
    ((fs.zip vs).flatMap fun x => x.2.map fun p => (x.1, p)).findSome? fun x => (x.1.spec.valid x.2).said (saysInvalid me (goField me x.1.key) (V x.1 x.2)) := by
  intro fs
  induction fs with
  | nil => intro vs; simp [fieldsSay]
  | cons f fs ih =>
    intro vs
    cases vs with
    | nil => simp [fieldsSay]
    | cons v vs =>
      rw [fieldsSay, ih, List.zip_cons_cons, List.flatMap_cons, List.findSome?_append, List.findSome?_map]
      show _ = Option.or (List.findSome? (fun p => (f.spec.valid p).said (saysInvalid me (goField me f.key) (V f p))) v) _
      cases v.findSome? fun p => (f.spec.valid p).said (saysInvalid me (goField me f.key) (V f p)) <;> rfl

theorem sectPlaces_said {κ σ : Type} (V : SField → PropVal → Str) (me : Str) (T : Tab κ) (s : Sect σ) :
    fieldsSay V me T.fields s.fields = (sectPlaces me T s).findSome? (Place.said V) := by
  rw [fieldsSay_eq, sectPlaces, sectEntries, sectProps, List.map_map, List.findSome?_map]
  rfl

theorem said_inside (V : SField → PropVal → Str) (a b : Str) (x : Place) : (x.inside a b).said V = (x.said V).map (saysInvalid a b) := by
  unfold Place.said Place.text Place.inside
  dsimp only
  cases x.entry.valid with
  | ok u => rfl
  | err e => simp [Res.said, saysInvalid]
  | panic => rfl

theorem findSome_inside (V : SField → PropVal → Str) (a b : Str) (l : List Place) : (l.map (Place.inside a b)).findSome? (Place.said V) = (l.findSome? (Place.said V)).map (saysInvalid a b) := by
  rw [List.findSome?_map, List.map_findSome?]
  exact findSome_congr fun x _ => said_inside V a b x

theorem subsSay_eq {κ σ : Type} (V : SField → PropVal → Str) (me : Str) (called : κ → Str) (down : κ → σ → Option Str) (g : κ → σ → List Place)
    (h : ∀ k s, down k s = (g k s).findSome? (Place.said V)) : ∀ (ks : List (Str × κ)) (vs : List (List σ)),
    subsSay me called down ks vs = ((ks.zip vs).flatMap fun x => x.2.flatMap fun y => (g x.1.2 y).map (Place.inside me (called x.1.2))).findSome? (Place.said V) := by
  intro ks
  induction ks with
  | nil => intro vs; simp [subsSay]
  | cons k ks ih =>
    intro vs
    cases vs with
    | nil => simp [subsSay]
    | cons v vs =>
      obtain ⟨n, k⟩ := k
      rw [subsSay, ih, List.zip_cons_cons, List.flatMap_cons, List.findSome?_append]
      have : (v.flatMap fun y => (g k y).map (Place.inside me (called k))).findSome? (Place.said V) = (v.findSome? (down k)).map (saysInvalid me (called k)) := by
        rw [findSome_flatMap, List.map_findSome?]
        refine findSome_congr fun y _ => ?_
        rw [findSome_inside, ← h]
        rfl
      dsimp only
      rw [this]
      cases v.findSome? (down k) <;> rfl

theorem Tab.saysInvalid_eq {κ σ : Type} (V : SField → PropVal → Str) (me : Str) (T : Tab κ) (called : κ → Str) (down : κ → σ → Option Str) (g : κ → σ → List Place)
    (h : ∀ k s, down k s = (g k s).findSome? (Place.said V)) (s : Sect σ) : T.saysInvalid V me called down s =
    (sectPlaces me T s ++ below (fun k y => (g k y).map (Place.inside me (called k))) T s).findSome? (Place.said V) := by
  rw [Tab.saysInvalid, List.findSome?_append, ← sectPlaces_said, subsSay_eq V me called down g h]
  unfold below
  cases fieldsSay V me T.fields s.fields <;> rfl

theorem leafInvalid_eq (V : SField → PropVal → Str) (me : Str) (T : Tab Empty) (s : Leaf) : T.saysInvalid V me noName noDown s = (sectPlaces me T s).findSome? (Place.said V) := by
  rw [Tab.saysInvalid_eq V me T noName noDown (fun _ _ => []) (fun k _ => nomatch k)]
  have : below (fun k y => (([] : List Place)).map (Place.inside me (noName k))) T s = ([] : List Place) := by
    unfold below
    rw [List.flatMap_eq_nil_iff]
    intro x _
    simp
  rw [this, List.append_nil]

theorem subInvalid_eq (V : SField → PropVal → Str) (k : SubKind) (s : Sub) : subSaysInvalid V k s = (subPlaces k s).findSome? (Place.said V) := by
  unfold subSaysInvalid subPlaces
  split
  · rfl
  · exact leafInvalid_eq _ _ _ _
  · exact leafInvalid_eq _ _ _ _
  · next h1 h2 h3 => split <;> simp_all

theorem calInvalid_eq (V : SField → PropVal → Str) (c : Cal) : calSaysInvalid V c = (calPlaces c).findSome? (Place.said V) := by
  refine Tab.saysInvalid_eq V c!"Calendar" tabCalendar (fun T => goSect T.name) (compSaysInvalid V) compPlaces (fun T s => ?_) c
  rw [compSaysInvalid, Tab.saysInvalid_eq V (goSect T.name) T SubKind.called (subSaysInvalid V) subPlaces (subInvalid_eq V)]
  have : SubKind.called = partName := by
    funext k
    cases k <;> rfl
  rw [this]
  rfl

/-- The places are those of `calEntries`. -/
theorem calPlaces_entries (c : Cal) : (calPlaces c).map (·.entry) = calEntries c := by
  have sect : ∀ {κ σ : Type} (me : Str) (T : Tab κ) (s : Sect σ), (sectPlaces me T s).map (·.entry) = sectEntries T s := by
    intro κ σ me T s
    rw [sectPlaces, List.map_map]
    exact List.map_id _
  have down : ∀ {κ σ : Type} (g : κ → σ → List Place) (b : κ → σ → List Entry) (me : Str) (called : κ → Str) (T : Tab κ) (s : Sect σ), (∀ k y, (g k y).map (·.entry) = b k y) →
      (below (fun k y => (g k y).map (Place.inside me (called k))) T s).map (·.entry) = below b T s := by
    intro κ σ g b me called T s h
    unfold below
    rw [List.map_flatMap]
    refine congrArg List.flatten (List.map_congr_left fun x _ => ?_)
    rw [List.map_flatMap]
    refine congrArg List.flatten (List.map_congr_left fun y _ => ?_)
    rw [List.map_map, ← h]
    rfl
  rw [calPlaces, calEntries, List.map_append, sect, down compPlaces compEntries]
  intro T s
  rw [compPlaces, compEntries, List.map_append, sect, down subPlaces subEntries]
  intro k s
  unfold subPlaces subEntries
  split
  · exact sect _ _ _
  · exact sect _ _ _
  · rfl
  · next h1 h2 h3 => split <;> simp_all

theorem said_iff {V : SField → PropVal → Str} {x : Place} {m : Str} : x.said V = some m ↔ (∃ e, x.entry.valid = .err e) ∧ m = x.text V := by
  unfold Place.said
  cases x.entry.valid with
  | ok u => simp [Res.said]
  | err e => simp [Res.said, eq_comm]
  | panic => simp [Res.said]

end Ics
