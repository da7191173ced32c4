import Verif.Spec.Structure
import Verif.LocalLemmas
import Verif.DocumentLemmas
import Verif.PanicLemmas
/-!
# Lemmas: Decode refines the specification of Spec/Structure.lean
-/

namespace Ics

open Spec

variable {κ σ α β : Type}

/-! ## Correspondence of lists -/

theorem Pairwise2.length {R : α → β → Prop} {as : List α} {bs : List β} (h : Pairwise2 R as bs) : as.length = bs.length := by
  induction h with
  | nil => rfl
  | cons _ _ ih => simp [ih]

/-! ## Sections as they grow -/

/-- The parts `is` take the section from `s` to `s'`. -/
structure Grows (E : Env) (T : Tab κ) (R : κ → List Line → σ → Prop) (is : List Item) (s s' : Sect σ) : Prop where
  lenF : s'.fields.length = s.fields.length
  lenS : s'.subs.length = s.subs.length
  fields : ∀ (i : Nat) (f : SField), T.fields[i]? = some f → ∃ vs, s'.fields.getD i [] = s.fields.getD i [] ++ vs ∧
    Pairwise2 (fun l p => f.spec.decode E l.params l.value = .ok p) (linesNamed is f.key) vs ∧
    (f.mult ≠ .many → (s.fields.getD i []).length + (linesNamed is f.key).length ≤ 1)
  subs : ∀ (i : Nat) (x : Str × κ), T.subs[i]? = some x → ∃ vs, s'.subs.getD i [] = s.subs.getD i [] ++ vs ∧
    Pairwise2 (R x.2) (blocksNamed is x.1) vs

/-- A section with the right number of fields, none of them overfull. -/
structure Sound (T : Tab κ) (s : Sect σ) : Prop where
  lenF : s.fields.length = T.fields.length
  lenS : s.subs.length = T.subs.length
  mult : ∀ (i : Nat) (f : SField), T.fields[i]? = some f → f.mult ≠ .many → (s.fields.getD i []).length ≤ 1

theorem getD_modify {α : Type} (l : List (List α)) (i j : Nat) (x : α) (hi : i < l.length) :
    (l.modify i (· ++ [x])).getD j [] = l.getD j [] ++ if i = j then [x] else [] := by
  rw [List.getD_eq_getElem?_getD, List.getElem?_modify, List.getD_eq_getElem?_getD]
  by_cases h : i = j
  · subst h
    rw [List.getElem?_eq_getElem hi]
    simp
  · cases l[j]? <;> simp [h]

theorem getD_ext {α : Type} {l m : List (List α)} (hl : l.length = m.length) (h : ∀ i, i < l.length → l.getD i [] = m.getD i []) : l = m := by
  apply List.ext_getElem hl
  intro i h1 h2
  have := h i h1
  simpa [List.getD_eq_getElem?_getD, List.getElem?_eq_getElem h1, List.getElem?_eq_getElem h2] using this

theorem Grows.nil_iff {E : Env} {T : Tab κ} {R : κ → List Line → σ → Prop} {s s' : Sect σ} (hs : Sound T s) : Grows E T R [] s s' ↔ s' = s := by
  constructor
  · rintro ⟨h1, h2, h3, h4⟩
    obtain ⟨fs, ss⟩ := s
    obtain ⟨fs', ss'⟩ := s'
    congr 1
    · apply getD_ext h1
      intro i hi
      dsimp only at h1 h2 h3 h4 hi
      have hi2 : i < T.fields.length := by have := hs.lenF; dsimp only at this; omega
      obtain ⟨vs, e, h, _⟩ := h3 i T.fields[i] (List.getElem?_eq_getElem hi2)
      cases h
      simpa using e
    · apply getD_ext h2
      intro i hi
      dsimp only at h1 h2 h3 h4 hi
      have hi2 : i < T.subs.length := by have := hs.lenS; dsimp only at this; omega
      obtain ⟨vs, e, h⟩ := h4 i T.subs[i] (List.getElem?_eq_getElem hi2)
      cases h
      simpa using e
  · rintro rfl
    exact ⟨rfl, rfl, fun i f hf => ⟨[], by simp, .nil, fun h => by simpa [linesNamed] using hs.mult i f hf h⟩,
      fun i f hf => ⟨[], by simp, .nil⟩⟩

theorem linesNamed_line (l : Line) (is : List Item) (n : Str) :
    linesNamed (.line l :: is) n = (if upper l.name = n then [l] else []) ++ linesNamed is n := by
  unfold linesNamed
  rw [List.filterMap_cons]
  by_cases h : upper l.name = n <;> simp [h]

theorem linesNamed_block (m : Str) (k : List Line) (is : List Item) (n : Str) : linesNamed (.block m k :: is) n = linesNamed is n := rfl

theorem blocksNamed_line (l : Line) (is : List Item) (n : Str) : blocksNamed (.line l :: is) n = blocksNamed is n := rfl

theorem blocksNamed_block (m : Str) (k : List Line) (is : List Item) (n : Str) :
    blocksNamed (.block m k :: is) n = (if m = n then [k] else []) ++ blocksNamed is n := by
  unfold blocksNamed
  rw [List.filterMap_cons]
  by_cases h : m = n <;> simp [h]

theorem nodup_inj {α : Type} {l : List α} (h : l.Nodup) {i j : Nat} {a : α} (hi : l[i]? = some a) (hj : l[j]? = some a) : i = j := by
  obtain ⟨h1, e1⟩ := List.getElem?_eq_some_iff.1 hi
  obtain ⟨h2, e2⟩ := List.getElem?_eq_some_iff.1 hj
  have hp := List.pairwise_iff_getElem.1 h
  rcases Nat.lt_trichotomy i j with hlt | rfl | hlt
  · exact absurd (e1.trans e2.symm) (hp i j h1 h2 hlt)
  · rfl
  · exact absurd (e2.trans e1.symm) (hp j i h2 h1 hlt)

/-- Fields with the same key are the same. -/
theorem Tab.Wf.key_inj {T : Tab κ} (hw : T.Wf) {i j : Nat} {f g : SField} (hi : T.fields[i]? = some f) (hj : T.fields[j]? = some g)
    (h : f.key = g.key) : i = j := by
  refine nodup_inj hw.keys (a := f.key) ?_ ?_
  · rw [List.getElem?_map, hi]; rfl
  · rw [List.getElem?_map, hj, h]; rfl

theorem Tab.Wf.sub_inj {T : Tab κ} (hw : T.Wf) {i j : Nat} {f g : Str × κ} (hi : T.subs[i]? = some f) (hj : T.subs[j]? = some g)
    (h : f.1 = g.1) : i = j := by
  refine nodup_inj hw.subs (a := f.1) ?_ ?_
  · rw [List.getElem?_map, hi]; rfl
  · rw [List.getElem?_map, hj, h]; rfl

theorem addProp_sound {E : Env} {T : Tab κ} {s s1 : Sect σ} (hs : Sound T s) {i : Nat} {f : SField} {l : Line} (hf : T.fields[i]? = some f)
    (h : s.addProp E i f l = .ok s1) : Sound T s1 := by
  unfold Sect.addProp at h
  split at h
  · cases h
  · next hm =>
    obtain ⟨v, hv, h⟩ := Res.bind_eq_ok.1 h
    cases h
    have hi : i < s.fields.length := by rw [hs.lenF]; exact (List.getElem?_eq_some_iff.1 hf).1
    refine ⟨by simpa using hs.lenF, hs.lenS, ?_⟩
    intro j g hg hgm
    dsimp only
    rw [getD_modify _ _ _ _ hi]
    by_cases e : i = j
    · subst e
      rw [hf] at hg
      cases hg
      have : s.fields.getD i [] = [] := by simpa [hgm] using hm
      rw [this]
      simp
    · simpa [e] using hs.mult j g hg hgm

theorem Grows.prop {E : Env} {T : Tab κ} (hw : T.Wf) {R : κ → List Line → σ → Prop} {s s' : Sect σ} (hs : Sound T s) {i : Nat} {f : SField}
    {l : Line} {is : List Item} (hf : T.fields[i]? = some f) (hn : f.key = upper l.name) :
    Grows E T R (.line l :: is) s s' ↔ ∃ s1, s.addProp E i f l = .ok s1 ∧ Grows E T R is s1 s' := by
  have hi : i < s.fields.length := by rw [hs.lenF]; exact (List.getElem?_eq_some_iff.1 hf).1
  constructor
  · rintro ⟨h1, h2, h3, h4⟩
    obtain ⟨vs, e, hp, hm⟩ := h3 i f hf
    rw [linesNamed_line, if_pos hn.symm] at hp hm
    cases hp with
    | @cons _ v _ vs hv hp =>
      refine ⟨{ s with fields := s.fields.modify i (· ++ [v]) }, ?_, ?_⟩
      · unfold Sect.addProp
        rw [if_neg, hv]
        · rfl
        · rintro ⟨g1, g2⟩
          have := hm g1
          cases hx : s.fields.getD i [] with
          | nil => exact g2 hx
          | cons => rw [hx] at this; simp at this; omega
      · refine ⟨by simpa using h1, h2, ?_, h4⟩
        intro j g hg
        dsimp only
        rw [getD_modify _ _ _ _ hi]
        by_cases hij : i = j
        · subst hij
          rw [hf] at hg
          cases hg
          refine ⟨vs, by simpa using e, hp, ?_⟩
          intro g1
          have := hm g1
          simp at this ⊢
          omega
        · obtain ⟨ws, e2, hp2, hm2⟩ := h3 j g hg
          have hne : upper l.name ≠ g.key := fun h => hij (hw.key_inj hf hg (hn.trans h))
          rw [linesNamed_line, if_neg hne] at hp2 hm2
          exact ⟨ws, by simpa [hij] using e2, hp2, by simpa [hij] using hm2⟩
  · rintro ⟨s1, ha, h1, h2, h3, h4⟩
    unfold Sect.addProp at ha
    split at ha
    · cases ha
    · next hm =>
      obtain ⟨v, hv, ha⟩ := Res.bind_eq_ok.1 ha
      cases ha
      refine ⟨by simpa using h1, h2, ?_, h4⟩
      intro j g hg
      obtain ⟨ws, e2, hp2, hm2⟩ := h3 j g hg
      dsimp only at e2 hm2
      rw [getD_modify _ _ _ _ hi] at e2 hm2
      by_cases hij : i = j
      · subst hij
        rw [hf] at hg
        cases hg
        refine ⟨v :: ws, by simpa using e2, ?_, ?_⟩
        · rw [linesNamed_line, if_pos hn.symm]
          exact .cons hv hp2
        · intro g1
          have := hm2 g1
          rw [linesNamed_line, if_pos hn.symm]
          simp at this ⊢
          omega
      · have hne : upper l.name ≠ g.key := fun h => hij (hw.key_inj hf hg (hn.trans h))
        rw [linesNamed_line, if_neg hne]
        exact ⟨ws, by simpa [hij] using e2, hp2, by simpa [hij] using hm2⟩

theorem Grows.other {E : Env} {T : Tab κ} {R : κ → List Line → σ → Prop} {s s' : Sect σ} {l : Line} {is : List Item}
    (h : upper l.name ∉ T.fields.map (·.key)) : Grows E T R (.line l :: is) s s' ↔ Grows E T R is s s' := by
  have key : ∀ (i : Nat) (f : SField), T.fields[i]? = some f → linesNamed (.line l :: is) f.key = linesNamed is f.key := by
    intro i f hf
    rw [linesNamed_line, if_neg (fun e => h (List.mem_map.2 ⟨f, List.mem_of_getElem? hf, e.symm⟩))]
    rfl
  constructor
  · rintro ⟨h1, h2, h3, h4⟩
    exact ⟨h1, h2, fun i f hf => by rw [← key i f hf]; exact h3 i f hf, h4⟩
  · rintro ⟨h1, h2, h3, h4⟩
    exact ⟨h1, h2, fun i f hf => by rw [key i f hf]; exact h3 i f hf, h4⟩

theorem addSub_sound {T : Tab κ} {s : Sect σ} (hs : Sound T s) (i : Nat) (x : σ) : Sound T (s.addSub i x) :=
  ⟨hs.lenF, by simpa [Sect.addSub] using hs.lenS, hs.mult⟩

theorem Grows.sub {E : Env} {T : Tab κ} (hw : T.Wf) {R : κ → List Line → σ → Prop} {s s' : Sect σ} (hs : Sound T s) {i : Nat} {n : Str} {k : κ}
    {body : List Line} {is : List Item} (hf : T.subs[i]? = some (n, k)) :
    Grows E T R (.block n body :: is) s s' ↔ ∃ x, R k body x ∧ Grows E T R is (s.addSub i x) s' := by
  have hi : i < s.subs.length := by rw [hs.lenS]; exact (List.getElem?_eq_some_iff.1 hf).1
  constructor
  · rintro ⟨h1, h2, h3, h4⟩
    obtain ⟨vs, e, hp⟩ := h4 i _ hf
    rw [blocksNamed_block, if_pos rfl] at hp
    cases hp with
    | @cons _ v _ vs hv hp =>
      refine ⟨v, hv, h1, by simpa [Sect.addSub] using h2, h3, ?_⟩
      intro j g hg
      unfold Sect.addSub
      dsimp only
      rw [getD_modify _ _ _ _ hi]
      by_cases hij : i = j
      · subst hij
        rw [hf] at hg
        cases hg
        exact ⟨vs, by simpa using e, hp⟩
      · obtain ⟨ws, e2, hp2⟩ := h4 j g hg
        have hne : n ≠ g.1 := fun h => hij (hw.sub_inj hf hg h)
        rw [blocksNamed_block, if_neg hne] at hp2
        exact ⟨ws, by simpa [hij] using e2, hp2⟩
  · rintro ⟨v, hv, h1, h2, h3, h4⟩
    refine ⟨h1, by simpa [Sect.addSub] using h2, h3, ?_⟩
    intro j g hg
    obtain ⟨ws, e2, hp2⟩ := h4 j g hg
    unfold Sect.addSub at e2
    dsimp only at e2
    rw [getD_modify _ _ _ _ hi] at e2
    by_cases hij : i = j
    · subst hij
      rw [hf] at hg
      cases hg
      exact ⟨v :: ws, by simpa using e2, by rw [blocksNamed_block, if_pos rfl]; exact .cons hv hp2⟩
    · have hne : n ≠ g.1 := fun h => hij (hw.sub_inj hf hg h)
      rw [blocksNamed_block, if_neg hne]
      exact ⟨ws, by simpa [hij] using e2, hp2⟩

theorem Grows.unk {E : Env} {T : Tab κ} {R : κ → List Line → σ → Prop} {s s' : Sect σ} {n : Str} {body : List Line} {is : List Item}
    (h : n ∉ T.subs.map (·.1)) : Grows E T R (.block n body :: is) s s' ↔ Grows E T R is s s' := by
  have key : ∀ (i : Nat) (f : Str × κ), T.subs[i]? = some f → blocksNamed (.block n body :: is) f.1 = blocksNamed is f.1 := by
    intro i f hf
    rw [blocksNamed_block, if_neg (fun e => h (List.mem_map.2 ⟨f, List.mem_of_getElem? hf, e.symm⟩))]
    rfl
  constructor
  · rintro ⟨h1, h2, h3, h4⟩
    exact ⟨h1, h2, h3, fun i f hf => by rw [← key i f hf]; exact h4 i f hf⟩
  · rintro ⟨h1, h2, h3, h4⟩
    exact ⟨h1, h2, h3, fun i f hf => by rw [key i f hf]; exact h4 i f hf⟩

/-! ## Lines as a section sees them -/

theorem upperC_idem (c : Char) : upperC (upperC c) = upperC c := by
  unfold upperC
  split
  · next h =>
    have h1 : 97 ≤ c.toNat := h.1
    have h2 : c.toNat ≤ 122 := h.2
    have hv : (c.toNat - 32).isValidChar := Or.inl (by omega)
    have e : (Char.ofNat (c.toNat - 32)).toNat = c.toNat - 32 := by
      simp only [Char.ofNat, dif_pos hv]
      rfl
    rw [if_neg, if_neg, if_neg, if_pos (by rw [e]; omega)]
    · intro hc
      have := congrArg Char.toNat hc
      rw [e] at this
      have : c.toNat - 32 = 383 := this
      omega
    · intro hc
      have := congrArg Char.toNat hc
      rw [e] at this
      have : c.toNat - 32 = 305 := this
      omega
    · rintro ⟨h3, _⟩
      have h3 : 97 ≤ (Char.ofNat (c.toNat - 32)).toNat := h3
      rw [e] at h3
      omega
  · next h =>
    split
    · decide
    · next h1 =>
      split
      · decide
      · next h2 =>
        split
        · rfl
        · next h3 =>
          obtain ⟨g1, g2, g3⟩ := upperTable.2 c (by omega) (fun h => h.elim h1 h2)
          rw [if_neg, if_neg (fun h => g2 (.inl h)), if_neg (fun h => g2 (.inr h)), if_neg (by omega), g3]
          rintro ⟨_, h4⟩
          have h4 : (upperTable.1 c).toNat ≤ 122 := h4
          omega

theorem upper_idem (s : Str) : upper (upper s) = upper s := by
  simp [upper, upperC_idem]

theorem indexOf_none {n : Str} : ∀ {l : List Str}, indexOf n l = none ↔ n ∉ l := by
  intro l
  induction l with
  | nil => simp [indexOf]
  | cons w l ih =>
    unfold indexOf
    by_cases h : n = w
    · simp [h]
    · simp [h, ih]

theorem indexOf_mem {n : Str} {l : List Str} (h : n ∈ l) : ∃ i, indexOf n l = some i := by
  cases hi : indexOf n l with
  | some i => exact ⟨i, rfl⟩
  | none => exact absurd h (indexOf_none.1 hi)

theorem Tab.kindOf_line {T : Tab κ} {l : Line} (hb : ¬ Begins l) (he : ¬ Ends l) :
    (∃ i f, T.kindOf l = .prop i f ∧ T.fields[i]? = some f ∧ f.key = upper l.name) ∨
    (T.kindOf l = .other ∧ upper l.name ∉ T.fields.map (·.key)) := by
  unfold Tab.kindOf
  have hb : ¬ upper l.name = kBEGIN := hb
  rw [if_neg hb]
  cases hi : fieldIdx (upper l.name) T.fields with
  | some i =>
    obtain ⟨d, hd, hn⟩ := fieldIdx_some hi
    exact Or.inl ⟨i, d, by simp only [hd], hd, hn⟩
  | none => exact Or.inr ⟨by simp only [if_neg (show ¬ upper l.name = kEND from he)], fieldIdx_none.1 hi⟩

theorem Tab.kindOf_end {T : Tab κ} (hw : T.Wf) {l : Line} (he : Ends l) : T.kindOf l = .fin := by
  unfold Tab.kindOf
  have he : upper l.name = kEND := he
  rw [if_neg (by rw [he]; decide)]
  cases hi : fieldIdx (upper l.name) T.fields with
  | some i =>
    obtain ⟨d, hd, hn⟩ := fieldIdx_some hi
    exact absurd (hn.trans he) (hw.field d (List.mem_of_getElem? hd)).notCtl.2.1
  | none => simp only [if_pos he]

theorem Tab.kindOf_begin {T : Tab κ} {l : Line} (hb : Begins l) :
    (∃ i k, T.kindOf l = .sub i k ∧ T.subs[i]? = some (upper l.value, k)) ∨
    (T.kindOf l = .unk ∧ upper l.value ∉ T.subs.map (·.1)) := by
  cases hk : T.kindOf l with
  | sub i k => exact Or.inl ⟨i, k, rfl, (Tab.kindOf_sub hk).2⟩
  | unk =>
    refine Or.inr ⟨rfl, ?_⟩
    unfold Tab.kindOf at hk
    rw [if_pos (show upper l.name = kBEGIN from hb)] at hk
    split at hk
    · split at hk <;> cases hk
    · next hi => exact indexOf_none.1 hi
  | prop i f => exact absurd hb (Tab.kindOf_prop hk).1
  | fin =>
    unfold Tab.kindOf at hk
    rw [if_pos (show upper l.name = kBEGIN from hb)] at hk
    split at hk
    · split at hk <;> cases hk
    · cases hk
  | other =>
    unfold Tab.kindOf at hk
    rw [if_pos (show upper l.name = kBEGIN from hb)] at hk
    split at hk
    · next i hi =>
      have hg := indexOf_some _ _ _ hi
      rw [List.getElem?_map] at hg
      obtain ⟨⟨n, k'⟩, hk', hn⟩ := Option.map_eq_some_iff.1 hg
      rw [hk'] at hk
      cases hk
    · cases hk

/-! ## Unknown components -/

theorem skip_sound : ∀ (n : Nat) (t : Term) (name : Str) (ls r : List Line), ls.length ≤ n → skip t name ls = .ok r →
    ∃ body e, ls = body ++ e :: r ∧ Ends e ∧ upper e.value = name ∧ Closed body := by
  intro n
  induction n with
  | zero =>
    intro t name ls r hl h
    cases ls with
    | nil => cases h
    | cons => simp at hl
  | succ n ih =>
    intro t name ls r hl h
    cases ls with
    | nil => cases h
    | cons l ls =>
      simp only [List.length_cons] at hl
      rw [skip_cons] at h
      split at h
      · next hb =>
        obtain ⟨r1, h1, h2⟩ := Res.bind_eq_ok.1 h
        have hlen := skip_length h1
        obtain ⟨b1, e1, rfl, g1, v1, c1⟩ := ih _ _ _ _ (by omega) h1
        obtain ⟨b2, e2, rfl, g2, v2, c2⟩ := ih _ _ _ _ (by omega) h2
        refine ⟨l :: b1 ++ e1 :: b2, e2, by simp, g2, v2, .block hb g1 ?_ c1 c2⟩
        rw [← v1, upper_idem]
      · next hb =>
        split at h
        · next he =>
          split at h
          · next hv =>
            cases h
            exact ⟨[], l, rfl, he, hv, .nil⟩
          · cases h
        · next he =>
          obtain ⟨b1, e1, rfl, g1, v1, c1⟩ := ih _ _ _ _ (by omega) h
          exact ⟨l :: b1, e1, rfl, g1, v1, .line hb he c1⟩

theorem Loud.append {a b : List Line} (h : Loud (a ++ b)) : Loud a ∧ Loud b :=
  ⟨⟨fun l hl => h.1 l (List.mem_append.2 (Or.inl hl)), fun l hl => h.2 l (List.mem_append.2 (Or.inl hl))⟩,
   ⟨fun l hl => h.1 l (List.mem_append.2 (Or.inr hl)), fun l hl => h.2 l (List.mem_append.2 (Or.inr hl))⟩⟩

theorem Loud.cons {l : Line} {b : List Line} (h : Loud (l :: b)) : Loud [l] ∧ Loud b := Loud.append (a := [l]) h

theorem Loud.begin {l : Line} {r : List Line} (h : Loud (l :: r)) (hb : Begins l) : l.value = upper l.value := by
  have h1 := h.1 l (by simp) (by rw [show upper l.name = _ from hb]; simp)
  exact h.2 l (by simp) (by rw [h1, show upper l.name = _ from hb]; simp)

theorem Loud.fin {l : Line} {r : List Line} (h : Loud (l :: r)) (hb : Ends l) : l.value = upper l.value := by
  have h1 := h.1 l (by simp) (by rw [show upper l.name = _ from hb]; simp)
  exact h.2 l (by simp) (by rw [h1, show upper l.name = _ from hb]; simp)

theorem Ends.not_begin {l : Line} (h : Ends l) : ¬ Begins l := by
  intro hb
  rw [Ends] at h
  rw [Begins, h] at hb
  revert hb
  decide

theorem skip_closed {body : List Line} (h : Closed body) : Loud body → ∀ (t : Term) (name : Str) (r : List Line),
    skip t name (body ++ r) = skip t name r := by
  induction h with
  | nil => intro _ t name r; rfl
  | line hb he _ ih =>
    intro hl t name r
    rw [List.cons_append, skip_cons, if_neg (show ¬ upper _ = kBEGIN from hb), if_neg (show ¬ upper _ = kEND from he)]
    exact ih (Loud.cons hl).2 t name r
  | @block b e k r0 hb he hv hk hr ih1 ih2 =>
    intro hl t name r
    have hl2 := (Loud.append hl).2
    have hlk := (Loud.cons (Loud.append hl).1).2
    have e1 : (b :: k ++ e :: r0) ++ r = b :: (k ++ (e :: (r0 ++ r))) := by simp
    rw [e1, skip_cons, if_pos (show upper _ = kBEGIN from hb), ih1 hlk, skip_cons, if_neg (show ¬ upper _ = kBEGIN from Ends.not_begin he),
      if_pos (show upper _ = kEND from he), if_pos (by rw [hv, ← Loud.begin (Loud.append hl).1 hb])]
    exact ih2 (Loud.cons hl2).2 t name r

/-! ## Sections -/

/-- The decoder reads a body and its END line only as `R` allows. -/
def SubSound (T : Tab κ) (sub : κ → List Line → Res (σ × List Line)) (R : κ → List Line → σ → Prop) : Prop :=
  ∀ x ∈ T.subs, ∀ ls y r, Keywords ls → sub x.2 ls = .ok (y, r) →
    ∃ body e, ls = body ++ e :: r ∧ Ends e ∧ upper e.value = x.1 ∧ Closed body ∧ R x.2 body y

/-- The decoder reads a body and its END line whenever `R` allows. -/
def SubComplete (T : Tab κ) (sub : κ → List Line → Res (σ × List Line)) (R : κ → List Line → σ → Prop) : Prop :=
  ∀ x ∈ T.subs, ∀ body e y, Loud (body ++ [e]) → R x.2 body y → Closed body → Ends e → e.value = x.1 →
    ∀ r, sub x.2 (body ++ e :: r) = .ok (y, r)

theorem Keywords.append {a b : List Line} (h : Keywords (a ++ b)) : Keywords a ∧ Keywords b :=
  ⟨fun l hl => h l (List.mem_append.2 (Or.inl hl)), fun l hl => h l (List.mem_append.2 (Or.inr hl))⟩

theorem Keywords.cons {l : Line} {b : List Line} (h : Keywords (l :: b)) : Keywords b := (Keywords.append (a := [l]) h).2

theorem Items.closed {k : List Line} {is : List Item} (h : Items k is) : Closed k := by
  induction h with
  | nil => exact .nil
  | line hb he _ ih => exact .line hb he ih
  | block hb he hv hk _ ih => exact .block hb he hv hk ih

theorem Sect.run_sound {E : Env} {T : Tab κ} (hw : T.Wf) {sub : κ → List Line → Res (σ × List Line)} {R : κ → List Line → σ → Prop} {t : Term}
    (hs : Suffix sub) (hsub : SubSound T sub R) : ∀ (n : Nat) (ls : List Line) (s s' : Sect σ) (r : List Line), ls.length ≤ n → Keywords ls → Sound T s →
      Sect.run E T sub t s ls = .ok (s', r) →
      ∃ k e is, ls = k ++ e :: r ∧ Ends e ∧ e.value = T.name ∧ Items k is ∧ Grows E T R is s s' := by
  intro n
  induction n with
  | zero =>
    intro ls s s' r hl _ _ h
    cases ls with
    | nil => cases h
    | cons => simp at hl
  | succ n ih =>
    intro ls s s' r hl hkw hso h
    cases ls with
    | nil => cases h
    | cons l ls =>
      simp only [List.length_cons] at hl
      have hkw1 := Keywords.cons hkw
      rw [Sect.run_cons hs] at h
      by_cases hb : Begins l
      · rcases Tab.kindOf_begin (T := T) hb with ⟨i, k, hk, hi⟩ | ⟨hk, hi⟩
        · rw [hk] at h
          obtain ⟨⟨y, r1⟩, h1, h2⟩ := Res.bind_eq_ok.1 h
          obtain ⟨body, e, rfl, he, hv, hc, hr⟩ := hsub _ (List.mem_of_getElem? hi) ls y r1 hkw1 h1
          obtain ⟨k2, e2, is, rfl, he2, hv2, hi2, hg2⟩ := ih r1 _ s' r (by simp at hl; omega) (Keywords.cons (Keywords.append hkw1).2)
            (addSub_sound hso i y) h2
          exact ⟨l :: body ++ e :: k2, e2, _, by simp, he2, hv2, .block hb he hv hc hi2, (Grows.sub hw hso hi).2 ⟨y, hr, hg2⟩⟩
        · rw [hk] at h
          obtain ⟨r1, h1, h2⟩ := Res.bind_eq_ok.1 h
          obtain ⟨body, e, rfl, he, hv, hc⟩ := skip_sound _ _ _ _ _ (Nat.le_refl _) h1
          obtain ⟨k2, e2, is, rfl, he2, hv2, hi2, hg2⟩ := ih r1 _ s' r (by simp at hl; omega) (Keywords.cons (Keywords.append hkw1).2) hso h2
          exact ⟨l :: body ++ e :: k2, e2, _, by simp, he2, hv2, .block hb he hv hc hi2, (Grows.unk hi).2 hg2⟩
      · by_cases he : Ends l
        · rw [Tab.kindOf_end hw he] at h
          dsimp only at h
          split at h
          · next hv =>
            cases h
            exact ⟨[], l, [], rfl, he, hv, .nil, (Grows.nil_iff hso).2 rfl⟩
          · cases h
        · rcases Tab.kindOf_line (T := T) hb he with ⟨i, f, hk, hf, hn⟩ | ⟨hk, hn⟩
          · rw [hk] at h
            obtain ⟨s1, h1, h2⟩ := Res.bind_eq_ok.1 h
            obtain ⟨k2, e2, is, rfl, he2, hv2, hi2, hg2⟩ := ih ls _ s' r (by omega) hkw1 (addProp_sound hso hf h1) h2
            exact ⟨l :: k2, e2, _, rfl, he2, hv2, .line hb he hi2, (Grows.prop hw hso hf hn).2 ⟨s1, h1, hg2⟩⟩
          · rw [hk] at h
            obtain ⟨k2, e2, is, rfl, he2, hv2, hi2, hg2⟩ := ih ls _ s' r (by omega) hkw1 hso h
            exact ⟨l :: k2, e2, _, rfl, he2, hv2, .line hb he hi2, (Grows.other hn).2 hg2⟩

theorem Sect.run_complete {E : Env} {T : Tab κ} (hw : T.Wf) {sub : κ → List Line → Res (σ × List Line)} {R : κ → List Line → σ → Prop} {t : Term}
    (hs : Suffix sub) (hsub : SubComplete T sub R) {k : List Line} {is : List Item} (hi : Items k is) : Loud k → ∀ (s s' : Sect σ), Sound T s →
      Grows E T R is s s' → ∀ (e : Line) (r : List Line), Ends e → e.value = T.name → Sect.run E T sub t s (k ++ e :: r) = .ok (s', r) := by
  induction hi with
  | nil =>
    intro _ s s' hso hg e r he hv
    rw [(Grows.nil_iff hso).1 hg, List.nil_append, Sect.run_cons hs, Tab.kindOf_end hw he]
    dsimp only
    rw [if_pos hv]
  | line hb he _ ih =>
    intro hl s s' hso hg e r he' hv
    rw [List.cons_append, Sect.run_cons hs]
    rcases Tab.kindOf_line (T := T) hb he with ⟨i, f, hk, hf, hn⟩ | ⟨hk, hn⟩
    · obtain ⟨s1, h1, h2⟩ := (Grows.prop hw hso hf hn).1 hg
      rw [hk]
      dsimp only
      rw [h1]
      exact ih (Loud.cons hl).2 s1 s' (addProp_sound hso hf h1) h2 e r he' hv
    · rw [hk]
      exact ih (Loud.cons hl).2 s s' hso ((Grows.other hn).1 hg) e r he' hv
  | @block b e0 body r0 is hb he hv0 hc _ ih =>
    intro hl s s' hso hg e r he' hv
    have hl2 := (Loud.cons (Loud.append hl).2)
    have hlb := Loud.cons (Loud.append hl).1
    have hbv := Loud.begin (Loud.append hl).1 hb
    have hev := Loud.fin (Loud.append hl).2 he
    have e1 : (b :: body ++ e0 :: r0) ++ e :: r = b :: (body ++ e0 :: (r0 ++ e :: r)) := by simp
    rw [e1, Sect.run_cons hs]
    rcases Tab.kindOf_begin (T := T) hb with ⟨i, k, hk, hi⟩ | ⟨hk, hi⟩
    · obtain ⟨x, hx, hg2⟩ := (Grows.sub hw hso hi).1 hg
      rw [hk]
      dsimp only
      have hlo : Loud (body ++ [e0]) := by
        have h3 : Loud ([b] ++ ((body ++ [e0]) ++ r0)) := by simpa using hl
        exact (Loud.append (Loud.append h3).2).1
      rw [hsub _ (List.mem_of_getElem? hi) body e0 x hlo hx hc he (by rw [hev, hv0])]
      exact ih hl2.2 _ s' (addSub_sound hso i x) hg2 e r he' hv
    · rw [hk]
      dsimp only
      rw [skip_closed hc hlb.2, skip_cons, if_neg (show ¬ upper _ = kBEGIN from Ends.not_begin he), if_pos (show upper _ = kEND from he), if_pos hv0]
      exact ih hl2.2 s s' hso ((Grows.unk hi).1 hg) e r he' hv

theorem start_sound (T : Tab κ) : Sound T (T.start σ) := by
  refine ⟨by simp [Tab.start], by simp [Tab.start], fun i f _ _ => ?_⟩
  simp only [Tab.start, List.getD_eq_getElem?_getD, List.getElem?_map]
  cases T.fields[i]? <;> simp

theorem start_fields (T : Tab κ) (i : Nat) : (T.start σ).fields.getD i [] = [] ∧ (T.start σ).subs.getD i [] = [] := by
  simp only [Tab.start, List.getD_eq_getElem?_getD, List.getElem?_map]
  constructor
  · cases T.fields[i]? <;> rfl
  · cases T.subs[i]? <;> rfl

theorem reqMet_iff : ∀ (fs : List SField) (vs : List (List PropVal)), fs.length = vs.length →
    (reqMet fs vs = true ↔ ∀ (i : Nat) (f : SField), fs[i]? = some f → f.mult = .req → vs.getD i [] ≠ []) := by
  intro fs
  induction fs with
  | nil => intro vs h; cases vs <;> simp_all [reqMet]
  | cons f fs ih =>
    intro vs h
    cases vs with
    | nil => simp at h
    | cons v vs =>
      simp only [reqMet, Bool.and_eq_true, ih vs (by simpa using h)]
      constructor
      · rintro ⟨h1, h2⟩ i g hg hm
        cases i with
        | zero =>
          simp at hg
          subst hg
          simpa [hm] using h1
        | succ i => simpa using h2 i g (by simpa using hg) hm
      · intro h1
        refine ⟨?_, fun i g hg hm => by simpa using h1 (i + 1) g (by simpa using hg) hm⟩
        have := h1 0 f rfl
        cases hm : f.mult <;> simp_all

/-- What it means for a section to be read: it grows from nothing, and the final checks are met. -/
theorem sectReads_iff {E : Env} {T : Tab κ} (hw : T.Wf) {R : κ → List Line → σ → Prop} {k : List Line} {s : Sect σ} :
    SectReads E T R k s ↔ ∃ is, Items k is ∧ Grows E T R is (T.start σ) s ∧ T.finish s = .ok () := by
  constructor
  · rintro ⟨is, hi, l1, l2, hf, hs, hr⟩
    have hst := start_sound (σ := σ) T
    refine ⟨is, hi, ⟨by rw [l1, hst.lenF], by rw [l2, hst.lenS], ?_, ?_⟩, (Tab.finish_ok T hw s l1.symm).2 ⟨?_, hr⟩⟩
    · intro i f h
      obtain ⟨h1, h2⟩ := hf i f h
      rw [(start_fields T i).1]
      refine ⟨_, rfl, h1, fun hm => ?_⟩
      unfold CountOk at h2
      cases hx : f.mult <;> simp_all
    · intro i x h
      rw [(start_fields T i).2]
      exact ⟨_, rfl, hs i x h⟩
    · rw [reqMet_iff _ _ l1.symm]
      intro i f h hm he
      obtain ⟨h1, h2⟩ := hf i f h
      have := Pairwise2.length h1
      rw [hm] at h2
      rw [he] at this
      simp [CountOk] at h2
      simp at this
      rw [this] at h2
      simp at h2
  · rintro ⟨is, hi, ⟨l1, l2, hf, hs⟩, hfin⟩
    have hst := start_sound (σ := σ) T
    have l1 := l1.trans hst.lenF
    have l2 := l2.trans hst.lenS
    obtain ⟨hreq, hrul⟩ := (Tab.finish_ok T hw s l1.symm).1 hfin
    refine ⟨is, hi, l1, l2, ?_, ?_, hrul⟩
    · intro i f h
      obtain ⟨vs, e, h1, h2⟩ := hf i f h
      rw [(start_fields T i).1, List.nil_append] at e
      rw [(start_fields T i).1] at h2
      subst e
      refine ⟨h1, ?_⟩
      unfold CountOk
      have hlen := Pairwise2.length h1
      cases hm : f.mult with
      | many => trivial
      | opt => simpa [hm] using h2 (by rw [hm]; decide)
      | req =>
        have a := h2 (by rw [hm]; decide)
        have b := (reqMet_iff _ _ l1.symm).1 hreq i f h hm
        dsimp only
        cases hx : s.fields.getD i [] with
        | nil => exact absurd hx b
        | cons v vs => rw [hx] at hlen; simp at hlen a; omega
    · intro i x h
      obtain ⟨vs, e, h1⟩ := hs i x h
      rw [(start_fields T i).2, List.nil_append] at e
      rw [e]
      exact h1

theorem Tab.decode_sound {E : Env} {T : Tab κ} (hw : T.Wf) {sub : κ → List Line → Res (σ × List Line)} {R : κ → List Line → σ → Prop} {t : Term}
    (hs : Suffix sub) (hsub : SubSound T sub R) {ls : List Line} {s : Sect σ} {r : List Line} (hkw : Keywords ls)
    (h : T.decode E sub t ls = .ok (s, r)) :
    ∃ k e, ls = k ++ e :: r ∧ Ends e ∧ e.value = T.name ∧ Closed k ∧ SectReads E T R k s := by
  obtain ⟨h1, h2⟩ := Tab.decode_ok.1 h
  obtain ⟨k, e, is, rfl, he, hv, hi, hg⟩ := Sect.run_sound hw hs hsub _ ls _ s r (Nat.le_refl _) hkw (start_sound T) h1
  exact ⟨k, e, rfl, he, hv, Items.closed hi, (sectReads_iff hw).2 ⟨is, hi, hg, h2⟩⟩

theorem Tab.decode_complete {E : Env} {T : Tab κ} (hw : T.Wf) {sub : κ → List Line → Res (σ × List Line)} {R : κ → List Line → σ → Prop} {t : Term}
    (hs : Suffix sub) (hsub : SubComplete T sub R) {k : List Line} {s : Sect σ} (hl : Loud k) (h : SectReads E T R k s) (e : Line) (r : List Line)
    (he : Ends e) (hv : e.value = T.name) : T.decode E sub t (k ++ e :: r) = .ok (s, r) := by
  obtain ⟨is, hi, hg, hf⟩ := (sectReads_iff hw).1 h
  exact Tab.decode_ok.2 ⟨Sect.run_complete hw hs hsub hi hl _ s (start_sound T) hg e r he hv, hf⟩

/-! ## Alarms -/

theorem ofAction_none {v : Str} : AKind.ofAction v = none ↔ ∀ b : AKind, v ≠ b.action := by
  constructor
  · intro h b hb
    subst hb
    cases b <;> exact absurd h (by decide)
  · intro h
    unfold AKind.ofAction
    have h1 := h .audio
    have h2 := h .display
    have h3 := h .email
    have h4 := h .uri
    have h5 := h .none
    simp only [AKind.action] at h1 h2 h3 h4 h5
    rw [if_neg h1, if_neg h2, if_neg h3, if_neg h4, if_neg h5]

theorem ofAction_some {v : Str} {y : AKind} : AKind.ofAction v = some y ↔ v = y.action := by
  constructor
  · intro h
    unfold AKind.ofAction at h
    split at h
    · next e => cases h; exact e
    · split at h
      · next e => cases h; exact e
      · split at h
        · next e => cases h; exact e
        · split at h
          · next e => cases h; exact e
          · split at h
            · next e => cases h; exact e
            · cases h
  · intro h
    subst h
    cases y <;> decide

theorem actions_cons (l : Line) (k : List Line) : actions (l :: k) = if upper l.name = c!"ACTION" then l.value :: actions k else actions k := by
  unfold actions
  by_cases h : upper l.name = c!"ACTION" <;> simp [h]

theorem alarmCollect_sound {t : Term} : ∀ (ls : List Line) (a x : Option AKind) (pt r : List Line), Keywords ls → alarmCollect t a ls = .ok (x, pt, r) →
    ∃ k e, pt = k ++ [e] ∧ Ends e ∧ (∀ l ∈ k, ¬ Begins l ∧ ¬ Ends l) ∧ ∀ y, x = some y →
      (a = some y ∧ actions k = []) ∨ (a = none ∧ ∃ us, actions k = us ++ [y.action] ∧ ∀ u ∈ us, ∀ b : AKind, u ≠ b.action) := by
  intro ls
  induction ls with
  | nil => intro a x pt r _ h; unfold alarmCollect at h; split at h <;> cases h
  | cons l ls ih =>
    intro a x pt r hk h
    have hkl := hk l (by simp)
    have hk1 := Keywords.cons hk
    unfold alarmCollect at h
    split at h
    · cases h
    · next hb =>
      have hnb : ¬ Begins l := fun h => hb ((hkl (by rw [show upper l.name = _ from h]; decide)).trans h)
      split at h
      · next ha =>
        have hne : ¬ Ends l := by unfold Ends; rw [ha]; decide
        have hua : upper l.name = c!"ACTION" := by rw [ha]; decide
        split at h
        · cases h
        · next hn =>
          obtain ⟨⟨x1, p1, r1⟩, h1, h2⟩ := Res.bind_eq_ok.1 h
          cases h2
          obtain ⟨k, e, rfl, he, hc, hy⟩ := ih _ _ _ _ hk1 h1
          refine ⟨l :: k, e, rfl, he, by simpa [hnb, hne] using hc, fun y hx => Or.inr ⟨by simpa using hn, ?_⟩⟩
          rw [actions_cons, if_pos hua]
          rcases hy y hx with ⟨h3, h4⟩ | ⟨h3, us, h4, h5⟩
          · exact ⟨[], by rw [h4, ofAction_some.1 h3]; rfl, by simp⟩
          · exact ⟨l.value :: us, by rw [h4]; rfl, by simpa using ⟨ofAction_none.1 h3, h5⟩⟩
      · next ha =>
        have hua : ¬ upper l.name = c!"ACTION" := fun h => ha ((hkl (by rw [h]; decide)).trans h)
        split at h
        · next he =>
          cases h
          exact ⟨[], l, rfl, by unfold Ends; rw [he]; decide, by simp, fun y hx => by cases a <;> simp_all [actions]⟩
        · next he =>
          have hne : ¬ Ends l := fun h => he ((hkl (by rw [show upper l.name = _ from h]; decide)).trans h)
          obtain ⟨⟨x1, p1, r1⟩, h1, h2⟩ := Res.bind_eq_ok.1 h
          cases h2
          obtain ⟨k, e, rfl, he, hc, hy⟩ := ih _ _ _ _ hk1 h1
          refine ⟨l :: k, e, rfl, he, by simpa [hnb, hne] using hc, fun y hx => ?_⟩
          rw [actions_cons, if_neg hua]
          exact hy y hx

theorem alarmCollect_complete {t : Term} {e : Line} (he : e.name = kEND) (y : AKind) (r : List Line) : ∀ (k : List Line) (a : Option AKind), Keywords k →
    (∀ l ∈ k, ¬ Begins l ∧ ¬ Ends l) →
    (a = some y ∧ actions k = []) ∨ (a = none ∧ ∃ us, actions k = us ++ [y.action] ∧ ∀ u ∈ us, ∀ b : AKind, u ≠ b.action) →
    alarmCollect t a (k ++ e :: r) = .ok (some y, k ++ [e], r) := by
  intro k
  induction k with
  | nil =>
    intro a _ _ h
    rcases h with ⟨rfl, _⟩ | ⟨_, us, h, _⟩
    · rw [List.nil_append, alarmCollect, he, if_neg (by decide), if_neg (by decide), if_pos rfl]
      rfl
    · simp [actions] at h
  | cons l k ih =>
    intro a hk hc h
    have hkl := hk l (by simp)
    have hk1 := Keywords.cons hk
    obtain ⟨hb, hn⟩ := hc l (by simp)
    have hc1 : ∀ l ∈ k, ¬ Begins l ∧ ¬ Ends l := fun x hx => hc x (by simp [hx])
    have hb' : ¬ l.name = kBEGIN := fun h => hb (by unfold Begins; rw [h]; decide)
    have hn' : ¬ l.name = kEND := fun h => hn (by unfold Ends; rw [h]; decide)
    rw [List.cons_append, alarmCollect, if_neg hb']
    rw [actions_cons] at h
    by_cases hu : upper l.name = c!"ACTION"
    · have ha : l.name = kACTION := (hkl (by rw [hu]; decide)).trans hu
      rw [if_pos hu] at h
      rw [if_pos ha]
      rcases h with ⟨_, h⟩ | ⟨rfl, us, h, hu'⟩
      · cases h
      · rw [if_neg (by simp), ih (AKind.ofAction l.value) hk1 hc1]
        · rfl
        · cases us with
          | nil =>
            simp only [List.nil_append, List.cons.injEq] at h
            exact Or.inl ⟨ofAction_some.2 h.1, h.2⟩
          | cons u us =>
            simp only [List.cons_append, List.cons.injEq] at h
            refine Or.inr ⟨ofAction_none.2 (by rw [h.1]; exact hu' u (by simp)), us, h.2, fun x hx => hu' x (by simp [hx])⟩
    · have ha : ¬ l.name = kACTION := fun h => hu (by rw [h]; decide)
      rw [if_neg hu] at h
      rw [if_neg ha, if_neg hn', ih a hk1 hc1 h]
      rfl

theorem closed_of_flat : ∀ {k : List Line}, (∀ l ∈ k, ¬ Begins l ∧ ¬ Ends l) → Closed k := by
  intro k
  induction k with
  | nil => intro _; exact .nil
  | cons l k ih => intro h; exact .line (h l (by simp)).1 (h l (by simp)).2 (ih fun x hx => h x (by simp [hx]))

theorem split_unique {P : Line → Prop} : ∀ {k k' : List Line} {e e' : Line} {r r' : List Line}, k ++ e :: r = k' ++ e' :: r' → (∀ l ∈ k, ¬ P l) → P e →
    (∀ l ∈ k', ¬ P l) → P e' → k = k' ∧ e = e' ∧ r = r' := by
  intro k
  induction k with
  | nil =>
    intro k' e e' r r' h _ he hk' _
    cases k' with
    | nil => simpa using h
    | cons l k' =>
      simp only [List.nil_append, List.cons_append, List.cons.injEq] at h
      exact absurd (h.1 ▸ he) (hk' l (by simp))
  | cons l k ih =>
    intro k' e e' r r' h hk he hk' he'
    cases k' with
    | nil =>
      simp only [List.nil_append, List.cons_append, List.cons.injEq] at h
      exact absurd (h.1 ▸ he') (hk l (by simp))
    | cons l' k' =>
      simp only [List.cons_append, List.cons.injEq] at h
      obtain ⟨h1, h2, h3⟩ := ih h.2 (fun x hx => hk x (by simp [hx])) he (fun x hx => hk' x (by simp [hx])) he'
      exact ⟨by rw [h.1, h1], h2, h3⟩

/-- Without a BEGIN line a closed body has no END line. -/
theorem Closed.flat {k : List Line} (h : Closed k) : (∀ l ∈ k, ¬ Begins l) → ∀ l ∈ k, ¬ Ends l := by
  induction h with
  | nil => simp
  | line hb he _ ih =>
    intro h l hl
    rcases List.mem_cons.1 hl with rfl | hl
    · exact he
    · exact ih (fun x hx => h x (by simp [hx])) l hl
  | block hb => intro h; exact absurd hb (h _ (by simp))

theorem noSub_sound {T : Tab Empty} {R : Empty → List Line → Empty → Prop} : SubSound T noSub R := fun x => nomatch x.2

theorem noSub_complete {T : Tab Empty} {R : Empty → List Line → Empty → Prop} : SubComplete T noSub R := fun x => nomatch x.2

theorem nameOk_up {n : Str} (h : nameOk n = true) : upper n = n := by
  unfold nameOk at h
  simp_all

/-! ## Components and calendars -/

theorem subDecode_sound {E : Env} {t : Term} {x : Str × Tab SubKind} (hx : x ∈ tabCalendar.subs) : SubSound x.2 (subDecode E t) (SubReads E) := by
  rintro ⟨n, k⟩ hy ls y r hkw h
  have hn := nameOk_up ((compTab_good x hx).1.subNames _ hy)
  have hg := (compTab_good x hx).2.2 _ hy
  dsimp only at hn
  cases k with
  | leaf T =>
    obtain ⟨hw, hT⟩ := hg
    dsimp only at hw hT
    simp only [subDecode] at h
    obtain ⟨⟨s, r1⟩, h1, h2⟩ := Res.bind_eq_ok.1 h
    cases h2
    obtain ⟨k, e, rfl, he, hv, hc, hr⟩ := Tab.decode_sound hw noSub_suffix noSub_sound hkw h1
    exact ⟨k, e, rfl, he, by rw [hv, hT.1, hn], hc, hr⟩
  | alarm =>
    have hT : n = kVALARM := hg
    subst hT
    simp only [subDecode, alarmDecode] at h
    obtain ⟨⟨a, pt, r1⟩, h1, h2⟩ := Res.bind_eq_ok.1 h
    cases a with
    | none => cases h2
    | some a =>
      obtain ⟨⟨s, r2⟩, h3, h4⟩ := Res.bind_eq_ok.1 h2
      cases h4
      obtain ⟨k, e, rfl, he, hf, hy⟩ := alarmCollect_sound _ _ _ _ _ hkw h1
      have e1 := alarmCollect_ok h1
      subst e1
      obtain ⟨k', e', e2, he', hv', hc', hr'⟩ := Tab.decode_sound (aTab_wf a) noSub_suffix (noSub_sound (R := fun x => nomatch x)) (Keywords.append hkw).1 h3
      have hb' : ∀ l ∈ k', ¬ Ends l := by
        refine Closed.flat hc' fun l hl => ?_
        have hm : l ∈ k ++ [e] := by rw [e2]; simp [hl]
        simp only [List.mem_append, List.mem_singleton] at hm
        rcases hm with hm | rfl
        · exact (hf l hm).1
        · exact Ends.not_begin he
      obtain ⟨rfl, rfl, rfl⟩ := split_unique (P := Ends) e2 (fun l hl => (hf l hl).2) he hb' he'
      refine ⟨k, e, by simp, he, by rw [hv', (aTab_name a).1, hn], hc', hf, ?_, hr'⟩
      rcases hy a rfl with ⟨h, _⟩ | ⟨_, h⟩
      · cases h
      · exact h

theorem subDecode_complete {E : Env} {t : Term} {x : Str × Tab SubKind} (hx : x ∈ tabCalendar.subs) :
    SubComplete x.2 (subDecode E t) (SubReads E) := by
  rintro ⟨n, k⟩ hy body e y hl hr hc he hv r
  have hg := (compTab_good x hx).2.2 _ hy
  dsimp only at hv hr
  cases k with
  | leaf T =>
    obtain ⟨hw, hT⟩ := hg
    dsimp only at hw hT
    cases y with
    | alarm => exact absurd hr (by simp [SubReads])
    | leaf s =>
      simp only [subDecode]
      rw [Tab.decode_complete hw noSub_suffix noSub_complete (Loud.append hl).1 hr e r he (by rw [hv, hT.1])]
      rfl
  | alarm =>
    have hT : n = kVALARM := hg
    subst hT
    cases y with
    | leaf => exact absurd hr (by simp [SubReads])
    | alarm o =>
      cases o with
      | none => exact absurd hr (by simp [SubReads])
      | some o =>
        obtain ⟨a, s⟩ := o
        obtain ⟨hf, ha, hs⟩ := hr
        have hen : e.name = kEND := (hl.1 e (by simp) (by rw [show upper e.name = _ from he]; decide)).trans he
        simp only [subDecode, alarmDecode]
        rw [alarmCollect_complete hen a r body none (Loud.append hl).1.1 hf (Or.inr ⟨rfl, ha⟩)]
        simp only [Res.ok_bind]
        rw [Tab.decode_complete (aTab_wf a) noSub_suffix noSub_complete (Loud.append hl).1 hs e [] he (by rw [hv, (aTab_name a).1])]
        rfl

theorem compDecode_sound {E : Env} {t : Term} : SubSound tabCalendar (compDecode E t) (CompReads E) := by
  intro x hx ls y r hkw h
  obtain ⟨hw, hn, _⟩ := compTab_good x hx
  obtain ⟨k, e, rfl, he, hv, hc, hr⟩ := Tab.decode_sound hw (subDecode_suffix E t) (subDecode_sound hx) hkw h
  exact ⟨k, e, rfl, he, by rw [hv, nameOk_up hw.name, hn], hc, hr⟩

theorem compDecode_complete {E : Env} {t : Term} : SubComplete tabCalendar (compDecode E t) (CompReads E) := by
  intro x hx body e y hl hr hc he hv r
  obtain ⟨hw, hn, _⟩ := compTab_good x hx
  exact Tab.decode_complete hw (subDecode_suffix E t) (subDecode_complete hx) (Loud.append hl).1 hr e r he (by rw [hv, hn])

/-- An accepted document begins with a calendar object, and is read as the specification says; what is behind does not matter. -/
theorem decodeStream_sound {E : Env} {st : Stream} {c : Cal} (hkw : Keywords st.lines) (h : decodeStream E st = .ok c) :
    ∃ pre rest, st.lines = pre ++ rest ∧ DocReads E pre c := by
  unfold decodeStream at h
  split at h
  · cases h
  · next l ls hl =>
    split at h
    · next hb =>
      obtain ⟨⟨c1, r⟩, h1, h2⟩ := Res.bind_eq_ok.1 h
      cases h2
      rw [hl] at hkw
      obtain ⟨k, e, rfl, he, hv, _, hr⟩ := Tab.decode_sound calTab_wf (compDecode_suffix E _) compDecode_sound (Keywords.cons hkw) h1
      exact ⟨l :: k ++ [e], r, by rw [hl]; simp, l, k, e, rfl, hb.1, hb.2, he, hv, hr⟩
    · cases h

/-- The same where only the lines up to the end of the calendar object have their keywords in upper case. -/
theorem decodeStream_sound' {E : Env} {st : Stream} {c : Cal} (h : decodeStream E st = .ok c) :
    ∃ pre rest, st.lines = pre ++ rest ∧ (∀ t' r', decodeStream E ⟨pre ++ r', t'⟩ = .ok c) ∧ (Keywords pre → DocReads E pre c) := by
  unfold decodeStream at h
  split at h
  · cases h
  · next l ls hl =>
    split at h
    · next hb =>
      obtain ⟨⟨c1, r⟩, h1, h2⟩ := Res.bind_eq_ok.1 h
      cases h2
      obtain ⟨p, e, g⟩ := Tab.decode_local (compDecode_suffix E) (compDecode_local E) _ _ _ _ h1
      refine ⟨l :: p, r, by rw [hl, e]; rfl, fun t' r' => ?_, fun hkw => ?_⟩
      · unfold decodeStream
        simp only [List.cons_append]
        rw [if_pos hb, show tabCalendar.decode E (compDecode E t') t' (p ++ r') = _ from g t' r']
        rfl
      · have g0 := g .done []
        rw [List.append_nil] at g0
        obtain ⟨k, e, e2, he, hv, _, hr⟩ := Tab.decode_sound calTab_wf (compDecode_suffix E _) compDecode_sound (Keywords.cons hkw) g0
        exact ⟨l, k, e, by rw [e2]; rfl, hb.1, hb.2, he, hv, hr⟩
    · cases h

theorem decodeStream_complete {E : Env} {pre : List Line} {c : Cal} (hl : Loud pre) (h : DocReads E pre c) (r : List Line) (t : Term) :
    decodeStream E ⟨pre ++ r, t⟩ = .ok c := by
  obtain ⟨b, k, e, rfl, hb, hbv, he, hev, hs⟩ := h
  unfold decodeStream
  simp only [List.cons_append, List.append_assoc, List.nil_append]
  rw [if_pos ⟨show upper _ = kBEGIN from hb, hbv⟩,
    Tab.decode_complete calTab_wf (compDecode_suffix E t) compDecode_complete (Loud.cons (Loud.append hl).1).2 hs e r he hev]
  rfl

end Ics
