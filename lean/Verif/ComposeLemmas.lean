import Verif.Spec.Compose
import Verif.DecodedLemmas
/-!
# Lemmas: calendars put together from components
-/

namespace Ics

open Spec

variable {α β : Type}

theorem Spec.Items.append {a b : List Line} {i j : List Item} (h : Items a i) (h' : Items b j) : Items (a ++ b) (i ++ j) := by
  induction h with
  | nil => exact h'
  | line hb he _ ih => exact .line hb he ih
  | block hb he hv hc _ ih =>
    simp only [List.cons_append, List.append_assoc]
    exact Items.block hb he hv hc ih

theorem linesNamed_append (i j : List Item) (n : Str) : linesNamed (i ++ j) n = linesNamed i n ++ linesNamed j n := List.filterMap_append
theorem blocksNamed_append (i j : List Item) (n : Str) : blocksNamed (i ++ j) n = blocksNamed i n ++ blocksNamed j n := List.filterMap_append

theorem linesNamed_blocks {i : List Item} (h : OnlyBlocks i) (n : Str) : linesNamed i n = [] := by
  unfold linesNamed
  rw [List.filterMap_eq_nil_iff]
  intro x hx
  obtain ⟨m, k, rfl⟩ := h x hx
  rfl

theorem Spec.Pairwise2.append {R : α → β → Prop} {a : List α} {b : List β} {a' : List α} {b' : List β} (h : Pairwise2 R a b) (h' : Pairwise2 R a' b') :
    Pairwise2 R (a ++ a') (b ++ b') := by
  induction h with
  | nil => exact h'
  | cons h1 _ ih => exact .cons h1 ih

theorem Spec.Pairwise2.split {R : α → β → Prop} : ∀ {a a' : List α} {c : List β}, Pairwise2 R (a ++ a') c →
    Pairwise2 R a (c.take a.length) ∧ Pairwise2 R a' (c.drop a.length) := by
  intro a
  induction a with
  | nil => intro a' c h; simpa using ⟨Pairwise2.nil, h⟩
  | cons x a ih =>
    intro a' c h
    cases h with
    | cons h1 h2 =>
      obtain ⟨h3, h4⟩ := ih h2
      exact ⟨.cons h1 h3, h4⟩

/-- The lines of a calendar object with complete lines. -/
theorem calText_stream {E : Env} {k : List Line} (ho : ∀ l ∈ k, LineOk l) :
    decodeDoc E (calText k) = decodeStream E ⟨⟨c!"BEGIN", [], c!"VCALENDAR"⟩ :: k ++ [⟨c!"END", [], c!"VCALENDAR"⟩], .done⟩ := by
  have hb : LineOk ⟨c!"BEGIN", [], c!"VCALENDAR"⟩ := (tokenise_front (s := c!"BEGIN:VCALENDAR\r\n") (pre := [⟨c!"BEGIN", [], c!"VCALENDAR"⟩]) (r := []) (by decide +kernel)).1 _ (by simp)
  have he : LineOk ⟨c!"END", [], c!"VCALENDAR"⟩ := (tokenise_front (s := c!"END:VCALENDAR\r\n") (pre := [⟨c!"END", [], c!"VCALENDAR"⟩]) (r := []) (by decide +kernel)).1 _ (by simp)
  have h0 := tokenise_prints (⟨c!"BEGIN", [], c!"VCALENDAR"⟩ :: k ++ [⟨c!"END", [], c!"VCALENDAR"⟩]) (by
    intro l h
    simp only [List.cons_append, List.mem_cons, List.mem_append, List.not_mem_nil, or_false] at h
    rcases h with rfl | h | rfl
    · exact hb
    · exact ho l h
    · exact he) []
  rw [tokenise_nil, List.append_nil, List.append_nil] at h0
  unfold decodeDoc
  rw [← h0]
  congr 2
  unfold calText
  simp only [List.cons_append, List.flatMap_cons, List.flatMap_append, List.flatMap_nil, List.append_nil, List.append_assoc]
  rfl

/-- What a calendar object with complete lines is decoded to. -/
theorem calText_reads {E : Env} {k : List Line} {is : List Item} (hi : Items k is) (hl : Loud k) (ho : ∀ l ∈ k, LineOk l) (c : Cal) :
    decodeDoc E (calText k) = .ok c ↔ SectReads E tabCalendar (CompReads E) k c := by
  have hloud : Loud (⟨c!"BEGIN", [], c!"VCALENDAR"⟩ :: k ++ [⟨c!"END", [], c!"VCALENDAR"⟩]) := by
    have h1 : Loud [⟨c!"BEGIN", [], c!"VCALENDAR"⟩] := by decide
    have h2 : Loud [⟨c!"END", [], c!"VCALENDAR"⟩] := by decide
    refine ⟨fun l h => ?_, fun l h => ?_⟩ <;>
    · simp only [List.cons_append, List.mem_cons, List.mem_append, List.not_mem_nil, or_false] at h
      rcases h with rfl | h | rfl
      · first | exact h1.1 _ (by simp) | exact h1.2 _ (by simp)
      · first | exact hl.1 l h | exact hl.2 l h
      · first | exact h2.1 _ (by simp) | exact h2.2 _ (by simp)
  rw [calText_stream ho]
  constructor
  · intro h
    obtain ⟨pre, rest, h1, b, k', e', rfl, hb', hbv, he', hev, hs⟩ := decodeStream_sound hloud.1 h
    simp only [List.cons_append, List.append_assoc, List.cons.injEq] at h1
    obtain ⟨is', hi', _⟩ := id hs
    obtain ⟨h3, _, _⟩ := Closed.split (Items.closed hi) (Items.closed hi') (by decide) he' h1.2
    rw [h3]
    exact hs
  · intro h
    have := decodeStream_complete hloud ⟨_, k, _, rfl, by decide, by decide, by decide, by decide, h⟩ [] .done
    rwa [List.append_nil] at this

theorem rules_nil (c : Cal) : SectRules tabCalendar c := by
  intro r hr
  cases hr

theorem addComponents_subs (c d : Cal) (pos : Str → Nat) {i : Nat} {x : Str × Tab SubKind} (hx : tabCalendar.subs[i]? = some x) :
    (addComponents c d pos).subs.getD i [] = (c.subs.getD i []).take (pos x.1) ++ d.subs.getD i [] ++ (c.subs.getD i []).drop (pos x.1) := by
  have hi : i < tabCalendar.subs.length := (List.getElem?_eq_some_iff.1 hx).1
  have hg : tabCalendar.subs.getD i ([], tabEvent) = x := by rw [List.getD_eq_getElem?_getD, hx]; rfl
  unfold addComponents
  simp only
  rw [List.getD_eq_getElem?_getD, List.getElem?_map, List.getElem?_range hi]
  simp only [Option.map_some, Option.getD_some, hg]

/-- The lines every calendar needs are read, in a calendar with blocks only behind them. -/
theorem headLines_items : Items headLines [.line ⟨c!"VERSION", [], c!"2.0"⟩, .line ⟨c!"PRODID", [], c!"-"⟩] :=
  .line (by decide) (by decide) (.line (by decide) (by decide) .nil)

theorem headFields (E : Env) : ∃ vs : List (List PropVal), vs.length = tabCalendar.fields.length ∧ ∀ (ik : List Item), OnlyBlocks ik → ∀ (i : Nat) (f : SField), tabCalendar.fields[i]? = some f →
      Pairwise2 (fun l p => f.spec.decode E l.params l.value = .ok p) (linesNamed ([.line ⟨c!"VERSION", [], c!"2.0"⟩, .line ⟨c!"PRODID", [], c!"-"⟩] ++ ik) f.key) (vs.getD i []) ∧
      CountOk f.mult (linesNamed ([.line ⟨c!"VERSION", [], c!"2.0"⟩, .line ⟨c!"PRODID", [], c!"-"⟩] ++ ik) f.key).length := by
  obtain ⟨p, hp⟩ : ∃ p, propVersion.decode E [] c!"2.0" = .ok p := ⟨_, rfl⟩
  obtain ⟨q, hq⟩ : ∃ p, propProductID.decode E [] c!"-" = .ok p := ⟨_, rfl⟩
  refine ⟨[[p], [q]], rfl, fun ik hik i f hf => ?_⟩
  rw [linesNamed_append, linesNamed_blocks hik, List.append_nil]
  match i, hf with
  | 0, hf => cases hf; exact ⟨.cons hp .nil, rfl⟩
  | 1, hf => cases hf; exact ⟨.cons hq .nil, rfl⟩

theorem insert_reads {E : Env} {a k b : List Line} {i1 ik i2 : List Item} (ha : Items a i1) (hk : Items k ik) (hb : Items b i2) (hik : OnlyBlocks ik) (c' : Cal) :
    SectReads E tabCalendar (CompReads E) (a ++ k ++ b) c' ↔ ∃ c d, SectReads E tabCalendar (CompReads E) (a ++ b) c ∧
      SectReads E tabCalendar (CompReads E) (headLines ++ k) d ∧ c' = addComponents c d fun n => (blocksNamed i1 n).length := by
  have hi := (ha.append hk).append hb
  have hj := ha.append hb
  have hh := headLines_items.append hk
  have hlines : ∀ n, linesNamed (i1 ++ ik ++ i2) n = linesNamed (i1 ++ i2) n := by
    intro n
    rw [linesNamed_append, linesNamed_append, linesNamed_append, linesNamed_blocks hik, List.append_nil]
  constructor
  · rintro ⟨is, h0, h1, h2, h3, h4, h5⟩
    obtain rfl := Items.unique hi h0
    obtain ⟨vs, hv1, hv2⟩ := headFields E
    let n1 : Nat → Nat := fun i => (blocksNamed i1 (tabCalendar.subs.getD i ([], tabEvent)).1).length
    let n2 : Nat → Nat := fun i => (blocksNamed ik (tabCalendar.subs.getD i ([], tabEvent)).1).length
    let cs : List (List Comp) := (List.range tabCalendar.subs.length).map fun i => (c'.subs.getD i []).take (n1 i) ++ (c'.subs.getD i []).drop (n1 i + n2 i)
    let ds : List (List Comp) := (List.range tabCalendar.subs.length).map fun i => ((c'.subs.getD i []).drop (n1 i)).take (n2 i)
    have hcs : ∀ i x, tabCalendar.subs[i]? = some x → cs.getD i [] = (c'.subs.getD i []).take (blocksNamed i1 x.1).length ++ (c'.subs.getD i []).drop ((blocksNamed i1 x.1).length + (blocksNamed ik x.1).length) ∧
        ds.getD i [] = ((c'.subs.getD i []).drop (blocksNamed i1 x.1).length).take (blocksNamed ik x.1).length := by
      intro i x hx
      have hi : i < tabCalendar.subs.length := (List.getElem?_eq_some_iff.1 hx).1
      have hg : tabCalendar.subs.getD i ([], tabEvent) = x := by rw [List.getD_eq_getElem?_getD, hx]; rfl
      constructor
      · show (List.map _ _).getD i [] = _
        rw [List.getD_eq_getElem?_getD, List.getElem?_map, List.getElem?_range hi]
        simp only [Option.map_some, Option.getD_some, n1, n2, hg]
      · show (List.map _ _).getD i [] = _
        rw [List.getD_eq_getElem?_getD, List.getElem?_map, List.getElem?_range hi]
        simp only [Option.map_some, Option.getD_some, n1, n2, hg]
    have hparts : ∀ i x, tabCalendar.subs[i]? = some x → Pairwise2 (CompReads E x.2) (blocksNamed i1 x.1) ((c'.subs.getD i []).take (blocksNamed i1 x.1).length) ∧
        Pairwise2 (CompReads E x.2) (blocksNamed ik x.1) (((c'.subs.getD i []).drop (blocksNamed i1 x.1).length).take (blocksNamed ik x.1).length) ∧
        Pairwise2 (CompReads E x.2) (blocksNamed i2 x.1) ((c'.subs.getD i []).drop ((blocksNamed i1 x.1).length + (blocksNamed ik x.1).length)) := by
      intro i x hx
      have := h4 i x hx
      rw [blocksNamed_append, blocksNamed_append, List.append_assoc] at this
      obtain ⟨g1, g2⟩ := this.split
      obtain ⟨g3, g4⟩ := g2.split
      rw [List.drop_drop] at g4
      exact ⟨g1, g3, g4⟩
    refine ⟨⟨c'.fields, cs⟩, ⟨vs, ds⟩, ⟨_, hj, h1, by simp [cs], ?_, ?_, rules_nil _⟩, ⟨_, hh, hv1, by simp [ds], hv2 _ hik, ?_, rules_nil _⟩, ?_⟩
    · intro i f hf
      rw [← hlines]
      exact h3 i f hf
    · intro i x hx
      rw [(hcs i x hx).1, blocksNamed_append]
      exact (hparts i x hx).1.append (hparts i x hx).2.2
    · intro i x hx
      rw [(hcs i x hx).2, blocksNamed_append]
      exact (hparts i x hx).2.1
    · have hc' : c'.subs = (addComponents ⟨c'.fields, cs⟩ ⟨vs, ds⟩ fun n => (blocksNamed i1 n).length).subs := by
        apply getD_ext
        · rw [h2]; simp [addComponents]
        · intro i hi
          rw [h2] at hi
          obtain ⟨x, hx⟩ : ∃ x, tabCalendar.subs[i]? = some x := ⟨_, List.getElem?_eq_getElem hi⟩
          rw [addComponents_subs _ _ _ hx]
          simp only
          rw [(hcs i x hx).1, (hcs i x hx).2]
          obtain ⟨p1, p2, p3⟩ := hparts i x hx
          have l1 := Pairwise2.length p1
          rw [List.take_append_of_le_length (by rw [← l1]; exact Nat.le_refl _), List.take_take, Nat.min_self, List.drop_append_of_le_length (by rw [← l1]; exact Nat.le_refl _),
            List.drop_eq_nil_of_le (as := List.take _ _) (by rw [← l1]; exact Nat.le_refl _), List.nil_append, ← List.drop_drop, List.append_assoc, List.take_append_drop, List.take_append_drop]
      cases c'
      simp only [addComponents] at hc' ⊢
      rw [Sect.mk.injEq]
      exact ⟨rfl, hc'⟩
  · rintro ⟨c, d, ⟨is, h0, h1, h2, h3, h4, h5⟩, ⟨is', h0', h1', h2', h3', h4', h5'⟩, rfl⟩
    obtain rfl := Items.unique hj h0
    obtain rfl := Items.unique hh h0'
    refine ⟨_, hi, h1, by simp [addComponents], ?_, ?_, rules_nil _⟩
    · intro i f hf
      rw [hlines]
      exact h3 i f hf
    · intro i x hx
      rw [addComponents_subs _ _ _ hx, blocksNamed_append, blocksNamed_append]
      have := h4 i x hx
      rw [blocksNamed_append] at this
      obtain ⟨g1, g2⟩ := this.split
      exact (g1.append (h4' i x hx)).append g2

end Ics
