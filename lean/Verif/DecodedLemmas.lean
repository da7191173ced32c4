import Verif.StructureLemmas
/-!
# Lemmas: what holds for every decoded section; statements about each component; text and lines
-/

namespace Ics

open Spec

variable {κ σ α β : Type}

/-! ## Invariants of the decoding loop -/

/-- Every property has `P`, every subsection `Q`. -/
structure SectAll (P : SField → PropVal → Prop) (Q : κ → σ → Prop) (T : Tab κ) (s : Sect σ) : Prop where
  lenF : s.fields.length = T.fields.length
  lenS : s.subs.length = T.subs.length
  field : ∀ (i : Nat) (f : SField), T.fields[i]? = some f → ∀ p ∈ s.fields.getD i [], P f p
  sub : ∀ (i : Nat) (x : Str × κ), T.subs[i]? = some x → ∀ y ∈ s.subs.getD i [], Q x.2 y

theorem start_all {P : SField → PropVal → Prop} {Q : κ → σ → Prop} (T : Tab κ) : SectAll P Q T (T.start σ) := by
  refine ⟨by simp [Tab.start], by simp [Tab.start], fun i f _ => ?_, fun i x _ => ?_⟩
  · rw [(start_fields T i).1]; simp
  · rw [(start_fields T i).2]; simp

theorem addSub_all {P : SField → PropVal → Prop} {Q : κ → σ → Prop} {T : Tab κ} {s : Sect σ} (h : SectAll P Q T s) {i : Nat} {x : Str × κ} {y : σ}
    (hi : T.subs[i]? = some x) (hy : Q x.2 y) : SectAll P Q T (s.addSub i y) := by
  refine ⟨h.lenF, by simp [Sect.addSub, h.lenS], h.field, fun j z hz w hw => ?_⟩
  simp only [Sect.addSub] at hw
  have hlt : i < s.subs.length := by rw [h.lenS]; exact (List.getElem?_eq_some_iff.1 hi).1
  rw [getD_modify _ _ _ _ hlt] at hw
  split at hw
  · next hij =>
    subst hij
    rcases List.mem_append.1 hw with hw | hw
    · exact h.sub _ z hz w hw
    · rw [hi] at hz
      cases hz
      rw [List.mem_singleton.1 hw]
      exact hy
  · exact h.sub j z hz w (by simpa using hw)

theorem addProp_all {E : Env} {L : Line → Prop} {P : SField → PropVal → Prop} {Q : κ → σ → Prop} {T : Tab κ} {s s' : Sect σ} (h : SectAll P Q T s) {i : Nat} {f : SField}
    {l : Line} (hP : ∀ f ∈ T.fields, ∀ l p, L l → f.spec.decode E l.params l.value = .ok p → P f p) (hi : T.fields[i]? = some f)
    (hl : L l) (ha : s.addProp E i f l = .ok s') : SectAll P Q T s' := by
  unfold Sect.addProp at ha
  split at ha
  · cases ha
  · obtain ⟨v, h1, h2⟩ := Res.bind_eq_ok.1 ha
    cases h2
    refine ⟨by simp [h.lenF], h.lenS, fun j g hg w hw => ?_, h.sub⟩
    simp only at hw
    have hlt : i < s.fields.length := by rw [h.lenF]; exact (List.getElem?_eq_some_iff.1 hi).1
    rw [getD_modify _ _ _ _ hlt] at hw
    split at hw
    · next hij =>
      subst hij
      rcases List.mem_append.1 hw with hw | hw
      · exact h.field _ g hg w hw
      · rw [hi] at hg
        cases hg
        rw [List.mem_singleton.1 hw]
        exact hP _ (List.mem_of_getElem? hi) _ _ hl h1
    · exact h.field j g hg w (by simpa using hw)

theorem Sect.run_all {E : Env} {T : Tab κ} {sub : κ → List Line → Res (σ × List Line)} {t : Term} {L : Line → Prop} {P : SField → PropVal → Prop} {Q : κ → σ → Prop}
    (hs : Suffix sub) (hP : ∀ f ∈ T.fields, ∀ l p, L l → f.spec.decode E l.params l.value = .ok p → P f p)
    (hQ : ∀ x ∈ T.subs, ∀ ls y r, (∀ l ∈ ls, L l) → sub x.2 ls = .ok (y, r) → Q x.2 y) : ∀ (n : Nat) (ls : List Line) (s s' : Sect σ) (r : List Line),
      ls.length ≤ n → (∀ l ∈ ls, L l) → SectAll P Q T s → Sound T s → Sect.run E T sub t s ls = .ok (s', r) → SectAll P Q T s' ∧ Sound T s' := by
  intro n
  induction n with
  | zero =>
    intro ls s s' r hl _ _ _ h
    cases ls with
    | nil => cases h
    | cons => simp at hl
  | succ n ih =>
    intro ls s s' r hl hL ha hso h
    cases ls with
    | nil => cases h
    | cons l ls =>
      simp only [List.length_cons] at hl
      have hL' : ∀ l ∈ ls, L l := fun x hx => hL x (by simp [hx])
      rw [Sect.run_cons hs] at h
      cases hk : T.kindOf l with
      | sub i k =>
        rw [hk] at h
        obtain ⟨⟨y, r1⟩, h1, h2⟩ := Res.bind_eq_ok.1 h
        obtain ⟨p, e⟩ := hs _ _ _ _ h1
        have hi := (Tab.kindOf_sub hk).2
        exact ih r1 _ s' r (by rw [e] at hl; simp at hl; omega) (fun x hx => hL' x (by rw [e]; simp [hx]))
          (addSub_all ha hi (hQ _ (List.mem_of_getElem? hi) _ _ _ hL' h1)) (addSub_sound hso i y) h2
      | unk =>
        rw [hk] at h
        obtain ⟨r1, h1, h2⟩ := Res.bind_eq_ok.1 h
        have := skip_length h1
        obtain ⟨p, e, _⟩ := skip_local _ _ _ _ _ (Nat.le_refl _) h1
        exact ih r1 _ s' r (by omega) (fun x hx => hL' x (by rw [e]; simp [hx])) ha hso h2
      | prop i f =>
        rw [hk] at h
        obtain ⟨s1, h1, h2⟩ := Res.bind_eq_ok.1 h
        obtain ⟨_, _, hf, _⟩ := Tab.kindOf_prop hk
        exact ih ls _ s' r (by omega) hL' (addProp_all ha hP hf (hL l (by simp)) h1) (addProp_sound hso hf h1) h2
      | fin =>
        rw [hk] at h
        dsimp only at h
        split at h
        · cases h
          exact ⟨ha, hso⟩
        · cases h
      | other =>
        rw [hk] at h
        exact ih ls _ s' r (by omega) hL' ha hso h

/-- The properties a field of a decoded section can have. -/
def Counted (T : Tab κ) (s : Sect σ) : Prop := ∀ (i : Nat) (f : SField), T.fields[i]? = some f → CountOk f.mult (s.fields.getD i []).length

/-- What is true of every property the decoder gives, and every subsection, is true in the section decoded; required properties are there, single
ones at most once, and the rules hold. -/
theorem Tab.decode_all {E : Env} {T : Tab κ} (hw : T.Wf) {sub : κ → List Line → Res (σ × List Line)} {t : Term} {L : Line → Prop} {P : SField → PropVal → Prop}
    {Q : κ → σ → Prop} (hs : Suffix sub) (hP : ∀ f ∈ T.fields, ∀ l p, L l → f.spec.decode E l.params l.value = .ok p → P f p)
    (hQ : ∀ x ∈ T.subs, ∀ ls y r, (∀ l ∈ ls, L l) → sub x.2 ls = .ok (y, r) → Q x.2 y) {ls r : List Line} {s : Sect σ} (hL : ∀ l ∈ ls, L l) (h : T.decode E sub t ls = .ok (s, r)) :
    SectAll P Q T s ∧ Counted T s ∧ SectRules T s := by
  obtain ⟨h1, h2⟩ := Tab.decode_ok.1 h
  obtain ⟨ha, hso⟩ := Sect.run_all hs hP hQ _ _ _ _ _ (Nat.le_refl _) hL (start_all T) (start_sound T) h1
  obtain ⟨h3, h4⟩ := (Tab.finish_ok T hw s ha.lenF.symm).1 h2
  refine ⟨ha, fun i f hf => ?_, h4⟩
  unfold CountOk
  cases hm : f.mult with
  | many => trivial
  | opt => exact hso.mult i f hf (by rw [hm]; decide)
  | req =>
    have a := hso.mult i f hf (by rw [hm]; decide)
    have b := (reqMet_iff _ _ ha.lenF.symm).1 h3 i f hf hm
    dsimp only
    have : (s.fields.getD i []).length ≠ 0 := by simpa using b
    omega

/-- A statement about the sections of a component. -/
def SubAll (P : SField → PropVal → Prop) : SubKind → Sub → Prop
  | .leaf T, .leaf s => SectAll P (fun (k : Empty) _ => nomatch k) T s ∧ Counted T s ∧ SectRules T s
  | .alarm, .alarm (some (a, s)) => SectAll P (fun (k : Empty) _ => nomatch k) a.tab s ∧ Counted a.tab s ∧ SectRules a.tab s
  | _, _ => False

def CompAll (P : SField → PropVal → Prop) (T : Tab SubKind) (s : Comp) : Prop := SectAll P (SubAll P) T s ∧ Counted T s ∧ SectRules T s

/-- A statement about every property of a calendar, with the rules. -/
def CalAll (P : SField → PropVal → Prop) (c : Cal) : Prop := SectAll P (CompAll P) tabCalendar c ∧ Counted tabCalendar c ∧ SectRules tabCalendar c

theorem decodeStream_all {E : Env} {st : Stream} {c : Cal} {L : Line → Prop} {P : SField → PropVal → Prop}
    (hP : ∀ f l p, FieldWf f → L l → f.spec.decode E l.params l.value = .ok p → P f p) (hL : ∀ l ∈ st.lines, L l)
    (h : decodeStream E st = .ok c) : CalAll P c := by
  unfold decodeStream at h
  split at h
  · cases h
  · next l ls hst =>
    split at h
    · obtain ⟨⟨c1, r⟩, h1, h2⟩ := Res.bind_eq_ok.1 h
      cases h2
      refine Tab.decode_all calTab_wf (compDecode_suffix E _) (fun f hf l p => hP f l p (calTab_wf.field f hf)) ?_
        (fun x hx => hL x (by rw [hst]; simp [hx])) h1
      intro x hx ls y r hL h
      obtain ⟨hw, hn, hg⟩ := compTab_good x hx
      unfold compDecode at h
      refine Tab.decode_all hw (subDecode_suffix E _) (fun f hf l p => hP f l p (hw.field f hf)) ?_ hL h
      rintro ⟨n, k⟩ hy ls y r hL h
      cases k with
      | leaf T =>
        obtain ⟨hw, _⟩ := hg _ hy
        simp only [subDecode] at h
        obtain ⟨⟨s, r1⟩, h1, h2⟩ := Res.bind_eq_ok.1 h
        cases h2
        exact Tab.decode_all hw noSub_suffix (fun f hf l p => hP f l p (hw.field f hf)) (fun x => nomatch x.2) hL h1
      | alarm =>
        simp only [subDecode, alarmDecode] at h
        obtain ⟨⟨a, pt, r1⟩, h1, h2⟩ := Res.bind_eq_ok.1 h
        cases a with
        | none => cases h2
        | some a =>
          obtain ⟨⟨s, r2⟩, h3, h4⟩ := Res.bind_eq_ok.1 h2
          cases h4
          exact Tab.decode_all (aTab_wf a) noSub_suffix (fun f hf l p => hP f l p ((aTab_wf a).field f hf)) (fun x => nomatch x.2)
            (fun x hx => hL x (by rw [alarmCollect_ok h1]; simp [hx])) h3
    · cases h

/-! ## Each component -/

theorem Pairwise2.imp {R S : α → β → Prop} (h : ∀ a b, R a b → S a b) {as : List α} {bs : List β} (hp : Pairwise2 R as bs) : Pairwise2 S as bs := by
  induction hp with
  | nil => exact .nil
  | cons h1 _ ih => exact .cons (h _ _ h1) ih

theorem Closed.split {k : List Line} (h : Closed k) : ∀ {k' : List Line} {e e' : Line} {r r' : List Line}, Closed k' → Ends e → Ends e' →
    k ++ e :: r = k' ++ e' :: r' → k = k' ∧ e = e' ∧ r = r' := by
  induction h with
  | nil =>
    intro k' e e' r r' h' he he' heq
    cases h' with
    | nil => simpa using heq
    | line hb hn _ => simp only [List.nil_append, List.cons_append, List.cons.injEq] at heq; exact absurd (heq.1 ▸ he) hn
    | block hb hn _ => simp only [List.nil_append, List.cons_append, List.cons.injEq] at heq; exact absurd hb (Ends.not_begin (heq.1 ▸ he))
  | line hb hn _ ih =>
    intro k' e e' r r' h' he he' heq
    cases h' with
    | nil => simp only [List.nil_append, List.cons_append, List.cons.injEq] at heq; exact absurd (heq.1 ▸ he') hn
    | line hb hn h' =>
      simp only [List.cons_append, List.cons.injEq] at heq
      obtain ⟨h1, h2, h3⟩ := ih h' he he' heq.2
      exact ⟨by rw [heq.1, h1], h2, h3⟩
    | block hb' _ _ => simp only [List.cons_append, List.cons.injEq] at heq; exact absurd (heq.1 ▸ hb') hb
  | block hb hn hv _ _ ih1 ih2 =>
    intro k' e e' r r' h' he he' heq
    cases h' with
    | nil => simp only [List.nil_append, List.cons_append, List.cons.injEq] at heq; exact absurd (heq.1 ▸ hb) (Ends.not_begin he')
    | line hb' _ h' => simp only [List.cons_append, List.cons.injEq] at heq; exact absurd (heq.1 ▸ hb) hb'
    | block hb' hn' hv' h1' h2' =>
      simp only [List.cons_append, List.cons.injEq, List.append_assoc] at heq
      obtain ⟨h1, h2, h3⟩ := ih1 h1' hn hn' heq.2
      obtain ⟨h4, h5, h6⟩ := ih2 h2' he he' h3
      exact ⟨by rw [heq.1, h1, h2, h4], h5, h6⟩

/-- The parts of a sequence of lines are determined by it. -/
theorem Items.unique {k : List Line} {is : List Item} (h : Items k is) : ∀ {js : List Item}, Items k js → is = js := by
  induction h with
  | nil => intro js h'; cases h'; rfl
  | line hb hn _ ih =>
    intro js h'
    generalize hk : (_ :: _ : List Line) = k at h'
    cases h' with
    | nil => cases hk
    | line _ _ h' => cases hk; rw [ih h']
    | block hb' _ _ => simp only [List.cons_append, List.cons.injEq] at hk; exact absurd (hk.1 ▸ hb') hb
  | block hb hn hv hc _ ih =>
    intro js h'
    generalize hk : (_ :: _ ++ _ :: _ : List Line) = k at h'
    cases h' with
    | nil => cases hk
    | line hb' _ h' => simp only [List.cons_append, List.cons.injEq] at hk; exact absurd (hk.1 ▸ hb) hb'
    | block hb' hn' hv' hc' h' =>
      simp only [List.cons_append, List.cons.injEq] at hk
      obtain ⟨h1, h2, h3⟩ := Closed.split hc hc' hn hn' hk.2
      subst h1 h2 h3
      rw [ih h', hk.1]

/-- What follows from the fields being read holds for each component. -/
theorem DocReads.each {E : Env} {ls : List Line} {c : Cal} {P : Claim} (h : DocReads E ls c)
    (hP : ∀ (fs : List SField) (is : List Item) (vs : List (List PropVal)), vs.length = fs.length →
      (∀ (i : Nat) (f : SField), fs[i]? = some f →
        Pairwise2 (fun l p => f.spec.decode E l.params l.value = .ok p) (linesNamed is f.key) (vs.getD i []) ∧
        CountOk f.mult (linesNamed is f.key).length) → P fs is vs) : EachPart P ls c := by
  obtain ⟨b, k, e, rfl, hb, hbv, he, hev, is, hi, l1, _, hf, hs, _⟩ := h
  refine ⟨b, k, e, is, rfl, hb, he, hi, hP _ _ _ l1 hf, fun i x hx => Pairwise2.imp ?_ (hs i x hx)⟩
  rintro k s ⟨is, hi, l1, _, hf, hs, _⟩
  refine ⟨is, hi, hP _ _ _ l1 hf, fun i x hx => Pairwise2.imp ?_ (hs i x hx)⟩
  intro k s h
  obtain ⟨n, kd⟩ := x
  cases kd with
  | leaf T =>
    cases s with
    | alarm => exact absurd h (by simp [SubReads])
    | leaf s =>
      obtain ⟨is, hi, l1, _, hf, _⟩ := h
      exact ⟨is, hi, hP _ _ _ l1 hf⟩
  | alarm =>
    cases s with
    | leaf => exact absurd h (by simp [SubReads])
    | alarm o =>
      cases o with
      | none => exact absurd h (by simp [SubReads])
      | some o =>
        obtain ⟨a, s⟩ := o
        obtain ⟨_, _, is, hi, l1, _, hf, _⟩ := h
        exact ⟨is, hi, hP _ _ _ l1 hf⟩

/-! ## Text and lines -/

/-- The text begins with the first lines of it; the last line may have no line end. -/
theorem tokenise_front {s : Str} : ∀ {pre r : List Line}, (tokenise s).lines = pre ++ r →
    (∀ l ∈ pre, LineOk l) ∧ ((∃ q, s = pre.flatMap printLine ++ q) ∨ s ++ crlf = pre.flatMap printLine) := by
  intro pre
  induction pre generalizing s with
  | nil => intro r _; exact ⟨by simp, Or.inl ⟨s, rfl⟩⟩
  | cons l pre ih =>
    intro r h
    cases hp : parseLine s with
    | line l' s' =>
      rw [tokenise_line hp] at h
      simp only [List.cons_append, List.cons.injEq] at h
      obtain ⟨rfl, h⟩ := h
      obtain ⟨h1, h2⟩ := parseLine_inv hp
      obtain ⟨h3, h4⟩ := ih h
      refine ⟨by simpa using ⟨h1, h3⟩, ?_⟩
      rcases h2 with h2 | ⟨h2, rfl⟩
      · rcases h4 with ⟨q, h4⟩ | h4
        · exact Or.inl ⟨q, by rw [h2, h4]; simp⟩
        · exact Or.inr (by rw [h2, List.append_assoc, h4]; simp)
      · have : pre = [] := by
          rw [tokenise_nil] at h
          exact (List.append_eq_nil_iff.1 h.symm).1
        subst this
        exact Or.inr (by rw [h2]; simp [printLine, crlf])
    | done => simp [tokenise, streamF, hp] at h
    | error e => simp [tokenise, streamF, hp] at h

/-! ## The components of a decoded calendar -/

theorem mem_flatten_getD {l : List (List α)} {x : α} (h : x ∈ l.flatten) : ∃ i, i < l.length ∧ x ∈ l.getD i [] := by
  obtain ⟨w, hw, hx⟩ := List.mem_flatten.1 h
  obtain ⟨i, hi, rfl⟩ := List.mem_iff_getElem.1 hw
  exact ⟨i, hi, by rw [List.getD_eq_getElem?_getD, List.getElem?_eq_getElem hi]; exact hx⟩

theorem CalAll.comp {P : SField → PropVal → Prop} {c : Cal} (h : CalAll P c) {x : Str × Tab SubKind} {ys : List Comp}
    (hx : (x, ys) ∈ tabCalendar.subs.zip c.subs) {y : Comp} (hy : y ∈ ys) : CompAll P x.2 y := by
  obtain ⟨i, hi, he⟩ := List.mem_iff_getElem.1 hx
  rw [List.getElem_zip] at he
  injection he with h1 h2
  have hi1 : i < tabCalendar.subs.length := by simp at hi; omega
  have hi2 : i < c.subs.length := by simp at hi; omega
  refine h.1.sub i x (by rw [List.getElem?_eq_getElem hi1, h1]) y ?_
  rw [List.getD_eq_getElem?_getD, List.getElem?_eq_getElem hi2, h2]
  exact hy

theorem CalAll.named {P : SField → PropVal → Prop} {c : Cal} (h : CalAll P c) {n : Str} {T : Tab SubKind}
    (hn : ∀ x ∈ tabCalendar.subs, x.1 = n → x.2 = T) {y : Comp} (hy : y ∈ comps n c) : CompAll P T y := by
  obtain ⟨⟨x, ys⟩, hx, hy⟩ := List.mem_flatMap.1 hy
  dsimp only at hy
  split at hy
  · next he => rw [← hn x (List.of_mem_zip hx).1 he]; exact h.comp hx hy
  · cases hy

theorem CalAll.alarm {P : SField → PropVal → Prop} {c : Cal} (h : CalAll P c) {a : AKind} {s : Leaf} (ha : (a, s) ∈ alarms c) :
    SectAll P (fun (k : Empty) _ => nomatch k) a.tab s ∧ Counted a.tab s ∧ SectRules a.tab s := by
  obtain ⟨y, hy, he⟩ := List.mem_filterMap.1 ha
  obtain ⟨z, hz, hy⟩ := List.mem_flatMap.1 hy
  obtain ⟨i, hi, hz⟩ := mem_flatten_getD hz
  obtain ⟨j, hj, hy⟩ := mem_flatten_getD hy
  rw [h.1.lenS] at hi
  have h1 := h.1.sub i _ (List.getElem?_eq_getElem hi) z hz
  rw [h1.1.lenS] at hj
  have h2 := h1.1.sub j _ (List.getElem?_eq_getElem hj) y hy
  generalize (tabCalendar.subs[i].2.subs[j]).2 = k at h2
  split at he
  · subst he
    cases k with
    | leaf => exact h2.elim
    | alarm => exact h2
  · cases he

end Ics
