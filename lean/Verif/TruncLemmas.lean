import Verif.LocalLemmas
import Verif.DecodedLemmas
import Verif.ByteLemmas
/-!
# Lemmas: documents cut off
-/

namespace Ics

open Spec

variable {α β : Type}

/-! ## The text -/

/-- A prefix of concatenated parts consists of whole parts and a proper prefix of the next. -/
theorem prefix_flatMap {f : α → List β} : ∀ {l : List α} {p : List β}, p <+: l.flatMap f → p.length < (l.flatMap f).length →
    ∃ a x b q r, l = a ++ x :: b ∧ p = a.flatMap f ++ q ∧ f x = q ++ r ∧ r ≠ [] := by
  intro l
  induction l with
  | nil => intro p _ h; simp at h
  | cons x l ih =>
    rintro p ⟨t, e⟩ hl
    rw [List.flatMap_cons] at e hl
    by_cases hx : p.length < (f x).length
    · obtain ⟨r, hr⟩ : p <+: f x := List.prefix_of_prefix_length_le ⟨t, e⟩ ⟨l.flatMap f, rfl⟩ (by omega)
      refine ⟨[], x, l, p, r, rfl, rfl, hr.symm, ?_⟩
      intro h
      rw [h, List.append_nil] at hr
      rw [hr] at hx
      omega
    · obtain ⟨p', h1⟩ : f x <+: p := List.prefix_of_prefix_length_le ⟨l.flatMap f, rfl⟩ ⟨t, e⟩ (by omega)
      subst h1
      rw [List.append_assoc, List.append_cancel_left_eq] at e
      simp only [List.length_append] at hl
      obtain ⟨a, y, b, q, r, e1, e2, e3, e4⟩ := ih ⟨t, e⟩ (by omega)
      exact ⟨x :: a, y, b, q, r, by rw [e1]; rfl, by rw [e2]; simp, e3, e4⟩

theorem printLine_inj {l l' : Line} (h : LineOk l) (h' : LineOk l') (e : printLine l = printLine l') : l = l' := by
  have h1 := tokenise_print l h []
  have h2 := tokenise_print l' h' []
  rw [e, h2] at h1
  injection h1 with h1 _
  injection h1 with h1 _
  exact h1.symm

/-- A line whose text is the beginning of the text of another has the same name and parameters, and the beginning of the value. -/
theorem printBare_prefix {l l' : Line} (h : LineOk l) (h' : LineOk l') {r : Str} (e : printLine l = printBare l' ++ r) :
    l.name = l'.name ∧ l.params = l'.params ∧ ∃ v, l.value = l'.value ++ v ∧ r = v ++ crlf := by
  have hl : (printBare l').length ≤ (printBare l).length := by
    have h0 := congrArg List.length e
    simp only [printLine, List.length_append, List.length_cons, List.length_nil] at h0
    refine Nat.le_of_not_lt fun hlt => ?_
    have hm : '\r' ∈ printBare l' := by
      have h1 := congrArg (fun x => x[(printBare l).length]?) e
      simp only [printLine] at h1
      rw [List.getElem?_append_right (by omega), List.getElem?_append_left (by omega)] at h1
      simp at h1
      exact List.mem_of_getElem? h1.symm
    exact (noCtl_ne_cr (printBare_NoCtl h' _ hm)).1 rfl
  have h1 : printBare l' <+: printBare l := by
    refine List.prefix_of_prefix_length_le (l₃ := printLine l) ⟨r, e.symm⟩ ⟨crlf, rfl⟩ hl
  obtain ⟨v, hv⟩ := h1
  have hr : r = v ++ crlf := by
    have : printBare l' ++ (v ++ crlf) = printBare l' ++ r := by
      rw [← e, ← List.append_assoc, hv]
      rfl
    exact (List.append_cancel_left this).symm
  have hvc : ∀ c ∈ v, NoCtl c := fun c hc => printBare_NoCtl h c (by rw [← hv]; simp [hc])
  have hok : LineOk ⟨l'.name, l'.params, l'.value ++ v⟩ := by
    refine ⟨h'.name_ne, h'.name, h'.pname, h'.pvals_ne, h'.pvals, fun c hc => ?_⟩
    rcases List.mem_append.1 hc with hc | hc
    · exact h'.value c hc
    · exact hvc c hc
  have := printLine_inj h hok (by
    rw [e, hr]
    simp [printLine, printBare, crlf])
  rw [this]
  exact ⟨rfl, rfl, v, rfl, hr⟩

theorem newline_not_mem_bare {l : Line} (h : LineOk l) : '\n' ∉ printBare l := fun hm => (noCtl_ne_cr (printBare_NoCtl h _ hm)).2 rfl

/-- What may follow where a document is cut off: parts of a line end, and of a character. -/
def Junk (x : Str) : Prop := ∀ c ∈ x, c = '\r' ∨ c = '\n' ∨ c = '�'

/-- If only the last of the lines is END:VCALENDAR, then a text that ends before the text of that line does has no such line. -/
theorem cut_no_end {a0 : List Line} {z : Line} {n : Str} (hl : ∀ l ∈ a0 ++ [z], LineOk l)
    (h0 : ∀ l ∈ a0, upper l.name = kEND → ¬ n <+: l.value) (hz : z.value = n) (hn : ∃ m c, n = m ++ [c] ∧ c ≠ '\r' ∧ c ≠ '\n' ∧ c ≠ '�')
    {p x : Str} (hp : p <+: (a0 ++ [z]).flatMap printLine) (hlt : p.length + 2 < ((a0 ++ [z]).flatMap printLine).length) (hx : Junk x) {e : Line}
    (he : e ∈ (tokenise (p ++ x)).lines) (hen : upper e.name = kEND) (hev : e.value = n) : False := by
  obtain ⟨a, l, b, q, r, e1, e2, e3, e4⟩ := prefix_flatMap hp (by omega)
  have hla : ∀ y ∈ a, LineOk y := fun y hy => hl y (by rw [e1]; simp [hy])
  have hll : LineOk l := hl l (by rw [e1]; simp)
  -- the line cut is the last, or one of the others
  have hb : (b = [] ∧ l = z ∧ a = a0) ∨ (l ∈ a0 ∧ ∀ y ∈ a, y ∈ a0) := by
    rcases List.eq_nil_or_concat b with rfl | ⟨b', y, rfl⟩
    · have h1 := congrArg List.reverse e1
      simp at h1
      exact Or.inl ⟨rfl, h1.1.symm, h1.2.symm⟩
    · rw [List.concat_eq_append] at e1
      have h1 := congrArg List.reverse e1
      simp only [List.reverse_append, List.reverse_cons, List.reverse_nil, List.nil_append, List.cons_append, List.cons.injEq] at h1
      have h2 := congrArg List.reverse h1.2
      simp only [List.reverse_append, List.reverse_cons, List.reverse_reverse] at h2
      right
      rw [h2]
      simp only [List.append_assoc]
      exact ⟨by simp, fun y hy => by simp [hy]⟩
  rw [e2, List.append_assoc, tokenise_prints a hla] at he
  rcases List.mem_append.1 he with he | he
  · have : e ∈ a0 := by
      rcases hb with ⟨_, _, h⟩ | ⟨_, h⟩
      · exact h ▸ he
      · exact h e he
    exact h0 e this hen ⟨[], by rw [hev]; simp⟩
  · cases hpl : parseLine (q ++ x) with
    | done => simp [tokenise, streamF, hpl] at he
    | error => simp [tokenise, streamF, hpl] at he
    | line l' r' =>
      rw [tokenise_line hpl] at he
      obtain ⟨hl', hs⟩ := parseLine_inv hpl
      have hqn : '\n' ∉ q := by
        intro hm
        have h1 : '\n' ∈ (printLine l).dropLast := by
          rw [e3, List.dropLast_append_of_ne_nil e4]
          simp [hm]
        rw [printLine, List.dropLast_append_of_ne_nil (by simp)] at h1
        simp only [List.dropLast, List.mem_append, List.mem_singleton] at h1
        rcases h1 with h1 | h1
        · exact newline_not_mem_bare hll h1
        · revert h1; decide
      rcases List.mem_cons.1 he with rfl | he
      · -- the line cut off itself
        have hbare : printBare e <+: q ++ x := by
          rcases hs with hs | ⟨hs, _⟩
          · exact ⟨crlf ++ r', by rw [hs]; simp [printLine, crlf]⟩
          · exact ⟨[], by rw [hs]; simp⟩
        by_cases hle : (printBare e).length ≤ q.length
        · obtain ⟨q', hq'⟩ := List.prefix_of_prefix_length_le hbare ⟨x, rfl⟩ hle
          have e3' : printLine l = printBare e ++ (q' ++ r) := by rw [e3, ← hq', List.append_assoc]
          obtain ⟨n1, _, v, hv, hr⟩ := printBare_prefix hll hl' e3'
          rcases hb with ⟨rfl, rfl, rfl⟩ | ⟨h1, _⟩
          · have hv0 : v = [] := by
              rw [hz, hev] at hv
              simpa using hv.symm
            subst hv0
            have h3 := congrArg List.length hr
            have h4 := congrArg List.length e3'
            simp only [List.flatMap_append, List.flatMap_cons, List.flatMap_nil, List.append_nil, List.length_append, e2] at hlt
            simp only [crlf, List.nil_append, List.length_append, List.length_cons, List.length_nil] at h3 h4
            have h5 := congrArg List.length hq'
            simp only [List.length_append] at h5
            omega
          · exact h0 l h1 (by rw [n1]; exact hen) ⟨v, by rw [hv, hev]⟩
        · -- it ends in the junk
          obtain ⟨m, c, hm, hc⟩ := hn
          have hqp : q <+: printBare e := List.prefix_of_prefix_length_le ⟨x, rfl⟩ hbare (by omega)
          obtain ⟨y, hy⟩ := hqp
          have hyx : y <+: x := by
            rw [← hy] at hbare
            exact (List.prefix_append_right_inj q).1 hbare
          have hyl : c ∈ y := by
            have h1 : printBare e = (e.name ++ printParams e.params ++ ':' :: m) ++ [c] := by
              rw [printBare, hev, hm]; simp
            have hyne : y ≠ [] := by
              rintro rfl
              rw [← hy] at hle
              simp at hle
            have h2 := congrArg List.getLast? (hy.trans h1)
            rw [List.getLast?_append, List.getLast?_append, List.getLast?_eq_some_getLast hyne] at h2
            simp at h2
            rw [← h2]
            exact List.getLast_mem hyne
          rcases hx c (hyx.subset hyl) with h | h | h
          · exact hc.1 h
          · exact hc.2.1 h
          · exact hc.2.2 h
      · -- lines behind it are junk
        rcases hs with hs | ⟨_, rfl⟩
        · have hrx : ∀ c ∈ r', c ∈ x := by
            have hlen : q.length ≤ (printLine l').length := by
              refine Nat.le_of_not_lt fun hgt => hqn ?_
              obtain ⟨q', hq'⟩ := List.prefix_of_prefix_length_le (l₁ := printLine l') (l₂ := q) ⟨r', hs.symm⟩ ⟨x, rfl⟩ (by omega)
              rw [← hq', printLine]
              simp
            obtain ⟨y, hy⟩ := List.prefix_of_prefix_length_le (l₁ := q) (l₂ := printLine l') ⟨x, rfl⟩ ⟨r', hs.symm⟩ hlen
            rw [← hy, List.append_assoc, List.append_cancel_left_eq] at hs
            intro c hc
            rw [hs]
            simp [hc]
          obtain ⟨f1, f2⟩ := tokenise_front (s := r') (pre := (tokenise r').lines) (r := []) (by simp)
          have hek := f1 e he
          obtain ⟨c, cs, hc⟩ : ∃ c cs, e.name = c :: cs := by
            cases hne : e.name with
            | nil => exact absurd hne hek.name_ne
            | cons c cs => exact ⟨c, cs, rfl⟩
          have hcm : c ∈ (tokenise r').lines.flatMap printLine :=
            List.mem_flatMap.2 ⟨e, he, by simp [printLine, printBare, hc]⟩
          have hci : IanaChar c := hek.name c (by rw [hc]; simp)
          have hj : c = '\r' ∨ c = '\n' ∨ c = '�' := by
            rcases f2 with ⟨w, hw⟩ | hw
            · exact hx c (hrx c (by rw [hw]; simp [hcm]))
            · rw [← hw] at hcm
              rcases List.mem_append.1 hcm with hcm | hcm
              · exact hx c (hrx c hcm)
              · simp [crlf] at hcm
                rcases hcm with h | h
                · exact Or.inl h
                · exact Or.inr (Or.inl h)
          rcases hj with rfl | rfl | rfl <;> revert hci <;> unfold IanaChar <;> decide
        · rw [tokenise_nil] at he
          cases he

/-! ## The lines of an encoded calendar -/

theorem toLine_name (E : Env) (sp : PSpec) (p : PropVal) : (toLine E sp p).name = sp.name := by
  unfold toLine
  split
  · rfl
  · split
    · split <;> rfl
    · rfl
  · rfl

theorem fieldLines_names (E : Env) : ∀ (fs : List SField) (vs : List (List PropVal)), ∀ l ∈ fieldLines E fs vs, ∃ f ∈ fs, l.name = f.spec.name := by
  intro fs
  induction fs with
  | nil => intro vs l h; cases vs <;> cases h
  | cons f fs ih =>
    intro vs l h
    cases vs with
    | nil => cases h
    | cons v vs =>
      simp only [fieldLines, List.mem_append, List.mem_map] at h
      rcases h with ⟨p, _, rfl⟩ | h
      · exact ⟨f, by simp, toLine_name E f.spec p⟩
      · obtain ⟨g, hg, e⟩ := ih vs l h
        exact ⟨g, by simp [hg], e⟩

theorem subsLines_mem {κ σ : Type} {inner : κ → σ → List Line} : ∀ {ks : List (Str × κ)} {vs : List (List σ)}, ∀ l ∈ subsLines inner ks vs,
    ∃ x ∈ ks, l = plainLine kBEGIN x.1 ∨ ∃ y, l ∈ inner x.2 y := by
  intro ks
  induction ks with
  | nil => intro vs l h; cases vs <;> cases h
  | cons k ks ih =>
    obtain ⟨n, k⟩ := k
    intro vs l h
    cases vs with
    | nil => cases h
    | cons v vs =>
      simp only [subsLines, List.mem_append, List.mem_flatMap, List.mem_cons] at h
      rcases h with ⟨y, _, h | h⟩ | h
      · exact ⟨(n, k), by simp, Or.inl h⟩
      · exact ⟨(n, k), by simp, Or.inr ⟨y, h⟩⟩
      · obtain ⟨x, hx, h⟩ := ih l h
        exact ⟨x, by simp [hx], h⟩

/-- The line is no END line, or that of a component. -/
def InnerEnd (l : Line) : Prop := upper l.name = kEND → ¬ c!"VCALENDAR" <+: l.value

theorem field_innerEnd {E : Env} {fs : List SField} {vs : List (List PropVal)} (hf : ∀ f ∈ fs, FieldWf f) : ∀ l ∈ fieldLines E fs vs, InnerEnd l := by
  intro l hl hn
  obtain ⟨f, h, e⟩ := fieldLines_names E fs vs l hl
  have hw := hf f h
  have hk : nameOk f.spec.name = true := by
    have := hw.spec
    unfold PSpec.wf at this
    rw [Bool.and_eq_true] at this
    exact this.1
  rw [e, (nameOk_iff.1 hk).2.2] at hn
  exact absurd hn hw.notCtl2.2.1

theorem begin_innerEnd (n : Str) : InnerEnd (plainLine kBEGIN n) :=
  fun h => absurd (show upper kBEGIN = kEND from h) (by decide)

theorem tab_innerEnd {κ σ : Type} {E : Env} {T : Tab κ} (hw : T.Wf) (ht : ¬ c!"VCALENDAR" <+: T.name) {inner : κ → σ → List Line}
    (hi : ∀ x ∈ T.subs, ∀ y, ∀ l ∈ inner x.2 y, InnerEnd l) (s : Sect σ) : ∀ l ∈ T.inner E inner s, InnerEnd l := by
  intro l hl
  unfold Tab.inner at hl
  simp only [List.mem_append, List.mem_singleton] at hl
  rcases hl with (hl | hl) | rfl
  · exact field_innerEnd hw.field l hl
  · obtain ⟨x, hx, rfl | ⟨y, h⟩⟩ := subsLines_mem l hl
    · exact begin_innerEnd _
    · exact hi x hx y l h
  · exact fun _ => ht

theorem calTab_names : ∀ x ∈ tabCalendar.subs, ¬ c!"VCALENDAR" <+: x.2.name ∧ ∀ y ∈ x.2.subs, ∀ T, y.2 = .leaf T → ¬ c!"VCALENDAR" <+: T.name := by
  intro x hx
  simp only [tabCalendar, List.mem_cons, List.not_mem_nil, or_false] at hx
  rcases hx with rfl | rfl | rfl | rfl | rfl <;> refine ⟨by decide, ?_⟩ <;> intro y hy
  all_goals
    simp only [tabEvent, tabTodo, tabJournal, tabFreeBusy, tabTimezone, List.mem_cons, List.not_mem_nil, or_false] at hy
  · subst hy; intro T h; cases h
  · subst hy; intro T h; cases h
  · rcases hy with rfl | rfl <;> (intro T h; cases h; decide)

/-- An encoded calendar has the line END:VCALENDAR at the end, and no END line like it before. -/
theorem calLines_ends (E : Env) (c : Cal) : ∃ a, calLines E c = a ++ [plainLine kEND c!"VCALENDAR"] ∧ ∀ l ∈ a, InnerEnd l := by
  refine ⟨plainLine kBEGIN tabCalendar.name :: (fieldLines E tabCalendar.fields c.fields ++ subsLines (compInner E) tabCalendar.subs c.subs), rfl, ?_⟩
  intro l hl
  rcases List.mem_cons.1 hl with rfl | hl
  · exact begin_innerEnd _
  rcases List.mem_append.1 hl with hl | hl
  · exact field_innerEnd calTab_wf.field l hl
  obtain ⟨x, hx, rfl | ⟨y, h⟩⟩ := subsLines_mem l hl
  · exact begin_innerEnd _
  obtain ⟨hw, hn, hg⟩ := compTab_good x hx
  obtain ⟨n1, n2⟩ := calTab_names x hx
  refine tab_innerEnd hw n1 ?_ y l h
  rintro ⟨n, k⟩ hz s l hl
  cases k with
  | leaf T =>
    cases s with
    | alarm => cases hl
    | leaf s => exact tab_innerEnd (hg _ hz).1 (n2 _ hz T rfl) (fun x => nomatch x.2) s l hl
  | alarm =>
    cases s with
    | leaf => cases hl
    | alarm o =>
      cases o with
      | none => cases hl
      | some o =>
        obtain ⟨a, s⟩ := o
        have hl : l ∈ plainLine kACTION a.action :: a.tab.inner E noInner s := hl
        rcases List.mem_cons.1 hl with rfl | hl
        · exact fun h => absurd (show upper kACTION = kEND from h) (by decide)
        · exact tab_innerEnd (aTab_wf a) (by rw [(aTab_name a).1]; decide) (fun x => nomatch x.2) s l hl

/-- No text cut off before the text of the last line ends is accepted, even with junk where it was cut. -/
theorem decode_cut {E E' : Env} {c c' : Cal} (hl : ∀ l ∈ calLines E c, LineOk l) {p x : Str} (hp : p <+: (calLines E c).flatMap printLine)
    (hlt : p.length + 2 < ((calLines E c).flatMap printLine).length) (hx : Junk x) : decodeDoc E' (p ++ x) ≠ .ok c' := by
  intro h
  obtain ⟨b, k, e, r, h1, _, _, he, hv, _⟩ := decodeStream_local h
  obtain ⟨a, ha, hi⟩ := calLines_ends E c
  rw [ha] at hl hp hlt
  exact cut_no_end hl hi rfl ⟨c!"VCALENDA", 'R', rfl, by decide, by decide, by decide⟩ hp hlt hx (e := e) (by rw [h1]; simp) he hv

/-! ## The octets -/

/-- Folded text cut off: the text cut off, and part of a fold marker. -/
theorem Spec.FoldOf.cut {s t : Str} (h : FoldOf s t) : ∀ {t1 t2 : Str}, t = t1 ++ t2 → ¬ ['\r', '\n', ' '] <:+: s →
    ∃ pre s2 x, s = pre ++ s2 ∧ removeFoldsC t1 = pre ++ x ∧ (x = [] ∨ x = ['\r'] ∨ x = ['\r', '\n']) ∧ FoldOf s2 (x ++ t2) := by
  induction h with
  | nil =>
    intro t1 t2 e _
    obtain ⟨rfl, rfl⟩ := List.append_eq_nil_iff.1 e.symm
    exact ⟨[], [], [], rfl, rfl, Or.inl rfl, .nil⟩
  | @keep c s t h ih =>
    intro t1 t2 e hno
    cases t1 with
    | nil =>
      simp only [List.nil_append] at e
      exact ⟨[], c :: s, [], rfl, rfl, Or.inl rfl, by rw [List.nil_append, ← e]; exact .keep c h⟩
    | cons d t1 =>
      simp only [List.cons_append, List.cons.injEq] at e
      obtain ⟨rfl, e⟩ := e
      obtain ⟨pre, s2, x, h1, h2, h3, h4⟩ := ih e (fun hi => hno (hi.trans (List.infix_cons (List.infix_refl _))))
      refine ⟨c :: pre, s2, x, by rw [h1]; rfl, ?_, h3, h4⟩
      rw [removeFoldsC_cons, h2]
      · rfl
      · intro r hr
        injection hr with e1 e2
        subst e1
        rw [e, e2] at h
        obtain ⟨s', rfl, h'⟩ := h.nl
        obtain ⟨s'', rfl, _⟩ := h'.sp
        exact hno ⟨[], s'', by simp⟩
  | @fold c s t hc hc' h ih =>
    intro t1 t2 e hno
    match t1, e with
    | [], e => exact ⟨[], c :: s, [], rfl, rfl, Or.inl rfl, by rw [List.nil_append, ← (show _ = t2 from e)]; exact .fold c hc hc' h⟩
    | [a], e =>
      simp only [List.cons_append, List.nil_append, List.cons.injEq] at e
      obtain ⟨rfl, rfl⟩ := e
      exact ⟨[], c :: s, ['\r'], rfl, rfl, Or.inr (Or.inl rfl), .fold c hc hc' h⟩
    | [a, b], e =>
      simp only [List.cons_append, List.nil_append, List.cons.injEq] at e
      obtain ⟨rfl, rfl, rfl⟩ := e
      exact ⟨[], c :: s, ['\r', '\n'], rfl, rfl, Or.inr (Or.inr rfl), .fold c hc hc' h⟩
    | [a, b, d], e =>
      simp only [List.cons_append, List.nil_append, List.cons.injEq] at e
      obtain ⟨rfl, rfl, rfl, rfl⟩ := e
      exact ⟨[], c :: s, [], rfl, by simp [removeFoldsC], Or.inl rfl, .keep c h⟩
    | a :: b :: d :: f :: t1, e =>
      simp only [List.cons_append, List.cons.injEq] at e
      obtain ⟨rfl, rfl, rfl, rfl, e⟩ := e
      obtain ⟨pre, s2, x, h1, h2, h3, h4⟩ := ih e (fun hi => hno (hi.trans (List.infix_cons (List.infix_refl _))))
      refine ⟨c :: pre, s2, x, by rw [h1]; rfl, ?_, h3, h4⟩
      rw [removeFoldsC, if_pos ⟨rfl, rfl, rfl⟩, removeFoldsC_cons, h2]
      · rfl
      · intro r hr; injection hr with h1 _; exact hc' h1

/-- A letter and CR LF at the end of folded text are there in the text. -/
theorem Spec.FoldOf.tail' {s t : Str} (h : FoldOf s t) : ∀ (b : Str) (c : Char), c ≠ '\r' → c ≠ '\n' → c ≠ ' ' → t = b ++ [c, '\r', '\n'] →
    ∃ a, s = a ++ [c, '\r', '\n'] := by
  induction h with
  | nil => intro b c _ _ _ e; cases b <;> simp at e
  | @keep d s t h ih =>
    intro b c h1 h2 h3 e
    cases b with
    | nil =>
      simp only [List.nil_append, List.cons.injEq] at e
      obtain ⟨rfl, rfl⟩ := e
      cases h with
      | keep _ h =>
        cases h with
        | keep _ h => cases h; exact ⟨[], rfl⟩
    | cons x b =>
      simp only [List.cons_append, List.cons.injEq] at e
      obtain ⟨a, rfl⟩ := ih b c h1 h2 h3 e.2
      exact ⟨d :: a, rfl⟩
  | @fold d s t hd hd' h ih =>
    intro b c h1 h2 h3 e
    match b, e with
    | [], e => simp only [List.nil_append, List.cons.injEq] at e; exact absurd e.1.symm h1
    | [x], e => simp only [List.cons_append, List.nil_append, List.cons.injEq] at e; exact absurd e.2.1.symm h2
    | [x, y], e => simp only [List.cons_append, List.nil_append, List.cons.injEq] at e; exact absurd e.2.2.1.symm h3
    | [x, y, z], e =>
      simp only [List.cons_append, List.nil_append, List.cons.injEq] at e
      obtain ⟨_, _, _, rfl, rfl⟩ := e
      cases h with
      | keep _ h =>
        cases h with
        | keep _ h => cases h; exact ⟨[], rfl⟩
    | x :: y :: z :: w :: b, e =>
      simp only [List.cons_append, List.cons.injEq] at e
      obtain ⟨a, rfl⟩ := ih b c h1 h2 h3 e.2.2.2.2
      exact ⟨d :: a, rfl⟩

/-- A letter and CR LF at the end of the text are there in folded text. -/
theorem Spec.FoldOf.tail {s t : Str} (h : FoldOf s t) : ∀ (a : Str) (c : Char), s = a ++ [c, '\r', '\n'] → ∃ b, t = b ++ [c, '\r', '\n'] := by
  have last : ∀ {t : Str}, FoldOf ['\r', '\n'] t → t = ['\r', '\n'] := by
    intro t h
    cases h with
    | keep _ h =>
      cases h with
      | keep _ h => cases h; rfl
      | fold _ h1 h2 => first | exact absurd rfl h1 | exact absurd rfl h2
    | fold _ h1 h2 => first | exact absurd rfl h1 | exact absurd rfl h2
  induction h with
  | nil => intro a c e; cases a <;> simp at e
  | @keep d s t h ih =>
    intro a c e
    cases a with
    | nil =>
      simp only [List.nil_append, List.cons.injEq] at e
      obtain ⟨rfl, rfl⟩ := e
      exact ⟨[], by rw [last h]; rfl⟩
    | cons x a =>
      simp only [List.cons_append, List.cons.injEq] at e
      obtain ⟨b, rfl⟩ := ih a c e.2
      exact ⟨d :: b, rfl⟩
  | @fold d s t _ _ h ih =>
    intro a c e
    cases a with
    | nil =>
      simp only [List.nil_append, List.cons.injEq] at e
      obtain ⟨rfl, rfl⟩ := e
      exact ⟨['\r', '\n', ' '], by rw [last h]; rfl⟩
    | cons x a =>
      simp only [List.cons_append, List.cons.injEq] at e
      obtain ⟨b, rfl⟩ := ih a c e.2
      exact ⟨'\r' :: '\n' :: ' ' :: d :: b, rfl⟩

theorem removeFolds_append' (w : Bytes) (hw : ∀ b ∈ w, 128 ≤ b.toNat) : ∀ (n : Nat) (a : Bytes), a.length ≤ n → removeFolds (a ++ w) = removeFolds a ++ w := by
  have hw13 : removeFolds w = w := by
    have := removeFolds_append w (fun b hb h => by have := hw b hb; rw [h] at this; revert this; decide) []
    simpa [removeFolds] using this
  have hne : ∀ r, w ≠ 10 :: r ∧ w ≠ 32 :: r := by
    intro r
    constructor <;> (intro h; have := hw _ (by rw [h]; exact List.mem_cons_self); revert this; decide)
  intro n
  induction n with
  | zero =>
    intro a h
    have : a = [] := List.length_eq_zero_iff.1 (by omega)
    subst this
    exact hw13
  | succ n ih =>
    intro a h
    match a, h with
    | [], _ => exact hw13
    | [x], _ =>
      rw [List.cons_append, removeFolds_ne, List.nil_append, hw13]
      · rfl
      · intro r hr; injection hr with _ h2; exact (hne _).1 h2
    | [x, y], _ =>
      have : removeFolds ([y] ++ w) = [y] ++ w := by
        rw [List.cons_append, removeFolds_ne, List.nil_append, hw13]
        intro r hr; injection hr with _ h2; exact (hne _).1 h2
      rw [List.cons_append, removeFolds_ne, this]
      · simp [removeFolds]
      · intro r hr; injection hr with _ h2; injection h2 with _ h2; exact (hne _).2 h2
    | x :: y :: z :: r, h =>
      simp only [List.length_cons] at h
      simp only [List.cons_append]
      rw [removeFolds, removeFolds]
      split
      · exact ih r (by omega)
      · have := ih (y :: z :: r) (by simp; omega)
        simp only [List.cons_append] at this
        rw [this]
        rfl

/-- Octets cut off: whole characters, and the first octets of one. -/
theorem utf8_cut {t : Str} {b : Bytes} (hb : b <+: utf8 t) (hlt : b.length < (utf8 t).length) : ∃ t1 c t2 w v, t = t1 ++ c :: t2 ∧ b = utf8 t1 ++ w ∧
    encodeChar c = w ++ v ∧ v ≠ [] := by
  obtain ⟨a, x, t2, q, r, h1, h2, h3, h4⟩ := prefix_flatMap hb hlt
  exact ⟨a, x, t2, q, r, h1, h2, h3, h4⟩

theorem runesF_append (s : Str) (w : Bytes) : ∀ f : Nat, (utf8 s).length ≤ f → ∃ f', runesF f (utf8 s ++ w) = s ++ runesF f' w := by
  induction s with
  | nil => intro f _; exact ⟨f, rfl⟩
  | cons c cs ih =>
    intro f h
    rw [utf8_cons] at h ⊢
    have hl := encodeChar_length c
    rw [List.length_append] at h
    rcases f with _ | f
    · omega
    rcases he : encodeChar c with _ | ⟨b, r⟩
    · exact absurd he (encodeChar_ne_nil c)
    have hd := decodeRune_encodeChar c (utf8 cs ++ w)
    rw [he] at hd
    obtain ⟨f', hf'⟩ := ih f (by omega)
    refine ⟨f', ?_⟩
    simp only [List.cons_append, List.append_assoc] at hd ⊢
    simp only [runesF, hd]
    rw [Char_ofNat_toNat]
    congr 1
    have : (b :: (r ++ (utf8 cs ++ w))).drop (b :: r).length = utf8 cs ++ w := by
      rw [← List.cons_append, List.drop_left]
    rw [this, hf']

theorem runesF_cont : ∀ (f : Nat) (w : Bytes), (∀ b ∈ w, 128 ≤ b.toNat ∧ b.toNat < 192) → ∀ c ∈ runesF f w, c = '�' := by
  intro f
  induction f with
  | zero => intro w _ c h; cases h
  | succ f ih =>
    intro w hw c h
    cases w with
    | nil => cases h
    | cons b r =>
      have hb := hw b (by simp)
      have hd : decodeRune (b :: r) = badRune := by
        unfold decodeRune
        simp only
        rw [if_neg (by omega), if_pos (by omega)]
      simp only [runesF, hd, badRune] at h
      rcases List.mem_cons.1 h with rfl | h
      · decide
      · exact ih r (fun x hx => hw x (by simp [hx])) c (by simpa using h)

theorem encodeChar_cut {c : Char} {w v : Bytes} (h : encodeChar c = w ++ v) (hv : v ≠ []) :
    (∀ b ∈ w, 128 ≤ b.toNat) ∧ ∀ (f : Nat), ∀ d ∈ runesF f w, d = '�' := by
  cases w with
  | nil => exact ⟨by simp, fun f d hd => by cases f <;> cases hd⟩
  | cons b r =>
    have hc := char_range c
    have key : 192 ≤ b.toNat ∧ (∀ x ∈ r, 128 ≤ x.toNat ∧ x.toNat < 192) ∧ decodeRune (b :: r) = badRune := by
      unfold encodeChar at h
      simp only at h
      split at h
      · simp only [List.cons_append, List.cons.injEq] at h
        exact absurd (List.append_eq_nil_iff.1 h.2.symm).2 hv
      split at h
      · match r, h with
        | [], h =>
          simp only [List.cons_append, List.nil_append, List.cons.injEq] at h
          obtain ⟨rfl, _⟩ := h
          have e := byte_toNat (n := 0xC0 + c.toNat / 64) (by omega)
          refine ⟨by rw [e]; omega, by simp, ?_⟩
          unfold decodeRune
          simp only [e]
          rw [if_neg (by omega), if_neg (by omega), if_pos (by omega)]
        | x :: r, h =>
          simp only [List.cons_append, List.cons.injEq] at h
          exact absurd (List.append_eq_nil_iff.1 h.2.2.symm).2 hv
      split at h
      · match r, h with
        | [], h =>
          simp only [List.cons_append, List.nil_append, List.cons.injEq] at h
          obtain ⟨rfl, _⟩ := h
          have e := byte_toNat (n := 0xE0 + c.toNat / 4096) (by omega)
          refine ⟨by rw [e]; omega, by simp, ?_⟩
          unfold decodeRune
          simp only [e]
          rw [if_neg (by omega), if_neg (by omega), if_neg (by omega), if_pos (by omega)]
        | [x], h =>
          simp only [List.cons_append, List.nil_append, List.cons.injEq] at h
          obtain ⟨rfl, rfl, _⟩ := h
          have e := byte_toNat (n := 0xE0 + c.toNat / 4096) (by omega)
          have e2 := byte_toNat (n := 0x80 + c.toNat / 64 % 64) (by omega)
          refine ⟨by rw [e]; omega, ?_, ?_⟩
          · simp only [List.mem_singleton, forall_eq, e2]; omega
          unfold decodeRune
          simp only [e]
          rw [if_neg (by omega), if_neg (by omega), if_neg (by omega), if_pos (by omega)]
        | x :: y :: r, h =>
          simp only [List.cons_append, List.cons.injEq] at h
          exact absurd (List.append_eq_nil_iff.1 h.2.2.2.symm).2 hv
      · match r, h with
        | [], h =>
          simp only [List.cons_append, List.nil_append, List.cons.injEq] at h
          obtain ⟨rfl, _⟩ := h
          have e := byte_toNat (n := 0xF0 + c.toNat / 262144) (by omega)
          refine ⟨by rw [e]; omega, by simp, ?_⟩
          unfold decodeRune
          simp only [e]
          rw [if_neg (by omega), if_neg (by omega), if_neg (by omega), if_neg (by omega), if_pos (by omega)]
        | [x], h =>
          simp only [List.cons_append, List.nil_append, List.cons.injEq] at h
          obtain ⟨rfl, rfl, _⟩ := h
          have e := byte_toNat (n := 0xF0 + c.toNat / 262144) (by omega)
          have e2 := byte_toNat (n := 0x80 + c.toNat / 4096 % 64) (by omega)
          refine ⟨by rw [e]; omega, ?_, ?_⟩
          · simp only [List.mem_singleton, forall_eq, e2]; omega
          unfold decodeRune
          simp only [e]
          rw [if_neg (by omega), if_neg (by omega), if_neg (by omega), if_neg (by omega), if_pos (by omega)]
        | [x, y], h =>
          simp only [List.cons_append, List.nil_append, List.cons.injEq] at h
          obtain ⟨rfl, rfl, rfl, _⟩ := h
          have e := byte_toNat (n := 0xF0 + c.toNat / 262144) (by omega)
          have e2 := byte_toNat (n := 0x80 + c.toNat / 4096 % 64) (by omega)
          have e3 := byte_toNat (n := 0x80 + c.toNat / 64 % 64) (by omega)
          refine ⟨by rw [e]; omega, ?_, ?_⟩
          · simp only [List.mem_cons, List.not_mem_nil, or_false, forall_eq_or_imp, forall_eq, e2, e3]; omega
          unfold decodeRune
          simp only [e]
          rw [if_neg (by omega), if_neg (by omega), if_neg (by omega), if_neg (by omega), if_pos (by omega)]
        | x :: y :: z :: r, h =>
          simp only [List.cons_append, List.cons.injEq] at h
          exact absurd (List.append_eq_nil_iff.1 h.2.2.2.2.symm).2 hv
    obtain ⟨k1, k2, k3⟩ := key
    constructor
    · intro x hx
      rcases List.mem_cons.1 hx with rfl | hx
      · omega
      · exact (k2 x hx).1
    · intro f d hd
      cases f with
      | zero => cases hd
      | succ f =>
        simp only [runesF, k3, badRune] at hd
        rcases List.mem_cons.1 hd with rfl | hd
        · decide
        · exact runesF_cont f r k2 d (by simpa using hd)

/-- The octets of folded text, cut off before the last letter: unfolded, they are the text cut off, and junk. -/
theorem unfold_cut {s t a : Str} {z : Char} (h : FoldOf s t) (hno : ¬ ['\r', '\n', ' '] <:+: s) (hz : z.toNat < 128 ∧ z ≠ '\r' ∧ z ≠ '\n' ∧ z ≠ ' ')
    (hs : s = a ++ [z, '\r', '\n']) {b : Bytes} (hb : b <+: utf8 t) (hlt : b.length + 2 < (utf8 t).length) :
    ∃ p x, runes (removeFolds b) = p ++ x ∧ Junk x ∧ p <+: s ∧ p.length + 2 < s.length := by
  obtain ⟨t1, c, t2, w, v, h1, h2, h3, h4⟩ := utf8_cut hb (by omega)
  obtain ⟨w1, w2⟩ := encodeChar_cut h3 h4
  obtain ⟨pre, s2, x, g1, g2, g3, g4⟩ := h.cut h1 hno
  have hr : removeFolds b = utf8 (pre ++ x) ++ w := by
    rw [h2, removeFolds_append' w w1 _ _ (Nat.le_refl _), removeFolds_utf8 _ _ (Nat.le_refl _), g2]
  obtain ⟨f', hf'⟩ := runesF_append (pre ++ x) w (removeFolds b).length (by rw [hr]; simp)
  refine ⟨pre, x ++ runesF f' w, ?_, ?_, ⟨s2, g1.symm⟩, ?_⟩
  · unfold runes
    conv => lhs; arg 2; rw [hr]
    rw [hf', List.append_assoc]
  · intro d hd
    rcases List.mem_append.1 hd with hd | hd
    · rcases g3 with rfl | rfl | rfl
      · cases hd
      · exact Or.inl (by simpa using hd)
      · simp at hd
        rcases hd with h | h
        · exact Or.inl h
        · exact Or.inr (Or.inl h)
    · exact Or.inr (Or.inr (w2 f' d hd))
  · obtain ⟨y, hy⟩ := h.tail a z hs
    have hend : ∃ y', x ++ c :: t2 = y' ++ [z, '\r', '\n'] := by
      have hlen : 3 ≤ (c :: t2).length := by
        refine Nat.le_of_not_lt fun hgt => ?_
        -- fewer than three characters are left: at most CR LF
        have hl2 : (utf8 t).length = (utf8 t1).length + (utf8 (c :: t2)).length := by rw [h1, utf8_append, List.length_append]
        have hle : (utf8 t1).length ≤ b.length := by rw [h2]; simp
        have hsuf : c :: t2 <:+ [z, '\r', '\n'] :=
          List.suffix_of_suffix_length_le (l₃ := t) ⟨t1, h1.symm⟩ ⟨y, hy.symm⟩ (by simp only [List.length_cons, List.length_nil] at hgt ⊢; omega)
        have hsuf2 : c :: t2 <:+ ['\r', '\n'] := by
          rcases List.suffix_cons_iff.1 hsuf with h | h
          · rw [h] at hgt; exact absurd hgt (by simp)
          · exact h
        have h22 : (utf8 (c :: t2)).length ≤ 2 := by
          rcases List.suffix_cons_iff.1 hsuf2 with h | h
          · rw [h]; decide
          · rcases List.suffix_cons_iff.1 h with h | h
            · rw [h]; decide
            · exact absurd (List.suffix_nil.1 h) (by simp)
        omega
      have hpre : [z, '\r', '\n'] <:+ c :: t2 := by
        refine List.suffix_of_suffix_length_le (l₃ := t) ⟨y, hy.symm⟩ ⟨t1, h1.symm⟩ (by simpa using hlen)
      obtain ⟨y', hy'⟩ := hpre
      exact ⟨x ++ y', by rw [← hy', List.append_assoc]⟩
    obtain ⟨y', hy'⟩ := hend
    obtain ⟨a', ha'⟩ := g4.tail' y' z hz.2.1 hz.2.2.1 hz.2.2.2 hy'
    rw [g1, ha']
    simp

end Ics
