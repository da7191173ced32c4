import Verif.ReturnExactLemmas
import Verif.Props.Decode
import Verif.Props.Unbroken
/-!
# Lemmas: the lines of two calendars one behind the other
-/

namespace Ics

open Spec Props

theorem depth_append (a b : List Line) : depth (a ++ b) = depth a + depth b := by simp [depth]

theorem depth_cons (l : Line) (a : List Line) : depth (l :: a) = (if Begins l then 1 else if Ends l then -1 else 0) + depth a := by simp [depth]

/-- How deep the lines go is seen from their names. -/
theorem depth_names : ∀ {a b : List Line}, a.map (·.name) = b.map (·.name) → depth a = depth b := by
  intro a
  induction a with
  | nil => intro b h; cases b with
    | nil => rfl
    | cons => cases h
  | cons l a ih =>
    intro b h
    cases b with
    | nil => cases h
    | cons m b =>
      simp only [List.map_cons, List.cons.injEq] at h
      rw [depth_cons, depth_cons, ih h.2]
      simp only [Begins, Ends, h.1]

/-- The first lines of a list that is closed have at least as many BEGIN as END lines. -/
theorem closed_up {k : List Line} (h : Closed k) : ∀ {q : List Line}, q <+: k → 0 ≤ depth q := by
  induction h with
  | nil => intro q h; rw [List.prefix_nil.1 h]; decide
  | @line l r hb he _ ih =>
    intro q h
    cases q with
    | nil => decide
    | cons m q =>
      obtain ⟨rfl, h'⟩ := List.cons_prefix_cons.1 h
      rw [depth_cons, if_neg hb, if_neg he]
      have := ih h'
      omega
  | @block b e k r hb he _ hk _ ih1 ih2 =>
    intro q h
    cases q with
    | nil => decide
    | cons m q =>
      rw [List.cons_append] at h
      obtain ⟨rfl, h'⟩ := List.cons_prefix_cons.1 h
      rw [depth_cons, if_pos hb]
      by_cases hl : q.length ≤ k.length
      · have := ih1 (List.prefix_of_prefix_length_le h' (List.prefix_append _ _) hl)
        omega
      · obtain ⟨q', rfl⟩ := List.prefix_of_prefix_length_le (List.prefix_append k _) h' (by omega)
        have h2 := (List.prefix_append_right_inj _).1 h'
        cases q' with
        | nil => simp at hl
        | cons m' q' =>
          obtain ⟨rfl, h3⟩ := List.cons_prefix_cons.1 h2
          have := ih2 h3
          rw [depth_append, depth_cons, closed_depth hk, if_neg (Ends.not_begin he), if_pos he]
          omega

/-- What is written for a calendar is a block. -/
theorem calLines_block (E : Env) {c : Cal} (ht : c.typed = true) (hv : c.valid = .ok ()) : (∀ l ∈ calLines E c, upper l.name = l.name) ∧
    ∃ k, calLines E c = plainLine kBEGIN tabCalendar.name :: k ++ [plainLine kEND tabCalendar.name] ∧ Closed k := by
  have h : GoodCal (fun _ _ => True) c := GoodCal.build (fun _ _ => True) _ (fun _ _ _ _ _ _ => trivial) c ht hv (fun _ _ => trivial)
  refine ⟨calLines_upper h, fieldLines E tabCalendar.fields c.fields ++ subsLines (compInner E) tabCalendar.subs c.subs, rfl, ?_⟩
  have hshape : ∀ x ∈ tabCalendar.subs.zip c.subs, ∀ y ∈ x.2, compInner E x.1.2 y = compBody E x.1.2 y ++ [plainLine kEND x.1.1] ∧ Closed (compBody E x.1.2 y) := by
    intro x hx y hy
    obtain ⟨a, b⟩ := comp_shape (E := E) (List.of_mem_zip hx).1 (h.2.2.1.of_zip x hx y hy)
    exact ⟨a, Items.closed b⟩
  exact Items.closed (Spec.Items.append (items_lines fun l hl => ⟨(fieldLines_lines calTab_wf l hl).1, (fieldLines_lines calTab_wf l hl).2.1⟩)
    (items_subs calTab_wf.subNames hshape))

theorem plain_begins (n : Str) : Begins (plainLine kBEGIN n) := by unfold Begins; rw [plainLine_name]; decide
theorem plain_ends (n : Str) : Ends (plainLine kEND n) := by unfold Ends; rw [plainLine_name]; decide

/-- The first lines of a calendar that is not complete are in the calendar. -/
theorem calLines_inside {E : Env} {c : Cal} (ht : c.typed = true) (hv : c.valid = .ok ()) {a z : List Line} (e : calLines E c = a ++ z) (ha : a ≠ []) (hz : z ≠ []) : 1 ≤ depth a := by
  obtain ⟨_, k, hk, hc⟩ := calLines_block E ht hv
  rw [hk] at e
  cases a with
  | nil => exact absurd rfl ha
  | cons m a =>
    simp only [List.cons_append, List.cons.injEq] at e
    obtain ⟨rfl, e⟩ := e
    have hl : a.length ≤ k.length := by
      have := congrArg List.length e
      have := List.length_pos_iff.2 hz
      simp at *
      omega
    have := closed_up hc (List.prefix_of_prefix_length_le ⟨z, e.symm⟩ (List.prefix_append _ _) hl)
    rw [depth_cons, if_pos (plain_begins _)]
    omega

theorem calLines_up {E : Env} {c : Cal} (ht : c.typed = true) (hv : c.valid = .ok ()) {q : List Line} (h : q <+: calLines E c) : 0 ≤ depth q := by
  obtain ⟨z, hz⟩ := h
  by_cases h1 : q = []
  · subst h1; decide
  · by_cases h2 : z = []
    · subst h2
      obtain ⟨_, k, hk, hc⟩ := calLines_block E ht hv
      rw [List.append_nil] at hz
      rw [hz, hk, depth_append, depth_cons, closed_depth hc, if_pos (plain_begins _), depth_cons, if_neg (Ends.not_begin (plain_ends _)), if_pos (plain_ends _)]
      decide
    · have := calLines_inside ht hv hz.symm h1 h2
      omega

/-- Lines that print as the first of these lines have their names. -/
theorem names_of_rows : ∀ {ls ms : List Line}, (∀ l ∈ ls, LineOk l) → (∀ l ∈ ms, LineWhole l) → ls.map printBare <+: ms.map printBare → ls.map (·.name) <+: ms.map (·.name) := by
  intro ls
  induction ls with
  | nil => intro ms _ _ _; exact List.nil_prefix
  | cons l ls ih =>
    intro ms h1 h2 h
    cases ms with
    | nil => cases List.prefix_nil.1 h
    | cons m ms =>
      simp only [List.map_cons] at h ⊢
      obtain ⟨e, h⟩ := List.cons_prefix_cons.1 h
      refine List.cons_prefix_cons.2 ⟨?_, ih (fun l hl => h1 l (.tail _ hl)) (fun l hl => h2 l (.tail _ hl)) h⟩
      exact same_name (x := []) (y := []) (h1 l (.head _)).name (h2 m (.head _)).named.name (by rw [e])

/-- Nothing is read as a calendar from lines that are in some block from the first one on. -/
theorem never_closed {E : Env} {s : Str} {c : Cal} {ms : List Line} (hn : (tokenise s).lines.map (·.name) <+: ms.map (·.name)) (hu : ∀ l ∈ ms, upper l.name = l.name)
    (hd : ∀ q, q <+: ms → q ≠ [] → 1 ≤ depth q) : decodeDoc E s ≠ .ok c := by
  intro h
  have hk : Keywords (tokenise s).lines := by
    intro l hl _
    obtain ⟨m, hm, e⟩ := List.mem_map.1 (hn.subset (List.mem_map_of_mem hl))
    rw [← e, hu m hm]
  obtain ⟨pre, rest, e, b, k, z, rfl, hb, _, hz, _, hc⟩ := C13_closed_partial E s c h hk
  have hp : (b :: k ++ [z]).map (·.name) <+: ms.map (·.name) := by
    refine List.IsPrefix.trans ?_ hn
    rw [e]
    exact (List.prefix_append _ rest).map _
  have h1 := List.prefix_iff_eq_take.1 hp
  rw [← List.map_take] at h1
  have h2 := hd _ (List.take_prefix _ _) (fun h => by rw [h] at h1; cases h1)
  rw [← depth_names h1, depth_append, depth_cons, closed_depth hc, if_pos hb, depth_cons, if_neg (Ends.not_begin hz), if_pos hz] at h2
  exact absurd h2 (by decide)

/-- Of lines without control characters the tokeniser gives no others. -/
theorem tokenise_whole {ms : List Line} (h : ∀ l ∈ ms, LineWhole l) : (tokenise (ms.flatMap printLine)).lines.map (·.name) <+: ms.map (·.name) := by
  have hok := (tokenise_front (s := ms.flatMap printLine) (pre := (tokenise (ms.flatMap printLine)).lines) (r := []) (by simp)).1
  refine names_of_rows hok h ?_
  have hr : ∀ r ∈ ms.map printBare, ∀ c ∈ r, NoCtl c := by
    intro r hr
    obtain ⟨l, hl, rfl⟩ := List.mem_map.1 hr
    exact (h l hl).clear
  rcases tokenise_rows [] _ hr with ⟨h, _⟩ | ⟨ls, h1, h2⟩
  · rwa [List.append_nil, joinRows_map] at h
  · rw [List.append_nil, joinRows_map] at h2
    rw [h2]
    rw [show (tokenise []).lines = [] from rfl, List.append_nil, h1]
    exact List.prefix_refl _

/-! ## The line where the two meet -/

/-- The line BEGIN:VCALENDAR. -/
def beginLine : Line := plainLine kBEGIN tabCalendar.name

theorem rows_meet : ∀ {ls a t : List Line} {r0 : Str}, ls.map printBare <+: a.map printBare ++ r0 :: t.map printBare →
    ls.map printBare <+: a.map printBare ∨ ∃ la j lt, ls = la ++ j :: lt ∧ la.map printBare = a.map printBare ∧ printBare j = r0 ∧ lt.map printBare <+: t.map printBare := by
  intro ls
  induction ls with
  | nil => intro a t r0 _; exact .inl List.nil_prefix
  | cons l ls ih =>
    intro a t r0 h
    cases a with
    | nil =>
      simp only [List.map_nil, List.nil_append, List.map_cons] at h
      obtain ⟨e, h⟩ := List.cons_prefix_cons.1 h
      exact .inr ⟨[], l, ls, rfl, rfl, e, h⟩
    | cons m a =>
      simp only [List.map_cons, List.cons_append] at h
      obtain ⟨e, h⟩ := List.cons_prefix_cons.1 h
      rcases ih h with h | ⟨la, j, lt, h1, h2, h3, h4⟩
      · exact .inl (by rw [List.map_cons, List.map_cons]; exact List.cons_prefix_cons.2 ⟨e, h⟩)
      · exact .inr ⟨l :: la, j, lt, by rw [h1]; rfl, by rw [List.map_cons, List.map_cons, e, h2], h3, h4⟩

/-- Text that goes on behind a carriage return with something else than a line feed has no line. -/
theorem lone_cr {x : Str} (hx : ∀ c ∈ x, NoCtl c) {b : Char} (hb : b ≠ '\n') {y : Str} : (tokenise (x ++ '\r' :: b :: y)).lines = [] := by
  cases h : (tokenise (x ++ '\r' :: b :: y)).lines with
  | nil => rfl
  | cons l ls =>
    obtain ⟨hk, ho⟩ := tokenise_front (s := x ++ '\r' :: b :: y) (pre := [l]) (r := ls) h
    have hl := printBare_NoCtl (hk l (.head _))
    have n1 : ∀ {z : Str}, (∀ c ∈ z, NoCtl c) → ∀ c ∈ z, (c != '\r') = true := fun h c hc => by simpa using (noCtl_ne_cr (h c hc)).1
    rcases ho with ⟨q, e⟩ | e
    · simp only [List.flatMap_cons, List.flatMap_nil, List.append_nil, printLine, List.append_assoc, List.cons_append, List.nil_append] at e
      obtain ⟨_, a2⟩ := takeWhile_stop (· != '\r') x ('\r' :: b :: y) (n1 hx) (by simp)
      obtain ⟨_, b2⟩ := takeWhile_stop (· != '\r') (printBare l) ('\r' :: '\n' :: q) (n1 hl) (by simp)
      rw [e, b2] at a2
      simp only [List.cons.injEq, true_and] at a2
      exact absurd a2.1.symm hb
    · simp only [List.flatMap_cons, List.flatMap_nil, List.append_nil, printLine, crlf] at e
      have := List.append_cancel_right e
      exact absurd rfl (noCtl_ne_cr (hl '\r' (by rw [← this]; simp))).1

theorem bare_name' (l : Line) : ∃ d w, printBare l = l.name ++ d :: w ∧ isIana d = false ∧ (d = ';' ∨ d = ':') := by
  obtain ⟨d, w, h, hd⟩ := printParams_head l.params l.value
  refine ⟨d, w, ?_, by rcases hd with rfl | rfl <;> decide, by rcases hd with rfl | rfl <;> simp⟩
  rw [printBare, List.append_assoc, h]

/-- The text behind a name. -/
theorem bare_name (l : Line) : ∃ d w, printBare l = l.name ++ d :: w ∧ isIana d = false := by
  obtain ⟨d, w, h, hd⟩ := printParams_head l.params l.value
  refine ⟨d, w, ?_, by rcases hd with rfl | rfl <;> decide⟩
  rw [printBare, List.append_assoc, h]

/-- The name of the line where the two meet: that of the line cut off, or, if it is cut off in its name, what is left of it with BEGIN behind. -/
theorem meet_name {x j : Line} {q y : Str} (hy : ∀ c ∈ y, c = '\uFFFD') (hx : LineNamed x) (hj : LineOk j) (hq : q <+: printBare x) (e : printBare j = q ++ (y ++ printBare beginLine)) :
    (j.name = x.name ∧ ∃ d w, q = x.name ++ d :: w) ∨ (y = [] ∧ q <+: x.name ∧ j.name = q ++ kBEGIN) := by
  obtain ⟨d, w, h, hd⟩ := bare_name x
  obtain ⟨d', w', h', hd', hs'⟩ := bare_name' j
  by_cases hl : q.length ≤ x.name.length
  · have hqn : q <+: x.name := List.prefix_of_prefix_length_le hq (by rw [h]; exact List.prefix_append _ _) hl
    have hqi : ∀ c ∈ q, IanaChar c := fun c hc => hx.name c (hqn.subset hc)
    cases y with
    | cons c y =>
      exfalso
      cases hy c (.head _)
      rw [h', List.cons_append] at e
      have := (name_split hj.name hqi hd' (by decide) e).2
      rw [(List.cons.inj this).1] at hs'
      rcases hs' with h | h <;> exact absurd h (by decide)
    | nil =>
    refine .inr ⟨rfl, hqn, ?_⟩
    rw [h'] at e
    have e : j.name ++ d' :: w' = (q ++ kBEGIN) ++ ':' :: tabCalendar.name := by rw [e]; simp [beginLine, plainLine, printBare, printParams]
    refine (name_split hj.name (fun c hc => ?_) hd' (by decide) e).1
    rcases List.mem_append.1 hc with hc | hc
    · exact hqi c hc
    · exact (isIana_iff c).1 ((by decide : ∀ c ∈ kBEGIN, isIana c = true) c hc)
  · obtain ⟨v, rfl⟩ := List.prefix_of_prefix_length_le (by rw [h]; exact List.prefix_append _ _ : x.name <+: printBare x) hq (by omega)
    rw [h] at hq
    have hv := (List.prefix_append_right_inj _).1 hq
    cases v with
    | nil => simp at hl
    | cons d'' v =>
      obtain ⟨rfl, _⟩ := List.cons_prefix_cons.1 hv
      refine .inl ⟨?_, _, v, rfl⟩
      rw [h', List.append_assoc, List.cons_append] at e
      exact (name_split hj.name hx.name hd' hd e).1

/-- BEGIN and END lines have short values, and no parameters. -/
def Marks (l : Line) : Prop := Begins l ∨ Ends l → ∃ n, l = plainLine l.name n ∧ n.length ≤ 9

theorem field_marks {E : Env} {fs : List SField} {vs : List (List PropVal)} (hf : ∀ f ∈ fs, FieldWf f) : ∀ l ∈ fieldLines E fs vs, Marks l := by
  intro l hl hn
  obtain ⟨f, h, e⟩ := fieldLines_names E fs vs l hl
  have hw := hf f h
  have hk : nameOk f.spec.name = true := by
    have := hw.spec
    unfold PSpec.wf at this
    rw [Bool.and_eq_true] at this
    exact this.1
  unfold Begins Ends at hn
  rw [e, (nameOk_iff.1 hk).2.2] at hn
  rcases hn with hn | hn
  · exact absurd hn hw.notCtl2.1
  · exact absurd hn hw.notCtl2.2.1

theorem plain_marks {a n : Str} (h : n.length ≤ 9) : Marks (plainLine a n) := fun _ => ⟨n, rfl, h⟩

theorem tab_marks {κ σ : Type} {E : Env} {T : Tab κ} (hw : T.Wf) (ht : T.name.length ≤ 9) (hs : ∀ x ∈ T.subs, x.1.length ≤ 9) {inner : κ → σ → List Line}
    (hi : ∀ x ∈ T.subs, ∀ y, ∀ l ∈ inner x.2 y, Marks l) (s : Sect σ) : ∀ l ∈ T.inner E inner s, Marks l := by
  intro l hl
  unfold Tab.inner at hl
  simp only [List.mem_append, List.mem_singleton] at hl
  rcases hl with (hl | hl) | rfl
  · exact field_marks hw.field l hl
  · obtain ⟨x, hx, rfl | ⟨y, h⟩⟩ := subsLines_mem l hl
    · exact plain_marks (hs x hx)
    · exact hi x hx y l h
  · exact plain_marks ht

theorem calTab_short : ∀ x ∈ tabCalendar.subs, x.1.length ≤ 9 ∧ x.2.name.length ≤ 9 ∧ ∀ y ∈ x.2.subs, y.1.length ≤ 9 ∧ ∀ T, y.2 = .leaf T → T.name.length ≤ 9 := by
  intro x hx
  simp only [tabCalendar, List.mem_cons, List.not_mem_nil, or_false] at hx
  rcases hx with rfl | rfl | rfl | rfl | rfl <;> refine ⟨by decide, by decide, ?_⟩ <;> intro y hy
  all_goals
    simp only [tabEvent, tabTodo, tabJournal, tabFreeBusy, tabTimezone, List.mem_cons, List.not_mem_nil, or_false] at hy
  · subst hy; exact ⟨by decide, fun T h => by cases h⟩
  · subst hy; exact ⟨by decide, fun T h => by cases h⟩
  · rcases hy with rfl | rfl <;> exact ⟨by decide, fun T h => by cases h; decide⟩

theorem calLines_marks (E : Env) (c : Cal) : ∀ l ∈ calLines E c, Marks l := by
  intro l hl
  rcases List.mem_cons.1 hl with rfl | hl
  · exact plain_marks (by decide)
  refine tab_marks calTab_wf (by decide) (fun x hx => (calTab_short x hx).1) ?_ c l hl
  intro x hx y l h
  obtain ⟨hw, hn, hg⟩ := compTab_good x hx
  obtain ⟨_, n1, n2⟩ := calTab_short x hx
  refine tab_marks hw n1 (fun y hy => (n2 y hy).1) ?_ y l h
  rintro ⟨n, k⟩ hz s l hl
  cases k with
  | leaf T =>
    cases s with
    | alarm => cases hl
    | leaf s => exact tab_marks (hg _ hz).1 ((n2 _ hz).2 T rfl) (fun x => nomatch x.2) (fun x => nomatch x.2) s l hl
  | alarm =>
    cases s with
    | leaf => cases hl
    | alarm o =>
      cases o with
      | none => cases hl
      | some o =>
        obtain ⟨a, s⟩ := o
        have hl : l ∈ plainLine kACTION a.action :: a.tab.inner E noInner s := hl
        rcases List.mem_cons.1 hl with rfl | hl
        · exact fun h => absurd h (by unfold Begins Ends; rw [plainLine_name]; decide)
        · exact tab_marks (aTab_wf a) (by rw [(aTab_name a).1]; decide) (fun x => nomatch x.2) (fun x => nomatch x.2) s l hl

/-- Where a BEGIN or END line is cut off in its value, the line where the two meet has a long value. -/
theorem meet_long {x j : Line} {q y : Str} (hy : ∀ c ∈ y, NoCtl c) (hx : LineWhole x) (hm : Begins x ∨ Ends x) (hs : Marks x) (hj : LineOk j) (hq : q <+: printBare x) {d : Char} {w : Str}
    (hw : q = x.name ++ d :: w) (e : printBare j = q ++ (y ++ printBare beginLine)) : 15 ≤ j.value.length := by
  obtain ⟨n, hn, _⟩ := hs hm
  have hb : printBare x = x.name ++ ':' :: n := by rw [hn]; simp [plainLine, printBare, printParams]
  rw [hb, hw] at hq
  obtain ⟨rfl, hwn⟩ := List.cons_prefix_cons.1 ((List.prefix_append_right_inj _).1 hq)
  have h0 : LineOk (plainLine x.name (w ++ (y ++ printBare beginLine))) := by
    refine ⟨hx.named.name_ne, hx.named.name, by simp [plainLine], by simp [plainLine], by simp [plainLine], fun c hc => ?_⟩
    rcases List.mem_append.1 hc with hc | hc
    · exact hx.clear c (by rw [hb]; simp [hwn.subset hc])
    rcases List.mem_append.1 hc with hc | hc
    · exact hy c hc
    · exact printBare_NoCtl (plainLine_ok (by decide) (by decide) : LineOk beginLine) c hc
  have := printLine_inj hj h0 (by
    unfold printLine
    rw [e, hw]
    simp [plainLine, printBare, printParams])
  rw [this]
  simp only [plainLine, List.length_append]
  have : (printBare beginLine).length = 15 := by decide
  omega

theorem short_begin {b m : Line} (hs : Marks m) (hm : Begins m) (hn : b.name = m.name) (e : printBare b = printBare m) : b.value.length ≤ 9 := by
  obtain ⟨n, h, hl⟩ := hs (.inl hm)
  have h1 : printBare m = m.name ++ ':' :: n := by rw [h]; simp [plainLine, printBare, printParams]
  rw [h1] at e
  have := congrArg List.length e
  simp only [printBare, List.length_append, List.length_cons, hn] at this
  omega

/-- In closed lines every END line has a BEGIN line. -/
theorem closed_partner {k : List Line} (h : Closed k) : ∀ e ∈ k, Ends e → ∃ b ∈ k, Begins b ∧ upper b.value = upper e.value := by
  induction h with
  | nil => intro e he; cases he
  | line hb hn _ ih =>
    intro e he hen
    rcases List.mem_cons.1 he with rfl | he
    · exact absurd hen hn
    · obtain ⟨b, h1, h2⟩ := ih e he hen
      exact ⟨b, .tail _ h1, h2⟩
  | @block b z k r hb hz hv _ _ ih1 ih2 =>
    intro e he hen
    rw [List.cons_append, List.mem_cons, List.mem_append, List.mem_cons] at he
    rcases he with rfl | he | rfl | he
    · exact absurd hb (Ends.not_begin hen)
    · obtain ⟨b', h1, h2⟩ := ih1 e he hen
      exact ⟨b', by simp [h1], h2⟩
    · exact ⟨b, by simp, hb, hv.symm⟩
    · obtain ⟨b', h1, h2⟩ := ih2 e he hen
      exact ⟨b', by simp [h1], h2⟩

/-- A line that is in no block is one of the items. -/
theorem items_at {k : List Line} {is : List Item} (h : Items k is) : ∀ {u w : List Line} {l : Line}, k = u ++ l :: w → depth u = 0 → ¬ Begins l → ¬ Ends l →
    ∃ is1 is2, is = is1 ++ .line l :: is2 ∧ Items w is2 := by
  induction h with
  | nil => intro u w l e; cases u <;> cases e
  | @line m r is hb he hi ih =>
    intro u w l e hd h1 h2
    cases u with
    | nil =>
      cases e
      exact ⟨[], is, rfl, hi⟩
    | cons m' u =>
      simp only [List.cons_append, List.cons.injEq] at e
      obtain ⟨rfl, e⟩ := e
      rw [depth_cons, if_neg hb, if_neg he] at hd
      obtain ⟨is1, is2, h3, h4⟩ := ih e (by omega) h1 h2
      exact ⟨.line m :: is1, is2, by rw [h3]; rfl, h4⟩
  | @block b z k r is hb hz hv hk hi ih =>
    intro u w l e hd h1 h2
    cases u with
    | nil =>
      simp only [List.cons_append, List.nil_append, List.cons.injEq] at e
      exact absurd (e.1 ▸ hb) h1
    | cons m' u =>
      simp only [List.cons_append, List.cons.injEq] at e
      obtain ⟨rfl, e⟩ := e
      rw [depth_cons, if_pos hb] at hd
      by_cases hl : u.length ≤ k.length
      · have := closed_up hk (List.prefix_of_prefix_length_le ⟨_, e.symm⟩ (List.prefix_append k _) hl)
        omega
      · obtain ⟨u', rfl⟩ := List.prefix_of_prefix_length_le (List.prefix_append k (z :: r)) ⟨_, e.symm⟩ (by omega)
        rw [List.append_assoc, List.append_cancel_left_eq] at e
        cases u' with
        | nil => simp at hl
        | cons z' u' =>
          simp only [List.cons_append, List.cons.injEq] at e
          obtain ⟨rfl, e⟩ := e
          rw [depth_append, closed_depth hk, depth_cons, if_neg (Ends.not_begin hz), if_pos hz] at hd
          obtain ⟨is1, is2, h3, h4⟩ := ih e (by omega) h1 h2
          exact ⟨_ :: is1, is2, by rw [h3]; rfl, h4⟩

/-- The second line of a calendar is VERSION. -/
theorem calLines_version (E : Env) {c : Cal} (ht : c.typed = true) (hv : c.valid = .ok ()) : ∃ v r, calLines E c = beginLine :: v :: r ∧ v.name = c!"VERSION" := by
  have h : GoodCal (fun _ _ => True) c := GoodCal.build (fun _ _ => True) _ (fun _ _ _ _ _ _ => trivial) c ht hv (fun _ _ => trivial)
  obtain ⟨fs, ss⟩ := c
  obtain ⟨h1, _, _, h4⟩ := h
  cases fs with
  | nil => exact absurd h1 id
  | cons v vs =>
    cases v with
    | nil => simp [tabCalendar, reqMet] at h4
    | cons p v => exact ⟨_, _, rfl, toLine_name _ _ _⟩

end Ics
