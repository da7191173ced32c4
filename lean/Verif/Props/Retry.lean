import Verif.RetryLemmas
import Verif.Props.Edits
import Verif.Props.LeftBehind
/-!
# C120: Encode tried again into the same file

What the first call has left is a first part of what it would have written (C119); the second call writes behind it.
-/

namespace Ics.Props

open Ics Spec

/-- What is left in front may be part of the name of the first property: then the line where the two calendars meet is not known, and makes no difference. -/
theorem retry_version (E : Env) {v : Str} (hv : v <+: c!"VERSION") (hne : v ≠ []) (rest : Str) :
    decodeDoc E (c!"BEGIN:VCALENDAR\r\n" ++ v ++ (printLine beginLine ++ rest)) = decodeDoc E (printLine beginLine ++ rest) := by
  have hb : LineOk beginLine := plainLine_ok (by decide) (by decide)
  have h0 : printLine beginLine = c!"BEGIN:VCALENDAR\r\n" := by decide
  have key : LineOk (plainLine (v ++ kBEGIN) c!"VCALENDAR") ∧ Foreign (plainLine (v ++ kBEGIN) c!"VCALENDAR") := by
    have h1 := List.prefix_iff_eq_take.1 hv
    have h2 := hv.length_le
    have h3 := List.length_pos_iff.2 hne
    generalize v.length = n at *
    subst h1
    have h2 : n ≤ 7 := h2
    have : n = 1 ∨ n = 2 ∨ n = 3 ∨ n = 4 ∨ n = 5 ∨ n = 6 ∨ n = 7 := by omega
    rcases this with rfl | rfl | rfl | rfl | rfl | rfl | rfl <;> exact ⟨plainLine_ok (by decide) (by decide), by decide +kernel⟩
  refine C40_foreign E _ _ beginLine (plainLine (v ++ kBEGIN) c!"VCALENDAR") [] (tokenise rest).lines (tokenise rest).term (tokenise_print _ hb _) ?_ key.2
  have : c!"BEGIN:VCALENDAR\r\n" ++ v ++ (printLine beginLine ++ rest) = printLine beginLine ++ (printLine (plainLine (v ++ kBEGIN) c!"VCALENDAR") ++ rest) := by
    rw [h0]
    simp [printLine, printBare, plainLine, printParams, kBEGIN, List.append_assoc]
  rw [this, tokenise_print _ hb, tokenise_print _ key.1]
  rfl

/-- Behind a first part of a calendar, not all of it, and replacement characters, a calendar has been written. -/
theorem retry_read (E1 E2 E' : Env) (c d c' : Cal) (ht : c.typed = true) (hv : c.valid = .ok ()) (hu : Unbroken E1 c) (ht' : d.typed = true) (hv' : d.valid = .ok ()) (hu' : Unbroken E2 d)
    (s t p : Str) (hs : encodeDoc E1 c = some s) (hs' : encodeDoc E2 d = some t) (h1 : p <+: s) (h2 : p ≠ s)
    (y : Str) (hy : ∀ c ∈ y, c = '\uFFFD') (h : decodeDoc E' (p ++ (y ++ t)) = .ok c') :
    y = [] ∧ (p = [] ∨ ∃ v, v ≠ [] ∧ v <+: c!"VERSION" ∧ p = c!"BEGIN:VCALENDAR\r\n" ++ v) ∧ decodeDoc E' t = .ok c' := by
  have hyc : ∀ c ∈ y, NoCtl c := fun c hc => by rw [hy c hc]; decide
  obtain ⟨e1, _, _⟩ := written_lines ht hv hs
  obtain ⟨e2, _, _⟩ := written_lines ht' hv' hs'
  have w1 := unbroken_lines ht hv hs hu
  have w2 := unbroken_lines ht' hv' hs' hu'
  obtain ⟨u1, -⟩ := calLines_block E1 ht hv
  obtain ⟨u2, -⟩ := calLines_block E2 ht' hv'
  obtain ⟨vc, rc, hc, hvc⟩ := calLines_version E1 ht hv
  obtain ⟨vd, rd, hd, hvd⟩ := calLines_version E2 ht' hv'
  have m1 := calLines_marks E1 c
  have m2 := calLines_marks E2 d
  have hb0 : LineOk beginLine := plainLine_ok (by decide) (by decide)
  have hbb : Begins beginLine := plain_begins _
  have ht0 : t = printLine beginLine ++ (vd :: rd).flatMap printLine := by rw [e2, hd]; rfl
  have hlen : p.length < ((calLines E1 c).flatMap printLine).length := by
    rw [← e1]
    have := h1.length_le
    rcases Nat.lt_or_ge p.length s.length with h | h
    · exact h
    · exact absurd (h1.eq_of_length (by omega)) h2
  rw [e1] at h1
  obtain ⟨a, x, z, q, r, ea, ep, ex, hr⟩ := prefix_flatMap h1 hlen
  have ha : ∀ l ∈ a, l ∈ calLines E1 c := fun l hl => by rw [ea]; simp [hl]
  have hx : x ∈ calLines E1 c := by rw [ea]; simp
  have hok := (tokenise_front (s := p ++ (y ++ t)) (pre := (tokenise (p ++ (y ++ t))).lines) (r := []) (by simp)).1
  -- the lines in front of the cut do not end a calendar
  have inA : ∀ {q : List Line}, q <+: a → q ≠ [] → 1 ≤ depth q := by
    rintro q ⟨y, hy⟩ hq
    refine calLines_inside (E := E1) (z := y ++ x :: z) ht hv ?_ hq (by simp)
    rw [ea, ← hy, List.append_assoc]
  have only : (tokenise (p ++ (y ++ t))).lines.map printBare <+: a.map printBare → False := fun hp =>
    never_closed (ms := a) (names_of_rows hok (fun l hl => w1 l (ha l hl)) hp) (fun l hl => u1 l (ha l hl)) (fun _ h1 h2 => inA h1 h2) h
  have hra : ∀ r ∈ a.map printBare, ∀ c ∈ r, NoCtl c := by
    intro r hr
    obtain ⟨l, hl, rfl⟩ := List.mem_map.1 hr
    exact (w1 l (ha l hl)).clear
  by_cases hq : q <+: printBare x
  rotate_left
  · -- between CR and LF
    have hq : q = printBare x ++ ['\r'] := by
      unfold printLine at ex
      have hl : ¬ q.length ≤ (printBare x).length := fun hl => hq (List.prefix_of_prefix_length_le ⟨r, ex.symm⟩ (List.prefix_append _ _) hl)
      have h3 := congrArg List.length ex
      have h4 := List.length_pos_iff.2 hr
      simp only [List.length_append, List.length_cons, List.length_nil] at h3
      have h5 : q <+: printBare x ++ ['\r'] := by
        refine List.prefix_of_prefix_length_le ⟨r, ex.symm⟩ ⟨['\n'], by simp⟩ ?_
        simp only [List.length_append, List.length_cons, List.length_nil]
        omega
      exact h5.eq_of_length (by simp only [List.length_append, List.length_cons, List.length_nil]; omega)
    exfalso
    obtain ⟨b, u, hbn, hbu⟩ : ∃ b u, b ≠ '\n' ∧ y ++ t = b :: u := by
      cases y with
      | nil => exact ⟨'B', c!"EGIN:VCALENDAR\r\n" ++ (vd :: rd).flatMap printLine, by decide, by rw [ht0, show printLine beginLine = 'B' :: c!"EGIN:VCALENDAR\r\n" from by decide]; rfl⟩
      | cons b y => exact ⟨b, y ++ t, by rw [hy b (.head _)]; decide, rfl⟩
    have hpt : p ++ (y ++ t) = joinRows (a.map printBare) ++ (printBare x ++ '\r' :: b :: u) := by
      rw [ep, hq, hbu, joinRows_map]
      simp
    rcases tokenise_rows (printBare x ++ '\r' :: b :: u) _ hra with ⟨h3, _⟩ | ⟨ls, h3, h4⟩
    · exact only (by rw [hpt]; exact h3)
    · refine only ?_
      rw [hpt, h4, lone_cr (w1 x hx).clear hbn, List.append_nil, h3]
      exact List.prefix_refl _
  -- the lines
  have hrows : (tokenise (p ++ (y ++ t))).lines.map printBare <+: a.map printBare ++ (q ++ (y ++ printBare beginLine)) :: (vd :: rd).map printBare := by
    have hR : ∀ r ∈ a.map printBare ++ (q ++ (y ++ printBare beginLine)) :: (vd :: rd).map printBare, ∀ c ∈ r, NoCtl c := by
      intro r hr c hc
      rcases List.mem_append.1 hr with hr | hr
      · exact hra r hr c hc
      rcases List.mem_cons.1 hr with rfl | hr
      · rcases List.mem_append.1 hc with hc | hc
        · exact (w1 x hx).clear c (hq.subset hc)
        rcases List.mem_append.1 hc with hc | hc
        · exact hyc c hc
        · exact printBare_NoCtl hb0 c hc
      · obtain ⟨l, hl, rfl⟩ := List.mem_map.1 hr
        exact (w2 l (by rw [hd]; exact .tail _ hl)).clear c hc
    have hpt : p ++ (y ++ t) = joinRows (a.map printBare ++ (q ++ (y ++ printBare beginLine)) :: (vd :: rd).map printBare) := by
      rw [ep, ht0, ← joinRows_map (vd :: rd), ← joinRows_map a]
      simp [joinRows, printLine]
    rcases tokenise_rows [] _ hR with ⟨h3, _⟩ | ⟨ls, h3, h4⟩
    · rwa [List.append_nil, ← hpt] at h3
    · rw [List.append_nil, ← hpt] at h4
      rw [h4, show (tokenise []).lines = [] from rfl, List.append_nil, h3]
      exact List.prefix_refl _
  rcases rows_meet hrows with h3 | ⟨la, j, lt, el, hla, ej, hlt⟩
  · exact (only h3).elim
  have hjk : LineOk j := hok j (by rw [el]; simp)
  have hlan : la.map (·.name) = a.map (·.name) :=
    (names_of_rows (fun l hl => hok l (by rw [el]; simp [hl])) (fun l hl => w1 l (ha l hl)) (by rw [hla]; exact List.prefix_refl _)).eq_of_length
      (by have := congrArg List.length hla; simpa using this)
  have hltn : lt.map (·.name) <+: (vd :: rd).map (·.name) :=
    names_of_rows (fun l hl => hok l (by rw [el]; simp [hl])) (fun l hl => w2 l (by rw [hd]; exact .tail _ hl)) hlt
  have hjn := meet_name hy (w1 x hx).named hjk hq ej
  have hju : upper j.name = j.name := by
    rcases hjn with ⟨h, _⟩ | ⟨_, h, h'⟩
    · rw [h]; exact u1 x hx
    · obtain ⟨y, hy⟩ := h
      have := u1 x hx
      rw [← hy] at this
      simp only [upper, List.map_append] at this
      have hq : q.map upperC = q := List.append_inj_left this (by simp)
      rw [h']
      simp only [upper, List.map_append, hq]
      exact congrArg (q ++ ·) (by decide : kBEGIN.map upperC = kBEGIN)
  have hnames : (tokenise (p ++ (y ++ t))).lines.map (·.name) <+: (a ++ j :: vd :: rd).map (·.name) := by
    rw [el, List.map_append, List.map_append, hlan, List.map_cons, List.map_cons]
    exact (List.prefix_append_right_inj _).2 (List.cons_prefix_cons.2 ⟨rfl, hltn⟩)
  have hup : ∀ l ∈ a ++ j :: vd :: rd, upper l.name = l.name := by
    intro l hl
    rcases List.mem_append.1 hl with hl | hl
    · exact u1 l (ha l hl)
    rcases List.mem_cons.1 hl with rfl | hl
    · exact hju
    · exact u2 l (by rw [hd]; exact .tail _ hl)
  have hdown : ∀ {u : List Line}, u <+: vd :: rd → -1 ≤ depth u := by
    intro u hu
    have := calLines_up (E := E2) ht' hv' (q := beginLine :: u) (by rw [hd]; exact List.cons_prefix_cons.2 ⟨rfl, hu⟩)
    rw [depth_cons, if_pos hbb] at this
    omega
  have hsplit : ∀ {q : List Line}, q <+: a ++ j :: vd :: rd → q <+: a ∨ ∃ u, q = a ++ j :: u ∧ u <+: vd :: rd := by
    intro q hq
    by_cases hl : q.length ≤ a.length
    · exact .inl (List.prefix_of_prefix_length_le hq (List.prefix_append _ _) hl)
    · obtain ⟨y, rfl⟩ := List.prefix_of_prefix_length_le (List.prefix_append a _) hq (by omega)
      have hy := (List.prefix_append_right_inj _).1 hq
      cases y with
      | nil => simp at hl
      | cons j' y =>
        obtain ⟨rfl, hy'⟩ := List.cons_prefix_cons.1 hy
        exact .inr ⟨y, rfl, hy'⟩
  by_cases hea : a = []
  · -- the cut is in the first line
    subst hea
    cases List.map_eq_nil_iff.1 hla
    have hxb : x = beginLine := by
      rw [hc] at ea
      cases ea
      rfl
    by_cases hq0 : q = []
    · subst hq0
      have hp0 : p = [] := by rw [ep]; rfl
      have hy0 : y = [] := by
        rcases hjn with ⟨_, d', w, hw⟩ | ⟨h, _⟩
        · simp at hw
        · exact h
      refine ⟨hy0, .inl hp0, ?_⟩
      rwa [hp0, hy0] at h
    exfalso
    obtain ⟨b, k, e, rest, h3, hb, hbv, -, -⟩ := C13_begin_and_end E' _ _ h
    rw [el] at h3
    have hbj : j = b := by
      simp only [List.nil_append, List.cons_append, List.cons.injEq] at h3
      exact h3.1
    subst hbj
    rcases hjn with ⟨_, d', w, hw⟩ | ⟨_, h4⟩
    · have h5 := meet_long hyc (w1 x hx) (.inl (by rw [hxb]; exact hbb)) (m1 x hx) hjk hq hw ej
      have h6 := congrArg List.length hbv
      have h7 : j.value.length = 9 := by simpa [upper] using h6
      omega
    · have h5 := congrArg List.length hb
      rw [h4.2] at h5
      simp only [upper, List.length_map, List.length_append] at h5
      have h6 : q.length + 5 = 5 := h5
      exact hq0 (List.length_eq_zero_iff.1 (by omega))
  have hda : 1 ≤ depth a := inA (List.prefix_refl _) hea
  have hk : Keywords (tokenise (p ++ (y ++ t))).lines := by
    intro l hl _
    obtain ⟨m, hm, e⟩ := List.mem_map.1 (hnames.subset (List.mem_map_of_mem hl))
    rw [← e, hup m hm]
  by_cases hjb : Begins j
  · -- a block in the first calendar
    refine (never_closed hnames hup (fun q' h3 h4 => ?_) h).elim
    rcases hsplit h3 with h3 | ⟨u, rfl, hu⟩
    · exact inA h3 h4
    · have := hdown hu
      rw [depth_append, depth_cons, if_pos hjb]
      omega
  by_cases hje : Ends j
  · -- an END that is none
    exfalso
    obtain ⟨pre, rest, h3, b, k, e, rfl, hb, -, he, hev, hcl⟩ := C13_closed_partial E' _ _ h hk
    have h15 : 15 ≤ j.value.length := by
      rcases hjn with ⟨h4, d', w, hw⟩ | ⟨_, h4⟩
      · have hxe : Ends x := by unfold Ends at hje ⊢; rwa [← h4]
        exact meet_long hyc (w1 x hx) (.inr hxe) (m1 x hx) hjk hq hw ej
      · have h5 := congrArg List.length hje
        rw [h4.2] at h5
        simp only [upper, List.length_map, List.length_append] at h5
        have h6 : q.length + 5 = 3 := h5
        omega
    have hzero : depth (b :: k ++ [e]) = 0 := by
      rw [depth_append, depth_cons, closed_depth hcl, if_pos hb, depth_cons, if_neg (Ends.not_begin he), if_pos he]
      decide
    have hjm : j ∈ b :: k ++ [e] := by
      rw [el] at h3
      by_cases hl : (b :: k ++ [e]).length ≤ la.length
      · exfalso
        have hpre : (b :: k ++ [e]) <+: la := List.prefix_of_prefix_length_le ⟨rest, h3.symm⟩ (List.prefix_append _ _) hl
        have h4 : (b :: k ++ [e]).map (·.name) <+: a.map (·.name) := hlan ▸ hpre.map _
        have h5 := List.prefix_iff_eq_take.1 h4
        rw [← List.map_take] at h5
        have h6 := inA (List.take_prefix _ _) (fun h => by rw [h] at h5; cases h5)
        rw [← depth_names h5, hzero] at h6
        exact absurd h6 (by decide)
      · obtain ⟨y, hy⟩ := List.prefix_of_prefix_length_le (List.prefix_append la (j :: lt)) ⟨rest, h3.symm⟩ (by omega)
        rw [← hy, List.append_assoc, List.append_cancel_left_eq] at h3
        cases y with
        | nil => rw [List.append_nil] at hy; rw [hy] at hl; exact absurd (Nat.le_refl _) hl
        | cons j' y =>
          simp only [List.cons_append, List.cons.injEq] at h3
          rw [← hy, h3.1]
          simp
    have hall : ∀ m ∈ b :: k ++ [e], Begins m → m.value.length ≤ 9 := by
      intro m hm hmb
      have hm : m ∈ la ++ j :: lt := by rw [← el, h3]; exact List.mem_append_left _ hm
      rcases List.mem_append.1 hm with hm | hm
      · obtain ⟨y, hy, e⟩ := List.mem_map.1 (hla ▸ List.mem_map_of_mem (f := printBare) hm : printBare m ∈ a.map printBare)
        have hn : m.name = y.name := same_name (x := []) (y := []) (hok m (by rw [el]; simp [hm])).name (w1 y (ha y hy)).named.name (by rw [e])
        exact short_begin (m1 y (ha y hy)) (by unfold Begins at hmb ⊢; rwa [← hn]) hn e.symm
      rcases List.mem_cons.1 hm with rfl | hm
      · exact absurd hmb hjb
      · obtain ⟨y, hy, e⟩ := List.mem_map.1 (hlt.subset (List.mem_map_of_mem (f := printBare) hm))
        have hyd : y ∈ calLines E2 d := by rw [hd]; exact .tail _ hy
        have hn : m.name = y.name := same_name (x := []) (y := []) (hok m (by rw [el]; simp [hm])).name (w2 y hyd).named.name (by rw [e])
        exact short_begin (m2 y hyd) (by unfold Begins at hmb ⊢; rwa [← hn]) hn e.symm
    rw [List.cons_append, List.mem_cons, List.mem_append, List.mem_singleton] at hjm
    rcases hjm with rfl | hjm | rfl
    · exact hjb hb
    · obtain ⟨m, hm, hmb, hmv⟩ := closed_partner hcl j hjm hje
      have h4 := hall m (by simp [hm]) hmb
      have h5 := congrArg List.length hmv
      simp only [upper, List.length_map] at h5
      omega
    · rw [hev] at h15
      exact absurd h15 (by decide)
  -- any other line
  by_cases hd2 : 2 ≤ depth a
  · refine (never_closed hnames hup (fun q' h3 h4 => ?_) h).elim
    rcases hsplit h3 with h3 | ⟨u, rfl, hu⟩
    · exact inA h3 h4
    · have := hdown hu
      rw [depth_append, depth_cons, if_neg hjb, if_neg hje]
      omega
  have hd1 : depth a = 1 := by omega
  have hvb : ∀ {l : Line}, l.name = c!"VERSION" → ¬ Begins l ∧ ¬ Ends l := by
    intro l hl
    unfold Begins Ends
    rw [hl]
    decide
  obtain ⟨pre, rest, h3, b, k, e, rfl, hb, -, he, -, is, hi, -, -, hf, -⟩ := decodeStream_sound hk h
  have hcl := Items.closed hi
  have hzero : depth (b :: k ++ [e]) = 0 := by
    rw [depth_append, depth_cons, closed_depth hcl, if_pos hb, depth_cons, if_neg (Ends.not_begin he), if_pos he]
    decide
  have hone : (linesNamed is c!"VERSION").length = 1 := (hf 0 _ rfl).2
  -- the calendar goes beyond the second VERSION
  have hpn : (b :: k ++ [e]).map (·.name) <+: (a ++ j :: vd :: rd).map (·.name) := by
    refine List.IsPrefix.trans ?_ hnames
    rw [h3]
    exact (List.prefix_append _ rest).map _
  have hpt := List.prefix_iff_eq_take.1 hpn
  rw [← List.map_take] at hpt
  have hz2 := depth_names hpt
  rw [hzero] at hz2
  rw [List.length_map] at hpt hz2
  have hbig : a.length + 2 < (b :: k ++ [e]).length := by
    rcases hsplit (List.take_prefix (b :: k ++ [e]).length (a ++ j :: vd :: rd)) with h5 | ⟨u, hu, hu'⟩
    · have h6 := inA h5 (fun h => by rw [h] at hpt; cases hpt)
      rw [← hz2] at h6
      exact absurd h6 (by decide)
    · have hl := congrArg List.length hpt
      rw [hu] at hl hz2
      rw [depth_append, depth_cons, if_neg hjb, if_neg hje, hd1] at hz2
      simp only [List.length_map] at hl
      rw [hl]
      simp only [List.length_append, List.length_cons]
      cases u with
      | nil => exact absurd hz2 (by decide)
      | cons y u =>
        obtain ⟨rfl, _⟩ := List.cons_prefix_cons.1 hu'
        cases u with
        | nil =>
          rw [depth_cons, if_neg (hvb hvd).1, if_neg (hvb hvd).2] at hz2
          exact absurd hz2 (by decide)
        | cons y' u => simp only [List.length_cons]; omega
  have hlal : la.length = a.length := by have := congrArg List.length hla; simpa using this
  -- the lines of the calendar
  obtain ⟨v', w', hk', hv'n⟩ : ∃ v' w', b :: k = la ++ j :: v' :: w' ∧ v'.name = c!"VERSION" := by
    have h5 : (tokenise (p ++ (y ++ t))).lines = (b :: k) ++ (e :: rest) := by rw [h3]; simp
    rw [el] at h5
    have hbk : a.length + 2 ≤ (b :: k).length := by
      simp only [List.length_append, List.length_cons, List.length_nil] at hbig ⊢
      omega
    obtain ⟨y, hy⟩ := List.prefix_of_prefix_length_le (List.prefix_append la (j :: lt)) ⟨_, h5.symm⟩ (by omega)
    rw [← hy, List.append_assoc, List.append_cancel_left_eq] at h5
    have hyl : 2 ≤ y.length := by
      have := congrArg List.length hy
      rw [List.length_append] at this
      omega
    match y, hyl with
    | j' :: v' :: w', _ =>
      simp only [List.cons_append, List.cons.injEq] at h5
      obtain ⟨rfl, h5⟩ := h5
      refine ⟨v', w', hy.symm, ?_⟩
      rw [h5, List.map_cons, List.map_cons] at hltn
      exact (List.cons_prefix_cons.1 hltn).1.trans hvd
  have two : ∀ {f : Line} {m : List Line}, la ++ [j] = b :: f :: m → f.name = c!"VERSION" → False := by
    intro f m e1 hfn
    have hkk : k = f :: (m ++ v' :: w') := by
      have : la ++ j :: v' :: w' = (la ++ [j]) ++ v' :: w' := by simp
      rw [this, e1] at hk'
      simpa using hk'
    have hdm : depth m = 0 := by
      have h6 := congrArg depth e1
      rw [depth_append, depth_names hlan, hd1, depth_cons, depth_cons, depth_cons, if_neg hjb, if_neg hje, if_pos hb, if_neg (hvb hfn).1, if_neg (hvb hfn).2] at h6
      have : depth ([] : List Line) = 0 := rfl
      omega
    rw [hkk] at hi
    obtain ⟨i1, i2, hi1, hi2⟩ := items_at hi (u := []) rfl rfl (hvb hfn).1 (hvb hfn).2
    obtain ⟨i3, i4, hi3, _⟩ := items_at hi2 rfl hdm (hvb hv'n).1 (hvb hv'n).2
    have uv : upper c!"VERSION" = c!"VERSION" := by decide
    rw [hi1, hi3] at hone
    simp only [linesNamed, List.filterMap_append, List.filterMap_cons, hfn, hv'n, uv, if_true, List.length_append, List.length_cons] at hone
    omega
  rw [hc] at ea
  cases a with
  | nil => exact absurd rfl hea
  | cons a0 a1 =>
    simp only [List.cons_append, List.cons.injEq] at ea
    obtain ⟨ha0, ea⟩ := ea
    cases la with
    | nil => cases hla
    | cons l0 l1 =>
      have hl0 : b = l0 := by
        simp only [List.cons_append, List.cons.injEq] at hk'
        exact hk'.1
      subst hl0
      cases a1 with
      | cons a2 a1 =>
        exfalso
        simp only [List.cons_append, List.cons.injEq] at ea
        simp only [List.map_cons, List.cons.injEq] at hlan
        cases l1 with
        | nil => simp at hlan
        | cons f l1 =>
          simp only [List.map_cons, List.cons.injEq] at hlan
          exact two rfl (hlan.2.1.trans (by rw [← ea.1]; exact hvc))
      | nil =>
        simp only [List.nil_append, List.cons.injEq] at ea
        cases l1 with
        | cons => simp at hlan
        | nil =>
          rcases hjn with ⟨h5, _⟩ | ⟨hy0, h5, h6⟩
          · exact (two (f := j) (m := []) rfl (by rw [h5, ← ea.1]; exact hvc)).elim
          · have hq0 : q ≠ [] := by
              rintro rfl
              refine hjb ?_
              unfold Begins
              rw [h6]
              decide
            have hqv : q <+: c!"VERSION" := by rwa [← ea.1, hvc] at h5
            have hpq : p = c!"BEGIN:VCALENDAR\r\n" ++ q := by
              rw [ep, ← ha0]
              rfl
            refine ⟨hy0, .inr ⟨q, hq0, hqv, hpq⟩, ?_⟩
            rw [hy0, List.nil_append, hpq, ht0, retry_version E' hqv hq0, ← ht0] at h
            exact h

/-- C120, for the text.  Behind a first part of a calendar, not all of it, a calendar has been written.  This is read as a calendar exactly if the first part is empty, or ends in the name of the first
property, and if the second calendar is read; and then it is the second one. -/
theorem C120_exactly_partial (E1 E2 E' : Env) (c d c' : Cal) (ht : c.typed = true) (hv : c.valid = .ok ()) (hu : Unbroken E1 c) (ht' : d.typed = true) (hv' : d.valid = .ok ()) (hu' : Unbroken E2 d)
    (s t p : Str) (hs : encodeDoc E1 c = some s) (hs' : encodeDoc E2 d = some t) (h1 : p <+: s) (h2 : p ≠ s) :
    decodeDoc E' (p ++ t) = .ok c' ↔ (p = [] ∨ ∃ v, v ≠ [] ∧ v <+: c!"VERSION" ∧ p = c!"BEGIN:VCALENDAR\r\n" ++ v) ∧ decodeDoc E' t = .ok c' := by
  constructor
  · intro h
    exact (retry_read E1 E2 E' c d c' ht hv hu ht' hv' hu' s t p hs hs' h1 h2 [] (by simp) h).2
  · obtain ⟨e2, _, _⟩ := written_lines ht' hv' hs'
    obtain ⟨vd, rd, hd, -⟩ := calLines_version E2 ht' hv'
    have ht0 : t = printLine beginLine ++ (vd :: rd).flatMap printLine := by rw [e2, hd]; rfl
    rintro ⟨rfl | ⟨v, hne, hv, rfl⟩, h⟩
    · exact h
    · rw [ht0] at h ⊢
      rw [retry_version E' hv hne]
      exact h

/-- C120.  Never is it read as anything but the second calendar. -/
theorem C120_never_mixed_partial (E1 E2 E' : Env) (c d c' : Cal) (ht : c.typed = true) (hv : c.valid = .ok ()) (hu : Unbroken E1 c) (ht' : d.typed = true) (hv' : d.valid = .ok ()) (hu' : Unbroken E2 d)
    (s t p : Str) (hs : encodeDoc E1 c = some s) (hs' : encodeDoc E2 d = some t) (h1 : p <+: s) (h2 : p ≠ s) (h : decodeDoc E' (p ++ t) = .ok c') : decodeDoc E' t = .ok c' :=
  ((C120_exactly_partial E1 E2 E' c d c' ht hv hu ht' hv' hu' s t p hs hs' h1 h2).1 h).2

/-- C120.  With more than the first line and the name of the first property left, it is not read. -/
theorem C120_spoilt_partial (E1 E2 E' : Env) (c d c' : Cal) (ht : c.typed = true) (hv : c.valid = .ok ()) (hu : Unbroken E1 c) (ht' : d.typed = true) (hv' : d.valid = .ok ()) (hu' : Unbroken E2 d)
    (s t p : Str) (hs : encodeDoc E1 c = some s) (hs' : encodeDoc E2 d = some t) (h1 : p <+: s) (h2 : p ≠ s) (h3 : 24 < p.length) : decodeDoc E' (p ++ t) ≠ .ok c' := by
  intro h
  rcases ((C120_exactly_partial E1 E2 E' c d c' ht hv hu ht' hv' hu' s t p hs hs' h1 h2).1 h).1 with rfl | ⟨v, _, hv, rfl⟩
  · simp at h3
  · have := hv.length_le
    simp at this h3
    omega

/-- The sample, with its first 21 characters in front: they end in VERS. -/
example : sampleDoc.take 21 = c!"BEGIN:VCALENDAR\r\nVERS" ∧ decodeDoc sampleEnv (sampleDoc.take 21 ++ sampleDoc) = .ok sampleRead ∧ decodeDoc sampleEnv sampleDoc = .ok sampleRead := by decide +kernel

example (E' : Env) (c' : Cal) : decodeDoc E' (sampleDoc.take 21 ++ sampleDoc) = .ok c' ↔ decodeDoc E' sampleDoc = .ok c' := by
  rw [C120_exactly_partial sampleEnv sampleEnv E' sampleCal sampleCal c' sampleCal_typed sampleCal_valid sampleCal_unbroken sampleCal_typed sampleCal_valid sampleCal_unbroken sampleDoc sampleDoc _
    (by decide +kernel) (by decide +kernel) (List.take_prefix _ _) (by decide +kernel)]
  exact and_iff_right (.inr ⟨c!"VERS", by decide, by decide, by decide +kernel⟩)

/-- The sample behind its own first part, cut off anywhere behind that. -/
theorem C120_sample (E' : Env) (c' : Cal) (n : Nat) (h1 : 24 < n) (h2 : n < sampleDoc.length) : decodeDoc E' (sampleDoc.take n ++ sampleDoc) ≠ .ok c' := by
  refine C120_spoilt_partial sampleEnv sampleEnv E' sampleCal sampleCal c' sampleCal_typed sampleCal_valid sampleCal_unbroken sampleCal_typed sampleCal_valid sampleCal_unbroken sampleDoc sampleDoc _
    (by decide +kernel) (by decide +kernel) (List.take_prefix _ _) (fun h => ?_) (by rw [List.length_take]; omega)
  have := congrArg List.length h
  rw [List.length_take] at this
  omega

/-- Cut off in PRODID there are two VERSION lines; in the event END:VCALENDAR does not end it. -/
example : decodeDoc sampleEnv (sampleDoc.take 34 ++ sampleDoc) = .err .multiple ∧ decodeDoc sampleEnv (sampleDoc.take 60 ++ sampleDoc) = .err .invalidEnd := by decide +kernel

end Ics.Props
