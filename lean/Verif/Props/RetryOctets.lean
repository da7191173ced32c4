import Verif.RetryOctets
import Verif.Props.Retry
/-!
# C120 for the octets of the file

The first call may have left a part of a character, or of a fold, at the end.
-/

namespace Ics.Props

open Ics Spec

/-- Behind a carriage return of a fold nothing is read. -/
theorem retry_cr (E1 E2 E' : Env) (c d c' : Cal) (ht : c.typed = true) (hv : c.valid = .ok ()) (hu : Unbroken E1 c) (ht' : d.typed = true) (hv' : d.valid = .ok ())
    (s t p : Str) (hs : encodeDoc E1 c = some s) (hs' : encodeDoc E2 d = some t) (h1 : p <+: s) (h2 : p ≠ s) : decodeDoc E' (p ++ ('\r' :: t)) ≠ .ok c' := by
  intro h
  obtain ⟨e1, _, _⟩ := written_lines ht hv hs
  obtain ⟨e2, _, _⟩ := written_lines ht' hv' hs'
  have w1 := unbroken_lines ht hv hs hu
  obtain ⟨u1, -⟩ := calLines_block E1 ht hv
  obtain ⟨vd, rd, hd, -⟩ := calLines_version E2 ht' hv'
  have ht0 : t = 'B' :: (c!"EGIN:VCALENDAR\r\n" ++ (vd :: rd).flatMap printLine) := by rw [e2, hd]; rfl
  have hlen : p.length < ((calLines E1 c).flatMap printLine).length := by
    rw [← e1]
    have := h1.length_le
    rcases Nat.lt_or_ge p.length s.length with h | h
    · exact h
    · exact absurd (h1.eq_of_length (by omega)) h2
  rw [e1] at h1
  obtain ⟨a, x, z, q, r, ea, ep, ex, hr⟩ := prefix_flatMap h1 hlen
  have ha : ∀ l ∈ a, l ∈ calLines E1 c := fun l hl => by rw [ea]; simp [hl]
  have hx : x ∈ calLines E1 c := by rw [ea]; simp
  have hok := (tokenise_front (s := p ++ '\r' :: t) (pre := (tokenise (p ++ '\r' :: t)).lines) (r := []) (by simp)).1
  have only : (tokenise (p ++ '\r' :: t)).lines.map printBare <+: a.map printBare → False := fun hp =>
    never_closed (ms := a) (names_of_rows hok (fun l hl => w1 l (ha l hl)) hp) (fun l hl => u1 l (ha l hl))
      (fun q' ⟨y, hy⟩ h2 => calLines_inside (E := E1) (z := y ++ x :: z) ht hv (by rw [ea, ← hy, List.append_assoc]) h2 (by simp)) h
  have hra : ∀ r ∈ a.map printBare, ∀ c ∈ r, NoCtl c := by
    intro r hr
    obtain ⟨l, hl, rfl⟩ := List.mem_map.1 hr
    exact (w1 l (ha l hl)).clear
  -- the carriage return, and something else than a line feed
  obtain ⟨q', b, u, hq', hb, hqu⟩ : ∃ q' b u, q' <+: printBare x ∧ b ≠ '\n' ∧ q ++ '\r' :: t = q' ++ '\r' :: b :: u := by
    by_cases hq : q <+: printBare x
    · exact ⟨q, 'B', _, hq, by decide, by rw [ht0]⟩
    · have hq : q = printBare x ++ ['\r'] := by
        unfold printLine at ex
        have hl : ¬ q.length ≤ (printBare x).length := fun hl => hq (List.prefix_of_prefix_length_le ⟨r, ex.symm⟩ (List.prefix_append _ _) hl)
        have h3 := congrArg List.length ex
        have h4 := List.length_pos_iff.2 hr
        simp only [List.length_append, List.length_cons, List.length_nil] at h3
        have h5 : q <+: printBare x ++ ['\r'] := by
          refine List.prefix_of_prefix_length_le ⟨r, ex.symm⟩ ⟨['\n'], by simp⟩ ?_
          simp only [List.length_append, List.length_cons, List.length_nil]
          omega
        exact h5.eq_of_length (by simp only [List.length_append, List.length_cons, List.length_nil]; omega)
      exact ⟨printBare x, '\r', t, List.prefix_refl _, by decide, by rw [hq]; simp⟩
  have hpt : p ++ '\r' :: t = joinRows (a.map printBare) ++ (q' ++ '\r' :: b :: u) := by
    rw [ep, joinRows_map, List.append_assoc, hqu]
  rcases tokenise_rows (q' ++ '\r' :: b :: u) _ hra with ⟨h3, _⟩ | ⟨ls, h3, h4⟩
  · exact only (by rw [hpt]; exact h3)
  · refine only ?_
    rw [hpt, h4, lone_cr (fun c hc => (w1 x hx).clear c (hq'.subset hc)) hb, List.append_nil, h3]
    exact List.prefix_refl _

/-- The line end of a fold cuts a line of the first calendar short; the second calendar is behind it. -/
theorem retry_crlf (E1 E2 E' : Env) (c d c' : Cal) (ht : c.typed = true) (hv : c.valid = .ok ()) (hu : Unbroken E1 c) (ht' : d.typed = true) (hv' : d.valid = .ok ()) (hu' : Unbroken E2 d)
    (s t p : Str) (hs : encodeDoc E1 c = some s) (hs' : encodeDoc E2 d = some t) (g : Char) (hg1 : g ≠ '\n') (hg2 : g ≠ '\r') (h1 : p ++ [g] <+: s) :
    decodeDoc E' (p ++ ('\r' :: '\n' :: t)) ≠ .ok c' := by
  intro h
  obtain ⟨e1, _, _⟩ := written_lines ht hv hs
  obtain ⟨e2, _, _⟩ := written_lines ht' hv' hs'
  have w1 := unbroken_lines ht hv hs hu
  have w2 := unbroken_lines ht' hv' hs' hu'
  obtain ⟨u1, -⟩ := calLines_block E1 ht hv
  obtain ⟨u2, -⟩ := calLines_block E2 ht' hv'
  obtain ⟨vc, rc, hc, -⟩ := calLines_version E1 ht hv
  have m1 := calLines_marks E1 c
  have hlen : p.length < ((calLines E1 c).flatMap printLine).length := by
    rw [← e1]
    have := h1.length_le
    simp only [List.length_append, List.length_singleton] at this
    omega
  rw [e1] at h1
  obtain ⟨a, x, z, q, r, ea, ep, ex, hr⟩ := prefix_flatMap ((List.prefix_append p [g]).trans h1) hlen
  have ha : ∀ l ∈ a, l ∈ calLines E1 c := fun l hl => by rw [ea]; simp [hl]
  have hx : x ∈ calLines E1 c := by rw [ea]; simp
  -- the line is not whole
  obtain ⟨o, hxq⟩ : ∃ o, printBare x = q ++ g :: o := by
    have h3 : q ++ [g] <+: printLine x := by
      have h4 : a.flatMap printLine ++ (q ++ [g]) <+: a.flatMap printLine ++ (printLine x ++ z.flatMap printLine) := by
        rw [ea, ep] at h1
        simpa [List.append_assoc] using h1
      have h5 := (List.prefix_append_right_inj _).1 h4
      refine List.prefix_of_prefix_length_le h5 (List.prefix_append _ _) ?_
      have := congrArg List.length ex
      have := List.length_pos_iff.2 hr
      simp only [List.length_append, List.length_singleton] at *
      omega
    obtain ⟨o, ho⟩ := h3
    unfold printLine at ho
    by_cases hl : (q ++ [g]).length ≤ (printBare x).length
    · obtain ⟨o', ho'⟩ := List.prefix_of_prefix_length_le ⟨o, ho⟩ (List.prefix_append _ _) hl
      exact ⟨o', by rw [← ho']; simp⟩
    · exfalso
      obtain ⟨k, hk⟩ := List.prefix_of_prefix_length_le (List.prefix_append (printBare x) ['\r', '\n']) ⟨o, ho⟩ (by omega)
      rw [← hk, List.append_assoc, List.append_cancel_left_eq] at ho
      have hgk : g ∈ k := by
        have hk0 : k ≠ [] := by rintro rfl; rw [List.append_nil] at hk; rw [hk] at hl; exact hl (Nat.le_refl _)
        have h6 := congrArg List.getLast? hk
        rw [List.getLast?_append, List.getLast?_append] at h6
        cases h7 : k.getLast? with
        | none => exact absurd (List.getLast?_eq_none_iff.1 h7) hk0
        | some y =>
          rw [h7] at h6
          simp at h6
          rw [← h6]
          exact List.mem_of_getLast? h7
      have : g ∈ ['\r', '\n'] := by rw [← ho]; simp [hgk]
      simp [hg1, hg2] at this
  have hok := (tokenise_front (s := p ++ '\r' :: '\n' :: t) (pre := (tokenise (p ++ '\r' :: '\n' :: t)).lines) (r := []) (by simp)).1
  have inA : ∀ {q : List Line}, q <+: a → q ≠ [] → 1 ≤ depth q := by
    rintro q ⟨y, hy⟩ hq
    refine calLines_inside (E := E1) (z := y ++ x :: z) ht hv ?_ hq (by simp)
    rw [ea, ← hy, List.append_assoc]
  have only : (tokenise (p ++ '\r' :: '\n' :: t)).lines.map printBare <+: a.map printBare → False := fun hp =>
    never_closed (ms := a) (names_of_rows hok (fun l hl => w1 l (ha l hl)) hp) (fun l hl => u1 l (ha l hl)) (fun _ h1 h2 => inA h1 h2) h
  have hrows : (tokenise (p ++ '\r' :: '\n' :: t)).lines.map printBare <+: a.map printBare ++ q :: (calLines E2 d).map printBare := by
    have hR : ∀ r ∈ a.map printBare ++ q :: (calLines E2 d).map printBare, ∀ c ∈ r, NoCtl c := by
      intro r hr c hc
      rcases List.mem_append.1 hr with hr | hr
      · obtain ⟨l, hl, rfl⟩ := List.mem_map.1 hr
        exact (w1 l (ha l hl)).clear c hc
      rcases List.mem_cons.1 hr with rfl | hr
      · exact (w1 x hx).clear c (by rw [hxq]; simp [hc])
      · obtain ⟨l, hl, rfl⟩ := List.mem_map.1 hr
        exact (w2 l hl).clear c hc
    have hpt : p ++ '\r' :: '\n' :: t = joinRows (a.map printBare ++ q :: (calLines E2 d).map printBare) := by
      rw [ep, e2, ← joinRows_map (calLines E2 d), ← joinRows_map a]
      simp [joinRows]
    rcases tokenise_rows [] _ hR with ⟨h3, _⟩ | ⟨ls, h3, h4⟩
    · rwa [List.append_nil, ← hpt] at h3
    · rw [List.append_nil, ← hpt] at h4
      rw [h4, show (tokenise []).lines = [] from rfl, List.append_nil, h3]
      exact List.prefix_refl _
  rcases rows_meet hrows with h3 | ⟨la, j, lt, el, hla, ej, hlt⟩
  · exact only h3
  have hjk : LineOk j := hok j (by rw [el]; simp)
  have hlan : la.map (·.name) = a.map (·.name) :=
    (names_of_rows (fun l hl => hok l (by rw [el]; simp [hl])) (fun l hl => w1 l (ha l hl)) (by rw [hla]; exact List.prefix_refl _)).eq_of_length
      (by have := congrArg List.length hla; simpa using this)
  have hltn : lt.map (·.name) <+: (calLines E2 d).map (·.name) := names_of_rows (fun l hl => hok l (by rw [el]; simp [hl])) w2 hlt
  have hjn : j.name = x.name := by
    obtain ⟨d1, v1, h5, hd1⟩ := bare_name x
    obtain ⟨d2, v2, h6, hd2⟩ := bare_name j
    rw [h5, ← ej, h6, List.append_assoc, List.cons_append] at hxq
    exact (name_split (w1 x hx).named.name hjk.name hd1 hd2 hxq).1.symm
  have hnames : (tokenise (p ++ '\r' :: '\n' :: t)).lines.map (·.name) <+: (a ++ x :: calLines E2 d).map (·.name) := by
    rw [el, List.map_append, List.map_append, hlan, List.map_cons, List.map_cons, hjn]
    exact (List.prefix_append_right_inj _).2 (List.cons_prefix_cons.2 ⟨rfl, hltn⟩)
  have hup : ∀ l ∈ a ++ x :: calLines E2 d, upper l.name = l.name := by
    intro l hl
    rcases List.mem_append.1 hl with hl | hl
    · exact u1 l (ha l hl)
    rcases List.mem_cons.1 hl with rfl | hl
    · exact u1 l hx
    · exact u2 l hl
  have hsplit : ∀ {q : List Line}, q <+: a ++ x :: calLines E2 d → q <+: a ∨ ∃ u, q = a ++ x :: u ∧ u <+: calLines E2 d := by
    intro q hq
    by_cases hl : q.length ≤ a.length
    · exact .inl (List.prefix_of_prefix_length_le hq (List.prefix_append _ _) hl)
    · obtain ⟨y, rfl⟩ := List.prefix_of_prefix_length_le (List.prefix_append a _) hq (by omega)
      have hy := (List.prefix_append_right_inj _).1 hq
      cases y with
      | nil => simp at hl
      | cons j' y =>
        obtain ⟨rfl, hy'⟩ := List.cons_prefix_cons.1 hy
        exact .inr ⟨y, rfl, hy'⟩
  by_cases hz : z = []
  rotate_left
  · -- not in the last line
    have hax : 1 ≤ depth (a ++ [x]) := calLines_inside (E := E1) (z := z) ht hv (by rw [ea]; simp) (by simp) hz
    refine never_closed hnames hup (fun q' h3 h4 => ?_) h
    rcases hsplit h3 with h3 | ⟨u, rfl, hu⟩
    · exact inA h3 h4
    · have := calLines_up (E := E2) ht' hv' hu
      rw [show a ++ x :: u = (a ++ [x]) ++ u from by simp, depth_append]
      omega
  -- the last line is END:VCALENDAR
  subst hz
  have hk : Keywords (tokenise (p ++ '\r' :: '\n' :: t)).lines := by
    intro l hl _
    obtain ⟨m, hm, e⟩ := List.mem_map.1 (hnames.subset (List.mem_map_of_mem hl))
    rw [← e, hup m hm]
  obtain ⟨pre, rest, h3, b, k, e, rfl, hb, -, he, hev, hcl⟩ := C13_closed_partial E' _ _ h hk
  obtain ⟨-, k0, hk0, hcl0⟩ := calLines_block E1 ht hv
  have hxe : x = plainLine kEND tabCalendar.name := by
    rw [hk0] at ea
    exact (List.cons.inj (List.append_inj_right' ea rfl)).1.symm
  have hxd : depth (a ++ [x]) = 0 := by
    rw [← ea, hk0]
    have hbb : Begins (plainLine kBEGIN tabCalendar.name) := plain_begins _
    have hee : Ends (plainLine kEND tabCalendar.name) := by decide
    rw [depth_append, depth_cons, closed_depth hcl0, if_pos hbb, depth_cons, if_neg (Ends.not_begin hee), if_pos hee]
    decide
  have hjv : j.value.length < 9 := by
    have h5 := congrArg List.length hxq
    have h6 : (printBare x).length = 13 := by rw [hxe]; decide
    have h7 := congrArg List.length ej
    rw [h6] at h5
    have h8 : j.name.length = 3 := by rw [hjn, hxe]; decide
    simp only [printBare, List.length_append, List.length_cons] at h5 h7
    omega
  have hzero : depth (b :: k ++ [e]) = 0 := by
    rw [depth_append, depth_cons, closed_depth hcl, if_pos hb, depth_cons, if_neg (Ends.not_begin he), if_pos he]
    decide
  rw [el] at h3
  by_cases hl : (b :: k ++ [e]).length ≤ la.length
  · have hpre : (b :: k ++ [e]) <+: la := List.prefix_of_prefix_length_le ⟨rest, h3.symm⟩ (List.prefix_append _ _) hl
    have h4 : (b :: k ++ [e]).map (·.name) <+: a.map (·.name) := hlan ▸ hpre.map _
    have h5 := List.prefix_iff_eq_take.1 h4
    rw [← List.map_take] at h5
    have h6 := inA (List.take_prefix _ _) (fun h => by rw [h] at h5; cases h5)
    rw [← depth_names h5, hzero] at h6
    exact absurd h6 (by decide)
  have hla1 : la ++ [j] <+: b :: k ++ [e] := by
    refine List.prefix_of_prefix_length_le (l₃ := la ++ j :: lt) ⟨lt, by simp⟩ ⟨rest, h3.symm⟩ ?_
    rw [List.length_append, List.length_singleton]
    omega
  have hd0 : depth (la ++ [j]) = 0 := by
    rw [← hxd]
    exact depth_names (by rw [List.map_append, List.map_append, hlan]; simp [hjn])
  rcases List.prefix_concat_iff.1 (by simpa using hla1 : la ++ [j] <+: (b :: k) ++ [e]) with h5 | h5
  · -- it ends here
    have : j = e := (List.cons.inj (List.append_inj_right' h5 rfl)).1
    rw [this] at hjv
    rw [hev] at hjv
    exact absurd hjv (by decide)
  · -- it goes on, and has been closed before
    cases la with
    | nil =>
      obtain ⟨rfl, -⟩ := List.cons_prefix_cons.1 h5
      exact absurd hb (Ends.not_begin (by unfold Ends; rw [hjn, hxe]; decide))
    | cons l0 la =>
      obtain ⟨rfl, h6⟩ := List.cons_prefix_cons.1 h5
      have h7 := closed_up hcl h6
      rw [List.cons_append, depth_cons, if_pos hb] at hd0
      have h8 : 0 ≤ depth (la ++ [j]) := h7
      omega

/-- C120, for the octets.  Behind octets of a calendar, not all of them, a calendar has been written.  With its folds removed this is read as a calendar exactly if the octets left of the first are none, or the
line BEGIN:VCALENDAR and a part of VERSION, and if the second calendar is read; and then it is the second one. -/
theorem C120_octets_partial (E1 E2 E' : Env) (c d c' : Cal) (ht : c.typed = true) (hv : c.valid = .ok ()) (hu : Unbroken E1 c) (ht' : d.typed = true) (hv' : d.valid = .ok ()) (hu' : Unbroken E2 d)
    (s t : Str) (hs : encodeDoc E1 c = some s) (hs' : encodeDoc E2 d = some t) (b : Bytes) (h1 : b <+: utf8 (foldStr 0 s)) (h2 : b ≠ utf8 (foldStr 0 s)) :
    decodeDoc E' (runes (removeFolds (b ++ utf8 (foldStr 0 t)))) = .ok c' ↔
      (removeFolds b = [] ∨ ∃ v, v ≠ [] ∧ v <+: c!"VERSION" ∧ removeFolds b = utf8 (c!"BEGIN:VCALENDAR\r\n" ++ v)) ∧ decodeDoc E' t = .ok c' := by
  obtain ⟨_, _, _, _, _, _, hno⟩ := C46_seen_partial E1 c s ht hv hs hu
  obtain ⟨e2, _, _⟩ := written_lines ht' hv' hs'
  obtain ⟨vd, rd, hd, -⟩ := calLines_version E2 ht' hv'
  obtain ⟨u, ht0⟩ : ∃ u, t = 'B' :: u := ⟨c!"EGIN:VCALENDAR\r\n" ++ (vd :: rd).flatMap printLine, by rw [e2, hd]; rfl⟩
  have hF0 : removeFolds (utf8 (foldStr 0 t)) = utf8 t := by
    obtain ⟨a, ha⟩ := calLines_end E2 d
    exact (text_of_file ht' hv' hu' hs' (a := a ++ ['R']) (by rw [e2, ha]; simp [crlf])).2.1
  obtain ⟨F, hF⟩ : ∃ F, utf8 (foldStr 0 t) = 66 :: F := by
    rw [ht0]
    exact ⟨_, rfl⟩
  have hlt : b.length < (utf8 (foldStr 0 s)).length := by
    have := h1.length_le
    rcases Nat.lt_or_ge b.length (utf8 (foldStr 0 s)).length with h | h
    · exact h
    · exact absurd (h1.eq_of_length (by omega)) h2
  have hFt : removeFolds (66 :: F) = utf8 ('B' :: u) := by rw [← hF, hF0, ht0]
  constructor
  · intro h
    obtain ⟨p, y, g1, g2, g3, g4⟩ := unfold_meet (foldStr_FoldOf s 0) hno h1 hlt hFt
    rw [hF, g1, ← ht0] at h
    rcases g4 with ⟨g4, g5⟩ | rfl | ⟨rfl, g, k1, k2, k3⟩
    · obtain ⟨hy, h3, h4⟩ := retry_read E1 E2 E' c d c' ht hv hu ht' hv' hu' s t p hs hs' g2 g3 y g4 h
      refine ⟨?_, h4⟩
      rw [g5 hy]
      rcases h3 with rfl | ⟨v, k1, k2, rfl⟩
      · exact .inl rfl
      · exact .inr ⟨v, k1, k2, rfl⟩
    · exact absurd h (retry_cr E1 E2 E' c d c' ht hv hu ht' hv' s t p hs hs' g2 g3)
    · exact absurd h (retry_crlf E1 E2 E' c d c' ht hv hu ht' hv' hu' s t p hs hs' g k1 k2 k3)
  · rintro ⟨h3, h4⟩
    rw [hF, removeFolds_meet _ _ _ (Nat.le_refl _), hFt, ← ht0]
    rcases h3 with h3 | ⟨v, k1, k2, h3⟩
    · rw [h3, List.nil_append, runes_utf8]
      exact h4
    · rw [h3, ← utf8_append, runes_utf8]
      have ht1 : t = printLine beginLine ++ (vd :: rd).flatMap printLine := by rw [e2, hd]; rfl
      rw [ht1] at h4 ⊢
      rw [retry_version E' k2 k1]
      exact h4

/-- The first line and the name of the first property are not folded. -/
theorem retry_head {d : Char} (hd : d = ';' ∨ d = ':') (r : Str) : ∃ z, utf8 (foldStr 0 (c!"BEGIN:VCALENDAR\r\nVERSION" ++ d :: r)) = utf8 (c!"BEGIN:VCALENDAR\r\nVERSION" ++ [d]) ++ z := by
  rcases hd with rfl | rfl <;> exact ⟨_, rfl⟩

theorem retry_short {d : Char} (hd : d = ';' ∨ d = ':') (z : Bytes) : removeFolds (utf8 (c!"BEGIN:VCALENDAR\r\nVERSION" ++ [d]) ++ z) = utf8 (c!"BEGIN:VCALENDAR\r\nVERSION" ++ [d]) ++ removeFolds z := by
  have h0 : utf8 (c!"BEGIN:VCALENDAR\r\nVERSION" ++ [d]) ++ z = utf8 c!"BEGIN:VCALENDAR" ++ (13 :: 10 :: (utf8 (c!"VERSION" ++ [d]) ++ z)) := by rcases hd with rfl | rfl <;> rfl
  have h1 : utf8 (c!"BEGIN:VCALENDAR\r\nVERSION" ++ [d]) ++ removeFolds z = utf8 c!"BEGIN:VCALENDAR" ++ (13 :: 10 :: (utf8 (c!"VERSION" ++ [d]) ++ removeFolds z)) := by rcases hd with rfl | rfl <;> rfl
  have h2 : utf8 (c!"VERSION" ++ [d]) = 86 :: utf8 (c!"ERSION" ++ [d]) := by rcases hd with rfl | rfl <;> rfl
  rw [h0, h1, removeFolds_append _ (by decide), removeFolds_ne, removeFolds_ne, removeFolds_append]
  · rcases hd with rfl | rfl <;> decide
  · intro r h
    simp at h
  · intro r h
    rw [h2] at h
    simp at h

/-- C120: exactly what is left of the first calendar, when the second is read. -/
theorem C120_left_partial (E1 E2 E' : Env) (c d c' : Cal) (ht : c.typed = true) (hv : c.valid = .ok ()) (hu : Unbroken E1 c) (ht' : d.typed = true) (hv' : d.valid = .ok ()) (hu' : Unbroken E2 d)
    (s t : Str) (hs : encodeDoc E1 c = some s) (hs' : encodeDoc E2 d = some t) (b : Bytes) (h1 : b <+: utf8 (foldStr 0 s)) (h2 : b ≠ utf8 (foldStr 0 s)) :
    decodeDoc E' (runes (removeFolds (b ++ utf8 (foldStr 0 t)))) = .ok c' ↔
      (b = [] ∨ ∃ v, v ≠ [] ∧ v <+: c!"VERSION" ∧ b = utf8 (c!"BEGIN:VCALENDAR\r\n" ++ v)) ∧ decodeDoc E' t = .ok c' := by
  rw [C120_octets_partial E1 E2 E' c d c' ht hv hu ht' hv' hu' s t hs hs' b h1 h2]
  obtain ⟨e1, _, _⟩ := written_lines ht hv hs
  obtain ⟨vc, rc, hc, hvc⟩ := calLines_version E1 ht hv
  obtain ⟨g, w, hw, -, hg⟩ := bare_name' vc
  obtain ⟨z, hz⟩ : ∃ z, utf8 (foldStr 0 s) = utf8 (c!"BEGIN:VCALENDAR\r\nVERSION" ++ [g]) ++ z := by
    have : s = c!"BEGIN:VCALENDAR\r\nVERSION" ++ g :: (w ++ crlf ++ rc.flatMap printLine) := by
      rw [e1, hc, List.flatMap_cons, List.flatMap_cons, show printLine vc = printBare vc ++ crlf from rfl, hw, hvc, show printLine beginLine = c!"BEGIN:VCALENDAR\r\n" from by decide]
      simp
    rw [this]
    exact retry_head hg _
  have hlen : (utf8 (c!"BEGIN:VCALENDAR\r\nVERSION" ++ [g])).length = 25 := by rcases hg with rfl | rfl <;> rfl
  have hsame : (removeFolds b).length ≤ 24 → removeFolds b = b := by
    intro hl
    rw [hz] at h1
    by_cases hb : b.length ≤ 25
    · have h3 : b <+: utf8 (c!"BEGIN:VCALENDAR\r\nVERSION" ++ [g]) := List.prefix_of_prefix_length_le h1 (List.prefix_append _ _) (by rw [hlen]; exact hb)
      have h4 := List.prefix_iff_eq_take.1 h3
      rw [h4]
      generalize b.length = n at hb
      have key : ∀ n, n < 26 → removeFolds ((utf8 (c!"BEGIN:VCALENDAR\r\nVERSION" ++ [g])).take n) = (utf8 (c!"BEGIN:VCALENDAR\r\nVERSION" ++ [g])).take n := by
        rcases hg with rfl | rfl <;> decide +kernel
      exact key n (by omega)
    · obtain ⟨y, rfl⟩ := List.prefix_of_prefix_length_le (List.prefix_append _ _) h1 (by rw [hlen]; omega)
      rw [retry_short hg, List.length_append, hlen] at hl
      omega
  have hv7 : ∀ {v : Str}, v <+: c!"VERSION" → (utf8 (c!"BEGIN:VCALENDAR\r\n" ++ v)).length ≤ 24 := by
    intro v hv
    have h3 := List.prefix_iff_eq_take.1 hv
    have h4 : v.length ≤ 7 := hv.length_le
    rw [h3]
    generalize v.length = n at h4
    have key : ∀ n, n < 8 → (utf8 (c!"BEGIN:VCALENDAR\r\n" ++ c!"VERSION".take n)).length ≤ 24 := by decide +kernel
    exact key n (by omega)
  refine and_congr_left fun _ => ⟨?_, ?_⟩
  · rintro (h | ⟨v, k1, k2, h⟩)
    · exact .inl (by rw [← hsame (by rw [h]; exact Nat.zero_le _), h])
    · exact .inr ⟨v, k1, k2, by rw [← hsame (by rw [h]; exact hv7 k2), h]⟩
  · rintro (rfl | ⟨v, k1, k2, rfl⟩)
    · exact .inl rfl
    · refine .inr ⟨v, k1, k2, ?_⟩
      have h3 := List.prefix_iff_eq_take.1 k2
      have h4 : v.length ≤ 7 := k2.length_le
      rw [h3]
      generalize v.length = n at h4
      have key : ∀ n, n < 8 → removeFolds (utf8 (c!"BEGIN:VCALENDAR\r\n" ++ c!"VERSION".take n)) = utf8 (c!"BEGIN:VCALENDAR\r\n" ++ c!"VERSION".take n) := by decide +kernel
      exact key n (by omega)

/-- C120.  `Encode` has not written everything, and has been called again behind what it has left: whatever is read is the second calendar. -/
theorem C120_retried_partial (E1 E2 E' : Env) (w : Writer) (hw : KeepsContract w) (c d c' : Cal) (ht : c.typed = true) (hu : Unbroken E1 c) (ht' : d.typed = true) (hv' : d.valid = .ok ()) (hu' : Unbroken E2 d)
    (e : Option EncErr) (f : WFolder) (h : encodeCalls E1 w c = .returned e f) (hshort : ∀ s, encodeDoc E1 c = some s → f.out ≠ utf8 (foldStr 0 s)) (t : Str) (hs' : encodeDoc E2 d = some t)
    (hd : decodeDoc E' (runes (removeFolds (f.out ++ utf8 (foldStr 0 t)))) = .ok c') : decodeDoc E' t = .ok c' := by
  rcases C119_first_part E1 w hw c e f h with ⟨x, -, h1⟩ | ⟨s, hv, hs, h1, -⟩
  · obtain ⟨e2, _, _⟩ := written_lines ht' hv' hs'
    obtain ⟨a, ha⟩ := calLines_end E2 d
    rw [h1, List.nil_append, (text_of_file ht' hv' hu' hs' (a := a ++ ['R']) (by rw [e2, ha]; simp [crlf])).2.1, runes_utf8] at hd
    exact hd
  · exact ((C120_octets_partial E1 E2 E' c d c' ht hv hu ht' hv' hu' s t hs hs' f.out h1 (hshort s hs)).1 hd).2

/-- C120: the same for the file read at once. -/
theorem C120_file_partial (E1 E2 E' : Env) (w : Writer) (hw : KeepsContract w) (c d c' : Cal) (ht : c.typed = true) (hu : Unbroken E1 c) (ht' : d.typed = true) (hv' : d.valid = .ok ()) (hu' : Unbroken E2 d)
    (e : Option EncErr) (f : WFolder) (h : encodeCalls E1 w c = .returned e f) (hshort : ∀ s, encodeDoc E1 c = some s → f.out ≠ utf8 (foldStr 0 s)) (t : Str) (hs' : encodeDoc E2 d = some t)
    (fin k : Nat) (hk : (f.out ++ utf8 (foldStr 0 t)).length ≤ k) (hk0 : 0 < k) (fuel : Nat) (hf : k + 4 ≤ fuel)
    (hd : decodeReader E' (onceReader (f.out ++ utf8 (foldStr 0 t)) fin) fuel [k, k] = .done (.ok c')) : decodeDoc E' t = .ok c' := by
  apply C120_retried_partial E1 E2 E' w hw c d c' ht hu ht' hv' hu' e f h hshort t hs'
  generalize f.out ++ utf8 (foldStr 0 t) = o at hk hd ⊢
  by_cases hb : hasFold o ∧ badEnd o
  · have e : onceReader o fin [k] = (o, none) := by simp [onceReader, hk]
    have := read_hangs (R := onceReader o fin) fuel k hk0 (by rw [e]; exact hb.1) (by rw [e]; exact hb.2)
    unfold decodeReader at hd
    rw [readAll, this] at hd
    cases hd
  · obtain ⟨u, hu'⟩ := C07_single_delivery_partial o fin k (fun h1 h2 => hb ⟨h1, h2⟩) hk hk0 fuel hf
    unfold decodeReader at hd
    rw [hu'] at hd
    injection hd

/-- C120: the same for readers that deliver the file in pieces, not cutting fold markers. -/
theorem C120_pieces_partial (E1 E2 E' : Env) (w : Writer) (hw : KeepsContract w) (c d c' : Cal) (ht : c.typed = true) (hu : Unbroken E1 c) (ht' : d.typed = true) (hv' : d.valid = .ok ()) (hu' : Unbroken E2 d)
    (e : Option EncErr) (f : WFolder) (h : encodeCalls E1 w c = .returned e f) (hshort : ∀ s, encodeDoc E1 c = some s → f.out ≠ utf8 (foldStr 0 s)) (t : Str) (hs' : encodeDoc E2 d = some t)
    (R : Reader) (hR : WellCut R) (ks : List Nat) (fuel : Nat) (hf : ∀ k ∈ ks, k + 3 ≤ fuel)
    (out : Bytes) (x : Option Nat) (u : Unfolder) (hr : readAll R fuel ks {} [] = .done (out, x, u)) (hall : delivered R u.hist = f.out ++ utf8 (foldStr 0 t))
    (hd : decodeReader E' R fuel ks = .done (.ok c')) : decodeDoc E' t = .ok c' := by
  apply C120_retried_partial E1 E2 E' w hw c d c' ht hu ht' hv' hu' e f h hshort t hs'
  obtain ⟨out', x', u', h1, h2, _⟩ := C07_unfolding_partial R hR ks fuel hf
  rw [hr] at h1
  cases h1
  unfold decodeReader at hd
  rw [hr] at hd
  rw [← hall, ← h2]
  injection hd

/-- A disk that is full behind BEGIN:VCALENDAR and VERS, and has room again for the second call: the calendar is read. -/
theorem retry_full : encodeCalls sampleEnv (fullAfter 1 4) longCal =
      .returned (some (.write 28)) (({} : WFolder).writes (fullAfter 1 4) ((longCal.said sampleEnv).calls.map utf8)) ∧
    (({} : WFolder).writes (fullAfter 1 4) ((longCal.said sampleEnv).calls.map utf8)).out = utf8 c!"BEGIN:VCALENDAR\r\nVERS" ∧
    decodeReader sampleEnv (onceReader (utf8 c!"BEGIN:VCALENDAR\r\nVERS" ++ utf8 (foldStr 0 (encodeDoc sampleEnv longCal).get!)) 0) 500 [400, 400] = .done (.ok longCal) := by
  refine ⟨?_, by decide +kernel, by decide +kernel⟩
  rw [full_returns, show (({} : WFolder).writes (fullAfter 1 4) ((longCal.said sampleEnv).calls.map utf8)).err = some 28 from by decide +kernel]
  rfl

example : decodeDoc sampleEnv (encodeDoc sampleEnv longCal).get! = .ok longCal := by
  obtain ⟨h1, h2, h3⟩ := retry_full
  refine C120_file_partial sampleEnv sampleEnv sampleEnv (fullAfter 1 4) (fullAfter_keeps _ _) longCal longCal longCal (longCal_good sampleEnv).typed longCal_unbroken (longCal_good sampleEnv).typed
    (longCal_good sampleEnv).valid longCal_unbroken _ _ h1 (fun s hs => ?_) _ rfl 0 400 (by decide +kernel) (by decide) 500 (by decide) (by rw [h2]; exact h3)
  have : some (encodeDoc sampleEnv longCal).get! = some s := hs
  cases this
  decide +kernel

/-- The sample, as folded octets. -/
def retryOctets : Bytes := utf8 (foldStr 0 sampleDoc)

/-- Behind its first 290 octets, which end in the line end of a fold, and behind one less, it is not read; behind the first 24 it is. -/
example : (retryOctets.take 290).drop 288 = [13, 10] ∧ (retryOctets.drop 290).take 1 = [32] ∧ (∀ n ∈ [289, 290, 291], ∀ c, decodeDoc sampleEnv (runes (removeFolds (retryOctets.take n ++ retryOctets))) ≠ .ok c) ∧
    decodeDoc sampleEnv (runes (removeFolds (retryOctets.take 24 ++ retryOctets))) = .ok sampleRead := by
  have err : ∀ {r : Res Cal}, (match r with | .ok _ => false | _ => true) = true → ∀ c, r ≠ .ok c := by
    intro r h c e
    rw [e] at h
    cases h
  refine ⟨by decide +kernel, by decide +kernel, ?_, by decide +kernel⟩
  intro n hn
  simp only [List.mem_cons, List.not_mem_nil, or_false] at hn
  rcases hn with rfl | rfl | rfl <;> exact err (by decide +kernel)

/-- The sample behind its own first octets, exactly. -/
example (E' : Env) (c' : Cal) (n : Nat) (h : n < retryOctets.length) : decodeDoc E' (runes (removeFolds (retryOctets.take n ++ retryOctets))) = .ok c' ↔
    (removeFolds (retryOctets.take n) = [] ∨ ∃ v, v ≠ [] ∧ v <+: c!"VERSION" ∧ removeFolds (retryOctets.take n) = utf8 (c!"BEGIN:VCALENDAR\r\n" ++ v)) ∧ decodeDoc E' sampleDoc = .ok c' := by
  refine C120_octets_partial sampleEnv sampleEnv E' sampleCal sampleCal c' sampleCal_typed sampleCal_valid sampleCal_unbroken sampleCal_typed sampleCal_valid sampleCal_unbroken sampleDoc sampleDoc
    (by decide +kernel) (by decide +kernel) _ (List.take_prefix _ _) (fun e => ?_)
  have := congrArg List.length e
  rw [List.length_take] at this
  have h : n < (utf8 (foldStr 0 sampleDoc)).length := h
  unfold retryOctets at this
  omega

/-- A calendar whose summary is a character of two octets. -/
def accentCal : Cal := oneMore c!"SUMMARY" (.fields [none, none] [some (.text c!"é")])

/-- The calendar is written again behind the first octet of this character: the octet becomes a replacement character in the summary, and the event is not ended by what follows. -/
example : ∃ s, encodeDoc sampleEnv accentCal = some s ∧ (utf8 (foldStr 0 s)).drop 95 = [195, 169] ++ utf8 c!"\r\nEND:VEVENT\r\nEND:VCALENDAR\r\n" ∧
    ∀ E' c', decodeDoc E' (runes (removeFolds ((utf8 (foldStr 0 s)).take 96 ++ utf8 (foldStr 0 s)))) ≠ .ok c' := by
  refine ⟨(encodeDoc sampleEnv accentCal).get!, rfl, by decide +kernel, fun E' c' h => ?_⟩
  have ht : accentCal.typed = true := by decide +kernel
  have hv : accentCal.valid = .ok () := by decide +kernel
  have hu : Unbroken sampleEnv accentCal := by decide +kernel
  rcases ((C120_octets_partial sampleEnv sampleEnv E' accentCal accentCal c' ht hv hu ht hv hu _ _ rfl rfl _ (List.take_prefix 96 _) (by decide +kernel)).1 h).1 with h | ⟨v, _, k2, h⟩
  · exact absurd h (by decide +kernel)
  · have h1 := List.prefix_iff_eq_take.1 k2
    have h2 := k2.length_le
    have h3 := congrArg List.length h
    rw [utf8_append, List.length_append] at h3
    have h4 : (utf8 v).length ≤ 7 := by
      rw [h1]
      have : v.length ≤ 7 := h2
      generalize v.length = n at *
      have : n = 0 ∨ n = 1 ∨ n = 2 ∨ n = 3 ∨ n = 4 ∨ n = 5 ∨ n = 6 ∨ n = 7 := by omega
      rcases this with rfl | rfl | rfl | rfl | rfl | rfl | rfl | rfl <;> decide
    have h5 : (utf8 c!"BEGIN:VCALENDAR\r\n").length = 17 := by decide
    have h6 : (removeFolds ((utf8 (foldStr 0 (encodeDoc sampleEnv accentCal).get!)).take 96)).length = 96 := by decide +kernel
    rw [h5] at h3
    have h7 := h6.symm.trans h3
    omega

/-- The sample behind its own first octets: it is read behind none, and behind 18 to 24 of them. -/
theorem C120_octets_sample (E' : Env) (c' : Cal) (n : Nat) (h : n < retryOctets.length) :
    decodeDoc E' (runes (removeFolds (retryOctets.take n ++ retryOctets))) = .ok c' ↔ (n = 0 ∨ 18 ≤ n ∧ n ≤ 24) ∧ decodeDoc E' sampleDoc = .ok c' := by
  have hne : retryOctets.take n ≠ utf8 (foldStr 0 sampleDoc) := fun e => by
    have := congrArg List.length e
    rw [List.length_take] at this
    have h : n < (utf8 (foldStr 0 sampleDoc)).length := h
    unfold retryOctets at this
    omega
  have hn : (retryOctets.take n).length = n := by rw [List.length_take]; omega
  refine Iff.trans (C120_left_partial sampleEnv sampleEnv E' sampleCal sampleCal c' sampleCal_typed sampleCal_valid sampleCal_unbroken sampleCal_typed sampleCal_valid sampleCal_unbroken sampleDoc sampleDoc
    (by decide +kernel) (by decide +kernel) _ (List.take_prefix _ _) hne) (and_congr_left fun _ => ⟨?_, ?_⟩)
  · rintro (h3 | ⟨v, k1, k2, h3⟩)
    · rw [h3] at hn
      exact .inl hn.symm
    · rw [h3] at hn
      have h4 := List.prefix_iff_eq_take.1 k2
      have h5 : v.length ≤ 7 := k2.length_le
      have h6 := List.length_pos_iff.2 k1
      rw [h4] at hn
      generalize v.length = m at h5 h6 hn
      have key : ∀ m, m < 8 → (utf8 (c!"BEGIN:VCALENDAR\r\n" ++ c!"VERSION".take m)).length = 17 + m := by decide +kernel
      rw [key m (by omega)] at hn
      exact .inr (by omega)
  · rintro (rfl | ⟨h3, h4⟩)
    · exact .inl rfl
    · have key : ∀ m, m < 8 → 0 < m → c!"VERSION".take m ≠ [] ∧ c!"VERSION".take m <+: c!"VERSION" ∧ retryOctets.take (m + 17) = utf8 (c!"BEGIN:VCALENDAR\r\n" ++ c!"VERSION".take m) := by decide +kernel
      obtain ⟨m, rfl⟩ : ∃ m, n = m + 17 := ⟨n - 17, by omega⟩
      exact .inr ⟨_, key m (by omega) (by omega)⟩

end Ics.Props
