import Verif.PanicLemmas
import Verif.Spec.Edits
import Verif.VariantLemmas
/-!
# Lemmas: what the decoder does when it is inside a component
-/

namespace Ics

open Spec

variable {κ σ α β : Type}

/-- A decoder takes a closed body with its END line exactly, or fails whatever follows. -/
def Exact (dec : Term → List Line → Res (α × List Line)) : Prop := ∀ body e, Closed body → Keywords (body ++ [e]) → Ends e →
  ∃ res : Res α, ∀ t r, dec t (body ++ e :: r) = res >>= fun y => .ok (y, r)

theorem Res.bind_assoc' {γ : Type} (x : Res α) (f : α → Res β) (g : β → Res γ) : (x >>= f) >>= g = x >>= fun a => f a >>= g := by
  cases x <;> rfl

theorem Res.bind_ok' (x : Res α) : (x >>= fun a => .ok a) = x := by cases x <;> rfl

theorem skip_walk {k : List Line} (h : Closed k) : ∀ (n : Str), ∃ res : Res Unit, ∀ t r, skip t n (k ++ r) = res >>= fun _ => skip t n r := by
  induction h with
  | nil => exact fun n => ⟨.ok (), fun t r => rfl⟩
  | line hb he _ ih =>
    intro n
    obtain ⟨res, h⟩ := ih n
    refine ⟨res, fun t r => ?_⟩
    rw [List.cons_append, skip_cons, if_neg (show ¬ upper _ = kBEGIN from hb), if_neg (show ¬ upper _ = kEND from he), h]
  | @block b e k r' hb he hv _ _ ih1 ih2 =>
    intro n
    obtain ⟨res1, h1⟩ := ih1 b.value
    obtain ⟨res2, h2⟩ := ih2 n
    refine ⟨res1 >>= fun _ => if upper e.value = b.value then res2 else .err .invalidEnd, fun t r => ?_⟩
    rw [List.append_assoc, List.cons_append, skip_cons, if_pos (show upper _ = kBEGIN from hb), h1]
    cases res1 with
    | ok =>
      simp only [Res.ok_bind]
      rw [List.cons_append, skip_cons, if_neg (show ¬ upper _ = kBEGIN from Ends.not_begin he), if_pos (show upper _ = kEND from he)]
      split
      · exact h2 t r
      · rfl
    | err => rfl
    | panic => rfl

theorem skip_exact {body : List Line} {e : Line} (h : Closed body) (he : Ends e) (n : Str) :
    ∃ res : Res Unit, ∀ t r, skip t n (body ++ e :: r) = res >>= fun _ => .ok r := by
  obtain ⟨res, h⟩ := skip_walk h n
  refine ⟨res >>= fun _ => if upper e.value = n then .ok () else .err .invalidEnd, fun t r => ?_⟩
  rw [h, skip_cons, if_neg (show ¬ upper _ = kBEGIN from Ends.not_begin he), if_pos (show upper _ = kEND from he)]
  cases res with
  | ok => simp only [Res.ok_bind]; split <;> rfl
  | err => rfl
  | panic => rfl

theorem Sect.run_walk {E : Env} {T : Tab κ} {sub : Term → κ → List Line → Res (σ × List Line)} (hs : ∀ t, Suffix (sub t))
    (hx : ∀ x ∈ T.subs, Exact (fun t => sub t x.2)) {p : List Line} (h : Closed p) : Keywords p →
    ∃ g : Sect σ → Res (Sect σ), ∀ t s r, Sect.run E T (sub t) t s (p ++ r) = g s >>= fun s => Sect.run E T (sub t) t s r := by
  induction h with
  | nil => exact fun _ => ⟨.ok, fun t s r => rfl⟩
  | @line l q hb he _ ih =>
    intro hk
    obtain ⟨g, hg⟩ := ih (Keywords.cons hk)
    rcases Tab.kindOf_line (T := T) hb he with ⟨i, f, hkd, _⟩ | ⟨hkd, _⟩
    · refine ⟨fun s => s.addProp E i f l >>= g, fun t s r => ?_⟩
      rw [List.cons_append, Sect.run_cons (hs t), hkd]
      dsimp only
      rw [Res.bind_assoc']
      congr 1
      funext s
      exact hg t s r
    · refine ⟨g, fun t s r => ?_⟩
      rw [List.cons_append, Sect.run_cons (hs t), hkd]
      exact hg t s r
  | @block b e k q hb he hv hc _ _ ih =>
    intro hk
    have hk1 : Keywords (k ++ [e]) := (Keywords.append (b := q) (by have := Keywords.cons hk; simpa using this)).1
    have hk2 : Keywords q := Keywords.cons (Keywords.append (a := k) (Keywords.cons hk)).2
    obtain ⟨g, hg⟩ := ih hk2
    rcases Tab.kindOf_begin (T := T) hb with ⟨i, c, hkd, hi⟩ | ⟨hkd, _⟩
    · obtain ⟨res, hres⟩ := hx _ (List.mem_of_getElem? hi) k e hc hk1 he
      refine ⟨fun s => res >>= fun y => g (s.addSub i y), fun t s r => ?_⟩
      rw [List.append_assoc, List.cons_append, Sect.run_cons (hs t), hkd]
      dsimp only
      rw [List.cons_append]
      have hres := hres t (q ++ r)
      dsimp only at hres
      rw [hres, Res.bind_assoc', Res.bind_assoc']
      congr 1
      funext y
      exact hg t _ r
    · obtain ⟨res, hres⟩ := skip_exact hc he (upper b.value)
      refine ⟨fun s => res >>= fun _ => g s, fun t s r => ?_⟩
      rw [List.append_assoc, List.cons_append, Sect.run_cons (hs t), hkd]
      dsimp only
      rw [List.cons_append]
      have hres := hres t (q ++ r)
      rw [hres, Res.bind_assoc', Res.bind_assoc']
      congr 1
      funext y
      exact hg t _ r

theorem Tab.decode_exact {E : Env} {T : Tab κ} (hw : T.Wf) {sub : Term → κ → List Line → Res (σ × List Line)} (hs : ∀ t, Suffix (sub t))
    (hx : ∀ x ∈ T.subs, Exact (fun t => sub t x.2)) : Exact (fun t => T.decode E (sub t) t) := by
  intro body e hc hk he
  obtain ⟨g, hg⟩ := Sect.run_walk (E := E) hs hx hc (Keywords.append hk).1
  refine ⟨g (T.start σ) >>= fun s => if e.value = T.name then (T.finish s >>= fun _ => .ok s) else .err .invalidEnd, fun t r => ?_⟩
  dsimp only
  rw [Tab.decode_run, hg, Res.bind_assoc', Res.bind_assoc']
  congr 1
  funext s
  rw [Sect.run_cons (hs t), Tab.kindOf_end hw he]
  dsimp only
  split
  · dsimp only [Res.ok_bind]
    cases T.finish s <;> rfl
  · rfl

/-- A closed sequence has only lines, or lines up to a BEGIN. -/
theorem closed_cases {k : List Line} (h : Closed k) : (∀ l ∈ k, ¬ Begins l ∧ ¬ Ends l) ∨
    ∃ f b r, k = f ++ b :: r ∧ (∀ l ∈ f, ¬ Begins l ∧ ¬ Ends l) ∧ Begins b := by
  induction h with
  | nil => exact Or.inl (by simp)
  | line hb he _ ih =>
    rcases ih with ih | ⟨f, b, r, rfl, hf, hbb⟩
    · left
      intro l hl
      rcases List.mem_cons.1 hl with rfl | hl
      · exact ⟨hb, he⟩
      · exact ih l hl
    · refine Or.inr ⟨_ :: f, b, r, rfl, ?_, hbb⟩
      intro l hl
      rcases List.mem_cons.1 hl with rfl | hl
      · exact ⟨hb, he⟩
      · exact hf l hl
  | block hb _ _ _ _ _ _ => exact Or.inr ⟨[], _, _, rfl, by simp, hb⟩

theorem Keywords.name {l : Line} {ls : List Line} (h : Keywords ls) (hl : l ∈ ls) {n : Str} (hn : n ∈ control) (he : upper l.name = n) : l.name = n := by
  rw [← he]
  exact h l hl (by rw [he]; exact hn)

theorem upper_name_ne {l : Line} {n : Str} (hu : upper n = n) (h : upper l.name ≠ n) : l.name ≠ n := fun e => h (by rw [e, hu])

/-- Over lines without BEGIN and END. -/
theorem alarmCollect_walk : ∀ {f : List Line}, (∀ l ∈ f, ¬ Begins l ∧ ¬ Ends l) → ∀ a, (∃ e, ∀ t r, alarmCollect t a (f ++ r) = .err e) ∨
    ∃ a', ∀ t r, alarmCollect t a (f ++ r) = alarmCollect t a' r >>= fun x => .ok (x.1, f ++ x.2.1, x.2.2) := by
  intro f
  induction f with
  | nil =>
    intro _ a
    exact Or.inr ⟨a, fun t r => by simp only [List.nil_append]; cases alarmCollect t a r <;> rfl⟩
  | cons l f ih =>
    intro hf a
    obtain ⟨hb, he⟩ := hf l (by simp)
    have hb : l.name ≠ kBEGIN := upper_name_ne (by decide) hb
    have he : l.name ≠ kEND := upper_name_ne (by decide) he
    have ih := ih (fun x hx => hf x (by simp [hx]))
    have step : ∀ a, (∃ e, ∀ t r, (do let (a, pt, r) ← alarmCollect t a (f ++ r); return (a, l :: pt, r)) = Res.err e) ∨
        ∃ a', ∀ t r, (do let (a, pt, r) ← alarmCollect t a (f ++ r); return (a, l :: pt, r)) =
          alarmCollect t a' r >>= fun x => .ok (x.1, l :: f ++ x.2.1, x.2.2) := by
      intro a
      rcases ih a with ⟨e, h⟩ | ⟨a', h⟩
      · exact Or.inl ⟨e, fun t r => by rw [h]; rfl⟩
      · exact Or.inr ⟨a', fun t r => by rw [h]; cases alarmCollect t a' r <;> rfl⟩
    simp only [List.cons_append, alarmCollect, if_neg hb, if_neg he]
    by_cases ha : l.name = kACTION
    · simp only [if_pos ha]
      by_cases hs : a.isSome = true
      · exact Or.inl ⟨_, fun t r => by rw [if_pos hs]⟩
      · simp only [if_neg hs]
        exact step _
    · simp only [if_neg ha]
      exact step _

theorem alarmDecode_exact (E : Env) : Exact (alarmDecode E) := by
  intro body e hc hk he
  have hen : e.name = kEND := Keywords.name hk (by simp) (by decide) he
  have hcol : ∀ t r, alarmCollect t none (e :: r) = .ok (none, [e], r) := by
    intro t r
    rw [alarmCollect, if_neg (by rw [hen]; decide), if_neg (by rw [hen]; decide), if_pos hen]
  rcases closed_cases hc with hf | ⟨f, b, q, rfl, hf, hb⟩
  · rcases alarmCollect_walk hf none with ⟨er, h⟩ | ⟨a', h⟩
    · exact ⟨.err er, fun t r => by unfold alarmDecode; rw [h]; rfl⟩
    · have hcol : ∀ t r, alarmCollect t a' (e :: r) = .ok (a', [e], r) := by
        intro t r
        rw [alarmCollect, if_neg (by rw [hen]; decide), if_neg (by rw [hen]; decide), if_pos hen]
      cases a' with
      | none => exact ⟨.err .missingAlarmAction, fun t r => by unfold alarmDecode; rw [h, hcol]; rfl⟩
      | some k =>
        refine ⟨k.tab.decode E noSub (.error .unexpectedEOF) (body ++ [e]) >>= fun x => .ok (.alarm (some (k, x.1))), fun t r => ?_⟩
        unfold alarmDecode
        rw [h, hcol]
        simp only [Res.ok_bind, Res.bind_assoc', Res.pure_eq]
  · have hbn : b.name = kBEGIN := Keywords.name hk (by simp) (by decide) hb
    rcases alarmCollect_walk hf none with ⟨er, h⟩ | ⟨a', h⟩
    · exact ⟨.err er, fun t r => by unfold alarmDecode; rw [List.append_assoc, h]; rfl⟩
    · refine ⟨.err .invalidStructure, fun t r => ?_⟩
      unfold alarmDecode
      rw [List.append_assoc, h, List.cons_append, alarmCollect, if_pos hbn]
      rfl

theorem noSub_exact {T : Tab Empty} : ∀ x ∈ T.subs, Exact (fun _ => noSub x.2) := fun x => nomatch x.2

theorem Exact.map {dec : Term → List Line → Res (α × List Line)} (h : Exact dec) (f : α → β) : Exact (fun t ls => dec t ls >>= fun x => .ok (f x.1, x.2)) := by
  intro body e hc hk he
  obtain ⟨res, hres⟩ := h body e hc hk he
  exact ⟨res >>= fun y => .ok (f y), fun t r => by dsimp only; rw [hres]; cases res <;> rfl⟩

theorem subDecode_exact {E : Env} {x : Str × Tab SubKind} (hx : x ∈ tabCalendar.subs) : ∀ y ∈ x.2.subs, Exact (fun t => subDecode E t y.2) := by
  intro ⟨n, y⟩ hy
  cases y with
  | alarm => exact alarmDecode_exact E
  | leaf T =>
    obtain ⟨_, _, hg⟩ := compTab_good x hx
    obtain ⟨hw, _⟩ := hg _ hy
    exact Exact.map (Tab.decode_exact hw (fun _ => noSub_suffix) noSub_exact) Sub.leaf

theorem compDecode_exact {E : Env} : ∀ x ∈ tabCalendar.subs, Exact (fun t => compDecode E t x.2) := by
  intro x hx
  obtain ⟨hw, _, _⟩ := compTab_good x hx
  exact Tab.decode_exact hw (subDecode_suffix E) (subDecode_exact hx)

theorem noSub_names (T : Tab Empty) (n : Str) : n ∉ T.subs.map (·.1) := fun h => by
  obtain ⟨x, _, _⟩ := List.mem_map.1 h
  exact nomatch x.2

/-! ## Inside a body -/

/-- The state of the decoder inside a body, and what is left to be done there. -/
def Spec.Body.State : Body → Type
  | .cal => Sect Comp
  | .comp _ => Sect Sub
  | .leaf _ => Leaf
  | .alarm _ => _root_.Unit
  | .unknown => Str

def Spec.Body.Result : Body → Type
  | .cal => Sect Comp × List Line
  | .comp _ => Sect Sub × List Line
  | .leaf _ => Leaf × List Line
  | .alarm _ => Sub × List Line
  | .unknown => List Line

def Spec.Body.run (E : Env) (t : Term) : (B : Body) → B.State → List Line → Res B.Result
  | .cal, s, r => Sect.run E tabCalendar (compDecode E t) t s r
  | .comp T, s, r => Sect.run E T (subDecode E t) t s r
  | .leaf T, s, r => Sect.run E T noSub t s r
  | .alarm k, _, r => alarmDecode E t (k ++ r)
  | .unknown, n, r => skip t n r

/-- The body is one of a calendar. -/
def Spec.Body.Ok : Body → Prop
  | .comp T => ∃ n, (n, T) ∈ tabCalendar.subs
  | .leaf T => ∃ x ∈ tabCalendar.subs, ∃ n, (n, SubKind.leaf T) ∈ x.2.subs
  | _ => True

/-- Errors and panics are passed on. -/
def Strict (K : Res α → Res β) : Prop := (∀ e, K (.err e) = .err e) ∧ K .panic = .panic

theorem strict_bind (f : α → Res β) : Strict (fun x : Res α => x >>= f) := ⟨fun _ => rfl, rfl⟩
theorem strict_id : Strict (fun x : Res α => x) := ⟨fun _ => rfl, rfl⟩
theorem Strict.comp {γ : Type} {K : Res β → Res γ} {K' : Res α → Res β} (h : Strict K) (h' : Strict K') : Strict (fun x => K (K' x)) :=
  ⟨fun e => by show K (K' _) = _; rw [h'.1, h.1], by show K (K' _) = _; rw [h'.2, h.2]⟩

theorem Strict.fails {K : Res α → Res β} (h : Strict K) {x : Res α} (hx : ∀ a, x ≠ .ok a) : ∀ b, K x ≠ .ok b := by
  intro b
  cases x with
  | ok a => exact absurd rfl (hx a)
  | err e => rw [h.1]; intro h; cases h
  | panic => rw [h.2]; intro h; cases h

/-- The lines that are left behind a body. -/
def Spec.Body.rest : (B : Body) → B.Result → List Line
  | .cal, x => x.2
  | .comp _, x => x.2
  | .leaf _, x => x.2
  | .alarm _, x => x.2
  | .unknown, x => x

/-- Errors and panics are passed on, and there is no panic if the body is complete and nothing is left. -/
def Quiet {B : Body} (K : Res B.Result → Res Cal) : Prop := Strict K ∧ ∀ x, B.rest x = [] → K (.ok x) ≠ .panic

/-- The same for a body in a body. -/
def Calm {B B' : Body} (K : Res B'.Result → Res B.Result) : Prop :=
  Strict K ∧ ∀ x, B'.rest x = [] → K (.ok x) ≠ .panic ∧ ∀ y, K (.ok x) = .ok y → B.rest y = []

theorem Quiet.comp {B B' : Body} {K : Res B.Result → Res Cal} {K' : Res B'.Result → Res B.Result} (h : Quiet K) (h' : Calm K') : Quiet (fun x => K (K' x)) := by
  refine ⟨h.1.comp h'.1, fun x hx => ?_⟩
  obtain ⟨h1, h2⟩ := h'.2 x hx
  cases hk : K' (.ok x) with
  | ok y => show K (K' _) ≠ _; rw [hk]; exact h.2 y (h2 y hk)
  | err e => show K (K' _) ≠ _; rw [hk, h.1.1]; intro h; cases h
  | panic => exact absurd hk h1

theorem calm_id {B : Body} : Calm (B := B) (B' := B) (fun x => x) := by
  refine ⟨strict_id, fun x hx => ⟨(fun h => by cases h), fun y h => ?_⟩⟩
  cases h
  exact hx

theorem calm_of_err {B B' : Body} {K : Res B'.Result → Res B.Result} (h : Strict K) (he : ∀ x, B'.rest x = [] → ∃ e, K (.ok x) = .err e) : Calm K := by
  refine ⟨h, fun x hx => ?_⟩
  obtain ⟨e, he⟩ := he x hx
  rw [he]
  exact ⟨(fun h => by cases h), fun y h => by cases h⟩

/-- Decoding a document that begins with `pre` is running the loop of the body, or fails whatever follows. -/
def Reaches (E : Env) (B : Body) (pre : List Line) : Prop := (∃ res, (∀ a, res ≠ .ok a) ∧ ∀ t r, decodeStream E ⟨pre ++ r, t⟩ = res) ∨
  ∃ s : B.State, ∀ t, ∃ K : Res B.Result → Res Cal, Quiet K ∧ ∀ r, decodeStream E ⟨pre ++ r, t⟩ = K (B.run E t s r)

theorem Tab.kindOf_known {T : Tab κ} (hw : T.Wf) {b : Line} (hb : Begins b) {x : Str × κ} (hx : x ∈ T.subs) (hv : upper b.value = x.1) :
    ∃ i, T.kindOf b = .sub i x.2 := by
  rcases Tab.kindOf_begin (T := T) hb with ⟨i, k, hk, hi⟩ | ⟨_, hn⟩
  · obtain ⟨j, hj⟩ := List.getElem?_of_mem hx
    have := hw.sub_inj hi hj hv
    subst this
    rw [hj] at hi
    cases hi
    exact ⟨i, hk⟩
  · exact absurd (List.mem_map.2 ⟨x, hx, hv.symm⟩) hn

theorem Spec.Inside.ok {B : Body} {pre : List Line} (h : Inside B pre) : B.Ok := by
  induction h with
  | cal => trivial
  | @comp _ _ x _ _ hx _ _ => exact ⟨x.1, hx⟩
  | @leaf _ _ _ n _ _ _ hx _ ih => obtain ⟨m, hm⟩ := ih; exact ⟨_, hm, n, hx⟩
  | alarm => trivial
  | unknown => trivial
  | line => trivial
  | lines _ _ _ _ ih => exact ih

theorem Reaches.more {E : Env} {B B' : Body} {pre k : List Line} (h : Reaches E B pre)
    (hk : ∀ s, (∃ res, (∀ a, res ≠ .ok a) ∧ ∀ t r, B.run E t s (k ++ r) = res) ∨ ∃ s' : B'.State, ∀ t, ∃ K : Res B'.Result → Res B.Result, Calm (B := B) (B' := B') K ∧ ∀ r, B.run E t s (k ++ r) = K (B'.run E t s' r)) :
    Reaches E B' (pre ++ k) := by
  rcases h with ⟨res, hf, h⟩ | ⟨s, h⟩
  · exact Or.inl ⟨res, hf, fun t r => by rw [List.append_assoc, h]⟩
  · rcases hk s with ⟨res, hf, hr⟩ | ⟨s', hr⟩
    · left
      have key : ∀ t, ∃ K : Res B.Result → Res Cal, Strict K ∧ ∀ r, decodeStream E ⟨pre ++ k ++ r, t⟩ = K res := by
        intro t
        obtain ⟨K, hK, h⟩ := h t
        exact ⟨K, hK.1, fun r => by rw [List.append_assoc, h, hr]⟩
      cases res with
      | ok a => exact absurd rfl (hf a)
      | err e =>
        refine ⟨.err e, (fun _ h => by cases h), fun t r => ?_⟩
        obtain ⟨K, hK, h⟩ := key t
        rw [h, hK.1]
      | panic =>
        refine ⟨.panic, (fun _ h => by cases h), fun t r => ?_⟩
        obtain ⟨K, hK, h⟩ := key t
        rw [h, hK.2]
    · refine Or.inr ⟨s', fun t => ?_⟩
      obtain ⟨K, hK, h⟩ := h t
      obtain ⟨K', hK', hr⟩ := hr t
      exact ⟨fun x => K (K' x), hK.comp hK', fun r => by rw [List.append_assoc, h, hr]⟩

theorem Sect.run_sub {E : Env} {T : Tab κ} (hw : T.Wf) {sub : Term → κ → List Line → Res (σ × List Line)} (hs : ∀ t, Suffix (sub t)) {b : Line}
    (hb : Begins b) {x : Str × κ} (hx : x ∈ T.subs) (hv : upper b.value = x.1) : ∃ i, ∀ t s r, Sect.run E T (sub t) t s (b :: r) =
      sub t x.2 r >>= fun y => Sect.run E T (sub t) t (s.addSub i y.1) y.2 := by
  obtain ⟨i, hi⟩ := Tab.kindOf_known hw hb hx hv
  exact ⟨i, fun t s r => by rw [Sect.run_cons (hs t), hi]⟩

theorem Sect.run_unk {E : Env} {T : Tab κ} {sub : κ → List Line → Res (σ × List Line)} {t : Term} (hs : Suffix sub) {b : Line}
    (hb : Begins b) (hv : upper b.value ∉ T.subs.map (·.1)) (s : Sect σ) (r : List Line) : Sect.run E T sub t s (b :: r) =
      skip t (upper b.value) r >>= fun r => Sect.run E T sub t s r := by
  rcases Tab.kindOf_begin (T := T) hb with ⟨i, k, hk, hi⟩ | ⟨hk, _⟩
  · exact absurd (List.mem_map.2 ⟨_, List.mem_of_getElem? hi, rfl⟩) hv
  · rw [Sect.run_cons hs, hk]

theorem reached_of_walk {B : Body} {E : Env} {k : List Line} (g : B.State → Res B.State)
    (h : ∀ t s r, B.run E t s (k ++ r) = g s >>= fun s => B.run E t s r) (s : B.State) :
    (∃ res, (∀ a, res ≠ .ok a) ∧ ∀ t r, B.run E t s (k ++ r) = res) ∨ ∃ s' : B.State, ∀ t, ∃ K : Res B.Result → Res B.Result, Calm (B := B) (B' := B) K ∧ ∀ r, B.run E t s (k ++ r) = K (B.run E t s' r) := by
  cases hg : g s with
  | ok s' => exact Or.inr ⟨s', fun t => ⟨id, calm_id, fun r => by rw [h, hg]; rfl⟩⟩
  | err e => exact Or.inl ⟨.err e, (fun _ h => by cases h), fun t r => by rw [h, hg]; rfl⟩
  | panic => exact Or.inl ⟨.panic, (fun _ h => by cases h), fun t r => by rw [h, hg]; rfl⟩

theorem finish_nil_err {E : Env} {T : Tab κ} {α : Type} {sub : κ → List Line → Res (σ × List Line)} {t : Term} {T' : Tab α} {τ : Type} {s : Sect σ} {i : Nat} {f : Sect τ → σ}
    {y : Sect τ × List Line} (hy : y.2 = []) :
    ∃ e, ((((.ok y : Res (Sect τ × List Line)) >>= fun z => do T'.finish z.1; return z) >>= fun z => Res.ok (f z.1, z.2)) >>=
      fun y => Sect.run E T sub t (s.addSub i y.1) y.2) = .err e := by
  obtain ⟨s', r⟩ := y
  obtain rfl : r = [] := hy
  cases hf : T'.finish s' with
  | ok => exact ⟨t.err, by simp only [Res.ok_bind, hf]; rfl⟩
  | err e => exact ⟨e, by simp only [Res.ok_bind, hf]; rfl⟩
  | panic => exact absurd hf (Tab.finish_ne_panic _ _)

theorem Spec.Inside.reaches (E : Env) {B : Body} {pre : List Line} (h : Inside B pre) : Reaches E B pre := by
  induction h with
  | @cal b hb hv =>
    refine Or.inr ⟨tabCalendar.start Comp, fun t => ⟨fun x => do let (c, _) ← (do let (s, r) ← x; tabCalendar.finish s; return (s, r)); return c, ⟨⟨fun _ => rfl, rfl⟩, fun x _ h => ?_⟩, fun r => ?_⟩⟩
    · rcases Res.bind_eq_panic.1 h with h | ⟨_, _, h⟩
      · rcases Res.bind_eq_panic.1 h with h | ⟨_, _, h⟩
        · cases h
        · rcases Res.bind_eq_panic.1 h with h | ⟨_, _, h⟩
          · exact Tab.finish_ne_panic _ _ h
          · cases h
      · cases h
    unfold decodeStream
    simp only [List.singleton_append]
    rw [if_pos ⟨show upper _ = kBEGIN from hb, hv⟩, Tab.decode_run]
    rfl
  | @comp pre b x h hb hx hv ih =>
    refine ih.more fun s => ?_
    obtain ⟨i, hi⟩ := Sect.run_sub (E := E) calTab_wf (compDecode_suffix E) hb hx hv
    refine Or.inr ⟨x.2.start Sub, fun t => ⟨fun y => (y >>= fun z => do x.2.finish z.1; return z) >>=
      fun y => Sect.run E tabCalendar (compDecode E t) t (Sect.addSub s i y.1) y.2, calm_of_err ⟨fun _ => rfl, rfl⟩ fun y hy => ?_, fun r => ?_⟩⟩
    · obtain ⟨e, he⟩ := finish_nil_err (E := E) (T := tabCalendar) (sub := compDecode E t) (t := t) (T' := x.2) (s := s) (i := i) (f := fun z => z) (y := y) hy
      exact ⟨e, by rw [Res.bind_ok'] at he; exact he⟩
    rw [List.singleton_append]
    refine (hi t s r).trans ?_
    unfold compDecode
    rw [Tab.decode_run]
    rfl
  | @leaf T pre b n T' h hb hx hv ih =>
    refine ih.more fun s => ?_
    obtain ⟨m, hm⟩ := h.ok
    obtain ⟨hw, _, _⟩ := compTab_good _ hm
    obtain ⟨i, hi⟩ := Sect.run_sub (E := E) hw (subDecode_suffix E) hb hx hv
    refine Or.inr ⟨T'.start Empty, fun t => ⟨fun y => ((y >>= fun z => do T'.finish z.1; return z) >>= fun z => .ok (Sub.leaf z.1, z.2)) >>=
      fun y => Sect.run E T (subDecode E t) t (Sect.addSub s i y.1) y.2, calm_of_err ⟨fun _ => rfl, rfl⟩ fun y hy => ?_, fun r => ?_⟩⟩
    · exact finish_nil_err (f := Sub.leaf) (y := y) hy
    rw [List.singleton_append]
    refine (hi t s r).trans ?_
    simp only [subDecode]
    rw [Tab.decode_run]
    rfl
  | @alarm T pre b n h hb hx hv ih =>
    refine ih.more fun s => ?_
    obtain ⟨m, hm⟩ := h.ok
    obtain ⟨hw, _, _⟩ := compTab_good _ hm
    obtain ⟨i, hi⟩ := Sect.run_sub (E := E) hw (subDecode_suffix E) hb hx hv
    refine Or.inr ⟨(), fun t => ⟨fun y => y >>= fun y => Sect.run E T (subDecode E t) t (Sect.addSub s i y.1) y.2, calm_of_err ⟨fun _ => rfl, rfl⟩ fun y hy => ⟨t.err, ?_⟩, fun r => ?_⟩⟩
    · show Sect.run _ _ _ _ _ (Body.rest (.alarm []) y) = _
      rw [hy]
      rfl
    rw [List.singleton_append]
    exact hi t s r
  | @unknown B pre b h hB hb hv ih =>
    refine ih.more fun s => ?_
    cases B with
    | cal => exact Or.inr ⟨upper b.value, fun t => ⟨fun x => x >>= fun r => Sect.run E tabCalendar (compDecode E t) t s r, calm_of_err (strict_bind _) (fun x hx => ⟨t.err, by cases hx; rfl⟩), fun r =>
        Sect.run_unk (compDecode_suffix E t) hb hv s r⟩⟩
    | comp T => exact Or.inr ⟨upper b.value, fun t => ⟨fun x => x >>= fun r => Sect.run E T (subDecode E t) t s r, calm_of_err (strict_bind _) (fun x hx => ⟨t.err, by cases hx; rfl⟩), fun r =>
        Sect.run_unk (subDecode_suffix E t) hb hv s r⟩⟩
    | leaf T => exact Or.inr ⟨upper b.value, fun t => ⟨fun x => x >>= fun r => Sect.run E T noSub t s r, calm_of_err (strict_bind _) (fun x hx => ⟨t.err, by cases hx; rfl⟩), fun r =>
        Sect.run_unk noSub_suffix hb (noSub_names T _) s r⟩⟩
    | alarm k => exact absurd rfl (hB k)
    | unknown => exact Or.inr ⟨b.value, fun t => ⟨fun x => x >>= fun r => skip t s r, calm_of_err (strict_bind _) (fun x hx => ⟨t.err, by cases hx; rfl⟩), fun r =>
        (skip_cons t s b r).trans (by rw [if_pos (show upper _ = kBEGIN from hb)]; rfl)⟩⟩
  | @line k pre l h hb he ih =>
    refine ih.more fun s => Or.inr ⟨(), fun t => ⟨id, calm_id, fun r => ?_⟩⟩
    show alarmDecode E t (k ++ ([l] ++ r)) = alarmDecode E t (k ++ [l] ++ r)
    rw [List.append_assoc]
  | @lines B pre k h hB hc hk ih =>
    refine ih.more fun s => ?_
    have hok := h.ok
    cases B with
    | cal =>
      obtain ⟨g, hg⟩ := Sect.run_walk (E := E) (compDecode_suffix E) compDecode_exact hc hk
      exact reached_of_walk (B := .cal) g hg s
    | comp T =>
      obtain ⟨m, hm⟩ := hok
      obtain ⟨g, hg⟩ := Sect.run_walk (E := E) (subDecode_suffix E) (subDecode_exact hm) hc hk
      exact reached_of_walk (B := .comp T) g hg s
    | leaf T =>
      obtain ⟨g, hg⟩ := Sect.run_walk (E := E) (T := T) (sub := fun _ => noSub) (fun _ => noSub_suffix) noSub_exact hc hk
      exact reached_of_walk (B := .leaf T) g hg s
    | alarm k => exact absurd rfl (hB k)
    | unknown =>
      obtain ⟨res, hr⟩ := skip_walk hc s
      cases res with
      | ok => exact Or.inr ⟨s, fun t => ⟨id, calm_id, fun r => hr t r⟩⟩
      | err e => exact Or.inl ⟨.err e, (fun _ h => by cases h), fun t r => hr t r⟩
      | panic => exact Or.inl ⟨.panic, (fun _ h => by cases h), fun t r => hr t r⟩

end Ics
