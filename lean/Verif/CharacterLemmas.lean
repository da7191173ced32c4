import Verif.Spec.Characters
import Verif.OutputLemmas
import Verif.DecodedOutputLemmas
import Verif.OutsideLemmas
/-!
# Lemmas about the characters of calendars and documents
-/

namespace Ics
open Spec

/-- All characters of a text. -/
def EachChar (P : Char → Prop) (s : Str) : Prop := ∀ ch ∈ s, P ch

theorem EachChar.nil {P : Char → Prop} : EachChar P [] := nofun

theorem EachChar.append {P : Char → Prop} {s t : Str} (hs : EachChar P s) (ht : EachChar P t) : EachChar P (s ++ t) :=
  fun ch h => (List.mem_append.1 h).elim (hs ch) (ht ch)

theorem EachChar.cons {P : Char → Prop} {c : Char} {s : Str} (hc : P c) (hs : EachChar P s) : EachChar P (c :: s) := by
  intro ch h
  rcases List.mem_cons.1 h with rfl | h
  · exact hc
  · exact hs ch h

theorem EachChar.left {P : Char → Prop} {s t : Str} (h : EachChar P (s ++ t)) : EachChar P s := fun ch hc => h ch (List.mem_append_left _ hc)

theorem EachChar.right {P : Char → Prop} {s t : Str} (h : EachChar P (s ++ t)) : EachChar P t := fun ch hc => h ch (List.mem_append_right _ hc)

theorem EachChar.tail {P : Char → Prop} {c : Char} {s : Str} (h : EachChar P (c :: s)) : EachChar P s := fun ch hc => h ch (List.mem_cons_of_mem _ hc)

theorem EachChar.head {P : Char → Prop} {c : Char} {s : Str} (h : EachChar P (c :: s)) : P c := h c (List.mem_cons_self ..)

theorem EachChar.join {P : Char → Prop} {c : Char} (hc : P c) : ∀ {ws : List Str}, (∀ w ∈ ws, EachChar P w) → EachChar P (join [c] ws)
  | [], _ => .nil
  | [w], h => h w (by simp)
  | w :: x :: ws, h => by
    have h1 := EachChar.join hc (ws := x :: ws) fun y hy => h y (List.mem_cons_of_mem _ hy)
    exact ((h w (by simp)).append (.cons hc .nil)).append h1

/-! ## Reading -/

theorem decodeText_each {P : Char → Prop} (hn : P '\\' ∨ P '^' → P '\n') (hr : P '\\' → P '�') (s : Str) (h : EachChar P s) : EachChar P (decodeText s).1 ∧ EachChar P (decodeText s).2 := by
  fun_induction decodeText s
  all_goals simp_all +zetaDelta [EachChar]

theorem Text.decode_each {P : Char → Prop} (hn : P '\\' ∨ P '^' → P '\n') (hr : P '\\' → P '�') {s t : Str} (hs : EachChar P s) (h : Text.decode s = .ok t) : EachChar P t := by
  unfold Text.decode at h
  have := (decodeText_each hn hr s hs).1
  split at h
  · rename_i t' e
    rw [e] at this; cases h; exact this
  · cases h

theorem MText.decodeF_each {P : Char → Prop} (hn : P '\\' ∨ P '^' → P '\n') (hr : P '\\' → P '�') : ∀ (f : Nat) {s : Str} {ts : List Str}, EachChar P s → MText.decodeF f s = .ok ts → ∀ t ∈ ts, EachChar P t := by
  intro f
  induction f with
  | zero => intro s ts _ h; cases h
  | succ f ih =>
    intro s ts hs h
    have hd := decodeText_each hn hr s hs
    unfold MText.decodeF at h
    split at h
    · rename_i t e
      rw [e] at hd; cases h
      intro t' ht
      rw [List.mem_singleton.1 ht]; exact hd.1
    · rename_i t r e
      rw [e] at hd
      cases hm : MText.decodeF f r with
      | ok ts' =>
        rw [hm] at h; cases h
        intro t' ht
        rcases List.mem_cons.1 ht with rfl | ht
        · exact hd.1
        · exact ih hd.2.tail hm t' ht
      | err e => rw [hm] at h; cases h
      | panic => rw [hm] at h; cases h
    · cases h

theorem decode6868F_each {P : Char → Prop} (hn : P '\\' ∨ P '^' → P '\n') (hq : P '^' → P '"') : ∀ (f : Nat) (s p : Str), EachChar P s → EachChar P p → EachChar P (decode6868F f p s) := by
  intro f
  induction f with
  | zero => intro s p _ _; exact .nil
  | succ f ih =>
    intro s p hs hp
    have h1 : EachChar P (s.takeWhile (· ≠ '^') ++ s.dropWhile (· ≠ '^')) := by rw [List.takeWhile_append_dropWhile]; exact hs
    have hh : ∀ x r, s.dropWhile (· ≠ '^') = x :: r → x = '^' := by
      intro x r e
      have := List.head_dropWhile_not (p := fun c : Char => decide (c ≠ '^')) (l := s) (by rw [e]; simp)
      simp only [e, List.head_cons] at this
      simpa using this
    unfold decode6868F
    refine (hp.append h1.left).append ?_
    have h2 := h1.right
    split
    · exact .nil
    · rename_i e
      rw [e, hh _ _ e] at h2; exact h2
    · rename_i r e
      rw [e, hh _ _ e] at h2
      exact .cons (hn (.inr h2.head)) (ih _ _ h2.tail.tail (.cons h2.head (.cons h2.tail.head .nil)))
    · rename_i r e
      rw [e, hh _ _ e] at h2
      exact .cons (hq h2.head) (ih _ _ h2.tail.tail (.cons h2.head (.cons h2.tail.head .nil)))
    · rename_i r e
      rw [e, hh _ _ e] at h2
      exact .cons h2.head (ih _ _ h2.tail.tail (.cons h2.head (.cons h2.tail.head .nil)))
    · rename_i c r _ _ _ e
      rw [e, hh _ _ e] at h2
      exact .cons h2.head (.cons h2.head (ih _ _ h2.tail.tail (.cons h2.head (.cons h2.tail.head .nil))))

theorem decode6868_each {P : Char → Prop} (hn : P '\\' ∨ P '^' → P '\n') (hq : P '^' → P '"') {s : Str} (h : EachChar P s) : EachChar P (decode6868 s) := decode6868F_each hn hq _ _ _ h .nil

/-- The name in the TZID parameter. -/
def TzEach (P : Char → Prop) (tz : Option Str) : Prop := ∀ n, tz = some n → EachChar P n

theorem DateTime.decode_each {P : Char → Prop} {E : Env} {p : Nat} {tz : Option Str} {s : Str} {t : GoTime} (hz : TzEach P tz) (h : DateTime.decode E p tz s = .ok t) :
    EachChar P (locName t.loc) := by
  have loc : ∀ {z : Bool} {l : Loc} {s : Str} {t : GoTime}, parseDateTime E z l s = some t → t.loc = l := by
    intro z l s t h
    unfold parseDateTime at h
    split at h
    · split at h
      · generalize (if z = true then ['Z'] else []) = q at h
        split at h
        · cases h; rfl
        · cases h
      · cases h
    · cases h
  unfold DateTime.decode at h
  cases tz with
  | none =>
    dsimp only at h
    split at h
    · cases hp : parseDateTime E true .utc s with
      | none => rw [hp] at h; cases h
      | some t' => rw [hp] at h; cases h; rw [loc hp]; exact .nil
    · cases hp : parseDateTime E false .local s with
      | none => rw [hp] at h; cases h
      | some t' => rw [hp] at h; cases h; rw [loc hp]; exact .nil
  | some name =>
    dsimp only at h
    cases hl : loadLocation E p name with
    | none => rw [hl] at h; cases h
    | some l =>
      rw [hl] at h
      change Res.ofOption .ext (parseDateTime E false l s) = _ at h
      cases hp : parseDateTime E false l s with
      | none => rw [hp] at h; cases h
      | some t' =>
        rw [hp] at h; cases h
        rw [loc hp]
        unfold loadLocation at hl
        split at hl
        · cases hl; exact .nil
        · split at hl
          · cases hl; exact .nil
          · cases hz' : E.loadZone name with
            | none => rw [hz'] at hl; cases hl
            | some r => rw [hz'] at hl; cases hl; exact hz _ rfl

theorem Recur.decode_each {P : Char → Prop} {E : Env} {p : Nat} {tz : Option Str} {s : Str} {r : Recur} (hz : TzEach P tz) (h : Recur.decode E p tz s = .ok r) :
    EachChar P (locName r.until_.loc) := by
  have loop : ∀ (ps : List Str) {st st' : RState}, Recur.loop E p tz st ps = .ok st' → EachChar P (locName st.1.until_.loc) → EachChar P (locName st'.1.until_.loc) := by
    intro ps
    induction ps with
    | nil => intro st st' h hs; cases h; exact hs
    | cons q ps ih =>
      intro st st' h hs
      unfold Recur.loop at h
      split at h
      · cases h
      · rename_i name v e
        split at h
        · cases h
        · rename_i k _
          cases hp : Recur.part E p tz st v k with
          | ok st1 =>
            rw [hp] at h
            refine ih h ?_
            cases k <;> simp only [Recur.part] at hp
            case «until» =>
              split at hp
              · cases hp
              · split at hp
                · cases hd : DateTime.decode E p tz v with
                  | ok t => rw [hd] at hp; cases hp; exact DateTime.decode_each hz hd
                  | err e => rw [hd] at hp; cases hp
                  | panic => rw [hd] at hp; cases hp
                · cases hd : Date.decode v with
                  | ok t =>
                    rw [hd] at hp; cases hp
                    rw [(Date.decode_fits (E := E) hd).2]; exact .nil
                  | err e => rw [hd] at hp; cases hp
                  | panic => rw [hd] at hp; cases hp
            all_goals first
              | (obtain ⟨m, hm, rfl⟩ := once_mapRes hp; exact hs)
              | (repeat' split at hp
                 all_goals cases hp
                 all_goals exact hs)
          | err e => rw [hp] at h; cases h
          | panic => rw [hp] at h; cases h
  unfold Recur.decode at h
  cases hl : Recur.loop E p tz ({}, false) (splitOn ';' s) with
  | ok x =>
    rw [hl] at h
    have h1 := loop _ hl .nil
    obtain ⟨r', b⟩ := x
    change (if b then Res.ok r' else .err .invalidRecur) = .ok r at h
    split at h
    · cases h; exact h1
    · cases h
  | err e => rw [hl] at h; cases h
  | panic => rw [hl] at h; cases h

theorem Period.decode_each {P : Char → Prop} {E : Env} {p : Nat} {tz : Option Str} {s : Str} {x : Period} (hz : TzEach P tz) (h : Period.decode E p tz s = .ok x) :
    EachChar P (locName x.start.loc) ∧ EachChar P (locName x.stop.loc) := by
  unfold Period.decode at h
  split at h
  · cases h
  · cases h
  · rename_i a c b _
    cases hd : DateTime.decode E p tz a with
    | err e => rw [hd] at h; cases h
    | panic => rw [hd] at h; cases h
    | ok t =>
      rw [hd] at h
      have ht := DateTime.decode_each hz hd
      change (if c = 'P' ∨ c = '+' then _ else _) = _ at h
      split at h
      · cases hu : Duration.decode (c :: b) with
        | err e => rw [hu] at h; cases h
        | panic => rw [hu] at h; cases h
        | ok d => rw [hu] at h; cases h; exact ⟨ht, .nil⟩
      · cases hu : DateTime.decode E (p + 1) tz (c :: b) with
        | err e => rw [hu] at h; cases h
        | panic => rw [hu] at h; cases h
        | ok d => rw [hu] at h; cases h; exact ⟨ht, DateTime.decode_each hz hu⟩

theorem Val.decode_each {P : Char → Prop} (hn : P '\\' ∨ P '^' → P '\n') (hr : P '\\' → P '�') {E : Env} {op : Str → Option Str} {k : Kind} {s : Str} {v : Val} (hs : EachChar P s)
    (hz : TzEach P (op c!"TZID")) (h : Val.decode E op k s = .ok v) : ∀ w ∈ valStrings v, EachChar P w := by
  cases k <;> obtain ⟨a, ha, rfl⟩ := Res.of_map h <;> simp only [valStrings]
  case text => intro w hw; rw [List.mem_singleton.1 hw]; exact Text.decode_each hn hr hs ha
  case mtext => exact MText.decodeF_each hn hr _ hs ha
  case dateTime => intro w hw; rw [List.mem_singleton.1 hw]; exact DateTime.decode_each hz ha
  case recur => intro w hw; rw [List.mem_singleton.1 hw]; exact Recur.decode_each hz ha
  case period =>
    have := Period.decode_each hz ha
    intro w hw
    simp only [List.mem_cons, List.not_mem_nil, or_false] at hw
    rcases hw with rfl | rfl
    · exact this.1
    · exact this.2
  all_goals nofun

theorem printVals_each {P : Char → Prop} : ∀ {vs : List PVal}, EachChar P (printVals vs) → ∀ v ∈ vs, EachChar P v.data := by
  have one : ∀ v : PVal, EachChar P (printVal v) → EachChar P v.data := by
    intro v h
    unfold printVal at h
    split at h
    · exact h.tail.left
    · exact h
  intro vs
  induction vs with
  | nil => nofun
  | cons v vs ih =>
    intro h w hw
    cases vs with
    | nil => rw [List.mem_singleton.1 hw]; exact one v h
    | cons x vs =>
      have h : EachChar P (printVal v ++ ',' :: printVals (x :: vs)) := h
      rcases List.mem_cons.1 hw with rfl | hw
      · exact one _ h.left
      · exact ih h.right.tail w hw

theorem printVals_join {P : Char → Prop} {vs : List PVal} (h : EachChar P (printVals vs)) : EachChar P (join [','] (vs.map (·.data))) := by
  induction vs with
  | nil => exact .nil
  | cons v vs ih =>
    cases vs with
    | nil => exact printVals_each h v (by simp)
    | cons x vs =>
      have h' : EachChar P (printVal v ++ ',' :: printVals (x :: vs)) := h
      exact ((printVals_each h v (by simp)).append (.cons h'.right.head .nil)).append (ih h'.right.tail)

theorem PKind.decode_each {P : Char → Prop} (hn : P '\\' ∨ P '^' → P '\n') (hq : P '^' → P '"') {E : Env} {k : PKind} {vs : List PVal} {p : ParamVal} (hs : EachChar P (printVals vs))
    (h : k.decode E vs = .ok p) : ∀ w ∈ paramStrings p, EachChar P w := by
  have hd := printVals_each hs
  cases k <;> simp only [PKind.decode] at h
  case urls =>
    generalize hg : (fun v : PVal => (do wantQuoted v; URI.decode E v.data : Res Url)) = g at h
    cases hm : mapRes g vs with
    | ok us => rw [hm] at h; cases h; nofun
    | err e => rw [hm] at h; cases h
    | panic => rw [hm] at h; cases h
  case strs =>
    have key : ∀ (g : PVal → Res Str), (∀ v u, EachChar P v.data → g v = .ok u → EachChar P u) → ∀ {vs : List PVal} {us : List Str}, (∀ v ∈ vs, EachChar P v.data) → mapRes g vs = .ok us →
        ∀ u ∈ us, EachChar P u := by
      intro g hg vs
      induction vs with
      | nil => intro us _ h; cases h; nofun
      | cons v vs ih =>
        intro us hv' h
        unfold mapRes at h
        cases hv : g v with
        | ok u =>
          cases hr : mapRes g vs with
          | ok ws =>
            rw [hv, hr] at h; cases h
            intro w hw
            rcases List.mem_cons.1 hw with rfl | hw
            · exact hg _ _ (hv' v (List.mem_cons_self ..)) hv
            · exact ih (fun x hx => hv' x (List.mem_cons_of_mem _ hx)) hr w hw
          | err e => rw [hv, hr] at h; cases h
          | panic => rw [hv, hr] at h; cases h
        | err e => rw [hv] at h; cases h
        | panic => rw [hv] at h; cases h
    generalize hg : (fun v : PVal => (do wantQuoted v; return decode6868 v.data : Res Str)) = g at h
    cases hm : mapRes g vs with
    | ok ss =>
      rw [hm] at h; cases h
      refine key g (fun v u hv hu => ?_) hd hm
      rw [← hg] at hu
      cases hq' : v.quoted <;> simp only [wantQuoted, Res.guard, hq'] at hu <;> cases hu
      exact decode6868_each hn hq hv
    | err e => rw [hm] at h; cases h
    | panic => rw [hm] at h; cases h
  case str q =>
    obtain ⟨v, rfl, h, _⟩ := twice.dec1 h
    have := decode6868_each hn hq (hd v (by simp))
    cases q <;> cases hq' : v.quoted <;> simp only [wantQuoted, Res.guard, hq'] at h <;> cases h <;> (intro w hw; rw [List.mem_singleton.1 hw]; exact this)
  all_goals
    obtain ⟨v, rfl, h, hm⟩ := twice.dec1 h
    clear hm
  case url =>
    cases hq' : v.quoted <;> simp only [wantQuoted, Res.guard, hq'] at h
    · cases h
    · change (URI.decode E v.data >>= _) = _ at h
      cases hu : URI.decode E v.data with
      | ok u => rw [hu] at h; cases h; nofun
      | err e => rw [hu] at h; cases h
      | panic => rw [hu] at h; cases h
  case fmt =>
    cases hq' : fmtMatch v.data <;> simp only [Res.guard, hq'] at h <;> cases h
    intro w hw; rw [List.mem_singleton.1 hw]; exact hd v (by simp)
  case enum names => split at h <;> cases h <;> nofun
  case range => by_cases hq' : upper v.data = c!"THISANDFUTURE" <;> simp only [Res.guard, hq'] at h <;> cases h; nofun
  case bool =>
    cases hu : Boolean.decode v.data with
    | ok u => rw [hu] at h; cases h; nofun
    | err e => rw [hu] at h; cases h
    | panic => rw [hu] at h; cases h

/-- What the parameters found so far hold. -/
def PState.Each (P : Char → Prop) (st : PState) : Prop := (∀ p, some p ∈ st.ps → ∀ w ∈ paramStrings p, EachChar P w) ∧ ∀ x ∈ st.op, EachChar P x.2

theorem PState.steps_each {P : Char → Prop} (hn : P '\\' ∨ P '^' → P '\n') (hq : P '^' → P '"') {E : Env} {ds : List PDef} {vals : List (Str × Kind)} : ∀ (ps : List (Str × List PVal)) {st st' : PState},
    EachChar P (printParams ps) → st.Each P → PState.steps E ds vals st ps = .ok st' → st'.Each P := by
  intro ps
  induction ps with
  | nil => intro st st' _ hs h; cases h; exact hs
  | cons p ps ih =>
    intro st st' hp hs h
    obtain ⟨n, vs⟩ := p
    have hp : EachChar P (';' :: n ++ '=' :: printVals vs ++ printParams ps) := hp
    have hv : EachChar P (printVals vs) := hp.left.right.tail
    unfold PState.steps at h
    cases hst : st.step E ds vals (n, vs) with
    | ok st1 =>
      rw [hst] at h
      refine ih hp.right ?_ h
      unfold PState.step at hst
      dsimp only at hst
      split at hst
      · split at hst
        · cases hst
        · rename_i i _ _
          cases hd : (ds.getD i ⟨[], .range⟩).kind.decode E vs with
          | ok v =>
            rw [hd] at hst; cases hst
            refine ⟨fun p hp => ?_, hs.2⟩
            rcases List.mem_or_eq_of_mem_set hp with hp | hp
            · exact hs.1 p hp
            · cases hp; exact PKind.decode_each hn hq hv hd
          | err e => rw [hd] at hst; cases hst
          | panic => rw [hd] at hst; cases hst
      · have hj := printVals_join hv
        repeat' split at hst
        all_goals cases hst
        · exact hs
        · refine ⟨hs.1, fun x hx => ?_⟩
          rcases List.mem_cons.1 hx with rfl | hx
          · exact hj
          · exact hs.2 x hx
    | err e => rw [hst] at h; cases h
    | panic => rw [hst] at h; cases h

theorem propWith_each {Q : Str → Prop} {f : ParamVal → List Str} {g : Val → List Str} {ps : List (Option ParamVal)} {vs : List (Option Val)} :
    (∀ w ∈ propWith f g (.fields ps vs), Q w) ↔ (∀ p, some p ∈ ps → ∀ w ∈ f p, Q w) ∧ ∀ v, some v ∈ vs → ∀ w ∈ g v, Q w := by
  simp only [propWith, List.mem_append, List.mem_flatMap, List.mem_filterMap, id]
  constructor
  · intro h
    exact ⟨fun p hp w hw => h w (.inl ⟨p, ⟨_, hp, rfl⟩, hw⟩), fun v hv w hw => h w (.inr ⟨v, ⟨_, hv, rfl⟩, hw⟩)⟩
  · rintro ⟨h1, h2⟩ w (⟨p, ⟨q, hq, rfl⟩, hw⟩ | ⟨v, ⟨q, hq, rfl⟩, hw⟩)
    · exact h1 p hq w hw
    · exact h2 v hq w hw

theorem PSpec.decode_each {P : Char → Prop} (hn : P '\\' ∨ P '^' → P '\n') (hr : P '\\' → P '�') (hq : P '^' → P '"') {E : Env} {sp : PSpec} {l : Line} {v : PropVal} (hl : EachChar P (printBare l))
    (h : sp.decode E l.params l.value = .ok v) : ∀ w ∈ propWith paramStrings valStrings v, EachChar P w := by
  have hl : EachChar P (l.name ++ printParams l.params ++ ':' :: l.value) := hl
  unfold PSpec.decode at h
  split at h
  · split at h <;> cases h
    nofun
  · rename_i ds vals _
    cases hs : PState.steps E ds vals { ps := ds.map fun _ => none } l.params with
    | ok st =>
      rw [hs] at h
      change (Val.decode E (opGet st.op) (vals.getD (st.vtype.getD 0) ([], .text)).2 l.value >>= fun v =>
        Res.ok (.fields st.ps (oneOf vals.length (st.vtype.getD 0) v))) = .ok v at h
      have he := PState.steps_each hn hq _ hl.left.right ⟨by simp, by simp⟩ hs
      cases hv : Val.decode E (opGet st.op) (vals.getD (st.vtype.getD 0) ([], .text)).2 l.value with
      | ok x =>
        rw [hv] at h; cases h
        refine propWith_each.2 ⟨he.1, fun w hw => ?_⟩
        have : some w = some x := by
          unfold oneOf at hw
          rcases List.mem_or_eq_of_mem_set hw with hw | hw
          · simp at hw
          · exact hw
        cases this
        refine Val.decode_each hn hr hl.right.tail (fun n hn' => ?_) hv
        unfold opGet at hn'
        cases hf : st.op.find? (fun x => x.1 == c!"TZID") with
        | none => rw [hf] at hn'; cases hn'
        | some y => rw [hf] at hn'; cases hn'; exact he.2 y (List.mem_of_find?_eq_some hf)
      | err e => rw [hv] at h; cases h
      | panic => rw [hv] at h; cases h
    | err e => rw [hs] at h; cases h
    | panic => rw [hs] at h; cases h

theorem bare_each : ∀ (ls : List Line), ls ≠ [] → ∃ A, ls.flatMap printLine = A ++ crlf ∧ ∀ l ∈ ls, ∀ ch ∈ printBare l, ch ∈ A
  | [], h => absurd rfl h
  | [l], _ => ⟨printBare l, by simp [printLine, crlf], by simp⟩
  | l :: m :: ls, _ => by
    obtain ⟨A, h1, h2⟩ := bare_each (m :: ls) (by simp)
    refine ⟨printLine l ++ A, by rw [List.flatMap_cons, h1, List.append_assoc], fun x hx ch hc => ?_⟩
    rcases List.mem_cons.1 hx with rfl | hx
    · exact List.mem_append_left _ (List.mem_append_left _ hc)
    · exact List.mem_append_right _ (h2 x hx ch hc)

theorem tokenise_each {s : Str} {l : Line} (hl : l ∈ (tokenise s).lines) : ∀ ch ∈ printBare l, ch ∈ s := by
  have h := (tokenise_front (s := s) (pre := (tokenise s).lines) (r := []) (by simp)).2
  obtain ⟨A, h1, h2⟩ := bare_each (tokenise s).lines (fun e => by rw [e] at hl; cases hl)
  intro ch hc
  have hm := h2 l hl ch hc
  rcases h with ⟨q, h⟩ | h
  · rw [h, h1]; exact List.mem_append_left _ (List.mem_append_left _ hm)
  · rw [h1] at h
    rw [List.append_cancel_right h]
    exact hm

/-- What holds of every property that is kept holds of every property. -/
theorem calAll_every {R : PropVal → Prop} {c : Cal} (ha : CalAll (fun _ p => R p) c) : ∀ p ∈ everyProp c, R p := by
  have key : ∀ {κ σ : Type} {T : Tab κ} {Q : κ → σ → Prop} {s : Sect σ}, SectAll (fun _ p => R p) Q T s →
      (∀ p ∈ s.fields.flatten, R p) ∧ ∀ y ∈ s.subs.flatten, ∃ x ∈ T.subs, Q x.2 y := by
    intro κ σ T Q s hs
    refine ⟨fun p hp => ?_, fun y hy => ?_⟩
    · obtain ⟨i, hi, hx⟩ := mem_flatten_getD hp
      rw [hs.lenF] at hi
      exact hs.field i _ (List.getElem?_eq_getElem hi) p hx
    · obtain ⟨i, hi, hx⟩ := mem_flatten_getD hy
      rw [hs.lenS] at hi
      exact ⟨_, List.getElem_mem hi, hs.sub i _ (List.getElem?_eq_getElem hi) y hx⟩
  intro p hp
  simp only [everyProp, List.mem_append, List.mem_flatMap] at hp
  obtain ⟨k1, k2⟩ := key ha.1
  rcases hp with hp | ⟨x, hx, hp⟩
  · exact k1 p hp
  · obtain ⟨k, _, hc⟩ := k2 x hx
    obtain ⟨k3, k4⟩ := key hc.1
    rcases hp with hp | ⟨y, hy, hp⟩
    · exact k3 p hp
    · obtain ⟨⟨n, k⟩, _, hq⟩ := k4 y hy
      cases y with
      | leaf s =>
        cases k with
        | leaf T => exact (key hq.1).1 p hp
        | alarm => exact hq.elim
      | alarm a =>
        cases a with
        | none => simp at hp
        | some ks =>
          cases k with
          | leaf T => exact hq.elim
          | alarm => exact (key hq.1).1 p hp

theorem decodeDoc_each {P : Char → Prop} (hn : P '\\' ∨ P '^' → P '\n') (hr : P '\\' → P '�') (hq : P '^' → P '"') {E : Env} {s : Str} (hs : EachChar P s) {c : Cal} (h : decodeDoc E s = .ok c) :
    ∀ w ∈ calTexts c, EachChar P w := by
  have ha : CalAll (fun _ p => ∀ w ∈ propWith paramStrings valStrings p, EachChar P w) c :=
    decodeStream_all (L := fun l => EachChar P (printBare l)) (fun f l p _ hl hd => PSpec.decode_each hn hr hq hl hd) (fun l hl ch hc => hs ch (tokenise_each hl ch hc)) h
  intro w hw
  obtain ⟨p, hp, hw⟩ := List.mem_flatMap.1 hw
  exact calAll_every ha p hp w hw

end Ics
