import Verif.RawLemmas
import Verif.Props.TextOctets
import Verif.FolderOctets
import Verif.ByteLemmas
/-!
# Lemmas: which calendars are written as UTF-8, and how what is written is read
-/

namespace Ics

open Spec Props

theorem utf8_runes_length (t : Bytes) : t.length ≤ (utf8 (runes t)).length ∧ (t.length = (utf8 (runes t)).length → utf8 (runes t) = t) := by
  induction t using runes_induction with
  | nil => exact ⟨by simp, fun _ => rfl⟩
  | bad b r h1 h2 ih =>
    rw [runes_bad h2, utf8_cons, List.length_append, show (encodeChar '�').length = 3 by decide, List.length_cons]
    exact ⟨by omega, fun h => by omega⟩
  | good c r ih =>
    rw [runes_good, utf8_cons, List.length_append, List.length_append]
    exact ⟨by omega, fun h => by rw [ih.2 (by omega)]⟩

theorem isUtf8_append {a b : Bytes} (h : runes (a ++ b) = runes a ++ runes b) : IsUtf8 (a ++ b) ↔ IsUtf8 a ∧ IsUtf8 b := by
  rw [isUtf8_iff, isUtf8_iff, isUtf8_iff, h, utf8_append]
  constructor
  · intro e
    have l := congrArg List.length e
    rw [List.length_append, List.length_append] at l
    have h1 := utf8_runes_length a
    have h2 := utf8_runes_length b
    exact ⟨h1.2 (by omega), h2.2 (by omega)⟩
  · rintro ⟨h1, h2⟩
    rw [h1, h2]

/-- The octets are UTF-8 exactly if these are.  Not in /repo. -/
def Wr (ss : List Bytes) (b : Bytes) : Prop := IsUtf8 b ↔ ∀ s ∈ ss, IsUtf8 s

theorem wr_utf8 (s : Str) : Wr [] (utf8 s) := ⟨fun _ => nofun, fun _ => ⟨s, rfl⟩⟩

theorem wr_self (b : Bytes) : Wr [b] b := ⟨fun h => by simpa using h, fun h => h b (by simp)⟩

theorem wr_append {a b : Bytes} {ss ss' : List Bytes} (h : runes (a ++ b) = runes a ++ runes b) (h1 : Wr ss a) (h2 : Wr ss' b) : Wr (ss ++ ss') (a ++ b) := by
  unfold Wr at *
  rw [isUtf8_append h, h1, h2]
  simp only [List.mem_append]
  exact ⟨fun ⟨x, y⟩ s hs => hs.elim (x s) (y s), fun x => ⟨fun s hs => x s (.inl hs), fun s hs => x s (.inr hs)⟩⟩

theorem wr_pre (s : Str) {b : Bytes} {ss : List Bytes} (h : Wr ss b) : Wr ss (utf8 s ++ b) := wr_append (by rw [runes_append, runes_utf8]) (wr_utf8 s) h

theorem wr_byte {x : UInt8} (hx : x.toNat < 128) {b : Bytes} {ss : List Bytes} (h : Wr ss b) : Wr ss (x :: b) := by
  have e : [x] = utf8 [Char.ofNat x.toNat] := by
    have : (Char.ofNat x.toNat).toNat = x.toNat := by
      unfold Char.ofNat
      rw [dif_pos (.inl (by omega))]
      rfl
    rw [utf8_cons, encodeChar_ascii _ (by omega), this]
    simp [utf8]
  have := wr_pre [Char.ofNat x.toNat] h
  rw [← e] at this
  exact this

theorem wr_quote {b : Bytes} {ss : List Bytes} (h : Wr ss b) : Wr ss (quoteB b) := by
  have h2 : Wr (ss ++ []) (b ++ [0x22]) := wr_append (runes_split b (.cons (by decide) _)) h (wr_utf8 ['"'])
  rw [List.append_nil] at h2
  exact wr_byte (x := 0x22) (by decide) h2

theorem wr_commas {α : Type} (f : α → Option Bytes) (g : α → List Bytes) (h : ∀ a b, f a = some b → Wr (g a) b) : ∀ (l : List α) (b : Bytes), commasB (l.map f) = some b → Wr (l.flatMap g) b
  | [], b, e => by
    cases e
    exact wr_utf8 []
  | [a], b, e => by
    rw [List.flatMap_cons, List.flatMap_nil, List.append_nil]
    exact h a b e
  | a :: a' :: l, b, e => by
    simp only [List.map_cons] at e
    rw [commasB] at e
    · cases hx : f a with
      | none => rw [hx] at e; cases e
      | some x =>
        cases hy : commasB (f a' :: l.map f) with
        | none => rw [hx, hy] at e; cases e
        | some y =>
          rw [hx, hy] at e
          cases e
          rw [List.flatMap_cons]
          exact wr_append (runes_split x (.cons (by decide) _)) (h a x hx) (wr_byte (x := 0x2c) (by decide) (wr_commas f g h (a' :: l) y hy))
    · simp

theorem flatMap_single {α β : Type} (f : α → β) (l : List α) : l.flatMap (fun a => [f a]) = l.map f := by
  induction l with
  | nil => rfl
  | cons a l ih => rw [List.flatMap_cons, ih]; rfl

theorem encode6868B_some {s e : Bytes} (h : encode6868B s = some e) : e = s := by
  rw [encode6868B_eq] at h
  split at h
  · cases h
  · cases h; rfl

theorem PKind.encodeB_wr {E : Env} {O : Octets} {name : Str} {k : PKind} {v : RawParam} (ht : k.typedB v = true) {b : Bytes} (h : k.encodeB E O name v = some b) : Wr (paramAsIs O v) b := by
  have str : ∀ (q : Bool) (s : Bytes) (P : Prop) [Decidable P], (if s = [] then some [] else (encode6868B s).map fun e => utf8 (';' :: name ++ ['=']) ++ (if P then quoteB e else e)) = some b → Wr [s] b := by
    intro q s P _ h
    split at h
    · next hs => cases h; rw [hs]; exact wr_self []
    · obtain ⟨e, he, rfl⟩ := Option.map_eq_some_iff.1 h
      rw [encode6868B_some he]
      refine wr_pre _ ?_
      split
      · exact wr_quote (wr_self s)
      · exact wr_self s
  cases v with
  | str s =>
    cases k with
    | str q => exact str q s _ h
    | fmt => exact str false s _ h
    | _ => cases ht
  | strs ss =>
    cases k with
    | strs =>
      change (if ss = [] then some [] else (commasB (ss.map fun s => (encode6868B s).map quoteB)).map (utf8 (';' :: name ++ ['=']) ++ ·)) = some b at h
      split at h
      · next hs => cases h; rw [hs]; exact wr_utf8 []
      · obtain ⟨e, he, rfl⟩ := Option.map_eq_some_iff.1 h
        have := wr_commas _ (fun s => [s]) (fun s b hb => by
          obtain ⟨x, hx, rfl⟩ := Option.map_eq_some_iff.1 hb
          rw [encode6868B_some hx]
          exact wr_quote (wr_self s)) ss e he
        rw [flatMap_single, List.map_id'] at this
        exact wr_pre _ this
    | _ => cases ht
  | other w =>
    cases k with
    | url =>
      cases w with
      | url u =>
        change (if O.url u = [] then some [] else some (utf8 (';' :: name ++ ['=']) ++ O.url u)) = some b at h
        split at h
        · next hs =>
          cases h
          show Wr [O.url u] []
          rw [hs]
          exact wr_self []
        · cases h; exact wr_pre _ (wr_self _)
      | _ => cases ht
    | urls =>
      cases w with
      | urls us =>
        change (if us = [] then some [] else (commasB (us.map fun u => some (O.url u))).map (utf8 (';' :: name ++ ['=']) ++ ·)) = some b at h
        split at h
        · next hs => cases h; rw [hs]; exact wr_utf8 []
        · obtain ⟨e, he, rfl⟩ := Option.map_eq_some_iff.1 h
          have := wr_commas _ (fun u => [O.url u]) (fun u b hb => by cases hb; exact wr_self _) us e he
          rw [flatMap_single] at this
          exact wr_pre _ this
      | _ => cases ht
    | enum names =>
      cases w with
      | enum n =>
        have h : ((PKind.enum names).encode E name (.enum n)).map utf8 = some b := h
        obtain ⟨x, _, rfl⟩ := Option.map_eq_some_iff.1 h
        exact wr_utf8 x
      | _ => cases ht
    | range =>
      cases w with
      | unit => cases h; exact wr_pre _ (wr_utf8 _)
      | _ => cases ht
    | bool =>
      cases w with
      | bool x =>
        obtain ⟨x, _, rfl⟩ := Option.map_eq_some_iff.1 h
        exact wr_utf8 x
      | _ => cases ht
    | _ => cases ht

/-! ## Values -/

theorem writeTimezoneB_wr (O : Octets) (t : GoTime) : Wr (zoneAsIs O t) (writeTimezoneB O t) := by
  unfold writeTimezoneB zoneAsIs
  cases h : t.loc with
  | utc => exact wr_utf8 []
  | «local» => exact wr_utf8 []
  | zone n p r => exact wr_pre _ (wr_self _)

theorem RawVal.aencode_wr (E : Env) (O : Octets) (v : RawVal) : Wr (valAsIs O v) (v.aencode E O) := by
  have key : ∀ ss ss', Wr ss (v.head_ O) → Wr ss' (v.text_ E O) → Wr (ss ++ ss') (v.aencode E O) := fun ss ss' h1 h2 =>
    wr_append (runes_split _ (.cons (by decide) _)) h1 (wr_byte (x := 0x3a) (by decide) h2)
  have key0 : ∀ ss, Wr ss (v.head_ O) → Wr [] (v.text_ E O) → Wr ss (v.aencode E O) := fun ss h1 h2 => by
    have := key ss [] h1 h2
    rw [List.append_nil] at this
    exact this
  cases v with
  | text t =>
    refine key [] [] (wr_utf8 []) ?_
    show Wr [] (Text.encodeB t)
    rw [Text.encodeB_eq]
    exact wr_utf8 _
  | mtext ts =>
    refine key [] [] (wr_utf8 []) ?_
    show Wr [] (MText.encodeB ts)
    rw [MText.encodeB_eq]
    exact wr_utf8 _
  | other w =>
    cases w
    case binary => exact key [] [] (wr_utf8 _) (wr_utf8 _)
    case calAddress u => exact key [] [_] (wr_utf8 []) (wr_self _)
    case uri u => exact key [] [_] (wr_utf8 []) (wr_self _)
    case dateTime t => exact key0 _ (writeTimezoneB_wr O t) (wr_utf8 _)
    case period p => exact key0 _ (writeTimezoneB_wr O p.start) (wr_utf8 _)
    case recur r => exact key0 _ (writeTimezoneB_wr O r.until_) (wr_utf8 _)
    all_goals exact key [] [] (wr_utf8 []) (wr_utf8 _)

/-! ## Properties -/

theorem catB_cons {x : Option Bytes} {xs : List (Option Bytes)} {b : Bytes} (h : catB (x :: xs) = some b) : ∃ a r, x = some a ∧ catB xs = some r ∧ b = a ++ r := by
  rw [catB] at h
  cases x with
  | none => cases h
  | some a =>
    cases hr : catB xs with
    | none => rw [hr] at h; cases h
    | some r =>
      rw [hr] at h
      cases h
      exact ⟨a, r, rfl, rfl, rfl⟩

theorem catB_append {xs ys : List (Option Bytes)} : ∀ {b : Bytes}, catB (xs ++ ys) = some b → ∃ a r, catB xs = some a ∧ catB ys = some r ∧ b = a ++ r := by
  induction xs with
  | nil => exact fun h => ⟨[], _, rfl, h, rfl⟩
  | cons x xs ih =>
    intro b h
    obtain ⟨a, r, h1, h2, rfl⟩ := catB_cons h
    obtain ⟨a', r', h3, h4, rfl⟩ := ih h2
    subst h1
    refine ⟨a ++ a', r', ?_, h4, (List.append_assoc ..).symm⟩
    rw [catB, h3]
    rfl

theorem encParamsB_wr {E : Env} {O : Octets} (hO : OctetsOf E O) : ∀ (ds : List PDef) (ps : List (Option RawParam)) (b : Bytes), typedParamsB ds ps = true → catB (encParamsB E O ds ps) = some b →
    Wr (ps.flatMap fun p => p.toList.flatMap (paramAsIs O)) b
  | [], [], b, _, h => by
    simp only [encParamsB] at h
    cases h
    exact wr_utf8 []
  | d :: ds, p :: ps, b, ht, h => by
    simp only [typedParamsB, Bool.and_eq_true] at ht
    simp only [encParamsB] at h
    obtain ⟨a, r, h1, h2, rfl⟩ := catB_cons h
    rw [List.flatMap_cons]
    refine wr_append (runes_split a ((catB_fits (encParamsB_fits hO ds ps)).start r h2)) ?_ (encParamsB_wr hO ds ps r ht.2 h2)
    cases p with
    | none => cases h1; exact wr_utf8 []
    | some v =>
      have := PKind.encodeB_wr (by simpa using ht.1) h1
      simpa using this
  | [], _ :: _, _, ht, _ => by cases ht
  | _ :: _, [], _, ht, _ => by cases ht

theorem encValsB_wr {E : Env} {O : Octets} (hO : OctetsOf E O) : ∀ (first : Bool) (ks : List (Str × Kind)) (vs : List (Option RawVal)), typedValsB ks vs = true →
    Wr (vs.flatMap fun v => v.toList.flatMap (valAsIs O)) (encValsB E O first ks vs)
  | _, [], [], _ => by simp only [encValsB]; exact wr_utf8 []
  | first, (n, k) :: ks, v :: vs, ht => by
    simp only [typedValsB, Bool.and_eq_true] at ht
    have ih := encValsB_wr hO false ks vs ht.2
    obtain ⟨_, i2⟩ := encValsB_runes hO false ks vs
    rw [List.flatMap_cons]
    simp only [encValsB]
    cases v with
    | none => exact ih
    | some v =>
      have h1 := RawVal.aencode_wr E O v
      have e : (some v).toList.flatMap (valAsIs O) = valAsIs O v := by simp
      rw [e]
      refine wr_append (runes_split _ i2) ?_ ih
      cases first with
      | true => exact h1
      | false => exact wr_pre _ h1
  | _, [], _ :: _, ht => by cases ht
  | _, _ :: _, [], ht => by cases ht

theorem PSpec.encodeB_wr {E : Env} {O : Octets} (hO : OctetsOf E O) {sp : PSpec} {v : RawProp} (ht : sp.typedB v = true) {b : Bytes} (h : sp.encodeB E O v = some b) :
    Wr (rawProp (paramAsIs O) (valAsIs O) v) b := by
  unfold PSpec.encodeB at h
  unfold PSpec.typedB at ht
  cases hs : sp.shape with
  | enum names =>
    rw [hs] at h ht
    cases v with
    | enum n => cases h; exact wr_utf8 _
    | fields ps vs => cases ht
  | fields params vals =>
    rw [hs] at h ht
    cases v with
    | enum n => cases ht
    | fields ps vs =>
      simp only [Bool.and_eq_true] at ht
      obtain ⟨t, h1, rfl⟩ := Option.map_eq_some_iff.1 h
      have hc : AsciiStart (utf8 crlf) := List.append_nil (utf8 crlf) ▸ AsciiStart.utf8 (c := '\r') (by decide) ['\n'] []
      have hv := encValsB_runes hO true vals vs
      rw [List.append_assoc, List.append_assoc]
      refine wr_pre _ (wr_append (runes_split t (hv.2.append hc)) (encParamsB_wr hO params ps t ht.1.1 h1) ?_)
      have := wr_append (runes_split _ hc) (encValsB_wr hO true vals vs ht.1.2) (wr_utf8 crlf)
      rw [List.append_nil] at this
      exact this

/-! ## Sections -/

theorem catB_wr {α : Type} (f : α → Option Bytes) (g : α → List Bytes) : ∀ (l : List α) (b : Bytes), (∀ a ∈ l, ∀ b, f a = some b → (∀ r, runes (b ++ r) = runes b ++ runes r) ∧ Wr (g a) b) →
    catB (l.map f) = some b → Wr (l.flatMap g) b
  | [], b, _, h => by cases h; exact wr_utf8 []
  | a :: l, b, hl, h => by
    rw [List.map_cons] at h
    obtain ⟨x, r, h1, h2, rfl⟩ := catB_cons h
    obtain ⟨h3, h4⟩ := hl a (by simp) x h1
    exact wr_append (h3 r) h4 (catB_wr f g l r (fun a ha => hl a (by simp [ha])) h2)

theorem encFieldsB_wr {E : Env} {O : Octets} (hO : OctetsOf E O) : ∀ (fs : List SField) (vs : List (List RawProp)) (b : Bytes), typedFieldsB fs vs = true → catB (encFieldsB E O fs vs) = some b →
    Wr (vs.flatMap fun ps => ps.flatMap (rawProp (paramAsIs O) (valAsIs O))) b
  | [], [], b, _, h => by
    simp only [encFieldsB] at h
    cases h
    exact wr_utf8 []
  | f :: fs, v :: vs, b, ht, h => by
    simp only [typedFieldsB, Bool.and_eq_true] at ht
    simp only [encFieldsB] at h
    obtain ⟨a, r, h1, h2, rfl⟩ := catB_append h
    rw [List.flatMap_cons]
    refine wr_append ((catB_ends (Pairwise2.both _ _ (fun p => PSpec.encodeB_ends hO f.spec p) v)).closed a h1 r) ?_ (encFieldsB_wr hO fs vs r ht.2 h2)
    exact catB_wr _ _ v a (fun p hp b hb => ⟨(PSpec.encodeB_ends hO f.spec p).closed b hb, PSpec.encodeB_wr hO (List.all_eq_true.1 ht.1.1 p hp) hb⟩) h1
  | [], _ :: _, _, ht, _ => by cases ht
  | _ :: _, [], _, ht, _ => by cases ht

theorem encSubsB_wr {κ σ τ : Type} {enc : κ → σ → Option Bytes} {enc' : κ → τ → Option Str} {g : σ → τ} {typ : κ → σ → Bool} {str : σ → List Bytes} (h : ∀ k s, Ends6 (enc k s) (enc' k (g s)))
    (hw : ∀ k s, typ k s = true → ∀ b, enc k s = some b → Wr (str s) b) :
    ∀ (ks : List (Str × κ)) (vs : List (List σ)) (b : Bytes), typedSubs typ ks vs = true → catB (encSubsB enc ks vs) = some b → Wr (vs.flatMap fun xs => xs.flatMap str) b
  | [], [], b, _, h => by
    simp only [encSubsB] at h
    cases h
    exact wr_utf8 []
  | (n, k) :: ks, v :: vs, b, ht, hb => by
    simp only [typedSubs, Bool.and_eq_true] at ht
    simp only [encSubsB] at hb
    obtain ⟨a, r, h1, h2, rfl⟩ := catB_append hb
    rw [List.flatMap_cons]
    refine wr_append ((catB_ends (Pairwise2.both _ _ (fun s => h k s) v)).closed a h1 r) ?_ (encSubsB_wr h hw ks vs r ht.2 h2)
    exact catB_wr _ _ v a (fun s hs b hb => ⟨(h k s).closed b hb, hw k s (List.all_eq_true.1 ht.1 s hs) b hb⟩) h1
  | [], _ :: _, _, ht, _ => by cases ht
  | _ :: _, [], _, ht, _ => by cases ht

theorem Tab.bodyB_wr {κ σ τ : Type} {E : Env} {O : Octets} (hO : OctetsOf E O) {T : Tab κ} {enc : κ → σ → Option Bytes} {enc' : κ → τ → Option Str} {g : σ → τ} {typ : κ → σ → Bool} {str : σ → List Bytes}
    (h : ∀ k s, Ends6 (enc k s) (enc' k (g s))) (hw : ∀ k s, typ k s = true → ∀ b, enc k s = some b → Wr (str s) b) {s : RawSect σ} (ht : T.typedB typ s = true) {b : Bytes}
    (hb : catB (T.bodyB E O enc s) = some b) : Wr (rawSect (paramAsIs O) (valAsIs O) str s) b := by
  unfold Tab.typedB at ht
  simp only [Bool.and_eq_true] at ht
  obtain ⟨a, r, h1, h2, rfl⟩ := catB_append hb
  exact wr_append ((catB_ends (encFieldsB_ends hO T.fields s.fields)).closed a h1 r) (encFieldsB_wr hO _ _ a ht.1 h1) (encSubsB_wr h hw _ _ r ht.2 h2)

theorem frame_wr {pre : List (Option Bytes)} {p z : Str} (hp : catB pre = some (utf8 p)) {body : List (Option Bytes)} {ss : List Bytes} (hc : ∀ a, catB body = some a → ∀ r, runes (a ++ r) = runes a ++ runes r)
    (h : ∀ a, catB body = some a → Wr ss a) {b : Bytes} (hb : catB (pre ++ body ++ [some (utf8 z)]) = some b) : Wr ss b := by
  obtain ⟨x, y, h1, h2, rfl⟩ := catB_append hb
  obtain ⟨u, v, h3, h4, rfl⟩ := catB_append h1
  rw [hp] at h3
  cases h3
  have hz : y = utf8 z := by
    obtain ⟨a, r, e1, e2, rfl⟩ := catB_cons h2
    cases e1
    cases e2
    exact List.append_nil _
  subst hz
  rw [List.append_assoc]
  have := wr_append (hc v h4 _) (h v h4) (wr_utf8 z)
  rw [List.append_nil] at this
  exact wr_pre _ this

theorem catB_one (s : Str) : catB [some (utf8 s)] = some (utf8 s) := by
  show some (utf8 s ++ []) = _
  rw [List.append_nil]

theorem Tab.encodeB_wr {κ σ τ : Type} {E : Env} {O : Octets} (hO : OctetsOf E O) {T : Tab κ} {enc : κ → σ → Option Bytes} {enc' : κ → τ → Option Str} {g : σ → τ} {typ : κ → σ → Bool} {str : σ → List Bytes}
    (h : ∀ k s, Ends6 (enc k s) (enc' k (g s))) (hw : ∀ k s, typ k s = true → ∀ b, enc k s = some b → Wr (str s) b) {s : RawSect σ} (ht : T.typedB typ s = true) {b : Bytes}
    (hb : T.encodeB E O enc s = some b) : Wr (rawSect (paramAsIs O) (valAsIs O) str s) b :=
  frame_wr (catB_one _) (catB_ends (T.bodyB_ends hO h s)).closed (fun _ ha => T.bodyB_wr hO h hw ht ha) hb

theorem subEncodeB_wr {E : Env} {O : Octets} (hO : OctetsOf E O) {k : SubKind} {s : RawSub} (ht : subTypedB k s = true) {b : Bytes} (hb : subEncodeB E O k s = some b) :
    Wr (rawSub (paramAsIs O) (valAsIs O) s) b := by
  cases k with
  | alarm =>
    cases s with
    | leaf s => cases ht
    | alarm a =>
      cases a with
      | none => cases hb; exact wr_utf8 []
      | some a =>
        obtain ⟨k, s⟩ := a
        have : Wr (rawSect (paramAsIs O) (valAsIs O) (fun _ => []) s) b :=
          frame_wr (p := lineOf kBEGIN kVALARM ++ lineOf kACTION k.action) (by
              show some (utf8 _ ++ (utf8 _ ++ [])) = _
              rw [List.append_nil, utf8_append])
            (catB_ends (k.tab.bodyB_ends (enc' := fun k _ => nomatch k) (g := id) hO (fun k => nomatch k) s)).closed (fun _ ha => k.tab.bodyB_wr (enc' := fun k _ => nomatch k) (g := id) hO (fun k => nomatch k) (fun k => nomatch k) ht ha) hb
        simpa [rawSub] using this
  | leaf T =>
    cases s with
    | leaf s => exact T.encodeB_wr (enc' := fun k _ => nomatch k) (g := id) hO (fun k => nomatch k) (fun k => nomatch k) ht hb
    | alarm a => cases ht

theorem encodeOctets_wr {E : Env} {O : Octets} (hO : OctetsOf E O) {c : RawCal} (ht : c.typed = true) {b : Bytes} (hb : encodeOctets E O c = some b) : Wr (calAsIs O c) b :=
  tabCalendar.encodeB_wr (typ := fun T s => T.typedB subTypedB s) hO (fun T s => T.encodeB_ends hO (fun k s => subEncodeB_ends hO k s) s)
    (fun T s ht b hb => T.encodeB_wr (typ := subTypedB) (s := s) hO (fun k s => subEncodeB_ends hO k s) (fun k s ht b hb => subEncodeB_wr (k := k) (s := s) hO ht hb) ht hb) ht hb

/-! ## Reading -/

theorem encodeOctets_end {E : Env} {O : Octets} {c : RawCal} {b : Bytes} (hb : encodeOctets E O c = some b) : ∃ a, b = a ++ [82, 13, 10] := by
  obtain ⟨x, y, h1, h2, rfl⟩ := catB_append hb
  obtain ⟨a, r, e1, e2, rfl⟩ := catB_cons h2
  cases e1
  cases e2
  refine ⟨x ++ utf8 c!"END:VCALENDA", ?_⟩
  rw [List.append_assoc]
  congr 1

theorem hasFold_runes {b : Bytes} (h : hasFold b) : ['\r', '\n', ' '] <:+: runes b := by
  obtain ⟨x, y, rfl⟩ := h
  refine ⟨runes x, runes y, ?_⟩
  rw [List.append_assoc, List.append_assoc]
  show _ = runes (x ++ 13 :: 10 :: 32 :: y)
  rw [runes_split x (.cons (by decide) _), runes_ascii (x := 13) (by decide), runes_ascii (x := 10) (by decide), runes_ascii (x := 32) (by decide)]
  rfl

theorem piece_low {u : Bytes} (h : IsPiece u) {x : UInt8} (hx : x.toNat < 128) {r q : Bytes} (e : u ++ r = x :: q) : u = [x] ∧ r = q := by
  rcases h with ⟨c, rfl⟩ | ⟨b, hb, rfl⟩
  · have e2 := congrArg runes e
    rw [runes_good, runes_ascii hx] at e2
    injection e2 with e3 e4
    have : c.toNat = x.toNat := by
      rw [e3]
      unfold Char.ofNat
      rw [dif_pos (.inl (by omega))]
      rfl
    rw [encodeChar_ascii c (by omega), this] at e ⊢
    simp only [List.cons_append, List.nil_append] at e
    injection e with e5 e6
    exact ⟨by rw [e5], e6⟩
  · simp only [List.cons_append, List.nil_append] at e
    injection e with e5 e6
    subst e5
    omega

theorem foldedAt_end {us : List Bytes} {t : Bytes} (h : FoldedAt us t) (hp : ∀ u ∈ us, IsPiece u) :
    (us.flatten = [] → t = []) ∧ (us.flatten = [10] → t = [10]) ∧ (us.flatten = [13, 10] → t = [13, 10]) := by
  induction h with
  | nil => exact ⟨fun _ => rfl, nofun, nofun⟩
  | @keep u us t h ih =>
    obtain ⟨i1, i2, _⟩ := ih (fun u hu => hp u (by simp [hu]))
    have hu := hp u (by simp)
    refine ⟨fun e => ?_, fun e => ?_, fun e => ?_⟩
    · rw [List.flatten_cons] at e
      have := hu.length
      rw [(List.append_eq_nil_iff.1 e).1] at this
      simp at this
    · rw [List.flatten_cons] at e
      obtain ⟨e1, e2⟩ := piece_low hu (by decide) e
      rw [e1, i1 e2]; rfl
    · rw [List.flatten_cons] at e
      obtain ⟨e1, e2⟩ := piece_low hu (by decide) e
      rw [e1, i2 e2]; rfl
  | @fold u us t h1 h2 h ih =>
    have hu := hp u (by simp)
    refine ⟨fun e => ?_, fun e => ?_, fun e => ?_⟩
    · rw [List.flatten_cons] at e
      have := hu.length
      rw [(List.append_eq_nil_iff.1 e).1] at this
      simp at this
    · rw [List.flatten_cons] at e
      exact absurd (piece_low hu (by decide) e).1 h1
    · rw [List.flatten_cons] at e
      exact absurd (piece_low hu (by decide) e).1 h2

theorem foldedAt_tail {us : List Bytes} {t : Bytes} (h : FoldedAt us t) (hp : ∀ u ∈ us, IsPiece u) (x : UInt8) : ∀ a, us.flatten = a ++ [x, 13, 10] → ∃ b, t = b ++ [x, 13, 10] := by
  have key : ∀ {u : Bytes} {us : List Bytes} {t a : Bytes}, FoldedAt us t → (∀ u ∈ us, IsPiece u) → u ++ us.flatten = a ++ [x, 13, 10] → (∀ a, us.flatten = a ++ [x, 13, 10] → ∃ b, t = b ++ [x, 13, 10]) →
      ∃ b, u ++ t = b ++ [x, 13, 10] := by
    intro u us t a h hp e ih
    have hl := congrArg List.length e
    simp only [List.length_append, List.length_cons, List.length_nil] at hl
    obtain ⟨k1, k2, k3⟩ := foldedAt_end h hp
    by_cases h3 : 3 ≤ us.flatten.length
    · obtain ⟨b, rfl⟩ := ih (us.flatten.take (us.flatten.length - 3)) (by
        have := congrArg (List.drop (u.length + (us.flatten.length - 3))) e
        rw [List.drop_append, List.drop_append, List.drop_eq_nil_of_le (by omega), show u.length + (us.flatten.length - 3) - u.length = us.flatten.length - 3 by omega,
          List.drop_eq_nil_of_le (as := a) (by omega), show u.length + (us.flatten.length - 3) - a.length = 0 by omega] at this
        simp only [List.nil_append, List.drop_zero] at this
        rw [← this, List.take_append_drop])
      exact ⟨u ++ b, by rw [List.append_assoc]⟩
    · have hd : us.flatten = ([x, 13, 10] : Bytes).drop (3 - us.flatten.length) := by
        have := congrArg (List.drop u.length) e
        rw [List.drop_append, List.drop_eq_nil_of_le (Nat.le_refl _), Nat.sub_self, List.drop_zero, List.nil_append, List.drop_append, List.drop_eq_nil_of_le (as := a) (by omega), List.nil_append] at this
        have e2 := congrArg List.length this
        simp only [List.length_drop, List.length_cons, List.length_nil] at e2
        rw [show 3 - us.flatten.length = u.length - a.length by omega]
        exact this
      have : t = us.flatten := by
        have hc : us.flatten.length = 0 ∨ us.flatten.length = 1 ∨ us.flatten.length = 2 := by omega
        rcases hc with h0 | h0 | h0
        · rw [h0] at hd
          rw [k1 hd, hd]; rfl
        · rw [h0] at hd
          rw [k2 hd, hd]; rfl
        · rw [h0] at hd
          rw [k3 hd, hd]; rfl
      exact ⟨a, by rw [this, e]⟩
  induction h with
  | nil => intro a e; simp at e
  | @keep u us t h ih =>
    intro a e
    rw [List.flatten_cons] at e
    exact key h (fun u hu => hp u (by simp [hu])) e (ih (fun u hu => hp u (by simp [hu])))
  | @fold u us t h1 h2 h ih =>
    intro a e
    rw [List.flatten_cons] at e
    obtain ⟨b, hb⟩ := key h (fun u hu => hp u (by simp [hu])) e (ih (fun u hu => hp u (by simp [hu])))
    exact ⟨[13, 10, 32] ++ b, by rw [List.append_assoc, hb, List.append_assoc]⟩

end Ics
