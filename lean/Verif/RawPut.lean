import Verif.RawUtf8
/-!
# Lemmas: the strings that are written as they are
-/

namespace Ics

open Spec Props

theorem put_utf8 (s : Str) : Put [] (utf8 s) := by
  have := Put.text s .nil
  rw [List.append_nil] at this
  exact this

theorem put_self (b : Bytes) : Put [b] b := by
  have := Put.str b .nil
  rw [List.append_nil] at this
  exact this

theorem put_append {a b : Bytes} {ss ss' : List Bytes} (h1 : Put ss a) (h2 : Put ss' b) : Put (ss ++ ss') (a ++ b) := by
  induction h1 with
  | nil => exact h2
  | text s _ ih => rw [List.append_assoc]; exact .text s ih
  | str x _ ih => rw [List.append_assoc]; exact .str x ih

theorem put_pre (s : Str) {b : Bytes} {ss : List Bytes} (h : Put ss b) : Put ss (utf8 s ++ b) := .text s h

theorem put_byte {x : UInt8} (hx : x.toNat < 128) {b : Bytes} {ss : List Bytes} (h : Put ss b) : Put ss (x :: b) := by
  have e : [x] = utf8 [Char.ofNat x.toNat] := by
    have : (Char.ofNat x.toNat).toNat = x.toNat := by
      unfold Char.ofNat
      rw [dif_pos (.inl (by omega))]
      rfl
    rw [utf8_cons, encodeChar_ascii _ (by omega), this]
    simp [utf8]
  have := put_pre [Char.ofNat x.toNat] h
  rw [← e] at this
  exact this

theorem put_quote {b : Bytes} {ss : List Bytes} (h : Put ss b) : Put ss (quoteB b) := by
  have h2 : Put (ss ++ []) (b ++ [0x22]) := put_append h (put_utf8 ['"'])
  rw [List.append_nil] at h2
  exact put_byte (x := 0x22) (by decide) h2

theorem put_commas {α : Type} (f : α → Option Bytes) (g : α → List Bytes) (h : ∀ a b, f a = some b → Put (g a) b) : ∀ (l : List α) (b : Bytes), commasB (l.map f) = some b → Put (l.flatMap g) b
  | [], b, e => by
    cases e
    exact put_utf8 []
  | [a], b, e => by
    rw [List.flatMap_cons, List.flatMap_nil, List.append_nil]
    exact h a b e
  | a :: a' :: l, b, e => by
    simp only [List.map_cons] at e
    rw [commasB] at e
    · cases hx : f a with
      | none => rw [hx] at e; cases e
      | some x =>
        cases hy : commasB (f a' :: l.map f) with
        | none => rw [hx, hy] at e; cases e
        | some y =>
          rw [hx, hy] at e
          cases e
          rw [List.flatMap_cons]
          exact put_append (h a x hx) (put_byte (x := 0x2c) (by decide) (put_commas f g h (a' :: l) y hy))
    · simp

theorem PKind.encodeB_put {E : Env} {O : Octets} {name : Str} {k : PKind} {v : RawParam} (ht : k.typedB v = true) {b : Bytes} (h : k.encodeB E O name v = some b) : Put (paramAsIs O v) b := by
  have str : ∀ (q : Bool) (s : Bytes) (P : Prop) [Decidable P], (if s = [] then some [] else (encode6868B s).map fun e => utf8 (';' :: name ++ ['=']) ++ (if P then quoteB e else e)) = some b → Put [s] b := by
    intro q s P _ h
    split at h
    · next hs => cases h; rw [hs]; exact put_self []
    · obtain ⟨e, he, rfl⟩ := Option.map_eq_some_iff.1 h
      rw [encode6868B_some he]
      refine put_pre _ ?_
      split
      · exact put_quote (put_self s)
      · exact put_self s
  cases v with
  | str s =>
    cases k with
    | str q => exact str q s _ h
    | fmt => exact str false s _ h
    | _ => cases ht
  | strs ss =>
    cases k with
    | strs =>
      change (if ss = [] then some [] else (commasB (ss.map fun s => (encode6868B s).map quoteB)).map (utf8 (';' :: name ++ ['=']) ++ ·)) = some b at h
      split at h
      · next hs => cases h; rw [hs]; exact put_utf8 []
      · obtain ⟨e, he, rfl⟩ := Option.map_eq_some_iff.1 h
        have := put_commas _ (fun s => [s]) (fun s b hb => by
          obtain ⟨x, hx, rfl⟩ := Option.map_eq_some_iff.1 hb
          rw [encode6868B_some hx]
          exact put_quote (put_self s)) ss e he
        rw [flatMap_single, List.map_id'] at this
        exact put_pre _ this
    | _ => cases ht
  | other w =>
    cases k with
    | url =>
      cases w with
      | url u =>
        change (if O.url u = [] then some [] else some (utf8 (';' :: name ++ ['=']) ++ O.url u)) = some b at h
        split at h
        · next hs =>
          cases h
          show Put [O.url u] []
          rw [hs]
          exact put_self []
        · cases h; exact put_pre _ (put_self _)
      | _ => cases ht
    | urls =>
      cases w with
      | urls us =>
        change (if us = [] then some [] else (commasB (us.map fun u => some (O.url u))).map (utf8 (';' :: name ++ ['=']) ++ ·)) = some b at h
        split at h
        · next hs => cases h; rw [hs]; exact put_utf8 []
        · obtain ⟨e, he, rfl⟩ := Option.map_eq_some_iff.1 h
          have := put_commas _ (fun u => [O.url u]) (fun u b hb => by cases hb; exact put_self _) us e he
          rw [flatMap_single] at this
          exact put_pre _ this
      | _ => cases ht
    | enum names =>
      cases w with
      | enum n =>
        have h : ((PKind.enum names).encode E name (.enum n)).map utf8 = some b := h
        obtain ⟨x, _, rfl⟩ := Option.map_eq_some_iff.1 h
        exact put_utf8 x
      | _ => cases ht
    | range =>
      cases w with
      | unit => cases h; exact put_pre _ (put_utf8 _)
      | _ => cases ht
    | bool =>
      cases w with
      | bool x =>
        obtain ⟨x, _, rfl⟩ := Option.map_eq_some_iff.1 h
        exact put_utf8 x
      | _ => cases ht
    | _ => cases ht

/-! ## Values -/

theorem writeTimezoneB_put (O : Octets) (t : GoTime) : Put (zoneAsIs O t) (writeTimezoneB O t) := by
  unfold writeTimezoneB zoneAsIs
  cases h : t.loc with
  | utc => exact put_utf8 []
  | «local» => exact put_utf8 []
  | zone n p r => exact put_pre _ (put_self _)

theorem RawVal.aencode_put (E : Env) (O : Octets) (v : RawVal) : Put (valAsIs O v) (v.aencode E O) := by
  have key : ∀ ss ss', Put ss (v.head_ O) → Put ss' (v.text_ E O) → Put (ss ++ ss') (v.aencode E O) := fun ss ss' h1 h2 =>
    put_append h1 (put_byte (x := 0x3a) (by decide) h2)
  have key0 : ∀ ss, Put ss (v.head_ O) → Put [] (v.text_ E O) → Put ss (v.aencode E O) := fun ss h1 h2 => by
    have := key ss [] h1 h2
    rw [List.append_nil] at this
    exact this
  cases v with
  | text t =>
    refine key [] [] (put_utf8 []) ?_
    show Put [] (Text.encodeB t)
    rw [Text.encodeB_eq]
    exact put_utf8 _
  | mtext ts =>
    refine key [] [] (put_utf8 []) ?_
    show Put [] (MText.encodeB ts)
    rw [MText.encodeB_eq]
    exact put_utf8 _
  | other w =>
    cases w
    case binary => exact key [] [] (put_utf8 _) (put_utf8 _)
    case calAddress u => exact key [] [_] (put_utf8 []) (put_self _)
    case uri u => exact key [] [_] (put_utf8 []) (put_self _)
    case dateTime t => exact key0 _ (writeTimezoneB_put O t) (put_utf8 _)
    case period p => exact key0 _ (writeTimezoneB_put O p.start) (put_utf8 _)
    case recur r => exact key0 _ (writeTimezoneB_put O r.until_) (put_utf8 _)
    all_goals exact key [] [] (put_utf8 []) (put_utf8 _)

/-! ## Properties -/

theorem encParamsB_put {E : Env} {O : Octets} : ∀ (ds : List PDef) (ps : List (Option RawParam)) (b : Bytes), typedParamsB ds ps = true → catB (encParamsB E O ds ps) = some b →
    Put (ps.flatMap fun p => p.toList.flatMap (paramAsIs O)) b
  | [], [], b, _, h => by
    simp only [encParamsB] at h
    cases h
    exact put_utf8 []
  | d :: ds, p :: ps, b, ht, h => by
    simp only [typedParamsB, Bool.and_eq_true] at ht
    simp only [encParamsB] at h
    obtain ⟨a, r, h1, h2, rfl⟩ := catB_cons h
    rw [List.flatMap_cons]
    refine put_append ?_ (encParamsB_put ds ps r ht.2 h2)
    cases p with
    | none => cases h1; exact put_utf8 []
    | some v =>
      have := PKind.encodeB_put (by simpa using ht.1) h1
      simpa using this
  | [], _ :: _, _, ht, _ => by cases ht
  | _ :: _, [], _, ht, _ => by cases ht

theorem encValsB_put (E : Env) (O : Octets) : ∀ (first : Bool) (ks : List (Str × Kind)) (vs : List (Option RawVal)), typedValsB ks vs = true →
    Put (vs.flatMap fun v => v.toList.flatMap (valAsIs O)) (encValsB E O first ks vs)
  | _, [], [], _ => by simp only [encValsB]; exact put_utf8 []
  | first, (n, k) :: ks, v :: vs, ht => by
    simp only [typedValsB, Bool.and_eq_true] at ht
    have ih := encValsB_put E O false ks vs ht.2
    rw [List.flatMap_cons]
    simp only [encValsB]
    cases v with
    | none => exact ih
    | some v =>
      have h1 := RawVal.aencode_put E O v
      have e : (some v).toList.flatMap (valAsIs O) = valAsIs O v := by simp
      rw [e]
      refine put_append ?_ ih
      cases first with
      | true => exact h1
      | false => exact put_pre _ h1
  | _, [], _ :: _, ht => by cases ht
  | _, _ :: _, [], ht => by cases ht

theorem PSpec.encodeB_put {E : Env} {O : Octets} {sp : PSpec} {v : RawProp} (ht : sp.typedB v = true) {b : Bytes} (h : sp.encodeB E O v = some b) :
    Put (rawProp (paramAsIs O) (valAsIs O) v) b := by
  unfold PSpec.encodeB at h
  unfold PSpec.typedB at ht
  cases hs : sp.shape with
  | enum names =>
    rw [hs] at h ht
    cases v with
    | enum n => cases h; exact put_utf8 _
    | fields ps vs => cases ht
  | fields params vals =>
    rw [hs] at h ht
    cases v with
    | enum n => cases ht
    | fields ps vs =>
      simp only [Bool.and_eq_true] at ht
      obtain ⟨t, h1, rfl⟩ := Option.map_eq_some_iff.1 h
      rw [List.append_assoc, List.append_assoc]
      refine put_pre _ (put_append (encParamsB_put params ps t ht.1.1 h1) ?_)
      have := put_append (encValsB_put E O true vals vs ht.1.2) (put_utf8 crlf)
      rw [List.append_nil] at this
      exact this

/-! ## Sections -/

theorem catB_put {α : Type} (f : α → Option Bytes) (g : α → List Bytes) : ∀ (l : List α) (b : Bytes), (∀ a ∈ l, ∀ b, f a = some b → Put (g a) b) →
    catB (l.map f) = some b → Put (l.flatMap g) b
  | [], b, _, h => by cases h; exact put_utf8 []
  | a :: l, b, hl, h => by
    rw [List.map_cons] at h
    obtain ⟨x, r, h1, h2, rfl⟩ := catB_cons h
    exact put_append (hl a (by simp) x h1) (catB_put f g l r (fun a ha => hl a (by simp [ha])) h2)

theorem encFieldsB_put {E : Env} {O : Octets} : ∀ (fs : List SField) (vs : List (List RawProp)) (b : Bytes), typedFieldsB fs vs = true → catB (encFieldsB E O fs vs) = some b →
    Put (vs.flatMap fun ps => ps.flatMap (rawProp (paramAsIs O) (valAsIs O))) b
  | [], [], b, _, h => by
    simp only [encFieldsB] at h
    cases h
    exact put_utf8 []
  | f :: fs, v :: vs, b, ht, h => by
    simp only [typedFieldsB, Bool.and_eq_true] at ht
    simp only [encFieldsB] at h
    obtain ⟨a, r, h1, h2, rfl⟩ := catB_append h
    rw [List.flatMap_cons]
    refine put_append ?_ (encFieldsB_put fs vs r ht.2 h2)
    exact catB_put _ _ v a (fun p hp b hb => PSpec.encodeB_put (List.all_eq_true.1 ht.1.1 p hp) hb) h1
  | [], _ :: _, _, ht, _ => by cases ht
  | _ :: _, [], _, ht, _ => by cases ht

theorem encSubsB_put {κ σ : Type} {enc : κ → σ → Option Bytes} {typ : κ → σ → Bool} {str : σ → List Bytes}
    (hw : ∀ k s, typ k s = true → ∀ b, enc k s = some b → Put (str s) b) :
    ∀ (ks : List (Str × κ)) (vs : List (List σ)) (b : Bytes), typedSubs typ ks vs = true → catB (encSubsB enc ks vs) = some b → Put (vs.flatMap fun xs => xs.flatMap str) b
  | [], [], b, _, h => by
    simp only [encSubsB] at h
    cases h
    exact put_utf8 []
  | (n, k) :: ks, v :: vs, b, ht, hb => by
    simp only [typedSubs, Bool.and_eq_true] at ht
    simp only [encSubsB] at hb
    obtain ⟨a, r, h1, h2, rfl⟩ := catB_append hb
    rw [List.flatMap_cons]
    refine put_append ?_ (encSubsB_put hw ks vs r ht.2 h2)
    exact catB_put _ _ v a (fun s hs b hb => hw k s (List.all_eq_true.1 ht.1 s hs) b hb) h1
  | [], _ :: _, _, ht, _ => by cases ht
  | _ :: _, [], _, ht, _ => by cases ht

theorem Tab.bodyB_put {κ σ : Type} {E : Env} {O : Octets} {T : Tab κ} {enc : κ → σ → Option Bytes} {typ : κ → σ → Bool} {str : σ → List Bytes}
    (hw : ∀ k s, typ k s = true → ∀ b, enc k s = some b → Put (str s) b) {s : RawSect σ} (ht : T.typedB typ s = true) {b : Bytes}
    (hb : catB (T.bodyB E O enc s) = some b) : Put (rawSect (paramAsIs O) (valAsIs O) str s) b := by
  unfold Tab.typedB at ht
  simp only [Bool.and_eq_true] at ht
  obtain ⟨a, r, h1, h2, rfl⟩ := catB_append hb
  exact put_append (encFieldsB_put _ _ a ht.1 h1) (encSubsB_put hw _ _ r ht.2 h2)

theorem frame_put {pre : List (Option Bytes)} {p z : Str} (hp : catB pre = some (utf8 p)) {body : List (Option Bytes)} {ss : List Bytes}
    (h : ∀ a, catB body = some a → Put ss a) {b : Bytes} (hb : catB (pre ++ body ++ [some (utf8 z)]) = some b) : Put ss b := by
  obtain ⟨x, y, h1, h2, rfl⟩ := catB_append hb
  obtain ⟨u, v, h3, h4, rfl⟩ := catB_append h1
  rw [hp] at h3
  cases h3
  have hz : y = utf8 z := by
    obtain ⟨a, r, e1, e2, rfl⟩ := catB_cons h2
    cases e1
    cases e2
    exact List.append_nil _
  subst hz
  rw [List.append_assoc]
  have := put_append (h v h4) (put_utf8 z)
  rw [List.append_nil] at this
  exact put_pre _ this

theorem Tab.encodeB_put {κ σ : Type} {E : Env} {O : Octets} {T : Tab κ} {enc : κ → σ → Option Bytes} {typ : κ → σ → Bool} {str : σ → List Bytes}
    (hw : ∀ k s, typ k s = true → ∀ b, enc k s = some b → Put (str s) b) {s : RawSect σ} (ht : T.typedB typ s = true) {b : Bytes}
    (hb : T.encodeB E O enc s = some b) : Put (rawSect (paramAsIs O) (valAsIs O) str s) b :=
  frame_put (catB_one _) (fun _ ha => T.bodyB_put hw ht ha) hb

theorem subEncodeB_put {E : Env} {O : Octets} {k : SubKind} {s : RawSub} (ht : subTypedB k s = true) {b : Bytes} (hb : subEncodeB E O k s = some b) :
    Put (rawSub (paramAsIs O) (valAsIs O) s) b := by
  cases k with
  | alarm =>
    cases s with
    | leaf s => cases ht
    | alarm a =>
      cases a with
      | none => cases hb; exact put_utf8 []
      | some a =>
        obtain ⟨k, s⟩ := a
        have : Put (rawSect (paramAsIs O) (valAsIs O) (fun _ => []) s) b :=
          frame_put (p := lineOf kBEGIN kVALARM ++ lineOf kACTION k.action) (by
              show some (utf8 _ ++ (utf8 _ ++ [])) = _
              rw [List.append_nil, utf8_append])
            (fun _ ha => k.tab.bodyB_put (fun k => nomatch k) ht ha) hb
        simpa [rawSub] using this
  | leaf T =>
    cases s with
    | leaf s => exact T.encodeB_put (fun k => nomatch k) ht hb
    | alarm a => cases ht

theorem encodeOctets_put {E : Env} {O : Octets} {c : RawCal} (ht : c.typed = true) {b : Bytes} (hb : encodeOctets E O c = some b) : Put (calAsIs O c) b :=
  tabCalendar.encodeB_put (typ := fun T s => T.typedB subTypedB s)
    (fun T s ht b hb => T.encodeB_put (typ := subTypedB) (s := s) (fun k s ht b hb => subEncodeB_put (k := k) (s := s) ht hb) ht hb) ht hb

end Ics
