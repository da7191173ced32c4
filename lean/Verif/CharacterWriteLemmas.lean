import Verif.CharacterLemmas
/-!
# Lemmas about the characters that Encode writes
-/

namespace Ics
open Spec

/-- The characters of the format are among those meant. -/
def Open (P : Char → Prop) : Prop := ∀ ch, OfFormat ch → P ch

theorem EachChar.lit {P : Char → Prop} (hP : Open P) {s : Str} (h : ∀ ch ∈ s, OfFormat ch) : EachChar P s := fun ch hc => hP ch (h ch hc)

theorem EachChar.ite {P : Char → Prop} {q : Prop} [Decidable q] {a b : Str} (ha : EachChar P a) (hb : EachChar P b) : EachChar P (if q then a else b) := by
  split
  · exact ha
  · exact hb

theorem ofFormat_range {ch : Char} (h1 : 32 ≤ ch.toNat) (h2 : ch.toNat ≤ 126) : OfFormat ch := .inr (.inr ⟨h1, h2⟩)

theorem ofFormat_part {ch : Char} (h : partChar ch) : OfFormat ch := by
  rcases h with h | h | rfl | rfl | rfl
  · exact ofFormat_range (by omega) (by omega)
  · exact ofFormat_range (by omega) (by omega)
  all_goals decide

theorem ofFormat_time {ch : Char} (h : timeChar ch) : OfFormat ch := ofFormat_part (partChar_time h)

theorem ofFormat_digit {ch : Char} (h : isDigit ch = true) : OfFormat ch := ofFormat_part (partChar_digit h)

/-! ## Values -/

theorem Text.encode_each {P : Char → Prop} (hP : Open P) {t : Str} (h : EachChar P t) : EachChar P (Text.encode t) := by
  intro ch hc
  obtain ⟨x, hx, hc⟩ := List.mem_flatMap.1 hc
  have hx := h x hx
  unfold escapeC at hc
  have l : ∀ s : Str, (∀ ch ∈ s, OfFormat ch) → ch ∈ s → P ch := fun s hs hc => hP ch (hs ch hc)
  repeat' split at hc
  · exact l _ (by decide) hc
  · exact l _ (by decide) hc
  · exact l _ (by decide) hc
  · exact l _ (by decide) hc
  · rw [List.mem_singleton.1 hc]; exact hx

theorem writeTimezone_each {P : Char → Prop} (hP : Open P) {t : GoTime} (h : EachChar P (locName t.loc)) : EachChar P (writeTimezone t) := by
  unfold writeTimezone
  cases ht : t.loc with
  | utc => exact .nil
  | «local» => exact .nil
  | zone n a b =>
    rw [ht] at h
    exact (EachChar.lit hP (by decide)).append h

theorem Duration.encode_each {P : Char → Prop} (hP : Open P) (d : Duration) : EachChar P (Duration.encode d) := by
  have f : ∀ n, EachChar P (fmtNat n) := fun n => .lit hP fun ch hc => ofFormat_digit (fmtNat_mem hc)
  have one : ∀ x : Char, OfFormat x → EachChar P [x] := fun x hx => .cons (hP x hx) .nil
  unfold Duration.encode Duration.body
  refine EachChar.append (.ite (one _ (by decide)) .nil) (.cons (hP _ (by decide)) (.ite ((f _).append (one _ (by decide)))
    (.append (.ite ((f _).append (one _ (by decide))) .nil) (.ite (.cons (hP _ (by decide)) ?_) .nil))))
  refine .ite ((f _).append (.cons (hP _ (by decide)) (.ite ((f _).append (.cons (hP _ (by decide)) (.ite ((f _).append (one _ (by decide))) .nil))) .nil)))
    (.ite ((f _).append (.cons (hP _ (by decide)) (.ite ((f _).append (one _ (by decide))) .nil))) ((f _).append (one _ (by decide))))

theorem DateTime.encode_each {P : Char → Prop} (hP : Open P) (E : Env) (t : GoTime) : EachChar P (DateTime.encode E t) :=
  .lit hP fun _ hc => ofFormat_time (DateTime.encode_mem hc)

theorem UTCOffset.encode_each {P : Char → Prop} (hP : Open P) (u : Int) : EachChar P (UTCOffset.encode u) := by
  refine .lit hP fun c hc => ?_
  by_cases hu : u = -(2 ^ 63)
  · rw [hu, UTCOffset.encode_least] at hc
    have : ∀ c ∈ c!"-00F6H8", OfFormat c := by decide
    exact this c hc
  rw [UTCOffset.encode_of hu] at hc
  simp only [List.mem_append] at hc
  rcases hc with ((hc | hc) | hc) | hc
  · split at hc
    · rw [List.mem_singleton] at hc; subst hc; decide
    · simp at hc
  · refine ofFormat_digit (dd_mem ?_ hc)
    generalize u.natAbs / 60 / 60 % 256 = k
    split <;> omega
  · exact ofFormat_digit (dd_mem (by omega) hc)
  · split at hc
    · exact ofFormat_digit (dd_mem (by omega) hc)
    · simp at hc

theorem Val.aencode_each {P : Char → Prop} (hP : Open P) {E : Env} {v : Val} (h : ∀ w ∈ valStrings v, EachChar P w) (hl : ∀ w ∈ valLibrary E v, EachChar P w) :
    EachChar P (v.aencode E) := by
  unfold Val.aencode
  refine .append ?_ (.cons (hP _ (by decide)) ?_)
  · cases v <;> simp only [Val.head_]
    case binary => exact .lit hP (by decide)
    case dateTime t => exact writeTimezone_each hP (h _ (by simp [valStrings]))
    case period p => exact writeTimezone_each hP (h _ (by simp [valStrings]))
    case recur r => exact writeTimezone_each hP (h _ (by simp [valStrings]))
    all_goals exact .nil
  · cases v <;> simp only [Val.text_]
    case binary b =>
      refine .lit hP fun c hc => ?_
      rcases b64Encode_mem _ b (Nat.le_refl _) c hc with rfl | ⟨n, hn, rfl⟩
      · decide
      · have : ∀ m : Fin 64, OfFormat (b64Char m.1) := by decide +kernel
        exact this ⟨n, hn⟩
    case boolean b => cases b <;> exact .lit hP (by decide)
    case calAddress u => exact hl _ (List.mem_singleton.2 rfl)
    case date t => exact .lit hP fun c hc => ofFormat_time (Date.encode_mem hc)
    case dateTime t => exact DateTime.encode_each hP E t
    case duration d => exact Duration.encode_each hP d
    case integer i => exact .lit hP fun c hc => ofFormat_part (fmtInt_part hc).1
    case mtext ts =>
      refine EachChar.join (hP _ (by decide)) fun w hw => ?_
      obtain ⟨t, ht, rfl⟩ := List.mem_map.1 hw
      exact Text.encode_each hP (h t ht)
    case period p =>
      exact (DateTime.encode_each hP E _).append (.cons (hP _ (by decide)) (.ite (Duration.encode_each hP _) (DateTime.encode_each hP E _)))
    case recur r =>
      refine .lit hP fun c hc => ?_
      rcases Recur.encode_mem hc with hc | rfl
      · exact ofFormat_part hc
      · decide
    case text t => exact Text.encode_each hP (h t (by simp [valStrings]))
    case tfloat t => exact (hl _ (by simp [valLibrary])).append (.cons (hP _ (by decide)) (hl _ (by simp [valLibrary])))
    case uri u => exact hl _ (List.mem_singleton.2 rfl)
    case utcOffset o => exact UTCOffset.encode_each hP o

/-! ## Parameters -/

theorem commas_each {P : Char → Prop} (hP : Open P) {α : Type} (f : α → Option Str) :
    ∀ (xs : List α) (t : Str), (∀ x ∈ xs, ∀ t, f x = some t → EachChar P t) → commas (xs.map f) = some t → EachChar P t
  | [], t, _, e => by cases e; exact .nil
  | [x], t, h, e => h x (by simp) t e
  | x :: y :: xs, t, h, e => by
    have e' : (f x >>= fun a => commas ((y :: xs).map f) >>= fun b => some (a ++ ',' :: b)) = some t := e
    simp only [Option.bind_eq_bind, Option.bind_eq_some_iff, Option.some.injEq] at e'
    obtain ⟨a, ha, b, hb, rfl⟩ := e'
    exact (h x (by simp) a ha).append (.cons (hP _ (by decide)) (commas_each hP f (y :: xs) b (fun z hz => h z (List.mem_cons_of_mem _ hz)) hb))

/-- The names are of the characters of the format. -/
def namesPlain (names : List Str) : Bool := names.all fun w => w.all fun c => decide (OfFormat c)

theorem namesPlain_get {names : List Str} (h : namesPlain names = true) (i : Nat) (d : Str) (hd : ∀ ch ∈ d, OfFormat ch) : ∀ ch ∈ names.getD i d, OfFormat ch := by
  simp only [namesPlain, List.all_eq_true, decide_eq_true_eq] at h
  rw [List.getD_eq_getElem?_getD]
  cases hx : names[i]? with
  | none => exact hd
  | some w => exact h _ (List.mem_of_getElem? hx)

/-- The names in the definition of a parameter are of the characters of the format. -/
def PDef.plain (d : PDef) : Bool := namesPlain [d.name] && (match d.kind with
  | .enum names => namesPlain names
  | _ => true)

theorem quote_each {P : Char → Prop} (hP : Open P) {s : Str} (h : EachChar P s) : EachChar P (quote s) :=
  (EachChar.cons (hP _ (by decide)) h).append (.cons (hP _ (by decide)) .nil)

theorem PKind.encode_each {P : Char → Prop} (hP : Open P) {E : Env} {d : PDef} (hd : d.plain = true) {p : ParamVal} (hs : ∀ w ∈ paramStrings p, EachChar P w)
    (hl : ∀ w ∈ paramLibrary E p, EachChar P w) {t : Str} (h : d.kind.encode E d.name p = some t) : EachChar P t := by
  obtain ⟨name, k⟩ := d
  simp only [PDef.plain, Bool.and_eq_true] at hd
  have hn : EachChar P (';' :: name ++ ['=']) := by
    refine EachChar.append (.cons (hP _ (by decide)) (.lit hP ?_)) (.cons (hP _ (by decide)) .nil)
    have := hd.1
    simpa [namesPlain] using this
  unfold PKind.encode at h
  dsimp only at h
  split at h
  · rename_i u
    split at h <;> cases h
    · exact .nil
    · exact hn.append (hl _ (by simp [paramLibrary]))
  · rename_i us
    split at h
    · cases h; exact .nil
    · cases hc : commas (us.map fun u => some (E.urlString u)) with
      | none => rw [hc] at h; cases h
      | some w =>
        rw [hc] at h; cases h
        exact hn.append (commas_each hP _ us w (fun u hu t e => by cases e; exact hl _ (List.mem_map.2 ⟨u, hu, rfl⟩)) hc)
  · rename_i s
    split at h
    · cases h; exact .nil
    · cases he : encode6868 s with
      | none => rw [he] at h; cases h
      | some e =>
        have := encode6868_length he; subst this
        rw [he] at h; cases h
        have hs' := hs e (by simp [paramStrings])
        exact hn.append (.ite (quote_each hP hs') hs')
  · rename_i s
    split at h
    · cases h; exact .nil
    · cases he : encode6868 s with
      | none => rw [he] at h; cases h
      | some e =>
        have := encode6868_length he; subst this
        rw [he] at h; cases h
        have hs' := hs e (by simp [paramStrings])
        exact hn.append (.ite (quote_each hP hs') hs')
  · rename_i names n
    cases h
    exact hn.append (.ite (.lit hP (by decide)) (.lit hP (namesPlain_get hd.2 (n - 1) c!"UNKNOWN" (by decide))))
  · rename_i ss
    split at h
    · cases h; exact .nil
    · cases hc : commas (ss.map fun s => (encode6868 s).map quote) with
      | none => rw [hc] at h; cases h
      | some w =>
        rw [hc] at h; cases h
        refine hn.append (commas_each hP _ ss w (fun s hs' t e => ?_) hc)
        cases he : encode6868 s with
        | none => rw [he] at e; cases e
        | some y =>
          have := encode6868_length he; subst this
          rw [he] at e; cases e
          exact quote_each hP (hs _ hs')
  · cases h; exact hn.append (.lit hP (by decide))
  · rename_i b
    cases b <;> cases h
    · exact .nil
    · exact hn.append (.lit hP (by decide))
  · cases h; exact .nil

theorem encParams_each {P : Char → Prop} (hP : Open P) {E : Env} : ∀ (ds : List PDef) (ps : List (Option ParamVal)) (t : Str), (∀ d ∈ ds, d.plain = true) →
    (∀ p, some p ∈ ps → (∀ w ∈ paramStrings p, EachChar P w) ∧ ∀ w ∈ paramLibrary E p, EachChar P w) → cat (encParams E ds ps) = some t → EachChar P t
  | [], ps, t, _, _, h => by
    have : encParams E [] ps = [] := by unfold encParams; rfl
    rw [this] at h; cases h; exact .nil
  | d :: ds, [], t, _, _, h => by
    have : encParams E (d :: ds) [] = [] := by unfold encParams; rfl
    rw [this] at h; cases h; exact .nil
  | d :: ds, p :: ps, t, hd, hp, h => by
    unfold encParams at h
    obtain ⟨a, b, ha, hb, rfl⟩ := catted_cons h
    have h1 := encParams_each hP ds ps b (fun x hx => hd x (List.mem_cons_of_mem _ hx)) (fun q hq => hp q (List.mem_cons_of_mem _ hq)) hb
    refine EachChar.append ?_ h1
    cases p with
    | none => cases ha; exact .nil
    | some v =>
      have hv := hp v (List.mem_cons_self ..)
      exact PKind.encode_each hP (hd d (List.mem_cons_self ..)) hv.1 hv.2 ha

/-! ## Properties -/

theorem encVals_each {P : Char → Prop} (hP : Open P) {E : Env} : ∀ (first : Bool) (ks : List (Str × Kind)) (vs : List (Option Val)), namesPlain (ks.map (·.1)) = true →
    (∀ v, some v ∈ vs → (∀ w ∈ valStrings v, EachChar P w) ∧ ∀ w ∈ valLibrary E v, EachChar P w) → EachChar P (encVals E first ks vs)
  | first, [], vs, _, _ => by
    have : encVals E first [] vs = [] := by unfold encVals; rfl
    rw [this]; exact .nil
  | first, (n, k) :: ks, [], _, _ => by
    have : encVals E first ((n, k) :: ks) [] = [] := by unfold encVals; rfl
    rw [this]; exact .nil
  | first, (n, k) :: ks, v :: vs, h, hv => by
    have h' : (n.all fun c => decide (OfFormat c)) = true ∧ namesPlain (ks.map (·.1)) = true := by simpa [namesPlain] using h
    unfold encVals
    refine EachChar.append ?_ (encVals_each hP false ks vs h'.2 fun q hq => hv q (List.mem_cons_of_mem _ hq))
    cases v with
    | none => exact .nil
    | some v =>
      have := hv v (List.mem_cons_self ..)
      refine EachChar.append (.ite .nil (.append (.lit hP (by decide)) (.lit hP ?_))) (Val.aencode_each hP this.1 this.2)
      simpa using h'.1

/-- The names and texts in the definition of a property are of the characters of the format. -/
def PSpec.plain (sp : PSpec) : Bool := namesPlain [sp.name] && (match sp.shape with
  | .enum names => namesPlain names
  | .fields params vals => params.all PDef.plain && namesPlain (vals.map (·.1)))

/-- All texts of a property, and all that the library writes for it, are of these characters. -/
def PropEach (P : Char → Prop) (E : Env) (v : PropVal) : Prop :=
  (∀ w ∈ propWith paramStrings valStrings v, EachChar P w) ∧ ∀ w ∈ propWith (paramLibrary E) (valLibrary E) v, EachChar P w

theorem crlf_each {P : Char → Prop} (hP : Open P) : EachChar P crlf := .lit hP (by decide)

theorem PSpec.encode_each {P : Char → Prop} (hP : Open P) {E : Env} {sp : PSpec} (hs : sp.plain = true) {v : PropVal} (hv : PropEach P E v) {t : Str}
    (h : sp.encode E v = some t) : EachChar P t := by
  obtain ⟨name, shape⟩ := sp
  simp only [PSpec.plain, Bool.and_eq_true] at hs
  have hn : EachChar P name := .lit hP (by have := hs.1; simpa [namesPlain] using this)
  unfold PSpec.encode at h
  dsimp only at h
  split at h
  · rename_i names n
    cases h
    exact (hn.append (.cons (hP _ (by decide)) (.lit hP (namesPlain_get hs.2 n [] nofun)))).append (crlf_each hP)
  · rename_i params vals ps vs
    simp only [Bool.and_eq_true, List.all_eq_true] at hs
    obtain ⟨h1, h2⟩ := hv
    rw [propWith_each] at h1 h2
    cases hc : cat (encParams E params ps) with
    | none => rw [hc] at h; cases h
    | some a =>
      rw [hc] at h; cases h
      exact ((hn.append (encParams_each hP params ps a hs.2.1 (fun p hp => ⟨h1.1 p hp, h2.1 p hp⟩) hc)).append
        (encVals_each hP true vals vs hs.2.2 fun v hv => ⟨h1.2 v hv, h2.2 v hv⟩)).append (crlf_each hP)
  · cases h; exact .nil

/-! ## Sections -/

theorem cat_each {P : Char → Prop} : ∀ {xs : List (Option Str)} {t : Str}, (∀ x, some x ∈ xs → EachChar P x) → cat xs = some t → EachChar P t
  | [], t, _, h => by cases h; exact .nil
  | x :: xs, t, hx, h => by
    obtain ⟨a, b, rfl, hb, rfl⟩ := catted_cons h
    exact (hx a (by simp)).append (cat_each (fun y hy => hx y (List.mem_cons_of_mem _ hy)) hb)

theorem encFields_mem {E : Env} {t : Str} : ∀ {fs : List SField} {vs : List (List PropVal)}, some t ∈ encFields E fs vs → ∃ f ∈ fs, ∃ p ∈ vs.flatten, f.spec.encode E p = some t
  | [], vs, h => by
    have : encFields E [] vs = [] := by unfold encFields; rfl
    rw [this] at h; cases h
  | f :: fs, [], h => by
    have : encFields E (f :: fs) [] = [] := by unfold encFields; rfl
    rw [this] at h; cases h
  | f :: fs, v :: vs, h => by
    unfold encFields at h
    rcases List.mem_append.1 h with h | h
    · obtain ⟨p, hp, he⟩ := List.mem_map.1 h
      exact ⟨f, List.mem_cons_self .., p, by simp [hp], he⟩
    · obtain ⟨g, hg, p, hp, he⟩ := encFields_mem h
      exact ⟨g, List.mem_cons_of_mem _ hg, p, by rw [List.flatten_cons]; exact List.mem_append_right _ hp, he⟩

theorem encSubs_mem {κ σ : Type} {enc : κ → σ → Option Str} {t : Str} : ∀ {ks : List (Str × κ)} {vs : List (List σ)}, some t ∈ encSubs enc ks vs →
    ∃ k ∈ ks, ∃ x ∈ vs.flatten, enc k.2 x = some t
  | [], vs, h => by
    have : encSubs enc [] vs = [] := by unfold encSubs; rfl
    rw [this] at h; cases h
  | f :: fs, [], h => by
    have : encSubs enc (f :: fs) [] = [] := by unfold encSubs; rfl
    rw [this] at h; cases h
  | (n, k) :: fs, v :: vs, h => by
    unfold encSubs at h
    rcases List.mem_append.1 h with h | h
    · obtain ⟨p, hp, he⟩ := List.mem_map.1 h
      exact ⟨(n, k), List.mem_cons_self .., p, by simp [hp], he⟩
    · obtain ⟨g, hg, p, hp, he⟩ := encSubs_mem h
      exact ⟨g, List.mem_cons_of_mem _ hg, p, by rw [List.flatten_cons]; exact List.mem_append_right _ hp, he⟩

/-- The names in the table are of the characters of the format. -/
def Tab.plain {κ : Type} (T : Tab κ) : Bool := namesPlain [T.name] && T.fields.all fun f => f.spec.plain

theorem lineOf_each {P : Char → Prop} (hP : Open P) {a b : Str} (ha : ∀ ch ∈ a, OfFormat ch) (hb : ∀ ch ∈ b, OfFormat ch) : EachChar P (lineOf a b) :=
  ((EachChar.lit hP ha).append (.cons (hP _ (by decide)) (.lit hP hb))).append (crlf_each hP)

theorem Tab.body_each {P : Char → Prop} (hP : Open P) {κ σ : Type} {E : Env} {T : Tab κ} (hT : T.plain = true) {enc : κ → σ → Option Str} {s : Sect σ}
    (hf : ∀ p ∈ s.fields.flatten, PropEach P E p) (he : ∀ k ∈ T.subs, ∀ x ∈ s.subs.flatten, ∀ t, enc k.2 x = some t → EachChar P t) :
    ∀ t, some t ∈ T.body E enc s → EachChar P t := by
  simp only [Tab.plain, Bool.and_eq_true, List.all_eq_true] at hT
  intro t h
  rcases List.mem_append.1 h with h | h
  · obtain ⟨f, hf', p, hp, he'⟩ := encFields_mem h
    exact PSpec.encode_each hP (hT.2 f hf') (hf p hp) he'
  · obtain ⟨k, hk, x, hx, he'⟩ := encSubs_mem h
    exact he k hk x hx t he'

theorem Tab.encode_each {P : Char → Prop} (hP : Open P) {κ σ : Type} {E : Env} {T : Tab κ} (hT : T.plain = true) {enc : κ → σ → Option Str} {s : Sect σ}
    (hf : ∀ p ∈ s.fields.flatten, PropEach P E p) (he : ∀ k ∈ T.subs, ∀ x ∈ s.subs.flatten, ∀ t, enc k.2 x = some t → EachChar P t) {t : Str}
    (h : T.encode E enc s = some t) : EachChar P t := by
  have hn : ∀ ch ∈ T.name, OfFormat ch := by
    have := hT
    simp only [Tab.plain, Bool.and_eq_true] at this
    simpa [namesPlain] using this.1
  refine cat_each (fun x hx => ?_) h
  rcases List.mem_append.1 hx with hx | hx
  · rcases List.mem_append.1 hx with hx | hx
    · cases List.mem_singleton.1 hx
      exact lineOf_each hP (by decide) hn
    · exact Tab.body_each hP hT hf he x hx
  · cases List.mem_singleton.1 hx
    exact lineOf_each hP (by decide) hn

theorem alarmTab_plain (k : AKind) : k.tab.plain = true := by cases k <;> decide +kernel

theorem compTabs_plain : ∀ k ∈ tabCalendar.subs, k.2.plain = true ∧ ∀ j ∈ k.2.subs, (match j.2 with
    | .alarm => true
    | .leaf T => T.plain) = true := by decide +kernel

/-- All properties of a subsection are of these characters. -/
def SubEach (P : Char → Prop) (E : Env) (x : Sub) : Prop := match x with
  | .leaf s => ∀ p ∈ s.fields.flatten, PropEach P E p
  | .alarm (some (_, s)) => ∀ p ∈ s.fields.flatten, PropEach P E p
  | .alarm none => True

theorem subEncode_each {P : Char → Prop} (hP : Open P) {E : Env} {k : SubKind} (hk : (match k with
    | .alarm => true
    | .leaf T => T.plain) = true) {x : Sub} {t : Str} (hf : SubEach P E x) (h : subEncode E k x = some t) : EachChar P t := by
  have no : ∀ {T : Tab Empty} {s : Leaf}, ∀ k ∈ T.subs, ∀ x ∈ s.subs.flatten, ∀ t, noEnc k.2 x = some t → EachChar P t := fun _ _ x => nomatch x
  cases k with
  | alarm =>
    cases x with
    | leaf s => cases h; exact .nil
    | alarm a =>
      cases a with
      | none => cases h; exact .nil
      | some ks =>
        obtain ⟨k, s⟩ := ks
        simp only [subEncode, alarmEncode] at h
        have ha : ∀ ch ∈ k.action, OfFormat ch := by cases k <;> decide
        refine cat_each (fun x hx => ?_) h
        rcases List.mem_append.1 hx with hx | hx
        · rcases List.mem_append.1 hx with hx | hx
          · rcases List.mem_cons.1 hx with hx | hx
            · cases hx; exact lineOf_each hP (by decide) (by decide)
            · cases List.mem_singleton.1 hx
              exact lineOf_each hP (by decide) ha
          · exact Tab.body_each hP (alarmTab_plain k) hf no x hx
        · cases List.mem_singleton.1 hx
          exact lineOf_each hP (by decide) (by decide)
  | leaf T =>
    cases x with
    | alarm a => cases h; exact .nil
    | leaf s => exact Tab.encode_each hP hk hf no h

theorem encodeDoc_each {P : Char → Prop} (hP : Open P) {E : Env} {c : Cal} (h1 : ∀ w ∈ calTexts c, EachChar P w) (h2 : ∀ w ∈ calLibrary E c, EachChar P w) {t : Str}
    (h : encodeDoc E c = some t) : EachChar P t := by
  have hf : ∀ p ∈ everyProp c, PropEach P E p := fun p hp =>
    ⟨fun w hw => h1 w (List.mem_flatMap.2 ⟨p, hp, hw⟩), fun w hw => h2 w (List.mem_flatMap.2 ⟨p, hp, hw⟩)⟩
  have hm : ∀ p, p ∈ everyProp c ↔ p ∈ c.fields.flatten ∨ ∃ x ∈ c.subs.flatten, p ∈ x.fields.flatten ∨ ∃ y ∈ x.subs.flatten, p ∈ (match y with
      | .leaf s => s.fields.flatten
      | .alarm (some (_, s)) => s.fields.flatten
      | .alarm none => []) := by
    intro p
    simp only [everyProp, List.mem_append, List.mem_flatMap]
    rfl
  refine Tab.encode_each hP (T := tabCalendar) (by decide +kernel) (fun p hp => hf p ((hm p).2 (.inl hp))) ?_ h
  intro k hk x hx t ht
  refine Tab.encode_each hP (compTabs_plain k hk).1 (fun p hp => hf p ((hm p).2 (.inr ⟨x, hx, .inl hp⟩))) ?_ ht
  intro j hj y hy t ht
  refine subEncode_each hP ((compTabs_plain k hk).2 j hj) ?_ ht
  have : ∀ p, p ∈ (match y with
      | .leaf s => s.fields.flatten
      | .alarm (some (_, s)) => s.fields.flatten
      | .alarm none => []) → PropEach P E p := fun p hp => hf p ((hm p).2 (.inr ⟨x, hx, .inr ⟨y, hy, hp⟩⟩))
  cases y with
  | leaf s => exact this
  | alarm a =>
    cases a with
    | none => trivial
    | some ks => exact this

end Ics
