import Verif.RawEmit
import Verif.RawPut
import Verif.RawKeep
import Verif.EmitLemmas
/-!
# Lemmas: the calls of Verif.RawEmit together are the octets of Verif.Raw; each is UTF-8 or a string as it is; for strings that are UTF-8 they are those of Verif.Emit
-/

namespace Ics

open Spec Props

/-- All that is handed over; `none` if there is no end. -/
def SaidB.text (x : SaidB) : Option Bytes := if x.ends then some x.calls.flatten else none

theorem SaidB.text_of (l : List Bytes) : (SaidB.of l).text = some l.flatten := rfl

theorem SaidB.text_andThen (a b : SaidB) : (a.andThen b).text = a.text.bind fun x => b.text.map (x ++ ·) := by
  rcases a with ⟨_, _ | _⟩ <;> rcases b with ⟨_, _ | _⟩ <;> simp [SaidB.andThen, SaidB.text]

theorem SaidB.text_seq : ∀ xs : List SaidB, (SaidB.seq xs).text = catB (xs.map SaidB.text)
  | [] => rfl
  | x :: xs => by
    rw [SaidB.seq, SaidB.text_andThen, SaidB.text_seq xs, List.map_cons, catB]
    cases x.text <;> cases catB (xs.map SaidB.text) <;> rfl

theorem SaidB.text_commas : ∀ xs : List SaidB, (SaidB.commas xs).text = commasB (xs.map SaidB.text)
  | [] => rfl
  | [x] => rfl
  | x :: y :: xs => by
    have h1 : SaidB.commas (x :: y :: xs) = x.andThen ((SaidB.of [[0x2c]]).andThen (SaidB.commas (y :: xs))) := rfl
    have h2 : ∀ a, commasB (a :: (y :: xs).map SaidB.text) = a.bind fun t => (commasB ((y :: xs).map SaidB.text)).bind fun b => some (t ++ 0x2c :: b) := fun _ => rfl
    rw [h1, SaidB.text_andThen, SaidB.text_andThen, SaidB.text_of, SaidB.text_commas (y :: xs)]
    refine Eq.trans ?_ (h2 _).symm
    rw [List.map_cons]
    cases x.text <;> cases commasB (y.text :: xs.map SaidB.text) <;> simp

theorem utf8_flatten (l : List Str) : (l.map utf8).flatten = utf8 l.flatten := by
  induction l with
  | nil => rfl
  | cons a l ih => rw [List.map_cons, List.flatten_cons, ih, List.flatten_cons, utf8_append]

theorem Said.octets_text (x : Said) : x.octets.text = x.text.map utf8 := by
  rcases x with ⟨l, _ | _⟩
  · rfl
  · simp [Said.octets, SaidB.text, Said.text, utf8_flatten]

/-! ## The calls together -/

theorem mtextCallsB_flatten : ∀ ts : List Bytes, (mtextCallsB ts).flatten = MText.encodeB ts
  | [] => rfl
  | [t] => by simp [mtextCallsB, MText.encodeB]
  | t :: u :: ts => by
    have := mtextCallsB_flatten (u :: ts)
    simp only [mtextCallsB, List.flatten_cons, MText.encodeB] at this ⊢
    rw [this]
    simp

theorem RawVal.calls_flatten (E : Env) (O : Octets) (v : RawVal) : (v.calls E O).flatten = v.text_ E O := by
  cases v with
  | text t => simp [RawVal.calls, RawVal.text_]
  | mtext ts => exact mtextCallsB_flatten ts
  | other w =>
    have key : ((w.calls E).map utf8).flatten = utf8 (w.text_ E) := by rw [utf8_flatten, Val.calls_flatten]
    cases w
    case calAddress u => simp [RawVal.calls, RawVal.text_]
    case uri u => simp [RawVal.calls, RawVal.text_]
    all_goals exact key

theorem timezoneCallsB_flatten (O : Octets) (t : GoTime) : (timezoneCallsB O t).flatten = writeTimezoneB O t := by
  unfold timezoneCallsB writeTimezoneB
  cases t.loc <;> simp

theorem RawVal.headCalls_flatten (O : Octets) (v : RawVal) : (v.headCalls O).flatten = v.head_ O ++ [0x3a] := by
  cases v with
  | other w =>
    cases w
    case binary => rfl
    all_goals simp [RawVal.headCalls, RawVal.head_, timezoneCallsB_flatten]
  | _ => rfl

theorem RawVal.acalls_flatten (E : Env) (O : Octets) (v : RawVal) : (v.acalls E O).flatten = v.aencode E O := by
  simp [RawVal.acalls, RawVal.aencode, RawVal.headCalls_flatten, RawVal.calls_flatten]

theorem said6868B_text (s : Bytes) : (said6868B s).text = encode6868B s := by
  unfold said6868B
  split
  · next h => simp [SaidB.text_of, h]
  · next h => rw [h]; rfl

theorem saidQuotedB_text (s : Bytes) : (saidQuotedB s).text = (encode6868B s).map quoteB := by
  unfold saidQuotedB
  rw [SaidB.text_andThen, SaidB.text_andThen, SaidB.text_of, said6868B_text]
  cases encode6868B s <;> simp [quoteB, SaidB.text_of]

theorem PKind.saidB_text (E : Env) (O : Octets) (name : Str) (k : PKind) (v : RawParam) : (k.saidB E O name v).text = k.encodeB E O name v := by
  have str : ∀ (s : Bytes) (P : Prop) [Decidable P], (if s = [] then SaidB.of [] else (SaidB.of [utf8 (';' :: name ++ ['='])]).andThen (if P then saidQuotedB s else said6868B s)).text =
      if s = [] then some [] else (encode6868B s).map fun e => utf8 (';' :: name ++ ['=']) ++ (if P then quoteB e else e) := by
    intro s P _
    by_cases h : s = []
    · rw [if_pos h, if_pos h]; rfl
    · rw [if_neg h, if_neg h, SaidB.text_andThen, SaidB.text_of]
      by_cases hp : P
      · simp only [if_pos hp, saidQuotedB_text]; cases encode6868B s <;> simp
      · simp only [if_neg hp, said6868B_text]; cases encode6868B s <;> simp
  have range : (k = .range) → (k.saidB E O name v).text = k.encodeB E O name v := by
    rintro rfl
    cases v <;> simp [PKind.saidB, PKind.encodeB, SaidB.text_andThen, SaidB.text_of]
  have other : ∀ (k : PKind) (w : ParamVal), (k.said E name w).octets.text = (k.encode E name w).map utf8 := fun k w => by rw [Said.octets_text, PKind.said_text]
  cases v with
  | str s =>
    cases k with
    | str q => exact str s _
    | fmt => exact str s _
    | range => exact range rfl
    | _ => rfl
  | strs ss =>
    cases k with
    | strs =>
      simp only [PKind.saidB, PKind.encodeB]
      by_cases h : ss = []
      · rw [if_pos h, if_pos h]; rfl
      · rw [if_neg h, if_neg h, SaidB.text_andThen, SaidB.text_commas, SaidB.text_of, List.map_map]
        have : (SaidB.text ∘ saidQuotedB) = fun s => (encode6868B s).map quoteB := funext saidQuotedB_text
        rw [this]
        simp
    | range => exact range rfl
    | _ => rfl
  | other w =>
    cases k with
    | url =>
      cases w with
      | url u =>
        simp only [PKind.saidB, PKind.encodeB]
        by_cases h : O.url u = []
        · rw [if_pos h, if_pos h]; rfl
        · rw [if_neg h, if_neg h]; simp [SaidB.text_andThen, SaidB.text_of]
      | _ => exact other .url _
    | urls =>
      cases w with
      | urls us =>
        simp only [PKind.saidB, PKind.encodeB]
        by_cases h : us = []
        · rw [if_pos h, if_pos h]; rfl
        · rw [if_neg h, if_neg h, SaidB.text_andThen, SaidB.text_commas, SaidB.text_of, List.map_map]
          have : (SaidB.text ∘ fun u => SaidB.of [O.url u]) = fun u => some (O.url u) := by
            funext u
            simp [SaidB.text_of]
          rw [this]
          simp
      | _ => exact other .urls _
    | range => exact range rfl
    | _ => exact other _ w

theorem saidParamsB_text (E : Env) (O : Octets) : ∀ (ds : List PDef) (ps : List (Option RawParam)), (saidParamsB E O ds ps).map SaidB.text = encParamsB E O ds ps
  | [], _ => by simp [saidParamsB, encParamsB]
  | _ :: _, [] => by simp [saidParamsB, encParamsB]
  | d :: ds, p :: ps => by
    simp only [saidParamsB, encParamsB, List.map_cons, saidParamsB_text E O ds ps]
    cases p with
    | none => simp [SaidB.text_of]
    | some v => simp [PKind.saidB_text]

theorem valsCallsB_flatten (E : Env) (O : Octets) : ∀ (b : Bool) (ks : List (Str × Kind)) (vs : List (Option RawVal)), (valsCallsB E O b ks vs).flatten = encValsB E O b ks vs
  | _, [], _ => by simp [valsCallsB, encValsB]
  | _, _ :: _, [] => by simp [valsCallsB, encValsB]
  | b, (n, k) :: ks, v :: vs => by
    simp only [valsCallsB, encValsB, List.flatten_append, valsCallsB_flatten E O false ks vs]
    congr 1
    cases v with
    | none => rfl
    | some v =>
      simp only [List.flatten_append, RawVal.acalls_flatten]
      split <;> simp

theorem PSpec.saidB_text (E : Env) (O : Octets) (sp : PSpec) (v : RawProp) : (sp.saidB E O v).text = sp.encodeB E O v := by
  rcases sp with ⟨name, names | ⟨params, vals⟩⟩ <;> cases v with
  | enum n =>
    simp only [PSpec.saidB, PSpec.encodeB]
    first
    | rfl
    | rw [SaidB.text_of, List.getD_eq_getElem?_getD]
      cases names[n]? <;> simp [← utf8_append]
  | fields ps vs =>
    simp only [PSpec.saidB, PSpec.encodeB]
    first
    | rfl
    | rw [SaidB.text_andThen, SaidB.text_andThen, SaidB.text_seq, SaidB.text_of, SaidB.text_of, saidParamsB_text]
      cases catB _ <;> simp [valsCallsB_flatten]

theorem saidFieldsB_text (E : Env) (O : Octets) : ∀ (fs : List SField) (vs : List (List RawProp)), (saidFieldsB E O fs vs).map SaidB.text = encFieldsB E O fs vs
  | [], _ => by simp [saidFieldsB, encFieldsB]
  | _ :: _, [] => by simp [saidFieldsB, encFieldsB]
  | f :: fs, v :: vs => by
    rw [saidFieldsB, encFieldsB, List.map_append, saidFieldsB_text E O fs vs, List.map_map]
    congr 2
    funext x
    exact PSpec.saidB_text E O f.spec x

theorem saidSubsB_text {κ σ : Type} {a : κ → σ → SaidB} {b : κ → σ → Option Bytes} (h : ∀ k s, (a k s).text = b k s) : ∀ (ks : List (Str × κ)) (vs : List (List σ)),
    (saidSubsB a ks vs).map SaidB.text = encSubsB b ks vs
  | [], _ => by simp [saidSubsB, encSubsB]
  | _ :: _, [] => by simp [saidSubsB, encSubsB]
  | (_, k) :: ks, v :: vs => by
    rw [saidSubsB, encSubsB, List.map_append, saidSubsB_text h ks vs, List.map_map]
    congr 2
    funext x
    exact h k x

theorem Tab.saidBodyB_text {κ σ : Type} {E : Env} {O : Octets} {T : Tab κ} {a : κ → σ → SaidB} {b : κ → σ → Option Bytes} (h : ∀ k s, (a k s).text = b k s) (s : RawSect σ) :
    (T.saidBodyB E O a s).map SaidB.text = T.bodyB E O b s := by
  rw [Tab.saidBodyB, Tab.bodyB, List.map_append, saidFieldsB_text, saidSubsB_text h]

theorem Tab.saidB_text {κ σ : Type} {E : Env} {O : Octets} {T : Tab κ} {a : κ → σ → SaidB} {b : κ → σ → Option Bytes} (h : ∀ k s, (a k s).text = b k s) (s : RawSect σ) :
    (T.saidB E O a s).text = T.encodeB E O b s := by
  rw [Tab.saidB, Tab.encodeB, SaidB.text_seq, List.map_append, List.map_append, Tab.saidBodyB_text h]
  simp [SaidB.text_of]

theorem alarmSaidB_text (E : Env) (O : Octets) (a : Option (AKind × RawLeaf)) : (alarmSaidB E O a).text = alarmEncodeB E O a := by
  unfold alarmSaidB alarmEncodeB
  split
  · rfl
  · rw [SaidB.text_seq, List.map_append, List.map_append, Tab.saidBodyB_text (b := noEncB) (fun k => nomatch k)]
    simp [SaidB.text_of]

theorem subSaidB_text (E : Env) (O : Octets) (k : SubKind) (s : RawSub) : (subSaidB E O k s).text = subEncodeB E O k s := by
  cases k <;> cases s
  · exact Tab.saidB_text (fun k => nomatch k) _
  · rfl
  · rfl
  · exact alarmSaidB_text E O _

/-- The calls together are the octets. -/
theorem RawCal.saidB_text (E : Env) (O : Octets) (c : RawCal) : (RawCal.saidB E O c).text = encodeOctets E O c := Tab.saidB_text (fun _ s => Tab.saidB_text (subSaidB_text E O) s) c

/-! ## Each call -/

/-- UTF-8, or one of these. -/
def Among (ss : List Bytes) (x : SaidB) : Prop := ∀ q ∈ x.calls, IsUtf8 q ∨ q ∈ ss

theorem Among.of {ss l : List Bytes} (h : ∀ q ∈ l, IsUtf8 q ∨ q ∈ ss) : Among ss (.of l) := h

theorem Among.more {ss ss' : List Bytes} {x : SaidB} (h : Among ss x) (hs : ∀ s ∈ ss, s ∈ ss') : Among ss' x := fun q hq => (h q hq).imp id (hs q)

theorem Among.andThen {ss : List Bytes} {a b : SaidB} (ha : Among ss a) (hb : Among ss b) : Among ss (a.andThen b) := by
  unfold SaidB.andThen
  split
  · exact fun q hq => (List.mem_append.1 hq).elim (ha q) (hb q)
  · exact ha

theorem Among.seq {ss : List Bytes} : ∀ {xs : List SaidB}, (∀ x ∈ xs, Among ss x) → Among ss (SaidB.seq xs)
  | [], _ => .of nofun
  | x :: xs, h => (h x (by simp)).andThen (Among.seq fun y hy => h y (by simp [hy]))

theorem among_utf8 (ss : List Bytes) (l : List Str) : Among ss (.of (l.map utf8)) := .of fun q hq => by
  obtain ⟨s, _, rfl⟩ := List.mem_map.1 hq
  exact .inl ⟨s, rfl⟩

theorem Among.commas {ss : List Bytes} : ∀ {xs : List SaidB}, (∀ x ∈ xs, Among ss x) → Among ss (SaidB.commas xs)
  | [], _ => .of nofun
  | [x], h => h x (by simp)
  | x :: y :: xs, h => (h x (by simp)).andThen ((among_utf8 ss [[',']]).andThen (Among.commas fun z hz => h z (by simp [hz])))

theorem Said.octets_among (ss : List Bytes) (x : Said) : Among ss x.octets := among_utf8 ss x.calls

theorem said6868B_among (s : Bytes) : Among [s] (said6868B s) := by
  unfold said6868B
  split
  · next h => rw [encode6868B_some h]; exact .of fun q hq => .inr hq
  · exact fun q hq => nomatch hq

theorem saidQuotedB_among (s : Bytes) : Among [s] (saidQuotedB s) := (among_utf8 _ [['"']]).andThen ((said6868B_among s).andThen (among_utf8 _ [['"']]))

theorem PKind.saidB_among (E : Env) (O : Octets) (name : Str) (k : PKind) (v : RawParam) : Among (paramAsIs O v) (k.saidB E O name v) := by
  have pre : ∀ ss, Among ss (.of [utf8 (';' :: name ++ ['='])]) := fun ss => among_utf8 ss [';' :: name ++ ['=']]
  unfold PKind.saidB
  split
  · split
    · exact .of nofun
    · refine (pre _).andThen ?_
      split
      · exact saidQuotedB_among _
      · exact said6868B_among _
  · split
    · exact .of nofun
    · refine (pre _).andThen ?_
      split
      · exact saidQuotedB_among _
      · exact said6868B_among _
  · split
    · exact .of nofun
    · refine (pre _).andThen (Among.commas fun x hx => ?_)
      obtain ⟨s, hs, rfl⟩ := List.mem_map.1 hx
      exact (saidQuotedB_among s).more fun t ht => by rw [List.mem_singleton.1 ht]; exact hs
  · split
    · exact .of nofun
    · exact (pre _).andThen (.of fun q hq => .inr hq)
  · split
    · exact .of nofun
    · refine (pre _).andThen (Among.commas fun x hx => ?_)
      obtain ⟨u, hu, rfl⟩ := List.mem_map.1 hx
      exact .of fun q hq => .inr (by rw [List.mem_singleton.1 hq]; exact List.mem_map.2 ⟨u, hu, rfl⟩)
  · exact (pre _).andThen (among_utf8 _ [c!"THISANDFUTURE"])
  · exact Said.octets_among _ _
  · exact .of nofun

theorem mtextCallsB_utf8 : ∀ ts : List Bytes, ∀ q ∈ mtextCallsB ts, IsUtf8 q
  | [], q, h => nomatch h
  | [t], q, h => by rw [List.mem_singleton.1 h]; exact ⟨_, Text.encodeB_eq t⟩
  | t :: u :: ts, q, h => by
    simp only [mtextCallsB, List.mem_cons] at h
    rcases h with rfl | rfl | h
    · exact ⟨_, Text.encodeB_eq t⟩
    · exact ⟨[','], rfl⟩
    · exact mtextCallsB_utf8 (u :: ts) q (by simpa [mtextCallsB] using h)

theorem RawVal.acalls_among (E : Env) (O : Octets) (v : RawVal) : ∀ q ∈ v.acalls E O, IsUtf8 q ∨ q ∈ valAsIs O v := by
  have zone : ∀ t, ∀ q ∈ timezoneCallsB O t ++ [[0x3a]], IsUtf8 q ∨ q ∈ zoneAsIs O t := by
    intro t q hq
    unfold timezoneCallsB at hq
    unfold zoneAsIs
    cases h : t.loc <;> rw [h] at hq
    · exact .inl ⟨[':'], List.mem_singleton.1 hq⟩
    · exact .inl ⟨[':'], List.mem_singleton.1 hq⟩
    · simp only [List.cons_append, List.nil_append, List.mem_cons, List.not_mem_nil, or_false] at hq
      rcases hq with rfl | rfl | rfl
      · exact .inl ⟨_, rfl⟩
      · exact .inr (by simp)
      · exact .inl ⟨[':'], rfl⟩
  have colon : ∀ q ∈ ([[0x3a]] : List Bytes), IsUtf8 q := fun q hq => ⟨[':'], List.mem_singleton.1 hq⟩
  intro q hq
  rcases List.mem_append.1 hq with h | h
  · cases v with
    | text t => exact .inl (colon q h)
    | mtext ts => exact .inl (colon q h)
    | other w =>
      cases w
      case binary => exact .inl ⟨_, List.mem_singleton.1 h⟩
      case dateTime t => exact zone t q h
      case period p => exact zone p.start q h
      case recur r => exact zone r.until_ q h
      all_goals exact .inl (colon q h)
  · cases v with
    | text t => exact .inl ⟨_, by rw [List.mem_singleton.1 h]; exact Text.encodeB_eq t⟩
    | mtext ts => exact .inl (mtextCallsB_utf8 ts q h)
    | other w =>
      have key : q ∈ (w.calls E).map utf8 → IsUtf8 q := fun h => by
        obtain ⟨s, _, rfl⟩ := List.mem_map.1 h
        exact ⟨s, rfl⟩
      cases w
      case calAddress u => exact .inr h
      case uri u => exact .inr h
      all_goals exact .inl (key h)

theorem saidParamsB_among (E : Env) (O : Octets) : ∀ (ds : List PDef) (ps : List (Option RawParam)), ∀ x ∈ saidParamsB E O ds ps, Among (ps.flatMap fun p => p.toList.flatMap (paramAsIs O)) x
  | [], _, x, h => by simp [saidParamsB] at h
  | _ :: _, [], x, h => by simp [saidParamsB] at h
  | d :: ds, p :: ps, x, h => by
    simp only [saidParamsB, List.mem_cons] at h
    rw [List.flatMap_cons]
    rcases h with rfl | h
    · cases p with
      | none => exact .of nofun
      | some v => exact (PKind.saidB_among E O d.name d.kind v).more fun s hs => List.mem_append.2 (.inl (by simpa using hs))
    · exact (saidParamsB_among E O ds ps x h).more fun s hs => List.mem_append.2 (.inr hs)

theorem valsCallsB_among (E : Env) (O : Octets) : ∀ (b : Bool) (ks : List (Str × Kind)) (vs : List (Option RawVal)), ∀ q ∈ valsCallsB E O b ks vs,
    IsUtf8 q ∨ q ∈ vs.flatMap fun v => v.toList.flatMap (valAsIs O)
  | _, [], _, q, h => by simp [valsCallsB] at h
  | _, _ :: _, [], q, h => by simp [valsCallsB] at h
  | b, (n, k) :: ks, v :: vs, q, h => by
    simp only [valsCallsB, List.mem_append] at h
    rw [List.flatMap_cons]
    rcases h with h | h
    · cases v with
      | none => cases h
      | some v =>
        rcases List.mem_append.1 h with h | h
        · split at h
          · cases h
          · exact .inl ⟨_, List.mem_singleton.1 h⟩
        · exact (RawVal.acalls_among E O v q h).imp id fun h => List.mem_append.2 (.inl (by simpa using h))
    · exact (valsCallsB_among E O false ks vs q h).imp id fun h => List.mem_append.2 (.inr h)

theorem PSpec.saidB_among (E : Env) (O : Octets) (sp : PSpec) (v : RawProp) : Among (rawProp (paramAsIs O) (valAsIs O) v) (sp.saidB E O v) := by
  unfold PSpec.saidB
  split
  · refine .of fun q hq => .inl ?_
    simp only [List.mem_append, List.mem_singleton, List.mem_map] at hq
    rcases hq with (rfl | ⟨s, _, rfl⟩) | rfl <;> exact ⟨_, rfl⟩
  · refine (among_utf8 _ [sp.name]).andThen (Among.andThen (Among.seq fun x hx => (saidParamsB_among E O _ _ x hx).more fun s hs => List.mem_append.2 (.inl hs)) ?_)
    refine .of fun q hq => ?_
    rcases List.mem_append.1 hq with h | h
    · exact (valsCallsB_among E O true _ _ q h).imp id fun h => List.mem_append.2 (.inr h)
    · exact .inl ⟨_, List.mem_singleton.1 h⟩
  · exact .of nofun

theorem saidFieldsB_among (E : Env) (O : Octets) : ∀ (fs : List SField) (vs : List (List RawProp)), ∀ x ∈ saidFieldsB E O fs vs,
    Among (vs.flatMap fun ps => ps.flatMap (rawProp (paramAsIs O) (valAsIs O))) x
  | [], _, x, h => by simp [saidFieldsB] at h
  | _ :: _, [], x, h => by simp [saidFieldsB] at h
  | f :: fs, v :: vs, x, h => by
    simp only [saidFieldsB, List.mem_append] at h
    rw [List.flatMap_cons]
    rcases h with h | h
    · obtain ⟨p, hp, rfl⟩ := List.mem_map.1 h
      exact (PSpec.saidB_among E O f.spec p).more fun s hs => List.mem_append.2 (.inl (List.mem_flatMap.2 ⟨p, hp, hs⟩))
    · exact (saidFieldsB_among E O fs vs x h).more fun s hs => List.mem_append.2 (.inr hs)

theorem saidSubsB_among {κ σ : Type} {enc : κ → σ → SaidB} {str : σ → List Bytes} (he : ∀ k s, Among (str s) (enc k s)) : ∀ (ks : List (Str × κ)) (vs : List (List σ)),
    ∀ x ∈ saidSubsB enc ks vs, Among (vs.flatMap fun xs => xs.flatMap str) x
  | [], _, x, h => by simp [saidSubsB] at h
  | _ :: _, [], x, h => by simp [saidSubsB] at h
  | (_, k) :: ks, v :: vs, x, h => by
    simp only [saidSubsB, List.mem_append] at h
    rw [List.flatMap_cons]
    rcases h with h | h
    · obtain ⟨p, hp, rfl⟩ := List.mem_map.1 h
      exact (he k p).more fun s hs => List.mem_append.2 (.inl (List.mem_flatMap.2 ⟨p, hp, hs⟩))
    · exact (saidSubsB_among he ks vs x h).more fun s hs => List.mem_append.2 (.inr hs)

theorem Tab.saidBodyB_among {κ σ : Type} {E : Env} {O : Octets} {T : Tab κ} {enc : κ → σ → SaidB} {str : σ → List Bytes} (he : ∀ k s, Among (str s) (enc k s)) (s : RawSect σ) :
    ∀ x ∈ T.saidBodyB E O enc s, Among (rawSect (paramAsIs O) (valAsIs O) str s) x := by
  intro x hx
  rcases List.mem_append.1 hx with h | h
  · exact (saidFieldsB_among E O _ _ x h).more fun s hs => List.mem_append.2 (.inl hs)
  · exact (saidSubsB_among he _ _ x h).more fun s hs => List.mem_append.2 (.inr hs)

theorem frame_among {ss : List Bytes} {pre : List Str} {z : Str} {body : List SaidB} (h : ∀ x ∈ body, Among ss x) :
    Among ss (SaidB.seq (pre.map (fun s => .of [utf8 s]) ++ body ++ [.of [utf8 z]])) := by
  refine Among.seq fun x hx => ?_
  simp only [List.mem_append, List.mem_map, List.mem_singleton] at hx
  rcases hx with (⟨s, _, rfl⟩ | hx) | rfl
  · exact among_utf8 ss [s]
  · exact h x hx
  · exact among_utf8 ss [z]

theorem Tab.saidB_among {κ σ : Type} {E : Env} {O : Octets} {T : Tab κ} {enc : κ → σ → SaidB} {str : σ → List Bytes} (he : ∀ k s, Among (str s) (enc k s)) (s : RawSect σ) :
    Among (rawSect (paramAsIs O) (valAsIs O) str s) (T.saidB E O enc s) :=
  frame_among (pre := [lineOf kBEGIN T.name]) (Tab.saidBodyB_among he s)

theorem subSaidB_among (E : Env) (O : Octets) (k : SubKind) (s : RawSub) : Among (rawSub (paramAsIs O) (valAsIs O) s) (subSaidB E O k s) := by
  cases k <;> cases s
  · exact Tab.saidB_among (fun k => nomatch k) _
  · exact .of nofun
  · exact .of nofun
  · rename_i a
    cases a with
    | none => exact .of nofun
    | some a =>
      have : Among (rawSect (paramAsIs O) (valAsIs O) (fun _ => []) a.2) (alarmSaidB E O (some a)) :=
        frame_among (pre := [lineOf kBEGIN kVALARM, lineOf kACTION a.1.action]) (Tab.saidBodyB_among (fun k => nomatch k) a.2)
      exact this.more fun s hs => by simpa [rawSub] using hs

theorem RawCal.saidB_among (E : Env) (O : Octets) (c : RawCal) : Among (calAsIs O c) (RawCal.saidB E O c) :=
  Tab.saidB_among (fun _ s => Tab.saidB_among (subSaidB_among E O) s) c

/-! ## Where all is UTF-8 -/

theorem octets_of (l : List Str) : (Said.of l).octets = .of (l.map utf8) := rfl

theorem octets_andThen (a b : Said) : (a.andThen b).octets = a.octets.andThen b.octets := by
  rcases a with ⟨_, _ | _⟩ <;> rcases b with ⟨_, _ | _⟩ <;> simp [Said.andThen, SaidB.andThen, Said.octets]

theorem octets_seq : ∀ xs : List Said, (Said.seq xs).octets = SaidB.seq (xs.map Said.octets)
  | [] => rfl
  | x :: xs => by rw [Said.seq, octets_andThen, octets_seq xs]; rfl

theorem octets_commas : ∀ xs : List Said, (Said.commas xs).octets = SaidB.commas (xs.map Said.octets)
  | [] => rfl
  | [x] => rfl
  | x :: y :: xs => by
    show (x.andThen ((Said.of [[',']]).andThen (Said.commas (y :: xs)))).octets = _
    rw [octets_andThen, octets_andThen, octets_commas (y :: xs)]
    rfl

theorem encode6868B_utf8 (s : Str) : encode6868B (utf8 s) = (encode6868 s).map utf8 := by
  rw [encode6868B_eq, any_esc, runes_utf8, encode6868_any]
  split <;> rfl

theorem said6868B_utf8 (s : Str) : said6868B (utf8 s) = (said6868 s).octets := by
  unfold said6868B said6868
  rw [encode6868B_utf8]
  cases encode6868 s <;> rfl

theorem saidQuotedB_utf8 (s : Str) : saidQuotedB (utf8 s) = (saidQuoted s).octets := by
  unfold saidQuotedB saidQuoted
  rw [octets_andThen, octets_andThen, said6868B_utf8]
  rfl

theorem utf8_eq_nil {s : Str} : utf8 s = [] ↔ s = [] := by
  constructor
  · intro h
    have := congrArg runes h
    rw [runes_utf8] at this
    exact this
  · rintro rfl; rfl

theorem PKind.saidB_hard {E : Env} {O : Octets} (hO : OctetsUtf8 E O) (name : Str) (k : PKind) (v : ParamVal) : k.saidB E O name (hardParam v) = (k.said E name v).octets := by
  have sp : ∀ s : Str, (utf8 s).any isSpecialB = containsAny isSpecial s := fun s => by rw [any_special, runes_utf8]; rfl
  cases v with
  | str s =>
    cases k with
    | str q =>
      simp only [hardParam, PKind.saidB, PKind.said, utf8_eq_nil, sp, saidQuotedB_utf8, said6868B_utf8]
      split
      · rfl
      · rw [octets_andThen]
        split <;> rfl
    | fmt =>
      simp only [hardParam, PKind.saidB, PKind.said, utf8_eq_nil, sp, saidQuotedB_utf8, said6868B_utf8]
      split
      · rfl
      · rw [octets_andThen]
        split <;> rfl
    | range => simp only [hardParam, PKind.saidB, PKind.said, octets_andThen]; rfl
    | _ => rfl
  | strs ss =>
    cases k with
    | strs =>
      simp only [hardParam, PKind.saidB, PKind.said, List.map_eq_nil_iff]
      split
      · rfl
      · rw [octets_andThen, octets_commas, List.map_map, List.map_map]
        congr 2
        exact List.map_congr_left fun s _ => saidQuotedB_utf8 s
    | range => simp only [hardParam, PKind.saidB, PKind.said, octets_andThen]; rfl
    | _ => rfl
  | url u =>
    cases k with
    | url =>
      simp only [hardParam, PKind.saidB, PKind.said, hO.url, utf8_eq_nil]
      split
      · rfl
      · rw [octets_andThen]; rfl
    | range => simp only [hardParam, PKind.saidB, PKind.said, octets_andThen]; rfl
    | _ => rfl
  | urls us =>
    cases k with
    | urls =>
      simp only [hardParam, PKind.saidB, PKind.said, hO.url]
      split
      · rfl
      · rw [octets_andThen, octets_commas, List.map_map]; rfl
    | range => simp only [hardParam, PKind.saidB, PKind.said, octets_andThen]; rfl
    | _ => rfl
  | _ =>
    cases k with
    | range => simp only [hardParam, PKind.saidB, PKind.said, octets_andThen]; rfl
    | _ => rfl

theorem mtextCallsB_hard : ∀ ts : List Str, mtextCallsB (ts.map utf8) = (MText.calls ts).map utf8
  | [] => rfl
  | [t] => by simp [mtextCallsB, MText.calls, commaCalls, Text.encodeB_eq, runes_utf8]
  | t :: u :: ts => by
    have := mtextCallsB_hard (u :: ts)
    simp only [List.map_cons, mtextCallsB, MText.calls, commaCalls, List.map_append, List.map_nil, List.cons_append, List.nil_append, Text.encodeB_eq, runes_utf8] at this ⊢
    rw [this]
    rfl

theorem timezoneCallsB_hard {E : Env} {O : Octets} (hO : OctetsUtf8 E O) (t : GoTime) : timezoneCallsB O t = (timezoneCalls t).map utf8 := by
  unfold timezoneCallsB timezoneCalls
  cases h : t.loc with
  | zone n p r => simp only [hO.zone]; rfl
  | _ => rfl

theorem RawVal.acalls_hard {E : Env} {O : Octets} (hO : OctetsUtf8 E O) (v : Val) : (hardVal v).acalls E O = (v.acalls E).map utf8 := by
  unfold RawVal.acalls Val.acalls
  rw [List.map_append]
  congr 1
  · cases v
    case dateTime t => simp only [hardVal, RawVal.headCalls, Val.headCalls, List.map_append, timezoneCallsB_hard hO]; rfl
    case period p => simp only [hardVal, RawVal.headCalls, Val.headCalls, List.map_append, timezoneCallsB_hard hO]; rfl
    case recur r => simp only [hardVal, RawVal.headCalls, Val.headCalls, List.map_append, timezoneCallsB_hard hO]; rfl
    all_goals rfl
  · cases v
    case text t => simp [hardVal, RawVal.calls, Val.calls, Text.encodeB_eq, runes_utf8]
    case mtext ts => exact mtextCallsB_hard ts
    case calAddress u => simp [hardVal, RawVal.calls, Val.calls, hO.url, URI.encode]
    case uri u => simp [hardVal, RawVal.calls, Val.calls, hO.url, URI.encode]
    all_goals rfl

theorem saidParamsB_hard {E : Env} {O : Octets} (hO : OctetsUtf8 E O) : ∀ (ds : List PDef) (ps : List (Option ParamVal)),
    saidParamsB E O ds (ps.map (Option.map hardParam)) = (saidParams E ds ps).map Said.octets
  | [], _ => by simp [saidParamsB, saidParams]
  | _ :: _, [] => by simp [saidParamsB, saidParams]
  | d :: ds, p :: ps => by
    simp only [saidParamsB, saidParams, List.map_cons, saidParamsB_hard hO ds ps]
    cases p with
    | none => rfl
    | some v => simp [PKind.saidB_hard hO]

theorem valsCallsB_hard {E : Env} {O : Octets} (hO : OctetsUtf8 E O) : ∀ (b : Bool) (ks : List (Str × Kind)) (vs : List (Option Val)),
    valsCallsB E O b ks (vs.map (Option.map hardVal)) = (valsCalls E b ks vs).map utf8
  | _, [], _ => by simp [valsCallsB, valsCalls]
  | _, _ :: _, [] => by simp [valsCallsB, valsCalls]
  | b, (n, k) :: ks, v :: vs => by
    simp only [valsCallsB, valsCalls, List.map_cons, List.map_append, valsCallsB_hard hO false ks vs]
    congr 1
    cases v with
    | none => rfl
    | some v =>
      simp only [Option.map_some, List.map_append, RawVal.acalls_hard hO]
      congr 1
      split <;> rfl

theorem PSpec.saidB_hard {E : Env} {O : Octets} (hO : OctetsUtf8 E O) (sp : PSpec) (v : PropVal) : sp.saidB E O (hardProp v) = (sp.said E v).octets := by
  rcases sp with ⟨name, names | ⟨params, vals⟩⟩ <;> cases v with
  | enum n =>
    simp only [hardProp, PSpec.saidB, PSpec.said]
    first
    | rfl
    | rw [octets_of, List.map_append, List.map_append]; rfl
  | fields ps vs =>
    simp only [hardProp, PSpec.saidB, PSpec.said]
    first
    | rfl
    | rw [octets_andThen, octets_andThen, octets_seq, octets_of, octets_of, List.map_append, saidParamsB_hard hO, valsCallsB_hard hO]; rfl

theorem saidFieldsB_hard {E : Env} {O : Octets} (hO : OctetsUtf8 E O) : ∀ (fs : List SField) (vs : List (List PropVal)),
    saidFieldsB E O fs (vs.map (List.map hardProp)) = (saidFields E fs vs).map Said.octets
  | [], _ => by simp [saidFieldsB, saidFields]
  | _ :: _, [] => by simp [saidFieldsB, saidFields]
  | f :: fs, v :: vs => by
    rw [List.map_cons, saidFieldsB, saidFields, List.map_append, saidFieldsB_hard hO fs vs, List.map_map, List.map_map]
    congr 1
    exact List.map_congr_left fun p _ => PSpec.saidB_hard hO f.spec p

theorem saidSubsB_hard {κ σ τ : Type} {a : κ → σ → Said} {b : κ → τ → SaidB} {g : σ → τ} (h : ∀ k s, b k (g s) = (a k s).octets) : ∀ (ks : List (Str × κ)) (vs : List (List σ)),
    saidSubsB b ks (vs.map (List.map g)) = (saidSubs a ks vs).map Said.octets
  | [], _ => by simp [saidSubsB, saidSubs]
  | _ :: _, [] => by simp [saidSubsB, saidSubs]
  | (_, k) :: ks, v :: vs => by
    rw [List.map_cons, saidSubsB, saidSubs, List.map_append, saidSubsB_hard h ks vs, List.map_map, List.map_map]
    congr 1
    exact List.map_congr_left fun s _ => h k s

theorem Tab.saidBodyB_hard {κ σ τ : Type} {E : Env} {O : Octets} (hO : OctetsUtf8 E O) {T : Tab κ} {a : κ → σ → Said} {b : κ → τ → SaidB} {g : σ → τ} (h : ∀ k s, b k (g s) = (a k s).octets)
    (s : Sect σ) : T.saidBodyB E O b (hardSect g s) = (T.saidBody E a s).map Said.octets := by
  rw [Tab.saidBodyB, Tab.saidBody, List.map_append]
  simp only [hardSect]
  rw [saidFieldsB_hard hO, saidSubsB_hard h]

theorem Tab.saidB_hard {κ σ τ : Type} {E : Env} {O : Octets} (hO : OctetsUtf8 E O) {T : Tab κ} {a : κ → σ → Said} {b : κ → τ → SaidB} {g : σ → τ} (h : ∀ k s, b k (g s) = (a k s).octets)
    (s : Sect σ) : T.saidB E O b (hardSect g s) = (T.said E a s).octets := by
  rw [Tab.saidB, Tab.said, octets_seq, List.map_append, List.map_append, Tab.saidBodyB_hard hO h]
  rfl

theorem subSaidB_hard {E : Env} {O : Octets} (hO : OctetsUtf8 E O) (k : SubKind) (s : Sub) : subSaidB E O k (hardSub s) = (subSaid E k s).octets := by
  cases k <;> cases s
  · exact Tab.saidB_hard (g := id) hO (fun k => nomatch k) _
  · rfl
  · rfl
  · rename_i a
    cases a with
    | none => rfl
    | some a =>
      obtain ⟨k, s⟩ := a
      show SaidB.seq _ = (Said.seq _).octets
      rw [octets_seq, List.map_append, List.map_append, ← Tab.saidBodyB_hard (b := noSaidB) (g := id) hO (fun k => nomatch k)]
      rfl

theorem RawCal.saidB_hard {E : Env} {O : Octets} (hO : OctetsUtf8 E O) (c : Cal) : RawCal.saidB E O (hardCal c) = (c.said E).octets :=
  Tab.saidB_hard hO (fun _ s => Tab.saidB_hard hO (subSaidB_hard hO) s) c

/-! ## Folds -/

theorem isUtf8_cons {x : UInt8} (hx : x.toNat < 128) {b : Bytes} : IsUtf8 (x :: b) ↔ IsUtf8 b :=
  ⟨fun h => (wr_byte hx (wr_self b)).1 h b (by simp), fun h => (wr_byte hx (wr_self b)).2 (by simpa using h)⟩

theorem foldedAt_utf8 {us : List Bytes} {t : Bytes} (h : FoldedAt us t) : ∀ a, IsUtf8 (a ++ t) → IsUtf8 (a ++ us.flatten) := by
  induction h with
  | nil => exact fun a h => h
  | @keep u us t _ ih =>
    intro a h
    rw [List.flatten_cons, ← List.append_assoc]
    exact ih (a ++ u) (by rwa [List.append_assoc])
  | @fold u us t _ _ _ ih =>
    intro a h
    have h1 : IsUtf8 (a ++ 13 :: 10 :: 32 :: (u ++ t)) := by simpa using h
    rw [isUtf8_append (runes_split a (.cons (by decide) _)), isUtf8_cons (by decide), isUtf8_cons (by decide), isUtf8_cons (by decide)] at h1
    obtain ⟨s, rfl⟩ := h1.1
    obtain ⟨v, hv⟩ := ih u h1.2
    exact ⟨s ++ v, by rw [List.flatten_cons, hv, utf8_append]⟩

end Ics
