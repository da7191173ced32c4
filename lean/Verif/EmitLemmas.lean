import Verif.Emit
import Verif.RecurLemmas
import Verif.PropertyLemmas
/-!
# Lemmas: the calls of Verif.Emit together are the texts of Verif.Codec
-/

namespace Ics

/-- All that is handed over; `none` if there is no end. -/
def Said.text (x : Said) : Option Str := if x.ends then some x.calls.flatten else none

theorem Said.text_of (l : List Str) : (Said.of l).text = some l.flatten := rfl

theorem Said.text_andThen (a b : Said) : (a.andThen b).text = a.text.bind fun x => b.text.map (x ++ ·) := by
  rcases a with ⟨_, _ | _⟩ <;> rcases b with ⟨_, _ | _⟩ <;> simp [Said.andThen, Said.text]

theorem Said.text_seq : ∀ xs : List Said, (Said.seq xs).text = cat (xs.map Said.text)
  | [] => rfl
  | x :: xs => by
    rw [Said.seq, Said.text_andThen, Said.text_seq xs, List.map_cons, cat]
    cases x.text <;> cases cat (xs.map Said.text) <;> rfl

theorem Said.text_commas : ∀ xs : List Said, (Said.commas xs).text = Ics.commas (xs.map Said.text)
  | [] => rfl
  | [x] => rfl
  | x :: y :: xs => by
    have h1 : Said.commas (x :: y :: xs) = x.andThen ((Said.of [[',']]).andThen (Said.commas (y :: xs))) := rfl
    have h2 : ∀ a, Ics.commas (a :: (y :: xs).map Said.text) = a.bind fun t => (Ics.commas ((y :: xs).map Said.text)).bind fun b => some (t ++ ',' :: b) := fun _ => rfl
    rw [h1, Said.text_andThen, Said.text_andThen, Said.text_of, Said.text_commas (y :: xs)]
    refine Eq.trans ?_ (h2 _).symm
    rw [List.map_cons]
    cases x.text <;> cases Ics.commas (y.text :: xs.map Said.text) <;> simp

/-! ## Values -/

theorem commaCalls_flatten : ∀ xs : List (List Str), (commaCalls xs).flatten = join [','] (xs.map List.flatten)
  | [] => rfl
  | [x] => by simp [commaCalls, join]
  | x :: y :: xs => by
    have := commaCalls_flatten (y :: xs)
    simp only [commaCalls, List.map_cons, join, List.flatten_append, List.flatten_cons] at this ⊢
    rw [this]
    simp

theorem b64Encode_append : ∀ (k : Nat) (a b : Bytes), a.length = 3 * k → b64Encode (a ++ b) = b64Encode a ++ b64Encode b := by
  intro k
  induction k with
  | zero =>
    intro a b h
    have : a = [] := List.length_eq_zero_iff.1 (by omega)
    subst this; rfl
  | succ k ih =>
    intro a b h
    match a with
    | [] => simp at h
    | [_] => simp at h; omega
    | [_, _] => simp at h; omega
    | x :: y :: z :: r =>
      simp only [List.cons_append, b64Encode]
      rw [ih r b (by simp at h; omega)]

theorem b64Calls_flatten : ∀ (k : Nat) (b : Bytes), b.length ≤ k → (b64Calls b).flatten = b64Encode b := by
  intro k
  induction k with
  | zero =>
    intro b h
    have : b = [] := List.length_eq_zero_iff.1 (by omega)
    subst this
    unfold b64Calls
    simp [b64Encode]
  | succ k ih =>
    intro b h
    unfold b64Calls
    split
    · split
      · next h => subst h; rfl
      · simp
    · next h3 =>
      simp only [List.flatten_cons]
      rw [ih _ (by rw [List.length_drop]; omega)]
      have hl : (b.take (min 768 (b.length - b.length % 3))).length = 3 * (min 768 (b.length - b.length % 3) / 3) := by
        rw [List.length_take]
        omega
      rw [← b64Encode_append _ _ _ hl, List.take_append_drop]

theorem join_semi (a : Str) (l : List Str) : join [';'] ([a] ++ l) = a ++ (l.map (';' :: ·)).flatten := by
  induction l generalizing a with
  | nil => simp [join]
  | cons b l ih =>
    have := ih b
    simp only [List.cons_append, List.nil_append, join, List.map_cons, List.flatten_cons] at this ⊢
    rw [this]
    simp

theorem listCalls_flatten {α : Type} (name : Str) (f : α → List Str) (g : α → Str) (h : ∀ x, (f x).flatten = g x) (l : List α) :
    (listCalls name f l).flatten = ((encList name g l).map (';' :: ·)).flatten := by
  cases l with
  | nil => rfl
  | cons x l =>
    simp only [listCalls, encList, List.flatten_cons, commaCalls_flatten, List.map_map, List.map_cons, List.map_nil, List.flatten_nil, List.append_nil]
    have : (List.flatten ∘ f) = g := funext h
    rw [this, h]
    simp

theorem dayCalls_flatten (d : Nat) : (dayCalls d).flatten = fmtDay d := by
  unfold dayCalls fmtDay
  split
  · rfl
  · cases dayNames[d - 1]? <;> simp

theorem dayRecurCalls_flatten (d : DayRecur) : (dayRecurCalls d).flatten = fmtDayRecur d := by
  unfold dayRecurCalls fmtDayRecur
  rw [List.flatten_append, dayCalls_flatten]
  split <;> simp

theorem Recur.calls_flatten (E : Env) (r : Recur) : (r.calls E).flatten = r.encode E := by
  unfold Recur.encode Recur.parts Recur.calls
  simp only [List.append_assoc]
  rw [join_semi]
  simp only [List.map_append, List.flatten_append]
  rw [listCalls_flatten _ _ fmtNat (by simp), listCalls_flatten _ _ fmtNat (by simp), listCalls_flatten _ _ fmtNat (by simp), listCalls_flatten _ _ _ dayRecurCalls_flatten,
    listCalls_flatten _ _ fmtInt (by simp), listCalls_flatten _ _ fmtInt (by simp), listCalls_flatten _ _ fmtInt (by simp), listCalls_flatten _ _ fmtNat (by simp),
    listCalls_flatten _ _ fmtInt (by simp)]
  congr 1
  · simp
  congr 1
  · split
    · simp
    · split <;> simp
  congr 1
  · split <;> simp
  congr 9
  split
  · simp [dayCalls_flatten]
  · rfl

theorem Val.calls_flatten (E : Env) (v : Val) : (v.calls E).flatten = v.text_ E := by
  cases v with
  | binary b => exact b64Calls_flatten _ b (Nat.le_refl _)
  | mtext ts =>
    show (MText.calls ts).flatten = MText.encode ts
    rw [MText.calls, commaCalls_flatten, List.map_map]
    unfold MText.encode
    congr 2
    funext x
    simp
  | period p => simp [Val.calls, Val.text_, Period.calls, Period.encode]
  | recur r => exact Recur.calls_flatten E r
  | tfloat t => simp [Val.calls, Val.text_, TFloat.calls, TFloat.encode]
  | _ => simp [Val.calls, Val.text_]

theorem timezoneCalls_flatten (t : GoTime) : (timezoneCalls t).flatten = writeTimezone t := by
  unfold timezoneCalls writeTimezone
  cases t.loc <;> simp

theorem Val.headCalls_flatten (v : Val) : v.headCalls.flatten = v.head_ ++ [':'] := by
  cases v <;> simp [Val.headCalls, Val.head_, timezoneCalls_flatten]

theorem Val.acalls_flatten (E : Env) (v : Val) : (v.acalls E).flatten = v.aencode E := by
  simp [Val.acalls, Val.aencode, Val.headCalls_flatten, Val.calls_flatten]

/-! ## Parameters -/

theorem said6868_text (s : Str) : (said6868 s).text = encode6868 s := by
  unfold said6868
  split
  · next h => simp [Said.text_of, h]
  · next h => rw [h]; rfl

theorem saidQuoted_text (s : Str) : (saidQuoted s).text = (encode6868 s).map quote := by
  unfold saidQuoted
  rw [Said.text_andThen, Said.text_andThen, Said.text_of, said6868_text]
  cases encode6868 s <;> simp [quote]

theorem PKind.said_text (E : Env) (name : Str) (k : PKind) (v : ParamVal) : (k.said E name v).text = k.encode E name v := by
  unfold PKind.said PKind.encode
  split
  · split <;> rename_i h <;> simp [Said.text_andThen, Said.text_of, h]
  · split <;> rename_i h
    · simp [Said.text_of, h]
    · rw [Said.text_andThen, Said.text_commas, Said.text_of, List.map_map]
      have : (Said.text ∘ fun u => Said.of [E.urlString u]) = fun u => some (E.urlString u) := by
        funext u
        simp [Said.text_of]
      rw [this]
      simp [h]
  · rename_i q s
    split <;> rename_i h
    · simp [Said.text_of, h]
    · rw [Said.text_andThen, Said.text_of]
      simp only [h, if_false]
      split <;> simp only [saidQuoted_text, said6868_text] <;> (cases encode6868 _ <;> simp)
  · rename_i s
    split <;> rename_i h
    · simp [Said.text_of, h]
    · rw [Said.text_andThen, Said.text_of]
      simp only [h, if_false]
      split <;> simp only [saidQuoted_text, said6868_text] <;> (cases encode6868 _ <;> simp)
  · simp [Said.text_andThen, Said.text_of]
  · split <;> rename_i h
    · simp [Said.text_of, h]
    · rw [Said.text_andThen, Said.text_commas, Said.text_of, List.map_map]
      have : (Said.text ∘ saidQuoted) = fun s => (encode6868 s).map quote := funext saidQuoted_text
      rw [this]
      simp [h]
  · simp [Said.text_andThen, Said.text_of]
  · split <;> rename_i h <;> simp [Said.text_andThen, Said.text_of, h]
  · simp [Said.text_of]

/-! ## Properties -/

theorem saidParams_text (E : Env) : ∀ (ds : List PDef) (ps : List (Option ParamVal)), (saidParams E ds ps).map Said.text = encParams E ds ps
  | [], _ => by simp [saidParams, encParams]
  | _ :: _, [] => by simp [saidParams, encParams]
  | d :: ds, p :: ps => by
    simp only [saidParams, encParams, List.map_cons, saidParams_text E ds ps]
    cases p with
    | none => simp [Said.text_of]
    | some v => simp [PKind.said_text]

theorem valsCalls_flatten (E : Env) : ∀ (b : Bool) (ks : List (Str × Kind)) (vs : List (Option Val)), (valsCalls E b ks vs).flatten = encVals E b ks vs
  | _, [], _ => by simp [valsCalls, encVals]
  | _, _ :: _, [] => by simp [valsCalls, encVals]
  | b, (n, k) :: ks, v :: vs => by
    simp only [valsCalls, encVals, List.flatten_append, valsCalls_flatten E false ks vs]
    congr 1
    cases v with
    | none => rfl
    | some v =>
      simp only [List.flatten_append, Val.acalls_flatten]
      split <;> simp

theorem PSpec.said_text (E : Env) (sp : PSpec) (v : PropVal) : (sp.said E v).text = sp.encode E v := by
  rcases sp with ⟨name, names | ⟨params, vals⟩⟩ <;> cases v with
  | enum n =>
    simp only [PSpec.said, PSpec.encode]
    first
    | rfl
    | rw [Said.text_of, List.getD_eq_getElem?_getD]
      cases names[n]? <;> simp
  | fields ps vs =>
    simp only [PSpec.said, PSpec.encode]
    first
    | rfl
    | rw [Said.text_andThen, Said.text_andThen, Said.text_seq, Said.text_of, Said.text_of, saidParams_text]
      cases cat _ <;> simp [valsCalls_flatten]

/-! ## Sections -/

theorem saidFields_text (E : Env) : ∀ (fs : List SField) (vs : List (List PropVal)), (saidFields E fs vs).map Said.text = encFields E fs vs
  | [], _ => by simp [saidFields, encFields]
  | _ :: _, [] => by simp [saidFields, encFields]
  | f :: fs, v :: vs => by
    rw [saidFields, encFields, List.map_append, saidFields_text E fs vs, List.map_map]
    congr 2
    funext x
    exact PSpec.said_text E f.spec x

theorem saidSubs_text {κ σ : Type} {a : κ → σ → Said} {b : κ → σ → Option Str} (h : ∀ k s, (a k s).text = b k s) : ∀ (ks : List (Str × κ)) (vs : List (List σ)),
    (saidSubs a ks vs).map Said.text = encSubs b ks vs
  | [], _ => by simp [saidSubs, encSubs]
  | _ :: _, [] => by simp [saidSubs, encSubs]
  | (_, k) :: ks, v :: vs => by
    rw [saidSubs, encSubs, List.map_append, saidSubs_text h ks vs, List.map_map]
    congr 2
    funext x
    exact h k x

theorem Tab.saidBody_text {κ σ : Type} {E : Env} {T : Tab κ} {a : κ → σ → Said} {b : κ → σ → Option Str} (h : ∀ k s, (a k s).text = b k s) (s : Sect σ) :
    (T.saidBody E a s).map Said.text = T.body E b s := by
  rw [Tab.saidBody, Tab.body, List.map_append, saidFields_text, saidSubs_text h]

theorem Tab.said_text {κ σ : Type} {E : Env} {T : Tab κ} {a : κ → σ → Said} {b : κ → σ → Option Str} (h : ∀ k s, (a k s).text = b k s) (s : Sect σ) :
    (T.said E a s).text = T.encode E b s := by
  rw [Tab.said, Tab.encode, Said.text_seq, List.map_append, List.map_append, Tab.saidBody_text h]
  simp [Said.text_of]

theorem alarmSaid_text (E : Env) (a : Option (AKind × Leaf)) : (alarmSaid E a).text = alarmEncode E a := by
  unfold alarmSaid alarmEncode
  split
  · rfl
  · rw [Said.text_seq, List.map_append, List.map_append, Tab.saidBody_text (b := noEnc) (fun k => nomatch k)]
    simp [Said.text_of]

theorem subSaid_text (E : Env) (k : SubKind) (s : Sub) : (subSaid E k s).text = subEncode E k s := by
  cases k <;> cases s
  · exact Tab.said_text (fun k => nomatch k) _
  · rfl
  · rfl
  · exact alarmSaid_text E _

/-- The calls together are the text. -/
theorem Cal.said_text (E : Env) (c : Cal) : (c.said E).text = encodeDoc E c := Tab.said_text (fun _ s => Tab.said_text (subSaid_text E) s) c

end Ics
