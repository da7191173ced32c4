import Verif.EmitLemmas
import Verif.Spec.Emit
import Verif.WholeLemmas
/-!
# Lemmas: how far Encode comes
-/

namespace Ics

open Spec

theorem marked_iff (s : Str) : Marked s = true ↔ ∃ c ∈ s, isEsc6868 c = true := by
  simp [Marked, List.any_eq_true, isEsc6868]

theorem encode6868_marked {s : Str} (h : Marked s = true) : encode6868 s = none := encode6868_esc s ((marked_iff s).1 h)

theorem encode6868_unmarked {s : Str} (h : Marked s = false) : encode6868 s = some s := by
  refine encode6868_plain s fun c hc => ?_
  cases hb : isEsc6868 c with
  | false => rfl
  | true => exact absurd ((marked_iff s).2 ⟨c, hc, hb⟩) (by simp [h])

theorem needsQuotes_iff (s : Str) : containsAny isSpecial s = true ↔ NeedsQuotes s := by
  simp [containsAny, List.any_eq_true, isSpecial, NeedsQuotes, or_assoc]

/-- With these texts in it, in order, `x` comes to its end and is the text `o`, if none is marked; otherwise it does not, and has come to the place where `o` has what stands in for the
first marked one. -/
def StuckAt (f : Str → Str) (x : Said) (ts : List Str) (o : Option Str) : Prop :=
  match ts.find? Marked with
  | none => x.ends = true ∧ o = some x.calls.flatten
  | some s => x.ends = false ∧ ∃ r, o = some (x.calls.flatten ++ f s ++ r)

theorem StuckAt.of (f : Str → Str) (l : List Str) {o : Option Str} (h : o = some l.flatten) : StuckAt f (.of l) [] o := ⟨rfl, h⟩

theorem StuckAt.andThen {f : Str → Str} {x y : Said} {ts us : List Str} {o q : Option Str} (h1 : StuckAt f x ts o) (h2 : StuckAt f y us q) :
    StuckAt f (x.andThen y) (ts ++ us) (o.bind fun a => q.map (a ++ ·)) := by
  unfold StuckAt at h1 h2 ⊢
  rw [List.find?_append]
  cases ht : ts.find? Marked with
  | none =>
    simp only [ht, Option.none_or] at h1 ⊢
    obtain ⟨e1, rfl⟩ := h1
    cases hu : us.find? Marked with
    | none =>
      simp only [hu] at h2 ⊢
      obtain ⟨e2, rfl⟩ := h2
      simp [Said.andThen, e1, e2]
    | some s =>
      simp only [hu] at h2 ⊢
      obtain ⟨e2, r, rfl⟩ := h2
      simp [Said.andThen, e1, e2]
  | some s =>
    simp only [ht, Option.some_or] at h1 ⊢
    obtain ⟨e1, r, rfl⟩ := h1
    have hq : ∃ t, q = some t := by
      cases hu : us.find? Marked with
      | none => simp only [hu] at h2; exact ⟨_, h2.2⟩
      | some s => simp only [hu] at h2; obtain ⟨_, r, h⟩ := h2; exact ⟨_, h⟩
    obtain ⟨t, rfl⟩ := hq
    simp [Said.andThen, e1]

theorem StuckAt.text {f : Str → Str} {x : Said} {ts : List Str} {o o' : Option Str} (h : StuckAt f x ts o) (e : o' = o) : StuckAt f x ts o' := e ▸ h

/-- A list of them. -/
inductive Stucks (f : Str → Str) : List Said → List Str → List (Option Str) → Prop
  | nil : Stucks f [] [] []
  | cons {x : Said} {ts us : List Str} {o : Option Str} {xs : List Said} {os : List (Option Str)} : StuckAt f x ts o → Stucks f xs us os → Stucks f (x :: xs) (ts ++ us) (o :: os)

theorem Stucks.append {f : Str → Str} {xs ys : List Said} {ts us : List Str} {os qs : List (Option Str)} (h1 : Stucks f xs ts os) (h2 : Stucks f ys us qs) :
    Stucks f (xs ++ ys) (ts ++ us) (os ++ qs) := by
  induction h1 with
  | nil => exact h2
  | cons h _ ih => rw [List.append_assoc]; exact .cons h ih

theorem Stucks.one {f : Str → Str} {x : Said} {ts : List Str} {o : Option Str} (h : StuckAt f x ts o) : Stucks f [x] ts [o] := by
  have := Stucks.cons h .nil
  rwa [List.append_nil] at this

theorem Stucks.map {α : Type} {f : Str → Str} {S : α → Said} {T : α → List Str} {O : α → Option Str} : ∀ (l : List α), (∀ a ∈ l, StuckAt f (S a) (T a) (O a)) →
    Stucks f (l.map S) (l.flatMap T) (l.map O)
  | [], _ => .nil
  | a :: l, h => .cons (h a (.head _)) (Stucks.map l fun b hb => h b (.tail _ hb))

theorem Stucks.seq {f : Str → Str} {xs : List Said} {ts : List Str} {os : List (Option Str)} (h : Stucks f xs ts os) : StuckAt f (Said.seq xs) ts (cat os) := by
  induction h with
  | nil => exact .of f [] rfl
  | @cons x ts us o xs os h1 _ ih =>
    refine (h1.andThen ih).text ?_
    rw [cat]
    cases o <;> cases cat os <;> rfl

theorem Stucks.commas {f : Str → Str} {xs : List Said} {ts : List Str} {os : List (Option Str)} (h : Stucks f xs ts os) : StuckAt f (Said.commas xs) ts (Ics.commas os) := by
  induction h with
  | nil => exact .of f [] rfl
  | @cons x ts us o xs os h1 h2 ih =>
    cases h2 with
    | nil => rw [List.append_nil]; exact h1
    | @cons y ts' us' o' xs' os' h3 h4 =>
      refine (h1.andThen ((StuckAt.of f [[',']] rfl).andThen ih)).text ?_
      have h2 : Ics.commas (o :: o' :: os') = o.bind fun t => (Ics.commas (o' :: os')).bind fun b => some (t ++ ',' :: b) := rfl
      rw [h2]
      cases o <;> cases Ics.commas (o' :: os') <;> simp

/-! ## Parameters -/

variable {f : Str → Str}

theorem said6868_stuck (hf : StandIn f) (s : Str) : StuckAt f (said6868 s) [s] (encode6868 (f s)) := by
  unfold StuckAt said6868
  cases h : Marked s with
  | false =>
    rw [hf.same s h, encode6868_unmarked h]
    simp [h, Said.of]
  | true =>
    rw [encode6868_marked h, encode6868_unmarked (hf.plain s h)]
    simp [h]

theorem saidQuoted_stuck (hf : StandIn f) (s : Str) : StuckAt f (saidQuoted s) [s] ((encode6868 (f s)).map quote) := by
  have := (StuckAt.of f [['"']] rfl).andThen ((said6868_stuck hf s).andThen (StuckAt.of f [['"']] rfl))
  refine (show StuckAt f (saidQuoted s) [s] _ from this).text ?_
  cases encode6868 (f s) <;> simp [quote]

theorem standIn_nil (hf : StandIn f) (s : Str) : f s = [] ↔ s = [] := by
  cases h : Marked s with
  | false => rw [hf.same s h]
  | true =>
    constructor
    · intro he; exact absurd he (hf.some s h)
    · rintro rfl; simp [Marked] at h

theorem standIn_special (hf : StandIn f) (s : Str) : containsAny isSpecial (f s) = containsAny isSpecial s := by
  cases h : Marked s with
  | false => rw [hf.same s h]
  | true =>
    rw [Bool.eq_iff_iff, needsQuotes_iff, needsQuotes_iff]
    exact hf.quotes s h

theorem PKind.stuck (E : Env) (hf : StandIn f) (name : Str) (k : PKind) (v : ParamVal) (ht : k.typed v = true) :
    StuckAt f (k.said E name v) (paramTexts v) (k.encode E name (mendParam f v)) := by
  have plain : ∀ (k : PKind) (v : ParamVal), k.typed v = true → paramTexts v = [] → mendParam f v = v → (∀ s, v ≠ .str s) → (∀ ss, v ≠ .strs ss) → (k.said E name v).ends = true →
      StuckAt f (k.said E name v) (paramTexts v) (k.encode E name (mendParam f v)) := by
    intro k v _ h1 h2 _ _ h3
    rw [h1, h2, ← PKind.said_text]
    exact ⟨h3, by simp [Said.text, h3]⟩
  have ends : ∀ us : List Url, (Said.commas (us.map fun u => Said.of [E.urlString u])).ends = true := by
    intro us
    have h := Said.text_commas (us.map fun u => Said.of [E.urlString u])
    have h2 : none ∉ (us.map fun u => Said.of [E.urlString u]).map Said.text := by simp [Said.text_of]
    rw [← commas_none, ← h] at h2
    revert h2
    unfold Said.text
    split
    · intro _; assumption
    · intro h; exact absurd rfl h
  unfold PKind.typed at ht
  split at ht
  · refine plain _ _ rfl rfl rfl nofun nofun ?_
    simp only [PKind.said]
    split <;> rfl
  · rename_i us
    refine plain _ _ rfl rfl rfl nofun nofun ?_
    simp only [PKind.said]
    split
    · rfl
    · exact ends us
  · rename_i q s
    simp only [PKind.said, PKind.encode, mendParam, paramTexts, standIn_nil hf s, standIn_special hf s]
    split
    · next h => subst h; exact .of f [] rfl
    · refine ((StuckAt.of f [';' :: name ++ ['=']] rfl).andThen (us := [s]) (q := if (q || containsAny isSpecial s) = true then (encode6868 (f s)).map quote else encode6868 (f s)) ?_).text ?_
      · split
        · exact saidQuoted_stuck hf s
        · exact said6868_stuck hf s
      · split <;> cases encode6868 (f s) <;> simp
  · rename_i s
    simp only [PKind.said, PKind.encode, mendParam, paramTexts, standIn_nil hf s, standIn_special hf s]
    split
    · next h => subst h; exact .of f [] rfl
    · refine ((StuckAt.of f [';' :: name ++ ['=']] rfl).andThen (us := [s]) (q := if containsAny isSpecial s = true then (encode6868 (f s)).map quote else encode6868 (f s)) ?_).text ?_
      · split
        · exact saidQuoted_stuck hf s
        · exact said6868_stuck hf s
      · split <;> cases encode6868 (f s) <;> simp
  · exact plain _ _ ht rfl rfl nofun nofun rfl
  · rename_i ss
    simp only [PKind.said, PKind.encode, mendParam, paramTexts, List.map_eq_nil_iff]
    split
    · next h => subst h; exact .of f [] rfl
    · have h1 : Stucks f (ss.map saidQuoted) ss (ss.map fun s => (encode6868 (f s)).map quote) := by
        have := Stucks.map (f := f) (S := saidQuoted) (T := fun s => [s]) (O := fun s => (encode6868 (f s)).map quote) ss fun s _ => saidQuoted_stuck hf s
        rwa [List.flatMap_singleton'] at this
      refine ((StuckAt.of f [';' :: name ++ ['=']] rfl).andThen h1.commas).text ?_
      rw [List.map_map]
      simp [Function.comp_def]
  · exact plain _ _ rfl rfl rfl nofun nofun rfl
  · rename_i b
    refine plain _ _ rfl rfl rfl nofun nofun ?_
    cases b <;> rfl
  · cases ht

/-! ## Properties -/

theorem saidParams_stuck (E : Env) (hf : StandIn f) : ∀ (ds : List PDef) (ps : List (Option ParamVal)), typedParams ds ps = true →
    Stucks f (saidParams E ds ps) (((ds.zip ps).filterMap fun x => x.2.map fun v => (x.1, v)).flatMap fun y => paramTexts y.2)
      (encParams E ds (ps.map fun p => p.map (mendParam f)))
  | [], ps, _ => by simp only [saidParams, encParams, List.zip_nil_left, List.filterMap_nil, List.flatMap_nil]; exact .nil
  | _ :: _, [], _ => by simp only [saidParams, encParams, List.zip_nil_right, List.filterMap_nil, List.flatMap_nil, List.map_nil]; exact .nil
  | d :: ds, p :: ps, h => by
    simp only [typedParams, Bool.and_eq_true] at h
    have ih := saidParams_stuck E hf ds ps h.2
    cases p with
    | none =>
      simp only [saidParams, List.map_cons, Option.map_none, encParams, List.zip_cons_cons, List.filterMap_cons]
      exact .cons (ts := []) (.of f [] rfl) ih
    | some v =>
      simp only [saidParams, List.map_cons, Option.map_some, encParams, List.zip_cons_cons, List.filterMap_cons, List.flatMap_cons]
      exact .cons (PKind.stuck E hf d.name d.kind v h.1) ih

theorem PSpec.stuck (E : Env) (hf : StandIn f) (sp : PSpec) (p : PropVal) (ht : sp.typed p = true) :
    StuckAt f (sp.said E p) ((propParams sp p).flatMap fun y => paramTexts y.2) (sp.encode E (mendProp f p)) := by
  rcases sp with ⟨name, names | ⟨params, vals⟩⟩ <;> cases p with
  | enum n =>
    first
    | cases ht; done
    | have h := PSpec.said_text E ⟨name, .enum names⟩ (.enum n)
      refine StuckAt.text (o := some (_ : List Str).flatten) ⟨rfl, rfl⟩ (h.symm.trans ?_)
      rfl
  | fields ps vs =>
    first
    | cases ht; done
    | simp only [PSpec.typed, Bool.and_eq_true] at ht
      have h1 := saidParams_stuck E hf params ps ht.1.1
      have h2 := (StuckAt.of f [name] rfl).andThen (h1.seq.andThen (StuckAt.of f (valsCalls E true vals vs ++ [crlf]) rfl))
      rw [List.append_nil, List.nil_append] at h2
      refine StuckAt.text h2 ?_
      simp only [PSpec.encode, mendProp]
      cases cat _ <;> simp [valsCalls_flatten]

/-! ## Sections -/

theorem saidFields_stuck (E : Env) (hf : StandIn f) : ∀ (fs : List SField) (vs : List (List PropVal)), typedFields fs vs = true →
    Stucks f (saidFields E fs vs) (((fs.zip vs).flatMap fun x => x.2.map fun p => (x.1, p)).flatMap fun x => (propParams x.1.spec x.2).flatMap fun y => paramTexts y.2)
      (encFields E fs (vs.map fun ps => ps.map (mendProp f)))
  | [], vs, _ => by simp only [saidFields, encFields, List.zip_nil_left, List.flatMap_nil]; exact .nil
  | _ :: _, [], _ => by simp only [saidFields, encFields, List.zip_nil_right, List.flatMap_nil, List.map_nil]; exact .nil
  | g :: fs, v :: vs, h => by
    simp only [typedFields, Bool.and_eq_true] at h
    have ih := saidFields_stuck E hf fs vs h.2
    simp only [saidFields, List.map_cons, encFields, List.zip_cons_cons, List.flatMap_cons, List.flatMap_append, List.flatMap_map, List.map_map]
    refine Stucks.append (Stucks.map v fun p hp => ?_) ih
    exact PSpec.stuck E hf g.spec p (List.all_eq_true.1 h.1.1 p hp)

theorem saidSubs_stuck {κ σ : Type} {a : κ → σ → Said} {b : κ → σ → Option Str} {typ : κ → σ → Bool} {T : κ → σ → List (SField × PropVal)} {g : σ → σ}
    (hb : ∀ k s, typ k s = true → StuckAt f (a k s) ((T k s).flatMap fun x => (propParams x.1.spec x.2).flatMap fun y => paramTexts y.2) (b k (g s))) :
    ∀ (ks : List (Str × κ)) (vs : List (List σ)), typedSubs typ ks vs = true →
    Stucks f (saidSubs a ks vs) (((ks.zip vs).flatMap fun x => x.2.flatMap (T x.1.2)).flatMap fun x => (propParams x.1.spec x.2).flatMap fun y => paramTexts y.2)
      (encSubs b ks (vs.map fun ss => ss.map g))
  | [], vs, _ => by simp only [saidSubs, encSubs, List.zip_nil_left, List.flatMap_nil]; exact .nil
  | _ :: _, [], _ => by simp only [saidSubs, encSubs, List.zip_nil_right, List.flatMap_nil, List.map_nil]; exact .nil
  | (_, k) :: ks, v :: vs, h => by
    simp only [typedSubs, Bool.and_eq_true] at h
    have ih := saidSubs_stuck hb ks vs h.2
    simp only [saidSubs, List.map_cons, encSubs, List.zip_cons_cons, List.flatMap_cons, List.flatMap_append, List.flatMap_assoc, List.map_map]
    rw [List.flatMap_assoc] at ih
    refine Stucks.append (Stucks.map v fun p hp => ?_) ?_
    · exact hb k p (List.all_eq_true.1 h.1 p hp)
    · simpa only [List.flatMap_assoc] using ih

theorem Tab.stuckBody {κ σ : Type} {E : Env} (hf : StandIn f) {T : Tab κ} {a : κ → σ → Said} {b : κ → σ → Option Str} {typ : κ → σ → Bool} {P : κ → σ → List (SField × PropVal)} {g : σ → σ}
    (hb : ∀ k s, typ k s = true → StuckAt f (a k s) ((P k s).flatMap fun x => (propParams x.1.spec x.2).flatMap fun y => paramTexts y.2) (b k (g s)))
    (s : Sect σ) (ht : T.typed typ s = true) :
    Stucks f (T.saidBody E a s) ((sectProps T s ++ below P T s).flatMap fun x => (propParams x.1.spec x.2).flatMap fun y => paramTexts y.2) (T.body E b (mendSect f g s)) := by
  simp only [Tab.typed, Bool.and_eq_true] at ht
  rw [List.flatMap_append]
  exact (saidFields_stuck E hf T.fields s.fields ht.1).append (saidSubs_stuck hb T.subs s.subs ht.2)

theorem Tab.stuck {κ σ : Type} {E : Env} (hf : StandIn f) {T : Tab κ} {a : κ → σ → Said} {b : κ → σ → Option Str} {typ : κ → σ → Bool} {P : κ → σ → List (SField × PropVal)} {g : σ → σ}
    (hb : ∀ k s, typ k s = true → StuckAt f (a k s) ((P k s).flatMap fun x => (propParams x.1.spec x.2).flatMap fun y => paramTexts y.2) (b k (g s)))
    (s : Sect σ) (ht : T.typed typ s = true) :
    StuckAt f (T.said E a s) ((sectProps T s ++ below P T s).flatMap fun x => (propParams x.1.spec x.2).flatMap fun y => paramTexts y.2) (T.encode E b (mendSect f g s)) := by
  have h := ((Stucks.one (StuckAt.of f [lineOf kBEGIN T.name] rfl)).append (Tab.stuckBody (E := E) hf hb s ht)).append (Stucks.one (StuckAt.of f [lineOf kEND T.name] rfl))
  rw [List.nil_append, List.append_nil] at h
  refine h.seq.text ?_
  simp [Tab.encode]

theorem leaf_stuck {E : Env} (hf : StandIn f) {T : Tab Empty} (s : Leaf) (ht : T.typed noTyp s = true) :
    Stucks f (T.saidBody E noSaid s) ((sectProps T s).flatMap fun x => (propParams x.1.spec x.2).flatMap fun y => paramTexts y.2) (T.body E noEnc (mendSect f id s)) := by
  have h := Tab.stuckBody (E := E) hf (T := T) (a := noSaid) (b := noEnc) (typ := noTyp) (P := fun _ _ => []) (g := id) (fun k => nomatch k) s ht
  have : below (fun (_ : Empty) (_ : Empty) => ([] : List (SField × PropVal))) T s = [] := by simp [below]
  rwa [this, List.append_nil] at h

theorem subSaid_stuck {E : Env} (hf : StandIn f) (k : SubKind) (s : Sub) (ht : subTyped k s = true) :
    StuckAt f (subSaid E k s) ((subProps k s).flatMap fun x => (propParams x.1.spec x.2).flatMap fun y => paramTexts y.2) (subEncode E k (mendSub f s)) := by
  unfold subTyped at ht
  split at ht
  · exact .of f [] rfl
  · rename_i a s
    have h := (((Stucks.one (StuckAt.of f [lineOf kBEGIN kVALARM] rfl)).append (Stucks.one (StuckAt.of f [lineOf kACTION a.action] rfl))).append
      (leaf_stuck (E := E) hf s ht)).append (Stucks.one (StuckAt.of f [lineOf kEND kVALARM] rfl))
    rw [List.append_nil, List.nil_append] at h
    refine h.seq.text ?_
    simp [subEncode, mendSub, alarmEncode]
  · rename_i T s
    have h := ((Stucks.one (StuckAt.of f [lineOf kBEGIN T.name] rfl)).append (leaf_stuck (E := E) hf s ht)).append (Stucks.one (StuckAt.of f [lineOf kEND T.name] rfl))
    rw [List.nil_append, List.append_nil] at h
    refine h.seq.text ?_
    simp [subEncode, mendSub, Tab.encode]
  · cases ht

theorem Cal.stuck {E : Env} (hf : StandIn f) (c : Cal) (ht : c.typed = true) : StuckAt f (c.said E) (textsInOrder c) (encodeDoc E (mendCal f c)) :=
  Tab.stuck (T := tabCalendar) (P := compProps) hf (fun T s h => Tab.stuck (T := T) hf (fun k s h => subSaid_stuck hf k s h) s h) c ht

end Ics
