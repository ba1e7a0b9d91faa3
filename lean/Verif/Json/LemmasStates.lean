import Verif.Json.ModelStates
import Verif.Json.Props
import Verif.Iter.PropsPipeline
import Verif.Interleave.Props
/-
Lemmas about states as JSON values.
-/
namespace Grain

theorem asNat_int (n : Nat) : (Json.int n).asNat = some n := rfl

theorem asInt_int (n : Int) : (Json.int n).asInt = some n := rfl

theorem asBool_bool (b : Bool) : (Json.bool b).asBool = some b := rfl

theorem readParentAnd_enc (k : String) (hk : k ≠ "parent") (c : Json × Nat) : readParentAnd k (parentAnd k c) = some c := by
  have hk' : ¬ "parent".toList = k.toList := fun e => hk (String.toList_injective e).symm
  simp only [readParentAnd, parentAnd, Json.field, jdict, JMembers.lookup, if_neg hk', if_pos trivial, asNat_int, Option.bind_eq_bind, Option.bind_some]

theorem items_jlist : ∀ (xs : List Json), (jlist xs).items = xs
  | [] => rfl
  | x :: xs => by rw [jlist, JItems.items, items_jlist xs]

theorem readParents_enc {n : Nat} (c : Fin n → Json) : readParents n (parentsList c) = some c := by
  simp only [readParents, parentsList, Json.asList, items_jlist, Option.bind_eq_bind, Option.bind_some]
  rw [dif_pos (by simp)]
  congr 1
  funext i
  simp

theorem readZip_enc {n : Nat} (c : Fin n → Json) : readZip n (zipState c) = some c := by
  have h : (zipState c).field "parents" = some (parentsList c) := rfl
  rw [readZip, h]
  exact readParents_enc c

theorem readMix_enc {n : Nat} (c : (Fin n → Json) × Nat × Bool) : readMix n (mixStateJson c) = some c := by
  have h1 : (mixStateJson c).field "parents" = some (parentsList c.1) := rfl
  have h2 : (mixStateJson c).field "index" = some (.int c.2.1) := rfl
  have h3 : (mixStateJson c).field "stop" = some (.bool c.2.2) := rfl
  simp only [readMix, h1, h2, h3, Option.bind_eq_bind, Option.bind_some, readParents_enc, asNat_int, asBool_bool]

theorem coded_resumes {it : Iter α} {enc : it.C → Json} {dec : Json → Option it.C} (hc : ∀ c, dec (enc c) = some c)
    {xs : List (Py α)} {ended : Bool} (h : Resumes it xs ended) : Resumes (it.coded enc dec).iter xs ended := by
  obtain ⟨At, Ck, h⟩ := h
  refine ⟨At, fun v m => ∃ c, v = enc c ∧ Ck c m, ?_⟩
  refine { init := h.init, bound := h.bound, next_item := h.next_item, next_stop := h.next_stop, get := ?_, set := ?_,
           ck_bound := ?_ }
  · intro s n hs
    exact ⟨(h.get hs).1, _, rfl, (h.get hs).2⟩
  · rintro s n v m hs ⟨c, rfl, hcm⟩ hm
    obtain ⟨s', h1, h2⟩ := h.set hs hcm hm
    refine ⟨s', h1.mono ?_, h2⟩
    intro F e
    simp only [JIter.iter, Iter.coded, hc]
    exact e
  · rintro v m ⟨c, rfl, hcm⟩
    exact h.ck_bound hcm

theorem text_resumes {j : JIter α} {xs : List (Py α)} {ended : Bool} (h : Resumes j.iter xs ended) : Resumes j.text xs ended := by
  obtain ⟨At, Ck, h⟩ := h
  refine ⟨At, fun t m => ∃ v, t = jsonDumps v ∧ Ck v m, ?_⟩
  refine { init := h.init, bound := h.bound, next_item := h.next_item, next_stop := h.next_stop, get := ?_, set := ?_,
           ck_bound := ?_ }
  · intro s n hs
    exact ⟨(h.get hs).1, _, rfl, (h.get hs).2⟩
  · rintro s n t m hs ⟨v, rfl, hvm⟩ hm
    obtain ⟨s', h1, h2⟩ := h.set hs hvm hm
    refine ⟨s', h1.mono ?_, h2⟩
    intro F e
    simp only [JIter.text, json_round_trip]
    exact e
  · rintro t m ⟨v, rfl, hvm⟩
    exact h.ck_bound hvm

/-! ### Interleave -/

theorem PyVal.toJson_ofJson_all :
    (∀ v, (PyVal.ofJson v).toJson = v) ∧ (∀ xs, (PyVals.ofJson xs).toJson = xs) ∧ (∀ ms, (PyDict.ofJson ms).toJson = ms) := by
  refine ⟨fun v => ?_, fun xs => ?_, fun ms => ?_⟩
  · exact Json.rec (motive_1 := fun v => (PyVal.ofJson v).toJson = v) (motive_2 := fun xs => (PyVals.ofJson xs).toJson = xs)
      (motive_3 := fun ms => (PyDict.ofJson ms).toJson = ms) rfl (fun _ => rfl) (fun _ => rfl) (fun _ => rfl)
      (fun xs h => by rw [PyVal.ofJson, PyVal.toJson, h]) (fun ms h => by rw [PyVal.ofJson, PyVal.toJson, h]) rfl
      (fun x xs h1 h2 => by rw [PyVals.ofJson, PyVals.toJson, h1, h2]) rfl
      (fun k x ms h1 h2 => by rw [PyDict.ofJson, PyDict.toJson, h1, h2, PyKey.text]) v
  · exact JItems.rec (motive_1 := fun v => (PyVal.ofJson v).toJson = v) (motive_2 := fun xs => (PyVals.ofJson xs).toJson = xs)
      (motive_3 := fun ms => (PyDict.ofJson ms).toJson = ms) rfl (fun _ => rfl) (fun _ => rfl) (fun _ => rfl)
      (fun xs h => by rw [PyVal.ofJson, PyVal.toJson, h]) (fun ms h => by rw [PyVal.ofJson, PyVal.toJson, h]) rfl
      (fun x xs h1 h2 => by rw [PyVals.ofJson, PyVals.toJson, h1, h2]) rfl
      (fun k x ms h1 h2 => by rw [PyDict.ofJson, PyDict.toJson, h1, h2, PyKey.text]) xs
  · exact JMembers.rec (motive_1 := fun v => (PyVal.ofJson v).toJson = v) (motive_2 := fun xs => (PyVals.ofJson xs).toJson = xs)
      (motive_3 := fun ms => (PyDict.ofJson ms).toJson = ms) rfl (fun _ => rfl) (fun _ => rfl) (fun _ => rfl)
      (fun xs h => by rw [PyVal.ofJson, PyVal.toJson, h]) (fun ms h => by rw [PyVal.ofJson, PyVal.toJson, h]) rfl
      (fun x xs h1 h2 => by rw [PyVals.ofJson, PyVals.toJson, h1, h2]) rfl
      (fun k x ms h1 h2 => by rw [PyDict.ofJson, PyDict.toJson, h1, h2, PyKey.text]) ms

theorem PyVal.toJson_ofJson (v : Json) : (PyVal.ofJson v).toJson = v := PyVal.toJson_ofJson_all.1 v

/-- What a value becomes on its way through a text. -/
def PyVal.trip (v : PyVal) : PyVal := PyVal.ofJson v.toJson

theorem trip_ofJson (v : Json) : (PyVal.ofJson v).trip = PyVal.ofJson v := by rw [PyVal.trip, PyVal.toJson_ofJson]

theorem textState_stateText (v : PyVal) : textState (stateText v) = some v.trip := by
  rw [textState, stateText, json_round_trip, Option.map_some, PyVal.trip]

/-- Of a dictionary. -/
def PyDict.trip (ms : PyDict) : PyDict := PyDict.ofJson ms.toJson

theorem PyDict.trip_cons (k : PyKey) (v : PyVal) (ms : PyDict) :
    (PyDict.cons k v ms).trip = .cons (.str k.text) v.trip ms.trip := by
  rw [PyDict.trip, PyDict.toJson, PyDict.ofJson]; rfl

theorem trip_list : ∀ (xs : List PyVal), (PyVal.list (pylist xs)).trip = .list (pylist (xs.map PyVal.trip)) := by
  intro xs
  simp only [PyVal.trip, PyVal.toJson, PyVal.ofJson]
  congr 1
  induction xs with
  | nil => rfl
  | cons x xs ih => rw [pylist, PyVals.toJson, PyVals.ofJson, ih]; rfl

theorem items_pylist : ∀ (xs : List PyVal), (pylist xs).items = xs
  | [] => rfl
  | x :: xs => by rw [pylist, PyVals.items, items_pylist xs]

/-- After the way through a text a dictionary has no numbers as keys. -/
theorem PyDict.lookup_int_trip (n : Int) : ∀ (ms : PyDict), ms.trip.lookup (.int n) = none
  | .nil => rfl
  | .cons k v ms => by
    rw [PyDict.trip_cons, PyDict.lookup, if_neg (by simp), PyDict.lookup_int_trip n ms]

theorem PyDict.lookup_str_trip (ms : PyDict) (k : List Char) :
    (∀ n, ms.lookup (.int n) = none) → ms.trip.lookup (.str k) = (ms.lookup (.str k)).map PyVal.trip := by
  intro h
  match ms with
  | .nil => rfl
  | .cons (.int n) v ms => 
    have := h n
    rw [PyDict.lookup, if_pos rfl] at this
    cases this
  | .cons (.str s) v ms =>
    rw [PyDict.trip_cons, PyDict.lookup, PyDict.lookup, PyKey.text]
    by_cases hs : s = k
    · subst hs; rw [if_pos rfl, if_pos rfl]; rfl
    · rw [if_neg (by simpa using hs), if_neg (by simpa using hs)]
      refine PyDict.lookup_str_trip ms k (fun n => ?_)
      have := h n
      rw [PyDict.lookup, if_neg (by simp)] at this
      exact this

theorem mapM_asNat : ∀ (l : List Nat) (g : Nat → Nat), (l.map (fun i => PyVal.int (g i))).mapM PyVal.asNat = some (l.map g)
  | [], _ => rfl
  | i :: l, g => by
    rw [List.map_cons, List.mapM_cons, mapM_asNat l g]
    rfl

theorem PyVal.trip_int (n : Int) : (PyVal.int n).trip = .int n := rfl

/-- What a saved state of an interleave comes back as: the same for the `L` slots, and no states for datasets that are not
open yet. -/
theorem ilUndict_trip (n L : Nat) (c : ILCk Json) : ∃ c', ilUndict (ilDict n L c).trip = some c' ∧ c'.cyc = c.cyc ∧
    c'.nextDs = c.nextDs ∧ (∀ i, i < L → c'.indices i = c.indices i ∧ c'.exhausted i = c.exhausted i ∧
      (c.states i ≠ some .null → c'.states i = c.states i)) ∧ (∀ d, c'.future d = none) ∧
      ∀ i, L ≤ i → c'.states i = none := by
  have hfield : ∀ k v, (pydict [
    (skey "next_index_in_cycle", .int c.cyc),
    (skey "next_index_in_datasets", .int c.nextDs),
    (skey "iterators_in_use_indices", .list (pylist ((List.range L).map (fun i => .int (c.indices i))))),
    (skey "iterators_in_use_states", .list (pylist ((List.range L).map (fun i =>
      match c.states i with
      | none => .none
      | some v => PyVal.ofJson v)))),
    (skey "exhausted", .list (pylist ((List.range L).map (fun i => .int (if c.exhausted i then 1 else 0))))),
    (skey "future_states", .dict (pydict ((List.range n).filterMap (fun d =>
      (c.future d).map (fun v => (.int d, PyVal.ofJson v))))))]).lookup (skey k) = some v →
    (ilDict n L c).trip.field k = some v.trip := by
    intro k v hv
    rw [ilDict, PyVal.trip, PyVal.toJson, PyVal.ofJson, ← PyDict.trip, PyVal.field, skey]
    rw [PyDict.lookup_str_trip _ _ (fun m => by simp [pydict, PyDict.lookup, skey])]
    exact congrArg (Option.map PyVal.trip) hv
  have e1 : (ilDict n L c).trip.field "next_index_in_cycle" = some (.int c.cyc) := hfield _ (.int c.cyc) rfl
  have e2 : (ilDict n L c).trip.field "next_index_in_datasets" = some (.int c.nextDs) := hfield _ (.int c.nextDs) rfl
  have e3 := hfield "iterators_in_use_indices" _ rfl
  have e4 := hfield "iterators_in_use_states" _ rfl
  have e5 := hfield "exhausted" _ rfl
  have e6 := hfield "future_states" _ rfl
  rw [trip_list, List.map_map] at e3 e4 e5
  have h3 : (List.map (PyVal.trip ∘ fun i => PyVal.int (c.indices i)) (List.range L)).mapM PyVal.asNat = some ((List.range L).map c.indices) :=
    mapM_asNat (List.range L) c.indices
  have h5 : (List.map (PyVal.trip ∘ fun i => PyVal.int (if c.exhausted i then 1 else 0)) (List.range L)).mapM PyVal.asNat =
      some ((List.range L).map (fun i => if c.exhausted i then 1 else 0)) := by
    rw [← mapM_asNat (List.range L) (fun i => if c.exhausted i then 1 else 0)]
    congr 2
    funext i
    rw [Function.comp, PyVal.trip_int]
    split <;> rfl
  have e6' : (ilDict n L c).trip.field "future_states" = some (.dict (pydict ((List.range n).filterMap (fun d =>
      (c.future d).map (fun v => (PyKey.int d, PyVal.ofJson v))))).trip) := by
    rw [e6, PyVal.trip, PyVal.toJson, PyVal.ofJson, ← PyDict.trip]
  rw [ilUndict, e1, e2, e3, e4, e5, e6']
  simp only [PyVal.asNat, PyVal.asList, PyVal.asDict, items_pylist, h3, h5, Option.bind_eq_bind, Option.bind_some]
  refine ⟨_, rfl, rfl, rfl, ?_, ?_, ?_⟩
  · intro i hi
    refine ⟨?_, ?_, ?_⟩
    · simp [hi]
    · simp only [List.getD_eq_getElem?_getD, List.getElem?_map, List.getElem?_range hi, Option.map_some, Option.getD_some]
      cases c.exhausted i <;> rfl
    · intro hnull
      simp only [List.getElem?_map, List.getElem?_range hi, Option.map_some, Function.comp]
      cases hs : c.states i with
      | none => rfl
      | some v =>
        rw [hs] at hnull
        simp only [trip_ofJson]
        cases v with
        | null => exact absurd rfl hnull
        | bool b => rfl
        | int m => rfl
        | str s => rfl
        | arr xs => simp only [PyVal.ofJson]; rw [← PyVal.toJson_ofJson (.arr xs), PyVal.ofJson]
        | obj ms => simp only [PyVal.ofJson]; rw [← PyVal.toJson_ofJson (.obj ms), PyVal.ofJson]
  · intro d
    dsimp only
    rw [PyDict.lookup_int_trip]
    rfl
  · intro i hi
    dsimp only
    rw [List.getElem?_eq_none (by simpa using hi)]

/-- No state is waiting for a dataset that is not open yet, and the stored states satisfy `P`. -/
def ILFresh {S C : Type} (P : C → Prop) (s : ILState S C) : Prop :=
  (∀ d, s.future d = none) ∧ ∀ i c, s.exState i = some c → P c

/-- The same of a saved state. -/
def CkFresh {C : Type} (P : C → Prop) (c : ILCk C) : Prop := (∀ d, c.future d = none) ∧ ∀ i k, c.states i = some k → P k

theorem upd_all {C : Type} {P : C → Prop} {g : Nat → Option C} {i : Nat} {v : Option C} (hg : ∀ j c, g j = some c → P c)
    (hv : ∀ c, v = some c → P c) (j : Nat) (c : C) (h : Function.update g i v j = some c) : P c := by
  by_cases hj : j = i
  · subst hj; rw [upd_same] at h; exact hv c h
  · rw [upd_ne _ _ hj] at h; exact hg j c h

section
variable {f : IterFam α} {n L : Nat} {keep : Bool} {F : Nat} {P : f.C → Prop} (hf : ∀ d s, P (f.get d s).2)
include hf

theorem ilLoop_fresh : ∀ (k : Nat) (s s' : ILState f.S f.C) (r : Res α), ILFresh P s →
    ilLoop f n L keep F k s = some (s', r) → ILFresh P s' := by
  intro k
  induction k with
  | zero => intro s s' r _ h; cases h
  | succ k ih =>
    intro s s' r hs h
    rw [ilLoop.eq_def] at h
    dsimp only at h
    split at h
    · rename_i d st hsl
      cases hn : f.next d F st with
      | none => simp [hn] at h
      | some q =>
        obtain ⟨st1, r1⟩ := q
        simp only [hn, Option.bind_eq_bind, Option.bind_some] at h
        split at h
        · cases h; exact hs
        · cases h; exact hs
        · refine ih _ _ _ ?_ h
          exact ⟨hs.1, upd_all hs.2 (by rintro c ⟨⟩; exact hf d st1)⟩
    · split at h
      · split at h
        · rw [hs.1] at h
          refine ih _ _ _ ?_ h
          exact ⟨hs.1, upd_all hs.2 (by simp)⟩
        · cases h; exact hs
      · split at h
        · refine ih _ _ _ ?_ h
          exact hs
        · cases h; exact hs

theorem ilGetLoop_fresh : ∀ (is : List Nat) (s : ILState f.S f.C) (states : Nat → Option f.C), ILFresh P s →
    (∀ i c, states i = some c → P c) →
    ILFresh P (ilGetLoop f n is s states).1 ∧ ∀ i c, (ilGetLoop f n is s states).2 i = some c → P c := by
  intro is
  induction is with
  | nil => intro s states hs h; exact ⟨hs, h⟩
  | cons i is ih =>
    intro s states hs h
    rw [ilGetLoop.eq_def]
    dsimp only
    split
    · rename_i d st _
      exact ih _ _ hs (upd_all h (by rintro c ⟨⟩; exact hf d st))
    · split
      · rename_i c hc
        exact ih _ _ hs (upd_all h (by rintro c ⟨⟩; exact hs.2 i _ hc))
      · split
        · exact ⟨hs, h⟩
        · exact ih _ _ hs (upd_all h (by rintro c ⟨⟩; exact hf _ _))

theorem ilGet_fresh {s : ILState f.S f.C} (hs : ILFresh P s) :
    ILFresh P (ilGet f n L s).1 ∧ CkFresh P (ilGet f n L s).2 := by
  obtain ⟨h1, h2⟩ := ilGetLoop_fresh (n := n) hf (List.range L) s (fun _ => none) hs (by simp)
  unfold ilGet
  dsimp only
  split
  · exact ⟨h1, h1.1, h2⟩
  · exact ⟨h1, h1.1, h2⟩

omit hf in
theorem ilSetLoop_fresh {c : ILCk f.C} (hc : CkFresh P c) : ∀ (is : List Nat) (s s' : ILState f.S f.C) (e : Option Err), ILFresh P s →
    ilSetLoop f n keep F c is s = some (s', e) → ILFresh P s' := by
  intro is
  induction is with
  | nil => intro s s' e hs h; cases h; exact hs
  | cons i is ih =>
    intro s s' e hs h
    rw [ilSetLoop.eq_def] at h
    dsimp only at h
    split at h
    · refine ih _ _ _ ?_ h
      exact hs
    · rename_i ck hck
      split at h
      · refine ih _ _ _ ?_ h
        exact ⟨hs.1, upd_all hs.2 (by rintro k ⟨⟩; exact hc.2 i _ hck)⟩
      · split at h
        · cases h; exact hs
        · rename_i kept d st _
          cases hn : f.set d F st ck with
          | none => simp [hn] at h
          | some q =>
            obtain ⟨st1, e1⟩ := q
            simp only [hn, Option.bind_eq_bind, Option.bind_some] at h
            cases e1 with
            | some e1 => cases h; exact hs
            | none =>
              refine ih _ _ _ ?_ h
              exact hs

omit hf in
theorem ilSet_fresh {c : ILCk f.C} (hc : CkFresh P c) {s s' : ILState f.S f.C} {e : Option Err} (hs : ILFresh P s)
    (h : ilSet f n L keep F s c = some (s', e)) : ILFresh P s' := by
  unfold ilSet at h
  cases hn : ilSetLoop f n keep F c (List.range L) s with
  | none => simp [hn] at h
  | some q =>
    obtain ⟨s1, e1⟩ := q
    have h1 := ilSetLoop_fresh hc _ _ _ _ hs hn
    simp only [hn, Option.bind_eq_bind, Option.bind_some] at h
    cases e1 with
    | some e1 => cases h; exact h1
    | none =>
      dsimp only at h
      split at h
      · cases h; exact h1
      · cases h; exact ⟨hc.1, h1.2⟩
end

theorem CkSlot.congr {C : Type} {Ck : Nat → C → Nat → Prop} {En : Nat → C → Prop} {n : Nat} {tn : Bool} {i i' : Nat} {e e' : Bool}
    {s s' : Option C} {v : Option (Nat × Nat)} (h : CkSlot Ck En n tn i e s v) (hi : i' = i) (he : e' = e) (hs : s' = s) :
    CkSlot Ck En n tn i' e' s' v := by
  subst hi he hs
  exact h

/-- States of an interleave survive the way through a text. -/
theorem interleaveText_sim {f : JFam α} {xs : Nat → List (Py α)} {ended : Bool} {n cycle : Nat} {keep : Bool}
    (hf : ∀ d s, (f.get d s).2 ≠ .null)
    {At : Nat → f.S → Nat → Prop} {Ck : Nat → Json → Nat → Prop}
    (hsim : ∀ d, d < n → SimWhen (fun _ => false) (f.fam.iter d) (xs d) ended (At d) (Ck d)) (hL : 0 < min cycle n)
    {t : List (Nat × Py α)} (ht : ATrace xs ended n (min cycle n) (aStart (min cycle n)) t) :
    ∃ (At' : (interleaveText f n cycle keep).S → Nat → Prop) (Ck' : (interleaveText f n cycle keep).C → Nat → Prop),
      SimWhen (fun _ => false) (interleaveText f n cycle keep) (t.map (·.2)) ended At' Ck' := by
  have h := interleave_sim (keep := keep) hsim hL ht
  refine ⟨fun s m => (m ≤ t.length ∧ ∃ A, ILRel xs ended At Ck (endCk xs Ck) true n (min cycle n) false s A ∧
      ATrace xs ended n (min cycle n) A (t.drop m)) ∧ ILFresh (· ≠ Json.null) s,
    fun x m => ∃ c : ILCk Json, x = stateText (ilDict n (min cycle n) c) ∧ CkFresh (· ≠ Json.null) c ∧
      (m ≤ t.length ∧ ∃ A, ILCkRel (f := f.fam) xs ended Ck (endCk xs Ck) true n (min cycle n) false c A ∧
        ATrace xs ended n (min cycle n) A (t.drop m)), ?_⟩
  have hnext : ∀ {s s' : ILState f.S Json} {r : Res α}, ILFresh (· ≠ Json.null) s →
      Ev (fun F => (interleaveIter f.fam n cycle keep).next F s = some (s', r)) → ILFresh (· ≠ Json.null) s' := by
    intro s s' r hs he
    obtain ⟨k, hk⟩ := he
    have := hk k (Nat.le_refl _)
    simp only [interleaveIter, if_neg (show ¬ min cycle n = 0 by omega)] at this
    exact ilLoop_fresh (f := f.fam) (P := (· ≠ Json.null)) hf k { s with started := true } s' r hs this
  refine { init := ?_, bound := ?_, next_item := ?_, next_stop := ?_, get := ?_, set := ?_, set_init := ?_ }
  · exact ⟨h.init, fun _ => rfl, fun _ _ he => by cases he⟩
  · rintro s m ⟨hs, _⟩; exact h.bound hs
  · rintro s m r ⟨hs, hfr⟩ hr
    obtain ⟨s', h1, h2⟩ := h.next_item hs hr
    exact ⟨s', h1, h2, hnext hfr h1⟩
  · rintro s ⟨hs, hfr⟩ he
    obtain ⟨s', h1, h2⟩ := h.next_stop hs he
    exact ⟨s', h1, h2, hnext hfr h1⟩
  · rintro s m ⟨hs, hfr⟩
    have h1 := h.get hs
    have h2 := ilGet_fresh (n := n) (L := min cycle n) (f := f.fam) (P := (· ≠ Json.null)) hf hfr
    exact ⟨⟨h1.1, h2.1⟩, _, rfl, h2.2, h1.2⟩
  · intro s m c k _ _ _ hu; cases hu
  · rintro x m ⟨c, rfl, hfr, hm, A, hrel, htr⟩ hlt
    obtain ⟨c', e1, e2, e3, e4, e5, e6⟩ := ilUndict_trip n (min cycle n) c
    have hrel' : ILCkRel (f := f.fam) xs ended Ck (endCk xs Ck) true n (min cycle n) false c' A := by
      refine ⟨by rw [e2]; exact hrel.cyc, hrel.cyc_lt, ?_, by rw [e3]; exact hrel.nds, hrel.nds_ge, hrel.nds_le, ?_, ?_⟩
      · intro i hi
        obtain ⟨q1, q2, q3⟩ := e4 i hi
        exact (hrel.slot i hi).congr q1 q2 (q3 (fun e => hfr.2 i _ e rfl))
      · intro d hd
        rcases hrel.fut d hd with q | ⟨k, q, _⟩
        · exact Or.inl ⟨e5 d, q.2⟩
        · rw [hfr.1 d] at q; cases q
      · rw [e3]
        refine ⟨fun i hi => ?_, fun i j hi hj => ?_, fun i hi => ?_, fun hw hn i hi => ?_⟩
        · rw [(e4 i hi).1]; exact hrel.idx.lt i hi
        · rw [(e4 i hi).1, (e4 j hj).1]; exact hrel.idx.inj i j hi hj
        · rw [(e4 i hi).1]; exact hrel.idx.fresh i hi
        · rw [(e4 i hi).1]; exact hrel.idx.own hw hn i hi
    obtain ⟨s', g1, g2⟩ := h.set_init ⟨hm, A, hrel', htr⟩ hlt
    refine ⟨s', ?_, g2, ?_⟩
    · refine g1.mono ?_
      intro F e
      show (match textState (stateText (ilDict n (min cycle n) c)) with
        | none => _
        | some v => _) = _
      rw [textState_stateText]
      simp only [e1]
      exact e
    · obtain ⟨k, hk⟩ := g1
      have := hk k (Nat.le_refl _)
      refine ilSet_fresh (f := f.fam) (P := (· ≠ Json.null)) (c := c') (keep := keep) (F := k) (n := n) (L := min cycle n)
        (s := ilInit f.S Json) ⟨e5, fun i v hv => ?_⟩ ⟨fun _ => rfl, fun _ _ he => by cases he⟩ (e := none) this
      by_cases hi : i < min cycle n
      · rw [(e4 i hi).2.2 (fun e => hfr.2 i _ e rfl)] at hv
        exact hfr.2 i v hv
      · rw [e6 i (by omega)] at hv
        cases hv

end Grain
