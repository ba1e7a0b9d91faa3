import Verif.Stack.MultiLemmas
import Verif.Stack.Streams
import Verif.MapDs.MixLemmas
/-
The streams computed by `zip`, `mix` and `filter`.
-/
namespace Grain

/-! ### filter -/

theorem filter_eval {f : α → Bool} {x : Nat → Option α} : ∀ (d i : Nat),
    (∀ k < d, ∃ a, x (i + k) = some a ∧ f a = false) →
    (∀ a, x (i + d) = some a → f a = true → TrEval (filterTrans f) x (d + 1) () i (some a) (i + d + 1) ()) ∧
    (x (i + d) = none → TrEval (filterTrans f) x (d + 1) () i none (i + d) ())
  | 0, i, _ => by
    constructor
    · intro a ha hf
      have := TrEval.last (T := filterTrans f) (x := x) (k := ()) (i := i) (r := some a) (l := ()) (by
        rw [show x i = some a from ha]
        exact if_pos hf)
      simpa [nextPos, show x i = some a from ha] using this
    · intro hn
      have := TrEval.last (T := filterTrans f) (x := x) (k := ()) (i := i) (r := none) (l := ()) (by
        rw [show x i = none from hn]
        rfl)
      simpa [nextPos, show x i = none from hn] using this
  | d + 1, i, h => by
    obtain ⟨b, hb, hfb⟩ := h 0 (by omega)
    have hb' : x i = some b := hb
    obtain ⟨h1, h2⟩ := filter_eval (f := f) d (i + 1) (fun k hk => by
      obtain ⟨a, h3, h4⟩ := h (k + 1) (by omega)
      exact ⟨a, by rw [← h3]; congr 1; omega, h4⟩)
    have hr : (filterTrans f).resume () (x i) = .inl () := by
      rw [hb']
      exact if_neg (by simp [hfb])
    have hp : nextPos x i = i + 1 := by simp [nextPos, hb']
    constructor
    · intro a ha hf
      have := h1 a (by rw [← ha]; congr 1; omega) hf
      refine .more hr ?_
      rw [hp]
      rw [show i + (d + 1) + 1 = i + 1 + d + 1 by omega]
      exact this
    · intro hn
      have := h2 (by rw [← hn]; congr 1; omega)
      refine .more hr ?_
      rw [hp]
      rw [show i + (d + 1) = i + 1 + d by omega]
      exact this

theorem filterTrans_computes {f : α → Bool} {x y : Nat → Option α} {pos : Nat → Nat} (h : Filtered f x y pos) :
    Computes (filterTrans f) x y (fun m i _ => i = pos m ∨ (x i = none ∧ y m = none)) := by
  constructor
  · exact Or.inl h.1.symm
  · rintro m i l (rfl | ⟨hi, hy⟩)
    · obtain ⟨d, h1, h2⟩ := h.2 m
      obtain ⟨e1, e2⟩ := filter_eval (f := f) d (pos m) h1
      rcases h2 with ⟨a, h3, h4, h5, h6⟩ | ⟨h3, h4, -⟩
      · refine Or.inr ⟨(), d + 1, _, (), rfl, by rw [h5]; exact e1 a h3 h4, Or.inl ?_⟩
        simp [nextPos, h5, h6]
      · refine Or.inr ⟨(), d + 1, _, (), rfl, by rw [h4]; exact e2 h3, Or.inr ⟨h3, ?_⟩⟩
        simp [nextPos, h4]
    · have := (filter_eval (f := f) (x := x) 0 i (fun k hk => by omega)).2 hi
      refine Or.inr ⟨(), 1, _, (), rfl, by rw [hy]; exact this, Or.inr ⟨hi, ?_⟩⟩
      simp [nextPos, hy]

theorem filtered_staysOver {f : α → Bool} {x y : Nat → Option α} {pos : Nat → Nat} (h : Filtered f x y pos) : StaysOver y := by
  intro m hm
  obtain ⟨d, h1, h2⟩ := h.2 m
  rcases h2 with ⟨a, -, -, h5, -⟩ | ⟨h3, -, h5⟩
  · rw [hm] at h5
    cases h5
  · obtain ⟨d', h1', h2'⟩ := h.2 (m + 1)
    rw [h5] at h1' h2'
    have hd : d' = 0 := by
      by_contra hne
      obtain ⟨a, ha, -⟩ := h1' 0 (by omega)
      rw [show pos m + d + 0 = pos m + d from rfl, h3] at ha
      cases ha
    subst hd
    rcases h2' with ⟨a, h6, -⟩ | ⟨-, h7, -⟩
    · rw [show pos m + d + 0 = pos m + d from rfl, h3] at h6
      cases h6
    · exact h7

/-- Every finite stream can be filtered. -/
theorem filtered_list (f : α → Bool) (l : List α) :
    ∃ pos, Filtered f (fun n => l[n]?) (fun n => (l.filter f)[n]?) pos := by
  induction l with
  | nil =>
    refine ⟨fun _ => 0, rfl, fun m => ⟨0, by omega, Or.inr (by simp)⟩⟩
  | cons a l ih =>
    obtain ⟨pos, h0, h⟩ := ih
    cases hf : f a with
    | true =>
      refine ⟨fun m => match m with | 0 => 0 | m + 1 => pos m + 1, rfl, ?_⟩
      intro m
      cases m with
      | zero => exact ⟨0, by omega, Or.inl ⟨a, by simp, hf, by simp [hf], by simp [h0]⟩⟩
      | succ m =>
        obtain ⟨d, h1, h2⟩ := h m
        refine ⟨d, ?_, ?_⟩
        · intro i hi
          obtain ⟨b, h3, h4⟩ := h1 i hi
          refine ⟨b, ?_, h4⟩
          dsimp only
          rw [show pos m + 1 + i = pos m + i + 1 by omega, List.getElem?_cons_succ]
          exact h3
        · dsimp only at h2 ⊢
          rw [show pos m + 1 + d = pos m + d + 1 by omega, List.getElem?_cons_succ, List.filter_cons_of_pos hf,
            List.getElem?_cons_succ]
          rcases h2 with ⟨b, h3, h4, h5, h6⟩ | ⟨h3, h4, h5⟩
          · exact Or.inl ⟨b, h3, h4, h5, by omega⟩
          · exact Or.inr ⟨h3, h4, by omega⟩
    | false =>
      have hfa : (a :: l).filter f = l.filter f := List.filter_cons_of_neg (by simp [hf])
      rw [hfa]
      refine ⟨fun m => match m with | 0 => 0 | m + 1 => pos (m + 1) + 1, rfl, ?_⟩
      intro m
      obtain ⟨d, h1, h2⟩ := h m
      cases m with
      | zero =>
        refine ⟨d + 1, ?_, ?_⟩
        · intro i hi
          cases i with
          | zero => exact ⟨a, by simp, hf⟩
          | succ i =>
            obtain ⟨b, h3, h4⟩ := h1 i (by omega)
            refine ⟨b, ?_, h4⟩
            dsimp only
            rw [show 0 + (i + 1) = i + 1 by omega, List.getElem?_cons_succ]
            rw [h0, Nat.zero_add] at h3
            exact h3
        · dsimp only at h2 ⊢
          rw [show 0 + (d + 1) = d + 1 by omega, List.getElem?_cons_succ]
          rw [h0, Nat.zero_add] at h2
          rcases h2 with ⟨b, h3, h4, h5, h6⟩ | ⟨h3, h4, h5⟩
          · exact Or.inl ⟨b, h3, h4, h5, by omega⟩
          · exact Or.inr ⟨h3, h4, by omega⟩
      | succ m =>
        refine ⟨d, ?_, ?_⟩
        · intro i hi
          obtain ⟨b, h3, h4⟩ := h1 i hi
          refine ⟨b, ?_, h4⟩
          dsimp only
          rw [show pos (m + 1) + 1 + i = pos (m + 1) + i + 1 by omega, List.getElem?_cons_succ]
          exact h3
        · dsimp only at h2 ⊢
          rw [show pos (m + 1) + 1 + d = pos (m + 1) + d + 1 by omega, List.getElem?_cons_succ]
          rcases h2 with ⟨b, h3, h4, h5, h6⟩ | ⟨h3, h4, h5⟩
          · exact Or.inl ⟨b, h3, h4, h5, by omega⟩
          · exact Or.inr ⟨h3, h4, by omega⟩

/-! ### mix -/

theorem timesChosen_succ (sel : Nat → Fin n) (i : Fin n) (m : Nat) :
    timesChosen sel i (m + 1) = timesChosen sel i m + if sel m = i then 1 else 0 := by
  unfold timesChosen
  rw [List.range_succ, List.countP_append]
  by_cases h : sel m = i <;> simp [h]

theorem streamMix_eq {sel : Nat → Fin n} {x : Fin n → Nat → Option α} {m : Nat}
    (h : (List.range m).all (fun k => (x (sel k) (timesChosen sel (sel k) k)).isSome) = true) :
    streamMix sel x m = x (sel m) (timesChosen sel (sel m) m) := if_pos h

theorem streamMix_staysOver (sel : Nat → Fin n) (x : Fin n → Nat → Option α) : StaysOver (streamMix sel x) := by
  intro m hm
  unfold streamMix at hm ⊢
  rw [List.range_succ, List.all_append]
  split at hm
  · rw [if_neg]
    simp [hm]
  · rename_i h
    rw [if_neg]
    simp only [Bool.and_eq_true, not_and]
    intro h'
    exact absurd h' h

theorem mixTrans_computes (sel : Nat → Fin n) (x : Fin n → Nat → Option α) :
    MultiComputes (mixTrans n sel) x (streamMix sel x) (fun m p (l : Nat × Bool) =>
      (l = (m, false) ∧ (∀ i, p i = timesChosen sel i m) ∧
        (List.range m).all (fun k => (x (sel k) (timesChosen sel (sel k) k)).isSome) = true) ∨
      (l.2 = true ∧ streamMix sel x m = none)) := by
  refine ⟨?_, ?_, fun h => h, fun h => h⟩
  · exact Or.inl ⟨rfl, by simp [timesChosen], by simp⟩
  · intro m p (l : Nat × Bool) hl
    rcases hl with ⟨rfl, hp, hall⟩ | ⟨h1, h2⟩
    · right
      have hy := streamMix_eq hall
      have hpm := hp (sel m)
      cases hx : x (sel m) (p (sel m)) with
      | some a =>
        have hr : (mixTrans n sel).resume (sel m) (m + 1 : Nat) (x (sel m) (p (sel m))) = .inr (some a, ((m + 1, false) : Nat × Bool)) := by
          rw [hx]
          rfl
        have hy' : streamMix sel x m = some a := by rw [hy, ← hpm]; exact hx
        refine ⟨sel m, (m + 1 : Nat), 1, _, _, rfl, by rw [hy']; exact .last hr, ?_⟩
        left
        have hnp : nextPos (streamMix sel x) m = m + 1 := by simp [nextPos, hy']
        have hnx : nextPos (x (sel m)) (p (sel m)) = p (sel m) + 1 := by simp [nextPos, hx]
        rw [hnp, hnx]
        refine ⟨rfl, ?_, ?_⟩
        · intro i
          rw [timesChosen_succ]
          by_cases hi : sel m = i
          · subst hi
            rw [Function.update_self, if_pos rfl, hpm]
          · rw [Function.update_of_ne (fun e => hi e.symm), if_neg hi, hp i]
            rfl
        · rw [List.range_succ, List.all_append, hall]
          simp [← hpm, hx]
      | none =>
        have hr : (mixTrans n sel).resume (sel m) (m + 1 : Nat) (x (sel m) (p (sel m))) = .inr (none, ((m + 1, true) : Nat × Bool)) := by
          rw [hx]
          rfl
        have hy' : streamMix sel x m = none := by rw [hy, ← hpm]; exact hx
        refine ⟨sel m, (m + 1 : Nat), 1, _, _, rfl, by rw [hy']; exact .last hr, ?_⟩
        right
        have hnp : nextPos (streamMix sel x) m = m := by simp [nextPos, hy']
        rw [hnp]
        exact ⟨rfl, hy'⟩
    · left
      refine ⟨l, ?_, Or.inr ⟨h1, ?_⟩⟩
      · rw [h2]
        exact if_pos h1
      · simpa [nextPos, h2] using h2

/-- The choice among the inputs is in range: it is the number computed by `_dataset_and_key_of_next_element`. -/
theorem mixSel_eq {n : Nat} {ps : List Nat} (hlen : ps.length = n + 1) (hpos : ∀ p ∈ ps, 0 < p) (k : Nat) :
    ∃ key, datasetAndKey (k : Int) ps = .ok ((mixSel n ps k).val, key) := by
  obtain ⟨j, h1, h2, -⟩ := datasetAndKey_spec ps (k : Int) (by rintro rfl; simp at hlen) hpos
  refine ⟨mixCnt ps j k, ?_⟩
  unfold mixSel
  rw [h2]
  dsimp only
  rw [dif_pos (by omega)]

/-! ### zip -/

section
variable {n : Nat} {strict : Bool} {x : Fin (n + 1) → Nat → Option α}

theorem streamZip_staysOver (h : ∀ i, StaysOver (x i)) : StaysOver (streamZip x) := by
  intro m hm
  unfold streamZip at hm ⊢
  split at hm
  · cases hm
  · rename_i hne
    rw [if_neg]
    intro hall
    refine hne fun i => ?_
    have := hall i
    cases hx : x i m with
    | some a => rfl
    | none =>
      rw [h i m hx] at this
      cases this

theorem filterMap_drop_finRange {g : Fin (n + 1) → Option α} {i : Fin (n + 1)} {a : α} (h : g i = some a) :
    ((List.finRange (n + 1)).drop i.val).filterMap g = a :: ((List.finRange (n + 1)).drop (i.val + 1)).filterMap g := by
  rw [List.drop_eq_getElem_cons (by simp), List.filterMap_cons]
  simp [h]

theorem zip_eval_all : ∀ (d : Nat) (i : Fin (n + 1)) (items : List α) (p : Fin (n + 1) → Nat), i.val + d = n →
    (∀ j, i ≤ j → (x j (p j)).isSome) →
    MtEval (zipTrans n strict) x (d + 1) i (some items) p
      (some (items ++ ((List.finRange (n + 1)).drop i.val).filterMap (fun j => x j (p j))))
      (fun j => if i ≤ j then p j + 1 else p j) ()
  | 0, i, items, p, hi, h => by
    obtain ⟨a, ha⟩ := Option.isSome_iff_exists.1 (h i le_rfl)
    have hr : (zipTrans n strict).resume i (some items) (x i (p i)) = .inr (some (items ++ [a]), ()) := by
      rw [ha]
      exact dif_neg (by omega)
    have he : (fun j => if i ≤ j then p j + 1 else p j) = Function.update p i (nextPos (x i) (p i)) := by
      funext j
      by_cases hj : j = i
      · subst hj
        rw [if_pos le_rfl, Function.update_self]
        simp [nextPos, ha]
      · rw [Function.update_of_ne hj, if_neg]
        intro hle
        have h1 : i.val ≤ j.val := hle
        exact hj (Fin.ext (by have := j.isLt; omega))
    rw [he, filterMap_drop_finRange (g := fun j => x j (p j)) ha]
    rw [List.drop_eq_nil_of_le (by simp; omega)]
    exact .last hr
  | d + 1, i, items, p, hi, h => by
    obtain ⟨a, ha⟩ := Option.isSome_iff_exists.1 (h i le_rfl)
    have hlt : i.val + 1 < n + 1 := by omega
    have hr : (zipTrans n strict).resume i (some items) (x i (p i)) = .inl (⟨i.val + 1, hlt⟩, some (items ++ [a])) := by
      rw [ha]
      exact dif_pos hlt
    refine .more hr ?_
    have hnp : nextPos (x i) (p i) = p i + 1 := by simp [nextPos, ha]
    rw [hnp]
    have hne : ∀ j : Fin (n + 1), (⟨i.val + 1, hlt⟩ : Fin (n + 1)) ≤ j → Function.update p i (p i + 1) j = p j := by
      intro j hj
      refine Function.update_of_ne ?_ _ _
      rintro rfl
      have : j.val + 1 ≤ j.val := hj
      omega
    have := zip_eval_all d ⟨i.val + 1, hlt⟩ (items ++ [a]) (Function.update p i (p i + 1)) (by simp; omega) (by
      intro j hj
      rw [hne j hj]
      refine h j ?_
      have : i.val + 1 ≤ j.val := hj
      exact Fin.le_def.2 (by omega))
    have e1 : items ++ ((List.finRange (n + 1)).drop i.val).filterMap (fun j => x j (p j)) = (items ++ [a]) ++
        ((List.finRange (n + 1)).drop (i.val + 1)).filterMap (fun j => x j (Function.update p i (p i + 1) j)) := by
      rw [filterMap_drop_finRange (g := fun j => x j (p j)) ha, List.append_assoc, List.singleton_append]
      congr 2
      refine List.filterMap_congr ?_
      intro j hj
      rw [hne]
      obtain ⟨k, hk, rfl⟩ := List.mem_iff_getElem.1 hj
      simp only [List.getElem_drop, List.getElem_finRange, Fin.le_def]
      simp
    have e2 : (fun j => if i ≤ j then p j + 1 else p j) = (fun j => if (⟨i.val + 1, hlt⟩ : Fin (n + 1)) ≤ j
        then Function.update p i (p i + 1) j + 1 else Function.update p i (p i + 1) j) := by
      funext j
      by_cases hj : j = i
      · subst hj
        rw [if_pos le_rfl, if_neg (by simp [Fin.le_def]), Function.update_self]
      · rw [Function.update_of_ne hj]
        have : j.val ≠ i.val := fun e => hj (Fin.ext e)
        simp only [Fin.le_def]
        split <;> split <;> omega
    rw [e1, e2]
    exact this

theorem zip_eval_some (hstrict : strict = false) : ∀ (d : Nat) (i : Fin (n + 1)) (items : List α) (p : Fin (n + 1) → Nat),
    i.val + d = n → (∃ j, i ≤ j ∧ x j (p j) = none) →
    ∃ d' q, MtEval (zipTrans n strict) x d' i (some items) p none q () ∧ ∃ j, x j (q j) = none := by
  intro d
  induction d with
  | zero =>
    intro i items p hi hj
    obtain ⟨j, hij, hj⟩ := hj
    have : j = i := Fin.ext (by have := j.isLt; have : i.val ≤ j.val := hij; omega)
    subst this
    have hr : (zipTrans n strict).resume j (some items) (x j (p j)) = .inr (none, ()) := by
      rw [hj, hstrict]
      rfl
    refine ⟨1, _, .last hr, j, ?_⟩
    rw [Function.update_self]
    simpa [nextPos, hj] using hj
  | succ d ih =>
    intro i items p hi hj
    cases hx : x i (p i) with
    | none =>
      have hr : (zipTrans n strict).resume i (some items) (x i (p i)) = .inr (none, ()) := by
        rw [hx, hstrict]
        rfl
      refine ⟨1, _, .last hr, i, ?_⟩
      rw [Function.update_self]
      simpa [nextPos, hx] using hx
    | some a =>
      have hlt : i.val + 1 < n + 1 := by omega
      have hr : (zipTrans n strict).resume i (some items) (x i (p i)) = .inl (⟨i.val + 1, hlt⟩, some (items ++ [a])) := by
        rw [hx]
        exact dif_pos hlt
      obtain ⟨j, hij, hj⟩ := hj
      have hne : j ≠ i := by
        rintro rfl
        rw [hx] at hj
        cases hj
      obtain ⟨d', q, h1, h2⟩ := ih ⟨i.val + 1, hlt⟩ (items ++ [a]) (Function.update p i (nextPos (x i) (p i))) (by simp; omega)
        ⟨j, by
          have h1 : i.val ≤ j.val := hij
          have h2 : j.val ≠ i.val := fun e => hne (Fin.ext e)
          exact Fin.le_def.2 (by simp; omega), by rw [Function.update_of_ne hne]; exact hj⟩
      exact ⟨d' + 1, q, .more hr h1, h2⟩

theorem zip_eval_check : ∀ (d : Nat) (i : Fin (n + 1)) (p : Fin (n + 1) → Nat), i.val + d = n → (∀ j, x j (p j) = none) →
    ∃ d', MtEval (zipTrans n strict) x d' i none p none p ()
  | d, i, p, hi, h => by
    have hu : Function.update p i (nextPos (x i) (p i)) = p := by
      have : nextPos (x i) (p i) = p i := by simp [nextPos, h i]
      rw [this, Function.update_eq_self]
    match d with
    | 0 =>
      have hr : (zipTrans n strict).resume i none (x i (p i)) = .inr (none, ()) := by
        rw [h i]
        exact dif_neg (by omega)
      have := MtEval.last (x := x) hr
      rw [hu] at this
      exact ⟨1, this⟩
    | d + 1 =>
      have hlt : i.val + 1 < n + 1 := by omega
      have hr : (zipTrans n strict).resume i none (x i (p i)) = .inl (⟨i.val + 1, hlt⟩, none) := by
        rw [h i]
        exact dif_pos hlt
      obtain ⟨d', hd⟩ := zip_eval_check d ⟨i.val + 1, hlt⟩ p (by simp; omega) h
      exact ⟨d' + 1, .more hr (by rw [hu]; exact hd)⟩

theorem zip_eval_first {p : Fin (n + 1) → Nat} (h : ∀ j, x j (p j) = none) :
    ∃ d', MtEval (zipTrans n true) x d' 0 (some []) p none p () := by
  have hu : Function.update p 0 (nextPos (x 0) (p 0)) = p := by
    have : nextPos (x 0) (p 0) = p 0 := by simp [nextPos, h 0]
    rw [this, Function.update_eq_self]
  match n, x, p, h, hu with
  | 0, x, p, h, hu =>
    have hr : (zipTrans 0 true).resume 0 (some []) (x 0 (p 0)) = .inr (none, ()) := by
      rw [h 0]
      rfl
    have := MtEval.last (x := x) hr
    rw [hu] at this
    exact ⟨1, this⟩
  | n + 1, x, p, h, hu =>
    have hr : (zipTrans (n + 1) true).resume 0 (some []) (x 0 (p 0)) = .inl (1, none) := by
      rw [h 0]
      rfl
    obtain ⟨d', hd⟩ := zip_eval_check (strict := true) (x := x) n (1 : Fin (n + 2)) p (by
      show (1 : Fin (n + 2)).val + n = n + 1
      rw [Fin.val_one]; omega) h
    exact ⟨d' + 1, .more hr (by rw [hu]; exact hd)⟩

theorem zipTrans_computes (h : strict = true → EqualLengths x) :
    MultiComputes (zipTrans n strict) x (streamZip x) (fun m p _ =>
      (∀ i, p i = m) ∨ (strict = false ∧ streamZip x m = none ∧ ∃ i, x i (p i) = none)) := by
  refine ⟨?_, ?_, fun h => h, fun h => h⟩
  · exact Or.inl fun _ => rfl
  · rintro m p ⟨⟩ hp
    right
    by_cases hall : ∀ i, p i = m
    · by_cases hsome : ∀ i, (x i m).isSome
      · have hy : streamZip x m = some ((List.finRange (n + 1)).filterMap (fun i => x i m)) := if_pos hsome
        have := zip_eval_all (strict := strict) (x := x) n 0 [] p (by simp) (by intro j _; rw [hall j]; exact hsome j)
        refine ⟨0, some [], n + 1, fun j => p j + 1, (), rfl, ?_, Or.inl ?_⟩
        · rw [hy]
          simpa [hall] using this
        · intro i
          simp [nextPos, hy, hall]
      · have hy : streamZip x m = none := if_neg hsome
        have hnp : nextPos (streamZip x) m = m := by simp [nextPos, hy]
        rw [hnp, hy]
        cases hst : strict with
        | false =>
          simp only [not_forall, Bool.not_eq_true, Option.isSome_eq_false_iff, Option.isNone_iff_eq_none] at hsome
          obtain ⟨i, hi⟩ := hsome
          obtain ⟨d', q, h1, h2⟩ := zip_eval_some (strict := strict) (x := x) hst n 0 [] p (by simp)
            ⟨i, Fin.zero_le _, by rw [hall i]; exact hi⟩
          rw [hst] at h1
          exact ⟨0, some [], d', q, (), rfl, h1, Or.inr ⟨rfl, rfl, h2⟩⟩
        | true =>
          have hnone : ∀ i, x i (p i) = none := by
            intro i
            rw [hall i]
            simp only [not_forall] at hsome
            obtain ⟨j, hj⟩ := hsome
            rw [← h hst i j m] at hj
            simpa using hj
          obtain ⟨d', hd⟩ := zip_eval_first hnone
          exact ⟨0, some [], d', p, (), rfl, hd, Or.inl hall⟩
    · rcases hp with hp | ⟨hst, hy, i, hi⟩
      · exact absurd hp hall
      · have hnp : nextPos (streamZip x) m = m := by simp [nextPos, hy]
        obtain ⟨d', q, h1, h2⟩ := zip_eval_some (strict := strict) (x := x) hst n 0 [] p (by simp) ⟨i, Fin.zero_le _, hi⟩
        rw [hnp, hy]
        exact ⟨0, some [], d', q, (), rfl, h1, Or.inr ⟨hst, rfl, h2⟩⟩

end
end Grain
