import Verif.MapDs.PropsSeq
import Verif.Slices.Props
/-
C92: every epoch of a random access dataset has the same data.
-/
namespace Grain
open List

/-- Random access pipelines in which nothing depends on the epoch: no shuffling, no functions of the index or of random numbers.  Lengths
are those the constructors compute; `repeat` has a number of epochs. -/
inductive Plain : {α : Type} → MapDs α → Prop
  | source {α : Type} (n : Nat) (read : Int → Py (Option α)) (rm) : Plain (sourceDs n read rm)
  | range (r : RangeDs) : Plain r.toDs
  | map {α β : Type} (f : α → Py (Option β)) {p : MapDs α} : Plain p → Plain (mapDs f p)
  | filter {α : Type} (f : α → Py Bool) {p : MapDs α} : Plain p → Plain (filterDs f p)
  | flatMap {α β : Type} (n : Nat) (f : α → Py (List (Option β))) {p : MapDs α} (h : p.len * n < maxsize) :
      Plain p → Plain (flatMapDs n f p)
  | slice {α : Type} (start stop step : Option Int) (s : SliceSpec) {p : MapDs α} (h : SliceSpec.make start stop step p.len = .ok s) :
      Plain p → Plain (sliceDs s p)
  | reindex {α : Type} (ix : List Int) {p : MapDs α} : Plain p → Plain (reindexDs ix p)
  | rep {α : Type} (n : Nat) (reseed : Bool) {p : MapDs α} : Plain p → Plain (repeatDs (n * p.len) reseed p)
  | shard {α : Type} (o : ShardOptions) {p : MapDs α} : Plain p → Plain (shardDs o p)
  | batch {α β : Type} (b : Nat) (drop : Bool) (f : List (Option α) → Py (Option β)) {p : MapDs α} :
      Plain p → Plain (batchDs b drop false f p)
  | zip {α : Type} (n : Nat) (ps : List (MapDs α)) (h0 : zipLen (ps.map (·.len)) = .ok n)
      (h : ∀ p ∈ ps, Plain p) : Plain (zipDs n ps)
  | concat {α : Type} (sm : SelMap) (ps : List (MapDs α)) (h0 : selConcat (ps.map (·.len)) = .ok sm)
      (h : ∀ p ∈ ps, Plain p) : Plain (mixDs sm ps)

theorem pymod_add_len (i : Int) (n : Nat) : pymod (i + n) n = pymod i n := by
  unfold pymod
  split
  · rfl
  · rw [Int.add_emod_right]

theorem pydivmod_add_len (i : Int) (n : Nat) :
    pydivmod (i + n) n = (do let (q, r) ← pydivmod i n; .ok (q + 1, r)) := by
  unfold pydivmod
  split
  · rfl
  · rename_i h
    have : ((n : Int)) ≠ 0 := by omega
    simp only [bind, Except.bind]
    rw [Int.add_emod_right, Int.add_ediv_of_dvd_right (dvd_refl _), Int.ediv_self this]

/-- One epoch further: the same element. -/
def Periodic (p : MapDs α) : Prop := ∀ i : Int, p.getitem (i + p.len) = p.getitem i

theorem Periodic.mul {p : MapDs α} (h : Periodic p) (n : Nat) : ∀ i : Int, p.getitem (i + n * p.len) = p.getitem i := by
  induction n with
  | zero => intro i; simp
  | succ n ih =>
    intro i
    rw [show i + ((n + 1 : Nat) : Int) * p.len = (i + n * p.len) + p.len by push_cast; ring, h, ih]

theorem Periodic.mulInt {p : MapDs α} (h : Periodic p) (n : Int) (i : Int) : p.getitem (n * p.len + i) = p.getitem i := by
  rw [Int.add_comm]
  rcases Int.le_total 0 n with h0 | h0
  · obtain ⟨k, rfl⟩ : ∃ k : Nat, n = k := ⟨n.toNat, by omega⟩
    exact h.mul k i
  · obtain ⟨k, rfl⟩ : ∃ k : Nat, n = -k := ⟨(-n).toNat, by omega⟩
    have := h.mul k (i + -(k : Int) * p.len)
    rw [show i + -(k : Int) * p.len + k * p.len = i by ring] at this
    exact this.symm

theorem plain_periodic {p : MapDs α} (h : Plain p) : Periodic p := by
  induction h with
  | source n read rm =>
    intro i
    simp only [sourceDs, pymod_add_len]
  | range r =>
    intro i
    simp only [RangeDs.toDs, RangeDs.getitem, pymod_add_len]
  | map f _ ih => intro i; simp only [mapDs]; rw [ih i]
  | filter f _ ih => intro i; simp only [filterDs]; rw [ih i]
  | @flatMap α β n f p h _ ih =>
    intro i
    simp only [flatMapDs]
    rw [if_neg (by omega)]
    by_cases hn : n = 0
    · subst hn; simp [pydivmod, bind, Except.bind]
    · have hn' : (n : Int) ≠ 0 := by omega
      have hd : pydivmod (i + ((n * p.len : Nat) : Int)) n = .ok (i / n + p.len, i % n) := by
        unfold pydivmod
        rw [if_neg hn]
        push_cast
        rw [Int.add_mul_emod_self_left, Int.add_mul_ediv_left _ _ hn']
      have hd' : pydivmod i n = .ok (i / n, i % n) := by unfold pydivmod; rw [if_neg hn]
      rw [hd, hd']
      simp only [bind, Except.bind]
      rw [ih]
  | @slice α start stop step s p hs _ ih =>
    intro i
    have hpl : s.parentLength = p.len := by
      unfold SliceSpec.make at hs
      cases hx : sliceIndices start stop step p.len with
      | error e => rw [hx] at hs; cases hs
      | ok x => rw [hx] at hs; cases hs; rfl
    simp only [sliceDs, SliceSpec.slicedIndex, pydivmod_add_len]
    cases pydivmod i s.length with
    | error e => rfl
    | ok x =>
      simp only [bind, Except.bind]
      rw [hpl, show s.start + x.2 * s.step + (x.1 + 1) * (p.len : Int) = (s.start + x.2 * s.step + x.1 * p.len) + p.len by ring, ih]
  | @reindex α ix p _ ih =>
    intro i
    simp only [reindexDs, reindexedIndex, pydivmod_add_len]
    cases pydivmod i ix.length with
    | error e => rfl
    | ok x =>
      simp only [bind, Except.bind]
      cases pyget ix x.2.toNat with
      | error e => rfl
      | ok y =>
        dsimp only
        rw [show y + (x.1 + 1) * (p.len : Int) = (y + x.1 * p.len) + p.len by ring, ih]
  | @rep α n reseed p _ ih =>
    intro i
    cases reseed with
    | true =>
      simp only [repeatDs, if_true, bind, Except.bind]
      push_cast
      exact Periodic.mul ih n i
    | false =>
      simp only [repeatDs, Bool.false_eq_true, if_false]
      have : pymod (i + ((n * p.len : Nat) : Int)) p.len = pymod i p.len := by
        unfold pymod
        push_cast
        rw [Int.add_mul_emod_self_right]
      rw [this]
  | @shard α o p _ ih =>
    intro i
    simp only [shardDs, pydivmod_add_len]
    cases pydivmod i ((evenSplit p.len o).2 - (evenSplit p.len o).1) with
    | error e => rfl
    | ok x =>
      simp only [bind, Except.bind]
      rw [show (x.1 + 1) * (p.len : Int) + x.2 + ((evenSplit p.len o).1 : Int) =
        (x.1 * (p.len : Int) + x.2 + ((evenSplit p.len o).1 : Int)) + p.len by ring, ih]
  | @batch α β b drop f p _ ih =>
    intro i
    simp only [batchDs, pydivmod_add_len, Bool.false_eq_true, if_false]
    cases pydivmod i (batchLen p.len b drop) with
    | error e => rfl
    | ok x =>
      simp only [bind, Except.bind]
      have : ∀ lo hi : Int, (pyRange (lo + (x.1 + 1) * p.len) (hi + (x.1 + 1) * p.len)).mapM p.getitem =
          (pyRange (lo + x.1 * p.len) (hi + x.1 * p.len)).mapM p.getitem := by
        intro lo hi
        unfold pyRange
        rw [show hi + (x.1 + 1) * (p.len : Int) - (lo + (x.1 + 1) * p.len) = hi + x.1 * p.len - (lo + x.1 * p.len) by ring]
        rw [List.mapM_map, List.mapM_map]
        congr 1
        funext k
        simp only [Function.comp]
        rw [show lo + (x.1 + 1) * (p.len : Int) + k = (lo + x.1 * p.len + k) + p.len by ring, ih]
      rw [this]
  | zip n ps h0 _ ih =>
    intro i
    have hl := ((zip_len_iff _ _).1 h0).2
    simp only [zipDs]
    have : ps.mapM (fun p => p.getitem (i + n)) = ps.mapM (fun p => p.getitem i) := by
      have : ∀ l : List (MapDs _), (∀ p ∈ l, p ∈ ps) → l.mapM (fun p => p.getitem (i + n)) = l.mapM (fun p => p.getitem i) := by
        intro l
        induction l with
        | nil => intro _; rfl
        | cons a l ihl =>
          intro hm
          have ha := hm a mem_cons_self
          rw [List.mapM_cons, List.mapM_cons, ihl (fun p hp => hm p (mem_cons_of_mem _ hp))]
          rw [← hl a.len (List.mem_map.2 ⟨a, ha, rfl⟩), ih a ha i]
      exact this ps (fun _ h => h)
    rw [this]
  | concat sm ps h0 _ ih =>
    intro i
    unfold selConcat at h0
    split at h0
    · cases h0
    · cases h0
      simp only [mixDs, pydivmod_add_len]
      cases pydivmod i ((cumulative (ps.map (·.len)) 0).getLastD 0) with
      | error e => rfl
      | ok x =>
        simp only [bind, Except.bind, pyget]
        rw [List.getElem?_map]
        cases hp : ps[bisectRight (cumulative (ps.map (·.len)) 0) x.2 - 1]? with
        | none => rfl
        | some p =>
          simp only [Option.map_some]
          cases (cumulative (ps.map (·.len)) 0)[bisectRight (cumulative (ps.map (·.len)) 0) x.2 - 1]? with
          | none => rfl
          | some y =>
            simp only [hp]
            rw [show x.2 - (y : Int) + (x.1 + 1) * p.len = (x.2 - (y : Int) + x.1 * p.len) + p.len by ring,
              ih p (List.mem_of_getElem? hp)]

/-- C92: in a pipeline without shuffling and without functions of the index, every epoch is the first one again, element by element. -/
theorem epochs_equal {p : MapDs α} (h : Plain p) (e : Int) : epoch p e = epoch p 0 := by
  unfold epoch
  apply List.map_congr_left
  intro i _
  rw [(plain_periodic h).mulInt, (plain_periodic h).mulInt]

/-- Pipelines with global shuffling; what follows a shuffle treats elements one by one. -/
inductive SameData : {α : Type} → MapDs α → Prop
  | plain {α : Type} {p : MapDs α} : Plain p → SameData p
  | shuffle {α : Type} (keysOf : Nat → List (BitVec 32)) (seed : Nat) {p : MapDs α} (h : ShuffleLen p.len) :
      SameData p → SameData (shuffleDs keysOf seed p)
  | map {α β : Type} (f : α → Py (Option β)) {p : MapDs α} : SameData p → SameData (mapDs f p)
  | filter {α : Type} (f : α → Py Bool) {p : MapDs α} : SameData p → SameData (filterDs f p)
  | rep {α : Type} (n : Nat) (reseed : Bool) {p : MapDs α} : SameData p → SameData (repeatDs (n * p.len) reseed p)
  | concat {α : Type} (sm : SelMap) (ps : List (MapDs α)) (h0 : selConcat (ps.map (·.len)) = .ok sm)
      (h : ∀ p ∈ ps, SameData p) : SameData (mixDs sm ps)

/-- An epoch of a shuffled dataset has the elements of that epoch of its input. -/
theorem shuffleDs_epoch_perm_at (keysOf : Nat → List (BitVec 32)) (seed : Nat) (p : MapDs α) (h : ShuffleLen p.len) (e : Int) :
    (epoch (shuffleDs keysOf seed p) e).Perm (epoch p e) := by
  by_cases h0 : p.len = 0
  · simp [epoch, shuffleDs, h0]
  · obtain ⟨idx, h1, h2⟩ := shuffledIndex_epoch_perm_partial keysOf seed p.len e (by omega) h.1 h.2
    have h3 : epoch (shuffleDs keysOf seed p) e = idx.map p.getitem := by
      unfold epoch
      simp only [shuffleDs]
      have key : ∀ (l : List Nat) (F : Nat → Py Int) (out : List Int), l.mapM F = .ok out →
          l.map (fun i => (do let j ← F i; p.getitem j : Py (Option α))) = out.map p.getitem := by
        intro l F
        induction l with
        | nil => intro out ho; cases ho; rfl
        | cons a l ih =>
          intro out ho
          rw [List.mapM_cons] at ho
          cases hFa : F a with
          | error e => rw [hFa] at ho; cases ho
          | ok b =>
            rw [hFa] at ho
            cases hml : l.mapM F with
            | error e => rw [hml] at ho; cases ho
            | ok bs =>
              rw [hml] at ho
              cases ho
              simp only [List.map_cons, ih bs hml, hFa]
              rfl
      exact key _ _ _ h1
    rw [h3]
    have := h2.map p.getitem
    simpa [epoch, List.map_map, Function.comp_def] using this

/-- Epoch `e` of a repeated dataset: `n` epochs of its input. -/
theorem repeatDs_epoch_at (p : MapDs α) (n : Nat) (reseed : Bool) (e : Int) :
    epoch (repeatDs (n * p.len) reseed p) e =
      (List.range n).flatMap (fun (k : Nat) => epoch p (if reseed then e * n + k else 0)) := by
  unfold epoch
  have : (repeatDs (n * p.len) reseed p).len = n * p.len := rfl
  rw [this, range_mul, List.map_flatMap]
  congr 1
  funext k
  rw [List.map_map]
  apply List.map_congr_left
  intro i hi
  have := repeat_getitem p (n * p.len) reseed (e * n + k) i (List.mem_range.mp hi)
  simp only [Function.comp]
  push_cast
  rw [show e * ((n : Int) * p.len) + ((k : Int) * p.len + i) = (e * n + k) * p.len + i by ring, this]

/-- C92: with global shuffling (of datasets of lengths that are shuffled correctly, C02) every epoch has the elements of the first one, in
another order. -/
theorem epochs_same_data {p : MapDs α} (h : SameData p) : ∀ e : Int, (epoch p e).Perm (epoch p 0) := by
  induction h with
  | plain h => intro e; rw [epochs_equal h e]
  | shuffle keysOf seed hl _ ih =>
    intro e
    exact (shuffleDs_epoch_perm_at keysOf seed _ hl e).trans ((ih e).trans (shuffleDs_epoch_perm_at keysOf seed _ hl 0).symm)
  | map f _ ih => intro e; rw [mapDs_epoch, mapDs_epoch]; exact (ih e).map _
  | filter f _ ih => intro e; rw [filterDs_epoch, filterDs_epoch]; exact (ih e).map _
  | @rep _ n reseed q _ ih =>
    intro e
    rw [repeatDs_epoch_at, repeatDs_epoch_at]
    have hk : ∀ (e : Int) (l : List Nat), (l.flatMap (fun (k : Nat) => epoch q (if reseed then e * n + k else 0))).Perm
        (l.flatMap (fun (_ : Nat) => epoch q 0)) := by
      intro e l
      induction l with
      | nil => exact List.Perm.refl _
      | cons a l ihl =>
        rw [List.flatMap_cons, List.flatMap_cons]
        exact (ih _).append ihl
    exact (hk e _).trans (hk 0 _).symm
  | concat sm ps h0 _ ih =>
    intro e
    have hlt : ∀ p ∈ ps, p.len < maxsize := by
      intro p hp
      unfold selConcat at h0
      split at h0
      · cases h0
      · rename_i hn
        by_contra hc
        exact hn (List.any_eq_true.2 ⟨p.len, List.mem_map.2 ⟨p, hp, rfl⟩, by simp; omega⟩)
    obtain ⟨sm1, e1, _, e2⟩ := concat_epoch ps hlt e
    obtain ⟨sm2, f1, _, f2⟩ := concat_epoch ps hlt 0
    rw [h0] at e1 f1
    cases e1
    cases f1
    rw [e2, f2]
    have hall : ∀ l : List (MapDs _), (∀ p ∈ l, p ∈ ps) →
        ((l.map (fun p => epoch p e)).flatten).Perm ((l.map (fun p => epoch p 0)).flatten) := by
      intro l
      induction l with
      | nil => intro _; exact List.Perm.refl _
      | cons a l ihl =>
        intro hm
        simp only [List.map_cons, List.flatten_cons]
        exact (ih a (hm a List.mem_cons_self) e).append (ihl (fun p hp => hm p (List.mem_cons_of_mem _ hp)))
    exact hall ps (fun _ h => h)

/-- Finding: epochs of a mix have different data: the longer component goes on where it was. -/
theorem mix_epochs_differ :
    ∃ sm, selProportions [3, 5] [1, 1] = .ok sm ∧
      epoch (mixDs sm [listSource [0, 1, 2], listSource [10, 11, 12, 13, 14]]) 0 =
        [0, 10, 1, 11, 2, 12].map (fun x => .ok (some x)) ∧
      epoch (mixDs sm [listSource [0, 1, 2], listSource [10, 11, 12, 13, 14]]) 1 =
        [0, 13, 1, 14, 2, 10].map (fun x => .ok (some x)) := ⟨_, rfl, by decide +kernel, by decide +kernel⟩

/-- The selection map of the example in the documentation (grain/_src/python/dataset/base.py:150-164). -/
def documentedMap : SelMap where
  len := 7
  sel i := if i ≥ 7 then .error .indexError else if i < 3 then .ok (0, i) else .ok (1, i - 3)

/-- Finding: with the selection map of the documentation the second epoch of a repeated dataset raises. -/
theorem select_repeat_raises (p q : MapDs α) (n : Nat) (hn : 2 ≤ n) :
    repeatLen 7 (some n) = .ok (n * 7) ∧ 7 < n * 7 ∧ (repeatDs (n * 7) true (mixDs documentedMap [p, q])).getitem 7 = .error .indexError :=
  ⟨by have := (repeat_len 7).1 n (by omega) (by decide); simpa using this, by omega, rfl⟩

/-- The hypotheses are met by a dataset that is sliced, shuffled, mapped and repeated. -/
example : SameData (repeatDs (3 * 4) true (mapDs (fun a : Nat => .ok (some (a + 1))) (shuffleDs (fun _ => [1#32, 2#32]) 5
    (sliceDs ⟨6, 1, 5, 1, 4⟩ (listSource [1, 2, 3, 4, 5, 6]))))) :=
  SameData.rep (p := mapDs (fun a : Nat => .ok (some (a + 1))) (shuffleDs (fun _ => [1#32, 2#32]) 5
    (sliceDs ⟨6, 1, 5, 1, 4⟩ (listSource [1, 2, 3, 4, 5, 6])))) 3 true
    (.map _ (.shuffle _ _ (by show ShuffleLen 4; exact ⟨by norm_num, by rintro ⟨j, h1, h2⟩; have := Nat.pow_le_pow_right (show 0 < 4 by omega) h1; omega⟩)
      (.plain (.slice (some 1) (some 5) none _ rfl (.source _ _ _)))))

end Grain
