import Verif.Interleave.Unread
import Verif.Interleave.ModelShared
/-
Property C89: pipelines that contain interleaved datasets resume exactly when their states are restored into new iterators.
-/
namespace Grain

/-- `ys` is what interleaving `n` datasets with the given streams yields (C26 says what that is: `Interleaved.contents`). -/
def Interleaved (xs : Nat → List (Py α)) (n cycle : Nat) (ys : List (Py α)) : Prop :=
  ∃ t, ATrace xs true n (min cycle n) (aStart (min cycle n)) t ∧ ys = t.map (·.2)

/-- Every family of streams has an interleaving, and one can tell from which dataset each element came: the elements of each dataset
are all there, in their order. -/
theorem Interleaved.exists (xs : Nat → List (Py α)) {n cycle : Nat} (hn : 0 < n) (hcyc : 0 < cycle) :
    ∃ tagged : List (Nat × Py α), Interleaved xs n cycle (tagged.map (·.2)) ∧ (∀ d r, (d, r) ∈ tagged → d < n) ∧
      ∀ d, d < n → (tagged.filter (fun q => q.1 = d)).map (·.2) = xs d := by
  have hL : 0 < min cycle n := by omega
  obtain ⟨t, ht⟩ := aTrace_exists (xs := xs) (ended := true) (n := n) hL _ (aStart (min cycle n)) (aStart_wf hL) (Or.inl rfl) (Nat.le_refl _)
  obtain ⟨c1, c2, _⟩ := ht.contents hL (aStart_wf hL) (Nat.min_le_right _ _)
  exact ⟨t, ⟨t, ht, rfl⟩, c1, fun d hd => by simpa using c2 d _ hd (aStart_left xs)⟩

theorem Interleaved.contents {xs : Nat → List (Py α)} {n cycle : Nat} {ys : List (Py α)} (hn : 0 < n) (hcyc : 0 < cycle)
    (h : Interleaved xs n cycle ys) : ∃ tagged : List (Nat × Py α), ys = tagged.map (·.2) ∧ (∀ d r, (d, r) ∈ tagged → d < n) ∧
      ∀ d, d < n → (tagged.filter (fun q => q.1 = d)).map (·.2) = xs d := by
  have hL : 0 < min cycle n := by omega
  obtain ⟨t, ht, rfl⟩ := h
  obtain ⟨c1, c2, _⟩ := ht.contents hL (aStart_wf hL) (Nat.min_le_right _ _)
  exact ⟨t, rfl, c1, fun d hd => by simpa using c2 d _ hd (aStart_left xs)⟩

/-- One dataset at a time: the streams one after the other. -/
theorem Interleaved.one (xs : Nat → List (Py α)) {n : Nat} (hn : 0 < n) : Interleaved xs n 1 ((List.range n).flatMap xs) := by
  have hm : min 1 n = 1 := by omega
  refine ⟨_, by rw [hm]; exact trace_concat hn, ?_⟩
  rw [List.map_flatMap]
  congr 1
  funext e
  simp

/-- All datasets at once: first elements, second elements, ... -/
theorem Interleaved.all {vs : Nat → List α} {n cycle K : Nat} (hn : 0 < n) (hc : n ≤ cycle) (hK : ∀ d, d < n → (vs d).length ≤ K) :
    Interleaved (fun d => (vs d).map Except.ok) n cycle
      ((List.range (K * n)).filterMap (fun q => (vs (q % n))[q / n]?.map Except.ok)) := by
  have hm : min cycle n = n := by omega
  refine ⟨_, by rw [hm]; exact trace_rows hn hK, ?_⟩
  rw [List.map_filterMap]
  congr 1
  funext q
  cases (vs (q % n))[q / n]? <;> rfl

/-- Pipelines that may contain interleaved datasets, anywhere and nested to any depth: `it` is the iterator, `xs` its stream and
`ended` says whether the stream is known to end there.  (Not here: `repeat`, `flat_map`, `window_shuffle`, `cache` and
concat-then-split above an interleave; they may be used in the datasets that are interleaved.) -/
inductive PipeIl : {α : Type} → Iter α → List (Py α) → Bool → Prop
  | pipe {α : Type} {p : Iter α} {xs : List (Py α)} {ended : Bool} : Pipe p xs ended → PipeIl p xs ended
  | interleave {α : Type} {its : Nat → Iter α} {n cycle : Nat} (keep : Bool) {xs : Nat → List (Py α)} {ys : List (Py α)} (hn : 0 < n)
      (hcyc : 0 < cycle) (hys : Interleaved xs n cycle ys) : (∀ d, d < n → PipeIl (its d) (xs d) true) →
      PipeIl (interleaveIter (IterFam.ofIters its) n cycle keep) ys true
  | map {α β : Type} {p : Iter (Option α)} {xs : List (Py (Option α))} {ended : Bool} (f : α → Py (Option β)) :
      PipeIl p xs ended → PipeIl (mapIter f p) (xs.map (mapOutcome f)) ended
  | randomMap {α β : Type} {p : Iter (Option α)} {xs : List (Py (Option α))} {ended : Bool}
      (f : α → Nat → Py (Option β)) (i c : Nat) : PipeIl p xs ended →
      PipeIl (randomMapIter f i c p) (countedMap (randomMapAt f i c) 0 xs) ended
  | mapWithIndex {α β : Type} {p : Iter (Option α)} {xs : List (Py (Option α))} {ended : Bool}
      (f : Nat → α → Py (Option β)) : PipeIl p xs ended →
      PipeIl (mapWithIndexIter f p) (countedMap (mapWithIndexAt f) 0 xs) ended
  | limit {α : Type} {p : Iter α} {xs : List (Py α)} {ended : Bool} (n : Nat) : PipeIl p xs ended →
      PipeIl (limitIter n p) (limitStream n xs) (ended || decide ((limitStream n xs).length < xs.length))
  | filter {α : Type} {p : Iter α} {xs : List (Py α)} {ended : Bool} (pred : α → Py Bool) : PipeIl p xs ended →
      PipeIl (filterIter pred none p) (xs.filterMap (filterOutcome pred)) ended
  | batch {α β : Type} {p : Iter α} {as : List α} {ended : Bool} (b : Nat) (hb : 0 < b) (drop : Bool)
      (f : List α → Py β) : PipeIl p (as.map Except.ok) ended →
      PipeIl (batchIter b drop f p) (batchStream b drop f as ended) ended
  | rebatch {α : Type} {p : Iter (List α)} {bs : List (List α)} {ended : Bool} (b : Nat) (hb : 0 < b) (drop : Bool)
      (hne : ∀ x ∈ bs, x ≠ []) (hend : ended = true → drop = false → b ∣ bs.flatten.length → bs = []) :
      PipeIl p (bs.map Except.ok) ended →
      PipeIl (rebatchIter b drop p) (batchStream b drop Except.ok bs.flatten ended) ended
  | zip {α : Type} {n : Nat} (hn : 0 < n) (strict : Bool) {ps : Fin n → Iter α} {as : Fin n → List α} {ended : Bool}
      (hs : strict = true → ended = true → ∀ i j, (as i).length = (as j).length) :
      (∀ i, PipeIl (ps i) ((as i).map Except.ok) ended) →
      PipeIl (zipIter strict ps) ((zipStream as).map Except.ok) ended
  | mix {α : Type} {n : Nat} (hn : 0 < n) (proportions : List Nat) (hlen : proportions.length = n)
      (hpos : ∀ p ∈ proportions, 0 < p) {ps : Fin n → Iter α} {xs : Fin n → List (Py α)} {ys : List (Py α)}
      (hys : ∀ m, m < ys.length → ys[m]? = mixOutcome proportions xs m)
      (herr : ∀ k e, ys[k]? = some (.error e) → k + 1 = ys.length)
      (hend : (∃ e, ys.getLast? = some (.error e)) ∨ mixOutcome proportions xs ys.length = none) :
      (∀ i, PipeIl (ps i) (xs i) true) → PipeIl (mixIter proportions ps) ys true
  | pack {E R : Type} {p : Iter E} {es : List E} {ended : Bool} (pk : Packer E R) (order : Nat → List R → List Nat) (hord : IsOrder order)
      {gs : List (List E)} {rest : List E} (hes : es = gs.flatten ++ rest) (hgs : Groups pk ended gs rest) : PipeIl p (es.map Except.ok) ended →
      PipeIl (packIter pk order p) ((packStream pk order 0 gs).map Except.ok) ended

theorem PipeIl.resumes {α : Type} {it : Iter α} {xs : List (Py α)} {ended : Bool} (h : PipeIl it xs ended) : ResumesUnread it xs ended := by
  induction h with
  | pipe h => exact h.resumes.unread
  | interleave keep hn hcyc hys _ ih =>
    obtain ⟨t, ht, rfl⟩ := hys
    exact interleave_unread keep hn hcyc (fun d hd => ofIters_unread (ih d hd)) ht
  | map f _ ih => exact mapIter_unread f ih
  | randomMap f i c _ ih => exact randomMapIter_unread f i c ih
  | mapWithIndex f _ ih => exact mapWithIndexIter_unread f ih
  | limit n _ ih => exact limitIter_unread n ih
  | filter pred _ ih => exact filterIter_unread pred ih
  | batch b hb drop f _ ih => exact batchIter_unread b hb drop f ih
  | rebatch b hb drop hne hend _ ih => exact rebatchIter_unread b hb drop hne hend ih
  | zip hn strict hs _ ih => exact zipIter_unread hn strict hs ih
  | mix hn proportions hlen hpos hys herr hend _ ih => exact mixIter_unread hn proportions hlen hpos hys herr hend ih
  | pack pk order hord hes hgs _ ih => exact packIter_unread pk order hord hes hgs ih

/-- C89: such a pipeline yields its stream, and whatever sequence of `next`, `get_state` and restarts from saved states is made, every
restart goes on where the state was taken.  The full statement would have all transformations; it is false:
`flat_map_interleave_wrong_elements`, `window_shuffle_interleave_wrong_elements` and `repeat_interleave_loses_data`. -/
theorem interleaved_pipeline_resumes_partial {α : Type} {it : Iter α} {xs : List (Py α)} {ended : Bool} (h : PipeIl it xs ended) :
    ResumesExactlyWhen (fun _ => false) it xs ended := h.resumes.fresh.exactly

/-- `[0, 1, 2]` repeated twice and `[100, 101, 102]` repeated twice, read one after the other by an interleave, which is interleaved
with `[200, 201, 202]`; batches of five. -/
example : ∃ it : Iter (List (Option Nat)), PipeIl it [.ok [some 0, some 200, some 1, some 201, some 2], .ok [some 202, some 0, some 1, some 2, some 100],
    .ok [some 101, some 102, some 100, some 101, some 102]] true := by
  have hd : ∀ d : Nat, Pipe (prefetchIter 2 3 false none (⟨3, fun i => .ok (some (i.toNat + 100 * d)), fun is => .ok (is.map (fun i => some (i.toNat + 100 * d)))⟩ : MapDs Nat))
      ([some (0 + 100 * d), some (1 + 100 * d), some (2 + 100 * d)].map Except.ok) true := by
    intro d
    refine Pipe.mapDataset (vs := [some (0 + 100 * d), some (1 + 100 * d), some (2 + 100 * d)]) 2 3 false rfl ?_
    intro k hk
    match k, hk with
    | 0, _ => rfl
    | 1, _ => rfl
    | 2, _ => rfl
  have p1 := PipeIl.interleave false (by decide) (by decide) (Interleaved.one (n := 2) _ (by decide)) (fun d _ => PipeIl.pipe ((hd d).repeat 2 (by decide)))
  have p2 := PipeIl.pipe (hd 2)
  obtain ⟨its, h0, h1⟩ : ∃ its : Nat → Iter (Option Nat), PipeIl (its 0) ([some 0, some 1, some 2, some 0, some 1, some 2, some 100, some 101, some 102, some 100, some 101, some 102].map Except.ok) true ∧
      PipeIl (its 1) ([some 200, some 201, some 202].map Except.ok) true :=
    ⟨fun d => match d with | 0 => _ | _ => _, p1, p2⟩
  have p3 := PipeIl.interleave (its := its) false (by decide) (by decide) (Interleaved.all (n := 2) (cycle := 4) (K := 12)
    (vs := fun d => if d = 0 then [some 0, some 1, some 2, some 0, some 1, some 2, some 100, some 101, some 102, some 100, some 101, some 102] else [some 200, some 201, some 202])
    (by decide) (by decide) (by decide)) (by
      intro d hd
      match d, hd with
      | 0, _ => exact h0
      | 1, _ => exact h1)
  exact ⟨_, p3.batch (as := [some 0, some 200, some 1, some 201, some 2, some 202, some 0, some 1, some 2, some 100, some 101, some 102, some 100, some 101, some 102])
    5 (by decide) false Except.ok⟩

/-! ### What the other transformations do -/

/-- `flat_map` over an interleave of [0] and [1, 5].  Restored after the third element, the iterator reads on to the second dataset
while it restores its buffer, and the list of indices in the state it keeps is overwritten; a state taken then restores the first
dataset's position into the second one: 51 comes instead of 11. -/
theorem flat_map_interleave_wrong_elements :
    ¬ ResumesExactlyWhen (fun _ => false) (flatMapShared (fun a => .ok [10 * a, 10 * a + 1])
        (interleaveIter (listFam (fun d => [[0], [1, 5]][d]!.map Except.ok)) 2 1 false) ilLook)
      ([0, 1, 10, 11, 50, 51].map Except.ok) true := by
  intro h
  obtain ⟨k, hk⟩ := h [.next, .next, .next, .save, .fresh 0, .save, .fresh 1, .next] [.item 0, .item 1, .item 10, .item 11] (by decide)
  have h1 := hk (k + 9) (by omega)
  have h2 : implRun (flatMapShared (fun a => .ok [10 * a, 10 * a + 1])
        (interleaveIter (listFam (fun d => [[0], [1, 5]][d]!.map Except.ok)) 2 1 false) ilLook) (k + 9)
      (flatMapShared (fun a => .ok [10 * a, 10 * a + 1])
        (interleaveIter (listFam (fun d => [[0], [1, 5]][d]!.map Except.ok)) 2 1 false) ilLook).init []
      [.next, .next, .next, .save, .fresh 0, .save, .fresh 1, .next] = some [.item 0, .item 1, .item 10, .item 51] := rfl
  cases h2.symm.trans h1

/-- `window_shuffle` (windows of two; the shuffle leaves the order, so a window is read backwards) over the same interleave: after a
restart within the first window a new state is wrong, 1 comes again instead of 0. -/
theorem window_shuffle_interleave_wrong_elements :
    ¬ ResumesExactlyWhen (fun _ => false) (windowShuffleShared (fun _ l => .ok l) 2
        (interleaveIter (listFam (fun d => [[0], [1, 5]][d]!.map Except.ok)) 2 1 false) ilLook)
      ([1, 0, 5].map Except.ok) true := by
  intro h
  obtain ⟨k, hk⟩ := h [.next, .save, .fresh 0, .save, .fresh 1, .next] [.item 1, .item 0] (by decide)
  have h1 := hk (k + 9) (by omega)
  have h2 : implRun (windowShuffleShared (fun _ l => .ok l) 2
        (interleaveIter (listFam (fun d => [[0], [1, 5]][d]!.map Except.ok)) 2 1 false) ilLook) (k + 9)
      (windowShuffleShared (fun _ l => .ok l) 2
        (interleaveIter (listFam (fun d => [[0], [1, 5]][d]!.map Except.ok)) 2 1 false) ilLook).init []
      [.next, .save, .fresh 0, .save, .fresh 1, .next] = some [.item 1, .item 1] := rfl
  cases h2.symm.trans h1

end Grain
