import Verif.Iter.PropsCheckpoint
import Verif.Sources.Lemmas
import Verif.Packing.Sim
import Verif.Cts.Sim
/-
Property C53: the checkpoint guarantees of C17-C25 and C28 hold for whole pipelines, not only for one transformation
over a list.
-/
namespace Grain

/-- `Pipe it xs ended`: `it` is an iterator built by applying stream transformations, in any order and to any depth, to
random access datasets, TFRecord and Parquet files; `xs` is the stream one gets by applying the corresponding list operations, and `ended` says
whether the stream is known to end there.  (`flat_map` and `cache` are included for prefixes of the data only, `rebatch`
without the case excluded in C19, because their checkpoints at the end of the data are wrong.  For packing, the elements are cut into
batches by `Groups`, `Refills`: what the rows of a batch are is the subject of C32, C33 and C35.) -/
inductive Pipe : {α : Type} → Iter α → List (Py α) → Bool → Prop
  | mapDataset {α : Type} {ds : MapDs α} {vs : List (Option α)} (size threads : Nat) (allow : Bool)
      (hlen : vs.length = ds.len) (hv : ∀ k (hk : k < vs.length), ds.getitem k = .ok vs[k]) :
      Pipe (prefetchIter size threads allow none ds) ((vs.filter (fun x => allow || x.isSome)).map Except.ok) true
  | tfRecord {rs : List TfRecord} (hv : ∀ r ∈ rs, r.Valid) : Pipe (tfRecordIter (tfFile rs)) (rs.map (fun r => .ok r.data)) true
  | parquet {V : Type} {groups : List (PqTable V)} {s : PqState V} (hv : ∀ t ∈ groups, t.Valid) (hs : pqRead groups 0 0 = .ok s) :
      Pipe (pqIterAt groups s) ((pqRows groups).map Except.ok) true
  | stopKnowing {α : Type} {p : Iter α} {xs : List (Py α)} {ended : Bool} (n : Nat) : Pipe p xs ended →
      Pipe p (xs.take n) false
  | map {α β : Type} {p : Iter (Option α)} {xs : List (Py (Option α))} {ended : Bool} (f : α → Py (Option β)) :
      Pipe p xs ended → Pipe (mapIter f p) (xs.map (mapOutcome f)) ended
  | randomMap {α β : Type} {p : Iter (Option α)} {xs : List (Py (Option α))} {ended : Bool}
      (f : α → Nat → Py (Option β)) (i c : Nat) : Pipe p xs ended →
      Pipe (randomMapIter f i c p) (countedMap (randomMapAt f i c) 0 xs) ended
  | mapWithIndex {α β : Type} {p : Iter (Option α)} {xs : List (Py (Option α))} {ended : Bool}
      (f : Nat → α → Py (Option β)) : Pipe p xs ended →
      Pipe (mapWithIndexIter f p) (countedMap (mapWithIndexAt f) 0 xs) ended
  | limit {α : Type} {p : Iter α} {xs : List (Py α)} {ended : Bool} (n : Nat) : Pipe p xs ended →
      Pipe (limitIter n p) (limitStream n xs) (ended || decide ((limitStream n xs).length < xs.length))
  | filter {α : Type} {p : Iter α} {xs : List (Py α)} {ended : Bool} (pred : α → Py Bool) : Pipe p xs ended →
      Pipe (filterIter pred none p) (xs.filterMap (filterOutcome pred)) ended
  | batch {α β : Type} {p : Iter α} {as : List α} {ended : Bool} (b : Nat) (hb : 0 < b) (drop : Bool)
      (f : List α → Py β) : Pipe p (as.map Except.ok) ended →
      Pipe (batchIter b drop f p) (batchStream b drop f as ended) ended
  | rebatch {α : Type} {p : Iter (List α)} {bs : List (List α)} {ended : Bool} (b : Nat) (hb : 0 < b) (drop : Bool)
      (hne : ∀ x ∈ bs, x ≠ []) (hend : ended = true → drop = false → b ∣ bs.flatten.length → bs = []) :
      Pipe p (bs.map Except.ok) ended →
      Pipe (rebatchIter b drop p) (batchStream b drop Except.ok bs.flatten ended) ended
  | flatMap {α β : Type} {p : Iter α} {as : List α} (f : α → Py (List β)) (g : α → List β)
      (hf : ∀ a ∈ as, f a = .ok (g a)) : Pipe p (as.map Except.ok) false →
      Pipe (flatMapIter f p) ((as.flatMap g).map Except.ok) false
  | repeat {α : Type} {p : Iter α} {xs : List (Py α)} (k : Nat) (hk : 0 < k) : Pipe p xs true →
      Pipe (repeatIter (some k) p) (List.replicate k xs).flatten true
  | repeatForever {α : Type} {p : Iter α} {xs : List (Py α)} (k : Nat) (hk : 0 < k) : Pipe p xs true →
      Pipe (repeatIter none p) (List.replicate k xs).flatten false
  | cache {α : Type} {p : Iter α} {as : List α} : Pipe p (as.map Except.ok) false →
      Pipe (cacheIter p) (as.map Except.ok) false
  | windowShuffle {α : Type} {p : Iter α} {as : List α} {ended : Bool} (w : Nat) (hw : 0 < w)
      (shuffle : Nat → List α → Py (List α)) (σ : Nat → List α → List α)
      (hσ : ∀ i, i ≤ batchCount as.length w (!ended) → ∀ l, l.length ≤ w →
        shuffle i l = .ok (σ i l) ∧ (σ i l).length = l.length) :
      Pipe p (as.map Except.ok) ended →
      Pipe (windowShuffleIter shuffle w p) ((windowStream w (fun i l => (σ i l).reverse) as ended).map Except.ok) ended
  | zip {α : Type} {n : Nat} (hn : 0 < n) (strict : Bool) {ps : Fin n → Iter α} {as : Fin n → List α} {ended : Bool}
      (hs : strict = true → ended = true → ∀ i j, (as i).length = (as j).length) :
      (∀ i, Pipe (ps i) ((as i).map Except.ok) ended) →
      Pipe (zipIter strict ps) ((zipStream as).map Except.ok) ended
  | mix {α : Type} {n : Nat} (hn : 0 < n) (proportions : List Nat) (hlen : proportions.length = n)
      (hpos : ∀ p ∈ proportions, 0 < p) {ps : Fin n → Iter α} {xs : Fin n → List (Py α)} {ys : List (Py α)}
      (hys : ∀ m, m < ys.length → ys[m]? = mixOutcome proportions xs m)
      (herr : ∀ k e, ys[k]? = some (.error e) → k + 1 = ys.length)
      (hend : (∃ e, ys.getLast? = some (.error e)) ∨ mixOutcome proportions xs ys.length = none) :
      (∀ i, Pipe (ps i) (xs i) true) → Pipe (mixIter proportions ps) ys true
  | pack {E R : Type} {p : Iter E} {es : List E} {ended : Bool} (pk : Packer E R) (order : Nat → List R → List Nat) (hord : IsOrder order)
      {gs : List (List E)} {rest : List E} (hes : es = gs.flatten ++ rest) (hgs : Groups pk ended gs rest) : Pipe p (es.map Except.ok) ended →
      Pipe (packIter pk order p) ((packStream pk order 0 gs).map Except.ok) ended
  | concatThenSplit {τ : Type} {p : Iter (List (CtsVal τ))} {es : List (List (CtsVal τ))} {ended : Bool} (cfg : CtsCfg τ)
      {gs : List (List (List (CtsCol τ)))} (hgs : Refills cfg ended es (0, none) gs) : Pipe p (es.map Except.ok) ended →
      Pipe (ctsIter cfg p) (gs.flatten.map Except.ok) ended

/-- Forgetting a tail of the stream. -/
theorem Resumes.take {p : Iter α} {xs : List (Py α)} {ended : Bool} (h : Resumes p xs ended) (n : Nat) :
    Resumes p (xs.take n) false := by
  obtain ⟨At, Ck, h⟩ := h
  refine ⟨fun s m => At s m ∧ m ≤ (xs.take n).length, fun c m => Ck c m ∧ m ≤ (xs.take n).length, ?_⟩
  refine { init := ⟨h.init, by omega⟩, bound := fun hs => hs.2, next_item := ?_, next_stop := ?_, get := ?_, set := ?_,
           ck_bound := fun hs => hs.2 }
  · rintro s m r ⟨hs, _⟩ hr
    have hlt := getElem?_lt hr
    have hr' : xs[m]? = some r := by
      rw [List.getElem?_take] at hr
      split at hr
      · exact hr
      · cases hr
    obtain ⟨s', h1, h2⟩ := h.next_item hs hr'
    exact ⟨s', h1, h2, by omega⟩
  · intro s _ hc
    cases hc
  · rintro s m ⟨hs, hm⟩
    exact ⟨⟨(h.get hs).1, hm⟩, (h.get hs).2, hm⟩
  · rintro s k c m ⟨hs, hk⟩ ⟨hc, hm⟩ hlt
    have hlt' : m < (xs.take n).length := hlt.resolve_right (by simp)
    obtain ⟨s', h1, h2⟩ := h.set hs hc (Or.inl (by rw [List.length_take] at hlt'; omega))
    exact ⟨s', h1, h2, hm⟩

theorem Pipe.resumes {α : Type} {it : Iter α} {xs : List (Py α)} {ended : Bool} (h : Pipe it xs ended) :
    Resumes it xs ended := by
  induction h with
  | mapDataset size threads allow hlen hv =>
    have sim := prefetchIter_sim (allow := allow) size threads true [] (by simp) (by omega) hv (fun _ => ⟨hlen, rfl⟩)
      (by simp)
    simp only [List.map_nil, List.append_nil] at sim
    exact ⟨_, _, sim⟩
  | tfRecord hv =>
    have := tf_resumes hv [] (Or.inl rfl)
    simpa using this
  | parquet hv hs => exact pq_resumes hv hs
  | stopKnowing n _ ih => exact ih.take n
  | map f _ ih => obtain ⟨_, _, h⟩ := ih; exact ⟨_, _, mapIter_sim h⟩
  | randomMap f i c _ ih => obtain ⟨_, _, h⟩ := ih; exact ⟨_, _, randomMapIter_sim h⟩
  | mapWithIndex f _ ih => obtain ⟨_, _, h⟩ := ih; exact ⟨_, _, mapWithIndexIter_sim h⟩
  | limit n _ ih => obtain ⟨_, _, h⟩ := ih; exact ⟨_, _, limitIter_sim h⟩
  | filter pred _ ih => exact filterIter_resumes ih
  | batch b hb drop f _ ih => exact batchIter_resumes ih b hb drop f
  | rebatch b hb drop hne hend _ ih => exact rebatchIter_resumes ih hne b hb drop hend
  | flatMap f g hf _ ih => exact flatMapIter_resumes_prefix ih hf
  | «repeat» k hk _ ih => exact repeatIter_resumes ih (some k) k hk true (Or.inl ⟨rfl, rfl⟩)
  | repeatForever k hk _ ih => exact repeatIter_resumes ih none k hk false (Or.inr ⟨rfl, rfl⟩)
  | cache _ ih => exact cacheIter_resumes_prefix ih
  | windowShuffle w hw shuffle σ hσ _ ih => exact windowShuffleIter_resumes hw ih hσ
  | zip hn strict hs _ ih => exact zipIter_resumes hn strict ih hs
  | mix hn proportions hlen hpos hys herr hend _ ih =>
    exact mixIter_resumes hn hlen hpos ih hys (fun k e h => ⟨herr k e h, rfl⟩)
      (fun _ => hend.imp id (fun h => ⟨rfl, h⟩)) (fun h => by cases h)
  | pack pk order hord hes hgs _ ih => obtain ⟨_, _, h⟩ := ih; exact ⟨_, _, packIter_sim hord h hes hgs⟩
  | concatThenSplit cfg hgs _ ih => obtain ⟨_, _, h⟩ := ih; exact ⟨_, _, cts_sim h hgs⟩

/-- C53: every such pipeline yields the stream of the list operations and resumes exactly. -/
theorem pipeline_resumes_exactly {α : Type} {it : Iter α} {xs : List (Py α)} {ended : Bool} (h : Pipe it xs ended) :
    ResumesExactly it xs ended := h.resumes.exactly

/-- `range(4)` with prefetching, doubled, repeated twice, even elements dropped, in batches of 3. -/
example : ∃ it : Iter (List (Option Nat)), Pipe it [.ok [some 0, some 4, some 6], .ok [some 0, some 4, some 6]] true := by
  have h0 := Pipe.mapDataset (ds := sparse4) (vs := [some 0, none, some 2, some 3]) 2 3 false rfl (by decide)
  have h1 := (h0.map (fun a => .ok (some (2 * a)))).repeat 2 (by decide)
  have h2 := (h1.filter (fun x => .ok (x != some 1)))
  exact ⟨_, (Pipe.batch (as := [some 0, some 4, some 6, some 0, some 4, some 6]) 3 (by decide) false Except.ok h2)⟩

/-- The records of a TFRecord file, their lengths, windows of two in reverse order. -/
example : ∃ it : Iter Nat, Pipe it [.ok 0, .ok 3, .ok 1] true := by
  have h0 := Pipe.tfRecord (rs := [⟨[7, 8, 9], [1, 1, 1, 1], [2, 2, 2, 2]⟩, ⟨[], [3, 3, 3, 3], [4, 4, 4, 4]⟩, ⟨[10], [5, 5, 5, 5], [6, 6, 6, 6]⟩])
    (by simp only [List.mem_cons, List.not_mem_nil, or_false]; rintro r (rfl | rfl | rfl) <;> exact ⟨by decide, rfl, rfl⟩)
  have h1 := Pipe.batch (as := [[7, 8, 9], [], [10]]) 1 (by decide) false (fun l => .ok l.flatten.length) h0
  exact ⟨_, Pipe.windowShuffle (as := [3, 0, 1]) 2 (by decide) (fun _ l => .ok l) (fun _ l => l) (fun _ _ _ _ => ⟨rfl, rfl⟩) h1⟩

/-- Two examples per packed batch, one row per example. -/
def twoPerBatch : Packer Nat Nat where
  B := List Nat
  new := []
  tryAdd b e := .ok (if b.length < 2 then some (b ++ [e]) else none)
  finish b := b

example : ∃ it : Iter Nat, Pipe it [.ok 5, .ok 6, .ok 7] true := by
  have h0 := Pipe.mapDataset (ds := ⟨3, fun i => .ok (some (i.toNat + 5)), fun is => .ok (is.map (fun i => some (i.toNat + 5)))⟩)
    (vs := [some 5, some 6, some 7]) 2 3 false rfl (by decide)
  have h1 := Pipe.batch (as := [some 5, some 6, some 7]) 1 (by decide) false (fun l => .ok (l.headD none |>.getD 0)) h0
  exact ⟨_, Pipe.pack (es := [5, 6, 7]) (gs := [[5, 6], [7]]) (rest := []) twoPerBatch (fun _ rows => List.range rows.length)
    (fun _ _ => .refl _) rfl ⟨by decide, ⟨[5, 6], rfl, by decide, rfl, [7], rfl⟩, by decide, ⟨[7], rfl, by decide, rfl⟩, fun _ => rfl⟩ h1⟩

end Grain
