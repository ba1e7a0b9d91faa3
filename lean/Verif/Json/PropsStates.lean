import Verif.Json.LemmasStates
import Verif.Elastic.Model
/-
Property C80: states that went through a file.
-/
namespace Grain

/-- `JPipe j xs ended`: `j` is an iterator with its states as dictionaries, built by applying stream transformations, in any
order and to any depth, to random access datasets, TFRecord and Parquet files; `xs` is the stream of the corresponding list
operations (`Pipe`, C53, without concat-then-split packing, whose states are the subject of C36). -/
inductive JPipe : {α : Type} → JIter α → List (Py α) → Bool → Prop
  | mapDataset {α : Type} {ds : MapDs α} {vs : List (Option α)} (size threads : Nat) (allow : Bool)
      (hlen : vs.length = ds.len) (hv : ∀ k (hk : k < vs.length), ds.getitem k = .ok vs[k]) :
      JPipe (prefetchJson size threads allow none ds) ((vs.filter (fun x => allow || x.isSome)).map Except.ok) true
  | tfRecord {rs : List TfRecord} (hv : ∀ r ∈ rs, r.Valid) : JPipe (tfRecordJson (tfFile rs)) (rs.map (fun r => .ok r.data)) true
  | parquet {V : Type} {groups : List (PqTable V)} {s : PqState V} (hv : ∀ t ∈ groups, t.Valid) (hs : pqRead groups 0 0 = .ok s) :
      JPipe (pqJson groups s) ((pqRows groups).map Except.ok) true
  | stopKnowing {α : Type} {p : JIter α} {xs : List (Py α)} {ended : Bool} (n : Nat) : JPipe p xs ended →
      JPipe p (xs.take n) false
  | map {α β : Type} {p : JIter (Option α)} {xs : List (Py (Option α))} {ended : Bool} (f : α → Py (Option β)) :
      JPipe p xs ended → JPipe (mapJson f p) (xs.map (mapOutcome f)) ended
  | randomMap {α β : Type} {p : JIter (Option α)} {xs : List (Py (Option α))} {ended : Bool}
      (f : α → Nat → Py (Option β)) (i c : Nat) : JPipe p xs ended →
      JPipe (randomMapJson f i c p) (countedMap (randomMapAt f i c) 0 xs) ended
  | mapWithIndex {α β : Type} {p : JIter (Option α)} {xs : List (Py (Option α))} {ended : Bool}
      (f : Nat → α → Py (Option β)) : JPipe p xs ended →
      JPipe (mapWithIndexJson f p) (countedMap (mapWithIndexAt f) 0 xs) ended
  | limit {α : Type} {p : JIter α} {xs : List (Py α)} {ended : Bool} (n : Nat) : JPipe p xs ended →
      JPipe (limitJson n p) (limitStream n xs) (ended || decide ((limitStream n xs).length < xs.length))
  | filter {α : Type} {p : JIter α} {xs : List (Py α)} {ended : Bool} (pred : α → Py Bool) : JPipe p xs ended →
      JPipe (filterJson pred none p) (xs.filterMap (filterOutcome pred)) ended
  | batch {α β : Type} {p : JIter α} {as : List α} {ended : Bool} (b : Nat) (hb : 0 < b) (drop : Bool)
      (f : List α → Py β) : JPipe p (as.map Except.ok) ended →
      JPipe (batchJson b drop f p) (batchStream b drop f as ended) ended
  | rebatch {α : Type} {p : JIter (List α)} {bs : List (List α)} {ended : Bool} (b : Nat) (hb : 0 < b) (drop : Bool)
      (hne : ∀ x ∈ bs, x ≠ []) (hend : ended = true → drop = false → b ∣ bs.flatten.length → bs = []) :
      JPipe p (bs.map Except.ok) ended →
      JPipe (rebatchJson b drop p) (batchStream b drop Except.ok bs.flatten ended) ended
  | flatMap {α β : Type} {p : JIter α} {as : List α} (f : α → Py (List β)) (g : α → List β)
      (hf : ∀ a ∈ as, f a = .ok (g a)) : JPipe p (as.map Except.ok) false →
      JPipe (flatMapJson f p) ((as.flatMap g).map Except.ok) false
  | repeat {α : Type} {p : JIter α} {xs : List (Py α)} (k : Nat) (hk : 0 < k) : JPipe p xs true →
      JPipe (repeatJson (some k) p) (List.replicate k xs).flatten true
  | repeatForever {α : Type} {p : JIter α} {xs : List (Py α)} (k : Nat) (hk : 0 < k) : JPipe p xs true →
      JPipe (repeatJson none p) (List.replicate k xs).flatten false
  | cache {α : Type} {p : JIter α} {as : List α} : JPipe p (as.map Except.ok) false →
      JPipe (cacheJson p) (as.map Except.ok) false
  | windowShuffle {α : Type} {p : JIter α} {as : List α} {ended : Bool} (w : Nat) (hw : 0 < w)
      (shuffle : Nat → List α → Py (List α)) (σ : Nat → List α → List α)
      (hσ : ∀ i, i ≤ batchCount as.length w (!ended) → ∀ l, l.length ≤ w →
        shuffle i l = .ok (σ i l) ∧ (σ i l).length = l.length) :
      JPipe p (as.map Except.ok) ended →
      JPipe (windowShuffleJson shuffle w p) ((windowStream w (fun i l => (σ i l).reverse) as ended).map Except.ok) ended
  | zip {α : Type} {n : Nat} (hn : 0 < n) (strict : Bool) {ps : Fin n → JIter α} {as : Fin n → List α} {ended : Bool}
      (hs : strict = true → ended = true → ∀ i j, (as i).length = (as j).length) :
      (∀ i, JPipe (ps i) ((as i).map Except.ok) ended) →
      JPipe (zipJson strict ps) ((zipStream as).map Except.ok) ended
  | mix {α : Type} {n : Nat} (hn : 0 < n) (proportions : List Nat) (hlen : proportions.length = n)
      (hpos : ∀ p ∈ proportions, 0 < p) {ps : Fin n → JIter α} {xs : Fin n → List (Py α)} {ys : List (Py α)}
      (hys : ∀ m, m < ys.length → ys[m]? = mixOutcome proportions xs m)
      (herr : ∀ k e, ys[k]? = some (.error e) → k + 1 = ys.length)
      (hend : (∃ e, ys.getLast? = some (.error e)) ∨ mixOutcome proportions xs ys.length = none) :
      (∀ i, JPipe (ps i) (xs i) true) → JPipe (mixJson proportions ps) ys true
  | pack {E R : Type} {p : JIter E} {es : List E} {ended : Bool} (pk : Packer E R) (order : Nat → List R → List Nat) (hord : IsOrder order)
      {gs : List (List E)} {rest : List E} (hes : es = gs.flatten ++ rest) (hgs : Groups pk ended gs rest) : JPipe p (es.map Except.ok) ended →
      JPipe (packJson pk order p) ((packStream pk order 0 gs).map Except.ok) ended

theorem JPipe.resumes {α : Type} {j : JIter α} {xs : List (Py α)} {ended : Bool} (h : JPipe j xs ended) :
    Resumes j.iter xs ended := by
  induction h with
  | mapDataset size threads allow hlen hv => exact coded_resumes (fun _ => rfl) (Pipe.mapDataset size threads allow hlen hv).resumes
  | tfRecord hv => exact coded_resumes (fun _ => rfl) (Pipe.tfRecord hv).resumes
  | parquet hv hs => exact coded_resumes (fun _ => rfl) (Pipe.parquet hv hs).resumes
  | stopKnowing n _ ih => exact ih.take n
  | map f _ ih => obtain ⟨_, _, h⟩ := ih; exact coded_resumes (fun _ => rfl) ⟨_, _, mapIter_sim h⟩
  | randomMap f i c _ ih =>
    obtain ⟨_, _, h⟩ := ih
    exact coded_resumes (readParentAnd_enc _ (by decide)) ⟨_, _, randomMapIter_sim h⟩
  | mapWithIndex f _ ih =>
    obtain ⟨_, _, h⟩ := ih
    exact coded_resumes (readParentAnd_enc _ (by decide)) ⟨_, _, mapWithIndexIter_sim h⟩
  | limit n _ ih =>
    obtain ⟨_, _, h⟩ := ih
    exact coded_resumes (readParentAnd_enc _ (by decide)) ⟨_, _, limitIter_sim h⟩
  | filter pred _ ih => exact coded_resumes (fun _ => rfl) (filterIter_resumes ih)
  | batch b hb drop f _ ih => exact coded_resumes (fun _ => rfl) (batchIter_resumes ih b hb drop f)
  | rebatch b hb drop hne hend _ ih =>
    exact coded_resumes (readParentAnd_enc _ (by decide)) (rebatchIter_resumes ih hne b hb drop hend)
  | flatMap f g hf _ ih => exact coded_resumes (readParentAnd_enc _ (by decide)) (flatMapIter_resumes_prefix ih hf)
  | «repeat» k hk _ ih =>
    exact coded_resumes (readParentAnd_enc _ (by decide)) (repeatIter_resumes ih (some k) k hk true (Or.inl ⟨rfl, rfl⟩))
  | repeatForever k hk _ ih =>
    exact coded_resumes (readParentAnd_enc _ (by decide)) (repeatIter_resumes ih none k hk false (Or.inr ⟨rfl, rfl⟩))
  | cache _ ih => exact coded_resumes (fun _ => rfl) (cacheIter_resumes_prefix ih)
  | windowShuffle w hw shuffle σ hσ _ ih => exact coded_resumes (fun _ => rfl) (windowShuffleIter_resumes hw ih hσ)
  | zip hn strict hs _ ih =>
    exact coded_resumes readZip_enc (zipIter_resumes hn strict ih hs)
  | mix hn proportions hlen hpos hys herr hend _ ih =>
    exact coded_resumes readMix_enc (mixIter_resumes hn hlen hpos ih hys (fun k e h => ⟨herr k e h, rfl⟩)
      (fun _ => hend.imp id (fun h => ⟨rfl, h⟩)) (fun h => by cases h))
  | pack pk order hord hes hgs _ ih =>
    obtain ⟨_, _, h⟩ := ih
    exact coded_resumes (fun _ => rfl) ⟨_, _, packIter_sim hord h hes hgs⟩

/-- C80: the texts written for the states of any such pipeline are as good as the states: whatever calls of `next`, saves to
a text and restores from a saved text (into the used iterator or a new one, any number of times, in any order) are made, the
outcomes are those of an ideal position in the stream. -/
theorem pipeline_text_resumes_exactly {α : Type} {j : JIter α} {xs : List (Py α)} {ended : Bool} (h : JPipe j xs ended) :
    ResumesExactly j.text xs ended := (text_resumes h.resumes).exactly

/-- The states of such a pipeline are dictionaries. -/
theorem pipeline_state_dict {α : Type} {j : JIter α} {xs : List (Py α)} {ended : Bool} (h : JPipe j xs ended) (s : j.S) :
    ∃ ms, (j.get s).2 = .obj ms := by
  induction h with
  | stopKnowing n _ ih => exact ih s
  | map f _ ih => exact ih s
  | filter pred _ ih => exact ih s.1
  | batch b hb drop f _ ih => exact ih s
  | _ => exact ⟨_, rfl⟩

/-- C80: a text that was cut off in the middle is refused, and the iterator is left as it was. -/
theorem pipeline_truncated_refused {α : Type} {j : JIter α} {xs : List (Py α)} {ended : Bool} (h : JPipe j xs ended) (s s' : j.S)
    (p q : List Char) (hp : p ++ q = (j.text.get s).2) (hq : q ≠ []) (F : Nat) :
    j.text.set F s' p = some (s', some .valueError) := by
  obtain ⟨ms, hms⟩ := pipeline_state_dict h s
  have : jsonLoads p = none := json_truncated_refused ms p q (by rw [hp, ← hms]; rfl) hq
  simp only [JIter.text, this]

/-- Example: `range(3)` in batches of two, limited to two batches; the state after one batch as a text. -/
example : JPipe (limitJson 2 (batchJson 2 false Except.ok (prefetchJson 2 3 false none
      ⟨3, fun i => .ok (some (i.toNat + 5)), fun is => .ok (is.map (fun i => some (i.toNat + 5)))⟩)))
    [.ok [some 5, some 6], .ok [some 7]] true := by
  have h0 := JPipe.mapDataset (ds := ⟨3, fun i => .ok (some (i.toNat + 5)), fun is => .ok (is.map (fun i => some (i.toNat + 5)))⟩)
    (vs := [some 5, some 6, some 7]) 2 3 false rfl (by decide)
  exact (JPipe.batch (as := [some 5, some 6, some 7]) 2 (by decide) false Except.ok h0).limit 2

example : jsonDumps (parentAnd "count_elements_read" (.obj (jdict [("next_index", .int 2)]), 1)) =
    "{\n    \"parent\": {\n        \"next_index\": 2\n    },\n    \"count_elements_read\": 1\n}".toList := by
  decide +kernel

/-! ### Interleave -/

/-- C80 for an interleave that was not restored from the states of shards: texts restored into new iterators continue
exactly; the elements of every dataset come once and in order. -/
theorem interleave_text_resumes_partial {f : JFam α} {n cycle : Nat} (keep : Bool) {xs : Nat → List (Py α)}
    (hn : 0 < n) (hcyc : 0 < cycle) (hdict : ∀ d s, ∃ ms, (f.get d s).2 = .obj ms)
    (h : ∀ d, d < n → ResumesFresh (f.fam.iter d) (xs d) true) :
    ∃ tagged : List (Nat × Py α),
      ResumesExactlyWhen (fun _ => false) (interleaveText f n cycle keep) (tagged.map (·.2)) true ∧
      (∀ d r, (d, r) ∈ tagged → d < n) ∧
      (∀ d, d < n → (tagged.filter (fun q => q.1 = d)).map (·.2) = xs d) := by
  obtain ⟨At, Ck, hs⟩ := fam_sims h
  have hL : 0 < min cycle n := by omega
  obtain ⟨t, ht⟩ := aTrace_exists (xs := xs) (ended := true) (n := n) hL _ (aStart (min cycle n)) (aStart_wf hL) (Or.inl rfl) (Nat.le_refl _)
  obtain ⟨At', Ck', hsim⟩ := interleaveText_sim (keep := keep) (fun d s e => by
    obtain ⟨ms, hms⟩ := hdict d s
    rw [hms] at e
    cases e) hs hL ht
  obtain ⟨c1, c2, _⟩ := ht.contents hL (aStart_wf hL) (Nat.min_le_right _ _)
  exact ⟨t, hsim.exactly, c1, fun d hd => by simpa using c2 d _ hd (aStart_left xs)⟩

/-- List iterators with states `{"next_index": i}`. -/
def jListFam (xs : Nat → List (Py α)) : JFam α where
  S := Nat
  init _ := 0
  next d := (listIter (xs d)).next
  get _ s := (s, .obj (jdict [("next_index", .int s)]))
  set _ _ s v :=
    match (v.field "next_index").bind Json.asNat with
    | none => some (s, some .keyError)
    | some i => some (i, none)

/-- Example: the hypotheses hold for list iterators. -/
theorem jListFam_resumes (xs : Nat → List (Py α)) (d : Nat) : Resumes ((jListFam xs).fam.iter d) (xs d) true := by
  obtain ⟨At, Ck, h⟩ := listFam_resumes xs d
  refine ⟨At, fun v m => ∃ i : Nat, v = .obj (jdict [("next_index", .int i)]) ∧ Ck i m, ?_⟩
  refine { init := h.init, bound := h.bound, next_item := h.next_item, next_stop := h.next_stop, get := ?_, set := ?_,
           ck_bound := ?_ }
  · intro s n hs
    exact ⟨(h.get hs).1, s, rfl, (h.get hs).2⟩
  · rintro s n v m hs ⟨i, rfl, hi⟩ hm
    exact h.set hs hi hm
  · rintro v m ⟨i, rfl, hi⟩
    exact h.ck_bound hi

example : ∃ tagged : List (Nat × Py Nat),
    ResumesExactlyWhen (fun _ => false) (interleaveText (jListFam (fun d => [.ok (10 * d), .ok (10 * d + 1)])) 3 2 false)
      (tagged.map (·.2)) true ∧ (∀ d r, (d, r) ∈ tagged → d < 3) ∧
      (∀ d, d < 3 → (tagged.filter (fun q => q.1 = d)).map (·.2) = [.ok (10 * d), .ok (10 * d + 1)]) :=
  interleave_text_resumes_partial false (by decide) (by decide) (fun _ _ => ⟨_, rfl⟩) (fun d _ => (jListFam_resumes _ d).fresh)

/-- Whatever states were waiting for datasets that are not open yet (after a restore with another number of hosts): a state
read back from its text has none of them, because the numbers used as keys have become texts. -/
theorem future_states_lost (n L : Nat) (c : ILCk Json) :
    ∃ c', (textState (stateText (ilDict n L c))).bind ilUndict = some c' ∧ ∀ d, c'.future d = none := by
  obtain ⟨c', h1, _, _, _, h2, _⟩ := ilUndict_trip n L c
  exact ⟨c', by rw [textState_stateText]; exact h1, h2⟩

/-- `set_shard_states` in a new iterator, then either at once or after saving and restoring a text in a new iterator, `m`
calls of `next`. -/
def afterShards (f : JFam α) (n cycle F m : Nat) (shards : List (ShardState Json)) (viaText : Bool) : Option (List (Res α)) := do
  let (s, _) ← ilSetShards f.fam n (min cycle n) false F (ilInit f.S Json) shards
  let s ← if viaText then do
      let (s, _) ← (interleaveText f n cycle false).set F (interleaveText f n cycle false).init ((interleaveText f n cycle false).get s).2
      some s
    else some s
  let (_, rs) ← runNexts (interleaveText f n cycle false) F m s
  some rs

/-- C80 is false for an interleave that was restored from the states of shards (an elastic restore with another number of
hosts): two datasets, cycle length 1, of which 1 and 2 of 3 elements were read.  After the restore 11, 12 and 22 are left;
if the iterator is saved and restored once more, 20 and 21 come again. -/
theorem elastic_text_state_false :
    afterShards (jListFam (fun d => [.ok (10 * (d + 1)), .ok (10 * (d + 1) + 1), .ok (10 * (d + 1) + 2)])) 2 1 9 4
      [⟨false, some (.obj (jdict [("next_index", .int 1)]))⟩, ⟨false, some (.obj (jdict [("next_index", .int 2)]))⟩] false =
      some [.item 11, .item 12, .item 22, .stop] ∧
    afterShards (jListFam (fun d => [.ok (10 * (d + 1)), .ok (10 * (d + 1) + 1), .ok (10 * (d + 1) + 2)])) 2 1 9 6
      [⟨false, some (.obj (jdict [("next_index", .int 1)]))⟩, ⟨false, some (.obj (jdict [("next_index", .int 2)]))⟩] true =
      some [.item 11, .item 12, .item 20, .item 21, .item 22, .stop] := by
  decide +kernel

end Grain
