import Verif.Elastic.MapSim
/-
C38: elastic map iterators.
-/
namespace Grain

section
variable {batchFn : List (Option α) → Py (Option β)} {ds : MapDs α} {el : List (Option α)} {mk : List (Option α) → β}

/-! ### C38: one shard -/

/-- Shard `i` of `c`, restored from checkpoint `g` (`g = 0` is a new iterator), gives the whole batches of every `c`-th element from
element `g + i` on, and can be checkpointed and restored at will.  `el` are the elements of the dataset, all of which can be read;
the batch function works on groups of them. -/
theorem elastic_map_shard (hlen : el.length = ds.len) (hv : ∀ k (h : k < el.length), ds.getitem k = .ok el[k])
    (hmk : ∀ l, l ≠ [] → l ⊆ el → batchFn l = .ok (some (mk l))) {gb c : Nat} (size threads : Nat) (hc : 0 < c) (hd : c ∣ gb)
    (hgb : 0 < gb) (i g : Nat) :
    ResumesExactly (elasticMapFrom batchFn ds size threads gb i c g)
      ((List.range ((everyNth c i (el.drop g)).length / (gb / c))).map
        (fun k => Except.ok (some (mk (group (everyNth c i (el.drop g)) (gb / c) k))))) true := by
  have := elasticMap_sim hlen hv hmk size threads hc hd hgb i g
  have h2 : (shardStream mk el gb c i g).map (fun x => Except.ok (ε := Err) (some x)) =
      (List.range ((everyNth c i (el.drop g)).length / (gb / c))).map
        (fun k => Except.ok (some (mk (group (everyNth c i (el.drop g)) (gb / c) k)))) := by
    unfold shardStream
    rw [List.map_map]
    rfl
  rw [h2] at this
  exact Resumes.exactly ⟨_, _, this⟩

/-- How many batches a shard gives: one for each whole global batch, and one more if it has all its elements of the incomplete last
global batch. -/
theorem elastic_map_shard_count (el : List α) {gb c i : Nat} (hc : 0 < c) (hd : c ∣ gb) (hgb : 0 < gb) (hi : i < c) (g : Nat) :
    (everyNth c i (el.drop g)).length / (gb / c) =
      (el.length - g) / gb + if (gb / c - 1) * c + i < (el.length - g) % gb then 1 else 0 := by
  obtain ⟨b, rfl⟩ := hd
  have hb : 0 < b := by
    rcases Nat.eq_zero_or_pos b with h | h
    · subst h; simp at hgb
    · exact h
  rw [Nat.mul_div_cancel_left b hc]
  have key : ∀ x, 0 < x → (x ≤ (everyNth c i (el.drop g)).length / b ↔ (x * b - 1) * c + i < el.length - g) := by
    intro x hx
    have hxb : 0 < x * b := Nat.mul_pos hx hb
    rw [Nat.le_div_iff_mul_le hb, ← List.length_drop (l := el), ← everyNth_length_lt hc]
    omega
  have hpred : ∀ x, 0 < x → (x * b - 1) * c + c = x * (c * b) := by
    intro x hx
    have hxb : 0 < x * b := Nat.mul_pos hx hb
    rw [← Nat.succ_mul, show (x * b - 1).succ = x * b by omega, Nat.mul_assoc, Nat.mul_comm b c]
  have hb1 : (b - 1) * c + c = c * b := by
    rw [← Nat.succ_mul, show (b - 1).succ = b by omega, Nat.mul_comm]
  generalize hn : el.length - g = n at *
  generalize (everyNth c i (el.drop g)).length / b = L at *
  have hdm := Nat.div_add_mod n (c * b)
  have hmod := Nat.mod_lt n hgb
  generalize n / (c * b) = Q at *
  generalize n % (c * b) = R at *
  rw [Nat.mul_comm] at hdm
  have k1 := key (Q + 1) (by omega)
  have k2 := key (Q + 2) (by omega)
  have p1 := hpred (Q + 1) (by omega)
  have p2 := hpred (Q + 2) (by omega)
  have m1 : (Q + 1) * (c * b) = Q * (c * b) + c * b := by rw [Nat.add_mul, Nat.one_mul]
  have m2 : (Q + 2) * (c * b) = Q * (c * b) + c * b + c * b := by rw [Nat.add_mul]; omega
  have hcb : c ≤ c * b := Nat.le_mul_of_pos_right c hb
  have k0 : Q ≤ L := by
    rcases Nat.eq_zero_or_pos Q with h | h
    · omega
    · have := hpred Q h
      exact (key Q h).2 (by omega)
  split <;> omega

/-- A global batch size that is not a multiple of the number of shards is rejected with `ValueError` by the first `next`. -/
theorem elastic_map_rejects (batchFn : List (Option α) → Py (Option β)) (ds : MapDs α) {gb c : Nat} (size threads i F : Nat) (hd : ¬ c ∣ gb) (g : Nat) :
    ∃ s, (elasticMapIter batchFn ds size threads gb i c).next F { g := g, inner := none } = some (s, .fail .valueError) := by
  refine ⟨{ g := g, inner := none }, ?_⟩
  have hmod : gb % c ≠ 0 := fun h => hd (Nat.dvd_of_mod_eq_zero h)
  have : elasticShardDs batchFn ds gb i c g = .error .valueError := by
    unfold elasticShardDs
    rcases slice_rejects_iff (some ((g + i : Nat) : Int)) none (some (c : Int)) ds.len with ⟨h, _⟩ | ⟨⟨s, h⟩, _⟩
    · rw [h]; rfl
    · rw [h]
      simp only [bind, Except.bind, ne_eq, hmod, not_false_eq_true, if_true]
  simp only [elasticMapIter, this]

/-! ### C38: resharding -/

/-- An elastic job over a map dataset is restarted again and again, each time with another number of shards and another global batch
size (the number of shards divides it), from the checkpoint of any one of the shards.  As long as there are whole global batches, in
each step the shards together get the next global batch, shard `i` the elements number `i, i + shards, …` of it, and after each
phase all shards have the same checkpoint. -/
theorem elastic_map_history (hlen : el.length = ds.len) (hv : ∀ k (h : k < el.length), ds.getitem k = .ok el[k])
    (hmk : ∀ l, l ≠ [] → l ⊆ el → batchFn l = .ok (some (mk l))) (size threads : Nat) :
    ∀ (phases : List MapPhase) (g : Nat),
      (∀ ph ∈ phases, ph.shards ∣ ph.globalBatch ∧ 0 < ph.globalBatch ∧ ph.saver < ph.shards) →
      g + (phases.map (fun ph => ph.steps * ph.globalBatch)).sum ≤ el.length →
      Ev (fun F => elasticMapHistory batchFn ds size threads F g phases = some (mapHistorySpec (fun l => some (mk l)) el g phases)) := by
  intro phases
  induction phases with
  | nil => intro g _ _; exact Ev.of_forall (fun F => rfl)
  | cons ph phases ih =>
    intro g hph hsum
    obtain ⟨hd, hgb, hsv⟩ := hph ph List.mem_cons_self
    rw [List.map_cons, List.sum_cons] at hsum
    have hrest := ih (g + ph.steps * ph.globalBatch) (fun q hq => hph q (List.mem_cons_of_mem _ hq)) (by omega)
    have hc : 0 < ph.shards := by omega
    have hshard : ∀ i, i < ph.shards → Ev (fun F =>
        ((do
          let it := elasticMapIter batchFn ds size threads ph.globalBatch i ph.shards
          match (← it.set F it.init g) with
          | (_, some _) => none
          | (s, none) =>
            let (s, rs) ← runNexts it F ph.steps s
            some (rs, (it.get s).2)) : Option (List (Res (Option β)) × Nat)) =
        some ((List.range ph.steps).map (fun q => .item (some (mk (everyNth ph.shards i (globalBatchAt el g ph.globalBatch q))))),
          g + ph.steps * ph.globalBatch)) := by
      intro i hi
      obtain ⟨s', e1, e2⟩ := shard_nexts hlen hv hmk size threads hc hd hgb hi g ph.steps (by omega)
      refine e1.mono ?_
      intro F he
      have hset : (elasticMapIter batchFn ds size threads ph.globalBatch i ph.shards).set F
          (elasticMapIter batchFn ds size threads ph.globalBatch i ph.shards).init g = some ({ g := g, inner := none }, none) := rfl
      simp only [hset, Option.bind_eq_bind, Option.bind_some]
      rw [he]
      simp only [Option.bind_some]
      rw [e2]
    refine hrest.mono₂ (Ev.forall_lt ph.shards hshard) ?_
    intro F h1 h2
    have h3 : elasticMapPhase batchFn ds size threads F g ph = some (mapPhaseSpec (fun l => some (mk l)) el g ph) :=
      mapM_some_of_forall _ (fun i hi => h2 i (List.mem_range.1 hi))
    have h4 : (mapPhaseSpec (fun l => some (mk l)) el g ph)[ph.saver]? =
        some ((List.range ph.steps).map (fun q => .item (some (mk (everyNth ph.shards ph.saver (globalBatchAt el g ph.globalBatch q))))),
          g + ph.steps * ph.globalBatch) := by
      unfold mapPhaseSpec
      rw [List.getElem?_map, List.getElem?_range hsv]
      rfl
    simp only [elasticMapHistory, h3, h4, h1, Option.bind_eq_bind, Option.bind_some]
    rfl

end

/-- The global batches of all phases are consecutive: together they are the elements from `g` on, none twice and none left out. -/
theorem elastic_map_consecutive (el : List α) : ∀ (phases : List MapPhase) (g : Nat),
    (allGlobalBatches el g phases).flatten = (el.drop g).take (phases.map (fun ph => ph.steps * ph.globalBatch)).sum := by
  have one : ∀ (b g k : Nat), ((List.range k).map (globalBatchAt el g b)).flatten = (el.drop g).take (k * b) := by
    intro b g k
    induction k with
    | zero => simp
    | succ k ih =>
      rw [List.range_succ, List.map_append, List.flatten_append, ih, Nat.add_mul, Nat.one_mul, List.take_add, List.drop_drop]
      simp [globalBatchAt]
  intro phases
  induction phases with
  | nil => intro g; simp [allGlobalBatches]
  | cons ph phases ih =>
    intro g
    rw [allGlobalBatches, List.flatten_append, one, ih, List.map_cons, List.sum_cons, List.take_add, List.drop_drop]

/-- The parts the shards get of a global batch are all of it, each element once. -/
theorem elastic_map_parts {c : Nat} (hc : 0 < c) (gb : List α) : ((List.range c).flatMap (fun i => everyNth c i gb)).Perm gb :=
  everyNth_perm hc gb

/-- A dataset of ten elements, and batches as lists. -/
def tenElems : List (Option Nat) := (List.range 10).map some

def tenDs : MapDs Nat := { len := 10, getitem := fun i => .ok (some i.toNat), getitems := fun is => .ok (is.map (fun i => some i.toNat)) }

def listBatch (l : List (Option Nat)) : Py (Option (List Nat)) := .ok (some (l.filterMap id))

/-- Two steps with 2 shards and global batches of 2, restored from the second shard with 3 shards and global batches of 3, one step. -/
def tenPhases : List MapPhase := [⟨2, 2, 2, 1⟩, ⟨3, 3, 1, 0⟩]

theorem tenDs_reads : tenElems.length = tenDs.len ∧ ∀ k (h : k < tenElems.length), tenDs.getitem k = .ok tenElems[k] :=
  ⟨rfl, fun k h => by simp [tenDs, tenElems]⟩

example : Ev (fun F => elasticMapHistory listBatch tenDs 2 1 F 0 tenPhases = some
    [[([.item (some [0]), .item (some [2])], 4), ([.item (some [1]), .item (some [3])], 4)],
     [([.item (some [4])], 7), ([.item (some [5])], 7), ([.item (some [6])], 7)]]) :=
  elastic_map_history (mk := fun l => l.filterMap id) tenDs_reads.1 tenDs_reads.2 (fun _ _ _ => rfl) 2 1 tenPhases 0
    (by simp [tenPhases]) (by decide)

/-- A dataset of three elements. -/
def threeDs : MapDs Nat := { tenDs with len := 3 }

/-- At the end of the data the shards do not stop together: with three elements, global batches of 2 and two shards, shard 0 gives two
batches and shard 1 gives one.  The second batch of shard 0 belongs to no whole global batch, and the checkpoints of the two
shards then differ. -/
theorem elastic_map_uneven_end :
    Ev (fun F => elasticMapPhase listBatch threeDs 2 1 F 0 ⟨2, 2, 2, 0⟩ =
      some [([.item (some [0]), .item (some [2])], 4), ([.item (some [1]), .stop], 2)]) :=
  ⟨9, fun F hF => by
    obtain ⟨k, rfl⟩ : ∃ k, F = k + 9 := ⟨F - 9, by omega⟩
    rfl⟩

end Grain
