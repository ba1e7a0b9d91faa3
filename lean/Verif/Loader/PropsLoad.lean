import Verif.Loader.ModelLoad
import Verif.Loader.Props
/-
C78: `grain.load`.
-/
namespace Grain

/-- The records a loader reads when its sampler gives these keys: shard `o`, the `k`-th record has the global index
`k * shard_count + shard_index` and the generator `seed + index`. -/
def loadedRecords (ds : List (Option V)) (seed : Option Int) (o : ShardOptions) (keys : List Int) : List (Rec (Option V)) :=
  keys.mapIdx (fun k key => ⟨⟨(k : Int) * (o.shardCount : Int) + (o.shardIndex : Int), some key,
    seed.map (· + ((k : Int) * (o.shardCount : Int) + (o.shardIndex : Int)))⟩, (ds[key.toNat]?).getD none⟩)

theorem indexSampler_meta {keysOf : Nat → List (BitVec 32)} {n : Int} {o : Option ShardOptions} {shuffle : Bool} {epochs seed : Option Int}
    {s : Sampler} (h : indexSampler keysOf n o shuffle epochs seed = .ok s) {i : Int} {m : RecMeta} (hm : s.get i = .ok m) :
    m.index = i ∧ m.rng = seed.map (· + i) := by
  unfold indexSampler at h
  split at h
  · cases h
  split at h
  · cases h
  split at h
  · cases h
  split at h
  · cases h
  cases hr : RangeDs.make n none 1 with
  | error e => rw [hr] at h; cases h
  | ok range =>
    rw [hr] at h
    cases h
    simp only [indexSamplerObj] at hm
    split at hm
    · cases hm
    · generalize (recordKeys keysOf range o shuffle (seed.getD 0).toNat).getitem _ = q at hm
      cases q with
      | error e => cases hm
      | ok key => cases hm; exact ⟨rfl, rfl⟩

theorem loaded_readAll {src : MapDs V} {ds : List (Option V)} (hsrc : ∀ i (h : i < ds.length), src.getitem (i : Int) = .ok ds[i])
    {s : Sampler} {o : ShardOptions} {size : Nat} {keys : List Int} {seed : Option Int}
    (hk : shardKeys s o size = some keys) (hmeta : ∀ i m, s.get i = .ok m → m.index = i ∧ m.rng = seed.map (· + i))
    (hin : ∀ k ∈ keys, 0 ≤ k ∧ k < ds.length) :
    readAll (samplerDs src s o size) = some (loadedRecords ds seed o keys) := by
  have hl := shardKeys_length hk
  apply readAll_eq
  · simp [loadedRecords, samplerDs, hl]
  · intro k hlt
    have hlt' : k < keys.length := by simpa [loadedRecords] using hlt
    have hget := mapM_some_getElem _ _ hk k (by rw [List.length_range, ← hl]; exact hlt') hlt'
    rw [List.getElem_range] at hget
    cases hs : s.get ((k : Int) * (o.shardCount : Int) + (o.shardIndex : Int)) with
    | error e => rw [hs] at hget; cases hget
    | ok m =>
      rw [hs] at hget
      have hkey : m.key = some keys[k] := hget
      obtain ⟨hm1, hm2⟩ := hmeta _ _ hs
      obtain ⟨b1, b2⟩ := hin _ (List.getElem_mem hlt')
      have hsr := hsrc keys[k].toNat (by omega)
      rw [Int.toNat_of_nonneg b1] at hsr
      simp only [samplerDs, hs, hkey, hsr, Bind.bind, Except.bind, loadedRecords, List.getElem_mapIdx]
      rw [List.getElem?_eq_getElem (by omega)]
      obtain ⟨i, key, rng⟩ := m
      simp only at hm1 hm2 hkey
      rw [hm1, hm2, hkey]
      rfl

theorem load_eq {keysOf : Nat → List (BitVec 32)} {src : MapDs V} {epochs : Option Int} {shuffle : Bool} {seed : Option Int}
    {shard : Option ShardOptions} {ops : List (DlOp (Option V))} {batch : Option Nat} {drop : Bool} {fn : List (Option V) → Py (Option V)}
    {workers bufferSize threads : Nat} {a b : String} {s : Sampler} {size : Nat}
    (hs : indexSampler keysOf src.len shard shuffle epochs seed = .ok s) (hsize : samplerSize s = .ok size) (hb : batch ≠ some 0) :
    load keysOf src epochs shuffle seed shard ops batch drop fn workers bufferSize threads a b =
      .ok (dataLoader ⟨loadShard shard, workers, a, b⟩ src s size (loadOps ops batch drop fn) bufferSize threads) := by
  unfold load
  rw [hs]
  simp only
  rw [if_neg hb, hsize]

theorem loadOps_valid {ops : List (DlOp D)} {batch : Option Nat} {drop : Bool} {fn : List D → Py D} (hb : batch ≠ some 0)
    (hv : ∀ op ∈ ops, op.valid) : ∀ op ∈ loadOps ops batch drop fn, op.valid := by
  intro op hop
  cases batch with
  | none => exact hv op hop
  | some b =>
    rcases List.mem_append.1 hop with h | h
    · exact hv op h
    · rw [List.mem_singleton.1 h]
      show 0 < b
      rcases Nat.eq_zero_or_pos b with rfl | h
      · exact absurd rfl hb
      · exact h

theorem mem_part {l : List α} {N E : Nat} (hl : l.length = E * N) {x : α} (hx : x ∈ l) : ∃ e, e < E ∧ x ∈ part l N e := by
  obtain ⟨i, hi, rfl⟩ := List.getElem_of_mem hx
  have hN : 0 < N := by
    rcases Nat.eq_zero_or_pos N with rfl | h
    · simp at hl; simp [hl] at hi
    · exact h
  refine ⟨i / N, Nat.div_lt_of_lt_mul (by rw [Nat.mul_comm]; omega), ?_⟩
  unfold part
  have hm := Nat.mod_lt i hN
  have hd : i / N * N + i % N = i := by rw [Nat.mul_comm]; exact Nat.div_add_mod i N
  have hlen : i % N < ((l.drop (i / N * N)).take N).length := by
    simp only [List.length_take, List.length_drop]; omega
  have : ((l.drop (i / N * N)).take N)[i % N] = l[i] := by
    simp only [List.getElem_take, List.getElem_drop, hd]
  rw [← this]
  exact List.getElem_mem hlen

/-- **C78.**  `grain.load(source, num_epochs=E, ...)` with any shuffling, transformations, batch size and number of workers: there is
one sequence of record keys, each epoch of which contains every record exactly once, and the loader yields what the transformations
make of these records, each worker taking every `workers`-th one; checkpoints may be taken and restored anywhere.  (Lengths for
which the shuffle itself fails, see C02, are excepted.) -/
theorem load_epochs (keysOf : Nat → List (BitVec 32)) (src : MapDs V) (ds : List (Option V)) (hlen : src.len = ds.length)
    (hN : 0 < ds.length) (hsrc : ∀ i (h : i < ds.length), src.getitem (i : Int) = .ok ds[i]) (E : Nat) (hE : 0 < E)
    (shuffle : Bool) (seed : Option Nat) (hseed : ∀ s, seed = some s → s < 2 ^ 32) (hsh : shuffle = true → seed.isSome)
    (hgood : shuffle = true → ds.length ≤ 2 ^ 64 ∧ ¬ BadLength ds.length)
    (ops : List (DlOp (Option V))) (hv : ∀ op ∈ ops, op.valid) (batch : Option Nat) (hb : batch ≠ some 0) (drop : Bool)
    (fn : List (Option V) → Py (Option V)) (workers bufferSize threads : Nat) (a b : String) :
    ∃ keys it, load keysOf src (some (E : Int)) shuffle (seed.map Int.ofNat) none ops batch drop fn workers bufferSize threads a b = .ok it ∧
      keys.length = E * ds.length ∧
      (∀ e, e < E → (part keys ds.length e).Perm ((List.range ds.length).map Int.ofNat)) ∧
      ∀ (ys : Nat → List (Rec (Option V))) (K : Nat),
        (∀ w, w < max workers 1 → runOps (loadOps ops batch drop fn)
          (everyNth (max workers 1) w (loadedRecords ds (seed.map Int.ofNat) ⟨0, 1, false⟩ keys)) = some (ys w)) →
        (∀ w, w < max workers 1 → (ys w).length ≤ K) →
        ResumesExactly it ((inTurn (max workers 1) (fun w => (ys w).map (·.data)) K).map Except.ok) true := by
  obtain ⟨s, keys, h1, h2, h3, h4, h5, _⟩ := indexSampler_loader_sharded keysOf ds.length hN 1 (by decide) false shuffle E hE seed hseed hsh hgood
  have hk := h5 0 (by decide)
  have h1' : everyNth 1 0 keys = keys := by
    have := inTurn_everyNth (n := 1) (by decide) keys keys.length (le_refl _)
    rwa [inTurn_one _ _ (by unfold everyNth; exact (List.length_filterMap_le _ _).trans (by simp))] at this
  simp only [Bool.false_eq_true, if_false, h1'] at hk
  rw [← hlen] at h1
  refine ⟨keys, _, load_eq h1 h2 hb, h3, h4, fun ys K hys hK => ?_⟩
  refine dataLoader_resumes_exactly ⟨⟨0, 1, false⟩, workers, a, b⟩ Nat.one_pos src s _ _ bufferSize threads (loadOps_valid hb hv)
    (loaded_readAll hsrc hk (fun i m hm => indexSampler_meta h1 hm) ?_) ys hys K hK
  intro k hkm
  obtain ⟨e, he, hke⟩ := mem_part h3 hkm
  have := (h4 e he).mem_iff.1 hke
  simp only [List.mem_map, List.mem_range] at this
  obtain ⟨n, hn, rfl⟩ := this
  exact ⟨Int.natCast_nonneg _, by simpa using hn⟩

theorem runOps_append (ops ops' : List (DlOp D)) (rs : List (Rec D)) : runOps (ops ++ ops') rs = (runOps ops rs).bind (runOps ops') := by
  induction ops generalizing rs with
  | nil => rfl
  | cons op ops ih =>
    simp only [List.cons_append, runOps]
    cases op.run rs with
    | none => rfl
    | some ms => simp [ih]

theorem part_map (f : α → β) (l : List α) (len e : Nat) : part (l.map f) len e = (part l len e).map f := by
  simp [part, List.map_drop, List.map_take]

/-- **C78.**  Without transformations and batches: every epoch yields every element of the source exactly once, for every number of
workers. -/
theorem load_every_element_once_per_epoch (keysOf : Nat → List (BitVec 32)) (src : MapDs V) (ds : List (Option V)) (hlen : src.len = ds.length)
    (hN : 0 < ds.length) (hsrc : ∀ i (h : i < ds.length), src.getitem (i : Int) = .ok ds[i]) (E : Nat) (hE : 0 < E)
    (shuffle : Bool) (seed : Option Nat) (hseed : ∀ s, seed = some s → s < 2 ^ 32) (hsh : shuffle = true → seed.isSome)
    (hgood : shuffle = true → ds.length ≤ 2 ^ 64 ∧ ¬ BadLength ds.length) (drop : Bool)
    (fn : List (Option V) → Py (Option V)) (workers bufferSize threads : Nat) (a b : String) :
    ∃ xs it, load keysOf src (some (E : Int)) shuffle (seed.map Int.ofNat) none [] none drop fn workers bufferSize threads a b = .ok it ∧
      xs.length = E * ds.length ∧ (∀ e, e < E → (part xs ds.length e).Perm ds) ∧ ResumesExactly it (xs.map Except.ok) true := by
  obtain ⟨keys, it, h1, h2, h3, h4⟩ := load_epochs keysOf src ds hlen hN hsrc E hE shuffle seed hseed hsh hgood [] (by simp) none (by simp) drop fn
    workers bufferSize threads a b
  have hn : 0 < max workers 1 := by omega
  refine ⟨(loadedRecords ds (seed.map Int.ofNat) ⟨0, 1, false⟩ keys).map (·.data), it, h1, by simp [loadedRecords, h2], ?_, ?_⟩
  · intro e he
    have hd : (loadedRecords ds (seed.map Int.ofNat) ⟨0, 1, false⟩ keys).map (·.data) = keys.map (fun key => (ds[key.toNat]?).getD none) := by
      apply List.ext_getElem?
      intro i
      simp [loadedRecords, List.getElem?_mapIdx, Option.map_map, Function.comp_def]
    rw [hd, part_map]
    refine ((h3 e he).map _).trans (List.Perm.of_eq ?_)
    apply List.ext_getElem
    · simp
    · intro i g1 g2
      simp [g2]
  · have h := h4 (fun w => everyNth (max workers 1) w (loadedRecords ds (seed.map Int.ofNat) ⟨0, 1, false⟩ keys)) (E * ds.length)
      (fun w _ => rfl) (by
        intro w _
        unfold everyNth
        refine (List.length_filterMap_le _ _).trans ?_
        simp [loadedRecords, h2])
    simp only [← everyNth_map] at h
    rwa [inTurn_everyNth hn _ _ (by simp [loadedRecords, h2])] at h

theorem mapM_some_map {g : γ → Option β} {d : γ → δ} {p : β → δ} : ∀ (l : List γ), (∀ i ∈ l, ∃ y, g i = some y ∧ p y = d i) →
    ∃ ys, l.mapM g = some ys ∧ ys.map p = l.map d
  | [], _ => ⟨[], rfl, rfl⟩
  | i :: l, h => by
    obtain ⟨y, h1, h2⟩ := h i (by simp)
    obtain ⟨ys, h3, h4⟩ := mapM_some_map l (fun j hj => h j (by simp [hj]))
    exact ⟨y :: ys, by rw [List.mapM_cons, h1, h3]; rfl, by simp [h2, h4]⟩

theorem batch_run (bs : Nat) (hbs : 0 < bs) (drop : Bool) (f : List D → D) (rs : List (Rec D)) :
    ∃ ys, (DlOp.batch bs drop (fun l => .ok (f l))).run rs = some ys ∧
      ys.map (·.data) = (List.range (batchCount rs.length bs drop)).map (fun i => f (group (rs.map (·.data)) bs i)) := by
  apply mapM_some_map
  intro i hi
  have hi := List.mem_range.1 hi
  have hlt : i * bs < rs.length := by
    unfold batchCount at hi
    cases drop
    · simp only [Bool.false_eq_true, if_false] at hi
      have h1 := (Nat.lt_div_iff_mul_lt hbs).1 hi
      have h2 : bs * i = i * bs := Nat.mul_comm _ _
      omega
    · simp only [if_true] at hi
      have h1 := (Nat.le_div_iff_mul_le hbs).1 hi
      rw [Nat.succ_mul] at h1
      omega
  have hne : group rs bs i ≠ [] := by
    unfold group
    intro h
    have := congrArg List.length h
    simp only [List.length_take, List.length_drop, List.length_nil] at this
    omega
  rw [List.getLast?_eq_some_getLast hne]
  refine ⟨_, rfl, ?_⟩
  simp [group, List.map_drop, List.map_take]

/-- **C78.**  With batches and no worker processes: the batches are consecutive groups of the same sequence of elements, across the
epochs; a last smaller batch is dropped with `drop_remainder`. -/
theorem load_batches (keysOf : Nat → List (BitVec 32)) (src : MapDs V) (ds : List (Option V)) (hlen : src.len = ds.length)
    (hN : 0 < ds.length) (hsrc : ∀ i (h : i < ds.length), src.getitem (i : Int) = .ok ds[i]) (E : Nat) (hE : 0 < E)
    (shuffle : Bool) (seed : Option Nat) (hseed : ∀ s, seed = some s → s < 2 ^ 32) (hsh : shuffle = true → seed.isSome)
    (hgood : shuffle = true → ds.length ≤ 2 ^ 64 ∧ ¬ BadLength ds.length) (bs : Nat) (hbs : 0 < bs) (drop : Bool)
    (f : List (Option V) → Option V) (bufferSize threads : Nat) (a b : String) :
    ∃ xs it, load keysOf src (some (E : Int)) shuffle (seed.map Int.ofNat) none [] (some bs) drop (fun l => .ok (f l)) 0 bufferSize threads a b =
        .ok it ∧
      xs.length = E * ds.length ∧ (∀ e, e < E → (part xs ds.length e).Perm ds) ∧
      ResumesExactly it (((List.range (batchCount xs.length bs drop)).map (fun i => f (group xs bs i))).map Except.ok) true := by
  obtain ⟨keys, it, h1, h2, h3, h4⟩ := load_epochs keysOf src ds hlen hN hsrc E hE shuffle seed hseed hsh hgood [] (by simp) (some bs)
    (by simp; omega) drop (fun l => .ok (f l)) 0 bufferSize threads a b
  generalize hrs : loadedRecords ds (seed.map Int.ofNat) ⟨0, 1, false⟩ keys = rs at h4
  have hrl : rs.length = E * ds.length := by rw [← hrs]; simp [loadedRecords, h2]
  refine ⟨rs.map (·.data), it, h1, by simp [hrl], ?_, ?_⟩
  · intro e he
    have hd : rs.map (·.data) = keys.map (fun key => (ds[key.toNat]?).getD none) := by
      rw [← hrs]
      apply List.ext_getElem?
      intro i
      simp [loadedRecords, List.getElem?_mapIdx, Option.map_map, Function.comp_def]
    rw [hd, part_map]
    refine ((h3 e he).map _).trans (List.Perm.of_eq ?_)
    apply List.ext_getElem
    · simp
    · intro i g1 g2
      simp [g2]
  · obtain ⟨ys, g1, g2⟩ := batch_run bs hbs drop f rs
    have h := h4 (fun _ => ys) ys.length (by
      intro w hw
      obtain rfl : w = 0 := by omega
      have e1 : everyNth (max 0 1) 0 rs = rs := by
        have := inTurn_everyNth (n := 1) (by decide) rs rs.length (le_refl _)
        rwa [inTurn_one _ _ (by unfold everyNth; exact (List.length_filterMap_le _ _).trans (by simp))] at this
      rw [e1]
      show (DlOp.run _ rs).bind _ = _
      rw [g1]
      rfl) (fun w _ => le_refl _)
    rw [show max 0 1 = 1 from rfl, inTurn_one _ _ (by simp), g2] at h
    simpa using h

/-- **C78.**  `grain.load` on each of `sc` shards: in every epoch the shards together yield every element of the source exactly once
(the remainder excepted if it is dropped), for every number of workers.  Missing (false, see `indexSampler_uneven_epochs` and
`indexSampler_empty_shard`): several epochs of records that do not divide evenly, and empty shards. -/
theorem load_sharded_partial (keysOf : Nat → List (BitVec 32)) (src : MapDs V) (ds : List (Option V)) (hlen : src.len = ds.length)
    (hN : 0 < ds.length) (hsrc : ∀ i (h : i < ds.length), src.getitem (i : Int) = .ok ds[i]) (sc : Nat) (hsc : 0 < sc) (dropShard shuffle : Bool)
    (E : Nat) (hE : 0 < E) (seed : Option Nat) (hseed : ∀ s, seed = some s → s < 2 ^ 32) (hsh : shuffle = true → seed.isSome)
    (heven : dropShard = true ∨ ds.length % sc = 0 ∨ E = 1) (hshard : ∀ j, j < sc → 0 < shardLen ds.length ⟨j, sc, dropShard⟩)
    (hgood : shuffle = true → ∀ j, j < sc →
      shardLen ds.length ⟨j, sc, dropShard⟩ ≤ 2 ^ 64 ∧ ¬ BadLength (shardLen ds.length ⟨j, sc, dropShard⟩))
    (drop : Bool) (fn : List (Option V) → Py (Option V)) (workers bufferSize threads : Nat) (a b : String) :
    ∃ xs : Nat → List (Option V),
      (∀ j, j < sc → ∃ it, load keysOf src (some (E : Int)) shuffle (seed.map Int.ofNat) (some ⟨j, sc, dropShard⟩) [] none drop fn workers
          bufferSize threads a b = .ok it ∧
        (xs j).length = E * shardLen ds.length ⟨j, sc, dropShard⟩ ∧ ResumesExactly it ((xs j).map Except.ok) true) ∧
      ∀ e, e < E → ((List.range sc).flatMap (fun j => part (xs j) (shardLen ds.length ⟨j, sc, dropShard⟩) e)).Perm
        (if dropShard then ds.take (ds.length / sc * sc) else ds) := by
  obtain ⟨keys, h1, h2⟩ := indexSampler_exactly_once_partial keysOf ds.length hN sc hsc dropShard shuffle E hE seed hseed hsh heven hshard hgood
  have hdata : ∀ j, (loadedRecords ds (seed.map Int.ofNat) ⟨j, sc, dropShard⟩ (keys j)).map (·.data) =
      (keys j).map (fun key => (ds[key.toNat]?).getD none) := by
    intro j
    apply List.ext_getElem?
    intro i
    simp [loadedRecords, List.getElem?_mapIdx, Option.map_map, Function.comp_def]
  have hle : ds.length / sc * sc ≤ ds.length := Nat.div_mul_le_self _ _
  refine ⟨fun j => (loadedRecords ds (seed.map Int.ofNat) ⟨j, sc, dropShard⟩ (keys j)).map (·.data), ?_, ?_⟩
  · intro j hj
    obtain ⟨s, size, g1, g2, g3, g4⟩ := h1 j hj
    rw [← hlen] at g1
    refine ⟨_, load_eq g1 g2 (by simp), by simp [loadedRecords, g4], ?_⟩
    refine dataLoader_worker_independent_partial ⟨⟨j, sc, dropShard⟩, workers, a, b⟩ hsc src s size [] bufferSize threads (by simp)
      (loaded_readAll hsrc g3 (fun i m hm => indexSampler_meta g1 hm) ?_) rfl
    intro k hk
    obtain ⟨e, he, hke⟩ := mem_part g4 hk
    have hm := (h2 e he).mem_iff.1 (List.mem_flatMap.2 ⟨j, List.mem_range.2 hj, hke⟩)
    simp only [List.mem_map, List.mem_range] at hm
    obtain ⟨n, hn, rfl⟩ := hm
    refine ⟨Int.natCast_nonneg _, ?_⟩
    simp only [Int.ofNat_eq_natCast]
    cases dropShard <;> simp at hn <;> omega
  · intro e he
    have hp := (h2 e he).map (fun key : Int => (ds[key.toNat]?).getD none)
    rw [List.map_flatMap] at hp
    simp only [hdata, part_map]
    refine hp.trans (List.Perm.of_eq ?_)
    apply List.ext_getElem
    · cases dropShard <;> simp [hle]
    · intro i g1 g2
      cases dropShard
      · simp [show i < ds.length by simpa using g2]
      · have : i < ds.length := by simp at g2; omega
        simp [this]

/-- Three records, two epochs, shuffled, two workers. -/
example (keysOf : Nat → List (BitVec 32)) : ∃ xs it,
    load keysOf (listSource [10, 11, 12]) (some 2) true (some 5) none [] none false (fun _ => .ok none) 2 4 2 "s" "d" = .ok it ∧
      xs.length = 6 ∧ (∀ e, e < 2 → (part xs 3 e).Perm [some 10, some 11, some 12]) ∧ ResumesExactly it (xs.map Except.ok) true :=
  load_every_element_once_per_epoch keysOf (listSource [10, 11, 12]) [some 10, some 11, some 12] rfl (by decide) (by decide) 2 (by decide) true
    (some 5) (by simp) (by simp) (fun _ => ⟨by decide, by rintro ⟨j, hj, h⟩; have : 4 ^ 8 ≤ 4 ^ j := Nat.pow_le_pow_right (by decide) hj; simp at h; omega⟩)
    false _ 2 4 2 "s" "d"

/-- Five records in batches of four, two epochs without shuffling: the second batch goes over the end of the epoch. -/
example (keysOf : Nat → List (BitVec 32)) (f : List (Option Nat) → Option Nat) : ∃ xs it,
    load keysOf (listSource [1, 2, 3, 4, 5]) (some ((2 : Nat) : Int)) false ((none : Option Nat).map Int.ofNat) none [] (some 4) false
      (fun l => .ok (f l)) 0 4 2 "s" "d" = .ok it ∧
      xs.length = 2 * 5 ∧ (∀ e, e < 2 → (part xs 5 e).Perm [some 1, some 2, some 3, some 4, some 5]) ∧
      ResumesExactly it (((List.range (batchCount xs.length 4 false)).map (fun i => f (group xs 4 i))).map Except.ok) true :=
  load_batches keysOf (listSource [1, 2, 3, 4, 5]) [some 1, some 2, some 3, some 4, some 5] rfl (by decide) (by decide) 2 (by decide) false
    none (by simp) (by simp) (fun h => by cases h) 4 (by decide) false f 4 2 "s" "d"

/-- Seven records on three shards. -/
example (keysOf : Nat → List (BitVec 32)) : ∃ xs : Nat → List (Option Nat),
      (∀ j, j < 3 → ∃ it, load keysOf (listSource [1, 2, 3, 4, 5, 6, 7]) (some ((4 : Nat) : Int)) false ((none : Option Nat).map Int.ofNat)
          (some ⟨j, 3, true⟩) [] none false (fun _ => .ok none) 2 4 2 "s" "d" = .ok it ∧
        (xs j).length = 4 * shardLen 7 ⟨j, 3, true⟩ ∧ ResumesExactly it ((xs j).map Except.ok) true) ∧
      ∀ e, e < 4 → ((List.range 3).flatMap (fun j => part (xs j) (shardLen 7 ⟨j, 3, true⟩) e)).Perm
        [some 1, some 2, some 3, some 4, some 5, some 6] :=
  load_sharded_partial keysOf (listSource [1, 2, 3, 4, 5, 6, 7]) [some 1, some 2, some 3, some 4, some 5, some 6, some 7] rfl (by decide) (by decide)
    3 (by decide) true false 4 (by decide) none (by simp) (by simp) (Or.inl rfl) (by decide) (fun h => by cases h) false _ 2 4 2 "s" "d"

end Grain
