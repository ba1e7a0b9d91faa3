import Verif.Checkpoint.Lemmas
import Mathlib.Data.List.Nodup
/-
C48: checkpoint files.
-/
namespace Grain

/-- The files process `i` of `n` writes when it saves. -/
def writesOf (i n : Nat) (shards : List (Nat × T)) (text : T) : List (List Char × T) :=
  shards.map (fun s => (shardFile s.1, s.2)) ++ [(procFile i n, text)]

/-- `save` writes exactly these files. -/
theorem saveCheckpoint_writes (d : Dir T) (i n : Nat) (shards : List (Nat × T)) (text : T) :
    saveCheckpoint d i n shards text = d.writes (writesOf i n shards text) := by
  unfold saveCheckpoint writesOf Dir.writes
  rw [List.foldl_append, List.foldl_map]
  rfl

/-- The directory after all `n` processes have saved into an empty directory; `ws` are the writes of single files by all processes,
in the order in which they happen. -/
def SavedBy (n : Nat) (shards : Nat → List (Nat × T)) (text : Nat → T) (d : Dir T) : Prop :=
  ∃ ws : List (List Char × T), ws.Perm ((List.range n).flatMap (fun i => writesOf i n (shards i) (text i))) ∧ d = Dir.writes [] ws

/-- Different processes, and processes of runs with a different number of processes, use different file names. -/
theorem procFile_injective {i n i' n' : Nat} (h : procFile i n = procFile i' n') : i = i' ∧ n = n' := by
  unfold procFile at h
  simp only [List.append_assoc, List.append_cancel_left_eq] at h
  obtain ⟨h1, h2⟩ := cut_inj (c := '-') dec_ne_dash dec_ne_dash h
  exact ⟨dec_inj h1, dec_inj (by simpa using h2)⟩

theorem shardFile_injective {k k' : Nat} (h : shardFile k = shardFile k') : k = k' := by
  unfold shardFile at h
  exact dec_inj (by simpa using h)

theorem shardFile_ne_procFile (k i n : Nat) : shardFile k ≠ procFile i n := by
  intro h
  have := congrArg globProcess h
  rw [globProcess_shardFile, globProcess_procFile] at this
  cases this

/-- The files that are counted are those that a shell would list for `process_*-of-*.json`, and no others. -/
theorem globProcess_iff (name : List Char) : globProcess name = true ↔ ∃ a b, name = sProcess ++ a ++ sOf ++ b ++ sJson := by
  have hmid : ∀ mid, ((sProcess ++ mid ++ sJson).drop sProcess.length).take
      ((sProcess ++ mid ++ sJson).length - sProcess.length - sJson.length) = mid := by
    intro mid
    rw [List.append_assoc, List.drop_left]
    apply List.take_left'
    simp only [List.length_append]
    omega
  unfold globProcess
  simp only [Bool.and_eq_true, decide_eq_true_eq, List.isPrefixOf_iff_prefix, List.isSuffixOf_iff_suffix]
  constructor
  · rintro ⟨⟨⟨⟨t, rfl⟩, h2⟩, h3⟩, h4⟩
    have h5 : sJson <:+ t := by
      refine List.suffix_of_suffix_length_le h2 (List.suffix_append _ _) ?_
      simp only [List.length_append] at h3
      omega
    obtain ⟨mid, rfl⟩ := h5
    rw [← List.append_assoc, hmid] at h4
    obtain ⟨a, b, h⟩ := (splitOn_length (by decide) mid).1 h4
    exact ⟨a, b, by rw [← h]; simp⟩
  · rintro ⟨a, b, rfl⟩
    rw [show sProcess ++ a ++ sOf ++ b ++ sJson = sProcess ++ (a ++ sOf ++ b) ++ sJson by simp]
    rw [hmid]
    refine ⟨⟨⟨⟨a ++ sOf ++ b ++ sJson, by simp⟩, List.suffix_append _ _⟩, ?_⟩, (splitOn_length (by decide) _).2 ⟨a, b, rfl⟩⟩
    simp only [List.length_append]
    omega

/-- The shard states of different processes have different numbers. -/
def ShardsDistinct (n : Nat) (shards : Nat → List (Nat × T)) : Prop :=
  ((List.range n).flatMap (fun i => (shards i).map (·.1))).Nodup

theorem names_nodup {n : Nat} {shards : Nat → List (Nat × T)} (text : Nat → T) (h : ShardsDistinct n shards) :
    (((List.range n).flatMap (fun i => writesOf i n (shards i) (text i))).map (·.1)).Nodup := by
  rw [List.map_flatMap]
  unfold ShardsDistinct at h
  rw [List.nodup_flatMap] at h ⊢
  obtain ⟨h1, h2⟩ := h
  refine ⟨?_, ?_⟩
  · intro i hi
    unfold writesOf
    rw [List.map_append, List.map_map, List.nodup_append]
    refine ⟨?_, by simp, ?_⟩
    · have := h1 i hi
      rw [show ((fun x : List Char × T => x.1) ∘ fun s : Nat × T => (shardFile s.1, s.2)) = shardFile ∘ (fun s : Nat × T => s.1) from rfl,
        ← List.map_map]
      exact this.map (fun a b h => shardFile_injective h)
    · intro a ha b hb
      simp only [List.map_cons, List.map_nil, List.mem_singleton] at hb
      obtain ⟨s, _, rfl⟩ := List.mem_map.1 ha
      rw [hb]
      exact shardFile_ne_procFile _ _ _
  · refine (h2.and (List.nodup_range (n := n))).imp ?_
    rintro i j ⟨hd, hij⟩
    intro x hx hy
    unfold writesOf at hx hy
    dsimp only at hx hy
    rw [List.map_append, List.map_map, List.mem_append] at hx hy
    rcases hx with hx | hx <;> rcases hy with hy | hy
    · obtain ⟨s, hs, e⟩ := List.mem_map.1 hx
      obtain ⟨s', hs', e'⟩ := List.mem_map.1 hy
      have := shardFile_injective (e.trans e'.symm)
      exact hd (List.mem_map.2 ⟨s, hs, rfl⟩) (this ▸ List.mem_map.2 ⟨s', hs', rfl⟩)
    · obtain ⟨s, hs, e⟩ := List.mem_map.1 hx
      simp only [List.map_cons, List.map_nil, List.mem_singleton] at hy
      exact shardFile_ne_procFile _ _ _ (e.trans hy)
    · obtain ⟨s, hs, e⟩ := List.mem_map.1 hy
      simp only [List.map_cons, List.map_nil, List.mem_singleton] at hx
      exact shardFile_ne_procFile _ _ _ (e.trans hx)
    · simp only [List.map_cons, List.map_nil, List.mem_singleton] at hx hy
      exact hij (procFile_injective (hx.symm.trans hy)).1

section saved
variable {n : Nat} {shards : Nat → List (Nat × T)} {text : Nat → T} {d : Dir T}

theorem SavedBy.proc (h : SavedBy n shards text d) (hd : ShardsDistinct n shards) {i : Nat} (hi : i < n) :
    d.read (procFile i n) = some (text i) := by
  obtain ⟨ws, hp, rfl⟩ := h
  refine read_writes_mem ws [] ((hp.map _).nodup_iff.2 (names_nodup text hd)) (hp.mem_iff.2 ?_)
  exact List.mem_flatMap.2 ⟨i, List.mem_range.2 hi, by simp [writesOf]⟩

theorem SavedBy.shard (h : SavedBy n shards text d) (hd : ShardsDistinct n shards) {i k : Nat} {t : T} (hi : i < n)
    (hk : (k, t) ∈ shards i) : d.read (shardFile k) = some t := by
  obtain ⟨ws, hp, rfl⟩ := h
  refine read_writes_mem ws [] ((hp.map _).nodup_iff.2 (names_nodup text hd)) (hp.mem_iff.2 ?_)
  exact List.mem_flatMap.2 ⟨i, List.mem_range.2 hi, List.mem_append_left _ (List.mem_map.2 ⟨_, hk, rfl⟩)⟩

theorem SavedBy.files (h : SavedBy n shards text d) {f : List Char × T} (hf : f ∈ d) :
    ∃ i, i < n ∧ (f.1 = procFile i n ∨ ∃ k t, (k, t) ∈ shards i ∧ f.1 = shardFile k) := by
  obtain ⟨ws, hp, rfl⟩ := h
  rcases mem_writes ws [] hf with hf | hf
  · obtain ⟨i, hi, hf⟩ := List.mem_flatMap.1 (hp.mem_iff.1 hf)
    refine ⟨i, List.mem_range.1 hi, ?_⟩
    rcases List.mem_append.1 hf with hf | hf
    · obtain ⟨s, hs, rfl⟩ := List.mem_map.1 hf
      exact Or.inr ⟨s.1, s.2, hs, rfl⟩
    · rw [List.mem_singleton] at hf
      exact Or.inl (by rw [hf])
  · cases hf

theorem SavedBy.count (h : SavedBy n shards text d) (hd : ShardsDistinct n shards) (hn : 0 < n) : checkpointCount d = .ok n := by
  refine checkpointCount_eq ?_ ⟨0, text 0, mem_of_read (h.proc hd hn)⟩
  intro f hf
  obtain ⟨i, _, h | ⟨k, _, _, h⟩⟩ := h.files hf
  · exact Or.inl ⟨i, h⟩
  · exact Or.inr ⟨k, h⟩

/-- Each process restores what it saved, in whatever order the processes wrote their files; also elastic iterators. -/
theorem checkpoint_restores_saved (h : SavedBy n shards text d) (hd : ShardsDistinct n shards) {i : Nat} (hi : i < n)
    (elastic : Option (Nat × Nat)) (F : Nat) : restoreCheckpoint F d i n elastic = some (.ok (.state (text i))) := by
  unfold restoreCheckpoint
  rw [h.proc hd hi]
  cases elastic with
  | none => rfl
  | some p => simp only [h.count hd (by omega), ne_eq, not_true, if_false]

/-- Restoring with another number of processes, or in a process that did not save, is detected: `ValueError`.  (This is also what
happens to an elastic iterator over a `MapDataset`, although its state would fit any number of processes.) -/
theorem checkpoint_other_count_detected (h : SavedBy n shards text d) {i m : Nat} (hm : m ≠ n ∨ n ≤ i) (F : Nat) :
    restoreCheckpoint F d i m none = some (.error .valueError) := by
  unfold restoreCheckpoint
  cases hr : d.read (procFile i m) with
  | none => rfl
  | some t =>
    obtain ⟨j, hj, h1 | ⟨k, _, _, h1⟩⟩ := h.files (mem_of_read hr)
    · obtain ⟨h2, h3⟩ := procFile_injective h1
      omega
    · exact absurd h1.symm (shardFile_ne_procFile _ _ _)

/-- An elastic iterator restored with another number of processes gets the shard states: process `si` of `sc` gets those with the
numbers `si`, `si + sc`, `si + 2 sc`, ..., in this order, each with the text saved for it.  The shards are numbered without gaps
(as `get_shard_states` numbers them when all hosts have the datasets `host::hosts`). -/
theorem checkpoint_elastic_shards (h : SavedBy n shards text d) (hd : ShardsDistinct n shards) (hn : 0 < n) {m : Nat} (hm : m ≠ n)
    {K : Nat} (hK : ∀ k, k < K ↔ ∃ i t, i < n ∧ (k, t) ∈ shards i) {si sc : Nat} (hs : si < sc) (i : Nat) {F : Nat} (hF : K < F) :
    ∃ l, restoreCheckpoint F d i m (some (si, sc)) = some (.ok (.shards l)) ∧ l.Pairwise (fun a b => a.1 < b.1) ∧
      (∀ k, k % sc = si ∧ k < K ↔ ∃ t, (k, t) ∈ l) ∧ ∀ k t, (k, t) ∈ l → ∃ i, i < n ∧ (k, t) ∈ shards i := by
  have hread : ∀ k, k < K → ∃ i t, i < n ∧ (k, t) ∈ shards i ∧ d.read (shardFile k) = some t := by
    intro k hk
    obtain ⟨i, t, hi, ht⟩ := (hK k).1 hk
    exact ⟨i, t, hi, ht, h.shard hd hi ht⟩
  have hnone : ∀ k, K ≤ k → d.read (shardFile k) = none := by
    intro k hk
    cases hr : d.read (shardFile k) with
    | none => rfl
    | some t =>
      obtain ⟨j, hj, h1 | ⟨k', t', hkt, h1⟩⟩ := h.files (mem_of_read hr)
      · exact absurd h1 (shardFile_ne_procFile _ _ _)
      · have := shardFile_injective h1
        subst this
        have := (hK k).2 ⟨j, t', hj, hkt⟩
        omega
  have key : ∀ (F k : Nat), k % sc = si → 0 < F → K < F + k → ∃ l, readShards d sc F k = some l ∧ l.Pairwise (fun a b => a.1 < b.1) ∧
      (∀ k', (k ≤ k' ∧ k' % sc = si ∧ k' < K) ↔ ∃ t, (k', t) ∈ l) ∧ ∀ k t, (k, t) ∈ l → ∃ i, i < n ∧ (k, t) ∈ shards i := by
    intro F
    induction F with
    | zero =>
      intro k hk h0 hF
      omega
    | succ F ih =>
      intro k hk h0 hF
      by_cases hlt : k < K
      · obtain ⟨j, t, hj, hkt, hr⟩ := hread k hlt
        obtain ⟨l, l1, l2, l3, l4⟩ := ih (k + sc) (by rw [Nat.add_mod_right]; exact hk) (by omega) (by omega)
        refine ⟨(k, t) :: l, by simp only [readShards, hr, l1, Option.map_some], ?_, ?_, ?_⟩
        · refine List.pairwise_cons.2 ⟨?_, l2⟩
          rintro ⟨k', t'⟩ hm'
          have := ((l3 k').2 ⟨t', hm'⟩).1
          dsimp only
          omega
        · intro k'
          constructor
          · rintro ⟨a1, a2, a3⟩
            by_cases he : k' = k
            · exact ⟨t, by rw [he]; exact List.mem_cons_self ..⟩
            · obtain ⟨t', ht'⟩ := (l3 k').1 ⟨by
                have h1 := Nat.div_add_mod k sc
                have h2 := Nat.div_add_mod k' sc
                rw [hk] at h1
                rw [a2] at h2
                have h3 : k / sc < k' / sc := by
                  apply Nat.lt_of_not_le
                  intro hle
                  have := Nat.mul_le_mul_left sc hle
                  omega
                have h4 := Nat.mul_le_mul_left sc (Nat.succ_le_of_lt h3)
                rw [Nat.succ_eq_add_one, Nat.mul_add, Nat.mul_one] at h4
                omega, a2, a3⟩
              exact ⟨t', List.mem_cons_of_mem _ ht'⟩
          · rintro ⟨t', ht'⟩
            rcases List.mem_cons.1 ht' with ht' | ht'
            · cases ht'
              exact ⟨Nat.le_refl _, hk, hlt⟩
            · have := (l3 k').2 ⟨t', ht'⟩
              exact ⟨by omega, this.2⟩
        · intro k' t' ht'
          rcases List.mem_cons.1 ht' with ht' | ht'
          · cases ht'
            exact ⟨j, hj, hkt⟩
          · exact l4 k' t' ht'
      · refine ⟨[], by simp only [readShards, hnone k (by omega)], List.Pairwise.nil, ?_, by intro k t h; cases h⟩
        intro k'
        constructor
        · rintro ⟨a1, _, a3⟩
          omega
        · rintro ⟨t, ht⟩
          cases ht
  obtain ⟨l, l1, l2, l3, l4⟩ := key F si (Nat.mod_eq_of_lt hs) (by omega) (by omega)
  refine ⟨l, ?_, l2, ?_, l4⟩
  · unfold restoreCheckpoint
    simp only [h.count hd hn, ne_eq, hm, not_false_eq_true, if_true, l1, Option.map_some]
  · intro k
    rw [← l3 k]
    constructor
    · rintro ⟨a1, a2⟩
      refine ⟨?_, a1, a2⟩
      have := Nat.mod_le k sc
      omega
    · rintro ⟨_, a1, a2⟩
      exact ⟨a1, a2⟩

end saved

/-- False of the code: an elastic iterator restored from a directory without any checkpoint reports no error; it is left without
shard states. -/
theorem elastic_restore_without_checkpoint (i n si sc F : Nat) (hn : n ≠ 0) :
    restoreCheckpoint (T := T) (F + 1) [] i n (some (si, sc)) = some (.ok (.shards [])) := by
  have : checkpointCount ([] : Dir T) = .ok 0 := rfl
  simp [restoreCheckpoint, this, hn, readShards, Dir.read]

/-- False of the code: when a directory is used again by a run with another number of processes, the files of the first run stay and
a run with its number of processes restores its old states without an error. -/
theorem reused_directory_restores_old {n m : Nat} {shards : Nat → List (Nat × T)} {text text' : Nat → T} {d : Dir T}
    (h : SavedBy n shards text d) (hd : ShardsDistinct n shards) (hm : m ≠ n) {i : Nat} (hi : i < n) (F : Nat) :
    restoreCheckpoint F ((List.range m).foldl (fun d j => saveCheckpoint d j m [] (text' j)) d) i n none =
      some (.ok (.state (text i))) := by
  have key : ∀ (l : List Nat) (d : Dir T), (l.foldl (fun d j => saveCheckpoint d j m [] (text' j)) d).read (procFile i n) = d.read (procFile i n) := by
    intro l
    induction l with
    | nil => intro d; rfl
    | cons j l ih =>
      intro d
      rw [List.foldl_cons, ih]
      exact read_write_ne d _ (fun e => hm (procFile_injective e).2.symm)
  unfold restoreCheckpoint
  rw [key, h.proc hd hi]

/-- Two processes of an elastic iterator with the shards 0, 1, 2. -/
def ckDemo : Dir Nat := saveCheckpoint (saveCheckpoint [] 1 2 [(1, 101)] 11) 0 2 [(0, 100), (2, 102)] 10

example : SavedBy 2 (fun i => if i = 0 then [(0, 100), (2, 102)] else [(1, 101)]) (fun i => 10 + i) ckDemo :=
  ⟨writesOf 1 2 [(1, 101)] 11 ++ writesOf 0 2 [(0, 100), (2, 102)] 10, List.perm_append_comm, by
    unfold ckDemo
    rw [saveCheckpoint_writes, saveCheckpoint_writes]
    rfl⟩
example : ShardsDistinct 2 (fun i => if i = 0 then [(0, 100), (2, 102)] else [(1, 101)]) := by
  unfold ShardsDistinct
  decide
example : ∀ k, k < 3 ↔ ∃ i t, i < 2 ∧ (k, t) ∈ (fun i => if i = 0 then [(0, 100), (2, 102)] else [(1, 101)] : Nat → List (Nat × Nat)) i := by
  intro k
  constructor
  · intro h
    have : k = 0 ∨ k = 1 ∨ k = 2 := by omega
    rcases this with rfl | rfl | rfl
    · exact ⟨0, 100, by decide, by decide⟩
    · exact ⟨1, 101, by decide, by decide⟩
    · exact ⟨0, 102, by decide, by decide⟩
  · rintro ⟨i, t, hi, hk⟩
    dsimp only at hk
    split at hk <;> simp at hk <;> omega

end Grain
