import Verif.Loader.PropsSampler
import Mathlib.Tactic.Choose
/-
Property C40 for `IndexSampler`.
-/
namespace Grain

/-- C40: what the constructor rejects. -/
theorem indexSampler_rejects (keysOf : Nat → List (BitVec 32)) (n : Int) (o : Option ShardOptions) (shuffle : Bool)
    (epochs seed : Option Int) :
    (n ≤ 0 ∨ (∃ e, epochs = some e ∧ e ≤ 0) ∨ (shuffle = true ∧ seed = none) ∨ (∃ s, seed = some s ∧ (s < 0 ∨ s ≥ 2 ^ 32))) ↔
      ∃ e, indexSampler keysOf n o shuffle epochs seed = .error e := by
  constructor
  · intro h
    refine ⟨.valueError, ?_⟩
    unfold indexSampler
    by_cases h1 : n ≤ 0
    · rw [if_pos h1]
    rw [if_neg h1]
    by_cases h2 : ∃ e ∈ epochs, e ≤ 0
    · rw [if_pos h2]
    rw [if_neg h2]
    by_cases h3 : shuffle = true ∧ seed = none
    · rw [if_pos h3]
    rw [if_neg h3]
    rw [if_pos]
    rcases h with h | ⟨e, h, h'⟩ | h | ⟨s, h, h'⟩
    · exact absurd h h1
    · exact absurd ⟨e, h, h'⟩ h2
    · exact absurd h h3
    · exact ⟨s, h, h'⟩
  · rintro ⟨e, h⟩
    by_contra hc
    push Not at hc
    obtain ⟨c1, c2, c3, c4⟩ := hc
    obtain ⟨N, rfl⟩ : ∃ N : Nat, n = (N : Int) := ⟨n.toNat, by omega⟩
    unfold indexSampler at h
    rw [if_neg (by omega), if_neg, if_neg (by rintro ⟨a, b⟩; exact c3 a b), if_neg, range_make] at h
    · cases h
    · rintro ⟨s, h1, h2⟩; have := c4 s h1; omega
    · rintro ⟨s, h1, h2⟩; have := c2 s h1; omega

/-- Everything about the sampler once its arguments are accepted. -/
theorem indexSampler_ok (keysOf : Nat → List (BitVec 32)) (N : Nat) (hN : 0 < N) (o : Option ShardOptions) (shuffle : Bool)
    (epochs : Option Nat) (hE : epochs ≠ some 0) (seed : Option Nat) (hseed : ∀ s, seed = some s → s < 2 ^ 32)
    (hsh : shuffle = true → seed.isSome) :
    ∃ s, indexSampler keysOf N o shuffle (epochs.map Int.ofNat) (seed.map Int.ofNat) = .ok s ∧
      (∀ i : Int, s.get i = if i < 0 ∨ (∃ m ∈ indexMax N o (epochs.map Int.ofNat), i ≥ m) then .error .indexError
        else do
          let key ← (recordKeys keysOf (rangeN N) o shuffle (seed.getD 0)).getitem (i / (((o.map (·.shardCount)).getD 1 : Nat) : Int))
          .ok ⟨i, key, (seed.map Int.ofNat).map (· + i)⟩) ∧
      samplerSize s = .ok (match indexMax N o (epochs.map Int.ofNat) with | none => maxsize | some m => m.toNat) := by
  have hs : ((seed.map Int.ofNat).getD 0).toNat = seed.getD 0 := by cases seed <;> simp
  refine ⟨indexSamplerObj (recordKeys keysOf (rangeN N) o shuffle (seed.getD 0)) (indexMax N o (epochs.map Int.ofNat))
    ((o.map (·.shardCount)).getD 1 : Nat) (seed.map Int.ofNat), ?_, fun _ => rfl, rfl⟩
  · unfold indexSampler
    rw [if_neg (by omega), if_neg, if_neg, if_neg, range_make]
    · simp only [Bind.bind, Except.bind, hs]
      rfl
    · rintro ⟨s, h1, h2⟩
      cases seed with
      | none => simp at h1
      | some s' =>
        have := hseed s' rfl
        simp only [Option.map_some, Option.mem_def, Option.some.injEq] at h1
        subst h1
        simp only [Int.ofNat_eq_natCast] at h2
        omega
    · rintro ⟨a, b⟩
      have := hsh a
      cases seed <;> simp_all
    · rintro ⟨e, h1, h2⟩
      cases epochs with
      | none => simp at h1
      | some e' =>
        simp only [Option.map_some, Option.mem_def, Option.some.injEq] at h1
        subst h1
        have : e' ≠ 0 := fun h => hE (by rw [h])
        simp only [Int.ofNat_eq_natCast] at h2
        omega

theorem evenSplit_interval {n j sc : Nat} {drop : Bool} (hj : j < sc) :
    ∃ start, evenSplit n ⟨j, sc, drop⟩ = (start, start + shardLen n ⟨j, sc, drop⟩) ∧ start + shardLen n ⟨j, sc, drop⟩ ≤ n ∧
      shardLen n ⟨j, sc, drop⟩ = n / sc + (if j < n % sc ∧ drop = false then 1 else 0) := by
  obtain ⟨h1, h2, _⟩ := evenSplit_bounds n sc j drop hj
  refine ⟨(evenSplit n ⟨j, sc, drop⟩).1, ?_, ?_, ?_⟩
  · unfold shardLen
    rw [show (evenSplit n ⟨j, sc, drop⟩).1 + ((evenSplit n ⟨j, sc, drop⟩).2 - (evenSplit n ⟨j, sc, drop⟩).1) = (evenSplit n ⟨j, sc, drop⟩).2 by omega]
  · unfold shardLen; omega
  · have : shardLen n ⟨j, sc, drop⟩ = (interval (evenSplit n ⟨j, sc, drop⟩)).length := by simp [shardLen, interval]
    rw [this]
    cases drop
    · rw [evenSplit_size n sc j hj]; simp
    · rw [(evenSplit_size_drop n sc j (by omega)).1]; simp

/-- Number of entries of the sampler. -/
theorem indexMax_eq (N E j sc : Nat) (hj : j < sc) (drop : Bool) :
    indexMax N (some ⟨j, sc, drop⟩) (some (E : Int)) = some ((if drop then E * (N / sc * sc) else E * N : Nat) : Int) := by
  obtain ⟨st, h1, h2, h3⟩ := evenSplit_interval (n := N) (drop := drop) hj
  simp only [indexMax, Int.toNat_natCast, h1]
  cases drop
  · simp
  · simp only [if_true, Option.some.injEq]
    rw [show st + shardLen N ⟨j, sc, true⟩ - st = N / sc by rw [h3]; simp]
    have : N / sc * sc ≤ N := Nat.div_mul_le_self _ _
    have h5 : E * (N / sc * sc) ≤ E * N := Nat.mul_le_mul_left _ this
    have h6 : (E : Int) * (N : Int) = ((E * N : Nat) : Int) := by push_cast; rfl
    have h7 : ((N / sc : Nat) : Int) * (sc : Int) * (E : Int) = ((E * (N / sc * sc) : Nat) : Int) := by
      push_cast; rw [Int.mul_comm]
    rw [h6, h7]
    omega

/-- The number of records shard `j` reads in all. -/
theorem index_len (N E j sc : Nat) (hj : j < sc) (drop : Bool) (heven : drop = true ∨ N % sc = 0 ∨ E = 1) :
    samplerDsLen (if drop then E * (N / sc * sc) else E * N) ⟨j, sc, drop⟩ = E * shardLen N ⟨j, sc, drop⟩ := by
  obtain ⟨st, _, _, h3⟩ := evenSplit_interval (n := N) (drop := drop) hj
  rw [h3]
  unfold samplerDsLen
  cases drop
  · simp only [Bool.false_eq_true, if_false, false_or, and_true] at heven ⊢
    rcases heven with h | h
    · have hN := Nat.div_add_mod N sc
      rw [h, Nat.add_zero] at hN
      rw [h]
      have : E * N = E * (N / sc) * sc := by
        conv => lhs; rw [← hN]
        rw [Nat.mul_assoc, Nat.mul_comm sc]
      rw [this, Nat.mul_div_cancel _ (by omega), Nat.mul_mod_left]
      simp
    · subst h; simp
  · simp only [if_true]
    rw [← Nat.mul_assoc, Nat.mul_div_cancel _ (by omega)]
    simp

theorem mapM_some_length : ∀ (l : List γ) (f : γ → Option β) (ys : List β), l.mapM f = some ys → ys.length = l.length := by
  intro l
  induction l with
  | nil => intro f ys h; cases h; rfl
  | cons a l ih =>
    intro f ys h
    rw [List.mapM_cons] at h
    cases hf : f a with
    | none => rw [hf] at h; cases h
    | some b =>
      rw [hf] at h
      cases hl : l.mapM f with
      | none => rw [hl] at h; cases h
      | some bs => rw [hl] at h; cases h; simp [ih f bs hl]

theorem shardKeys_length {s : Sampler} {o : ShardOptions} {size : Nat} {ks : List Int} (h : shardKeys s o size = some ks) :
    ks.length = samplerDsLen size o := by
  simpa using mapM_some_length _ _ _ h

/-- C40, one shard, always (also without end: `epochs = none`): cut in parts of the shard's length, the keys the shard reads
are, in every complete part, a rearrangement of its interval of `even_split` (the interval itself without shuffling). -/
theorem indexSampler_shard_epochs (keysOf : Nat → List (BitVec 32)) (N : Nat) (hN : 0 < N) (j sc : Nat) (hj : j < sc) (drop shuffle : Bool)
    (epochs : Option Nat) (hE : epochs ≠ some 0) (seed : Option Nat) (hseed : ∀ s, seed = some s → s < 2 ^ 32)
    (hsh : shuffle = true → seed.isSome) (hlen : 0 < shardLen N ⟨j, sc, drop⟩)
    (hgood : shuffle = true → shardLen N ⟨j, sc, drop⟩ ≤ 2 ^ 64 ∧ ¬ BadLength (shardLen N ⟨j, sc, drop⟩)) :
    ∃ s size keys, indexSampler keysOf N (some ⟨j, sc, drop⟩) shuffle (epochs.map Int.ofNat) (seed.map Int.ofNat) = .ok s ∧
      samplerSize s = .ok size ∧ shardKeys s ⟨j, sc, drop⟩ size = some keys ∧
      (∀ E, epochs = some E → size = if drop then E * (N / sc * sc) else E * N) ∧
      (∀ k ∈ keys, k ∈ (interval (evenSplit N ⟨j, sc, drop⟩)).map Int.ofNat) ∧
      ∀ e, (e + 1) * shardLen N ⟨j, sc, drop⟩ ≤ keys.length →
        (part keys (shardLen N ⟨j, sc, drop⟩) e).Perm ((interval (evenSplit N ⟨j, sc, drop⟩)).map Int.ofNat) ∧
        (shuffle = false → part keys (shardLen N ⟨j, sc, drop⟩) e = (interval (evenSplit N ⟨j, sc, drop⟩)).map Int.ofNat) := by
  obtain ⟨s, h1, h2, h3⟩ := indexSampler_ok keysOf N hN (some ⟨j, sc, drop⟩) shuffle epochs hE seed hseed hsh
  obtain ⟨start, hs, hle, _⟩ := evenSplit_interval (n := N) (drop := drop) hj
  generalize hL : shardLen N ⟨j, sc, drop⟩ = len at *
  have hint : interval (evenSplit N ⟨j, sc, drop⟩) = List.range' start len := by simp [interval, hs]
  rw [hint]
  have hep := recordKeys_epoch keysOf N (some ⟨j, sc, drop⟩) shuffle (seed.getD 0) start len hs hle hlen hgood
  choose ks hk1 hk2 hk3 using hep
  have hkl : ∀ e, (ks e).length = len := fun e => by simpa using (hk1 e).length_eq
  let size := match indexMax N (some ⟨j, sc, drop⟩) (epochs.map Int.ofNat) with | none => maxsize | some m => m.toNat
  let g : Nat → Int := fun k => (((ks ((k / len : Nat) : Int))[k % len]'(by rw [hkl]; exact Nat.mod_lt _ hlen) : Nat) : Int)
  have hget : ∀ k, k < samplerDsLen size ⟨j, sc, drop⟩ →
      ∃ m, s.get ((k : Int) * (sc : Int) + (j : Int)) = .ok m ∧ m.key = some (g k) := by
    intro k hk
    have hlt := samplerDsLen_lt hj hk
    rw [h2, if_neg]
    · have hdiv : ((k : Int) * (sc : Int) + (j : Int)) / ((((some (⟨j, sc, drop⟩ : ShardOptions)).map (·.shardCount)).getD 1 : Nat) : Int) = (k : Int) := by
        simp only [Option.map_some, Option.getD_some]
        exact ediv_mul_add _ _ _ hj
      rw [hdiv]
      have hkk : (k : Int) = ((k / len : Nat) : Int) * (len : Int) + ((k % len : Nat) : Int) := by
        have := Nat.div_add_mod k len
        rw [Nat.mul_comm] at this
        exact_mod_cast this.symm
      have := hk3 ((k / len : Nat) : Int) (k % len) (Nat.mod_lt _ hlen) (by rw [hkl]; exact Nat.mod_lt _ hlen)
      rw [← hkk] at this
      exact ⟨_, by rw [this]; rfl, rfl⟩
    · rintro (hc | ⟨m, hm, hc⟩)
      · have := Int.mul_nonneg (Int.natCast_nonneg k) (Int.natCast_nonneg sc)
        omega
      · rw [Option.mem_def] at hm
        have hsz : size = m.toNat := by simp only [size, hm]
        rw [hsz] at hlt
        have : ((k * sc + j : Nat) : Int) = (k : Int) * (sc : Int) + (j : Int) := by push_cast; rfl
        omega
  have hkeys := shardKeys_eq g hget
  refine ⟨s, size, _, h1, h3, hkeys, ?_, ?_, ?_⟩
  · intro E hE'
    subst hE'
    have := indexMax_eq N E j sc hj drop
    simp only [size, Option.map_some, Int.ofNat_eq_natCast, this, Int.toNat_natCast]
  · intro k hk
    obtain ⟨i, _, rfl⟩ := List.mem_map.1 hk
    refine List.mem_map.2 ⟨_, ?_, rfl⟩
    exact (hk1 _).mem_iff.1 (List.getElem_mem _)
  · intro e he
    rw [List.length_map, List.length_range] at he
    have hpart : part ((List.range (samplerDsLen size ⟨j, sc, drop⟩)).map g) len e = (ks ((e : Nat) : Int)).map Int.ofNat := by
      unfold part
      apply List.ext_getElem
      · simp only [List.length_take, List.length_drop, List.length_map, List.length_range, hkl]
        rw [Nat.add_mul] at he
        omega
      · intro i g1 g2
        have hi : i < len := by simpa [hkl] using g2
        simp only [List.getElem_take, List.getElem_drop, List.getElem_map, List.getElem_range, g]
        have e1 : (e * len + i) / len = e := by
          rw [Nat.mul_comm, Nat.mul_add_div hlen, Nat.div_eq_of_lt hi, Nat.add_zero]
        have e2 : (e * len + i) % len = i := by
          rw [Nat.mul_comm, Nat.mul_add_mod, Nat.mod_eq_of_lt hi]
        simp only [e1, e2]
        rfl
    rw [hpart]
    exact ⟨(hk1 _).map _, fun h => by rw [hk2 _ h]⟩

/-- C40, all shards: if the remainder is dropped, or the records divide evenly, or there is one epoch only, then every
shard reads exactly `E` parts of its shard's length, and for each epoch the parts of all shards together contain every record
exactly once (with `drop_remainder`: every record of the first `N / sc * sc`).  The full statement would drop `heven` and the
conditions on the shard lengths; it is false without them: `indexSampler_uneven_epochs`, `indexSampler_empty_shard`, C02. -/
theorem indexSampler_exactly_once_partial (keysOf : Nat → List (BitVec 32)) (N : Nat) (hN : 0 < N) (sc : Nat) (hsc : 0 < sc) (drop shuffle : Bool)
    (E : Nat) (hE : 0 < E) (seed : Option Nat) (hseed : ∀ s, seed = some s → s < 2 ^ 32)
    (hsh : shuffle = true → seed.isSome) (heven : drop = true ∨ N % sc = 0 ∨ E = 1)
    (hlen : ∀ j, j < sc → 0 < shardLen N ⟨j, sc, drop⟩)
    (hgood : shuffle = true → ∀ j, j < sc → shardLen N ⟨j, sc, drop⟩ ≤ 2 ^ 64 ∧ ¬ BadLength (shardLen N ⟨j, sc, drop⟩)) :
    ∃ keys : Nat → List Int,
      (∀ j, j < sc → ∃ s size, indexSampler keysOf N (some ⟨j, sc, drop⟩) shuffle (some (E : Int)) (seed.map Int.ofNat) = .ok s ∧
        samplerSize s = .ok size ∧ shardKeys s ⟨j, sc, drop⟩ size = some (keys j) ∧
        (keys j).length = E * shardLen N ⟨j, sc, drop⟩) ∧
      ∀ e, e < E → ((List.range sc).flatMap (fun j => part (keys j) (shardLen N ⟨j, sc, drop⟩) e)).Perm
        ((List.range (if drop then N / sc * sc else N)).map Int.ofNat) := by
  have key : ∀ j, ∃ ks : List Int, j < sc → ∃ s size, indexSampler keysOf N (some ⟨j, sc, drop⟩) shuffle (some (E : Int)) (seed.map Int.ofNat) = .ok s ∧
        samplerSize s = .ok size ∧ shardKeys s ⟨j, sc, drop⟩ size = some ks ∧ ks.length = E * shardLen N ⟨j, sc, drop⟩ ∧
        ∀ e, (e + 1) * shardLen N ⟨j, sc, drop⟩ ≤ ks.length →
          (part ks (shardLen N ⟨j, sc, drop⟩) e).Perm ((interval (evenSplit N ⟨j, sc, drop⟩)).map Int.ofNat) := by
    intro j
    by_cases hj : j < sc
    · obtain ⟨s, size, ks, h1, h2, h3, h4, _, h5⟩ := indexSampler_shard_epochs keysOf N hN j sc hj drop shuffle (some E)
        (by simp; omega) seed hseed hsh (hlen j hj) (fun h => hgood h j hj)
      refine ⟨ks, fun _ => ⟨s, size, h1, h2, h3, ?_, fun e he => (h5 e he).1⟩⟩
      rw [shardKeys_length h3, h4 E rfl, index_len N E j sc hj drop heven]
    · exact ⟨[], fun h => absurd h hj⟩
  choose keys hk using key
  refine ⟨keys, ?_, ?_⟩
  · intro j hj
    obtain ⟨s, size, h1, h2, h3, h4, _⟩ := hk j hj
    exact ⟨s, size, h1, h2, h3, h4⟩
  · intro e he
    have hpe : ∀ l : List Nat, (∀ j ∈ l, j < sc) →
        (l.flatMap (fun j => part (keys j) (shardLen N ⟨j, sc, drop⟩) e)).Perm
          (l.flatMap (fun j => (interval (evenSplit N ⟨j, sc, drop⟩)).map Int.ofNat)) := by
      intro l
      induction l with
      | nil => intro _; exact List.Perm.refl _
      | cons j l ih =>
        intro hl
        rw [List.flatMap_cons, List.flatMap_cons]
        obtain ⟨s, size, _, _, _, h4, h5⟩ := hk j (hl j (by simp))
        exact (h5 e (by rw [h4]; exact Nat.mul_le_mul_right _ he)).append (ih (fun j hj => hl j (by simp [hj])))
    refine (hpe (List.range sc) (fun j hj => List.mem_range.1 hj)).trans (List.Perm.of_eq ?_)
    rw [← List.map_flatMap]
    congr 1
    cases drop
    · exact evenSplit_partition N sc hsc
    · exact evenSplit_partition_drop N sc

/-- The hypotheses hold for 10 records, 2 shards, 3 shuffled epochs. -/
example (keysOf : Nat → List (BitVec 32)) : ∃ keys : Nat → List Int,
    (∀ j, j < 2 → ∃ s size, indexSampler keysOf 10 (some ⟨j, 2, false⟩) true (some 3) (some 42) = .ok s ∧
        samplerSize s = .ok size ∧ shardKeys s ⟨j, 2, false⟩ size = some (keys j) ∧ (keys j).length = 3 * 5) ∧
    ∀ e, e < 3 → ((List.range 2).flatMap (fun j => part (keys j) 5 e)).Perm ((List.range 10).map Int.ofNat) := by
  have hl : ∀ j, j < 2 → shardLen 10 ⟨j, 2, false⟩ = 5 := by decide
  have hb : ¬ BadLength 5 := by
    rintro ⟨j, h1, h2⟩
    have : 4 ^ 8 ≤ 4 ^ j := Nat.pow_le_pow_right (by decide) h1
    omega
  obtain ⟨keys, h1, h2⟩ := indexSampler_exactly_once_partial keysOf 10 (by decide) 2 (by decide) false true 3 (by decide)
    (some 42) (by decide) (by decide) (by decide) (by decide) (by
      intro _ j hj
      rw [hl j hj]
      exact ⟨by decide, hb⟩)
  refine ⟨keys, ?_, ?_⟩
  · intro j hj
    obtain ⟨s, size, a, b, c, d⟩ := h1 j hj
    exact ⟨s, size, a, b, c, by rw [d, hl j hj]⟩
  · intro e he
    have := h2 e he
    simp only [show List.range 2 = [0, 1] from rfl, List.flatMap_cons, List.flatMap_nil, hl 0 (by decide), hl 1 (by decide)] at this ⊢
    exact this

/-- C40 for a sampler without sharding under a sharded data loader (the documented way): shard `j` reads every `sc`-th entry
of the same sequence of `E * N` keys, each epoch of which is a rearrangement of all records; so every epoch contains every
record exactly once, for all `N`, `sc`, `E`; with `drop_remainder` fewer than `sc` entries at the end of the last epoch are
left out. -/
theorem indexSampler_loader_sharded (keysOf : Nat → List (BitVec 32)) (N : Nat) (hN : 0 < N) (sc : Nat) (hsc : 0 < sc) (drop shuffle : Bool)
    (E : Nat) (hE : 0 < E) (seed : Option Nat) (hseed : ∀ s, seed = some s → s < 2 ^ 32)
    (hsh : shuffle = true → seed.isSome) (hgood : shuffle = true → N ≤ 2 ^ 64 ∧ ¬ BadLength N) :
    ∃ s keys, indexSampler keysOf N none shuffle (some (E : Int)) (seed.map Int.ofNat) = .ok s ∧ samplerSize s = .ok (E * N) ∧
      keys.length = E * N ∧
      (∀ e, e < E → (part keys N e).Perm ((List.range N).map Int.ofNat)) ∧
      (∀ j, j < sc → shardKeys s ⟨j, sc, drop⟩ (E * N) =
        some (everyNth sc j (if drop then keys.take (E * N / sc * sc) else keys))) ∧
      (((List.range sc).flatMap (fun j => everyNth sc j (if drop then keys.take (E * N / sc * sc) else keys))).Perm
        (if drop then keys.take (E * N / sc * sc) else keys)) ∧
      E * N - E * N / sc * sc < sc := by
  obtain ⟨s, h1, h2, h3⟩ := indexSampler_ok keysOf N hN none shuffle (some E) (by simp; omega) seed hseed hsh
  have hep := recordKeys_epoch keysOf N none shuffle (seed.getD 0) 0 N ⟨rfl, rfl⟩ (by omega) hN hgood
  choose ks hk1 hk2 hk3 using hep
  have hkl : ∀ e, (ks e).length = N := fun e => by simpa using (hk1 e).length_eq
  have hmax : indexMax N none ((some E).map Int.ofNat) = some ((E * N : Nat) : Int) := by simp [indexMax]
  rw [hmax] at h2 h3
  let g : Nat → Int := fun k => (((ks ((k / N : Nat) : Int))[k % N]'(by rw [hkl]; exact Nat.mod_lt _ hN) : Nat) : Int)
  have hget : ∀ k : Nat, k < E * N → ∃ m, s.get (k : Int) = .ok m ∧ m.key = some (g k) := by
    intro k hk
    rw [h2, if_neg]
    · simp only [Option.map_none, Option.getD_none, Int.natCast_one, Int.ediv_one]
      have hkk : (k : Int) = ((k / N : Nat) : Int) * (N : Int) + ((k % N : Nat) : Int) := by
        have := Nat.div_add_mod k N
        rw [Nat.mul_comm] at this
        exact_mod_cast this.symm
      have := hk3 ((k / N : Nat) : Int) (k % N) (Nat.mod_lt _ hN) (by rw [hkl]; exact Nat.mod_lt _ hN)
      rw [← hkk] at this
      exact ⟨_, by rw [this]; rfl, rfl⟩
    · rintro (hc | ⟨m, hm, hc⟩)
      · omega
      · simp only [Option.mem_def, Option.some.injEq] at hm
        omega
  refine ⟨s, (List.range (E * N)).map g, h1, by rw [h3]; rfl, by simp, ?_, ?_, everyNth_perm hsc _, ?_⟩
  · intro e he
    have hle : (e + 1) * N ≤ E * N := Nat.mul_le_mul_right _ he
    have hpart : part ((List.range (E * N)).map g) N e = (ks ((e : Nat) : Int)).map Int.ofNat := by
      unfold part
      apply List.ext_getElem
      · simp only [List.length_take, List.length_drop, List.length_map, List.length_range, hkl]
        rw [Nat.add_mul] at hle
        omega
      · intro i g1 g2
        have hi : i < N := by simpa [hkl] using g2
        simp only [List.getElem_take, List.getElem_drop, List.getElem_map, List.getElem_range, g]
        have e1 : (e * N + i) / N = e := by
          rw [Nat.mul_comm, Nat.mul_add_div hN, Nat.div_eq_of_lt hi, Nat.add_zero]
        have e2 : (e * N + i) % N = i := by
          rw [Nat.mul_comm, Nat.mul_add_mod, Nat.mod_eq_of_lt hi]
        simp only [e1, e2]
        rfl
    rw [hpart]
    have := (hk1 ((e : Nat) : Int)).map Int.ofNat
    rwa [← List.range_eq_range'] at this
  · intro j hj
    have e1 := everyNth_eq_map (drop := drop) hj ((List.range (E * N)).map g) g (M := E * N) (by simp) (by intro i h; simp)
    rw [shardKeys_eq (fun k => g (k * sc + j)), e1]
    · unfold kept
      rw [List.length_map, List.length_range]
    · intro k hk
      have := hget (k * sc + j) (samplerDsLen_lt hj hk)
      simpa using this
  · have h1 := Nat.div_add_mod (E * N) sc
    have h2 := Nat.mod_lt (E * N) hsc
    rw [Nat.mul_comm sc] at h1
    omega

/-- The hypotheses hold for 7 records, 3 shards, 4 epochs. -/
example (keysOf : Nat → List (BitVec 32)) : ∃ s keys, indexSampler keysOf 7 none false (some 4) (some 1) = .ok s ∧
    samplerSize s = .ok 28 ∧ ∀ e, e < 4 → (part keys 7 e).Perm ((List.range 7).map Int.ofNat) := by
  obtain ⟨s, keys, h1, h2, _, h3, _⟩ := indexSampler_loader_sharded keysOf 7 (by decide) 3 (by decide) true false 4 (by decide) (some 1)
    (by decide) (by decide) (fun h => absurd h (by decide))
  exact ⟨s, keys, h1, h2, h3⟩

/-! ### Where it fails -/

theorem uneven_counts (N E sc : Nat) (hu : N % sc ≠ 0) (hsc : 0 < sc) (hE : 2 ≤ E) :
    ∃ j, j < sc ∧ samplerDsLen (E * N) ⟨j, sc, false⟩ ≠ E * shardLen N ⟨j, sc, false⟩ := by
  have hN := Nat.div_add_mod N sc
  have hr : N % sc < sc := Nat.mod_lt _ hsc
  have e1 : E * N = sc * (E * (N / sc)) + E * (N % sc) := by
    conv => lhs; rw [← hN]
    rw [Nat.mul_add, ← Nat.mul_assoc, ← Nat.mul_assoc, Nat.mul_comm E sc]
  have hdiv : E * N / sc = E * (N / sc) + E * (N % sc) / sc := by rw [e1, Nat.mul_add_div hsc]
  have hmod : E * N % sc = E * (N % sc) % sc := by rw [e1, Nat.mul_add_mod]
  have e2 : 2 * (N % sc) ≤ E * (N % sc) := Nat.mul_le_mul_right _ hE
  by_cases hcase : E * (N % sc) < sc
  · refine ⟨0, hsc, ?_⟩
    obtain ⟨_, _, _, h3⟩ := evenSplit_interval (n := N) (drop := false) hsc
    rw [h3]
    unfold samplerDsLen
    simp only [Bool.false_eq_true, if_false, hdiv, hmod, Nat.div_eq_of_lt hcase, Nat.mod_eq_of_lt hcase, and_true]
    rw [if_pos (by omega), if_pos (by omega), Nat.mul_add]
    omega
  · refine ⟨sc - 1, by omega, ?_⟩
    obtain ⟨_, _, _, h3⟩ := evenSplit_interval (n := N) (j := sc - 1) (sc := sc) (drop := false) (by omega)
    rw [h3]
    unfold samplerDsLen
    simp only [Bool.false_eq_true, if_false, hdiv, hmod, and_true]
    have h5 : 1 ≤ E * (N % sc) / sc := by
      have := Nat.div_le_div_right (c := sc) (show sc ≤ E * (N % sc) by omega)
      rwa [Nat.div_self hsc] at this
    have h6 := Nat.mod_lt (E * (N % sc)) hsc
    rw [if_neg (by omega), if_neg (by omega)]
    simp only [Nat.add_zero]
    omega

/-- Whenever an unevenly sharded sampler has more than one epoch and the remainder is kept, the shards together do not read
every record `E` times: some records are read more often, others less.  (No record count, shard count or number of epochs
escapes; `sc ≤ N` only says that no shard is empty.) -/
theorem indexSampler_uneven_epochs (keysOf : Nat → List (BitVec 32)) (N sc E : Nat) (hle : sc ≤ N) (hu : N % sc ≠ 0) (hsc : 0 < sc)
    (hE : 2 ≤ E) (shuffle : Bool) (seed : Option Nat) (hseed : ∀ s, seed = some s → s < 2 ^ 32) (hsh : shuffle = true → seed.isSome)
    (hgood : shuffle = true → ∀ j, j < sc → shardLen N ⟨j, sc, false⟩ ≤ 2 ^ 64 ∧ ¬ BadLength (shardLen N ⟨j, sc, false⟩)) :
    ∃ keys : Nat → List Int,
      (∀ j, j < sc → ∃ s size, indexSampler keysOf N (some ⟨j, sc, false⟩) shuffle (some (E : Int)) (seed.map Int.ofNat) = .ok s ∧
        samplerSize s = .ok size ∧ shardKeys s ⟨j, sc, false⟩ size = some (keys j)) ∧
      ¬ ((List.range sc).flatMap keys).Perm ((List.range E).flatMap (fun _ => (List.range N).map Int.ofNat)) := by
  have hpos : ∀ j, j < sc → 0 < shardLen N ⟨j, sc, false⟩ := by
    intro j hj
    obtain ⟨_, _, _, h3⟩ := evenSplit_interval (n := N) (drop := false) hj
    rw [h3]
    have := Nat.div_pos hle hsc
    omega
  have key : ∀ j, ∃ ks : List Int, j < sc → ∃ s size, indexSampler keysOf N (some ⟨j, sc, false⟩) shuffle (some (E : Int)) (seed.map Int.ofNat) = .ok s ∧
        samplerSize s = .ok size ∧ shardKeys s ⟨j, sc, false⟩ size = some ks ∧ ks.length = samplerDsLen (E * N) ⟨j, sc, false⟩ ∧
        ∀ k ∈ ks, k ∈ (interval (evenSplit N ⟨j, sc, false⟩)).map Int.ofNat := by
    intro j
    by_cases hj : j < sc
    · obtain ⟨s, size, ks, h1, h2, h3, h4, h5, _⟩ := indexSampler_shard_epochs keysOf N (by omega) j sc hj false shuffle (some E)
        (by simp; omega) seed hseed hsh (hpos j hj) (fun h => hgood h j hj)
      refine ⟨ks, fun _ => ⟨s, size, h1, h2, h3, ?_, h5⟩⟩
      rw [shardKeys_length h3, h4 E rfl]
      rfl
    · exact ⟨[], fun h => absurd h hj⟩
  choose keys hk using key
  refine ⟨keys, ?_, ?_⟩
  · intro j hj
    obtain ⟨s, size, h1, h2, h3, _⟩ := hk j hj
    exact ⟨s, size, h1, h2, h3⟩
  intro hperm
  obtain ⟨j, hj, hne⟩ := uneven_counts N E sc hu hsc hE
  apply hne
  -- count the keys inside the interval of shard `j`
  let p : Int → Bool := fun k => decide (k ∈ (interval (evenSplit N ⟨j, sc, false⟩)).map Int.ofNat)
  have hcount := hperm.countP_eq p
  have hdisj : ∀ i, i < sc → i ≠ j → ∀ k ∈ keys i, p k = false := by
    intro i hi hij k hk'
    obtain ⟨_, _, _, _, _, _, hm⟩ := hk i hi
    obtain ⟨a, ha, rfl⟩ := List.mem_map.1 (hm k hk')
    simp only [p, decide_eq_false_iff_not, List.mem_map, not_exists, not_and]
    intro b hb hab
    have hab' : b = a := Int.ofNat_inj.1 hab
    subst hab'
    -- the intervals are disjoint since they partition `range N`
    have hnd : ((List.range sc).flatMap (fun i => interval (evenSplit N ⟨i, sc, false⟩))).Nodup := by
      rw [evenSplit_partition N sc hsc]; exact List.nodup_range
    rw [List.nodup_flatMap] at hnd
    have hpw := hnd.2
    rw [List.pairwise_iff_getElem] at hpw
    rcases Nat.lt_or_gt_of_ne hij with h | h
    · have := hpw i j (by simpa using hi) (by simpa using hj) h
      simp only [List.getElem_range] at this
      exact this ha hb
    · have := hpw j i (by simpa using hj) (by simpa using hi) h
      simp only [List.getElem_range] at this
      exact this hb ha
  have hself : ∀ k ∈ keys j, p k = true := by
    intro k hk'
    obtain ⟨_, _, _, _, _, _, hm⟩ := hk j hj
    simpa [p] using hm k hk'
  have hL : ((List.range sc).flatMap keys).countP p = (keys j).length := by
    rw [List.countP_flatMap, Function.comp_def]
    have h1 : ∀ l : List Nat, (∀ i ∈ l, i < sc) → l.Nodup → (l.map (fun i => (keys i).countP p)).sum = if j ∈ l then (keys j).length else 0 := by
      intro l
      induction l with
      | nil => intro _ _; simp
      | cons i l ih =>
        intro hl hnd
        rw [List.map_cons, List.sum_cons, ih (fun i hi => hl i (by simp [hi])) (List.nodup_cons.1 hnd).2]
        by_cases hij : i = j
        · subst hij
          rw [List.countP_eq_length.2 hself, if_neg (List.nodup_cons.1 hnd).1]
          simp
        · rw [List.countP_eq_zero.2 (by
            intro k hk'
            rw [hdisj i (hl i (by simp)) hij k hk']
            simp)]
          have : (j ∈ i :: l) ↔ j ∈ l := by simp [Ne.symm hij]
          simp only [this]
          omega
    rw [h1 _ (fun i hi => List.mem_range.1 hi) List.nodup_range, if_pos (List.mem_range.2 hj)]
  have hR : ((List.range E).flatMap (fun _ => (List.range N).map Int.ofNat)).countP p = E * shardLen N ⟨j, sc, false⟩ := by
    rw [List.countP_flatMap]
    have h2 : ((List.range N).map Int.ofNat).countP p = shardLen N ⟨j, sc, false⟩ := by
      obtain ⟨start, hs, hle', _⟩ := evenSplit_interval (n := N) (drop := false) hj
      have hint : interval (evenSplit N ⟨j, sc, false⟩) = List.range' start (shardLen N ⟨j, sc, false⟩) := by simp [interval, hs]
      rw [List.countP_map]
      have hq : ∀ a : Nat, (p ∘ Int.ofNat) a = decide (start ≤ a ∧ a < start + shardLen N ⟨j, sc, false⟩) := by
        intro a
        simp only [p, Function.comp, hint, decide_eq_decide, List.mem_map, List.mem_range'_1]
        constructor
        · rintro ⟨b, hb, hba⟩
          cases Int.ofNat_inj.1 hba
          exact hb
        · intro h; exact ⟨a, h, rfl⟩
      rw [List.countP_congr (q := fun a => decide (start ≤ a ∧ a < start + shardLen N ⟨j, sc, false⟩)) (fun a _ => by rw [hq a])]
      have hcat : List.range N = List.range' 0 start ++ (List.range' start (shardLen N ⟨j, sc, false⟩) ++
          List.range' (start + shardLen N ⟨j, sc, false⟩) (N - start - shardLen N ⟨j, sc, false⟩)) := by
        rw [List.range_eq_range']
        have a1 := List.range'_append_1 (s := start) (m := shardLen N ⟨j, sc, false⟩) (n := N - start - shardLen N ⟨j, sc, false⟩)
        rw [a1]
        have a2 := List.range'_append_1 (s := 0) (m := start) (n := shardLen N ⟨j, sc, false⟩ + (N - start - shardLen N ⟨j, sc, false⟩))
        rw [Nat.zero_add] at a2
        rw [a2]
        congr 1
        omega
      rw [hcat, List.countP_append, List.countP_append]
      rw [List.countP_eq_zero.2 (by intro a ha; simp only [List.mem_range'_1] at ha; simp; omega)]
      rw [List.countP_eq_length.2 (by intro a ha; simp only [List.mem_range'_1] at ha; simp; omega)]
      rw [List.countP_eq_zero.2 (by intro a ha; simp only [List.mem_range'_1] at ha; simp; omega)]
      simp
    simp only [Function.comp_def, h2]
    simp
  rw [hL, hR] at hcount
  obtain ⟨_, _, _, _, _, hlen, _⟩ := hk j hj
  rw [← hcount, hlen]

/-- For example 3 records, 2 shards, 2 epochs: shard 0 reads records 0, 1, 0 and shard 1 reads 2, 2, 2; record 1 appears in
one epoch only and record 2 three times. -/
theorem indexSampler_uneven_witness (keysOf : Nat → List (BitVec 32)) :
    ∃ s0 s1, indexSampler keysOf 3 (some ⟨0, 2, false⟩) false (some 2) none = .ok s0 ∧
      indexSampler keysOf 3 (some ⟨1, 2, false⟩) false (some 2) none = .ok s1 ∧
      shardKeys s0 ⟨0, 2, false⟩ 6 = some [0, 1, 0] ∧ shardKeys s1 ⟨1, 2, false⟩ 6 = some [2, 2, 2] := by
  exact ⟨_, _, rfl, rfl, rfl, rfl⟩

/-- More shards than records: shard `N` has no records but is asked for some, which raises `ZeroDivisionError`
(for every `N`, `sc` and number of epochs above 1; with one epoch the empty shards read nothing). -/
theorem indexSampler_empty_shard (keysOf : Nat → List (BitVec 32)) (N sc E : Nat) (hN : 0 < N) (hlt : N < sc) (hE : 2 ≤ E) :
    ∃ s, indexSampler keysOf N (some ⟨N, sc, false⟩) false (some (E : Int)) none = .ok s ∧ samplerSize s = .ok (E * N) ∧
      0 < samplerDsLen (E * N) ⟨N, sc, false⟩ ∧ s.get (N : Int) = .error .zeroDivision := by
  obtain ⟨s, h1, h2, h3⟩ := indexSampler_ok keysOf N hN (some ⟨N, sc, false⟩) false (some E) (by simp; omega) none (by simp) (by simp)
  have hm := indexMax_eq N E N sc hlt false
  simp only [Option.map_some, Int.ofNat_eq_natCast] at h2 h3
  rw [hm] at h2 h3
  have hEN : N < E * N := by
    have : 2 * N ≤ E * N := Nat.mul_le_mul_right _ hE
    omega
  refine ⟨s, h1, by rw [h3]; rfl, ?_, ?_⟩
  · exact lt_samplerDsLen (k := 0) hlt (by omega)
  · rw [h2, if_neg]
    · obtain ⟨start, hs, _, h4⟩ := evenSplit_interval (n := N) (drop := false) hlt
      have h5 : shardLen N ⟨N, sc, false⟩ = 0 := by
        rw [h4, Nat.div_eq_of_lt hlt, Nat.mod_eq_of_lt hlt]; simp
      rw [h5] at hs
      have hl : (rangeN N).toDs.len = N := rfl
      simp only [recordKeys, Bool.false_eq_true, if_false, recordRange, shardDs, hl, hs, pydivmod]
      simp [Bind.bind, Except.bind]
    · rintro (hc | ⟨m, hm', hc⟩)
      · omega
      · simp only [Bool.false_eq_true, if_false, Option.mem_def, Option.some.injEq] at hm'
        omega

end Grain
