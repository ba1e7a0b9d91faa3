import Verif.Loader.Sampler
import Verif.Loader.Search
/-
Properties C40 (samplers) and C42 (size of a sampler).
-/
namespace Grain

/-! ### C42 -/

/-- C42.  A sampler without `__len__` that accepts exactly the indices `0 .. n-1` (anything else raises `IndexError`) has
the size `n`; sizes above `sys.maxsize` are cut to it. -/
theorem samplerSize_probed (s : Sampler) (n : Nat) (hlen : s.len = none)
    (hok : ∀ i : Nat, i < n → ∃ m, s.get (i : Int) = .ok m) (hend : ∀ i : Nat, n ≤ i → s.get (i : Int) = .error .indexError) :
    samplerSize s = .ok (min n maxsize) := by
  unfold samplerSize
  rw [hlen]
  exact samplerSearch_found hok hend 0 maxsize (by omega)

/-- C42: with `__len__` it is taken as it is. -/
theorem samplerSize_len (s : Sampler) (n : Nat) (hlen : s.len = some n) : samplerSize s = .ok n := by
  unfold samplerSize
  rw [hlen]

/-- A sampler that fails with another exception: the exception reaches the user. -/
theorem samplerSize_raises (s : Sampler) (e : Err) (he : e ≠ .indexError) (hlen : s.len = none)
    (hget : ∀ i : Nat, s.get (i : Int) = .error e) : samplerSize s = .error e := by
  unfold samplerSize
  rw [hlen]
  exact samplerSearch_raises he 0 maxsize hget (by decide)

/-- A sampler of 10^15 records without `__len__`. -/
def bigSampler : Sampler where
  get i := if i < 0 ∨ i ≥ 10 ^ 15 then .error .indexError else .ok ⟨i, some i, none⟩
  len := none

example : samplerSize bigSampler = .ok (10 ^ 15) := by
  rw [samplerSize_probed bigSampler (10 ^ 15) rfl]
  · rfl
  · intro i hi; exact ⟨_, by simp only [bigSampler]; rw [if_neg (by omega)]⟩
  · intro i hi; simp only [bigSampler]; rw [if_pos (by omega)]

/-! ### C40: `SequentialSampler` -/

/-- C40: the constructor rejects exactly the record counts below 1. -/
theorem sequential_rejects (n : Int) (o : ShardOptions) (seed : Option Int) :
    n ≤ 0 ↔ ∃ e, sequentialSampler n o seed = .error e := by
  unfold sequentialSampler
  constructor
  · intro h; exact ⟨_, by rw [if_pos h]⟩
  · rintro ⟨e, h⟩
    by_contra hc
    rw [if_neg hc] at h
    cases h

/-- C40.  The sampler has `size = n` entries (`n / sc * sc` with `drop_remainder`); index `i` is record `i` with the random
key `seed + i`; all other indices raise `IndexError`; the size the loader uses is `size`. -/
theorem sequential_entries (n : Nat) (hn : 0 < n) (o : ShardOptions) (seed : Option Int) :
    ∃ s, sequentialSampler n o seed = .ok s ∧
      samplerSize s = .ok (if o.dropRemainder then n / o.shardCount * o.shardCount else n) ∧
      (∀ i : Nat, i < (if o.dropRemainder then n / o.shardCount * o.shardCount else n) →
        s.get (i : Int) = .ok ⟨(i : Int), some (i : Int), seed.map (· + (i : Int))⟩) ∧
      (∀ i : Int, i < 0 ∨ i ≥ ((if o.dropRemainder then n / o.shardCount * o.shardCount else n : Nat) : Int) →
        s.get i = .error .indexError) := by
  have hm : (if o.dropRemainder then (n : Int) / (o.shardCount : Int) * (o.shardCount : Int) else (n : Int)) =
      ((if o.dropRemainder then n / o.shardCount * o.shardCount else n : Nat) : Int) := by
    cases o.dropRemainder <;> simp
  refine ⟨_, by unfold sequentialSampler; rw [if_neg (by omega)], ?_, ?_, ?_⟩
  · simp only [samplerSize, hm, Int.toNat_natCast]
  · intro i hi
    simp only [hm]
    rw [if_neg (by omega)]
  · intro i hi
    simp only [hm]
    rw [if_pos hi]

/-- C40.  Reading a source through `SequentialSampler` on shard `j` of `sc`: every `sc`-th record from `j` on, of the first
`n / sc * sc` records with `drop_remainder`, of all records without; each with its global index and random key. -/
theorem sequential_shard_reads (src : MapDs V) (ds : List (Option V)) (hds : 0 < ds.length)
    (hsrc : ∀ i (h : i < ds.length), src.getitem (i : Int) = .ok ds[i]) (j sc : Nat) (hj : j < sc) (drop : Bool) (seed : Option Int) :
    ∃ s size, sequentialSampler ds.length ⟨j, sc, drop⟩ seed = .ok s ∧ samplerSize s = .ok size ∧
      readAll (samplerDs src s ⟨j, sc, drop⟩ size) =
        some (everyNth sc j ((if drop then ds.take (ds.length / sc * sc) else ds).mapIdx
          (fun i d => (⟨⟨(i : Int), some (i : Int), seed.map (· + (i : Int))⟩, d⟩ : Rec (Option V))))) := by
  obtain ⟨s, h1, h2, h3, _⟩ := sequential_entries ds.length hds ⟨j, sc, drop⟩ seed
  refine ⟨s, _, h1, h2, ?_⟩
  dsimp only at h3 ⊢
  have hle : ds.length / sc * sc ≤ ds.length := Nat.div_mul_le_self _ _
  generalize hrs : (if drop then ds.take (ds.length / sc * sc) else ds).mapIdx
          (fun i d => (⟨⟨(i : Int), some (i : Int), seed.map (· + (i : Int))⟩, d⟩ : Rec (Option V))) = rs
  have hlen : rs.length = (if drop then ds.length / sc * sc else ds.length) := by
    rw [← hrs, List.length_mapIdx]
    cases drop
    · rfl
    · simp only [if_true, List.length_take]; omega
  have hk : kept drop sc rs = rs := by
    unfold kept
    cases drop
    · rfl
    · simp only [if_true] at hlen ⊢
      rw [hlen, Nat.mul_div_cancel _ (by omega), List.take_of_length_le (by omega)]
  have hr := samplerDs_reads (src := src) (s := s) (drop := drop) hj rs hlen (by
    intro i h
    subst hrs
    have hi : i < ds.length := by
      rw [List.length_mapIdx] at h
      cases drop
      · exact h
      · simp only [if_true, List.length_take] at h; omega
    rw [h3 i (by rw [← hlen]; exact h)]
    refine ⟨by simp, i, by simp, ?_⟩
    rw [hsrc i hi]
    congr 1
    simp only [List.getElem_mapIdx]
    cases drop
    · rfl
    · simp)
  rw [hk] at hr
  exact readAll_eq _ hr.1 hr.2

/-- C40.  All shards together read every record of the source exactly once, except the remainder when it is dropped
(fewer than `sc` records, the last ones). -/
theorem sequential_exactly_once (src : MapDs V) (ds : List (Option V)) (hds : 0 < ds.length)
    (hsrc : ∀ i (h : i < ds.length), src.getitem (i : Int) = .ok ds[i]) (sc : Nat) (hsc : 0 < sc) (drop : Bool) (seed : Option Int) :
    ∃ reads : Nat → List (Rec (Option V)),
      (∀ j, j < sc → ∃ s size, sequentialSampler ds.length ⟨j, sc, drop⟩ seed = .ok s ∧ samplerSize s = .ok size ∧
        readAll (samplerDs src s ⟨j, sc, drop⟩ size) = some (reads j)) ∧
      ((List.range sc).flatMap (fun j => (reads j).map (fun r => (r.md.index, r.data)))).Perm
        ((if drop then ds.take (ds.length / sc * sc) else ds).mapIdx (fun (i : Nat) d => ((i : Int), d))) ∧
      (drop = true → ds.length - ds.length / sc * sc < sc) ∧
      (∀ j, j < sc → ∀ r ∈ reads j, r.md.index % (sc : Int) = (j : Int)) := by
  refine ⟨fun j => everyNth sc j ((if drop then ds.take (ds.length / sc * sc) else ds).mapIdx
          (fun i d => (⟨⟨(i : Int), some (i : Int), seed.map (· + (i : Int))⟩, d⟩ : Rec (Option V)))), ?_, ?_, ?_, ?_⟩
  · intro j hj
    exact sequential_shard_reads src ds hds hsrc j sc hj drop seed
  · simp only [← everyNth_map]
    have := everyNth_perm hsc (((if drop then ds.take (ds.length / sc * sc) else ds).mapIdx
          (fun i d => (⟨⟨(i : Int), some (i : Int), seed.map (· + (i : Int))⟩, d⟩ : Rec (Option V)))).map (fun r => (r.md.index, r.data)))
    refine this.trans (List.Perm.of_eq ?_)
    apply List.ext_getElem?
    intro i
    simp only [List.getElem?_map, List.getElem?_mapIdx, Option.map_map]
    rfl
  · intro _
    have h1 := Nat.div_add_mod ds.length sc
    have h2 := Nat.mod_lt ds.length hsc
    rw [Nat.mul_comm] at h1
    omega
  · intro j hj r hr
    obtain ⟨k, hk⟩ := List.getElem?_of_mem hr
    rw [everyNth_getElem? hsc, List.getElem?_mapIdx] at hk
    obtain ⟨d, _, rfl⟩ := Option.map_eq_some_iff.1 hk
    dsimp only
    push_cast
    rw [Int.mul_comm, Int.mul_add_emod_self_left]
    exact Int.emod_eq_of_lt (by omega) (by omega)

/-- Five records, two shards: `[a, c, e]` and `[b, d]`; with `drop_remainder` `[a, c]` and `[b, d]`. -/
example : (readAll (samplerDs (listSource ["a", "b", "c", "d", "e"])
    ((sequentialSampler 5 ⟨0, 2, false⟩ (some 7)).toOption.get rfl) ⟨0, 2, false⟩ 5)).map (·.map (fun r => (r.md.index, r.data))) =
    some [(0, some "a"), (2, some "c"), (4, some "e")] := by rfl

end Grain
