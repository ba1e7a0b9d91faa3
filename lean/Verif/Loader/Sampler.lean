import Verif.Loader.Spec
import Verif.Shuffle.Props
import Verif.Sharding.Props
import Verif.Multiprocess.Props
/-
Lemmas on samplers.
-/
namespace Grain

theorem mapM_some_of_forall {f : α → Option β} {g : α → β} (l : List α) (h : ∀ a ∈ l, f a = some (g a)) :
    l.mapM f = some (l.map g) := by
  induction l with
  | nil => rfl
  | cons a l ih =>
    rw [List.mapM_cons, h a (by simp), ih (fun b hb => h b (by simp [hb]))]
    rfl

theorem mapM_range_some {f : Nat → Option β} (ys : List β) (h : ∀ i (hi : i < ys.length), f i = some ys[i]) :
    (List.range ys.length).mapM f = some ys := by
  cases ys with
  | nil => rfl
  | cons y0 ys' =>
    rw [mapM_some_of_forall (g := fun i => ((y0 :: ys')[i]?).getD y0) _ (by
      intro i hi
      have hi := List.mem_range.1 hi
      rw [h i hi, List.getElem?_eq_getElem hi]
      rfl)]
    congr 1
    apply List.ext_getElem
    · simp
    · intro i g1 g2
      simp only [List.getElem_map, List.getElem_range, List.getElem?_eq_getElem g2, Option.getD_some]

theorem readAll_eq {ds : MapDs α} (ys : List α) (hl : ys.length = ds.len)
    (h : ∀ k (hk : k < ys.length), ds.getitem (k : Int) = .ok (some ys[k])) : readAll ds = some ys := by
  unfold readAll
  rw [← hl]
  apply mapM_range_some
  intro i hi
  rw [h i hi]

theorem samplerDsLen_lt {size j sc k : Nat} {drop : Bool} (hj : j < sc) (hk : k < samplerDsLen size ⟨j, sc, drop⟩) :
    k * sc + j < size := by
  have h1 := Nat.div_add_mod size sc
  unfold samplerDsLen at hk
  dsimp only at hk
  have hmul : ∀ a b, a < b → a * sc + sc ≤ sc * b := by
    intro a b hab
    have : (a + 1) * sc ≤ b * sc := Nat.mul_le_mul_right sc hab
    rw [Nat.add_mul, Nat.mul_comm b] at this
    omega
  cases drop
  · simp only [Bool.false_eq_true, if_false] at hk
    by_cases hk' : k < size / sc
    · have := hmul _ _ hk'; omega
    · split at hk
      · have : k = size / sc := by omega
        subst this
        rw [Nat.mul_comm]; omega
      · omega
  · simp only [if_true] at hk
    have := hmul _ _ hk; omega

/-- The converse, without drop. -/
theorem lt_samplerDsLen {size j sc k : Nat} (hj : j < sc) (hk : k * sc + j < size) : k < samplerDsLen size ⟨j, sc, false⟩ := by
  have h1 := Nat.div_add_mod size sc
  have h2 := Nat.mod_lt size (show sc > 0 by omega)
  unfold samplerDsLen
  simp only [Bool.false_eq_true, if_false]
  by_contra hcon
  have h3 : size / sc * sc ≤ k * sc := Nat.mul_le_mul_right sc (by split at hcon <;> omega)
  rw [Nat.mul_comm (size / sc)] at h3
  split at hcon
  · have h4 : (size / sc + 1) * sc ≤ k * sc := Nat.mul_le_mul_right sc (by omega)
    rw [Nat.add_mul, Nat.mul_comm (size / sc)] at h4
    omega
  · omega

theorem lt_samplerDsLen_drop {size j sc k : Nat} (hj : j < sc) (hk : k * sc + j < size / sc * sc) : k < samplerDsLen size ⟨j, sc, true⟩ := by
  unfold samplerDsLen
  simp only [if_true]
  by_contra hcon
  have h3 : size / sc * sc ≤ k * sc := Nat.mul_le_mul_right sc (by omega)
  omega

/-- The part of a global sequence that all shards read together. -/
def kept (drop : Bool) (sc : Nat) (l : List α) : List α := if drop then l.take (l.length / sc * sc) else l

theorem everyNth_eq_map {sc j M : Nat} {drop : Bool} (hj : j < sc) (l : List α) (g : Nat → α) (hM : l.length = M)
    (hg : ∀ i (h : i < l.length), g i = l[i]) :
    (List.range (samplerDsLen M ⟨j, sc, drop⟩)).map (fun k => g (k * sc + j)) = everyNth sc j (kept drop sc l) := by
  apply List.ext_getElem?
  intro k
  rw [everyNth_getElem? (by omega), List.getElem?_map]
  by_cases hk : k < samplerDsLen M ⟨j, sc, drop⟩
  · have hlt := samplerDsLen_lt hj hk
    rw [List.getElem?_range hk]
    have h2 : k * sc + j < (kept drop sc l).length := by
      unfold kept
      cases drop
      · simpa [hM] using hlt
      · simp only [if_true, List.length_take, hM]
        unfold samplerDsLen at hk
        simp only [if_true] at hk
        have : (k + 1) * sc ≤ M / sc * sc := Nat.mul_le_mul_right sc hk
        rw [Nat.add_mul] at this
        omega
    rw [List.getElem?_eq_getElem h2]
    simp only [Option.map_some, Option.some.injEq]
    rw [hg _ (by omega)]
    unfold kept
    cases drop
    · simp
    · simp [List.getElem_take]
  · have h1 : ((List.range (samplerDsLen M ⟨j, sc, drop⟩))[k]?) = none := by
      rw [List.getElem?_eq_none_iff, List.length_range]; omega
    have h2 : (kept drop sc l)[k * sc + j]? = none := by
      rw [List.getElem?_eq_none_iff]
      unfold kept
      cases drop
      · simp only [Bool.false_eq_true, if_false]
        by_contra hc
        exact hk (lt_samplerDsLen hj (by omega))
      · simp only [if_true, List.length_take, hM]
        by_contra hc
        exact hk (lt_samplerDsLen_drop hj (by omega))
    rw [h1, h2]
    rfl

/-- The records read by a shard of a data loader. -/
theorem samplerDs_reads {src : MapDs V} {s : Sampler} {sc j M : Nat} {drop : Bool} (hj : j < sc) (rs : List (Rec (Option V)))
    (hM : rs.length = M) (hr : ∀ i (h : i < rs.length), s.get (i : Int) = .ok rs[i].md ∧
      ∃ k, rs[i].md.key = some k ∧ src.getitem k = .ok rs[i].data) :
    (everyNth sc j (kept drop sc rs)).length = (samplerDs src s ⟨j, sc, drop⟩ M).len ∧
    ∀ k (hk : k < (everyNth sc j (kept drop sc rs)).length),
      (samplerDs src s ⟨j, sc, drop⟩ M).getitem (k : Int) = .ok (some (everyNth sc j (kept drop sc rs))[k]) := by
  have h1 := everyNth_eq_map (drop := drop) hj (rs.map some) (fun i => rs[i]?) (by simpa using hM) (by intro i h; simp)
  have h2 : kept drop sc (rs.map some) = (kept drop sc rs).map some := by
    unfold kept
    cases drop
    · rfl
    · simp [List.map_take]
  rw [h2, everyNth_map] at h1
  have hlen : (everyNth sc j (kept drop sc rs)).length = samplerDsLen M ⟨j, sc, drop⟩ := by
    have := congrArg List.length h1
    simpa using this.symm
  refine ⟨hlen, ?_⟩
  intro k hk
  have hk' := hk
  rw [hlen] at hk
  have hlt := samplerDsLen_lt hj hk
  have h3 := congrArg (fun l => l[k]?) h1
  simp only [List.getElem?_map, List.getElem?_range hk, Option.map_some, List.getElem?_eq_getElem hk',
    List.getElem?_eq_getElem (show k * sc + j < rs.length by omega), Option.some.injEq] at h3
  obtain ⟨g1, kk, g2, g3⟩ := hr (k * sc + j) (by omega)
  have hi : ((k : Int) * (sc : Int) + (j : Int)) = ((k * sc + j : Nat) : Int) := by push_cast; rfl
  simp only [samplerDs, hi, g1, g2, g3, Bind.bind, Except.bind]
  rw [← h3]

theorem shardKeys_eq {s : Sampler} {o : ShardOptions} {M : Nat} (g : Nat → Int)
    (h : ∀ k, k < samplerDsLen M o → ∃ m, s.get ((k : Int) * (o.shardCount : Int) + (o.shardIndex : Int)) = .ok m ∧ m.key = some (g k)) :
    shardKeys s o M = some ((List.range (samplerDsLen M o)).map g) := by
  unfold shardKeys
  apply mapM_some_of_forall
  intro k hk
  obtain ⟨m, h1, h2⟩ := h k (List.mem_range.1 hk)
  simp only [h1, h2]

/-! ### The keys of `IndexSampler` -/

/-- The range `[0, N)` as the sampler builds it. -/
theorem range_make (N : Nat) : RangeDs.make (N : Int) none 1 =
    .ok { start := 0, stop := N, step := 1, originalStart := 0, originalLen := N, length := N } := by
  have : rangeLen 0 (N : Int) 1 = N := by
    unfold rangeLen
    simp only [show (1 : Int) > 0 by omega, if_true]
    split <;> omega
  simp only [RangeDs.make, this]
  simp

def rangeN (N : Nat) : RangeDs := { start := 0, stop := N, step := 1, originalStart := 0, originalLen := N, length := N }

theorem rangeN_get (N : Nat) (q : Int) (i : Nat) (hi : i < N) : (rangeN N).toDs.getitem (q * (N : Int) + (i : Int)) = .ok (some (i : Int)) := by
  have h := emod_mul_add q N i hi
  simp only [RangeDs.toDs, RangeDs.getitem, rangeN, pymod, if_neg (show ¬ N = 0 by omega), Bind.bind, Except.bind, h]
  simp

/-- Keys of one epoch, without shuffling. -/
theorem baseKeys_get (N : Nat) (o : Option ShardOptions) (start len : Nat)
    (h : match o with | none => start = 0 ∧ len = N | some o => evenSplit N o = (start, start + len)) (hle : start + len ≤ N)
    (e : Int) (i : Nat) (hi : i < len) :
    (recordRange (rangeN N) o).getitem (e * (len : Int) + (i : Int)) =
      .ok (some ((start + i : Nat) : Int)) := by
  cases o with
  | none =>
    obtain ⟨h1, h2⟩ := h
    subst h1 h2
    simpa [recordRange] using rangeN_get len e i hi
  | some o =>
    dsimp only [recordRange] at h ⊢
    have hl : (rangeN N).toDs.len = N := rfl
    simp only [shardDs, hl, h, show start + len - start = len by omega, pydivmod, if_neg (show ¬ len = 0 by omega), Bind.bind,
      Except.bind, ediv_mul_add e len i hi, emod_mul_add e len i hi]
    have : e * (N : Int) + (i : Int) + (start : Int) = e * (N : Int) + ((start + i : Nat) : Int) := by push_cast; omega
    rw [this]
    exact rangeN_get N e (start + i) (by omega)

theorem baseKeys_len (N : Nat) (o : Option ShardOptions) (start len : Nat)
    (h : match o with | none => start = 0 ∧ len = N | some o => evenSplit N o = (start, start + len)) :
    (recordRange (rangeN N) o).len = len := by
  cases o with
  | none => exact h.2.symm
  | some o =>
    dsimp only [recordRange] at h ⊢
    have hl : (rangeN N).toDs.len = N := rfl
    simp only [shardDs, hl, h]
    omega

/-- Each epoch of the keys is a rearrangement of the shard's interval; without shuffling it is the interval. -/
theorem recordKeys_epoch (keysOf : Nat → List (BitVec 32)) (N : Nat) (o : Option ShardOptions) (shuffle : Bool) (seed start len : Nat)
    (h : match o with | none => start = 0 ∧ len = N | some o => evenSplit N o = (start, start + len)) (hle : start + len ≤ N)
    (hlen : 0 < len) (hsh : shuffle = true → len ≤ 2 ^ 64 ∧ ¬ BadLength len) (e : Int) :
    ∃ ks : List Nat, ks.Perm (List.range' start len) ∧ (shuffle = false → ks = List.range' start len) ∧
      ∀ i (hi : i < len) (hi' : i < ks.length),
        (recordKeys keysOf (rangeN N) o shuffle seed).getitem (e * (len : Int) + (i : Int)) = .ok (some (ks[i] : Int)) := by
  unfold recordKeys
  have hb := baseKeys_get N o start len h hle
  have hl := baseKeys_len N o start len h
  cases shuffle with
  | false =>
    refine ⟨List.range' start len, List.Perm.refl _, fun _ => rfl, ?_⟩
    intro i hi hi'
    simp only [Bool.false_eq_true, if_false]
    rw [hb e i hi, List.getElem_range']
    simp
  | true =>
    obtain ⟨h64, hbad⟩ := hsh rfl
    obtain ⟨idx, g1, g2⟩ := shuffledIndex_epoch_perm_partial keysOf seed len e hlen h64 hbad
    -- the permutation within the epoch
    have hidx : ∀ x ∈ idx, ∃ i, i < len ∧ x = e * (len : Int) + ((i : Nat) : Int) := by
      intro x hx
      obtain ⟨i, hi, rfl⟩ := List.mem_map.1 (g2.mem_iff.1 hx)
      exact ⟨i, List.mem_range.1 hi, rfl⟩
    let f : Int → Nat := fun x => start + (x - e * (len : Int)).toNat
    have hf : ∀ i : Nat, f (e * (len : Int) + (i : Int)) = start + i := by
      intro i
      simp only [f]
      congr 1
      omega
    refine ⟨idx.map f, ?_, by simp, ?_⟩
    · have := g2.map f
      rw [List.map_map] at this
      refine this.trans (List.Perm.of_eq ?_)
      rw [List.range'_eq_map_range]
      apply List.map_congr_left
      intro i _
      exact hf i
    · intro i hi hi'
      simp only [if_true]
      have hlx : idx.length = len := by simpa using g2.length_eq
      have hget : shuffledIndex keysOf seed len (e * (len : Int) + (i : Int)) = .ok (idx[i]'(by omega)) := by
        have key : ∀ (l : List Nat) (ys : List Int) (F : Nat → Py Int), l.mapM F = .ok ys → ∀ i (h1 : i < l.length) (h2 : i < ys.length), F l[i] = .ok ys[i] := by
          intro l
          induction l with
          | nil => intro ys F _ i h1; simp at h1
          | cons a l ih =>
            intro ys F hm i h1 h2
            rw [List.mapM_cons] at hm
            cases hFa : F a with
            | error e => rw [hFa] at hm; cases hm
            | ok b =>
              rw [hFa] at hm
              cases hml : l.mapM F with
              | error e => rw [hml] at hm; cases hm
              | ok bs =>
                rw [hml] at hm
                cases hm
                cases i with
                | zero => simpa using hFa
                | succ i => simpa using ih bs F hml i (by simpa using h1) (by simpa using h2)
        have := key _ _ _ g1 i (by simpa using hi) (by omega)
        simpa using this
      obtain ⟨i', hi1, hi2⟩ := hidx (idx[i]'(by omega)) (List.getElem_mem _)
      simp only [shuffleDs, hl, hget, Bind.bind, Except.bind]
      rw [List.getElem_map, hi2, hb e i' hi1, hf i']

end Grain
